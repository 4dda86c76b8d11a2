import Verif.System.System
import Verif.Spec.Processor
import Verif.Spec.UserGraph

/-!
# What users of a system may expect
-/

namespace Verif.Spec

open Verif.Wire Verif.Client Verif.System

variable {F V X : Type}

/-- Some user passed this function, by its pickled form, to `submit` or `get`. -/
def Passed (s : Sys F) (b : Bytes) : Prop :=
  (∃ x c k nm, s.peers x = .client c ∧ Act.submitted k nm b ∈ c.log) ∨
    ∃ call ∈ s.gets, ∃ y nm as, call.graph.get? y = some (.call nm b as)

/-- Different functions of users have different hashes. -/
def NoCollision (p : Pickle) (s : Sys F) : Prop := ∀ b b', Passed s b → Passed s b' → p.hash b = p.hash b' → b = b'

/-- What a call returns depends on function and arguments only: `value b xs` for the function with pickled form `b`
and the arguments with pickled forms `xs`. -/
def Deterministic (rt : Proc.Runtime F V X) (value : Bytes → List Bytes → Bytes) : Prop :=
  ∀ b f args r, rt.loadFn b = .ok f → Processor.Returns rt f args r → r = value b (args.map (·.data))

end Verif.Spec
