import Verif.Worker.Scan

/-!
# What the cleaner's look at the cached functions should give

The times of use are a function from function ids; what the main thread does to them is said here again, without
entries, holes and positions.
-/

namespace Verif.Spec

open Verif.Scan (Look)

/-- when each cached function was last used -/
abbrev Uses := Bytes → Option Int

/-- what one thing that happens does to the times of use -/
def Uses.after (u : Uses) : Look.Op → Uses
  | .stamp fid now => fun k => if k = fid then some now else u k
  | .pop fid => fun k => if k = fid then none else u k
  | .next => u

/-- the times of use after several things -/
def Uses.afterAll (u : Uses) (ops : List Look.Op) : Uses := ops.foldl Uses.after u

/-- the function was last used more than the retention time before `now` -/
def IdleFunction (u : Uses) (now retention : Int) (fid : Bytes) : Prop := ∃ s, u fid = some s ∧ now - s > retention

/-- No function comes or goes: only functions that are there are stamped, and not with a time before `now`; none that
is there is deleted. -/
def NoneComesOrGoes (u : Uses) (now : Int) (ops : List Look.Op) : Prop :=
  ∀ o ∈ ops, match o with
    | .stamp fid s => (u fid).isSome ∧ now ≤ s
    | .pop fid => u fid = none
    | .next => True

/-- how often the cleaner went on -/
def nexts (ops : List Look.Op) : Nat := ops.countP (· = .next)

end Verif.Spec
