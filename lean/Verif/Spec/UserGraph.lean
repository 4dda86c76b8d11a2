import Verif.Client.Graph
import Verif.Spec.Graph

/-!
# What the user's graph means
-/

namespace Verif.Spec

open Verif.Wire Verif.Client

/-- The names of calls. -/
def IsCall (g : Dict Bytes UserNode) (x : Bytes) : Prop := ∃ nm c as, g.get? x = some (.call nm c as)

/-- `x` is a call that needs `a`. -/
def Needs (g : Dict Bytes UserNode) (x a : Bytes) : Prop := ∃ nm c as, g.get? x = some (.call nm c as) ∧ a ∈ as

/-- `a` is needed for `x`, directly or not. -/
inductive Trail (g : Dict Bytes UserNode) : Bytes → Bytes → Prop where
  | one {x a} : Needs g x a → Trail g x a
  | more {x y a} : Needs g x y → Trail g y a → Trail g x a

/-- A node is needed for itself. -/
def Cyclic (g : Dict Bytes UserNode) : Prop := ∃ x, Trail g x x

/-- The value of a node, where `F c xs` is the value of the function with pickled form `c` on `xs`; `none` if `n` is
smaller than the depth of the node or a name is not defined. -/
def userEval (g : Dict Bytes UserNode) (F : Bytes → List Bytes → Bytes) : Nat → Bytes → Option Bytes
  | 0, x =>
    match g.get? x with
    | some (.data b) => some b
    | _ => none
  | n + 1, x =>
    match g.get? x with
    | some (.data b) => some b
    | some (.call _ c as) => (as.mapM (userEval g F n)).map (F c)
    | none => none

/-- `v` is the value of node `x`. -/
def UserValue (g : Dict Bytes UserNode) (F : Bytes → List Bytes → Bytes) (x v : Bytes) : Prop := ∃ n, userEval g F n x = some v

/-- The keys in their order, each at its first place only. -/
def differentKeys (keys : List Bytes) : List Bytes := keys.foldl (fun l k => if k ∈ l then l else l ++ [k]) []

/-- What `get(graph, keys)` gives for `key` is the value of `key'`: of the places of `key` in the list of keys, as far as there are
different keys, `i` is the last, and at that place of the different keys is `key'`. -/
def Stands (keys : List Bytes) (key key' : Bytes) : Prop :=
  ∃ i : Nat, keys[i]? = some key ∧ (∀ j, i < j → j < (differentKeys keys).length → keys[j]? ≠ some key) ∧ (differentKeys keys)[i]? = some key'

end Verif.Spec
