import Verif.Client.Memo

/-!
# C100: which function is sent
-/

namespace Verif.Spec.Memo

open Verif.Wire Verif.Client

variable {κ : Type}

/-- The function can be a key of a dictionary, and can be pickled. -/
def Usable (u : Use κ) : Prop := u.hashable = true ∧ u.pickled.isSome = true

/-- `v` is the function of the first call with one that is equal to `u` and can be used. -/
def First (l : List (Use κ)) (u v : Use κ) : Prop :=
  ∃ before after, l = before ++ v :: after ∧ v.key = u.key ∧ Usable v ∧ ∀ w ∈ before, w.key = u.key → ¬ Usable w

/-- What is sent for the function `u` as it is: id, name and pickled function. -/
def Sends (p : Pickle) (u : Use κ) (r : Bytes × Bytes × Bytes) : Prop :=
  ∃ b, u.pickled = some b ∧ r = (p.hash b, u.name, b)

/-- Functions that are equal are the same function: the same name, the same bytes. -/
def Unchanged (l : List (Use κ)) : Prop := ∀ u ∈ l, ∀ v ∈ l, u.key = v.key → u.hashable = v.hashable ∧ u.pickled = v.pickled ∧ u.name = v.name

/-- The functions of a graph. -/
def usesOf : List (Bytes × FunctionNode κ) → List (Use κ)
  | [] => []
  | (_, .data _) :: l => usesOf l
  | (_, .call u _) :: l => u :: usesOf l

/-- The graph as it is: every call with the name and the bytes of its function. -/
inductive AsIs : List (Bytes × FunctionNode κ) → List (Bytes × UserNode) → Prop where
  | nil : AsIs [] []
  | data (n b : Bytes) {l r} (h : AsIs l r) : AsIs ((n, .data b) :: l) ((n, .data b) :: r)
  | call (n : Bytes) (u : Use κ) (b : Bytes) (args : List Bytes) {l r} (hb : u.pickled = some b) (h : AsIs l r) :
      AsIs ((n, .call u args) :: l) ((n, .call u.name b args) :: r)

end Verif.Spec.Memo
