import Verif.Sched.Sorter

/-!
# C93: what a topological sorter is for

A graph is a list of nodes with what they need.  `Record` says which nodes were handed out and which were reported done.
-/

namespace Verif.Spec.Sorter

open Verif.Sched

/-- `n` occurs in the graph. -/
def IsNode (g : List (Bytes × List Bytes)) (n : Bytes) : Prop := ∃ p ∈ g, p.1 = n ∨ n ∈ p.2

/-- `n` needs `m`. -/
def Needs (g : List (Bytes × List Bytes)) (n m : Bytes) : Prop := ∃ p ∈ g, p.1 = n ∧ m ∈ p.2

/-- `n` needs `m`, at least in the end. -/
inductive Above (g : List (Bytes × List Bytes)) : Bytes → Bytes → Prop where
  | one {n m : Bytes} : Needs g n m → Above g n m
  | more {n x m : Bytes} : Needs g n x → Above g x m → Above g n m

/-- What was handed out, in order, and what was reported done. -/
structure Record where
  handed : List Bytes
  done : List Bytes

/-- `n` is to be handed out. -/
def Free (g : List (Bytes × List Bytes)) (r : Record) (n : Bytes) : Prop := IsNode g n ∧ n ∉ r.handed ∧ ∀ m, Needs g n m → m ∈ r.done

/-- A sorter in use. -/
inductive Uses (g : List (Bytes × List Bytes)) : Record → Sorter → Prop where
  | start {s : Sorter} : (Sorter.build g).prepare = .ok s → Uses g ⟨[], []⟩ s
  | ready {r : Record} {s : Sorter} : Uses g r s → Uses g ⟨r.handed ++ s.getReady.1, r.done⟩ s.getReady.2
  | done {r : Record} {s s' : Sorter} (n : Bytes) : Uses g r s → s.done n = .ok s' → Uses g ⟨r.handed, n :: r.done⟩ s'

end Verif.Spec.Sorter
