import Verif.Spec.Sched

/-!
# What a graph of tasks means

The value of a graph, and the arguments a node should be started with, in terms of the graph message alone.
-/

namespace Verif.Spec

open Verif.Wire

/-- A successful result of `t` with content `r` was received. -/
def Succeeded (l : Log) (t r : Bytes) : Prop := ∃ w d, (w, .taskResult t .success d r) ∈ l

/-- `given` are the declared arguments, in order, with every reference to a node replaced by a received
result of this node. -/
inductive Filled (l : Log) : (declared given : List Argument) → Prop
  | nil : Filled l [] []
  | data {v as bs} : Filled l as bs → Filled l (⟨.data, v⟩ :: as) (⟨.data, v⟩ :: bs)
  | node {t r as bs} : Succeeded l t r → Filled l as bs → Filled l (⟨.task, t⟩ :: as) (⟨.data, r⟩ :: bs)

/-- Value of an argument, where `v` gives the values of nodes. -/
def argValue (v : Bytes → Option Bytes) (a : Argument) : Option Bytes :=
  match a.type with
  | .data => some a.data
  | .task => v a.data

/-- Value of the node `t`, where `F f xs` is the value of the function `f` on `xs`; `none` if `n` is smaller
than the depth of the node or an id is not that of a node. -/
def evalNode (g : GraphTask) (F : Bytes → List Bytes → Bytes) : Nat → Bytes → Option Bytes
  | 0, _ => none
  | n + 1, t =>
    match g.graph.find? fun T => T.taskId = t with
    | none => none
    | some T => (T.args.mapM (argValue (evalNode g F n))).map (F T.functionId)

/-- `vs` are the values of the requested targets. -/
def GraphValue (g : GraphTask) (F : Bytes → List Bytes → Bytes) (vs : List Bytes) : Prop :=
  ∃ depth, ∀ n, depth ≤ n → g.targets.map (evalNode g F n) = vs.map some

/-- Whoever reports success of a node reports the value of the function on the arguments it was sent. -/
def HonestNodes (F : Bytes → List Bytes → Bytes) (received sent : Log) : Prop :=
  ∀ t r, InGraph received t → Succeeded received t r →
    ∃ w k, (w, .task k) ∈ sent ∧ k.taskId = t ∧ r = F k.functionId (k.args.map (·.data))

end Verif.Spec
