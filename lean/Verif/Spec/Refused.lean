import Verif.Client.Refused

/-!
# C110: what a client looks like after tasks were submitted
-/

namespace Verif.Spec

open Verif Verif.Client Verif.Wire

/-- From `c` to `c'` the client took on the tasks `ts`, in this order, and did nothing else: every one has an entry in the table of
tasks and a new future that is pending, and the client was not disconnected. -/
structure TookOn (c c' : Client) (ts : List Bytes) : Prop where
  futures : c'.futures = c.futures ++ List.replicate ts.length .pending
  tasks : ∀ t, c'.toTask.has t = (c.toTask.has t || ts.contains t)
  waiting : ∀ t, c'.toFuture.has t = (c.toFuture.has t || ts.contains t)
  graphs : c'.graphs = c.graphs
  stop : c'.stop = c.stop
  closed : c'.closed = c.closed
  /-- nothing but requests to store functions was put in the queue -/
  sent : ∃ ms, c'.outbox = c.outbox ++ ms ∧ ∀ m ∈ ms, ∃ i n b, m = .functionRequest .add i n b

/-- The nodes of a graph and what is sent for them: the same names in the same order, values pickled, functions with a name and bytes
that the client remembers for them or has just pickled. -/
inductive WrittenNodes {κ V : Type} [DecidableEq κ] (p : Pickle) (dumps : V → Option Bytes) :
    List (Bytes × ValueNode κ V) → List (Bytes × UserNode) → Prop where
  | nil : WrittenNodes p dumps [] []
  | data {n b : Bytes} {v : V} {l r} : dumps v = some b → WrittenNodes p dumps l r → WrittenNodes p dumps ((n, .data v) :: l) ((n, .data b) :: r)
  | call {n i name content : Bytes} {u : Use κ} {args : List Bytes} {m m' : Memo κ} {l r} : getFunctionId p m u = .ok ((i, name, content), m') →
      WrittenNodes p dumps l r → WrittenNodes p dumps ((n, .call u args) :: l) ((n, .call name content args) :: r)

end Verif.Spec
