import Verif.System.System
import Verif.Spec.Prompt
import Verif.Spec.Settle
import Verif.Spec.UserGraph

/-!
# C97: systems in which everything goes as it should
-/

namespace Verif.Spec

open Verif.Wire Verif.System

variable {F V X : Type}

/-- The messages that a client received, oldest first. -/
def mailIn (l : List Client.Act) : List Message := l.filterMap fun x => match x with | .recv m => some m | _ => none

/-- The messages sent to `x`, oldest first. -/
def letters (x : Bytes) (l : List (Bytes × Message)) : List Message := l.filterMap fun y => if y.1 = x then some y.2 else none

/-- A graph with calls, whose sizes fit into the messages, whose functions can be loaded, and in which no call names another
call twice. -/
structure MildGraph (rt : Proc.Runtime F V X) (g : Dict Bytes Client.UserNode) (keys : List Bytes) : Prop where
  call : ∃ x, IsCall g x
  size : g.items.length < 2 ^ 32 ∧ keys.length < 2 ^ 32
  node : ∀ x nm b as, g.get? x = some (.call nm b as) →
    2 + 2 * as.length < 2 ^ 32 ∧ (∃ f, rt.loadFn b = .ok f) ∧ ∀ y, IsCall g y → as.count y ≤ 1

/-- What may happen while everything goes as it should.  Users submit tasks whose functions can be loaded and ask for graphs
as above; they cancel nothing, and clients stay.  A client handles messages when its user is not inside `submit` or `get`, in
the order in which they were sent.  Workers stay, and when the scheduler looks for workers that are late, nobody is
(/repo/scaled/scheduler/worker_manager.py lines 137-149).  No node of a graph fails. -/
def Mild (rt : Proc.Runtime F V X) (s : Sys F) : System.Op → Prop
  | .joinClient _ => True
  | .joinWorker _ _ _ _ => True
  | .sched e => (e.op = .workerRoutine → ∀ w v, s.sched.wm.alive.get? w = some v → e.now - v.1 ≤ s.sched.cfg.workerTimeout) ∧
    ∀ x t d r, e.op = .recv x (.taskResult t .failed d r) → ¬ InGraph s.received t
  | .client x (.recv m) => ∀ c, s.peers x = .client c → c.user = .idle ∧ (mailIn c.log ++ [m]) <+: letters x s.sched.out
  | .client _ (.submit _ _ b _) => ∃ f, rt.loadFn b = .ok f
  | .client _ (.get _) => False
  | .client _ (.cancel _) => False
  | .client _ .disconnect => False
  | .client _ .exit => False
  | .client _ _ => True
  | .get _ _ _ g keys => MildGraph rt g keys
  | .agent _ _ => True
  | .proc _ _ _ => True
  | .leave _ => False

/-- What the scheduler does at an event. -/
def schedPart : System.Op → List Sched.Event
  | .sched e => [e]
  | _ => []

/-- The runs in which only such events happen and the scheduler's task routine gets its turns; `es` are the events of the scheduler. -/
inductive Orderly (p : Client.Pickle) (rt : Proc.Runtime F V X) (cfg : Sched.Config) : List Sched.Event → Sys F → Prop where
  | init : Orderly p rt cfg [] (Sys.init cfg)
  | step {es : List Sched.Event} {s s' : Sys F} (o : System.Op) (h : Orderly p rt cfg es s) (hs : s.step p rt o = some s') (hm : Mild rt s o)
      (hp : Prompt (es ++ schedPart o)) : Orderly p rt cfg (es ++ schedPart o) s'

/-- Such a run goes on with inner events. -/
inductive Continues (p : Client.Pickle) (rt : Proc.Runtime F V X) : List Sched.Event → Sys F → List Sched.Event → Sys F → Prop where
  | refl (es : List Sched.Event) (s : Sys F) : Continues p rt es s es s
  | step {es es' : List Sched.Event} {s s' s'' : Sys F} (o : System.Op) (hi : inner o = true) (hs : s.step p rt o = some s') (hm : Mild rt s o)
      (hp : Prompt (es ++ schedPart o)) (h : Continues p rt (es ++ schedPart o) s' es' s'') : Continues p rt es s es' s''

/-- No worker says that a node of a graph failed. -/
def NodesReturn (s : Sys F) : Prop := ∀ x t d r, 0 < (s.peers x).sent (.taskResult t .failed d r) → ¬ InGraph s.received t

/-- `t` belongs to a graph that a user asked for. -/
def AskedFor (s : Sys F) (t : Bytes) : Prop := ∃ k ∈ s.gets, t ∈ graphIds k.message

/-- The functions of the graphs return values that can be pickled, and the arguments can be loaded: those in the graphs and
what was pickled. -/
structure GraphsReturn (rt : Proc.Runtime F V X) (s : Sys F) : Prop where
  data : ∀ k ∈ s.gets, ∀ x b, k.graph.get? x = some (.data b) → ∃ v, rt.loadArg b = .ok v
  result : ∀ v r, rt.dump v = .ok r → ∃ v', rt.loadArg r = .ok v'
  call : ∀ k ∈ s.gets, ∀ x nm b as f, k.graph.get? x = some (.call nm b as) → rt.loadFn b = .ok f →
    ∀ vs c, ∃ v r, rt.call f vs c = .ok v ∧ rt.dump v = .ok r

/-- The main thread of the processor has the function that it is about to look up or to call: the cleaner did not take it away
(/repo/scaled/worker/agent/processor/processor.py lines 111-122, /repo/scaled/worker/agent/processor/cache_cleaner.py lines 54-62). -/
def HasFunction (q : Proc.Proc F) : Prop :=
  match q.main with
  | .stamp k => (q.functions.get? k.functionId).isSome
  | .fetch k => (q.functions.get? k.functionId).isSome
  | .call _ f => f.isSome
  | .added fid => (q.functions.get? fid).isSome
  | _ => True

/-- So far no processor said that a node of a graph failed, and all processors have their functions. -/
def FineSoFar (s : Sys F) : Prop := ∀ x a ret qs left q, s.peers x = .worker a ret qs left → q ∈ qs →
  HasFunction q ∧ ∀ now t d r, (now, Proc.Act.sent (.taskResult t .failed d r)) ∈ q.log → ¬ AskedFor s t

/-- Processors and clients survive the users' functions: every exception can be pickled, and what was pickled can be loaded. -/
structure Harmless (p : Client.Pickle) (rt : Proc.Runtime F V X) : Prop where
  exception : ∀ x, rt.dumpExc x ≠ none
  result : ∀ v r, rt.dump v = .ok r → p.loads r = true
  failure : ∀ x r, rt.dumpExc x = some r → p.loads r = true

end Verif.Spec
