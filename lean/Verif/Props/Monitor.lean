import Verif.Sched.Monitor
import Verif.Props.Graphs

/-!
# C70: the monitor is shown what happens
-/

namespace Verif.Props

open Verif.Queue Verif.Util Verif.Wire Verif.Sched Verif.Spec

/-- Workers report results with the statuses that end a task. -/
def HonestEnds (l : Log) : Prop :=
  ∀ w t st d r, (w, .taskResult t st d r) ∈ l → st = .success ∨ st = .failed ∨ st = .canceled ∨ st = .notFound

/-- **C70.** In every execution in which workers end tasks only with final statuses, for every id: the last status shown
tells where the task is (waiting or being placed: inactive; with a worker: running or canceling; not held: nothing, or a
final status); and every status shown may follow the one before it. -/
theorem C70_status (cfg : Config) (l : Log) (s : Sched) (hr : Reach cfg l s) (hF : HonestEnds l) (t : Bytes) :
    (t ∈ waitingQueue s ∨ beingPlaced s = some t → (shown t s.mon).getLast? = some .inactive) ∧
    (∀ w, workerOf s t = some w → (shown t s.mon).getLast? = some .running ∨ (shown t s.mon).getLast? = some .canceling) ∧
    (¬ Holding s t → shown t s.mon = [] ∨ ∃ st, (shown t s.mon).getLast? = some st ∧
      (st = .success ∨ st = .failed ∨ st = .canceled ∨ st = .notFound)) ∧
    Legal (shown t s.mon) := by
  obtain ⟨h1, h2, h3, h4⟩ := hr.told hF t
  refine ⟨h2, fun w hw => h3 (by rw [show s.abs.worker t = some w from hw]; rfl), fun hn => ?_, h1⟩
  have hn' : s.abs.tasks t = none := by
    unfold Holding at hn
    rw [show s.tm.tasks.get? t = s.abs.tasks t from rfl] at hn
    simpa using hn
  rcases h4 hn' with e | ⟨st, e, hf⟩
  · exact Or.inl (List.getLast?_eq_none_iff.1 e)
  · exact Or.inr ⟨st, e, hf⟩

/-- **C70.** In such executions the dispatches and requests to stop that are shown are those that are sent, in the same
order: every task message to a worker shows as running, every cancel message as canceling, and nothing else does. -/
theorem C70_traffic (cfg : Config) (l : Log) (s : Sched) (hr : Reach cfg l s) (hF : HonestEnds l) :
    s.mon.filterMap markShown = s.out.filterMap markSent := hr.marked hF

/-- **C70.** In every execution, a status is shown only for a submitted task or node, with a name that some client gave for
its function; nothing but task states and graph nodes is shown. -/
theorem C70_names (cfg : Config) (l : Log) (s : Sched) (hr : Reach cfg l s) (m : Message) (hm : m ∈ s.mon) :
    (∃ t n st f, m = .taskState t n st ∧ Submitted l t f ∧ Named l f n) ∨
    ∃ c g T, (c, .graphTask g) ∈ l ∧ T ∈ g.graph ∧ ShowsNode g T m := by
  have h := hr.named.mon m hm
  cases m <;> first | exact h.elim | skip
  · obtain ⟨f, h1, h2⟩ := h
    exact Or.inl ⟨_, _, _, f, rfl, h1, h2⟩
  · exact Or.inr h

/-- **C70.** Of every graph that is being worked on, every node has been shown: as a target or not, with the nodes that it
takes its arguments from. -/
theorem C70_graph (cfg : Config) (l : Log) (s : Sched) (hr : Reach cfg l s) (gid : Bytes) (g : Graph)
    (hg : s.gm.graphs.get? gid = some g) : ∃ gt, (g.client, .graphTask gt) ∈ l ∧ gt.taskId = gid ∧
    ∀ T ∈ gt.graph, ∃ m ∈ s.mon, ShowsNode gt T m := hr.named.all gid g hg

/-- A task is asked to stop, its worker leaves, it starts again on another and ends; another is cancelled in the queue. -/
def shownStory : List Event :=
  [addFn, beat wk, submit [1], turn, ev (.recv cl (.taskCancel [1])), beat wk2, ev (.recv cl (.disconnectRequest wk)), submit [2],
   turn, ev (.recv cl (.taskCancel [2])), done [1] [7]]

example : (runInit cfg0 shownStory).map (fun p => (shown [1] p.2.mon, shown [2] p.2.mon)) =
    some ([.inactive, .running, .canceling, .inactive, .running, .success], [.inactive, .canceled]) := by decide +kernel

example : (runInit cfg0 shownStory).map (fun p => p.2.out.filterMap markSent) =
    some [([1], .running), ([1], .canceling), ([1], .running)] := by decide +kernel

example : (runInit cfg0 shownStory).map (fun p => decide (p.1.all fun m => match m.2 with
      | .taskResult _ st _ _ => decide (st = .success ∨ st = .failed ∨ st = .canceled ∨ st = .notFound)
      | _ => true)) = some true := by decide +kernel

example : (runInit cfg0 (diamondStory.take 5)).map (fun p =>
      ((p.2.mon.filterMap fun m => match m with | .graphTaskState _ t ty ps => some (t, ty, ps.items) | _ => none),
       (p.2.gm.graphs.get? [50]).isSome)) =
    some ([([51], .target, []), ([52], .normal, [[51]]), ([53], .normal, [[51]]), ([54], .target, [[53], [52]])], true) := by
  decide +kernel

end Verif.Props
