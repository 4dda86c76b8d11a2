import Verif.Props.Trace
import Verif.Props.Graphs

/-!
# C86: no graph gets lost
-/

namespace Verif.Props

open Verif.Queue Verif.Util Verif.Wire Verif.Sched Verif.Spec Verif.System
open Verif.Client (Pickle UserNode)

variable {F V X : Type} {p : Pickle} {rt : Proc.Runtime F V X} {cfg : Config} {s : Sys F}

/-- **C86.** A graph that a user asked for is with the client, or on the way to the scheduler, or waiting there to be
unpacked, or one of its nodes is with the scheduler or a worker (or on the way there or back), or was refused because of the
limit on waiting tasks, or its result is on the way to the client or has arrived there, or the client ended and cancelled it. -/
theorem C86_graph_traced (hr : System.Reach p rt cfg s) {x : Bytes} {c : Client.Client} (hx : s.peers x = .client c) {g : GraphTask}
    (hg : Client.Act.graph g ∈ c.log) : GraphTraced cfg s x c g := by
  have h := hr.inv
  have hc := h.client hx
  have hG := h.sched.good
  by_cases hq : Message.graphTask g ∈ c.outbox
  · exact .queued hq
  by_cases hs : s.received.count (x, .graphTask g) < (s.peers x).sent (.graphTask g)
  · exact .sent hs
  have hrec : (x, .graphTask g) ∈ s.received := by
    have h1 := hc.graphCount g
    have h2 : 0 < c.log.countP fun y => decide (y = .graph g) := List.countP_pos_iff.2 ⟨_, hg, by simp⟩
    have h3 : (c.outbox.countP fun m => decide (m = .graphTask g)) = 0 := List.countP_eq_zero.2 fun m hm e => hq (of_decide_eq_true e ▸ hm)
    rw [hx] at hs
    simp only [Peer.sent] at hs
    exact List.count_pos_iff.1 (by omega)
  rcases hG.fate x g hrec with hf | ⟨gr, h1, _, hok⟩ | ⟨st, rs, hm⟩ | ⟨y, hm⟩
  · exact .waiting hf
  · have hset := hG.settled g.taskId gr h1
    obtain ⟨t, ht⟩ := hset.active
    obtain ⟨i, h2, h3⟩ := hok.out t ht
    have hrun : i.state = .running := by
      rcases h3 with h3 | h3
      · have := hset.started t i h2 h3
        rw [ht] at this; cases this
      · exact h3
    have hmem : t ∈ g.graph.map (·.taskId) := hok.mem_node h2
    rcases hG.pins.running g.taskId gr t i h1 h2 hrun with h4 | ⟨h4, y, h5⟩
    · rcases ((C18_one_place cfg _ _ h.sched t).1).1 h4 with h | h | ⟨w, hw⟩
      · exact .pending t hmem (.inl h)
      · exact .pending t hmem (.inr h)
      · exact .given t hmem w hw (C84_located hr hw)
    · refine .refused t hmem ?_ y h5
      have : (decide (0 ≤ s.sched.cfg.maxWaiting)) = true := h4
      rw [hG.cfg] at this
      exact of_decide_eq_true this
  · by_cases hgot : (s.peers x).got (.graphTaskResult g.taskId st rs) < s.sched.out.count (x, .graphTaskResult g.taskId st rs)
    · exact .done st rs hgot
    · have h4 : 0 < s.sched.out.count (x, .graphTaskResult g.taskId st rs) := List.count_pos_iff.2 hm
      have h5 : 0 < (s.peers x).got (.graphTaskResult g.taskId st rs) := by omega
      rw [hx] at h5
      obtain ⟨z, hz, he⟩ := List.countP_pos_iff.1 h5
      refine .answered st rs ?_
      rw [← of_decide_eq_true he]; exact hz
  · refine .cancelled ?_
    rcases Peer.sent_pos (h.received hm) with ⟨c', hy, hm'⟩ | ⟨a, ret, qs, left, hy, ⟨now, hm'⟩ | ⟨id, -, hm'⟩⟩
    · obtain ⟨l, hl, ns, hn⟩ := h.clientSent hy hm'
      obtain ⟨g', hg', e⟩ := (h.client hy).start _ ns (.inl (hl _ hn))
      have : y = x := by
        refine h.same (t := g.taskId) ?_ (Inv.graph_id hx hg List.mem_cons_self)
        rw [← e]
        exact Inv.graph_id hy hg' List.mem_cons_self
      subst this
      rw [hx] at hy; cases hy
      exact hm'
    · exact (h.workerSent hy hm').elim
    · cases hm'

/-- The client asks for a graph of one node. -/
def askSole : System.Op := .get [1] [[20]] [30] soleGraph [[1]]

/-- Runs of a system in which the graph 30 is in each of the places. -/
def graphTraces : List (Config × Script) :=
  [ (wide, [(meet, 0), ([askSole], 0)]), (wide, [(meet, 0), ([askSole, .client [1] .advance, .client [1] .flush], 0)]), (wide, [(meet, 0), ([askSole], 8)]),
    (wide, [(meet, 0), ([askSole], 8), ([schedOp .graphRoutine], 0)]),
    (wide, [(meet, 0), ([askSole], 8), ([schedOp .graphRoutine, schedOp .taskRoutine], 20)]),
    ({ wide with maxWaiting := 0 }, [([.joinClient [1], askSole], 8), ([schedOp .graphRoutine], 0)]),
    (wide, [(meet, 0), ([askSole], 8), ([schedOp .graphRoutine, schedOp .taskRoutine], 20), ([schedOp (result9 [20])], 0)]),
    (wide, [(meet, 0), ([askSole], 8), ([schedOp .graphRoutine, schedOp .taskRoutine], 20), ([schedOp (result9 [20])], 3)]),
    (wide, [(meet, 0), ([askSole], 8), ([schedOp .graphRoutine, schedOp .taskRoutine], 20), ([schedOp (result9 [20])], 0), (quit, 0)]) ]

/-- Which of the places the graph 30 is in. -/
def graphTraceAt (s : Sys Nat) : List Bool :=
  match clientAt s [1] with
  | none => []
  | some c =>
    match c.log.findSome? fun x => match x with | .graph g => some g | _ => none with
    | none => []
    | some g =>
      [ decide (Message.graphTask g ∈ c.outbox), decide (s.received.count ([1], .graphTask g) < (s.peers [1]).sent (.graphTask g)),
        decide (([1], g) ∈ s.sched.gm.queue), decide ([20] ∈ waitingQueue s.sched), (workerOf s.sched [20]).isSome,
        decide (([1], .taskEcho [20] .noWorker) ∈ s.sched.out), decide (0 < toPeer s [1] (.graphTaskResult [30] .success [[9]])),
        decide (Client.Act.recv (.graphTaskResult [30] .success [[9]]) ∈ c.log), decide (Client.Act.sent (.graphTaskCancel [30]) ∈ c.log) ]

/-- Each of the nine places is met; the last run ends with the client while the result is on the way. -/
example : ∀ n < 9, ∃ (cfg : Config) (s : Sys Nat) (c : Client.Client) (g : GraphTask), System.Reach plainPickle toy cfg s ∧ s.peers [1] = .client c ∧
    Client.Act.graph g ∈ c.log ∧ graphTraceAt s = (List.range 9).map fun i => decide (i = n ∨ n = 8 ∧ i = 6) := by
  have h : ∀ n < 9, (graphTraces[n]?).map (fun l => decide (graphTraceAt (playScript l.1 l.2) = (List.range 9).map fun i => decide (i = n ∨ n = 8 ∧ i = 6)) &&
      ((clientAt (playScript l.1 l.2) [1]).map fun c => (c.log.findSome? fun x => match x with | .graph g => some g | _ => none).isSome).getD false) = some true := by
    decide +kernel
  intro n hn
  obtain ⟨l, _, he⟩ := Option.map_eq_some_iff.1 (h n hn)
  rw [Bool.and_eq_true] at he
  obtain ⟨h1, h2⟩ := he
  cases hc : clientAt (playScript l.1 l.2) [1] with
  | none => rw [hc] at h2; cases h2
  | some c =>
    rw [hc] at h2
    obtain ⟨g, hg⟩ := Option.isSome_iff_exists.1 h2
    obtain ⟨y, hy, hyg⟩ := List.exists_of_findSome?_eq_some hg
    cases y with
    | graph g' => exact ⟨l.1, _, c, g', playScript_reach l.1 l.2, clientAt_eq hc, hy, of_decide_eq_true h1⟩
    | _ => cases hyg

end Verif.Props
