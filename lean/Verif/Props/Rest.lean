import Verif.Spec.Rest
import Verif.System.Unrefused
import Verif.System.Awaited
import Verif.Props.Trace
import Verif.Props.GraphTrace
import Verif.Props.Client

/-!
# C90: a system at rest has answered every task, or one of the known causes keeps it
-/

namespace Verif.Props

open Verif.Wire Verif.Sched Verif.Spec Verif.System

variable {F V X : Type} {p : Client.Pickle} {rt : Proc.Runtime F V X} {cfg : Config} {s s' : Sys F} {t : Bytes}
variable {w x : Bytes} {a : Worker.Agent} {ret : Int} {qs : List (Proc.Proc F)} {left : Option Bytes} {c : Client.Client}

theorem handOver_view {a a' : Worker.Agent} {now : Int} {k : Task} (h : a.handOver now k = .ok a') : a'.queue = a.queue ∧ a'.pos = .idle := by
  simp only [Worker.Agent.handOver, Py.bind_ok, Py.pure_eq, Except.ok.injEq] at h
  obtain ⟨-, -, rfl⟩ := h
  exact ⟨rfl, rfl⟩

theorem awaitProcessor_view {a a' : Worker.Agent} {now : Int} {k : Task} (h : a.awaitProcessor now k = .ok a') :
    a'.queue = a.queue ∧ (a'.pos = .idle ∨ a'.pos = .init k false) := by
  unfold Worker.Agent.awaitProcessor at h
  split at h
  · exact ⟨(handOver_view h).1, .inl (handOver_view h).2⟩
  · simp only [Except.ok.injEq] at h
    subst h
    exact ⟨rfl, .inr rfl⟩

theorem awaitLock_queue {a a' : Worker.Agent} {now : Int} {k : Task} (h : a.awaitLock now k = .ok a') : a'.queue = a.queue := by
  unfold Worker.Agent.awaitLock at h
  split at h
  · simp only [Except.ok.injEq] at h
    subst h
    rfl
  · have := (awaitProcessor_view h).1
    exact this

/-- Where the loop of an agent is when its turn changes nothing. -/
theorem turn_rests (hi : Worker.Inv a) (h : ∀ now, a.turn now = .ok a) :
    a.pos = .idle ∧ a.queue.contents = [] ∨ (∃ k, a.pos = .lock k ∧ a.locked = true) ∨ ∃ k, a.pos = .init k false := by
  have h := h 0
  unfold Worker.Agent.turn at h
  split at h
  · next hp =>
    refine .inl ⟨hp, ?_⟩
    split at h
    · next hl =>
      rw [hi.wf.len] at hl
      exact List.length_eq_zero_iff.1 (Int.ofNat_eq_zero.1 hl)
    · next hl =>
      exfalso
      simp only [Py.bind_ok] at h
      obtain ⟨⟨t, q⟩, h1, ⟨k, ts⟩, h2, h⟩ := h
      rw [hi.wf.len] at hl
      obtain ⟨t', l, hcons⟩ := List.exists_cons_of_ne_nil (l := a.queue.contents) (by intro e; rw [e] at hl; exact hl rfl)
      obtain ⟨q', e1, -, hQ'⟩ := hi.wf.get_cons hcons
      rw [e1] at h1
      simp only [Except.ok.injEq, Prod.mk.injEq] at h1
      have hq := awaitLock_queue h
      simp only at hq
      rw [hq, h1.2.symm, hQ'] at hcons
      have := congrArg List.length hcons
      simp at this
  · next k hp =>
    refine .inr (.inl ⟨k, hp, ?_⟩)
    split at h
    · assumption
    · have := (awaitProcessor_view h).2
      rw [hp] at this
      exact this.elim nofun nofun
  · next k b hp =>
    split at h
    · have := (handOver_view h).2
      rw [hp] at this
      cases this
    · next hb => exact .inr (.inr ⟨k, by rw [hp]; simp at hb; rw [hb]⟩)

/-- A worker at rest has no task, unless its processor waits for a function the scheduler does not have. -/
theorem rests_empty (hr : System.Reach p rt cfg s) (hR : Rest s) (hx : s.peers w = .worker a ret qs none) (ho : ToldOnce a.log)
    (hh : Holds a t) : Stuck s w := by
  have hW := hR.worker w a ret qs hx
  obtain ⟨d, start, hwr⟩ := hr.inv.worker hx
  have hi := hwr.good.inv
  suffices h : ∃ k, a.task = some k by
    obtain ⟨k, hk⟩ := h
    obtain ⟨n, q, hn, hq, hruns⟩ := C88_running_partial hr hx ho hk
    obtain ⟨hm, ht⟩ := hW.proc n q hn hq
    cases hruns with
    | coming h => exact absurd h (Nat.not_lt.2 (ht _))
    | waiting hqk h =>
      cases h with
      | asking h => exact absurd h (Nat.not_lt.2 (hW.heard _))
      | sent h => exact absurd h (Nat.not_lt.2 (hR.heard _ _))
      | answered st nm c h => exact absurd h (Nat.not_lt.2 (hW.got _))
      | told st nm c h => exact absurd h (Nat.not_lt.2 (ht _))
      | refused nm c h =>
        refine ⟨a, ret, qs, n, q, k, nm, c, hx, hk, hn, hq, hqk, hm, ?_⟩
        exact List.count_pos_iff.1 (Nat.lt_of_lt_of_le h (hr.inv.got w _))
    | loading f hqk h => rw [hm] at h; cases h
    | working h =>
      rw [hm] at h
      rcases h with h | h | ⟨f, h⟩ | ⟨f, h⟩ <;> cases h
    | done st d r h => exact absurd h (Nat.not_lt.2 (hW.heard _))
  rcases turn_rests hi hW.turn with ⟨h1, h2⟩ | ⟨k, h1, h2⟩ | ⟨k, h1⟩
  · rcases hh with h | ⟨k, -, h | ⟨b, h⟩⟩ | ⟨k, -, h⟩
    · rw [h2] at h; cases h
    · rw [h1] at h; cases h
    · rw [h1] at h; cases h
    · exact ⟨k, h⟩
  · exact C88_lock hr hx h1 h2
  · rcases (C88_ready hr hx h1).2 with h | h
    · cases h
    · exact absurd h (Nat.not_lt.2 (hW.heard _))

/-- A task the scheduler counts as given to a worker is with a stuck worker when the system rests. -/
theorem given_rests (hr : System.Reach p rt cfg s) (ho : ∀ w a ret qs left, s.peers w = .worker a ret qs left → ToldOnce a.log) (hR : Rest s)
    (hw : workerOf s.sched t = some w) : Stuck s w := by
  have hG := hr.inv.sched.good
  have hcon : Connected s.sched w := by
    obtain ⟨ts, h, -⟩ := (hG.conc.alloc.agree t w).1 hw
    exact (hG.conc.alive w).2 (by rw [h]; rfl)
  obtain ⟨a, ret, qs, hx⟩ := hR.there w hcon
  have hW := hR.worker w a ret qs hx
  cases C84_located hr hw with
  | coming k _ h => exact absurd h (Nat.not_lt.2 (hW.got _))
  | there a' ret' qs' left' hx' h =>
    rw [hx] at hx'
    cases hx'
    exact rests_empty hr hR hx (ho _ _ _ _ _ hx) h
  | done st d r _ h => exact absurd h (Nat.not_lt.2 (hR.heard _ _))
  | back ids _ h => exact absurd h (Nat.not_lt.2 (hR.heard _ _))

/-- If the scheduler has a task to place and its routine does nothing, no worker is connected or all seem full. -/
theorem waiting_rests (hr : System.Reach p rt cfg s) (hR : Rest s) (h : t ∈ waitingQueue s.sched ∨ beingPlaced s.sched = some t) :
    (∀ w, ¬ Connected s.sched w) ∨
    ∀ w, Connected s.sched w → ∃ n, s.sched.wm.alloc.queue.prio w = some n ∧ cfg.queueSize ≤ n := by
  have hG := hr.inv.sched.good
  obtain ⟨s', e, -, hx⟩ := Sched.taskRoutine_ok hG.conc hG.inv hG.settled
  rcases hx with ⟨h1, h2, -⟩ | ⟨k, rest, hN, hP⟩
  · exfalso
    rcases h with h | h
    · have h2 : s.sched.tm.unassigned.contents = [] := h2
      rw [waitingQueue, h2] at h
      cases h
    · have h1 : s.sched.tm.pending = none := h1
      rw [beingPlaced, h1] at h
      cases h
  · cases hP with
    | nobody hw hb =>
      refine .inl fun w hc => ?_
      obtain ⟨ts, hts⟩ := Option.isSome_iff_exists.1 ((hG.conc.alive w).1 hc)
      obtain ⟨n, hn⟩ := (hG.conc.alloc.dom w).2 ⟨ts, hts⟩
      rw [hw w] at hn
      cases hn
    | full hw hf hs hb =>
      refine .inr fun w hc => ?_
      obtain ⟨ts, hts⟩ := Option.isSome_iff_exists.1 ((hG.conc.alive w).1 hc)
      obtain ⟨n, hn⟩ := (hG.conc.alloc.dom w).2 ⟨ts, hts⟩
      have := hf w n hn
      rw [hG.cfg] at this
      exact ⟨n, hn, this⟩
    | sent w n hp hn hl hb =>
      exfalso
      have hout : s'.out = s.sched.out ++ [(w, .task k)] := congrArg (·.out) hb
      have := hR.routine ⟨.taskRoutine, 0, fun _ => []⟩ s' rfl e
      rw [this] at hout
      have := congrArg List.length hout
      simp at this

/-- A client at rest expects no answer about a function. -/
theorem registers_rests (hr : System.Reach p rt cfg s) (hR : Rest s) (hx : s.peers x = .client c) (hc : c.closed = false) {f : Bytes} :
    Spec.Client.asked f c.log = false := by
  cases ha : Spec.Client.asked f c.log with
  | false => rfl
  | true =>
    rcases hr.registering hx ha with ⟨nm, b, h⟩ | ⟨st, nm, b, h⟩
    · exact absurd h (Nat.not_lt.2 (hR.heard _ _))
    · exact absurd h (Nat.not_lt.2 ((hR.client x c hx hc).got _))

/-- A task whose submission was accepted by the client has its result when the system rests, or one of the causes in
`HeldUp` keeps it. -/
theorem C90_rests_partial (hr : System.Reach p rt cfg s) (ho : ∀ w a ret qs left, s.peers w = .worker a ret qs left → ToldOnce a.log) (hR : Rest s)
    (hx : s.peers x = .client c) (hc : c.closed = false) {k : Task} {nm b : Bytes} (hk : Client.Act.submitted k nm b ∈ c.log) :
    (∃ st d r, Client.Act.recv (.taskResult k.taskId st d r) ∈ c.log) ∨ HeldUp cfg s c k := by
  have hC := hR.client x c hx hc
  cases C85_traced hr hx hk with
  | inCall h =>
    rcases h with ⟨_, _, h⟩ | h | h | h <;> rw [hC.user] at h <;> cases h
  | buffered ks hf h => exact .inr (.stranded ks hf h (registers_rests hr hR hx hc))
  | queued h => rw [hC.outbox] at h; cases h
  | sent h => exact absurd h (Nat.not_lt.2 (hR.heard _ _))
  | refused st hst h => exact absurd h (Nat.not_lt.2 (hC.got _))
  | waiting h =>
    rcases waiting_rests hr hR h with h' | h'
    · exact .inr (.nobody h h')
    · exact .inr (.full h h')
  | given w hw h => exact .inr (.stuck w hw (given_rests hr ho hR hw))
  | done st d r h => exact absurd h (Nat.not_lt.2 (hC.got _))
  | answered st d r h => exact .inl ⟨st, d, r, h⟩

/-- The scheduler has every function that a worker asks for, if no worker with a task was given up and nothing was
cancelled.  Missing: the other cases, for which the claim is false (`C90_stuck`). -/
theorem C90_functions_partial (hs : Steady p rt cfg (fun _ => True) s) (hN : NoCancel s) (hx : s.peers w = .worker a ret qs left) (f nm c : Bytes) :
    (w, Message.functionResponse .notExists f nm c) ∉ s.sched.out :=
  Steady.unrefused hs hN (hs.reach.inv.asksOnly hx) f nm c

/-- No task is with a worker in a system at rest, if no worker was given up and nothing was cancelled. -/
theorem C90_idle_partial (hs : Steady p rt cfg (fun _ => True) s) (hN : NoCancel s) (hR : Rest s) : workerOf s.sched t = none := by
  cases h : workerOf s.sched t with
  | none => rfl
  | some w =>
    obtain ⟨a, ret, qs, n, q, k, nm, c, hx, -, -, -, -, -, hout⟩ := given_rests hs.reach (fun _ _ _ _ _ => C89_toldOnce hs) hR h
    exact absurd hout (C90_functions_partial hs hN hx _ _ _)

/-- Nothing waits for a worker in a system at rest, if besides there is a worker, room for a task at each, and the recorded
loads are right. -/
theorem C90_placed_partial (hs : Steady p rt cfg (fun _ => True) s) (hN : NoCancel s) (hR : Rest s) (hL : LoadsRight s.sched)
    (hq : 1 ≤ cfg.queueSize) (hw : Connected s.sched w) : t ∉ waitingQueue s.sched ∧ beingPlaced s.sched ≠ some t := by
  suffices h : ¬ (t ∈ waitingQueue s.sched ∨ beingPlaced s.sched = some t) from not_or.1 h
  intro h
  rcases waiting_rests hs.reach hR h with h' | h'
  · exact h' w hw
  · obtain ⟨n, hn, hle⟩ := h' w hw
    have hG := hs.reach.inv.sched.good
    obtain ⟨ts, hts⟩ := (hG.conc.alloc.dom w).1 ⟨n, hn⟩
    have hsz := hL w n ts hn hts
    obtain ⟨t, ht⟩ : ∃ t, t ∈ ts := by
      refine List.exists_mem_of_ne_nil ts.items fun e => ?_
      simp only [PySet.size, e, List.length_nil] at hsz
      omega
    have := C90_idle_partial (t := t) hs hN hR
    rw [workerOf, (hG.conc.alloc.agree t w).2 ⟨ts, hts, ht⟩] at this
    cases this

/-- **Every task is answered** when the system rests, if no worker was given up, nothing was cancelled, the scheduler
has a worker and room for a task at each, the loads it recorded are right, and the client handled no message while `submit`
ran.  Missing: the cases in which one of these fails, for which the claim is false (`C90_hang`, `C90_stranded`,
`C90_stuck`). -/
theorem C90_answered_partial (hs : Steady p rt cfg (fun _ => True) s) (hN : NoCancel s) (hR : Rest s) (hL : LoadsRight s.sched)
    (hq : 1 ≤ cfg.queueSize) (hw : Connected s.sched w) (hx : s.peers x = .client c) (ha : Spec.Client.ReachAlone p c) (hc : c.closed = false)
    {k : Task} {nm b : Bytes} (hk : Client.Act.submitted k nm b ∈ c.log) : ∃ st d r, Client.Act.recv (.taskResult k.taskId st d r) ∈ c.log := by
  have hP := C90_placed_partial (t := k.taskId) hs hN hR hL hq hw
  rcases C90_rests_partial hs.reach (fun _ _ _ _ _ => C89_toldOnce hs) hR hx hc hk with h | h
  · exact h
  exfalso
  cases h with
  | stranded ks hf h has =>
    rcases ha.alone.ask k.functionId (by simp [hf]) with ⟨_, _, h⟩ | h
    · rw [(hR.client x c hx hc).outbox] at h; cases h
    · rw [has] at h; cases h
  | nobody h _ => exact h.elim hP.1 hP.2
  | full h _ => exact h.elim hP.1 hP.2
  | stuck w hw h =>
    rw [C90_idle_partial hs hN hR] at hw
    cases hw

/-- The same for graphs, if besides the number of waiting tasks is not limited. -/
theorem C90_graph_partial (hs : Steady p rt cfg (fun _ => True) s) (hN : NoCancel s) (hR : Rest s) (hL : LoadsRight s.sched)
    (hq : 1 ≤ cfg.queueSize) (hm : cfg.maxWaiting < 0) (hw : Connected s.sched w) (hx : s.peers x = .client c) (hc : c.closed = false)
    {g : GraphTask} (hg : Client.Act.graph g ∈ c.log) : (∃ st rs, Client.Act.recv (.graphTaskResult g.taskId st rs) ∈ c.log) ∨
    Client.Act.sent (.graphTaskCancel g.taskId) ∈ c.log := by
  have hC := hR.client x c hx hc
  cases C86_graph_traced hs.reach hx hg with
  | queued h => rw [hC.outbox] at h; cases h
  | sent h => exact absurd h (Nat.not_lt.2 (hR.heard _ _))
  | waiting h => rw [hR.graphs] at h; cases h
  | pending t _ h =>
    have hP := C90_placed_partial (t := t) hs hN hR hL hq hw
    exact (h.elim hP.1 hP.2).elim
  | given t _ w hw h =>
    rw [C90_idle_partial hs hN hR] at hw
    cases hw
  | refused t _ hl y h => omega
  | done st rs h => exact absurd h (Nat.not_lt.2 (hC.got _))
  | answered st rs h => exact .inl ⟨st, rs, h⟩
  | cancelled h => exact .inr h

end Verif.Props
