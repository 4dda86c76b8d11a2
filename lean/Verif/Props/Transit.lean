import Verif.Spec.Transit
import Verif.System.Transit

/-!
# C84: no task gets lost between the scheduler and a worker
-/

namespace Verif.Props

open Verif.Queue Verif.Util Verif.Wire Verif.Sched Verif.Spec Verif.System
open Verif.Client (Pickle UserNode)

variable {F V X : Type} {p : Pickle} {rt : Proc.Runtime F V X} {cfg : Config} {s : Sys F}

/-- Processors in a system answer tasks with a value or an exception. -/
theorem agent_honest (h : System.Inv p rt cfg s) {x : Bytes} {a : Worker.Agent} {ret : Int} {qs : List (Proc.Proc F)} {left : Option Bytes}
    (hx : s.peers x = .worker a ret qs left) : Spec.Worker.Honest a.log := by
  rintro ⟨now, y⟩ hy m rfl
  cases m with
  | taskResult i st d r =>
    obtain ⟨n, q, now', hq, hs⟩ := agent_heard h hx ⟨now, hy⟩
    have hP := h.peer x
    rw [hx] at hP
    obtain ⟨⟨start, hr⟩, -⟩ := hP.2.2.1 n q hq
    obtain ⟨l₁, l₂, e⟩ := List.append_of_mem hs
    rcases C55_answers_partial hr _ _ _ e with ⟨-, -, h4, -⟩ | ⟨u, k, -, -, h6⟩
    · exact .inl h4
    · cases st with
      | success => exact .inl rfl
      | failed => exact .inr rfl
      | _ => exact h6.elim
  | _ => trivial

/-- The balance of the task `t` at a worker. -/
theorem agent_balance (h : System.Inv p rt cfg s) {x : Bytes} {a : Worker.Agent} {ret : Int} {qs : List (Proc.Proc F)} {left : Option Bytes}
    (hx : s.peers x = .worker a ret qs left) (t : Bytes) :
    weigh (taskWeight t) (gotBy a.log) = a.pend t + a.runs t + weigh (endWeight t) (sentBy a.log) := by
  obtain ⟨d, start, hr⟩ := h.worker hx
  rw [weigh_got, weigh_sent, C51_accounted hr (agent_honest h hx) t]
  omega

/-- The scheduler has not received more ends of a task from a peer than tasks it had sent there before. -/
theorem ends_le {s0 : Sys F} (h0 : System.Inv p rt cfg s0) (h : System.Inv p rt cfg s) (hp : s.peers = s0.peers) (t w : Bytes) :
    weigh (endWeight t) (withPeer w s.received) ≤ weigh (taskWeight t) (withPeer w s0.sched.out) := by
  cases hx : s.peers w with
  | absent =>
    refine Nat.le_trans (weigh_le (l' := []) fun m _ => ?_) (Nat.zero_le _)
    rw [withPeer_count]
    have := h.heard w m
    rw [hx] at this
    exact this
  | client c =>
    refine Nat.le_trans (weigh_le (l' := []) fun m hm => ?_) (Nat.zero_le _)
    rw [withPeer_count]
    refine Nat.le_of_not_lt fun hlt => ?_
    have := h.received (List.count_pos_iff.1 (Nat.lt_of_le_of_lt (Nat.zero_le _) hlt))
    rcases Peer.sent_pos this with ⟨c', hx', hc⟩ | ⟨a, ret, qs, left, hx', -⟩
    · obtain ⟨l, -, h3⟩ := h.clientSent hx' hc
      cases m <;> first | exact h3.elim | exact hm rfl
    · rw [hx] at hx'; cases hx'
  | worker a ret qs left =>
    have h1 : weigh (endWeight t) (withPeer w s.received) ≤ weigh (endWeight t) (sentBy a.log) := by
      refine weigh_le fun m hm => ?_
      rw [withPeer_count, sentBy_count]
      have := h.heard w m
      rw [hx] at this
      simp only [Peer.sent] at this
      split at this
      · next e =>
        cases left with
        | none => cases e
        | some id => cases e; exact absurd rfl hm
      · exact this
    have h2 : weigh (taskWeight t) (gotBy a.log) ≤ weigh (taskWeight t) (withPeer w s0.sched.out) := by
      refine weigh_le fun m _ => ?_
      rw [withPeer_count, gotBy_count]
      have := h0.got w m
      rw [← hp, hx] at this
      exact this
    have := agent_balance h hx t
    omega

/-- While a task is at a worker, the scheduler has received fewer ends of it from there than it sent it there. -/
theorem ends_lt (hr : System.Reach p rt cfg s) {t w : Bytes} (hw : workerOf s.sched t = some w) :
    weigh (endWeight t) (withPeer w s.received) < weigh (taskWeight t) (withPeer w s.sched.out) := by
  induction hr with
  | init => cases hw
  | @step s s' o hr hs ih =>
    rcases sched_moves hs with ⟨e1, e2⟩ | ⟨e, h1, h2, h3, h4⟩
    · rw [e1] at hw ⊢
      rw [e2]
      exact ih hw
    · have hi := hr.inv
      have hle := ends_le hi (System.Reach.step o hr hs).inv h3 t w
      have ha : ∀ m ∈ e.input, Allowed s.received s.sched.out m := by
        intro m hm
        obtain ⟨op, now, ord⟩ := e
        cases op with
        | recv x n =>
          rw [List.mem_singleton.1 hm]
          exact hi.allowed (h4 x n rfl)
        | _ => cases hm
      obtain ⟨l', e', ⟨k, hk, hm⟩ | ⟨hw', hz⟩⟩ := step_assigned hi.sched ha h1 hw
      · have h5 := weigh_pos (f := taskWeight t) (withPeer_mem hm)
        rw [e', withPeer_append, weigh_append]
        simp only [taskWeight, hk, if_true] at h5
        omega
      · have hlt := ih hw'
        have hzero : weigh (endWeight t) (withPeer w e.input) = 0 := by
          refine Nat.le_zero.1 (Nat.le_trans (weigh_le (l' := []) fun m hm => ?_) (Nat.le_refl 0))
          refine Nat.le_of_not_lt fun hlt => hm ?_
          obtain ⟨y, hy, e⟩ := List.mem_filterMap.1 (List.count_pos_iff.1 (Nat.lt_of_le_of_lt (Nat.zero_le _) hlt))
          have := hz y hy
          split at e
          · cases e; exact this
          · cases e
        rw [h2, e', withPeer_append, withPeer_append, weigh_append, weigh_append]
        omega

/-- **C84.** A task that the scheduler counts as given to a worker is on the way there, or with the worker, or its
result is on the way back, or it is handed back: it never gets lost between the two, whatever else happens. -/
theorem C84_located (hr : System.Reach p rt cfg s) {t w : Bytes} (hw : workerOf s.sched t = some w) : Located s t w := by
  have h := hr.inv
  have hlt := ends_lt hr hw
  by_cases h1 : ∃ k, k.taskId = t ∧ (s.peers w).got (.task k) < s.sched.out.count (w, .task k)
  · obtain ⟨k, h1, h2⟩ := h1
    exact .coming k h1 h2
  by_cases h2 : ∃ st d r, st ≠ .notFound ∧ s.received.count (w, .taskResult t st d r) < (s.peers w).sent (.taskResult t st d r)
  · obtain ⟨st, d, r, h2, h3⟩ := h2
    exact .done st d r h2 h3
  by_cases h3 : ∃ ids, t ∈ ids ∧ s.received.count (w, .balanceResponse ids) < (s.peers w).sent (.balanceResponse ids)
  · obtain ⟨ids, h3, h4⟩ := h3
    exact .back ids h3 h4
  -- all tasks have arrived
  have hgot : ∀ m, taskWeight t m ≠ 0 → s.sched.out.count (w, m) ≤ (s.peers w).got m := by
    intro m hm
    cases m with
    | task k =>
      refine Nat.le_of_not_lt fun hx => h1 ⟨k, ?_, hx⟩
      by_cases e : k.taskId = t
      · exact e
      · simp [taskWeight, e] at hm
    | _ => exact absurd rfl hm
  -- all ends have arrived
  have hend : ∀ m, endWeight t m ≠ 0 → (s.peers w).sent m ≤ s.received.count (w, m) := by
    intro m hm
    cases m with
    | taskResult i st d r =>
      by_cases e : i = t ∧ st ≠ .notFound
      · obtain ⟨rfl, e⟩ := e
        exact Nat.le_of_not_lt fun hx => h2 ⟨st, d, r, e, hx⟩
      · simp [endWeight, e] at hm
    | balanceResponse ids =>
      exact Nat.le_of_not_lt fun hx => h3 ⟨ids, List.count_pos_iff.1 (Nat.pos_of_ne_zero hm), hx⟩
    | _ => exact absurd rfl hm
  cases hx : s.peers w with
  | absent =>
    have : weigh (taskWeight t) (withPeer w s.sched.out) ≤ weigh (taskWeight t) [] := weigh_le fun m hm => by
      have := hgot m hm
      rw [hx] at this
      rw [withPeer_count]
      exact this
    rw [weigh_nil] at this
    omega
  | client c =>
    obtain ⟨b, hb⟩ := h.sched.peers.up w (h.sched.good.inv.up t w hw)
    rcases Peer.sent_pos (h.received hb) with ⟨c', hx', hc⟩ | ⟨a, ret, qs, left, hx', -⟩
    · obtain ⟨l, -, h3⟩ := h.clientSent hx' hc
      exact h3.elim
    · rw [hx] at hx'; cases hx'
  | worker a ret qs left =>
    refine .there a ret qs left hx ?_
    have h4 : weigh (taskWeight t) (withPeer w s.sched.out) ≤ weigh (taskWeight t) (gotBy a.log) := weigh_le fun m hm => by
      have := hgot m hm
      rw [hx] at this
      rw [withPeer_count, gotBy_count]
      exact this
    have h5 : weigh (endWeight t) (sentBy a.log) ≤ weigh (endWeight t) (withPeer w s.received) := weigh_le fun m hm => by
      have := hend m hm
      rw [hx] at this
      rw [withPeer_count, sentBy_count]
      exact Nat.le_trans (Nat.le_add_right _ _) this
    have h6 := agent_balance h hx t
    have h7 : 0 < a.queue.contents.count t + a.pos.count t + a.runs t := by
      simp only [Worker.Agent.pend] at h6
      omega
    by_cases h8 : 0 < a.queue.contents.count t
    · exact .inl (List.count_pos_iff.1 h8)
    by_cases h9 : 0 < a.pos.count t
    · right; left
      cases hp : a.pos with
      | idle => rw [hp] at h9; simp [Worker.Pos.count, Worker.Pos.task?] at h9
      | lock k =>
        rw [hp] at h9
        refine ⟨k, ?_, .inl rfl⟩
        by_cases e : k.taskId = t
        · exact e
        · simp [Worker.Pos.count, Worker.Pos.task?, e] at h9
      | init k b =>
        rw [hp] at h9
        refine ⟨k, ?_, .inr ⟨b, rfl⟩⟩
        by_cases e : k.taskId = t
        · exact e
        · simp [Worker.Pos.count, Worker.Pos.task?, e] at h9
    · right; right
      have h10 : 0 < a.runs t := by omega
      cases hk : a.task with
      | none => simp [Worker.Agent.runs, hk] at h10
      | some k =>
        refine ⟨k, ?_, rfl⟩
        by_cases e : k.taskId = t
        · exact e
        · simp [Worker.Agent.runs, hk, e] at h10

/-- Runs of a system in which the task 10 was given to the worker 2: it is on the way; with the worker; its result is on
the way; it is handed back. -/
def transits : List Script :=
  [ [(meet, 0), sysSubmit [10], ([schedOp .taskRoutine], 0)],
    [(meet, 0), sysSubmit [10], ([schedOp .taskRoutine, toAgent (task9 [10])], 0)],
    [(meet, 0), sysSubmit [10], ([schedOp .taskRoutine], 20)],
    [(meet, 0), sysSubmit [11], sysSubmit [12], sysSubmit [13], sysSubmit [10],
      ([schedOp .taskRoutine, schedOp .taskRoutine, schedOp .taskRoutine, schedOp .taskRoutine], 7),
      ([.joinWorker [3] 100 100 0, .agent [3] ⟨.heartbeat ⟨0, 0, 0, 0⟩, 5⟩,
        schedOp (.recv [3] (.heartbeat ⟨0, 0, 0, 0, 0, 0, false, false, false⟩)), schedOp .workerRoutine, schedOp .workerRoutine, schedOp .workerRoutine], 2)] ]

/-- Where the task 10 is: on the way, with the worker, done, on the way back. -/
def transit (s : Sys Nat) : List Bool :=
  [ decide ((s.peers [2]).got (task9 [10]) < s.sched.out.count ([2], task9 [10])),
    ((agentAt s [2]).map fun a => decide ([10] ∈ a.queue.contents)).getD false,
    decide (s.received.count ([2], .taskResult [10] .success 0 [9]) < (s.peers [2]).sent (.taskResult [10] .success 0 [9])),
    decide (s.received.count ([2], .balanceResponse [[13], [10]]) < (s.peers [2]).sent (.balanceResponse [[13], [10]])) ]

/-- Each of the four places is met. -/
example : ∀ n < 4, ∃ s : Sys Nat, System.Reach plainPickle toy wide s ∧ workerOf s.sched [10] = some [2] ∧
    transit s = [decide (n = 0), decide (n = 1), decide (n = 2), decide (n = 3)] := by
  have h : ∀ n < 4, (transits[n]?).map (fun l => decide (workerOf (playScript wide l).sched [10] = some [2] ∧
      transit (playScript wide l) = [decide (n = 0), decide (n = 1), decide (n = 2), decide (n = 3)])) = some true := by decide +kernel
  intro n hn
  obtain ⟨l, _, he⟩ := Option.map_eq_some_iff.1 (h n hn)
  exact ⟨_, playScript_reach wide l, of_decide_eq_true he⟩

end Verif.Props
