import Verif.System.SystemStep
import Verif.Sched.Peers

/-!
# Echoes follow tasks

In a system of this scheduler, these clients and these workers, the echo for a task does not come before the task was
sent.  So a task that `submit` has not put anywhere yet has no echo.
-/

namespace Verif.System

open Verif.Wire Verif.Sched Verif.Spec
open Verif.Client (Pickle usedIds)

variable {F V X : Type} {p : Pickle} {rt : Proc.Runtime F V X} {cfg : Config} {s s' : Sys F}

/-- How a client came to its state. -/
inductive Came (p : Pickle) (s : Sys F) (x : Bytes) (c' : Client.Client) : Prop where
  | new (h : c' = .init)
  | same (h : s.peers x = .client c')
  | step (c : Client.Client) (o : Client.Op) (h : s.peers x = .client c) (hs : c.step p o = .ok c')
      (hsub : ∀ t nm b args, o = .submit t nm b args → t ∉ s.used) (hrecv : ∀ m, o = .recv m → (s.peers x).got m < s.sched.out.count (x, m))

theorem Came.setPeer {x y : Bytes} {P : Peer F} {c' : Client.Client} (h : ((s.setPeer x P).peers y) = .client c')
    (hP : x = y → P = .client c' → Came p s y c') : Came p s y c' := by
  simp only [Sys.setPeer] at h
  split at h
  · next e => exact hP e.symm h
  · exact .same h

theorem clientOp_came {x : Bytes} {c : Client.Client} (hx : s.peers x = .client c) {o : Client.Op} (hs : s.clientOp p x c o = some s')
    {y : Bytes} {c' : Client.Client} (hy : s'.peers y = .client c') : Came p s y c' := by
  unfold Sys.clientOp at hs
  split at hs
  · next t nm b args =>
    split at hs
    · cases hs
    · next hfresh =>
      rw [not_or] at hfresh
      obtain ⟨c1, hc, rfl⟩ := clientStep_some hs
      have hy' : ((s.setPeer x (.client c1)).peers y) = .client c' := hy
      refine Came.setPeer hy' fun e e' => ?_
      subst e; cases e'
      exact .step c _ hx hc (fun _ _ _ _ e => by cases e; exact hfresh.1) (fun _ e => by cases e)
  · cases hs
  · next m =>
    split at hs
    · next hgot =>
      split at hs
      · cases hs
      · next y' m' hcar =>
        have := carryOut_eq hcar
        cases this
        rw [if_pos rfl] at hs
        obtain ⟨c1, hc, rfl⟩ := clientStep_some hs
        refine Came.setPeer hy fun e e' => ?_
        subst e; cases e'
        exact .step c _ hx hc (fun _ _ _ _ e => by cases e) (fun _ e => by cases e; exact hgot)
    · cases hs
  · next o h1 h2 h3 =>
    obtain ⟨c1, hc, rfl⟩ := clientStep_some hs
    refine Came.setPeer hy fun e e' => ?_
    subst e; cases e'
    exact .step c _ hx hc (fun _ _ _ _ e => absurd e (h1 _ _ _ _)) (fun _ e => absurd e (h3 _))

theorem step_came {o : Op} (hs : s.step p rt o = some s') {y : Bytes} {c' : Client.Client} (hy : s'.peers y = .client c') :
    Came p s y c' := by
  cases o with
  | joinClient x =>
    simp only [Sys.step] at hs
    split at hs
    · cases hs
      refine Came.setPeer hy fun e e' => ?_
      cases e'; exact .new rfl
    · cases hs
  | joinWorker x d ret now =>
    simp only [Sys.step] at hs
    split at hs
    · cases hs
      exact Came.setPeer hy fun e e' => by cases e'
    · cases hs
  | sched e =>
    simp only [Sys.step, Sys.schedStep] at hs
    refine .same ?_
    rw [← hy]
    split at hs
    · split at hs
      · split at hs
        · cases hs
        · split at hs
          · cases hs; rfl
          · cases hs
      · cases hs
    · split at hs
      · cases hs; rfl
      · cases hs
  | client x o =>
    simp only [Sys.step] at hs
    split at hs
    · next c hx => exact clientOp_came hx hs hy
    · cases hs
  | get x ids gid g keys =>
    simp only [Sys.step] at hs
    split at hs
    · next c hx =>
      simp only [Sys.getOp] at hs
      split at hs
      · next hc =>
        split at hs
        · next m c1 ret hm hcall =>
          cases hs
          simp only [Client.Client.callGet, Py.bind_ok] at hcall
          obtain ⟨m', hm', hcall⟩ := hcall
          cases hcall
          have hy' : ((s.setPeer x (.client (c.get m'))).peers y) = .client c' := hy
          refine Came.setPeer hy' fun e e' => ?_
          subst e; cases e'
          exact .step c (.get m') hx (by simp [Client.Client.step, hc.1]) (fun _ _ _ _ e => by cases e) (fun _ e => by cases e)
        · cases hs
      · cases hs
    · cases hs
  | agent x e =>
    simp only [Sys.step] at hs
    split at hs
    · next a ret qs hx =>
      have key : ∀ e', s.agentStep x a ret qs e' = some s' → Came p s y c' := by
        intro e' hs
        unfold Sys.agentStep at hs
        split at hs
        · cases hs
          exact Came.setPeer hy fun e e' => by cases e'
        · cases hs
      unfold Sys.agentOp at hs
      split at hs
      · split at hs
        · split at hs
          · cases hs
          · split at hs
            · exact key _ hs
            · cases hs
        · cases hs
      · split at hs
        · split at hs
          · cases hs
          · exact key _ hs
        · cases hs
      · exact key _ hs
    · cases hs
  | proc x n e =>
    simp only [Sys.step] at hs
    split at hs
    · next a ret qs hx =>
      have key : ∀ q e', s.procStep rt x a ret qs n q e' = some s' → Came p s y c' := by
        intro q e' hs
        unfold Sys.procStep at hs
        split at hs
        · cases hs
          exact Came.setPeer hy fun e e' => by cases e'
        · cases hs
      unfold Sys.procOp at hs
      split at hs
      · split at hs
        · cases hs
        · split at hs
          · split at hs
            · split at hs
              · cases hs
              · exact key _ _ hs
            · cases hs
          · exact key _ _ hs
      · cases hs
    · cases hs
  | leave x =>
    simp only [Sys.step] at hs
    split at hs
    · cases hs
      exact Came.setPeer hy fun e e' => by cases e'
    · cases hs

/-- Where a task that `submit` has not put anywhere comes from. -/
theorem step_unsent {c c' : Client.Client} {o : Client.Op} (e : c.step p o = .ok c') {k : Task} (hk : c'.user.unsent? = some k) :
    c.user.unsent? = some k ∨ ∃ nm b args, o = .submit k.taskId nm b args := by
  cases o with
  | submit t nm b args =>
    simp only [Client.Client.step] at e
    split at e
    · cases e
      simp only [Client.Client.submit, Client.Client.note, Client.User.unsent?] at hk
      cases hk
      exact .inr ⟨nm, b, args, rfl⟩
    · cases e; exact .inl hk
  | get g =>
    simp only [Client.Client.step] at e
    split at e
    · cases e
      simp [Client.Client.get, Client.Client.note, Client.Client.send, Client.User.unsent?] at hk
    · cases e; exact .inl hk
  | advance =>
    simp only [Client.Client.step, Client.Client.advance] at e
    split at e
    · cases e; exact .inl hk
    · next h => cases e; rw [h]; exact .inl hk
    · next h =>
      cases e; rw [h]
      simp only at hk
      split at hk <;> exact .inl hk
    · next h =>
      obtain ⟨c1, -, e⟩ := Py.bind_ok.mp e
      cases e; rw [h]; exact .inl hk
    · cases e; simp [Client.User.unsent?] at hk
    · cases e; simp [Client.User.unsent?] at hk
    · cases e; simp [Client.User.unsent?] at hk
  | cancel n => simp only [Client.Client.step] at e; cases e; exact .inl hk
  | disconnect => simp only [Client.Client.step] at e; cases e; exact .inl hk
  | recv m =>
    simp only [Client.Client.step] at e
    split at e
    · cases e; exact .inl hk
    · rw [(Client.receive_out e).1] at hk; exact .inl hk
  | flush =>
    simp only [Client.Client.step] at e
    split at e
    · cases e; exact .inl hk
    · unfold Client.Client.flush at e
      split at e
      · cases e; exact .inl hk
      · obtain ⟨_, -, e⟩ := Py.bind_ok.mp e
        cases e; exact .inl hk
  | exit =>
    simp only [Client.Client.step] at e
    split at e
    · unfold Client.Client.exit at e
      obtain ⟨c1, h1, e⟩ := Py.bind_ok.mp e
      obtain ⟨c2, h2, e⟩ := Py.bind_ok.mp e
      cases e
      have hk' : c2.user.unsent? = some k := hk
      rw [(Client.exitGraphs_same h2).2.2.1, (Client.exitTasks_same h1).2.2.1] at hk'
      exact .inl hk'
    · cases e; exact .inl hk

/-- The client has received no echo for this task. -/
def Silent (c : Client.Client) (t : Bytes) : Prop := ∀ st, Client.Act.recv (.taskEcho t st) ∉ c.log

/-- Whoever got an echo has sent the task, or a graph with it. -/
theorem Inv.echo_used (h : Inv p rt cfg s) {x t : Bytes} {st : TaskEchoStatus} (hm : (x, .taskEcho t st) ∈ s.sched.out) :
    ∃ c, s.peers x = .client c ∧ ((∃ k, Client.Act.sent (.task k) ∈ c.log ∧ k.taskId = t) ∨
      ∃ g, Client.Act.graph g ∈ c.log ∧ t ∈ Spec.graphIds g) := by
  rcases h.sched.peers.out _ _ hm with ⟨k, hk, rfl⟩ | ⟨g, hg, ht⟩
  · have h1 := h.received hk
    obtain ⟨c, nm, b, hx, -, -⟩ := h.taskSent h1
    refine ⟨c, hx, .inl ⟨k, ?_, rfl⟩⟩
    rw [hx] at h1
    obtain ⟨a, ha, he⟩ := List.countP_pos_iff.1 h1
    rw [← of_decide_eq_true he]; exact ha
  · obtain ⟨c, hx, hc⟩ := h.graphSent (h.received hg)
    exact ⟨c, hx, .inr ⟨g, hc, List.mem_cons_of_mem _ ht⟩⟩

/-- A task that `submit` has not put anywhere has no echo. -/
theorem Inv.unsent_echo (h : Inv p rt cfg s) {x : Bytes} {c : Client.Client} (hx : s.peers x = .client c) {k : Task}
    (hk : c.user.unsent? = some k) (hq : Silent c k.taskId) (st : TaskEchoStatus) : (x, .taskEcho k.taskId st) ∉ s.sched.out := by
  intro hm
  have hr := h.client hx
  obtain ⟨nm, b, hsub, -⟩ := hr.task.user k (by revert hk; cases c.user <;> simp [Client.User.unsent?, Client.User.task?])
  obtain ⟨c1, hx1, hc⟩ := h.echo_used hm
  rw [hx] at hx1; cases hx1
  rcases hc with ⟨k', hs, ht⟩ | ⟨g, hg, ht⟩
  · have h1 := hr.count k.taskId
    have h2 : c.log.countP (Spec.Client.isRefused k.taskId) = 0 := by
      refine countP_none fun y hy => ?_
      unfold Spec.Client.isRefused
      split
      · next i =>
        refine decide_eq_false fun e => ?_
        subst e
        exact hq _ hy
      · rfl
    have h3 : c.log.countP (Spec.Client.isSubmit k.taskId) ≤ 1 :=
      Nat.le_trans (Client.countP_submit_le _ _) (by
        have := hr.ids
        have e : (usedIds c.log).countP (fun i => decide (i = k.taskId)) = (usedIds c.log).count k.taskId := by
          simp only [List.count]; congr; funext i; rw [Bool.eq_iff_iff]; simp
        rw [e]
        exact List.nodup_iff_count.1 this _)
    have h4 : 0 < c.log.countP (Spec.Client.isSent k.taskId) :=
      List.countP_pos_iff.2 ⟨_, hs, by simp [Spec.Client.isSent, ht]⟩
    rw [hk] at h1
    simp only [Client.userCount, if_true] at h1
    omega
  · exact submitted_graph hr.ids hsub hg ht

/-- In every execution a task that `submit` has not put anywhere has no echo. -/
theorem Reach.causal (h : Reach p rt cfg s) : ∀ x c k, s.peers x = .client c → c.user.unsent? = some k → Silent c k.taskId := by
  induction h with
  | init => intro x c k hx; cases hx
  | @step s s' o hr hs ih =>
    intro x c' k hx hk st hmem
    cases step_came hs hx with
    | new e => subst e; simp [Client.Client.init] at hmem
    | same e => exact ih x c' k e hk st hmem
    | step c o e hc hsub hrecv =>
      have hlog := Client.step_recv hc (.taskEcho k.taskId st)
      have hpos : 0 < c'.log.countP fun y => decide (y = .recv (.taskEcho k.taskId st)) := List.countP_pos_iff.2 ⟨_, hmem, by simp⟩
      rcases step_unsent hc hk with hk' | ⟨nm, b, args, rfl⟩
      · have hq := ih x c k e hk'
        have h0 : (c.log.countP fun y => decide (y = .recv (.taskEcho k.taskId st))) = 0 :=
          countP_none fun y hy => decide_eq_false fun e => hq st (e ▸ hy)
        have : o = .recv (.taskEcho k.taskId st) := by
          by_cases ho : o = .recv (.taskEcho k.taskId st)
          · exact ho
          · rw [if_neg ho] at hlog; omega
        have h2 := hrecv _ this
        exact hr.inv.unsent_echo e hk' hq st (List.count_pos_iff.1 (by omega))
      · rw [if_neg (by simp)] at hlog
        have h1 : 0 < (s.peers x).got (.taskEcho k.taskId st) := by
          rw [e]; simp only [Peer.got]; omega
        have h2 : (x, .taskEcho k.taskId st) ∈ s.sched.out := List.count_pos_iff.1 (Nat.lt_of_lt_of_le h1 (hr.inv.got _ _))
        obtain ⟨c1, hx1, hu⟩ := hr.inv.echo_used h2
        rw [e] at hx1; cases hx1
        refine hsub _ _ _ _ rfl (hr.inv.ids x k.taskId ?_).1
        rcases hu with ⟨k', hs', ht⟩ | ⟨g, hg, ht⟩
        · have h3 : 0 < (s.peers x).sent (.task k') := by
            rw [e]; exact List.countP_pos_iff.2 ⟨_, hs', by simp⟩
          obtain ⟨c2, nm', b', hx2, hsb, -⟩ := hr.inv.taskSent h3
          rw [← ht]
          exact Inv.submitted_id hx2 hsb
        · exact Inv.graph_id e hg ht

end Verif.System
