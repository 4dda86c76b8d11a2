import Verif.System.Transit
import Verif.System.Causal
import Verif.Client.ClientPlace
import Verif.Client.ClientIo
import Verif.Sched.Source

/-!
# Counting what is under way between a client and the scheduler
-/

namespace Verif.System

open Verif.Wire Verif.Sched Verif.Spec
open Verif.Client (Pickle usedIds)

variable {F V X : Type} {p : Pickle} {rt : Proc.Runtime F V X} {cfg : Config} {s s' : Sys F}

/-- what a client received -/
def clientGot (l : List Client.Act) : List Message := l.filterMap fun x => match x with | .recv m => some m | _ => none

/-- what a client sent -/
def clientPut (l : List Client.Act) : List Message := l.filterMap fun x => match x with | .sent m => some m | _ => none

theorem clientGot_count (l : List Client.Act) (m : Message) : (clientGot l).count m = l.countP fun x => decide (x = .recv m) := by
  induction l with
  | nil => rfl
  | cons x l ih =>
    unfold clientGot at ih ⊢
    rw [List.filterMap_cons, List.countP_cons]
    cases x <;> simp [ih, List.count_cons]

theorem clientPut_count (l : List Client.Act) (m : Message) : (clientPut l).count m = l.countP fun x => decide (x = .sent m) := by
  induction l with
  | nil => rfl
  | cons x l ih =>
    unfold clientPut at ih ⊢
    rw [List.filterMap_cons, List.countP_cons]
    cases x <;> simp [ih, List.count_cons]

theorem clientGot_snoc (l : List Client.Act) (x : Client.Act) : clientGot (l ++ [x]) = clientGot l ++ clientGot [x] := by simp [clientGot]
theorem clientPut_snoc (l : List Client.Act) (x : Client.Act) : clientPut (l ++ [x]) = clientPut l ++ clientPut [x] := by simp [clientPut]

/-- 1 for an echo for the task `t` -/
def echoWeight (t : Bytes) : Message → Nat
  | .taskEcho i _ => if i = t then 1 else 0
  | _ => 0

/-- messages with a peer weigh no more than all messages -/
theorem weigh_withPeer_le (x : Bytes) (f : Message → Nat) (l : Log) : weigh f (withPeer x l) ≤ weigh (fun y => f y.2) l := by
  induction l with
  | nil => exact Nat.le_refl _
  | cons y l ih =>
    unfold withPeer at ih ⊢
    rw [List.filterMap_cons, weigh_cons]
    by_cases e : y.1 = x
    · simp only [e, if_true, weigh_cons]; omega
    · simp only [e, if_false]; omega

theorem weigh_echo (t : Bytes) (l : Log) : weigh (fun y => echoWeight t y.2) l = acks anyone t l + refusals t l := by
  induction l with
  | nil => rfl
  | cons y l ih =>
    obtain ⟨c, m⟩ := y
    simp only [acks, refusals, List.countP_cons] at ih ⊢
    rw [weigh_cons, ih]
    cases m with
    | taskEcho i st =>
      cases st <;> by_cases e : i = t <;> simp [echoWeight, isAck, isRefusal, anyone, e] <;> omega
    | _ => simp [echoWeight, isAck, isRefusal]

theorem weigh_submit (t : Bytes) (l : Log) : weigh (fun y => taskWeight t y.2) l = submits t l := by
  induction l with
  | nil => rfl
  | cons y l ih =>
    obtain ⟨c, m⟩ := y
    simp only [submits, List.countP_cons] at ih ⊢
    rw [weigh_cons, ih]
    cases m with
    | task k => by_cases e : k.taskId = t <;> simp [taskWeight, isSubmit, e] <;> omega
    | _ => simp [taskWeight, isSubmit]

/-- messages that all come from one peer -/
theorem weigh_withPeer_eq {x : Bytes} {f : Message → Nat} {l : Log} (h : ∀ y ∈ l, f y.2 ≠ 0 → y.1 = x) :
    weigh f (withPeer x l) = weigh (fun y => f y.2) l := by
  induction l with
  | nil => rfl
  | cons y l ih =>
    have ih := ih fun z hz => h z (List.mem_cons_of_mem _ hz)
    have h1 := h y List.mem_cons_self
    unfold withPeer at ih ⊢
    rw [List.filterMap_cons, weigh_cons]
    by_cases e : y.1 = x
    · simp only [e, if_true, weigh_cons, ih]
    · have : f y.2 = 0 := Classical.byContradiction fun h2 => e (h1 h2)
      simp only [e, if_false, ih, this]; omega

/-- A task is submitted by one client only. -/
theorem submits_from (h : Inv p rt cfg s) {x : Bytes} {c : Client.Client} (hx : s.peers x = .client c) {k : Task} {nm b : Bytes}
    (hk : Client.Act.submitted k nm b ∈ c.log) {y : Bytes} {k' : Task} (hy : (y, .task k') ∈ s.received) (ht : k'.taskId = k.taskId) : y = x := by
  obtain ⟨c', nm', b', hy', hk', -⟩ := h.taskSent (h.received hy)
  refine h.same (t := k.taskId) ?_ (Inv.submitted_id hx hk)
  rw [← ht]
  exact Inv.submitted_id hy' hk'

theorem submits_peer (h : Inv p rt cfg s) {x : Bytes} {c : Client.Client} (hx : s.peers x = .client c) {k : Task} {nm b : Bytes}
    (hk : Client.Act.submitted k nm b ∈ c.log) : weigh (taskWeight k.taskId) (withPeer x s.received) = submits k.taskId s.received := by
  rw [← weigh_submit]
  refine weigh_withPeer_eq ?_
  rintro ⟨y, m⟩ hy hm
  cases m with
  | task k' =>
    by_cases e : k'.taskId = k.taskId
    · exact submits_from h hx hk hy e
    · simp [taskWeight, e] at hm
  | _ => exact absurd rfl hm

/-- A client has not received more echoes for a task than it sent the task. -/
theorem echoes_le (h : Inv p rt cfg s) {x : Bytes} {c : Client.Client} (hx : s.peers x = .client c) {k : Task} {nm b : Bytes}
    (hk : Client.Act.submitted k nm b ∈ c.log) :
    weigh (echoWeight k.taskId) (clientGot c.log) ≤ weigh (taskWeight k.taskId) (clientPut c.log) := by
  have h1 : weigh (echoWeight k.taskId) (clientGot c.log) ≤ weigh (echoWeight k.taskId) (withPeer x s.sched.out) := weigh_le fun m _ => by
    rw [clientGot_count, withPeer_count]
    have := h.got x m
    rwa [hx] at this
  have h2 := weigh_withPeer_le x (echoWeight k.taskId) s.sched.out
  rw [weigh_echo, ← h.sched.good.echo _ (h.notInGraph hx hk), ← submits_peer h hx hk] at h2
  have h3 : weigh (taskWeight k.taskId) (withPeer x s.received) ≤ weigh (taskWeight k.taskId) (clientPut c.log) := weigh_le fun m _ => by
    rw [clientPut_count, withPeer_count]
    have := h.heard x m
    rwa [hx] at this
  omega

/-- Entries that are neither echoes nor tasks change no count. -/
theorem calm_counts {xs : List Client.Act} (h : ∀ y ∈ xs, Client.Calm y) (t : Bytes) (l : List Client.Act) :
    Spec.Client.lastCopy t (l ++ xs) = Spec.Client.lastCopy t l ∧ weigh (echoWeight t) (clientGot (l ++ xs)) = weigh (echoWeight t) (clientGot l) ∧
    weigh (taskWeight t) (clientPut (l ++ xs)) = weigh (taskWeight t) (clientPut l) := by
  induction xs generalizing l with
  | nil => simp
  | cons y xs ih =>
    have ih := ih (fun z hz => h z (List.mem_cons_of_mem _ hz)) (l ++ [y])
    rw [List.append_assoc, List.singleton_append] at ih
    obtain ⟨h1, h2, h3⟩ := ih
    rw [h1, h2, h3, Client.lastCopy_snoc, clientGot_snoc, clientPut_snoc, weigh_append, weigh_append]
    have hy := h y List.mem_cons_self
    cases y with
    | sent m => cases m <;> first | exact hy.elim | exact ⟨rfl, rfl, rfl⟩
    | recv m => exact hy.elim
    | graph g => exact hy.elim
    | started g ns => exact hy.elim
    | _ => exact ⟨rfl, rfl, rfl⟩

/-- The last copy is under way only if more copies were sent than echoes came. -/
theorem flying_lt (hr : Reach p rt cfg s) {x : Bytes} {c : Client.Client} (hx : s.peers x = .client c) {t : Bytes}
    (hf : Spec.Client.lastCopy t c.log = .flying) :
    weigh (echoWeight t) (clientGot c.log) < weigh (taskWeight t) (clientPut c.log) := by
  induction hr generalizing c with
  | init => cases hx
  | @step s s' o' hr hs ih =>
    cases step_came hs hx with
    | new e => subst e; cases hf
    | same e => exact ih e hf
    | step c0 o e hc hsub hrecv =>
      have h := hr.inv
      cases Client.step_io hc with
      | quiet xs ms h1 h2 =>
        obtain ⟨e1, e2, e3⟩ := calm_counts h2 t c0.log
        rw [h1] at hf ⊢
        rw [e1] at hf
        rw [e2, e3]
        exact ih e hf
      | get g h1 h2 =>
        rw [h2, Client.lastCopy_snoc] at hf
        rw [h2, clientGot_snoc, clientPut_snoc, weigh_append, weigh_append]
        exact ih e hf
      | started g ns h1 h2 =>
        rw [h2, Client.lastCopy_snoc] at hf
        rw [h2, clientGot_snoc, clientPut_snoc, weigh_append, weigh_append]
        exact ih e hf
      | recv m ms h1 h2 =>
        rw [h2, Client.lastCopy_snoc] at hf
        rw [h2, clientGot_snoc, clientPut_snoc, weigh_append, weigh_append]
        cases m with
        | taskEcho i st =>
          by_cases hi : i = t
          · simp [Spec.Client.copyStep, hi] at hf
          · simp only [Spec.Client.copyStep, hi, if_false] at hf
            have := ih e hf
            simpa [clientGot, clientPut, weigh, echoWeight, hi] using this
        | _ => exact ih e hf
      | flush m h1 h2 =>
        rw [h1, Client.lastCopy_snoc] at hf
        cases m with
        | task k =>
          by_cases hi : k.taskId = t
          · subst hi
            have hsent : 0 < (s'.peers x).sent (.task k) := by
              rw [hx]; exact List.countP_pos_iff.2 ⟨_, by rw [h1]; exact List.mem_append_right _ List.mem_cons_self, by simp⟩
            obtain ⟨c1, nm, b, hx1, hk, -⟩ := (System.Reach.step o' hr hs).inv.taskSent hsent
            rw [hx] at hx1; cases hx1
            have hk0 : Client.Act.submitted k nm b ∈ c0.log := by
              rw [h1] at hk
              rcases List.mem_append.1 hk with hk | hk
              · exact hk
              · cases List.mem_singleton.1 hk
            have := echoes_le h e hk0
            rw [h1, clientGot_snoc, clientPut_snoc, weigh_append, weigh_append]
            simp only [clientGot, clientPut, List.filterMap_cons, List.filterMap_nil, weigh_cons, weigh_nil, taskWeight, if_true] at this ⊢
            omega
          · simp only [Spec.Client.copyStep, hi, if_false] at hf
            have := ih e hf
            rw [h1, clientGot_snoc, clientPut_snoc, weigh_append, weigh_append]
            simpa [clientGot, clientPut, weigh, taskWeight, hi] using this
        | _ =>
          rw [h1, clientGot_snoc, clientPut_snoc, weigh_append, weigh_append]
          exact ih e hf

end Verif.System
