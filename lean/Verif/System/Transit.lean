import Verif.Props.WorkerSystem
import Verif.Props.Workers

/-!
# Counting what is under way between the scheduler and a worker
-/

namespace Verif.System

open Verif.Wire Verif.Spec

/-! ### Weights of lists -/

/-- The sum of the weights. -/
def weigh {α : Type} (f : α → Nat) (l : List α) : Nat := (l.map f).sum

theorem weigh_nil {α : Type} (f : α → Nat) : weigh f [] = 0 := rfl

theorem weigh_cons {α : Type} (f : α → Nat) (x : α) (l : List α) : weigh f (x :: l) = f x + weigh f l := by
  simp [weigh]

theorem weigh_append {α : Type} (f : α → Nat) (l l' : List α) : weigh f (l ++ l') = weigh f l + weigh f l' := by
  simp [weigh]

theorem weigh_pos {α : Type} {f : α → Nat} {l : List α} {x : α} (h : x ∈ l) : f x ≤ weigh f l := by
  induction l with
  | nil => cases h
  | cons y l ih =>
    rw [weigh_cons]
    rcases List.mem_cons.1 h with rfl | h
    · omega
    · have := ih h; omega

theorem weigh_le {α : Type} [BEq α] [LawfulBEq α] {f : α → Nat} : ∀ {l l' : List α}, (∀ x, f x ≠ 0 → l.count x ≤ l'.count x) → weigh f l ≤ weigh f l'
  | [], _, _ => Nat.zero_le _
  | x :: l, l', h => by
    by_cases hx : f x = 0
    · rw [weigh_cons, hx, Nat.zero_add]
      refine weigh_le fun y hy => Nat.le_trans ?_ (h y hy)
      rw [List.count_cons]; omega
    · have h1 := h x hx
      rw [List.count_cons_self] at h1
      have hm : x ∈ l' := List.count_pos_iff.1 (by omega)
      have hp := (List.perm_cons_erase hm).map f |>.sum_nat
      have h2 : weigh f l ≤ weigh f (l'.erase x) := by
        refine weigh_le fun y hy => ?_
        have h3 := h y hy
        rw [List.count_cons] at h3
        rw [List.count_erase]
        by_cases e : x == y
        · have := eq_of_beq e; subst this; simp at h3 ⊢; omega
        · have e' : ¬ (y == x) = true := fun e' => e (by rw [eq_of_beq e']; simp)
          simp only [e] at h3 ⊢
          omega
      rw [weigh_cons]
      simp only [weigh, List.map_cons, List.sum_cons] at hp h2 ⊢
      omega

/-! ### What peers and the scheduler send and receive -/

/-- 1 for a task named `t` -/
def taskWeight (t : Bytes) : Message → Nat
  | .task k => if k.taskId = t then 1 else 0
  | _ => 0

/-- how often a message ends the stay of the task `t` at a worker -/
def endWeight (t : Bytes) : Message → Nat
  | .taskResult i st _ _ => if i = t ∧ st ≠ .notFound then 1 else 0
  | .balanceResponse ids => ids.count t
  | _ => 0

/-- messages with a peer -/
def withPeer (w : Bytes) (l : Log) : List Message := l.filterMap fun x => if x.1 = w then some x.2 else none

theorem withPeer_count (w : Bytes) (l : Log) (m : Message) : (withPeer w l).count m = l.count (w, m) := by
  induction l with
  | nil => rfl
  | cons x l ih =>
    obtain ⟨y, n⟩ := x
    unfold withPeer at ih ⊢
    rw [List.filterMap_cons, List.count_cons]
    by_cases e : y = w
    · simp only [e, if_true, List.count_cons, ih]; simp
    · simp only [e, if_false, ih]; simp [e]

theorem withPeer_append (w : Bytes) (l l' : Log) : withPeer w (l ++ l') = withPeer w l ++ withPeer w l' := by simp [withPeer]

theorem withPeer_mem {w : Bytes} {l : Log} {m : Message} (h : (w, m) ∈ l) : m ∈ withPeer w l :=
  List.mem_filterMap.2 ⟨_, h, by simp⟩

/-- what an agent sent -/
def sentBy (l : Worker.Hist) : List Message := l.filterMap fun x => match x.2 with | .sent m => some m | _ => none

/-- what an agent received -/
def gotBy (l : Worker.Hist) : List Message := l.filterMap fun x => match x.2 with | .recv m => some m | _ => none

theorem sentBy_count (l : Worker.Hist) (m : Message) : (sentBy l).count m = l.countP fun x => decide (x.2 = .sent m) := by
  induction l with
  | nil => rfl
  | cons x l ih =>
    obtain ⟨y, n⟩ := x
    unfold sentBy at ih ⊢
    rw [List.filterMap_cons, List.countP_cons]
    cases n <;> simp [ih, List.count_cons]

theorem gotBy_count (l : Worker.Hist) (m : Message) : (gotBy l).count m = l.countP fun x => decide (x.2 = .recv m) := by
  induction l with
  | nil => rfl
  | cons x l ih =>
    obtain ⟨y, n⟩ := x
    unfold gotBy at ih ⊢
    rw [List.filterMap_cons, List.countP_cons]
    cases n <;> simp [ih, List.count_cons]

theorem weigh_sent (t : Bytes) (l : Worker.Hist) : weigh (endWeight t) (sentBy l) = Worker.times (Worker.isAnswer t) l + Worker.returned t l := by
  induction l with
  | nil => rfl
  | cons x l ih =>
    obtain ⟨y, n⟩ := x
    unfold sentBy at ih ⊢
    rw [List.filterMap_cons]
    simp only [Worker.times, Worker.returned, List.countP_cons, List.map_cons, List.sum_cons] at ih ⊢
    cases n with
    | sent m =>
      simp only [weigh_cons, ih]
      cases m <;> simp [endWeight, Worker.isAnswer, Worker.returns] <;> omega
    | recv | heard | told | started | killed => simp [ih, Worker.isAnswer, Worker.returns]

theorem weigh_got (t : Bytes) (l : Worker.Hist) : weigh (taskWeight t) (gotBy l) = Worker.times (Worker.isTask t) l := by
  induction l with
  | nil => rfl
  | cons x l ih =>
    obtain ⟨y, n⟩ := x
    unfold gotBy at ih ⊢
    rw [List.filterMap_cons]
    simp only [Worker.times, List.countP_cons] at ih ⊢
    cases n with
    | recv m =>
      simp only [weigh_cons, ih]
      cases m <;> simp [taskWeight, Worker.isTask] <;> omega
    | sent | heard | told | started | killed => simp [ih, Worker.isTask]

/-! ### Steps of the scheduler -/

variable {F V X : Type} {p : Client.Pickle} {rt : Proc.Runtime F V X} {cfg : Sched.Config} {s s' : Sys F}

/-- The scheduler did nothing, or it did one step and nobody else did anything. -/
theorem sched_moves {o : Op} (hs : s.step p rt o = some s') :
    s'.sched = s.sched ∧ s'.received = s.received ∨
    ∃ e, s.sched.step e = .ok s'.sched ∧ s'.received = s.received ++ e.input ∧ s'.peers = s.peers ∧
      ∀ x m, e.op = .recv x m → s.received.count (x, m) < (s.peers x).sent m := by
  cases o with
  | joinClient x =>
    simp only [Sys.step] at hs
    split at hs <;> cases hs
    exact .inl ⟨rfl, rfl⟩
  | joinWorker x =>
    simp only [Sys.step] at hs
    split at hs <;> cases hs
    exact .inl ⟨rfl, rfl⟩
  | leave x =>
    simp only [Sys.step] at hs
    split at hs <;> cases hs
    exact .inl ⟨rfl, rfl⟩
  | client x o =>
    left
    have hstep : ∀ {s : Sys F} {c o}, s.clientStep p x c o = some s' → s'.sched = s.sched ∧ s'.received = s.received := by
      intro s c o h
      unfold Sys.clientStep at h
      split at h <;> cases h
      exact ⟨rfl, rfl⟩
    simp only [Sys.step] at hs
    split at hs
    · unfold Sys.clientOp at hs
      split at hs
      · split at hs
        · cases hs
        · have := hstep hs; exact this
      · cases hs
      · split at hs
        · split at hs
          · cases hs
          · split at hs
            · exact hstep hs
            · cases hs
        · cases hs
      · exact hstep hs
    · cases hs
  | get x ids gid g keys =>
    left
    simp only [Sys.step] at hs
    split at hs
    · unfold Sys.getOp at hs
      split at hs
      · split at hs <;> cases hs
        exact ⟨rfl, rfl⟩
      · cases hs
    · cases hs
  | agent x e =>
    left
    have hstep : ∀ {a ret qs e}, s.agentStep x a ret qs e = some s' → s'.sched = s.sched ∧ s'.received = s.received := by
      intro a ret qs e h
      unfold Sys.agentStep at h
      split at h <;> cases h
      exact ⟨rfl, rfl⟩
    simp only [Sys.step] at hs
    split at hs
    · unfold Sys.agentOp at hs
      split at hs
      · split at hs
        · split at hs
          · cases hs
          · split at hs
            · exact hstep hs
            · cases hs
        · cases hs
      · split at hs
        · split at hs
          · cases hs
          · exact hstep hs
        · cases hs
      · exact hstep hs
    · cases hs
  | proc x n e =>
    left
    have hstep : ∀ {a ret qs q e}, s.procStep rt x a ret qs n q e = some s' → s'.sched = s.sched ∧ s'.received = s.received := by
      intro a ret qs q e h
      unfold Sys.procStep at h
      split at h <;> cases h
      exact ⟨rfl, rfl⟩
    simp only [Sys.step] at hs
    split at hs
    · unfold Sys.procOp at hs
      split at hs
      · split at hs
        · cases hs
        · split at hs
          · split at hs
            · split at hs
              · cases hs
              · exact hstep hs
            · cases hs
          · exact hstep hs
      · cases hs
    · cases hs
  | sched e =>
    right
    simp only [Sys.step] at hs
    unfold Sys.schedStep at hs
    obtain ⟨op, now, ord⟩ := e
    split at hs
    · next x m hop =>
      split at hs
      · next hlt =>
        split at hs
        · cases hs
        · next y m' hc =>
          have := carryIn_eq hc
          cases this
          split at hs
          · next t ht => cases hs; exact ⟨_, ht, rfl, rfl, fun x' m'' hx => by cases hx; exact hlt⟩
          · cases hs
      · cases hs
    · next hop =>
      split at hs
      · next t ht =>
        cases hs
        refine ⟨_, ht, ?_, rfl, fun x m hx => absurd hx (hop x m)⟩
        cases op with
        | recv x m => exact absurd rfl (hop x m)
        | _ => exact (List.append_nil _).symm
      · cases hs

/-- A task is at a worker after a step: it was sent there by the step, or it was there before and the step did not
take it away. -/
theorem step_assigned {l : Log} {s s' : Sched.Sched} (hr : Sched.Reach cfg l s) {e : Sched.Event} (ha : ∀ m ∈ e.input, Allowed l s.out m)
    (hs : s.step e = .ok s') {t w : Bytes} (hw : Props.workerOf s' t = some w) :
    ∃ l', s'.out = s.out ++ l' ∧
      ((∃ k, k.taskId = t ∧ (w, Message.task k) ∈ l') ∨ Props.workerOf s t = some w ∧ ∀ x ∈ e.input, endWeight t x.2 = 0) := by
  have hg := hr.good
  have hA := (Sched.step_post hg e ha).ok hs
  obtain ⟨l', e', hl⟩ := hA.steps.placed
  refine ⟨l', e', ?_⟩
  rcases hl t w hw with hw' | hk
  · right
    refine ⟨hw', ?_⟩
    obtain ⟨op, now, o⟩ := e
    cases op with
    | recv x m =>
      intro y hy
      rw [List.mem_singleton.1 hy]
      cases m with
      | taskResult i st d r =>
        by_cases hi : i = t
        · subst hi
          exfalso
          have hsp := Sched.Sched.onTaskResult_spec (w0 := x) (r := ⟨i, st, d, r⟩) hg.conc
            (hg.inv.mono (Sched.Event.hist_mem ⟨.recv x (.taskResult i st d r), now, o⟩ l)) hg.settled o now (by
              show _ ∈ l ++ [(x, Message.taskResult i st d r)]
              simp [Sched.TaskRes.msg])
          have hE := (hsp.ok hs).2.2.1 (by
            show (s.abs.worker i).isSome
            rw [show s.abs.worker i = some w from hw']; rfl)
          obtain ⟨k, hk⟩ := hE.again w hw
          obtain ⟨l'', e'', hl''⟩ := (Py.Post.ok (Sched.step_keeps hg.conc hg.settled ⟨.recv x (.taskResult i st d r), now, o⟩ rfl) hs).said
          rw [show s'.abs.out = s.out ++ l'' from e'', show s.abs.out = s.out from rfl, List.drop_left] at hk
          cases hl'' w k hk
        · simp [endWeight, hi]
      | balanceResponse ids =>
        by_cases hi : t ∈ ids
        · exfalso
          obtain ⟨ts, h1, h2, -⟩ := (Props.C20_balance_response_partial cfg l s hr ⟨.recv x (.balanceResponse ids), now, o⟩ x ids rfl).1 s' hs
          have := h1.worker t
          rw [if_pos ((h2 t).2 ⟨hi, w, hw'⟩), hw] at this
          cases this
        · simp [endWeight, List.count_eq_zero_of_not_mem hi]
      | _ => rfl
    | _ => intro y hy; cases hy
  · exact .inl hk

end Verif.System
