import Verif.Sched.Exec

/-!
# What a worker that stays connected keeps

A task that the scheduler assigned to a worker stays assigned until it is finished, given back by the worker, or the
scheduler gives up the worker (/repo/scaled/scheduler/worker_manager.py lines 66-106, 137-170).
-/

namespace Verif.Sched

open Verif Verif.Wire Verif.Spec

variable {h : History} {a b : Abs}

theorem one_ack (c t : Bytes) : 1 ≤ acks anyone t [(c, .taskEcho t .submitOK)] := by simp [acks, isAck, anyone]

/-- A new task is acknowledged, and only tasks in the tables are sent. -/
theorem AStep.mark (hs : AStep h a b) (hi : Inv h a) : ∃ l, b.out = a.out ++ l ∧
    (∀ t, (b.tasks t).isSome → (a.tasks t).isSome ∨ 1 ≤ acks anyone t l) ∧
    ∀ w k, (w, Message.task k) ∈ l → (a.tasks k.taskId).isSome := by
  cases hs with
  | say c m hm =>
    refine ⟨_, rfl, fun t ht => .inl ht, fun w k hk => ?_⟩
    have := List.mem_singleton.1 hk
    cases this
    exact hm.elim
  | halt t w => exact ⟨_, rfl, fun t ht => .inl ht, fun w k hk => by simp at hk⟩
  | refuse c k st => exact ⟨_, rfl, fun t ht => .inl ht, fun w k hk => by simp at hk⟩
  | accept c k =>
    refine ⟨_, rfl, fun t ht => ?_, fun w k hk => by simp at hk⟩
    by_cases e : t = k.taskId
    · right; rw [e]; exact one_ack c _
    · left; simpa [Abs.accept, upd_apply, Ne.symm e] using ht
  | place k w hp =>
    refine ⟨_, rfl, fun t ht => .inl ht, fun w k hk => ?_⟩
    have := List.mem_singleton.1 hk
    cases this
    rw [hi.pend k hp]; rfl
  | answer r c =>
    refine ⟨_, rfl, fun t ht => .inl ?_, fun w k hk => by simp [TaskRes.msg] at hk⟩
    rw [show ({ a.retire r.taskId r.status with out := a.out ++ [(c, r.msg)] } : Abs).tasks = upd a.tasks r.taskId none from rfl, upd_apply] at ht
    split at ht
    · cases ht
    · exact ht
  | nodeDone r gid g i st so =>
    refine ⟨[], ?_, fun t ht => .inl ?_, by simp⟩
    · simp [Abs.retire]
    · simp only [Abs.retire, upd_apply] at ht
      split at ht
      · cases ht
      · exact ht
  | launch gid g t i k g' gone hg ht hi' ho hk =>
    refine ⟨_, rfl, fun t ht => ?_, fun w k hk => by simp at hk⟩
    by_cases e : t = k.taskId
    · right; rw [e]; exact one_ack _ _
    · left; simpa [Abs.accept, upd_apply, Ne.symm e] using ht
  | reject => exact ⟨_, rfl, fun t ht => .inl ht, fun w k hk => by simp at hk⟩
  | clean gid g ids ans hg hids hn hw ha he =>
    refine ⟨_, rfl, fun t ht => .inl ht, fun w k hk => ?_⟩
    rcases List.mem_append.1 hk with hk | hk
    · obtain ⟨t, _, ht⟩ := List.mem_filterMap.1 hk
      split at ht
      · split at ht
        · obtain ⟨w, _, e⟩ := Option.map_eq_some_iff.1 ht
          cases e
        · cases ht
      · cases ht
    · cases ha <;> simp at hk
  | _ => exact ⟨[], by simp [Abs.unpack], fun t ht => .inl ht, by simp⟩

/-- A task that is known or was ever sent to a worker was acknowledged. -/
def Born (t : Bytes) (a : Abs) : Prop :=
  (a.tasks t).isSome ∨ (∃ w k, k.taskId = t ∧ (w, Message.task k) ∈ a.out) → 1 ≤ acks anyone t a.out

theorem AStep.born (hs : AStep h a b) (hi : Inv h a) {t : Bytes} (hb : Born t a) : Born t b := by
  obtain ⟨l, e, h1, h2⟩ := hs.mark hi
  intro hx
  rw [e, acks_append]
  rcases hx with hx | ⟨w, k, hk, hm⟩
  · rcases h1 t hx with h3 | h3
    · have := hb (.inl h3); omega
    · omega
  · rw [e] at hm
    rcases List.mem_append.1 hm with hm | hm
    · have := hb (.inr ⟨w, k, hk, hm⟩); omega
    · have := hb (.inl (hk ▸ h2 w k hm)); omega

/-- What becomes of an assigned task in a step. -/
theorem AStep.stays (hs : AStep h a b) (hi : Inv h a) {t w : Bytes} (hw : a.worker t = some w) :
    b.worker t = some w ∨ (b.tasks t = none ∧ ∃ x st d r, (x, .taskResult t st d r) ∈ h) ∨ (∃ x ids, h.sub = some (x, .balanceResponse ids) ∧ t ∈ ids) ∨
    (∀ x b, h.sub ≠ some (x, .heartbeat b)) ∧ b.up w = false := by
  have key : ∀ r, Ends h a r → t = r.taskId → ∃ x st d y, (x, Message.taskResult t st d y) ∈ h := by
    rintro r ⟨-, ⟨⟨x, hx⟩, -⟩ | ⟨-, hq, -⟩⟩ e
    · exact ⟨x, r.status, r.duration, r.result, by rw [e]; exact hx⟩
    · rw [← e] at hq
      rw [(hi.apart t hq).2] at hw
      cases hw
  cases hs with
  | requeue ts up' hn ht hu hd hy =>
    by_cases e : t ∈ ts
    · rcases hy t e with h1 | ⟨h1, w', h2, h3⟩
      · exact .inr (.inr (.inl h1))
      · rw [hw] at h2
        cases h2
        exact .inr (.inr (.inr ⟨h1, h3⟩))
    · left; simpa [e] using hw
  | place k w' hp =>
    by_cases e : t = k.taskId
    · have := hi.apart' t (by simp [Abs.pendId, hp, e])
      rw [hw] at this
      cases this
    · left; simpa [upd_apply, Ne.symm e] using hw
  | answer r c he =>
    by_cases e : t = r.taskId
    · right; left; exact ⟨by simp [Abs.retire, upd_apply, e], key r he e⟩
    · left; simpa [Abs.retire, upd_apply, Ne.symm e] using hw
  | nodeDone r gid g i st so he =>
    by_cases e : t = r.taskId
    · right; left; exact ⟨by simp [Abs.retire, upd_apply, e], key r he e⟩
    · left; simpa [Abs.retire, upd_apply, Ne.symm e] using hw
  | _ => exact .inl hw

/-! ### Whole events -/

variable {cfg : Config} {l : Log} {s s' : Sched} {e : Event}

theorem Reach.born (hr : Reach cfg l s) (t : Bytes) : Born t s.abs := by
  induction hr with
  | init => rintro (h | ⟨w, k, -, h⟩) <;> cases h
  | @step l s s' e hr ha hs ih =>
    exact ((step_post hr.good e ha).ok hs).steps.lift (P := Born t) (fun a b x y z => x.born y z) (hr.good.inv.mono (e.hist_mem l)) ih

theorem AStep.acks_mono (hs : AStep h a b) (t : Bytes) : acks anyone t a.out ≤ acks anyone t b.out := by
  obtain ⟨l, e, -⟩ := hs.says
  rw [e, acks_append]; omega

/-- An assigned task stays assigned to its worker, unless it is finished, given back, or the worker is given up. -/
theorem step_stays (hr : Reach cfg l s) (ha : ∀ m ∈ e.input, Allowed l s.out m) (hs : s.step e = .ok s') {t w : Bytes}
    (hk : acks anyone t s'.out ≤ 1) (hw : s.abs.worker t = some w) :
    s'.abs.worker t = some w ∨ (s'.abs.tasks t = none ∧ ∃ x st d r, (x, .taskResult t st d r) ∈ l ++ e.input) ∨ (∃ x ids, e.input.head? = some (x, .balanceResponse ids) ∧ t ∈ ids) ∨
    s'.abs.up w = false := by
  have hg := hr.good
  have key := ((step_post hg e ha).ok hs).steps.lift (P := fun b => Born t b ∧ (b.worker t = some w ∨ (b.tasks t = none ∧ 1 ≤ acks anyone t b.out ∧ ∃ x st d r, (x, .taskResult t st d r) ∈ l ++ e.input) ∨
      (∃ x ids, (e.hist l).sub = some (x, .balanceResponse ids) ∧ t ∈ ids) ∨ ((∀ x b, (e.hist l).sub ≠ some (x, .heartbeat b)) ∧ b.up w = false) ∨
      2 ≤ acks anyone t b.out)) ?_ (hg.inv.mono (e.hist_mem l)) ⟨hr.born t, .inl hw⟩
  · rcases key.2 with h1 | h1 | h1 | h1 | h1
    · exact .inl h1
    · exact .inr (.inl ⟨h1.1, h1.2.2⟩)
    · exact .inr (.inr (.inl h1))
    · exact .inr (.inr (.inr h1.2))
    · have : 2 ≤ acks anyone t s'.out := h1
      omega
  · rintro a b x y ⟨z, hq⟩
    refine ⟨x.born y z, ?_⟩
    rcases hq with h1 | h1 | h1 | h1 | h1
    · rcases x.stays y h1 with h2 | h2 | h2 | h2
      · exact .inl h2
      · refine .inr (.inl ⟨h2.1, Nat.le_trans (z (.inl ?_)) (x.acks_mono t), h2.2⟩)
        exact (y.place t).2 (.inr (.inr (by rw [h1]; rfl)))
      · exact .inr (.inr (.inl h2))
      · exact .inr (.inr (.inr (.inl h2)))
    · obtain ⟨l', e', h2, -⟩ := x.mark y
      cases hb : b.tasks t with
      | none => exact .inr (.inl ⟨rfl, Nat.le_trans h1.2.1 (x.acks_mono t), h1.2.2⟩)
      | some k =>
        rcases h2 t (by rw [hb]; rfl) with h3 | h3
        · rw [h1.1] at h3; cases h3
        · refine .inr (.inr (.inr (.inr ?_)))
          rw [e', acks_append]
          have := h1.2.1
          omega
    · exact .inr (.inr (.inl h1))
    · refine .inr (.inr (.inr (.inl ⟨h1.1, ?_⟩)))
      cases x with
      | up w' _ hs =>
        obtain ⟨b, hs⟩ := hs
        exact absurd hs (h1.1 _ _)
      | requeue ts up' hn ht hu hd hy =>
        show up' w = false
        cases hc : up' w with
        | false => rfl
        | true => rw [hd w hc] at h1; cases h1.2
      | answer r c => exact (show (a.retire r.taskId r.status).up w = a.up w by cases r.status <;> rfl).trans h1.2
      | nodeDone r => exact (show (a.retire r.taskId r.status).up w = a.up w by cases r.status <;> rfl).trans h1.2
      | _ => exact h1.2
    · exact .inr (.inr (.inr (.inr (Nat.le_trans h1 (x.acks_mono t)))))

/-- A task that comes into the tables was not sent to any worker before. -/
theorem step_birth (hr : Reach cfg l s) (ha : ∀ m ∈ e.input, Allowed l s.out m) (hs : s.step e = .ok s') {t : Bytes}
    (hk : acks anyone t s'.out ≤ 1) (h0 : s.abs.tasks t = none) (h1 : (s'.abs.tasks t).isSome) (w : Bytes) (k : Task) (hkt : k.taskId = t) :
    (w, Message.task k) ∉ s.out := by
  intro hm
  have hg := hr.good
  have hb := hr.born t (.inr ⟨w, k, hkt, hm⟩)
  have key := ((step_post hg e ha).ok hs).steps.lift (P := fun b => acks anyone t s.abs.out ≤ acks anyone t b.out ∧
      (b.tasks t = none ∨ acks anyone t s.abs.out + 1 ≤ acks anyone t b.out)) ?_ (hg.inv.mono (e.hist_mem l)) ⟨Nat.le_refl _, .inl h0⟩
  · rcases key.2 with h2 | h2
    · rw [h2] at h1; cases h1
    · change acks anyone t s.abs.out + 1 ≤ acks anyone t s'.out at h2
      omega
  · rintro a b x y ⟨z, hq⟩
    have hle := x.acks_mono t
    refine ⟨by omega, ?_⟩
    rcases hq with h2 | h2
    · obtain ⟨l', e', h3, -⟩ := x.mark y
      cases hb : b.tasks t with
      | none => exact .inl rfl
      | some k' =>
        rcases h3 t (by rw [hb]; rfl) with h4 | h4
        · rw [h2] at h4; cases h4
        · right
          rw [e', acks_append]; omega
    · right; omega

/-- In an event at most one task is sent to a worker: one that was assigned to none, and then is assigned to this. -/
theorem step_sends (hr : Reach cfg l s) (hs : s.step e = .ok s') : ∃ m, s'.out = s.out ++ m ∧
    ((∀ w k, (w, Message.task k) ∉ m) ∨ ∃ w k, m = [(w, .task k)] ∧ e.input = [] ∧ s.abs.tasks k.taskId = some k ∧ s.abs.worker k.taskId = none ∧
      s'.abs.worker k.taskId = some w) := by
  have hg := hr.good
  by_cases ht : e.op = .taskRoutine
  · obtain ⟨op, now, o⟩ := e
    cases ht
    obtain ⟨s1, h1, -, h3⟩ := Sched.taskRoutine_ok hg.conc hg.inv hg.settled
    have : s.taskRoutine = .ok s' := hs
    rw [h1] at this
    cases this
    rcases h3 with ⟨_, _, rfl⟩ | ⟨k, rest, hN, hP⟩
    · exact ⟨[], by simp, .inl (by simp)⟩
    · cases hP with
      | nobody _ hb => exact ⟨[], by rw [show s'.out = s'.abs.out from rfl, hb]; simp [Sched.abs], .inl (by simp)⟩
      | full _ _ _ hb => exact ⟨[], by rw [show s'.out = s'.abs.out from rfl, hb]; simp [Sched.abs], .inl (by simp)⟩
      | sent w p hp _ _ hb =>
        refine ⟨[(w, .task k)], by rw [show s'.out = s'.abs.out from rfl, hb]; simp [Sched.abs], .inr ⟨w, k, rfl, rfl, ?_, ?_, ?_⟩⟩
        · exact hN.elim (fun h => hg.inv.pend _ h.1) (fun h => h.2.2)
        · rcases hN with h | h
          · exact hg.inv.apart' _ (by simp [Abs.pendId, h.1])
          · exact (hg.inv.apart _ (by rw [h.2.1]; exact List.mem_cons_self)).2
        · rw [hb]; simp [upd_apply]
  · obtain ⟨m, h1, h2⟩ := step_tasks hg hs
    exact ⟨m, h1, .inl fun w k hm => ht (h2 w k hm).1⟩

/-- What makes the scheduler forget a worker. -/
theorem step_forgets (hr : Reach cfg l s) (hs : s.step e = .ok s') {w : Bytes} {x : Int × Heartbeat} (hw : s.wm.alive.get? w = some x)
    (hn : s'.wm.alive.get? w = none) :
    (∃ c, e.op = .recv c (.disconnectRequest w)) ∨ e.op = .workerRoutine ∧ cfg.workerTimeout < e.now - x.1 := by
  have hg := hr.good
  cases he : e.special with
  | false =>
    rw [(Py.Post.ok (step_keeps hg.conc hg.settled e he) hs).alive, hw] at hn
    cases hn
  | true =>
    obtain ⟨op, now, o⟩ := e
    cases op with
    | recv source m =>
      cases m with
      | heartbeat hb =>
        cases hs
        rw [(onHeartbeat_alive ..).1, Dict.get?_set] at hn
        split at hn
        · cases hn
        · rw [hw] at hn; cases hn
      | disconnectRequest w1 =>
        rw [((onDisconnect_only o source w1).ok hs).2.2.2.2 w] at hn
        split at hn
        · next e => exact .inl ⟨source, by rw [e]⟩
        · rw [hw] at hn; cases hn
      | _ => cases he
    | workerRoutine =>
      rw [((workerRoutine_only o now).ok hs).2.2.2.2 w, hw] at hn
      simp only at hn
      split at hn
      · next h => rw [hg.cfg] at h; exact .inr ⟨rfl, h⟩
      · cases hn
    | functionRoutine =>
      rw [((functionRoutine_only o now).ok hs).1, hw] at hn
      cases hn
    | _ => cases he

end Verif.Sched
