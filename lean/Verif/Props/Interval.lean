import Verif.Props.Balance
import Verif.Sched.Emit
import Verif.Spec.Interval

/-!
# C111 Balancing keeps the interval that was set
-/

namespace Verif.Props

open Verif Verif.Sched Verif.Spec Verif.Wire

theorem Clocked.reach {cfg : Config} {qs : List Int} {last : Option Int} {l : Log} {s : Sched} (h : Clocked cfg qs last l s) : Reach cfg l s := by
  induction h with
  | init => exact .init
  | step e _ ha _ hs ih => exact .step e ih ha hs

/-- One turn: the counter starts again and nothing is sent, or it goes on and something is sent only when it reaches the setting. -/
theorem balanceRequest_count (s : Sched) (hen : 0 < s.cfg.balanceSeconds) :
    (s.balanceRequest.wm.sameCount = 1 ∧ s.balanceRequest.out = s.out) ∨
    (s.balanceRequest.wm.sameCount = s.wm.sameCount + 1 ∧ (s.balanceRequest.out = s.out ∨ s.wm.sameCount + 1 = s.cfg.balanceTriggers)) := by
  unfold Sched.balanceRequest
  rw [if_neg (by omega)]
  simp only
  split
  · exact .inl ⟨rfl, rfl⟩
  · split
    · exact .inr ⟨rfl, .inl rfl⟩
    · next h =>
      have h := Classical.not_not.1 h
      split
      · exact .inr ⟨rfl, .inl rfl⟩
      · rw [sendAll]
        exact .inr ⟨rfl, .inr h⟩

theorem since_self (l : List (Bytes × Message)) : since l l = [] := by simp [since]

/-- What the counter says about the time since the last question. -/
structure AskClock (cfg : Config) (qs : List Int) (last : Option Int) (s : Sched) : Prop where
  count : 0 ≤ s.wm.sameCount
  apart : Apart cfg.balanceTriggers qs
  trig : qs ≠ [] → 0 < cfg.balanceTriggers
  head : ∀ q ∈ qs, ∃ t, last = some t ∧ q ≤ t ∧ (cfg.balanceTriggers ≤ s.wm.sameCount ∨ q + s.wm.sameCount ≤ t)

theorem Clocked.clock {cfg : Config} {qs : List Int} {last : Option Int} {l : Log} {s : Sched} (h : Clocked cfg qs last l s)
    (hen : 0 < cfg.balanceSeconds) : AskClock cfg qs last s := by
  induction h with
  | init => exact ⟨Int.le_refl 0, .nil, by simp, by simp⟩
  | @step qs last l s s' e hr ha ht hs ih =>
    have hg := (Clocked.reach hr).good
    by_cases he : e.op = .workerRoutine
    · obtain ⟨op, now, o⟩ := e
      cases he
      have ht : ∀ t, last = some t → t + 1 ≤ now := ht rfl
      obtain ⟨-, ho, h2, h3, -⟩ := (workerRoutine_only o now).ok hs
      simp only [if_true]
      have hold : ∀ q ∈ qs, q + 1 ≤ now := fun q hq => by
        obtain ⟨t, h1, h2, -⟩ := ih.head q hq
        have := ht t h1; omega
      rcases balanceRequest_count s (by rw [hg.cfg]; exact hen) with ⟨hc, hout⟩ | ⟨hc, hout⟩
      · rw [show s'.out = s.out by rw [ho, hout], since_self]
        simp only [List.any_nil, Bool.false_eq_true, if_false]
        refine ⟨by rw [h3, hc]; omega, ih.apart, ih.trig, fun q hq => ⟨now, rfl, by have := hold q hq; omega, .inr ?_⟩⟩
        rw [h3, hc]; exact hold q hq
      · by_cases hsent : (since s.out s'.out).any isQuestion = true
        · have hT : s.wm.sameCount + 1 = cfg.balanceTriggers := by
            rcases hout with hout | hout
            · rw [show s'.out = s.out by rw [ho, hout], since_self] at hsent; simp at hsent
            · rw [hout, hg.cfg]
          rw [if_pos hsent]
          have hc0 := ih.count
          refine ⟨by rw [h3, hc]; omega, ?_, fun _ => by omega, fun q hq => ⟨now, rfl, ?_, .inl (by rw [h3, hc]; omega)⟩⟩
          · refine List.pairwise_cons.2 ⟨fun q hq => ?_, ih.apart⟩
            obtain ⟨t, h1, h2, h4⟩ := ih.head q hq
            have := ht t h1
            omega
          · rcases List.mem_cons.1 hq with rfl | hq
            · omega
            · have := hold q hq; omega
        · rw [if_neg hsent]
          refine ⟨by rw [h3, hc]; have := ih.count; omega, ih.apart, ih.trig, fun q hq => ⟨now, rfl, by have := hold q hq; omega, ?_⟩⟩
          obtain ⟨t, h1, h2, h4⟩ := ih.head q hq
          have := ht t h1
          rw [h3, hc]
          omega
    · obtain ⟨h1, h2⟩ := step_counter hg hs he
      have hno : (since s.out s'.out).any isQuestion = false := by
        have := step_emits s e
        rw [hs] at this
        obtain ⟨ms, hm, hw⟩ := this
        rw [hm, since, List.drop_left, List.any_eq_false]
        rintro ⟨w, m⟩ hx hq
        cases m <;> simp [isQuestion] at hq
        exact he (hw _ hx)
      rw [hno, if_neg he]
      simp only [Bool.false_eq_true, if_false]
      exact ⟨by rw [h2]; exact ih.count, ih.apart, ih.trig, by rw [h2]; exact ih.head⟩

/-- **C111, switched off.** With a setting of 0 or less no worker is ever asked for tasks. -/
theorem C111_off {cfg : Config} {qs : List Int} {last : Option Int} {l : Log} {s : Sched} (h : Clocked cfg qs last l s)
    (hoff : cfg.balanceSeconds ≤ 0) : qs = [] ∧ s.out.any isQuestion = false := by
  induction h with
  | init => exact ⟨rfl, rfl⟩
  | @step qs last l s s' e hr ha ht hs ih =>
    have hg := (Clocked.reach hr).good
    have : ∃ ms, s'.out = s.out ++ ms ∧ ms.any isQuestion = false := by
      by_cases he : e.op = .workerRoutine
      · obtain ⟨op, now, o⟩ := e
        cases he
        obtain ⟨-, ho, -⟩ := (workerRoutine_only o now).ok hs
        refine ⟨[], ?_, rfl⟩
        rw [ho, Sched.balanceRequest, if_pos (by rw [hg.cfg]; exact hoff), List.append_nil]
      · have := step_emits s e
        rw [hs] at this
        obtain ⟨ms, hm, hw⟩ := this
        refine ⟨ms, hm, List.any_eq_false.2 ?_⟩
        rintro ⟨w, m⟩ hx hq
        cases m <;> simp [isQuestion] at hq
        exact he (hw _ hx)
    obtain ⟨ms, hm, hno⟩ := this
    rw [hm, since, List.drop_left, hno]
    exact ⟨ih.1, by rw [List.any_append, ih.2, hno]; rfl⟩

/-- **C111, what is kept.** Between two times at which workers are asked for tasks there are at least `load_balance_trigger_times` seconds,
whatever `load_balance_seconds` is. -/
theorem C111_apart {cfg : Config} {qs : List Int} {last : Option Int} {l : Log} {s : Sched} (h : Clocked cfg qs last l s) :
    Apart cfg.balanceTriggers qs := by
  by_cases hen : 0 < cfg.balanceSeconds
  · exact (Clocked.clock h hen).apart
  · rw [(C111_off h (by omega)).1]; exact .nil

/-- **C111, as far as it holds.** Between two times at which workers are asked for tasks there are at least `load_balance_seconds` seconds,
if this is not more than `load_balance_trigger_times`.
Missing: for all settings (`C111_too_often`). -/
theorem C111_interval_partial {cfg : Config} {qs : List Int} {last : Option Int} {l : Log} {s : Sched} (h : Clocked cfg qs last l s)
    (hc : cfg.balanceSeconds ≤ cfg.balanceTriggers) : Apart cfg.balanceSeconds qs :=
  (C111_apart h).imp fun h => by omega

/-- **C111, the setting is a switch.** A turn with one positive setting and a turn with another one are the same. -/
theorem C111_switch (s : Sched) (b : Int) (hen : 0 < s.cfg.balanceSeconds) (hb : 0 < b) :
    ({ s with cfg := { s.cfg with balanceSeconds := b } } : Sched).balanceRequest =
      { s.balanceRequest with cfg := { s.balanceRequest.cfg with balanceSeconds := b } } := by
  have e1 : ¬ s.cfg.balanceSeconds ≤ 0 := by omega
  have e2 : ¬ b ≤ 0 := by omega
  by_cases c1 : (!((s.wm.lastAdvice.map fun l => Sched.sameDict l s.wm.alloc.balance).getD false)) = true
  · simp only [Sched.balanceRequest, e1, e2, c1, if_false, if_true]
  · by_cases c2 : s.wm.sameCount + 1 ≠ s.cfg.balanceTriggers
    · simp only [Sched.balanceRequest, e1, e2, c1, c2, if_false, if_true, Bool.false_eq_true, not_false_eq_true, ne_eq]
    · by_cases c3 : s.wm.alloc.balance.items.isEmpty = true
      · simp only [Sched.balanceRequest, e1, e2, c1, c2, c3, if_false, if_true, Bool.false_eq_true]
      · simp only [Sched.balanceRequest, e1, e2, c1, c2, c3, if_false, Bool.false_eq_true, sendAll]

/-- A run of the scheduler with the clock. -/
def clockRun (cfg : Config) : List Event → Option (List Int × Option Int × Log × Sched)
  | [] => some ([], none, [], .init cfg)
  | e :: es => do
    let (qs, last, l, s) ← clockRun cfg es
    if !(e.input.all (allowedB l s.out)) then none
    else if decide (e.op = .workerRoutine) && !(last.all fun t => decide (t + 1 ≤ e.now)) then none
    else
      match s.step e with
      | .error _ => none
      | .ok s' => some (if (since s.out s'.out).any isQuestion then e.now :: qs else qs, if e.op = .workerRoutine then some e.now else last,
          l ++ e.input, s')

theorem clockRun_clocked {cfg : Config} : ∀ {es : List Event} {x}, clockRun cfg es = some x → Clocked cfg x.1 x.2.1 x.2.2.1 x.2.2.2
  | [], _, h => by cases h; exact .init
  | e :: es, x, h => by
    obtain ⟨⟨qs, last, l, s⟩, h1, h⟩ := Option.bind_eq_some_iff.1 h
    simp only at h
    split at h
    · cases h
    · next ha =>
      split at h
      · cases h
      · next ht =>
        split at h
        · cases h
        · next s' hs =>
          cases h
          refine .step e (clockRun_clocked h1) (fun m hm => ?_) (fun he t hl => ?_) hs
          · simp only [Bool.not_eq_true, Bool.not_eq_false', List.all_eq_true] at ha
            exact allowedB_sound (ha m hm)
          · subst hl
            simpa [he] using ht

def turnAt (now : Int) : Event := evAt now .workerRoutine

/-- Six tasks on one worker, then a second worker comes; two results come between the questions.  Newest event first. -/
def oftenStory : List Event :=
  [turnAt 4, turnAt 3, done [2] [7], done [1] [7], turnAt 2, turnAt 1, beat wk2, turn, turn, turn, turn, turn, turn, submit [6], submit [5],
   submit [4], submit [3], submit [2], submit [1], beat wk, addFn]

/-- **C111 fails.** `load_balance_seconds` is 10, and workers are asked for tasks twice within two seconds. -/
theorem C111_too_often : ∃ cfg qs last l s, Clocked cfg qs last l s ∧ cfg.balanceSeconds = 10 ∧ qs = [4, 2] ∧ ¬ Apart cfg.balanceSeconds qs := by
  have h : (clockRun ⟨-1, 10, 100, 100, 10, 2⟩ oftenStory).map (·.1) = some [4, 2] := by decide +kernel
  obtain ⟨x, hx, hq⟩ := Option.map_eq_some_iff.1 h
  refine ⟨_, _, _, _, _, clockRun_clocked hx, rfl, hq, ?_⟩
  rw [hq]
  simp [Apart]

/-- The default settings: 1 second and 2 times (scaled/io/config.py 27-32). -/
example : ∃ qs last l s, Clocked ⟨-1, 10, 100, 100, 1, 2⟩ qs last l s ∧ qs = [4, 2] := by
  have h : (clockRun ⟨-1, 10, 100, 100, 1, 2⟩ oftenStory).map (·.1) = some [4, 2] := by decide +kernel
  obtain ⟨x, hx, hq⟩ := Option.map_eq_some_iff.1 h
  exact ⟨_, _, _, _, clockRun_clocked hx, hq⟩

/-- Switched off. -/
example : ∃ last l s, Clocked ⟨-1, 10, 100, 100, 0, 2⟩ [] last l s ∧ s.wm.alloc.balance.items ≠ [] := by
  have h : (clockRun ⟨-1, 10, 100, 100, 0, 2⟩ oftenStory).map (fun x => (x.1, !x.2.2.2.wm.alloc.balance.items.isEmpty)) = some ([], true) := by
    decide +kernel
  obtain ⟨x, hx, hq⟩ := Option.map_eq_some_iff.1 h
  simp only [Prod.mk.injEq] at hq
  have := clockRun_clocked hx
  rw [hq.1] at this
  exact ⟨_, _, _, this, by intro h; simp [h] at hq⟩

end Verif.Props
