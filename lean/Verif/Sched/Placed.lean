import Verif.Sched.Abs

/-!
# How a task comes to a worker

The only step that gives a task to a worker sends the task there.
-/

namespace Verif.Sched

open Verif.Queue Verif.Util Verif.Wire

theorem AStep.placed {h : History} {a b : Abs} (s : AStep h a b) :
    ∃ l, b.out = a.out ++ l ∧ ∀ t w, b.worker t = some w → a.worker t = some w ∨ ∃ k, k.taskId = t ∧ (w, Message.task k) ∈ l := by
  cases s with
  | place k w hp hw =>
    refine ⟨_, rfl, fun t w' ht => ?_⟩
    simp only [upd_apply] at ht
    split at ht
    · next e => cases ht; exact Or.inr ⟨k, e, by simp⟩
    · exact Or.inl ht
  | requeue ts up' hn ht hu hd _ =>
    refine ⟨[], by simp, fun t w ht => ?_⟩
    simp only at ht
    split at ht
    · cases ht
    · exact Or.inl ht
  | answer r c he hc hn =>
    refine ⟨_, rfl, fun t w ht => ?_⟩
    simp only [Abs.retire, upd_apply] at ht
    split at ht
    · cases ht
    · exact Or.inl ht
  | nodeDone r gid g i st so he hn hg hi hst hso =>
    refine ⟨[], by cases r.status <;> simp [Abs.retire, Abs.count], fun t w ht => ?_⟩
    simp only [Abs.retire, upd_apply] at ht
    split at ht
    · cases ht
    · exact Or.inl ht
  | say | halt | refuse | reject | clean => exact ⟨_, rfl, fun _ _ ht => Or.inl ht⟩
  | accept | launch => exact ⟨_, rfl, fun _ _ ht => Or.inl ht⟩
  | func | drop | up | queueGraph | take | putBack | unpack | getReady =>
    exact ⟨[], by simp [Abs.unpack], fun _ _ ht => Or.inl ht⟩

theorem ASteps.placed {h : History} {a b : Abs} (s : ASteps h a b) :
    ∃ l, b.out = a.out ++ l ∧ ∀ t w, b.worker t = some w → a.worker t = some w ∨ ∃ k, k.taskId = t ∧ (w, Message.task k) ∈ l := by
  induction s with
  | refl => exact ⟨[], by simp, fun _ _ ht => Or.inl ht⟩
  | tail _ s ih =>
    obtain ⟨l, e, hl⟩ := ih
    obtain ⟨l', e', hl'⟩ := s.placed
    refine ⟨l ++ l', by rw [e', e, List.append_assoc], fun t w ht => ?_⟩
    rcases hl' t w ht with h1 | ⟨k, h1, h2⟩
    · exact (hl t w h1).imp_right fun ⟨k, h1, h2⟩ => ⟨k, h1, List.mem_append_left _ h2⟩
    · exact Or.inr ⟨k, h1, List.mem_append_right _ h2⟩

end Verif.Sched
