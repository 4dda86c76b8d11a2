import Verif.Worker.ProcessorInv

/-!
# What a processor takes in
-/

namespace Verif.Proc

open Verif.Wire Verif.Spec.Processor

variable {F V X : Type}

theorem note_log {p p' : Proc F} (h : p'.log = p.log) : ∃ ys, p'.log = p.log ++ ys ∧ ∀ y ∈ ys, ∀ m, y.2 ≠ .recv m :=
  ⟨[], by simpa using h, by simp⟩

theorem work_log {rt : Runtime F V X} {p p' : Proc F} {now : Int} {c : Nat} {d : UInt32} (h : p.work rt now c d = .ok p') :
    ∃ ys, p'.log = p.log ++ ys ∧ ∀ y ∈ ys, ∀ m, y.2 ≠ .recv m := by
  unfold Proc.work at h
  split at h
  · cases h; exact note_log rfl
  · cases h; exact ⟨[(now, .stamped _)], rfl, by simp⟩
  · split at h
    · cases h; exact ⟨[(now, .used _)], rfl, by simp⟩
    · cases h; exact note_log rfl
  · cases h; exact ⟨[(now, .stamped _)], rfl, by simp⟩
  · unfold Proc.answer at h
    split at h
    · cases h; exact ⟨[(now, .sent _)], rfl, by simp⟩
    · split at h
      · cases h; exact ⟨[(now, .sent _)], rfl, by simp⟩
      · cases h
  · split at h
    · cases h; exact ⟨[(now, .stamped _)], rfl, by simp⟩
    · cases h
  · cases h; exact note_log rfl

theorem clean_log {p : Proc F} {now : Int} : ∃ ys, (p.clean now).log = p.log ++ ys ∧ ∀ y ∈ ys, ∀ m, y.2 ≠ .recv m := by
  unfold Proc.clean
  split
  · exact ⟨[(now, .scan)], rfl, by simp⟩
  · exact note_log rfl
  · exact note_log rfl
  · dsimp only
    split
    · exact ⟨[(now, .evicted _)], rfl, by simp⟩
    · exact note_log rfl

/-- A message is taken in only if it is the event. -/
theorem step_log {rt : Runtime F V X} {p p' : Proc F} {e : Event} (h : p.step rt e = .ok p') :
    ∃ xs ys, p'.log = p.log ++ xs ++ ys ∧ (∀ y ∈ ys, ∀ m, y.2 ≠ .recv m) ∧ (xs = [] ∨ ∃ m, e.op = .recv m ∧ xs = [(e.now, .recv m)]) := by
  obtain ⟨op, now⟩ := e
  cases op with
  | recv m =>
    unfold Proc.step at h
    dsimp only at h
    split at h
    · cases m with
      | functionRequest ty f nm c =>
        refine ⟨[(now, .recv _)], [], ?_, by simp, .inr ⟨_, rfl, rfl⟩⟩
        cases h
        unfold Proc.onFunctionRequest
        split <;> simp [Proc.note]
      | task k =>
        cases h
        unfold Proc.onTask
        split
        · exact ⟨[(now, .recv _)], [(now, .used _)], rfl, by simp, .inr ⟨_, rfl, rfl⟩⟩
        · exact ⟨[(now, .recv _)], [(now, .sent _)], rfl, by simp, .inr ⟨_, rfl, rfl⟩⟩
      | functionResponse st f nm c =>
        refine ⟨[(now, .recv (.functionResponse st f nm c))], [], ?_, by simp, .inr ⟨_, rfl, rfl⟩⟩
        unfold Proc.receive at h
        dsimp only at h
        split at h
        · next q hq =>
          cases h
          unfold Proc.onFunctionResponse at hq
          split at hq
          · cases hq; simp [Proc.note]
          · cases hq
        · cases h
      | _ =>
        cases h
        exact ⟨[(now, .recv _)], [], (List.append_nil _).symm, by simp, .inr ⟨_, rfl, rfl⟩⟩
    · cases h; exact ⟨[], [], by simp, by simp, .inl rfl⟩
  | work c d =>
    obtain ⟨ys, h1, h2⟩ := work_log h
    exact ⟨[], ys, by simpa using h1, h2, .inl rfl⟩
  | clean =>
    cases h
    obtain ⟨ys, h1, h2⟩ := clean_log (p := p) (now := now)
    exact ⟨[], ys, by simpa using h1, h2, .inl rfl⟩

/-- A registered function was received. -/
theorem registered_mem {f c : Bytes} {l : Hist} (h : registered f l = some c) :
    ∃ now st nm, (now, Act.recv (.functionResponse st f nm c)) ∈ l := by
  rcases List.eq_nil_or_concat l with rfl | ⟨l', ⟨u, x⟩, rfl⟩
  · simp [registered] at h
  · rw [List.concat_eq_append] at h ⊢
    rw [registered_snoc] at h
    have ih : registered f l' = some c → ∃ now st nm, (now, Act.recv (.functionResponse st f nm c)) ∈ l' ++ [(u, x)] := by
      intro h
      obtain ⟨a, b, d, h⟩ := registered_mem h
      exact ⟨a, b, d, List.mem_append_left _ h⟩
    unfold registeredStep at h
    split at h
    · split at h
      · cases h; subst_vars; exact ⟨u, _, _, List.mem_append_right _ (List.mem_singleton.2 rfl)⟩
      · exact ih h
    · split at h
      · cases h
      · exact ih h
    · exact ih h
termination_by l.length
decreasing_by simp_all

end Verif.Proc
