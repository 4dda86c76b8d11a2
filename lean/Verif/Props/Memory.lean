import Verif.Spec.Memory

/-!
# C87: collecting garbage and trimming memory
-/

namespace Verif.Props

open Verif.Memory Verif.Spec

theorem lastCollection_cons (start : Int) (x : Wake × Did) (l : List (Wake × Did)) :
    lastCollection start (x :: l) = lastCollection (if x.2 = .nothing then start else x.1.stored) l := by
  simp only [lastCollection, List.reverse_cons, List.find?_append]
  cases h : l.reverse.find? fun x => decide (x.2 ≠ .nothing) with
  | some y => simp
  | none => by_cases e : x.2 = .nothing <;> simp [e]

/-- **C87.** A call collects garbage exactly if the last collection (or the start) is at least the interval ago, and trims the
memory exactly if it collects and the resident size reaches the threshold. -/
theorem C87_exact (interval threshold now : Int) (ws : List Wake) (l₁ l₂ : List (Wake × Did)) (w : Wake) (d : Did)
    (h : (Cleaner.init interval threshold now).run ws = l₁ ++ (w, d) :: l₂) :
    (d ≠ .nothing ↔ interval ≤ w.looked - lastCollection now l₁) ∧ (d = .trimmed ↔ d ≠ .nothing ∧ threshold ≤ w.rss) := by
  suffices key : ∀ (ws : List Wake) (c : Cleaner) (l₁ : List (Wake × Did)), c.run ws = l₁ ++ (w, d) :: l₂ →
      (d ≠ .nothing ↔ c.interval ≤ w.looked - lastCollection c.previous l₁) ∧ (d = .trimmed ↔ d ≠ .nothing ∧ c.threshold ≤ w.rss) from
    key ws _ l₁ h
  intro ws
  induction ws with
  | nil => intro c l₁ h; simp [Cleaner.run] at h
  | cons v ws ih =>
    intro c l₁ h
    cases l₁ with
    | nil =>
      simp only [Cleaner.run, List.nil_append, List.cons.injEq, Prod.mk.injEq] at h
      obtain ⟨⟨rfl, hd⟩, -⟩ := h
      simp only [lastCollection, List.reverse_nil, List.find?_nil, Option.map_none, Option.getD_none]
      unfold Cleaner.clean at hd
      split at hd
      · subst hd; simp; omega
      · dsimp only at hd
        split at hd
        · subst hd; simp; omega
        · subst hd; simp; omega
    | cons x l₁ =>
      simp only [Cleaner.run, List.cons_append, List.cons.injEq] at h
      obtain ⟨rfl, h⟩ := h
      obtain ⟨h1, h2⟩ := ih _ _ h
      rw [lastCollection_cons]
      have e : (c.clean v).1.interval = c.interval ∧ (c.clean v).1.threshold = c.threshold ∧
          (c.clean v).1.previous = if (c.clean v).2 = .nothing then c.previous else v.stored := by
        unfold Cleaner.clean
        split
        · simp
        · dsimp only; split <;> simp
      rw [e.1, e.2.2] at h1
      rw [e.2.1] at h2
      exact ⟨h1, h2⟩

/-- **C87.** Between two collections there is at least the interval, if the clock does not go back. -/
theorem C87_apart (interval threshold now : Int) (ws : List Wake) (hf : Forward ws) (l₁ l₂ l₃ : List (Wake × Did)) (v w : Wake) (d e : Did)
    (h : (Cleaner.init interval threshold now).run ws = l₁ ++ (v, d) :: l₂ ++ (w, e) :: l₃) (hd : d ≠ .nothing) (he : e ≠ .nothing) :
    v.stored + interval ≤ w.stored := by
  have hw : ∀ (ws : List Wake) (c : Cleaner), (c.run ws).map (·.1) = ws := by
    intro ws
    induction ws with
    | nil => intro c; rfl
    | cons x ws ih => intro c; simp [Cleaner.run, ih]
  have hmap := congrArg (List.map (·.1)) h
  rw [hw] at hmap
  have hF : ∀ (l : List (Wake × Did)) (ws : List Wake) (hf : Forward ws) (l' : List (Wake × Did)) (x : Wake × Did), ws = (l ++ x :: l').map (·.1) →
      x.1.looked ≤ x.1.stored ∧ ∀ y ∈ l', x.1.stored ≤ y.1.looked := by
    intro l
    induction l with
    | nil =>
      rintro ws hf l' x rfl
      exact ⟨hf.1, fun y hy => hf.2.1 _ (List.mem_map_of_mem hy)⟩
    | cons z l ih =>
      rintro ws hf l' x rfl
      exact ih _ hf.2.2 l' x rfl
  have h1 := (C87_exact interval threshold now ws (l₁ ++ (v, d) :: l₂) l₃ w e h).1.1 he
  have hlast : v.stored ≤ lastCollection now (l₁ ++ (v, d) :: l₂) := by
    unfold lastCollection
    have hsome : ((l₁ ++ (v, d) :: l₂).reverse.find? fun x => decide (x.2 ≠ .nothing)).isSome := by
      rw [List.find?_isSome]
      exact ⟨(v, d), by simp, by simpa using hd⟩
    obtain ⟨x, hx⟩ := Option.isSome_iff_exists.1 hsome
    rw [hx]
    show v.stored ≤ x.1.stored
    rw [List.reverse_append, List.find?_append] at hx
    simp only [List.reverse_cons, List.find?_append] at hx
    cases h2 : l₂.reverse.find? fun x => decide (x.2 ≠ .nothing) with
    | some y =>
      rw [h2] at hx
      simp only [Option.some_or, Option.some.injEq] at hx
      subst hx
      have hy : y ∈ l₂ := List.mem_reverse.1 (List.mem_of_find?_eq_some h2)
      have hv := (hF l₁ ws hf (l₂ ++ (w, e) :: l₃) (v, d) (by rw [hmap]; simp)).2 y (List.mem_append_left _ hy)
      obtain ⟨m₁, m₂, hm⟩ := List.append_of_mem hy
      have hyy := (hF (l₁ ++ (v, d) :: m₁) ws hf (m₂ ++ (w, e) :: l₃) y (by rw [hmap, hm]; simp)).1
      dsimp only at hv
      omega
    | none =>
      rw [h2] at hx
      simp only [Option.none_or, List.find?_cons, hd, ne_eq, not_false_eq_true, decide_true] at hx
      simp at hx
      rw [← hx]
      exact Int.le_refl _
  have hww := (hF (l₁ ++ (v, d) :: l₂) ws hf l₃ (w, e) (by rw [hmap])).1
  dsimp only at hww
  omega

/-- Interval 30, threshold 100, start at 0: too early; collected; too early again; collected and trimmed. -/
def wakes : List Wake := [⟨10, 10, 500⟩, ⟨30, 31, 99⟩, ⟨60, 60, 500⟩, ⟨61, 61, 100⟩]

example : Forward wakes ∧ (Cleaner.init 30 100 0).run wakes =
    [(⟨10, 10, 500⟩, .nothing), (⟨30, 31, 99⟩, .collected), (⟨60, 60, 500⟩, .nothing), (⟨61, 61, 100⟩, .trimmed)] :=
  ⟨by simp [Forward, wakes], by decide⟩

end Verif.Props
