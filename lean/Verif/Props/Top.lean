import Verif.Spec.Top
import Verif.Props.Formatter
import Verif.Props.Readable
import Verif.Props.Server

/-!
# The monitor's display
-/

namespace Verif.Props

open Verif.Util Verif.Util.Top Verif.Spec.Top Verif.Spec Verif.Wire

/-! ### Drawing a table -/

theorem foldl_max_le (l : List Nat) (a : Nat) : a ≤ l.foldl max a ∧ ∀ x ∈ l, x ≤ l.foldl max a := by
  induction l generalizing a with
  | nil => simp
  | cons b l ih =>
    obtain ⟨h1, h2⟩ := ih (max a b)
    simp only [List.foldl_cons, List.forall_mem_cons]
    exact ⟨by omega, by omega, h2⟩

theorem foldl_max_mem (l : List Nat) (a : Nat) : l.foldl max a = a ∨ l.foldl max a ∈ l := by
  induction l generalizing a with
  | nil => simp
  | cons b l ih =>
    simp only [List.foldl_cons, List.mem_cons]
    rcases ih (max a b) with h | h
    · rw [h]; omega
    · exact .inr (.inr h)

theorem le_maxOf {l : List Nat} {x : Nat} (h : x ∈ l) : x ≤ maxOf l := (foldl_max_le l 0).2 x h

theorem maxOf_mem {l : List Nat} (h : l ≠ []) : maxOf l ∈ l := by
  rcases foldl_max_mem l 0 with h0 | h1
  · cases l with
    | nil => exact absurd rfl h
    | cons a l =>
      have := (foldl_max_le (a :: l) 0).2 a (by simp)
      rw [h0] at this
      rw [maxOf, h0]
      simp only [List.mem_cons]; omega
  · exact h1

/-- The length of cell `j` of a row. -/
def lenAt (row : List Text) (j : Nat) : Nat := (row[j]?.getD []).length

theorem lengthsAt_wide {n i : Nat} (hi : i < n) : ∀ {t : Table}, Wide n t → lengthsAt i t = .ok (t.map fun row => lenAt row i) := by
  intro t h
  induction t with
  | nil => rfl
  | cons row t ih =>
    have hl : row.length = n := h row (by simp)
    simp only [lengthsAt, ih fun r hr => h r (by simp [hr])]
    rw [(pyIndex_ok (i := i) (a := row[i]'(by omega))).2 (List.getElem?_eq_getElem (by omega))]
    simp [lenAt, List.getElem?_eq_getElem (show i < row.length by omega)]

/-- The widths of the columns. -/
def colWidth (t : Table) (j : Nat) : Nat := maxOf (t.map fun row => lenAt row j)

theorem widthsOf_wide {n : Nat} {t : Table} (h : Wide n t) (is : List Nat) (hi : ∀ i ∈ is, i < n) :
    widthsOf t is = .ok (is.map (colWidth t)) := by
  induction is with
  | nil => rfl
  | cons i is ih =>
    simp only [widthsOf, lengthsAt_wide (hi i (by simp)) h, ih fun i h => hi i (by simp [h])]
    rfl

theorem colWidth_width {t : Table} (h0 : t ≠ []) (j : Nat) : Width t j (colWidth t j) := by
  constructor
  · intro i
    by_cases hi : i < t.length
    · apply le_maxOf
      rw [List.mem_map]
      exact ⟨t[i], List.getElem_mem hi, by simp [cell, lenAt, List.getElem?_eq_getElem hi]⟩
    · simp [cell, List.getElem?_eq_none (Nat.le_of_not_lt hi)]
  · have := maxOf_mem (l := t.map fun row => lenAt row j) (by simpa using h0)
    rw [List.mem_map] at this
    obtain ⟨row, hr, he⟩ := this
    obtain ⟨i, hi, rfl⟩ := List.getElem_of_mem hr
    exact ⟨i, by rw [colWidth, ← he]; simp [cell, lenAt, List.getElem?_eq_getElem hi]⟩

theorem take_range_sum (w : Nat → Nat) (gap n j : Nat) (h : j ≤ n) :
    (((List.range n).map w).take j).sum + gap * j = Start w gap j := by
  induction j with
  | zero => simp [Start]
  | succ j ih =>
    have hj := ih (by omega)
    rw [Start, ← hj, List.take_add_one, List.sum_append, List.getElem?_map, List.getElem?_range (by omega)]
    simp [Nat.mul_add]; omega

theorem lineWrites_eq (w : Nat → Nat) (gap n line : Nat) : ∀ (row : List Text) (j : Nat), j + row.length = n →
    lineWrites ((List.range n).map w) gap line j row =
      .ok ((row.zipIdx j).map fun (c, j) => ⟨line, Start w gap j, List.replicate (w j - c.length) ' ' ++ c⟩) := by
  intro row
  induction row with
  | nil => intro j _; rfl
  | cons c row ih =>
    intro j h
    simp only [List.length_cons] at h
    simp only [lineWrites, ih (j + 1) (by omega)]
    rw [(pyIndex_ok (i := j) (a := w j)).2 (by rw [List.getElem?_map, List.getElem?_range (by omega)]; rfl)]
    simp [take_range_sum w gap n j (by omega), rjust]

theorem linesWrites_eq (w : Nat → Nat) (gap n : Nat) : ∀ (t : Table) (line : Nat), Wide n t →
    linesWrites ((List.range n).map w) gap line t = .ok ((t.zipIdx line).flatMap fun (row, i) => row.zipIdx.map fun (c, j) =>
      ⟨i, Start w gap j, List.replicate (w j - c.length) ' ' ++ c⟩) := by
  intro t
  induction t with
  | nil => intro line _; rfl
  | cons row t ih =>
    intro line h
    simp only [linesWrites, lineWrites_eq w gap n line row 0 (by rw [Nat.zero_add]; exact h row (by simp)), ih (line + 1) fun r hr => h r (by simp [hr])]
    rfl

theorem drawn_eq (line gap : Nat) (w : Nat → Nat) (t : Table) :
    ((t.zipIdx line).flatMap fun (row, i) => row.zipIdx.map fun (c, j) =>
      (⟨i, Start w gap j, List.replicate (w j - c.length) ' ' ++ c⟩ : Write)) = drawn line gap w t := by
  unfold drawn
  rw [List.zipIdx_eq_map_add, List.flatMap_map]

theorem start_total (w : Nat → Nat) (gap n : Nat) : ((List.range n).map w).sum + gap * n = Start w gap n := by
  have := take_range_sum w gap n n (Nat.le_refl n)
  rwa [List.take_of_length_le (by simp)] at this

/-- A table whose rows are all equally long is drawn cell by cell, row by row. -/
theorem printTable_wide (line gap n : Nat) (t : Table) (h : Wide n t) (h0 : t ≠ []) :
    printTable line t gap = .ok (drawn line gap (colWidth t) t, some (line + t.length, Start (colWidth t) gap n)) := by
  cases t with
  | nil => exact absurd rfl h0
  | cons row t =>
    have hl : row.length = n := h row (by simp)
    simp only [printTable, hl, widthsOf_wide h (List.range n) fun i hi => List.mem_range.1 hi, Py.ok_bind, linesWrites_eq _ _ _ _ _ h,
      Py.pure_eq, drawn_eq, List.length_map, List.length_range, start_total]

theorem start_mono (w : Nat → Nat) (gap : Nat) {j k : Nat} (h : j < k) : Start w gap j + w j + gap ≤ Start w gap k := by
  induction k with
  | zero => omega
  | succ k ih =>
    rw [Start]
    rcases Nat.lt_succ_iff_lt_or_eq.1 h with h | rfl
    · have := ih h; omega
    · exact Nat.le_refl _

theorem zipIdx_pairwise {α : Type} (l : List α) (k : Nat) : (l.zipIdx k).Pairwise fun a b => a.2 < b.2 := by
  induction l generalizing k with
  | nil => simp
  | cons a l ih =>
    rw [List.zipIdx_cons, List.pairwise_cons]
    refine ⟨fun b hb => ?_, ih (k + 1)⟩
    have := List.le_snd_of_mem_zipIdx hb
    show k < b.2
    omega

/-- No cell is written over another one. -/
theorem drawn_apart (line gap n : Nat) (t : Table) (_h : Wide n t) : (drawn line gap (colWidth t) t).Pairwise Apart := by
  unfold drawn
  rw [List.pairwise_flatMap]
  constructor
  · rintro ⟨row, i⟩ hr
    rw [List.pairwise_map]
    refine (zipIdx_pairwise row 0).imp_of_mem ?_
    rintro ⟨c, j⟩ ⟨c', k⟩ hc hc' hlt
    intro _
    left
    have hcj : row[j]? = some c := by simpa using List.mem_zipIdx_iff_getElem?.1 hc
    have hw : c.length ≤ colWidth t j := by
      apply le_maxOf
      rw [List.mem_map]
      refine ⟨row, ?_, by simp [lenAt, hcj]⟩
      exact (List.mem_of_getElem? (List.mem_zipIdx_iff_getElem?.1 hr))
    have := start_mono (colWidth t) gap hlt
    simp only at this
    simp only [List.length_append, List.length_replicate]
    omega
  · refine (zipIdx_pairwise t 0).imp ?_
    rintro ⟨row, i⟩ ⟨row', k⟩ hlt x hx y hy he
    simp only [List.mem_map] at hx hy hlt
    obtain ⟨_, -, rfl⟩ := hx
    obtain ⟨_, -, rfl⟩ := hy
    simp only at he
    omega

/-! ### The rows of the workers -/

theorem textLe_total (a b : Text) : textLe a b = true ∨ textLe b a = true := by
  induction a generalizing b with
  | nil => simp [textLe]
  | cons x a ih =>
    cases b with
    | nil => simp [textLe]
    | cons y b =>
      simp only [textLe]
      have := ih b
      grind

theorem textLe_trans {a b c : Text} (h : textLe a b = true) (h' : textLe b c = true) : textLe a c = true := by
  induction a generalizing b c with
  | nil => simp [textLe]
  | cons x a ih =>
    cases b with
    | nil => simp [textLe] at h
    | cons y b =>
      cases c with
      | nil => simp [textLe] at h'
      | cons z c =>
        simp only [textLe] at h h' ⊢
        have := @ih b c
        grind

theorem key_total (c : Column) (a b : Row) : (a.key c).le (b.key c) = true ∨ (b.key c).le (a.key c) = true := by
  cases c <;> simp only [Row.key, Key.le] <;> first | exact textLe_total _ _ | (simp only [decide_eq_true_eq]; omega)

theorem key_trans {c : Column} {x y z : Row} (h : (x.key c).le (y.key c) = true) (h' : (y.key c).le (z.key c) = true) :
    (x.key c).le (z.key c) = true := by
  cases c <;> simp only [Row.key, Key.le] at * <;> first | exact textLe_trans h h' | (simp only [decide_eq_true_eq] at *; omega)

theorem textLe_iff (a b : Text) : textLe a b = true ↔ ¬ TextBefore b a := by
  induction a generalizing b with
  | nil =>
    simp only [textLe, true_iff]
    rintro (⟨x, r, h⟩ | ⟨p, x, y, r, r', _, _, h⟩) <;> simp at h
  | cons x a ih =>
    cases b with
    | nil =>
      simp only [textLe, Bool.false_eq_true, false_iff, Classical.not_not]
      exact .inl ⟨x, a, rfl⟩
    | cons y b =>
      simp only [textLe]
      split
      · next hlt =>
        simp only [true_iff]
        rintro (⟨u, r, h⟩ | ⟨p, u, v, r, r', huv, h1, h2⟩)
        · simp only [List.cons_append, List.cons.injEq] at h
          rw [h.1] at hlt
          omega
        · cases p with
          | nil =>
            simp only [List.nil_append, List.cons.injEq] at h1 h2
            rw [h1.1, h2.1] at hlt
            omega
          | cons z p =>
            simp only [List.cons_append, List.cons.injEq] at h1 h2
            rw [h1.1, h2.1] at hlt
            omega
      · next hlt =>
        split
        · next hgt =>
          simp only [Bool.false_eq_true, false_iff, Classical.not_not]
          exact .inr ⟨[], y, x, b, a, hgt, rfl, rfl⟩
        · next hgt =>
          have hxy : x = y := Char.toNat_inj.1 (by omega)
          subst hxy
          rw [ih]
          apply not_congr
          constructor
          · rintro (⟨u, r, rfl⟩ | ⟨p, u, v, r, r', huv, rfl, rfl⟩)
            · exact .inl ⟨u, r, rfl⟩
            · exact .inr ⟨x :: p, u, v, r, r', huv, rfl, rfl⟩
          · rintro (⟨u, r, h⟩ | ⟨p, u, v, r, r', huv, h1, h2⟩)
            · simp only [List.cons_append, List.cons.injEq, true_and] at h
              exact .inl ⟨u, r, h⟩
            · cases p with
              | nil =>
                simp only [List.nil_append, List.cons.injEq] at h1 h2
                rw [← h1.1, ← h2.1] at huv
                omega
              | cons z p =>
                simp only [List.cons_append, List.cons.injEq] at h1 h2
                exact .inr ⟨p, u, v, r, r', huv, h1.2, h2.2⟩

theorem textLe_antisymm {a b : Text} : (textLe a b && textLe b a) = (a == b) := by
  induction a generalizing b with
  | nil => cases b <;> simp [textLe]
  | cons x a ih =>
    cases b with
    | nil => simp [textLe]
    | cons y b =>
      simp only [textLe]
      have h1 : (x :: a == y :: b) = (x == y && a == b) := rfl
      rw [h1, ← ih]
      by_cases hxy : x = y
      · subst hxy; simp
      · have : x.toNat ≠ y.toNat := fun h => hxy (Char.toNat_inj.1 h)
        have h2 : (x == y) = false := by simpa using hxy
        rw [h2]
        by_cases hlt : x.toNat < y.toNat
        · simp [hlt, show ¬ y.toNat < x.toNat by omega]
        · simp [hlt, show y.toNat < x.toNat by omega]

theorem key_le (c : Column) (a b : Row) : (a.key c).le (b.key c) = true ↔ ¬ Below b a c := by
  cases c <;> simp only [Row.key, Key.le, Below] <;> first | exact textLe_iff _ _ | (simp only [decide_eq_true_eq]; omega)

theorem sameKey_eq (c : Column) (r x : Row) : sameKey c r x = ((x.key c).le (r.key c) && (r.key c).le (x.key c)) := by
  cases c <;> simp only [Row.key, Key.le, sameKey] <;>
    first | rw [textLe_antisymm] | (rw [Bool.eq_iff_iff]; simp only [beq_iff_eq, Bool.and_eq_true, decide_eq_true_eq]; omega)

theorem insertRow_perm (c : Column) (r : Row) (l : List Row) : (insertRow c r l).Perm (r :: l) := by
  induction l with
  | nil => exact .refl _
  | cons x l ih =>
    unfold insertRow
    split
    · exact .refl _
    · exact (ih.cons x).trans (.swap _ _ _)

theorem sortRows_perm (c : Column) (l : List Row) : (sortRows c l).Perm l := by
  induction l with
  | nil => exact .refl _
  | cons r l ih => exact (insertRow_perm c r _).trans (ih.cons r)

theorem insertRow_descending {c : Column} {r : Row} {l : List Row} (h : Descending c l) : Descending c (insertRow c r l) := by
  induction l with
  | nil => simp [insertRow, Descending]
  | cons x l ih =>
    unfold Descending at h
    rw [List.pairwise_cons] at h
    unfold insertRow
    split
    · next hle =>
      unfold Descending
      rw [List.pairwise_cons, List.pairwise_cons]
      refine ⟨fun b hb => ?_, h⟩
      rcases List.mem_cons.1 hb with rfl | hb
      · exact (key_le c _ _).1 hle
      · exact (key_le c _ _).1 (key_trans ((key_le c _ _).2 (h.1 b hb)) hle)
    · next hle =>
      unfold Descending
      rw [List.pairwise_cons]
      refine ⟨fun b hb => ?_, ih h.2⟩
      rcases List.mem_cons.1 ((insertRow_perm c r l).mem_iff.1 hb) with rfl | hb
      · exact (key_le c _ _).1 ((key_total c x b).resolve_left hle)
      · exact h.1 b hb

theorem sortRows_descending (c : Column) (l : List Row) : Descending c (sortRows c l) := by
  induction l with
  | nil => simp [sortRows, Descending]
  | cons r l ih => exact insertRow_descending ih

theorem insertRow_filter (c : Column) (q r : Row) (l : List Row) :
    (insertRow c r l).filter (sameKey c q) = (r :: l).filter (sameKey c q) := by
  induction l with
  | nil => rfl
  | cons x l ih =>
    unfold insertRow
    split
    · rfl
    · next hle =>
      rw [List.filter_cons, ih, List.filter_cons, List.filter_cons, List.filter_cons]
      by_cases hr : sameKey c q r = true <;> by_cases hx : sameKey c q x = true <;> simp only [hr, hx, if_true]
      · exfalso
        simp only [sameKey_eq, Bool.and_eq_true] at hr hx
        exact hle (key_trans hx.1 hr.2)
      all_goals rfl

theorem sortRows_filter (c : Column) (q : Row) (l : List Row) : (sortRows c l).filter (sameKey c q) = l.filter (sameKey c q) := by
  induction l with
  | nil => rfl
  | cons r l ih => rw [sortRows, insertRow_filter, List.filter_cons, ih, ← List.filter_cons]

/-! ### Cells -/

theorem formatBytes_bytesize (tenths : Nat → Nat → Text) (n : Nat) :
    (n < 1024 ^ 5 → ∃ x, formatBytes n = .ok x ∧ Bytesize tenths n (shownText tenths x)) ∧
    (1024 ^ 5 ≤ n → formatBytes n = .error .valueError) := by
  refine ⟨fun h => ?_, (C61_bytes n).2⟩
  have hc : n < 1024 ∨ (1024 ≤ n ∧ n < 1024 ^ 2) ∨ (1024 ^ 2 ≤ n ∧ n < 1024 ^ 3) ∨ (1024 ^ 3 ≤ n ∧ n < 1024 ^ 4) ∨ (1024 ^ 4 ≤ n ∧ n < 1024 ^ 5) := by omega
  rcases hc with h | ⟨h, h'⟩ | ⟨h, h'⟩ | ⟨h, h'⟩ | ⟨h, h'⟩
  · exact ⟨_, (C61_bytes n).1 0 (by decide) (.inr rfl) h, .inl ⟨h, by simp [shownSize, shownText, sizeUnit]⟩⟩
  · exact ⟨_, (C61_bytes n).1 1 (by decide) (.inl h) h', .inr (.inl ⟨h, h', by simp [shownSize, shownText, sizeUnit]⟩)⟩
  · exact ⟨_, (C61_bytes n).1 2 (by decide) (.inl h) h', .inr (.inr (.inl ⟨h, h', by simp [shownSize, shownText, sizeUnit]⟩))⟩
  · exact ⟨_, (C61_bytes n).1 3 (by decide) (.inl h) h', .inr (.inr (.inr (.inl ⟨h, h', by simp [shownSize, shownText, sizeUnit]⟩)))⟩
  · exact ⟨_, (C61_bytes n).1 4 (by decide) (.inl h) h', .inr (.inr (.inr (.inr ⟨h, h', by simp [shownSize, shownText, sizeUnit]⟩)))⟩

theorem formatMicros_duration (tenths : Nat → Nat → Text) (n : Nat) :
    (n < 1000 ^ 3 → ∃ x, formatMicros n = .ok x ∧ Duration tenths n (shownText tenths x)) ∧
    (1000 ^ 3 ≤ n → formatMicros n = .error .valueError) := by
  obtain ⟨h1, h2, h3, h4⟩ := C61_microseconds n
  refine ⟨fun h => ?_, h4⟩
  have hc : n < 1000 ∨ (1000 ≤ n ∧ n < 1000 ^ 2) ∨ (1000 ^ 2 ≤ n ∧ n < 1000 ^ 3) := by omega
  rcases hc with h | ⟨h, h'⟩ | ⟨h, h'⟩
  · exact ⟨_, h1 h, .inl ⟨h, rfl⟩⟩
  · exact ⟨_, h2 h h', .inr (.inl ⟨h, h', by simp [shownText]⟩)⟩
  · exact ⟨_, h3 h h', .inr (.inr ⟨h, h', by simp [shownText]⟩)⟩

theorem truncate_cut (s : Text) (n : Nat) (h : 0 < n) : truncate s n true = cut n s := by
  unfold truncate cut
  rw [if_neg (by omega)]
  by_cases hl : s.length ≤ n
  · rw [if_pos (by omega), if_neg (by omega)]
  · rw [if_neg (by omega), if_pos rfl, if_pos (by omega)]
    simp

theorem ago_eq (last : Int) : (if last > 5 then ['('] ++ formatSeconds last.toNat ++ [')', ' '] else []) = ago last := by
  unfold ago
  by_cases h : last ≤ 5
  · rw [if_neg (by omega), if_pos h]
  · rw [if_pos (by omega), if_neg h, C61_seconds]
    obtain ⟨n, rfl⟩ := Int.eq_ofNat_of_zero_le (show 0 ≤ last by omega)
    by_cases h' : n ≤ 60
    · rw [if_pos (by simpa using h'), if_pos (by omega)]
      simp [decInt]
    · rw [if_neg (by simpa using h'), if_neg (by omega)]
      simp

theorem rowCells_line (tenths : Nat → Nat → Text) (r : Row) :
    (r.agtRss < 1024 ^ 5 ∧ r.rss < 1024 ^ 5 ∧ r.lag < 1000 ^ 3 → ∃ cells, rowCells tenths 24 r = .ok cells ∧ WorkerLine tenths r cells) ∧
    (¬ (r.agtRss < 1024 ^ 5 ∧ r.rss < 1024 ^ 5 ∧ r.lag < 1000 ^ 3) → rowCells tenths 24 r = .error .valueError) := by
  obtain ⟨a1, a2⟩ := formatBytes_bytesize tenths r.agtRss
  obtain ⟨b1, b2⟩ := formatBytes_bytesize tenths r.rss
  obtain ⟨c1, c2⟩ := formatMicros_duration tenths r.lag
  unfold rowCells
  constructor
  · rintro ⟨h1, h2, h3⟩
    obtain ⟨x, hx, hx'⟩ := a1 h1
    obtain ⟨y, hy, hy'⟩ := b1 h2
    obtain ⟨z, hz, hz'⟩ := c1 h3
    rw [hx, hy, hz]
    refine ⟨_, rfl, _, _, _, hx', hy', hz', ?_⟩
    have := truncate_cut r.worker 24 (by decide)
    simp only [ago_eq]
    rw [← this]
    simp [percent, percentage]
  · intro h
    by_cases h1 : r.agtRss < 1024 ^ 5
    · by_cases h2 : r.rss < 1024 ^ 5
      · by_cases h3 : r.lag < 1000 ^ 3
        · exact absurd ⟨h1, h2, h3⟩ h
        · obtain ⟨x, hx, hx'⟩ := a1 h1
          obtain ⟨y, hy, hy'⟩ := b1 h2
          rw [hx, hy, c2 (by omega)]; rfl
      · obtain ⟨x, hx, hx'⟩ := a1 h1
        rw [hx, b2 (by omega)]; rfl
    · rw [a2 (by omega)]; rfl

theorem rowsCells_lines (tenths : Nat → Nat → Text) (l : List Row) :
    ((∀ r ∈ l, r.agtRss < 1024 ^ 5 ∧ r.rss < 1024 ^ 5 ∧ r.lag < 1000 ^ 3) → ∃ t, rowsCells tenths 24 l = .ok t ∧ t.length = l.length ∧
      ∀ (i : Nat) r, l[i]? = some r → ∃ cells, t[i]? = some cells ∧ WorkerLine tenths r cells) ∧
    (¬ (∀ r ∈ l, r.agtRss < 1024 ^ 5 ∧ r.rss < 1024 ^ 5 ∧ r.lag < 1000 ^ 3) → rowsCells tenths 24 l = .error .valueError) := by
  induction l with
  | nil => exact ⟨fun _ => ⟨[], rfl, rfl, by simp⟩, fun h => absurd (by simp) h⟩
  | cons r l ih =>
    rw [List.forall_mem_cons]
    obtain ⟨a1, a2⟩ := rowCells_line tenths r
    unfold rowsCells
    constructor
    · rintro ⟨h1, h2⟩
      obtain ⟨cells, hc, hc'⟩ := a1 h1
      obtain ⟨t, ht, hl, ht'⟩ := ih.1 h2
      rw [hc, ht]
      refine ⟨cells :: t, rfl, by simp [hl], ?_⟩
      intro i r' hi
      cases i with
      | zero =>
        cases hi
        exact ⟨cells, rfl, hc'⟩
      | succ i => exact ht' i r' hi
    · intro h
      by_cases h1 : r.agtRss < 1024 ^ 5 ∧ r.rss < 1024 ^ 5 ∧ r.lag < 1000 ^ 3
      · obtain ⟨cells, hc, hc'⟩ := a1 h1
        rw [hc, ih.2 fun h2 => h ⟨h1, h2⟩]; rfl
      · rw [a2 h1]; rfl

/-! ### Tables -/

/-- A table with `h` rows of `n` cells; `f` gives them, and empty cells below. -/
structure IsTable (t : Table) (h n : Nat) (f : Nat → List Text) : Prop where
  length : t.length = h
  pos : 0 < h
  row : ∀ i, i < h → t[i]? = some (f i)
  size : ∀ i, (f i).length = n
  below : ∀ i, h ≤ i → f i = List.replicate n []

theorem IsTable.wide {t : Table} {h n : Nat} {f : Nat → List Text} (x : IsTable t h n f) : Wide n t := by
  intro row hr
  obtain ⟨i, hi, rfl⟩ := List.getElem_of_mem hr
  have := x.row i (by rw [← x.length]; exact hi)
  rw [List.getElem?_eq_getElem hi] at this
  rw [Option.some.inj this]
  exact x.size i

theorem IsTable.ne {t : Table} {h n : Nat} {f : Nat → List Text} (x : IsTable t h n f) : t ≠ [] := by
  have := x.length; have := x.pos
  rintro rfl
  simp at *; omega

theorem IsTable.getD {t : Table} {h n : Nat} {f : Nat → List Text} (x : IsTable t h n f) (i : Nat) :
    (t[i]?).getD (List.replicate n []) = f i := by
  by_cases hi : i < h
  · rw [x.row i hi]; rfl
  · rw [List.getElem?_eq_none (by rw [x.length]; omega), x.below i (by omega)]; rfl

theorem merge_isTable {l r : Table} {h h' n n' : Nat} {f f' : Nat → List Text} (x : IsTable l h n f) (y : IsTable r h' n' f') :
    IsTable (mergeTables l r ['|']) (max h h') (n + 1 + n')
      (fun i => if i < max h h' then f i ++ [['|']] ++ f' i else List.replicate (n + 1 + n') []) := by
  have e : mergeTables l r ['|'] = (List.range (max h h')).map fun i => f i ++ [['|']] ++ f' i := by
    have hx := x.getD
    have hy := y.getD
    have xl := x.length
    have yl := y.length
    have x0 : ∀ l0 l', l = l0 :: l' → l0.length = n := fun l0 l' e => x.wide l0 (by simp [e])
    have y0 : ∀ l0 l', r = l0 :: l' → l0.length = n' := fun l0 l' e => y.wide l0 (by simp [e])
    unfold mergeTables
    split
    · exact absurd rfl x.ne
    · exact absurd rfl y.ne
    · next l0 l' r0 r' =>
      rw [x0 _ _ rfl, y0 _ _ rfl]
      simp only [hx, hy, xl, yl]
      rfl
  rw [e]
  refine ⟨by simp, by have := x.pos; omega, fun i hi => ?_, fun i => ?_, fun i hi => by rw [if_neg (by omega)]⟩
  · rw [List.getElem?_map, List.getElem?_range hi, if_pos hi]; rfl
  · split
    · simp [x.size, y.size]; omega
    · simp

theorem entry_length (title : Text) (data : List (Text × Text)) (i : Nat) : (entry title data i).length = 2 := by
  cases i with
  | zero => rfl
  | succ i => unfold entry; simp only; split <;> rfl

theorem entry_below (title : Text) (data : List (Text × Text)) (i : Nat) (h : data.length + 1 ≤ i) : entry title data i = [[], []] := by
  cases i with
  | zero => omega
  | succ i => unfold entry; simp only; rw [List.getElem?_eq_none (by omega)]

theorem list_isTable (title : Text) (data : List (Text × Text)) :
    IsTable ([title, []] :: data.map fun p => [p.1, p.2]) (data.length + 1) 2 (entry title data) := by
  refine ⟨by simp, by omega, fun i hi => ?_, entry_length title data, entry_below title data⟩
  cases i with
  | zero => rfl
  | succ i =>
    have hi' : i < data.length := by omega
    simp [entry, List.getElem?_eq_getElem hi']

theorem keyword_isTable (title : Text) (data : List (Text × Nat)) (n : Nat) (flag : Bool) :
    IsTable (keywordData title data n flag) (data.length + 1) 2
      (entry title (data.map fun p => (if n = 0 then p.1 else cut n p.1, if flag then formatInteger p.2 else dec p.2))) := by
  have := list_isTable title (data.map fun p => (if n = 0 then p.1 else cut n p.1, if flag then formatInteger p.2 else dec p.2))
  rw [List.map_map, List.length_map] at this
  have e : keywordData title data n flag = [title, []] :: data.map ((fun p : Text × Text => [p.1, p.2]) ∘ fun p => (if n = 0 then p.1 else cut n p.1, if flag then formatInteger p.2 else dec p.2)) := by
    unfold keywordData
    congr 2
    funext p
    simp only [Function.comp_apply]
    by_cases h : n = 0
    · simp [h, truncate]
    · rw [truncate_cut _ _ (by omega), if_neg h]
  rwa [e]

theorem concat_isTable {up down : Table} {h h' : Nat} {f f' : Nat → List Text} (x : IsTable up h 2 f) (y : IsTable down h' 2 f') :
    ∃ t, concatTables up down 1 = .ok t ∧
      IsTable t (h + 1 + h') 2 (fun i => if i < h then f i else if i = h then [[], []] else f' (i - (h + 1))) := by
  have hw : ∀ row ∈ up ++ down, row.length = 2 := by
    intro row hr
    rcases List.mem_append.1 hr with hr | hr
    · exact x.wide row hr
    · exact y.wide row hr
  have hm : maxOf ((up ++ down).map (·.length)) = 2 := by
    have h1 := maxOf_mem (l := (up ++ down).map (·.length)) (by simp [x.ne])
    obtain ⟨row, hr, he⟩ := List.mem_map.1 h1
    rw [← he, hw row hr]
  have hid : ∀ t : Table, (∀ row ∈ t, row.length = 2) → (t.map fun row => row ++ List.replicate (2 - row.length) []) = t := by
    intro t ht
    conv => rhs; rw [← List.map_id t]
    apply List.map_congr_left
    intro row hr
    simp [ht row hr]
  refine ⟨up ++ [[[], []]] ++ down, ?_, ?_⟩
  · unfold concatTables
    rw [if_neg (by simp [x.ne])]
    simp only [hm, hid up fun r hr => hw r (List.mem_append_left _ hr), hid down fun r hr => hw r (List.mem_append_right _ hr)]
    rfl
  · have xl := x.length
    have yl := y.length
    refine ⟨by simp [xl, yl]; omega, by omega, fun i hi => ?_, fun i => ?_, fun i hi => ?_⟩
    · by_cases h1 : i < h
      · rw [if_pos h1, List.append_assoc, List.getElem?_append_left (by omega), x.row i h1]
      · rw [if_neg h1, List.append_assoc, List.getElem?_append_right (by omega), xl]
        by_cases h2 : i = h
        · rw [if_pos h2, h2]; simp
        · rw [if_neg h2, List.getElem?_append_right (by simp; omega)]
          have := y.row (i - (h + 1)) (by omega)
          rw [← this]
          congr 1
    · split
      · exact x.size i
      · split
        · rfl
        · exact y.size _
    · rw [if_neg (by omega), if_neg (by omega), y.below _ (by omega)]

theorem workerLine_length {tenths : Nat → Nat → Text} {r : Row} {cells : List Text} (h : WorkerLine tenths r cells) : cells.length = 10 := by
  obtain ⟨a, b, l, -, -, -, rfl⟩ := h
  rfl

theorem titles_eq (c : Column) : (columns.map fun v => if v = c then ['['] ++ v.name ++ [']'] else v.name) = titles c := by
  cases c <;> decide

/-- The sizes of a worker that can be shown. -/
def RowShowable (r : Row) : Prop := r.agtRss < 1024 ^ 5 ∧ r.rss < 1024 ^ 5 ∧ r.lag < 1000 ^ 3

theorem workerTable_isTable (tenths : Nat → Nat → Text) (rows : List Row) (c : Column) :
    ((∀ r ∈ rows, RowShowable r) → ∃ t n g, workerTable tenths rows 24 c = .ok t ∧ IsTable t (rows.length + 1) n g ∧
      n = (if rows = [] then 1 else 10) ∧ ∀ i, WorkerPart tenths (sortRows c rows) c i (g i)) ∧
    (¬ (∀ r ∈ rows, RowShowable r) → workerTable tenths rows 24 c = .error .valueError) := by
  cases rows with
  | nil =>
    refine ⟨fun _ => ⟨_, 1, fun i => if i = 0 then ["No workers".toList] else [[]], rfl, ⟨rfl, by simp, ?_, ?_, ?_⟩, rfl, ?_⟩,
      fun h => absurd (by simp) h⟩
    · intro i hi
      have : i = 0 := by simpa using hi
      subst this; rfl
    · intro i
      split <;> rfl
    · intro i hi
      rw [if_neg (by have : 1 ≤ i := hi; omega)]; rfl
    · intro i
      cases i <;> rfl
  | cons r rows =>
    obtain ⟨a1, a2⟩ := rowsCells_lines tenths (sortRows c (r :: rows))
    have hp := sortRows_perm c (r :: rows)
    have hall : (∀ x ∈ sortRows c (r :: rows), x.agtRss < 1024 ^ 5 ∧ x.rss < 1024 ^ 5 ∧ x.lag < 1000 ^ 3) ↔ ∀ x ∈ r :: rows, RowShowable x :=
      ⟨fun h x hx => h x (hp.mem_iff.2 hx), fun h x hx => h x (hp.mem_iff.1 hx)⟩
    rw [hall] at a1 a2
    unfold workerTable
    simp only [titles_eq]
    have hl := hp.length_eq
    refine ⟨fun h => ?_, fun h => by rw [a2 h]; rfl⟩
    obtain ⟨t, ht, htl, hti⟩ := a1 h
    rw [ht]
    have hti' : ∀ i, i < (r :: rows).length → ∃ x cells, (sortRows c (r :: rows))[i]? = some x ∧ t[i]? = some cells ∧ WorkerLine tenths x cells := by
      intro i hi
      have hi' : i < (sortRows c (r :: rows)).length := by omega
      obtain ⟨cells, h1, h2⟩ := hti i _ (List.getElem?_eq_getElem hi')
      exact ⟨_, cells, List.getElem?_eq_getElem hi', h1, h2⟩
    have hne : sortRows c (r :: rows) ≠ [] := by
      intro h0; rw [h0] at hl; simp at hl
    have hpart : ∀ i, WorkerPart tenths (sortRows c (r :: rows)) c i (((titles c :: t)[i]?).getD (List.replicate 10 [])) := by
      intro i
      unfold WorkerPart
      cases hs : sortRows c (r :: rows) with
      | nil => exact absurd hs hne
      | cons x xs =>
        cases i with
        | zero => rfl
        | succ i =>
          simp only [List.getElem?_cons_succ]
          by_cases hi : i < (r :: rows).length
          · obtain ⟨y, cells, h1, h2, h3⟩ := hti' i hi
            rw [hs] at h1
            rw [h1, h2]
            exact h3
          · rw [List.getElem?_eq_none (l := x :: xs) (by rw [← hs]; omega), List.getElem?_eq_none (l := t) (by omega)]
            rfl
    refine ⟨titles c :: t, 10, fun i => ((titles c :: t)[i]?).getD (List.replicate 10 []), rfl, ⟨by simp [htl, hl], by omega, ?_, ?_, ?_⟩, by simp, hpart⟩
    · intro i hi
      rw [List.getElem?_eq_getElem (by rw [List.length_cons, htl, hl]; exact hi)]; rfl
    · intro i
      cases i with
      | zero => cases c <;> rfl
      | succ i =>
        simp only [List.getElem?_cons_succ]
        by_cases hi : i < (r :: rows).length
        · obtain ⟨y, cells, h1, h2, h3⟩ := hti' i hi
          rw [h2]; exact workerLine_length h3
        · rw [List.getElem?_eq_none (by omega)]; rfl
    · intro i hi
      rw [List.getElem?_eq_none (by rw [List.length_cons, htl, hl]; exact hi)]; rfl

theorem table1_upper (tenths : Nat → Nat → Text) (st : Status) :
    (st.rss < 1024 ^ 5 → ∃ t, table1 tenths st = .ok t ∧ Upper tenths st t ∧ Wide 11 t) ∧
    (1024 ^ 5 ≤ st.rss → table1 tenths st = .error .valueError) := by
  obtain ⟨a1, a2⟩ := formatBytes_bytesize tenths st.rss
  unfold table1
  refine ⟨fun h => ?_, fun h => by rw [a2 h]; rfl⟩
  obtain ⟨x, hx, hx'⟩ := a1 h
  rw [hx]
  have t0 := list_isTable "scheduler".toList [("cpu".toList, percent st.cpu), ("rss".toList, shownText tenths x)]
  have m1 := merge_isTable t0 (keyword_isTable "task_manager".toList st.taskManager 0 true)
  have m2 := merge_isTable m1 (keyword_isTable "scheduler_sent".toList st.sent 0 true)
  have m3 := merge_isTable m2 (keyword_isTable "scheduler_received".toList st.received 0 true)
  have e0 : percentage st.cpu = percent st.cpu := by simp [percentage, percent]
  refine ⟨_, rfl, ?_, ?_⟩
  · have hh := m3.length
    simp only [List.map_cons, List.map_nil, List.length_cons, List.length_nil] at hh
    rw [e0]
    refine ⟨?_, _, hx', ?_⟩
    · refine Eq.trans hh ?_
      omega
    · intro i hi
      refine (m3.row i (by rw [← m3.length]; exact hi)).trans ?_
      rw [if_pos (by rw [← m3.length]; exact hi)]
      simp only [List.length_cons, List.length_nil, if_true]
      by_cases h2 : i < max (max (0 + 1 + 1 + 1) (st.taskManager.length + 1)) (st.sent.length + 1)
      · have b2 : bar (1 + max (max 2 st.taskManager.length) st.sent.length) i = [['|']] := by unfold bar; rw [if_pos (by omega)]
        rw [if_pos h2, b2]
        by_cases h1 : i < max (0 + 1 + 1 + 1) (st.taskManager.length + 1)
        · have b1 : bar (1 + max 2 st.taskManager.length) i = [['|']] := by unfold bar; rw [if_pos (by omega)]
          rw [if_pos h1, b1]
        · have b1 : bar (1 + max 2 st.taskManager.length) i = [[]] := by unfold bar; rw [if_neg (by omega)]
          rw [if_neg h1, b1, entry_below _ [_, _] i (by simp; omega), entry_below _ (st.taskManager.map _) i (by simp; omega)]
          rfl
      · have b2 : bar (1 + max (max 2 st.taskManager.length) st.sent.length) i = [[]] := by unfold bar; rw [if_neg (by omega)]
        have b1 : bar (1 + max 2 st.taskManager.length) i = [[]] := by unfold bar; rw [if_neg (by omega)]
        rw [if_neg h2, b2, b1, entry_below _ [_, _] i (by simp; omega), entry_below _ (st.taskManager.map _) i (by simp; omega),
          entry_below _ (st.sent.map _) i (by simp; omega)]
        rfl
  · rw [e0]; exact m3.wide

theorem table3_lower (tenths : Nat → Nat → Text) (st : Status) (c : Column) :
    ((∀ r ∈ st.workers, RowShowable r) → ∃ t n, table3 tenths st c = .ok t ∧ Lower tenths st c t ∧ Wide n t ∧ t ≠ []) ∧
    (¬ (∀ r ∈ st.workers, RowShowable r) → table3 tenths st c = .error .valueError) := by
  obtain ⟨a1, a2⟩ := workerTable_isTable tenths st.workers c
  obtain ⟨t2, h2, y⟩ := concat_isTable (keyword_isTable "client_manager".toList st.clients 18 false)
    (keyword_isTable "func_to_num_tasks".toList st.functions 18 false)
  unfold table3
  refine ⟨fun h => ?_, fun h => by rw [a2 h]; rfl⟩
  obtain ⟨t, n, g, ht, x, -, hg⟩ := a1 h
  have m := merge_isTable x y
  rw [ht]
  simp only [Py.ok_bind]
  refine ⟨_, _, by rw [show ((18 : Nat) : Int) = 18 from rfl] at h2; rw [h2]; rfl, ⟨?_, sortRows c st.workers, sortRows_perm _ _, sortRows_descending _ _,
    fun r _ => sortRows_filter c r _, ?_⟩, m.wide, m.ne⟩
  · rw [m.length]; omega
  · intro i hi
    have hi' : i < max (st.workers.length + 1) (st.clients.length + 1 + 1 + (st.functions.length + 1)) := by rw [← m.length]; exact hi
    refine ⟨g i, hg i, ?_⟩
    rw [m.row i hi', if_pos hi']
    congr 2
    unfold side
    by_cases h1 : i ≤ st.clients.length
    · rw [if_pos h1, if_pos (by omega)]; rfl
    · rw [if_neg h1, if_neg (by omega)]
      by_cases h3 : i = st.clients.length + 1
      · rw [if_pos h3, if_pos h3]
      · rw [if_neg h3, if_neg h3]; rfl

/-! ### The whole screen -/

theorem attempt_spec (fits : Write → Bool) (ws : List Write) :
    (attempt fits ws).1 = (ws.takeWhile fits).map .put ∧ ((attempt fits ws).2 = ws.all fits) := by
  induction ws with
  | nil => exact ⟨rfl, rfl⟩
  | cons w ws ih =>
    unfold attempt
    by_cases h : fits w = true
    · simp [h, ih.1, ih.2]
    · simp [h]

theorem chooseSort_chosen (current : Column) (key : Int) : Chosen current key (chooseSort current key) := by
  unfold chooseSort Chosen sortOptions
  simp only
  split
  · next o ho =>
    left
    have h1 := List.mem_of_find?_eq_some ho
    have h2 := List.find?_some ho
    simp only [beq_iff_eq] at h2
    refine ⟨o.1.toNat, h2.symm, ?_⟩
    simp only [List.mem_cons, List.not_mem_nil, or_false] at h1
    rcases h1 with rfl | rfl | rfl | rfl | rfl | rfl | rfl | rfl | rfl <;> decide
  · next ho =>
    right
    refine ⟨?_, rfl⟩
    rw [List.find?_eq_none] at ho
    intro p hp he
    simp only [List.mem_cons, List.not_mem_nil, or_false] at hp
    rcases hp with rfl | rfl | rfl | rfl | rfl | rfl | rfl | rfl | rfl <;> subst he
    · exact ho ('n', .worker) (by simp) (by decide)
    · exact ho ('C', .agtCpu) (by simp) (by decide)
    · exact ho ('M', .agtRss) (by simp) (by decide)
    · exact ho ('c', .cpu) (by simp) (by decide)
    · exact ho ('m', .rss) (by simp) (by decide)
    · exact ho ('f', .free) (by simp) (by decide)
    · exact ho ('w', .sent) (by simp) (by decide)
    · exact ho ('d', .queued) (by simp) (by decide)
    · exact ho ('l', .lag) (by simp) (by decide)

theorem takeWhile_all {α : Type} {f : α → Bool} {l : List α} (h : ∀ x ∈ l, f x = true) : l.takeWhile f = l := by
  induction l with
  | nil => rfl
  | cons a l ih => rw [List.takeWhile_cons, if_pos (h a (by simp)), ih fun x hx => h x (by simp [hx])]

/-- The message for small terminals. -/
def smallNote : Write := ⟨0, 0, "Your terminal is too small to show".toList⟩

theorem tooSmall_eq (fits : Write → Bool) :
    tooSmall fits = if fits smallNote then .ok [.clear, .put smallNote, .refresh] else .error .cursesError := rfl

/-- **C73, the part that holds.** A status whose sizes are below 1024t and whose lags are below 1000s is shown as
specified: the key chooses the column to sort by; if the upper table fits, it is drawn, and what follows as far as it
fits; if not, the terminal is said to be too small.  Nothing is drawn over something else.
(Full statement: every status the scheduler publishes is shown.) -/
theorem C73_screen_partial (fits : Write → Bool) (tenths : Nat → Nat → Text) (sortBy : Column) (key : Int) (st : Status) (h : Showable st) :
    ∃ c above rest, Chosen sortBy key c ∧ Screen tenths st c above rest ∧ (above ++ rest).Pairwise Apart ∧
      showStatus fits tenths sortBy key st =
        if above.all fits then .ok (c, .clear :: above.map .put ++ (rest.takeWhile fits).map .put ++ [.refresh])
        else if fits smallNote then .ok (c, .clear :: (above.takeWhile fits).map .put ++ [.clear, .put smallNote, .refresh])
        else .error .cursesError := by
  obtain ⟨t1, h1, u1, wd1⟩ := (table1_upper tenths st).1 h.1
  obtain ⟨t3, n, h3, u3, wd3, ne3⟩ := (table3_lower tenths st (chooseSort sortBy key)).1 h.2
  have ne1 : t1 ≠ [] := by
    have := u1.height
    rintro rfl
    simp only [List.length_nil] at this
    omega
  have sc : Screen tenths st (chooseSort sortBy key) (drawn 0 1 (colWidth t1) t1)
      (between t1.length (Start (colWidth t1) 1 11) st.workers.length ++ drawn (t1.length + 4) 1 (colWidth t3) t3) :=
    ⟨t1, t3, _, _, u1, u3, colWidth_width ne1, colWidth_width ne3, rfl, rfl⟩
  have lines : ∀ line (t : Table) x, x ∈ drawn line 1 (colWidth t) t → line ≤ x.line ∧ x.line < line + t.length := by
    intro line t x hx
    unfold drawn at hx
    obtain ⟨⟨row, i⟩, hr, hx⟩ := List.mem_flatMap.1 hx
    obtain ⟨_, -, rfl⟩ := List.mem_map.1 hx
    have := List.snd_lt_of_mem_zipIdx hr
    simp only [Nat.add_zero] at *
    omega
  refine ⟨chooseSort sortBy key, _, _, chooseSort_chosen sortBy key, sc, ?_, ?_⟩
  · rw [List.pairwise_append]
    refine ⟨drawn_apart 0 1 11 t1 wd1, ?_, ?_⟩
    · rw [List.pairwise_append]
      refine ⟨?_, drawn_apart _ 1 n t3 wd3, ?_⟩
      · simp only [between, List.pairwise_cons, Apart]
        refine ⟨?_, ?_, ?_, .nil⟩ <;> simp <;> omega
      · intro x hx y hy he
        have := lines _ _ _ hy
        simp only [between, List.mem_cons, List.not_mem_nil, or_false] at hx
        rcases hx with rfl | rfl | rfl <;> simp only at he <;> omega
    · intro x hx y hy he
      have h0 := lines _ _ _ hx
      rcases List.mem_append.1 hy with hy | hy
      · simp only [between, List.mem_cons, List.not_mem_nil, or_false] at hy
        rcases hy with rfl | rfl | rfl <;> simp only at he <;> omega
      · have := lines _ _ _ hy
        omega
  · unfold showStatus
    simp only [h1, h3, Py.ok_bind, printTable_wide 0 1 11 t1 wd1 ne1]
    obtain ⟨b1, b2⟩ := attempt_spec fits (drawn 0 1 (colWidth t1) t1)
    split
    · next d1 he =>
      rw [he] at b1 b2
      rw [if_neg (by rw [← b2]; simp), tooSmall_eq]
      simp only at b1
      split
      · rw [b1]; rfl
      · rfl
    · next d1 he =>
      rw [he] at b1 b2
      simp only at b1 b2
      have e : (drawn 0 1 (colWidth t1) t1).takeWhile fits = drawn 0 1 (colWidth t1) t1 := by
        exact takeWhile_all (List.all_eq_true.1 b2.symm)
      rw [if_pos b2.symm, b1, e]
      simp only [orRaise, Py.ok_bind, Nat.zero_add, printTable_wide _ 1 n t3 wd3 ne3]
      obtain ⟨c1, c2⟩ := attempt_spec fits (between t1.length (Start (colWidth t1) 1 11) st.workers.length ++ drawn (t1.length + 4) 1 (colWidth t3) t3)
      have : shortcuts = "Shortcuts: worker[n] agt_cpu[C] agt_rss[M] cpu[c] rss[m] free[f] sent[w] queued[d] lag[l]".toList := by decide
      simp only [between, List.cons_append, List.nil_append, ← this] at c1
      rw [c1]
      simp only [between, ← this]
      rfl

/-- **C73 is false of the code.** Any other status ends the display. -/
theorem C73_not_shown (fits : Write → Bool) (tenths : Nat → Nat → Text) (sortBy : Column) (key : Int) (st : Status) (h : ¬ Showable st) :
    showStatus fits tenths sortBy key st = .error .valueError := by
  obtain ⟨a1, a2⟩ := table1_upper tenths st
  obtain ⟨b1, b2⟩ := table3_lower tenths st (chooseSort sortBy key)
  unfold showStatus
  by_cases hr : st.rss < 1024 ^ 5
  · obtain ⟨t, ht, -⟩ := a1 hr
    rw [ht]
    simp only [Py.ok_bind, b2 fun hw => h ⟨hr, hw⟩]
    rfl
  · rw [a2 (by omega)]
    rfl

theorem deserialize_state (ty : MessageType) (ps : List Bytes) (d : Bytes) (h : deserialize ty ps = .ok (.schedulerState d)) :
    ty = .schedulerState ∧ ps.head? = some d := by
  cases ty <;> simp only [deserialize, Py.bind_ok, Py.pure_eq, Except.ok.injEq, reduceCtorEq, and_false, exists_false] at h
  obtain ⟨x, hx, h⟩ := h
  cases h
  exact ⟨rfl, by rw [List.head?_eq_getElem?]; exact pyIndex_ok.1 hx⟩

/-- **C73.** Which states are shown, and when the display stops listening. -/
theorem C73_watch (l : List (List Bytes)) : Watch l (subscribe l).1 (subscribe l).2 := by
  induction l with
  | nil => exact .wait
  | cons fs l ih =>
    match fs with
    | [] => exact .empty l
    | [x] => exact .single x ih
    | tag :: p :: ps =>
      unfold subscribe
      split
      · next hn => exact .unknown tag p ps l ((find_no_tag tag).1 hn)
      · next ty hy =>
        have ht := (find_tag tag ty).1 hy
        subst ht
        split
        · next e he =>
          refine .unreadable ty p ps l e fun hr => ?_
          obtain ⟨m, hm⟩ := (C72_decoded _ _).2 hr
          rw [hm] at he; cases he
        · next d hd =>
          obtain ⟨rfl, hp⟩ := deserialize_state ty _ d hd
          cases hp
          exact .state p ps ih
        · next m hne hm =>
          refine .other ty p ps ?_ ((C72_decoded _ _).1 ⟨m, hm⟩) ih
          rintro rfl
          simp only [deserialize, Py.bind_ok, Py.pure_eq, Except.ok.injEq] at hm
          obtain ⟨x, -, hm⟩ := hm
          exact hne x hm.symm

/-- **C73.** What is cut off a long text, at either end. -/
theorem C73_truncate (s : Text) (n : Int) (left : Bool) :
    ((n ≤ 0 ∨ s.length ≤ n) → truncate s n left = s) ∧
    (0 < n → n < s.length → ∃ kept lost, kept.length = n ∧
      if left then s = kept ++ lost ∧ truncate s n left = kept ++ ['+'] else s = lost ++ kept ∧ truncate s n left = '+' :: kept) := by
  unfold truncate
  constructor
  · intro h
    by_cases h0 : n ≤ 0
    · rw [if_pos h0]
    · rw [if_neg h0, if_pos (h.resolve_left h0)]
  · intro h0 h1
    rw [if_neg (by omega), if_neg (by omega)]
    obtain ⟨k, rfl⟩ := Int.eq_ofNat_of_zero_le (show 0 ≤ n by omega)
    cases left with
    | true => exact ⟨s.take k, s.drop k, by simp; omega, by simp⟩
    | false => exact ⟨s.drop (s.length - k), s.take (s.length - k), by simp; omega, by simp⟩

/-- **C73.** Two tables side by side; without a separator no column is put between them. -/
theorem C73_merge {l r : Table} {h h' n n' : Nat} {f f' : Nat → List Text} (x : IsTable l h n f) (y : IsTable r h' n' f') :
    mergeTables l r [] = (List.range (max h h')).map (fun i => f i ++ f' i) ∧ (∀ p, mergeTables l [] p = l ∧ mergeTables [] r p = r) := by
  have hx := x.getD
  have hy := y.getD
  have xl := x.length
  have yl := y.length
  have x0 : ∀ l0 l', l = l0 :: l' → l0.length = n := fun l0 l' e => x.wide l0 (by simp [e])
  have y0 : ∀ l0 l', r = l0 :: l' → l0.length = n' := fun l0 l' e => y.wide l0 (by simp [e])
  refine ⟨?_, fun p => ⟨?_, rfl⟩⟩
  · unfold mergeTables
    split
    · exact absurd rfl x.ne
    · exact absurd rfl y.ne
    · rw [x0 _ _ rfl, y0 _ _ rfl]
      simp only [hx, hy, xl, yl, if_true]
  · unfold mergeTables
    cases l with
    | nil => exact absurd rfl x.ne
    | cons a l => rfl

/-- **C73.** Tables of different widths one below the other: short rows are filled up with empty cells. -/
theorem C73_concat (up down : Table) (n : Nat) (h : up ++ down ≠ []) : ∃ w t, concatTables up down n = .ok t ∧ Wide w t ∧
    (∃ row ∈ up ++ down, row.length = w) ∧ t.length = up.length + n + down.length ∧
    (∀ i j, i < up.length → cell t i j = cell up i j) ∧ (∀ i j, i < n → cell t (up.length + i) j = []) ∧
    (∀ i j, i < down.length → cell t (up.length + n + i) j = cell down i j) := by
  have hm := maxOf_mem (l := (up ++ down).map (·.length)) (by simpa using h)
  have hle : ∀ row ∈ up ++ down, row.length ≤ maxOf ((up ++ down).map (·.length)) := fun row hr => le_maxOf (List.mem_map.2 ⟨row, hr, rfl⟩)
  unfold concatTables
  rw [if_neg h]
  generalize maxOf ((up ++ down).map (·.length)) = w at hm hle
  obtain ⟨row, hr, he⟩ := List.mem_map.1 hm
  have fill : ∀ (row : List Text) (k j : Nat), ((row ++ List.replicate k [])[j]?).getD [] = (row[j]?).getD [] := by
    intro row k j
    by_cases hj : j < row.length
    · rw [List.getElem?_append_left hj]
    · rw [List.getElem?_append_right (by omega), List.getElem?_eq_none (l := row) (by omega), List.getElem?_replicate]
      split <;> rfl
  refine ⟨w, _, rfl, ?_, ⟨row, hr, he⟩, by simp [Nat.add_assoc], ?_, ?_, ?_⟩
  · intro row hr
    simp only [List.mem_append, List.mem_map, List.mem_replicate] at hr
    rcases hr with (⟨x, hx, rfl⟩ | ⟨-, rfl⟩) | ⟨x, hx, rfl⟩
    · have := hle x (List.mem_append_left _ hx); simp; omega
    · simp
    · have := hle x (List.mem_append_right _ hx); simp; omega
  · intro i j hi
    unfold cell
    rw [List.append_assoc, List.getElem?_append_left (by simpa using hi), List.getElem?_map, List.getElem?_eq_getElem hi]
    exact fill _ _ _
  · intro i j hi
    unfold cell
    rw [List.append_assoc, List.getElem?_append_right (by simp), List.getElem?_append_left (by simp; omega)]
    simp only [List.length_map, Nat.add_sub_cancel_left, List.getElem?_replicate, if_pos hi, Option.getD_some]
    split <;> rfl
  · intro i j hi
    unfold cell
    rw [List.getElem?_append_right (by simp)]
    simp only [List.length_append, List.length_map, List.length_replicate, Nat.add_sub_cancel_left, List.getElem?_map, List.getElem?_eq_getElem hi]
    exact fill _ _ _

/-- Two workers, one silent for ten seconds, sorted by what they have been sent. -/
def topStory : Status :=
  ⟨125, 2048, [("unassigned".toList, 0), ("running".toList, 1234)], [], [("Task".toList, 1)], [("client".toList, 3)], [],
    [⟨"w1".toList, 0, 0, 10, 100, 2, 1, 0, 900, 0, "100".toList⟩, ⟨"w2".toList, 0, 0, 5, 100, 0, 3, 2, 2500, 10, "110".toList⟩]⟩

def roughly (n d : Nat) : Text := dec (n / d) ++ ['.'] ++ dec (10 * n / d % 10)

example : Showable topStory ∧ ¬ Showable { topStory with rss := 1024 ^ 5 } := by
  unfold Showable topStory
  constructor <;> simp

example : (workerTable roughly topStory.workers 24 .sent).toOption.map (fun t => t.map fun row => row.map String.ofList) =
    some [["worker", "agt_cpu", "agt_rss", "cpu", "rss", "free", "[sent]", "queued", "lag", "ITL"],
      ["w2", "0.0%", "0b", "0.5%", "100b", "0", "3", "2", "(10s) 2ms", "110"],
      ["w1", "0.0%", "0b", "1.0%", "100b", "2", "1", "0", "0.9ms", "100"]] := by decide +kernel

/-- A worker that reports a lag of 1000 seconds ends the display; its heartbeat is a proper message. -/
theorem C73_lag_ends (fits : Write → Bool) (tenths : Nat → Nat → Text) (sortBy : Column) (key : Int) :
    sendable (.heartbeat ⟨0, 0, 0, 0, 0, 1000000000, true, false, false⟩) ∧
    showStatus fits tenths sortBy key { topStory with workers := [⟨[], 0, 0, 0, 0, 1, 0, 0, 1000000000, 0, []⟩] } = .error .valueError := by
  refine ⟨by simp [sendable, fitsBits], C73_not_shown _ _ _ _ _ ?_⟩
  rintro ⟨-, h⟩
  exact absurd (h _ (List.mem_singleton.2 rfl)).2.2 (by decide)

/-- Where the sign for "too long" would stand; `formatMicros` never sets it (`C61_no_sign`). -/
theorem C73_sign (tenths : Nat → Nat → Text) (n : Nat) (u : Text) : shownText tenths (.whole n true u) = dec n ++ '+' :: u := by
  simp [shownText]

end Verif.Props
