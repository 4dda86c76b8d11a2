import Verif.Util.Formatter

/-!
# Claims about what is displayed (C61)
-/

namespace Verif.Props

open Verif.Util

/-- The units of sizes. -/
def sizeUnit : Nat → List Char
  | 0 => ['b'] | 1 => ['k'] | 2 => ['m'] | 3 => ['g'] | _ => ['t']

/-- What to show for `n` bytes in the unit `1024^i`. -/
def shownSize (n i : Nat) : Shown :=
  if i ≤ 1 then .whole (n / 1024 ^ i) false (sizeUnit i) else .tenths n (1024 ^ i) (sizeUnit i)

/-- The unit is the largest in which the number is at least 1, bytes below 1024; `1024^5` and more raise
`ValueError`. -/
theorem C61_bytes (n : Nat) :
    (∀ i, i ≤ 4 → (1024 ^ i ≤ n ∨ i = 0) → n < 1024 ^ (i + 1) → formatBytes n = .ok (shownSize n i)) ∧
    (1024 ^ 5 ≤ n → formatBytes n = .error .valueError) := by
  constructor
  · intro i hi h1 h2
    have : i = 0 ∨ i = 1 ∨ i = 2 ∨ i = 3 ∨ i = 4 := by omega
    rcases this with rfl | rfl | rfl | rfl | rfl <;>
      simp only [formatBytes, formatBytesLoop, shownSize, sizeUnit] at * <;> grind
  · intro h
    simp only [formatBytes, formatBytesLoop]
    grind

/-- Every number below `1024^5` is shown. -/
theorem C61_bytes_total (n : Nat) : (∃ x, formatBytes n = .ok x) ↔ n < 1024 ^ 5 := by
  obtain ⟨h1, h2⟩ := C61_bytes n
  constructor
  · rintro ⟨x, hx⟩
    rcases Nat.lt_or_ge n (1024 ^ 5) with h | h
    · exact h
    · rw [h2 h] at hx; cases hx
  · intro h
    have : ∃ i, i ≤ 4 ∧ (1024 ^ i ≤ n ∨ i = 0) ∧ n < 1024 ^ (i + 1) := by
      rcases Nat.lt_or_ge n (1024 ^ 1) with h0 | h0
      · exact ⟨0, by omega, .inr rfl, h0⟩
      rcases Nat.lt_or_ge n (1024 ^ 2) with h' | h'
      · exact ⟨1, by omega, .inl h0, h'⟩
      rcases Nat.lt_or_ge n (1024 ^ 3) with h'' | h''
      · exact ⟨2, by omega, .inl h', h''⟩
      rcases Nat.lt_or_ge n (1024 ^ 4) with h3 | h3
      · exact ⟨3, by omega, .inl h'', h3⟩
      · exact ⟨4, by omega, .inl h3, h⟩
    obtain ⟨i, a, b, c⟩ := this
    exact ⟨_, h1 i a b c⟩

/-- Below a millisecond a fraction of a millisecond is shown, below a second whole milliseconds, below 1000 seconds
whole seconds; from there on `ValueError` is raised. -/
theorem C61_microseconds (n : Nat) :
    (n < 1000 → formatMicros n = .ok (.tenths n 1000 ['m', 's'])) ∧
    (1000 ≤ n → n < 1000 ^ 2 → formatMicros n = .ok (.whole (n / 1000) false ['m', 's'])) ∧
    (1000 ^ 2 ≤ n → n < 1000 ^ 3 → formatMicros n = .ok (.whole (n / 1000 ^ 2) false ['s'])) ∧
    (1000 ^ 3 ≤ n → formatMicros n = .error .valueError) := by
  simp only [formatMicros, formatMicrosLoop]
  refine ⟨fun h => ?_, fun h h' => ?_, fun h h' => ?_, fun h => ?_⟩ <;> grind

/-- The sign for times that are too long (formatter.py 38) is never shown: `ValueError` is raised instead. -/
theorem C61_no_sign (n v : Nat) (u : List Char) : formatMicros n ≠ .ok (.whole v true u) := by
  simp only [formatMicros, formatMicrosLoop]
  grind

/-- Up to a minute the seconds are shown. -/
theorem C61_seconds (n : Nat) : formatSeconds n = if n ≤ 60 then dec n ++ ['s'] else ['6', '0', '+', 's'] := by
  unfold formatSeconds; split <;> split <;> first | rfl | omega

theorem group_filter (cs : List Char) (h : ',' ∉ cs) : (group cs).filter (· ≠ ',') = cs := by
  induction cs using group.induct with
  | case1 a b c d cs ih =>
    simp only [List.mem_cons, not_or] at h
    obtain ⟨h1, h2, h3, h4, h5⟩ := h
    have := ih (by simp only [List.mem_cons, not_or]; exact ⟨h4, h5⟩)
    simp only [group]
    rw [List.filter_cons_of_pos (by simpa using fun e => h1 e.symm), List.filter_cons_of_pos (by simpa using fun e => h2 e.symm),
      List.filter_cons_of_pos (by simpa using fun e => h3 e.symm), List.filter_cons_of_neg (by simp), this]
  | case2 cs hne =>
    have : group cs = cs := by rw [group]; exact hne
    rw [this, List.filter_eq_self.2]
    intro x hx
    simp only [ne_eq, decide_not, Bool.not_eq_eq_eq_not, Bool.not_true, decide_eq_false_iff_not]
    rintro rfl
    exact h hx

/-- Without its commas, a formatted integer is its decimal form. -/
theorem C61_integer (n : Nat) : (formatInteger n).filter (· ≠ ',') = dec n := by
  unfold formatInteger
  rw [List.filter_reverse, group_filter, List.reverse_reverse]
  intro h
  exact absurd (dec_digits n _ (List.mem_reverse.1 h)) (by decide)

example : formatBytes 1536 = .ok (.whole 1 false ['k']) ∧ formatBytes (5 * 1024 ^ 2) = .ok (.tenths (5 * 1024 ^ 2) (1024 ^ 2) ['m']) ∧
    formatMicros 2500000 = .ok (.whole 2 false ['s']) ∧ formatInteger 1234567 = "1,234,567".toList := by decide +kernel

end Verif.Props
