import Verif.Util.Float

/-!
# How far floats are from the numbers they stand for
-/

namespace Verif.Util

/-- `halfEven` is a nearest whole number. -/
theorem halfEven_near (n : Nat) {d : Nat} (hd : 0 < d) : 2 * (halfEven n d * d) ≤ 2 * n + d ∧ 2 * n ≤ 2 * (halfEven n d * d) + d := by
  have h1 := Nat.div_add_mod n d
  have h2 := Nat.mod_lt n hd
  have h3 : (n / d + 1) * d = d * (n / d) + d := by rw [Nat.add_mul, Nat.mul_comm, Nat.one_mul]
  have h4 : n / d * d = d * (n / d) := Nat.mul_comm _ _
  unfold halfEven
  split
  · rw [h4]; omega
  · split
    · rw [h3]; omega
    · split
      · rw [h4]; omega
      · rw [h3]; omega

/-- A whole number that is less than half a unit away is the one. -/
theorem halfEven_eq {n d t : Nat} (hd : 0 < d) (h1 : 2 * (t * d) < 2 * n + d) (h2 : 2 * n < 2 * (t * d) + d) : halfEven n d = t := by
  obtain ⟨h3, h4⟩ := halfEven_near n hd
  have h5 : ∀ a b : Nat, a < b → a * d + d ≤ b * d := fun a b h => by
    have := Nat.mul_le_mul_right d (Nat.succ_le_of_lt h)
    rwa [Nat.succ_mul] at this
  rcases Nat.lt_trichotomy (halfEven n d) t with h | h | h
  · have := h5 _ _ h; omega
  · exact h
  · have := h5 _ _ h; omega

/-- A tie goes to the even number. -/
theorem halfEven_tie {n d : Nat} (h : 2 * (n % d) = d) : halfEven n d % 2 = 0 := by
  unfold halfEven
  rw [if_neg (by omega), if_neg (by omega)]
  split <;> omega

theorem scale_spec {n d : Nat} : ∀ (fuel k : Nat), 2 ^ 52 * d ≤ n * 2 ^ (k + fuel) → n * 2 ^ k < 2 ^ 53 * d →
    2 ^ 52 * d ≤ n * 2 ^ scale n d fuel k ∧ n * 2 ^ scale n d fuel k < 2 ^ 53 * d := by
  intro fuel
  induction fuel with
  | zero => intro k h1 h2; exact ⟨h1, h2⟩
  | succ fuel ih =>
    intro k h1 h2
    unfold scale
    split
    · next h =>
      refine ih (k + 1) (by rw [Nat.add_assoc, Nat.add_comm 1]; exact h1) ?_
      rw [Nat.pow_succ, ← Nat.mul_assoc]
      omega
    · exact ⟨by omega, h2⟩

/-- The float next to a number has 53 digits and is half a unit of the last of them away at most. -/
theorem toFloat_near {n d : Nat} (hn : 0 < n) (hd : 0 < d) (hs : n < 2 ^ 53 * d) : 2 ^ 52 ≤ (toFloat n d).m ∧
    2 * ((toFloat n d).m * d) ≤ 2 * (n * 2 ^ (toFloat n d).k) + d ∧ 2 * (n * 2 ^ (toFloat n d).k) ≤ 2 * ((toFloat n d).m * d) + d := by
  have hf : 2 ^ 52 * d ≤ n * 2 ^ (0 + (52 + d)) := by
    rw [Nat.zero_add, Nat.pow_add]
    calc 2 ^ 52 * d ≤ 2 ^ 52 * 2 ^ d := Nat.mul_le_mul_left _ (Nat.le_of_lt Nat.lt_two_pow_self)
      _ ≤ n * (2 ^ 52 * 2 ^ d) := Nat.le_mul_of_pos_left _ hn
  obtain ⟨h1, h2⟩ := scale_spec (52 + d) 0 hf (by simpa using hs)
  unfold toFloat
  rw [if_neg (by omega)]
  dsimp only
  generalize scale n d (52 + d) 0 = k at *
  obtain ⟨h3, h4⟩ := halfEven_near (n * 2 ^ k) hd
  refine ⟨?_, h3, h4⟩
  refine Nat.le_of_not_lt fun h => ?_
  have := Nat.mul_le_mul_right d (Nat.succ_le_of_lt h)
  rw [Nat.succ_mul] at this
  omega

/-- `x` is `n / d` up to `j` errors of one part in `2 ^ 52`. -/
structure Float64.Near (j : Nat) (x : Float64) (n d : Nat) : Prop where
  le : x.m * d * (2 ^ 52) ^ j ≤ n * 2 ^ x.k * (2 ^ 52 + 1) ^ j
  ge : n * 2 ^ x.k * (2 ^ 52) ^ j ≤ x.m * d * (2 ^ 52 + 1) ^ j

theorem toFloat_close {n d : Nat} (hd : 0 < d) (hs : n < 2 ^ 53 * d) : (toFloat n d).Near 1 n d := by
  rcases Nat.eq_zero_or_pos n with rfl | hn
  · exact ⟨by simp [toFloat], by simp [toFloat]⟩
  · obtain ⟨h1, h2, h3⟩ := toFloat_near hn hd hs
    have h4 : 2 ^ 52 * d ≤ (toFloat n d).m * d := Nat.mul_le_mul_right d h1
    constructor <;> rw [Nat.pow_one, Nat.pow_one] <;> omega

theorem near_step {j m m' A B n d e : Nat} {P Q : Nat} (hA : 0 < A) (h1 : m * d * P ^ j ≤ n * A * Q ^ j) (h2 : m' * (A * e) * P ≤ m * B * Q) :
    m' * (d * e) * P ^ (j + 1) ≤ n * B * Q ^ (j + 1) := by
  refine Nat.le_of_mul_le_mul_left ?_ hA
  calc A * (m' * (d * e) * P ^ (j + 1)) = (m' * (A * e) * P) * (d * P ^ j) := by rw [Nat.pow_succ]; ac_rfl
    _ ≤ (m * B * Q) * (d * P ^ j) := Nat.mul_le_mul_right _ h2
    _ = (m * d * P ^ j) * (B * Q) := by ac_rfl
    _ ≤ (n * A * Q ^ j) * (B * Q) := Nat.mul_le_mul_right _ h1
    _ = A * (n * B * Q ^ (j + 1)) := by rw [Nat.pow_succ]; ac_rfl

theorem near_step' {j m m' A B n d e : Nat} {P Q : Nat} (hA : 0 < A) (h1 : n * A * P ^ j ≤ m * d * Q ^ j) (h2 : m * B * P ≤ m' * (A * e) * Q) :
    n * B * P ^ (j + 1) ≤ m' * (d * e) * Q ^ (j + 1) := by
  refine Nat.le_of_mul_le_mul_left ?_ hA
  calc A * (n * B * P ^ (j + 1)) = (n * A * P ^ j) * (B * P) := by rw [Nat.pow_succ]; ac_rfl
    _ ≤ (m * d * Q ^ j) * (B * P) := Nat.mul_le_mul_right _ h1
    _ = (m * B * P) * (d * Q ^ j) := by ac_rfl
    _ ≤ (m' * (A * e) * Q) * (d * Q ^ j) := Nat.mul_le_mul_right _ h2
    _ = A * (m' * (d * e) * Q ^ (j + 1)) := by rw [Nat.pow_succ]; ac_rfl

theorem near_mul {j m m' A B n d c : Nat} {P Q : Nat} (hA : 0 < A) (h1 : m * d * P ^ j ≤ n * A * Q ^ j) (h2 : m' * A * P ≤ m * c * B * Q) :
    m' * d * P ^ (j + 1) ≤ n * c * B * Q ^ (j + 1) := by
  refine Nat.le_of_mul_le_mul_left ?_ hA
  calc A * (m' * d * P ^ (j + 1)) = (m' * A * P) * (d * P ^ j) := by rw [Nat.pow_succ]; ac_rfl
    _ ≤ (m * c * B * Q) * (d * P ^ j) := Nat.mul_le_mul_right _ h2
    _ = (m * d * P ^ j) * (c * B * Q) := by ac_rfl
    _ ≤ (n * A * Q ^ j) * (c * B * Q) := Nat.mul_le_mul_right _ h1
    _ = A * (n * c * B * Q ^ (j + 1)) := by rw [Nat.pow_succ]; ac_rfl

theorem near_mul' {j m m' A B n d c : Nat} {P Q : Nat} (hA : 0 < A) (h1 : n * A * P ^ j ≤ m * d * Q ^ j) (h2 : m * c * B * P ≤ m' * A * Q) :
    n * c * B * P ^ (j + 1) ≤ m' * d * Q ^ (j + 1) := by
  refine Nat.le_of_mul_le_mul_left ?_ hA
  calc A * (n * c * B * P ^ (j + 1)) = (n * A * P ^ j) * (c * B * P) := by rw [Nat.pow_succ]; ac_rfl
    _ ≤ (m * d * Q ^ j) * (c * B * P) := Nat.mul_le_mul_right _ h1
    _ = (m * c * B * P) * (d * Q ^ j) := by ac_rfl
    _ ≤ (m' * A * Q) * (d * Q ^ j) := Nat.mul_le_mul_right _ h2
    _ = A * (m' * d * Q ^ (j + 1)) := by rw [Nat.pow_succ]; ac_rfl

/-- The bound of a float that is near a number. -/
theorem Float64.Near.bound {j n d : Nat} {x : Float64} (h : x.Near j n d) {c : Nat} (hb : n * (2 ^ 52 + 1) ^ j < c * d * (2 ^ 52) ^ j) :
    x.m < c * 2 ^ x.k := by
  have hp : 0 < (2 ^ 52) ^ j := Nat.pow_pos (by decide)
  refine Nat.lt_of_mul_lt_mul_left (a := d * (2 ^ 52) ^ j) ?_
  calc d * (2 ^ 52) ^ j * x.m = x.m * d * (2 ^ 52) ^ j := by ac_rfl
    _ ≤ n * 2 ^ x.k * (2 ^ 52 + 1) ^ j := h.le
    _ = n * (2 ^ 52 + 1) ^ j * 2 ^ x.k := by ac_rfl
    _ < c * d * (2 ^ 52) ^ j * 2 ^ x.k := Nat.mul_lt_mul_of_pos_right hb (Nat.pow_pos (by decide))
    _ = d * (2 ^ 52) ^ j * (c * 2 ^ x.k) := by ac_rfl

/-- … and from below. -/
theorem Float64.Near.least {j n d : Nat} {x : Float64} (h : x.Near j n d) {c : Nat} (hb : c * d * (2 ^ 52 + 1) ^ j < n * (2 ^ 52) ^ j) :
    c * 2 ^ x.k < x.m := by
  refine Nat.lt_of_mul_lt_mul_left (a := d * (2 ^ 52 + 1) ^ j) ?_
  calc d * (2 ^ 52 + 1) ^ j * (c * 2 ^ x.k) = c * d * (2 ^ 52 + 1) ^ j * 2 ^ x.k := by ac_rfl
    _ < n * (2 ^ 52) ^ j * 2 ^ x.k := Nat.mul_lt_mul_of_pos_right hb (Nat.pow_pos (by decide))
    _ = n * 2 ^ x.k * (2 ^ 52) ^ j := by ac_rfl
    _ ≤ x.m * d * (2 ^ 52 + 1) ^ j := h.ge
    _ = d * (2 ^ 52 + 1) ^ j * x.m := by ac_rfl

theorem Float64.Near.over {j n d : Nat} {x : Float64} (h : x.Near j n d) {c : Nat} (hc : 0 < c) (hb : x.m < 2 ^ 53 * (2 ^ x.k * c)) : (x.over c).Near (j + 1) n (d * c) := by
  have hA : 0 < 2 ^ x.k := Nat.pow_pos (by decide)
  have h1 := toFloat_close (n := x.m) (d := 2 ^ x.k * c) (Nat.mul_pos hA hc) hb
  have h2 := h1.le
  have h3 := h1.ge
  rw [Nat.pow_one, Nat.pow_one] at h2 h3
  exact ⟨near_step hA h.le h2, near_step' hA h.ge h3⟩

theorem Float64.Near.times {j n d : Nat} {x : Float64} (h : x.Near j n d) {c : Nat} (hb : x.m * c < 2 ^ 53 * 2 ^ x.k) : (x.times c).Near (j + 1) (n * c) d := by
  have hA : 0 < 2 ^ x.k := Nat.pow_pos (by decide)
  have h1 := toFloat_close (n := x.m * c) (d := 2 ^ x.k) hA hb
  have h2 := h1.le
  have h3 := h1.ge
  rw [Nat.pow_one, Nat.pow_one] at h2 h3
  exact ⟨near_mul hA h.le h2, near_mul' hA h.ge h3⟩

theorem halfEven_exact (m : Nat) {d : Nat} (hd : 0 < d) : halfEven (m * d) d = m := halfEven_eq hd (by omega) (by omega)

/-- Dividing by a power of two is exact. -/
theorem toFloat_exact {n j : Nat} (hn : 0 < n) (hs : n < 2 ^ 53) :
    2 ^ 52 ≤ (toFloat n (2 ^ j)).m ∧ (toFloat n (2 ^ j)).m < 2 ^ 53 ∧ (toFloat n (2 ^ j)).m * 2 ^ j = n * 2 ^ (toFloat n (2 ^ j)).k := by
  have hd : 0 < 2 ^ j := Nat.pow_pos (by decide)
  have hs' : n < 2 ^ 53 * 2 ^ j := Nat.lt_of_lt_of_le hs (Nat.le_mul_of_pos_right _ hd)
  have hf : 2 ^ 52 * 2 ^ j ≤ n * 2 ^ (0 + (52 + 2 ^ j)) := by
    rw [Nat.zero_add, Nat.pow_add]
    calc 2 ^ 52 * 2 ^ j ≤ 2 ^ 52 * 2 ^ (2 ^ j) := Nat.mul_le_mul_left _ (Nat.le_of_lt Nat.lt_two_pow_self)
      _ ≤ n * (2 ^ 52 * 2 ^ (2 ^ j)) := Nat.le_mul_of_pos_left _ hn
  obtain ⟨h1, h2⟩ := scale_spec (52 + 2 ^ j) 0 hf (by simpa using hs')
  unfold toFloat
  rw [if_neg (by omega)]
  dsimp only
  generalize scale n (2 ^ j) (52 + 2 ^ j) 0 = k at *
  have hjk : j ≤ k := by
    refine Nat.le_of_not_lt fun hlt => ?_
    have h3 : 2 ^ (k + 1) ≤ 2 ^ j := Nat.pow_le_pow_right (by decide) hlt
    have h4 : n * 2 ^ k < 2 ^ 53 * 2 ^ k := Nat.mul_lt_mul_of_pos_right hs (Nat.pow_pos (by decide))
    rw [Nat.pow_succ] at h3
    omega
  obtain ⟨i, rfl⟩ := Nat.le.dest hjk
  have h3 : n * 2 ^ (j + i) = n * 2 ^ i * 2 ^ j := by rw [Nat.pow_add]; ac_rfl
  rw [h3] at h1 h2 ⊢
  rw [halfEven_exact _ hd]
  exact ⟨Nat.le_of_mul_le_mul_right h1 hd, Nat.lt_of_mul_lt_mul_right h2, rfl⟩

/-- The digits of a float are determined by its value. -/
theorem float_unique {x y : Float64} (h1 : 2 ^ 52 ≤ x.m) (h2 : x.m < 2 ^ 53) (h3 : 2 ^ 52 ≤ y.m) (h4 : y.m < 2 ^ 53)
    (h : x.m * 2 ^ y.k = y.m * 2 ^ x.k) : x = y := by
  have aux : ∀ {x y : Float64}, x.m < 2 ^ 53 → 2 ^ 52 ≤ y.m → x.m * 2 ^ y.k = y.m * 2 ^ x.k → x.k ≤ y.k := by
    intro x y h2 h3 h
    refine Nat.le_of_not_lt fun hlt => ?_
    have h5 : 2 ^ (y.k + 1) ≤ 2 ^ x.k := Nat.pow_le_pow_right (by decide) hlt
    rw [Nat.pow_succ] at h5
    have h6 : x.m * 2 ^ y.k < 2 ^ 53 * 2 ^ y.k := Nat.mul_lt_mul_of_pos_right h2 (Nat.pow_pos (by decide))
    have h7 : 2 ^ 52 * (2 ^ y.k * 2) ≤ y.m * 2 ^ x.k := Nat.mul_le_mul h3 h5
    omega
  have hk : x.k = y.k := Nat.le_antisymm (aux h2 h3 h) (aux h4 h1 h.symm)
  have hm : x.m = y.m := by
    rw [hk] at h
    exact Nat.eq_of_mul_eq_mul_right (Nat.pow_pos (by decide)) h
  cases x; cases y; cases hk; cases hm; rfl

/-- The loop of `format_bytes` divides without errors. -/
theorem divided_eq {n : Nat} (hn : 0 < n) (hs : n < 2 ^ 53) (i : Nat) : divided n i = toFloat n (1024 ^ i) := by
  have hp : ∀ i : Nat, 1024 ^ i = 2 ^ (10 * i) := fun i => by rw [Nat.pow_mul]
  induction i with
  | zero => rfl
  | succ i ih =>
    have h0 := toFloat_exact (j := 10 * i) hn hs
    have h1 := toFloat_exact (j := 10 * (i + 1)) hn hs
    rw [divided, ih, Float64.over, hp, hp]
    generalize toFloat n (2 ^ (10 * i)) = x at *
    obtain ⟨a1, a2, a3⟩ := h0
    have he : 2 ^ x.k * 1024 = 2 ^ (x.k + 10) := by rw [Nat.pow_add]
    rw [he]
    have h2 := toFloat_exact (n := x.m) (j := x.k + 10) (by omega) a2
    generalize toFloat n (2 ^ (10 * (i + 1))) = y at *
    generalize toFloat x.m (2 ^ (x.k + 10)) = z at *
    obtain ⟨b1, b2, b3⟩ := h1
    obtain ⟨c1, c2, c3⟩ := h2
    refine float_unique c1 c2 b1 b2 ?_
    have hpos : 0 < 2 ^ (10 * (i + 1)) * 2 ^ (x.k) := Nat.mul_pos (Nat.pow_pos (by decide)) (Nat.pow_pos (by decide))
    refine Nat.eq_of_mul_eq_mul_right hpos ?_
    have e1 : (2 : Nat) ^ (10 * (i + 1)) = 2 ^ (10 * i) * 1024 := by rw [Nat.mul_succ, Nat.pow_add]
    have e2 : (2 : Nat) ^ (x.k + 10) = 2 ^ x.k * 1024 := he.symm
    rw [e2] at c3
    rw [e1] at b3 ⊢
    calc z.m * 2 ^ y.k * (2 ^ (10 * i) * 1024 * 2 ^ x.k) = (z.m * (2 ^ x.k * 1024)) * 2 ^ y.k * 2 ^ (10 * i) := by ac_rfl
      _ = (x.m * 2 ^ z.k) * 2 ^ y.k * 2 ^ (10 * i) := by rw [c3]
      _ = (x.m * 2 ^ (10 * i)) * 2 ^ y.k * 2 ^ z.k := by ac_rfl
      _ = (n * 2 ^ x.k) * 2 ^ y.k * 2 ^ z.k := by rw [a3]
      _ = (n * 2 ^ y.k) * 2 ^ z.k * 2 ^ x.k := by ac_rfl
      _ = (y.m * (2 ^ (10 * i) * 1024)) * 2 ^ z.k * 2 ^ x.k := by rw [b3]
      _ = y.m * 2 ^ z.k * (2 ^ (10 * i) * 1024 * 2 ^ x.k) := by ac_rfl

end Verif.Util
