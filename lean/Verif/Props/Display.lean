import Verif.Util.FloatLemmas
import Verif.Util.Top
import Verif.Wire.Message
import Verif.Props.Formatter
import Verif.Props.Wire

/-!
# C98: the load that is shown; C61: how tenths are rounded

The number of tenths of a percent is `n`, so `percentage n` is the text that one expects.
-/

namespace Verif.Props

open Verif.Util Verif.Util.Top Verif.Wire Verif.Spec

/-! ### C98 -/

theorem readCpu_near {k : Nat} (hk : k < 2 ^ 16) : (readCpu k).Near 1 k 1000 := toFloat_close (by decide) (by omega)

/-- A float next to `k / 10` is shown as `k / 10`. -/
theorem tenths_near {k j : Nat} {x : Float64} (hk : k < 2 ^ 16) (hj : j ≤ 3) (h : x.Near j (k * 100) 1000) : x.tenths ++ ['%'] = percentage k := by
  have hB : 0 < 2 ^ x.k := Nat.pow_pos (by decide)
  have h4 : halfEven (10 * x.m) (2 ^ x.k) = k := by
    have h5 := h.le
    have h6 := h.ge
    generalize x.m = m at *
    generalize 2 ^ x.k = B at *
    have e1 : m * 1000 * (2 ^ 52) ^ j ≤ (k * B) * 100 * (2 ^ 52 + 1) ^ j := by
      refine Nat.le_trans h5 (Nat.le_of_eq ?_); ac_rfl
    have e2 : (k * B) * 100 * (2 ^ 52) ^ j ≤ m * 1000 * (2 ^ 52 + 1) ^ j := by
      refine Nat.le_trans (Nat.le_of_eq ?_) h6; ac_rfl
    have e3 : k * B ≤ 2 ^ 16 * B := Nat.mul_le_mul_right _ (by omega)
    clear h h5 h6
    have : j = 0 ∨ j = 1 ∨ j = 2 ∨ j = 3 := by omega
    refine halfEven_eq hB ?_ ?_ <;> rcases this with rfl | rfl | rfl | rfl <;> omega
  simp only [Float64.tenths, percentage, h4]

/-- **C98.** What the monitor shows for the value of a heartbeat: that value, with the digit after the point. -/
theorem C98_shown {k : Nat} (hk : k < 2 ^ 16) : formatPercentage (readCpu k) = percentage k := by
  have h1 := readCpu_near hk
  have h2 : (readCpu k).m < 66 * 2 ^ (readCpu k).k := h1.bound (by omega)
  exact tenths_near hk (by decide) (h1.times (c := 100) (by omega))

theorem cpu_room {j n : Nat} (hj : j ≤ 3) (hn : n < 2 ^ 17) : n * (2 ^ 52 + 1) ^ j < (n + 1) * (2 ^ 52) ^ j := by
  have : j = 0 ∨ j = 1 ∨ j = 2 ∨ j = 3 := by omega
  rcases this with rfl | rfl | rfl | rfl <;> omega

/-- What goes into a heartbeat is the measured load, or a tenth of a percent less. -/
theorem wire_near {n : Nat} {x : Float64} {j : Nat} (hj : j ≤ 3) (h : x.Near j n 1) (hn : n < 2 ^ 17) : x.int = n ∨ x.int + 1 = n := by
  have hA : 0 < 2 ^ x.k := Nat.pow_pos (by decide)
  have h1 := h.bound (c := n + 1) (by rw [Nat.mul_one]; exact cpu_room hj hn)
  have h2 : x.int ≤ n := Nat.le_of_lt_succ ((Nat.div_lt_iff_lt_mul hA).2 h1)
  cases n with
  | zero => exact .inl (by omega)
  | succ a =>
    have h4 := Nat.le_of_lt (h.least (c := a) (by rw [Nat.mul_one]; have := cpu_room hj (n := a) (by omega); omega))
    have h3 : a ≤ x.int := (Nat.le_div_iff_mul_le hA).2 h4
    omega

theorem near_scale {j n d c : Nat} {x : Float64} (hc : 0 < c) (h : x.Near j (n * c) (d * c)) : x.Near j n d := by
  constructor
  · refine Nat.le_of_mul_le_mul_left ?_ hc
    calc c * (x.m * d * (2 ^ 52) ^ j) = x.m * (d * c) * (2 ^ 52) ^ j := by ac_rfl
      _ ≤ n * c * 2 ^ x.k * (2 ^ 52 + 1) ^ j := h.le
      _ = c * (n * 2 ^ x.k * (2 ^ 52 + 1) ^ j) := by ac_rfl
  · refine Nat.le_of_mul_le_mul_left ?_ hc
    calc c * (n * 2 ^ x.k * (2 ^ 52) ^ j) = n * c * 2 ^ x.k * (2 ^ 52) ^ j := by ac_rfl
      _ ≤ x.m * (d * c) * (2 ^ 52 + 1) ^ j := h.ge
      _ = c * (x.m * d * (2 ^ 52 + 1) ^ j) := by ac_rfl

/-- Three roundings on the way from psutil to the wire. -/
theorem heartbeatCpu_near {n : Nat} (hn : n < 2 ^ 17) : ((heartbeatCpu n).times 1000).Near 3 n 1 := by
  have h1 : (measuredCpu n).Near 1 n 10 := toFloat_close (by decide) (by omega)
  have h2 : (measuredCpu n).m < 2 ^ 17 * 2 ^ (measuredCpu n).k := h1.bound (by omega)
  have h3 : (heartbeatCpu n).Near 2 n (10 * 100) := h1.over (by decide) (by omega)
  have h4 : (heartbeatCpu n).m < 2 ^ 17 * 2 ^ (heartbeatCpu n).k := h3.bound (by omega)
  have h5 := h3.times (c := 1000) (by omega)
  exact near_scale (c := 1000) (by decide) h5

/-- **C98.** Full statement: the value that is sent, and shown, is the one that was measured.  Missing: it can be a tenth of a
percent less (`C98_less`), because `int` cuts off what the floats are too small by. -/
theorem C98_sent_partial {n : Nat} (hn : n < 2 ^ 17) : wireCpu (heartbeatCpu n) = n ∨ wireCpu (heartbeatCpu n) + 1 = n :=
  wire_near (Nat.le_refl 3) (heartbeatCpu_near hn) hn

/-- **C98.** From psutil to the screen. -/
theorem C98_screen_partial {n : Nat} (hn : n < 2 ^ 16) : formatPercentage (readCpu (wireCpu (heartbeatCpu n))) = percentage n ∨
    0 < n ∧ formatPercentage (readCpu (wireCpu (heartbeatCpu n))) = percentage (n - 1) := by
  rcases C98_sent_partial (n := n) (by omega) with h | h
  · rw [h]; exact .inl (C98_shown hn)
  · exact .inr ⟨by omega, by rw [C98_shown (by omega), show wireCpu (heartbeatCpu n) = n - 1 by omega]⟩

/-- **C98.** The load of the scheduler is not sent as a whole number (status_reporter.py 25): it is shown as it was measured. -/
theorem C98_scheduler {n : Nat} (hn : n < 2 ^ 16) : formatPercentage (heartbeatCpu n) = percentage n := by
  have h1 : (measuredCpu n).Near 1 n 10 := toFloat_close (by decide) (by omega)
  have h2 : (measuredCpu n).m < 2 ^ 17 * 2 ^ (measuredCpu n).k := h1.bound (by omega)
  have h3 : (heartbeatCpu n).Near 2 n (10 * 100) := h1.over (by decide) (by omega)
  have h4 : (heartbeatCpu n).m < 2 ^ 17 * 2 ^ (heartbeatCpu n).k := h3.bound (by omega)
  exact tenths_near hn (by decide) (h3.times (c := 100) (by omega))

/-- **The claim is false**: 0.7 % are shown as 0.6 %, 2.9 % as 2.8 %. -/
theorem C98_less : formatPercentage (readCpu (wireCpu (heartbeatCpu 7))) = "0.6%".toList ∧ formatPercentage (heartbeatCpu 7) = "0.7%".toList ∧
    formatPercentage (readCpu (wireCpu (heartbeatCpu 29))) = "2.8%".toList := by decide +kernel

/-- **C98.** Writing a heartbeat that was read: the same value, or one less.  Full statement: the same value. -/
theorem C98_rewrite_partial {k : Nat} (hk : k < 2 ^ 16) : wireCpu (readCpu k) = k ∨ wireCpu (readCpu k) + 1 = k := by
  have h1 := readCpu_near hk
  have h2 : (readCpu k).m < 2 ^ 17 * 2 ^ (readCpu k).k := h1.bound (by omega)
  have h3 := h1.times (c := 1000) (by omega)
  exact wire_near (j := 2) (by decide) (near_scale (n := k) (d := 1) (c := 1000) (by decide) (by simpa using h3)) (by omega)

/-- **The claim is false**: a heartbeat does not survive being read and written. -/
theorem C98_rewritten : wireCpu (readCpu 1001) = 1000 := by decide +kernel

/-- **C98.** A load of more than 6553.6 % has no place in a heartbeat: `struct.error`. -/
theorem C98_overflow {n : Nat} (h : 2 ^ 16 < n) (hn : n < 2 ^ 17) (hb : Heartbeat) (he : hb.agentCpu = wireCpu (heartbeatCpu n) ∨ hb.workerCpu = wireCpu (heartbeatCpu n)) :
    ¬ ∃ fs, encode (.heartbeat hb) = .ok fs := by
  intro hs
  obtain ⟨h1, -, h2, -⟩ := (C03_sendable _).1 hs
  have h3 := C98_sent_partial hn
  rcases he with he | he
  · rw [he] at h1; have := h1.2; omega
  · rw [he] at h2; have := h2.2; omega

/-- Loads that occur, and one that is too big: 70 busy cores. -/
example : wireCpu (heartbeatCpu 1234) = 1234 ∧ wireCpu (heartbeatCpu 65535) = 65535 ∧ wireCpu (readCpu 999) = 999 ∧
    (70000 > 2 ^ 16 ∧ 70000 < 2 ^ 17 ∧ wireCpu (heartbeatCpu 70000) = 70000) := by decide +kernel

/-! ### C61 -/

/-- **C61.** Sizes are shown with the nearest tenth of their unit; a size halfway between two tenths gets the even one. -/
theorem C61_size_tenths {n : Nat} (hn : 0 < n) (hs : n < 2 ^ 53) (i : Nat) : ∃ t, (divided n i).tenths = dec (t / 10) ++ ['.'] ++ dec (t % 10) ∧
    2 * (t * 1024 ^ i) ≤ 2 * (10 * n) + 1024 ^ i ∧ 2 * (10 * n) ≤ 2 * (t * 1024 ^ i) + 1024 ^ i ∧
    (2 * (t * 1024 ^ i) = 2 * (10 * n) + 1024 ^ i ∨ 2 * (10 * n) = 2 * (t * 1024 ^ i) + 1024 ^ i → t % 2 = 0) := by
  have hp : (1024 : Nat) ^ i = 2 ^ (10 * i) := by rw [Nat.pow_mul]
  rw [divided_eq hn hs, hp]
  obtain ⟨-, -, h1⟩ := toFloat_exact (j := 10 * i) hn hs
  refine ⟨_, rfl, ?_⟩
  generalize toFloat n (2 ^ (10 * i)) = x at *
  have hB : 0 < 2 ^ x.k := Nat.pow_pos (by decide)
  obtain ⟨h2, h3⟩ := halfEven_near (10 * x.m) hB
  have h4 : 2 * (10 * x.m % 2 ^ x.k) = 2 ^ x.k → halfEven (10 * x.m) (2 ^ x.k) % 2 = 0 := halfEven_tie
  have hD : 0 < 2 ^ (10 * i) := Nat.pow_pos (by decide)
  generalize halfEven (10 * x.m) (2 ^ x.k) = t at *
  generalize 2 ^ (10 * i) = D at *
  generalize 2 ^ x.k = B at *
  refine ⟨?_, ?_, fun ht => h4 ?_⟩
  · refine Nat.le_of_mul_le_mul_left ?_ hB
    have := Nat.mul_le_mul_right D h2
    have e1 : B * (2 * (t * D)) = 2 * (t * B) * D := by ac_rfl
    have e2 : (2 * (10 * x.m) + B) * D = 20 * (x.m * D) + B * D := by rw [Nat.add_mul]; congr 1; rw [← Nat.mul_assoc, Nat.mul_assoc]
    have e3 : B * (2 * (10 * n) + D) = 20 * (n * B) + B * D := by rw [Nat.mul_add, show B * (2 * (10 * n)) = 20 * (n * B) by rw [← Nat.mul_assoc 2, Nat.mul_comm n B, Nat.mul_left_comm]]
    rw [e1, e3, ← h1, ← e2]
    exact this
  · refine Nat.le_of_mul_le_mul_left ?_ hB
    have := Nat.mul_le_mul_right D h3
    have e1 : B * (2 * (t * D) + D) = (2 * (t * B) + B) * D := by rw [Nat.mul_add, Nat.add_mul]; congr 1; ac_rfl
    have e2 : 2 * (10 * x.m) * D = 20 * (x.m * D) := by rw [← Nat.mul_assoc, Nat.mul_assoc]
    have e3 : B * (2 * (10 * n)) = 20 * (n * B) := by rw [← Nat.mul_assoc 2, Nat.mul_comm n B, Nat.mul_left_comm]
    rw [e1, e3, ← h1, ← e2]
    exact this
  · have e1 : B * (2 * (t * D)) = 2 * (t * B) * D := by ac_rfl
    have e2 : B * (2 * (10 * n)) = 2 * (10 * x.m) * D := by
      rw [show B * (2 * (10 * n)) = 20 * (n * B) by rw [← Nat.mul_assoc 2, Nat.mul_comm n B, Nat.mul_left_comm], ← h1, ← Nat.mul_assoc, ← Nat.mul_assoc]
    have key : 2 * (t * B) = 2 * (10 * x.m) + B ∨ 2 * (10 * x.m) = 2 * (t * B) + B := by
      rcases ht with ht | ht
      · left
        refine Nat.eq_of_mul_eq_mul_right hD ?_
        rw [Nat.add_mul, ← e1, ← e2, ht, Nat.mul_add]
      · right
        refine Nat.eq_of_mul_eq_mul_right hD ?_
        rw [Nat.add_mul, ← e1, ← e2, ht, Nat.mul_add]
    have hmod : ∀ s h, 2 * h = B → 10 * x.m = s * B + h → 2 * (10 * x.m % B) = B := fun s h hh he => by
      rw [he, Nat.mul_comm s B, Nat.mul_add_mod, Nat.mod_eq_of_lt (by omega)]; exact hh
    rcases key with key | key
    · cases t with
      | zero => omega
      | succ s =>
        rw [Nat.add_mul] at key
        exact hmod s (10 * x.m - s * B) (by omega) (by omega)
    · exact hmod t (10 * x.m - t * B) (by omega) (by omega)

/-- **C61.** Lags below a millisecond are shown with a nearest tenth of a millisecond. -/
theorem C61_lag_tenths {n : Nat} (hn : n < 1000) : ∃ t, (toFloat n 1000).tenths = dec (t / 10) ++ ['.'] ++ dec (t % 10) ∧ 100 * t ≤ n + 50 ∧ n ≤ 100 * t + 50 := by
  refine ⟨_, rfl, ?_⟩
  rcases Nat.eq_zero_or_pos n with rfl | hn0
  · decide +kernel
  · obtain ⟨h1, h2, h3⟩ := toFloat_near hn0 (d := 1000) (by decide) (by omega)
    generalize toFloat n 1000 = x at *
    have hB : 0 < 2 ^ x.k := Nat.pow_pos (by decide)
    obtain ⟨h4, h5⟩ := halfEven_near (10 * x.m) hB
    generalize halfEven (10 * x.m) (2 ^ x.k) = t at *
    generalize 2 ^ x.k = B at *
    have h6 : n * B ≤ 1000 * B := Nat.mul_le_mul_right _ (by omega)
    have key : ∀ a b : Nat, a < b → a * B + B ≤ b * B := fun a b h => by
      have := Nat.mul_le_mul_right B (Nat.succ_le_of_lt h)
      rwa [Nat.succ_mul] at this
    constructor
    · refine Nat.le_of_not_lt fun h => ?_
      have := key _ _ h
      rw [Nat.mul_assoc, Nat.add_mul] at this
      omega
    · refine Nat.le_of_not_lt fun h => ?_
      have := key _ _ h
      rw [Nat.add_mul, Nat.mul_assoc] at this
      omega

/-- Where the halves go; a size just below a gigabyte is shown as `1024.0m`. -/
example : ([50, 150, 250, 350, 450].map fun n => (toFloat n 1000).tenths) = ["0.1", "0.1", "0.2", "0.3", "0.5"].map String.toList ∧
    (divided (5 * 1024 ^ 2 + 1024 ^ 2 / 4) 2).tenths = "5.2".toList ∧ (divided (1024 ^ 3 - 1) 2).tenths = "1024.0".toList ∧
    formatBytes (1024 ^ 3 - 1) = .ok (.tenths (1024 ^ 3 - 1) (1024 ^ 2) ['m']) := by decide +kernel

end Verif.Props
