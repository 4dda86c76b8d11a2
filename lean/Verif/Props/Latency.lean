import Verif.Util.Latency
import Verif.Util.FloatLemmas
import Verif.Worker.Agent

/-!
# C69: the latency of a heartbeat in floats
-/

namespace Verif.Props

open Verif.Util

/-- A whole number is its own float. -/
theorem toFloat_whole (q : Nat) {d : Nat} (hd : 0 < d) : (toFloat (q * d) d).m = q * 2 ^ (toFloat (q * d) d).k := by
  unfold toFloat
  split
  · rename_i h
    rcases Nat.mul_eq_zero.1 h with h | h
    · simp [h]
    · omega
  · simp only
    generalize scale (q * d) d (52 + d) 0 = k
    rw [show q * d * 2 ^ k = q * 2 ^ k * d by ac_rfl, halfEven_exact _ hd]

/-- Taking the remainder away and dividing gives a whole number exactly. -/
theorem over_whole (x : Float64) {c : Nat} (hc : 0 < c) :
    ((toFloat (x.m - x.m % (c * 2 ^ x.k)) (2 ^ x.k)).over c).m =
      x.m / (c * 2 ^ x.k) * 2 ^ ((toFloat (x.m - x.m % (c * 2 ^ x.k)) (2 ^ x.k)).over c).k := by
  have hp : 0 < 2 ^ x.k := Nat.pow_pos (by decide)
  generalize hq : x.m / (c * 2 ^ x.k) = q
  have h1 : x.m - x.m % (c * 2 ^ x.k) = c * q * 2 ^ x.k := by
    have := Nat.div_add_mod x.m (c * 2 ^ x.k)
    rw [hq] at this
    have h2 : c * 2 ^ x.k * q = c * q * 2 ^ x.k := by ac_rfl
    omega
  have h2 := toFloat_whole (c * q) hp
  have hp2 : 0 < 2 ^ (toFloat (c * q * 2 ^ x.k) (2 ^ x.k)).k := Nat.pow_pos (by decide)
  rw [h1]
  unfold Float64.over
  rw [h2, show c * q * 2 ^ (toFloat (c * q * 2 ^ x.k) (2 ^ x.k)).k = q * (2 ^ (toFloat (c * q * 2 ^ x.k) (2 ^ x.k)).k * c) by ac_rfl]
  exact toFloat_whole q (Nat.mul_pos hp2 hc)

/-- Taking the float apart and dividing it loses nothing. -/
theorem floorOver_eq (x : Float64) {c : Nat} (hc : 0 < c) : x.floorOver c = x.m / (c * 2 ^ x.k) := by
  have h3 := over_whole x hc
  simp only [Float64.floorOver, Float64.int, h3, Nat.mul_mod_left]
  rw [if_neg (by simp), Nat.mul_div_cancel _ (Nat.pow_pos (by decide))]

theorem ceil_whole {v : Float64} {n : Nat} (h : v.m = n * 2 ^ v.k) :
    (if 2 ^ v.k < 2 * (v.ceil * 2 ^ v.k - v.m) then v.ceil - 1 else v.ceil) = n := by
  have hp : 0 < 2 ^ v.k := Nat.pow_pos (by decide)
  have hc : v.ceil = n := by
    unfold Float64.ceil
    rw [h]
    refine Nat.div_eq_of_lt_le (by omega) ?_
    rw [Nat.succ_mul]
    omega
  rw [hc, h, if_neg (by simp)]

/-- The same for a negative number. -/
theorem ceilOver_eq (x : Float64) {c : Nat} (hc : 0 < c) :
    x.ceilOver c = if x.m % (c * 2 ^ x.k) = 0 then x.m / (c * 2 ^ x.k) else x.m / (c * 2 ^ x.k) + 1 := by
  have h3 := over_whole x hc
  simp only [Float64.ceilOver]
  generalize (toFloat (x.m - x.m % (c * 2 ^ x.k)) (2 ^ x.k)).over c = q at h3 ⊢
  have hp : 0 < 2 ^ q.k := Nat.pow_pos (by decide)
  by_cases h0 : x.m % (c * 2 ^ x.k) = 0
  · rw [if_pos h0, if_pos h0]
    exact ceil_whole h3
  · rw [if_neg h0, if_neg h0]
    refine ceil_whole ?_
    rw [h3, ← Nat.succ_mul]
    exact toFloat_whole _ hp

/-- **C69.** The latency that the code computes with floats is the exact one, for every time below `2 ^ 53` nanoseconds,
which is more than a hundred days. -/
theorem C69_latency {ns : Nat} (h : ns < 2 ^ 53) : heartbeatLatency ns = ns / 2000 := by
  unfold heartbeatLatency
  rw [floorOver_eq _ (by decide)]
  rcases Nat.eq_zero_or_pos ns with rfl | hn
  · decide
  · obtain ⟨_, _, h1⟩ := toFloat_exact (j := 1) hn h
    generalize toFloat ns (2 ^ 1) = x at h1
    show x.m / _ = _
    have hp : 0 < 2 ^ x.k := Nat.pow_pos (by decide)
    rw [← Nat.mul_div_mul_right x.m (1000 * 2 ^ x.k) (show 0 < 2 by decide), show x.m * 2 = ns * 2 ^ x.k by simpa using h1,
      show 1000 * 2 ^ x.k * 2 = 2000 * 2 ^ x.k by omega, Nat.mul_div_mul_right _ _ hp]

/-- **C69.** What the agent notes when an answer comes is what the code computes. -/
theorem C69_echo (a : Worker.Agent) (now : Int) (hb : a.beatAt ≠ 0) (h0 : a.beatAt ≤ now) (h1 : now - a.beatAt < 2 ^ 53) :
    (a.onEcho now).latency = (heartbeatLatency (now - a.beatAt).toNat : Nat) := by
  rw [C69_latency (by omega)]
  simp only [Worker.Agent.onEcho, if_neg hb]
  omega

/-- **C69.** If the clock was set back, the latency is the exact one too, rounded down: it is negative. -/
theorem C69_latency_back {ns : Nat} (h : ns < 2 ^ 53) : heartbeatLatencyBack ns = -(ns : Int) / 2000 := by
  unfold heartbeatLatencyBack
  rw [ceilOver_eq _ (by decide)]
  rcases Nat.eq_zero_or_pos ns with rfl | hn
  · decide
  · obtain ⟨_, _, h1⟩ := toFloat_exact (j := 1) hn h
    have h1 : (toFloat ns 2).m * 2 = ns * 2 ^ (toFloat ns 2).k := by simpa using h1
    generalize toFloat ns 2 = x at h1
    have hp : 0 < 2 ^ x.k := Nat.pow_pos (by decide)
    have hd : x.m / (1000 * 2 ^ x.k) = ns / 2000 := by
      rw [← Nat.mul_div_mul_right x.m (1000 * 2 ^ x.k) (show 0 < 2 by decide), h1,
        show 1000 * 2 ^ x.k * 2 = 2000 * 2 ^ x.k by omega, Nat.mul_div_mul_right _ _ hp]
    have hm : x.m % (1000 * 2 ^ x.k) = 0 ↔ ns % 2000 = 0 := by
      have e : x.m % (1000 * 2 ^ x.k) * 2 = ns % 2000 * 2 ^ x.k := by
        rw [← Nat.mul_mod_mul_right, h1, show 1000 * 2 ^ x.k * 2 = 2000 * 2 ^ x.k by omega, Nat.mul_mod_mul_right]
      constructor
      · intro h
        rw [h, Nat.zero_mul] at e
        rcases Nat.mul_eq_zero.1 e.symm with h | h <;> omega
      · intro h
        rw [h, Nat.zero_mul] at e
        omega
    rw [hd]
    simp only [hm]
    split <;> omega

/-- **C69.** What the agent notes is what the code computes also if the clock was set back. -/
theorem C69_echo_back (a : Worker.Agent) (now : Int) (hb : a.beatAt ≠ 0) (h0 : now ≤ a.beatAt) (h1 : a.beatAt - now < 2 ^ 53) :
    (a.onEcho now).latency = heartbeatLatencyBack (a.beatAt - now).toNat := by
  rw [C69_latency_back (by omega)]
  simp only [Worker.Agent.onEcho, if_neg hb]
  omega

/-- A clock that was set back by a nanosecond, by 2 and by 2.001 microseconds. -/
example : heartbeatLatencyBack 1 = -1 ∧ heartbeatLatencyBack 2000 = -1 ∧ heartbeatLatencyBack 2001 = -2 := by decide +kernel

/-- An answer after 1.2345 milliseconds, and one after a hundred days. -/
example : heartbeatLatency 1234567 = 617 ∧ heartbeatLatency 8640000000001999 = 4320000000000 := by decide +kernel

/-- Beyond that the half nanosecond is rounded away and the latency is a microsecond too high. -/
theorem C69_latency_long : heartbeatLatency 9007199254741999 = 9007199254741999 / 2000 + 1 := by decide +kernel

end Verif.Props
