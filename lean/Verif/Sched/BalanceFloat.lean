import Verif.Util.FloatLemmas
import Verif.Sched.AllocLemmas

/-!
# The floats behind the balance advice

`queued.py` 54-55 divides the number of tasks by the number of workers and compares and rounds floats; `Alloc.balance` has
exact fractions instead.  Here is the code as it is, with rounded floats, and the proof that both give the same.
-/

namespace Verif.Sched

open Verif.Util

/-- `balance`, 41-55, with floats.  `sum(…) / len(…)` is the float next to the quotient (scaled/scheduler/allocators/queued.py). -/
def Alloc.balanceFloat (a : Alloc) : Dict Bytes Int :=
  let counts : List (Bytes × Nat) := a.w2t.items.map fun (w, s) => (w, s.size)
  if !(counts.any fun p => p.2 ≠ 0) then Dict.empty
  else if !(!(counts.all fun p => p.2 ≠ 0)) then Dict.empty
  else
    let mean := toFloat (counts.map (·.2)).sum counts.length
    Dict.ofList ((counts.filter fun p => mean.below p.2).map fun p => (p.1, ((mean.from p.2).ceil : Int)))

/-- The mean is so near to its float that comparing gives the same. -/
theorem mean_below {sum n count : Nat} (hn : 0 < n) (hs : 0 < sum) (hb : sum < 2 ^ 52) :
    (toFloat sum n).below count = decide (sum < count * n) := by
  have hlt : sum < 2 ^ 53 * n := by
    have : sum * 1 ≤ sum * n := Nat.mul_le_mul_left _ hn
    have : 2 ^ 53 * 1 ≤ 2 ^ 53 * n := Nat.mul_le_mul_left _ hn
    omega
  obtain ⟨h1, h2, h3⟩ := toFloat_near hs hn hlt
  unfold Float64.below
  generalize hm : (toFloat sum n).m = m at *
  generalize hK : 2 ^ (toFloat sum n).k = K at *
  have hnK : n < K := by
    refine Nat.lt_of_not_le fun hle => ?_
    have e1 : sum * K ≤ (2 ^ 52 - 1) * n := Nat.mul_le_mul (by omega) hle
    have e2 : 2 ^ 52 * n ≤ m * n := Nat.mul_le_mul_right _ h1
    have e3 : (2 ^ 52 - 1) * n + n = 2 ^ 52 * n := by rw [← Nat.succ_mul]
    omega
  refine decide_eq_decide.2 ⟨fun h => ?_, fun h => ?_⟩
  · refine Nat.lt_of_not_le fun hle => ?_
    -- count * n ≤ sum: the float is not below
    by_cases he : count * n = sum
    · have : m = count * K := by
        rw [← hm, ← hK]
        unfold toFloat
        rw [if_neg (by omega)]
        show halfEven (sum * 2 ^ _) n = count * 2 ^ _
        rw [← he, Nat.mul_right_comm]
        exact halfEven_exact _ hn
      omega
    · have e1 : (count * n + 1) * K ≤ sum * K := Nat.mul_le_mul_right _ (by omega)
      have e2 : (m + 1) * n ≤ count * K * n := Nat.mul_le_mul_right _ h
      rw [Nat.add_mul] at e1 e2
      have e3 : count * K * n = count * n * K := Nat.mul_right_comm ..
      omega
  · have e1 : (sum + 1) * K ≤ count * n * K := Nat.mul_le_mul_right _ h
    rw [Nat.add_mul] at e1
    have e3 : count * K * n = count * n * K := Nat.mul_right_comm ..
    exact Nat.lt_of_mul_lt_mul_right (a := n) (by omega)

theorem ceil_low {d n S C K L A m m2 : Nat} (f2 : 2 * (A * L) * n ≤ 2 * (m2 * K) * n + K * n) (f3 : 2 * (m * n) * L ≤ 2 * (S * K) * L + n * L)
    (k5 : A * n * L + m * n * L = C * n * K * L) (k2 : n * L < K * L) (k3 : n * K < L * K) (lo : (d * n + S + 1) * (K * L) ≤ C * n * (K * L)) :
    d * L * (K * n) < m2 * (K * n) := by grind

theorem ceil_high {d n S C K L A m m2 : Nat} (f1 : 2 * (m2 * K) * n ≤ 2 * (A * L) * n + K * n) (f4 : 2 * (S * K) * L ≤ 2 * (m * n) * L + n * L)
    (k5 : A * n * L + m * n * L = C * n * K * L) (k2 : n * L < K * L) (k3 : n * K < L * K) (hi : (C * n + 1) * (K * L) ≤ (d * n + S) * (K * L)) :
    m2 * (K * n) ≤ d * L * (K * n) := by grind

/-- So is the difference: rounding it up gives the same. -/
theorem mean_ceil {sum n count : Nat} (hn : 0 < n) (hs : 0 < sum) (hb : sum < 2 ^ 52) (hc : count * n < 2 ^ 52) (h : sum < count * n) :
    (((toFloat sum n).from count).ceil : Int) = Alloc.ceilDiff count sum n := by
  have hbelow := mean_below (count := count) hn hs hb
  rw [decide_eq_true h] at hbelow
  have hlt : sum < 2 ^ 53 * n := by
    have : sum * 1 ≤ sum * n := Nat.mul_le_mul_left _ hn
    have : 2 ^ 53 * 1 ≤ 2 ^ 53 * n := Nat.mul_le_mul_left _ hn
    omega
  obtain ⟨h1, h2, h3⟩ := toFloat_near hs hn hlt
  have hexact : ∀ q, sum = q * n → (toFloat sum n).m = q * 2 ^ (toFloat sum n).k := by
    intro q he
    unfold toFloat
    rw [if_neg (by omega)]
    show halfEven (sum * 2 ^ _) n = q * 2 ^ _
    rw [he, Nat.mul_right_comm]
    exact halfEven_exact _ hn
  unfold Float64.below at hbelow
  have hbelow := of_decide_eq_true hbelow
  unfold Float64.from
  generalize hm : (toFloat sum n).m = m at *
  have hKpos : 0 < 2 ^ (toFloat sum n).k := Nat.two_pow_pos _
  generalize hK : 2 ^ (toFloat sum n).k = K at *
  have hnK : n < K := by
    refine Nat.lt_of_not_le fun hle => ?_
    have e1 : sum * K ≤ (2 ^ 52 - 1) * n := Nat.mul_le_mul (by omega) hle
    have e2 : 2 ^ 52 * n ≤ m * n := Nat.mul_le_mul_right _ h1
    have e3 : (2 ^ 52 - 1) * n + n = 2 ^ 52 * n := by rw [← Nat.succ_mul]
    omega
  have hcn : count ≤ count * n := Nat.le_mul_of_pos_right _ hn
  generalize hA : count * K - m = A at *
  have hApos : 0 < A := by omega
  have hAm : A + m = count * K := by omega
  have hAlt : A < 2 ^ 53 * K := by
    have : count * K < 2 ^ 53 * K := Nat.mul_lt_mul_of_pos_right (by omega) hKpos
    omega
  obtain ⟨g1, g2, g3⟩ := toFloat_near hApos hKpos hAlt
  have gexact : ∀ c, A = c * K → (toFloat A K).m = c * 2 ^ (toFloat A K).k := by
    intro c he
    unfold toFloat
    rw [if_neg (by omega)]
    show halfEven (A * 2 ^ _) K = c * 2 ^ _
    rw [he, Nat.mul_right_comm]
    exact halfEven_exact _ hKpos
  unfold Float64.ceil
  generalize hm2 : (toFloat A K).m = m2 at *
  have hLpos : 0 < 2 ^ (toFloat A K).k := Nat.two_pow_pos _
  generalize hL : 2 ^ (toFloat A K).k = L at *
  have hnL : n < L := by
    refine Nat.lt_of_not_le fun hle => ?_
    have e1 : A * L ≤ count * K * n := Nat.mul_le_mul (by omega) hle
    have e2 : 2 ^ 52 * K ≤ m2 * K := Nat.mul_le_mul_right _ g1
    have e3 : count * K * n = count * n * K := Nat.mul_right_comm ..
    have e4 : count * n * K ≤ (2 ^ 52 - 1) * K := Nat.mul_le_mul_right _ (by omega)
    have e5 : (2 ^ 52 - 1) * K + K = 2 ^ 52 * K := by rw [← Nat.succ_mul]
    omega
  -- the rounded difference of the fractions
  obtain ⟨c, hcdef⟩ : ∃ c : Nat, Alloc.ceilDiff count sum n = (c : Int) ∧ 0 < c ∧ (c - 1) * n + sum < count * n ∧ count * n ≤ c * n + sum := by
    have hz : ((sum : Nat) : Int) < (count : Int) * (n : Int) := by rw [← Int.natCast_mul]; omega
    obtain ⟨z1, z2, z3, z4⟩ := Alloc.ceil_arith count sum n (by omega) hz (by omega)
    refine ⟨(Alloc.ceilDiff count sum n).toNat, by omega, by omega, ?_, ?_⟩
    · rw [← Int.ofNat_lt]
      simp only [Int.natCast_add, Int.natCast_mul]
      rw [Int.natCast_sub (by omega), Int.toNat_of_nonneg (by omega)]
      grind
    · rw [← Int.ofNat_le]
      simp only [Int.natCast_add, Int.natCast_mul]
      rw [Int.toNat_of_nonneg (by omega)]
      grind
  obtain ⟨hc1, hc0, hlo, hhi⟩ := hcdef
  rw [hc1]
  congr 1
  have hgoal : (c - 1) * L < m2 ∧ m2 ≤ c * L := by
    have e : (c - 1) * L + L = c * L := by rw [← Nat.succ_mul]; congr 1; omega
    by_cases hx : count * n = c * n + sum
    · -- the mean is a whole number
      have hle : c ≤ count := Nat.le_of_mul_le_mul_right (c := n) (by omega) hn
      have hq : sum = (count - c) * n := by rw [Nat.sub_mul]; omega
      have := hexact _ hq
      have hAc : A = c * K := by
        rw [Nat.sub_mul] at this
        have : c * K ≤ count * K := Nat.mul_le_mul_right _ hle
        omega
      have := gexact c hAc
      omega
    · -- both roundings together are less than the distance to the next whole number
      have k1 : A * n + m * n = count * n * K := by rw [← Nat.add_mul, hAm, Nat.mul_right_comm]
      have k2 : n * L < K * L := Nat.mul_lt_mul_of_pos_right hnK hLpos
      have k3 : n * K < L * K := Nat.mul_lt_mul_of_pos_right hnL hKpos
      -- everything times `2 * K * n`
      have f1 := Nat.mul_le_mul_right n g2
      have f2 := Nat.mul_le_mul_right n g3
      have f3 := Nat.mul_le_mul_right L h2
      have f4 := Nat.mul_le_mul_right L h3
      have k5 := congrArg (· * L) k1
      have lo : ((c - 1) * n + sum + 1) * (K * L) ≤ count * n * (K * L) := Nat.mul_le_mul_right _ hlo
      have hi : (count * n + 1) * (K * L) ≤ (c * n + sum) * (K * L) := Nat.mul_le_mul_right _ (by omega)
      constructor
      · refine Nat.lt_of_mul_lt_mul_right (a := K * n) ?_
        exact ceil_low (by simpa only [Nat.add_mul] using f2) (by simpa only [Nat.add_mul] using f3) (by simpa only [Nat.add_mul] using k5) k2 k3 lo
      · refine Nat.le_of_mul_le_mul_right (c := K * n) ?_ (Nat.mul_pos hKpos hn)
        exact ceil_high (by simpa only [Nat.add_mul] using f1) (by simpa only [Nat.add_mul] using f4) (by simpa only [Nat.add_mul] using k5) k2 k3 hi
  obtain ⟨j1, j2⟩ := hgoal
  have e : (c - 1) * L + L = c * L := by rw [← Nat.succ_mul]; congr 1; omega
  refine Nat.div_eq_of_lt_le ?_ ?_
  · omega
  · rw [Nat.succ_mul]; omega

theorem sum_cast (l : List (Bytes × Nat)) : ((l.map fun p => (p.1, (p.2 : Int))).map (·.2)).sum = (((l.map (·.2)).sum : Nat) : Int) := by
  induction l with
  | nil => rfl
  | cons p l ih => simp only [List.map_cons, List.sum_cons] at *; rw [ih]; omega

theorem count_le_sum {l : List (Bytes × Nat)} {p : Bytes × Nat} (h : p ∈ l) : p.2 ≤ (l.map (·.2)).sum := by
  induction l with
  | nil => cases h
  | cons q l ih =>
    simp only [List.map_cons, List.sum_cons]
    rcases List.mem_cons.1 h with rfl | h
    · omega
    · have := ih h; omega

/-- The advice with floats is the advice with fractions, unless there are more than `2 ^ 52` pairs of a task and a worker. -/
theorem balanceFloat_eq (a : Alloc) (h : (a.w2t.items.map fun p => p.2.size).sum * a.w2t.items.length < 2 ^ 52) : a.balanceFloat = a.balance := by
  obtain ⟨l, hl⟩ : ∃ l : List (Bytes × Nat), l = a.w2t.items.map fun (w, s) => (w, s.size) := ⟨_, rfl⟩
  have hI : (a.w2t.items.map fun (w, s) => (w, (s.size : Int))) = l.map fun p => (p.1, (p.2 : Int)) := by rw [hl, List.map_map]; rfl
  have hsum : (a.w2t.items.map fun p => p.2.size).sum = (l.map (·.2)).sum := by rw [hl, List.map_map]; rfl
  have hlen : a.w2t.items.length = l.length := by rw [hl, List.length_map]
  rw [hsum, hlen] at h
  unfold Alloc.balanceFloat Alloc.balance
  rw [hI, ← hl]
  dsimp only
  have hany : ((l.map fun p => (p.1, (p.2 : Int))).any fun p => decide (p.2 ≠ 0)) = l.any fun p => decide (p.2 ≠ 0) := by
    rw [List.any_map]; congr 1; funext p; exact decide_eq_decide.2 (by simp)
  have hall : ((l.map fun p => (p.1, (p.2 : Int))).all fun p => decide (p.2 ≠ 0)) = l.all fun p => decide (p.2 ≠ 0) := by
    rw [List.all_map]; congr 1; funext p; exact decide_eq_decide.2 (by simp)
  rw [hany, hall, sum_cast, List.length_map]
  split
  · rfl
  next hx =>
  split
  · rfl
  obtain ⟨q, hq, hq0⟩ : ∃ p ∈ l, p.2 ≠ 0 := by simpa using hx
  have hpos : 0 < l.length := List.length_pos_of_mem hq
  have hs : 0 < (l.map (·.2)).sum := by have := count_le_sum hq; omega
  have hsn : (l.map (·.2)).sum * 1 ≤ (l.map (·.2)).sum * l.length := Nat.mul_le_mul_left _ hpos
  congr 1
  rw [List.filter_map, List.map_map]
  have hf : l.filter (fun p => (toFloat (l.map (·.2)).sum l.length).below p.2) =
      l.filter ((fun p : Bytes × Int => decide (p.2 * (l.length : Int) > (((l.map (·.2)).sum : Nat) : Int))) ∘ fun p => (p.1, (p.2 : Int))) := by
    refine List.filter_congr fun p hp => ?_
    rw [mean_below hpos hs (by omega)]
    refine decide_eq_decide.2 ?_
    rw [gt_iff_lt, ← Int.natCast_mul, Int.ofNat_lt]
  rw [hf]
  refine List.map_congr_left fun p hp => ?_
  obtain ⟨hp, hlt⟩ := List.mem_filter.1 hp
  have hlt := of_decide_eq_true hlt
  rw [gt_iff_lt, ← Int.natCast_mul, Int.ofNat_lt] at hlt
  have hle := Nat.mul_le_mul_right l.length (count_le_sum hp)
  exact congrArg (Prod.mk p.1) (mean_ceil hpos hs (by omega) (by omega) hlt)

end Verif.Sched
