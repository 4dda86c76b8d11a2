import Verif.Props.Allocator
import Verif.Props.UserGraph
import Verif.Sched.Timely
import Verif.Spec.Rebalance

/-!
# What following the balance advice leads to
-/

namespace Verif.Props

open Verif.Sched Verif.Spec Verif.Queue Verif.Util

/-- Load of a worker. -/
def Placement.load (s : Placement) (w : Bytes) : Nat := (s.tasksOf w).length

theorem load_eq (s : Placement) (w : Bytes) : Placement.load s w = s.assigned.countP fun p => p.2 = w := by
  simp [Placement.load, Placement.tasksOf, List.countP_eq_length_filter]

theorem load_push (s : Placement) (t w v : Bytes) :
    Placement.load ⟨s.workers, s.assigned ++ [(t, w)]⟩ v = Placement.load s v + if w = v then 1 else 0 := by
  simp [load_eq, List.countP_append, List.countP_cons]

theorem countP_drop {l : List (Bytes × Bytes)} (hn : (l.map (·.1)).Nodup) {t w : Bytes} (hm : (t, w) ∈ l) (v : Bytes) :
    (l.filter fun p => p.1 ≠ t).countP (fun p => p.2 = v) + (if w = v then 1 else 0) = l.countP fun p => p.2 = v := by
  induction l with
  | nil => cases hm
  | cons p l ih =>
    simp only [List.map_cons, List.nodup_cons] at hn
    rcases List.mem_cons.1 hm with e | hm
    · subst e
      have : (l.filter fun p => p.1 ≠ t) = l := by
        rw [List.filter_eq_self]
        intro q hq
        simp only [ne_eq, decide_not, Bool.not_eq_eq_eq_not, Bool.not_true, decide_eq_false_iff_not]
        intro hh
        exact hn.1 (List.mem_map.2 ⟨q, hq, hh⟩)
      rw [List.filter_cons_of_neg (by simp), this, List.countP_cons]
      simp
    · have hp : p.1 ≠ t := fun hh => hn.1 (List.mem_map.2 ⟨_, hm, hh.symm⟩)
      rw [List.filter_cons_of_pos (by simpa using hp), List.countP_cons, List.countP_cons, ← ih hn.2 hm]
      omega

theorem load_drop {s : Placement} (h : s.Sound) {t w : Bytes} (hm : (t, w) ∈ s.assigned) (v : Bytes) :
    Placement.load ⟨s.workers, s.assigned.filter fun p => p.1 ≠ t⟩ v + (if w = v then 1 else 0) = Placement.load s v := by
  simp only [load_eq]
  exact countP_drop h.2.1 hm v

/-- The loads add up to the number of placed tasks. -/
theorem sum_loads {ws : List Bytes} {l : List (Bytes × Bytes)} (hn : ws.Nodup) (hw : ∀ p ∈ l, p.2 ∈ ws) :
    (ws.map fun w => l.countP fun p => p.2 = w).sum = l.length := by
  induction ws generalizing l with
  | nil =>
    cases l with
    | nil => rfl
    | cons p l => exact absurd (hw p (by simp)) (by simp)
  | cons w ws ih =>
    rw [List.nodup_cons] at hn
    have h1 := ih (l := l.filter fun p => p.2 ≠ w) hn.2 (by
      intro p hp
      rw [List.mem_filter] at hp
      rcases List.mem_cons.1 (hw p hp.1) with e | h
      · exact absurd e (by simpa using hp.2)
      · exact h)
    have h2 : (ws.map fun v => (l.filter fun p => p.2 ≠ w).countP fun p => p.2 = v) = ws.map fun v => l.countP fun p => p.2 = v := by
      apply List.map_congr_left
      intro v hv
      rw [List.countP_filter]
      apply List.countP_congr
      intro p _
      have hne : v ≠ w := fun e => hn.1 (e ▸ hv)
      simp only [ne_eq, decide_not, Bool.and_eq_true, decide_eq_true_eq, Bool.not_eq_eq_eq_not, Bool.not_true, decide_eq_false_iff_not]
      constructor
      · exact fun h => h.1
      · exact fun h => ⟨h, fun e => hne (h ▸ e)⟩
    rw [h2] at h1
    have h3 : l.length = l.countP (fun p => p.2 = w) + l.countP (fun p => ¬ (decide (p.2 = w)) = true) := List.length_eq_countP_add_countP _
    rw [← List.countP_eq_length_filter] at h1
    have h4 : (l.countP fun p => decide (p.2 ≠ w)) = l.countP (fun p => ¬ (decide (p.2 = w)) = true) := by
      apply List.countP_congr; intro p _; simp
    rw [List.map_cons, List.sum_cons, h1, h3, h4]

theorem sum_load {s : Placement} (h : s.Sound) : (s.workers.map (Placement.load s)).sum = s.assigned.length := by
  have := sum_loads h.1 h.2.2
  rw [← this]
  congr 1
  apply List.map_congr_left
  intro w _
  exact load_eq s w

/-- If every number is at least `m`, the sum is at least `m` for each. -/
theorem sum_ge {l : List Bytes} {f : Bytes → Nat} {m : Nat} (h : ∀ w ∈ l, m ≤ f w) : m * l.length ≤ (l.map f).sum := by
  induction l with
  | nil => simp
  | cons w l ih =>
    have := ih fun v hv => h v (by simp [hv])
    have := h w (by simp)
    simp only [List.length_cons, List.map_cons, List.sum_cons, Nat.mul_add, Nat.mul_one]
    omega

/-- If every number is at most the mean `T / N`, and one is below, the sum of `N` numbers is below `T`. -/
theorem sum_lt {l : List Bytes} {f : Bytes → Nat} {N T : Nat} (h : ∀ w ∈ l, f w * N ≤ T) :
    (l.map f).sum * N ≤ T * l.length ∧ ((∃ v ∈ l, f v * N < T) → (l.map f).sum * N < T * l.length) := by
  induction l with
  | nil => simp
  | cons w l ih =>
    obtain ⟨i1, i2⟩ := ih fun v hv => h v (by simp [hv])
    have h1 := h w (by simp)
    simp only [List.length_cons, List.map_cons, List.sum_cons, Nat.mul_add, Nat.mul_one, Nat.add_mul]
    refine ⟨by omega, ?_⟩
    rintro ⟨v, hv, hlt⟩
    rcases List.mem_cons.1 hv with rfl | hv
    · omega
    · have := i2 ⟨v, hv, hlt⟩
      omega

/-- One move, as seen from the loads. -/
inductive Move (s : Placement) : AOp → AObs → Placement → Prop
  | take {t w} : (t, w) ∈ s.assigned → Move s (.removeTask t) (.worker (some w)) ⟨s.workers, s.assigned.filter fun p => p.1 ≠ t⟩
  | skip {op o} : (∀ t w, (op, o) ≠ (.removeTask t, .worker (some w))) → Move s op o s
  | give {t w} : w ∈ s.workers → (∀ v ∈ s.workers, Placement.load s w ≤ Placement.load s v) → s.workerOf t = none →
      Move s (.assign t) (.worker (some w)) ⟨s.workers, s.assigned ++ [(t, w)]⟩

theorem assign_move {a a' : Alloc} {s : Placement} {t : Bytes} {o : AObs} (hi : a.Inv) (hx : a.Near) (h : Holds a s)
    (hs : allocStep a (.assign t) = .ok (o, a')) : a'.Exact ∧ ∃ s', Move s (.assign t) o s' ∧ Holds a' s' := by
  obtain ⟨hi', hmax, s', hstep, h'⟩ := allocStep_spec hi h hs
  clear hmax
  by_cases hl : a.queue.len = 0
  · have hs' := hs
    simp only [allocStep, hl, if_true] at hs'
    cases hs'
    exact ⟨hx.exact_of_empty hi hl, s, .skip (by simp), h⟩
  have hl' := hl
  rw [Alloc.queue_empty_iff hi, Classical.not_forall] at hl'
  obtain ⟨w0, hw0⟩ := hl'
  cases hts0 : a.w2t.get? w0 with
  | none => exact absurd hts0 hw0
  | some ts0 =>
  simp only [allocStep, hl, if_false] at hs
  obtain ⟨⟨ro, ra⟩, e1, e2⟩ := Py.bind_ok.1 hs
  cases e2
  refine ⟨Alloc.assignTask_near hi hx hts0 t e1, ?_⟩
  have hstep' := hstep
  cases hstep with
  | assignFull => exact ⟨s, .skip (by simp), h'⟩
  | assignAgain => exact ⟨s, .skip (by simp), h'⟩
  | assign hw hwt =>
    rename_i w
    refine ⟨_, .give hw ?_ hwt, h'⟩
    intro v hv
    obtain ⟨ts, hts⟩ := (h.workers w).1 hw
    obtain ⟨tv, htv⟩ := (h.workers v).1 hv
    rw [h.workerOf] at hwt
    obtain ⟨q, u, tu, hq, htu, hmin, hc | hc | hc⟩ := Alloc.assignTask_spec hi hts t
    · obtain ⟨_, a3, e3, _⟩ := hc
      rw [e3] at e1; cases e1
    · obtain ⟨_, _, a3, e3, _⟩ := hc
      rw [e3] at e1
      cases e1
      obtain ⟨r, hr⟩ := hi.prio_some htv
      have h1 := hx.load w q tu hq htu
      have h2 := hx.load v r tv hr htv
      have h3 := hmin v r hr
      have h4 := (h.tasks hi htu).length_eq
      have h5 := (h.tasks hi htv).length_eq
      have h6 : tv.size = tv.items.length := rfl
      have h7 : tu.size = tu.items.length := rfl
      unfold Placement.load
      omega
    · obtain ⟨_, w1, hw1, _⟩ := hc
      rw [hwt] at hw1; cases hw1

/-- The recorded loads are those of the workers, and if the locator is out of date a task is placed next. -/
def Ready (a : Alloc) (ops : List AOp) : Prop := a.Exact ∨ a.Near ∧ ∃ t rest, ops = .assign t :: rest

theorem ready_step {a a' : Alloc} {s : Placement} {op : AOp} {ops : List AOp} {o : AObs} (hi : a.Inv) (hx : Ready a (op :: ops)) (h : Holds a s)
    (hc : PlacesAtOnce (op :: ops)) (hs : allocStep a op = .ok (o, a')) : Ready a' ops ∧ PlacesAtOnce ops := by
  by_cases ha : ∃ t, op = .assign t
  · obtain ⟨t, rfl⟩ := ha
    have hn : a.Near := hx.elim (fun h => h.near) fun h => h.1
    exact ⟨Or.inl (assign_move hi hn h hs).1, hc⟩
  · have hx' : a.Exact := hx.elim id fun ⟨_, t, rest, e⟩ => absurd ⟨t, by cases e; rfl⟩ ha
    by_cases hav : op = .available
    · subst hav
      refine ⟨Or.inr ⟨?_, hc.1⟩, hc.2⟩
      simp only [allocStep] at hs
      obtain ⟨r, e1, e2⟩ := Py.bind_ok.1 hs
      cases e2
      exact Alloc.hasAvailable_near hi hx'.near e1
    · obtain ⟨tr, a2, e2, hx2⟩ := allocRun_exact (ops := [op]) hi hx' h (by simpa [noConsult] using fun e => hav e.symm)
      simp only [allocRun, hs, Py.ok_bind] at e2
      cases e2
      refine ⟨Or.inl hx2, ?_⟩
      cases op <;> first | exact hc | exact absurd rfl hav

theorem ready_run {ops : List AOp} {a a' : Alloc} {s : Placement} {tr : List (AOp × AObs)} (hi : a.Inv) (hx : Ready a ops)
    (h : Holds a s) (hc : PlacesAtOnce ops) (hr : allocRun a ops = .ok (tr, a')) : a'.Exact := by
  induction ops generalizing a s tr with
  | nil => cases hr; exact hx.elim id fun ⟨_, t, rest, e⟩ => nomatch e
  | cons op ops ih =>
    obtain ⟨o, a1, tr', e1, e2, rfl⟩ := allocRun_cons hr
    obtain ⟨hx1, hc1⟩ := ready_step hi hx h hc e1
    obtain ⟨hi1, _, s1, _, h1⟩ := allocStep_spec hi h e1
    exact ih hi1 hx1 h1 hc1 e2

theorem move_step {a a' : Alloc} {s : Placement} {op : AOp} {o : AObs} (hi : a.Inv) (hx : a.Near) (h : Holds a s)
    (hop : op = .available ∨ (∃ t, op = .removeTask t) ∨ ∃ t, op = .assign t) (hs : allocStep a op = .ok (o, a')) :
    a'.Inv ∧ ∃ s', Move s op o s' ∧ Holds a' s' := by
  obtain ⟨hi', _, s', hstep, h'⟩ := allocStep_spec hi h hs
  refine ⟨hi', ?_⟩
  rcases hop with rfl | ⟨t, rfl⟩ | ⟨t, rfl⟩
  · cases hstep
    exact ⟨s, .skip (by simp), h'⟩
  · cases hstep
    cases hw : s.workerOf t with
    | none =>
      refine ⟨s, .skip (by simp), ?_⟩
      have : (s.assigned.filter fun p => p.1 ≠ t) = s.assigned := by
        rw [List.filter_eq_self]
        intro p hp
        simp only [ne_eq, decide_not, Bool.not_eq_eq_eq_not, Bool.not_true, decide_eq_false_iff_not]
        intro e
        have := (Placement.workerOf_iff h.sound p.1 p.2).2 hp
        rw [e, hw] at this; cases this
      rw [this] at h'
      exact h'
    | some w => exact ⟨_, .take ((Placement.workerOf_iff h.sound t w).1 hw), h'⟩
  · exact (assign_move hi hx h hs).2

/-- A sequence of moves between sound placements, in which only tasks of `K` are given. -/
inductive Moves (K : List Bytes) : Placement → List (AOp × AObs) → Placement → Prop
  | nil {s} : Moves K s [] s
  | cons {s op o s' tr s''} : s.Sound → s'.Sound → (∀ t, op = .assign t → t ∈ K) → Move s op o s' → Moves K s' tr s'' →
      Moves K s ((op, o) :: tr) s''

theorem moves_run {K : List Bytes} {ops : List AOp} {a a' : Alloc} {s : Placement} {tr : List (AOp × AObs)} (hi : a.Inv) (hx : Ready a ops)
    (h : Holds a s) (hc : PlacesAtOnce ops) (ho : OnlyMoves (· ∈ K) ops) (hr : allocRun a ops = .ok (tr, a')) :
    a'.Inv ∧ ∃ s', Moves K s tr s' ∧ Holds a' s' := by
  induction ops generalizing a s tr with
  | nil => cases hr; exact ⟨hi, s, .nil, h⟩
  | cons op ops ih =>
    obtain ⟨o, a1, tr', e1, e2, rfl⟩ := allocRun_cons hr
    have hop := ho op (by simp)
    obtain ⟨hi1, s1, hm, h1⟩ := move_step hi (hx.elim (fun h => h.near) fun h => h.1) h (hop.imp id (Or.imp id fun ⟨t, e, _⟩ => ⟨t, e⟩)) e1
    obtain ⟨hx1, hc1⟩ := ready_step hi hx h hc e1
    obtain ⟨hi2, s2, hms, h2⟩ := ih hi1 hx1 h1 hc1 (fun x hx => ho x (by simp [hx])) e2
    refine ⟨hi2, s2, .cons h.sound h1.sound ?_ hm hms, h2⟩
    intro t e
    rcases hop with e' | ⟨t', e'⟩ | ⟨t', e', hk⟩
    · rw [e] at e'; cases e'
    · rw [e] at e'; cases e'
    · rw [e] at e'; cases e'; exact hk

theorem Move.workers {s s' : Placement} {op : AOp} {o : AObs} (h : Move s op o s') : s'.workers = s.workers := by
  cases h <;> rfl

theorem Move.keys {K : List Bytes} {s s' : Placement} {op : AOp} {o : AObs} (h : Move s op o s') (hk : ∀ t, op = .assign t → t ∈ K)
    (hs : ∀ p ∈ s.assigned, p.1 ∈ K) : ∀ p ∈ s'.assigned, p.1 ∈ K := by
  cases h with
  | take hm => exact fun p hp => hs p (List.mem_filter.1 hp).1
  | skip => exact hs
  | give hw hl hn =>
    intro p hp
    rcases List.mem_append.1 hp with h | h
    · exact hs p h
    · rw [List.mem_singleton] at h; subst h; exact hk _ rfl

/-- A worker that gets a task has less than the mean. -/
theorem give_below {K : List Bytes} {s : Placement} {t w : Bytes} (hsd : s.Sound) (hl : ∀ v ∈ s.workers, Placement.load s w ≤ Placement.load s v)
    (hn : s.workerOf t = none) (ht : t ∈ K) (hs : ∀ p ∈ s.assigned, p.1 ∈ K) : Placement.load s w * s.workers.length < K.length := by
  have h1 := sum_ge hl
  rw [sum_load hsd] at h1
  have h2 : ((t :: s.assigned.map (·.1)).length) ≤ K.length := by
    refine length_le_of_subset (List.nodup_cons.2 ⟨?_, hsd.2.1⟩) ?_
    · intro hm
      obtain ⟨p, hp, e⟩ := List.mem_map.1 hm
      have := (Placement.workerOf_iff hsd p.1 p.2).2 hp
      rw [e, hn] at this; cases this
    · intro x hx
      rcases List.mem_cons.1 hx with rfl | hx
      · exact ht
      · obtain ⟨p, hp, rfl⟩ := List.mem_map.1 hx
        exact hs p hp
  simp only [List.length_cons, List.length_map] at h2
  omega

/-- While tasks are moved no worker rises above the least number that would do. -/
theorem moves_no_worse {K : List Bytes} {s s' : Placement} {tr : List (AOp × AObs)} (h : Moves K s tr s') (hs : ∀ p ∈ s.assigned, p.1 ∈ K)
    (f : Bytes → Nat) (hf : ∀ w ∈ s.workers, Placement.load s w ≤ f w ∨ Placement.load s w * s.workers.length < K.length + s.workers.length) :
    s'.workers = s.workers ∧ (∀ p ∈ s'.assigned, p.1 ∈ K) ∧
    ∀ w ∈ s.workers, Placement.load s' w ≤ f w ∨ Placement.load s' w * s.workers.length < K.length + s.workers.length := by
  induction h with
  | nil => exact ⟨rfl, hs, hf⟩
  | @cons s op o s1 tr s2 hsd hsd1 hk hm _ ih =>
    have hw := hm.workers
    rw [← hw]
    refine ih (hm.keys hk hs) ?_
    rw [hw]
    intro w hwm
    cases hm with
    | take ht =>
      have h1 := load_drop hsd ht w
      rcases hf w hwm with h2 | h2
      · left; omega
      · right
        refine Nat.lt_of_le_of_lt (Nat.mul_le_mul_right _ ?_) h2
        omega
    | skip => exact hf w hwm
    | @give t u hu hl hn =>
      rw [load_push]
      by_cases e : u = w
      · subst e
        have := give_below hsd hl hn (hk t rfl) hs
        right
        rw [if_pos rfl, Nat.add_mul, Nat.one_mul]
        omega
      · rw [if_neg e]; exact hf w hwm

/-- What remains to be taken from `w` is `r w`; the others are level up to the mean. -/
structure Halfway (N T : Nat) (s : Placement) (r : Bytes → Nat) : Prop where
  above : ∀ w ∈ s.workers, 0 < r w → ∃ e, Placement.load s w = e + r w ∧ e * N ≤ T ∧ T < (e + 1) * N
  low : ∀ w ∈ s.workers, r w = 0 → Placement.load s w * N < T + N
  near : ∀ w ∈ s.workers, r w = 0 → T < Placement.load s w * N → ∀ v ∈ s.workers, Placement.load s w ≤ Placement.load s v + 1
  rest : ∀ w, 0 < r w → w ∈ s.workers

theorem moves_halfway {K : List Bytes} {s s' : Placement} {tr : List (AOp × AObs)} (h : Moves K s tr s') (hs : ∀ p ∈ s.assigned, p.1 ∈ K)
    (hh : Halfway s.workers.length K.length s fun w => takenFrom w tr) : Halfway s.workers.length K.length s' fun _ => 0 := by
  induction h with
  | nil => exact hh
  | @cons s op o s1 tr s2 hsd hsd1 hk hm _ ih =>
    have hw := hm.workers
    rw [← hw]
    refine ih (hm.keys hk hs) ?_
    rw [hw]
    generalize hN : s.workers.length = N at *
    generalize hT : K.length = T at *
    cases hm with
    | @take t u ht =>
      have hu : u ∈ s.workers := hsd.2.2 _ ht
      have hN0 : 0 < N := hN ▸ List.length_pos_of_mem hu
      have hld := load_drop hsd ht
      simp only [takenFrom] at hh
      obtain ⟨e, he, he1, he2⟩ := hh.above u hu (by simp only [if_true]; omega)
      rw [if_pos rfl] at he
      have hldu := hld u
      rw [if_pos rfl] at hldu
      have other : ∀ w, u ≠ w → Placement.load ⟨s.workers, s.assigned.filter fun p => p.1 ≠ t⟩ w = Placement.load s w := by
        intro w hne
        have := hld w
        rw [if_neg hne] at this
        omega
      constructor
      · intro w hwm h0
        by_cases e1 : u = w
        · subst e1; exact ⟨e, by omega, he1, he2⟩
        · obtain ⟨e', h1, h2, h3⟩ := hh.above w hwm (by omega)
          rw [if_neg e1] at h1
          exact ⟨e', by rw [other w e1]; omega, h2, h3⟩
      · intro w hwm h0
        by_cases e1 : u = w
        · subst e1
          have : Placement.load ⟨s.workers, s.assigned.filter fun p => p.1 ≠ t⟩ u = e := by omega
          rw [this]; omega
        · rw [other w e1]
          exact hh.low w hwm (by rw [if_neg e1]; omega)
      · intro w hwm h0 hgt v hv
        by_cases e1 : u = w
        · subst e1
          have : Placement.load ⟨s.workers, s.assigned.filter fun p => p.1 ≠ t⟩ u = e := by omega
          rw [this] at hgt; omega
        · rw [other w e1] at hgt ⊢
          have h0' : (if u = w then 1 else 0) + takenFrom w tr = 0 := by rw [if_neg e1]; omega
          by_cases e2 : u = v
          · subst e2
            have h1 := hh.low w hwm h0'
            have h2 : Placement.load s w * N < (e + 2) * N := by
              rw [Nat.add_mul] at he2 ⊢; omega
            have := Nat.lt_of_mul_lt_mul_right h2
            omega
          · rw [other v e2]
            exact hh.near w hwm h0' hgt v hv
      · intro w h0
        exact hh.rest w (by omega)
    | skip hne =>
      have : (fun w => takenFrom w ((op, o) :: tr)) = fun w => takenFrom w tr := by
        funext w
        rw [takenFrom]
        intro t v e
        exact hne t v e
      rw [this] at hh
      exact hh
    | @give t u hu hl hn =>
      simp only [takenFrom] at hh
      have hlt := give_below hsd hl hn (hk t rfl) hs
      rw [hN, hT] at hlt
      have hN0 : 0 < N := hN ▸ List.length_pos_of_mem hu
      have hr0 : takenFrom u tr = 0 := by
        apply Classical.byContradiction
        intro h0
        obtain ⟨e, h1, h2, h3⟩ := hh.above u hu (by omega)
        have : (e + 1) * N ≤ Placement.load s u * N := Nat.mul_le_mul_right _ (by omega)
        omega
      constructor
      · intro w hwm h0
        have hne : u ≠ w := by rintro rfl; omega
        rw [load_push, if_neg hne]
        exact hh.above w hwm h0
      · intro w hwm h0
        rw [load_push]
        by_cases e1 : u = w
        · subst e1
          rw [if_pos rfl, Nat.add_mul, Nat.one_mul]; omega
        · rw [if_neg e1]; exact hh.low w hwm h0
      · intro w hwm h0 hgt v hv
        rw [load_push] at hgt ⊢
        rw [load_push]
        by_cases e1 : u = w
        · subst e1
          have := hl v hv
          rw [if_pos rfl]
          omega
        · rw [if_neg e1] at hgt ⊢
          have := hh.near w hwm h0 hgt v hv
          omega
      · exact hh.rest

theorem loads_perm {a : Alloc} {s : Placement} (hi : a.Inv) (h : Holds a s) :
    (loads a).Perm (s.workers.map fun w => (w, Placement.load s w)) := by
  have hnd : ((loads a).map (·.1)).Nodup := by
    have := a.w2t.nodup
    simpa [loads, Dict.keys, Function.comp_def] using this
  have hnd' : (s.workers.map fun w => (w, Placement.load s w)).Nodup := by
    have : ((s.workers.map fun w => (w, Placement.load s w)).map (·.1)).Nodup := by
      rw [List.map_map]
      simpa [Function.comp_def] using h.sound.1
    exact List.Pairwise.of_map (fun x : Bytes × Nat => x.1) (fun a b h e => h (e ▸ rfl)) this
  rw [List.perm_ext_iff_of_nodup (List.Pairwise.of_map (fun x : Bytes × Nat => x.1) (fun a b h e => h (e ▸ rfl)) hnd) hnd']
  rintro ⟨w, c⟩
  simp only [loads, List.mem_map, Prod.mk.injEq]
  constructor
  · rintro ⟨⟨v, ts⟩, hm, rfl, rfl⟩
    have hg := Dict.mem_items.1 hm
    refine ⟨v, (h.workers v).2 ⟨ts, hg⟩, rfl, ?_⟩
    exact (h.tasks hi hg).length_eq.symm
  · rintro ⟨v, hv, rfl, rfl⟩
    obtain ⟨ts, hts⟩ := (h.workers v).1 hv
    exact ⟨(v, ts), Dict.mem_items.2 hts, rfl, (h.tasks hi hts).length_eq⟩

theorem loads_total {a : Alloc} {s : Placement} (hi : a.Inv) (h : Holds a s) :
    (loads a).length = s.workers.length ∧ total (loads a) = s.assigned.length := by
  have hp := loads_perm hi h
  refine ⟨by simpa using hp.length_eq, ?_⟩
  unfold total
  rw [(hp.map (·.2)).sum_nat, List.map_map]
  exact sum_load h.sound

/-- Where the moves lead. -/
theorem rebalance_setup {max : Int} {ops ops' : List AOp} {tr tr' : List (AOp × AObs)} {a a' : Alloc} (hn : PlacesAtOnce ops) (hn' : PlacesAtOnce ops')
    (hr : allocRun (Alloc.init max) ops = .ok (tr, a)) (hr' : allocRun a ops' = .ok (tr', a'))
    (ho : OnlyMoves (fun t => a.assignedWorker t ≠ none) ops') :
    ∃ s s', a.Inv ∧ Holds a s ∧ a'.Inv ∧ Holds a' s' ∧ Moves (s.assigned.map (·.1)) s tr' s' := by
  obtain ⟨hi, _, s, _, h⟩ := allocRun_spec (Alloc.inv_init max) (holds_init max) hr
  have hx := ready_run (Alloc.inv_init max) (Or.inl (Alloc.exact_init max)) (holds_init max) hn hr
  obtain ⟨hi', s', hm, h'⟩ := moves_run (K := s.assigned.map (·.1)) hi (Or.inl hx) h hn' (by
    intro op hop
    rcases ho op hop with h1 | h1 | ⟨t, rfl, h1⟩
    · exact Or.inl h1
    · exact Or.inr (Or.inl h1)
    · refine Or.inr (Or.inr ⟨t, rfl, ?_⟩)
      cases hw : a.assignedWorker t with
      | none => exact absurd hw h1
      | some w => exact List.mem_map.2 ⟨(t, w), (h.assigned t w).1 hw, rfl⟩) hr'
  exact ⟨s, s', hi, h, hi', h', hm⟩

/-- **C99, partial.** The workers give back what the advice asks for, in any order, and each task is placed again: then no worker has
two tasks more than another, and there are as many tasks and workers as before.

Full statement: the same for all sequences of calls.  Missing: sequences in which something else comes between
`has_available_worker` and the next `assign_task`; for these it is false (`C99_not_level`). -/
theorem C99_level_partial (max : Int) (ops ops' : List AOp) (tr tr' : List (AOp × AObs)) (a a' : Alloc) (hn : PlacesAtOnce ops) (hn' : PlacesAtOnce ops')
    (hr : allocRun (Alloc.init max) ops = .ok (tr, a)) (hr' : allocRun a ops' = .ok (tr', a'))
    (ho : OnlyMoves (fun t => a.assignedWorker t ≠ none) ops') (hadv : a.balance.items ≠ [])
    (hgiven : ∀ w, (takenFrom w tr' : Int) = (a.balance.get? w).getD 0)
    (hback : ∀ t, a.assignedWorker t ≠ none → a'.assignedWorker t ≠ none) :
    EvenLoads (loads a') ∧ total (loads a') = total (loads a) ∧ (loads a').length = (loads a).length := by
  obtain ⟨s, s', hi, h, hi', h', hm⟩ := rebalance_setup hn hn' hr hr' ho
  obtain ⟨hN, hT⟩ := loads_total hi h
  obtain ⟨hN', hT'⟩ := loads_total hi' h'
  have hK : (s.assigned.map (·.1)).length = s.assigned.length := List.length_map ..
  have hself : ∀ p ∈ s.assigned, p.1 ∈ s.assigned.map (·.1) := fun p hp => List.mem_map.2 ⟨p, hp, rfl⟩
  obtain ⟨hws, hsub, _⟩ := moves_no_worse hm hself (Placement.load s) (fun _ _ => Or.inl (Nat.le_refl _))
  have hT2 : s'.assigned.length = s.assigned.length := by
    have h1 : (s'.assigned.map (·.1)).length ≤ (s.assigned.map (·.1)).length := by
      refine length_le_of_subset h'.sound.2.1 ?_
      intro t ht
      obtain ⟨p, hp, rfl⟩ := List.mem_map.1 ht
      exact hsub p hp
    have h2 : (s.assigned.map (·.1)).length ≤ (s'.assigned.map (·.1)).length := by
      refine length_le_of_subset h.sound.2.1 ?_
      intro t ht
      obtain ⟨p, hp, rfl⟩ := List.mem_map.1 ht
      have h3 := hback p.1 (by rw [show a.assignedWorker p.1 = some p.2 from (h.assigned _ _).2 hp]; simp)
      cases hw : a'.assignedWorker p.1 with
      | none => exact absurd hw h3
      | some w => exact List.mem_map.2 ⟨(p.1, w), (h'.assigned _ w).1 hw, rfl⟩
    simp only [List.length_map] at h1 h2
    omega
  refine ⟨?_, by rw [hT', hT, hT2], by rw [hN', hN, hws]⟩
  have hgood := (C14_balance_partial a).1
  have hload : ∀ {w c}, (w, c) ∈ loads a → w ∈ s.workers ∧ c = Placement.load s w := by
    intro w c hm
    have := (loads_perm hi h).mem_iff.1 hm
    obtain ⟨v, hv, e⟩ := List.mem_map.1 this
    cases e
    exact ⟨hv, rfl⟩
  have hN0 : 0 < s.workers.length := by
    obtain ⟨p, hp, _⟩ := (hgood.trigger hadv).1
    exact List.length_pos_of_mem (hload hp).1
  have hh : Halfway s.workers.length (s.assigned.map (·.1)).length s fun w => takenFrom w tr' := by
    rw [hK, ← hT, ← hN]
    have hz : ∀ w ∈ s.workers, takenFrom w tr' = 0 → Placement.load s w * (loads a).length ≤ total (loads a) := by
      intro w hw h0
      apply Nat.le_of_not_lt
      intro hlt
      have hmem : (w, Placement.load s w) ∈ loads a := (loads_perm hi h).mem_iff.2 (List.mem_map.2 ⟨w, hw, rfl⟩)
      have hin : (w, Alloc.ceilDiff (Placement.load s w) (total (loads a)) (loads a).length) ∈ a.balance.items := by
        rw [balance_items, if_pos (hgood.trigger hadv)]
        exact List.mem_map.2 ⟨_, List.mem_filter.2 ⟨hmem, by simpa using hlt⟩, rfl⟩
      have hg := hgiven w
      rw [Dict.mem_items.1 hin, h0] at hg
      obtain ⟨c, _, _, h1, _⟩ := hgood.each _ _ hin
      simp only [Option.getD_some] at hg
      omega
    have hp : ∀ w, 0 < takenFrom w tr' → ∃ n : Int, (w, n) ∈ a.balance.items ∧ (takenFrom w tr' : Int) = n := by
      intro w h0
      have hg := hgiven w
      cases hb : a.balance.get? w with
      | none => rw [hb] at hg; simp only [Option.getD_none] at hg; omega
      | some n => rw [hb] at hg; exact ⟨n, Dict.mem_items.2 hb, hg⟩
    constructor
    · intro w hw h0
      obtain ⟨n, hin, hg⟩ := hp w h0
      obtain ⟨c, hc, _, h1, h2, h3, h4⟩ := hgood.each _ _ hin
      obtain ⟨_, rfl⟩ := hload hc
      refine ⟨Placement.load s w - takenFrom w tr', by omega, ?_, ?_⟩
      · have : ((Placement.load s w - takenFrom w tr' : Nat) : Int) = (Placement.load s w : Int) - n := by omega
        rw [← this] at h3
        exact_mod_cast h3
      · have : ((Placement.load s w - takenFrom w tr' : Nat) : Int) = (Placement.load s w : Int) - n := by omega
        rw [← this] at h4
        exact_mod_cast h4
    · intro w hw h0
      have := hz w hw h0
      omega
    · intro w hw h0 hgt
      have := hz w hw h0
      omega
    · intro w h0
      obtain ⟨n, hin, _⟩ := hp w h0
      obtain ⟨c, hc, _⟩ := hgood.each _ _ hin
      exact (hload hc).1
  have hend := moves_halfway hm hself hh
  rw [hK] at hend
  generalize hNe : s.workers.length = N at *
  have hup : ∀ w ∈ s'.workers, s.assigned.length < Placement.load s' w * N → ∀ v ∈ s'.workers, Placement.load s' w ≤ Placement.load s' v + 1 :=
    fun w hw => hend.near w hw rfl
  have key : ∀ w ∈ s'.workers, ∀ v ∈ s'.workers, Placement.load s' w ≤ Placement.load s' v + 1 := by
    intro w hw v hv
    apply Nat.le_of_not_lt
    intro hlt
    have hsome : s.assigned.length < Placement.load s' w * N ∨ Placement.load s' w * N ≤ s.assigned.length := by omega
    rcases hsome with h1 | h1
    · have := hup w hw h1 v hv; omega
    · have hall : ∀ x ∈ s'.workers, Placement.load s' x * N ≤ s.assigned.length := by
        intro x hx
        apply Nat.le_of_not_lt
        intro h2
        have h3 := hup x hx h2 v hv
        have h4 : Placement.load s' x * N ≤ Placement.load s' w * N := Nat.mul_le_mul_right _ (by omega)
        omega
      have hv' : Placement.load s' v * N < s.assigned.length := by
        have : (Placement.load s' v + 1) * N ≤ Placement.load s' w * N := Nat.mul_le_mul_right _ (by omega)
        rw [Nat.add_mul, Nat.one_mul] at this
        omega
      have := (sum_lt hall).2 ⟨v, hv, hv'⟩
      rw [sum_load h'.sound, hT2, hws, hNe] at this
      omega
  intro p hp q hq
  have hp' := (loads_perm hi' h').mem_iff.1 hp
  have hq' := (loads_perm hi' h').mem_iff.1 hq
  obtain ⟨w, hw, rfl⟩ := List.mem_map.1 hp'
  obtain ⟨v, hv, rfl⟩ := List.mem_map.1 hq'
  exact key w hw v hv

/-- Three workers have four, two and no task; the first gives back two. -/
def levelBefore : List AOp :=
  [.addWorker [1], .assign [11], .assign [12], .assign [13], .available, .assign [14], .addWorker [2], .assign [15], .available, .assign [16], .addWorker [3]]

def levelMoves : List AOp := [.removeTask [12], .available, .assign [12], .removeTask [14], .available, .assign [14]]

example : (allocRun (Alloc.init 10) levelBefore).map (fun r => (loads r.2, r.2.balance.items)) = .ok ([([1], 4), ([2], 2), ([3], 0)], [([1], 2)]) ∧
    (allocRun (Alloc.init 10) (levelBefore ++ levelMoves)).map (fun r => loads r.2) = .ok [([1], 2), ([2], 2), ([3], 2)] := by
  constructor <;> decide +kernel

/-- The hypotheses of `C99_level_partial` hold for it. -/
example : ∃ tr a tr' a', allocRun (Alloc.init 10) levelBefore = .ok (tr, a) ∧ allocRun a levelMoves = .ok (tr', a') ∧ PlacesAtOnce levelBefore ∧
    PlacesAtOnce levelMoves ∧ OnlyMoves (fun t => a.assignedWorker t ≠ none) levelMoves ∧ a.balance.items ≠ [] ∧
    (∀ w, (takenFrom w tr' : Int) = (a.balance.get? w).getD 0) ∧ ∀ t, a.assignedWorker t ≠ none → a'.assignedWorker t ≠ none := by
  obtain ⟨tr, a, tr', a', ha, ha', hb, ht, htr, ht'⟩ : ∃ tr a tr' a', allocRun (Alloc.init 10) levelBefore = .ok (tr, a) ∧
      allocRun a levelMoves = .ok (tr', a') ∧ a.balance.items = [([1], 2)] ∧
      a.t2w.items = [([11], [1]), ([12], [1]), ([13], [1]), ([14], [1]), ([15], [2]), ([16], [2])] ∧
      tr' = [(.removeTask [12], .worker (some [1])), (.available, .bool true), (.assign [12], .worker (some [3])),
        (.removeTask [14], .worker (some [1])), (.available, .bool true), (.assign [14], .worker (some [3]))] ∧
      a'.t2w.items = [([11], [1]), ([13], [1]), ([15], [2]), ([16], [2]), ([12], [3]), ([14], [3])] :=
    ⟨_, _, _, _, rfl, rfl, by decide +kernel, by decide +kernel, by decide +kernel, by decide +kernel⟩
  refine ⟨tr, a, tr', a', ha, ha', ?_, ?_, ?_, by simp [hb], ?_, ?_⟩
  · simp [levelBefore, PlacesAtOnce]
  · simp [levelMoves, PlacesAtOnce]
  · intro op hop
    have hm : ∀ t w, (t, w) ∈ a.t2w.items → a.assignedWorker t ≠ none := by
      intro t w hm
      rw [Alloc.assignedWorker, Dict.mem_items.1 hm]; simp
    simp only [levelMoves, List.mem_cons, List.not_mem_nil, or_false] at hop
    rcases hop with rfl | rfl | rfl | rfl | rfl | rfl
    · exact Or.inr (Or.inl ⟨_, rfl⟩)
    · exact Or.inl rfl
    · exact Or.inr (Or.inr ⟨_, rfl, hm _ [1] (by simp [ht])⟩)
    · exact Or.inr (Or.inl ⟨_, rfl⟩)
    · exact Or.inl rfl
    · exact Or.inr (Or.inr ⟨_, rfl, hm _ [1] (by simp [ht])⟩)
  · intro w
    have hbal : a.balance = Dict.ofList [([1], 2)] := by rw [← hb, Dict.ofList_self]
    subst htr
    rw [hbal]
    by_cases e : [1] = w
    · subst e; rfl
    · have : (Dict.ofList [(([1] : Bytes), (2 : Int))]).get? w = none := by
        rw [← Dict.not_mem_keys]
        intro hk
        have : w ∈ ([[1]] : List Bytes) := hk
        simp only [List.mem_singleton] at this
        exact e this.symm
      rw [this]
      simp [takenFrom, e]
  · intro t h1
    cases hw : a.assignedWorker t with
    | none => exact absurd hw h1
    | some w =>
      have h2 := Dict.mem_items.2 hw
      have h3 : t ∈ a'.t2w.keys := by
        rw [ht] at h2
        simp only [Dict.keys, ht']
        simp only [List.mem_cons, Prod.mk.injEq, List.not_mem_nil, or_false] at h2
        rcases h2 with h | h | h | h | h | h <;> simp [h.1]
      intro h4
      exact Dict.not_mem_keys.2 h4 h3

/-- A worker that ran tasks while the scheduler asked for free workers is recorded with more tasks than it has. -/
def unlevelBefore : List AOp :=
  [.addWorker [1], .assign [10], .available, .removeTask [10], .assign [11], .available, .removeTask [11],
    .assign [12], .available, .removeTask [12], .addWorker [2], .assign [20], .assign [21]]

/-- **C99 is false of the code.** The advice is followed, and the task goes back to where it was. -/
theorem C99_not_level :
    (allocRun (Alloc.init 10) unlevelBefore).map (fun r => (loads r.2, r.2.balance.items)) = .ok ([([1], 0), ([2], 2)], [([2], 1)]) ∧
    (allocRun (Alloc.init 10) (unlevelBefore ++ [.removeTask [20], .assign [20]])).map (fun r => (loads r.2, r.2.balance.items)) =
      .ok ([([1], 0), ([2], 2)], [([2], 1)]) ∧
    ¬ EvenLoads [([1], 0), ([2], 2)] := by
  refine ⟨by decide +kernel, by decide +kernel, ?_⟩
  intro h
  exact absurd (h ([2], 2) (by simp) ([1], 0) (by simp)) (by decide)

/-- Nothing is advised any more if there are at least as many tasks as workers. -/
theorem C99_enough (a : Alloc) (hl : EvenLoads (loads a)) (hn : (loads a).length ≤ total (loads a)) : a.balance.items = [] := by
  apply Classical.byContradiction
  intro hne
  obtain ⟨p, hp, h0⟩ := ((C14_balance_partial a).1.trigger hne).1
  have h1 : ∀ q ∈ loads a, q.2 ≤ 1 := fun q hq => by have := hl q hq p hp; omega
  have key : ∀ l : List (Bytes × Nat), (∀ q ∈ l, q.2 ≤ 1) → total l ≤ l.length ∧ ((∃ q ∈ l, q.2 = 0) → total l < l.length) := by
    intro l
    induction l with
    | nil => simp [total]
    | cons q l ih =>
      intro hall
      obtain ⟨i1, i2⟩ := ih fun x hx => hall x (by simp [hx])
      have hq := hall q (by simp)
      have e : total (q :: l) = q.2 + total l := by simp [total]
      rw [e, List.length_cons]
      refine ⟨by omega, ?_⟩
      rintro ⟨x, hx, hx0⟩
      rcases List.mem_cons.1 hx with rfl | hx
      · omega
      · have := i2 ⟨x, hx, hx0⟩; omega
  have := (key _ h1).2 ⟨p, hp, h0⟩
  omega

example : ∃ a tr, allocRun (Alloc.init 10) (levelBefore ++ levelMoves) = .ok (tr, a) ∧ EvenLoads (loads a) ∧ (loads a).length ≤ total (loads a) := by
  obtain ⟨a, tr, h, hl⟩ : ∃ a tr, allocRun (Alloc.init 10) (levelBefore ++ levelMoves) = .ok (tr, a) ∧ loads a = [([1], 2), ([2], 2), ([3], 2)] :=
    ⟨_, _, rfl, by decide +kernel⟩
  refine ⟨a, tr, h, ?_, by rw [hl]; decide⟩
  rw [hl]
  intro p hp q hq
  simp only [List.mem_cons, List.not_mem_nil, or_false] at hp hq
  rcases hp with rfl | rfl | rfl <;> rcases hq with rfl | rfl | rfl <;> decide

/-- **C99 (stopping) is false of the code.** With fewer tasks than workers some are always asked for, however the tasks are placed. -/
theorem C99_again (a : Alloc) (h0 : 0 < total (loads a)) (hn : total (loads a) < (loads a).length) :
    a.balance.items ≠ [] ∧ ∀ w n, (w, n) ∈ a.balance.items → ∃ c, (w, c) ∈ loads a ∧ n = c := by
  have hgood := (C14_balance_partial a).1
  have key : ∀ l : List (Bytes × Nat), (total l < l.length → ∃ q ∈ l, q.2 = 0) ∧ (0 < total l → ∃ q ∈ l, q.2 ≠ 0) := by
    intro l
    induction l with
    | nil => simp [total]
    | cons q l ih =>
      have e : total (q :: l) = q.2 + total l := by simp [total]
      rw [e, List.length_cons]
      by_cases hq : q.2 = 0
      · refine ⟨fun _ => ⟨q, by simp, hq⟩, fun h => ?_⟩
        obtain ⟨x, hx, h1⟩ := ih.2 (by omega)
        exact ⟨x, by simp [hx], h1⟩
      · refine ⟨fun h => ?_, fun _ => ⟨q, by simp, hq⟩⟩
        obtain ⟨x, hx, h1⟩ := ih.1 (by omega)
        exact ⟨x, by simp [hx], h1⟩
  refine ⟨hgood.complete ((key _).1 hn) ((key _).2 h0), ?_⟩
  intro w n hm
  obtain ⟨c, hc, _, h1, h2, h3, _⟩ := hgood.each w n hm
  refine ⟨c, hc, ?_⟩
  apply Classical.byContradiction
  intro hne
  have h4 : (1 : Int) ≤ c - n := by omega
  have h5 : (1 : Int) * (loads a).length ≤ (c - n) * (loads a).length := Int.mul_le_mul_of_nonneg_right h4 (by omega)
  omega

/-- Two tasks on three workers: each of the two is asked for, and again after it was placed anew. -/
example : (allocRun (Alloc.init 10) [.addWorker [1], .addWorker [2], .addWorker [3], .assign [10], .assign [11]]).map
      (fun r => (loads r.2, r.2.balance.items)) = .ok ([([1], 1), ([2], 1), ([3], 0)], [([1], 1), ([2], 1)]) ∧
    (allocRun (Alloc.init 10) [.addWorker [1], .addWorker [2], .addWorker [3], .assign [10], .assign [11], .removeTask [10], .removeTask [11],
      .assign [10], .assign [11]]).map (fun r => (loads r.2, r.2.balance.items)) = .ok ([([1], 1), ([2], 1), ([3], 0)], [([1], 1), ([2], 1)]) := by
  constructor <;> decide +kernel

/-- Whatever is taken away and placed again, no worker gets more than it had, or more than the mean rounded up; the hypotheses are
those of `C99_level_partial` without the last three. -/
theorem C99_no_worse_partial (max : Int) (ops ops' : List AOp) (tr tr' : List (AOp × AObs)) (a a' : Alloc) (hn : PlacesAtOnce ops) (hn' : PlacesAtOnce ops')
    (hr : allocRun (Alloc.init max) ops = .ok (tr, a)) (hr' : allocRun a ops' = .ok (tr', a'))
    (ho : OnlyMoves (fun t => a.assignedWorker t ≠ none) ops') :
    ∀ p ∈ loads a', (∃ c, (p.1, c) ∈ loads a ∧ p.2 ≤ c) ∨ p.2 * (loads a).length < total (loads a) + (loads a).length := by
  obtain ⟨s, s', hi, h, hi', h', hm⟩ := rebalance_setup hn hn' hr hr' ho
  obtain ⟨hN, hT⟩ := loads_total hi h
  obtain ⟨hws, _, hle⟩ := moves_no_worse hm (fun p hp => List.mem_map.2 ⟨p, hp, rfl⟩) (Placement.load s) (fun _ _ => Or.inl (Nat.le_refl _))
  intro p hp
  obtain ⟨w, hw, rfl⟩ := List.mem_map.1 ((loads_perm hi' h').mem_iff.1 hp)
  rw [hws] at hw
  rcases hle w hw with h1 | h1
  · exact Or.inl ⟨_, (loads_perm hi h).mem_iff.2 (List.mem_map.2 ⟨w, hw, rfl⟩), h1⟩
  · rw [hN, hT]
    rw [List.length_map] at h1
    exact Or.inr h1

end Verif.Props
