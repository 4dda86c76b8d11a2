import Verif.Spec.Scan
import Verif.Props.Processor

/-!
# C103: the cleaner outlives its look at the cached functions

It does if no function comes or goes while it looks; otherwise `RuntimeError` may end its thread, for ever.
-/

namespace Verif.Props

open Verif.Scan Verif.Spec

/-- the times of use in the dictionary -/
def usesOf (t : Table) : Uses := fun k => Dict.lget t.items k

theorem scan_set_old {t : Table} {fid : Bytes} {now : Int} (h : fid ∈ t.items.map (·.1)) :
    (t.set fid now).items = t.items.map fun x => if x.1 = fid then (fid, now) else x := by
  have e : t.set fid now = ⟨t.slots.map (Option.map fun x => if x.1 = fid then (fid, now) else x)⟩ := if_pos h
  rw [e]
  simp only [Table.items]
  induction t.slots with
  | nil => rfl
  | cons s r ih => cases s <;> simp [ih]

theorem scan_set_new {t : Table} {fid : Bytes} {now : Int} (h : fid ∉ t.items.map (·.1)) :
    (t.set fid now).items = t.items ++ [(fid, now)] := by
  have e : t.set fid now = ⟨t.slots ++ [some (fid, now)]⟩ := if_neg h
  rw [e]
  simp [Table.items]

theorem scan_pop (t : Table) (fid : Bytes) : (t.pop fid).items = Dict.lerase t.items fid := by
  simp only [Table.pop, Table.items, Dict.lerase]
  induction t.slots with
  | nil => rfl
  | cons s r ih =>
    cases s with
    | none => simpa using ih
    | some x => by_cases hx : x.1 = fid <;> simp [hx, ih]

theorem scan_map_lset {l : List (Bytes × Int)} {fid : Bytes} {now : Int} (hn : (l.map (·.1)).Nodup)
    (h : fid ∈ l.map (·.1)) : (l.map fun x => if x.1 = fid then (fid, now) else x) = Dict.lset l fid now := by
  induction l with
  | nil => simp at h
  | cons x r ih =>
    obtain ⟨k, v⟩ := x
    simp only [List.map_cons, List.nodup_cons] at hn
    by_cases hk : k = fid
    · subst hk
      simp only [List.map_cons, if_true, Dict.lset]
      congr 1
      have : ∀ y ∈ r, (if y.1 = k then (k, now) else y) = y := by
        intro y hy
        rw [if_neg]
        intro e
        exact hn.1 (List.mem_map.2 ⟨y, hy, e⟩)
      rw [List.map_congr_left this, List.map_id']
    · have hr : fid ∈ r.map (·.1) := by
        rcases List.mem_cons.1 h with e | e
        · exact absurd e.symm hk
        · exact e
      simp only [List.map_cons, if_neg hk, Dict.lset, ih hn.2 hr]

/-- assignment to the row is assignment to a dictionary -/
theorem scan_set {t : Table} (hn : (t.items.map (·.1)).Nodup) (fid : Bytes) (now : Int) :
    (t.set fid now).items = Dict.lset t.items fid now := by
  by_cases h : fid ∈ t.items.map (·.1)
  · rw [scan_set_old h, scan_map_lset hn h]
  · rw [scan_set_new h, Dict.lset_new _ _ _ h]

theorem scan_nodup_set {t : Table} (hn : (t.items.map (·.1)).Nodup) (fid : Bytes) (now : Int) :
    ((t.set fid now).items.map (·.1)).Nodup := by
  rw [scan_set hn, Dict.lset_keys]
  split
  · exact hn
  · next h =>
    rw [List.nodup_append]
    refine ⟨hn, by simp, ?_⟩
    intro a ha b hb e
    simp only [List.mem_singleton] at hb
    exact h (hb ▸ e ▸ ha)

theorem scan_nodup_pop {t : Table} (hn : (t.items.map (·.1)).Nodup) (fid : Bytes) :
    ((t.pop fid).items.map (·.1)).Nodup := by
  rw [scan_pop]
  exact hn.sublist (List.Sublist.map _ List.filter_sublist)

theorem scan_step_uses {ret : Int} {s : Table × Look.Place} (hn : (s.1.items.map (·.1)).Nodup) (o : Look.Op) :
    usesOf (Look.step ret s o).1 = (usesOf s.1).after o ∧ ((Look.step ret s o).1.items.map (·.1)).Nodup := by
  cases o with
  | stamp fid now =>
    refine ⟨?_, scan_nodup_set hn fid now⟩
    funext k
    simp only [Look.step, usesOf, Uses.after, scan_set hn, Dict.lget_lset]
    by_cases h : fid = k
    · simp [h]
    · have h' : ¬ k = fid := fun e => h e.symm
      simp [h, h']
  | pop fid =>
    refine ⟨?_, scan_nodup_pop hn fid⟩
    funext k
    simp only [Look.step, usesOf, Uses.after, scan_pop, Dict.lget_lerase]
    by_cases h : fid = k
    · simp [h]
    · have h' : ¬ k = fid := fun e => h e.symm
      simp [h, h']
  | next =>
    have : (Look.step ret s .next).1 = s.1 := by
      simp only [Look.step]
      split <;> rfl
    rw [this]
    exact ⟨rfl, hn⟩

theorem scan_foldl_uses {ret : Int} (ops : List Look.Op) (s : Table × Look.Place)
    (hn : (s.1.items.map (·.1)).Nodup) :
    usesOf (ops.foldl (Look.step ret) s).1 = (usesOf s.1).afterAll ops ∧
      ((ops.foldl (Look.step ret) s).1.items.map (·.1)).Nodup := by
  induction ops generalizing s with
  | nil => exact ⟨rfl, hn⟩
  | cons o r ih =>
    have h := scan_step_uses (ret := ret) hn o
    have := ih _ h.2
    rw [h.1] at this
    exact this

/-- **C103**: the row of entries is the dictionary the main thread writes: after anything that happens, each function
has the time of use it was last given, in one entry. -/
theorem C103_uses {ret now : Int} {t : Table} (hn : (t.items.map (·.1)).Nodup) (ops : List Look.Op) :
    usesOf (Look.run ret t now ops).1 = (usesOf t).afterAll ops ∧
      ((Look.run ret t now ops).1.items.map (·.1)).Nodup :=
  scan_foldl_uses ops _ hn

example : ((Table.mk [some ([1], 0), none, some ([2], 5)]).items.map (·.1)).Nodup := by decide

example : (Look.run 10 ⟨[some ([1], 0), none, some ([2], 5)]⟩ 20
    [.stamp [2] 20, .pop [1], .stamp [3] 21, .stamp [1] 22]).1.items = [([2], 20), ([3], 21), ([1], 22)] := by decide

theorem scan_nextSlot_none {l : List (Option (Bytes × Int))} {pos : Nat} (h : Look.nextSlot l pos = none) :
    l.filterMap id = [] := by
  induction l generalizing pos with
  | nil => rfl
  | cons s r ih =>
    cases s with
    | none => simpa using ih (pos := pos + 1) h
    | some x => simp [Look.nextSlot] at h

theorem scan_nextSlot_some {l : List (Option (Bytes × Int))} {pos q : Nat} {x : Bytes × Int}
    (h : Look.nextSlot l pos = some (q, x)) :
    ∃ n, q = pos + n ∧ (l.take n).filterMap id = [x] ∧ l.filterMap id = x :: (l.drop n).filterMap id := by
  induction l generalizing pos with
  | nil => simp [Look.nextSlot] at h
  | cons s r ih =>
    cases s with
    | none =>
      obtain ⟨n, hq, ht, hd⟩ := ih (pos := pos + 1) h
      exact ⟨n + 1, by omega, by simpa using ht, by simpa using hd⟩
    | some y =>
      simp only [Look.nextSlot, Option.some.injEq, Prod.mk.injEq] at h
      exact ⟨1, h.1.symm, by simp [h.2], by simp [h.2]⟩

/-- what the iterator has gone over, and what it has before it -/
theorem scan_split (t : Table) (pos : Nat) :
    t.items = (t.slots.take pos).filterMap id ++ (t.slots.drop pos).filterMap id := by
  rw [← List.filterMap_append, List.take_append_drop]
  rfl

/-- while it looks: the iterator remembers the number of entries of the beginning -/
def ScanFrom (n : Nat) (now : Int) : Look.Place → Prop
  | .looking l => l.used = n ∧ l.now = now
  | _ => True

theorem scan_from_step {ret now : Int} {n : Nat} {s : Table × Look.Place} (h : ScanFrom n now s.2) (o : Look.Op) :
    ScanFrom n now (Look.step ret s o).2 := by
  cases o with
  | stamp fid c => exact h
  | pop fid => exact h
  | next =>
    obtain ⟨t, p⟩ := s
    cases p with
    | looking l =>
      simp only [Look.step, Look.next]
      split
      · split
        · trivial
        · exact h
      · trivial
    | found ids => trivial
    | dead => trivial

theorem scan_from_foldl {ret now : Int} {n : Nat} (ops : List Look.Op) {s : Table × Look.Place}
    (h : ScanFrom n now s.2) : ScanFrom n now (ops.foldl (Look.step ret) s).2 := by
  induction ops generalizing s with
  | nil => exact h
  | cons o r ih => exact ih (scan_from_step h o)

theorem scan_from_run {ret now : Int} {t : Table} (ops : List Look.Op) :
    ScanFrom t.used now (Look.run ret t now ops).2 :=
  scan_from_foldl ops (s := (t, .looking (Look.start t now))) ⟨rfl, rfl⟩

theorem scan_dead_stays {ret : Int} (ops : List Look.Op) {s : Table × Look.Place} (h : s.2 = .dead) :
    (ops.foldl (Look.step ret) s).2 = .dead := by
  induction ops generalizing s with
  | nil => exact h
  | cons o r ih =>
    refine ih ?_
    cases o with
    | stamp fid c => exact h
    | pop fid => exact h
    | next =>
      obtain ⟨t, p⟩ := s
      cases h
      rfl

theorem scan_dead_iff {ret : Int} (ops : List Look.Op) (s : Table × Look.Place) :
    (ops.foldl (Look.step ret) s).2 = .dead ↔ s.2 = .dead ∨ ∃ before after l, ops = before ++ .next :: after ∧
      (before.foldl (Look.step ret) s).2 = .looking l ∧ l.used ≠ (before.foldl (Look.step ret) s).1.used := by
  induction ops generalizing s with
  | nil => simp
  | cons o r ih =>
    rw [List.foldl_cons, ih]
    constructor
    · rintro (h | ⟨b, a, l, e, hl, hu⟩)
      · cases o with
        | stamp fid c => exact .inl h
        | pop fid => exact .inl h
        | next =>
          obtain ⟨t, p⟩ := s
          cases p with
          | looking l =>
            refine .inr ⟨[], r, l, rfl, rfl, ?_⟩
            intro e
            have e : l.used = t.used := e
            simp only [Look.step, Look.next, if_pos e] at h
            split at h <;> simp at h
          | found ids => simp [Look.step] at h
          | dead => exact .inl rfl
      · exact .inr ⟨o :: b, a, l, by rw [e]; rfl, hl, hu⟩
    · rintro (h | ⟨b, a, l, e, hl, hu⟩)
      · exact .inl (scan_dead_stays (ret := ret) [o] h)
      · cases b with
        | nil =>
          obtain ⟨t, p⟩ := s
          simp only [List.nil_append, List.cons.injEq] at e
          have hl : p = .looking l := hl
          have hu : l.used ≠ t.used := hu
          subst hl
          rw [e.1]
          exact .inl (show Look.next ret t l = .dead from if_neg hu)
        | cons o' b =>
          simp only [List.cons_append, List.cons.injEq] at e
          rw [e.1]
          exact .inr ⟨b, a, l, e.2, hl, hu⟩

/-- **C103**: exactly when the cleaner is over: it went on in the iteration when the dictionary had not as many
entries as in the beginning. -/
theorem C103_dead {ret now : Int} {t : Table} (ops : List Look.Op) :
    (Look.run ret t now ops).2 = .dead ↔ ∃ before after l, ops = before ++ .next :: after ∧
      (Look.run ret t now before).2 = .looking l ∧ (Look.run ret t now before).1.used ≠ t.used := by
  unfold Look.run
  rw [scan_dead_iff]
  constructor
  · rintro (h | ⟨b, a, l, e, hl, hu⟩)
    · simp at h
    · refine ⟨b, a, l, e, hl, ?_⟩
      have := scan_from_run (ret := ret) (now := now) (t := t) b
      unfold Look.run at this
      rw [hl] at this
      rw [← this.1]
      exact fun e => hu e.symm
  · rintro ⟨b, a, l, e, hl, hu⟩
    refine .inr ⟨b, a, l, e, hl, ?_⟩
    have := scan_from_run (ret := ret) (now := now) (t := t) b
    unfold Look.run at this
    rw [hl] at this
    rw [this.1]
    exact fun e => hu e.symm

/-- what holds while no function comes or goes -/
structure ScanInv (ret now : Int) (t0 : Table) (s : Table × Look.Place) : Prop where
  keys : s.1.slots.map (Option.map (·.1)) = t0.slots.map (Option.map (·.1))
  stamps : ∀ x ∈ s.1.items, x ∈ t0.items ∨ now ≤ x.2
  place : match s.2 with
    | .looking l => l.used = t0.used ∧ l.now = now ∧
        l.found.Sublist (((s.1.slots.take l.pos).filterMap id).map (·.1)) ∧
        (∀ k ∈ l.found, ∃ c, (k, c) ∈ t0.items ∧ now - c > ret) ∧
        ∀ x ∈ (s.1.slots.take l.pos).filterMap id, now - x.2 > ret → x.1 ∈ l.found
    | .found ids => ids.Sublist (s.1.items.map (·.1)) ∧ (∀ k ∈ ids, ∃ c, (k, c) ∈ t0.items ∧ now - c > ret) ∧
        ∀ x ∈ s.1.items, now - x.2 > ret → x.1 ∈ ids
    | .dead => False

theorem scan_keys_items {a b : List (Option (Bytes × Int))} (h : a.map (Option.map (·.1)) = b.map (Option.map (·.1))) :
    (a.filterMap id).map (·.1) = (b.filterMap id).map (·.1) := by
  induction a generalizing b with
  | nil =>
    cases b with
    | nil => rfl
    | cons y r => simp at h
  | cons x a ih =>
    cases b with
    | nil => simp at h
    | cons y b =>
      simp only [List.map_cons, List.cons.injEq] at h
      have := ih h.2
      cases x <;> cases y <;> simp_all

theorem scan_inv_keys {ret now : Int} {t0 : Table} {s : Table × Look.Place} (h : ScanInv ret now t0 s) :
    s.1.items.map (·.1) = t0.items.map (·.1) := scan_keys_items h.keys

/-- the main thread stamps a function that is there -/
theorem scan_inv_stamp {ret now c : Int} (hret : 0 ≤ ret) {t0 : Table} {s : Table × Look.Place} {fid : Bytes}
    (h : ScanInv ret now t0 s) (hf : fid ∈ t0.items.map (·.1)) (hc : now ≤ c) :
    ScanInv ret now t0 (s.1.set fid c, s.2) := by
  have hf' : fid ∈ s.1.items.map (·.1) := by rw [scan_inv_keys h]; exact hf
  let g : Bytes × Int → Bytes × Int := fun x => if x.1 = fid then (fid, c) else x
  have e : s.1.set fid c = ⟨s.1.slots.map (Option.map g)⟩ := if_pos hf'
  have hg1 : ∀ x, (g x).1 = x.1 := by
    intro x
    by_cases hx : x.1 = fid <;> simp [g, hx]
  have hg2 : ∀ x, g x = x ∨ now ≤ (g x).2 := by
    intro x
    by_cases hx : x.1 = fid
    · right; simp [g, hx, hc]
    · left; simp [g, hx]
  have hfm : ∀ l : List (Option (Bytes × Int)), (l.map (Option.map g)).filterMap id = (l.filterMap id).map g := by
    intro l
    induction l with
    | nil => rfl
    | cons x r ih => cases x <;> simp [ih]
  have hk : ∀ l : List (Bytes × Int), (l.map g).map (·.1) = l.map (·.1) := by
    intro l
    rw [List.map_map]
    exact List.map_congr_left fun x _ => hg1 x
  have hmem : ∀ (l : List (Bytes × Int)) (x), x ∈ l.map g → x ∈ l ∨ now ≤ x.2 := by
    intro l x hx
    obtain ⟨y, hy, rfl⟩ := List.mem_map.1 hx
    rcases hg2 y with h' | h'
    · rw [h']; exact .inl hy
    · exact .inr h'
  have hidle : ∀ x : Bytes × Int, now ≤ x.2 → ¬ now - x.2 > ret := by intro x hx; omega
  rw [e]
  constructor
  · simp only [List.map_map]
    rw [← h.keys]
    refine List.map_congr_left fun x _ => ?_
    cases x with
    | none => rfl
    | some y => simp [hg1]
  · intro x hx
    simp only [Table.items, hfm] at hx
    rcases hmem _ _ hx with hx | hx
    · exact h.stamps x hx
    · exact .inr hx
  · have hp := h.place
    obtain ⟨t, p⟩ := s
    cases p with
    | looking l =>
      simp only [← List.map_take, hfm, hk] at hp ⊢
      refine ⟨hp.1, hp.2.1, hp.2.2.1, hp.2.2.2.1, ?_⟩
      intro x hx hi
      rcases hmem _ _ hx with hx | hx
      · exact hp.2.2.2.2 x hx hi
      · exact absurd hi (hidle x hx)
    | found ids =>
      simp only [Table.items, hfm, hk] at hp ⊢
      refine ⟨hp.1, hp.2.1, ?_⟩
      intro x hx hi
      rcases hmem _ _ hx with hx | hx
      · exact hp.2.2 x hx hi
      · exact absurd hi (hidle x hx)
    | dead => exact hp

theorem scan_inv_pop {ret now : Int} {t0 : Table} {s : Table × Look.Place} {fid : Bytes}
    (h : ScanInv ret now t0 s) (hf : fid ∉ t0.items.map (·.1)) : s.1.pop fid = s.1 := by
  rw [← scan_inv_keys h] at hf
  obtain ⟨⟨sl⟩, p⟩ := s
  simp only [Table.pop, Table.mk.injEq]
  conv => rhs; rw [← List.map_id' sl]
  refine List.map_congr_left fun x hx => ?_
  rw [if_neg]
  intro e
  cases x with
  | none => simp at e
  | some y =>
    simp only [Option.map_some, Option.some.injEq] at e
    refine hf (List.mem_map.2 ⟨y, ?_, e⟩)
    simp only [Table.items, List.mem_filterMap, id]
    exact ⟨_, hx, rfl⟩

theorem scan_inv_next {ret now : Int} (hret : 0 ≤ ret) {t0 : Table} {s : Table × Look.Place}
    (h : ScanInv ret now t0 s) : ScanInv ret now t0 (Look.step ret s .next) := by
  obtain ⟨t, p⟩ := s
  cases p with
  | found ids => exact h
  | dead => exact h
  | looking l =>
    have hp := h.place
    simp only at hp
    obtain ⟨hu, hw, hs, hf, hi⟩ := hp
    have hlen : l.used = t.used := by
      rw [hu]
      have := congrArg List.length (scan_inv_keys h)
      simp only [List.length_map] at this
      exact this.symm
    refine ⟨h.keys, h.stamps, ?_⟩
    simp only [Look.step, Look.next, if_pos hlen]
    cases hn : Look.nextSlot (t.slots.drop l.pos) l.pos with
    | none =>
      have hsp : t.items = (t.slots.take l.pos).filterMap id := by
        rw [scan_split t l.pos, scan_nextSlot_none hn, List.append_nil]
      simp only [hsp]
      exact ⟨hs, hf, hi⟩
    | some r =>
      obtain ⟨q, x⟩ := r
      obtain ⟨n, hq, ht, hd⟩ := scan_nextSlot_some hn
      have htake : (t.slots.take q).filterMap id = (t.slots.take l.pos).filterMap id ++ [x] := by
        rw [hq, List.take_add, List.filterMap_append, ht]
      have hx : x ∈ t.items := by
        rw [scan_split t l.pos, hd]
        simp
      simp only [htake, hw]
      refine ⟨hu, trivial, ?_, ?_, ?_⟩
      · rw [List.map_append]
        split
        · exact hs.append (List.Sublist.refl _)
        · exact hs.trans (List.sublist_append_left _ _)
      · intro k hk
        split at hk
        · next hidle =>
          rcases List.mem_append.1 hk with hk | hk
          · exact hf k hk
          · simp only [List.mem_singleton] at hk
            subst hk
            rcases h.stamps x hx with hm | hm
            · exact ⟨x.2, hm, hidle⟩
            · omega
        · exact hf k hk
      · intro y hy hidle
        rcases List.mem_append.1 hy with hy | hy
        · have := hi y hy hidle
          split
          · exact List.mem_append_left _ this
          · exact this
        · simp only [List.mem_singleton] at hy
          subst hy
          rw [if_pos hidle]
          simp

theorem scan_uses_some {t : Table} {k : Bytes} : (usesOf t k).isSome ↔ k ∈ t.items.map (·.1) := by
  unfold usesOf
  induction t.items with
  | nil => simp [Dict.lget]
  | cons x r ih =>
    obtain ⟨k', v⟩ := x
    by_cases h : k' = k
    · simp [Dict.lget, h]
    · have h' : ¬ k = k' := fun e => h e.symm
      simp only [Dict.lget, if_neg h, ih, List.map_cons, List.mem_cons, h', false_or]

theorem scan_inv_foldl {ret now : Int} (hret : 0 ≤ ret) {t0 : Table} (ops : List Look.Op) {s : Table × Look.Place}
    (h : ScanInv ret now t0 s) (hst : NoneComesOrGoes (usesOf t0) now ops) :
    ScanInv ret now t0 (ops.foldl (Look.step ret) s) := by
  induction ops generalizing s with
  | nil => exact h
  | cons o r ih =>
    refine ih ?_ fun o' ho' => hst o' (List.mem_cons_of_mem _ ho')
    have ho := hst o List.mem_cons_self
    cases o with
    | stamp fid c => exact scan_inv_stamp hret h (scan_uses_some.1 ho.1) ho.2
    | pop fid =>
      have hno : fid ∉ t0.items.map (·.1) := by
        rw [← scan_uses_some]
        have ho : usesOf t0 fid = none := ho
        simp [ho]
      have e : Look.step ret s (.pop fid) = s := by
        obtain ⟨t, p⟩ := s
        simp only [Look.step, Prod.mk.injEq, and_true]
        exact scan_inv_pop h hno
      rw [e]
      exact h
    | next => exact scan_inv_next hret h

theorem scan_inv_start {ret now : Int} (t : Table) : ScanInv ret now t (t, .looking (Look.start t now)) :=
  ⟨rfl, fun _ h => .inl h, by simp [Look.start]⟩

/-- how often the iterator still goes on -/
def scanLeft (s : Table × Look.Place) : Nat :=
  match s.2 with
  | .looking l => ((s.1.slots.drop l.pos).filterMap id).length + 1
  | _ => 0

theorem scan_left_next {ret : Int} (s : Table × Look.Place) :
    scanLeft (Look.step ret s .next) ≤ scanLeft s - 1 := by
  obtain ⟨t, p⟩ := s
  cases p with
  | found ids => simp [Look.step, scanLeft]
  | dead => simp [Look.step, scanLeft]
  | looking l =>
    simp only [Look.step, Look.next]
    by_cases hu : l.used = t.used
    · rw [if_pos hu]
      cases hn : Look.nextSlot (t.slots.drop l.pos) l.pos with
      | none => simp [scanLeft]
      | some r =>
        obtain ⟨q, x⟩ := r
        obtain ⟨n, hq, ht, hd⟩ := scan_nextSlot_some hn
        simp only [scanLeft, hd, hq, List.drop_drop, List.length_cons]
        omega
    · rw [if_neg hu]
      simp [scanLeft]

theorem scan_left_stamp {ret now c : Int} {t0 : Table} {s : Table × Look.Place} {fid : Bytes}
    (h : ScanInv ret now t0 s) (hf : fid ∈ t0.items.map (·.1)) :
    scanLeft (s.1.set fid c, s.2) = scanLeft s := by
  have hf' : fid ∈ s.1.items.map (·.1) := by rw [scan_inv_keys h]; exact hf
  have e : s.1.set fid c = ⟨s.1.slots.map (Option.map fun x => if x.1 = fid then (fid, c) else x)⟩ := if_pos hf'
  rw [e]
  obtain ⟨t, p⟩ := s
  cases p with
  | found ids => rfl
  | dead => rfl
  | looking l =>
    simp only [scanLeft, ← List.map_drop]
    congr 1
    have := congrArg List.length (scan_keys_items
      (a := (t.slots.drop l.pos).map (Option.map fun x => if x.1 = fid then (fid, c) else x))
      (b := t.slots.drop l.pos) ?_)
    · simpa only [List.length_map] using this
    · rw [List.map_map]
      refine List.map_congr_left fun x _ => ?_
      cases x with
      | none => rfl
      | some y => by_cases hy : y.1 = fid <;> simp [hy]

theorem scan_left_foldl {ret now : Int} (hret : 0 ≤ ret) {t0 : Table} (ops : List Look.Op) {s : Table × Look.Place}
    (h : ScanInv ret now t0 s) (hst : NoneComesOrGoes (usesOf t0) now ops) :
    scanLeft (ops.foldl (Look.step ret) s) ≤ scanLeft s - nexts ops := by
  induction ops generalizing s with
  | nil => simp [nexts]
  | cons o r ih =>
    have hst' : NoneComesOrGoes (usesOf t0) now r := fun o' ho' => hst o' (List.mem_cons_of_mem _ ho')
    have hone : NoneComesOrGoes (usesOf t0) now [o] := fun o' ho' => by
      rw [List.mem_singleton.1 ho']
      exact hst o List.mem_cons_self
    have := ih (scan_inv_foldl hret [o] h hone) hst'
    have ho := hst o List.mem_cons_self
    rw [List.foldl_cons]
    refine Nat.le_trans this ?_
    cases o with
    | stamp fid c =>
      have hl : scanLeft (Look.step ret s (.stamp fid c)) = scanLeft s :=
        scan_left_stamp h (scan_uses_some.1 ho.1)
      simp only [List.foldl_cons, List.foldl_nil, hl, nexts, List.countP_cons]
      simp
    | pop fid =>
      have hno : fid ∉ t0.items.map (·.1) := by
        rw [← scan_uses_some]
        have ho : usesOf t0 fid = none := ho
        simp [ho]
      have e : Look.step ret s (.pop fid) = s := by
        obtain ⟨t, p⟩ := s
        simp only [Look.step, Prod.mk.injEq, and_true]
        exact scan_inv_pop h hno
      simp only [List.foldl_cons, List.foldl_nil, e, nexts, List.countP_cons]
      simp
    | next =>
      have hl := scan_left_next (ret := ret) s
      simp only [List.foldl_cons, List.foldl_nil, nexts, List.countP_cons, decide_true, if_true]
      have e : (List.countP (fun x => decide (x = Look.Op.next)) r) = nexts r := rfl
      omega

/-- **C103, partial**: as long as no function comes or goes, the cleaner is not over; when it went on more often than
there are functions it has its list; and in that list each function is once, only those that were idle when it began,
and all those that are idle when it ends.  So for `Proc.clean`, which looks at everything at once, there is a moment
between the two at which it might have looked.  That none comes or goes cannot be done without: `C103_dies`. -/
theorem C103_steady_partial {ret now : Int} (hret : 0 ≤ ret) {t : Table} (hn : (t.items.map (·.1)).Nodup)
    {ops : List Look.Op} (hst : NoneComesOrGoes (usesOf t) now ops) :
    (Look.run ret t now ops).2 ≠ .dead ∧
    (t.used < nexts ops → ∃ ids, (Look.run ret t now ops).2 = .found ids) ∧
    ∀ ids, (Look.run ret t now ops).2 = .found ids → ids.Nodup ∧ ∀ k,
      (k ∈ ids → IdleFunction (usesOf t) now ret k) ∧ (IdleFunction ((usesOf t).afterAll ops) now ret k → k ∈ ids) := by
  have h : ScanInv ret now t (Look.run ret t now ops) := scan_inv_foldl hret ops (scan_inv_start t) hst
  have hu := C103_uses (ret := ret) (now := now) hn ops
  have hl : scanLeft (Look.run ret t now ops) ≤ (t.used + 1) - nexts ops :=
    scan_left_foldl hret ops (scan_inv_start t) hst
  have hp := h.place
  refine ⟨?_, ?_, ?_⟩
  · intro e
    rw [e] at hp
    exact hp
  · intro hlt
    cases e : (Look.run ret t now ops).2 with
    | looking l =>
      unfold scanLeft at hl
      rw [e] at hl
      simp only at hl
      omega
    | found ids => exact ⟨ids, rfl⟩
    | dead => rw [e] at hp; exact hp.elim
  · intro ids e
    rw [e] at hp
    refine ⟨hu.2.sublist hp.1, fun k => ⟨fun hk => ?_, ?_⟩⟩
    · obtain ⟨c, hc, hi⟩ := hp.2.1 k hk
      exact ⟨c, Dict.lget_of_mem hn hc, hi⟩
    · rintro ⟨c, hc, hi⟩
      rw [← hu.1] at hc
      exact hp.2.2 (k, c) (Dict.lget_mem hc) hi

/-- The hypotheses at work: of three functions, two of them idle, one is used while the cleaner looks at the first. -/
example : NoneComesOrGoes (usesOf ⟨[some ([1], 0), none, some ([2], 5), some ([3], 19)]⟩) 20
    [.next, .stamp [2] 21, .next, .pop [9], .next, .next] := by
  intro o ho
  simp only [List.mem_cons, List.not_mem_nil, or_false] at ho
  rcases ho with rfl | rfl | rfl | rfl | rfl | rfl
  · trivial
  · exact ⟨rfl, by decide⟩
  · trivial
  · exact rfl
  · trivial
  · trivial

example : (Look.run 10 ⟨[some ([1], 0), none, some ([2], 5), some ([3], 19)]⟩ 20
    [.next, .stamp [2] 21, .next, .pop [9], .next, .next]).2 = .found [[1]] := by decide

/-- used a moment later it is still in the list, as in `Proc.clean` when the stamp comes after the look -/
example : (Look.run 10 ⟨[some ([1], 0), none, some ([2], 5), some ([3], 19)]⟩ 20
    [.next, .next, .stamp [2] 21, .next, .next]).2 = .found [[1], [2]] := by decide

theorem scan_alone {ret now : Int} (n : Nat) (t : Table) (l : Look) (hu : l.used = t.used) (hw : l.now = now)
    (hlt : ((t.slots.drop l.pos).filterMap id).length < n) :
    (List.replicate n Look.Op.next).foldl (Look.step ret) (t, .looking l) =
      (t, .found (l.found ++ (((t.slots.drop l.pos).filterMap id).filter fun x => decide (now - x.2 > ret)).map (·.1))) := by
  induction n generalizing l with
  | zero => omega
  | succ n ih =>
    rw [List.replicate_succ, List.foldl_cons]
    simp only [Look.step, Look.next, if_pos hu]
    cases hn : Look.nextSlot (t.slots.drop l.pos) l.pos with
    | none =>
      simp only [scan_nextSlot_none hn, List.filter_nil, List.map_nil, List.append_nil]
      clear hlt ih
      induction n with
      | zero => rfl
      | succ n ih => rw [List.replicate_succ, List.foldl_cons]; exact ih
    | some r =>
      obtain ⟨q, x⟩ := r
      obtain ⟨m, hq, ht, hd⟩ := scan_nextSlot_some hn
      rw [List.drop_drop, ← hq] at hd
      simp only
      have hlt' : ((t.slots.drop q).filterMap id).length < n := by
        rw [hd] at hlt
        simp only [List.length_cons] at hlt
        omega
      rw [ih { l with pos := q, found := if l.now - x.2 > ret then l.found ++ [x.1] else l.found } hu hw hlt']
      simp only [hd, hw, List.filter_cons]
      by_cases hi : now - x.2 > ret
      · simp [hi]
      · simp [hi]

/-- **C103**: alone, the cleaner finds what `Proc.clean` takes in one step, in the same order. -/
theorem C103_alone {F : Type} {p : Proc.Proc F} {t : Table} (hp : p.alive.items = t.items) {now : Int} {n : Nat}
    (hlt : t.used < n) :
    Look.run p.retention t now (List.replicate n .next) = (t, .found (p.idleFunctions now)) := by
  have := scan_alone (ret := p.retention) (now := now) n t (Look.start t now) rfl rfl hlt
  unfold Look.run
  rw [this]
  simp only [Look.start, List.drop_zero, List.nil_append, Proc.Proc.idleFunctions, hp]
  rfl

example : (Proc.Proc.init (F := Unit) 10 0).alive.items = (Table.mk [none]).items := by decide

example : (((Proc.Proc.init (F := Unit) 10 0).stamp 3 [1]).stamp 15 [2]).alive.items =
    (Table.mk [some ([1], 3), none, some ([2], 15)]).items := by decide

/-- **C103**: all that the main thread does to the times of use is to write one with the present clock or to delete
one. -/
theorem C103_main {F V X : Type} {rt : Proc.Runtime F V X} {p q : Proc.Proc F} {e : Proc.Event} (h : p.step rt e = .ok q)
    (hc : e.op ≠ .clean) :
    q.alive = p.alive ∨ (∃ fid, q.alive = p.alive.set fid e.now) ∨ ∃ fid, q.alive = p.alive.erase fid := by
  obtain ⟨op, now⟩ := e
  cases op with
  | clean => exact absurd rfl hc
  | recv m =>
    simp only [Proc.Proc.step] at h
    split at h
    · simp only [Proc.Proc.receive] at h
      split at h
      · next ty fid _ _ =>
        cases h
        simp only [Proc.Proc.onFunctionRequest]
        split
        · exact .inr (.inr ⟨fid, rfl⟩)
        · exact .inl rfl
      · cases h
        simp only [Proc.Proc.onTask]
        split <;> exact .inl rfl
      · split at h
        · next hq =>
          cases h
          simp only [Proc.Proc.onFunctionResponse] at hq
          split at hq
          · cases hq; exact .inl rfl
          · cases hq
        · cases h
      · cases h; exact .inl rfl
    · cases h; exact .inl rfl
  | work c dur =>
    simp only [Proc.Proc.step, Proc.Proc.work] at h
    split at h
    · cases h; exact .inl rfl
    · cases h; exact .inr (.inl ⟨_, rfl⟩)
    · split at h <;> cases h <;> exact .inl rfl
    · cases h; exact .inr (.inl ⟨_, rfl⟩)
    · simp only [Proc.Proc.answer] at h
      split at h
      · cases h; exact .inl rfl
      · split at h
        · cases h; exact .inl rfl
        · cases h
    · split at h
      · cases h; exact .inr (.inl ⟨_, rfl⟩)
      · cases h
    · cases h; exact .inl rfl

/-- **C103 is false**: a function the processor has not had comes while the cleaner looks, or one is deleted, and the
thread of the cleaner is over; whatever happens then, it stays so. -/
theorem C103_dies (ops : List Look.Op) :
    (Look.run 10 ⟨[some ([1], 0), some ([2], 5)]⟩ 20 ([.next, .stamp [3] 20, .next] ++ ops)).2 = .dead ∧
    (Look.run 10 ⟨[some ([1], 0), some ([2], 5)]⟩ 20 ([.next, .next, .pop [1], .next] ++ ops)).2 = .dead := by
  unfold Look.run
  rw [List.foldl_append, List.foldl_append]
  exact ⟨scan_dead_stays ops (by decide), scan_dead_stays ops (by decide)⟩

/-- And it does come to that: a processor holds one function and has asked for another; its cleaner may look at any
time, and the main thread puts the new one among the times of use. -/
theorem C103_happens : ∃ p, Proc.Reach toy 10 0 p ∧ p.cleaner = .asleep ∧ p.alive.keys = [[70]] ∧
    p.main = .added [71] ∧ (p.step toy ⟨.work 0 0, 20⟩).toOption.map (·.alive.keys) = some [[70], [71]] := by
  obtain ⟨p, hr, hp⟩ := procWitness_sound (r := 10) (start := 0)
    (es := [⟨.recv (.task ⟨[1], [70], []⟩), 1⟩, ⟨.recv (.functionResponse .ok [70] [] [2]), 2⟩, ⟨.work 0 0, 3⟩,
      ⟨.work 0 0, 4⟩, ⟨.work 0 0, 5⟩, ⟨.work 0 0, 6⟩, ⟨.recv (.task ⟨[2], [71], []⟩), 18⟩,
      ⟨.recv (.functionResponse .ok [71] [] [2]), 19⟩])
    (f := fun p => decide (p.cleaner = .asleep ∧ p.alive.keys = [[70]] ∧ p.main = .added [71] ∧
      (p.step toy ⟨.work 0 0, 20⟩).toOption.map (·.alive.keys) = some [[70], [71]])) (x := true) (by decide +kernel)
  exact ⟨p, hr, of_decide_eq_true hp⟩

/-- As many deleted as added is not noticed: the cleaner goes on, and looks at the new one too. -/
example : (Look.run 10 ⟨[some ([1], 0), some ([2], 5)]⟩ 20
    [.next, .pop [1], .stamp [3] 1, .next, .next, .next]).2 = .found [[1], [2], [3]] := by decide

end Verif.Props
