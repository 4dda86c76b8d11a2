import Verif.Queue.Indexed

/-!
# The linked queue represents a list

Helper lemmas: representation invariant and the effect of each operation on the
represented list (oldest item first).
-/

set_option linter.unusedSectionVars false
set_option linter.unusedSimpArgs false

namespace Verif.Queue.IQueue
variable {α η : Type} [DecidableEq η]

/-- identity of the first node of a segment, or `d` -/
def hd : List (Nat × α) → Option Nat → Option Nat
  | [], d => d
  | p :: _, _ => some p.1

/-- identity of the last node of a segment, or `d` -/
def lst : List (Nat × α) → Option Nat → Option Nat
  | [], d => d
  | p :: l, _ => lst l (some p.1)

/-- `l` is a doubly linked segment, oldest node first, whose first node has `next = nx` and
whose last node has `prev = pv`. -/
def Seg (store : Dict Nat (Node α)) (nx : Option Nat) (l : List (Nat × α)) (pv : Option Nat) : Prop :=
  match l with
  | [] => True
  | p :: l => store.get? p.1 = some ⟨p.2, hd l pv, nx⟩ ∧ Seg store (some p.1) l pv

@[simp] theorem hd_nil (d : Option Nat) : hd ([] : List (Nat × α)) d = d := rfl
@[simp] theorem hd_cons (p : Nat × α) (l : List (Nat × α)) (d : Option Nat) :
    hd (p :: l) d = some p.1 := rfl

theorem hd_append (l₁ l₂ : List (Nat × α)) (d : Option Nat) : hd (l₁ ++ l₂) d = hd l₁ (hd l₂ d) := by
  cases l₁ <;> rfl

theorem lst_append (l₁ l₂ : List (Nat × α)) (d : Option Nat) : lst (l₁ ++ l₂) d = lst l₂ (lst l₁ d) := by
  induction l₁ generalizing d with
  | nil => rfl
  | cons p l ih => simp [lst, ih]

theorem seg_append (s : Dict Nat (Node α)) (nx : Option Nat) (l₁ l₂ : List (Nat × α)) (pv : Option Nat) :
    Seg s nx (l₁ ++ l₂) pv ↔ Seg s nx l₁ (hd l₂ pv) ∧ Seg s (lst l₁ nx) l₂ pv := by
  induction l₁ generalizing nx with
  | nil => simp [Seg, lst]
  | cons p l ih => simp [Seg, lst, ih, hd_append, and_assoc]

theorem seg_set {s : Dict Nat (Node α)} {nx : Option Nat} {l : List (Nat × α)} {pv : Option Nat}
    {i : Nat} {n : Node α} (h : i ∉ l.map (·.1)) : Seg (s.set i n) nx l pv ↔ Seg s nx l pv := by
  induction l generalizing nx with
  | nil => simp [Seg]
  | cons p l ih =>
    simp only [List.map_cons, List.mem_cons, not_or] at h
    simp [Seg, ih h.2, h.1]

/-- The queue object `q` represents the nodes `l`, oldest first. -/
structure Repr (hash : α → η) (q : IQueue α η) (l : List (Nat × α)) : Prop where
  seg : Seg q.store none l none
  tail : q.tail = hd l none
  head : q.head = lst l none
  size : q.size = l.length
  nodup : (l.map (·.1)).Nodup
  fresh : ∀ p ∈ l, p.1 < q.fresh
  map : ∀ k i, q.map.get? k = some i ↔ ∃ v, (i, v) ∈ l ∧ hash v = k

theorem repr_empty (hash : α → η) : Repr hash (empty : IQueue α η) [] := by
  constructor <;> simp [empty, Seg, hd_nil, hd_cons, lst]

theorem nodup_split {l₁ l₂ : List (Nat × α)} {p : Nat × α}
    (h : ((l₁ ++ p :: l₂).map (·.1)).Nodup) :
    p.1 ∉ l₁.map (·.1) ∧ p.1 ∉ l₂.map (·.1) := by
  simp only [List.map_append, List.map_cons] at h
  rw [List.nodup_append] at h
  obtain ⟨_, h2, h3⟩ := h
  rw [List.nodup_cons] at h2
  refine ⟨fun hm => h3 _ hm _ (by simp) rfl, h2.1⟩

theorem mem_map_has {hash : α → η} {q : IQueue α η} {l : List (Nat × α)} (h : Repr hash q l) (a : α) :
    q.map.has (hash a) = true ↔ hash a ∈ (l.map (·.2)).map hash := by
  rw [Dict.has_iff, Dict.mem_keys]
  constructor
  · rintro ⟨i, hi⟩
    obtain ⟨v, hv, e⟩ := (h.map _ _).1 hi
    exact List.mem_map.2 ⟨v, List.mem_map.2 ⟨(i, v), hv, rfl⟩, e⟩
  · intro hm
    obtain ⟨v, hv, e⟩ := List.mem_map.1 hm
    obtain ⟨⟨i, v'⟩, hv', e'⟩ := List.mem_map.1 hv
    cases e'
    exact ⟨i, (h.map _ _).2 ⟨v', hv', e⟩⟩

/-- Stored items have pairwise different hashes. -/
theorem hash_nodup {hash : α → η} {q : IQueue α η} {l : List (Nat × α)} (h : Repr hash q l) :
    ((l.map (·.2)).map hash).Nodup := by
  rw [List.map_map]
  have hinj : ∀ p ∈ l, ∀ p' ∈ l, hash p.2 = hash p'.2 → p.1 = p'.1 := by
    rintro ⟨i, v⟩ hp ⟨i', v'⟩ hp' e
    have h1 := (h.map (hash v) i).2 ⟨v, hp, rfl⟩
    have h2 := (h.map (hash v) i').2 ⟨v', hp', e.symm⟩
    rw [h1] at h2; cases h2; rfl
  have hn := h.nodup
  clear h
  induction l with
  | nil => simp
  | cons p l ih =>
    simp only [List.map_cons, List.nodup_cons] at hn ⊢
    refine ⟨?_, ih (fun a ha b hb => hinj a (by simp [ha]) b (by simp [hb])) hn.2⟩
    intro hm
    obtain ⟨p', hp', e⟩ := List.mem_map.1 hm
    exact hn.1 (List.mem_map.2 ⟨p', hp', (hinj p' (by simp [hp']) p (by simp) e)⟩)

theorem put_dup {hash : α → η} {q : IQueue α η} {l : List (Nat × α)} (h : Repr hash q l) {a : α}
    (ha : hash a ∈ (l.map (·.2)).map hash) : q.put hash a = .error .keyError := by
  have := (mem_map_has h a).2 ha
  simp [put, raiseIf, this]

theorem put_new {hash : α → η} {q : IQueue α η} {l : List (Nat × α)} (h : Repr hash q l) {a : α}
    (ha : hash a ∉ (l.map (·.2)).map hash) :
    ∃ q', q.put hash a = .ok q' ∧ Repr hash q' (l ++ [(q.fresh, a)]) := by
  have hhas : q.map.has (hash a) = false := by
    exact Bool.eq_false_iff.2 (mt (mem_map_has h a).1 ha)
  have hf : q.fresh ∉ l.map (·.1) := by
    intro hm
    obtain ⟨p, hp, e⟩ := List.mem_map.1 hm
    have := h.fresh p hp
    omega
  have hnd : ((l ++ [(q.fresh, a)]).map (·.1)).Nodup := by
    simp only [List.map_append, List.map_cons, List.map_nil]
    exact List.nodup_append.2 ⟨h.nodup, by simp, by grind⟩
  have hmap : ∀ k i, (q.map.set (hash a) q.fresh).get? k = some i ↔
      ∃ v, (i, v) ∈ l ++ [(q.fresh, a)] ∧ hash v = k := by
    intro k i
    rw [Dict.get?_set]
    by_cases e : hash a = k
    · subst e
      simp only [if_true, List.mem_append, List.mem_singleton, Option.some.injEq]
      constructor
      · rintro rfl; exact ⟨a, by simp, rfl⟩
      · rintro ⟨v, hv | hv, e⟩
        · exact absurd (List.mem_map.2 ⟨v, List.mem_map.2 ⟨(i, v), hv, rfl⟩, e⟩) ha
        · cases hv; rfl
    · simp only [e, if_false, h.map, List.mem_append, List.mem_singleton]
      constructor
      · rintro ⟨v, hv, e⟩; exact ⟨v, .inl hv, e⟩
      · rintro ⟨v, hv | hv, e'⟩
        · exact ⟨v, hv, e'⟩
        · cases hv; exact absurd e' e
  have hfr : ∀ p ∈ l ++ [(q.fresh, a)], p.1 < q.fresh + 1 := by
    intro p hp
    rcases List.mem_append.1 hp with hp | hp
    · have := h.fresh p hp; omega
    · simp at hp; subst hp; simp
  rcases List.eq_nil_or_concat l with rfl | ⟨l₀, ⟨i, v⟩, rfl⟩
  · have hh : q.head = none := h.head
    refine ⟨?_, ?_, ?_⟩
    rotate_left
    · simp only [put, raiseIf, hhas, addToHead, hh, Py.ok_bind, Py.pure_eq, if_false]
      rfl
    · refine ⟨?_, rfl, rfl, ?_, hnd, hfr, hmap⟩
      · simp [Seg, hd_nil, hd_cons]
      · have := h.size; simp at this; simp [this]
  · have hh : q.head = some i := by rw [h.head]; simp [lst_append, lst]
    simp only [List.concat_eq_append] at *
    have hseg := h.seg
    rw [seg_append] at hseg
    obtain ⟨hs1, hs2⟩ := hseg
    simp only [Seg, hd_nil, hd_cons, and_true] at hs1 hs2
    have hfi : q.fresh ≠ i := by intro e; apply hf; simp [e]
    refine ⟨?_, ?_, ?_⟩
    rotate_left
    · simp only [put, raiseIf, hhas, addToHead, hh, Py.ok_bind, Py.pure_eq, if_false, setNext, node,
        Dict.get?_set, if_true, orRaise, setPrev, hfi, hs2, Bool.false_eq_true]
      rfl
    · refine ⟨?_, ?_, ?_, ?_, hnd, hfr, hmap⟩
      · have hi : i ∉ l₀.map (·.1) := (nodup_split h.nodup).1
        have hf0 : q.fresh ∉ l₀.map (·.1) := by
          intro hm; apply hf; simp at hm ⊢; exact .inl hm
        rw [seg_append, seg_append]
        simp only [Seg, hd_nil, hd_cons, lst, lst_append, and_true]
        rw [seg_set hi, seg_set hf0, seg_set hf0]
        exact ⟨⟨hs1, by simp⟩, by simp [Ne.symm hfi]⟩
      · simp only [h.tail, hd_append]
        cases l₀ <;> rfl
      · simp [lst_append, lst]
      · have := h.size; simp at this ⊢; omega

theorem get_empty {hash : α → η} {q : IQueue α η} (h : Repr hash q []) :
    q.get hash = .error .queueEmpty := by
  have := h.tail
  simp only [hd_nil, hd_cons] at this
  simp [get, removeTail, this]

theorem get_cons {hash : α → η} {q : IQueue α η} {i : Nat} {v : α} {l : List (Nat × α)}
    (h : Repr hash q ((i, v) :: l)) : ∃ q', q.get hash = .ok (v, q') ∧ Repr hash q' l := by
  have ht : q.tail = some i := h.tail
  obtain ⟨hs1, hs2⟩ := h.seg
  simp only at hs1
  have hm : q.map.get? (hash v) = some i := (h.map _ _).2 ⟨v, by simp, rfl⟩
  have hnd := h.nodup
  simp only [List.map_cons, List.nodup_cons] at hnd
  have hmap : ∀ k j, (q.map.erase (hash v)).get? k = some j ↔ ∃ v, (j, v) ∈ l ∧ hash v = k := by
    intro k j
    rw [Dict.get?_erase]
    have hh := hash_nodup h
    simp only [List.map_cons, List.nodup_cons] at hh
    by_cases e : hash v = k
    · subst e
      simp only [if_true, reduceCtorEq, false_iff]
      rintro ⟨w, hw, e⟩
      exact hh.1 (List.mem_map.2 ⟨w, List.mem_map.2 ⟨(j, w), hw, rfl⟩, e⟩)
    · simp only [e, if_false, h.map]
      constructor
      · rintro ⟨w, hw, e'⟩
        rcases List.mem_cons.1 hw with hw | hw
        · cases hw; exact absurd e' e
        · exact ⟨w, hw, e'⟩
      · rintro ⟨w, hw, e'⟩; exact ⟨w, by simp [hw], e'⟩
  have hfr : ∀ p ∈ l, p.1 < q.fresh := fun p hp => h.fresh p (by simp [hp])
  have hsz := h.size
  cases l with
  | nil =>
    refine ⟨?_, ?_, ?_⟩
    rotate_left
    · simp only [get, removeTail, ht, node, hs1, orRaise, Py.ok_bind, Py.pure_eq, hd_nil, hd_cons, Dict.pop,
        Dict.getPy, hm]
      rfl
    · refine ⟨trivial, rfl, rfl, ?_, by simp, by simp, hmap⟩
      simp at hsz ⊢; omega
  | cons p l =>
    obtain ⟨j, w⟩ := p
    obtain ⟨hs2, hs3⟩ := hs2
    simp only at hs2 hs3
    have hij : i ≠ j := by intro e; apply hnd.1; simp [e]
    simp only [List.map_cons, List.nodup_cons] at hnd
    refine ⟨?_, ?_, ?_⟩
    rotate_left
    · simp only [get, removeTail, ht, node, hs1, orRaise, Py.ok_bind, Py.pure_eq, hd_nil, hd_cons, setNext, hs2,
        Dict.get?_set, Ne.symm hij, if_false, Dict.pop, Dict.getPy, hm]
      rfl
    · refine ⟨?_, rfl, ?_, ?_, ?_, hfr, hmap⟩
      · simp only [Seg]
        rw [seg_set hnd.2.1]
        exact ⟨by simp, hs3⟩
      · simp [h.head, lst]
      · simp at hsz ⊢; omega
      · simpa using hnd.2

theorem remove_absent {hash : α → η} {q : IQueue α η} {l : List (Nat × α)} (h : Repr hash q l) {a : α}
    (ha : hash a ∉ (l.map (·.2)).map hash) : q.remove hash a = .error .keyError := by
  have hhas : q.map.has (hash a) = false := by
    exact Bool.eq_false_iff.2 (mt (mem_map_has h a).1 ha)
  simp [remove, raiseIf, hhas]

theorem remove_present {hash : α → η} {q : IQueue α η} {l₁ l₂ : List (Nat × α)} {i : Nat} {v a : α}
    (h : Repr hash q (l₁ ++ (i, v) :: l₂)) (ha : hash v = hash a) :
    ∃ q', q.remove hash a = .ok q' ∧ Repr hash q' (l₁ ++ l₂) := by
  have hm : q.map.get? (hash a) = some i := (h.map _ _).2 ⟨v, by simp, ha⟩
  have hhas : q.map.has (hash a) = true := by simp [Dict.has, hm]
  have hseg := h.seg
  rw [seg_append] at hseg
  obtain ⟨hs1, hs2, hs3⟩ := hseg
  simp only [hd_nil, hd_cons] at hs1 hs2 hs3
  obtain ⟨hi1, hi2⟩ := nodup_split h.nodup
  simp only at hi1 hi2
  have hmap : ∀ k j, (q.map.erase (hash a)).get? k = some j ↔
      ∃ v, (j, v) ∈ l₁ ++ l₂ ∧ hash v = k := by
    intro k j
    rw [Dict.get?_erase]
    have hh := hash_nodup h
    simp only [List.map_append, List.map_cons] at hh
    rw [List.nodup_append] at hh
    obtain ⟨_, hh2, hh3⟩ := hh
    rw [List.nodup_cons] at hh2
    by_cases e : hash a = k
    · subst e
      simp only [if_true, reduceCtorEq, false_iff]
      rintro ⟨w, hw, e⟩
      rcases List.mem_append.1 hw with hw | hw
      · refine hh3 (hash w) ?_ (hash v) (by simp) (e.trans ha.symm)
        exact List.mem_map.2 ⟨w, List.mem_map.2 ⟨(j, w), hw, rfl⟩, rfl⟩
      · exact hh2.1 (List.mem_map.2 ⟨w, List.mem_map.2 ⟨(j, w), hw, rfl⟩, e.trans ha.symm⟩)
    · simp only [e, if_false, h.map, List.mem_append, List.mem_cons]
      constructor
      · rintro ⟨w, hw | hw | hw, e'⟩
        · exact ⟨w, .inl hw, e'⟩
        · cases hw; exact absurd (ha.symm.trans e') e
        · exact ⟨w, .inr hw, e'⟩
      · rintro ⟨w, hw | hw, e'⟩
        · exact ⟨w, .inl hw, e'⟩
        · exact ⟨w, .inr (.inr hw), e'⟩
  have hfr : ∀ p ∈ l₁ ++ l₂, p.1 < q.fresh := by
    intro p hp; apply h.fresh
    rcases List.mem_append.1 hp with hp | hp <;> simp [hp]
  have hnd : ((l₁ ++ l₂).map (·.1)).Nodup := by
    have := h.nodup
    simp only [List.map_append, List.map_cons] at this ⊢
    exact (List.Sublist.append (List.Sublist.refl _) (List.sublist_cons_self _ _)).nodup this
  have hsz := h.size
  have hhead := h.head
  have htail := h.tail
  rw [lst_append] at hhead
  rw [hd_append] at htail
  rcases List.eq_nil_or_concat l₁ with rfl | ⟨l₀, ⟨j, w⟩, rfl⟩
  · cases l₂ with
    | nil =>
      simp only [List.nil_append, lst, hd_nil, hd_cons] at *
      refine ⟨?_, ?_, ?_⟩
      rotate_left
      · simp only [remove, raiseIf, hhas, Dict.pop, Dict.getPy, hm, orRaise, Py.ok_bind, Py.pure_eq,
          unlink, node, hs2, hhead, htail, pyAssert, Bool.not_true, Bool.false_eq_true, if_false,
          beq_self_eq_true, if_true]
        rfl
      · exact ⟨trivial, rfl, rfl, by simp at hsz ⊢; omega, by simp, by simp, hmap⟩
    | cons p l₂ =>
      obtain ⟨j, w⟩ := p
      simp only [List.nil_append, lst, hd_nil, hd_cons, Seg] at *
      obtain ⟨hs3, hs4⟩ := hs3
      simp only [List.map_cons, List.nodup_cons] at hnd
      have hij : i ≠ j := by intro e; apply hi2; simp [e]
      refine ⟨?_, ?_, ?_⟩
      rotate_left
      · simp only [remove, raiseIf, hhas, Dict.pop, Dict.getPy, hm, orRaise, Py.ok_bind, Py.pure_eq,
          unlink, node, hs2, hs3, hhead, htail, pyAssert, Bool.not_true, Bool.false_eq_true, if_false,
          beq_self_eq_true, if_true, setNext]
        rfl
      · refine ⟨?_, rfl, ?_, by simp at hsz ⊢; omega, by simpa using hnd, hfr, hmap⟩
        · simp only [Seg]
          rw [seg_set hnd.1]
          exact ⟨by simp, hs4⟩
        · simp [lst, hhead]
  · simp only [List.concat_eq_append, lst_append, lst, hd_append, hd_nil, hd_cons] at *
    rw [seg_append] at hs1
    obtain ⟨hs0, hs1⟩ := hs1
    simp only [Seg, hd_nil, hd_cons, and_true] at hs0 hs1
    have hjl : j ∉ l₀.map (·.1) := by
      have := nodup_split (l₁ := l₀) (p := (j, w)) (l₂ := (i, v) :: l₂) (by simpa using h.nodup)
      exact this.1
    have hjl2 : j ∉ l₂.map (·.1) := by
      have := nodup_split (l₁ := l₀) (p := (j, w)) (l₂ := (i, v) :: l₂) (by simpa using h.nodup)
      have := this.2
      simp only [List.map_cons, List.mem_cons, not_or] at this
      exact this.2
    have hij : i ≠ j := by intro e; apply hi1; simp [e]
    cases l₂ with
    | nil =>
      simp only [lst, hd_nil, hd_cons] at *
      refine ⟨?_, ?_, ?_⟩
      rotate_left
      · simp only [remove, raiseIf, hhas, Dict.pop, Dict.getPy, hm, orRaise, Py.ok_bind, Py.pure_eq,
          unlink, node, hs2, hs1, hhead, htail, pyAssert, Bool.not_true, Bool.false_eq_true, if_false,
          beq_self_eq_true, if_true, setPrev]
        rfl
      · refine ⟨?_, ?_, ?_, by simp at hsz ⊢; omega, by simpa using hnd, by simpa using hfr, by simpa using hmap⟩
        · simp only [List.append_nil]
          rw [seg_append, seg_set hjl]
          exact ⟨hs0, by simp [Seg, hd_nil, hd_cons, lst]⟩
        · simp only [htail]; cases l₀ <;> rfl
        · simp [lst_append, lst]
    | cons p l₂ =>
      obtain ⟨k, x⟩ := p
      simp only [lst, hd_nil, hd_cons, Seg] at *
      obtain ⟨hs3, hs4⟩ := hs3
      have hjk : j ≠ k := by intro e; apply hjl2; simp [e]
      have hik : i ≠ k := by intro e; apply hi2; simp [e]
      have hk0 : k ∉ l₀.map (·.1) ∧ k ∉ l₂.map (·.1) := by
        have := nodup_split (l₁ := l₀ ++ [(j, w), (i, v)]) (p := (k, x)) (l₂ := l₂) (by simpa using h.nodup)
        refine ⟨?_, this.2⟩
        intro hm; apply this.1; rw [List.map_append]; exact List.mem_append_left _ hm
      have hjl2' : j ∉ l₂.map (·.1) := by
        intro hm; apply hjl2; simp only [List.map_cons]; exact List.mem_cons_of_mem _ hm
      refine ⟨?_, ?_, ?_⟩
      rotate_left
      · simp only [remove, raiseIf, hhas, Dict.pop, Dict.getPy, hm, orRaise, Py.ok_bind, Py.pure_eq,
          unlink, node, hs2, hs3, hs1, hhead, htail, pyAssert, Bool.not_true, Bool.false_eq_true,
          if_false, beq_self_eq_true, if_true, setPrev, setNext, Dict.get?_set, hjk, Ne.symm hjk]
        rfl
      · refine ⟨?_, ?_, ?_, by simp at hsz ⊢; omega, hnd, hfr, hmap⟩
        · rw [seg_append, seg_append, seg_set hjl, seg_set hk0.1]
          simp only [Seg, hd_nil, hd_cons, lst_append, lst, and_true, Dict.get?_set, if_true, hjk, if_false, Ne.symm hjk]
          rw [seg_set hjl2', seg_set hk0.2]
          exact ⟨hs0, trivial, hs4⟩
        · simp only [htail]; cases l₀ <;> rfl
        · simp [lst_append, lst, hhead]

theorem walk_seg (q : IQueue α η) (nx : Option Nat) (l : List (Nat × α)) (h : Seg q.store nx l none) :
    q.walk l.length (hd l none) = l.map (·.2) := by
  induction l generalizing nx with
  | nil => rfl
  | cons p l ih =>
    obtain ⟨h1, h2⟩ := h
    simp only [List.length_cons, hd_nil, hd_cons, walk, h1, List.map_cons]
    rw [ih _ h2]

theorem contents_eq {hash : α → η} {q : IQueue α η} {l : List (Nat × α)} (h : Repr hash q l) :
    q.contents = l.map (·.2) := by
  rw [contents, h.size, h.tail, Int.toNat_natCast]
  exact walk_seg q none l h.seg

/-- The object is a well-formed queue. -/
def WF (hash : α → η) (q : IQueue α η) : Prop := ∃ l, Repr hash q l

theorem wf_empty (hash : α → η) : WF hash (empty : IQueue α η) := ⟨[], repr_empty hash⟩

@[simp] theorem contents_empty : (empty : IQueue α η).contents = [] := rfl

section
variable {hash : α → η} {q : IQueue α η}

theorem WF.hash_nodup (h : WF hash q) : (q.contents.map hash).Nodup := by
  obtain ⟨l, h⟩ := h
  rw [contents_eq h]; exact IQueue.hash_nodup h

theorem WF.nodup (h : WF hash q) : q.contents.Nodup := by
  have h := h.hash_nodup
  generalize q.contents = l at h
  induction l with
  | nil => simp
  | cons a l ih =>
    simp only [List.map_cons, List.nodup_cons] at h ⊢
    exact ⟨fun hm => h.1 (List.mem_map.2 ⟨a, hm, rfl⟩), ih h.2⟩

theorem WF.contains (h : WF hash q) (a : α) :
    q.contains hash a = true ↔ hash a ∈ q.contents.map hash := by
  obtain ⟨l, h⟩ := h
  rw [contents_eq h]; exact mem_map_has h a

theorem WF.len (h : WF hash q) : q.len = q.contents.length := by
  obtain ⟨l, h⟩ := h
  rw [contents_eq h]; simp [IQueue.len, h.size]

theorem WF.put_dup (h : WF hash q) {a : α} (ha : hash a ∈ q.contents.map hash) :
    q.put hash a = .error .keyError := by
  obtain ⟨l, h⟩ := h
  rw [contents_eq h] at ha
  exact IQueue.put_dup h ha

theorem WF.put_new (h : WF hash q) {a : α} (ha : hash a ∉ q.contents.map hash) :
    ∃ q', q.put hash a = .ok q' ∧ WF hash q' ∧ q'.contents = q.contents ++ [a] := by
  obtain ⟨l, h⟩ := h
  rw [contents_eq h] at ha ⊢
  obtain ⟨q', hq, h'⟩ := IQueue.put_new h ha
  exact ⟨q', hq, ⟨_, h'⟩, by rw [contents_eq h']; simp⟩

theorem WF.get_empty (h : WF hash q) (he : q.contents = []) : q.get hash = .error .queueEmpty := by
  obtain ⟨l, h⟩ := h
  rw [contents_eq h] at he
  simp at he
  subst he
  exact IQueue.get_empty h

theorem WF.get_cons (h : WF hash q) {a : α} {as : List α} (he : q.contents = a :: as) :
    ∃ q', q.get hash = .ok (a, q') ∧ WF hash q' ∧ q'.contents = as := by
  obtain ⟨l, h⟩ := h
  rw [contents_eq h] at he
  match l, h, he with
  | (i, v) :: l, h, he =>
    simp only [List.map_cons, List.cons.injEq] at he
    obtain ⟨rfl, rfl⟩ := he
    obtain ⟨q', hq, h'⟩ := IQueue.get_cons h
    exact ⟨q', hq, ⟨_, h'⟩, contents_eq h'⟩

theorem WF.remove_absent (h : WF hash q) {a : α} (ha : hash a ∉ q.contents.map hash) :
    q.remove hash a = .error .keyError := by
  obtain ⟨l, h⟩ := h
  rw [contents_eq h] at ha
  exact IQueue.remove_absent h ha

theorem filter_hash_split {hash : α → η} {l₁ l₂ : List α} {v a : α}
    (hn : ((l₁ ++ v :: l₂).map hash).Nodup) (ha : hash v = hash a) :
    (l₁ ++ v :: l₂).filter (fun x => hash x ≠ hash a) = l₁ ++ l₂ := by
  rw [← ha]
  simp only [List.map_append, List.map_cons] at hn
  rw [List.nodup_append] at hn
  obtain ⟨_, h2, h3⟩ := hn
  rw [List.nodup_cons] at h2
  rw [List.filter_append, List.filter_cons]
  simp only [ne_eq, not_true_eq_false, decide_false, Bool.false_eq_true, if_false]
  congr 1
  · apply List.filter_eq_self.2
    intro x hx
    have := h3 (hash x) (List.mem_map.2 ⟨x, hx, rfl⟩) (hash v) (by simp)
    simpa using this
  · apply List.filter_eq_self.2
    intro x hx
    have : hash x ≠ hash v := fun e => h2.1 (List.mem_map.2 ⟨x, hx, e⟩)
    simpa using this

theorem WF.remove_present (h : WF hash q) {a : α} (ha : hash a ∈ q.contents.map hash) :
    ∃ q', q.remove hash a = .ok q' ∧ WF hash q' ∧
      q'.contents = q.contents.filter (fun x => hash x ≠ hash a) := by
  have hn := h.hash_nodup
  obtain ⟨l, h⟩ := h
  rw [contents_eq h] at ha hn ⊢
  obtain ⟨v, hv, e⟩ := List.mem_map.1 ha
  obtain ⟨⟨i, v'⟩, hm, e'⟩ := List.mem_map.1 hv
  cases e'
  obtain ⟨l₁, l₂, rfl⟩ := List.append_of_mem hm
  obtain ⟨q', hq, h'⟩ := IQueue.remove_present h e
  refine ⟨q', hq, ⟨_, h'⟩, ?_⟩
  rw [contents_eq h']
  rw [List.map_append, List.map_cons] at hn
  rw [List.map_append, List.map_append, List.map_cons]
  exact (filter_hash_split hn e).symm

end

end Verif.Queue.IQueue
