import Verif.Util.OneToMany

/-!
# Effect of the operations of `OneToManyDict` and `KeyValueDictSet`
-/

set_option linter.unusedSectionVars false

namespace Verif.Util

namespace OneToMany
variable {κ ν : Type} [DecidableEq κ] [DecidableEq ν]

/-- The two dictionaries agree and no key has an empty set. -/
structure WF (m : OneToMany κ ν) : Prop where
  agree : ∀ k v, m.v2k.get? v = some k ↔ ∃ s, m.k2v.get? k = some s ∧ v ∈ s
  nonempty : ∀ k s, m.k2v.get? k = some s → ∃ v, v ∈ s

theorem wf_empty : (empty : OneToMany κ ν).WF := by
  constructor <;> simp [empty]

variable {m : OneToMany κ ν}

theorem hasKey_iff (h : m.WF) (k : κ) : m.hasKey k = true ↔ ∃ v, m.v2k.get? v = some k := by
  simp only [hasKey, Dict.has_iff, Dict.mem_keys]
  constructor
  · rintro ⟨s, hs⟩
    obtain ⟨v, hv⟩ := h.nonempty k s hs
    exact ⟨v, (h.agree k v).2 ⟨s, hs, hv⟩⟩
  · rintro ⟨v, hv⟩
    obtain ⟨s, hs, _⟩ := (h.agree k v).1 hv
    exact ⟨s, hs⟩

theorem add_err {k k' : κ} {v : ν} (hv : m.v2k.get? v = some k') (hk : k' ≠ k) :
    m.add k v = .error .valueError := by
  simp [add, Dict.has, hv, hk, raiseIf]

/-- What `add` does to the set of `k`. -/
def addK2V (m : OneToMany κ ν) (k : κ) (v : ν) : Dict κ (PySet ν) :=
  (if m.k2v.has k then m.k2v else m.k2v.set k PySet.empty).set k
    (((m.k2v.get? k).getD PySet.empty).add v)

theorem add_eq {k : κ} {v : ν} (hv : m.v2k.get? v = none ∨ m.v2k.get? v = some k) :
    m.add k v = .ok ⟨addK2V m k v, m.v2k.set v k⟩ := by
  have hc : (m.v2k.has v && decide (m.v2k.get? v ≠ some k)) = false := by
    rcases hv with hv | hv <;> simp [Dict.has, hv]
  have hh : m.k2v.has k = (m.k2v.get? k).isSome := rfl
  simp only [add, hc, raiseIf, addK2V, hh]
  rcases hk : m.k2v.get? k with _ | s
  · simp [Dict.getPy, orRaise, Dict.get?_set]
  · simp [Dict.getPy, orRaise, hk]

theorem addK2V_get (k : κ) (v : ν) (k' : κ) :
    (addK2V m k v).get? k' =
      if k = k' then some (((m.k2v.get? k).getD PySet.empty).add v) else m.k2v.get? k' := by
  simp only [addK2V, Dict.get?_set]
  by_cases e : k = k'
  · simp [e]
  · simp only [e, if_false]
    split
    · rfl
    · simp [Dict.get?_set, e]

theorem add_ok (h : m.WF) {k : κ} {v : ν} (hv : m.v2k.get? v = none ∨ m.v2k.get? v = some k) :
    ∃ m', m.add k v = .ok m' ∧ m'.WF ∧
      ∀ v', m'.v2k.get? v' = if v = v' then some k else m.v2k.get? v' := by
  refine ⟨_, add_eq hv, ⟨?_, ?_⟩, fun v' => by simp⟩
  · intro k' v'
    simp only [Dict.get?_set, addK2V_get]
    have ha := h.agree k v'
    have ha' := h.agree k' v'
    by_cases ek : k = k' <;> by_cases ev : v = v'
    · subst ek; subst ev; simp
    · subst ek
      simp only [ev, if_false, if_true, Option.some.injEq, exists_eq_left', PySet.mem_add, Ne.symm ev, or_false, ha]
      cases hk : m.k2v.get? k <;> simp
    · subst ev
      simp only [ek, if_false, if_true, Option.some.injEq]
      rw [← ha']
      constructor
      · intro e; exact e.elim
      · intro e
        rcases hv with hv | hv <;> rw [hv] at e <;> cases e
        exact ek rfl
    · simp [ek, ev, ha']
  · intro k' s hs
    rw [addK2V_get] at hs
    split at hs
    · cases hs; exact ⟨v, by simp⟩
    · exact h.nonempty k' s hs

theorem getKey_ok {v : ν} {k : κ} (hv : m.v2k.get? v = some k) : m.getKey v = .ok k := by
  simp [getKey, Dict.has, hv, raiseIf, Dict.getPy, orRaise]

theorem getKey_err {v : ν} (hv : m.v2k.get? v = none) : m.getKey v = .error .valueError := by
  simp [getKey, Dict.has, hv, raiseIf]

theorem removeValue_err {v : ν} (hv : m.v2k.get? v = none) : m.removeValue v = .error .valueError := by
  simp [removeValue, Dict.has, hv, raiseIf]

theorem removeValue_eq (h : m.WF) {v : ν} {k : κ} (hv : m.v2k.get? v = some k) :
    ∃ s, m.k2v.get? k = some s ∧ v ∈ s ∧ m.removeValue v = .ok (k,
      ⟨if (s.discard v).items.isEmpty then (m.k2v.set k (s.discard v)).erase k
        else m.k2v.set k (s.discard v), m.v2k.erase v⟩) := by
  obtain ⟨s, hs, hvs⟩ := (h.agree k v).1 hv
  refine ⟨s, hs, hvs, ?_⟩
  simp [removeValue, Dict.has, hv, raiseIf, Dict.pop, Dict.getPy, orRaise, hs, PySet.remove, hvs]

theorem isEmpty_iff {s : PySet ν} : s.items.isEmpty = true ↔ ∀ v, v ∉ s := by
  rw [List.isEmpty_iff]
  constructor
  · intro h v hv
    have : v ∈ s.items := hv
    rw [h] at this; simp at this
  · intro h
    cases hs : s.items with
    | nil => rfl
    | cons a l => exact absurd (show a ∈ s.items by rw [hs]; simp) (h a)

theorem removeValue_ok (h : m.WF) {v : ν} {k : κ} (hv : m.v2k.get? v = some k) :
    ∃ m', m.removeValue v = .ok (k, m') ∧ m'.WF ∧
      ∀ v', m'.v2k.get? v' = if v = v' then none else m.v2k.get? v' := by
  obtain ⟨s, hs, hvs, e⟩ := removeValue_eq h hv
  refine ⟨_, e, ?_, fun v' => by simp⟩
  have hget : ∀ k', (if (s.discard v).items.isEmpty then (m.k2v.set k (s.discard v)).erase k
        else m.k2v.set k (s.discard v)).get? k' =
      if k = k' then (if (s.discard v).items.isEmpty then none else some (s.discard v)) else m.k2v.get? k' := by
    intro k'
    split
    · simp only [Dict.get?_erase, Dict.get?_set]
      by_cases ek : k = k' <;> simp [ek]
    · simp [Dict.get?_set]
  constructor
  · intro k' v'
    simp only [hget, Dict.get?_erase]
    have ha' := h.agree k' v'
    have hak := h.agree k v'
    by_cases ek : k = k'
    · subst ek
      simp only [if_true]
      by_cases ev : v = v'
      · subst ev
        simp only [if_true, reduceCtorEq, false_iff, not_exists, not_and]
        intro s' hs'
        split at hs'
        · cases hs'
        · cases hs'; simp
      · simp only [ev, if_false, hak, hs, Option.some.injEq, exists_eq_left']
        constructor
        · intro hm
          have hd : v' ∈ s.discard v := by simp [hm, Ne.symm ev]
          have : ¬ (s.discard v).items.isEmpty = true := fun e => (isEmpty_iff.1 e) v' hd
          simp only [this]
          exact ⟨_, rfl, hd⟩
        · rintro ⟨s', hs', hm⟩
          split at hs'
          · cases hs'
          · cases hs'; exact ((PySet.mem_discard _ _ _).1 hm).1
    · simp only [ek, if_false]
      by_cases ev : v = v'
      · subst ev
        simp only [if_true, reduceCtorEq, false_iff]
        intro hx
        rw [← ha', hv] at hx
        cases hx; exact ek rfl
      · simp only [ev, if_false]; exact ha'
  · intro k' s' hs'
    simp only [hget] at hs'
    by_cases ek : k = k'
    · simp only [ek, if_true] at hs'
      split at hs'
      · cases hs'
      · next hne =>
        cases hs'
        rw [isEmpty_iff] at hne
        exact Classical.not_forall_not.1 hne
    · simp only [ek, if_false] at hs'
      exact h.nonempty k' s' hs'

theorem getValues_err (h : m.WF) {k : κ} (hk : ∀ v, m.v2k.get? v ≠ some k) :
    m.getValues k = .error .valueError := by
  have : ¬ m.hasKey k = true := by rw [hasKey_iff h]; simpa using hk
  simp only [hasKey] at this
  simp [getValues, this, raiseIf]

theorem getValues_ok (h : m.WF) {k : κ} {v : ν} (hv : m.v2k.get? v = some k) :
    ∃ s, m.getValues k = .ok s ∧ ∀ v', v' ∈ s ↔ m.v2k.get? v' = some k := by
  obtain ⟨s, hs, hvs⟩ := (h.agree k v).1 hv
  refine ⟨s, by simp [getValues, Dict.has, hs, raiseIf, Dict.getPy, orRaise], ?_⟩
  intro v'
  rw [h.agree, hs]
  simp

theorem popAll_spec (vs : List ν) (d : Dict ν κ) (hn : vs.Nodup) (hv : ∀ v ∈ vs, ∃ k, d.get? v = some k) :
    ∃ d', popAll d vs = .ok d' ∧ ∀ v, d'.get? v = if v ∈ vs then none else d.get? v := by
  induction vs generalizing d with
  | nil => exact ⟨d, rfl, by simp⟩
  | cons v vs ih =>
    rw [List.nodup_cons] at hn
    obtain ⟨k, hk⟩ := hv v (by simp)
    obtain ⟨d', e, hd'⟩ := ih (d.erase v) hn.2 (by
      intro v' hv'
      have hne : ¬ v = v' := by rintro rfl; exact hn.1 hv'
      obtain ⟨k', hk'⟩ := hv v' (by simp [hv'])
      exact ⟨k', by simp [hne, hk']⟩)
    refine ⟨d', ?_, ?_⟩
    · simp [popAll, Dict.pop, Dict.getPy, hk, orRaise, e]
    · intro v'
      rw [hd', Dict.get?_erase]
      by_cases e1 : v = v'
      · simp [e1]
      · simp [e1, Ne.symm e1]

theorem removeKey_err (h : m.WF) {k : κ} (hk : ∀ v, m.v2k.get? v ≠ some k) :
    m.removeKey k = .error .keyError := by
  have : ¬ m.hasKey k = true := by rw [hasKey_iff h]; simpa using hk
  simp only [hasKey] at this
  simp [removeKey, this, raiseIf]

theorem removeKey_ok (h : m.WF) {k : κ} {v : ν} (hv : m.v2k.get? v = some k) :
    ∃ s m', m.removeKey k = .ok (s, m') ∧ m'.WF ∧ m.k2v.get? k = some s ∧ m'.k2v = m.k2v.erase k ∧
      (∀ v', v' ∈ s ↔ m.v2k.get? v' = some k) ∧
      ∀ v', m'.v2k.get? v' = if m.v2k.get? v' = some k then none else m.v2k.get? v' := by
  obtain ⟨s, hs, hvs⟩ := (h.agree k v).1 hv
  have hmem : ∀ v', v' ∈ s ↔ m.v2k.get? v' = some k := by
    intro v'; rw [h.agree, hs]; simp
  obtain ⟨d', e, hd'⟩ := popAll_spec s.items m.v2k s.nodup
    (fun v' hv' => ⟨k, (hmem v').1 hv'⟩)
  have hd'' : ∀ v', d'.get? v' = if m.v2k.get? v' = some k then none else m.v2k.get? v' := by
    intro v'
    rw [hd']
    have := hmem v'
    by_cases hx : v' ∈ s
    · have h1 : v' ∈ s.items := hx
      rw [if_pos h1, if_pos (this.1 hx)]
    · have h1 : ¬ v' ∈ s.items := hx
      rw [if_neg h1, if_neg (mt this.2 hx)]
  refine ⟨s, ⟨m.k2v.erase k, d'⟩, ?_, ⟨?_, ?_⟩, hs, rfl, hmem, hd''⟩
  · simp [removeKey, Dict.has, hs, raiseIf, Dict.pop, Dict.getPy, orRaise, e]
  · intro k' v'
    simp only [Dict.get?_erase, hd'']
    by_cases ek : k = k'
    · subst ek
      simp only [if_true]
      split
      · simp
      · next hne => simp [hne]
    · simp only [ek, if_false]
      rw [← h.agree]
      split
      · next he => rw [he]; simp [ek]
      · rfl
  · intro k' s' hs'
    simp only [Dict.get?_erase] at hs'
    split at hs'
    · cases hs'
    · exact h.nonempty k' s' hs'

end OneToMany

namespace KeyValueSet
variable {κ ν : Type} [DecidableEq κ] [DecidableEq ν]

/-- No key has an empty set. -/
def WF (m : KeyValueSet κ ν) : Prop := ∀ k s, m.k2v.get? k = some s → ∃ v, v ∈ s

/-- The relation stored. -/
def rel (m : KeyValueSet κ ν) (k : κ) (v : ν) : Prop := ∃ s, m.k2v.get? k = some s ∧ v ∈ s

instance (m : KeyValueSet κ ν) (k : κ) (v : ν) : Decidable (m.rel k v) :=
  match h : m.k2v.get? k with
  | none => .isFalse (by rintro ⟨s, hs, _⟩; rw [h] at hs; cases hs)
  | some s =>
    if hv : v ∈ s then .isTrue ⟨s, h, hv⟩
    else .isFalse (by rintro ⟨s', hs, hv'⟩; rw [h] at hs; cases hs; exact hv hv')

theorem wf_empty : (empty : KeyValueSet κ ν).WF := by simp [WF, empty]

theorem rel_empty (k : κ) (v : ν) : ¬ (empty : KeyValueSet κ ν).rel k v := by simp [rel, empty]

variable {m : KeyValueSet κ ν}

theorem hasKey_iff (h : m.WF) (k : κ) : m.hasKey k = true ↔ ∃ v, m.rel k v := by
  simp only [hasKey, Dict.has_iff, Dict.mem_keys]
  constructor
  · rintro ⟨s, hs⟩
    obtain ⟨v, hv⟩ := h k s hs
    exact ⟨v, s, hs, hv⟩
  · rintro ⟨v, s, hs, _⟩
    exact ⟨s, hs⟩

theorem add_get (k : κ) (v : ν) (k' : κ) :
    (m.add k v).k2v.get? k' =
      if k = k' then some (((m.k2v.get? k).getD PySet.empty).add v) else m.k2v.get? k' := by
  simp only [add, Dict.get?_set]
  by_cases e : k = k'
  · subst e
    simp only [if_true, Option.some.injEq]
    cases hk : m.k2v.get? k <;> simp [Dict.has, hk]
  · simp only [e, if_false]
    split
    · rfl
    · simp [Dict.get?_set, e]

theorem add_wf (h : m.WF) (k : κ) (v : ν) : (m.add k v).WF := by
  intro k' s hs
  rw [add_get] at hs
  split at hs
  · cases hs; exact ⟨v, by simp⟩
  · exact h k' s hs

theorem add_rel (k : κ) (v : ν) (k' : κ) (v' : ν) :
    (m.add k v).rel k' v' ↔ m.rel k' v' ∨ (k' = k ∧ v' = v) := by
  simp only [rel, add_get]
  by_cases e : k = k'
  · subst e
    simp only [if_true, Option.some.injEq, exists_eq_left', PySet.mem_add, true_and]
    cases hk : m.k2v.get? k <;> simp
  · simp [e, Ne.symm e]

theorem removeValue_err {k : κ} {v : ν} (hr : ¬ m.rel k v) : m.removeValue k v = .error .keyError := by
  cases hk : m.k2v.get? k with
  | none => simp [removeValue, Dict.has, hk, raiseIf]
  | some s =>
    have : v ∉ s := fun hv => hr ⟨s, hk, hv⟩
    simp [removeValue, Dict.has, hk, raiseIf, Dict.getPy, orRaise, PySet.remove, this]

theorem removeValue_eq {k : κ} {v : ν} (hr : m.rel k v) :
    ∃ s, m.k2v.get? k = some s ∧ v ∈ s ∧ m.removeValue k v =
      .ok ⟨if (s.discard v).items.isEmpty then (m.k2v.set k (s.discard v)).erase k
        else m.k2v.set k (s.discard v)⟩ := by
  obtain ⟨s, hs, hv⟩ := hr
  refine ⟨s, hs, hv, ?_⟩
  simp [removeValue, Dict.has, hs, raiseIf, Dict.getPy, orRaise, PySet.remove, hv]

theorem removeValue_ok (h : m.WF) {k : κ} {v : ν} (hr : m.rel k v) :
    ∃ m', m.removeValue k v = .ok m' ∧ m'.WF ∧
      ∀ k' v', m'.rel k' v' ↔ m.rel k' v' ∧ ¬ (k' = k ∧ v' = v) := by
  obtain ⟨s, hs, hv, e⟩ := removeValue_eq hr
  have hget : ∀ k', (if (s.discard v).items.isEmpty then (m.k2v.set k (s.discard v)).erase k
        else m.k2v.set k (s.discard v)).get? k' =
      if k = k' then (if (s.discard v).items.isEmpty then none else some (s.discard v)) else m.k2v.get? k' := by
    intro k'
    split
    · simp only [Dict.get?_erase, Dict.get?_set]
      by_cases ek : k = k' <;> simp [ek]
    · simp [Dict.get?_set]
  refine ⟨_, e, ?_, ?_⟩
  · intro k' s' hs'
    simp only [hget] at hs'
    by_cases ek : k = k'
    · simp only [ek, if_true] at hs'
      split at hs'
      · cases hs'
      · next hne =>
        cases hs'
        rw [OneToMany.isEmpty_iff] at hne
        exact Classical.not_forall_not.1 hne
    · simp only [ek, if_false] at hs'
      exact h k' s' hs'
  · intro k' v'
    simp only [rel, hget]
    by_cases ek : k = k'
    · subst ek
      simp only [if_true, hs, Option.some.injEq, exists_eq_left', true_and]
      constructor
      · rintro ⟨s', hs', hm⟩
        split at hs'
        · cases hs'
        · cases hs'; exact (PySet.mem_discard _ _ _).1 hm
      · rintro ⟨hm, hne⟩
        have hd : v' ∈ s.discard v := (PySet.mem_discard _ _ _).2 ⟨hm, hne⟩
        have : ¬ (s.discard v).items.isEmpty = true := fun e => (OneToMany.isEmpty_iff.1 e) v' hd
        simp only [this]
        exact ⟨_, rfl, hd⟩
    · simp [ek, Ne.symm ek]

end KeyValueSet

end Verif.Util
