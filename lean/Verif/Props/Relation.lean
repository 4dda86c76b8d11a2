import Verif.Util.OneToManyLemmas
import Verif.Spec.Relation

/-!
# C59, C60: `OneToManyDict` and `KeyValueDictSet` are finite relations
-/

set_option linter.unusedSectionVars false

namespace Verif.Props

open Verif.Util Verif.Spec

variable {κ ν : Type} [DecidableEq κ] [DecidableEq ν]

/-- An observation from a computation that may raise; the object is unchanged when it raises
(`C59_unchanged` and `C60_unchanged` in Props/RelationObject show that of the code with its assignments in order). -/
def observe {σ α : Type} (old : σ) (x : Py α) (f : α → σ × RObs κ ν) : σ × RObs κ ν :=
  match x with
  | .ok a => f a
  | .error e => (old, .raised e)

/-- One operation of the object. -/
def otmStep (m : OneToMany κ ν) : ROp κ ν → OneToMany κ ν × RObs κ ν
  | .add k v => observe m (m.add k v) fun m' => (m', .done)
  | .hasKey k => (m, .bool (m.hasKey k))
  | .hasValue v => (m, .bool (m.hasValue v))
  | .getKey v => observe m (m.getKey v) fun k => (m, .key k)
  | .getValues k => observe m (m.getValues k) fun s => (m, .values s.items)
  | .removeKey k => observe m (m.removeKey k) fun r => (r.2, .values r.1.items)
  | .removeValue _ v => observe m (m.removeValue v) fun r => (r.2, .key r.1)

/-- One operation of the object (`has_value`, `get_key` do not exist in this class). -/
def kvsStep (m : KeyValueSet κ ν) : ROp κ ν → KeyValueSet κ ν × RObs κ ν
  | .add k v => (m.add k v, .done)
  | .hasKey k => (m, .bool (m.hasKey k))
  | .hasValue _ | .getKey _ => (m, .done)
  | .getValues k => observe m (m.getValues k) fun s => (m, .values s.items)
  | .removeKey k => observe m (m.removeKey k) fun r => (r.2, .values r.1.items)
  | .removeValue k v => observe m (m.removeValue k v) fun m' => (m', .done)

/-- Observations of a sequence of operations. -/
def traceOf {σ : Type} (step : σ → ROp κ ν → σ × RObs κ ν) (s : σ) : List (ROp κ ν) → List (RObs κ ν)
  | [] => []
  | op :: ops => (step s op).2 :: traceOf step (step s op).1 ops

/-- The set stored for a key is the list of its values. -/
def SetsAre (d : Dict κ (PySet ν)) (s : List (κ × ν)) : Prop :=
  ∀ k, (d.get? k).map (·.items) = if valuesOf s k = [] then none else some (valuesOf s k)

theorem SetsAre.none {d : Dict κ (PySet ν)} {s : List (κ × ν)} (h : SetsAre d s) (k : κ) :
    d.get? k = none ↔ valuesOf s k = [] := by
  have := h k
  cases hk : d.get? k <;> simp only [hk, Option.map_none, Option.map_some] at this <;> split at this <;> simp_all

theorem SetsAre.some {d : Dict κ (PySet ν)} {s : List (κ × ν)} (h : SetsAre d s) {k : κ} {x : PySet ν}
    (hx : d.get? k = some x) : x.items = valuesOf s k ∧ valuesOf s k ≠ [] := by
  have := h k
  rw [hx, Option.map_some] at this
  split at this
  · cases this
  · next hne => exact ⟨Option.some.inj this, hne⟩

theorem SetsAre.getD {d : Dict κ (PySet ν)} {s : List (κ × ν)} (h : SetsAre d s) (k : κ) :
    ((d.get? k).getD PySet.empty).items = valuesOf s k := by
  cases hk : d.get? k with
  | none => rw [(h.none k).1 hk]; rfl
  | some x => exact (h.some hk).1

theorem mem_valuesOf {s : List (κ × ν)} {k : κ} {v : ν} : v ∈ valuesOf s k ↔ (k, v) ∈ s := by
  simp only [valuesOf, List.mem_map, List.mem_filter, decide_eq_true_eq]
  constructor
  · rintro ⟨⟨k', v'⟩, ⟨hm, rfl⟩, rfl⟩; exact hm
  · intro h; exact ⟨(k, v), ⟨h, rfl⟩, rfl⟩

theorem mem_keysOf {s : List (κ × ν)} {k : κ} {v : ν} : k ∈ keysOf s v ↔ (k, v) ∈ s := by
  simp only [keysOf, List.mem_map, List.mem_filter, decide_eq_true_eq]
  constructor
  · rintro ⟨⟨k', v'⟩, ⟨hm, rfl⟩, rfl⟩; exact hm
  · intro h; exact ⟨(k, v), ⟨h, rfl⟩, rfl⟩

theorem valuesOf_append (s : List (κ × ν)) (k : κ) (v : ν) (k' : κ) :
    valuesOf (s ++ [(k, v)]) k' = if k = k' then valuesOf s k' ++ [v] else valuesOf s k' := by
  by_cases e : k = k' <;> simp [valuesOf, List.filter_append, e]

theorem valuesOf_filter_key (s : List (κ × ν)) (k k' : κ) :
    valuesOf (s.filter fun p => p.1 ≠ k) k' = if k = k' then [] else valuesOf s k' := by
  simp only [valuesOf, List.filter_filter]
  by_cases e : k = k'
  · subst e
    simp
  · simp only [e, if_false]
    congr 1
    apply List.filter_congr
    intro p _
    by_cases e1 : p.1 = k'
    · simp [e1, Ne.symm e]
    · simp [e1]

theorem valuesOf_filter_value (s : List (κ × ν)) (v : ν) (k' : κ) :
    valuesOf (s.filter fun p => p.2 ≠ v) k' = (valuesOf s k').filter (· ≠ v) := by
  simp only [valuesOf, List.filter_filter, List.filter_map]
  congr 1
  apply List.filter_congr
  intro p _
  simp only [Function.comp, ne_eq, decide_not, Bool.and_comm]

theorem valuesOf_filter_pair (s : List (κ × ν)) (k : κ) (v : ν) (k' : κ) :
    valuesOf (s.filter fun p => p ≠ (k, v)) k' =
      if k = k' then (valuesOf s k').filter (· ≠ v) else valuesOf s k' := by
  simp only [valuesOf, List.filter_filter, List.filter_map]
  by_cases e : k = k'
  · subst e
    simp only [if_true]
    congr 1
    apply List.filter_congr
    rintro ⟨a, b⟩ _
    by_cases e1 : a = k <;> simp [e1]
  · simp only [e, if_false]
    congr 1
    apply List.filter_congr
    rintro ⟨a, b⟩ _
    by_cases e1 : a = k'
    · simp [e1, Ne.symm e]
    · simp [e1]

/-- `d'` differs from `d` by `add k v`. -/
theorem setsAre_add {d d' : Dict κ (PySet ν)} {s : List (κ × ν)} (h : SetsAre d s) (k : κ) (v : ν)
    (hd : ∀ k', d'.get? k' = if k = k' then some (((d.get? k).getD PySet.empty).add v) else d.get? k') :
    SetsAre d' (if (k, v) ∈ s then s else s ++ [(k, v)]) := by
  intro k'
  rw [hd]
  by_cases e : k = k'
  · subst e
    simp only [if_true, Option.map_some]
    have hi := h.getD k
    by_cases hm : (k, v) ∈ s
    · have hv := mem_valuesOf.2 hm
      have hin : v ∈ ((d.get? k).getD PySet.empty).items := by rw [hi]; exact hv
      have hne : valuesOf s k ≠ [] := by intro e; rw [e] at hv; simp at hv
      simp [hm, PySet.add, hi, hv, hne]
    · have hv := mt mem_valuesOf.1 hm
      have hin : v ∉ ((d.get? k).getD PySet.empty).items := by rw [hi]; exact hv
      simp only [hm, if_false, valuesOf_append, if_true]
      simp [PySet.add, hi, hv]
  · simp only [e, if_false]
    have := h k'
    split
    · exact this
    · rw [valuesOf_append]; simpa [e] using this

theorem setsAre_erase {d : Dict κ (PySet ν)} {s : List (κ × ν)} (h : SetsAre d s) (k : κ) :
    SetsAre (d.erase k) (s.filter fun p => p.1 ≠ k) := by
  intro k'
  rw [Dict.get?_erase, valuesOf_filter_key]
  by_cases e : k = k'
  · simp [e]
  · simp only [e, if_false]; exact h k'

theorem setsAre_removeValue {d : Dict κ (PySet ν)} {s s' : List (κ × ν)} (h : SetsAre d s) {k : κ} {v : ν}
    {x : PySet ν} (hx : d.get? k = some x)
    (hs' : ∀ k', valuesOf s' k' = if k = k' then (valuesOf s k').filter (· ≠ v) else valuesOf s k') :
    SetsAre (if (x.discard v).items.isEmpty then (d.set k (x.discard v)).erase k else d.set k (x.discard v)) s' := by
  intro k'
  rw [hs']
  have hxi := (h.some hx).1
  have hdi : (x.discard v).items = (valuesOf s k).filter (· ≠ v) := by rw [← hxi]; rfl
  by_cases e : k = k'
  · subst e
    simp only [if_true]
    split
    · next he =>
      rw [List.isEmpty_iff, hdi] at he
      rw [if_pos he]
      simp
    · next he =>
      rw [List.isEmpty_iff, hdi] at he
      simp only [Dict.get?_set, if_true, Option.map_some, hdi, he, if_false]
  · simp only [e, if_false]
    rw [← h k']
    split <;> simp [e]

/-- The object represents the relation. -/
structure OtmRep (m : OneToMany κ ν) (s : List (κ × ν)) : Prop where
  wf : m.WF
  nodup : (s.map (·.2)).Nodup
  sets : SetsAre m.k2v s
  owner : ∀ k v, m.v2k.get? v = some k ↔ (k, v) ∈ s

theorem OtmRep.keys {m : OneToMany κ ν} {s : List (κ × ν)} (h : OtmRep m s) (v : ν) :
    (m.v2k.get? v = none ∧ keysOf s v = []) ∨ ∃ k, m.v2k.get? v = some k ∧ keysOf s v = [k] := by
  have hu : ∀ k k', (k, v) ∈ s → (k', v) ∈ s → k = k' := by
    intro k k' h1 h2
    have := (h.owner k v).2 h1
    rw [(h.owner k' v).2 h2] at this
    cases this; rfl
  cases hv : m.v2k.get? v with
  | none =>
    left
    refine ⟨rfl, ?_⟩
    cases hk : keysOf s v with
    | nil => rfl
    | cons k l =>
      have : (k, v) ∈ s := mem_keysOf.1 (by rw [hk]; simp)
      rw [(h.owner k v).2 this] at hv; cases hv
  | some k =>
    right
    refine ⟨k, rfl, ?_⟩
    have hm := (h.owner k v).1 hv
    have hnd : (keysOf s v).Nodup := by
      have h2 : (s.filter fun p => p.2 = v).Pairwise (fun a b => a.2 ≠ b.2) :=
        (List.pairwise_map.1 h.nodup).filter _
      rw [keysOf, List.nodup_iff_pairwise_ne, List.pairwise_map]
      refine h2.imp_of_mem ?_
      rintro ⟨a, b⟩ ⟨c, d⟩ ha hb hne
      simp only [List.mem_filter, decide_eq_true_eq] at ha hb
      exact absurd (ha.2.trans hb.2.symm) hne
    cases hk : keysOf s v with
    | nil => have := mem_keysOf.2 hm; rw [hk] at this; simp at this
    | cons a l =>
      have ha : a = k := hu a k (mem_keysOf.1 (by rw [hk]; simp)) hm
      cases l with
      | nil => rw [ha]
      | cons b l =>
        have hb : b = k := hu b k (mem_keysOf.1 (by rw [hk]; simp)) hm
        rw [hk] at hnd
        simp [ha, hb] at hnd

theorem otmRep_empty : OtmRep (OneToMany.empty : OneToMany κ ν) [] :=
  ⟨OneToMany.wf_empty, by simp, fun k => rfl, by simp [OneToMany.empty]⟩

theorem hasKey_valuesOf {d : Dict κ (PySet ν)} {s : List (κ × ν)} (h : SetsAre d s) (k : κ) :
    d.has k = decide (valuesOf s k ≠ []) := by
  have := h.none k
  cases hk : d.get? k with
  | none => simp [Dict.has, hk, this.1 hk]
  | some x =>
    have : valuesOf s k ≠ [] := by
      intro e; rw [this.2 e] at hk; cases hk
    simp [Dict.has, hk, this]

theorem otmStep_refines {m : OneToMany κ ν} {s : List (κ × ν)} (h : OtmRep m s) (op : ROp κ ν) :
    OtmRep (otmStep m op).1 (oneToManyStep s op).1 ∧ (otmStep m op).2 = (oneToManyStep s op).2 := by
  cases op with
  | add k v =>
    rcases h.keys v with ⟨hv, hk⟩ | ⟨k', hv, hk⟩
    · obtain ⟨m', e, hw, ho⟩ := OneToMany.add_ok h.wf (k := k) (.inl hv)
      have heq := OneToMany.add_eq (m := m) (k := k) (.inl hv)
      rw [e] at heq
      have hnm : (k, v) ∉ s := by intro hm; rw [(h.owner k v).2 hm] at hv; cases hv
      simp only [otmStep, e, observe, oneToManyStep, hk, and_true]
      refine ⟨hw, ?_, ?_, ?_⟩
      · rw [List.map_append, List.nodup_append]
        refine ⟨h.nodup, by simp, ?_⟩
        intro a ha b hb
        simp only [List.map_cons, List.map_nil, List.mem_singleton] at hb
        subst hb
        rintro rfl
        obtain ⟨⟨k', v'⟩, hm, rfl⟩ := List.mem_map.1 ha
        rw [(h.owner k' v').2 hm] at hv; cases hv
      · have := setsAre_add h.sets k v (d' := m'.k2v) (by
          cases heq; exact OneToMany.addK2V_get k v)
        rw [if_neg hnm] at this
        exact this
      · intro k' v'
        rw [ho, List.mem_append, List.mem_singleton]
        by_cases ev : v = v'
        · subst ev
          simp only [if_true, Option.some.injEq, Prod.mk.injEq, and_true]
          constructor
          · intro e; exact .inr e.symm
          · rintro (hm | e)
            · rw [(h.owner k' v).2 hm] at hv; cases hv
            · exact e.symm
        · simp [ev, Ne.symm ev, h.owner]
    · by_cases ek : k' = k
      · subst ek
        obtain ⟨m', e, hw, ho⟩ := OneToMany.add_ok h.wf (k := k') (.inr hv)
        have heq := OneToMany.add_eq (m := m) (k := k') (.inr hv)
        rw [e] at heq
        have hm := (h.owner k' v).1 hv
        simp only [otmStep, e, observe, oneToManyStep, hk, if_true, and_true]
        refine ⟨hw, h.nodup, ?_, ?_⟩
        · have := setsAre_add h.sets k' v (d' := m'.k2v) (by
            cases heq; exact OneToMany.addK2V_get k' v)
          rw [if_pos hm] at this
          exact this
        · intro k2 v2
          rw [ho]
          split
          · next ev => subst ev; rw [← hv]; exact h.owner k2 v
          · exact h.owner k2 v2
      · simp only [otmStep, OneToMany.add_err hv ek, observe, oneToManyStep, hk, ek, if_false, and_true]
        exact h
  | hasKey k =>
    refine ⟨h, ?_⟩
    simp only [otmStep, oneToManyStep, OneToMany.hasKey, hasKey_valuesOf h.sets]
  | hasValue v =>
    refine ⟨h, ?_⟩
    simp only [otmStep, oneToManyStep, OneToMany.hasValue, RObs.bool.injEq]
    rcases h.keys v with ⟨hv, hk⟩ | ⟨k, hv, hk⟩ <;> simp [Dict.has, hv, hk]
  | getKey v =>
    rcases h.keys v with ⟨hv, hk⟩ | ⟨k, hv, hk⟩
    · simp only [otmStep, OneToMany.getKey_err hv, observe, oneToManyStep, hk, and_true]; exact h
    · simp only [otmStep, OneToMany.getKey_ok hv, observe, oneToManyStep, hk, and_true]; exact h
  | getValues k =>
    have hk := hasKey_valuesOf h.sets k
    by_cases hne : valuesOf s k = []
    · simp only [otmStep, oneToManyStep, OneToMany.getValues, hk, hne]
      simp only [ne_eq, not_true_eq_false, decide_false, Bool.not_false, raiseIf, if_true, Py.error_bind,
        observe, and_true]
      exact h
    · cases hx : m.k2v.get? k with
      | none => exact absurd ((h.sets.none k).1 hx) hne
      | some x =>
        have e : m.getValues k = .ok x := by
          simp [OneToMany.getValues, Dict.has, hx, raiseIf, Dict.getPy, orRaise]
        simp only [otmStep, oneToManyStep, e, hne, observe, if_false]
        exact ⟨h, congrArg _ (h.sets.some hx).1⟩
  | removeKey k =>
    by_cases hne : valuesOf s k = []
    · have : ∀ v, m.v2k.get? v ≠ some k := by
        intro v hv
        have := mem_valuesOf.2 ((h.owner k v).1 hv)
        rw [hne] at this; simp at this
      simp only [otmStep, OneToMany.removeKey_err h.wf this, observe, oneToManyStep, hne, if_true, and_true]
      exact h
    · obtain ⟨v, hv⟩ := List.exists_mem_of_ne_nil _ hne
      have hv' := (h.owner k v).2 (mem_valuesOf.1 hv)
      obtain ⟨x, m', e, hw, hx, hk2v, hmem, ho⟩ := OneToMany.removeKey_ok h.wf hv'
      simp only [otmStep, e, observe, oneToManyStep, hne, if_false]
      refine ⟨⟨hw, ?_, ?_, ?_⟩, congrArg _ (h.sets.some hx).1⟩
      · exact h.nodup.sublist (List.filter_sublist.map _)
      · rw [hk2v]; exact setsAre_erase h.sets k
      · intro k' v'
        rw [ho, List.mem_filter]
        split
        · next he =>
          have h1 := (h.owner k v').1 he
          simp only [reduceCtorEq, ne_eq, decide_not, Bool.not_eq_eq_eq_not, Bool.not_true, decide_eq_false_iff_not,
            false_iff, not_and, Decidable.not_not]
          intro h2
          rw [← h.owner, he] at h2
          cases h2; rfl
        · next he =>
          rw [h.owner]
          constructor
          · intro hm
            refine ⟨hm, ?_⟩
            simp only [ne_eq, decide_not, Bool.not_eq_eq_eq_not, Bool.not_true, decide_eq_false_iff_not]
            rintro rfl
            exact he ((h.owner _ _).2 hm)
          · exact fun hm => hm.1
  | removeValue k0 v =>
    rcases h.keys v with ⟨hv, hk⟩ | ⟨k, hv, hk⟩
    · simp only [otmStep, OneToMany.removeValue_err hv, observe, oneToManyStep, hk, and_true]; exact h
    · obtain ⟨m', e, hw, ho⟩ := OneToMany.removeValue_ok h.wf hv
      obtain ⟨x, hx, hvx, e'⟩ := OneToMany.removeValue_eq h.wf hv
      rw [e] at e'
      simp only [otmStep, e, observe, oneToManyStep, hk, and_true]
      refine ⟨hw, h.nodup.sublist (List.filter_sublist.map _), ?_, ?_⟩
      · cases e'
        refine setsAre_removeValue h.sets hx ?_
        intro k'
        rw [valuesOf_filter_value]
        split
        · rfl
        · next ek =>
          apply List.filter_eq_self.2
          intro v' hv'
          simp only [ne_eq, decide_not, Bool.not_eq_eq_eq_not, Bool.not_true, decide_eq_false_iff_not]
          rintro rfl
          have := (h.owner k' v').2 (mem_valuesOf.1 hv')
          rw [hv] at this
          cases this; exact ek rfl
      · intro k' v'
        rw [ho, List.mem_filter]
        by_cases ev : v = v'
        · simp [ev]
        · simp [ev, Ne.symm ev, h.owner]

/-- **C59.** For every sequence of operations on a new `OneToManyDict`, whatever the caller observes
is what a one-to-many relation gives: a value belongs to at most one key, the two lookups agree,
and keys without values do not exist. -/
theorem C59_one_to_many (ops : List (ROp κ ν)) :
    traceOf otmStep (OneToMany.empty : OneToMany κ ν) ops = traceOf oneToManyStep [] ops := by
  suffices ∀ (m : OneToMany κ ν) s, OtmRep m s → traceOf otmStep m ops = traceOf oneToManyStep s ops from
    this _ _ otmRep_empty
  induction ops with
  | nil => intros; rfl
  | cons op ops ih =>
    intro m s h
    obtain ⟨h1, h2⟩ := otmStep_refines h op
    simp only [traceOf, h2, ih _ _ h1]

example : traceOf otmStep (OneToMany.empty : OneToMany Nat Nat)
    [.add 1 10, .add 1 11, .add 2 20, .add 2 11, .add 1 10, .getKey 11, .getValues 1, .removeValue 0 10,
     .hasKey 1, .removeValue 0 11, .hasKey 1, .removeKey 2, .hasValue 20, .removeKey 2] =
    [.done, .done, .done, .raised .valueError, .done, .key 1, .values [10, 11], .key 1, .bool true, .key 1,
     .bool false, .values [20], .bool false, .raised .keyError] := by decide

/-- The object represents the relation. -/
structure KvsRep (m : KeyValueSet κ ν) (s : List (κ × ν)) : Prop where
  wf : m.WF
  sets : SetsAre m.k2v s

theorem KvsRep.rel {m : KeyValueSet κ ν} {s : List (κ × ν)} (h : KvsRep m s) (k : κ) (v : ν) :
    m.rel k v ↔ (k, v) ∈ s := by
  rw [← mem_valuesOf]
  constructor
  · rintro ⟨x, hx, hv⟩
    rw [← (h.sets.some hx).1]; exact hv
  · intro hv
    cases hx : m.k2v.get? k with
    | none => rw [(h.sets.none k).1 hx] at hv; simp at hv
    | some x => exact ⟨x, hx, by rw [← PySet.mem_items, (h.sets.some hx).1]; exact hv⟩

theorem kvsStep_refines {m : KeyValueSet κ ν} {s : List (κ × ν)} (h : KvsRep m s) (op : ROp κ ν) :
    KvsRep (kvsStep m op).1 (manyToManyStep s op).1 ∧ (kvsStep m op).2 = (manyToManyStep s op).2 := by
  cases op with
  | add k v =>
    refine ⟨⟨KeyValueSet.add_wf h.wf k v, ?_⟩, rfl⟩
    exact setsAre_add h.sets k v (KeyValueSet.add_get k v)
  | hasKey k =>
    refine ⟨h, ?_⟩
    simp only [kvsStep, manyToManyStep, KeyValueSet.hasKey, hasKey_valuesOf h.sets]
  | hasValue v => exact ⟨h, rfl⟩
  | getKey v => exact ⟨h, rfl⟩
  | getValues k =>
    have hk := hasKey_valuesOf h.sets k
    by_cases hne : valuesOf s k = []
    · simp only [kvsStep, manyToManyStep, KeyValueSet.getValues, hk, hne]
      simp only [ne_eq, not_true_eq_false, decide_false, Bool.not_false, raiseIf, if_true, Py.error_bind,
        observe, and_true]
      exact h
    · cases hx : m.k2v.get? k with
      | none => exact absurd ((h.sets.none k).1 hx) hne
      | some x =>
        have e : m.getValues k = .ok x := by
          simp [KeyValueSet.getValues, Dict.has, hx, raiseIf, Dict.getPy, orRaise]
        simp only [kvsStep, manyToManyStep, e, hne, observe, if_false]
        exact ⟨h, congrArg _ (h.sets.some hx).1⟩
  | removeKey k =>
    have hk := hasKey_valuesOf h.sets k
    by_cases hne : valuesOf s k = []
    · simp only [kvsStep, manyToManyStep, KeyValueSet.removeKey, hk, hne]
      simp only [ne_eq, not_true_eq_false, decide_false, Bool.not_false, raiseIf, if_true, Py.error_bind,
        observe, and_true]
      exact h
    · cases hx : m.k2v.get? k with
      | none => exact absurd ((h.sets.none k).1 hx) hne
      | some x =>
        have e : m.removeKey k = .ok (x, ⟨m.k2v.erase k⟩) := by
          simp [KeyValueSet.removeKey, Dict.has, hx, raiseIf, Dict.pop, Dict.getPy, orRaise]
        simp only [kvsStep, manyToManyStep, e, hne, observe, if_false]
        refine ⟨⟨?_, setsAre_erase h.sets k⟩, congrArg _ (h.sets.some hx).1⟩
        intro k' s' hs'
        have hs2 : (m.k2v.erase k).get? k' = some s' := hs'
        rw [Dict.get?_erase] at hs2
        split at hs2
        · cases hs2
        · exact h.wf k' s' hs2
  | removeValue k v =>
    have hr := h.rel k v
    by_cases hm : (k, v) ∈ s
    · obtain ⟨m', e, hw, _⟩ := KeyValueSet.removeValue_ok h.wf (hr.2 hm)
      obtain ⟨x, hx, hvx, e'⟩ := KeyValueSet.removeValue_eq (hr.2 hm)
      rw [e] at e'
      simp only [kvsStep, e, observe, manyToManyStep, hm, if_true, and_true]
      refine ⟨hw, ?_⟩
      cases e'
      exact setsAre_removeValue h.sets hx (valuesOf_filter_pair s k v)
    · simp only [kvsStep, KeyValueSet.removeValue_err (mt hr.1 hm), observe, manyToManyStep, hm, if_false, and_true]
      exact h

/-- **C60.** For every sequence of operations on a new `KeyValueDictSet`, whatever the caller observes
is what a finite relation gives; a key disappears with its last value. -/
theorem C60_key_value_set (ops : List (ROp κ ν)) :
    traceOf kvsStep (KeyValueSet.empty : KeyValueSet κ ν) ops = traceOf manyToManyStep [] ops := by
  suffices ∀ (m : KeyValueSet κ ν) s, KvsRep m s → traceOf kvsStep m ops = traceOf manyToManyStep s ops from
    this _ _ ⟨KeyValueSet.wf_empty, fun _ => rfl⟩
  induction ops with
  | nil => intros; rfl
  | cons op ops ih =>
    intro m s h
    obtain ⟨h1, h2⟩ := kvsStep_refines h op
    simp only [traceOf, h2, ih _ _ h1]

example : traceOf kvsStep (KeyValueSet.empty : KeyValueSet Nat Nat)
    [.add 1 10, .add 2 10, .add 1 11, .getValues 1, .removeValue 1 10, .removeValue 1 10, .hasKey 1,
     .removeValue 1 11, .hasKey 1, .removeValue 1 11, .removeKey 2, .getValues 2] =
    [.done, .done, .done, .values [10, 11], .done, .raised .keyError, .bool true, .done, .bool false,
     .raised .keyError, .values [10], .raised .valueError] := by decide

end Verif.Props
