import Verif.Props.Relation
import Verif.Util.OneToManyObject

/-!
# C59, C60: an operation that raises leaves the dictionary of sets as it was

The operations of `Util/OneToManyObject` keep what was assigned before an exception.
-/

set_option linter.unusedSectionVars false

namespace Verif.Props

open Verif.Util Verif.Spec

variable {κ ν : Type} [DecidableEq κ] [DecidableEq ν]

theorem doing_otm_add {m m' : OneToMany κ ν} {k : κ} {v : ν} (h : m.add k v = .ok m') :
    OneToMany.Object.add k v m = (.ok (), m') := by
  obtain ⟨_, hc, h⟩ := Py.bind_ok.1 h
  obtain ⟨s, hs, h⟩ := Py.bind_ok.1 h
  cases h
  rw [raiseIf_ok] at hc
  cases hk : m.k2v.has k with
  | true =>
    simp only [hk, if_true] at hs
    simp only [OneToMany.Object.add, doing_bind, Doing.self, hc, hk, Doing.assign, Doing.eval, if_true,
      Bool.false_eq_true, if_false, hs]
  | false =>
    simp only [hk, if_false, Bool.false_eq_true] at hs
    simp only [OneToMany.Object.add, doing_bind, Doing.self, hc, hk, Doing.assign, Doing.eval,
      Bool.false_eq_true, if_false, hs]

theorem doing_otm_popAll {m : OneToMany κ ν} {d : Dict ν κ} {vs : List ν} (h : OneToMany.popAll m.v2k vs = .ok d) :
    OneToMany.Object.popAll vs m = (.ok (), { m with v2k := d }) := by
  induction vs generalizing m with
  | nil => cases h; rfl
  | cons v vs ih =>
    obtain ⟨⟨_, d'⟩, hp, h⟩ := Py.bind_ok.1 h
    have := ih (m := { m with v2k := d' }) h
    simp only [OneToMany.Object.popAll, doing_bind, Doing.self, Doing.eval, hp, Doing.assign, this]

theorem doing_otm_removeKey {m m' : OneToMany κ ν} {k : κ} {vs : PySet ν} (h : m.removeKey k = .ok (vs, m')) :
    OneToMany.Object.removeKey k m = (.ok vs, m') := by
  obtain ⟨_, hc, h⟩ := Py.bind_ok.1 h
  obtain ⟨⟨ws, d⟩, hp, h⟩ := Py.bind_ok.1 h
  obtain ⟨d', hd, h⟩ := Py.bind_ok.1 h
  cases h
  rw [raiseIf_ok] at hc
  have hc : m.k2v.has k = true := by simpa using hc
  have := doing_otm_popAll (m := { m with k2v := d }) hd
  simp only [OneToMany.Object.removeKey, doing_bind, doing_pure, Doing.self, hc, Doing.assign, Doing.eval, if_true, hp,
    this]

theorem doing_otm_removeValue {m m' : OneToMany κ ν} {k : κ} {v : ν} (h : m.removeValue v = .ok (k, m')) :
    OneToMany.Object.removeValue v m = (.ok k, m') := by
  obtain ⟨_, hc, h⟩ := Py.bind_ok.1 h
  obtain ⟨⟨ws, d⟩, hp, h⟩ := Py.bind_ok.1 h
  obtain ⟨s, hs, h⟩ := Py.bind_ok.1 h
  obtain ⟨s', hs', h⟩ := Py.bind_ok.1 h
  cases h
  rw [raiseIf_ok] at hc
  have hc : m.v2k.has v = true := by simpa using hc
  cases he : s'.items.isEmpty <;>
  simp only [OneToMany.Object.removeValue, doing_bind, doing_pure, Doing.self, hc, Doing.assign, Doing.eval, if_true, hp,
    hs, hs', he, Bool.false_eq_true, if_false]

/-- One call on the object: what the caller observes, and the object afterwards. -/
def seen {σ α : Type} (x : Py α × σ) (f : α → RObs κ ν) : σ × RObs κ ν :=
  match x with
  | (.ok a, s) => (s, f a)
  | (.error e, s) => (s, .raised e)

/-- One call on a `OneToManyDict`. -/
def otmObjectStep (m : OneToMany κ ν) : ROp κ ν → OneToMany κ ν × RObs κ ν
  | .add k v => seen (OneToMany.Object.add k v m) fun _ => .done
  | .hasKey k => (m, .bool (m.hasKey k))
  | .hasValue v => (m, .bool (m.hasValue v))
  | .getKey v => seen (m.getKey v, m) .key
  | .getValues k => seen (m.getValues k, m) fun s => .values s.items
  | .removeKey k => seen (OneToMany.Object.removeKey k m) fun s => .values s.items
  | .removeValue _ v => seen (OneToMany.Object.removeValue v m) .key

theorem otmObjectStep_eq {m : OneToMany κ ν} {s : List (κ × ν)} (h : OtmRep m s) (op : ROp κ ν) :
    otmObjectStep m op = otmStep m op := by
  cases op with
  | add k v =>
    rcases h.keys v with ⟨hv, _⟩ | ⟨k', hv, _⟩
    · obtain ⟨m', e, _⟩ := OneToMany.add_ok h.wf (k := k) (.inl hv)
      simp only [otmObjectStep, otmStep, observe, seen, e, doing_otm_add e]
    · by_cases hk : k' = k
      · obtain ⟨m', e, _⟩ := OneToMany.add_ok h.wf (k := k) (.inr (hk ▸ hv))
        simp only [otmObjectStep, otmStep, observe, seen, e, doing_otm_add e]
      · have hc : (m.v2k.has v && decide (m.v2k.get? v ≠ some k)) = true := by
          simp [hv, hk, Dict.has]
        simp only [otmObjectStep, otmStep, observe, seen, OneToMany.add_err hv hk, OneToMany.Object.add, doing_bind,
          Doing.self, hc, if_true, Doing.fail]
  | hasKey k => rfl
  | hasValue v => rfl
  | getKey v => cases e : m.getKey v <;> simp only [otmObjectStep, otmStep, observe, seen, e]
  | getValues k => cases e : m.getValues k <;> simp only [otmObjectStep, otmStep, observe, seen, e]
  | removeKey k =>
    cases e : m.removeKey k with
    | ok r => simp only [otmObjectStep, otmStep, observe, seen, e, doing_otm_removeKey (vs := r.1) (m' := r.2) e]
    | error x =>
      cases hk : m.k2v.has k with
      | false =>
        simp only [otmObjectStep, otmStep, observe, seen, OneToMany.Object.removeKey, doing_bind, Doing.self, hk,
          Bool.false_eq_true, if_false, Doing.fail, e]
        simp only [OneToMany.removeKey, hk, raiseIf, Bool.not_false, if_true] at e
        cases e; rfl
      | true =>
        obtain ⟨v, hv⟩ := (OneToMany.hasKey_iff h.wf k).1 hk
        obtain ⟨r, e', _⟩ := OneToMany.removeKey_ok h.wf hv
        simp_all
  | removeValue j v =>
    cases hv : m.v2k.get? v with
    | none =>
      have hc : m.v2k.has v = false := by simp [Dict.has, hv]
      simp only [otmObjectStep, otmStep, observe, seen, OneToMany.removeValue_err hv, OneToMany.Object.removeValue,
        doing_bind, Doing.self, hc, Bool.false_eq_true, if_false, Doing.fail]
    | some k =>
      obtain ⟨r, e, _⟩ := OneToMany.removeValue_ok h.wf hv
      simp only [otmObjectStep, otmStep, observe, seen, e, doing_otm_removeValue e]

/-- Every state that a `OneToManyDict` can be in represents a relation. -/
theorem otmRep_run (ops : List (ROp κ ν)) :
    ∃ s, OtmRep (ops.foldl (fun m op => (otmObjectStep m op).1) (OneToMany.empty : OneToMany κ ν)) s := by
  suffices ∀ (m : OneToMany κ ν) s, OtmRep m s →
      ∃ s', OtmRep (ops.foldl (fun m op => (otmObjectStep m op).1) m) s' from this _ _ otmRep_empty
  induction ops with
  | nil => intro m s h; exact ⟨s, h⟩
  | cons op ops ih =>
    intro m s h
    have := (otmStep_refines h op).1
    rw [← otmObjectStep_eq h op] at this
    exact ih _ _ this

/-- **C59 (b).** After any operations on a new `OneToManyDict`, an operation that raises leaves the object as it was:
both dictionaries, with what was assigned before the exception kept. -/
theorem C59_unchanged (ops : List (ROp κ ν)) (m : OneToMany κ ν)
    (hm : m = ops.foldl (fun m op => (otmObjectStep m op).1) OneToMany.empty) (op : ROp κ ν) (e : PyErr)
    (h : (otmObjectStep m op).2 = .raised e) : (otmObjectStep m op).1 = m := by
  obtain ⟨s, hs⟩ := otmRep_run ops
  rw [← hm] at hs
  rw [otmObjectStep_eq hs op] at h ⊢
  cases op with
  | hasKey | hasValue => rfl
  | add | getKey | getValues | removeKey | removeValue =>
    simp only [otmStep, observe] at h ⊢
    split at h <;> simp_all

/-- **C59 (c).** For every sequence of calls on a new `OneToManyDict`, calls that raise among them, the caller observes
what a one-to-many relation gives. -/
theorem C59_object (ops : List (ROp κ ν)) :
    traceOf otmObjectStep (OneToMany.empty : OneToMany κ ν) ops = traceOf oneToManyStep [] ops := by
  suffices ∀ (m : OneToMany κ ν) s, OtmRep m s → traceOf otmObjectStep m ops = traceOf oneToManyStep s ops from
    this _ _ otmRep_empty
  induction ops with
  | nil => intros; rfl
  | cons op ops ih =>
    intro m s h
    obtain ⟨h1, h2⟩ := otmStep_refines h op
    simp only [traceOf, otmObjectStep_eq h, h2, ih _ _ h1]

/-- **C59 (d).** After any operations the views agree with the lookups: the keys are those that `has_key` knows, and an
entry of `items` is what `get_values` gives; no two entries have the same key. -/
theorem C59_views (ops : List (ROp κ ν)) (m : OneToMany κ ν)
    (hm : m = ops.foldl (fun m op => (otmObjectStep m op).1) OneToMany.empty) :
    (∀ k, k ∈ m.keys ↔ m.hasKey k = true) ∧ m.keys.Nodup ∧ m.items.map (·.1) = m.keys ∧
    (∀ k s, (k, s) ∈ m.items ↔ m.getValues k = .ok s) ∧ (∀ k s, (k, s) ∈ m.items → s.items ≠ []) ∧
    (∀ k v, (∃ s, (k, s) ∈ m.items ∧ v ∈ s) ↔ m.getKey v = .ok k) := by
  obtain ⟨l, hl⟩ := otmRep_run (κ := κ) (ν := ν) ops
  rw [← hm] at hl
  have hg : ∀ k s, (k, s) ∈ m.items ↔ m.k2v.get? k = some s := fun k s => Dict.mem_items
  refine ⟨fun k => Dict.has_iff.symm, m.k2v.nodup_keys, rfl, fun k s => ?_, fun k s h => ?_, fun k v => ?_⟩
  · rw [hg, show m.getValues k = (raiseIf (!m.k2v.has k) .valueError >>= fun _ => m.k2v.getPy k) from rfl, Py.bind_ok]
    constructor
    · intro h
      have hk : m.k2v.has k = true := Dict.has_iff.2 (Dict.mem_keys.2 ⟨s, h⟩)
      exact ⟨(), by simp [hk, raiseIf], by simp [Dict.getPy, h]⟩
    · rintro ⟨_, _, h⟩
      simpa [Dict.getPy] using h
  · have := hl.sets.some ((hg k s).1 h)
    rw [this.1]; exact this.2
  · have ho : m.getKey v = .ok k ↔ m.v2k.get? v = some k := by
      cases hv : m.v2k.get? v with
      | none => simp [OneToMany.getKey_err hv]
      | some k' => simp [OneToMany.getKey_ok hv]
    rw [ho, hl.owner, ← mem_valuesOf]
    constructor
    · rintro ⟨s, hs, hv⟩
      rw [← (hl.sets.some ((hg k s).1 hs)).1]
      exact hv
    · intro h
      cases hk : m.k2v.get? k with
      | none => rw [(hl.sets.none k).1 hk] at h; simp at h
      | some s => exact ⟨s, (hg k s).2 hk, by rw [← (hl.sets.some hk).1] at h; exact h⟩

theorem doing_kvs_add (m : KeyValueSet κ ν) (k : κ) (v : ν) :
    KeyValueSet.Object.add k v m = (.ok (), m.add k v) := by
  cases hk : m.k2v.has k with
  | true =>
    obtain ⟨s, hs⟩ := Option.isSome_iff_exists.1 (show (m.k2v.get? k).isSome = true by simpa [Dict.has] using hk)
    simp only [KeyValueSet.Object.add, KeyValueSet.add, doing_bind, Doing.self, hk, Doing.assign, Doing.eval, if_true,
      Dict.getPy, hs, orRaise, Option.getD_some]
  | false =>
    simp only [KeyValueSet.Object.add, KeyValueSet.add, doing_bind, Doing.self, hk, Doing.assign, Doing.eval, if_true,
      Bool.false_eq_true, if_false, Dict.getPy, Dict.get?_set, orRaise, Option.getD_some]

theorem doing_kvs_removeKey {m : KeyValueSet κ ν} {k : κ} :
    KeyValueSet.Object.removeKey k m = (match m.removeKey k with
      | .ok (vs, m') => (.ok vs, m')
      | .error e => (.error e, m)) := by
  cases hk : m.k2v.has k with
  | false =>
    simp only [KeyValueSet.Object.removeKey, KeyValueSet.removeKey, doing_bind, Doing.self, hk, Bool.false_eq_true,
      if_false, Doing.fail, raiseIf, Bool.not_false, if_true]
    rfl
  | true =>
    cases hp : m.k2v.pop k with
    | error e =>
      simp only [KeyValueSet.Object.removeKey, KeyValueSet.removeKey, doing_bind, Doing.self, hk, Bool.false_eq_true,
        if_false, raiseIf, Bool.not_true, if_true, Doing.eval, hp]
      rfl
    | ok r =>
      simp only [KeyValueSet.Object.removeKey, KeyValueSet.removeKey, doing_bind, doing_pure, Doing.self, hk,
        Bool.false_eq_true, if_false, raiseIf, Bool.not_true, if_true, Doing.eval, hp, Doing.assign]
      rfl

theorem doing_kvs_removeValue {m : KeyValueSet κ ν} {k : κ} {v : ν} :
    KeyValueSet.Object.removeValue k v m = (match m.removeValue k v with
      | .ok m' => (.ok (), m')
      | .error e => (.error e, m)) := by
  cases hk : m.k2v.has k with
  | false =>
    simp only [KeyValueSet.Object.removeValue, KeyValueSet.removeValue, doing_bind, Doing.self, hk, Bool.false_eq_true,
      if_false, Doing.fail, raiseIf, Bool.not_false, if_true]
    rfl
  | true =>
    cases hg : m.k2v.getPy k with
    | error e =>
      simp only [KeyValueSet.Object.removeValue, KeyValueSet.removeValue, doing_bind, Doing.self, hk, Bool.false_eq_true,
        if_false, raiseIf, Bool.not_true, if_true, Doing.eval, hg]
      rfl
    | ok s =>
      cases hr : s.remove v with
      | error e =>
        simp only [KeyValueSet.Object.removeValue, KeyValueSet.removeValue, doing_bind, Doing.self, hk,
          Bool.false_eq_true, if_false, raiseIf, Bool.not_true, if_true, Doing.eval, hg]
        simp only [hr, Bind.bind, Except.bind]
      | ok s' =>
        cases he : s'.items.isEmpty <;>
        simp only [KeyValueSet.Object.removeValue, KeyValueSet.removeValue, doing_bind, Doing.self, hk,
          Bool.false_eq_true, if_false, raiseIf, Bool.not_true, if_true, Doing.eval, hg, Doing.assign] <;>
        simp only [hr, Bind.bind, Except.bind, he] <;> rfl

/-- One call on a `KeyValueDictSet`. -/
def kvsObjectStep (m : KeyValueSet κ ν) : ROp κ ν → KeyValueSet κ ν × RObs κ ν
  | .add k v => seen (KeyValueSet.Object.add k v m) fun _ => .done
  | .hasKey k => (m, .bool (m.hasKey k))
  | .hasValue _ | .getKey _ => (m, .done)
  | .getValues k => seen (m.getValues k, m) fun s => .values s.items
  | .removeKey k => seen (KeyValueSet.Object.removeKey k m) fun s => .values s.items
  | .removeValue k v => seen (KeyValueSet.Object.removeValue k v m) fun _ => .done

theorem kvsObjectStep_eq (m : KeyValueSet κ ν) (op : ROp κ ν) : kvsObjectStep m op = kvsStep m op := by
  cases op with
  | add k v => simp only [kvsObjectStep, kvsStep, seen, doing_kvs_add]
  | hasKey k => rfl
  | hasValue v => rfl
  | getKey v => rfl
  | getValues k => cases e : m.getValues k <;> simp only [kvsObjectStep, kvsStep, observe, seen, e]
  | removeKey k => cases e : m.removeKey k <;> simp only [kvsObjectStep, kvsStep, observe, seen, doing_kvs_removeKey, e]
  | removeValue k v =>
    cases e : m.removeValue k v <;> simp only [kvsObjectStep, kvsStep, observe, seen, doing_kvs_removeValue, e]

/-- **C60 (b).** An operation of a `KeyValueDictSet` that raises leaves the object as it was, whatever it holds. -/
theorem C60_unchanged (m : KeyValueSet κ ν) (op : ROp κ ν) (e : PyErr)
    (h : (kvsObjectStep m op).2 = .raised e) : (kvsObjectStep m op).1 = m := by
  rw [kvsObjectStep_eq] at h ⊢
  cases op with
  | hasKey | hasValue | getKey => rfl
  | add => simp [kvsStep] at h
  | getValues | removeKey | removeValue =>
    simp only [kvsStep, observe] at h ⊢
    split at h <;> simp_all

/-- **C60 (c).** For every sequence of calls on a new `KeyValueDictSet`, calls that raise among them, the caller observes
what a finite relation gives. -/
theorem C60_object (ops : List (ROp κ ν)) :
    traceOf kvsObjectStep (KeyValueSet.empty : KeyValueSet κ ν) ops = traceOf manyToManyStep [] ops := by
  have : (kvsObjectStep : KeyValueSet κ ν → _) = kvsStep := by funext m op; exact kvsObjectStep_eq m op
  rw [this]
  exact C60_key_value_set ops

/-- **C60 (d).** The views of a `KeyValueDictSet` agree with its lookups, whatever it holds. -/
theorem C60_views (m : KeyValueSet κ ν) :
    (∀ k, k ∈ m.keys ↔ m.hasKey k = true) ∧ m.keys.Nodup ∧ m.items.map (·.1) = m.keys ∧
    (∀ k s, (k, s) ∈ m.items ↔ m.getValues k = .ok s) := by
  refine ⟨fun k => Dict.has_iff.symm, m.k2v.nodup_keys, rfl, fun k s => ?_⟩
  rw [show (k, s) ∈ m.items ↔ m.k2v.get? k = some s from Dict.mem_items,
    show m.getValues k = (raiseIf (!m.k2v.has k) .valueError >>= fun _ => m.k2v.getPy k) from rfl, Py.bind_ok]
  constructor
  · intro h
    have hk : m.k2v.has k = true := Dict.has_iff.2 (Dict.mem_keys.2 ⟨s, h⟩)
    exact ⟨(), by simp [hk, raiseIf], by simp [Dict.getPy, h]⟩
  · rintro ⟨_, _, h⟩
    simpa [Dict.getPy] using h

example : traceOf otmObjectStep (OneToMany.empty : OneToMany Nat Nat)
    [.add 1 10, .add 1 11, .add 2 11, .getValues 1, .removeKey 3, .removeValue 0 12, .hasKey 2, .removeKey 1, .hasValue 10] =
    [.done, .done, .raised .valueError, .values [10, 11], .raised .keyError, .raised .valueError, .bool false,
     .values [10, 11], .bool false] := by decide

example : traceOf kvsObjectStep (KeyValueSet.empty : KeyValueSet Nat Nat)
    [.add 1 10, .removeValue 1 11, .getValues 1, .removeValue 1 10, .removeValue 1 10, .hasKey 1, .getValues 1] =
    [.done, .raised .keyError, .values [10], .done, .raised .keyError, .bool false, .raised .valueError] := by decide

end Verif.Props
