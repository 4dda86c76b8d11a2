import Verif.Base.Py

/-!
# Python `dict` and `set`

`Dict` is an insertion-ordered association list without duplicate keys
(CPython `dict`, language reference 3.7+).  `PySet` is a duplicate-free list; no
model may depend on its order except through an explicit ordering input.
-/

set_option linter.unusedSectionVars false

namespace Verif

/-- Python `dict` with insertion order. -/
structure Dict (κ : Type) (ν : Type) where
  /-- items in insertion order -/
  items : List (κ × ν)
  nodup : (items.map (·.1)).Nodup
  deriving DecidableEq

namespace Dict
variable {κ ν : Type} [DecidableEq κ]

/-- `{}` -/
def empty : Dict κ ν := ⟨[], by simp⟩

instance : Inhabited (Dict κ ν) := ⟨empty⟩

/-- lookup in the raw list -/
def lget : List (κ × ν) → κ → Option ν
  | [], _ => none
  | (k, v) :: d, k' => if k = k' then some v else lget d k'

/-- assignment in the raw list: an existing key keeps its position -/
def lset : List (κ × ν) → κ → ν → List (κ × ν)
  | [], k, v => [(k, v)]
  | (k', v') :: d, k, v => if k' = k then (k, v) :: d else (k', v') :: lset d k v

/-- deletion in the raw list -/
def lerase (l : List (κ × ν)) (k : κ) : List (κ × ν) := l.filter fun p => p.1 ≠ k

theorem lset_keys (l : List (κ × ν)) (k : κ) (v : ν) :
    (lset l k v).map (·.1) = if k ∈ l.map (·.1) then l.map (·.1) else l.map (·.1) ++ [k] := by
  induction l with
  | nil => simp [lset]
  | cons p d ih =>
    obtain ⟨k', v'⟩ := p
    simp only [lset]
    by_cases h : k' = k
    · subst h; simp
    · simp only [h, if_false, List.map_cons, ih, List.mem_cons]
      have : ¬ k = k' := fun e => h e.symm
      by_cases h2 : k ∈ d.map (·.1) <;> simp_all

theorem lget_lset (l : List (κ × ν)) (k : κ) (v : ν) (k' : κ) :
    lget (lset l k v) k' = if k = k' then some v else lget l k' := by
  induction l with
  | nil => simp [lset, lget]
  | cons p d ih =>
    obtain ⟨k1, v1⟩ := p
    simp only [lset]
    split <;> simp only [lget, ih] <;> grind

theorem lget_lerase (l : List (κ × ν)) (k k' : κ) :
    lget (lerase l k) k' = if k = k' then none else lget l k' := by
  induction l with
  | nil => simp [lerase, lget]
  | cons p d ih =>
    obtain ⟨k1, v1⟩ := p
    simp only [lerase] at ih
    simp only [lerase, List.filter_cons]
    split <;> simp only [lget, ih] <;> grind

theorem lget_mem {l : List (κ × ν)} {k : κ} {v : ν} (h : lget l k = some v) : (k, v) ∈ l := by
  induction l with
  | nil => simp [lget] at h
  | cons p d ih =>
    obtain ⟨k1, v1⟩ := p
    simp only [lget] at h
    split at h
    · grind
    · exact List.mem_cons_of_mem _ (ih h)

theorem lget_of_mem {l : List (κ × ν)} (hn : (l.map (·.1)).Nodup) {k : κ} {v : ν}
    (h : (k, v) ∈ l) : lget l k = some v := by
  induction l with
  | nil => simp at h
  | cons p d ih =>
    obtain ⟨k1, v1⟩ := p
    simp only [List.map_cons, List.nodup_cons] at hn
    simp only [lget]
    rcases List.mem_cons.1 h with h | h
    · cases h; simp
    · have : k1 ≠ k := by
        rintro rfl; exact hn.1 (List.mem_map.2 ⟨_, h, rfl⟩)
      simp [this, ih hn.2 h]

/-- `d.get(k)` -/
def get? (d : Dict κ ν) (k : κ) : Option ν := lget d.items k

/-- `d[k] = v` -/
def set (d : Dict κ ν) (k : κ) (v : ν) : Dict κ ν :=
  ⟨lset d.items k v, by
    rw [lset_keys]
    split
    · exact d.nodup
    · exact List.nodup_append.2 ⟨d.nodup, by simp, by grind⟩⟩

/-- `d.pop(k, None)` (the dictionary part) -/
def erase (d : Dict κ ν) (k : κ) : Dict κ ν :=
  ⟨lerase d.items k, (List.filter_sublist.map _).nodup d.nodup⟩

/-- `k in d` -/
def has (d : Dict κ ν) (k : κ) : Bool := (d.get? k).isSome

/-- `list(d)` -/
def keys (d : Dict κ ν) : List κ := d.items.map (·.1)

/-- `list(d.values())` -/
def values (d : Dict κ ν) : List ν := d.items.map (·.2)

/-- `len(d)` -/
def size (d : Dict κ ν) : Nat := d.items.length

/-- `d[k]` -/
def getPy (d : Dict κ ν) (k : κ) : Py ν := orRaise (d.get? k) .keyError

/-- `d.pop(k)` -/
def pop (d : Dict κ ν) (k : κ) : Py (ν × Dict κ ν) := do
  let v ← d.getPy k
  return (v, d.erase k)

@[simp, grind =] theorem get?_empty (k : κ) : (empty : Dict κ ν).get? k = none := rfl

@[simp, grind =] theorem get?_set (d : Dict κ ν) (k : κ) (v : ν) (k' : κ) :
    (d.set k v).get? k' = if k = k' then some v else d.get? k' := lget_lset ..

@[simp, grind =] theorem get?_erase (d : Dict κ ν) (k k' : κ) :
    (d.erase k).get? k' = if k = k' then none else d.get? k' := lget_lerase ..

theorem mem_items {d : Dict κ ν} {k : κ} {v : ν} : (k, v) ∈ d.items ↔ d.get? k = some v :=
  ⟨lget_of_mem d.nodup, lget_mem⟩

theorem mem_keys {d : Dict κ ν} {k : κ} : k ∈ d.keys ↔ ∃ v, d.get? k = some v := by
  simp only [keys, List.mem_map]
  constructor
  · rintro ⟨⟨k', v⟩, h, rfl⟩; exact ⟨v, mem_items.1 h⟩
  · rintro ⟨v, h⟩; exact ⟨(k, v), mem_items.2 h, rfl⟩

@[grind =] theorem mem_keys_isSome {d : Dict κ ν} {k : κ} : k ∈ d.keys ↔ (d.get? k).isSome = true := by
  rw [mem_keys, Option.isSome_iff_exists]

theorem not_mem_keys {d : Dict κ ν} {k : κ} : k ∉ d.keys ↔ d.get? k = none := by
  rw [mem_keys_isSome]; simp

@[simp] theorem has_iff {d : Dict κ ν} {k : κ} : d.has k = true ↔ k ∈ d.keys := by
  rw [mem_keys_isSome, has]

@[grind =] theorem has_eq {d : Dict κ ν} {k : κ} : d.has k = (d.get? k).isSome := rfl

theorem nodup_keys (d : Dict κ ν) : d.keys.Nodup := d.nodup

theorem keys_set (d : Dict κ ν) (k : κ) (v : ν) :
    (d.set k v).keys = if k ∈ d.keys then d.keys else d.keys ++ [k] := lset_keys ..

theorem keys_set_new {d : Dict κ ν} {k : κ} (v : ν) (h : d.get? k = none) :
    (d.set k v).keys = d.keys ++ [k] := by
  rw [keys_set, if_neg (not_mem_keys.2 h)]

theorem keys_set_old {d : Dict κ ν} {k : κ} (v : ν) {v' : ν} (h : d.get? k = some v') :
    (d.set k v).keys = d.keys := by
  rw [keys_set, if_pos (mem_keys.2 ⟨_, h⟩)]

theorem keys_erase (d : Dict κ ν) (k : κ) : (d.erase k).keys = d.keys.filter (· ≠ k) := by
  simp [keys, erase, lerase, List.filter_map, Function.comp_def]

theorem lset_new (l : List (κ × ν)) (k : κ) (v : ν) (h : k ∉ l.map (·.1)) :
    lset l k v = l ++ [(k, v)] := by
  induction l with
  | nil => rfl
  | cons p d ih =>
    obtain ⟨k', v'⟩ := p
    simp only [List.map_cons, List.mem_cons, not_or] at h
    have : ¬ k' = k := fun e => h.1 e.symm
    simp [lset, this, ih h.2]

theorem items_set_new {d : Dict κ ν} {k : κ} (v : ν) (h : d.get? k = none) :
    (d.set k v).items = d.items ++ [(k, v)] :=
  lset_new _ _ _ (not_mem_keys.2 h)

theorem getPy_ok {d : Dict κ ν} {k : κ} {v : ν} : d.getPy k = .ok v ↔ d.get? k = some v := by
  simp [getPy]

theorem getPy_of_get? {d : Dict κ ν} {k : κ} {v : ν} (h : d.get? k = some v) :
    d.getPy k = .ok v := getPy_ok.2 h

theorem getPy_none {d : Dict κ ν} {k : κ} (h : d.get? k = none) :
    d.getPy k = .error .keyError := by simp [getPy, h, orRaise]

theorem pop_ok {d : Dict κ ν} {k : κ} {r : ν × Dict κ ν} :
    d.pop k = .ok r ↔ d.get? k = some r.1 ∧ r.2 = d.erase k := by
  unfold pop
  rw [Py.bind_ok]
  constructor
  · rintro ⟨v, h, h'⟩; cases h'; exact ⟨getPy_ok.1 h, rfl⟩
  · rintro ⟨h, h'⟩; exact ⟨r.1, getPy_ok.2 h, by simp [← h']⟩

theorem items_eq_nil {d : Dict κ ν} : d.items = [] ↔ ∀ k, d.get? k = none := by
  constructor
  · intro h k; simp [get?, h, lget]
  · intro h
    match hd : d.items with
    | [] => rfl
    | (k, v) :: _ =>
      have : d.get? k = some v := mem_items.1 (by rw [hd]; simp)
      rw [h k] at this; cases this

theorem size_set_new {d : Dict κ ν} {k : κ} (v : ν) (h : d.get? k = none) :
    (d.set k v).size = d.size + 1 := by
  simp [size, items_set_new v h]

theorem size_keys (d : Dict κ ν) : d.keys.length = d.size := by simp [keys, size]

/-- `dict(pairs)`: later pairs overwrite earlier ones. -/
def ofList (l : List (κ × ν)) : Dict κ ν := l.foldl (fun d p => d.set p.1 p.2) empty

theorem items_foldl_set (l : List (κ × ν)) (d : Dict κ ν)
    (h : (d.keys ++ l.map (·.1)).Nodup) :
    (l.foldl (fun d p => d.set p.1 p.2) d).items = d.items ++ l := by
  induction l generalizing d with
  | nil => simp
  | cons p l ih =>
    obtain ⟨k, v⟩ := p
    have hk : d.get? k = none := by
      apply not_mem_keys.1
      intro hk
      exact (List.nodup_append.1 h).2.2 k hk k (by simp) rfl
    rw [List.foldl_cons, ih, items_set_new v hk]
    · simp
    · rw [keys_set_new v hk]; simpa using h

theorem ofList_items {l : List (κ × ν)} (h : (l.map (·.1)).Nodup) : (ofList l).items = l := by
  rw [ofList, items_foldl_set]
  · rfl
  · simpa [keys, empty] using h

theorem ext_items {d d' : Dict κ ν} (h : d.items = d'.items) : d = d' := by
  cases d; cases d'; cases h; rfl

theorem ofList_self (d : Dict κ ν) : ofList d.items = d := ext_items (ofList_items d.nodup)

end Dict

/-- Python `set`; the order of `items` carries no meaning. -/
structure PySet (α : Type) where
  items : List α
  nodup : items.Nodup
  deriving DecidableEq

namespace PySet
variable {α : Type} [DecidableEq α]

/-- `set()` -/
def empty : PySet α := ⟨[], by simp⟩

instance : Inhabited (PySet α) := ⟨empty⟩

instance : Membership α (PySet α) := ⟨fun s a => a ∈ s.items⟩

instance (a : α) (s : PySet α) : Decidable (a ∈ s) := inferInstanceAs (Decidable (a ∈ s.items))

@[simp, grind =] theorem mem_items {a : α} {s : PySet α} : a ∈ s.items ↔ a ∈ s := Iff.rfl

/-- `s.add(a)` -/
def add (s : PySet α) (a : α) : PySet α :=
  if h : a ∈ s.items then s else ⟨s.items ++ [a], List.nodup_append.2 ⟨s.nodup, by simp, by grind⟩⟩

/-- `s.discard(a)` -/
def discard (s : PySet α) (a : α) : PySet α :=
  ⟨s.items.filter (· ≠ a), List.filter_sublist.nodup s.nodup⟩

/-- `s.remove(a)` -/
def remove (s : PySet α) (a : α) : Py (PySet α) :=
  if a ∈ s then .ok (s.discard a) else .error .keyError

/-- `len(s)` -/
def size (s : PySet α) : Nat := s.items.length

/-- `{a}` -/
def singleton (a : α) : PySet α := ⟨[a], by simp⟩

/-- `set(l)` -/
def ofList (l : List α) : PySet α := l.foldl add empty

@[simp, grind =] theorem mem_empty (a : α) : a ∈ (empty : PySet α) ↔ False := by
  show a ∈ [] ↔ False
  simp

@[simp, grind =] theorem mem_singleton (a b : α) : a ∈ singleton b ↔ a = b := by
  show a ∈ [b] ↔ _
  simp

@[simp, grind =] theorem mem_add (s : PySet α) (a b : α) : a ∈ s.add b ↔ a ∈ s ∨ a = b := by
  unfold add
  split
  · next h => constructor
              · exact Or.inl
              · rintro (h' | rfl)
                · exact h'
                · exact h
  · show a ∈ s.items ++ [b] ↔ _
    simp

@[simp, grind =] theorem mem_discard (s : PySet α) (a b : α) : a ∈ s.discard b ↔ a ∈ s ∧ a ≠ b := by
  show a ∈ s.items.filter _ ↔ _
  simp

theorem remove_ok {s s' : PySet α} {a : α} : s.remove a = .ok s' ↔ a ∈ s ∧ s' = s.discard a := by
  unfold remove; split <;> simp_all [eq_comm]

theorem size_eq_zero {s : PySet α} : s.size = 0 ↔ ∀ a, a ∉ s := by
  obtain ⟨l, h⟩ := s
  show l.length = 0 ↔ ∀ a, a ∉ l
  cases l <;> simp
  case cons a l => exact ⟨a, by simp⟩

theorem size_add_new {s : PySet α} {a : α} (h : a ∉ s) : (s.add a).size = s.size + 1 := by
  have : ¬ a ∈ s.items := h
  simp [add, size, this]

theorem filter_ne_length {l : List α} (hn : l.Nodup) {a : α} (h : a ∈ l) :
    (l.filter (· ≠ a)).length + 1 = l.length := by
  induction l with
  | nil => simp at h
  | cons b l ih =>
    rw [List.nodup_cons] at hn
    rcases List.mem_cons.1 h with rfl | h
    · have : l.filter (· ≠ a) = l := by
        apply List.filter_eq_self.2
        intro c hc
        have : c ≠ a := fun e => hn.1 (e ▸ hc)
        simp [this]
      simp_all
    · have hb : b ≠ a := fun e => hn.1 (e ▸ h)
      simp only [List.filter_cons]
      rw [if_pos (by simp [hb])]
      have := ih hn.2 h
      simp only [List.length_cons]; omega

theorem size_discard {s : PySet α} {a : α} (h : a ∈ s) : (s.discard a).size + 1 = s.size :=
  filter_ne_length s.nodup h

theorem mem_foldl_add (l : List α) (s : PySet α) (a : α) :
    a ∈ l.foldl add s ↔ a ∈ s ∨ a ∈ l := by
  induction l generalizing s with
  | nil => simp
  | cons b l ih => simp [ih, or_assoc]

@[simp] theorem mem_ofList (l : List α) (a : α) : a ∈ ofList l ↔ a ∈ l := by
  simp [ofList, mem_foldl_add]

theorem items_foldl_add (l : List α) (s : PySet α) (h : (s.items ++ l).Nodup) :
    (l.foldl add s).items = s.items ++ l := by
  induction l generalizing s with
  | nil => simp
  | cons b l ih =>
    have hb : b ∉ s.items := by
      intro hb
      have := (List.nodup_append.1 h).2.2 b hb b (by simp)
      exact this rfl
    have hs : (s.add b).items = s.items ++ [b] := by simp [add, hb]
    rw [List.foldl_cons, ih, hs]
    · simp
    · rw [hs]; simpa using h

theorem ext_items {s s' : PySet α} (h : s.items = s'.items) : s = s' := by
  cases s; cases s'; cases h; rfl

theorem ofList_items {l : List α} (h : l.Nodup) : (ofList l).items = l := by
  rw [ofList, items_foldl_add]
  · rfl
  · simpa [empty] using h

end PySet

end Verif
