import Verif.Base.Dict

/-!
# `scaled/utility/one_to_many_dict.py` and `scaled/utility/key_value_set.py`
-/

set_option linter.unusedSectionVars false

namespace Verif.Util

/-- `OneToManyDict`, one_to_many_dict.py 10-13 -/
structure OneToMany (κ ν : Type) where
  /-- `_key_to_value_set` -/
  k2v : Dict κ (PySet ν)
  /-- `_value_to_key` -/
  v2k : Dict ν κ
  deriving DecidableEq

namespace OneToMany
variable {κ ν : Type} [DecidableEq κ] [DecidableEq ν]

/-- 11-13 (scaled/utility/one_to_many_dict.py) -/
def empty : OneToMany κ ν := ⟨Dict.empty, Dict.empty⟩

instance : Inhabited (OneToMany κ ν) := ⟨empty⟩

/-- `add`, 27-36; the condition of 28 reads the dictionary only if the value is present (scaled/utility/one_to_many_dict.py). -/
def add (m : OneToMany κ ν) (k : κ) (v : ν) : Py (OneToMany κ ν) := do
  raiseIf (m.v2k.has v && decide (m.v2k.get? v ≠ some k)) .valueError
  let v2k := m.v2k.set v k
  let k2v := if m.k2v.has k then m.k2v else m.k2v.set k PySet.empty
  let s ← k2v.getPy k
  return ⟨k2v.set k (s.add v), v2k⟩

/-- `has_key`, 38-39, and `__contains__`, 15-16 (scaled/utility/one_to_many_dict.py) -/
def hasKey (m : OneToMany κ ν) (k : κ) : Bool := m.k2v.has k

/-- `has_value`, 41-42 (scaled/utility/one_to_many_dict.py) -/
def hasValue (m : OneToMany κ ν) (v : ν) : Bool := m.v2k.has v

/-- `get_key`, 44-48 (scaled/utility/one_to_many_dict.py) -/
def getKey (m : OneToMany κ ν) (v : ν) : Py κ := do
  raiseIf (!m.v2k.has v) .valueError
  m.v2k.getPy v

/-- `get_values`, 50-54; the code returns the set object itself, the callers only read it (scaled/utility/one_to_many_dict.py). -/
def getValues (m : OneToMany κ ν) (k : κ) : Py (PySet ν) := do
  raiseIf (!m.k2v.has k) .valueError
  m.k2v.getPy k

/-- The loop of 61-62 (scaled/utility/one_to_many_dict.py). -/
def popAll (d : Dict ν κ) : List ν → Py (Dict ν κ)
  | [] => .ok d
  | v :: vs => do
    let (_, d) ← d.pop v
    popAll d vs

/-- `remove_key`, 56-64 (scaled/utility/one_to_many_dict.py) -/
def removeKey (m : OneToMany κ ν) (k : κ) : Py (PySet ν × OneToMany κ ν) := do
  raiseIf (!m.k2v.has k) .keyError
  let (vs, k2v) ← m.k2v.pop k
  let v2k ← popAll m.v2k vs.items
  return (vs, ⟨k2v, v2k⟩)

/-- `remove_value`, 66-75 (scaled/utility/one_to_many_dict.py) -/
def removeValue (m : OneToMany κ ν) (v : ν) : Py (κ × OneToMany κ ν) := do
  raiseIf (!m.v2k.has v) .valueError
  let (k, v2k) ← m.v2k.pop v
  let s ← m.k2v.getPy k
  let s ← s.remove v
  let k2v := m.k2v.set k s
  let k2v := if s.items.isEmpty then k2v.erase k else k2v
  return (k, ⟨k2v, v2k⟩)

end OneToMany

/-- `KeyValueDictSet`, key_value_set.py 10-12 -/
structure KeyValueSet (κ ν : Type) where
  /-- `_key_to_value_set` -/
  k2v : Dict κ (PySet ν)
  deriving DecidableEq

namespace KeyValueSet
variable {κ ν : Type} [DecidableEq κ] [DecidableEq ν]

/-- 11-12 (scaled/utility/key_value_set.py) -/
def empty : KeyValueSet κ ν := ⟨Dict.empty⟩

instance : Inhabited (KeyValueSet κ ν) := ⟨empty⟩

/-- `__contains__`, 14-15 (scaled/utility/key_value_set.py) -/
def hasKey (m : KeyValueSet κ ν) (k : κ) : Bool := m.k2v.has k

/-- `add`, 26-30 (scaled/utility/key_value_set.py) -/
def add (m : KeyValueSet κ ν) (k : κ) (v : ν) : KeyValueSet κ ν :=
  let k2v := if m.k2v.has k then m.k2v else m.k2v.set k PySet.empty
  ⟨k2v.set k (((k2v.get? k).getD PySet.empty).add v)⟩

/-- `get_values`, 32-36 (scaled/utility/key_value_set.py) -/
def getValues (m : KeyValueSet κ ν) (k : κ) : Py (PySet ν) := do
  raiseIf (!m.k2v.has k) .valueError
  m.k2v.getPy k

/-- `remove_key`, 38-43 (scaled/utility/key_value_set.py) -/
def removeKey (m : KeyValueSet κ ν) (k : κ) : Py (PySet ν × KeyValueSet κ ν) := do
  raiseIf (!m.k2v.has k) .keyError
  let (vs, k2v) ← m.k2v.pop k
  return (vs, ⟨k2v⟩)

/-- `remove_value`, 45-51 (scaled/utility/key_value_set.py) -/
def removeValue (m : KeyValueSet κ ν) (k : κ) (v : ν) : Py (KeyValueSet κ ν) := do
  raiseIf (!m.k2v.has k) .keyError
  let s ← m.k2v.getPy k
  let s ← s.remove v
  let k2v := m.k2v.set k s
  return ⟨if s.items.isEmpty then k2v.erase k else k2v⟩

end KeyValueSet

end Verif.Util
