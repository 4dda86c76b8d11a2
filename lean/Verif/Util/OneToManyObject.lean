import Verif.Base.Object
import Verif.Util.OneToMany

/-!
# The two dictionaries of sets as objects

`scaled/utility/one_to_many_dict.py` 27-75 and `scaled/utility/key_value_set.py` 26-51 once more, one assignment after the
other: what was assigned before an exception stays (`Base/Object`).
-/

namespace Verif.Util

variable {κ ν : Type} [DecidableEq κ] [DecidableEq ν]

namespace OneToMany

/-- `keys`, 18-19 (scaled/utility/one_to_many_dict.py); the view is not kept by a caller. -/
def keys (m : OneToMany κ ν) : List κ := m.k2v.keys

/-- `items`, 24-25, and `values`, 21-22, which are the second halves (scaled/utility/one_to_many_dict.py); the view is not
kept by a caller. -/
def items (m : OneToMany κ ν) : List (κ × PySet ν) := m.k2v.items

end OneToMany

namespace OneToMany.Object

open Doing

/-- `add`, one_to_many_dict.py 27-36 -/
def add (k : κ) (v : ν) : Doing (OneToMany κ ν) Unit := do
  let m ← self
  if m.v2k.has v && decide (m.v2k.get? v ≠ some k) then fail .valueError
  else
    assign fun m => { m with v2k := m.v2k.set v k }
    if m.k2v.has k then pure () else assign fun m => { m with k2v := m.k2v.set k PySet.empty }
    let m ← self
    let s ← eval (m.k2v.getPy k)
    assign fun m => { m with k2v := m.k2v.set k (s.add v) }

/-- The loop of one_to_many_dict.py 61-62. -/
def popAll : List ν → Doing (OneToMany κ ν) Unit
  | [] => pure ()
  | v :: vs => do
    let m ← self
    let (_, d) ← eval (m.v2k.pop v)
    assign fun m => { m with v2k := d }
    popAll vs

/-- `remove_key`, one_to_many_dict.py 56-64 -/
def removeKey (k : κ) : Doing (OneToMany κ ν) (PySet ν) := do
  let m ← self
  if m.k2v.has k then
    let (vs, d) ← eval (m.k2v.pop k)
    assign fun m => { m with k2v := d }
    popAll vs.items
    return vs
  else fail .keyError

/-- `remove_value`, one_to_many_dict.py 66-75; `remove` of 71 changes the set that the dictionary holds. -/
def removeValue (v : ν) : Doing (OneToMany κ ν) κ := do
  let m ← self
  if m.v2k.has v then
    let (k, d) ← eval (m.v2k.pop v)
    assign fun m => { m with v2k := d }
    let s ← eval (m.k2v.getPy k)
    let s ← eval (s.remove v)
    assign fun m => { m with k2v := m.k2v.set k s }
    if s.items.isEmpty then assign fun m => { m with k2v := m.k2v.erase k } else pure ()
    return k
  else fail .valueError

end OneToMany.Object

namespace KeyValueSet

/-- `keys`, 17-18 (scaled/utility/key_value_set.py); the view is not kept by a caller. -/
def keys (m : KeyValueSet κ ν) : List κ := m.k2v.keys

/-- `items`, 23-24, and `values`, 20-21, which are the second halves (scaled/utility/key_value_set.py); the view is not
kept by a caller. -/
def items (m : KeyValueSet κ ν) : List (κ × PySet ν) := m.k2v.items

end KeyValueSet

namespace KeyValueSet.Object

open Doing

/-- `add`, key_value_set.py 26-30 -/
def add (k : κ) (v : ν) : Doing (KeyValueSet κ ν) Unit := do
  let m ← self
  if m.k2v.has k then pure () else assign fun m => { m with k2v := m.k2v.set k PySet.empty }
  let m ← self
  let s ← eval (m.k2v.getPy k)
  assign fun m => { m with k2v := m.k2v.set k (s.add v) }

/-- `remove_key`, key_value_set.py 38-43 -/
def removeKey (k : κ) : Doing (KeyValueSet κ ν) (PySet ν) := do
  let m ← self
  if m.k2v.has k then
    let (vs, d) ← eval (m.k2v.pop k)
    assign fun m => { m with k2v := d }
    return vs
  else fail .keyError

/-- `remove_value`, key_value_set.py 45-51 -/
def removeValue (k : κ) (v : ν) : Doing (KeyValueSet κ ν) Unit := do
  let m ← self
  if m.k2v.has k then
    let s ← eval (m.k2v.getPy k)
    let s ← eval (s.remove v)
    assign fun m => { m with k2v := m.k2v.set k s }
    if s.items.isEmpty then assign fun m => { m with k2v := m.k2v.erase k } else pure ()
  else fail .keyError

end KeyValueSet.Object

end Verif.Util
