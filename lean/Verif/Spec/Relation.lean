import Verif.Base.Py

/-!
# Specification of the two dictionary utilities

Both are a finite relation: a list of (key, value) pairs without duplicates, in insertion order.
-/

namespace Verif.Spec

variable {κ ν : Type} [DecidableEq κ] [DecidableEq ν]

/-- Operations of `OneToManyDict` and `KeyValueDictSet`; the first ignores the key of
`removeValue`. -/
inductive ROp (κ ν : Type) where
  | add (k : κ) (v : ν)
  | hasKey (k : κ)
  | hasValue (v : ν)
  | getKey (v : ν)
  | getValues (k : κ)
  | removeKey (k : κ)
  | removeValue (k : κ) (v : ν)
  deriving DecidableEq, Repr

/-- What the caller sees. -/
inductive RObs (κ ν : Type) where
  | done
  | bool (b : Bool)
  | key (k : κ)
  | values (vs : List ν)
  | raised (e : PyErr)
  deriving DecidableEq, Repr

/-- The values of a key. -/
def valuesOf (s : List (κ × ν)) (k : κ) : List ν := (s.filter fun p => p.1 = k).map (·.2)

/-- The keys of a value. -/
def keysOf (s : List (κ × ν)) (v : ν) : List κ := (s.filter fun p => p.2 = v).map (·.1)

/-- One operation of a one-to-many relation: a value has at most one key. -/
def oneToManyStep (s : List (κ × ν)) : ROp κ ν → List (κ × ν) × RObs κ ν
  | .add k v =>
    match keysOf s v with
    | [] => (s ++ [(k, v)], .done)
    | k' :: _ => if k' = k then (s, .done) else (s, .raised .valueError)
  | .hasKey k => (s, .bool (valuesOf s k ≠ []))
  | .hasValue v => (s, .bool (keysOf s v ≠ []))
  | .getKey v =>
    match keysOf s v with
    | [] => (s, .raised .valueError)
    | k :: _ => (s, .key k)
  | .getValues k => (s, if valuesOf s k = [] then .raised .valueError else .values (valuesOf s k))
  | .removeKey k =>
    if valuesOf s k = [] then (s, .raised .keyError)
    else (s.filter fun p => p.1 ≠ k, .values (valuesOf s k))
  | .removeValue _ v =>
    match keysOf s v with
    | [] => (s, .raised .valueError)
    | k :: _ => (s.filter fun p => p.2 ≠ v, .key k)

/-- One operation of an arbitrary relation. -/
def manyToManyStep (s : List (κ × ν)) : ROp κ ν → List (κ × ν) × RObs κ ν
  | .add k v => (if (k, v) ∈ s then s else s ++ [(k, v)], .done)
  | .hasKey k => (s, .bool (valuesOf s k ≠ []))
  | .getValues k => (s, if valuesOf s k = [] then .raised .valueError else .values (valuesOf s k))
  | .removeKey k =>
    if valuesOf s k = [] then (s, .raised .keyError)
    else (s.filter fun p => p.1 ≠ k, .values (valuesOf s k))
  | .removeValue k v =>
    if (k, v) ∈ s then (s.filter fun p => p ≠ (k, v), .done) else (s, .raised .keyError)
  | .hasValue _ | .getKey _ => (s, .done)

end Verif.Spec
