import Verif.Client.Graph

/-!
# `scaled/client.py` 248-260: the functions a client remembers

The client keeps the id, the name and the bytes of every function it was given (`_function_to_function_id_cache`, 62).

Simplifications.
* A function object is known by `key`: two objects have the same key if they are equal in Python (`==` and `hash`).  Functions and
  methods are equal if they are the same object; so is an instance of a class with `__call__`, unless the class says otherwise.
* What `cloudpickle.dumps` gives may change between two calls, because the object, or what it refers to, changes.
* `hash` of a `key` does not change.
-/

namespace Verif.Client

open Verif.Wire

/-- A function given to `submit`, `map` or `get`, as it is at this moment (scaled/client.py 248-260). -/
structure Use (κ : Type) where
  key : κ
  /-- `hash(fn)` does not raise -/
  hashable : Bool
  /-- `str(getattr(fn, "__name__", "<anonymous func>")).encode()` (259) -/
  name : Bytes
  /-- `serialize_function(fn)` (257); `none` if it raises -/
  pickled : Option Bytes

/-- `_function_to_function_id_cache` (62) (scaled/client.py) -/
abbrev Memo (κ : Type) := Dict κ (Bytes × Bytes × Bytes)

variable {κ : Type} [DecidableEq κ]

/-- `__generate_function_id_bytes` (256-260).  `valueError` stands for what pickling raises (scaled/client.py). -/
def generateFunctionId (p : Pickle) (u : Use κ) : Py (Bytes × Bytes × Bytes) :=
  match u.pickled with
  | some b => .ok (p.hash b, u.name, b)
  | none => .error .valueError

/-- `__get_function_id` (248-254); `fn in …` raises `TypeError` for a function without a hash (scaled/client.py). -/
def getFunctionId (p : Pickle) (m : Memo κ) (u : Use κ) : Py ((Bytes × Bytes × Bytes) × Memo κ) := do
  raiseIf (!u.hashable) .typeError
  if m.has u.key then
    return (← m.getPy u.key, m)
  else
    let r ← generateFunctionId p u
    return (r, m.set u.key r)

/-- The memo after a call; one that raises leaves it as it is (scaled/client.py 248-254). -/
def Memo.after (p : Pickle) (m : Memo κ) (u : Use κ) : Memo κ :=
  match getFunctionId p m u with
  | .ok (_, m) => m
  | .error _ => m

/-- The memo after these calls (scaled/client.py 248-254). -/
def Memo.afterAll (p : Pickle) : Memo κ → List (Use κ) → Memo κ
  | m, [] => m
  | m, u :: us => Memo.afterAll p (m.after p u) us

/-- `submit` (76-87), with the function the user gave (scaled/client.py). -/
def Client.submitFunction (p : Pickle) (c : Client) (m : Memo κ) (t : Bytes) (u : Use κ) (args : List Bytes) : Py (Client × Memo κ) := do
  let ((_, name, content), m) ← getFunctionId p m u
  return (c.submit p t name content args, m)

/-- A node of the graph given to `get`, with the function the user gave (scaled/client.py 333-344). -/
inductive FunctionNode (κ : Type) where
  | data (b : Bytes)
  | call (u : Use κ) (args : List Bytes)

/-- The functions of a graph (343-344), in the order of its nodes (scaled/client.py). -/
def resolveNodes (p : Pickle) : Memo κ → List (Bytes × FunctionNode κ) → Py (List (Bytes × UserNode) × Memo κ)
  | m, [] => .ok ([], m)
  | m, (n, .data b) :: l => do
    let (r, m) ← resolveNodes p m l
    return ((n, .data b) :: r, m)
  | m, (n, .call u args) :: l => do
    let ((_, name, content), m) ← getFunctionId p m u
    let (r, m) ← resolveNodes p m l
    return ((n, .call name content args) :: r, m)

end Verif.Client
