import Verif.Base.Object
import Verif.Client.Args
import Verif.Client.Memo

/-!
# Calls of the client that are refused

`scaled/client.py` 76-131 and 248-363: `submit`, `map` and `get` up to the point where they wait, one statement after the other, with all
that can raise on the way: a function without a hash, without a signature or that cannot be pickled, arguments that do not fit
or cannot be pickled, a graph that is not in order.

Simplifications:
* The connector's thread does nothing during the call (`Client/Client` has all interleavings).
* `map` is given something that can be iterated twice (`C42_iterator` is about the rest).
* Keys of a graph are strings.
-/

namespace Verif.Client

open Verif.Wire Doing

variable {κ V : Type} [DecidableEq κ]

/-- A client and its memory of functions (client.py 62-70). -/
structure Desk (κ : Type) where
  client : Client
  /-- `_function_to_function_id_cache`, client.py 62 -/
  memo : Memo κ

/-- A function that the user gives (client.py 76, 96, 111). -/
structure Fn (κ V : Type) where
  use : Use κ
  /-- `signature(fn).parameters` (client.py 263); `none` if it raises -/
  params : Option (List (Param V))

/-- How arguments are pickled: `serialize_argument`, `none` if it raises (client.py 85, 299). -/
abbrev Dumps (V : Type) := V → Option Bytes

/-- The list of line 85 (client.py); `valueError` stands for what pickling raises. -/
def pickleArgs (dumps : Dumps V) : List V → Py (List Bytes)
  | [] => .ok []
  | v :: vs => do
    let b ← orRaise (dumps v) .valueError
    let bs ← pickleArgs dumps vs
    return b :: bs

namespace Desk

/-- `__get_function_id`, client.py 248-254 -/
def functionId (p : Pickle) (u : Use κ) : Doing (Desk κ) (Bytes × Bytes × Bytes) := do
  let d ← self
  let (r, memo) ← eval (getFunctionId p d.memo u)
  assign fun d => { d with memo }
  pure r

/-- One step of the user's thread (client.py 85-94 and 126-131). -/
def advance : Doing (Desk κ) Unit := do
  let d ← self
  let client ← eval d.client.advance
  assign fun d => { d with client }

/-- `submit`, client.py 76-94: the number of the new future -/
def submit (p : Pickle) (dumps : Dumps V) (empty : V) (f : Fn κ V) (t : Bytes) (args : List V) (kw : Dict String V) : Doing (Desk κ) Nat := do
  let (_, name, content) ← functionId p f.use
  let ps ← eval (orRaise f.params .valueError)
  let all ← eval (convert empty ps args kw)
  let bs ← eval (pickleArgs dumps all)
  assign fun d => { d with client := d.client.submit p t name content bs }
  advance
  advance
  advance
  advance
  advance
  let d ← self
  pure (d.client.futures.length - 1)

/-- The list of client.py 100; every call has its new id. -/
def submitAll (p : Pickle) (dumps : Dumps V) (empty : V) (f : Fn κ V) : List (Bytes × List V) → Doing (Desk κ) (List Nat)
  | [] => pure []
  | (t, args) :: l => do
    let n ← submit p dumps empty f t args .empty
    let ns ← submitAll p dumps empty f l
    pure (n :: ns)

/-- The argument tuples of an iterable; `none` is what is neither tuple nor list (client.py 97). -/
def tuples : List (Option (List V)) → Py (List (List V))
  | [] => .ok []
  | none :: _ => .error .typeError
  | some a :: l => do return a :: (← tuples l)

/-- `map` up to the waiting, client.py 96-100; `ids` are what `uuid1` returns. -/
def map (p : Pickle) (dumps : Dumps V) (empty : V) (f : Fn κ V) (ids : List Bytes) (items : List (Option (List V))) : Doing (Desk κ) (List Nat) := do
  let calls ← eval (tuples items)
  submitAll p dumps empty f (ids.zip calls)

end Desk

/-- A node of the user's graph (client.py 111-123). -/
inductive ValueNode (κ V : Type) where
  | data (v : V)
  | call (u : Use κ) (args : List Bytes)

/-- The loop client.py 294-300; the functions are not looked at yet. -/
def pickleNodes (dumps : Dumps V) : List (Bytes × ValueNode κ V) → Py (List (Bytes × UserNode))
  | [] => .ok []
  | (n, .data v) :: l => do
    let b ← orRaise (dumps v) .valueError
    return (n, .data b) :: (← pickleNodes dumps l)
  | (n, .call _ args) :: l => do return (n, .call [] [] args) :: (← pickleNodes dumps l)

namespace Desk

/-- The functions of the nodes, client.py 343-344, in order; the nodes were pickled before. -/
def resolve (p : Pickle) : List (Bytes × ValueNode κ V) → List (Bytes × UserNode) → Doing (Desk κ) (List (Bytes × UserNode))
  | (_, .call u args) :: l, (n, _) :: r => do
    let (_, name, content) ← functionId p u
    let rest ← resolve p l r
    pure ((n, .call name content args) :: rest)
  | (_, .data _) :: l, x :: r => do
    let rest ← resolve p l r
    pure (x :: rest)
  | _, _ => pure []

/-- `get` up to the waiting, client.py 111-131: the futures by their keys -/
def get (p : Pickle) (dumps : Dumps V) (ids : List Bytes) (gid : Bytes) (graph : List (Bytes × ValueNode κ V)) (keys : List Bytes) :
    Doing (Desk κ) (Dict Bytes Nat) := do
  let nodes ← eval (pickleNodes dumps graph)
  let (d, g) ← eval (splitGraph (Dict.ofList nodes))
  eval (checkGraph d g keys)
  let nodes ← resolve p graph nodes
  let (d, g) ← eval (splitGraph (Dict.ofList nodes))
  let m ← eval (constructGraph p ids gid d g keys)
  let before ← self
  assign fun d => { d with client := d.client.get m }
  advance
  pure (returnFutures keys (List.range' before.client.futures.length m.targets.length))

end Desk

end Verif.Client
