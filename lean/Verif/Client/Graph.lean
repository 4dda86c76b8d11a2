import Verif.Client.Client
import Verif.Sched.Sorter

/-!
# `scaled/client.py`: `get` and `map`

Simplifications.
* Names of nodes are bytes.  A name that is not a `str` or not hashable is left out; an argument of a call that is no
  name (`(add, "a", 5)`) is a name that the graph does not define.
* Data are pickled already, and so are functions; pickling that fails is left out.
* A new `Future` is known by its position among the futures of the graph.
-/

namespace Verif.Client

open Verif.Wire Verif.Sched

/-- A node of the graph given to `get` (client.py 112-122): data, or a call of a function on named nodes. -/
inductive UserNode where
  | data (b : Bytes)
  | call (name content : Bytes) (args : List Bytes)
  deriving DecidableEq

/-- client.py 295: `isinstance(node, tuple) and len(node) > 0 and callable(node[0])` -/
def UserNode.isCall : UserNode → Bool
  | .data _ => false
  | .call _ _ _ => true

/-- The loop client.py 294-300. -/
def dataArguments : List (Bytes × UserNode) → Dict Bytes Argument → Dict Bytes Argument
  | [], d => d
  | (_, .call _ _ _) :: l, d => dataArguments l d
  | (n, .data b) :: l, d => dataArguments l (d.set n ⟨.data, b⟩)

/-- The loop client.py 302-303. -/
def popAll : List Bytes → Dict Bytes UserNode → Py (Dict Bytes UserNode)
  | [], g => .ok g
  | n :: ns, g => do
    let (_, g) ← g.pop n
    popAll ns g

/-- `__split_data_and_graph` (client.py 289-305) -/
def splitGraph (g : Dict Bytes UserNode) : Py (Dict Bytes Argument × Dict Bytes UserNode) := do
  let d := dataArguments g.items .empty
  return (d, ← popAll d.keys g)

/-- The loop client.py 314-316. -/
def checkKeys (g : Dict Bytes UserNode) : List Bytes → Py Unit
  | [] => .ok ()
  | k :: ks => do
    raiseIf (!g.has k) .keyError
    checkKeys g ks

/-- The loop client.py 324-326. -/
def checkArgs (d : Dict Bytes Argument) (g : Dict Bytes UserNode) : List Bytes → Py Unit
  | [] => .ok ()
  | a :: as => do
    raiseIf (!d.has a && !g.has a) .keyError
    checkArgs d g as

/-- The loop client.py 319-328. -/
def checkNodes (d : Dict Bytes Argument) (g : Dict Bytes UserNode) : List (Bytes × UserNode) → Sorter → Py Sorter
  | [], s => .ok s
  | (_, .data _) :: _, _ => .error .assertionError
  | (n, .call _ _ args) :: l, s => do
    checkArgs d g args
    checkNodes d g l (s.add n args)

/-- `__check_graph` (client.py 307-331) -/
def checkGraph (d : Dict Bytes Argument) (g : Dict Bytes UserNode) (keys : List Bytes) : Py Unit := do
  checkKeys g keys
  let s ← checkNodes d g g.items .empty
  let _ ← s.prepare
  return ()

/-- client.py 349-356: one argument of a task -/
def buildArg (d : Dict Bytes Argument) (g : Dict Bytes UserNode) (toId : Dict Bytes Bytes) (a : Bytes) : Py Argument := do
  pyAssert (g.has a || d.has a)
  if g.has a then
    return ⟨.task, ← toId.getPy a⟩
  else
    d.getPy a

/-- client.py 348-357: all arguments -/
def buildArgs (d : Dict Bytes Argument) (g : Dict Bytes UserNode) (toId : Dict Bytes Bytes) : List Bytes → Py (List Argument)
  | [] => .ok []
  | a :: as => do
    let x ← buildArg d g toId a
    let xs ← buildArgs d g toId as
    return x :: xs

/-- The loop client.py 341-359; `p.hash content` is `__get_function_id` (client.py 248-260). -/
def buildTasks (p : Pickle) (d : Dict Bytes Argument) (g : Dict Bytes UserNode) (toId : Dict Bytes Bytes) :
    List (Bytes × UserNode) → Dict Bytes (Bytes × Bytes) → List Task → Py (Dict Bytes (Bytes × Bytes) × List Task)
  | [], fs, ks => .ok (fs, ks)
  | (_, .data _) :: _, _, _ => .error .typeError
  | (n, .call name content args) :: l, fs, ks => do
    let t ← toId.getPy n
    let xs ← buildArgs d g toId args
    buildTasks p d g toId l (fs.set (p.hash content) (name, content)) (ks ++ [⟨t, p.hash content, xs⟩])

/-- client.py 337: the keys of `task_id_to_future`, a `dict`, in order -/
def targetIds (toId : Dict Bytes Bytes) : List Bytes → PySet Bytes → Py (PySet Bytes)
  | [], s => .ok s
  | k :: ks, s => do
    let t ← toId.getPy k
    targetIds toId ks (s.add t)

/-- `__construct_graph` (client.py 333-363); `ids` are the results of `uuid1` at line 336, `gid` at line 362.  The
futures are as many as the targets, in the same order. -/
def constructGraph (p : Pickle) (ids : List Bytes) (gid : Bytes) (d : Dict Bytes Argument) (g : Dict Bytes UserNode) (keys : List Bytes) :
    Py GraphTask := do
  let toId := Dict.ofList (g.keys.zip ids)
  let targets ← targetIds toId keys .empty
  let (fs, ks) ← buildTasks p d g toId g.items .empty []
  return ⟨gid, fs, targets.items, ks⟩

/-- The message `get` sends (client.py 124-127). -/
def buildGraph (p : Pickle) (ids : List Bytes) (gid : Bytes) (g : Dict Bytes UserNode) (keys : List Bytes) : Py GraphTask := do
  let (d, g) ← splitGraph g
  checkGraph d g keys
  constructGraph p ids gid d g keys

/-- `return_futures` (client.py 131): `futures` are the futures of the graph, in order. -/
def returnFutures (keys : List Bytes) (futures : List Nat) : Dict Bytes Nat := Dict.ofList (keys.zip futures)

/-- `get` up to client.py 131, without line 129, which is a step of the user's thread (`Client.advance`). -/
def Client.callGet (p : Pickle) (c : Client) (ids : List Bytes) (gid : Bytes) (g : Dict Bytes UserNode) (keys : List Bytes) :
    Py (Client × Dict Bytes Nat) := do
  let m ← buildGraph p ids gid g keys
  return (c.get m, returnFutures keys (List.range' c.futures.length m.targets.length))

/-- client.py 137: what `{k: v.result() …}` gives; `final n` is what future `n` finally holds.  `error` is what
`result()` raises. -/
def collect {α : Type} (final : Nat → FState) : List (α × Nat) → Except FState (List (α × Bytes))
  | [] => .ok []
  | (k, n) :: l =>
    match final n with
    | .result r => do
      let rs ← collect final l
      return (k, r) :: rs
    | s => .error s

/-- An element of the iterable given to `map` (scaled/client.py 96-100). -/
inductive Item where
  /-- a tuple or a list -/
  | args (l : List Bytes)
  | other
  deriving DecidableEq

/-- An iterable: an iterator gives its elements once, other iterables every time (scaled/client.py 96-100). -/
structure Iter where
  oneShot : Bool
  items : List Item
  deriving DecidableEq

/-- `all(isinstance(args, (tuple, list)) for args in iterable)` (client.py 97): the answer, and the elements left -/
def Item.all : List Item → Bool × List Item
  | [] => (true, [])
  | .other :: l => (false, l)
  | .args _ :: l => Item.all l

/-- `[self.submit(fn, *args) for args in iterable]` (client.py 100): the arguments of the calls -/
def Item.calls : List Item → Py (List (List Bytes))
  | [] => .ok []
  | .args a :: l => do
    let cs ← Item.calls l
    return a :: cs
  -- an element that is no tuple; never reached
  | .other :: _ => .error .typeError

/-- `map` up to client.py 100: the arguments of the calls of `submit`. -/
def mapCalls (it : Iter) : Py (List (List Bytes)) := do
  let (ok, rest) := Item.all it.items
  raiseIf (!ok) .typeError
  Item.calls (if it.oneShot then rest else it.items)

end Verif.Client
