import Verif.Base.Order

/-!
# `graphlib.TopologicalSorter` (CPython 3.11, `Lib/graphlib.py`)

Used by `scaled/scheduler/graph_manager.py` 170-171, 180, 184, 236.
-/

namespace Verif.Sched

/-- `_NodeInfo`, 9-23 (`Lib/graphlib.py`; used by scaled/scheduler/graph_manager.py 170-171, 180, 184, 236) -/
structure SortNode where
  npred : Int
  succ : List Bytes
  deriving DecidableEq, Repr

/-- `TopologicalSorter`, 44-48.  `_ready_nodes` is `None` before `prepare`; here it is empty, the
only use in between is `add` (`Lib/graphlib.py`; used by scaled/scheduler/graph_manager.py 170-171, 180, 184, 236). -/
structure Sorter where
  info : Dict Bytes SortNode
  ready : List Bytes
  passed : Int
  finished : Int
  deriving DecidableEq

namespace Sorter

/-- A sorter without nodes, 44-48 (`Lib/graphlib.py`; used by scaled/scheduler/graph_manager.py 170-171, 180, 184, 236) -/
def empty : Sorter := ⟨Dict.empty, [], 0, 0⟩

/-- `_get_nodeinfo`, 54-57: makes sure the node exists (`Lib/graphlib.py`; used by scaled/scheduler/graph_manager.py 170-171, 180, 184, 236). -/
def ensure (d : Dict Bytes SortNode) (n : Bytes) : Dict Bytes SortNode :=
  if d.has n then d else d.set n ⟨0, []⟩

/-- update one node (`Lib/graphlib.py` 82-84, 191-195; used by scaled/scheduler/graph_manager.py 170-171, 180, 184, 236) -/
def upd (d : Dict Bytes SortNode) (n : Bytes) (f : SortNode → SortNode) : Dict Bytes SortNode :=
  match d.get? n with
  | some i => d.set n (f i)
  | none => d

/-- The loop of `add`, 82-84 (`Lib/graphlib.py`; used by scaled/scheduler/graph_manager.py 170-171, 180, 184, 236). -/
def addPreds (d : Dict Bytes SortNode) (n : Bytes) : List Bytes → Dict Bytes SortNode
  | [] => d
  | p :: ps => addPreds (upd (ensure d p) p fun i => { i with succ := i.succ ++ [n] }) n ps

/-- `add`, 59-84 (`Lib/graphlib.py`; used by scaled/scheduler/graph_manager.py 170-171, 180, 184, 236) -/
def add (s : Sorter) (n : Bytes) (preds : List Bytes) : Sorter :=
  let d := upd (ensure s.info n) n fun i => { i with npred := i.npred + preds.length }
  { s with info := addPreds d n preds }

/-- `__init__`, 44-52: `graph` lists the nodes with their predecessors (`Lib/graphlib.py`; used by scaled/scheduler/graph_manager.py 170-171, 180, 184, 236). -/
def build (graph : List (Bytes × List Bytes)) : Sorter :=
  graph.foldl (fun s p => s.add p.1 p.2) empty

/-- State of `_find_cycle`, 198-203: `stack` and `itstack` zipped, innermost first; `node2stacki`
holds exactly the nodes of the stack (`Lib/graphlib.py`; used by scaled/scheduler/graph_manager.py 170-171, 180, 184, 236). -/
structure Dfs where
  seen : PySet Bytes
  stack : List (Bytes × List Bytes)
  deriving DecidableEq

/-- One turn of the loops of `_find_cycle` (`Lib/graphlib.py` 209-232; used by scaled/scheduler/graph_manager.py 170-171, 180, 184, 236). -/
inductive Turn where
  /-- 210-220 with this node -/
  | visit (n : Bytes)
  /-- 224-232 -/
  | back

/-- The inner loops of `_find_cycle`, 209-232, starting from one node.  `none`: a cycle was found.
Every turn takes a successor from an iterator, pushes a node or pops one, so the fuel given by
`findCycle` is enough (`Sorter.walk_fuel`) (`Lib/graphlib.py`; used by scaled/scheduler/graph_manager.py 170-171, 180, 184, 236). -/
def walk (d : Dict Bytes SortNode) : Nat → Dfs → Turn → Option Dfs
  | 0, st, _ => some st
  | fuel + 1, st, .visit n =>
    if n ∈ st.seen.items then
      if n ∈ st.stack.map (·.1) then none
      else walk d fuel st .back
    else
      walk d fuel ⟨st.seen.add n, (n, ((d.get? n).map (·.succ)).getD []) :: st.stack⟩ .back
  | fuel + 1, st, .back =>
    match st.stack with
    | [] => some st
    | (_, []) :: rest => walk d fuel ⟨st.seen, rest⟩ .back
    | (n, x :: xs) :: rest => walk d fuel ⟨st.seen, (n, xs) :: rest⟩ (.visit x)

/-- Enough turns for all nodes and edges (no Python counterpart; for `walk`, used by scaled/scheduler/graph_manager.py 170-171, 180, 184, 236). -/
def fuel (d : Dict Bytes SortNode) : Nat := (d.values.map fun i => 2 * i.succ.length + 4).sum + 4

/-- The outer loop of `_find_cycle`, 205-233.  `none`: a cycle was found (`Lib/graphlib.py`; used by scaled/scheduler/graph_manager.py 170-171, 180, 184, 236). -/
def roots (d : Dict Bytes SortNode) : Dfs → List Bytes → Option Dfs
  | st, [] => some st
  | st, n :: ns =>
    if n ∈ st.seen.items then roots d st ns
    else
      match walk d (fuel d) st (.visit n) with
      | none => none
      | some st => roots d st ns

/-- `_find_cycle`, 198-233 (`Lib/graphlib.py`; used by scaled/scheduler/graph_manager.py 170-171, 180, 184, 236) -/
def findCycle (d : Dict Bytes SortNode) : Bool := (roots d ⟨PySet.empty, []⟩ d.keys).isNone

/-- `prepare`, 86-106 (`Lib/graphlib.py`; used by scaled/scheduler/graph_manager.py 170-171, 180, 184, 236) -/
def prepare (s : Sorter) : Py Sorter := do
  let ready := (s.info.items.filter fun p => p.2.npred = 0).map (·.1)
  raiseIf (findCycle s.info) .cycleError
  return { s with ready }

/-- `is_active`, 134-146 (`Lib/graphlib.py`; used by scaled/scheduler/graph_manager.py 170-171, 180, 184, 236) -/
def isActive (s : Sorter) : Bool := decide (s.finished < s.passed) || !s.ready.isEmpty

/-- `get_ready`, 108-132; `n2i[node]` exists because ready nodes are nodes (`Lib/graphlib.py`; used by scaled/scheduler/graph_manager.py 170-171, 180, 184, 236). -/
def getReady (s : Sorter) : List Bytes × Sorter :=
  (s.ready, ⟨s.ready.foldl (fun d n => upd d n fun i => { i with npred := -1 }) s.info, [],
    s.passed + s.ready.length, s.finished⟩)

/-- The loop of `done`, 191-195 (`Lib/graphlib.py`; used by scaled/scheduler/graph_manager.py 170-171, 180, 184, 236). -/
def release (d : Dict Bytes SortNode) (ready : List Bytes) : List Bytes → Py (Dict Bytes SortNode × List Bytes)
  | [] => .ok (d, ready)
  | n :: ns => do
    let i ← d.getPy n
    let d := d.set n { i with npred := i.npred - 1 }
    release d (if i.npred - 1 = 0 then ready ++ [n] else ready) ns

/-- `done`, 151-196, for one node (`Lib/graphlib.py`; used by scaled/scheduler/graph_manager.py 170-171, 180, 184, 236). -/
def done (s : Sorter) (n : Bytes) : Py Sorter := do
  let i ← orRaise (s.info.get? n) .valueError
  raiseIf (decide (i.npred ≥ 0)) .valueError
  raiseIf (decide (i.npred = -2)) .valueError
  pyAssert (decide (i.npred = -1))
  let (d, ready) ← release (s.info.set n { i with npred := -2 }) s.ready i.succ
  return { s with info := d, ready, finished := s.finished + 1 }

end Sorter

end Verif.Sched
