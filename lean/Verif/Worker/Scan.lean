import Verif.Worker.Processor

/-!
# The cleaner looks for idle functions while the main thread works

`Proc.clean` (Worker/Processor.lean) takes the list comprehension of `__clean_function`
(/repo/scaled/worker/agent/processor/cache_cleaner.py 56-60) as one step.  Here it is taken apart: each step of the
iteration over `self._cached_functions_alive_since.items()` is a step of its own, and between two of them the main
thread may change the dictionary (lines 40, 43 and 51).

The dictionary is CPython's: a row of entries in order of insertion, in which a deleted entry leaves a hole, and the
iterator is a position in that row together with the number of entries there were when it was made; each `next` first
compares that number with the present one and raises `RuntimeError` if they differ.  Simplification: the row is never
compacted (CPython does that when it has to grow, and the number of entries then is another one unless as many were
deleted as were added).
-/

namespace Verif.Scan

/-- `_cached_functions_alive_since` as CPython keeps it (cache_cleaner.py 28). -/
structure Table where
  /-- the entries in order of insertion; `none` is a deleted one -/
  slots : List (Option (Bytes × Int))
  deriving DecidableEq

namespace Table

/-- what is in the dictionary, in order of insertion (`dict.items()`, cache_cleaner.py 58) -/
def items (t : Table) : List (Bytes × Int) := t.slots.filterMap id

/-- `len(self._cached_functions_alive_since)`, which an iterator over it remembers (cache_cleaner.py 58) -/
def used (t : Table) : Nat := t.items.length

/-- `self._cached_functions_alive_since[function_id] = time.time()` (cache_cleaner.py 40 and 51): an existing entry is
overwritten where it is, a new one comes last. -/
def set (t : Table) (fid : Bytes) (now : Int) : Table :=
  if fid ∈ t.items.map (·.1) then
    ⟨t.slots.map (Option.map fun x => if x.1 = fid then (fid, now) else x)⟩
  else ⟨t.slots ++ [some (fid, now)]⟩

/-- `self._cached_functions_alive_since.pop(function_id, None)` (cache_cleaner.py 43) -/
def pop (t : Table) (fid : Bytes) : Table :=
  ⟨t.slots.map fun s => if s.map (·.1) = some fid then none else s⟩

end Table

/-- The iteration under way (cache_cleaner.py 55-60). -/
structure Look where
  /-- `now` (cache_cleaner.py 55) -/
  now : Int
  /-- the number of entries when the iterator was made -/
  used : Nat
  /-- the entry the iterator looks at next -/
  pos : Nat
  /-- the list so far -/
  found : List Bytes
  deriving DecidableEq

/-- Where the cleaner stands in cache_cleaner.py 54-62. -/
inductive Look.Place where
  /-- in the comprehension -/
  | looking (l : Look)
  /-- `idle_functions` is there (cache_cleaner.py 56) -/
  | found (ids : List Bytes)
  /-- `RuntimeError`: nothing catches it, the thread is over (cache_cleaner.py 32-36) -/
  | dead
  deriving DecidableEq

namespace Look

/-- cache_cleaner.py 55 and 58: the clock is read and the iterator made. -/
def start (t : Table) (now : Int) : Look := ⟨now, t.used, 0, []⟩

/-- the first entry that is no hole, with the position behind it; `pos` is the position of the first slot (CPython `dictiter_iternextitem`; used by scaled/worker/agent/processor/cache_cleaner.py 56-60) -/
def nextSlot : List (Option (Bytes × Int)) → Nat → Option (Nat × (Bytes × Int))
  | [], _ => none
  | none :: r, pos => nextSlot r (pos + 1)
  | some x :: _, pos => some (pos + 1, x)

/-- One `next` of the iterator and the test of what it gave (cache_cleaner.py 57-59). -/
def next (retention : Int) (t : Table) (l : Look) : Place :=
  if l.used = t.used then
    match nextSlot (t.slots.drop l.pos) l.pos with
    | none => .found l.found
    | some (pos, x) =>
      .looking { l with pos := pos, found := if l.now - x.2 > retention then l.found ++ [x.1] else l.found }
  else .dead

/-- What can happen while the cleaner looks (scaled/worker/agent/processor/cache_cleaner.py 38-60). -/
inductive Op where
  /-- the main thread writes a time of use (cache_cleaner.py 40 and 51) -/
  | stamp (fid : Bytes) (now : Int)
  /-- the main thread deletes one (cache_cleaner.py 43) -/
  | pop (fid : Bytes)
  /-- the cleaner goes on -/
  | next
  deriving DecidableEq

/-- One of these things: the dictionary and where the cleaner stands (scaled/worker/agent/processor/cache_cleaner.py 38-60). -/
def step (retention : Int) (s : Table × Place) : Op → Table × Place
  | .stamp fid now => (s.1.set fid now, s.2)
  | .pop fid => (s.1.pop fid, s.2)
  | .next =>
    match s.2 with
    | .looking l => (s.1, next retention s.1 l)
    | p => (s.1, p)

/-- Several of them after cache_cleaner.py 55. -/
def run (retention : Int) (t : Table) (now : Int) (ops : List Op) : Table × Place :=
  ops.foldl (step retention) (t, .looking (start t now))

end Look

end Verif.Scan
