/-!
# `__clean_memory` of `scaled/worker/agent/processor/cache_cleaner.py`

The cleaner's thread calls it after each look at the cached functions (cache_cleaner.py 32-36).  Simplifications: the
clock is read twice per call (lines 65 and 68), both readings are inputs; so is the resident size (line 72); `gc.collect`
and `malloc_trim` are recorded as having happened.
-/

namespace Verif.Memory

/-- What one call reads: the clock at line 65, the clock at line 68, the resident size at line 72 (scaled/worker/agent/processor/cache_cleaner.py). -/
structure Wake where
  looked : Int
  stored : Int
  rss : Int
  deriving DecidableEq

/-- What one call does (scaled/worker/agent/processor/cache_cleaner.py 64-75). -/
inductive Did where
  | nothing
  /-- `gc.collect` -/
  | collected
  /-- `gc.collect` and `malloc_trim` -/
  | trimmed
  deriving DecidableEq

/-- The fields of the cleaner that concern memory (cache_cleaner.py 20-22). -/
structure Cleaner where
  /-- `_garbage_collect_interval_seconds` -/
  interval : Int
  /-- `_trim_memory_threshold_bytes` -/
  threshold : Int
  /-- `_previous_garbage_collect_time` -/
  previous : Int

/-- A new cleaner, created at time `now` (cache_cleaner.py 15-30). -/
def Cleaner.init (interval threshold now : Int) : Cleaner := ⟨interval, threshold, now⟩

/-- `__clean_memory` (cache_cleaner.py 64-75) -/
def Cleaner.clean (c : Cleaner) (w : Wake) : Cleaner × Did :=
  if w.looked - c.previous < c.interval then (c, .nothing)
  else
    let c := { c with previous := w.stored }
    if w.rss < c.threshold then (c, .collected) else (c, .trimmed)

/-- The calls of the loop (cache_cleaner.py 32-36). -/
def Cleaner.run (c : Cleaner) : List Wake → List (Wake × Did)
  | [] => []
  | w :: ws => (w, (c.clean w).2) :: (c.clean w).1.run ws

end Verif.Memory
