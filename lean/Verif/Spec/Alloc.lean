import Verif.Base.Py

/-!
# Specification of task placement

The abstract state is the list of connected workers and the list of (task, worker) assignments.
-/

namespace Verif.Spec

/-- Calls made on the allocator. -/
inductive AOp where
  | addWorker (w : Bytes)
  | removeWorker (w : Bytes) (hint : List Bytes)
  | assign (t : Bytes)
  | removeTask (t : Bytes)
  | whereIs (t : Bytes)
  | available
  deriving DecidableEq, Repr

/-- Answers of the allocator.  `waits`: the call does not return before a worker connects. -/
inductive AObs where
  | added (b : Bool)
  | tasks (ts : List Bytes)
  | worker (w : Option Bytes)
  | bool (b : Bool)
  | waits
  deriving DecidableEq, Repr

structure Placement where
  workers : List Bytes
  assigned : List (Bytes × Bytes)
  deriving DecidableEq, Repr

namespace Placement

def empty : Placement := ⟨[], []⟩

/-- The tasks of a worker. -/
def tasksOf (s : Placement) (w : Bytes) : List Bytes := (s.assigned.filter fun p => p.2 = w).map (·.1)

/-- The worker of a task. -/
def workerOf (s : Placement) (t : Bytes) : Option Bytes := (s.assigned.find? fun p => p.1 = t).map (·.2)

/-- Every task has one worker, and it is connected. -/
def Sound (s : Placement) : Prop :=
  s.workers.Nodup ∧ (s.assigned.map (·.1)).Nodup ∧ ∀ p ∈ s.assigned, p.2 ∈ s.workers

/-- `op` answered with `o` leads from `s` to `s'`. -/
inductive Step : Placement → AOp → AObs → Placement → Prop
  | addOld {s w} : w ∈ s.workers → Step s (.addWorker w) (.added false) s
  | addNew {s w} : w ∉ s.workers → Step s (.addWorker w) (.added true) { s with workers := s.workers ++ [w] }
  | removeUnknown {s w hint} : w ∉ s.workers → Step s (.removeWorker w hint) (.tasks []) s
  | remove {s w hint ts} : w ∈ s.workers → ts.Perm (s.tasksOf w) →
      Step s (.removeWorker w hint) (.tasks ts)
        ⟨s.workers.filter (· ≠ w), s.assigned.filter fun p => p.2 ≠ w⟩
  | assignWaits {s t} : s.workers = [] → Step s (.assign t) .waits s
  | assignFull {s t} : s.workers ≠ [] → Step s (.assign t) (.worker none) s
  | assignAgain {s t w} : s.workers ≠ [] → s.workerOf t = some w → Step s (.assign t) (.worker (some w)) s
  | assign {s t w} : w ∈ s.workers → s.workerOf t = none →
      Step s (.assign t) (.worker (some w)) { s with assigned := s.assigned ++ [(t, w)] }
  | removeTask {s t} :
      Step s (.removeTask t) (.worker (s.workerOf t)) { s with assigned := s.assigned.filter fun p => p.1 ≠ t }
  | whereIs {s t} : Step s (.whereIs t) (.worker (s.workerOf t)) s
  | available {s b} : Step s .available (.bool b) s

/-- A sequence of calls with answers. -/
inductive Steps : Placement → List (AOp × AObs) → Placement → Prop
  | nil {s} : Steps s [] s
  | cons {s op o s' tr s''} : Step s op o s' → Steps s' tr s'' → Steps s ((op, o) :: tr) s''

end Placement

/-! ### Balance advice

`counts` lists how many tasks each worker has.  The mean is `sum counts / counts.length`; to stay
in the integers every comparison with the mean is multiplied by the number of workers. -/

/-- Total number of tasks. -/
def total (counts : List (Bytes × Nat)) : Nat := (counts.map (·.2)).sum

/-- How many tasks the worker may still take without exceeding `mean + 1`. -/
def room (counts : List (Bytes × Nat)) (c : Nat) : Nat := (total counts + counts.length) / counts.length - c

/-- Conditions on advice `adv` given the loads `counts`. -/
structure GoodAdvice (counts : List (Bytes × Nat)) (adv : List (Bytes × Int)) : Prop where
  /-- only when some worker is idle and some worker is busy -/
  trigger : adv ≠ [] → (∃ p ∈ counts, p.2 = 0) ∧ (∃ p ∈ counts, p.2 ≠ 0)
  /-- and then always -/
  complete : (∃ p ∈ counts, p.2 = 0) → (∃ p ∈ counts, p.2 ≠ 0) → adv ≠ []
  /-- each worker at most once -/
  nodup : (adv.map (·.1)).Nodup
  /-- only workers above the mean; between one and all of its tasks; afterwards it has at most the
  mean, but more than the mean minus one -/
  each : ∀ w n, (w, n) ∈ adv → ∃ c, (w, c) ∈ counts ∧ total counts < c * counts.length ∧ 1 ≤ n ∧ n ≤ c ∧
    (c - n) * counts.length ≤ total counts ∧ total counts < (c - n + 1) * counts.length

/-- What is taken away fits on the workers at or below the mean, filled up to at most `mean + 1`. -/
def FitsAdvice (counts : List (Bytes × Nat)) (adv : List (Bytes × Int)) : Prop :=
  (adv.map (·.2)).sum ≤
    (((counts.filter fun p => p.2 * counts.length ≤ total counts).map fun p => room counts p.2).sum : Nat)

/-- What is missing to the mean on the workers at or below the mean, times the number of workers. -/
def missing (counts : List (Bytes × Nat)) : Nat :=
  ((counts.filter fun p => p.2 * counts.length ≤ total counts).map fun p => total counts - p.2 * counts.length).sum

/-- What is taken away is at least what is missing on the workers at or below the mean, and exceeds
it by less than one task per named worker. -/
def NearlyFitsAdvice (counts : List (Bytes × Nat)) (adv : List (Bytes × Int)) : Prop :=
  adv ≠ [] → (missing counts : Int) ≤ (adv.map (·.2)).sum * counts.length ∧
    (adv.map (·.2)).sum * counts.length < missing counts + adv.length * counts.length

end Verif.Spec
