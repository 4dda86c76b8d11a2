import Verif.Sched.Run

/-!
# What the scheduler's tables say, and examples of executions

Names for the tables used in the statements about the scheduler.
-/

namespace Verif.Props

open Verif.Queue Verif.Util Verif.Wire Verif.Sched Verif.Spec

/-- The scheduler holds the task: accepted and not finished (`_task_id_to_task`). -/
def Holding (s : Sched) (t : Bytes) : Prop := (s.tm.tasks.get? t).isSome

instance (s : Sched) (t : Bytes) : Decidable (Holding s t) := inferInstanceAs (Decidable (_ = true))

/-- The client the task or graph belongs to. -/
def ownerOf (s : Sched) (t : Bytes) : Option Bytes := s.clients.v2k.get? t

/-- The waiting queue, first to last. -/
def waitingQueue (s : Sched) : List Bytes := s.tm.unassigned.contents

/-- The task that is out of the waiting queue but not yet with a worker. -/
def beingPlaced (s : Sched) : Option Bytes := s.tm.pending.map (·.taskId)

/-- The worker that was given the task. -/
def workerOf (s : Sched) (t : Bytes) : Option Bytes := s.wm.alloc.t2w.get? t

/-- The worker is connected. -/
def Connected (s : Sched) (w : Bytes) : Prop := s.wm.alive.has w = true

instance (s : Sched) (w : Bytes) : Decidable (Connected s w) := inferInstanceAs (Decidable (_ = true))

/-- A registered function. -/
def functionOf (s : Sched) (f : Bytes) : Option FuncInfo := s.fm.funcs.get? f

/-- The function the task claims. -/
def claimOf (s : Sched) (t : Bytes) : Option Bytes := s.fm.uses.v2k.get? t

/-! ### Executions used as examples -/

def cfg0 : Config := ⟨-1, 2, 100, 100, 1, 2⟩

/-- An event at time 0 with the default set orders. -/
def ev (op : Op) : Event := ⟨op, 0, fun _ => []⟩

def evAt (now : Int) (op : Op) : Event := ⟨op, now, fun _ => []⟩

def hb0 : Heartbeat := ⟨0, 0, 0, 0, 0, 0, false, false, false⟩

/-- client, worker and function ids -/
def cl : Bytes := [67]
def wk : Bytes := [87]
def wk2 : Bytes := [88]
def fn : Bytes := [70]

def addFn : Event := ev (.recv cl (.functionRequest .add fn [102] [1, 2]))
def beat (w : Bytes) : Event := ev (.recv w (.heartbeat hb0))
def submit (t : Bytes) : Event := ev (.recv cl (.task ⟨t, fn, [⟨.data, [9]⟩]⟩))
def done (t r : Bytes) : Event := ev (.recv wk (.taskResult t .success 0 r))
def turn : Event := ev .taskRoutine

/-- Functions, nodes and targets of a graph. -/
def graphMsg (gid : Bytes) (nodes : List (Bytes × List Argument)) (targets : List Bytes) : GraphTask :=
  ⟨gid, Dict.ofList [(fn, ([102], [1, 2]))], targets, nodes.map fun p => ⟨p.1, fn, p.2⟩⟩

def sendGraph (g : GraphTask) : Event := ev (.recv cl (.graphTask g))
def gturn : Event := ev .graphRoutine
def cancelGraph (gid : Bytes) : Event := ev (.recv cl (.graphTaskCancel gid))
def failed (t : Bytes) : Event := ev (.recv wk (.taskResult t .failed 0 [69]))
def val (b : Bytes) : Argument := ⟨.data, b⟩
def ref (t : Bytes) : Argument := ⟨.task, t⟩

/-- The exception. -/
def raised (x : Py Sched) : Option PyErr :=
  match x with
  | .ok _ => none
  | .error e => some e

theorem raised_sound {x : Py Sched} {e : PyErr} (h : raised x = some e) : x = .error e := by
  cases x with
  | ok _ => cases h
  | error e' => cases h; rfl

/-- The events run, all but the last without exception and with properly chosen ids; the exception of the
last. -/
def lastRaises (cfg : Config) (es : List Event) : Option PyErr := do
  let e ← es.getLast?
  let (l, s) ← runInit cfg es.dropLast
  if e.input.all (allowedB l s.out) then
    match s.step e with
    | .ok _ => none
    | .error err => some err
  else none

theorem lastRaises_sound {cfg : Config} {es : List Event} {err : PyErr} (h : lastRaises cfg es = some err) :
    ∃ l s e, es.getLast? = some e ∧ Reach cfg l s ∧ (∀ m ∈ e.input, Allowed l s.out m) ∧ s.step e = .error err := by
  unfold lastRaises at h
  simp only [Option.bind_eq_bind, Option.bind_eq_some_iff] at h
  obtain ⟨e, he, ⟨l, s⟩, hp, h⟩ := h
  split at h
  · next ha =>
    split at h
    · cases h
    · next err' hs =>
      cases h
      exact ⟨l, s, e, he, runInit_reach hp, fun m hm => allowedB_sound (List.all_eq_true.1 ha m hm), hs⟩
  · cases h

end Verif.Props
