import Verif.Worker.Agent

/-!
# What a worker's history says

Everything here is read off the history of messages, without looking at the agent's tables.
-/

namespace Verif.Spec.Worker

open Verif.Wire Verif.Worker

/-- A history, oldest first, with clock readings. -/
abbrev Hist := List (Int × Act)

/-- Effect of an action on which processor runs. -/
def currentStep : Act → Option Nat → Option Nat
  | .started n, _ => some n
  | .killed _, _ => none
  | _, p => p

/-- The processor that runs. -/
def current (l : Hist) : Option Nat := l.foldl (fun p x => currentStep x.2 p) none

/-- Effect of an action on whether the processor has announced itself, with a result for the empty id
(processor.py 25, 77). -/
def readyStep : Act → Bool → Bool
  | .started _, _ => false
  | .killed _, _ => false
  | .heard (.taskResult i _ _ _), p => p || decide (i = [])
  | _, p => p

/-- The processor has announced itself. -/
def ready (l : Hist) : Bool := l.foldl (fun p x => readyStep x.2 p) false

/-- Effect of an action on the task of the processor. -/
def busyStep : Act → Option Task → Option Task
  | .told _ (.task t), _ => some t
  | .killed _, _ => none
  | .heard (.taskResult i _ _ _), p => p.filter fun t => decide (t.taskId ≠ i)
  | _, p => p

/-- The task the processor was given and has neither answered nor lost by being killed. -/
def busy (l : Hist) : Option Task := l.foldl (fun p x => busyStep x.2 p) none

/-- `P` holds of every entry of the history and the history before it. -/
def Always (P : Hist → Act → Prop) (l : Hist) : Prop :=
  ∀ l₁ x l₂, l = l₁ ++ x :: l₂ → P l₁ x.2

/-- How often an action is of a kind. -/
def times (p : Act → Bool) (l : Hist) : Nat := l.countP fun x => p x.2

/-- receives a task named `t` -/
def isTask (t : Bytes) : Act → Bool
  | .recv (.task k) => decide (k.taskId = t)
  | _ => false

/-- gives the processor a task named `t` -/
def isTold (t : Bytes) : Act → Bool
  | .told _ (.task k) => decide (k.taskId = t)
  | _ => false

/-- answers the scheduler for `t`, other than by "not found" -/
def isAnswer (t : Bytes) : Act → Bool
  | .sent (.taskResult i st _ _) => decide (i = t) && decide (st ≠ .notFound)
  | _ => false

/-- How often `t` is returned by an action. -/
def returns (t : Bytes) : Act → Nat
  | .sent (.balanceResponse ids) => ids.count t
  | _ => 0

/-- How often `t` was returned in balance responses. -/
def returned (t : Bytes) (l : Hist) : Nat := (l.map fun x => returns t x.2).sum

/-- A task result that a processor sends (processor.py 118-138 and 25). -/
def FromProcessor : Message → Prop
  | .taskResult _ st _ _ => st = .success ∨ st = .failed
  | _ => True

/-- The processor sends only what it sends in the code. -/
def Honest (l : Hist) : Prop := ∀ x ∈ l, ∀ m, x.2 = .heard m → FromProcessor m

/-- Effect of an action on the number of heartbeats without an answer; an echo answers one. -/
def beatStep : Act → Nat → Nat
  | .sent (.heartbeat _), n => n + 1
  | .recv .heartbeatEcho, n => n - 1
  | _, n => n

/-- How many heartbeats were sent and not answered. -/
def openBeats (l : Hist) : Nat := l.foldl (fun n x => beatStep x.2 n) 0

/-- When the scheduler last answered a heartbeat, and how many heartbeats it has not answered. -/
def answerStep (now : Int) : Act → Int × Nat → Int × Nat
  | .sent (.heartbeat _), p => (p.1, p.2 + 1)
  | .recv .heartbeatEcho, p => if p.2 = 0 then p else (now, p.2 - 1)
  | _, p => p

/-- When the scheduler last answered a heartbeat; `start` if never. -/
def lastAnswer (start : Int) (l : Hist) : Int := (l.foldl (fun p x => answerStep x.1 x.2 p) (start, 0)).1

/-- The heartbeat without an answer, by its time, and the latency: half of the time from a heartbeat to its
echo, in microseconds. -/
def delayStep (now : Int) : Act → Option Int × Int → Option Int × Int
  | .sent (.heartbeat _), p => (some now, p.2)
  | .recv .heartbeatEcho, p =>
    match p.1 with
    | some sent => (none, (now - sent) / 2 / 1000)
    | none => p
  | _, p => p

/-- The latency that the last answered heartbeat showed; 0 at first. -/
def latency (l : Hist) : Int := (l.foldl (fun p x => delayStep x.1 x.2 p) (none, 0)).2

end Verif.Spec.Worker
