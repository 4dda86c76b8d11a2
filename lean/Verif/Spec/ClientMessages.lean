import Verif.Spec.Client

/-!
# Which messages end a client's connector thread
-/

namespace Verif.Spec.Client

open Verif.Wire Verif.Client

/-- Effect of an action on whether the task named `t` awaits its echo. -/
def echoStep (t : Bytes) : Act → Option Task → Option Task
  | .submitted k _ _, s => if k.taskId = t then some k else s
  | .recv (.taskEcho i .submitOK), s => if i = t then none else s
  | _, s => s

/-- The task that `submit` made under this id, until the scheduler says that it has it. -/
def unechoed (t : Bytes) (l : Hist) : Option Task := l.foldl (fun s x => echoStep t x s) none

/-- The user's thread is between client.py 87 and 88 for task `t`: the task is in the table, the function is not. -/
def Half (c : Client) (t : Bytes) : Prop := ∃ k nm b, c.user = .stored k nm b ∧ k.taskId = t

/-- The user has cancelled the future. -/
def Cancelled (c : Client) (n : Nat) : Prop := c.futures[n]? = some .cancelled ∨ c.futures[n]? = some .notified

/-- This echo for a task whose echo is awaited ends the thread: an echo for a task that `submit` has not finished with, or
that was refused or cancelled. -/
def EchoKills (c : Client) (k : Task) : TaskEchoStatus → Prop
  | .submitOK => Half c k.taskId ∨ openFuture k.taskId c.log = none
  | .duplicated => False
  | .functionNotExists => Half c k.taskId ∧ k.functionId ∉ c.notReady.keys
  | .noWorker => True
  | .cancelOK => True
  | .cancelFailed => True

/-- These results cannot all be put into these futures: one cannot be loaded, has no future, or its future was cancelled. -/
def Stuck (p : Pickle) (c : Client) (rs : List Bytes) (ns : List Nat) : Prop :=
  ns.length < rs.length ∨ (∃ r ∈ rs, p.loads r = false) ∨ ∃ n ∈ ns.take rs.length, Cancelled c n

/-- This failure of a graph cannot be put into these futures. -/
def StuckFailure (p : Pickle) (c : Client) (rs : List Bytes) (ns : List Nat) : Prop :=
  rs = [] ∨ (∃ x, rs.head? = some x ∧ p.loads x = false) ∨ ns.length < rs.length ∨ ∃ n ∈ ns.take rs.length, Cancelled c n

/-- The messages that end the thread. -/
def KillsClient (p : Pickle) (c : Client) : Message → Prop
  | .taskEcho t st => ∃ k, unechoed t c.log = some k ∧ EchoKills c k st
  | .functionResponse st _ _ _ => st ≠ .ok ∧ st ≠ .duplicated
  | .taskResult t st _ r => ∃ n, openFuture t c.log = some n ∧ (st = .success ∨ st = .failed) ∧ (p.loads r = false ∨ Cancelled c n)
  | .graphTaskResult g st rs => ∃ ns, openGraph g c.log = some ns ∧
    ((st = .success ∧ Stuck p c rs ns) ∨ (st = .failed ∧ StuckFailure p c rs ns))
  | _ => True

end Verif.Spec.Client
