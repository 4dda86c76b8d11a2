import Verif.Client.Client

/-!
# What a client's history says

Everything here is read off the history, without looking at the client's tables.
-/

namespace Verif.Spec.Client

open Verif.Wire Verif.Client

/-- A history, oldest first. -/
abbrev Hist := List Act

/-- Effect of an action on the future of task `t`. -/
def futureStep (t : Bytes) : Act → Option Nat → Option Nat
  | .returned i n, s => if i = t then some n else s
  | .recv (.taskResult i _ _ _), s => if i = t then none else s
  | _, s => s

/-- The future that `submit` returned for task `t`, until a result for `t` is received. -/
def openFuture (t : Bytes) (l : Hist) : Option Nat := l.foldl (fun s x => futureStep t x s) none

/-- Effect of an action on the futures of graph `g`. -/
def graphStep (g : Bytes) : Act → Option (List Nat) → Option (List Nat)
  | .started i ns, s => if i = g then some ns else s
  | .recv (.graphTaskResult i _ _), s => if i = g then none else s
  | _, s => s

/-- The futures that `get` returned for graph `g`, until a result for `g` is received. -/
def openGraph (g : Bytes) (l : Hist) : Option (List Nat) := l.foldl (fun s x => graphStep g x s) none

/-- Effect of an action on whether the answer about a function is awaited. -/
def askStep (fid : Bytes) : Act → Bool → Bool
  | .sent (.functionRequest .add i _ _), s => s || decide (i = fid)
  | .recv (.functionResponse _ i _ _), s => s && decide (i ≠ fid)
  | _, s => s

/-- A function was sent to the scheduler and no answer about it arrived since. -/
def asked (fid : Bytes) (l : Hist) : Bool := l.foldl (fun s x => askStep fid x s) false

/-- What is known of the last copy of a task that was sent. -/
inductive Copy where
  | none
  /-- no echo arrived since it was sent -/
  | flying
  /-- this echo arrived last -/
  | echoed (st : TaskEchoStatus)
  deriving DecidableEq

/-- Effect of an action on the last copy of task `t`. -/
def copyStep (t : Bytes) : Act → Copy → Copy
  | .sent (.task k), s => if k.taskId = t then .flying else s
  | .recv (.taskEcho i st), s => if i = t then .echoed st else s
  | _, s => s

/-- The last copy of task `t`. -/
def lastCopy (t : Bytes) (l : Hist) : Copy := l.foldl (fun s x => copyStep t x s) .none

/-- `P` holds of every entry of the history and the history before it. -/
def Always (P : Hist → Act → Prop) (l : Hist) : Prop := ∀ l₁ x l₂, l = l₁ ++ x :: l₂ → P l₁ x

/-- creates a task named `t` -/
def isSubmit (t : Bytes) : Act → Bool
  | .submitted k _ _ => decide (k.taskId = t)
  | _ => false

/-- sends a task named `t` -/
def isSent (t : Bytes) : Act → Bool
  | .sent (.task k) => decide (k.taskId = t)
  | _ => false

/-- is told that the function of task `t` is unknown -/
def isRefused (t : Bytes) : Act → Bool
  | .recv (.taskEcho i .functionNotExists) => decide (i = t)
  | _ => false

/-- The scheduler said that it has the function. -/
def Known (fid : Bytes) (l : Hist) : Prop :=
  ∃ st nm c, Act.recv (.functionResponse st fid nm c) ∈ l ∧ (st = .ok ∨ st = .duplicated)

/-- Every message that is sent is proper: a task was created by `submit` and its function is known to the
scheduler, a function is sent under its own hash, a graph was built by `get`, and cancels are for a future that was
returned. -/
def Proper (p : Pickle) (l : Hist) : Act → Prop
  | .sent (.task k) => (∃ nm c, Act.submitted k nm c ∈ l ∧ k.functionId = p.hash c) ∧ Known k.functionId l
  | .sent (.functionRequest ty fid nm c) => ty = .add ∧ fid = p.hash c ∧ ∃ k, Act.submitted k nm c ∈ l
  | .sent (.graphTask g) => Act.graph g ∈ l
  | .sent (.taskCancel t) => ∃ n, Act.returned t n ∈ l
  | .sent (.graphTaskCancel g) => ∃ ns, Act.started g ns ∈ l
  | .sent _ => False
  | _ => True

/-- The request about a function, or its answer, is on its way. -/
def Outstanding (fid : Bytes) (c : Client) : Prop :=
  (∃ nm b, Message.functionRequest .add fid nm b ∈ c.outbox) ∨ asked fid c.log = true

/-- Final states of a future. -/
def Final : FState → Prop
  | .result _ => True
  | .exception _ => True
  | .disconnected => True
  | _ => False

/-- No message is handled while `submit` runs. -/
def Undisturbed (c : Client) : Op → Prop
  | .recv _ => c.user = .idle
  | _ => True

/-- The states a client can be in if no message is handled while `submit` runs. -/
inductive ReachAlone (p : Pickle) : Client → Prop where
  | init : ReachAlone p Client.init
  | step {c c' : Client} (o : Op) : ReachAlone p c → FreshOp c o → Undisturbed c o → c.step p o = .ok c' → ReachAlone p c'

end Verif.Spec.Client
