import Verif.Worker.Processor

/-!
# What a processor's history says

Everything here is read off the history, without looking at the processor's tables.
-/

namespace Verif.Spec.Processor

open Verif.Wire Verif.Proc

/-- A history, oldest first, with clock readings. -/
abbrev Hist := List (Int × Act)

/-- Effect of an action on the content registered for a function. -/
def registeredStep (fid : Bytes) : Act → Option Bytes → Option Bytes
  | .recv (.functionResponse _ i _ c), r => if i = fid then some c else r
  | .recv (.functionRequest .delete i _ _), r => if i = fid then none else r
  | _, r => r

/-- The content the scheduler sent last for a function, unless it has asked to delete the function since. -/
def registered (fid : Bytes) (l : Hist) : Option Bytes := l.foldl (fun r x => registeredStep fid x.2 r) none

/-- Effect of an action on the recorded time of use. -/
def stampStep (fid : Bytes) (now : Int) : Act → Option Int → Option Int
  | .stamped i, r => if i = fid then some now else r
  | _, r => r

/-- When the use of a function was recorded last. -/
def lastStamp (fid : Bytes) (l : Hist) : Option Int := l.foldl (fun r x => stampStep fid x.1 x.2 r) none

/-- The message received last. -/
def receivedStep : Act → Option Message → Option Message
  | .recv m, _ => some m
  | _, r => r

/-- The message received last. -/
def lastReceived (l : Hist) : Option Message := l.foldl (fun r x => receivedStep x.2 r) none

/-- `P` holds of every entry of the history and the history before it. -/
def Always (P : Hist → Act → Prop) (l : Hist) : Prop :=
  ∀ l₁ x l₂, l = l₁ ++ x :: l₂ → P l₁ x.2

/-- How often an action is of a kind. -/
def times (p : Act → Bool) (l : Hist) : Nat := l.countP fun x => p x.2

/-- receives a task named `t` -/
def isTask (t : Bytes) : Act → Bool
  | .recv (.task k) => decide (k.taskId = t)
  | _ => false

/-- answers a task named `t` -/
def isAnswer (t : Bytes) : Act → Bool
  | .sent (.taskResult i _ _ _) => decide (i = t)
  | _ => false

variable {F V X : Type}

/-- `args` are the values of the arguments, in order. -/
inductive Loads (rt : Runtime F V X) : List Argument → List V → Prop where
  | nil : Loads rt [] []
  | cons {a v as vs} : rt.loadArg a.data = .ok v → Loads rt as vs → Loads rt (a :: as) (v :: vs)

/-- Some argument cannot be loaded and the first such raises `x`. -/
inductive LoadFails (rt : Runtime F V X) : List Argument → X → Prop where
  | head {a x as} : rt.loadArg a.data = .error x → LoadFails rt (a :: as) x
  | tail {a v as x} : rt.loadArg a.data = .ok v → LoadFails rt as x → LoadFails rt (a :: as) x

/-- Applying `f` to the arguments can return a value whose bytes are `r`. -/
def Returns (rt : Runtime F V X) (f : F) (args : List Argument) (r : Bytes) : Prop :=
  ∃ vs c v, Loads rt args vs ∧ rt.call f vs c = .ok v ∧ rt.dump v = .ok r

/-- Loading the arguments, applying `f` or turning its result into bytes can raise `x`. -/
def Raises (rt : Runtime F V X) (f : F) (args : List Argument) (x : X) : Prop :=
  LoadFails rt args x ∨
    ∃ vs c, Loads rt args vs ∧ (rt.call f vs c = .error x ∨ ∃ v, rt.call f vs c = .ok v ∧ rt.dump v = .error x)

/-- The function registered for a task. -/
def FunctionOf (rt : Runtime F V X) (l : Hist) (k : Task) (f : F) : Prop :=
  ∃ c, registered k.functionId l = some c ∧ rt.loadFn c = .ok f

/-- What may be answered: success with a result of the registered function on the task's arguments; failure
with an exception that this raises, or because the function is not in the cache. -/
def Answers (rt : Runtime F V X) (l : Hist) (k : Task) : TaskStatus → Bytes → Prop
  | .success, r => ∃ f, FunctionOf rt l k f ∧ Returns rt f k.args r
  | .failed, r => ∃ x, rt.dumpExc x = some r ∧
      ((∃ f, FunctionOf rt l k f ∧ Raises rt f k.args x) ∨ LoadFails rt k.args x ∨ x = rt.notCallable)
  | _, _ => False

/-- Every task result answers a task received before. -/
def Proper (rt : Runtime F V X) (l : Hist) : Act → Prop
  | .sent (.taskResult i st _ r) =>
    (l = [] ∧ i = [] ∧ st = .success ∧ r = []) ∨
      ∃ now k, (now, Act.recv (.task k)) ∈ l ∧ k.taskId = i ∧ Answers rt l k st r
  | _ => True

/-- When `fid` is evicted: at the latest scan, its last recorded use was longer ago than the retention time. -/
def EvictProper (retention : Int) (l : Hist) : Act → Prop
  | .evicted fid => ∃ l₁ s l₂ t, l = l₁ ++ (s, .scan) :: l₂ ∧ (∀ x ∈ l₂, x.2 ≠ .scan) ∧
      lastStamp fid l₁ = some t ∧ s - t > retention
  | _ => True

/-- Every reading of `fid` is followed at once by the recording of its use. -/
def Paired (fid : Bytes) (l : Hist) : Prop :=
  ∀ a u b, l = a ++ (u, .used fid) :: b → ∃ v b', b = (v, .stamped fid) :: b'

/-- When `fid` is evicted: at the latest scan, its last use was longer ago than the retention time, and it was
not used since. -/
def EvictUnused (retention : Int) (l : Hist) : Act → Prop
  | .evicted fid => ∃ l₁ s l₂ t, l = l₁ ++ (s, .scan) :: l₂ ∧ (∀ x ∈ l₂, ∃ i, x.2 = .evicted i) ∧
      Paired fid l₁ ∧ lastStamp fid l₁ = some t ∧ s - t > retention
  | _ => True

/-- What may be answered if every function stays in the cache while it is needed. -/
def AnswersExactly (rt : Runtime F V X) (l : Hist) (k : Task) : TaskStatus → Bytes → Prop
  | .success, r => ∃ f, FunctionOf rt l k f ∧ Returns rt f k.args r
  | .failed, r => ∃ f x, FunctionOf rt l k f ∧ Raises rt f k.args x ∧ rt.dumpExc x = some r
  | _, _ => False

/-- Every task result answers a task received before, exactly. -/
def ProperExactly (rt : Runtime F V X) (l : Hist) : Act → Prop
  | .sent (.taskResult i st _ r) =>
    (l = [] ∧ i = [] ∧ st = .success ∧ r = []) ∨
      ∃ now k, (now, Act.recv (.task k)) ∈ l ∧ k.taskId = i ∧ AnswersExactly rt l k st r
  | _ => True

/-- The two threads do not meet (the cleaner works only while the main thread waits for a message, and no message
is taken while it does), and a function response is for the function the processor asked for. -/
def Alone (p : Proc F) (e : Event) : Prop :=
  match e.op with
  | .clean => p.main = .idle
  | .work .. => True
  | .recv m => p.cleaner = .asleep ∧
      match m with
      | .functionResponse _ fid _ _ => ∃ k, p.task = some k ∧ k.functionId = fid
      | _ => True

/-- The states a processor can be in if the threads do not meet. -/
inductive ReachAlone (rt : Runtime F V X) (retention start : Int) : Proc F → Prop where
  | init : ReachAlone rt retention start (Proc.init retention start)
  | step {p p' : Proc F} (e : Event) : ReachAlone rt retention start p → Alone p e → p.step rt e = .ok p' →
      ReachAlone rt retention start p'

end Verif.Spec.Processor
