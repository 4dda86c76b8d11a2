import Verif.Client.Graph

/-!
# `scaled/client.py`: calls of the user from beginning to end

`submit`, `map` and `get` as the user's thread goes through them: `map` (client.py 96-109) and `get` with `block=True`
(111-143) wait for their futures in order; when one of them raises, they disconnect the client, wait for the
connector's thread to end (`Thread.join`) and raise.

Simplifications.
* There is one user thread.  Futures may be cancelled and `disconnect` may be called at any time (callbacks of futures
  run in the connector's thread).
* When the connector's thread raises, it is gone (`dead`); what the handler changed before it raised stays (`leave`).
* What `result()` raises is given by the state of the future: the pickled exception, `CancelledError` or
  `ScaledDisconnect`.
-/

namespace Verif.Client

open Verif.Wire

/-- Where the user's thread stands in a call (scaled/client.py 76-143). -/
inductive Call where
  /-- no call was made -/
  | free
  /-- the calls of `submit` that are left with their ids, and the futures so far (client.py 100); `submit` itself is a
  list of one, which does not wait -/
  | submitting (name content : Bytes) (left : List (Bytes × List Bytes)) (got : List (Bytes × Nat)) (block : Bool)
  /-- inside `get`, before client.py 132 -/
  | getting (futures : List (Bytes × Nat)) (block : Bool)
  /-- before `result()` of the first of these futures (client.py 103, 137) -/
  | waiting (left : List (Bytes × Nat)) (results : List (Bytes × Bytes))
  /-- inside `join` (client.py 106, 140) -/
  | joining (x : FState)
  /-- futures were returned (client.py 94, 134) -/
  | handed (futures : List (Bytes × Nat))
  /-- results were returned (client.py 109, 143) -/
  | returned (results : List (Bytes × Bytes))
  /-- what a future held was raised (client.py 107, 141) -/
  | raised (x : FState)
  /-- another exception -/
  | rejected (e : PyErr)
  deriving DecidableEq

/-- A client and its user (scaled/client.py 43-146). -/
structure Caller where
  client : Client
  /-- the connector's thread ended with an exception -/
  dead : Bool
  call : Call

/-- What can happen (scaled/client.py 76-246). -/
inductive COp where
  /-- the user calls `submit` -/
  | submit (t name content : Bytes) (args : List Bytes)
  /-- the user calls `map`; `ids` are what `uuid1` returns -/
  | map (ids : List Bytes) (name content : Bytes) (it : Iter)
  /-- the user calls `get` -/
  | get (ids : List Bytes) (gid : Bytes) (g : Dict Bytes UserNode) (keys : List Bytes) (block : Bool)
  /-- the user's thread goes on -/
  | go
  /-- a future is cancelled -/
  | cancel (n : Nat)
  /-- `disconnect` is called -/
  | disconnect
  /-- a message comes to the connector's thread -/
  | recv (m : Message)
  /-- the connector's thread sends -/
  | flush
  /-- the connector's thread looks at `_stop_event` -/
  | exit
  deriving DecidableEq

namespace Client

/-- `set_result` or `set_exception`; when it raises, the client is left as it is (scaled/client.py 223-231, 238-246). -/
def finishAt (c : Client) (n : Nat) (s : FState) : Except Client Client :=
  match c.setFuture n (FState.finish s) with
  | .ok c' => .ok c'
  | .error _ => .error c

/-- The loops client.py 224-225 and 230-231, with what they leave behind when they raise. -/
def resolveLeft (c : Client) (f : Bytes → Py FState) : List Bytes → List Nat → Except Client Client
  | [], _ => .ok c
  | _ :: _, [] => .error c
  | r :: rs, n :: ns =>
    match f r with
    | .ok s => do (← c.finishAt n s).resolveLeft f rs ns
    | .error _ => .error c

/-- The loop client.py 237-239, with what it leaves behind when it raises. -/
def tasksLeft (c : Client) : List (Bytes × Nat) → Except Client Client
  | [] => .ok c
  | (t, n) :: l => do (← (c.note (.sent (.taskCancel t))).finishAt n .disconnected).tasksLeft l

/-- The loop client.py 245-246, with what it leaves behind when it raises. -/
def futuresLeft (c : Client) : List Nat → Except Client Client
  | [] => .ok c
  | n :: ns => do (← c.finishAt n .disconnected).futuresLeft ns

/-- The loop client.py 243-246, with what it leaves behind when it raises. -/
def graphsLeft (c : Client) : List (Bytes × List Nat) → Except Client Client
  | [] => .ok c
  | (g, ns) :: l => do (← (c.note (.sent (.graphTaskCancel g))).futuresLeft ns).graphsLeft l

/-- The client after a loop (scaled/client.py 218-246). -/
def after : Except Client Client → Client
  | .ok c => c
  | .error c => c

/-- What is left behind when the connector's thread raises: client.py 184 (the function of an echoed task is gone), 223-231
and 237-246 (the futures before the one that raised are resolved).  Tables that only this thread looks at are left as they are. -/
def leave (p : Pickle) (c : Client) : Op → Client
  | .recv m =>
    let c := c.note (.recv m)
    match m with
    | .taskEcho t .submitOK => { c with toFunction := c.toFunction.erase t }
    | .graphTaskResult g st rs =>
      let ns := (c.graphs.get? g).getD []
      match st with
      | .success => after (c.resolveLeft (fun r => if p.loads r then .ok (.result r) else .error .valueError) rs ns)
      | .failed =>
        match rs with
        | [] => c
        | x :: _ => if p.loads x then after (c.resolveLeft (fun _ => .ok (.exception x)) rs ns) else c
      | _ => c
    | _ => c
  | .exit => after do (← c.tasksLeft c.toFuture.items).graphsLeft c.graphs.items
  | _ => c

end Client

namespace Caller

/-- client.py 44-70 -/
def init : Caller := ⟨Client.init, false, .free⟩

/-- The user's thread is in no call (scaled/client.py 76-143). -/
def idle (b : Caller) : Bool :=
  decide (b.client.user = .idle) &&
  match b.call with
  | .free => true
  | .handed _ => true
  | .returned _ => true
  | .raised _ => true
  | .rejected _ => true
  | _ => false

/-- client.py 92-94: `submit` returns a new future. -/
def record (c : Client) (call : Call) : Call :=
  match c.user, call with
  | .register k, .submitting nm b left got block => .submitting nm b left (got ++ [(k.taskId, c.futures.length)]) block
  | _, call => call

/-- The user's thread goes on (scaled/client.py 96-143). -/
def go (p : Pickle) (b : Caller) : Caller :=
  if b.client.user = .idle then
    match b.call with
    -- client.py 77-87
    | .submitting nm ct ((t, args) :: left) got block =>
      { b with client := b.client.submit p t nm ct args, call := .submitting nm ct left got block }
    -- client.py 94 and 102
    | .submitting _ _ [] got block => { b with call := if block then .waiting got [] else .handed got }
    -- client.py 132-136
    | .getting fs block => { b with call := if block then .waiting fs [] else .handed fs }
    -- client.py 109, 143
    | .waiting [] rs => { b with call := .returned rs }
    -- client.py 103-105, 137-139
    | .waiting ((k, n) :: left) rs =>
      match b.client.futures[n]? with
      | some (.result r) => { b with call := .waiting left (rs ++ [(k, r)]) }
      | some .pending => b
      | some .running => b
      | some x => { b with client := { b.client with stop := true }, call := .joining x }
      | none => b
    -- client.py 106-107, 140-141
    | .joining x => if b.client.closed || b.dead then { b with call := .raised x } else b
    | _ => b
  else
    match b.client.advance with
    | .ok c => { b with client := c, call := record b.client b.call }
    | .error e => { b with call := .rejected e }

/-- The connector's thread does something (scaled/client.py 148-246, scaled/io/sync_connector.py 77-132). -/
def thread (p : Pickle) (b : Caller) (o : Op) : Caller :=
  if b.dead then b
  else match b.client.step p o with
    | .ok c => { b with client := c }
    | .error _ => { b with client := b.client.leave p o, dead := true }

/-- One event (scaled/client.py 76-246). -/
def step (p : Pickle) (b : Caller) : COp → Caller
  | .submit t nm ct args => if b.idle then { b with call := .submitting nm ct [(t, args)] [] false } else b
  | .map ids nm ct it =>
    if b.idle then
      match mapCalls it with
      | .ok cs => { b with call := .submitting nm ct (ids.zip cs) [] true }
      | .error e => { b with call := .rejected e }
    else b
  | .get ids gid g keys block =>
    if b.idle then
      match b.client.callGet p ids gid g keys with
      | .ok (c, fs) => { b with client := c, call := .getting fs.items block }
      | .error e => { b with call := .rejected e }
    else b
  | .go => b.go p
  | .cancel n => { b with client := { (b.client.note (.cancelled n)) with futures := b.client.futures.modify n FState.cancel } }
  | .disconnect => { b with client := { b.client with stop := true } }
  | .recv m => b.thread p (.recv m)
  | .flush => b.thread p .flush
  | .exit => b.thread p .exit

end Caller

/-- `uuid1` returns new ids (client.py 79, 336, 362). -/
def FreshCall (p : Pickle) (b : Caller) : COp → Prop
  | .go =>
    match b.client.user, b.call with
    | .idle, .submitting _ _ ((t, _) :: _) _ _ => t ∉ usedIds b.client.log
    | _, _ => True
  | .get ids gid g keys _ => ∀ m, buildGraph p ids gid g keys = .ok m → FreshOp b.client (.get m)
  | _ => True

/-- From one state to another (scaled/client.py 76-246). -/
inductive Calls (p : Pickle) : Caller → List COp → Caller → Prop where
  | nil (b : Caller) : Calls p b [] b
  | cons {b b' : Caller} {os : List COp} (o : COp) (hf : FreshCall p b o) (h : Calls p (b.step p o) os b') : Calls p b (o :: os) b'

end Verif.Client
