import Verif.Props.Rest
import Verif.Props.Running

/-!
# Concrete systems at rest

A check that implies `Rest`, and runs that are at rest: one that answered everything, and the three ways in which a
submitted task is kept for ever.
-/

namespace Verif.Props

open Verif.Wire Verif.Sched Verif.Spec Verif.System

/-! ### A check for rest -/

/-- The messages a peer sent to the scheduler. -/
def sentList : Peer Nat → List Message
  | .absent => []
  | .client c => c.log.filterMap fun y => match y with | .sent m => some m | _ => none
  | .worker a _ _ left => (a.log.filterMap fun y => match y.2 with | .sent m => some m | _ => none) ++ (left.map Message.disconnectRequest).toList

theorem mem_sentList {P : Peer Nat} {m : Message} (h : 0 < P.sent m) : m ∈ sentList P := by
  cases P with
  | absent => cases h
  | client c =>
    obtain ⟨y, hy, he⟩ := List.countP_pos_iff.1 h
    refine List.mem_filterMap.2 ⟨y, hy, ?_⟩
    rw [of_decide_eq_true he]
  | worker a ret qs left =>
    refine List.mem_append.2 ?_
    by_cases hl : left.map Message.disconnectRequest = some m
    · exact .inr (by simp [hl])
    · refine .inl ?_
      simp only [Peer.sent, hl, if_false, Nat.add_zero] at h
      obtain ⟨y, hy, he⟩ := List.countP_pos_iff.1 h
      refine List.mem_filterMap.2 ⟨y, hy, ?_⟩
      rw [of_decide_eq_true he]

/-- Everything the scheduler sent to `x` arrived. -/
def gotAll (s : Sys Nat) (x : Bytes) : Bool := s.sched.out.all fun e => decide (e.1 = x → s.sched.out.count e ≤ (s.peers x).got e.2)

theorem gotAll_ok {s : Sys Nat} {x : Bytes} (h : gotAll s x = true) (m : Message) : s.sched.out.count (x, m) ≤ (s.peers x).got m := by
  by_cases hm : (x, m) ∈ s.sched.out
  · exact of_decide_eq_true (List.all_eq_true.1 h _ hm) rfl
  · rw [List.count_eq_zero.2 hm]; exact Nat.zero_le _

/-- A turn of the agent's loop does nothing. -/
def turnRests (a : Worker.Agent) : Bool :=
  match a.pos with
  | .idle => decide (a.queue.len = 0)
  | .lock _ => a.locked
  | .init _ b => !b

theorem turnRests_ok {a : Worker.Agent} (h : turnRests a = true) (now : Int) : a.turn now = .ok a := by
  unfold turnRests at h
  unfold Worker.Agent.turn
  cases hp : a.pos with
  | idle => simp only [hp] at h ⊢; rw [if_pos (of_decide_eq_true h)]
  | lock k => simp only [hp] at h ⊢; rw [if_pos h]
  | init k b =>
    simp only [hp] at h ⊢
    cases b
    · rfl
    · cases h

/-- The messages the processors sent. -/
def procsList (qs : List (Proc.Proc Nat)) : List Message :=
  qs.flatMap fun q => q.log.filterMap fun y => match y.2 with | .sent m => some m | _ => none

theorem mem_procsList {qs : List (Proc.Proc Nat)} {m : Message} (h : 0 < procsSent m qs) : m ∈ procsList qs := by
  induction qs with
  | nil => cases h
  | cons q qs ih =>
    simp only [procsSent, List.map_cons, List.sum_cons] at h
    by_cases h0 : 0 < q.log.countP fun x => decide (x.2 = .sent m)
    · obtain ⟨y, hy, he⟩ := List.countP_pos_iff.1 h0
      refine List.mem_flatMap.2 ⟨q, List.mem_cons_self .., List.mem_filterMap.2 ⟨y, hy, ?_⟩⟩
      rw [of_decide_eq_true he]
    · have := ih (by simp only [procsSent]; omega)
      simp only [procsList, List.flatMap_cons, List.mem_append]
      exact .inr this

/-- The worker rests. -/
def workerRests (s : Sys Nat) (w : Bytes) (a : Worker.Agent) (qs : List (Proc.Proc Nat)) : Bool :=
  gotAll s w && turnRests a && ((procsList qs).all fun m => decide (procsSent m qs ≤ heardOf m a.log)) &&
  match a.processor with
  | some n =>
    match qs[n]? with
    | some q => decide (q.main = .idle) && a.log.all fun y => match y.2 with | .told n' m => decide (n' = n → toldTo n m a.log ≤ taken m q) | _ => true
    | none => true
  | none => true

theorem workerRests_ok {s : Sys Nat} {w : Bytes} {a : Worker.Agent} {qs : List (Proc.Proc Nat)} (h : workerRests s w a qs = true) :
    WorkerRests s w a qs := by
  simp only [workerRests, Bool.and_eq_true] at h
  obtain ⟨⟨⟨h1, h2⟩, h3⟩, h4⟩ := h
  refine ⟨gotAll_ok h1, turnRests_ok h2, fun m => ?_, fun n q hn hq => ?_⟩
  · by_cases hm : 0 < procsSent m qs
    · exact of_decide_eq_true (List.all_eq_true.1 h3 m (mem_procsList hm))
    · omega
  · simp only [hn, hq, Bool.and_eq_true] at h4
    refine ⟨of_decide_eq_true h4.1, fun m => ?_⟩
    by_cases hm : 0 < toldTo n m a.log
    · obtain ⟨y, hy, he⟩ := List.countP_pos_iff.1 hm
      have := List.all_eq_true.1 h4.2 y hy
      rw [of_decide_eq_true he] at this
      exact of_decide_eq_true this rfl
    · omega

/-- The system rests, if all its peers are in `xs`. -/
def rests (xs : List Bytes) (s : Sys Nat) : Bool :=
  (xs.all fun x => (sentList (s.peers x)).all fun m => decide ((s.peers x).sent m ≤ s.received.count (x, m))) &&
  s.sched.gm.queue.isEmpty &&
  (match s.sched.taskRoutine with | .ok s' => decide (s'.out = s.sched.out) | .error _ => true) &&
  (s.sched.wm.alive.keys.all fun w => match s.peers w with | .worker _ _ _ none => true | _ => false) &&
  xs.all fun x => match s.peers x with
    | .worker a _ qs none => workerRests s x a qs
    | .client c => c.closed || decide (c.user = .idle) && c.outbox.isEmpty && gotAll s x
    | _ => true

/-- All peers are in `xs`. -/
def Only (xs : List Bytes) (s : Sys Nat) : Prop := ∀ x, x ∉ xs → s.peers x = .absent

theorem rests_ok {xs : List Bytes} {s : Sys Nat} (ho : Only xs s) (h : rests xs s = true) : Rest s := by
  simp only [rests, Bool.and_eq_true] at h
  obtain ⟨⟨⟨⟨h1, h2⟩, h3⟩, h4⟩, h5⟩ := h
  have hin : ∀ x, s.peers x ≠ .absent → x ∈ xs := fun x hx => Classical.byContradiction fun hn => hx (ho x hn)
  refine ⟨fun x m => ?_, by simpa using h2, fun e s' he hs => ?_, fun w hw => ?_, fun w a ret qs hx => ?_, fun x c hx hc => ?_⟩
  · by_cases hm : 0 < (s.peers x).sent m
    · have hx : x ∈ xs := hin x fun e => by rw [e] at hm; cases hm
      exact of_decide_eq_true (List.all_eq_true.1 (List.all_eq_true.1 h1 x hx) m (mem_sentList hm))
    · omega
  · simp only [Sched.step, he] at hs
    rw [hs] at h3
    exact of_decide_eq_true h3
  · have := List.all_eq_true.1 h4 w (Dict.has_iff.1 hw)
    split at this
    · next a ret qs hx => exact ⟨a, ret, qs, hx⟩
    · cases this
  · have := List.all_eq_true.1 h5 w (hin w (by rw [hx]; exact nofun))
    rw [hx] at this
    exact workerRests_ok this
  · have := List.all_eq_true.1 h5 x (hin x (by rw [hx]; exact nofun))
    rw [hx] at this
    simp only [hc, Bool.false_or, Bool.and_eq_true] at this
    exact ⟨hc, of_decide_eq_true this.1.1, by simpa using this.1.2, gotAll_ok this.2⟩

/-! ### Runs of a few peers -/

/-- The peer an event is about. -/
def opPeer : System.Op → Option Bytes
  | .joinClient x => some x
  | .joinWorker x _ _ _ => some x
  | .sched _ => none
  | .client x _ => some x
  | .get x _ _ _ _ => some x
  | .agent x _ => some x
  | .proc x _ _ => some x
  | .leave x => some x

theorem setPeer_other {F : Type} {s : Sys F} {x y : Bytes} {P : Peer F} (h : y ≠ x) : (s.setPeer x P).peers y = s.peers y := by
  simp [Sys.setPeer, h]

theorem clientStep_other {F : Type} {p : Client.Pickle} {s s' : Sys F} {x y : Bytes} {c : Client.Client} {o : Client.Op} (hs : s.clientStep p x c o = some s') (hy : y ≠ x) :
    s'.peers y = s.peers y := by
  unfold Sys.clientStep at hs
  split at hs <;> cases hs
  exact setPeer_other hy

theorem agentStep_other {F : Type} {s s' : Sys F} {x y : Bytes} {a : Worker.Agent} {ret : Int} {qs : List (Proc.Proc F)} {e : Worker.Agent.Event}
    (hs : s.agentStep x a ret qs e = some s') (hy : y ≠ x) : s'.peers y = s.peers y := by
  unfold Sys.agentStep at hs
  split at hs <;> cases hs
  exact setPeer_other hy

theorem procStep_other {F V X : Type} {rt : Proc.Runtime F V X} {s s' : Sys F} {x y : Bytes} {a : Worker.Agent} {ret : Int} {qs : List (Proc.Proc F)} {n : Nat} {q : Proc.Proc F} {e : Proc.Event}
    (hs : s.procStep rt x a ret qs n q e = some s') (hy : y ≠ x) : s'.peers y = s.peers y := by
  unfold Sys.procStep at hs
  split at hs <;> cases hs
  exact setPeer_other hy

theorem step_other {F V X : Type} {p : Client.Pickle} {rt : Proc.Runtime F V X} {s s' : Sys F} {o : System.Op} (hs : s.step p rt o = some s') {y : Bytes} (hy : opPeer o ≠ some y) :
    s'.peers y = s.peers y := by
  cases o with
  | sched e =>
    rcases sched_moves hs with ⟨_, _⟩ | ⟨_, _, _, h, _⟩
    · simp only [Sys.step, Sys.schedStep] at hs
      repeat' split at hs
      all_goals cases hs <;> rfl
    · rw [h]
  | joinClient x =>
    simp only [Sys.step] at hs
    split at hs <;> cases hs
    exact setPeer_other fun e => hy (by rw [e]; rfl)
  | joinWorker x d ret now =>
    simp only [Sys.step] at hs
    split at hs <;> cases hs
    exact setPeer_other fun e => hy (by rw [e]; rfl)
  | client x o =>
    have hy' : y ≠ x := fun e => hy (by rw [e]; rfl)
    simp only [Sys.step] at hs
    split at hs
    · unfold Sys.clientOp at hs
      split at hs
      · split at hs
        · cases hs
        · have := clientStep_other hs hy'; exact this
      · cases hs
      · split at hs
        · split at hs
          · cases hs
          · split at hs
            · exact clientStep_other hs hy'
            · cases hs
        · cases hs
      · exact clientStep_other hs hy'
    · cases hs
  | get x ids gid g keys =>
    have hy' : y ≠ x := fun e => hy (by rw [e]; rfl)
    simp only [Sys.step] at hs
    split at hs
    · simp only [Sys.getOp] at hs
      split at hs
      · split at hs
        · cases hs; exact setPeer_other (s := s) hy'
        · cases hs
      · cases hs
    · cases hs
  | agent x e =>
    have hy' : y ≠ x := fun e => hy (by rw [e]; rfl)
    simp only [Sys.step] at hs
    split at hs
    · unfold Sys.agentOp at hs
      split at hs
      · split at hs
        · split at hs
          · cases hs
          · split at hs
            · exact agentStep_other hs hy'
            · cases hs
        · cases hs
      · repeat' split at hs
        all_goals first | exact agentStep_other hs hy' | cases hs
      · exact agentStep_other hs hy'
    · cases hs
  | proc x n e =>
    have hy' : y ≠ x := fun e => hy (by rw [e]; rfl)
    simp only [Sys.step] at hs
    split at hs
    · unfold Sys.procOp at hs
      repeat' split at hs
      all_goals first | exact procStep_other hs hy' | cases hs
    · cases hs
  | leave x =>
    have hy' : y ≠ x := fun e => hy (by rw [e]; rfl)
    simp only [Sys.step] at hs
    split at hs <;> cases hs
    exact setPeer_other hy'

/-- An event about one of `xs`, if it can happen; with `keep` only if it gives up no worker with a task. -/
def stepWithin (keep : Bool) (xs : List Bytes) (s : Sys Nat) (o : System.Op) : Sys Nat :=
  if (opPeer o).all (fun x => decide (x ∈ xs)) then
    match s.step plainPickle toy o with
    | some s' => if !keep || keepsAll s s' then s' else s
    | none => s
  else s

/-- Everybody goes on a little. -/
def restRound (keep : Bool) (xs : List Bytes) (s : Sys Nat) : Sys Nat :=
  (xs.flatMap (peerOps s) ++ [schedOp .graphRoutine, schedOp .taskRoutine]).foldl (stepWithin keep xs) s

def restRounds (keep : Bool) (xs : List Bytes) : Nat → Sys Nat → Sys Nat
  | 0, s => s
  | n + 1, s => restRounds keep xs n (restRound keep xs s)

/-- Events, and then `n` such rounds. -/
def playRest (keep : Bool) (xs : List Bytes) (cfg : Config) (l : Script) : Sys Nat :=
  l.foldl (fun s x => restRounds keep xs x.2 (x.1.foldl (stepWithin keep xs) s)) (Sys.init cfg)

theorem playRest_all {keep : Bool} {xs : List Bytes} {cfg : Config} {Q : Sys Nat → Prop} (h0 : Q (Sys.init cfg))
    (h : ∀ s o, Q s → Q (stepWithin keep xs s o)) (l : Script) : Q (playRest keep xs cfg l) := by
  have hfold : ∀ (os : List System.Op) s, Q s → Q (os.foldl (stepWithin keep xs) s) := by
    intro os
    induction os with
    | nil => exact fun _ h => h
    | cons o os ih => exact fun s hs => ih _ (h s o hs)
  have hrounds : ∀ n s, Q s → Q (restRounds keep xs n s) := by
    intro n
    induction n with
    | zero => exact fun _ h => h
    | succ n ih => exact fun s hs => ih _ (hfold _ _ hs)
  unfold playRest
  suffices hl : ∀ s, Q s → Q (l.foldl (fun s x => restRounds keep xs x.2 (x.1.foldl (stepWithin keep xs) s)) s) from hl _ h0
  induction l with
  | nil => exact fun _ h => h
  | cons x l ih => exact fun s hs => ih _ (hrounds _ _ (hfold _ _ hs))

theorem stepWithin_cases (keep : Bool) (xs : List Bytes) (s : Sys Nat) (o : System.Op) : stepWithin keep xs s o = s ∨
    ∃ s', s.step plainPickle toy o = some s' ∧ stepWithin keep xs s o = s' ∧ (∀ x, opPeer o = some x → x ∈ xs) ∧
      (keep = true → keepsAll s s' = true) := by
  unfold stepWithin
  split
  · next hx =>
    cases he : s.step plainPickle toy o with
    | none => exact .inl rfl
    | some s' =>
      simp only
      split
      · next hk =>
        refine .inr ⟨s', rfl, rfl, fun x hx' => ?_, fun e => ?_⟩
        · rw [hx'] at hx
          exact of_decide_eq_true hx
        · rw [e] at hk
          simpa using hk
      · exact .inl rfl
  · exact .inl rfl

theorem playRest_only (keep : Bool) (xs : List Bytes) (cfg : Config) (l : Script) : Only xs (playRest keep xs cfg l) := by
  refine playRest_all (fun _ _ => rfl) (fun s o h => ?_) l
  rcases stepWithin_cases keep xs s o with e | ⟨s', hs, e, hx, -⟩ <;> rw [e]
  · exact h
  · intro y hy
    rw [step_other hs fun e => hy (hx y e)]
    exact h y hy

theorem playRest_reach (keep : Bool) (xs : List Bytes) (cfg : Config) (l : Script) : System.Reach plainPickle toy cfg (playRest keep xs cfg l) := by
  refine playRest_all .init (fun s o h => ?_) l
  rcases stepWithin_cases keep xs s o with e | ⟨s', hs, e, -, -⟩ <;> rw [e]
  · exact h
  · exact .step o h hs

theorem playRest_steady (xs : List Bytes) (cfg : Config) (l : Script) : Steady plainPickle toy cfg (fun _ => True) (playRest true xs cfg l) := by
  refine playRest_all .init (fun s o h => ?_) l
  rcases stepWithin_cases true xs s o with e | ⟨s', hs, e, -, hk⟩ <;> rw [e]
  · exact h
  · exact .step o h hs fun t w _ hw => List.all_eq_true.1 (hk rfl) (t, w) (Dict.mem_items.2 hw)

/-! ### What the runs show -/

/-- A result for task `t` arrived. -/
def hasResult (t : Bytes) (l : List Client.Act) : Bool :=
  l.any fun y => match y with | .recv (.taskResult t' _ _ _) => decide (t' = t) | _ => false

theorem hasResult_not {t : Bytes} {l : List Client.Act} (h : hasResult t l = false) (st : TaskStatus) (d : UInt32) (r : Bytes) :
    Client.Act.recv (.taskResult t st d r) ∉ l := fun hm => by
  have := List.any_eq_false.1 h _ hm
  simp at this

def noCancel (s : Sys Nat) : Bool := s.sched.out.all fun e => match e.2 with | .taskCancel _ => false | _ => true

theorem noCancel_ok {s : Sys Nat} (h : noCancel s = true) : NoCancel s := fun _ _ hm => by
  have := List.all_eq_true.1 h _ hm
  cases this

def loadsRight (s : Sched.Sched) : Bool :=
  s.wm.alloc.w2t.items.all fun x => match s.wm.alloc.queue.prio x.1 with | some n => decide (n = x.2.size) | none => true

theorem loadsRight_ok {s : Sched.Sched} (h : loadsRight s = true) : LoadsRight s := fun w n ts h1 h2 => by
  have := List.all_eq_true.1 h (w, ts) (Dict.mem_items.2 h2)
  simp only [h1] at this
  exact of_decide_eq_true this

/-- One task fits at each worker. -/
def narrow : Sched.Config := ⟨-1, 1, 100, 100, 1, 2⟩

/-- Two tasks; the second one is submitted `n` rounds after the first one. -/
def twoTasks (n : Nat) : Script :=
  [(meet, 1), ((submitAll [10]).map (System.Op.client [1]), n), ((submitAll [11]).map (System.Op.client [1]), 25)]

/-- What the client does in such a run. -/
def twoAlone (n : Nat) : List Client.Op :=
  let fnAgain : Client.Op := .recv (.functionResponse .duplicated [9] [] [])
  let echo := fun t => Client.Op.recv (.taskEcho t .submitOK)
  let res := fun t => Client.Op.recv (.taskResult t .success 0 [9])
  submitAll [10] ++ [.flush, fnOk, .flush] ++
  if n = 5 then submitAll [11] ++ [.flush, echo [10], fnAgain, .flush, echo [11], res [10], res [11]]
  else [echo [10]] ++ submitAll [11] ++ [.flush, fnAgain, .flush, echo [11], res [10]]

/-- A system at rest with two answered tasks. -/
example : ∃ s : Sys Nat, Steady plainPickle toy narrow (fun _ => True) s ∧ NoCancel s ∧ Rest s ∧ LoadsRight s.sched ∧ 1 ≤ narrow.queueSize ∧
    Connected s.sched [2] ∧ ∃ c, s.peers [1] = .client c ∧ Spec.Client.ReachAlone plainPickle c ∧ c.closed = false ∧
    Client.Act.submitted ⟨[10], [9], []⟩ [5] [9] ∈ c.log ∧ Client.Act.submitted ⟨[11], [9], []⟩ [5] [9] ∈ c.log := by
  have h : (clientAloneRun plainPickle .init (twoAlone 5)).map (fun c => let s := playRest true [[1], [2]] narrow (twoTasks 5)
      decide (noCancel s = true ∧ rests [[1], [2]] s = true ∧ loadsRight s.sched = true ∧ Connected s.sched [2] ∧ clientAt s [1] = some c ∧
        c.closed = false ∧ Client.Act.submitted ⟨[10], [9], []⟩ [5] [9] ∈ c.log ∧ Client.Act.submitted ⟨[11], [9], []⟩ [5] [9] ∈ c.log)) = some true := by
    decide +kernel
  obtain ⟨c, hc, h⟩ := Option.map_eq_some_iff.1 h
  obtain ⟨h1, h2, h3, h4, h5, h6⟩ := of_decide_eq_true h
  exact ⟨_, playRest_steady _ _ _, noCancel_ok h1, rests_ok (playRest_only _ _ _ _) h2, loadsRight_ok h3, by decide, h4, c, clientAt_eq h5,
    clientAloneRun_reach _ .init hc, h6⟩

/-- A worker asked for a function and got it. -/
example : ∃ s : Sys Nat, Steady plainPickle toy narrow (fun _ => True) s ∧ NoCancel s ∧ (∃ a ret qs, s.peers [2] = .worker a ret qs none) ∧
    ([2], .functionRequest .request [9] [] []) ∈ s.received := by
  have h : (agentAt (playRest true [[1], [2]] narrow (twoTasks 5)) [2]).map (fun _ => let s := playRest true [[1], [2]] narrow (twoTasks 5)
      decide (noCancel s = true ∧ ([2], .functionRequest .request [9] [] []) ∈ s.received)) = some true := by decide +kernel
  obtain ⟨a, ha, h⟩ := Option.map_eq_some_iff.1 h
  obtain ⟨h1, h2⟩ := of_decide_eq_true h
  obtain ⟨ret, qs, hx⟩ := agentAt_eq ha
  exact ⟨_, playRest_steady _ _ _, noCancel_ok h1, ⟨a, ret, qs, hx⟩, h2⟩

/-- A system at rest with an answered graph. -/
example : ∃ s : Sys Nat, Steady plainPickle toy wide (fun _ => True) s ∧ NoCancel s ∧ Rest s ∧ LoadsRight s.sched ∧ 1 ≤ wide.queueSize ∧ wide.maxWaiting < 0 ∧
    Connected s.sched [2] ∧ ∃ c g, s.peers [1] = .client c ∧ c.closed = false ∧ Client.Act.graph g ∈ c.log ∧ g.taskId = [30] ∧
    Client.Act.recv (.graphTaskResult [30] .success [[9]]) ∈ c.log := by
  have h : (clientAt (playRest true [[1], [2]] wide [(meet, 1), ([askSole], 25)]) [1]).map (fun c => let s := playRest true [[1], [2]] wide [(meet, 1), ([askSole], 25)]
      decide (noCancel s = true ∧ rests [[1], [2]] s = true ∧ loadsRight s.sched = true ∧ Connected s.sched [2] ∧ c.closed = false ∧
        ((c.log.findSome? fun x => match x with | .graph g => some g | _ => none).map (·.taskId)) = some [30] ∧
        Client.Act.recv (.graphTaskResult [30] .success [[9]]) ∈ c.log)) = some true := by
    decide +kernel
  obtain ⟨c, hc, h⟩ := Option.map_eq_some_iff.1 h
  obtain ⟨h1, h2, h3, h4, h5, h6, h7⟩ := of_decide_eq_true h
  obtain ⟨g, hg, h6⟩ := Option.map_eq_some_iff.1 h6
  obtain ⟨y, hy, hyg⟩ := List.exists_of_findSome?_eq_some hg
  have hy : Client.Act.graph g ∈ c.log := by
    cases y <;> cases hyg
    exact hy
  exact ⟨_, playRest_steady _ _ _, noCancel_ok h1, rests_ok (playRest_only _ _ _ _) h2, loadsRight_ok h3, by decide, by decide, h4, c, g, clientAt_eq hc,
    h5, hy, h6, h7⟩

/-- **The claim is false**: a submitted task waits for ever although the only worker has nothing to do.  The scheduler counts one
task too many for it: the submission of the second task looked at the worker with the lowest load, which takes its entry out of
the table in which loads are lowered (async_priority_queue.py 48-51), so the result of the first task did not lower the load. -/
theorem C90_hang : ∃ s : Sys Nat, Steady plainPickle toy narrow (fun _ => True) s ∧ NoCancel s ∧ Rest s ∧ 1 ≤ narrow.queueSize ∧
    Connected s.sched [2] ∧ ∃ c, s.peers [1] = .client c ∧ Spec.Client.ReachAlone plainPickle c ∧ c.closed = false ∧
    Client.Act.submitted ⟨[11], [9], []⟩ [5] [9] ∈ c.log ∧ Client.Act.recv (.taskEcho [11] .submitOK) ∈ c.log ∧
    (∀ st d r, Client.Act.recv (.taskResult [11] st d r) ∉ c.log) ∧ [11] ∈ waitingQueue s.sched ∧ s.sched.wm.alloc.t2w.items = [] ∧
    s.sched.wm.alloc.queue.prio [2] = some 1 := by
  have h : (clientAloneRun plainPickle .init (twoAlone 13)).map (fun c => let s := playRest true [[1], [2]] narrow (twoTasks 13)
      decide (noCancel s = true ∧ rests [[1], [2]] s = true ∧ Connected s.sched [2] ∧ clientAt s [1] = some c ∧
        c.closed = false ∧ Client.Act.submitted ⟨[11], [9], []⟩ [5] [9] ∈ c.log ∧ Client.Act.recv (.taskEcho [11] .submitOK) ∈ c.log ∧
        hasResult [11] c.log = false ∧ [11] ∈ waitingQueue s.sched ∧ s.sched.wm.alloc.t2w.items = [] ∧ s.sched.wm.alloc.queue.prio [2] = some 1)) = some true := by
    decide +kernel
  obtain ⟨c, hc, h⟩ := Option.map_eq_some_iff.1 h
  obtain ⟨h1, h2, h4, h5, h6, h7, h8, h9, h10⟩ := of_decide_eq_true h
  exact ⟨_, playRest_steady _ _ _, noCancel_ok h1, rests_ok (playRest_only _ _ _ _) h2, by decide, h4, c, clientAt_eq h5,
    clientAloneRun_reach _ .init hc, h6, h7, h8, hasResult_not h9, h10⟩

/-- The answer about the function arrives after `submit` of the second task has seen that it is awaited. -/
def strandedRun : Script :=
  [(meet, 1), ((submitAll [10] ++ [Client.Op.flush]).map (System.Op.client [1]) ++ [schedOp (.recv [1] (.functionRequest .add [9] [5] [9]))] ++
    ([.submit [11] [5] [9] [], .advance, .advance, fnOk, .advance, .advance] : List Client.Op).map (System.Op.client [1]), 25)]

/-- **The claim is false**: a submitted task stays with the client for ever, see `C46_stranded`. -/
theorem C90_stranded : ∃ s : Sys Nat, Steady plainPickle toy wide (fun _ => True) s ∧ NoCancel s ∧ Rest s ∧ LoadsRight s.sched ∧ 1 ≤ wide.queueSize ∧
    Connected s.sched [2] ∧ ∃ c, s.peers [1] = .client c ∧ c.closed = false ∧ Client.Act.submitted ⟨[11], [9], []⟩ [5] [9] ∈ c.log ∧
    (∀ st d r, Client.Act.recv (.taskResult [11] st d r) ∉ c.log) ∧ HeldUp wide s c ⟨[11], [9], []⟩ := by
  have h : (clientAt (playRest true [[1], [2]] wide strandedRun) [1]).map (fun c => let s := playRest true [[1], [2]] wide strandedRun
      decide (noCancel s = true ∧ rests [[1], [2]] s = true ∧ loadsRight s.sched = true ∧ Connected s.sched [2] ∧
        c.closed = false ∧ Client.Act.submitted ⟨[11], [9], []⟩ [5] [9] ∈ c.log ∧ hasResult [11] c.log = false ∧
        c.notReady.get? [9] = some [⟨[11], [9], []⟩] ∧ Spec.Client.asked [9] c.log = false)) = some true := by
    decide +kernel
  obtain ⟨c, hc, h⟩ := Option.map_eq_some_iff.1 h
  obtain ⟨h1, h2, h3, h4, h5, h6, h7, h8, h9⟩ := of_decide_eq_true h
  exact ⟨_, playRest_steady _ _ _, noCancel_ok h1, rests_ok (playRest_only _ _ _ _) h2, loadsRight_ok h3, by decide, h4, c, clientAt_eq hc,
    h5, h6, hasResult_not h7, .stranded _ h8 (by simp) h9⟩

def onceAll (xs : List Bytes) (s : Sys Nat) : Bool :=
  xs.all fun x => match s.peers x with | .worker a _ _ _ => decide (toldIds a.log).Nodup | _ => true

/-- The worker that asked too late comes back and gets a task. -/
def stuckRun : Script :=
  tooLate ++ [([], 10), ([.agent [2] ⟨.heartbeat ⟨0, 0, 0, 0⟩, 400⟩], 1), ((submitAll [11]).map (System.Op.client [1]), 20)]

/-- **The claim is false**: a submitted task is with a worker whose processor waits for ever. -/
theorem C90_stuck : ∃ s : Sys Nat, System.Reach plainPickle toy wide s ∧ (∀ w a ret qs left, s.peers w = .worker a ret qs left → ToldOnce a.log) ∧
    NoCancel s ∧ Rest s ∧ LoadsRight s.sched ∧ 1 ≤ wide.queueSize ∧
    ∃ c, s.peers [1] = .client c ∧ c.closed = false ∧ Client.Act.submitted ⟨[11], [9], []⟩ [5] [9] ∈ c.log ∧
    (∀ st d r, Client.Act.recv (.taskResult [11] st d r) ∉ c.log) ∧ workerOf s.sched [11] = some [2] ∧ Stuck s [2] := by
  have h : (clientAt (playRest false [[1], [2], [3]] wide stuckRun) [1]).map (fun c => let s := playRest false [[1], [2], [3]] wide stuckRun
      decide (noCancel s = true ∧ rests [[1], [2], [3]] s = true ∧ loadsRight s.sched = true ∧
        c.closed = false ∧ Client.Act.submitted ⟨[11], [9], []⟩ [5] [9] ∈ c.log ∧ hasResult [11] c.log = false ∧
        workerOf s.sched [11] = some [2] ∧
        onceAll [[1], [2], [3]] s = true)) = some true := by
    decide +kernel
  obtain ⟨c, hc, h⟩ := Option.map_eq_some_iff.1 h
  obtain ⟨h1, h2, h3, h5, h6, h7, h8, h9⟩ := of_decide_eq_true h
  have ho := playRest_only false [[1], [2], [3]] wide stuckRun
  have hr := playRest_reach false [[1], [2], [3]] wide stuckRun
  have hR := rests_ok ho h2
  have hc := clientAt_eq hc
  generalize playRest false [[1], [2], [3]] wide stuckRun = s at *
  have honce : ∀ w a ret qs left, s.peers w = .worker a ret qs left → ToldOnce a.log := by
    intro w a ret qs left hx
    have := List.all_eq_true.1 h9 w (Classical.byContradiction fun hn => by rw [ho w hn] at hx; cases hx)
    rw [hx] at this
    exact toldOnce_of (of_decide_eq_true this)
  exact ⟨_, hr, honce, noCancel_ok h1, hR, loadsRight_ok h3, by decide, c, hc, h5, h6, hasResult_not h7, h8, given_rests hr honce hR h8⟩

end Verif.Props
