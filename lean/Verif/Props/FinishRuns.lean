import Verif.Props.Finish
import Verif.Props.RestRuns

/-!
# C95: runs
-/

namespace Verif.Props

open Verif.Sched Verif.Client Verif.System Verif.Spec Verif.Spec.Client

/-- What client `[1]` did. -/
def ownOp : System.Op → List Client.Op
  | .client [1] o => [o]
  | .get [1] ids gid g keys => match Client.buildGraph plainPickle ids gid g keys with
    | .ok m => [.get m]
    | .error _ => []
  | _ => []

/-- An event about client `[1]` or worker `[2]` that gives up no worker with a task, if it can happen, and what client `[1]` did. -/
def tracedStep (st : Sys Nat × List COp × List Client.Op) (o : System.Op) : Sys Nat × List COp × List Client.Op :=
  match st.1.step plainPickle toy o with
  | some s' => if (opPeer o).all (fun x => decide (x ∈ [[1], [2]])) && keepsAll st.1 s' then (s', st.2.1 ++ mirror st.1 o, st.2.2 ++ ownOp o) else st
  | none => st

def tracedRounds : Nat → Sys Nat × List COp × List Client.Op → Sys Nat × List COp × List Client.Op
  | 0, st => st
  | n + 1, st => tracedRounds n (([[1], [2]].flatMap (peerOps st.1) ++ [schedOp .graphRoutine, schedOp .taskRoutine]).foldl tracedStep st)

/-- A client and a worker; then each of the calls, during which no message arrives, and `n` rounds after it. -/
def tracedRun (ops : List System.Op) (n : Nat) : Sys Nat × List COp × List Client.Op :=
  ops.foldl (fun st o => tracedRounds n ((o :: List.replicate 4 (.client [1] .advance)).foldl tracedStep st)) (meet.foldl tracedStep (Sys.init wide, [], []))

theorem tracedRun_all {Q : Sys Nat → Prop} (h0 : Q (Sys.init wide)) (h : ∀ s o, Q s → Q (stepWithin true [[1], [2]] s o)) (ops : List System.Op) (n : Nat) :
    Q (tracedRun ops n).1 := by
  have hstep : ∀ st o, Q st.1 → Q (tracedStep st o).1 := by
    intro st o hq
    have := h st.1 o hq
    unfold stepWithin at this
    unfold tracedStep
    cases he : st.1.step plainPickle toy o with
    | none => exact hq
    | some s' =>
      simp only [he, Bool.not_true, Bool.false_or] at this ⊢
      by_cases hp : (opPeer o).all (fun x => decide (x ∈ [[1], [2]])) = true
      · by_cases hk : keepsAll st.1 s' = true
        · simp only [hp, hk, if_true, Bool.and_self] at this ⊢
          exact this
        · simpa only [hp, hk, Bool.and_false, Bool.false_eq_true, if_false] using hq
      · simpa only [hp, Bool.false_and, Bool.false_eq_true, if_false] using hq
  have hfold : ∀ (os : List System.Op) st, Q st.1 → Q (os.foldl tracedStep st).1 := by
    intro os
    induction os with
    | nil => exact fun _ h => h
    | cons o os ih => exact fun s hs => ih _ (hstep s o hs)
  have hrounds : ∀ n st, Q st.1 → Q (tracedRounds n st).1 := by
    intro n
    induction n with
    | zero => exact fun _ h => h
    | succ n ih => exact fun s hs => ih _ (hfold _ _ hs)
  have hops : ∀ (os : List System.Op) st, Q st.1 → Q (os.foldl (fun st o => tracedRounds n ((o :: List.replicate 4 (.client [1] .advance)).foldl tracedStep st)) st).1 := by
    intro os
    induction os with
    | nil => exact fun _ h => h
    | cons o os ih => exact fun s hs => ih _ (hrounds _ _ (hfold _ _ hs))
  exact hops _ _ (hfold _ _ h0)

theorem tracedRun_only (ops : List System.Op) (n : Nat) : Only [[1], [2]] (tracedRun ops n).1 := by
  refine tracedRun_all (fun _ _ => rfl) (fun s o h => ?_) ops n
  rcases stepWithin_cases true [[1], [2]] s o with e | ⟨s', hs, e, hx, -⟩ <;> rw [e]
  · exact h
  · intro y hy
    rw [step_other hs fun e => hy (hx y e)]
    exact h y hy

theorem tracedRun_steady (ops : List System.Op) (n : Nat) : Steady plainPickle toy wide (fun _ => True) (tracedRun ops n).1 := by
  refine tracedRun_all .init (fun s o h => ?_) ops n
  rcases stepWithin_cases true [[1], [2]] s o with e | ⟨s', hs, e, -, hk⟩ <;> rw [e]
  · exact h
  · exact .step o h hs fun t w _ hw => List.all_eq_true.1 (hk rfl) (t, w) (Dict.mem_items.2 hw)

/-- The checks of a run. -/
def wentWell (s : Sys Nat) : Bool := noCancel s && rests [[1], [2]] s && loadsRight s.sched && decide (Connected s.sched [2])

theorem tracedRun_well {ops : List System.Op} {n : Nat} (h : wentWell (tracedRun ops n).1 = true) : WentWell plainPickle toy wide (tracedRun ops n).1 := by
  simp only [wentWell, Bool.and_eq_true, decide_eq_true_eq] at h
  obtain ⟨⟨⟨h1, h2⟩, h3⟩, h4⟩ := h
  exact ⟨tracedRun_steady _ _, noCancel_ok h1, rests_ok (tracedRun_only _ _) h2, loadsRight_ok h3, by decide, _, h4⟩

/-- `map(f, [(1,), (x,)])` with an `x` that cannot be loaded. -/
def tracedMap : Sys Nat × List COp × List Client.Op := tracedRun [.client [1] (.submit [10] [99] [4] [[1]]), .client [1] (.submit [11] [99] [4] [[]])] 20

/-- The hypotheses of `C95_submit` and `C95_map` can be met. -/
example : ∃ s b', WentWell plainPickle toy wide s ∧ s.peers [1] = .client b'.client ∧ ReachAlone plainPickle b'.client ∧ b'.client.closed = false ∧
    Act.returned [10] 0 ∈ b'.client.log ∧ Act.returned [11] 1 ∈ b'.client.log ∧ Caller.init.idle = true ∧
    mapCalls ⟨false, [.args [[1]], .args [[]]]⟩ = .ok [[[1]], [[]]] ∧
    (∃ os, Calls plainPickle (Caller.init.step plainPickle (.map [[10], [11]] [99] [4] ⟨false, [.args [[1]], .args [[]]]⟩)) os b' ∧
      ∀ o ∈ os, goesOn o = true) ∧ b'.call = .waiting [([10], 0), ([11], 1)] [] := by
  have h : ((clientAloneRun plainPickle .init tracedMap.2.2).bind fun c => (callerRun plainPickle (Caller.init.step plainPickle
      (.map [[10], [11]] [99] [4] ⟨false, [.args [[1]], .args [[]]]⟩)) (tracedMap.2.1 ++ [.go])).map fun b =>
        decide (wentWell tracedMap.1 = true ∧ clientAt tracedMap.1 [1] = some b.client ∧ c = b.client ∧ b.client.closed = false ∧
          Act.returned [10] 0 ∈ b.client.log ∧ Act.returned [11] 1 ∈ b.client.log ∧
          (∀ o ∈ tracedMap.2.1 ++ [.go], goesOn o = true) ∧ b.call = .waiting [([10], 0), ([11], 1)] [])) = some true := by
    decide +kernel
  obtain ⟨c, h1, h⟩ := Option.bind_eq_some_iff.1 h
  obtain ⟨b', h2, h3⟩ := Option.map_eq_some_iff.1 h
  obtain ⟨hw, hx, rfl, h4, h5, h6, h7, h8⟩ := of_decide_eq_true h3
  exact ⟨_, b', tracedRun_well hw, clientAt_eq hx, clientAloneRun_reach _ .init h1, h4, h5, h6, rfl, by decide, ⟨_, callerRun_calls h2, h7⟩, h8⟩

/-- A graph with two nodes; the function of the first one raises. -/
def raisingGraph : Dict Bytes Client.UserNode := (Dict.empty.set [1] (.call [5] [0] [])).set [2] (.call [6] [8] [[1]])

/-- `get(raisingGraph, keys)`. -/
def tracedGet (keys : List Bytes) : Sys Nat × List COp × List Client.Op := tracedRun [.get [1] [[20], [21]] [30] raisingGraph keys] 28

/-- The hypotheses of `C95_graph`, `C95_get_partial` and `C95_ends` can be met. -/
example : ∃ s b', WentWell plainPickle toy wide s ∧ wide.maxWaiting < 0 ∧ s.peers [1] = .client b'.client ∧ ReachAlone plainPickle b'.client ∧
    b'.client.closed = false ∧ Act.started [30] [0, 1] ∈ b'.client.log ∧ Caller.init.idle = true ∧
    (∃ c, Caller.init.client.callGet plainPickle [[20], [21]] [30] raisingGraph [[2], [1], [2]] = .ok (c, Dict.ofList [([2], 0), ([1], 1)])) ∧
    (∀ m k ks, Client.buildGraph plainPickle [[20], [21]] [30] raisingGraph [[2], [1], [2]] = .ok m → [[2], [1], [2]] = k :: ks → k ∉ ks.take (m.targets.length - 1)) ∧
    (∃ os, Calls plainPickle (Caller.init.step plainPickle (.get [[20], [21]] [30] raisingGraph [[2], [1], [2]] true)) os b' ∧ ∀ o ∈ os, goesOn o = true) ∧
    b'.client.user = .idle ∧ b'.call = .waiting [([2], 0), ([1], 1)] [] ∧ Decided b'.client.futures [([2], 0), ([1], 1)] := by
  have h : ((clientAloneRun plainPickle .init (tracedGet [[2], [1], [2]]).2.2).bind fun c => (callerRun plainPickle (Caller.init.step plainPickle
      (.get [[20], [21]] [30] raisingGraph [[2], [1], [2]] true)) ((tracedGet [[2], [1], [2]]).2.1 ++ [.go])).map fun b =>
        decide (wentWell (tracedGet [[2], [1], [2]]).1 = true ∧ clientAt (tracedGet [[2], [1], [2]]).1 [1] = some b.client ∧ c = b.client ∧ b.client.closed = false ∧
          Act.started [30] [0, 1] ∈ b.client.log ∧
          (∀ o ∈ (tracedGet [[2], [1], [2]]).2.1 ++ [.go], goesOn o = true) ∧ b.client.user = .idle ∧ b.call = .waiting [([2], 0), ([1], 1)] [] ∧
          b.client.futures[0]? = some (.exception [5]))) = some true := by
    decide +kernel
  obtain ⟨c, h1, h⟩ := Option.bind_eq_some_iff.1 h
  obtain ⟨b', h2, h3⟩ := Option.map_eq_some_iff.1 h
  obtain ⟨hw, hx, rfl, h4, h5, h6, h7, h8, h9⟩ := of_decide_eq_true h3
  refine ⟨_, b', tracedRun_well hw, by decide, clientAt_eq hx, clientAloneRun_reach _ .init h1, h4, h5, rfl, ⟨_, rfl⟩, ?_, ⟨_, callerRun_calls h2, h6⟩, h7, h8, ?_⟩
  · intro m k ks hm he
    cases he
    have : m.targets.length = 2 := by
      have h : (Client.buildGraph plainPickle [[20], [21]] [30] raisingGraph [[2], [1], [2]]).toOption.map (·.targets.length) = some 2 := by decide +kernel
      rw [hm] at h
      exact Option.some.inj h
    rw [this]; decide
  · simp only [Decided, h9]

/-- A call that waits for a future that is not done goes on waiting whatever the two threads do, unless a message arrives or the
user disconnects. -/
theorem waits_on {p : Pickle} {b b' : Caller} {os : List COp} (h : Calls p b os b') (ho : ∀ o ∈ os, o = .go ∨ o = .flush ∨ o = .exit)
    (hu : b.client.user = .idle) (hs : b.client.stop = false) (hq : b.client.outbox = []) {k : Bytes} {n : Nat} {left : List (Bytes × Nat)} {rs : List (Bytes × Bytes)}
    (hb : b.call = .waiting ((k, n) :: left) rs) (hn : b.client.futures[n]? = some .pending) : b'.call = b.call := by
  induction h with
  | nil => rfl
  | @cons b b' os o hf h ih =>
    have hrest := fun o h => ho o (List.mem_cons_of_mem _ h)
    have key : (b.step p o).call = b.call ∧ (b.step p o).client.user = .idle ∧ (b.step p o).client.stop = false ∧
        (b.step p o).client.outbox = [] ∧ (b.step p o).client.futures = b.client.futures := by
      rcases ho o List.mem_cons_self with rfl | rfl | rfl
      · simp only [Caller.step, Caller.go, hu, if_true, hb, hn, hs, hq, and_self]
      · have e : b.client.step p .flush = .ok b.client := by
          simp only [Client.Client.step, Client.Client.flush, hq, ite_self]
        simp only [Caller.step, Caller.thread, e]
        split <;> exact ⟨rfl, hu, hs, hq, rfl⟩
      · have e : b.client.step p .exit = .ok b.client := by
          simp only [Client.Client.step, hs, Bool.false_and, Bool.false_eq_true, if_false]
        simp only [Caller.step, Caller.thread, e]
        split <;> exact ⟨rfl, hu, hs, hq, rfl⟩
    obtain ⟨k1, k2, k3, k5, k4⟩ := key
    rw [← k1]
    exact ih hrest k2 k3 k5 (k1.trans hb) (by rw [k4]; exact hn)

/-- **The claim is false** for a repeated first key: `get(graph, ["1", "1", "2"])`, where the function of "1" raises, waits for
ever.  There are two futures, for "1" and for "2" (client.py 337).  Three keys are paired with them one after the other (131), so
the second future is returned for "1".  The exception is set in the first future only (229-231), and no one ever sets the second one.
The system is at rest and the call waits. -/
theorem C95_repeated_key : ∃ s b', WentWell plainPickle toy wide s ∧ wide.maxWaiting < 0 ∧ s.peers [1] = .client b'.client ∧
    ReachAlone plainPickle b'.client ∧ b'.client.closed = false ∧
    (∃ os, Calls plainPickle (Caller.init.step plainPickle (.get [[20], [21]] [30] raisingGraph [[1], [1], [2]] true)) os b' ∧ ∀ o ∈ os, goesOn o = true) ∧
    Act.recv (.graphTaskResult [30] .failed [[5]]) ∈ b'.client.log ∧ b'.client.futures = [.exception [5], .pending] ∧
    ∀ os b'', Calls plainPickle b' os b'' → (∀ o ∈ os, o = .go ∨ o = .flush ∨ o = .exit) → b''.call = .waiting [([1], 1)] [] := by
  have h : ((clientAloneRun plainPickle .init (tracedGet [[1], [1], [2]]).2.2).bind fun c => (callerRun plainPickle (Caller.init.step plainPickle
      (.get [[20], [21]] [30] raisingGraph [[1], [1], [2]] true)) ((tracedGet [[1], [1], [2]]).2.1 ++ [.go])).map fun b =>
        decide (wentWell (tracedGet [[1], [1], [2]]).1 = true ∧ clientAt (tracedGet [[1], [1], [2]]).1 [1] = some b.client ∧ c = b.client ∧ b.client.closed = false ∧
          (∀ o ∈ (tracedGet [[1], [1], [2]]).2.1 ++ [.go], goesOn o = true) ∧ b.client.user = .idle ∧ b.client.stop = false ∧ b.client.outbox = [] ∧ b.call = .waiting [([1], 1)] [] ∧
          Act.recv (.graphTaskResult [30] .failed [[5]]) ∈ b.client.log ∧ b.client.futures = [.exception [5], .pending])) = some true := by
    decide +kernel
  obtain ⟨c, h1, h⟩ := Option.bind_eq_some_iff.1 h
  obtain ⟨b', h2, h3⟩ := Option.map_eq_some_iff.1 h
  obtain ⟨hw, hx, rfl, h4, h5, h6, h7, hq, h8, h9, h10⟩ := of_decide_eq_true h3
  refine ⟨_, b', tracedRun_well hw, by decide, clientAt_eq hx, clientAloneRun_reach _ .init h1, h4, ⟨_, callerRun_calls h2, h5⟩, h9, h10, fun os b'' hc ho => ?_⟩
  rw [waits_on hc ho h6 h7 hq h8 (by rw [h10]; rfl), h8]

end Verif.Props
