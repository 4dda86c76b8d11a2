import Verif.Props.System
import Verif.Props.Blocking

/-!
# C94: what a call of the user brings in a whole system

Clients, scheduler and workers run in any way; one client's user calls `map` or `get` and the call comes to its end.
-/

namespace Verif.Props

open Verif.Wire Verif.Spec Verif.Spec.Client Verif.System
open Verif.Client (Pickle Caller Calls COp Iter mapCalls UserNode)

variable {F V X : Type} {p : Pickle} {rt : Proc.Runtime F V X} {cfg : Sched.Config} {s : Sys F} {b b' : Caller} {os : List COp}

theorem zip_at {ids : List Bytes} {cs : List (List Bytes)} {i : Nat} {args : List Bytes} (hl : cs.length ≤ ids.length) (h : cs[i]? = some args) :
    ∃ t, (ids.zip cs)[i]? = some (t, args) := by
  have hi := (List.getElem?_eq_some_iff.1 h).1
  refine ⟨ids[i]'(by omega), ?_⟩
  simp [List.getElem?_zip_eq_some, h]

/-- **C94.** `map(f, xs)` returns a list as long as `xs`, and what stands at place `i` is what `f` returned on `xs[i]`. -/
theorem C94_map (hr : System.Reach p rt cfg s) (hn : NoCollision p s) {x : Bytes} (hx : s.peers x = .client b'.client)
    {ids : List Bytes} {nm ct : Bytes} {it : Iter} {cs : List (List Bytes)} (hi : b.idle = true) (hc : mapCalls it = .ok cs)
    (hl : cs.length ≤ ids.length) (h : Calls p (b.step p (.map ids nm ct it)) os b') (ho : ∀ o ∈ os, goesOn o = true)
    {rs : List (Bytes × Bytes)} (hb : b'.call = .returned rs) :
    rs.length = cs.length ∧ ∀ (i : Nat) args r, cs[i]? = some args → (rs.map (·.2))[i]? = some r →
      ∃ f, rt.loadFn ct = .ok f ∧ Processor.Returns rt f (args.map fun a => ⟨.data, a⟩) r := by
  rcases C92_map hi hc h ho (by rw [hb]; nofun) with ⟨left, got, h1⟩ | ⟨L, h1, h2, h3, h4⟩
  · rw [hb] at h1; cases h1
  · rw [hb] at h4
    obtain ⟨h4, h5⟩ := h4
    have hlen : rs.length = cs.length := by
      have := congrArg List.length (h4.trans h1)
      simp only [List.length_map, List.length_zip] at this
      omega
    refine ⟨hlen, fun i args r ha hri => ?_⟩
    obtain ⟨t, ht⟩ := zip_at hl ha
    have ht1 : (L.map (·.1))[i]? = some t := by rw [h1, List.getElem?_map, ht]; rfl
    rw [List.getElem?_map, Option.map_eq_some_iff] at ht1
    obtain ⟨y, hy, rfl⟩ := ht1
    have h6 := congrArg (·[i]?) h5
    rw [List.getElem?_map, Option.map_eq_some_iff] at hri
    obtain ⟨q, hq, rfl⟩ := hri
    simp only [List.getElem?_map, hy, hq, Option.map_some, Option.some.injEq] at h6
    have hret := (h2 y (List.mem_of_getElem? hy)).2
    have hsub := h3 _ (List.mem_of_getElem? ht)
    obtain ⟨k, nm', ct', f, g1, g2, g3, g4⟩ := C62_value hr hn hx hret h6.symm
    obtain ⟨rfl, -, rfl⟩ := (hr.inv.client hx).task.once _ _ _ _ _ _ g1 hsub g2
    exact ⟨f, g3, g4⟩

/-- **C94.** If `map(f, xs)` raises what a task raised, then this is what loading `f`, its arguments, calling it on some
`xs[i]` or pickling its result raised, and the calls before it had returned. -/
theorem C94_map_raises (hr : System.Reach p rt cfg s) (hn : NoCollision p s) {x : Bytes} (hx : s.peers x = .client b'.client)
    {ids : List Bytes} {nm ct : Bytes} {it : Iter} {cs : List (List Bytes)} (hi : b.idle = true) (hc : mapCalls it = .ok cs)
    (h : Calls p (b.step p (.map ids nm ct it)) os b') (ho : ∀ o ∈ os, goesOn o = true)
    {r : Bytes} (hb : b'.call = .raised (.exception r)) :
    ∃ (i : Nat) (args : List Bytes) (e : X), cs[i]? = some args ∧ rt.dumpExc e = some r ∧
      ((∃ f, rt.loadFn ct = .ok f ∧ Processor.Raises rt f (args.map fun a => ⟨.data, a⟩) e) ∨
        Processor.LoadFails rt (args.map fun a => ⟨.data, a⟩) e ∨ e = rt.notCallable) ∧
      ∀ (j : Nat) (args' : List Bytes), j < i → cs[j]? = some args' →
        ∃ f r', rt.loadFn ct = .ok f ∧ Processor.Returns rt f (args'.map fun a => ⟨.data, a⟩) r' := by
  rcases C92_map hi hc h ho (by rw [hb]; nofun) with ⟨left, got, h1⟩ | ⟨L, h1, h2, h3, h4⟩
  · rw [hb] at h1; cases h1
  · rw [hb] at h4
    obtain ⟨l1, t, n, l2, rfl, h5, -, h6⟩ := h4
    have h6 := h6 trivial
    have hat : ∀ (j : Nat) (y : Bytes × Nat), (l1 ++ (t, n) :: l2)[j]? = some y → ∃ args, (ids.zip cs)[j]? = some (y.1, args) := by
      intro j y hy
      have : ((ids.zip cs).map (·.1))[j]? = some y.1 := by rw [← h1, List.getElem?_map, hy]; rfl
      rw [List.getElem?_map, Option.map_eq_some_iff] at this
      obtain ⟨⟨a, args⟩, g1, rfl⟩ := this
      exact ⟨args, g1⟩
    have hmid : (l1 ++ (t, n) :: l2)[l1.length]? = some (t, n) := by simp
    obtain ⟨args, ha⟩ := hat _ _ hmid
    obtain ⟨k, nm', ct', e, g1, g2, g3, g4⟩ := C62_exception hr hn hx (h2 _ (List.mem_of_getElem? hmid)).2 h6
    obtain ⟨rfl, -, rfl⟩ := (hr.inv.client hx).task.once _ _ _ _ _ _ g1 (h3 _ (List.mem_of_getElem? ha)) g2
    refine ⟨l1.length, args, e, (List.getElem?_zip_eq_some.1 ha).2, g3, g4, fun j args' hj hj' => ?_⟩
    have hy : (l1 ++ (t, n) :: l2)[j]? = some l1[j] := by rw [List.getElem?_append_left hj]; simp
    obtain ⟨args'', ha'⟩ := hat _ _ hy
    obtain rfl : args'' = args' := Option.some.inj ((List.getElem?_zip_eq_some.1 ha').2.symm.trans hj')
    obtain ⟨r', hr'⟩ := h5 l1[j] (List.getElem_mem hj)
    obtain ⟨k', nm', ct', f, g1, g2, g3, g4⟩ := C62_value hr hn hx (h2 _ (List.mem_of_getElem? hy)).2 hr'
    obtain ⟨rfl, -, rfl⟩ := (hr.inv.client hx).task.once _ _ _ _ _ _ g1 (h3 _ (List.mem_of_getElem? ha')) g2
    exact ⟨f, r', g3, g4⟩

/-- **C94.** A blocking `get` with different keys returns exactly these keys, in this order, each with the value of its
node in the user's graph.  Full statement: for all keys.  Missing: repeated keys, for which `get` returns results of other
nodes (`C63_repeated_key`). -/
theorem C94_get_partial (hr : System.Reach p rt cfg s) (hn : NoCollision p s) {value : Bytes → List Bytes → Bytes} (hd : Deterministic rt value)
    {call : GetCall} (hcall : call ∈ s.gets) (hx : s.peers call.client = .client b'.client) {ids : List Bytes} {gid : Bytes}
    (hi : b.idle = true) {c : Client.Client} (hg : b.client.callGet p ids gid call.graph call.keys = .ok (c, call.futures))
    (hl : Client.Enough call.graph ids) (hids : ids.Nodup) (hkeys : call.keys.Nodup)
    (h : Calls p (b.step p (.get ids gid call.graph call.keys true)) os b') (ho : ∀ o ∈ os, goesOn o = true)
    {rs : List (Bytes × Bytes)} (hb : b'.call = .returned rs) :
    rs.map (·.1) = call.keys ∧ ∀ y ∈ rs, UserValue call.graph value y.1 y.2 := by
  have h4 := (C92_get (p := p) (os := os) (b' := b') (ids := ids) (gid := gid) (g := call.graph) (keys := call.keys) hi).2 c call.futures hg h ho
  rw [hb] at h4
  obtain ⟨h4, h5⟩ := h4
  obtain ⟨m, id, -, -, h6, -⟩ := C43_partial p b.client call.graph call.keys ids gid hl hids hkeys c call.futures hg
  refine ⟨h4.trans h6, fun y hy => ?_⟩
  obtain ⟨i, hi'⟩ := List.getElem?_of_mem hy
  have g1 := congrArg (·[i]?) h4
  have g2 := congrArg (·[i]?) h5
  simp only [List.getElem?_map, hi', Option.map_some] at g1 g2
  obtain ⟨q, hq, g1⟩ := Option.map_eq_some_iff.1 g1.symm
  simp only [hq, Option.map_some, Option.some.injEq] at g2
  have hget : call.futures.get? y.1 = some q.2 := by
    rw [← g1]
    exact Dict.mem_items.1 (List.mem_of_getElem? hq)
  exact (C63_value_partial hr hn hd hcall (hkeys.sublist (List.take_sublist _ _)) hx hget g2.symm).2

/-- **C94**, for all keys: a blocking `get` returns for each of the first keys, as many as there are different keys, the value of the node
that stands for the key. -/
theorem C94_get_any (hr : System.Reach p rt cfg s) (hn : NoCollision p s) {value : Bytes → List Bytes → Bytes} (hd : Deterministic rt value)
    {call : GetCall} (hcall : call ∈ s.gets) (hx : s.peers call.client = .client b'.client) {ids : List Bytes} {gid : Bytes}
    (hi : b.idle = true) {c : Client.Client} (hg : b.client.callGet p ids gid call.graph call.keys = .ok (c, call.futures))
    (hl : Client.Enough call.graph ids) (hids : ids.Nodup)
    (h : Calls p (b.step p (.get ids gid call.graph call.keys true)) os b') (ho : ∀ o ∈ os, goesOn o = true)
    {rs : List (Bytes × Bytes)} (hb : b'.call = .returned rs) :
    (∀ k, k ∈ rs.map (·.1) ↔ k ∈ call.keys.take (differentKeys call.keys).length) ∧ (rs.map (·.1)).Nodup ∧
    ∀ y ∈ rs, ∃ key', Stands call.keys y.1 key' ∧ UserValue call.graph value key' y.2 := by
  have h4 := (C92_get (p := p) (os := os) (b' := b') (ids := ids) (gid := gid) (g := call.graph) (keys := call.keys) hi).2 c call.futures hg h ho
  rw [hb] at h4
  obtain ⟨h4, h5⟩ := h4
  obtain ⟨m, id, -, -, h6, -⟩ := C43_any p b.client call.graph call.keys ids gid hl hids c call.futures hg
  refine ⟨fun k => ?_, ?_, fun y hy => ?_⟩
  · rw [h4, ← h6 k]
    exact Dict.mem_keys_isSome
  · rw [h4]
    exact Dict.nodup_keys _
  obtain ⟨i, hi'⟩ := List.getElem?_of_mem hy
  have g1 := congrArg (·[i]?) h4
  have g2 := congrArg (·[i]?) h5
  simp only [List.getElem?_map, hi', Option.map_some] at g1 g2
  obtain ⟨q, hq, g1⟩ := Option.map_eq_some_iff.1 g1.symm
  simp only [hq, Option.map_some, Option.some.injEq] at g2
  have hget : call.futures.get? y.1 = some q.2 := by
    rw [← g1]
    exact Dict.mem_items.1 (List.mem_of_getElem? hq)
  exact C63_value_any hr hn hd hcall hx hget g2.symm

/-! ### Concrete runs -/

/-- What the user's thread and the connector's thread of client `[1]` do. -/
def mirror (s : Sys Nat) : System.Op → List COp
  | .client [1] (.submit ..) => [.go]
  | .client [1] .advance => if (clientAt s [1]).map (·.user) = some .idle then [] else [.go]
  | .client [1] (.recv m) => [.recv m]
  | .client [1] .flush => [.flush]
  -- the call waits, has the result of the first future, and finds that the second holds an exception
  | .client [1] .disconnect => [.go, .go, .go]
  | .client [1] .exit => [.exit]
  | _ => []

/-- An event, if it can happen, and what client `[1]` did. -/
def bothStep (st : Sys Nat × List COp) (o : System.Op) : Sys Nat × List COp :=
  match st.1.step plainPickle toy o with
  | none => st
  | some s => (s, st.2 ++ mirror st.1 o)

/-- Everybody goes on a little. -/
def bothRounds (xs : List Bytes) : Nat → Sys Nat × List COp → Sys Nat × List COp
  | 0, st => st
  | n + 1, st => bothRounds xs n ((xs.flatMap (peerOps st.1) ++
      [System.Op.sched ⟨.graphRoutine, 5, fun _ => []⟩, System.Op.sched ⟨.taskRoutine, 5, fun _ => []⟩]).foldl bothStep st)

theorem bothFold_reach {st : Sys Nat × List COp} (h : System.Reach plainPickle toy wide st.1) (os : List System.Op) :
    System.Reach plainPickle toy wide (os.foldl bothStep st).1 := by
  induction os generalizing st with
  | nil => exact h
  | cons o os ih =>
    refine ih ?_
    unfold bothStep
    split
    · exact h
    · next s' he => exact .step o h he

theorem bothRounds_reach {xs : List Bytes} {n : Nat} {st : Sys Nat × List COp} (h : System.Reach plainPickle toy wide st.1) :
    System.Reach plainPickle toy wide (bothRounds xs n st).1 := by
  induction n generalizing st with
  | zero => exact h
  | succ n ih => exact ih (bothFold_reach h _)

/-- A client `[1]` and a worker `[2]`; then each of `ops` and `n` rounds after it. -/
def bothRun (ops : List System.Op) (n : Nat) : Sys Nat × List COp :=
  ops.foldl (fun st o => bothRounds [[1], [2]] n (bothStep st o))
    ([.joinClient [1], .joinWorker [2] 100 100 0, .agent [2] ⟨.heartbeat ⟨0, 0, 0, 0⟩, 5⟩,
      .sched ⟨.recv [2] (.heartbeat ⟨0, 0, 0, 0, 0, 0, false, false, false⟩), 5, fun _ => []⟩].foldl bothStep (Sys.init wide, []))

theorem bothRun_reach (ops : List System.Op) (n : Nat) : System.Reach plainPickle toy wide (bothRun ops n).1 := by
  unfold bothRun
  have h : System.Reach plainPickle toy wide ([System.Op.joinClient [1], .joinWorker [2] 100 100 0, .agent [2] ⟨.heartbeat ⟨0, 0, 0, 0⟩, 5⟩,
      .sched ⟨.recv [2] (.heartbeat ⟨0, 0, 0, 0, 0, 0, false, false, false⟩), 5, fun _ => []⟩].foldl bothStep (Sys.init wide, [])).1 :=
    bothFold_reach .init _
  revert h
  generalize [System.Op.joinClient [1], .joinWorker [2] 100 100 0, .agent [2] ⟨.heartbeat ⟨0, 0, 0, 0⟩, 5⟩,
      .sched ⟨.recv [2] (.heartbeat ⟨0, 0, 0, 0, 0, 0, false, false, false⟩), 5, fun _ => []⟩].foldl bothStep (Sys.init wide, []) = st
  intro h
  induction ops generalizing st with
  | nil => exact h
  | cons o os ih => exact ih _ (bothRounds_reach (bothFold_reach h [o]))

/-- `map(f, [(1,), (2,)])` with `f` adding 4. -/
def mapRun : Sys Nat × List COp := bothRun [.client [1] (.submit [10] [99] [4] [[1]]), .client [1] (.submit [11] [99] [4] [[2]])] 20

/-- The hypotheses of `C94_map` can be met: the results are 5 and 6. -/
example : ∃ s b', System.Reach plainPickle toy wide s ∧ NoCollision plainPickle s ∧ s.peers [1] = .client b'.client ∧ Caller.init.idle = true ∧
    mapCalls ⟨false, [.args [[1]], .args [[2]]]⟩ = .ok [[[1]], [[2]]] ∧
    (∃ os, Calls plainPickle (Caller.init.step plainPickle (.map [[10], [11]] [99] [4] ⟨false, [.args [[1]], .args [[2]]]⟩)) os b' ∧
      ∀ o ∈ os, goesOn o = true) ∧ b'.call = .returned [([10], [5]), ([11], [6])] := by
  have h : ((clientAt mapRun.1 [1]).bind fun c => (callerRun plainPickle (Caller.init.step plainPickle
      (.map [[10], [11]] [99] [4] ⟨false, [.args [[1]], .args [[2]]]⟩)) (mapRun.2 ++ List.replicate 4 .go)).map fun b =>
        decide (c = b.client ∧ b.call = .returned [([10], [5]), ([11], [6])] ∧ ∀ o ∈ mapRun.2 ++ List.replicate 4 .go, goesOn o = true)) = some true := by
    decide +kernel
  obtain ⟨c, h1, h⟩ := Option.bind_eq_some_iff.1 h
  obtain ⟨b', h2, h3⟩ := Option.map_eq_some_iff.1 h
  obtain ⟨rfl, h4, h5⟩ := of_decide_eq_true h3
  exact ⟨_, b', bothRun_reach _ _, fun _ _ _ _ h => h, clientAt_eq h1, rfl, by decide, ⟨_, callerRun_calls h2, h5⟩, h4⟩

/-- `map(f, [(1,), (x,)])` with an `x` that cannot be loaded. -/
def badMapRun : Sys Nat × List COp := bothRun [.client [1] (.submit [10] [99] [4] [[1]]), .client [1] (.submit [11] [99] [4] [[]]),
  .client [1] .disconnect, .client [1] .exit] 20

/-- The hypotheses of `C94_map_raises` can be met. -/
example : ∃ s b', System.Reach plainPickle toy wide s ∧ NoCollision plainPickle s ∧ s.peers [1] = .client b'.client ∧ Caller.init.idle = true ∧
    mapCalls ⟨false, [.args [[1]], .args [[]]]⟩ = .ok [[[1]], [[]]] ∧
    (∃ os, Calls plainPickle (Caller.init.step plainPickle (.map [[10], [11]] [99] [4] ⟨false, [.args [[1]], .args [[]]]⟩)) os b' ∧
      ∀ o ∈ os, goesOn o = true) ∧ b'.call = .raised (.exception [2]) := by
  have h : ((clientAt badMapRun.1 [1]).bind fun c => (callerRun plainPickle (Caller.init.step plainPickle
      (.map [[10], [11]] [99] [4] ⟨false, [.args [[1]], .args [[]]]⟩)) (badMapRun.2 ++ [.go])).map fun b =>
        decide (c = b.client ∧ b.call = .raised (.exception [2]) ∧ ∀ o ∈ badMapRun.2 ++ [.go], goesOn o = true)) = some true := by
    decide +kernel
  obtain ⟨c, h1, h⟩ := Option.bind_eq_some_iff.1 h
  obtain ⟨b', h2, h3⟩ := Option.map_eq_some_iff.1 h
  obtain ⟨rfl, h4, h5⟩ := of_decide_eq_true h3
  exact ⟨_, b', bothRun_reach _ _, fun _ _ _ _ h => h, clientAt_eq h1, rfl, by decide, ⟨_, callerRun_calls h2, h5⟩, h4⟩

/-- `get(graph, [3, 2])` for the graph of `getRun`. -/
def blockingGet : Sys Nat × List COp := bothRun [.get [1] [[20], [21]] [30] getGraph [[3], [2]]] 28

theorem blockingGet_reach : System.Reach plainPickle toy wide blockingGet.1 := bothRun_reach _ _

/-- The hypotheses of `C94_get_partial` can be met: the results are 31 and 16. -/
example : ∃ s b', System.Reach plainPickle toy wide s ∧ NoCollision plainPickle s ∧ Deterministic toy toyValue ∧
    (∃ call ∈ s.gets, s.peers call.client = .client b'.client ∧ call.graph = getGraph ∧ call.keys = [[3], [2]] ∧
      ∃ c, Caller.init.client.callGet plainPickle [[20], [21]] [30] getGraph [[3], [2]] = .ok (c, call.futures)) ∧
    (∃ os, Calls plainPickle (Caller.init.step plainPickle (.get [[20], [21]] [30] getGraph [[3], [2]] true)) os b' ∧
      ∀ o ∈ os, goesOn o = true) ∧ b'.call = .returned [([3], [31]), ([2], [16])] := by
  have h : ((clientAt blockingGet.1 [1]).bind fun c => (callerRun plainPickle (Caller.init.step plainPickle
      (.get [[20], [21]] [30] getGraph [[3], [2]] true)) (blockingGet.2 ++ List.replicate 4 .go)).map fun b =>
        decide (c = b.client ∧ b.call = .returned [([3], [31]), ([2], [16])] ∧ (∀ o ∈ blockingGet.2 ++ List.replicate 4 .go, goesOn o = true) ∧
          ∃ call ∈ blockingGet.1.gets, call.client = [1] ∧ call.graph = getGraph ∧ call.keys = [[3], [2]] ∧
            call.futures = Dict.ofList [([3], 0), ([2], 1)])) = some true := by
    decide +kernel
  obtain ⟨c, h1, h⟩ := Option.bind_eq_some_iff.1 h
  obtain ⟨b', h2, h3⟩ := Option.map_eq_some_iff.1 h
  obtain ⟨rfl, h4, h5, call, h6, h7, h8, h9, h10⟩ := of_decide_eq_true h3
  have hg : (Caller.init.client.callGet plainPickle [[20], [21]] [30] getGraph [[3], [2]]).map (·.2) = .ok (Dict.ofList [([3], 0), ([2], 1)]) := by
    decide +kernel
  have hc : ∃ c, Caller.init.client.callGet plainPickle [[20], [21]] [30] getGraph [[3], [2]] = .ok (c, call.futures) := by
    rw [h10]
    cases he : Caller.init.client.callGet plainPickle [[20], [21]] [30] getGraph [[3], [2]] with
    | error e => rw [he] at hg; cases hg
    | ok y => rw [he] at hg; exact ⟨y.1, congrArg Except.ok (Prod.ext rfl (Except.ok.inj hg))⟩
  exact ⟨blockingGet.1, b', blockingGet_reach, fun _ _ _ _ h => h, toy_deterministic,
    ⟨call, h6, by rw [h7]; exact clientAt_eq h1, h8, h9, hc⟩, ⟨_, callerRun_calls h2, h5⟩, h4⟩

end Verif.Props
