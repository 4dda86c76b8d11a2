import Verif.Spec.Finish
import Verif.System.Finish
import Verif.Props.Rest
import Verif.Props.Settle
import Verif.Props.SchedSystem
import Verif.Props.SystemCalls
import Verif.Sched.Called

/-!
# C95: a call that waits comes to its end
-/

namespace Verif.Props

open Verif.Wire Verif.Sched Verif.Spec Verif.Spec.Client Verif.System
open Verif.Client (Pickle Caller Calls COp Iter mapCalls UserNode Call Act FState FreshCall)

variable {F V X : Type} {p : Pickle} {rt : Proc.Runtime F V X} {cfg : Config} {s s' : Sys F} {b b' : Caller} {os : List COp}
variable {x : Bytes} {c : Client.Client}

/-! ### What answers say -/

/-- While a client is open nobody cancels its tasks. -/
theorem no_client_cancel (h : Inv p rt cfg s) (hx : s.peers x = .client c) (hc : c.closed = false) {t : Bytes} (ht : t ∈ (s.peers x).ids) (y : Bytes) :
    (y, Message.taskCancel t) ∉ s.received := by
  intro hm
  have hm := h.received hm
  rcases Peer.sent_pos hm with ⟨cl, hy, hm⟩ | ⟨a, ret, qs, left, hy, ⟨now, hm⟩ | ⟨id, -, hm⟩⟩
  · obtain ⟨l, hl, n, hn⟩ := h.clientSent hy hm
    obtain ⟨k, nm, b, hk, rfl⟩ := (h.client hy).returned (hl _ hn)
    have := h.same ht (Inv.submitted_id hy hk)
    subst this
    rw [hx] at hy; cases hy
    exact ((h.client hx).noCancel hc).1 _ hm
  · exact (h.workerSent hy hm).elim
  · cases hm

/-- A worker says that it canceled or does not have a task only if it was asked to cancel it. -/
theorem canceled_said (h : Inv p rt cfg s) {w t : Bytes} {st : TaskStatus} {d : UInt32} {r : Bytes} (hm : 0 < (s.peers w).sent (.taskResult t st d r))
    (ht : t ≠ []) : (st = .success ∨ st = .failed) ∨ (w, .taskCancel t) ∈ s.sched.out := by
  by_cases hst : st = .canceled ∨ st = .notFound
  · right
    rcases Peer.sent_pos hm with ⟨cl, hx, hm'⟩ | ⟨a, ret, qs, left, hx, ⟨now, hm'⟩ | ⟨id, -, hm'⟩⟩
    · obtain ⟨l, -, h3⟩ := h.clientSent hx hm'
      exact h3.elim
    · rcases h.workerSent hx hm' with ⟨-, h3⟩ | h3
      · exact agent_got h hx h3
      · exfalso
        obtain ⟨n, q, now', hq, hs⟩ := agent_heard h hx h3
        have hP := h.peer w
        rw [hx] at hP
        obtain ⟨⟨start, hr⟩, -⟩ := hP.2.2.1 n q hq
        obtain ⟨l₁, l₂, e⟩ := List.append_of_mem hs
        rcases C55_answers_partial hr _ _ _ e with ⟨-, h4, -⟩ | ⟨u, k, h4, h5, h6⟩
        · exact ht h4
        · rcases hst with rfl | rfl <;> exact h6
    · cases hm'
  · left
    rw [not_or] at hst
    obtain ⟨k, -, -, h6⟩ := worked_sent h hm hst.1 hst.2 ht
    cases st <;> first | exact .inl rfl | exact .inr rfl | exact h6.elim

theorem canceled_asked (h : Inv p rt cfg s) {w t : Bytes} {st : TaskStatus} {d : UInt32} {r : Bytes} (hm : (w, .taskResult t st d r) ∈ s.received)
    (ht : t ≠ []) : (st = .success ∨ st = .failed) ∨ (w, .taskCancel t) ∈ s.sched.out := canceled_said h (h.received hm) ht

/-- The answer to a task of an open client says that it succeeded or failed. -/
theorem task_status (h : Inv p rt cfg s) (hx : s.peers x = .client c) (hc : c.closed = false) {k : Task} {nm b : Bytes}
    (hk : Act.submitted k nm b ∈ c.log) {st : TaskStatus} {d : UInt32} {r : Bytes} (hm : (x, .taskResult k.taskId st d r) ∈ s.sched.out) :
    st = .success ∨ st = .failed := by
  have hid := Inv.submitted_id hx hk
  obtain ⟨-, hm⟩ := h.sched.good.sent.result _ _ _ _ _ hm
  rcases hm with ⟨w, hw⟩ | ⟨-, -, -, y, hy⟩
  · rcases canceled_asked h hw (h.ids _ _ hid).2 with hst | hask
    · exact hst
    · exfalso
      rcases h.sched.called w _ hask with ⟨y, hy⟩ | ⟨y, gt, h1, h2, -⟩
      · exact no_client_cancel h hx hc hid y hy
      · exact h.notInGraph hx hk ⟨y, gt, h1, List.mem_cons_of_mem _ h2⟩
  · exact absurd hy (no_client_cancel h hx hc hid y)

/-- If no worker was asked to cancel anything, a graph succeeds with a result for every target, or fails. -/
theorem graph_status (h : Inv p rt cfg s) (hN : NoCancel s) (hx : s.peers x = .client c) {g : GraphTask} (hg : Act.graph g ∈ c.log) {st : TaskStatus} {rs : List Bytes}
    (hm : (x, .graphTaskResult g.taskId st rs) ∈ s.sched.out) : st = .success ∧ rs.length = g.targets.length ∨ st = .failed ∧ ∃ r, rs = [r] := by
  obtain ⟨gt, h1, h2, -, h3, h4⟩ := h.sched.good.answered _ _ _ _ hm
  obtain ⟨c1, hx1, hg1⟩ := h.graphSent (h.received h1)
  rw [hx] at hx1; cases hx1
  have : gt = g := graph_unique (h.client hx).ids hg1 hg (t := gt.taskId) List.mem_cons_self (by rw [h2]; exact List.mem_cons_self)
  subst this
  by_cases hst : st = .success
  · obtain ⟨f, rfl, -⟩ := h3 hst
    exact .inl ⟨hst, by simp⟩
  · right
    obtain ⟨h5, t, r, h6, h7, h8⟩ := h4 hst
    refine ⟨?_, r, h6⟩
    have hin : InGraph s.received t := ⟨x, gt, h1, List.mem_cons_of_mem _ h7⟩
    rcases h8 with ⟨w, d, hw⟩ | ⟨-, -, y, hy⟩
    · rcases canceled_asked h hw (h.ids _ _ (Inv.graph_id hx hg1 (List.mem_cons_of_mem _ h7))).2 with h9 | h9
      · exact h9.resolve_left hst
      · exact absurd h9 (hN w t)
    · exact absurd hin (cancel_plain h (h.received hy))

/-! ### What futures hold -/

/-- **C95.** When everything went well, a future that `submit` returned holds a result or an exception. -/
theorem C95_submit (hW : WentWell p rt cfg s) (hx : s.peers x = .client c) (ha : ReachAlone p c) (hc : c.closed = false) {t : Bytes} {n : Nat}
    (hn : Act.returned t n ∈ c.log) : ∃ r, c.futures[n]? = some (.result r) ∨ c.futures[n]? = some (.exception r) := by
  have hr := hW.steady.reach
  have h := hr.inv
  obtain ⟨k, nm, b, hk, rfl⟩ := (h.client hx).returned hn
  obtain ⟨w, hw⟩ := hW.worker
  obtain ⟨st, d, r, hm, h1, h2⟩ := ha.resolved (hr.timely x c hx) hn (C90_answered_partial hW.steady hW.noCancel hW.rest hW.loads hW.room hw hx ha hc hk)
  rcases task_status h hx hc hk (client_got h hx hm) with rfl | rfl
  · exact ⟨r, .inl (h1 rfl)⟩
  · exact ⟨r, .inr (h2 rfl)⟩

/-- **C95.** When everything went well, the futures that `get` created hold results, or the first of them holds an exception. -/
theorem C95_graph (hW : WentWell p rt cfg s) (hm : cfg.maxWaiting < 0) (hx : s.peers x = .client c) (ha : ReachAlone p c) (hc : c.closed = false) {g : Bytes} {ns : List Nat}
    (hn : Act.started g ns ∈ c.log) : (∀ n ∈ ns, ∃ r, c.futures[n]? = some (.result r)) ∨
      ∃ n r, ns[0]? = some n ∧ c.futures[n]? = some (.exception r) := by
  have hr := hW.steady.reach
  have h := hr.inv
  obtain ⟨m, hg, rfl, hlen⟩ := (h.client hx).startLength g ns (.inl hn)
  obtain ⟨w, hw⟩ := hW.worker
  have hans : ∃ st rs, Act.recv (.graphTaskResult m.taskId st rs) ∈ c.log :=
    (C90_graph_partial hW.steady hW.noCancel hW.rest hW.loads hW.room hm hw hx hc hg).resolve_right (((h.client hx).noCancel hc).2 _)
  obtain ⟨st, rs, hm, hH⟩ := ha.resolvedGraph (hr.timely x c hx) hn hans
  rcases graph_status h hW.noCancel hx hg (client_got h hx hm) with ⟨rfl, hl⟩ | ⟨rfl, r, rfl⟩
  · left
    intro n hn
    obtain ⟨i, hi⟩ := List.getElem?_of_mem hn
    have hi' : i < rs.length := by have := (List.getElem?_eq_some_iff.1 hi).1; omega
    exact ⟨rs[i], (hH i n _ hi (List.getElem?_eq_getElem hi')).1 rfl⟩
  · cases ns with
    | nil => exact .inl (by simp)
    | cons n ns =>
      obtain ⟨y, -, hy⟩ := (hH 0 n r rfl rfl).2 rfl
      exact .inr ⟨n, y, rfl, hy⟩

/-! ### What calls do then -/

theorem goes_append {os os' : List COp} {b1 b2 b3 : Caller} (h : Calls p b1 os b2) (h' : Calls p b2 os' b3) : Calls p b1 (os ++ os') b3 := by
  induction h with
  | nil => exact h'
  | cons o hf _ ih => exact .cons o hf (ih h')

/-- Nothing changes for a call that is over. -/
theorem over_go (hu : b.client.user = .idle) (h : CallOver b.call) (n : Nat) : Calls p b (List.replicate n .go) b := by
  have h1 : b.step p .go = b := by
    simp only [Caller.step, Caller.go, hu, if_true]
    cases hb : b.call <;> rw [hb] at h <;> first | rfl | exact h.elim
  have h2 : FreshCall p b .go := by
    simp only [FreshCall, hu]
    cases hb : b.call <;> rw [hb] at h <;> first | trivial | exact h.elim
  induction n with
  | zero => exact .nil _
  | succ n ih =>
    refine .cons _ h2 ?_
    rw [h1]; exact ih

/-- A call that is over stays so. -/
theorem over_finish (hu : b.client.user = .idle) (h : CallOver b.call) : ∃ b', Calls p b [.exit, .go] b' ∧ b'.call = b.call := by
  have hu' : (b.step p .exit).client.user = .idle := (thread_user (.inr (.inl rfl))).trans hu
  have hc' : (b.step p .exit).call = b.call := thread_call _
  exact ⟨_, .cons _ trivial (over_go hu' (by rw [hc']; exact h) 1), hc'⟩

/-- After `disconnect` one look at `_stop_event` ends the connector's thread, and with it `join`. -/
theorem joining_finish (hu : b.client.user = .idle) (hs : b.client.stop = true) {y : FState} (hb : b.call = .joining y) :
    ∃ b', Calls p b [.exit, .go] b' ∧ b'.call = .raised y := by
  have hu' : (b.step p .exit).client.user = .idle := (thread_user (.inr (.inl rfl))).trans hu
  have hc' : (b.step p .exit).call = .joining y := (thread_call _).trans hb
  have hG : (b.step p .exit).client.closed = true ∨ (b.step p .exit).dead = true := by
    simp only [Caller.step, Caller.thread]
    split
    · next hd => exact .inr hd
    · split
      · next c1 e =>
        simp only [Client.Client.step, hs, Bool.true_and] at e
        split at e
        · simp only [Client.Client.exit, Py.bind_ok] at e
          obtain ⟨_, _, _, _, e⟩ := e
          cases e; exact .inl rfl
        · next hcl => cases e; exact .inl (by simpa using hcl)
      · exact .inr rfl
  refine ⟨(b.step p .exit).step p .go, .cons _ trivial (.cons _ (by simp only [FreshCall, hu', hc']) (.nil _)), ?_⟩
  generalize b.step p .exit = b1 at hu' hc' hG
  simp only [Caller.step, Caller.go, hu', if_true, hc']
  rw [if_pos]
  rcases hG with h | h <;> simp [h]

theorem joining_goes (hu : b.client.user = .idle) (hs : b.client.stop = true) {y : FState} (hb : b.call = .joining y) (m : Nat) :
    ∃ b', Calls p b (finishing m) b' ∧ b'.call = .raised y := by
  induction m with
  | zero => exact joining_finish (p := p) hu hs hb
  | succ m ih =>
    have hf : FreshCall p b .go := by simp only [FreshCall, hu, hb]
    by_cases hG : (b.client.closed || b.dead) = true
    · have h1 : b.step p .go = { b with call := .raised y } := by simp only [Caller.step, Caller.go, hu, if_true, hb, hG]
      obtain ⟨b', h2, h3⟩ := over_finish (p := p) (b := { b with call := .raised y }) hu trivial
      refine ⟨b', .cons _ hf ?_, h3⟩
      rw [h1]
      exact goes_append (over_go (b := { b with call := .raised y }) hu trivial m) h2
    · have h1 : b.step p .go = b := by
        simp only [Caller.step, Caller.go, hu, if_true, hb]
        rw [if_neg hG]
      obtain ⟨b', h2, h3⟩ := ih
      exact ⟨b', .cons _ hf (by rw [h1]; exact h2), h3⟩

/-- **C95.** If waiting for the futures comes to an end, so does the call: the user's thread goes on as often as there are
futures left and once more, and if a future raised, the connector's thread ends. -/
theorem C95_ends {left : List (Bytes × Nat)} {rs : List (Bytes × Bytes)} (hu : b.client.user = .idle) (hb : b.call = .waiting left rs)
    (hD : Decided b.client.futures left) : ∃ b', Calls p b (finishing (left.length + 1)) b' ∧ CallOver b'.call := by
  have fresh : ∀ {b : Caller} {left rs}, b.client.user = .idle → b.call = .waiting left rs → FreshCall p b .go := by
    intro b left rs h1 h2; simp only [FreshCall, h1, h2]
  induction left generalizing b rs with
  | nil =>
    have h1 : b.step p .go = { b with call := .returned rs } := by simp only [Caller.step, Caller.go, hu, if_true, hb]
    obtain ⟨b', h2, h3⟩ := over_finish (p := p) (b := { b with call := .returned rs }) hu trivial
    exact ⟨b', .cons _ (fresh hu hb) (by rw [h1]; exact h2), by rw [h3]; trivial⟩
  | cons y left ih =>
    obtain ⟨k, n⟩ := y
    have raise : ∀ z : FState, b.step p .go = { b with client := { b.client with stop := true }, call := .joining z } →
        ∃ b', Calls p b (finishing (((k, n) :: left).length + 1)) b' ∧ CallOver b'.call := by
      intro z hz
      obtain ⟨b', h1, h2⟩ := joining_goes (p := p) (b := { b with client := { b.client with stop := true }, call := .joining z }) hu rfl rfl (left.length + 1)
      exact ⟨b', .cons _ (fresh hu hb) (by rw [hz]; exact h1), by rw [h2]; trivial⟩
    simp only [Decided] at hD
    split at hD
    · next r hr =>
      have h1 : b.step p .go = { b with call := .waiting left (rs ++ [(k, r)]) } := by
        simp only [Caller.step, Caller.go, hu, if_true, hb, hr]
      obtain ⟨b', h2, h3⟩ := ih (b := { b with call := .waiting left (rs ++ [(k, r)]) }) hu rfl hD
      exact ⟨b', .cons _ (fresh hu hb) (by rw [h1]; exact h2), h3⟩
    · next r hr => exact raise (.exception r) (by simp only [Caller.step, Caller.go, hu, if_true, hb, hr])
    · next hr => exact raise .disconnected (by simp only [Caller.step, Caller.go, hu, if_true, hb, hr])
    · next hr => exact raise .cancelled (by simp only [Caller.step, Caller.go, hu, if_true, hb, hr])
    · exact hD.elim

/-- **C95.** When everything went well, a `map` that waits comes to its end. -/
theorem C95_map (hW : WentWell p rt cfg s) (hx : s.peers x = .client b'.client) (ha : ReachAlone p b'.client) (hc : b'.client.closed = false)
    {ids : List Bytes} {nm ct : Bytes} {it : Iter} {cs : List (List Bytes)} (hi : b.idle = true) (hm : mapCalls it = .ok cs)
    (h : Calls p (b.step p (.map ids nm ct it)) os b') (ho : ∀ o ∈ os, goesOn o = true) {left : List (Bytes × Nat)} {rs : List (Bytes × Bytes)}
    (hw : b'.call = .waiting left rs) : ∃ b'', Calls p b' (finishing (left.length + 1)) b'' ∧ CallOver b''.call := by
  simp only [Caller.step, hi, if_true, hm] at h
  refine C95_ends (hW.rest.client x _ hx hc).user hw ?_
  rcases maps_run hi h ho with ⟨left, got, h1, -⟩ | ⟨e, h1⟩ | ⟨L, -, h2, -, h3⟩
  · rw [hw] at h1; cases h1
  · rw [hw] at h1; cases h1
  · replace h3 : AwaitsAll L b' := h3
    unfold AwaitsAll at h3
    rw [hw] at h3
    obtain ⟨done, rfl, -, -⟩ := h3
    have : ∀ y ∈ left, ∃ r, b'.client.futures[y.2]? = some (.result r) ∨ b'.client.futures[y.2]? = some (.exception r) := fun y hy =>
      C95_submit hW hx ha hc (h2 y (List.mem_append_right _ hy)).2
    clear h2 hw
    induction left with
    | nil => trivial
    | cons y left ih =>
      simp only [Decided]
      obtain ⟨r, hr | hr⟩ := this y List.mem_cons_self
      · rw [hr]; exact ih fun z hz => this z (List.mem_cons_of_mem _ hz)
      · rw [hr]; trivial

/-! ### `get` -/

theorem lset_mem {l : List (Bytes × Nat)} {k : Bytes} {v : Nat} {y : Bytes × Nat} (h : y ∈ Dict.lset l k v) : y ∈ l ∨ y = (k, v) := by
  induction l with
  | nil => simpa [Dict.lset] using h
  | cons z l ih =>
    simp only [Dict.lset] at h
    split at h
    · rcases List.mem_cons.1 h with h | h
      · exact .inr h
      · exact .inl (List.mem_cons_of_mem _ h)
    · rcases List.mem_cons.1 h with h | h
      · exact .inl (h ▸ List.mem_cons_self)
      · exact (ih h).imp (List.mem_cons_of_mem _) id

theorem foldl_mem {l : List (Bytes × Nat)} {d : Dict Bytes Nat} {y : Bytes × Nat} (h : y ∈ (l.foldl (fun d p => d.set p.1 p.2) d).items) :
    y ∈ d.items ∨ y ∈ l := by
  induction l generalizing d with
  | nil => exact .inl h
  | cons z l ih =>
    rcases ih h with h | h
    · rcases lset_mem h with h | h
      · exact .inl h
      · exact .inr (h ▸ List.mem_cons_self)
    · exact .inr (List.mem_cons_of_mem _ h)

theorem foldl_head {l : List (Bytes × Nat)} {d : Dict Bytes Nat} {y : Bytes × Nat} (h : d.items.head? = some y) (hl : y.1 ∉ l.map (·.1)) :
    (l.foldl (fun d p => d.set p.1 p.2) d).items.head? = some y := by
  induction l generalizing d with
  | nil => exact h
  | cons z l ih =>
    simp only [List.map_cons, List.mem_cons, not_or] at hl
    refine ih ?_ hl.2
    show (Dict.lset d.items z.1 z.2).head? = some y
    cases hd : d.items with
    | nil => rw [hd] at h; cases h
    | cons u r =>
      rw [hd] at h
      cases h
      simp only [Dict.lset]
      rw [if_neg (fun e => hl.1 e)]
      rfl

/-- The graph's futures are about to enter the table, or have done so. -/
def Enters (g : Bytes) (ns : List Nat) (b : Caller) : Prop := b.client.user = .registerGraph g ns ∨ Act.started g ns ∈ b.client.log

theorem Enters.step {o : COp} {g : Bytes} {ns : List Nat} (h : Enters g ns b) (ho : goesOn o = true) (hf : FreshCall p b o) : Enters g ns (b.step p o) := by
  rcases h with h | h
  · cases o with
    | submit => cases ho
    | map => cases ho
    | get => cases ho
    | cancel n => exact .inl h
    | disconnect => exact .inl h
    | recv m => exact .inl ((thread_user (.inr (.inr ⟨m, rfl⟩))).trans h)
    | flush => exact .inl ((thread_user (.inl rfl)).trans h)
    | exit => exact .inl ((thread_user (.inr (.inl rfl))).trans h)
    | go =>
      right
      simp only [Caller.step, Caller.go, h, Client.Client.advance]
      simp [Client.Client.note]
  · exact .inr (step_keepsLog hf h)

theorem enters_run {blk : Bool} {ids : List Bytes} {gid : Bytes} {g : Dict Bytes UserNode} {keys : List Bytes} (hi : b.idle = true) {m : GraphTask}
    (hm : Client.buildGraph p ids gid g keys = .ok m) (h : Calls p (b.step p (.get ids gid g keys blk)) os b')
    (ho : ∀ o ∈ os, goesOn o = true) : Enters m.taskId (List.range' b.client.futures.length m.targets.length) b' := by
  have hc : b.client.callGet p ids gid g keys = .ok (b.client.get m, Client.returnFutures keys (List.range' b.client.futures.length m.targets.length)) := by
    simp only [Client.Client.callGet, hm]; rfl
  simp only [Caller.step, hi, if_true, hc] at h
  generalize hb : ({ b with client := b.client.get m, call := .getting (Client.returnFutures keys (List.range' b.client.futures.length m.targets.length)).items blk } : Caller) = b1 at h
  have h0 : Enters m.taskId (List.range' b.client.futures.length m.targets.length) b1 := by rw [← hb]; exact .inl rfl
  clear hb hc
  induction h with
  | nil => exact h0
  | cons o hf _ ih => exact ih (fun o h => ho o (List.mem_cons_of_mem _ h)) (h0.step (ho o List.mem_cons_self) hf)

/-- **C95.** When everything went well and the number of waiting tasks is not limited, a blocking `get` comes to its
end if the first key is not repeated among the keys that are paired with futures, which are as many as there are different keys.
Full statement: for all keys.  Missing: `get` may wait for ever otherwise (`C95_repeated_key`). -/
theorem C95_get_partial (hW : WentWell p rt cfg s) (hq : cfg.maxWaiting < 0) (hx : s.peers x = .client b'.client) (ha : ReachAlone p b'.client)
    (hc : b'.client.closed = false) {ids : List Bytes} {gid : Bytes} {g : Dict Bytes UserNode} {keys : List Bytes} (hi : b.idle = true)
    {c : Client.Client} {fs : Dict Bytes Nat} (hg : b.client.callGet p ids gid g keys = .ok (c, fs)) (hk : ∀ m k ks, Client.buildGraph p ids gid g keys = .ok m → keys = k :: ks → k ∉ ks.take (m.targets.length - 1))
    (h : Calls p (b.step p (.get ids gid g keys true)) os b') (ho : ∀ o ∈ os, goesOn o = true) {left : List (Bytes × Nat)} {rs : List (Bytes × Bytes)}
    (hw : b'.call = .waiting left rs) : ∃ b'', Calls p b' (finishing (left.length + 1)) b'' ∧ CallOver b''.call := by
  have hu := (hW.rest.client x _ hx hc).user
  refine C95_ends hu hw ?_
  have h3 : AwaitsAll fs.items b' := by
    rcases gets_run hi hg h ho with h1 | h1
    · rw [hw] at h1; cases h1
    · exact h1
  unfold AwaitsAll at h3
  rw [hw] at h3
  obtain ⟨done, h4, -, h5⟩ := h3
  simp only [Client.Client.callGet, Py.bind_ok] at hg
  obtain ⟨m, hm, hg⟩ := hg
  cases hg
  have hst : Act.started m.taskId (List.range' b.client.futures.length m.targets.length) ∈ b'.client.log := by
    rcases enters_run hi hm h ho with h1 | h1
    · rw [hu] at h1; cases h1
    · exact h1
  have hval : ∀ y ∈ done ++ left, y.2 ∈ List.range' b.client.futures.length m.targets.length := by
    intro y hy
    rw [← h4] at hy
    rcases foldl_mem hy with hy | hy
    · cases hy
    · exact (List.of_mem_zip hy).2
  rcases C95_graph hW hq hx ha hc hst with hall | ⟨n, r, hn, hr⟩
  · have : ∀ y ∈ left, ∃ r, b'.client.futures[y.2]? = some (.result r) := fun y hy => hall _ (hval y (List.mem_append_right _ hy))
    clear hw h4 hval
    induction left with
    | nil => trivial
    | cons y left ih =>
      simp only [Decided]
      obtain ⟨r, hr⟩ := this y List.mem_cons_self
      rw [hr]; exact ih fun z hz => this z (List.mem_cons_of_mem _ hz)
  · have hlen : 0 < m.targets.length := by
      have := (List.getElem?_eq_some_iff.1 hn).1
      simpa using this
    have hn' : n = b.client.futures.length := by
      rw [List.getElem?_range' (by omega)] at hn
      simpa using hn.symm
    cases keys with
    | nil =>
      simp only [Client.returnFutures, List.zip_nil_left, Dict.ofList, List.foldl_nil] at h4
      have : done ++ left = [] := h4.symm
      rw [(List.append_eq_nil_iff.1 this).2]; trivial
    | cons k ks =>
      have hhead : (done ++ left).head? = some (k, n) := by
        rw [← h4, hn']
        obtain ⟨j, hj⟩ : ∃ j, m.targets.length = j + 1 := ⟨m.targets.length - 1, by omega⟩
        simp only [Client.returnFutures, hj, List.range'_succ, List.zip_cons_cons, Dict.ofList, List.foldl_cons]
        refine foldl_head rfl fun hmem => ?_
        obtain ⟨y, hy, e⟩ := List.mem_map.1 hmem
        have e : y.1 = k := e
        rw [zip_take, List.length_range'] at hy
        refine hk m k ks hm rfl ?_
        rw [hj, Nat.add_sub_cancel]
        exact e ▸ (List.of_mem_zip (a := y.1) (b := y.2) hy).1
      cases done with
      | nil =>
        cases left with
        | nil => trivial
        | cons y left =>
          cases hhead
          simp only [Decided, hr]
      | cons y done =>
        exfalso
        cases hhead
        obtain ⟨r', h6⟩ := results_left h5 _ List.mem_cons_self
        rw [hr] at h6; cases h6

end Verif.Props
