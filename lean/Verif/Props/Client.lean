import Verif.Client.ClientAlone

/-!
# Claims about the client's two threads (C45-C49)

`Client.Reach p c` says that the client can be in state `c`: any interleaving of the user's thread with the
connector's thread, any messages in any order.  The history `c.log` is what the properties talk about.
-/

namespace Verif.Props

open Verif.Wire Verif.Client Verif.Spec.Client

/-! ### Concrete runs -/

/-- Everything can be unpickled; the id of a function is its content. -/
def plainPickle : Pickle := ⟨fun _ => true, id⟩

instance (c : Client.Client) (o : Client.Op) : Decidable (FreshOp c o) := by
  cases o <;> unfold FreshOp <;> infer_instance

instance (c : Client.Client) (o : Client.Op) : Decidable (Undisturbed c o) := by
  cases o <;> unfold Undisturbed <;> infer_instance

/-- Runs events that use new ids. -/
def clientRun (p : Pickle) : Client.Client → List Client.Op → Option Client.Client
  | c, [] => some c
  | c, o :: os =>
    if FreshOp c o then
      match c.step p o with
      | .ok c' => clientRun p c' os
      | .error _ => none
    else none

theorem clientRun_reach {p : Pickle} : ∀ (os : List Client.Op) {c c' : Client.Client}, Client.Reach p c → clientRun p c os = some c' →
    Client.Reach p c' := by
  intro os
  induction os with
  | nil => intro c c' h e; simp only [clientRun] at e; cases e; exact h
  | cons o os ih =>
    intro c c' h e
    unfold clientRun at e
    split at e
    · split at e
      · exact ih (.step o h ‹_› ‹_›) e
      · cases e
    · cases e

/-- The same if no message is handled while `submit` runs. -/
def clientAloneRun (p : Pickle) : Client.Client → List Client.Op → Option Client.Client
  | c, [] => some c
  | c, o :: os =>
    if FreshOp c o ∧ Undisturbed c o then
      match c.step p o with
      | .ok c' => clientAloneRun p c' os
      | .error _ => none
    else none

theorem clientAloneRun_reach {p : Pickle} : ∀ (os : List Client.Op) {c c' : Client.Client}, ReachAlone p c → clientAloneRun p c os = some c' →
    ReachAlone p c' := by
  intro os
  induction os with
  | nil => intro c c' h e; simp only [clientAloneRun] at e; cases e; exact h
  | cons o os ih =>
    intro c c' h e
    unfold clientAloneRun at e
    split at e
    · rename_i hc
      split at e
      · exact ih (.step o h hc.1 hc.2 ‹_›) e
      · cases e
    · cases e

/-- A fact about the state after some events. -/
def clientWitness {α : Type} (os : List Client.Op) (f : Client.Client → α) : Option α := (clientRun plainPickle Client.Client.init os).map f

theorem clientWitness_sound {α : Type} {os : List Client.Op} {f : Client.Client → α} {x : α} (h : clientWitness os f = some x) :
    ∃ c, Client.Reach plainPickle c ∧ f c = x := by
  unfold clientWitness at h
  cases hr : clientRun plainPickle Client.Client.init os with
  | none => simp [hr] at h
  | some c =>
    simp only [hr, Option.map_some, Option.some.injEq] at h
    exact ⟨c, clientRun_reach os .init hr, h⟩

/-- `submit` without anything in between: the function is `[9]`. -/
def submitAll (t : Bytes) : List Client.Op := .submit t [5] [9] [] :: List.replicate 5 .advance

/-- The scheduler has the function `[9]`. -/
def fnOk : Client.Op := .recv (.functionResponse .ok [9] [] [])

/-- A graph with two targets. -/
def pair : GraphTask := ⟨[20], Dict.empty.set [9] ([5], [9]), [[21], [22]], [⟨[21], [9], []⟩, ⟨[22], [9], []⟩]⟩

/-! ### C45 -/

/-- A result that arrives while its future is open resolves exactly this future with exactly this result, and the
future is not open any more.  Not covered: results that arrive while `submit` has not registered its future yet
(see `C45_lost`), and futures the user cancelled. -/
theorem C45_resolves_partial {p : Pickle} {c : Client.Client} (hr : Client.Reach p c) (hc : c.closed = false) {t : Bytes} {n : Nat}
    (ho : openFuture t c.log = some n) (hs : c.futures[n]? = some .pending ∨ c.futures[n]? = some .running)
    {st : TaskStatus} {s : FState} {m : UInt32} {r : Bytes} (hst : (st = .success ∧ s = .result r) ∨ (st = .failed ∧ s = .exception r))
    (hl : p.loads r = true) :
    ∃ c', c.step p (.recv (.taskResult t st m r)) = .ok c' ∧ c'.futures = c.futures.set n s ∧ n < c.futures.length ∧
      openFuture t c'.log = none ∧ c'.log = c.log ++ [.recv (.taskResult t st m r)] := by
  have hf := hr.fut
  rw [← hf.fut] at ho
  have hn : n < c.futures.length := by
    rcases hs with h | h <;> exact (List.getElem?_eq_some_iff.1 h).1
  have hrd : Ready { (c.note (.recv (.taskResult t st m r))) with toFuture := c.toFuture.erase t } n := hs
  refine ⟨{ (c.note (.recv (.taskResult t st m r))) with toFuture := c.toFuture.erase t, futures := c.futures.set n s }, ?_, rfl, hn, ?_, rfl⟩
  · have hg : (c.note (.recv (.taskResult t st m r))).toFuture.get? t = some n := ho
    have hb : (if False then Except.error PyErr.valueError else Except.ok () : Py Unit) = .ok () := rfl
    rcases hst with ⟨rfl, rfl⟩ | ⟨rfl, rfl⟩ <;>
      simp only [Client.Client.step, hc, Client.Client.receive, Client.Client.onTaskResult, hg, raiseIf, hl, Bool.not_true, Bool.false_eq_true, if_false,
        hb, Py.ok_bind] <;> exact setFuture_finish _ hrd
  · simp only [Client.Client.note, openFuture_snoc, futureStep, if_true]

/-- A future holds only results of its own task. -/
theorem C45_own {p : Pickle} {c : Client.Client} (hr : Client.Reach p c) {t : Bytes} {n : Nat} (hn : Act.returned t n ∈ c.log) :
    (∀ r, c.futures[n]? = some (.result r) → ∃ m, Act.recv (.taskResult t .success m r) ∈ c.log) ∧
    (∀ r, c.futures[n]? = some (.exception r) → ∃ m, Act.recv (.taskResult t .failed m r) ∈ c.log) := by
  have ho := hr.own
  refine ⟨?_, ?_⟩
  · intro r h
    rcases ho.expl n _ h with ⟨t', m, h1, h2⟩ | ⟨g, ns, rs, i, h1, h2, _⟩
    · cases ho.one _ _ _ hn h1; exact ⟨m, h2⟩
    · exact absurd (List.mem_of_getElem? h2) (ho.apart _ _ _ _ hn h1)
  · intro r h
    rcases ho.expl n _ h with ⟨t', m, h1, h2⟩ | ⟨g, ns, rs, i, h1, h2, _⟩
    · cases ho.one _ _ _ hn h1; exact ⟨m, h2⟩
    · exact absurd (List.mem_of_getElem? h2) (ho.apart _ _ _ _ hn h1)

/-- A resolved future never changes again. -/
theorem C45_final {p : Pickle} {c c' : Client.Client} {o : Client.Op} {n : Nat} {s : FState} (hs : c.futures[n]? = some s) (hF : Final s)
    (e : c.step p o = .ok c') : c'.futures[n]? = some s := step_final hs hF e

/-- A result for a task without an open future changes nothing but the history. -/
theorem C45_unknown {p : Pickle} {c : Client.Client} (hr : Client.Reach p c) (hc : c.closed = false) {t : Bytes}
    (ho : openFuture t c.log = none) (st : TaskStatus) (m : UInt32) (r : Bytes) :
    c.step p (.recv (.taskResult t st m r)) = .ok { c with log := c.log ++ [.recv (.taskResult t st m r)] } := by
  have hg : (c.note (.recv (.taskResult t st m r))).toFuture.get? t = none := (hr.fut.fut t).trans ho
  simp only [Client.Client.step, hc, Bool.false_eq_true, if_false, Client.Client.receive, Client.Client.onTaskResult, hg]
  simp [Client.Client.note, hc]

/-- Two tasks: the result of the second resolves the second future only. -/
example : clientWitness (submitAll [1] ++ submitAll [2] ++ [.flush, fnOk, .flush, .flush, .recv (.taskEcho [1] .submitOK),
      .recv (.taskEcho [2] .submitOK), .recv (.taskResult [2] .success 0 [42])]) (fun c => (c.futures, openFuture [1] c.log, openFuture [2] c.log)) =
    some ([.running, .result [42]], some 0, none) := by decide +kernel

/-- **The claim is false**: `submit` registers the future after it has handed the task over, and a result that arrives
before is dropped.  The future stays pending. -/
theorem C45_lost : ∃ c, Client.Reach plainPickle c ∧ c.user = .idle ∧ c.futures = [.pending] ∧
    c.log.drop 4 = [.recv (.taskResult [1] .success 0 [42]), .returned [1] 0] := by
  have h : clientWitness ([.submit [1] [5] [9] [], .advance, .advance, .advance, .advance, .flush, fnOk, .flush,
      .recv (.taskResult [1] .success 0 [42]), .advance]) (fun c => decide (c.user = .idle ∧ c.futures = [.pending] ∧
        c.log.drop 4 = [.recv (.taskResult [1] .success 0 [42]), .returned [1] 0])) = some true := by decide +kernel
  obtain ⟨c, hc, hf⟩ := clientWitness_sound h
  exact ⟨c, hc, of_decide_eq_true hf⟩

/-- If the acceptance arrives before, the connector's thread dies with a `KeyError`. -/
theorem C45_echo_race : ∃ c, Client.Reach plainPickle c ∧ lastCopy [1] c.log = .flying ∧ c.closed = false ∧
    (c.step plainPickle (.recv (.taskEcho [1] .submitOK))).toOption.isNone := by
  have h : clientWitness ([.submit [1] [5] [9] [], .advance, .advance, .advance, .advance, .flush, fnOk, .flush])
      (fun c => decide (lastCopy [1] c.log = .flying ∧ c.closed = false ∧
        (c.step plainPickle (.recv (.taskEcho [1] .submitOK))).toOption.isNone)) = some true := by decide +kernel
  obtain ⟨c, hc, hf⟩ := clientWitness_sound h
  exact ⟨c, hc, of_decide_eq_true hf⟩

/-- A result for a future the user cancelled kills the connector's thread. -/
theorem C45_cancelled_kills : ∃ c, Client.Reach plainPickle c ∧ openFuture [1] c.log = some 0 ∧ Act.cancelled 0 ∈ c.log ∧
    (c.step plainPickle (.recv (.taskResult [1] .success 0 [42]))).toOption.isNone := by
  have h : clientWitness (submitAll [1] ++ [.flush, fnOk, .flush, .cancel 0, .recv (.taskEcho [1] .submitOK)])
      (fun c => decide (openFuture [1] c.log = some 0 ∧ Act.cancelled 0 ∈ c.log ∧
        (c.step plainPickle (.recv (.taskResult [1] .success 0 [42]))).toOption.isNone)) = some true := by decide +kernel
  obtain ⟨c, hc, hf⟩ := clientWitness_sound h
  exact ⟨c, hc, of_decide_eq_true hf⟩

/-! ### C46 -/

/-- If no message is handled while `submit` runs, every task that is not acknowledged is on its way: it waits for a
function whose request is out, it is queued or sent and not echoed, or its last echo was `Duplicated`.  Missing: the
other interleavings, for which the claim is false (`C46_stranded`). -/
theorem C46_partial {p : Pickle} {c : Client.Client} (hr : ReachAlone p c) (hu : c.user = .idle) {k : Task} {nm b : Bytes}
    (hk : Act.submitted k nm b ∈ c.log) (ha : Act.recv (.taskEcho k.taskId .submitOK) ∉ c.log) :
    ((∃ ks, c.notReady.get? k.functionId = some ks ∧ k ∈ ks) ∧ Outstanding k.functionId c) ∨ Message.task k ∈ c.outbox ∨
    lastCopy k.taskId c.log = .flying ∨ lastCopy k.taskId c.log = .echoed .duplicated := by
  have hi := hr.alone
  have hg := hr.reach.unacked k nm b hk ha
  rcases hi.place _ _ hg with h | ⟨ks, h, h'⟩ | h
  · simp [hu, User.unsent?] at h
  · exact .inl ⟨⟨ks, h, h'⟩, hi.ask _ (by simp [h])⟩
  · exact .inr h

/-- Two tasks; the first was refused and waits for the function again, the second is not echoed yet. -/
example : ∃ c, ReachAlone plainPickle c ∧ c.user = .idle ∧ asked [9] c.log = true ∧ lastCopy [1] c.log = .echoed .functionNotExists ∧
    lastCopy [2] c.log = .flying ∧ (c.notReady.get? [9]).map (List.map (·.taskId)) = some [[1]] := by
  have h : (clientAloneRun plainPickle Client.Client.init (submitAll [1] ++ submitAll [2] ++ [.flush, fnOk, .flush, .flush,
      .recv (.taskEcho [1] .functionNotExists), .flush])).map (fun c => decide (c.user = .idle ∧ asked [9] c.log = true ∧
        lastCopy [1] c.log = .echoed .functionNotExists ∧ lastCopy [2] c.log = .flying ∧
        (c.notReady.get? [9]).map (List.map (·.taskId)) = some [[1]])) = some true := by decide +kernel
  obtain ⟨c, hc, hf⟩ := Option.map_eq_some_iff.1 h
  exact ⟨c, clientAloneRun_reach _ .init hc, of_decide_eq_true hf⟩

/-- **The claim is false**: the user's thread sees that the function was asked for, the answer arrives, and only then
the task joins the tasks that wait for the answer.  Nothing is on its way for it; later tasks with the same function
join it. -/
theorem C46_stranded : ∃ c, Client.Reach plainPickle c ∧ c.user = .idle ∧ c.outbox = [] ∧ asked [9] c.log = false ∧
    lastCopy [2] c.log = .none ∧ lastCopy [3] c.log = .none ∧
    (c.notReady.get? [9]).map (List.map (·.taskId)) = some [[2], [3]] := by
  have h : clientWitness (submitAll [1] ++ [.flush, .submit [2] [5] [9] [], .advance, .advance, fnOk, .advance, .advance, .flush] ++
      [.submit [3] [5] [9] [], .advance, .advance, .advance, .advance])
      (fun c => decide (c.user = .idle ∧ c.outbox = [] ∧ asked [9] c.log = false ∧
        lastCopy [2] c.log = .none ∧ lastCopy [3] c.log = .none ∧
        (c.notReady.get? [9]).map (List.map (·.taskId)) = some [[2], [3]])) = some true := by decide +kernel
  obtain ⟨c, hc, hf⟩ := clientWitness_sound h
  exact ⟨c, hc, of_decide_eq_true hf⟩

/-! ### C47 -/

/-- Every message the client sends is proper; in particular a task is sent only after the scheduler said that it has
the function. -/
theorem C47_known {p : Pickle} {c : Client.Client} (hr : Client.Reach p c) : Always (Proper p) c.log := hr.task.sent

/-- A task is sent once, and once more for each time the scheduler said that it does not know the function: there
are never two copies of it on their way. -/
theorem C47_once {p : Pickle} {c : Client.Client} (hr : Client.Reach p c) (t : Bytes) :
    c.log.countP (isSent t) ≤ c.log.countP (isRefused t) + 1 := by
  have h := hr.count t
  have h1 := countP_submit_le t c.log
  have h2 := countP_le_one hr.ids t
  omega

/-- The function is known, the task is sent, refused, the function is sent again, the task is sent again. -/
example : clientWitness (submitAll [1] ++ [.flush, fnOk, .flush, .recv (.taskEcho [1] .functionNotExists), .flush, fnOk, .flush])
    (fun c => (c.log.countP (isSent [1]), c.log.countP (isRefused [1]))) = some (2, 1) := by decide +kernel

/-! ### C48 -/

/-- A failed graph result with `j` entries fails the first `j` futures of the graph and leaves the others.  Since
the scheduler sends one entry, this is the claim for graphs with one target only. -/
theorem C48_failed_partial {p : Pickle} {c : Client.Client} (hr : Client.Reach p c) (hc : c.closed = false) {g : Bytes} {ns : List Nat}
    (ho : openGraph g c.log = some ns) {rs : List Bytes} {x : Bytes} (hx : rs[0]? = some x) (hl : p.loads x = true)
    (hlen : rs.length ≤ ns.length)
    (hs : ∀ (i n : Nat), i < rs.length → ns[i]? = some n → c.futures[n]? = some .pending ∨ c.futures[n]? = some .running) :
    ∃ c', c.step p (.recv (.graphTaskResult g .failed rs)) = .ok c' ∧
      (∀ (i n : Nat), i < rs.length → ns[i]? = some n → c'.futures[n]? = some (.exception x)) ∧
      (∀ n, (∀ i, i < rs.length → ns[i]? ≠ some n) → c'.futures[n]? = c.futures[n]?) := by
  have hf := hr.fut
  rw [← hf.gr] at ho
  have hg : (c.note (.recv (.graphTaskResult g .failed rs))).graphs.get? g = some ns := ho
  have hnd : ns.Nodup := by
    have := hf.nodup
    simp only [Client.Client.refs, List.nodup_append] at this
    exact (List.pairwise_flatten.1 this.1.2.1).1 ns (List.mem_map.2 ⟨(g, ns), Dict.mem_items.2 ho, rfl⟩)
  obtain ⟨c', hc'⟩ := resolveAll_total (c := { (c.note (.recv (.graphTaskResult g .failed rs))) with graphs := c.graphs.erase g })
    (f := fun _ => .ok (.exception x)) hnd hlen (fun i n hi hn => hs i n hi hn) (fun _ _ => ⟨_, rfl⟩)
  refine ⟨c', ?_, ?_⟩
  · have hb : (if False then Except.error PyErr.valueError else Except.ok () : Py Unit) = .ok () := rfl
    simp only [Client.Client.step, hc, Client.Client.receive, Client.Client.onGraphTaskResult, hg, raiseIf, hl, Bool.not_true, Bool.false_eq_true, if_false,
        pyIndex, hx, hb, Py.ok_bind]
    exact hc'
  · obtain ⟨h1, h2⟩ := resolveAll_spec hnd hc'
    refine ⟨?_, h2⟩
    intro i n hi hn
    obtain ⟨s, hs, h⟩ := h1 i rs[i] n (by simp [hi]) hn
    cases hs
    exact h

/-- A successful result with one entry per target resolves every future with its own entry. -/
theorem C48_success {p : Pickle} {c : Client.Client} (hr : Client.Reach p c) (hc : c.closed = false) {g : Bytes} {ns : List Nat}
    (ho : openGraph g c.log = some ns) {rs : List Bytes} (hl : ∀ r ∈ rs, p.loads r = true) (hlen : rs.length = ns.length)
    (hs : ∀ n ∈ ns, c.futures[n]? = some .pending ∨ c.futures[n]? = some .running) :
    ∃ c', c.step p (.recv (.graphTaskResult g .success rs)) = .ok c' ∧
      (∀ (i : Nat) (n : Nat) r, ns[i]? = some n → rs[i]? = some r → c'.futures[n]? = some (.result r)) ∧
      (∀ n, n ∉ ns → c'.futures[n]? = c.futures[n]?) := by
  have hf := hr.fut
  rw [← hf.gr] at ho
  have hg : (c.note (.recv (.graphTaskResult g .success rs))).graphs.get? g = some ns := ho
  have hnd : ns.Nodup := by
    have := hf.nodup
    simp only [Client.Client.refs, List.nodup_append] at this
    exact (List.pairwise_flatten.1 this.1.2.1).1 ns (List.mem_map.2 ⟨(g, ns), Dict.mem_items.2 ho, rfl⟩)
  obtain ⟨c', hc'⟩ := resolveAll_total (c := { (c.note (.recv (.graphTaskResult g .success rs))) with graphs := c.graphs.erase g })
    (f := fun r => if p.loads r then .ok (.result r) else .error .valueError) hnd (Nat.le_of_eq hlen)
    (fun i n _ hn => hs n (List.mem_of_getElem? hn)) (fun r hr => ⟨.result r, by simp [hl r hr]⟩)
  refine ⟨c', ?_, ?_⟩
  · simp only [Client.Client.step, hc, Client.Client.receive, Client.Client.onGraphTaskResult, hg, Bool.false_eq_true, if_false]
    exact hc'
  · obtain ⟨h1, h2⟩ := resolveAll_spec hnd hc'
    refine ⟨?_, ?_⟩
    · intro i n r hn hr
      obtain ⟨s, hs, h⟩ := h1 i r n hr hn
      simp only [hl r (List.mem_of_getElem? hr), if_true] at hs
      cases hs
      exact h
    · exact fun n hn => h2 n (fun i _ hi => hn (List.mem_of_getElem? hi))

/-- Two targets succeed. -/
example : clientWitness [.get pair, .advance, .flush, .recv (.graphTaskResult [20] .success [[1], [2]])] (fun c => c.futures) =
    some [.result [1], .result [2]] := by decide +kernel

/-- **The claim is false**: the scheduler reports a failed graph with one entry, and the second future stays pending,
although nothing more will come for this graph. -/
theorem C48_first_only : ∃ c, Client.Reach plainPickle c ∧ Act.recv (.graphTaskResult [20] .failed [[7]]) ∈ c.log ∧
    c.futures = [.exception [7], .pending] ∧ openGraph [20] c.log = none := by
  have h : clientWitness [.get pair, .advance, .flush, .recv (.graphTaskResult [20] .failed [[7]])]
      (fun c => decide (Act.recv (.graphTaskResult [20] .failed [[7]]) ∈ c.log ∧
    c.futures = [.exception [7], .pending] ∧ openGraph [20] c.log = none)) = some true := by decide +kernel
  obtain ⟨c, hc, hf⟩ := clientWitness_sound h
  exact ⟨c, hc, of_decide_eq_true hf⟩

/-! ### C49 -/

/-- Futures that are open. -/
def Open (l : Hist) (n : Nat) : Prop := (∃ t, openFuture t l = some n) ∨ ∃ g ns, openGraph g l = some ns ∧ n ∈ ns

/-- The end of the connector's thread succeeds iff every open future is pending or running; then every open future is
resolved with `ScaledDisconnect`, the others stay, and a cancel was sent for every open task and graph.  Missing:
open futures that the user cancelled, for which it raises. -/
theorem C49_partial {p : Pickle} {c : Client.Client} (hr : Client.Reach p c) (hst : c.stop = true) (hc : c.closed = false) :
    (∃ c', c.step p .exit = .ok c') ↔ (∀ n, Open c.log n → c.futures[n]? = some .pending ∨ c.futures[n]? = some .running) := by
  have hf := hr.fut
  have hmem1 : ∀ n, n ∈ c.toFuture.items.map (·.2) ↔ ∃ t, openFuture t c.log = some n := by
    intro n
    constructor
    · intro h
      obtain ⟨⟨t, m⟩, h1, rfl⟩ := List.mem_map.1 h
      exact ⟨t, (hf.fut t).symm.trans (Dict.mem_items.1 h1)⟩
    · rintro ⟨t, h⟩
      exact List.mem_map.2 ⟨(t, n), Dict.mem_items.2 ((hf.fut t).trans h), rfl⟩
  have hmem2 : ∀ n, n ∈ (c.graphs.items.map (·.2)).flatten ↔ ∃ g ns, openGraph g c.log = some ns ∧ n ∈ ns := by
    intro n
    constructor
    · intro h
      obtain ⟨ns, h1, h2⟩ := List.mem_flatten.1 h
      obtain ⟨⟨g, ns'⟩, h3, rfl⟩ := List.mem_map.1 h1
      exact ⟨g, ns', (hf.gr g).symm.trans (Dict.mem_items.1 h3), h2⟩
    · rintro ⟨g, ns, h, h'⟩
      exact List.mem_flatten.2 ⟨ns, List.mem_map.2 ⟨(g, ns), Dict.mem_items.2 ((hf.gr g).trans h), rfl⟩, h'⟩
  have hnd := hf.nodup
  simp only [Client.Client.refs, List.nodup_append, Dict.values] at hnd
  simp only [Client.Client.step, hst, hc, Bool.not_false, Bool.and_self, if_true, Client.Client.exit]
  constructor
  · rintro ⟨c', e⟩ n hn
    simp only [Py.bind_ok] at e
    obtain ⟨c1, h1, c2, h2, e⟩ := e
    have hs1 := exitTasks_spec h1
    have hs2 := exitGraphs_spec h2
    rw [(exitTasks_same h1).1] at hs2
    rcases hn with hn | hn
    · exact (hs1.1 n ((hmem1 n).2 hn)).1
    · have h3 := (hs2.1 n ((hmem2 n).2 hn)).1
      have hne : n ∉ c.toFuture.items.map (·.2) := fun h => hnd.1.2.2 n h n ((hmem2 n).2 hn) rfl
      have := hs1.2 n hne
      rcases h3 with h | h
      · exact .inl (this.symm.trans h)
      · exact .inr (this.symm.trans h)
  · intro h
    obtain ⟨c1, h1⟩ := exitTasks_total hnd.1.1 (fun n hn => h n (.inl ((hmem1 n).1 hn)))
    have hs1 := exitTasks_spec h1
    obtain ⟨c2, h2⟩ := exitGraphs_total (c := c1) (l := c.graphs.items) hnd.1.2.1 (fun n hn => by
      have hne : n ∉ c.toFuture.items.map (·.2) := fun h => hnd.1.2.2 n h n hn rfl
      have := hs1.2 n hne
      rcases h n (.inr ((hmem2 n).1 hn)) with h | h
      · exact .inl (this.trans h)
      · exact .inr (this.trans h))
    rw [← (exitTasks_same h1).1] at h2
    exact ⟨_, by rw [h1, Py.ok_bind, h2, Py.ok_bind]; rfl⟩

/-- What the end of the thread does. -/
theorem C49_resolves {p : Pickle} {c c' : Client.Client} (hr : Client.Reach p c) (hst : c.stop = true) (hc : c.closed = false)
    (e : c.step p .exit = .ok c') :
    (∀ n, Open c.log n → c'.futures[n]? = some .disconnected) ∧ (∀ n, ¬ Open c.log n → c'.futures[n]? = c.futures[n]?) ∧
    (∀ t n, openFuture t c.log = some n → Act.sent (.taskCancel t) ∈ c'.log) ∧
    (∀ g ns, openGraph g c.log = some ns → Act.sent (.graphTaskCancel g) ∈ c'.log) ∧ c'.closed = true := by
  have hf := hr.fut
  simp only [Client.Client.step, hst, hc, Bool.not_false, Bool.and_self, if_true, Client.Client.exit, Py.bind_ok, Py.pure_eq] at e
  obtain ⟨c1, h1, c2, h2, e⟩ := e
  cases e
  have hs1 := exitTasks_spec h1
  have hs2 := exitGraphs_spec h2
  rw [(exitTasks_same h1).1] at hs2
  have m1 : ∀ t n, openFuture t c.log = some n → (t, n) ∈ c.toFuture.items := fun t n h => Dict.mem_items.2 ((hf.fut t).trans h)
  have m2 : ∀ g ns, openGraph g c.log = some ns → (g, ns) ∈ c.graphs.items := fun t n h => Dict.mem_items.2 ((hf.gr t).trans h)
  refine ⟨?_, ?_, ?_, ?_, rfl⟩
  · rintro n (⟨t, h⟩ | ⟨g, ns, h, h'⟩)
    · exact exitGraphs_final (c' := c2) (hs1.1 n (List.mem_map.2 ⟨_, m1 t n h, rfl⟩)).2 trivial h2
    · exact (hs2.1 n (List.mem_flatten.2 ⟨ns, List.mem_map.2 ⟨_, m2 g ns h, rfl⟩, h'⟩)).2
  · intro n hn
    refine (hs2.2 n ?_).trans (hs1.2 n ?_)
    · intro h
      obtain ⟨ns, h1, h2⟩ := List.mem_flatten.1 h
      obtain ⟨⟨g, ns'⟩, h3, rfl⟩ := List.mem_map.1 h1
      exact hn (.inr ⟨g, ns', (hf.gr g).symm.trans (Dict.mem_items.1 h3), h2⟩)
    · intro h
      obtain ⟨⟨t, m⟩, h1, rfl⟩ := List.mem_map.1 h
      exact hn (.inl ⟨t, (hf.fut t).symm.trans (Dict.mem_items.1 h1)⟩)
  · intro t n h
    simp only [Client.Client.note, exitGraphs_log h2, exitTasks_log h1]
    simp
    exact .inr ⟨_, m1 t n h⟩
  · intro g ns h
    have hm := m2 g ns h
    simp only [Client.Client.note, exitGraphs_log h2, exitTasks_log h1, (exitTasks_same h1).1]
    simp
    exact .inr ⟨_, hm⟩

/-- A running task, a pending task and a graph. -/
example : clientWitness (submitAll [1] ++ submitAll [2] ++ [.flush, fnOk, .flush, .flush, .recv (.taskEcho [1] .submitOK), .get pair, .advance,
      .disconnect, .exit]) (fun c => (c.futures, c.log.drop (c.log.length - 4))) =
    some ([.disconnected, .disconnected, .disconnected, .disconnected],
      [.sent (.taskCancel [1]), .sent (.taskCancel [2]), .sent (.graphTaskCancel [20]), .exited]) := by decide +kernel

/-- **The claim is false**: an open future that the user cancelled makes the end of the thread raise; another future
is left pending. -/
theorem C49_cancelled : ∃ c, Client.Reach plainPickle c ∧ c.stop = true ∧ c.futures = [.cancelled, .pending] ∧
    openFuture [2] c.log = some 1 ∧ (c.step plainPickle .exit).toOption.isNone := by
  have h : clientWitness (submitAll [1] ++ submitAll [2] ++ [.cancel 0, .disconnect])
      (fun c => decide (c.stop = true ∧ c.futures = [.cancelled, .pending] ∧
    openFuture [2] c.log = some 1 ∧ (c.step plainPickle .exit).toOption.isNone)) = some true := by decide +kernel
  obtain ⟨c, hc, hf⟩ := clientWitness_sound h
  exact ⟨c, hc, of_decide_eq_true hf⟩

/-- **The claim is false**: a future that `submit` registers after the thread ended is never resolved. -/
theorem C49_late : ∃ c, Client.Reach plainPickle c ∧ c.closed = true ∧ c.user = .idle ∧ c.futures = [.pending] ∧
    openFuture [1] c.log = some 0 := by
  have h : clientWitness ([.submit [1] [5] [9] [], .advance, .advance, .disconnect, .exit, .advance, .advance, .advance])
      (fun c => decide (c.closed = true ∧ c.user = .idle ∧ c.futures = [.pending] ∧ openFuture [1] c.log = some 0)) = some true := by
    decide +kernel
  obtain ⟨c, hc, hf⟩ := clientWitness_sound h
  exact ⟨c, hc, of_decide_eq_true hf⟩

/-! ### The end comes only when asked for -/

/-- The client has not been told to end, and it has not ended. -/
structure Quiet (c : Client.Client) : Prop where
  stop : c.stop = false
  closed : c.closed = false
  futures : Client.FState.disconnected ∉ c.futures
  log : Act.exited ∉ c.log

theorem setFuture_quiet {c c' : Client.Client} {n : Nat} {f : Client.FState → Py Client.FState}
    (h : c.setFuture n f = .ok c') (hq : Quiet c) (hf : ∀ s s', f s = .ok s' → s' ≠ .disconnected) : Quiet c' := by
  simp only [Client.Client.setFuture, Py.bind_ok, Py.pure_eq, Except.ok.injEq] at h
  obtain ⟨s, -, s', hs, rfl⟩ := h
  refine ⟨hq.stop, hq.closed, fun hm => ?_, hq.log⟩
  rcases List.mem_or_eq_of_mem_set hm with hm | hm
  · exact hq.futures hm
  · exact hf s s' hs hm.symm

theorem finish_ne {x s s' : Client.FState} (hx : x ≠ .disconnected) (h : Client.FState.finish x s = .ok s') : s' ≠ .disconnected := by
  cases s <;> cases h <;> exact hx

theorem setRunning_ne {s s' : Client.FState} (h : Client.FState.setRunning s = .ok s') : s' ≠ .disconnected := by
  cases s <;> cases h <;> simp

theorem resolveAll_quiet {f : Bytes → Py Client.FState} (hf : ∀ r s, f r = .ok s → s ≠ .disconnected) :
    ∀ (rs : List Bytes) (ns : List Nat) (c c' : Client.Client), Quiet c → c.resolveAll f rs ns = .ok c' → Quiet c' := by
  intro rs
  induction rs with
  | nil => intro ns c c' hq h; cases h; exact hq
  | cons r rs ih =>
    intro ns c c' hq h
    cases ns with
    | nil => cases h
    | cons n ns =>
      simp only [Client.Client.resolveAll, Py.bind_ok] at h
      obtain ⟨s, hs, c1, h1, h2⟩ := h
      exact ih ns c1 c' (setFuture_quiet h1 hq (fun _ _ => finish_ne (hf r s hs))) h2

theorem step_quiet {p : Pickle} {c c' : Client.Client} {o : Client.Op} (hq : Quiet c) (ho : o ≠ .disconnect) (h : c.step p o = .ok c') :
    Quiet c' := by
  have note : ∀ {c : Client.Client} (x : Act), Quiet c → x ≠ .exited → Quiet (c.note x) := by
    intro c x q hx
    refine ⟨q.stop, q.closed, q.futures, fun hm => ?_⟩
    rcases List.mem_append.1 hm with hm | hm
    · exact q.log hm
    · exact hx (List.mem_singleton.1 hm).symm
  have req : ∀ {c c1 : Client.Client} {k : Task}, Quiet c → c.requestFunction k = .ok c1 → Quiet c1 := by
    intro c c1 k q h
    simp only [Client.Client.requestFunction, Py.bind_ok, Py.pure_eq, Except.ok.injEq] at h
    obtain ⟨_, -, rfl⟩ := h
    exact ⟨q.stop, q.closed, q.futures, q.log⟩
  cases o with
  | submit t name content args =>
    simp only [Client.Client.step] at h
    split at h <;> cases h
    · have q := note (.submitted ⟨t, p.hash content, args.map fun a => ⟨.data, a⟩⟩ name content) hq (by simp)
      exact ⟨q.stop, q.closed, q.futures, q.log⟩
    · exact hq
  | get g =>
    simp only [Client.Client.step] at h
    split at h <;> cases h
    · have q := note (.graph g) hq (by simp)
      refine ⟨q.stop, q.closed, ?_, q.log⟩
      simp only [Client.Client.get, List.mem_append, List.mem_map, not_or]
      exact ⟨hq.futures, by simp⟩
    · exact hq
  | advance =>
    simp only [Client.Client.step, Client.Client.advance] at h
    split at h
    · cases h; exact hq
    · cases h; exact ⟨hq.stop, hq.closed, hq.futures, hq.log⟩
    · cases h; exact ⟨hq.stop, hq.closed, hq.futures, hq.log⟩
    · simp only [Py.bind_ok, Py.pure_eq, Except.ok.injEq] at h
      obtain ⟨c1, h1, rfl⟩ := h
      have q := req hq h1
      exact ⟨q.stop, q.closed, q.futures, q.log⟩
    · cases h; exact ⟨hq.stop, hq.closed, hq.futures, hq.log⟩
    · next k _ =>
      cases h
      have q := note (.returned k.taskId c.futures.length) hq (by simp)
      exact ⟨q.stop, q.closed, by simpa using hq.futures, q.log⟩
    · next g ns _ =>
      cases h
      have q := note (.started g ns) hq (by simp)
      exact ⟨q.stop, q.closed, q.futures, q.log⟩
  | cancel n =>
    cases h
    have q := note (.cancelled n) hq (by simp)
    refine ⟨q.stop, q.closed, fun hm => ?_, q.log⟩
    obtain ⟨i, hi⟩ := List.getElem?_of_mem hm
    simp only [List.getElem?_modify] at hi
    cases hc : c.futures[i]? with
    | none => simp [hc] at hi
    | some s =>
      have hs : s ≠ .disconnected := fun e => hq.futures (e ▸ List.mem_of_getElem? hc)
      simp only [hc, Option.map_eq_map, Option.map_some, Option.some.injEq] at hi
      split at hi
      · revert hi hs; cases s <;> simp [Client.FState.cancel]
      · exact hs hi
  | disconnect => exact absurd rfl ho
  | recv m =>
    simp only [Client.Client.step, hq.closed, Bool.false_eq_true, if_false, Client.Client.receive] at h
    have q := note (.recv m) hq (by simp)
    revert h
    generalize c.note (.recv m) = c0 at q
    intro h
    split at h
    · unfold Client.Client.onTaskEcho at h
      split at h
      · cases h; exact q
      · next k _ =>
        split at h
        · cases h; exact q
        · unfold Client.Client.bufferSend at h
          split at h
          · cases h; exact ⟨q.stop, q.closed, q.futures, q.log⟩
          · simp only [Py.bind_ok, Py.pure_eq, Except.ok.injEq] at h
            obtain ⟨c1, h1, rfl⟩ := h
            have q := req q h1
            exact ⟨q.stop, q.closed, q.futures, q.log⟩
        · cases h
        · simp only [Py.bind_ok] at h
          obtain ⟨_, -, _, -, n, -, h⟩ := h
          exact setFuture_quiet h ⟨q.stop, q.closed, q.futures, q.log⟩ (fun _ _ => setRunning_ne)
        · cases h
        · cases h
    · simp only [Client.Client.onFunctionResponse, Py.bind_ok] at h
      obtain ⟨_, -, h⟩ := h
      split at h <;> cases h
      · exact q
      · exact ⟨q.stop, q.closed, q.futures, q.log⟩
    · unfold Client.Client.onTaskResult at h
      split at h
      · cases h; exact q
      · split at h
        · simp only [Py.bind_ok] at h
          obtain ⟨_, -, h⟩ := h
          exact setFuture_quiet h ⟨q.stop, q.closed, q.futures, q.log⟩ (fun _ _ => finish_ne (by simp))
        · simp only [Py.bind_ok] at h
          obtain ⟨_, -, h⟩ := h
          exact setFuture_quiet h ⟨q.stop, q.closed, q.futures, q.log⟩ (fun _ _ => finish_ne (by simp))
        · cases h; exact ⟨q.stop, q.closed, q.futures, q.log⟩
    · unfold Client.Client.onGraphTaskResult at h
      split at h
      · cases h; exact q
      · split at h
        · refine resolveAll_quiet ?_ _ _ _ _ ?_ h
          · intro r s hs
            split at hs <;> cases hs
            simp
          · exact ⟨q.stop, q.closed, q.futures, q.log⟩
        · simp only [Py.bind_ok] at h
          obtain ⟨x, -, _, -, h⟩ := h
          refine resolveAll_quiet ?_ _ _ _ _ ?_ h
          · intro r s hs
            cases hs
            simp
          · exact ⟨q.stop, q.closed, q.futures, q.log⟩
        · cases h; exact ⟨q.stop, q.closed, q.futures, q.log⟩
    · cases h
  | flush =>
    simp only [Client.Client.step, hq.closed, Bool.false_eq_true, if_false, Client.Client.flush] at h
    split at h
    · cases h; exact hq
    · next m ms _ =>
      simp only [Py.bind_ok, Py.pure_eq, Except.ok.injEq] at h
      obtain ⟨_, -, rfl⟩ := h
      have q := note (.sent m) hq (by simp)
      exact ⟨q.stop, q.closed, q.futures, q.log⟩
  | exit =>
    simp only [Client.Client.step, hq.stop, Bool.false_and, Bool.false_eq_true, if_false] at h
    cases h
    exact hq

/-- **C49.** As long as the user has not called `disconnect`, the client does not end, and no future is resolved with a
disconnect. -/
theorem C49_asked (p : Pickle) (os : List Client.Op) (c : Client.Client) (h : Client.Client.init.run p os = .ok c)
    (hd : .disconnect ∉ os) : c.closed = false ∧ .disconnected ∉ c.futures ∧ .exited ∉ c.log ∧ c.step p .exit = .ok c := by
  have key : ∀ (os : List Client.Op) (c0 : Client.Client), Quiet c0 → .disconnect ∉ os → c0.run p os = .ok c → Quiet c := by
    intro os
    induction os with
    | nil => intro c0 q _ h; cases h; exact q
    | cons o os ih =>
      intro c0 q hd h
      simp only [Client.Client.run, Py.bind_ok] at h
      obtain ⟨c1, h1, h2⟩ := h
      simp only [List.mem_cons, not_or] at hd
      exact ih c1 (step_quiet q (Ne.symm hd.1) h1) hd.2 h2
  have q := key os _ ⟨rfl, rfl, by simp [Client.Client.init], by simp [Client.Client.init]⟩ hd h
  exact ⟨q.closed, q.futures, q.log, by simp [Client.Client.step, q.stop]⟩

/-- A submission whose result has arrived. -/
example : ((Client.Client.init.run plainPickle [.submit [1] [5] [9] [], .advance, .advance, .advance, .advance, .advance,
    .recv (.taskResult [1] .success 0 [7]), .exit]).toOption.map fun c => (c.futures, c.closed)) = some ([.result [7]], false) := by
  decide +kernel

/-- What the user's thread does. -/
def ByUser : Act → Prop
  | .submitted .. => True
  | .graph _ => True
  | .returned .. => True
  | .started .. => True
  | .cancelled _ => True
  | _ => False

/-- The history of a client that has not ended, and of one that has. -/
def Ended (c : Client.Client) : Prop :=
  (c.closed = false ∧ .exited ∉ c.log) ∨
    (c.closed = true ∧ ∃ l₁ l₂, c.log = l₁ ++ .exited :: l₂ ∧ .exited ∉ l₁ ∧ ∀ x ∈ l₂, ByUser x)

theorem Ended.user {c c' : Client.Client} {xs : List Act} (h : Ended c) (h1 : c'.log = c.log ++ xs) (h2 : c'.closed = c.closed)
    (h3 : ∀ x ∈ xs, ByUser x) : Ended c' := by
  rcases h with ⟨h, h'⟩ | ⟨h, l₁, l₂, e, n, u⟩
  · refine .inl ⟨h2.trans h, ?_⟩
    rw [h1, List.mem_append]
    rintro (hm | hm)
    · exact h' hm
    · exact h3 _ hm
  · refine .inr ⟨h2.trans h, l₁, l₂ ++ xs, by rw [h1, e]; simp, n, ?_⟩
    intro x hx
    rcases List.mem_append.1 hx with hx | hx
    · exact u x hx
    · exact h3 x hx

theorem Ended.net {c c' : Client.Client} {xs : List Act} (h : Ended c) (hc : c.closed = false) (h1 : c'.log = c.log ++ xs)
    (h2 : c'.closed = c.closed) (h3 : .exited ∉ xs) : Ended c' := by
  rcases h with ⟨_, h'⟩ | ⟨h, _⟩
  · refine .inl ⟨h2.trans hc, ?_⟩
    rw [h1, List.mem_append, not_or]
    exact ⟨h', h3⟩
  · rw [hc] at h; cases h

theorem receive_closed {p : Pickle} {c c' : Client.Client} {m : Message} (e : c.receive p m = .ok c') : c'.closed = c.closed := by
  simp only [Client.Client.receive] at e
  split at e
  · simp only [Client.Client.onTaskEcho] at e
    split at e
    · cases e; rfl
    · split at e
      · cases e; rfl
      · unfold Client.Client.bufferSend at e
        split at e
        · cases e; rfl
        · simp only [Py.bind_ok, Py.pure_eq, Except.ok.injEq] at e
          obtain ⟨c1, h1, rfl⟩ := e
          obtain ⟨nm, b, rfl⟩ := request_count h1
          rfl
      · cases e
      · simp only [Py.bind_ok] at e
        obtain ⟨_, _, _, _, _, _, e⟩ := e
        exact (setFuture_only e).closed
      · cases e
      · cases e
  · simp only [Client.Client.onFunctionResponse, Py.bind_ok] at e
    obtain ⟨_, _, e⟩ := e
    split at e <;> cases e <;> rfl
  · simp only [Client.Client.onTaskResult] at e
    split at e
    · cases e; rfl
    · split at e
      · obtain ⟨_, _, e⟩ := Py.bind_ok.1 e
        exact (setFuture_only e).closed
      · obtain ⟨_, _, e⟩ := Py.bind_ok.1 e
        exact (setFuture_only e).closed
      · cases e; rfl
  · simp only [Client.Client.onGraphTaskResult] at e
    split at e
    · cases e; rfl
    · split at e
      · exact (resolveAll_only e).closed
      · obtain ⟨_, _, e⟩ := Py.bind_ok.1 e
        obtain ⟨_, _, e⟩ := Py.bind_ok.1 e
        exact (resolveAll_only e).closed
      · cases e; rfl
  · cases e

theorem step_ended {p : Pickle} {c c' : Client.Client} {o : Client.Op} (h : Ended c) (e : c.step p o = .ok c') : Ended c' := by
  cases o with
  | submit t nm b args =>
    simp only [Client.Client.step] at e
    split at e <;> cases e
    · exact h.user rfl rfl (by simp [ByUser])
    · exact h
  | get g =>
    simp only [Client.Client.step] at e
    split at e <;> cases e
    · exact h.user rfl rfl (by simp [ByUser])
    · exact h
  | advance =>
    simp only [Client.Client.step, Client.Client.advance] at e
    split at e
    · cases e; exact h
    · cases e; exact h.user (xs := []) (by simp) rfl (by simp)
    · cases e; exact h.user (xs := []) (by simp) rfl (by simp)
    · simp only [Py.bind_ok, Py.pure_eq] at e
      obtain ⟨c1, e1, e2⟩ := e
      cases e2
      obtain ⟨nm, b, rfl⟩ := request_count e1
      exact h.user (xs := []) (by simp [Client.Client.send]) rfl (by simp)
    · cases e; exact h.user (xs := []) (by simp [Client.Client.appendTask]) rfl (by simp)
    · cases e; exact h.user rfl rfl (by simp [ByUser])
    · cases e; exact h.user rfl rfl (by simp [ByUser])
  | cancel n => cases e; exact h.user rfl rfl (by simp [ByUser])
  | disconnect => cases e; exact h.user (xs := []) (by simp) rfl (by simp)
  | recv m =>
    simp only [Client.Client.step] at e
    split at e
    · cases e; exact h
    · next hc =>
      exact h.net (by simpa using hc) (receive_log e) (receive_closed e) (by simp)
  | flush =>
    simp only [Client.Client.step] at e
    split at e
    · cases e; exact h
    · next hc =>
      simp only [Client.Client.flush] at e
      split at e
      · cases e; exact h
      · simp only [Py.bind_ok, Py.pure_eq] at e
        obtain ⟨_, _, e⟩ := e
        cases e
        exact h.net (by simpa using hc) rfl rfl (by simp)
  | exit =>
    simp only [Client.Client.step] at e
    split at e
    · next hc =>
      simp only [Client.Client.exit, Py.bind_ok, Py.pure_eq] at e
      obtain ⟨c1, h1, c2, h2, e⟩ := e
      cases e
      rcases h with ⟨_, h⟩ | ⟨h, _⟩
      · refine .inr ⟨rfl, c2.log, [], by simp [Client.Client.note], ?_, by simp⟩
        rw [exitGraphs_log h2, exitTasks_log h1]
        simp [h]
      · simp [h] at hc
    · cases e; exact h

theorem _root_.Verif.Client.Reach.ended {p : Pickle} {c : Client.Client} (hr : Client.Reach p c) : Ended c := by
  induction hr with
  | init => exact .inl ⟨rfl, by simp [Client.Client.init]⟩
  | step _ _ _ e ih => exact step_ended ih e

/-- **C49.** The client ends once, and afterwards it neither receives nor sends: only the user's thread does anything. -/
theorem C49_over {p : Pickle} {c : Client.Client} (hr : Client.Reach p c) {l₁ l₂ : List Act} (h : c.log = l₁ ++ .exited :: l₂) :
    ∀ x ∈ l₂, ByUser x := by
  rcases hr.ended with ⟨_, hn⟩ | ⟨_, k₁, k₂, e, n, u⟩
  · exact absurd (by rw [h]; simp) hn
  · rw [h] at e
    rcases List.append_eq_append_iff.1 e with ⟨l, rfl, hq⟩ | ⟨l, rfl, hq⟩
    · cases l with
      | nil =>
        simp only [List.nil_append, List.cons.injEq, true_and] at hq
        exact hq ▸ u
      | cons x l =>
        simp only [List.cons_append, List.cons.injEq] at hq
        rw [← hq.1] at n
        simp at n
    · cases l with
      | nil =>
        simp only [List.nil_append, List.cons.injEq, true_and] at hq
        exact hq ▸ u
      | cons x l =>
        simp only [List.cons_append, List.cons.injEq] at hq
        have := u .exited (by rw [hq.2]; simp)
        exact this.elim

/-- A result that comes too late, and a submission after the end. -/
example : clientWitness (submitAll [1] ++ [.disconnect, .exit, .recv (.taskResult [1] .success 0 [7]), .flush, .exit, .submit [2] [5] [9] [], .advance])
    (fun c => (c.log.drop 2, c.futures)) =
    some ([.sent (.taskCancel [1]), .exited, .submitted ⟨[2], [9], []⟩ [5] [9]], [.disconnected]) := by decide +kernel

end Verif.Props
