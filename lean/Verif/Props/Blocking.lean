import Verif.Spec.Blocking
import Verif.Props.UserGraph
import Verif.Props.Client
import Verif.Client.ClientIo

/-!
# C92: what comes of `map` and of a blocking `get`
-/

namespace Verif.Props

open Verif.Wire Verif.Client Verif.Spec.Client

variable {p : Pickle} {b b' : Caller} {o : COp} {os : List COp}

/-! ### The client inside -/

/-- What only grows. -/
structure Grows (c c' : Client.Client) : Prop where
  length : c.futures.length ≤ c'.futures.length
  stop : c.stop = true → c'.stop = true
  closed : c.closed = true → c'.closed = true

theorem Grows.refl (c : Client.Client) : Grows c c := ⟨Nat.le_refl _, id, id⟩

theorem Grows.trans {c1 c2 c3 : Client.Client} (h : Grows c1 c2) (h' : Grows c2 c3) : Grows c1 c3 :=
  ⟨Nat.le_trans h.length h'.length, h'.stop ∘ h.stop, h'.closed ∘ h.closed⟩

theorem Grows.only {c c' : Client.Client} (h : OnlyFutures c c') : Grows c c' :=
  ⟨Nat.le_of_eq h.length, fun e => h.stop.trans e, fun e => h.closed.trans e⟩

theorem grows_of {c d c' : Client.Client} (h : OnlyFutures d c') (h1 : d.futures.length = c.futures.length) (h2 : d.stop = c.stop)
    (h3 : d.closed = c.closed) : Grows c c' :=
  ⟨Nat.le_of_eq (h1.symm.trans h.length), fun e => h.stop.trans (h2.trans e), fun e => h.closed.trans (h3.trans e)⟩

theorem receive_grows {c c' : Client.Client} {m : Message} (e : c.receive p m = .ok c') : Grows c c' := by
  simp only [Client.Client.receive] at e
  split at e
  · simp only [Client.Client.onTaskEcho] at e
    split at e
    · cases e; exact ⟨Nat.le_refl _, id, id⟩
    · split at e
      · cases e; exact ⟨Nat.le_refl _, id, id⟩
      · unfold Client.Client.bufferSend at e
        split at e
        · cases e; exact ⟨Nat.le_refl _, id, id⟩
        · simp only [Py.bind_ok, Py.pure_eq, Except.ok.injEq] at e
          obtain ⟨c1, h1, rfl⟩ := e
          obtain ⟨nm, b, rfl⟩ := request_count h1
          exact ⟨Nat.le_refl _, id, id⟩
      · cases e
      · simp only [Py.bind_ok] at e
        obtain ⟨_, _, _, _, _, _, e⟩ := e
        exact grows_of (setFuture_only e) rfl rfl rfl
      · cases e
      · cases e
  · simp only [Client.Client.onFunctionResponse, Py.bind_ok] at e
    obtain ⟨_, _, e⟩ := e
    split at e <;> cases e <;> exact ⟨Nat.le_refl _, id, id⟩
  · simp only [Client.Client.onTaskResult] at e
    split at e
    · cases e; exact ⟨Nat.le_refl _, id, id⟩
    · split at e
      · obtain ⟨_, _, e⟩ := Py.bind_ok.1 e
        exact grows_of (setFuture_only e) rfl rfl rfl
      · obtain ⟨_, _, e⟩ := Py.bind_ok.1 e
        exact grows_of (setFuture_only e) rfl rfl rfl
      · cases e; exact ⟨Nat.le_refl _, id, id⟩
  · simp only [Client.Client.onGraphTaskResult] at e
    split at e
    · cases e; exact ⟨Nat.le_refl _, id, id⟩
    · split at e
      · exact grows_of (resolveAll_only e) rfl rfl rfl
      · obtain ⟨_, _, e⟩ := Py.bind_ok.1 e
        obtain ⟨_, _, e⟩ := Py.bind_ok.1 e
        exact grows_of (resolveAll_only e) rfl rfl rfl
      · cases e; exact ⟨Nat.le_refl _, id, id⟩
  · cases e

theorem exitTasks_grows {l : List (Bytes × Nat)} {c c' : Client.Client} (e : c.exitTasks l = .ok c') : Grows c c' := by
  induction l generalizing c with
  | nil => cases e; exact ⟨Nat.le_refl _, id, id⟩
  | cons x l ih =>
    simp only [Client.Client.exitTasks, Py.bind_ok] at e
    obtain ⟨c1, h1, h2⟩ := e
    exact (grows_of (setFuture_only h1) rfl rfl rfl : Grows c c1).trans (ih h2)

theorem exitGraphs_grows {l : List (Bytes × List Nat)} {c c' : Client.Client} (e : c.exitGraphs l = .ok c') : Grows c c' := by
  induction l generalizing c with
  | nil => cases e; exact ⟨Nat.le_refl _, id, id⟩
  | cons x l ih =>
    simp only [Client.Client.exitGraphs, Py.bind_ok] at e
    obtain ⟨c1, h1, h2⟩ := e
    exact (grows_of (exitFutures_only h1) rfl rfl rfl : Grows c c1).trans (ih h2)

theorem op_grows {c c' : Client.Client} {o : Client.Op} (e : c.step p o = .ok c') : Grows c c' := by
  cases o with
  | submit t nm b args => simp only [Client.Client.step] at e; split at e <;> cases e <;> exact ⟨Nat.le_refl _, id, id⟩
  | get g =>
    simp only [Client.Client.step] at e
    split at e <;> cases e
    · exact ⟨by simp [Client.Client.get], id, id⟩
    · exact ⟨Nat.le_refl _, id, id⟩
  | advance =>
    simp only [Client.Client.step, Client.Client.advance] at e
    split at e
    · cases e; exact ⟨Nat.le_refl _, id, id⟩
    · cases e; exact ⟨Nat.le_refl _, id, id⟩
    · cases e; exact ⟨Nat.le_refl _, id, id⟩
    · simp only [Py.bind_ok, Py.pure_eq] at e
      obtain ⟨c1, e1, e2⟩ := e
      cases e2
      obtain ⟨nm, b, rfl⟩ := request_count e1
      exact ⟨Nat.le_refl _, id, id⟩
    · cases e; exact ⟨Nat.le_refl _, id, id⟩
    · cases e; exact ⟨by simp, id, id⟩
    · cases e; exact ⟨Nat.le_refl _, id, id⟩
  | cancel n => cases e; exact ⟨by simp, id, id⟩
  | disconnect => cases e; exact ⟨Nat.le_refl _, fun _ => rfl, id⟩
  | recv m =>
    simp only [Client.Client.step] at e
    split at e
    · cases e; exact ⟨Nat.le_refl _, id, id⟩
    · exact receive_grows e
  | flush =>
    simp only [Client.Client.step, Client.Client.flush] at e
    split at e
    · cases e; exact ⟨Nat.le_refl _, id, id⟩
    · split at e
      · cases e; exact ⟨Nat.le_refl _, id, id⟩
      · simp only [Py.bind_ok, Py.pure_eq] at e
        obtain ⟨_, _, e⟩ := e
        cases e
        exact ⟨Nat.le_refl _, id, id⟩
  | exit =>
    simp only [Client.Client.step, Client.Client.exit] at e
    split at e
    · simp only [Py.bind_ok, Py.pure_eq] at e
      obtain ⟨c1, h1, c2, h2, e⟩ := e
      cases e
      have := (exitTasks_grows h1).trans (exitGraphs_grows h2)
      exact ⟨this.length, this.stop, fun _ => rfl⟩
    · cases e; exact ⟨Nat.le_refl _, id, id⟩

/-- What is done stays done. -/
structure Keeps (c c' : Client.Client) : Prop where
  final : ∀ (n : Nat) (s : FState), c.futures[n]? = some s → Final s → c'.futures[n]? = some s
  log : ∀ x ∈ c.log, x ∈ c'.log
  user : c'.user = c.user
  grows : Grows c c'

theorem Keeps.refl (c : Client.Client) : Keeps c c := ⟨fun _ _ h _ => h, fun _ h => h, rfl, .refl c⟩

theorem Keeps.trans {c1 c2 c3 : Client.Client} (h : Keeps c1 c2) (h' : Keeps c2 c3) : Keeps c1 c3 :=
  ⟨fun n s hs hF => h'.final n s (h.final n s hs hF) hF, fun x hx => h'.log x (h.log x hx), h'.user.trans h.user, h.grows.trans h'.grows⟩

theorem Keeps.note {c c' : Client.Client} {x : Act} (h : Keeps (c.note x) c') : Keeps c c' :=
  ⟨h.final, fun y hy => h.log y (by simp [Client.Client.note, hy]), h.user, ⟨h.grows.length, h.grows.stop, h.grows.closed⟩⟩

/-- The same after a loop. -/
def KeepsX (c : Client.Client) : Except Client.Client Client.Client → Prop
  | .ok c' => Keeps c c'
  | .error c' => Keeps c c'

theorem KeepsX.after {c : Client.Client} {x : Except Client.Client Client.Client} (h : KeepsX c x) : Keeps c (Client.Client.after x) := by
  cases x <;> exact h

theorem KeepsX.bind {c : Client.Client} {x : Except Client.Client Client.Client} {f : Client.Client → Except Client.Client Client.Client}
    (h : KeepsX c x) (hf : ∀ c', KeepsX c' (f c')) : KeepsX c (x >>= f) := by
  cases x with
  | error c' => exact h
  | ok c' =>
    have := hf c'
    show KeepsX c (f c')
    cases e : f c' <;> rw [e] at this <;> exact Keeps.trans h this

theorem KeepsX.note {c : Client.Client} {x : Except Client.Client Client.Client} {a : Act} (h : KeepsX (c.note a) x) : KeepsX c x := by
  cases x <;> exact Keeps.note h

theorem keeps_finishAt (c : Client.Client) (n : Nat) (s : FState) : KeepsX c (c.finishAt n s) := by
  unfold Client.Client.finishAt
  split
  · next c' h =>
    refine ⟨fun m x hx hF => setFuture_final (finish_final _) hx hF h, ?_, (setFuture_only h).user, .only (setFuture_only h)⟩
    have := (setFuture_only h).log; intro x hx; rw [this]; exact hx
  · exact Keeps.refl c

theorem keeps_resolve (f : Bytes → Py FState) (rs : List Bytes) (ns : List Nat) (c : Client.Client) : KeepsX c (c.resolveLeft f rs ns) := by
  induction rs generalizing ns c with
  | nil => exact Keeps.refl c
  | cons r rs ih =>
    cases ns with
    | nil => exact Keeps.refl c
    | cons n ns =>
      simp only [Client.Client.resolveLeft]
      split
      · exact (keeps_finishAt c n _).bind fun c' => ih ns c'
      · exact Keeps.refl c

theorem keeps_tasks (l : List (Bytes × Nat)) (c : Client.Client) : KeepsX c (c.tasksLeft l) := by
  induction l generalizing c with
  | nil => exact Keeps.refl c
  | cons x l ih => exact ((keeps_finishAt _ _ _).note).bind fun c' => ih c'

theorem keeps_futures (l : List Nat) (c : Client.Client) : KeepsX c (c.futuresLeft l) := by
  induction l generalizing c with
  | nil => exact Keeps.refl c
  | cons x l ih => exact (keeps_finishAt _ _ _).bind fun c' => ih c'

theorem keeps_graphs (l : List (Bytes × List Nat)) (c : Client.Client) : KeepsX c (c.graphsLeft l) := by
  induction l generalizing c with
  | nil => exact Keeps.refl c
  | cons x l ih => exact ((keeps_futures _ _).note).bind fun c' => ih c'

theorem leave_keeps (c : Client.Client) (o : Client.Op) : Keeps c (c.leave p o) := by
  cases o with
  | recv m =>
    apply Keeps.note (x := .recv m)
    simp only [Client.Client.leave]
    split
    · exact ⟨fun _ _ h _ => h, fun _ h => h, rfl, ⟨Nat.le_refl _, id, id⟩⟩
    · split
      · exact (keeps_resolve _ _ _ _).after
      · split
        · exact Keeps.refl _
        · split
          · exact (keeps_resolve _ _ _ _).after
          · exact Keeps.refl _
      · exact Keeps.refl _
    · exact Keeps.refl _
  | flush => exact Keeps.refl c
  | exit => exact ((keeps_tasks _ _).bind fun c' => keeps_graphs _ _).after
  | submit => exact Keeps.refl c
  | get => exact Keeps.refl c
  | advance => exact Keeps.refl c
  | cancel => exact Keeps.refl c
  | disconnect => exact Keeps.refl c

theorem thread_client (o : Client.Op) : (b.thread p o).client = b.client ∧ (b.thread p o).dead = b.dead ∨
    b.client.step p o = .ok (b.thread p o).client ∧ (b.thread p o).dead = b.dead ∨
    (b.thread p o).client = b.client.leave p o ∧ (b.thread p o).dead = true := by
  unfold Caller.thread
  split
  · exact .inl ⟨rfl, rfl⟩
  · split
    · next hc => exact .inr (.inl ⟨hc, rfl⟩)
    · exact .inr (.inr ⟨rfl, rfl⟩)

/-- What happens to the client is one of its events, or the connector's thread dies. -/
theorem step_client (hf : FreshCall p b o) :
    (b.step p o).client = b.client ∧ (b.step p o).dead = b.dead ∨
    (∃ o', FreshOp b.client o' ∧ b.client.step p o' = .ok (b.step p o).client ∧ (b.step p o).dead = b.dead) ∨
    ∃ o', (b.step p o).client = b.client.leave p o' ∧ (b.step p o).dead = true := by
  cases o with
  | submit t nm ct args => simp only [Caller.step]; split <;> exact .inl ⟨rfl, rfl⟩
  | map ids nm ct it =>
    simp only [Caller.step]
    split
    · split <;> exact .inl ⟨rfl, rfl⟩
    · exact .inl ⟨rfl, rfl⟩
  | get ids gid g keys block =>
    simp only [Caller.step]
    split
    · next hi =>
      split
      · next c fs hc =>
        right; left
        simp only [Client.Client.callGet, Py.bind_ok, Py.pure_eq, Except.ok.injEq, Prod.mk.injEq] at hc
        obtain ⟨m, hm, rfl, -⟩ := hc
        simp only [Caller.idle, Bool.and_eq_true, decide_eq_true_eq] at hi
        exact ⟨.get m, hf m hm, by simp [Client.Client.step, hi.1], rfl⟩
      · exact .inl ⟨rfl, rfl⟩
    · exact .inl ⟨rfl, rfl⟩
  | go =>
    simp only [Caller.step, Caller.go]
    split
    · next hu =>
      split
      · next nm ct t args left got block hc =>
        right; left
        simp only [FreshCall, hu, hc] at hf
        exact ⟨.submit t nm ct args, hf, by simp [Client.Client.step, hu], rfl⟩
      · exact .inl ⟨rfl, rfl⟩
      · exact .inl ⟨rfl, rfl⟩
      · exact .inl ⟨rfl, rfl⟩
      · split
        · exact .inl ⟨rfl, rfl⟩
        · exact .inl ⟨rfl, rfl⟩
        · exact .inl ⟨rfl, rfl⟩
        · exact .inr (.inl ⟨.disconnect, trivial, rfl, rfl⟩)
        · exact .inl ⟨rfl, rfl⟩
      · split <;> exact .inl ⟨rfl, rfl⟩
      · exact .inl ⟨rfl, rfl⟩
    · split
      · next c hc => exact .inr (.inl ⟨.advance, trivial, hc, rfl⟩)
      · exact .inl ⟨rfl, rfl⟩
  | cancel n => exact .inr (.inl ⟨.cancel n, trivial, rfl, rfl⟩)
  | disconnect => exact .inr (.inl ⟨.disconnect, trivial, rfl, rfl⟩)
  | recv m => exact (thread_client _).imp id (Or.imp (fun h => ⟨.recv m, trivial, h⟩) fun h => ⟨_, h⟩)
  | flush => exact (thread_client _).imp id (Or.imp (fun h => ⟨.flush, trivial, h⟩) fun h => ⟨_, h⟩)
  | exit => exact (thread_client _).imp id (Or.imp (fun h => ⟨.exit, trivial, h⟩) fun h => ⟨_, h⟩)

/-- A dead thread stays dead. -/
theorem step_dead (hf : FreshCall p b o) (h : (b.step p o).dead = false) : b.dead = false := by
  rcases step_client hf with ⟨-, e⟩ | ⟨_, _, _, e⟩ | ⟨_, _, e⟩
  · exact e.symm.trans h
  · exact e.symm.trans h
  · rw [h] at e; cases e

theorem calls_dead (h : Calls p b os b') (hd : b'.dead = false) : b.dead = false := by
  induction h with
  | nil => exact hd
  | cons o hf _ ih => exact step_dead hf (ih hd)

/-- As long as the connector's thread has not raised, the client is one of those of `Reach`. -/
theorem calls_reach (hr : Client.Reach p b.client) (h : Calls p b os b') (hd : b'.dead = false) : Client.Reach p b'.client := by
  induction h with
  | nil => exact hr
  | cons o hf h ih =>
    rcases step_client hf with ⟨e, -⟩ | ⟨o', h1, h2, -⟩ | ⟨_, _, e⟩
    · exact ih (e ▸ hr) hd
    · exact ih (.step o' hr h1 h2) hd
    · rw [calls_dead h hd] at e; cases e

theorem step_keepsFinal (hf : FreshCall p b o) {n : Nat} {s : FState} (hs : b.client.futures[n]? = some s) (hF : Final s) :
    (b.step p o).client.futures[n]? = some s := by
  rcases step_client hf with ⟨e, -⟩ | ⟨o', _, h, -⟩ | ⟨o', e, -⟩
  · rw [e]; exact hs
  · exact step_final hs hF h
  · rw [e]; exact (leave_keeps _ o').final _ _ hs hF

theorem step_keepsLog (hf : FreshCall p b o) {x : Act} (hx : x ∈ b.client.log) : x ∈ (b.step p o).client.log := by
  rcases step_client hf with ⟨e, -⟩ | ⟨o', _, h, -⟩ | ⟨o', e, -⟩
  · rw [e]; exact hx
  · exact step_mono h x hx
  · rw [e]; exact (leave_keeps _ o').log _ hx

theorem step_grows (hf : FreshCall p b o) : Grows b.client (b.step p o).client := by
  rcases step_client hf with ⟨e, -⟩ | ⟨o', _, h, -⟩ | ⟨o', e, -⟩
  · rw [e]; exact .refl _
  · exact op_grows h
  · rw [e]; exact (leave_keeps _ o').grows

/-! ### Waiting for futures -/

/-- All futures had results until the first of the others raised `x`. -/
def Broke (fs : List FState) (l : List (Bytes × Nat)) (x : FState) : Prop :=
  ∃ l1 k n l2, l = l1 ++ (k, n) :: l2 ∧ (∀ y ∈ l1, ∃ r, fs[y.2]? = some (.result r)) ∧ (∀ r, x ≠ .result r) ∧ (Final x → fs[n]? = some x)

/-- The call has these futures and waits for them, or is over. -/
def AwaitsAll (l : List (Bytes × Nat)) (b : Caller) : Prop :=
  match b.call with
  | .waiting left rs => ∃ done, l = done ++ left ∧ rs.map (·.1) = done.map (·.1) ∧
      rs.map (fun r => some (FState.result r.2)) = done.map fun x => b.client.futures[x.2]?
  | .joining x => Broke b.client.futures l x
  | .returned rs => rs.map (·.1) = l.map (·.1) ∧ rs.map (fun r => some (FState.result r.2)) = l.map fun x => b.client.futures[x.2]?
  | .raised x => Broke b.client.futures l x
  | .rejected _ => True
  | _ => False

theorem same_results {fs fs' : List FState} {rs : List (Bytes × Bytes)} {l : List (Bytes × Nat)}
    (hk : ∀ (n : Nat) (s : FState), fs[n]? = some s → Final s → fs'[n]? = some s)
    (h : rs.map (fun r => some (FState.result r.2)) = l.map fun x => fs[x.2]?) :
    rs.map (fun r => some (FState.result r.2)) = l.map fun x => fs'[x.2]? := by
  induction l generalizing rs with
  | nil => simpa using h
  | cons y l ih =>
    cases rs with
    | nil => cases h
    | cons r rs =>
      simp only [List.map_cons, List.cons.injEq] at h ⊢
      exact ⟨(hk _ _ h.1.symm trivial).symm, ih h.2⟩

theorem Broke.keep {fs fs' : List FState} {l : List (Bytes × Nat)} {x : FState} (h : Broke fs l x)
    (hk : ∀ (n : Nat) (s : FState), fs[n]? = some s → Final s → fs'[n]? = some s) : Broke fs' l x := by
  obtain ⟨l1, k, n, l2, h1, h2, h3, h4⟩ := h
  exact ⟨l1, k, n, l2, h1, fun y hy => (h2 y hy).imp fun r hr => hk _ _ hr trivial, h3, fun hF => hk _ _ (h4 hF) hF⟩

/-- Nothing changes for the call. -/
theorem AwaitsAll.keep {l : List (Bytes × Nat)} (h : AwaitsAll l b) (hc : b'.call = b.call)
    (hk : ∀ (n : Nat) (s : FState), b.client.futures[n]? = some s → Final s → b'.client.futures[n]? = some s) : AwaitsAll l b' := by
  unfold AwaitsAll at h ⊢
  rw [hc]
  split
  · next left rs e =>
    rw [e] at h
    obtain ⟨done, h1, h2, h3⟩ := h
    exact ⟨done, h1, h2, same_results hk h3⟩
  · next e => rw [e] at h; exact h.keep hk
  · next e => rw [e] at h; exact ⟨h.1, same_results hk h.2⟩
  · next e => rw [e] at h; exact h.keep hk
  · trivial
  · next h1 h2 h3 h4 h5 =>
    split at h
    · next e => exact h1 _ _ e
    · next e => exact h2 _ e
    · next e => exact h3 _ e
    · next e => exact h4 _ e
    · next e => exact h5 _ e
    · exact h

theorem thread_call (o : Client.Op) : (b.thread p o).call = b.call := by
  unfold Caller.thread
  split
  · rfl
  · split <;> rfl

theorem record_same {c : Client.Client} {call : Call} (h : ∀ nm ct left got bl, call ≠ .submitting nm ct left got bl) : Caller.record c call = call := by
  unfold Caller.record
  split
  · exact absurd rfl (h _ _ _ _ _)
  · rfl

theorem results_left {fs : List FState} {rs : List (Bytes × Bytes)} {l : List (Bytes × Nat)}
    (h : rs.map (fun r => some (FState.result r.2)) = l.map fun x => fs[x.2]?) : ∀ y ∈ l, ∃ r, fs[y.2]? = some (.result r) := by
  induction l generalizing rs with
  | nil => nofun
  | cons z l ih =>
    cases rs with
    | nil => cases h
    | cons r rs =>
      simp only [List.map_cons, List.cons.injEq] at h
      intro y hy
      rcases List.mem_cons.1 hy with rfl | hy
      · exact ⟨_, h.1.symm⟩
      · exact ih h.2 y hy

theorem AwaitsAll.step {l : List (Bytes × Nat)} (h : AwaitsAll l b) (ho : goesOn o = true) (hf : FreshCall p b o) : AwaitsAll l (b.step p o) := by
  have hk : ∀ (n : Nat) (s : FState), b.client.futures[n]? = some s → Final s → (b.step p o).client.futures[n]? = some s :=
    fun n s hs hF => step_keepsFinal hf hs hF
  cases o with
  | submit => cases ho
  | map => cases ho
  | get => cases ho
  | cancel n => exact h.keep rfl hk
  | disconnect => exact h.keep rfl hk
  | recv m => exact h.keep (thread_call _) hk
  | flush => exact h.keep (thread_call _) hk
  | exit => exact h.keep (thread_call _) hk
  | go =>
    simp only [Caller.step, Caller.go] at hk ⊢
    split
    · split
      · next e => simp only [AwaitsAll, e] at h
      · next e => simp only [AwaitsAll, e] at h
      · next e => simp only [AwaitsAll, e] at h
      · next rs e =>
        simp only [AwaitsAll, e] at h ⊢
        obtain ⟨done, h1, h2, h3⟩ := h
        rw [List.append_nil] at h1
        subst h1
        exact ⟨h2, h3⟩
      · next k n left rs e =>
        have h0 := h
        simp only [AwaitsAll, e] at h
        obtain ⟨done, h1, h2, h3⟩ := h
        split
        · next r hr =>
          simp only [AwaitsAll]
          exact ⟨done ++ [(k, n)], by simp [h1], by simp [h2], by simp [h3, hr]⟩
        · exact h0
        · exact h0
        · next x hx1 hx2 hx3 hx =>
          simp only [AwaitsAll]
          exact ⟨done, k, n, left, h1, results_left h3, fun r e => hx1 r e, fun _ => hx⟩
        · exact h0
      · next x e =>
        split
        · simp only [AwaitsAll, e] at h ⊢
          exact h
        · exact h
      · exact h
    · next hu =>
      have hns : ∀ nm ct left got bl, b.call ≠ .submitting nm ct left got bl := by
        intro nm ct left got bl e
        simp only [AwaitsAll, e] at h
      split
      · next c hc =>
        rw [if_neg hu, hc] at hk
        exact h.keep (record_same hns) hk
      · simp only [AwaitsAll]

theorem AwaitsAll.outcome {l : List (Bytes × Nat)} (h : AwaitsAll l b) : Outcome b.client.futures l b.call := by
  unfold Outcome
  split
  · next e => simp only [AwaitsAll, e] at h; exact h
  · next e => simp only [AwaitsAll, e] at h; exact h
  · trivial

/-! ### `get` -/

/-- What a call does with its futures: it waits for them or returns them. -/
def Ends (blk : Bool) (l : List (Bytes × Nat)) (b : Caller) : Prop :=
  match blk with
  | true => AwaitsAll l b
  | false => b.call = .handed l ∨ ∃ e, b.call = .rejected e

theorem Ends.keep {blk : Bool} {l : List (Bytes × Nat)} (h : Ends blk l b) (hc : b'.call = b.call)
    (hk : ∀ (n : Nat) (s : FState), b.client.futures[n]? = some s → Final s → b'.client.futures[n]? = some s) : Ends blk l b' := by
  cases blk with
  | true => exact AwaitsAll.keep h hc hk
  | false => simp only [Ends, hc] at h ⊢; exact h

theorem Ends.step {blk : Bool} {l : List (Bytes × Nat)} (h : Ends blk l b) (ho : goesOn o = true) (hf : FreshCall p b o) :
    Ends blk l (b.step p o) := by
  cases blk with
  | true => exact AwaitsAll.step h ho hf
  | false =>
    have hk : ∀ (n : Nat) (s : FState), b.client.futures[n]? = some s → Final s → (b.step p o).client.futures[n]? = some s :=
      fun n s hs hF => step_keepsFinal hf hs hF
    cases o with
    | submit => cases ho
    | map => cases ho
    | get => cases ho
    | cancel n => exact h.keep rfl hk
    | disconnect => exact h.keep rfl hk
    | recv m => exact h.keep (thread_call _) hk
    | flush => exact h.keep (thread_call _) hk
    | exit => exact h.keep (thread_call _) hk
    | go =>
      simp only [Ends] at h ⊢
      simp only [Caller.step, Caller.go]
      rcases h with h | ⟨e, h⟩ <;> simp only [h] <;> split
      · exact .inl h
      · split
        · exact .inl (record_same nofun)
        · exact .inr ⟨_, rfl⟩
      · exact .inr ⟨_, h⟩
      · split
        · exact .inr ⟨_, record_same nofun⟩
        · exact .inr ⟨_, rfl⟩

/-- Inside `get`. -/
def Gets (blk : Bool) (l : List (Bytes × Nat)) (b : Caller) : Prop := b.call = .getting l blk ∨ Ends blk l b

theorem Gets.step {blk : Bool} {l : List (Bytes × Nat)} (h : Gets blk l b) (ho : goesOn o = true) (hf : FreshCall p b o) :
    Gets blk l (b.step p o) := by
  rcases h with h | h
  · cases o with
    | submit => cases ho
    | map => cases ho
    | get => cases ho
    | cancel n => exact .inl h
    | disconnect => exact .inl h
    | recv m => exact .inl ((thread_call _).trans h)
    | flush => exact .inl ((thread_call _).trans h)
    | exit => exact .inl ((thread_call _).trans h)
    | go =>
      simp only [Caller.step, Caller.go]
      split
      · simp only [h]
        cases blk with
        | true => exact .inr (show AwaitsAll l ⟨_, _, .waiting l []⟩ from ⟨[], rfl, rfl, rfl⟩)
        | false => exact .inr (.inl rfl)
      · split
        · exact .inl (by rw [h]; exact record_same nofun)
        · cases blk with
          | true => exact .inr trivial
          | false => exact .inr (.inr ⟨_, rfl⟩)
  · exact .inr (h.step ho hf)

theorem gets_run {blk : Bool} {ids : List Bytes} {gid : Bytes} {g : Dict Bytes UserNode} {keys : List Bytes} (hi : b.idle = true) {c : Client.Client}
    {fs : Dict Bytes Nat} (hc : b.client.callGet p ids gid g keys = .ok (c, fs)) (h : Calls p (b.step p (.get ids gid g keys blk)) os b')
    (ho : ∀ o ∈ os, goesOn o = true) : Gets blk fs.items b' := by
  simp only [Caller.step, hi, if_true, hc] at h
  have h0 : Gets blk fs.items { b with client := c, call := .getting fs.items blk } := .inl rfl
  revert h0
  generalize ({ b with client := c, call := .getting fs.items blk } : Caller) = b1 at h
  intro h0
  induction h with
  | nil => exact h0
  | cons o hf _ ih => exact ih (fun o h => ho o (List.mem_cons_of_mem _ h)) (h0.step (ho o (List.mem_cons_self ..)) hf)

/-- The user's thread is in no call exactly if the last one is over. -/
theorem idle_iff : b.idle = true ↔ b.client.user = .idle ∧ CallDone b.call := by
  obtain ⟨c, d, call⟩ := b
  cases call <;> simp [Caller.idle, CallDone]

/-- **C92.** After a call that is over, however it ended, the next one is made; nothing is called from within a call: the user has one
thread. -/
theorem C92_next (p : Pickle) (b : Caller) :
    (b.client.user = .idle ∧ CallDone b.call →
      (∀ t nm ct args, b.step p (.submit t nm ct args) = { b with call := .submitting nm ct [(t, args)] [] false }) ∧
      (∀ ids nm ct it cs, mapCalls it = .ok cs → b.step p (.map ids nm ct it) = { b with call := .submitting nm ct (ids.zip cs) [] true }) ∧
      ∀ ids gid g keys blk c fs, b.client.callGet p ids gid g keys = .ok (c, fs) →
        b.step p (.get ids gid g keys blk) = { b with client := c, call := .getting fs.items blk }) ∧
    (¬ (b.client.user = .idle ∧ CallDone b.call) →
      (∀ t nm ct args, b.step p (.submit t nm ct args) = b) ∧ (∀ ids nm ct it, b.step p (.map ids nm ct it) = b) ∧
      ∀ ids gid g keys blk, b.step p (.get ids gid g keys blk) = b) := by
  rw [← idle_iff]
  refine ⟨fun hi => ⟨fun _ _ _ _ => ?_, fun _ _ _ _ _ h => ?_, fun _ _ _ _ _ _ _ h => ?_⟩, fun hi => ⟨fun _ _ _ _ => ?_, fun _ _ _ _ => ?_, fun _ _ _ _ _ => ?_⟩⟩ <;>
    simp only [Caller.step, if_true, if_false, Bool.false_eq_true, *]

/-- **C92.** What comes of a blocking `get`: it is rejected at once, or the results of its futures are returned in the order
of the keys, or what the first of them that has no result raises is raised. -/
theorem C92_get {ids : List Bytes} {gid : Bytes} {g : Dict Bytes UserNode} {keys : List Bytes} (hi : b.idle = true) :
    (∀ e, b.client.callGet p ids gid g keys = .error e → b.step p (.get ids gid g keys true) = { b with call := .rejected e }) ∧
    ∀ c fs, b.client.callGet p ids gid g keys = .ok (c, fs) → Calls p (b.step p (.get ids gid g keys true)) os b' →
      (∀ o ∈ os, goesOn o = true) → Outcome b'.client.futures fs.items b'.call := by
  refine ⟨fun e he => by simp only [Caller.step, hi, if_true, he], fun c fs hc h ho => ?_⟩
  rcases gets_run hi hc h ho with h | h
  · rw [h]; trivial
  · exact AwaitsAll.outcome h

/-- **C92.** `get` that does not block returns the futures. -/
theorem C92_futures {ids : List Bytes} {gid : Bytes} {g : Dict Bytes UserNode} {keys : List Bytes} (hi : b.idle = true) {c : Client.Client}
    {fs : Dict Bytes Nat} (hc : b.client.callGet p ids gid g keys = .ok (c, fs)) (h : Calls p (b.step p (.get ids gid g keys false)) os b')
    (ho : ∀ o ∈ os, goesOn o = true) (hd : ∀ e, b'.call ≠ .rejected e) (hb : b'.idle = true) : b'.call = .handed fs.items := by
  rcases gets_run hi hc h ho with h | h | ⟨e, h⟩
  · simp [Caller.idle, h] at hb
  · exact h
  · exact absurd h (hd e)

/-! ### `map` -/

/-- The tasks of these calls were created. -/
def Made (p : Pickle) (nm ct : Bytes) (l : List (Bytes × List Bytes)) (h : List Act) : Prop :=
  ∀ x ∈ l, Act.submitted ⟨x.1, p.hash ct, x.2.map fun a => ⟨.data, a⟩⟩ nm ct ∈ h

/-- The calls of `submit` so far. -/
structure Subs (p : Pickle) (N : Nat) (nm ct : Bytes) (l left : List (Bytes × List Bytes)) (got : List (Bytes × Nat)) (b : Caller) : Prop where
  pos : (b.client.user = .idle ∧ got.map (·.1) ++ left.map (·.1) = l.map (·.1)) ∨
    ∃ k, b.client.user.task? = some k ∧ got.map (·.1) ++ k.taskId :: left.map (·.1) = l.map (·.1)
  got : ∀ x ∈ got, N ≤ x.2 ∧ Act.returned x.1 x.2 ∈ b.client.log
  long : N ≤ b.client.futures.length
  made : ∃ l1, l = l1 ++ left ∧ Made p nm ct l1 b.client.log

/-- Inside `map`. -/
def Maps (p : Pickle) (blk : Bool) (N : Nat) (nm ct : Bytes) (l : List (Bytes × List Bytes)) (b : Caller) : Prop :=
  (∃ left got, b.call = .submitting nm ct left got blk ∧ Subs p N nm ct l left got b) ∨
  (∃ e, b.call = .rejected e) ∨
  ∃ F, F.map (·.1) = l.map (·.1) ∧ (∀ x ∈ F, N ≤ x.2 ∧ Act.returned x.1 x.2 ∈ b.client.log) ∧ Made p nm ct l b.client.log ∧ Ends blk F b

theorem Made.mono {nm ct : Bytes} {l : List (Bytes × List Bytes)} {h h' : List Act} (hm : Made p nm ct l h) (hs : ∀ x ∈ h, x ∈ h') :
    Made p nm ct l h' := fun x hx => hs _ (hm x hx)

theorem advance_user {c c' : Client.Client} {k : Task} (hk : c.user.task? = some k) (h : c.advance = .ok c') :
    (c.user ≠ .register k ∧ c'.user.task? = some k) ∨
    (c.user = .register k ∧ c'.user = .idle ∧ Act.returned k.taskId c.futures.length ∈ c'.log) := by
  unfold Client.Client.advance at h
  split at h <;> rename_i hu <;> rw [hu] at hk <;> cases hk <;> rw [hu]
  · cases h; exact .inl ⟨nofun, rfl⟩
  · cases h
    refine .inl ⟨nofun, ?_⟩
    dsimp only
    split <;> rfl
  · simp only [Py.bind_ok, Py.pure_eq, Except.ok.injEq] at h
    obtain ⟨c1, -, rfl⟩ := h
    exact .inl ⟨nofun, rfl⟩
  · cases h; exact .inl ⟨nofun, rfl⟩
  · cases h; exact .inr ⟨rfl, rfl, by simp [Client.Client.note]⟩

theorem net_user {c c' : Client.Client} {o : Client.Op} (ho : o = .flush ∨ o = .exit ∨ ∃ m, o = .recv m) (h : c.step p o = .ok c') :
    c'.user = c.user := by
  rcases ho with rfl | rfl | ⟨m, rfl⟩
  · simp only [Client.Client.step, Client.Client.flush] at h
    split at h
    · cases h; rfl
    · split at h
      · cases h; rfl
      · simp only [Py.bind_ok, Py.pure_eq, Except.ok.injEq] at h
        obtain ⟨_, _, rfl⟩ := h
        rfl
  · simp only [Client.Client.step, Client.Client.exit] at h
    split at h
    · simp only [Py.bind_ok, Py.pure_eq, Except.ok.injEq] at h
      obtain ⟨c1, h1, c2, h2, rfl⟩ := h
      exact (exitGraphs_same h2).2.2.1.trans (exitTasks_same h1).2.2.1
    · cases h; rfl
  · simp only [Client.Client.step] at h
    split at h
    · cases h; rfl
    · exact (receive_out h).1

theorem thread_user {o : Client.Op} (ho : o = .flush ∨ o = .exit ∨ ∃ m, o = .recv m) : (b.thread p o).client.user = b.client.user := by
  rcases thread_client (p := p) (b := b) o with ⟨h, -⟩ | ⟨h, -⟩ | ⟨h, -⟩
  · rw [h]
  · exact net_user ho h
  · rw [h]; exact (leave_keeps _ o).user

theorem Subs.keep {N : Nat} {nm ct : Bytes} {l left : List (Bytes × List Bytes)} {got : List (Bytes × Nat)} (h : Subs p N nm ct l left got b)
    (hu : b'.client.user = b.client.user) (hk : ∀ x ∈ b.client.log, x ∈ b'.client.log)
    (hg : Grows b.client b'.client) : Subs p N nm ct l left got b' := by
  refine ⟨by rw [hu]; exact h.pos, fun x hx => ⟨(h.got x hx).1, hk _ (h.got x hx).2⟩, Nat.le_trans h.long hg.length, ?_⟩
  obtain ⟨l1, h1, h2⟩ := h.made
  exact ⟨l1, h1, h2.mono hk⟩

theorem Maps.keep {blk : Bool} {N : Nat} {nm ct : Bytes} {l : List (Bytes × List Bytes)} (h : Maps p blk N nm ct l b) (hc : b'.call = b.call)
    (hu : b'.client.user = b.client.user) (hl : ∀ x ∈ b.client.log, x ∈ b'.client.log)
    (hk : ∀ (n : Nat) (s : FState), b.client.futures[n]? = some s → Final s → b'.client.futures[n]? = some s)
    (hg : Grows b.client b'.client) : Maps p blk N nm ct l b' := by
  rcases h with ⟨left, got, h1, h2⟩ | ⟨e, h⟩ | ⟨F, h1, h2, h3, h4⟩
  · exact .inl ⟨left, got, hc.trans h1, h2.keep hu hl hg⟩
  · exact .inr (.inl ⟨e, hc.trans h⟩)
  · exact .inr (.inr ⟨F, h1, fun x hx => ⟨(h2 x hx).1, hl _ (h2 x hx).2⟩, h3.mono hl, h4.keep hc hk⟩)

theorem Maps.step {blk : Bool} {N : Nat} {nm ct : Bytes} {l : List (Bytes × List Bytes)} (h : Maps p blk N nm ct l b) (ho : goesOn o = true) (hf : FreshCall p b o) :
    Maps p blk N nm ct l (b.step p o) := by
  have hk : ∀ (n : Nat) (s : FState), b.client.futures[n]? = some s → Final s → (b.step p o).client.futures[n]? = some s :=
    fun n s hs hF => step_keepsFinal hf hs hF
  have hl : ∀ x ∈ b.client.log, x ∈ (b.step p o).client.log := fun x hx => step_keepsLog hf hx
  have hgr : N ≤ b.client.futures.length → N ≤ (b.step p o).client.futures.length := fun h => Nat.le_trans h (step_grows hf).length
  cases o with
  | submit => cases ho
  | map => cases ho
  | get => cases ho
  | cancel n => exact h.keep rfl rfl hl hk (step_grows hf)
  | disconnect => exact h.keep rfl rfl hl hk (step_grows hf)
  | recv m => exact h.keep (thread_call _) (thread_user (.inr (.inr ⟨m, rfl⟩))) hl hk (step_grows hf)
  | flush => exact h.keep (thread_call _) (thread_user (.inl rfl)) hl hk (step_grows hf)
  | exit => exact h.keep (thread_call _) (thread_user (.inr (.inl rfl))) hl hk (step_grows hf)
  | go =>
    rcases h with ⟨left, got, h1, h2⟩ | ⟨e, h⟩ | ⟨F, h1, h2, h3, h4⟩
    · obtain ⟨hp, hg, hN, l1, hm1, hm2⟩ := h2
      have hN' := hgr hN
      rcases hp with ⟨hu, hp⟩ | ⟨k, hu, hp⟩
      · have hstep : b.step p .go = (match left with
          | (t, args) :: left => { b with client := b.client.submit p t nm ct args, call := .submitting nm ct left got blk }
          | [] => { b with call := if blk then .waiting got [] else .handed got }) := by
          simp only [Caller.step, Caller.go, hu, if_true, h1]
          cases left <;> rfl
        rw [hstep] at hl hN' ⊢
        cases left with
        | nil =>
          refine .inr (.inr ⟨got, by simpa using hp, hg, ?_, ?_⟩)
          · show Made p nm ct l b.client.log
            rw [hm1, List.append_nil]
            exact hm2
          · cases blk with
            | true => exact (⟨[], rfl, rfl, rfl⟩ : AwaitsAll got ⟨_, _, .waiting got []⟩)
            | false => exact .inl rfl
        | cons x left =>
          obtain ⟨t, args⟩ := x
          refine .inl ⟨left, got, rfl, .inr ⟨⟨t, p.hash ct, args.map fun a => ⟨.data, a⟩⟩, rfl, by simpa using hp⟩,
            fun x hx => ⟨(hg x hx).1, hl _ (hg x hx).2⟩, hN', l1 ++ [(t, args)], by simp [hm1], ?_⟩
          intro x hx
          rcases List.mem_append.1 hx with hx | hx
          · exact hl _ (hm2 x hx)
          · rw [List.mem_singleton.1 hx]
            simp [Client.Client.submit, Client.Client.note]
      · have hn : b.client.user ≠ .idle := fun e => by rw [e] at hu; cases hu
        simp only [Caller.step, Caller.go, hn, if_false] at hl hN' ⊢
        split
        · next c hc =>
          rw [hc] at hl hN'
          dsimp only at hl hN'
          rcases advance_user hu hc with ⟨hr, hu'⟩ | ⟨hr, hu', hn⟩
          · refine .inl ⟨left, got, ?_, .inr ⟨k, hu', hp⟩, fun x hx => ⟨(hg x hx).1, hl _ (hg x hx).2⟩, hN', l1, hm1, hm2.mono hl⟩
            rw [h1]
            unfold Caller.record
            split
            · next k' _ _ _ _ _ hk' _ =>
              rw [hk'] at hu
              cases hu
              exact absurd hk' hr
            · rfl
          · refine .inl ⟨left, got ++ [(k.taskId, b.client.futures.length)], by simp only [h1, Caller.record, hr],
              .inl ⟨hu', by simpa using hp⟩, fun x hx => ?_, hN', l1, hm1, hm2.mono hl⟩
            rcases List.mem_append.1 hx with hx | hx
            · exact ⟨(hg x hx).1, hl _ (hg x hx).2⟩
            · rw [List.mem_singleton.1 hx]; exact ⟨hN, hn⟩
        · exact .inr (.inl ⟨_, rfl⟩)
    · simp only [Caller.step, Caller.go, h]
      split
      · exact .inr (.inl ⟨e, h⟩)
      · split
        · exact .inr (.inl ⟨e, record_same nofun⟩)
        · exact .inr (.inl ⟨_, rfl⟩)
    · exact .inr (.inr ⟨F, h1, fun x hx => ⟨(h2 x hx).1, hl _ (h2 x hx).2⟩, h3.mono hl, h4.step ho hf⟩)

theorem maps_run {blk : Bool} {nm ct : Bytes} {l : List (Bytes × List Bytes)} (hi : b.idle = true)
    (h : Calls p { b with call := .submitting nm ct l [] blk } os b') (ho : ∀ o ∈ os, goesOn o = true) :
    Maps p blk b.client.futures.length nm ct l b' := by
  have hu : b.client.user = .idle := by
    simp only [Caller.idle, Bool.and_eq_true, decide_eq_true_eq] at hi
    exact hi.1
  have h0 : Maps p blk b.client.futures.length nm ct l { b with call := .submitting nm ct l [] blk } :=
    .inl ⟨_, _, rfl, .inl ⟨hu, rfl⟩, nofun, Nat.le_refl _, [], rfl, nofun⟩
  revert h0
  generalize ({ b with call := .submitting nm ct l [] blk } : Caller) = b1 at h
  intro h0
  induction h with
  | nil => exact h0
  | cons o hf _ ih => exact ih (fun o h => ho o (List.mem_cons_of_mem _ h)) (h0.step (ho o (List.mem_cons_self ..)) hf)

/-- **C92.** What comes of `map`: every call of the function was submitted under an id of its own, and unless the call is rejected
the results that the scheduler sent for these ids are returned in the order of the calls, or what the first of them that
has no result raises is raised. -/
theorem C92_map {ids : List Bytes} {nm ct : Bytes} {it : Iter} {cs : List (List Bytes)} (hi : b.idle = true) (hc : mapCalls it = .ok cs)
    (h : Calls p (b.step p (.map ids nm ct it)) os b') (ho : ∀ o ∈ os, goesOn o = true) (hd : ∀ e, b'.call ≠ .rejected e) :
    (∃ left got, b'.call = .submitting nm ct left got true) ∨
    ∃ F, F.map (·.1) = (ids.zip cs).map (·.1) ∧ (∀ x ∈ F, b.client.futures.length ≤ x.2 ∧ Act.returned x.1 x.2 ∈ b'.client.log) ∧
      (∀ x ∈ ids.zip cs, Act.submitted ⟨x.1, p.hash ct, x.2.map fun a => ⟨.data, a⟩⟩ nm ct ∈ b'.client.log) ∧
      Outcome b'.client.futures F b'.call := by
  simp only [Caller.step, hi, if_true, hc] at h
  rcases maps_run hi h ho with ⟨left, got, h, -⟩ | ⟨e, h⟩ | ⟨F, h1, h2, h3, h4⟩
  · exact .inl ⟨left, got, h⟩
  · exact absurd h (hd e)
  · exact .inr ⟨F, h1, h2, h3, AwaitsAll.outcome h4⟩

/-- **C92.** `submit` creates its task and returns a new future for it. -/
theorem C92_submit {t nm ct : Bytes} {args : List Bytes} (hi : b.idle = true) (h : Calls p (b.step p (.submit t nm ct args)) os b')
    (ho : ∀ o ∈ os, goesOn o = true) (hd : ∀ e, b'.call ≠ .rejected e) (hb : b'.idle = true) :
    ∃ n, b'.call = .handed [(t, n)] ∧ b.client.futures.length ≤ n ∧ Act.returned t n ∈ b'.client.log ∧
      Act.submitted ⟨t, p.hash ct, args.map fun a => ⟨.data, a⟩⟩ nm ct ∈ b'.client.log := by
  simp only [Caller.step, hi, if_true] at h
  rcases maps_run hi h ho with ⟨left, got, h, -⟩ | ⟨e, h⟩ | ⟨F, h1, h2, h3, h4⟩
  · simp [Caller.idle, h] at hb
  · exact absurd h (hd e)
  · rcases h4 with h4 | ⟨e, h4⟩
    · match F, h1 with
      | [(t', n)], h1 =>
        obtain rfl : t' = t := by simpa using h1
        have := h2 _ (List.mem_cons_self ..)
        exact ⟨n, h4, this.1, this.2, h3 _ (List.mem_cons_self ..)⟩
    · exact absurd h4 (hd e)

/-- **C92.** What `map` returns are the results that the scheduler sent for its tasks. -/
theorem C92_map_own {ids : List Bytes} {nm ct : Bytes} {it : Iter} {cs : List (List Bytes)} (hr : Client.Reach p b.client) (hi : b.idle = true)
    (hc : mapCalls it = .ok cs) (h : Calls p (b.step p (.map ids nm ct it)) os b') (ho : ∀ o ∈ os, goesOn o = true) (hd : b'.dead = false)
    {rs : List (Bytes × Bytes)} (hb : b'.call = .returned rs) :
    rs.map (·.1) = (ids.zip cs).map (·.1) ∧ ∀ x ∈ rs, ∃ d, Act.recv (.taskResult x.1 .success d x.2) ∈ b'.client.log := by
  have hr' : Client.Reach p b'.client := calls_reach (by simpa only [Caller.step, hi, if_true, hc] using hr) h hd
  rcases C92_map hi hc h ho (fun e => by rw [hb]; nofun) with ⟨_, _, e⟩ | ⟨F, h1, h2, -, h3⟩
  · rw [hb] at e; cases e
  · rw [hb] at h3
    refine ⟨h3.1.trans h1, fun x hx => ?_⟩
    have key : ∀ (rs : List (Bytes × Bytes)) (F : List (Bytes × Nat)), rs.map (·.1) = F.map (·.1) →
        rs.map (fun r => some (FState.result r.2)) = F.map (fun y => b'.client.futures[y.2]?) →
        ∀ x ∈ rs, ∃ y ∈ F, y.1 = x.1 ∧ b'.client.futures[y.2]? = some (.result x.2) := by
      intro rs
      induction rs with
      | nil => nofun
      | cons r rs ih =>
        intro F e1 e2 x hx
        cases F with
        | nil => cases e1
        | cons y F =>
          simp only [List.map_cons, List.cons.injEq] at e1 e2
          rcases List.mem_cons.1 hx with rfl | hx
          · exact ⟨y, List.mem_cons_self .., e1.1.symm, e2.1.symm⟩
          · obtain ⟨z, hz, h⟩ := ih F e1.2 e2.2 x hx
            exact ⟨z, List.mem_cons_of_mem _ hz, h⟩
    obtain ⟨y, hy, e, hf⟩ := key rs F h3.1 h3.2 x hx
    exact e ▸ (C45_own hr' (h2 y hy).2).1 _ hf

/-- The function of the task that `submit` works on is there. -/
def Equipped (c : Client.Client) : Prop :=
  match c.user with
  | .check k => (c.toFunction.get? k.taskId).isSome
  | .request k => (c.toFunction.get? k.taskId).isSome
  | _ => True

theorem Equipped.same {c c' : Client.Client} (h : Equipped c) (h1 : c'.user = c.user) (h2 : c'.toFunction = c.toFunction) : Equipped c' := by
  unfold Equipped at h ⊢
  rw [h1, h2]
  exact h

theorem receive_equipped {c c' : Client.Client} {m : Message} (hf : FutInv c) (h : Equipped c) (e : c.receive p m = .ok c') : Equipped c' := by
  have hu := (receive_out e).1
  simp only [Client.Client.receive] at e
  split at e
  · next t st =>
    simp only [Client.Client.onTaskEcho] at e
    split at e
    · cases e; exact h
    · split at e
      · cases e; exact h
      · unfold Client.Client.bufferSend at e
        split at e
        · cases e; exact h
        · simp only [Py.bind_ok, Py.pure_eq, Except.ok.injEq] at e
          obtain ⟨c1, h1, rfl⟩ := e
          obtain ⟨nm, b, rfl⟩ := request_count h1
          exact h
      · cases e
      · simp only [Py.bind_ok] at e
        obtain ⟨x, hx, y, hy, n, hn, e⟩ := e
        have ho := setFuture_only e
        have hne : ∀ k, c.user.task? = some k → k.taskId ≠ t := by
          intro k hk e
          have := (hf.user k hk).1
          rw [e] at this
          simp [Dict.getPy, Client.Client.note, this] at hn
        have hfn : ∀ k, c.user.task? = some k → c'.toFunction.get? k.taskId = c.toFunction.get? k.taskId := by
          intro k hk
          rw [ho.toFunction]
          obtain ⟨-, hy2⟩ := Dict.pop_ok.1 hy
          simp [hy2, Dict.get?_erase, (hne k hk).symm, Client.Client.note]
        unfold Equipped at h ⊢
        rw [hu]
        split
        · next k hk => rw [hfn k (by rw [hk]; rfl)]; rw [hk] at h; exact h
        · next k hk => rw [hfn k (by rw [hk]; rfl)]; rw [hk] at h; exact h
        · trivial
      · cases e
      · cases e
  · simp only [Client.Client.onFunctionResponse, Py.bind_ok] at e
    obtain ⟨_, _, e⟩ := e
    split at e <;> cases e <;> exact h
  · simp only [Client.Client.onTaskResult] at e
    split at e
    · cases e; exact h
    · split at e
      · obtain ⟨_, _, e⟩ := Py.bind_ok.1 e
        exact h.same hu (setFuture_only e).toFunction
      · obtain ⟨_, _, e⟩ := Py.bind_ok.1 e
        exact h.same hu (setFuture_only e).toFunction
      · cases e; exact h
  · simp only [Client.Client.onGraphTaskResult] at e
    split at e
    · cases e; exact h
    · split at e
      · exact h.same hu (resolveAll_only e).toFunction
      · obtain ⟨_, _, e⟩ := Py.bind_ok.1 e
        obtain ⟨_, _, e⟩ := Py.bind_ok.1 e
        exact h.same hu (resolveAll_only e).toFunction
      · cases e; exact h
  · cases e

theorem exitTasks_fn {l : List (Bytes × Nat)} {c c' : Client.Client} (e : c.exitTasks l = .ok c') : c'.toFunction = c.toFunction := by
  induction l generalizing c with
  | nil => cases e; rfl
  | cons x l ih =>
    simp only [Client.Client.exitTasks, Py.bind_ok] at e
    obtain ⟨c1, h1, h2⟩ := e
    exact (ih h2).trans (setFuture_only h1).toFunction

theorem exitGraphs_fn {l : List (Bytes × List Nat)} {c c' : Client.Client} (e : c.exitGraphs l = .ok c') : c'.toFunction = c.toFunction := by
  induction l generalizing c with
  | nil => cases e; rfl
  | cons x l ih =>
    simp only [Client.Client.exitGraphs, Py.bind_ok] at e
    obtain ⟨c1, h1, h2⟩ := e
    exact (ih h2).trans (exitFutures_only h1).toFunction

theorem reach_equipped {c : Client.Client} (hr : Client.Reach p c) : Equipped c := by
  induction hr with
  | init => trivial
  | @step c c' o hr hf e h =>
    cases o with
    | submit t nm b args =>
      simp only [Client.Client.step] at e
      split at e <;> cases e
      · trivial
      · exact h
    | get g =>
      simp only [Client.Client.step] at e
      split at e <;> cases e
      · trivial
      · exact h
    | advance =>
      simp only [Client.Client.step, Client.Client.advance] at e
      split at e
      · cases e; exact h
      · cases e; simp [Equipped]
      · next k hk =>
        cases e
        simp only [Equipped, hk] at h ⊢
        split
        · next e => split at e <;> cases e
        · next e => split at e <;> cases e; exact h
        · trivial
      · simp only [Py.bind_ok, Py.pure_eq] at e
        obtain ⟨c1, e1, e2⟩ := e
        cases e2
        trivial
      · cases e; trivial
      · cases e; trivial
      · cases e; trivial
    | cancel n => cases e; exact h
    | disconnect => cases e; exact h
    | recv m =>
      simp only [Client.Client.step] at e
      split at e
      · cases e; exact h
      · exact receive_equipped hr.fut h e
    | flush =>
      simp only [Client.Client.step, Client.Client.flush] at e
      split at e
      · cases e; exact h
      · split at e
        · cases e; exact h
        · simp only [Py.bind_ok, Py.pure_eq] at e
          obtain ⟨_, _, e⟩ := e
          cases e
          exact h
    | exit =>
      have hu := net_user (.inr (.inl rfl)) e
      simp only [Client.Client.step, Client.Client.exit] at e
      split at e
      · simp only [Py.bind_ok, Py.pure_eq] at e
        obtain ⟨c1, h1, c2, h2, e⟩ := e
        cases e
        exact h.same hu ((exitGraphs_fn h2).trans (exitTasks_fn h1))
      · cases e; exact h

theorem reach_advance {c : Client.Client} (hr : Client.Reach p c) : ∃ c', c.advance = .ok c' := by
  have h := reach_equipped hr
  unfold Client.Client.advance
  split
  · exact ⟨_, rfl⟩
  · exact ⟨_, rfl⟩
  · exact ⟨_, rfl⟩
  · next k hk =>
    simp only [Equipped, hk] at h
    obtain ⟨x, hx⟩ := Option.isSome_iff_exists.1 h
    simp only [Client.Client.requestFunction, Dict.getPy, hx]
    exact ⟨_, rfl⟩
  · exact ⟨_, rfl⟩
  · exact ⟨_, rfl⟩
  · exact ⟨_, rfl⟩

/-- **C92.** `map` and `get` raise nothing else while they wait: they are rejected before anything is submitted or not at all, unless
the connector's thread raised. -/
theorem C92_accepted (hr : Client.Reach p b.client) (hb : ∀ e, b.call ≠ .rejected e) (h : Calls p b os b')
    (ho : ∀ o ∈ os, goesOn o = true) (hd : b'.dead = false) (e : PyErr) : b'.call ≠ .rejected e := by
  induction h with
  | nil => exact hb e
  | @cons b b' os o hf h ih =>
    have hr' : Client.Reach p (b.step p o).client := calls_reach hr (.cons o hf (.nil _)) (calls_dead h hd)
    refine ih hr' (fun e => ?_) (fun o h => ho o (List.mem_cons_of_mem _ h)) hd
    have hg := ho o (List.mem_cons_self ..)
    cases o with
    | submit => cases hg
    | map => cases hg
    | get => cases hg
    | cancel n => exact hb e
    | disconnect => exact hb e
    | recv m => rw [show (b.step p (.recv m)).call = b.call from thread_call _]; exact hb e
    | flush => rw [show (b.step p .flush).call = b.call from thread_call _]; exact hb e
    | exit => rw [show (b.step p .exit).call = b.call from thread_call _]; exact hb e
    | go =>
      simp only [Caller.step, Caller.go]
      split
      · split
        · nofun
        · split <;> nofun
        · split <;> nofun
        · nofun
        · split <;> first | exact hb e | nofun
        · split <;> first | exact hb e | nofun
        · exact hb e
      · obtain ⟨c', hc⟩ := reach_advance hr
        rw [hc]
        dsimp only
        unfold Caller.record
        split
        · nofun
        · exact hb e

/-! ### A call that raises -/

/-- Where a call that raises stands. -/
structure Over (b : Caller) : Prop where
  joins : ∀ x, b.call = .joining x → b.client.stop = true
  raised : ∀ x, b.call = .raised x → b.client.stop = true ∧ Gone b

theorem step_gone (hf : FreshCall p b o) (h : Gone b) : Gone (b.step p o) := by
  rcases h with h | h
  · exact .inl ((step_grows hf).closed h)
  · refine .inr ?_
    cases e : (b.step p o).dead with
    | true => rfl
    | false => rw [step_dead hf e] at h; cases h

theorem Over.step (h : Over b) (hf : FreshCall p b o) : Over (b.step p o) := by
  have hg := step_grows hf
  have hG := step_gone (p := p) hf
  have same : (b.step p o).call = b.call → Over (b.step p o) := fun e =>
    ⟨fun x hx => hg.stop (h.joins x (e ▸ hx)), fun x hx => ⟨hg.stop (h.raised x (e ▸ hx)).1, hG (h.raised x (e ▸ hx)).2⟩⟩
  have other : (∀ x, (b.step p o).call ≠ .joining x) → (∀ x, (b.step p o).call ≠ .raised x) → Over (b.step p o) := fun h1 h2 =>
    ⟨fun x hx => absurd hx (h1 x), fun x hx => absurd hx (h2 x)⟩
  cases o with
  | submit t nm ct args =>
    cases hi : b.idle with
    | false => exact same (by simp [Caller.step, hi])
    | true => exact other (by simp [Caller.step, hi]) (by simp [Caller.step, hi])
  | map ids nm ct it =>
    cases hi : b.idle with
    | false => exact same (by simp [Caller.step, hi])
    | true => cases e : mapCalls it <;> exact other (by simp [Caller.step, hi, e]) (by simp [Caller.step, hi, e])
  | get ids gid g keys block =>
    cases hi : b.idle with
    | false => exact same (by simp [Caller.step, hi])
    | true => cases e : b.client.callGet p ids gid g keys <;> exact other (by simp [Caller.step, hi, e]) (by simp [Caller.step, hi, e])
  | cancel n => exact same rfl
  | disconnect => exact same rfl
  | recv m => exact same (thread_call _)
  | flush => exact same (thread_call _)
  | exit => exact same (thread_call _)
  | go =>
    simp only [Caller.step, Caller.go] at hg hG same other ⊢
    split
    · next hu =>
      simp only [hu, if_true] at hg hG same other
      split
      · next e => rw [e] at other; exact other nofun nofun
      · next blk e =>
        rw [e] at other
        cases blk <;> exact other nofun nofun
      · next blk e =>
        rw [e] at other
        cases blk <;> exact other nofun nofun
      · next e => rw [e] at other; exact other nofun nofun
      · next e =>
        split
        · exact ⟨nofun, nofun⟩
        · exact h
        · exact h
        · exact ⟨fun _ _ => rfl, nofun⟩
        · exact h
      · next x e =>
        split
        · next hc => exact ⟨nofun, fun _ _ => ⟨h.joins x e, by simpa [Gone] using hc⟩⟩
        · exact h
      · exact h
    · next hu =>
      simp only [hu, if_false] at hg hG
      split
      · next c hc =>
        rw [hc] at hg hG
        have hrec : ∀ x, (Caller.record b.client b.call = .joining x → b.call = .joining x) ∧
            (Caller.record b.client b.call = .raised x → b.call = .raised x) := by
          intro x
          unfold Caller.record
          split
          · exact ⟨nofun, nofun⟩
          · exact ⟨id, id⟩
        exact ⟨fun x hx => hg.stop (h.joins x ((hrec x).1 hx)),
          fun x hx => ⟨hg.stop (h.raised x ((hrec x).2 hx)).1, hG (h.raised x ((hrec x).2 hx)).2⟩⟩
      · exact ⟨nofun, nofun⟩

theorem _root_.Verif.Client.Calls.over (h : Calls p b os b') (hb : Over b) : Over b' := by
  induction h with
  | nil => exact hb
  | cons o hf _ ih => exact ih (hb.step hf)

/-- **C92.** When a call raises what a future held, the client was disconnected and its connector is no more. -/
theorem C92_raises (h : Calls p .init os b') {x : FState} (hx : b'.call = .raised x) : b'.client.stop = true ∧ Gone b' :=
  (h.over ⟨nofun, nofun⟩).raised x hx

/-! ### A client whose connector is gone -/

/-- What goes over the network. -/
def isNet : Act → Bool
  | .recv _ => true
  | .sent _ => true
  | _ => false

/-- Nothing comes and nothing goes. -/
structure Mute (c c' : Client.Client) : Prop where
  net : c'.log.filter isNet = c.log.filter isNet
  old : ∀ (n : Nat) (r : Bytes), c'.futures[n]? = some (.result r) → c.futures[n]? = some (.result r)

theorem Mute.refl (c : Client.Client) : Mute c c := ⟨rfl, fun _ _ h => h⟩

theorem Mute.trans {c1 c2 c3 : Client.Client} (h : Mute c1 c2) (h' : Mute c2 c3) : Mute c1 c3 :=
  ⟨h'.net.trans h.net, fun n r e => h.old n r (h'.old n r e)⟩

theorem pending_old {fs l : List FState} (hl : ∀ s ∈ l, s = .pending) {n : Nat} {r : Bytes} (h : (fs ++ l)[n]? = some (.result r)) :
    fs[n]? = some (.result r) := by
  by_cases hn : n < fs.length
  · rwa [List.getElem?_append_left hn] at h
  · rw [List.getElem?_append_right (by omega)] at h
    cases hl _ (List.mem_of_getElem? h)

theorem advance_mute {c c' : Client.Client} (e : c.advance = .ok c') : Mute c c' := by
  unfold Client.Client.advance at e
  split at e
  · cases e; exact .refl c
  · cases e; exact ⟨rfl, fun _ _ h => h⟩
  · cases e; exact ⟨rfl, fun _ _ h => h⟩
  · simp only [Py.bind_ok, Py.pure_eq] at e
    obtain ⟨c1, e1, e2⟩ := e
    cases e2
    obtain ⟨nm, b, rfl⟩ := request_count e1
    exact ⟨rfl, fun _ _ h => h⟩
  · cases e; exact ⟨rfl, fun _ _ h => h⟩
  · cases e
    exact ⟨by simp [Client.Client.note, isNet], fun n r h => pending_old (by simp) h⟩
  · cases e; exact ⟨by simp [Client.Client.note, isNet], fun _ _ h => h⟩

theorem mute_step (hG : Gone b) : Mute b.client (b.step p o).client := by
  have hth : ∀ o, o = .flush ∨ o = .exit ∨ (∃ m, o = .recv m) → (b.thread p o).client = b.client := by
    intro o ho
    unfold Caller.thread
    split
    · rfl
    · next hd =>
      have hc : b.client.closed = true := hG.resolve_right hd
      rcases ho with rfl | rfl | ⟨m, rfl⟩ <;> simp [Client.Client.step, hc]
  cases o with
  | submit t nm ct args => simp only [Caller.step]; split <;> exact .refl _
  | map ids nm ct it =>
    simp only [Caller.step]
    split
    · split <;> exact .refl _
    · exact .refl _
  | get ids gid g keys block =>
    simp only [Caller.step]
    split
    · split
      · next c fs hc =>
        simp only [Client.Client.callGet, Py.bind_ok, Py.pure_eq, Except.ok.injEq, Prod.mk.injEq] at hc
        obtain ⟨m, hm, rfl, -⟩ := hc
        refine ⟨by simp [Client.Client.get, Client.Client.note, Client.Client.send, isNet], fun n r h => ?_⟩
        exact pending_old (l := m.targets.map fun _ => .pending) (by simp) h
      · exact .refl _
    · exact .refl _
  | cancel n =>
    refine ⟨by simp [Caller.step, Client.Client.note, isNet], fun m r h => ?_⟩
    simp only [Caller.step, List.getElem?_modify] at h
    split at h
    · cases e : b.client.futures[m]? with
      | none => rw [e] at h; cases h
      | some s => rw [e] at h; cases s <;> simp [FState.cancel] at h ⊢ <;> exact h
    · simpa using h
  | disconnect => exact ⟨rfl, fun _ _ h => h⟩
  | recv m => exact (hth _ (.inr (.inr ⟨m, rfl⟩)) : (b.step p (.recv m)).client = b.client) ▸ .refl _
  | flush => exact (hth _ (.inl rfl) : (b.step p .flush).client = b.client) ▸ .refl _
  | exit => exact (hth _ (.inr (.inl rfl)) : (b.step p .exit).client = b.client) ▸ .refl _
  | go =>
    simp only [Caller.step, Caller.go]
    split
    · split
      · exact ⟨by simp [Client.Client.submit, Client.Client.note, isNet], fun _ _ h => h⟩
      · exact .refl _
      · exact .refl _
      · exact .refl _
      · split <;> first | exact .refl _ | exact ⟨rfl, fun _ _ h => h⟩
      · split <;> exact .refl _
      · exact .refl _
    · split
      · next c hc => exact advance_mute hc
      · exact .refl _

/-- **C92.** A client whose connector is gone sends and receives nothing, and no future gets a result any more. -/
theorem C92_mute (hG : Gone b) (h : Calls p b os b') : b'.client.log.filter isNet = b.client.log.filter isNet ∧
    ∀ (n : Nat) (r : Bytes), b'.client.futures[n]? = some (.result r) → b.client.futures[n]? = some (.result r) := by
  have : Mute b.client b'.client := by
    induction h with
    | nil => exact .refl _
    | cons o hf _ ih => exact (mute_step hG).trans (ih (step_gone hf hG))
  exact ⟨this.net, this.old⟩

/-- **C92.** After a call has raised, no `map` of at least one call and no `get` of at least one key ever returns: the user waits for ever. -/
theorem C92_stuck {ids : List Bytes} {nm ct : Bytes} {it : Iter} {cs : List (List Bytes)} (hG : Gone b) (hi : b.idle = true)
    (hc : mapCalls it = .ok cs) (hne : ids.zip cs ≠ []) (h : Calls p (b.step p (.map ids nm ct it)) os b') (ho : ∀ o ∈ os, goesOn o = true)
    (rs : List (Bytes × Bytes)) : b'.call ≠ .returned rs := by
  intro hb
  have hs : (b.step p (.map ids nm ct it)).client = b.client ∧ Gone (b.step p (.map ids nm ct it)) := by
    simp only [Caller.step, hi, if_true, hc]; exact ⟨trivial, hG⟩
  rcases C92_map hi hc h ho (fun e => by rw [hb]; nofun) with ⟨_, _, e⟩ | ⟨F, h1, h2, -, h3⟩
  · rw [hb] at e; cases e
  · rw [hb] at h3
    cases F with
    | nil => exact hne (by simpa using h1.symm)
    | cons y F =>
      cases rs with
      | nil => cases h3.1
      | cons r rs =>
        have e := (List.cons.inj h3.2).1.symm
        have e := (C92_mute hs.2 h).2 y.2 r.2 e
        rw [hs.1] at e
        have := (List.getElem?_eq_some_iff.1 e).1
        have := (h2 y (List.mem_cons_self ..)).1
        omega

theorem ofList_mem {κ ν : Type} [DecidableEq κ] (l : List (κ × ν)) : ∀ x ∈ (Dict.ofList l).items, x.2 ∈ l.map (·.2) := by
  have key : ∀ (l : List (κ × ν)) (d : Dict κ ν) (L : List ν), (∀ x ∈ d.items, x.2 ∈ L) →
      ∀ x ∈ (l.foldl (fun d p => d.set p.1 p.2) d).items, x.2 ∈ L ++ l.map (·.2) := by
    intro l
    induction l with
    | nil => intro d L h x hx; simpa using h x hx
    | cons y l ih =>
      intro d L h x hx
      have := ih (d.set y.1 y.2) (L ++ [y.2]) (fun z hz => ?_) x hx
      · simpa using this
      · have hz := Dict.mem_items.1 hz
        rw [Dict.get?_set] at hz
        split at hz
        · rw [← Option.some.inj hz]; simp
        · exact List.mem_append_left _ (h z (Dict.mem_items.2 hz))
  intro x hx
  simpa using key l Dict.empty [] (fun x hx => by cases hx) x hx

/-- **C92.** The same for `get` of at least one key. -/
theorem C92_stuck_get {ids : List Bytes} {gid : Bytes} {g : Dict Bytes UserNode} {keys : List Bytes} {c : Client.Client} {fs : Dict Bytes Nat}
    (hG : Gone b) (hi : b.idle = true) (hc : b.client.callGet p ids gid g keys = .ok (c, fs)) (hne : fs.items ≠ [])
    (hf : FreshCall p b (.get ids gid g keys true))
    (h : Calls p (b.step p (.get ids gid g keys true)) os b') (ho : ∀ o ∈ os, goesOn o = true) (rs : List (Bytes × Bytes)) :
    b'.call ≠ .returned rs := by
  intro hb
  have h3 := (C92_get hi).2 c fs hc h ho
  rw [hb] at h3
  obtain ⟨y, hy⟩ := List.exists_mem_of_ne_nil _ hne
  obtain ⟨r, hr⟩ := results_left h3.2 y hy
  have e := (C92_mute hG (.cons _ hf h)).2 y.2 r hr
  have hlt := (List.getElem?_eq_some_iff.1 e).1
  simp only [Client.Client.callGet, Py.bind_ok, Py.pure_eq, Except.ok.injEq, Prod.mk.injEq] at hc
  obtain ⟨m, hm, -, rfl⟩ := hc
  have hy' := ofList_mem _ y hy
  obtain ⟨z, hz, e⟩ := List.mem_map.1 hy'
  have := (List.mem_range'_1.1 (List.of_mem_zip hz).2).1
  omega

/-! ### Scenes -/

/-- `FreshCall`, decided. -/
def freshCall (p : Pickle) (b : Caller) : COp → Bool
  | .go =>
    match b.client.user, b.call with
    | .idle, .submitting _ _ ((t, _) :: _) _ _ => decide (t ∉ usedIds b.client.log)
    | _, _ => true
  | .get ids gid g keys _ =>
    match buildGraph p ids gid g keys with
    | .ok m => decide ((graphIds m).Nodup ∧ ∀ t ∈ graphIds m, t ∉ usedIds b.client.log)
    | .error _ => true
  | _ => true

theorem freshCall_ok (h : freshCall p b o = true) : FreshCall p b o := by
  cases o with
  | go =>
    simp only [freshCall] at h
    simp only [FreshCall]
    split
    · next hu hc =>
      rw [hu, hc] at h
      exact of_decide_eq_true h
    · trivial
  | get ids gid g keys blk =>
    intro m hm
    simp only [freshCall, hm] at h
    exact of_decide_eq_true h
  | _ => trivial

/-- The events are played. -/
def callerRun (p : Pickle) : Caller → List COp → Option Caller
  | b, [] => some b
  | b, o :: os => if freshCall p b o then callerRun p (b.step p o) os else none

theorem callerRun_calls (h : callerRun p b os = some b') : Calls p b os b' := by
  induction os generalizing b with
  | nil => cases h; exact .nil _
  | cons o os ih =>
    simp only [callerRun] at h
    split at h
    · exact .cons o (freshCall_ok ‹_›) (ih h)
    · cases h

/-- A fact about the state after some events. -/
def callerWitness {α : Type} (os : List COp) (f : Caller → α) : Option α := (callerRun plainPickle .init os).map f

theorem callerWitness_sound {α : Type} {f : Caller → α} {x : α} (h : callerWitness os f = some x) :
    ∃ b, Calls plainPickle .init os b ∧ f b = x := by
  unfold callerWitness at h
  cases hr : callerRun plainPickle .init os with
  | none => simp [hr] at h
  | some b =>
    simp only [hr, Option.map_some, Option.some.injEq] at h
    exact ⟨b, callerRun_calls hr, h⟩

/-- The scheduler takes the function `[9]` and the task. -/
def taken9 (t : Bytes) : List COp := [.flush, .recv (.functionResponse .ok [9] [] []), .flush, .recv (.taskEcho t .submitOK)]

/-- `submit` returned the future 0 of task `[1]`. -/
def firstSubmit : List COp := .submit [1] [5] [9] [] :: List.replicate 7 .go ++ taken9 [1]

/-- `map` of two calls after that, until both tasks are known. -/
def thenMap : List COp :=
  firstSubmit ++ [.map [[2], [3]] [5] [9] ⟨false, [.args [[4]], .args [[6]]]⟩] ++ List.replicate 13 .go ++
    [.flush, .recv (.functionResponse .ok [9] [] []), .flush, .flush, .recv (.taskEcho [2] .submitOK), .recv (.taskEcho [3] .submitOK)]

/-- `map` returns the results in the order of the calls, though they came the other way round. -/
example : callerWitness (thenMap ++ [.recv (.taskResult [3] .success 0 [33]), .go, .recv (.taskResult [2] .success 0 [22]), .go, .go, .go])
    (fun b => (b.call, b.client.futures, b.dead)) = some (.returned [([2], [22]), ([3], [33])], [.running, .result [22], .result [33]], false) := by
  decide +kernel

/-- After that, another `submit` is made (`C92_next`); in the middle of the `map` it is not. -/
example : callerWitness (thenMap ++ [.recv (.taskResult [3] .success 0 [33]), .go, .recv (.taskResult [2] .success 0 [22]), .go, .go, .go,
      .submit [4] [5] [9] []]) (fun b => b.call) = some (.submitting [5] [9] [([4], [])] [] false) ∧
    callerWitness (thenMap ++ [.submit [4] [5] [9] []]) (fun b => b.call) = callerWitness thenMap (fun b => b.call) := by
  decide +kernel

/-- `get` returns the results by key. -/
example : callerWitness ([.get [[20], [21]] [30] sampleUserGraph [[3], [2]] true, .go, .go, .flush,
      .recv (.graphTaskResult [30] .success [[33], [22]]), .go, .go, .go])
    (fun b => (b.call, b.client.futures)) = some (.returned [([3], [33]), ([2], [22])], [.result [33], .result [22]]) := by
  decide +kernel

/-- **The claim is false**: one failing task of a `map` disconnects the client; the future of an earlier `submit`, whose task
runs, gets `ScaledDisconnect`, and its task is cancelled. -/
theorem C92_collateral : ∃ b, Calls plainPickle .init (thenMap ++ [.recv (.taskResult [2] .failed 0 [7]), .go, .exit, .go]) b ∧
    b.call = .raised (.exception [7]) ∧ b.client.futures = [.disconnected, .exception [7], .disconnected] ∧
    Act.sent (.taskCancel [1]) ∈ b.client.log ∧ Gone b ∧ b.idle = true := by
  have h : callerWitness (thenMap ++ [.recv (.taskResult [2] .failed 0 [7]), .go, .exit, .go]) (fun b => decide (
    b.call = .raised (.exception [7]) ∧ b.client.futures = [.disconnected, .exception [7], .disconnected] ∧
    Act.sent (.taskCancel [1]) ∈ b.client.log ∧ b.client.closed = true ∧ b.idle = true)) = some true := by decide +kernel
  obtain ⟨b, hb, hf⟩ := callerWitness_sound h
  obtain ⟨h1, h2, h3, h4, h5⟩ := of_decide_eq_true hf
  exact ⟨b, hb, h1, h2, h3, .inl h4, h5⟩

/-- The same scene goes on: the next `map` waits for ever. -/
example : ∃ b, Gone b ∧ b.idle = true ∧ ∀ os b', Calls plainPickle (b.step plainPickle (.map [[4]] [5] [9] ⟨false, [.args [[4]]]⟩)) os b' →
    (∀ o ∈ os, goesOn o = true) → ∀ rs, b'.call ≠ .returned rs := by
  obtain ⟨b, -, -, -, -, h4, h5⟩ := C92_collateral
  exact ⟨b, h4, h5, fun os b' h ho => C92_stuck h4 h5 (cs := [[[4]]]) (by decide) (by decide) h ho⟩

/-- **The claim is false**: when one future of a graph was cancelled, its result kills the connector's thread half-way.  The
futures before it have their results, `get` raises `CancelledError`, and the future of another task is left pending:
neither a result nor `ScaledDisconnect` will ever come, and its task is not cancelled. -/
theorem C92_half : ∃ b, Calls plainPickle .init (firstSubmit ++ [.get [[20], [21]] [30] sampleUserGraph [[3], [2]] true, .go, .go, .flush, .cancel 2,
      .recv (.graphTaskResult [30] .success [[33], [22]]), .go, .go, .go]) b ∧
    b.call = .raised .cancelled ∧ b.client.futures = [.running, .result [33], .cancelled] ∧ b.dead = true ∧
    Act.sent (.taskCancel [1]) ∉ b.client.log ∧ ∀ os b', Calls plainPickle b os b' → ∀ r, b'.client.futures[0]? ≠ some (.result r) := by
  have h : callerWitness (firstSubmit ++ [.get [[20], [21]] [30] sampleUserGraph [[3], [2]] true, .go, .go, .flush, .cancel 2,
      .recv (.graphTaskResult [30] .success [[33], [22]]), .go, .go, .go]) (fun b => decide (
    b.call = .raised .cancelled ∧ b.client.futures = [.running, .result [33], .cancelled] ∧ b.dead = true ∧
    Act.sent (.taskCancel [1]) ∉ b.client.log)) = some true := by decide +kernel
  obtain ⟨b, hb, hf⟩ := callerWitness_sound h
  obtain ⟨h1, h2, h3, h4⟩ := of_decide_eq_true hf
  refine ⟨b, hb, h1, h2, h3, h4, fun os b' h r e => ?_⟩
  have := (C92_mute (.inr h3) h).2 0 r e
  rw [h2] at this
  cases this

/-- Three tasks. -/
def manyTasks : List COp :=
  firstSubmit ++ (.submit [2] [5] [9] [] :: List.replicate 7 .go) ++ (.submit [3] [5] [9] [] :: List.replicate 7 .go)

/-- **The claim is false**: `disconnect` with a cancelled future between two others stops half-way. -/
theorem C92_exit_half : ∃ b, Calls plainPickle .init (manyTasks ++ [.cancel 1, .disconnect, .exit]) b ∧ b.dead = true ∧ b.client.closed = false ∧
    b.client.futures = [.disconnected, .cancelled, .pending] ∧ Act.sent (.taskCancel [2]) ∈ b.client.log ∧
    Act.sent (.taskCancel [3]) ∉ b.client.log := by
  have h : callerWitness (manyTasks ++ [.cancel 1, .disconnect, .exit]) (fun b => decide (b.dead = true ∧ b.client.closed = false ∧
    b.client.futures = [.disconnected, .cancelled, .pending] ∧ Act.sent (.taskCancel [2]) ∈ b.client.log ∧
    Act.sent (.taskCancel [3]) ∉ b.client.log)) = some true := by decide +kernel
  obtain ⟨b, hb, hf⟩ := callerWitness_sound h
  exact ⟨b, hb, of_decide_eq_true hf⟩

/-- The same for a failed graph, and for a graph at `disconnect`. -/
example : callerWitness ([.get [[20], [21]] [30] sampleUserGraph [[3], [2]] true, .go, .go, .flush, .cancel 1,
      .recv (.graphTaskResult [30] .failed [[7], [8]]), .go, .go, .go]) (fun b => (b.call, b.client.futures, b.dead)) =
      some (.raised (.exception [7]), [.exception [7], .cancelled], true) ∧
    callerWitness ([.get [[20], [21]] [30] sampleUserGraph [[3], [2]] true, .go, .go, .flush, .cancel 1, .disconnect, .exit, .go, .go])
      (fun b => (b.call, b.client.futures, b.dead, b.client.log.contains (.sent (.graphTaskCancel [30])))) =
      some (.raised .disconnected, [.disconnected, .cancelled], true, true) := by
  decide +kernel

/-- An echo for a task that was not sent kills the connector's thread and takes the function away: `submit` raises `KeyError`. -/
example : callerWitness ([.submit [1] [5] [9] [], .go, .go, .recv (.taskEcho [1] .submitOK), .go, .go]) (fun b => (b.call, b.dead, b.client.futures)) =
    some (.rejected .keyError, true, []) := by
  decide +kernel

/-- Futures are returned at once by `get` that does not block. -/
example : callerWitness ([.get [[20], [21]] [30] sampleUserGraph [[3], [2]] false, .go, .go]) (fun b => (b.call, b.idle, b.client.futures)) =
    some (.handed [([3], 0), ([2], 1)], true, [.pending, .pending]) := by
  decide +kernel

/-- What cannot be called is rejected. -/
example : callerWitness ([.map [[1]] [5] [9] ⟨false, [.other]⟩]) (fun b => (b.call, b.idle, b.client.log)) = some (.rejected .typeError, true, []) ∧
    callerWitness ([.get [[20], [21]] [30] sampleUserGraph [[1]] true]) (fun b => (b.call, b.idle, b.client.log)) = some (.rejected .keyError, true, []) := by
  decide +kernel

end Verif.Props
