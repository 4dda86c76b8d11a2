import Verif.Client.ClientAlone
import Verif.Client.ClientIo

/-!
# What becomes of futures whose results arrive
-/

namespace Verif.Client

open Verif.Wire Verif.Spec.Client Client

/-- Results arrive for ids that were used before. -/
def Timely (l : Hist) : Act → Prop
  | .recv (.taskResult t _ _ _) => t ∈ usedIds l
  | .recv (.graphTaskResult g _ _) => g ∈ usedIds l
  | _ => True

theorem always_left {P : Hist → Act → Prop} {l l' : Hist} (h : Always P (l ++ l')) : Always P l :=
  fun l₁ x l₂ e => h l₁ x (l₂ ++ l') (by rw [e]; simp)

theorem timely_result {l : Hist} (h : Always Timely l) {t : Bytes} {st : TaskStatus} {d : UInt32} {r : Bytes}
    (hm : Act.recv (.taskResult t st d r) ∈ l) : t ∈ usedIds l := by
  obtain ⟨l₁, l₂, e⟩ := List.append_of_mem hm
  have : t ∈ usedIds l₁ := h l₁ _ l₂ e
  rw [e, usedIds_append]
  exact List.mem_append_left _ this

theorem timely_graph {l : Hist} (h : Always Timely l) {g : Bytes} {st : TaskStatus} {rs : List Bytes}
    (hm : Act.recv (.graphTaskResult g st rs) ∈ l) : g ∈ usedIds l := by
  obtain ⟨l₁, l₂, e⟩ := List.append_of_mem hm
  have : g ∈ usedIds l₁ := h l₁ _ l₂ e
  rw [e, usedIds_append]
  exact List.mem_append_left _ this

/-- What the future holds after this answer. -/
def Holds (c : Client) (n : Nat) (st : TaskStatus) (r : Bytes) : Prop :=
  (st = .success → c.futures[n]? = some (.result r)) ∧ (st = .failed → c.futures[n]? = some (.exception r))

/-- What the futures of a graph hold after this answer. -/
def HoldsAll (c : Client) (ns : List Nat) (st : TaskStatus) (rs : List Bytes) : Prop :=
  ∀ (i n : Nat) r, ns[i]? = some n → rs[i]? = some r →
    (st = .success → c.futures[n]? = some (.result r)) ∧ (st = .failed → ∃ x, rs[0]? = some x ∧ c.futures[n]? = some (.exception x))

theorem Holds.step {p : Pickle} {c c' : Client} {o : Op} {n : Nat} {st : TaskStatus} {r : Bytes} (h : Holds c n st r) (e : c.step p o = .ok c') : Holds c' n st r :=
  ⟨fun x => step_final (h.1 x) trivial e, fun x => step_final (h.2 x) trivial e⟩

theorem HoldsAll.step {p : Pickle} {c c' : Client} {o : Op} {ns : List Nat} {st : TaskStatus} {rs : List Bytes} (h : HoldsAll c ns st rs)
    (e : c.step p o = .ok c') : HoldsAll c' ns st rs := fun i n r hn hr =>
  ⟨fun x => step_final ((h i n r hn hr).1 x) trivial e, fun x => let ⟨y, h1, h2⟩ := (h i n r hn hr).2 x; ⟨y, h1, step_final h2 trivial e⟩⟩

theorem setFuture_holds {c c' : Client} {n : Nat} {s : FState} (e : c.setFuture n (FState.finish s) = .ok c') : c'.futures[n]? = some s := by
  have hr := setFuture_ready e
  rw [setFuture_finish s hr] at e
  cases e
  have hn : n < c.futures.length := by
    rcases hr with h | h <;> exact (List.getElem?_eq_some_iff.1 h).1
  simp [hn]

/-- A result that arrives while the future is in the table resolves it. -/
theorem receive_resolves {p : Pickle} {c c' : Client} (hf : FutInv c) {t : Bytes} {st : TaskStatus} {d : UInt32} {r : Bytes} {n : Nat}
    (ho : openFuture t c.log = some n) (e : c.receive p (.taskResult t st d r) = .ok c') : Holds c' n st r := by
  have hg : (c.note (.recv (.taskResult t st d r))).toFuture.get? t = some n := (hf.fut t).trans ho
  simp only [receive, onTaskResult, hg] at e
  refine ⟨?_, ?_⟩ <;> rintro rfl
  · simp only [Py.bind_ok] at e
    obtain ⟨_, _, e⟩ := e
    exact setFuture_holds e
  · simp only [Py.bind_ok] at e
    obtain ⟨_, _, e⟩ := e
    exact setFuture_holds e

/-- An answer that arrives while the graph's futures are in the table resolves as many of them as it has results. -/
theorem receive_resolvesGraph {p : Pickle} {c c' : Client} (hf : FutInv c) {g : Bytes} {st : TaskStatus} {rs : List Bytes} {ns : List Nat}
    (ho : openGraph g c.log = some ns) (e : c.receive p (.graphTaskResult g st rs) = .ok c') : HoldsAll c' ns st rs := by
  have hgr : c.graphs.get? g = some ns := (hf.gr g).trans ho
  have hg : (c.note (.recv (.graphTaskResult g st rs))).graphs.get? g = some ns := hgr
  have hnd : ns.Nodup := by
    have h1 := hf.nodup
    have h2 : ns ∈ c.graphs.values := List.mem_map.2 ⟨(g, ns), Dict.mem_items.2 hgr, rfl⟩
    unfold Client.refs at h1
    exact (List.pairwise_flatten.1 (List.nodup_append.1 (List.nodup_append.1 h1).1).2.1).1 ns h2
  simp only [receive, onGraphTaskResult, hg] at e
  intro i n r hn hr
  refine ⟨?_, ?_⟩ <;> rintro rfl
  · obtain ⟨s, h1, h2⟩ := (resolveAll_spec hnd e).1 i r n hr hn
    rw [h2]
    split at h1
    · cases h1; rfl
    · cases h1
  · simp only [Py.bind_ok] at e
    obtain ⟨x, hx, _, _, e⟩ := e
    obtain ⟨s, h1, h2⟩ := (resolveAll_spec hnd e).1 i r n hr hn
    cases h1
    refine ⟨x, ?_, h2⟩
    cases rs with
    | nil => cases hr
    | cons y ys => cases hx; rfl

/-- The futures whose results arrived. -/
structure DoneInv (c : Client) : Prop where
  /-- a future of `submit` is in the table, or an answer arrived and resolved it -/
  task : ∀ t n, Act.returned t n ∈ c.log → openFuture t c.log = some n ∨
    ∃ st d r, Act.recv (.taskResult t st d r) ∈ c.log ∧ Holds c n st r
  /-- the same for `get` -/
  graph : ∀ g ns, Act.started g ns ∈ c.log → openGraph g c.log = some ns ∨
    ∃ st rs, Act.recv (.graphTaskResult g st rs) ∈ c.log ∧ HoldsAll c ns st rs
  /-- after an answer the future is not in the table -/
  shut : ∀ t st d r, Act.recv (.taskResult t st d r) ∈ c.log → openFuture t c.log = none ∧ ∀ k, c.user.task? = some k → k.taskId ≠ t
  shutG : ∀ g st rs, Act.recv (.graphTaskResult g st rs) ∈ c.log → openGraph g c.log = none ∧ ∀ ns, c.user.pend ≠ some (g, ns)

theorem openFuture_append {t : Bytes} {l xs : Hist} (h : ∀ x ∈ xs, ∀ s, futureStep t x s = s) : openFuture t (l ++ xs) = openFuture t l := by
  induction xs generalizing l with
  | nil => simp
  | cons x xs ih =>
    rw [show l ++ x :: xs = (l ++ [x]) ++ xs by simp, ih fun y hy => h y (List.mem_cons_of_mem _ hy), openFuture_snoc]
    exact h x List.mem_cons_self _

theorem openGraph_append {t : Bytes} {l xs : Hist} (h : ∀ x ∈ xs, ∀ s, graphStep t x s = s) : openGraph t (l ++ xs) = openGraph t l := by
  induction xs generalizing l with
  | nil => simp
  | cons x xs ih =>
    rw [show l ++ x :: xs = (l ++ [x]) ++ xs by simp, ih fun y hy => h y (List.mem_cons_of_mem _ hy), openGraph_snoc]
    exact h x List.mem_cons_self _

/-- What an event adds to the history as far as futures are concerned. -/
inductive Adds (p : Pickle) (c c' : Client) : Prop where
  /-- nothing -/
  | none (xs : List Act) (h1 : c'.log = c.log ++ xs) (h2 : ∀ x ∈ xs, ∀ t s, futureStep t x s = s) (h3 : ∀ x ∈ xs, ∀ t s, graphStep t x s = s)
      (h4 : ∀ k, c'.user.task? = some k → c.user.task? = some k ∨ k.taskId ∉ usedIds c.log)
      (h5 : ∀ g ns, c'.user.pend = some (g, ns) → c.user.pend = some (g, ns) ∨ g ∉ usedIds c.log)
      (h6 : ∀ x ∈ xs, (∀ t n, x ≠ .returned t n) ∧ (∀ g ns, x ≠ .started g ns) ∧ ∀ m, x ≠ .recv m)
  | returned (k : Task) (h1 : c.user.task? = some k) (h2 : c'.log = c.log ++ [.returned k.taskId c.futures.length]) (h3 : c'.user = .idle)
  | started (g : Bytes) (ns : List Nat) (h1 : c.user.pend = some (g, ns)) (h2 : c'.log = c.log ++ [.started g ns]) (h3 : c'.user = .idle)
  | recv (m : Message) (h1 : c.receive p m = .ok c') (h2 : c'.log = c.log ++ [.recv m]) (h3 : c'.user = c.user) (h4 : c.user = .idle)

theorem step_adds {p : Pickle} {c c' : Client} {o : Op} (hn : FreshOp c o) (hu : Undisturbed c o) (e : c.step p o = .ok c') : Adds p c c' := by
  have nil : c'.log = c.log → c'.user.task? = c.user.task? → c'.user.pend = c.user.pend → Adds p c c' := fun h1 h2 h3 =>
    .none [] (by simp [h1]) (by simp) (by simp) (fun k hk => .inl (h2 ▸ hk)) (fun g ns hg => .inl (h3 ▸ hg)) (by simp)
  cases o with
  | submit t nm b args =>
    simp only [Client.step] at e
    split at e
    · cases e
      refine .none [.submitted ⟨t, p.hash b, args.map fun a => ⟨.data, a⟩⟩ nm b] rfl (by simp [futureStep]) (by simp [graphStep]) ?_ ?_ (by simp)
      · intro k hk
        cases hk
        exact .inr hn
      · intro g ns h; cases h
    · cases e; exact nil rfl rfl rfl
  | get g =>
    simp only [Client.step] at e
    split at e
    · cases e
      refine .none [.graph g] (by simp [Client.get, Client.note, Client.send]) (by simp [futureStep]) (by simp [graphStep]) ?_ ?_ (by simp)
      · intro k hk; cases hk
      · intro g' ns h
        cases h
        exact .inr (hn.2 _ List.mem_cons_self)
    · cases e; exact nil rfl rfl rfl
  | advance =>
    simp only [Client.step, Client.advance] at e
    split at e
    · cases e; exact nil rfl rfl rfl
    · next hu => cases e; exact nil rfl (by rw [hu]; rfl) (by rw [hu]; rfl)
    · next hu =>
      cases e
      refine nil rfl ?_ ?_ <;> rw [hu] <;> dsimp only <;> split <;> rfl
    · next hu =>
      obtain ⟨c1, h1, e⟩ := Py.bind_ok.1 e
      cases e
      obtain ⟨nm, b, rfl⟩ := request_count h1
      exact nil rfl (by rw [hu]; rfl) (by rw [hu]; rfl)
    · next hu => cases e; exact nil rfl (by rw [hu]; rfl) (by rw [hu]; rfl)
    · next k hu => cases e; exact .returned k (by rw [hu]; rfl) rfl rfl
    · next g ns hu => cases e; exact .started g ns (by rw [hu]; rfl) rfl rfl
  | cancel n =>
    cases e
    exact .none [.cancelled n] rfl (by simp [futureStep]) (by simp [graphStep]) (fun k hk => .inl hk) (fun g ns hg => .inl hg) (by simp)
  | disconnect => cases e; exact nil rfl rfl rfl
  | recv m =>
    simp only [Client.step] at e
    split at e
    · cases e; exact nil rfl rfl rfl
    · exact .recv m e (receive_log e) (receive_out e).1 hu
  | flush =>
    simp only [Client.step] at e
    split at e
    · cases e; exact nil rfl rfl rfl
    · simp only [Client.flush] at e
      split at e
      · cases e; exact nil rfl rfl rfl
      · next m ms _ =>
        obtain ⟨_, _, e⟩ := Py.bind_ok.1 e
        cases e
        exact .none [.sent m] rfl (by simp [futureStep]) (by simp [graphStep]) (fun k hk => .inl hk) (fun g ns hg => .inl hg) (by simp)
  | exit =>
    simp only [Client.step] at e
    split at e
    · simp only [Client.exit, Py.bind_ok] at e
      obtain ⟨c1, h1, c2, h2, e⟩ := e
      cases e
      refine .none ((c.toFuture.items.map fun x => Act.sent (.taskCancel x.1)) ++ (c.graphs.items.map fun x => Act.sent (.graphTaskCancel x.1)) ++ [.exited])
        ?_ ?_ ?_ ?_ ?_ ?_
      · have e1 := (exitTasks_same h1).1
        simp [Client.note, exitGraphs_log h2, exitTasks_log h1, e1]
      · intro x hx t s
        simp only [List.mem_append, List.mem_map, List.mem_singleton] at hx
        rcases hx with (⟨_, _, rfl⟩ | ⟨_, _, rfl⟩) | rfl <;> rfl
      · intro x hx t s
        simp only [List.mem_append, List.mem_map, List.mem_singleton] at hx
        rcases hx with (⟨_, _, rfl⟩ | ⟨_, _, rfl⟩) | rfl <;> rfl
      · intro k hk
        rw [show (({ (c2.note .exited) with closed := true } : Client)).user = c.user from (exitGraphs_same h2).2.2.1.trans (exitTasks_same h1).2.2.1] at hk
        exact .inl hk
      · intro g ns hk
        rw [show (({ (c2.note .exited) with closed := true } : Client)).user = c.user from (exitGraphs_same h2).2.2.1.trans (exitTasks_same h1).2.2.1] at hk
        exact .inl hk
      · intro x hx
        simp only [List.mem_append, List.mem_map, List.mem_singleton] at hx
        rcases hx with (⟨_, _, rfl⟩ | ⟨_, _, rfl⟩) | rfl <;> simp
    · cases e; exact nil rfl rfl rfl

theorem step_done {p : Pickle} {c c' : Client} {o : Op} (hf : FutInv c) (h : DoneInv c) (ht : Always Timely c'.log) (hn : FreshOp c o)
    (hu : Undisturbed c o) (e : c.step p o = .ok c') : DoneInv c' := by
  have oldT : ∀ (t : Bytes) (n : Nat), (∃ st d r, Act.recv (.taskResult t st d r) ∈ c.log ∧ Holds c n st r) →
      ∃ st d r, Act.recv (.taskResult t st d r) ∈ c'.log ∧ Holds c' n st r :=
    fun t n ⟨st, d, r, h1, h2⟩ => ⟨st, d, r, step_mono e _ h1, h2.step e⟩
  have oldG : ∀ (g : Bytes) (ns : List Nat), (∃ st rs, Act.recv (.graphTaskResult g st rs) ∈ c.log ∧ HoldsAll c ns st rs) →
      ∃ st rs, Act.recv (.graphTaskResult g st rs) ∈ c'.log ∧ HoldsAll c' ns st rs :=
    fun g ns ⟨st, rs, h1, h2⟩ => ⟨st, rs, step_mono e _ h1, h2.step e⟩
  cases step_adds hn hu e with
  | none xs h1 h2 h3 h4 h5 h6 =>
    have eF : ∀ t, openFuture t c'.log = openFuture t c.log := fun t => by rw [h1]; exact openFuture_append fun x hx s => h2 x hx t s
    have eG : ∀ t, openGraph t c'.log = openGraph t c.log := fun t => by rw [h1]; exact openGraph_append fun x hx s => h3 x hx t s
    have ht0 : Always Timely c.log := by rw [h1] at ht; exact always_left ht
    refine ⟨?_, ?_, ?_, ?_⟩
    · intro t n hm
      rw [h1] at hm
      rcases List.mem_append.1 hm with hm | hm
      · rw [eF]; exact (h.task t n hm).imp id (oldT t n)
      · exact absurd rfl ((h6 _ hm).1 t n)
    · intro g ns hm
      rw [h1] at hm
      rcases List.mem_append.1 hm with hm | hm
      · rw [eG]; exact (h.graph g ns hm).imp id (oldG g ns)
      · exact absurd rfl ((h6 _ hm).2.1 g ns)
    · intro t st d r hm
      rw [h1] at hm
      rcases List.mem_append.1 hm with hm | hm
      · rw [eF]
        refine ⟨(h.shut t st d r hm).1, fun k hk => ?_⟩
        rcases h4 k hk with hk | hk
        · exact (h.shut t st d r hm).2 k hk
        · intro e; exact hk (e ▸ timely_result ht0 hm)
      · exact absurd rfl ((h6 _ hm).2.2 _)
    · intro g st rs hm
      rw [h1] at hm
      rcases List.mem_append.1 hm with hm | hm
      · rw [eG]
        refine ⟨(h.shutG g st rs hm).1, fun ns hk => ?_⟩
        rcases h5 g ns hk with hk | hk
        · exact (h.shutG g st rs hm).2 ns hk
        · exact hk (timely_graph ht0 hm)
      · exact absurd rfl ((h6 _ hm).2.2 _)
  | returned k h1 h2 h3 =>
    have eG : ∀ t, openGraph t c'.log = openGraph t c.log := fun t => by rw [h2, openGraph_snoc]; rfl
    refine ⟨?_, ?_, ?_, ?_⟩
    · intro t n hm
      rw [h2] at hm
      rw [h2, openFuture_snoc]
      simp only [futureStep]
      rcases List.mem_append.1 hm with hm | hm
      · rcases h.task t n hm with hx | hx
        · by_cases e' : k.taskId = t
          · have := (hf.user k h1).1
            rw [hf.fut, e', hx] at this; cases this
          · rw [if_neg e']; exact .inl hx
        · exact .inr (by rw [← h2]; exact oldT t n hx)
      · simp only [List.mem_singleton, Act.returned.injEq] at hm
        obtain ⟨rfl, rfl⟩ := hm
        rw [if_pos rfl]; exact .inl rfl
    · intro g ns hm
      rw [h2] at hm
      rw [eG]
      exact (h.graph g ns (by simpa using hm)).imp id (oldG g ns)
    · intro t st d r hm
      rw [h2] at hm
      have hm' : Act.recv (.taskResult t st d r) ∈ c.log := by simpa using hm
      have hne := (h.shut t st d r hm').2 k h1
      rw [h2, openFuture_snoc, h3]
      simp only [futureStep, if_neg hne]
      exact ⟨(h.shut t st d r hm').1, nofun⟩
    · intro g st rs hm
      rw [h2] at hm
      rw [eG, h3]
      exact ⟨(h.shutG g st rs (by simpa using hm)).1, nofun⟩
  | started g0 ns0 h1 h2 h3 =>
    have eF : ∀ t, openFuture t c'.log = openFuture t c.log := fun t => by rw [h2, openFuture_snoc]; rfl
    have hug : c.user = .registerGraph g0 ns0 := by
      cases hx : c.user <;> rw [hx] at h1 <;> cases h1; rfl
    refine ⟨?_, ?_, ?_, ?_⟩
    · intro t n hm
      rw [h2] at hm
      rw [eF]
      exact (h.task t n (by simpa using hm)).imp id (oldT t n)
    · intro g ns hm
      rw [h2] at hm
      rw [h2, openGraph_snoc]
      simp only [graphStep]
      rcases List.mem_append.1 hm with hm | hm
      · rcases h.graph g ns hm with hx | hx
        · by_cases e' : g0 = g
          · have := (hf.userG g0 ns0 hug).1
            rw [hf.gr, e', hx] at this; cases this
          · rw [if_neg e']; exact .inl hx
        · exact .inr (by rw [← h2]; exact oldG g ns hx)
      · simp only [List.mem_singleton, Act.started.injEq] at hm
        obtain ⟨rfl, rfl⟩ := hm
        rw [if_pos rfl]; exact .inl rfl
    · intro t st d r hm
      rw [h2] at hm
      rw [eF, h3]
      exact ⟨(h.shut t st d r (by simpa using hm)).1, nofun⟩
    · intro g st rs hm
      rw [h2] at hm
      have hm' : Act.recv (.graphTaskResult g st rs) ∈ c.log := by simpa using hm
      have hne : g0 ≠ g := fun e' => (h.shutG g st rs hm').2 ns0 (e' ▸ h1)
      rw [h2, openGraph_snoc, h3]
      simp only [graphStep, if_neg hne]
      exact ⟨(h.shutG g st rs hm').1, nofun⟩
  | recv m h1 h2 h3 h4 =>
    have hidle : c'.user = .idle := h3.trans h4
    refine ⟨?_, ?_, ?_, ?_⟩
    · intro t n hm
      rw [h2] at hm
      rcases h.task t n (by simpa using hm) with hx | hx
      · rw [h2, openFuture_snoc]
        by_cases hm' : ∃ st d r, m = .taskResult t st d r
        · obtain ⟨st, d, r, rfl⟩ := hm'
          exact .inr ⟨st, d, r, by simp, receive_resolves hf hx h1⟩
        · left
          rw [← hx]
          cases m <;> try rfl
          next i st d r =>
            simp only [futureStep]
            rw [if_neg]
            rintro rfl
            exact hm' ⟨st, d, r, rfl⟩
      · exact .inr (oldT t n hx)
    · intro g ns hm
      rw [h2] at hm
      rcases h.graph g ns (by simpa using hm) with hx | hx
      · rw [h2, openGraph_snoc]
        by_cases hm' : ∃ st rs, m = .graphTaskResult g st rs
        · obtain ⟨st, rs, rfl⟩ := hm'
          exact .inr ⟨st, rs, by simp, receive_resolvesGraph hf hx h1⟩
        · left
          rw [← hx]
          cases m <;> try rfl
          next i st rs =>
            simp only [graphStep]
            rw [if_neg]
            rintro rfl
            exact hm' ⟨st, rs, rfl⟩
      · exact .inr (oldG g ns hx)
    · intro t st d r hm
      rw [hidle]
      refine ⟨?_, nofun⟩
      rw [h2] at hm
      rw [h2, openFuture_snoc]
      rcases List.mem_append.1 hm with hm | hm
      · have := (h.shut t st d r hm).1
        rw [this]
        cases m <;> try rfl
        simp [futureStep]
      · simp only [List.mem_singleton, Act.recv.injEq] at hm
        subst hm
        simp [futureStep]
    · intro g st rs hm
      rw [hidle]
      refine ⟨?_, nofun⟩
      rw [h2] at hm
      rw [h2, openGraph_snoc]
      rcases List.mem_append.1 hm with hm | hm
      · have := (h.shutG g st rs hm).1
        rw [this]
        cases m <;> try rfl
        simp [graphStep]
      · simp only [List.mem_singleton, Act.recv.injEq] at hm
        subst hm
        simp [graphStep]

theorem _root_.Verif.Spec.Client.ReachAlone.done {p : Pickle} {c : Client} (h : ReachAlone p c) (ht : Always Timely c.log) : DoneInv c := by
  induction h with
  | init => exact ⟨nofun, nofun, nofun, nofun⟩
  | step o hr hf hu e ih =>
    obtain ⟨xs, h1, -⟩ := step_log e
    exact step_done hr.reach.fut (ih (by rw [h1] at ht; exact always_left ht)) ht hf hu e

/-- When an answer arrived, the future that `submit` returned holds what an answer said. -/
theorem _root_.Verif.Spec.Client.ReachAlone.resolved {p : Pickle} {c : Client} (h : ReachAlone p c) (ht : Always Timely c.log) {t : Bytes} {n : Nat}
    (hn : Act.returned t n ∈ c.log) (hm : ∃ st d r, Act.recv (.taskResult t st d r) ∈ c.log) :
    ∃ st d r, Act.recv (.taskResult t st d r) ∈ c.log ∧ Holds c n st r := by
  have hd := h.done ht
  obtain ⟨st, d, r, hm⟩ := hm
  rcases hd.task t n hn with hx | hx
  · rw [(hd.shut t st d r hm).1] at hx; cases hx
  · exact hx

/-- When an answer arrived, as many futures of the graph hold what an answer said as it has results. -/
theorem _root_.Verif.Spec.Client.ReachAlone.resolvedGraph {p : Pickle} {c : Client} (h : ReachAlone p c) (ht : Always Timely c.log) {g : Bytes} {ns : List Nat}
    (hn : Act.started g ns ∈ c.log) (hm : ∃ st rs, Act.recv (.graphTaskResult g st rs) ∈ c.log) :
    ∃ st rs, Act.recv (.graphTaskResult g st rs) ∈ c.log ∧ HoldsAll c ns st rs := by
  have hd := h.done ht
  obtain ⟨st, rs, hm⟩ := hm
  rcases hd.graph g ns hn with hx | hx
  · rw [(hd.shutG g st rs hm).1] at hx; cases hx
  · exact hx

/-- Before the end of the connector an event adds to what was sent only the next message of the queue. -/
theorem step_sent {p : Pickle} {c c' : Client} {o : Op} (e : c.step p o = .ok c') (hc : c'.closed = false) :
    c.closed = false ∧ ∀ m, Act.sent m ∈ c'.log → Act.sent m ∈ c.log ∨ m ∈ c.outbox := by
  have nil : c'.closed = c.closed → c'.log = c.log → c.closed = false ∧ ∀ m, Act.sent m ∈ c'.log → Act.sent m ∈ c.log ∨ m ∈ c.outbox :=
    fun h1 h2 => ⟨h1 ▸ hc, fun m hm => .inl (h2 ▸ hm)⟩
  cases o with
  | submit t nm b args =>
    simp only [Client.step] at e
    split at e
    · cases e; exact ⟨hc, fun m hm => .inl (by simpa [Client.submit, Client.note] using hm)⟩
    · cases e; exact nil rfl rfl
  | get g =>
    simp only [Client.step] at e
    split at e
    · cases e; exact ⟨hc, fun m hm => .inl (by simpa [Client.get, Client.note, Client.send] using hm)⟩
    · cases e; exact nil rfl rfl
  | advance =>
    simp only [Client.step, Client.advance] at e
    split at e
    · cases e; exact nil rfl rfl
    · cases e; exact nil rfl rfl
    · cases e; exact nil rfl rfl
    · obtain ⟨c1, h1, e⟩ := Py.bind_ok.1 e
      cases e
      obtain ⟨nm, b, rfl⟩ := request_count h1
      exact nil rfl rfl
    · cases e; exact nil rfl rfl
    · cases e; exact ⟨hc, fun m hm => .inl (by simpa [Client.note] using hm)⟩
    · cases e; exact ⟨hc, fun m hm => .inl (by simpa [Client.note] using hm)⟩
  | cancel n => cases e; exact ⟨hc, fun m hm => .inl (by simpa [Client.note] using hm)⟩
  | disconnect => cases e; exact nil rfl rfl
  | recv m =>
    simp only [Client.step] at e
    split at e
    · cases e; exact nil rfl rfl
    · next h =>
      refine ⟨by simpa using h, fun m hm => .inl ?_⟩
      rw [receive_log e] at hm
      simpa using hm
  | flush =>
    simp only [Client.step] at e
    split at e
    · cases e; exact nil rfl rfl
    · next h =>
      simp only [Client.flush] at e
      split at e
      · cases e; exact nil rfl rfl
      · next m ms hm =>
        obtain ⟨_, _, e⟩ := Py.bind_ok.1 e
        cases e
        refine ⟨hc, fun m' hm' => ?_⟩
        simp only [Client.note, List.mem_append, List.mem_singleton, Act.sent.injEq] at hm'
        rcases hm' with h | rfl
        · exact .inl h
        · exact .inr (by rw [hm]; exact List.mem_cons_self)
  | exit =>
    simp only [Client.step] at e
    split at e
    · simp only [Client.exit, Py.bind_ok] at e
      obtain ⟨c1, h1, c2, h2, e⟩ := e
      cases e
      cases hc
    · cases e; exact nil rfl rfl

/-- A client cancels tasks and graphs only at its end. -/
theorem Reach.noCancel {p : Pickle} {c : Client} (h : Reach p c) (hc : c.closed = false) :
    (∀ t, Act.sent (.taskCancel t) ∉ c.log) ∧ ∀ g, Act.sent (.graphTaskCancel g) ∉ c.log := by
  induction h with
  | init => exact ⟨nofun, nofun⟩
  | @step c c' o hr hf e ih =>
    obtain ⟨hc0, hs⟩ := step_sent e hc
    obtain ⟨i1, i2⟩ := ih hc0
    exact ⟨fun t ht => (hs _ ht).elim (i1 t) fun hm => hr.task.out _ hm, fun g hg => (hs _ hg).elim (i2 g) fun hm => hr.task.out _ hm⟩

/-- A graph has as many futures as it has targets. -/
theorem Reach.startLength {p : Pickle} {c : Client} (h : Reach p c) :
    ∀ g ns, Act.started g ns ∈ c.log ∨ c.user.pend = some (g, ns) → ∃ m, Act.graph m ∈ c.log ∧ m.taskId = g ∧ ns.length = m.targets.length := by
  induction h with
  | init => intro g ns h; rcases h with h | h <;> cases h
  | @step c c' o hr hf e ih =>
    intro g ns hn
    have old : Act.started g ns ∈ c.log ∨ c.user.pend = some (g, ns) → ∃ m, Act.graph m ∈ c'.log ∧ m.taskId = g ∧ ns.length = m.targets.length := by
      intro h
      obtain ⟨m, h1, h2⟩ := ih g ns h
      exact ⟨m, step_mono e _ h1, h2⟩
    cases step_io e with
    | quiet xs ms h1 h2 h3 h4 h5 h6 =>
      rw [h1, h5, List.mem_append] at hn
      rcases hn with (hn | hn) | hn
      · exact old (.inl hn)
      · exact (h2 _ hn).elim
      · exact old (.inr hn)
    | get g' h1 h2 h3 h4 h5 =>
      rw [h2, h5] at hn
      rcases hn with hn | hn
      · exact old (.inl (by simpa using hn))
      · cases hn; exact ⟨g', by rw [h2]; simp, rfl, by simp⟩
    | recv m' ms h1 h2 h3 h4 h5 => rw [h2, h5] at hn; exact old (by simpa using hn)
    | flush m' h1 h2 h3 => rw [h1, h3] at hn; exact old (by simpa using hn)
    | started g' ns' h1 h2 h3 h4 =>
      rw [h2, h4] at hn
      rcases hn with hn | hn
      · rcases List.mem_append.1 hn with hn | hn
        · exact old (.inl hn)
        · simp only [List.mem_singleton, Act.started.injEq] at hn
          obtain ⟨rfl, rfl⟩ := hn
          exact old (.inr h1)
      · cases hn

end Verif.Client
