import Verif.Client.Refused
import Verif.Spec.Refused
import Verif.Props.System

/-!
# C110 A call that is refused leaves nothing behind
-/

namespace Verif.Props

open Verif Verif.Client Verif.Wire

section
variable {κ V : Type} [DecidableEq κ]

/-- `functionId` changes nothing but the memory of functions, and that as `Memo.after` says. -/
theorem functionId_state (p : Pickle) (u : Use κ) (d : Desk κ) :
    (Desk.functionId p u d).2 = { d with memo := d.memo.after p u } := by
  cases h : getFunctionId p d.memo u with
  | error e => simp [Desk.functionId, doing_bind, Doing.self, Doing.eval, h, Memo.after]
  | ok r => simp [Desk.functionId, doing_bind, doing_pure, Doing.self, Doing.eval, Doing.assign, h, Memo.after]

/-- The steps of `submit` that change the client do not raise. -/
theorem advances_ok (c : Client) (k : Task) (name content : Bytes) (h : c.user = .stored k name content) :
    ∃ c1 c2 c3 c4 c5, c.advance = .ok c1 ∧ c1.advance = .ok c2 ∧ c2.advance = .ok c3 ∧ c3.advance = .ok c4 ∧ c4.advance = .ok c5 ∧
      c5.futures = c.futures ++ [.pending] ∧ c5.toFuture = c.toFuture.set k.taskId c.futures.length ∧ c5.user = .idle ∧ c5.stop = c.stop ∧
      c5.closed = c.closed ∧ c5.graphs = c.graphs ∧ c5.toTask = c.toTask ∧
      c5.outbox = c.outbox ++ (if c.notReady.has k.functionId then [] else [.functionRequest .add k.functionId name content]) := by
  by_cases hr : c.notReady.has k.functionId
  · refine ⟨{ c with toFunction := c.toFunction.set k.taskId (name, content), user := .check k },
      { c with toFunction := c.toFunction.set k.taskId (name, content), user := .append k }, _, _, _,
      by simp [Client.advance, h], by simp [Client.advance, hr], rfl, rfl, rfl, rfl, rfl, rfl, rfl, rfl, rfl, rfl, ?_⟩
    simp [hr, Client.appendTask, Client.note]
  · refine ⟨{ c with toFunction := c.toFunction.set k.taskId (name, content), user := .check k },
      { c with toFunction := c.toFunction.set k.taskId (name, content), user := .request k },
      { c with toFunction := c.toFunction.set k.taskId (name, content), user := .append k,
               outbox := c.outbox ++ [.functionRequest .add k.functionId name content] }, _, _,
      by simp [Client.advance, h], by simp [Client.advance, hr],
      by simp [Client.advance, Client.requestFunction, Client.send, Dict.getPy, orRaise], rfl, rfl, rfl, rfl, rfl, rfl, rfl, rfl, rfl, ?_⟩
    simp [hr, Client.appendTask, Client.note]

omit [DecidableEq κ] in
theorem advance_run (d : Desk κ) {c : Client} (h : d.client.advance = .ok c) : Desk.advance d = (.ok (), { d with client := c }) := by
  simp [Desk.advance, doing_bind, Doing.self, Doing.eval, Doing.assign, h]

/-- What `submit` does: it raises and nothing but the memory of functions is changed, or it returns and took on the task. -/
theorem submit_cases (p : Pickle) (dumps : Dumps V) (empty : V) (f : Fn κ V) (t : Bytes) (args : List V) (kw : Dict String V) (d : Desk κ) :
    (∃ e, Desk.submit p dumps empty f t args kw d = (.error e, { d with memo := d.memo.after p f.use })) ∨
    ∃ c, Desk.submit p dumps empty f t args kw d = (.ok d.client.futures.length, ⟨c, d.memo.after p f.use⟩) ∧ Spec.TookOn d.client c [t] := by
  have hf := functionId_state p f.use d
  rcases hfi : Desk.functionId p f.use d with ⟨_ | ⟨i, name, content⟩, d1⟩
  · left
    rw [hfi] at hf
    exact ⟨_, by simp only [Desk.submit, doing_bind, hfi]; rw [← hf]⟩
  rw [hfi] at hf
  simp only at hf
  subst hf
  cases hp : f.params with
  | none => left; exact ⟨.valueError, by simp [Desk.submit, doing_bind, hfi, hp, Doing.eval, orRaise]⟩
  | some ps =>
    cases hc : convert empty ps args kw with
    | error e => left; exact ⟨e, by simp [Desk.submit, doing_bind, hfi, hp, Doing.eval, orRaise, hc]⟩
    | ok all =>
      cases hb : pickleArgs dumps all with
      | error e => left; exact ⟨e, by simp [Desk.submit, doing_bind, hfi, hp, Doing.eval, orRaise, hc, hb]⟩
      | ok bs =>
        right
        obtain ⟨c1, c2, c3, c4, c5, h1, h2, h3, h4, h5, hfu, htf, -, hst, hcl, hgr, htt, hob⟩ :=
          advances_ok (d.client.submit p t name content bs) _ _ _ rfl
        refine ⟨c5, ?_, ?_⟩
        · simp only [Desk.submit, doing_bind, doing_pure, hfi, hp, Doing.eval, orRaise, hc, hb, Doing.assign]
          rw [advance_run _ h1]; simp only
          rw [advance_run _ h2]; simp only
          rw [advance_run _ h3]; simp only
          rw [advance_run _ h4]; simp only
          rw [advance_run _ h5]
          simp [Doing.self, hfu, Client.submit, Client.note]
        · refine ⟨hfu, fun u => ?_, fun u => ?_, hgr, hst, hcl, _, hob, fun m hm => ?_⟩
          · rw [htt]; simp [Client.submit, Client.note, Dict.has, Dict.get?_set]; grind
          · rw [htf]; simp [Client.submit, Client.note, Dict.has, Dict.get?_set]; grind
          · split at hm
            · cases hm
            · exact ⟨_, _, _, List.mem_singleton.1 hm⟩

theorem tookOn_nil (c : Client) : Spec.TookOn c c [] := ⟨by simp, by simp, by simp, rfl, rfl, rfl, [], by simp, by simp⟩

theorem tookOn_append {a b c : Client} {ts us : List Bytes} (h : Spec.TookOn a b ts) (g : Spec.TookOn b c us) : Spec.TookOn a c (ts ++ us) := by
  obtain ⟨ms, hm, hm'⟩ := h.sent
  obtain ⟨ns, hn, hn'⟩ := g.sent
  refine ⟨?_, fun t => ?_, fun t => ?_, g.graphs.trans h.graphs, g.stop.trans h.stop, g.closed.trans h.closed, ms ++ ns, ?_, ?_⟩
  · rw [g.futures, h.futures, List.append_assoc, List.replicate_append_replicate, List.length_append]
  · rw [g.tasks, h.tasks]; simp [Bool.or_assoc]
  · rw [g.waiting, h.waiting]; simp [Bool.or_assoc]
  · rw [hn, hm, List.append_assoc]
  · intro m h'
    rcases List.mem_append.1 h' with h' | h'
    · exact hm' m h'
    · exact hn' m h'

/-- **C110, `submit`.** A call of `submit` that raises leaves the client as it was: no task, no future, no message. -/
theorem C110_submit {p : Pickle} {dumps : Dumps V} {empty : V} {f : Fn κ V} {t : Bytes} {args : List V} {kw : Dict String V} {d d' : Desk κ}
    {e : PyErr} (h : Desk.submit p dumps empty f t args kw d = (.error e, d')) : d'.client = d.client ∧ d'.memo = d.memo.after p f.use := by
  rcases submit_cases p dumps empty f t args kw d with ⟨e', h'⟩ | ⟨c, h', -⟩ <;> rw [h] at h' <;> cases h'
  exact ⟨rfl, rfl⟩

/-- **C110, `submit` that returns.** It took on this one task. -/
theorem C110_submitted {p : Pickle} {dumps : Dumps V} {empty : V} {f : Fn κ V} {t : Bytes} {args : List V} {kw : Dict String V} {d d' : Desk κ}
    {n : Nat} (h : Desk.submit p dumps empty f t args kw d = (.ok n, d')) : n = d.client.futures.length ∧ Spec.TookOn d.client d'.client [t] := by
  rcases submit_cases p dumps empty f t args kw d with ⟨e', h'⟩ | ⟨c, h', hc⟩ <;> rw [h] at h' <;> cases h'
  exact ⟨rfl, hc⟩

omit [DecidableEq κ] in
theorem pickleArgs_map {dumps : Dumps V} : ∀ {vs : List V} {bs : List Bytes}, pickleArgs dumps vs = .ok bs → vs.map dumps = bs.map some
  | [], _, h => by cases h; rfl
  | v :: vs, bs, h => by
    obtain ⟨b, hb, h⟩ := Py.bind_ok.1 h
    obtain ⟨bs', hbs, h⟩ := Py.bind_ok.1 h
    cases h
    simp [orRaise_ok.1 hb, pickleArgs_map hbs]

/-- **C110, the same client.** A `submit` that returns does the steps of `submit` of `Client/Client`, with the remembered name and
bytes of the function and every argument pickled, in order. -/
theorem C110_steps {p : Pickle} {dumps : Dumps V} {empty : V} {f : Fn κ V} {t : Bytes} {args : List V} {kw : Dict String V} {d d' : Desk κ}
    {n : Nat} (hi : d.client.user = .idle) (h : Desk.submit p dumps empty f t args kw d = (.ok n, d')) :
    ∃ i name content ps all bs, getFunctionId p d.memo f.use = .ok ((i, name, content), d'.memo) ∧ f.params = some ps ∧
      convert empty ps args kw = .ok all ∧ all.map dumps = bs.map some ∧
      Client.run p d.client (.submit t name content bs :: List.replicate 5 .advance) = .ok d'.client ∧ d'.client.user = .idle := by
  cases hg : getFunctionId p d.memo f.use with
  | error e => simp [Desk.submit, Desk.functionId, doing_bind, Doing.self, Doing.eval, hg] at h
  | ok r =>
    obtain ⟨⟨i, name, content⟩, memo⟩ := r
    cases hp : f.params with
    | none => simp [Desk.submit, Desk.functionId, doing_bind, doing_pure, Doing.self, Doing.eval, Doing.assign, hg, hp, orRaise] at h
    | some ps =>
      cases hc : convert empty ps args kw with
      | error e => simp [Desk.submit, Desk.functionId, doing_bind, doing_pure, Doing.self, Doing.eval, Doing.assign, hg, hp, orRaise, hc] at h
      | ok all =>
        cases hb : pickleArgs dumps all with
        | error e =>
          simp [Desk.submit, Desk.functionId, doing_bind, doing_pure, Doing.self, Doing.eval, Doing.assign, hg, hp, orRaise, hc, hb] at h
        | ok bs =>
          obtain ⟨c1, c2, c3, c4, c5, h1, h2, h3, h4, h5, -, -, hu, -⟩ :=
            advances_ok (d.client.submit p t name content bs) _ _ _ rfl
          simp only [Desk.submit, Desk.functionId, doing_bind, doing_pure, Doing.self, Doing.eval, orRaise, hp, hg, hc, hb, Doing.assign] at h
          rw [advance_run _ h1] at h; simp only at h
          rw [advance_run _ h2] at h; simp only at h
          rw [advance_run _ h3] at h; simp only at h
          rw [advance_run _ h4] at h; simp only at h
          rw [advance_run _ h5] at h
          cases h
          exact ⟨i, name, content, ps, all, bs, rfl, rfl, hc, pickleArgs_map hb,
            by simp [List.replicate, Client.run, Client.step, hi, h1, h2, h3, h4, h5], hu⟩

theorem submitAll_cases (p : Pickle) (dumps : Dumps V) (empty : V) (f : Fn κ V) (l : List (Bytes × List V)) (d : Desk κ) :
    (∃ d', Desk.submitAll p dumps empty f l d = (.ok (List.range' d.client.futures.length l.length), d') ∧
      Spec.TookOn d.client d'.client (l.map (·.1))) ∨
    ∃ e d' l1 x l2, Desk.submitAll p dumps empty f l d = (.error e, d') ∧ l = l1 ++ x :: l2 ∧ Spec.TookOn d.client d'.client (l1.map (·.1)) := by
  induction l generalizing d with
  | nil => left; exact ⟨d, rfl, tookOn_nil _⟩
  | cons x l ih =>
    obtain ⟨t, args⟩ := x
    rcases submit_cases p dumps empty f t args .empty d with ⟨e, h⟩ | ⟨c, h, hc⟩
    · right
      exact ⟨e, { d with memo := d.memo.after p f.use }, [], (t, args), l, by simp only [Desk.submitAll, doing_bind, h], rfl, tookOn_nil _⟩
    · rcases ih ⟨c, d.memo.after p f.use⟩ with ⟨d', h', hd⟩ | ⟨e, d', l1, x, l2, h', hl, hd⟩
      · left
        refine ⟨d', ?_, tookOn_append hc hd⟩
        simp only [Desk.submitAll, doing_bind, doing_pure, h, h']
        simp [hc.futures, List.range'_succ]
      · right
        refine ⟨e, d', (t, args) :: l1, x, l2, ?_, by rw [hl]; rfl, tookOn_append hc hd⟩
        simp only [Desk.submitAll, doing_bind, h, h']

omit [DecidableEq κ] in
theorem tuples_length : ∀ {items : List (Option (List V))} {l : List (List V)}, Desk.tuples items = .ok l → items = l.map some
  | [], _, h => by cases h; rfl
  | none :: _, _, h => by cases h
  | some a :: items, l, h => by
    cases hl : Desk.tuples items with
    | error e => simp [Desk.tuples, hl] at h
    | ok l' =>
      simp [Desk.tuples, hl] at h
      cases h
      simp [tuples_length hl]

theorem zip_firsts {α β : Type} : ∀ (a : List α) (b : List β), (a.zip b).map (·.1) = a.take b.length
  | [], _ => by simp
  | _ :: _, [] => rfl
  | x :: a, y :: b => by simp [zip_firsts a b]

/-- **C110, `map`, as far as it holds.** A call of `map` that raises before it waits took on the tasks of the items before the first one
that is refused, and no others.  If an item is neither a tuple nor a list nothing is left behind.
Missing: nothing is left behind in all cases (`C110_map_half`). -/
theorem C110_map_partial {p : Pickle} {dumps : Dumps V} {empty : V} {f : Fn κ V} {ids : List Bytes} {items : List (Option (List V))}
    {d d' : Desk κ} {e : PyErr} (h : Desk.map p dumps empty f ids items d = (.error e, d')) :
    (none ∈ items → d' = d) ∧ ∃ n, n < items.length ∧ Spec.TookOn d.client d'.client (ids.take n) := by
  cases ht : Desk.tuples items with
  | error e' =>
    simp only [Desk.map, doing_bind, Doing.eval, ht] at h
    cases h
    refine ⟨fun _ => rfl, 0, ?_, by simpa using tookOn_nil _⟩
    cases items with
    | nil => cases ht
    | cons => simp
  | ok l =>
    simp only [Desk.map, doing_bind, Doing.eval, ht] at h
    have hl := tuples_length ht
    subst hl
    refine ⟨fun hn => by simp at hn, ?_⟩
    rcases submitAll_cases p dumps empty f (ids.zip l) d with ⟨d1, h', -⟩ | ⟨e1, d1, l1, x, l2, h', hz, ht⟩ <;> rw [h] at h' <;> cases h'
    have hlen : (ids.zip l).length = l1.length + (l2.length + 1) := by rw [hz]; simp
    simp only [List.length_zip] at hlen
    refine ⟨l1.length, by simp; omega, ?_⟩
    have : l1.map (·.1) = ids.take l1.length := by
      have h1 : ((ids.zip l).map (·.1)).take l1.length = l1.map (·.1) := by rw [hz]; simp
      rw [← h1, zip_firsts, List.take_take]
      congr 1; omega
    rw [← this]; exact ht

/-- **C110, `map` that goes on to wait.** It took on one task for every item; the futures are the new ones, in order. -/
theorem C110_mapped {p : Pickle} {dumps : Dumps V} {empty : V} {f : Fn κ V} {ids : List Bytes} {items : List (Option (List V))}
    {d d' : Desk κ} {ns : List Nat} (hi : ids.length = items.length) (h : Desk.map p dumps empty f ids items d = (.ok ns, d')) :
    none ∉ items ∧ ns = List.range' d.client.futures.length items.length ∧ Spec.TookOn d.client d'.client ids := by
  cases ht : Desk.tuples items with
  | error e' => simp only [Desk.map, doing_bind, Doing.eval, ht] at h; cases h
  | ok l =>
    simp only [Desk.map, doing_bind, Doing.eval, ht] at h
    have hl := tuples_length ht
    subst hl
    refine ⟨by simp, ?_⟩
    rcases submitAll_cases p dumps empty f (ids.zip l) d with ⟨d1, h', ht⟩ | ⟨e1, d1, l1, x, l2, h', hz, ht⟩ <;> rw [h] at h' <;> cases h'
    simp only [List.length_map] at hi
    rw [List.map_fst_zip (by omega)] at ht
    exact ⟨by simp [List.length_zip, hi], ht⟩

/-- `resolve` changes nothing but the memory of functions. -/
theorem resolve_client (p : Pickle) : ∀ (l : List (Bytes × ValueNode κ V)) (r : List (Bytes × UserNode)) (d : Desk κ),
    (Desk.resolve p l r d).2.client = d.client
  | [], _, d => rfl
  | (_, .call u args) :: l, [], d => rfl
  | (_, .data _) :: l, [], d => rfl
  | (_, .call u args) :: l, (n, _) :: r, d => by
    have h := functionId_state p u d
    rcases hf : Desk.functionId p u d with ⟨_ | ⟨i, name, content⟩, d1⟩ <;> rw [hf] at h <;> simp only at h
    · simp only [Desk.resolve, doing_bind, hf]; rw [h]
    · have h2 := resolve_client p l r d1
      simp only [Desk.resolve, doing_bind, hf]
      rcases hr : Desk.resolve p l r d1 with ⟨_ | _, d2⟩ <;> rw [hr] at h2 <;> simp only [doing_pure] at h2 ⊢ <;> rw [h2, h]
  | (_, .data _) :: l, x :: r, d => by
    have h2 := resolve_client p l r d
    simp only [Desk.resolve, doing_bind]
    rcases hr : Desk.resolve p l r d with ⟨_ | _, d2⟩ <;> rw [hr] at h2 <;> simp only [doing_pure] at h2 ⊢ <;> rw [h2]

/-- What `get` does: it raises and the client is as before, or one graph was put in the queue and is waited for. -/
theorem get_cases (p : Pickle) (dumps : Dumps V) (ids : List Bytes) (gid : Bytes) (graph : List (Bytes × ValueNode κ V)) (keys : List Bytes)
    (d : Desk κ) :
    (∃ e d', Desk.get p dumps ids gid graph keys d = (.error e, d') ∧ d'.client = d.client) ∨
    ∃ r d' m, Desk.get p dumps ids gid graph keys d = (.ok r, d') ∧ d'.client.outbox = d.client.outbox ++ [.graphTask m] ∧
      d'.client.futures = d.client.futures ++ m.targets.map (fun _ => .pending) ∧
      d'.client.graphs = d.client.graphs.set m.taskId (List.range' d.client.futures.length m.targets.length) ∧
      d'.client.toTask = d.client.toTask ∧ d'.client.toFuture = d.client.toFuture ∧ d'.client.stop = d.client.stop ∧
      r = returnFutures keys (List.range' d.client.futures.length m.targets.length) := by
  cases h1 : pickleNodes dumps graph with
  | error e => left; exact ⟨e, d, by simp only [Desk.get, doing_bind, Doing.eval, h1], rfl⟩
  | ok nodes =>
  cases h2 : splitGraph (Dict.ofList nodes) with
  | error e => left; exact ⟨e, d, by simp only [Desk.get, doing_bind, Doing.eval, h1, h2], rfl⟩
  | ok dg =>
  obtain ⟨dd, g⟩ := dg
  cases h3 : checkGraph dd g keys with
  | error e => left; exact ⟨e, d, by simp only [Desk.get, doing_bind, Doing.eval, h1, h2, h3], rfl⟩
  | ok _ =>
  have hc := resolve_client p graph nodes d
  rcases h4 : Desk.resolve p graph nodes d with ⟨e | nodes', d1⟩ <;> rw [h4] at hc <;> simp only at hc
  · left; exact ⟨e, d1, by simp only [Desk.get, doing_bind, Doing.eval, h1, h2, h3, h4], hc⟩
  cases h5 : splitGraph (Dict.ofList nodes') with
  | error e => left; exact ⟨e, d1, by simp only [Desk.get, doing_bind, Doing.eval, h1, h2, h3, h4, h5], hc⟩
  | ok dg =>
  obtain ⟨dd', g'⟩ := dg
  cases h6 : constructGraph p ids gid dd' g' keys with
  | error e => left; exact ⟨e, d1, by simp only [Desk.get, doing_bind, Doing.eval, h1, h2, h3, h4, h5, h6], hc⟩
  | ok m =>
    right
    refine ⟨returnFutures keys (List.range' d1.client.futures.length m.targets.length),
      ⟨{ ((d1.client.get m).note (.started m.taskId (List.range' d1.client.futures.length m.targets.length))) with
          graphs := d1.client.graphs.set m.taskId (List.range' d1.client.futures.length m.targets.length), user := .idle }, d1.memo⟩, m, ?_⟩
    simp only [Desk.get, doing_bind, doing_pure, Doing.eval, Doing.self, Doing.assign, h1, h2, h3, h4, h5, h6]
    rw [advance_run _ rfl]
    simp only [Client.get, Client.note, Client.send, hc]
    simp

/-- **C110, `get`.** A call of `get` that raises before it waits leaves the client as it was. -/
theorem C110_get {p : Pickle} {dumps : Dumps V} {ids : List Bytes} {gid : Bytes} {graph : List (Bytes × ValueNode κ V)} {keys : List Bytes}
    {d d' : Desk κ} {e : PyErr} (h : Desk.get p dumps ids gid graph keys d = (.error e, d')) : d'.client = d.client := by
  rcases get_cases p dumps ids gid graph keys d with ⟨e', d1, h', hd⟩ | ⟨r, d1, m, h', -⟩ <;> rw [h] at h' <;> cases h'
  exact hd

/-- **C110, `get` that goes on to wait.** One graph is in the queue, its futures are new and under its id. -/
theorem C110_got {p : Pickle} {dumps : Dumps V} {ids : List Bytes} {gid : Bytes} {graph : List (Bytes × ValueNode κ V)} {keys : List Bytes}
    {d d' : Desk κ} {r : Dict Bytes Nat} (h : Desk.get p dumps ids gid graph keys d = (.ok r, d')) :
    ∃ m, d'.client.outbox = d.client.outbox ++ [.graphTask m] ∧
      d'.client.futures = d.client.futures ++ m.targets.map (fun _ => .pending) ∧
      d'.client.graphs = d.client.graphs.set m.taskId (List.range' d.client.futures.length m.targets.length) ∧
      d'.client.toTask = d.client.toTask ∧ d'.client.toFuture = d.client.toFuture ∧ d'.client.stop = d.client.stop ∧
      r = returnFutures keys (List.range' d.client.futures.length m.targets.length) := by
  rcases get_cases p dumps ids gid graph keys d with ⟨e', d1, h', hd⟩ | ⟨r, d1, m, h', hd⟩ <;> rw [h] at h' <;> cases h'
  exact ⟨m, hd⟩

theorem functionId_ok {p : Pickle} {u : Use κ} {d d' : Desk κ} {r : Bytes × Bytes × Bytes} (h : Desk.functionId p u d = (.ok r, d')) :
    getFunctionId p d.memo u = .ok (r, d'.memo) := by
  cases hg : getFunctionId p d.memo u with
  | error e => simp [Desk.functionId, doing_bind, Doing.self, Doing.eval, hg] at h
  | ok x =>
    simp only [Desk.functionId, doing_bind, doing_pure, Doing.self, Doing.eval, Doing.assign, hg] at h
    cases h
    rfl

theorem writtenNodes (p : Pickle) (dumps : Dumps V) : ∀ {l : List (Bytes × ValueNode κ V)} {r r' : List (Bytes × UserNode)} {d d' : Desk κ},
    pickleNodes dumps l = .ok r → Desk.resolve p l r d = (.ok r', d') → Spec.WrittenNodes p dumps l r'
  | [], _, _, _, _, h, g => by cases h; cases g; exact .nil
  | (n, .data v) :: l, r, r', d, d', h, g => by
    obtain ⟨b, hb, h⟩ := Py.bind_ok.1 h
    obtain ⟨bs, hbs, h⟩ := Py.bind_ok.1 h
    cases h
    simp only [Desk.resolve, doing_bind, doing_pure] at g
    rcases hr : Desk.resolve p l bs d with ⟨_ | x, d2⟩ <;> rw [hr] at g <;> cases g
    exact .data (orRaise_ok.1 hb) (writtenNodes p dumps hbs hr)
  | (n, .call u args) :: l, r, r', d, d', h, g => by
    obtain ⟨bs, hbs, h⟩ := Py.bind_ok.1 h
    cases h
    simp only [Desk.resolve, doing_bind, doing_pure] at g
    rcases hf : Desk.functionId p u d with ⟨_ | ⟨i, name, content⟩, d1⟩ <;> rw [hf] at g <;> simp only at g
    · cases g
    · rcases hr : Desk.resolve p l bs d1 with ⟨_ | x, d2⟩ <;> rw [hr] at g <;> cases g
      exact .call (functionId_ok hf) (writtenNodes p dumps hbs hr)

/-- **C110, the same client.** A `get` that goes on to wait does the steps of `get` of `Client/Client` with the message that was made of
the graph. -/
theorem C110_graph {p : Pickle} {dumps : Dumps V} {ids : List Bytes} {gid : Bytes} {graph : List (Bytes × ValueNode κ V)} {keys : List Bytes}
    {d d' : Desk κ} {r : Dict Bytes Nat} (hi : d.client.user = .idle) (h : Desk.get p dumps ids gid graph keys d = (.ok r, d')) :
    ∃ nodes dd g m, Spec.WrittenNodes p dumps graph nodes ∧ splitGraph (Dict.ofList nodes) = .ok (dd, g) ∧
      constructGraph p ids gid dd g keys = .ok m ∧ Client.run p d.client [.get m, .advance] = .ok d'.client ∧ d'.client.user = .idle := by
  cases h1 : pickleNodes dumps graph with
  | error e => simp only [Desk.get, doing_bind, Doing.eval, h1] at h; cases h
  | ok nodes =>
  cases h2 : splitGraph (Dict.ofList nodes) with
  | error e => simp only [Desk.get, doing_bind, Doing.eval, h1, h2] at h; cases h
  | ok dg =>
  obtain ⟨dd, g⟩ := dg
  cases h3 : checkGraph dd g keys with
  | error e => simp only [Desk.get, doing_bind, Doing.eval, h1, h2, h3] at h; cases h
  | ok _ =>
  have hc := resolve_client p graph nodes d
  rcases h4 : Desk.resolve p graph nodes d with ⟨e | nodes', d1⟩ <;> rw [h4] at hc <;> simp only at hc
  · simp only [Desk.get, doing_bind, Doing.eval, h1, h2, h3, h4] at h; cases h
  cases h5 : splitGraph (Dict.ofList nodes') with
  | error e => simp only [Desk.get, doing_bind, Doing.eval, h1, h2, h3, h4, h5] at h; cases h
  | ok dg =>
  obtain ⟨dd', g'⟩ := dg
  cases h6 : constructGraph p ids gid dd' g' keys with
  | error e => simp only [Desk.get, doing_bind, Doing.eval, h1, h2, h3, h4, h5, h6] at h; cases h
  | ok m =>
    simp only [Desk.get, doing_bind, doing_pure, Doing.eval, Doing.self, Doing.assign, h1, h2, h3, h4, h5, h6] at h
    rw [advance_run _ rfl] at h
    simp only [hc] at h
    cases h
    exact ⟨nodes', dd', g', m, writtenNodes p dumps h1 h4, h5, h6, by simp [Client.run, Client.step, hi, Client.advance, Client.get], rfl⟩
end

/-! ## Witnesses -/

/-- a function of one argument -/
def refusedFn : Fn Nat Nat := ⟨⟨1, true, [102], some [1, 2]⟩, some [⟨"x", .posOrKw, none⟩]⟩

/-- numbers above 200 cannot be pickled -/
def refusedDumps : Dumps Nat := fun n => if n ≤ 200 then some [n.toUInt8] else none

def refusedDesk : Desk Nat := ⟨.init, .empty⟩

/-- **C110 fails for `map`.** The second argument cannot be pickled: `map` raises, but the first task was taken on.  The request for its
function is in the queue, it will be computed, its future is in the table; nobody was given that future, and the client goes on. -/
theorem C110_map_half :
    let x := Desk.map plainPickle refusedDumps 0 refusedFn [[10], [11]] [some [7], some [300]] refusedDesk
    x.1 = .error .valueError ∧ x.2.client.futures = [.pending] ∧ x.2.client.toTask.keys = [[10]] ∧ x.2.client.toFuture.items = [([10], 0)] ∧
      x.2.client.outbox.length = 1 ∧ x.2.client.stop = false := by
  decide +kernel

/-- Calls that are refused for different reasons: an argument that cannot be pickled, a missing argument, a function without a signature,
one that cannot be pickled. -/
example :
    (Desk.submit plainPickle refusedDumps 0 refusedFn [10] [300] .empty refusedDesk).1 = .error .valueError ∧
    (Desk.submit plainPickle refusedDumps 0 refusedFn [10] [] .empty refusedDesk).1 = .error .typeError ∧
    (Desk.submit plainPickle refusedDumps 0 { refusedFn with params := none } [10] [3] .empty refusedDesk).1 = .error .valueError ∧
    (Desk.submit plainPickle refusedDumps 0 { refusedFn with use := ⟨1, true, [102], none⟩ } [10] [3] .empty refusedDesk).1 = .error .valueError ∧
    (Desk.submit plainPickle refusedDumps 0 refusedFn [10] [3] .empty refusedDesk).1 = .ok 0 := by
  decide +kernel

/-- `map` with an item that is no tuple, and one that is accepted -/
example :
    (Desk.map plainPickle refusedDumps 0 refusedFn [[10], [11]] [some [7], none] refusedDesk).1 = .error .typeError ∧
    (Desk.map plainPickle refusedDumps 0 refusedFn [[10], [11]] [some [7], some [8]] refusedDesk).1 = .ok [0, 1] := by
  decide +kernel

/-- `get` with a key that is not in the graph, a value that cannot be pickled, and one that is accepted -/
example :
    (Desk.get plainPickle refusedDumps [[10]] [20] [([97], .data 5), ([98], .call refusedFn.use [[97]])] [[99]] refusedDesk).1
      = .error .keyError ∧
    (Desk.get plainPickle refusedDumps [[10]] [20] [([97], .data 500), ([98], .call refusedFn.use [[97]])] [[98]] refusedDesk).1
      = .error .valueError ∧
    ((Desk.get plainPickle refusedDumps [[10]] [20] [([97], .data 5), ([98], .call refusedFn.use [[97]])] [[98]] refusedDesk).1.toOption.map
      (·.items)) = some [([98], 0)] := by
  decide +kernel

end Verif.Props
