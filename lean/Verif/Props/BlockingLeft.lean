import Verif.Props.Blocking

/-!
# C92: what the connector's thread leaves behind when it dies
-/

namespace Verif.Props

open Verif.Wire Verif.Client Verif.Spec.Client

variable {p : Pickle} {b : Caller} {c c' : Client.Client}

theorem finishAt_ok {n : Nat} {st : FState} (h : c.finishAt n st = .ok c') :
    c'.futures[n]? = some st ∧ ∀ m, m ≠ n → c'.futures[m]? = c.futures[m]? := by
  unfold Client.Client.finishAt at h
  split at h
  · next c1 hs =>
    cases h
    simp only [Client.Client.setFuture, Py.bind_ok, Py.pure_eq] at hs
    obtain ⟨x, hx, y, hy, hs⟩ := hs
    cases hs
    obtain ⟨rfl, -⟩ := finish_ok hy
    have hl : n < c.futures.length := (List.getElem?_eq_some_iff.1 (pyIndex_ok.1 hx)).1
    exact ⟨by simp [hl], fun m hm => by simp [Ne.symm hm]⟩
  · cases h

theorem finishAt_error {n : Nat} {st : FState} (h : c.finishAt n st = .error c') : c' = c ∧ ¬ Ready c n := by
  unfold Client.Client.finishAt at h
  split at h
  · cases h
  · next e he =>
    cases h
    exact ⟨rfl, fun hr => by rw [setFuture_finish st hr] at he; cases he⟩

theorem resolveLeft_upTo {f : Bytes → Py FState} : ∀ {rs : List Bytes} {ns : List Nat} {c : Client.Client}, ns.Nodup →
    ∃ k, ResolvedUpTo f rs ns c.futures (Client.after (c.resolveLeft f rs ns)).futures k
  | [], ns, c, _ => ⟨0, by simp, by simp, nofun, fun n _ => by simp [Client.Client.resolveLeft, Client.after], nofun⟩
  | _ :: _, [], c, _ => ⟨0, by simp, by simp, nofun, fun n _ => by simp [Client.Client.resolveLeft, Client.after], fun _ => .inl rfl⟩
  | r :: rs, n :: ns, c, hn => by
    have hz : Client.after (c.resolveLeft f (r :: rs) (n :: ns)) = c → ((∀ s, f r ≠ .ok s) ∨ c.futures[n]? ≠ some .pending ∧ c.futures[n]? ≠ some .running) →
        ∃ k, ResolvedUpTo f (r :: rs) (n :: ns) c.futures (Client.after (c.resolveLeft f (r :: rs) (n :: ns))).futures k := fun h hw =>
      ⟨0, by simp, by simp, fun j m q hj => absurd hj (Nat.not_lt_zero _), fun m _ => by rw [h], fun _ => .inr ⟨n, r, rfl, rfl, hw⟩⟩
    cases hf : f r with
    | error e =>
      exact hz (by simp [Client.Client.resolveLeft, hf, Client.after]) (.inl fun s hs => by rw [hf] at hs; cases hs)
    | ok s =>
      cases hs : c.finishAt n s with
      | error c1 =>
        obtain ⟨e, hr⟩ := finishAt_error hs
        refine hz ?_ (.inr (not_or.1 hr))
        simp only [Client.Client.resolveLeft, hf, hs]
        exact e
      | ok c1 =>
        obtain ⟨h1, h2⟩ := finishAt_ok hs
        have hn' := List.nodup_cons.1 hn
        obtain ⟨k, k1, k2, k3, k4, k5⟩ := resolveLeft_upTo (f := f) (rs := rs) (ns := ns) (c := c1) hn'.2
        have e : Client.after (c.resolveLeft f (r :: rs) (n :: ns)) = Client.after (c1.resolveLeft f rs ns) := by
          simp only [Client.Client.resolveLeft, hf, hs]; rfl
        rw [e]
        refine ⟨k + 1, by simp; omega, by simp; omega, fun j m q hj hm hq => ?_, fun m hm => ?_, fun hk => ?_⟩
        · cases j with
          | zero =>
            simp only [List.getElem?_cons_zero, Option.some.injEq] at hm hq
            subst hm hq
            exact ⟨s, hf, by rw [k4 _ fun h => hn'.1 (List.mem_of_mem_take h)]; exact h1⟩
          | succ j =>
            simp only [List.getElem?_cons_succ] at hm hq
            exact k3 j m q (by omega) hm hq
        · simp only [List.take_succ_cons, List.mem_cons, not_or] at hm
          rw [k4 m hm.2, h2 m hm.1]
        · rcases k5 (by simp at hk; omega) with h | ⟨m, q, hm, hq, h⟩
          · exact .inl h
          · refine .inr ⟨m, q, hm, hq, h.imp id fun h => ?_⟩
            have hne : m ≠ n := fun e => hn'.1 (e ▸ List.mem_of_getElem? hm)
            rwa [h2 m hne] at h

/-- What the thread leaves is what `leave` says. -/
theorem thread_dies {o : Client.Op} {e : PyErr} (hd : b.dead = false) (he : b.client.step p o = .error e) :
    b.thread p o = { b with client := b.client.leave p o, dead := true } := by
  simp [Caller.thread, hd, he]

/-- **C92.** An acceptance that kills the connector's thread has taken away the function of its task, and nothing else: the futures
are as before, and so is everything else the user's thread looks at.  (If `submit` is about to look the function up, it raises
`KeyError`.) -/
theorem C92_echo_left {t : Bytes} {e : PyErr} (hd : b.dead = false) (he : b.client.step p (.recv (.taskEcho t .submitOK)) = .error e) :
    ∃ c, b.thread p (.recv (.taskEcho t .submitOK)) = { b with client := c, dead := true } ∧ c.futures = b.client.futures ∧ c.user = b.client.user ∧
      c.notReady = b.client.notReady ∧ c.toFuture = b.client.toFuture ∧ c.graphs = b.client.graphs ∧
      ∀ u, c.toFunction.get? u = if u = t then none else b.client.toFunction.get? u := by
  refine ⟨_, thread_dies hd he, rfl, rfl, rfl, rfl, rfl, fun u => ?_⟩
  show (b.client.toFunction.erase t).get? u = _
  rw [Dict.get?_erase]
  simp only [eq_comm]

/-- **C92.** A result of a graph that kills the connector's thread has resolved the futures before the one that raised, and no other. -/
theorem C92_graph_left {g : Bytes} {st : TaskStatus} {rs : List Bytes} {ns : List Nat} {e : PyErr} (hr : Client.Reach p b.client) (hd : b.dead = false)
    (ho : openGraph g b.client.log = some ns) (he : b.client.step p (.recv (.graphTaskResult g st rs)) = .error e) :
    ∃ c, b.thread p (.recv (.graphTaskResult g st rs)) = { b with client := c, dead := true } ∧
      (st = .success → ∃ k, ResolvedUpTo (fun r => if p.loads r then .ok (.result r) else .error .valueError) rs ns b.client.futures c.futures k) ∧
      (∀ x, st = .failed → rs.head? = some x → p.loads x = true → ∃ k, ResolvedUpTo (fun _ => .ok (.exception x)) rs ns b.client.futures c.futures k) ∧
      (st = .failed → (∀ x, rs.head? = some x → p.loads x = false) → c.futures = b.client.futures) ∧
      (st ≠ .success → st ≠ .failed → c.futures = b.client.futures) := by
  have hg : b.client.graphs.get? g = some ns := (hr.fut.gr g).trans ho
  have hnd : ns.Nodup := by
    have h1 := hr.fut.nodup
    have h2 : ns ∈ b.client.graphs.values := List.mem_map.2 ⟨(g, ns), Dict.mem_items.2 hg, rfl⟩
    unfold Client.Client.refs at h1
    exact (List.pairwise_flatten.1 (List.nodup_append.1 (List.nodup_append.1 h1).1).2.1).1 ns h2
  have hn : (b.client.note (.recv (.graphTaskResult g st rs))).graphs.get? g = some ns := hg
  refine ⟨_, thread_dies hd he, ?_, ?_, ?_, ?_⟩
  · rintro rfl
    obtain ⟨k, hk⟩ := resolveLeft_upTo (f := fun r => if p.loads r then .ok (.result r) else .error .valueError) (rs := rs)
      (c := b.client.note (.recv (.graphTaskResult g .success rs))) hnd
    refine ⟨k, ?_⟩
    simp only [Client.Client.leave, hn, Option.getD_some]
    exact hk
  · rintro x rfl hx hl
    obtain ⟨k, hk⟩ := resolveLeft_upTo (f := fun _ => .ok (.exception x)) (rs := rs)
      (c := b.client.note (.recv (.graphTaskResult g .failed rs))) hnd
    refine ⟨k, ?_⟩
    cases rs with
    | nil => cases hx
    | cons y rs =>
      cases hx
      simp only [Client.Client.leave, hn, Option.getD_some, hl, if_true]
      exact hk
  · rintro rfl hl
    cases rs with
    | nil => rfl
    | cons y rs =>
      simp only [Client.Client.leave, hl y rfl]
      rfl
  · intro h1 h2
    cases st <;> first | exact absurd rfl h1 | exact absurd rfl h2 | rfl

/-- An acceptance for a task that was not sent, and a result for a graph one future of which was cancelled. -/
example : callerWitness [.submit [1] [5] [9] [], .go, .go] (fun b => (b.dead, (b.client.step plainPickle (.recv (.taskEcho [1] .submitOK))).toOption.isNone,
      b.client.toFunction.keys)) = some (false, true, [[1]]) ∧
    callerWitness [.get [[20], [21]] [30] sampleUserGraph [[3], [2]] true, .go, .go, .flush, .cancel 1] (fun b => (b.dead,
      (b.client.step plainPickle (.recv (.graphTaskResult [30] .success [[33], [22]]))).toOption.isNone, openGraph [30] b.client.log,
      (b.thread plainPickle (.recv (.graphTaskResult [30] .success [[33], [22]]))).client.futures)) = some (false, true, some [0, 1], [.result [33], .cancelled]) := by
  decide +kernel

end Verif.Props
