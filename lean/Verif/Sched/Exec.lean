import Verif.Sched.Frame
import Verif.Sched.Later

/-!
# Executions with their events, and the tables of workers and of load balancing
-/

namespace Verif.Sched

open Verif.Queue Verif.Util Verif.Wire Verif.Spec

/-- The events `es` lead from the start to `s` (scaled/scheduler/main.py 92-145). -/
inductive Exec (cfg : Config) : List Event → Log → Sched → Prop
  | init : Exec cfg [] [] (Sched.init cfg)
  | step {es : List Event} {l : Log} {s s' : Sched} (e : Event) (hr : Exec cfg es l s) (ha : ∀ m ∈ e.input, Allowed l s.out m)
      (hs : s.step e = .ok s') : Exec cfg (es ++ [e]) (l ++ e.input) s'

theorem Exec.reach {cfg : Config} {es : List Event} {l : Log} {s : Sched} (h : Exec cfg es l s) : Reach cfg l s := by
  induction h with
  | init => exact .init
  | step e _ ha hs ih => exact .step e ih ha hs

theorem Exec.det {cfg : Config} {es : List Event} {l l' : Log} {s s' : Sched} (h : Exec cfg es l s) (h' : Exec cfg es l' s') :
    l = l' ∧ s = s' := by
  generalize he : es = es' at h'
  induction h generalizing es' l' s' with
  | init => cases h' with
    | init => exact ⟨rfl, rfl⟩
    | step e hr => simp at he
  | step e hr ha hs ih => cases h' with
    | init => simp at he
    | step e' hr' ha' hs' =>
      obtain ⟨h1, h2⟩ := List.append_inj' he rfl
      cases h2
      obtain ⟨rfl, rfl⟩ := ih _ h1 hr'
      rw [hs] at hs'
      cases hs'
      exact ⟨rfl, rfl⟩

theorem Exec.start {cfg : Config} {es0 es : List Event} {l : Log} {s : Sched} (h : Exec cfg (es0 ++ es) l s) : ∃ l0 s0, Exec cfg es0 l0 s0 := by
  generalize he : es0 ++ es = es' at h
  induction h generalizing es with
  | init => obtain ⟨rfl, rfl⟩ := List.append_eq_nil_iff.1 he; exact ⟨_, _, .init⟩
  | step e hr ha hs ih =>
    rcases List.eq_nil_or_concat es with rfl | ⟨es1, e1, rfl⟩
    · simp only [List.append_nil] at he
      subst he
      exact ⟨_, _, .step e hr ha hs⟩
    · rw [List.concat_eq_append, ← List.append_assoc] at he
      exact ih (List.append_inj' he rfl).1

theorem Exec.last {cfg : Config} {es : List Event} {e : Event} {l : Log} {s : Sched} (h : Exec cfg (es ++ [e]) l s) :
    ∃ l0 s0, Exec cfg es l0 s0 ∧ s0.step e = .ok s := by
  generalize he : es ++ [e] = es' at h
  cases h with
  | init => simp at he
  | step e' hr ha hs =>
    obtain ⟨h1, h2⟩ := List.append_inj' he rfl
    cases h2
    exact ⟨_, _, h1 ▸ hr, hs⟩

theorem Reach.exec {cfg : Config} {l : Log} {s : Sched} (h : Reach cfg l s) : ∃ es, Exec cfg es l s := by
  induction h with
  | init => exact ⟨[], .init⟩
  | step e _ ha hs ih =>
    obtain ⟨es, h⟩ := ih
    exact ⟨_, .step e h ha hs⟩

/-- The heartbeat the event brings (scaled/scheduler/worker_manager.py 91-96). -/
def Event.beat (e : Event) : Option (Bytes × Heartbeat) :=
  match e.op with
  | .recv w (.heartbeat hb) => some (w, hb)
  | _ => none

theorem Event.beat_of_special {e : Event} (h : e.special = false) : e.beat = none := by
  obtain ⟨op, now, o⟩ := e
  cases op with
  | recv source m => cases m <;> first | rfl | cases h
  | _ => rfl

/-- After a heartbeat. -/
theorem onHeartbeat_alive (s : Sched) (w : Bytes) (hb : Heartbeat) (now : Int) :
    (s.onHeartbeat w hb now).wm.alive = s.wm.alive.set w (now, hb) ∧ (s.onHeartbeat w hb now).fm = s.fm ∧
    (s.onHeartbeat w hb now).wm.lastAdvice = s.wm.lastAdvice ∧ (s.onHeartbeat w hb now).wm.sameCount = s.wm.sameCount ∧
    (s.onHeartbeat w hb now).out = s.out ++ [(w, .heartbeatEcho)] := ⟨rfl, rfl, rfl, rfl, rfl⟩

theorem onDisconnect_only {s : Sched} (o : Order) (source w : Bytes) : Py.Post (s.onDisconnect o source w)
    (fun p => p.fm = s.fm ∧ (p.out = s.out ∨ p.out = s.out ++ [(source, .disconnectResponse w)]) ∧ p.wm.lastAdvice = s.wm.lastAdvice ∧
      p.wm.sameCount = s.wm.sameCount ∧ ∀ w', p.wm.alive.get? w' = if w = w' then none else s.wm.alive.get? w') (fun _ => True) := by
  unfold Sched.onDisconnect
  rw [Py.post_bind]
  refine (Sched.disconnectWorker_only o w).imp ?_ (fun _ h => h)
  rintro ⟨b, s1⟩ ⟨h1, h2, h3, h4, h5, h6⟩
  simp only at h1 h2 h3 h4 h5 h6 ⊢
  cases b with
  | false => exact ⟨h1, Or.inl h3, h4, h5, h6⟩
  | true => exact ⟨h1, Or.inr (by show s1.out ++ _ = _; rw [h3]), h4, h5, h6⟩

/-- `balanceRequest` changes the advice, its counter and what was sent. -/
theorem balanceRequest_only (s : Sched) : ∃ last count out, s.balanceRequest =
    { s with wm := { s.wm with lastAdvice := last, sameCount := count }, out := s.out ++ out } ∧
    (out = [] ∨ out = s.wm.alloc.balance.items.map fun p => (p.1, .balanceRequest p.2)) := by
  have hsend : ∀ (l : List (Bytes × Int)) (s : Sched), l.foldl (fun s p => s.send p.1 (.balanceRequest p.2)) s =
      { s with out := s.out ++ l.map fun p => (p.1, .balanceRequest p.2) } := by
    intro l
    induction l with
    | nil => intro s; simp
    | cons p l ih => intro s; rw [List.foldl_cons, ih]; simp [Sched.send]
  unfold Sched.balanceRequest
  split
  · exact ⟨s.wm.lastAdvice, s.wm.sameCount, [], by simp, Or.inl rfl⟩
  · simp only
    split
    · exact ⟨some s.wm.alloc.balance, 1, [], by simp, Or.inl rfl⟩
    · split
      · exact ⟨s.wm.lastAdvice, s.wm.sameCount + 1, [], by simp, Or.inl rfl⟩
      · split
        · exact ⟨s.wm.lastAdvice, s.wm.sameCount + 1, [], by simp, Or.inl rfl⟩
        · rw [hsend]
          exact ⟨_, _, _, rfl, Or.inr rfl⟩

/-- The workers whose last heartbeat is too old. -/
theorem workerRoutine_only {s : Sched} (o : Order) (now : Int) : Py.Post (s.workerRoutine o now)
    (fun p => p.fm = s.fm ∧ p.out = s.balanceRequest.out ∧ p.wm.lastAdvice = s.balanceRequest.wm.lastAdvice ∧
      p.wm.sameCount = s.balanceRequest.wm.sameCount ∧
      ∀ w, p.wm.alive.get? w = match s.wm.alive.get? w with
        | none => none
        | some x => if now - x.1 > s.cfg.workerTimeout then none else some x) (fun _ => True) := by
  unfold Sched.workerRoutine Sched.cleanWorkers
  obtain ⟨la, ct, out, hb, _⟩ := balanceRequest_only s
  refine (Sched.disconnectAll_only o _ _).imp ?_ (fun _ h => h)
  rintro p ⟨h1, h2, h3, h4, h5, h6⟩
  refine ⟨by rw [h1, hb], h3, h4, h5, ?_⟩
  intro w
  rw [h6, hb]
  cases hx : s.wm.alive.get? w with
  | none => simp
  | some x =>
    simp only
    apply ite_congr
    · rw [eq_iff_iff, List.mem_map]
      simp only [List.mem_filter, decide_eq_true_eq]
      constructor
      · rintro ⟨⟨w', y⟩, ⟨h7, h8⟩, rfl⟩
        rw [Dict.mem_items.1 h7] at hx
        cases hx
        exact h8
      · intro h8
        exact ⟨(w, x), ⟨Dict.mem_items.2 hx, h8⟩, rfl⟩
    · intro _; rfl
    · intro _; rfl

theorem functionRoutine_only {s : Sched} (o : Order) (now : Int) : Py.Post (s.functionRoutine o now)
    (fun p => p.wm = s.wm ∧ ∃ l, p.out = s.out ++ l ∧ ∀ q ∈ l, ∃ f, q.2 = .functionRequest .delete f [] []) (fun _ => True) := by
  have hdel : ∀ (f : Bytes) (ws : List Bytes) (s : Sched), ∃ l, (∀ q ∈ l, q.2 = Message.functionRequest .delete f [] []) ∧
      ws.foldl (fun s w => s.send w (.functionRequest .delete f [] [])) s = { s with out := s.out ++ l } := by
    intro f ws
    induction ws with
    | nil => intro s; exact ⟨[], by simp, by simp⟩
    | cons w ws ih =>
      intro s
      obtain ⟨l, h1, h2⟩ := ih (s.send w (.functionRequest .delete f [] []))
      refine ⟨(w, .functionRequest .delete f [] []) :: l, ?_, by rw [List.foldl_cons, h2]; simp [Sched.send]⟩
      intro q hq
      rcases List.mem_cons.1 hq with rfl | hq
      · rfl
      · exact h1 q hq
  have hdrop : ∀ (fs : List Bytes) (s : Sched), Py.Post (s.dropFunctions o fs)
      (fun p => p.wm = s.wm ∧ ∃ l, p.out = s.out ++ l ∧ ∀ q ∈ l, ∃ f, q.2 = .functionRequest .delete f [] []) (fun _ => True) := by
    intro fs
    induction fs with
    | nil => intro s; exact ⟨rfl, [], by simp, by simp⟩
    | cons f fs ih =>
      intro s
      unfold Sched.dropFunctions
      refine post_any fun p => ?_
      simp only
      unfold Sched.onDeleteFunction
      obtain ⟨l, h1, h2⟩ := hdel f (orderBy (o f) s.wm.alloc.workerIds.items) { s with fm := { s.fm with funcs := p.2 } }
      rw [h2]
      refine (ih _).imp ?_ (fun _ h => h)
      rintro q ⟨h3, l', h4, h5⟩
      refine ⟨h3, l ++ l', by rw [h4]; simp, ?_⟩
      intro x hx
      rcases List.mem_append.1 hx with hx | hx
      · exact ⟨f, h1 x hx⟩
      · exact h5 x hx
  unfold Sched.functionRoutine
  exact hdrop _ _

/-- The heartbeat table after an event. -/
theorem step_alive {s s' : Sched} (hc : Conc s) (hset : AllSettled s.abs) {e : Event} (hs : s.step e = .ok s') (w : Bytes) :
    (∃ hb, e.beat = some (w, hb) ∧ s'.wm.alive.get? w = some (e.now, hb)) ∨
    ((∀ hb, e.beat ≠ some (w, hb)) ∧ (s'.wm.alive.get? w = none ∨ s'.wm.alive.get? w = s.wm.alive.get? w)) := by
  cases he : e.special with
  | false =>
    right
    rw [Event.beat_of_special he]
    refine ⟨by simp, Or.inr ?_⟩
    rw [(Py.Post.ok (step_keeps hc hset e he) hs).alive]
  | true =>
    obtain ⟨op, now, o⟩ := e
    cases op with
    | recv source m =>
      cases m with
      | heartbeat hb =>
        cases hs
        by_cases hw : source = w
        · subst hw
          left
          exact ⟨hb, rfl, by rw [(onHeartbeat_alive ..).1, Dict.get?_set]; simp⟩
        · right
          refine ⟨by simp [Event.beat, hw], Or.inr ?_⟩
          rw [(onHeartbeat_alive ..).1, Dict.get?_set, if_neg hw]
      | disconnectRequest w1 =>
        right
        refine ⟨by simp [Event.beat], ?_⟩
        rw [((onDisconnect_only o source w1).ok hs).2.2.2.2 w]
        split <;> simp
      | _ => cases he
    | workerRoutine =>
      right
      refine ⟨by simp [Event.beat], ?_⟩
      rw [((workerRoutine_only o now).ok hs).2.2.2.2 w]
      cases s.wm.alive.get? w with
      | none => simp
      | some x => simp only; split <;> simp
    | functionRoutine =>
      right
      refine ⟨by simp [Event.beat], Or.inr ?_⟩
      rw [((functionRoutine_only o now).ok hs).1]
    | _ => cases he

/-- The `now` of the last heartbeat (scaled/scheduler/worker_manager.py 91-96). -/
def lastBeat (w : Bytes) (es : List Event) : Option Int :=
  es.foldl (fun acc e => match e.beat with | some (w', _) => if w' = w then some e.now else acc | none => acc) none

theorem lastBeat_snoc (w : Bytes) (es : List Event) (e : Event) :
    lastBeat w (es ++ [e]) = match e.beat with | some (w', _) => if w' = w then some e.now else lastBeat w es | none => lastBeat w es := by
  unfold lastBeat
  rw [List.foldl_append]
  rfl

theorem Exec.alive {cfg : Config} {es : List Event} {l : Log} {s : Sched} (h : Exec cfg es l s) :
    ∀ w x, s.wm.alive.get? w = some x → lastBeat w es = some x.1 := by
  induction h with
  | init => intro w x hx; cases hx
  | @step es l s s' e hr ha hs ih =>
    intro w x hx
    rw [lastBeat_snoc]
    have hg := hr.reach.good
    rcases step_alive hg.conc hg.settled hs w with ⟨hb, h1, h2⟩ | ⟨h1, h2⟩
    · rw [h1]
      rw [h2] at hx
      cases hx
      simp
    · have hold : s.wm.alive.get? w = some x := by
        rcases h2 with h2 | h2
        · rw [h2] at hx; cases hx
        · rw [← h2]; exact hx
      cases hb : e.beat with
      | none => exact ih w x hold
      | some p =>
        obtain ⟨w', hb'⟩ := p
        simp only
        rw [if_neg]
        · exact ih w x hold
        · rintro rfl
          exact h1 hb' hb

/-- Tasks are sent to connected workers only, by the task routine. -/
theorem step_tasks {cfg : Config} {l : Log} {s s' : Sched} (hg : Good cfg l s) {e : Event} (hs : s.step e = .ok s') :
    ∃ m, s'.out = s.out ++ m ∧ ∀ w k, (w, .task k) ∈ m → e.op = .taskRoutine ∧ s.abs.up w = true ∧ s.abs.tasks k.taskId = some k := by
  cases he : e.special with
  | false =>
    by_cases ht : e.op = .taskRoutine
    · obtain ⟨op, now, o⟩ := e
      cases ht
      obtain ⟨s1, h1, -, h3⟩ := Sched.taskRoutine_ok hg.conc hg.inv hg.settled
      have : s.taskRoutine = .ok s' := hs
      rw [h1] at this
      cases this
      rcases h3 with ⟨_, _, rfl⟩ | ⟨k, rest, hN, hP⟩
      · exact ⟨[], by simp, by simp⟩
      · cases hP with
        | nobody _ hb => exact ⟨[], by rw [show s'.out = s'.abs.out from rfl, hb]; simp [Sched.abs], by simp⟩
        | full _ _ _ hb => exact ⟨[], by rw [show s'.out = s'.abs.out from rfl, hb]; simp [Sched.abs], by simp⟩
        | sent w p hp _ _ hb =>
          refine ⟨[(w, .task k)], by rw [show s'.out = s'.abs.out from rfl, hb]; simp [Sched.abs], ?_⟩
          intro w' k' hm
          simp only [List.mem_singleton, Prod.mk.injEq] at hm
          obtain ⟨rfl, hkk⟩ := hm
          cases hkk
          refine ⟨rfl, ?_, hN.elim (fun h => hg.inv.pend _ h.1) (fun h => h.2.2)⟩
          have := (hg.conc.alloc.dom w').1 ⟨p, hp⟩
          exact (hg.conc.alive w').2 (Option.isSome_iff_exists.2 this)
    · obtain ⟨m, h1, h2⟩ := (Py.Post.ok (step_keeps hg.conc hg.settled e he) hs).said
      exact ⟨m, h1, fun w k hm => absurd (h2 w k hm) ht⟩
  | true =>
    obtain ⟨op, now, o⟩ := e
    cases op with
    | recv source m =>
      cases m with
      | heartbeat hb =>
        cases hs
        exact ⟨_, (onHeartbeat_alive ..).2.2.2.2, by simp⟩
      | disconnectRequest w1 =>
        rcases ((onDisconnect_only o source w1).ok hs).2.1 with h | h
        · exact ⟨[], by simp [h], by simp⟩
        · exact ⟨_, h, by simp⟩
      | _ => cases he
    | workerRoutine =>
      rw [((workerRoutine_only o now).ok hs).2.1]
      obtain ⟨la, ct, out, hb, ho⟩ := balanceRequest_only s
      refine ⟨out, by rw [hb], ?_⟩
      intro w k hm
      rcases ho with rfl | rfl
      · cases hm
      · obtain ⟨p, _, hp⟩ := List.mem_map.1 hm
        cases hp
    | functionRoutine =>
      obtain ⟨-, m, h1, h2⟩ := (functionRoutine_only o now).ok hs
      refine ⟨m, h1, ?_⟩
      intro w k hm
      obtain ⟨f, hf⟩ := h2 _ hm
      cases hf
    | _ => cases he

end Verif.Sched
