import Verif.Props.SchedView
import Verif.Sched.Exec

/-!
# C30, C31, C32: the functions the scheduler keeps
-/

namespace Verif.Props

open Verif.Queue Verif.Util Verif.Wire Verif.Sched Verif.Spec

/-- The scheduler needs the function: for a task it holds, or for a node of an unpacked graph that is not
started yet. -/
def Needed (s : Sched) (f : Bytes) : Prop :=
  (∃ t k, s.tm.tasks.get? t = some k ∧ k.functionId = f) ∨
  ∃ gid g t i, s.gm.graphs.get? gid = some g ∧ g.tasks.get? t = some i ∧ i.state = .inactive ∧ i.task.functionId = f

/-- Nobody claims the function and nobody registered or used it for longer than the retention time. -/
def Expired (s : Sched) (now : Int) (f : Bytes) : Prop :=
  (∃ i, functionOf s f = some i ∧ now - i.aliveSince > s.cfg.functionRetention) ∧ ∀ t, claimOf s t ≠ some f

theorem Needed.claim {cfg : Config} {l : Log} {s : Sched} (hr : Reach cfg l s) {f : Bytes} (h : Needed s f) : ∃ t, claimOf s t = some f := by
  have hi := hr.good.inv
  rcases h with ⟨t, k, h1, rfl⟩ | ⟨gid, g, t, i, h1, h2, h3, rfl⟩
  · exact ⟨t, hi.pinned t k h1⟩
  · have := hi.link gid g t i h1 h2
    unfold Link at this
    rw [h3] at this
    exact ⟨t, this.2.2⟩

/-- **C30.** In every reachable state:
* a needed function is registered, and a request for it is answered with its name and content;
* cleanup drops a function exactly if it is expired, leaves the others as they are, and sends the deletion of
  every dropped function to every connected worker and nothing else;
* hence it never drops a needed function. -/
theorem C30_needed_kept (cfg : Config) (l : Log) (s : Sched) (hr : Reach cfg l s) :
    (∀ f, Needed s f → ∃ i, functionOf s f = some i ∧ ∀ e w nm ct, e.op = .recv w (.functionRequest .request f nm ct) →
      ∃ s', s.step e = .ok s' ∧ s'.out = s.out ++ [(w, .functionResponse .ok f i.name i.content)]) ∧
    (∀ e, e.op = .functionRoutine → ∃ s' ms, s.step e = .ok s' ∧
      (∀ f, functionOf s' f = none ↔ functionOf s f = none ∨ Expired s e.now f) ∧
      (∀ f, functionOf s' f ≠ none → functionOf s' f = functionOf s f) ∧
      s'.out = s.out ++ ms ∧
      (∀ p, p ∈ ms ↔ ∃ f, Expired s e.now f ∧ Connected s p.1 ∧ p.2 = .functionRequest .delete f [] []) ∧
      ∀ f, Needed s f → functionOf s' f = functionOf s f) := by
  have hg := hr.good
  constructor
  · intro f hf
    obtain ⟨t, ht⟩ := hf.claim hr
    obtain ⟨i, hi⟩ := Option.isSome_iff_exists.1 (hg.inv.known t f ht)
    refine ⟨i, hi, ?_⟩
    rintro ⟨op, now, o⟩ w nm ct rfl
    refine ⟨s.functionRequest w f, rfl, ?_⟩
    unfold Sched.functionRequest
    rw [show s.fm.funcs.get? f = some i from hi]
    rfl
  · rintro ⟨op, now, o⟩ rfl
    obtain ⟨s', h1, hA, hu, h2, h3, ms, h4, h5⟩ := Sched.functionRoutine_ok (h := ⟨l, none⟩) hg.conc hg.settled o now
    refine ⟨s', ms, h1, ?_, ?_, h4, h5, ?_⟩
    · intro f
      by_cases hx : Expired s now f
      · exact ⟨fun _ => Or.inr hx, fun _ => h2 f hx⟩
      · have := h3 f hx
        change functionOf s' f = functionOf s f at this
        rw [this]
        exact ⟨Or.inl, fun h => h.resolve_right hx⟩
    · intro f hf
      by_cases hx : Expired s now f
      · exact absurd (h2 f hx) hf
      · exact h3 f hx
    · intro f hf
      obtain ⟨t, ht⟩ := hf.claim hr
      exact h3 f (fun hx => hx.2 t ht)

/-- An old unused function, an old one in use, a new one, and one that a node that is not started needs. -/
def cleanupStory : List Event :=
  [beat wk, beat wk2, addFn, submit [1], ev (.recv cl (.functionRequest .add [71] [103] [3])),
   sendGraph ⟨[50], Dict.ofList [([73], ([104], [4])), ([74], ([105], [5]))], [[52]], [⟨[51], [73], []⟩, ⟨[52], [74], [ref [51]]⟩]⟩, gturn,
   evAt 150 (.recv cl (.functionRequest .add [72] [106] [6]))]

example : (runInit cfg0 cleanupStory).bind (fun p => (p.2.step (evAt 200 .functionRoutine)).toOption.map fun s' =>
      ([[70], [71], [72], [73], [74]].map (fun f => (functionOf s' f).isSome), s'.out.drop p.2.out.length)) =
    some ([true, false, true, true, true], [(wk, .functionRequest .delete [71] [] []), (wk2, .functionRequest .delete [71] [] [])]) := by
  decide +kernel

example : ∃ p, runInit cfg0 cleanupStory = some p ∧ Needed p.2 fn ∧ Needed p.2 [74] := by
  have h : (runInit cfg0 cleanupStory).map (fun p => (decide (p.2.tm.tasks.get? [1] = some ⟨[1], fn, [val [9]]⟩),
      (p.2.gm.graphs.get? [50]).bind fun g => (g.tasks.get? [52]).map fun i => decide (i.state = .inactive ∧ i.task.functionId = [74]))) =
      some (true, some true) := by decide +kernel
  obtain ⟨p, hp, h⟩ := Option.map_eq_some_iff.1 h
  simp only [Prod.mk.injEq, decide_eq_true_eq] at h
  obtain ⟨h1, h2⟩ := h
  obtain ⟨g, hg, h2⟩ := Option.bind_eq_some_iff.1 h2
  obtain ⟨i, hi, h2⟩ := Option.map_eq_some_iff.1 h2
  have h2 := of_decide_eq_true h2
  exact ⟨p, hp, Or.inl ⟨[1], _, h1, rfl⟩, Or.inr ⟨[50], g, [52], i, hg, hi, h2.1, h2.2⟩⟩

/-- The event registers the function: an add request, or the unpacking of a received graph that brings it. -/
def Registers (l : Log) (e : Event) (f name content : Bytes) : Prop :=
  (∃ c, e.op = .recv c (.functionRequest .add f name content)) ∨
  e.op = .graphRoutine ∧ ∃ c gt, (c, .graphTask gt) ∈ l ∧ gt.functions.get? f = some (name, content)

theorem registers_of {cfg : Config} {l : Log} {s : Sched} (hr : Reach cfg l s) {e : Event} {f name content : Bytes} (h : e.registers s f name content) :
    Registers l e f name content := by
  obtain ⟨op, now, o⟩ := e
  unfold Event.registers at h
  split at h
  · next c _ _ _ hop => obtain ⟨rfl, rfl, rfl⟩ := h; exact Or.inl ⟨c, hop⟩
  · next hop =>
    obtain ⟨c, gt, rest, h1, h2⟩ := h
    refine Or.inr ⟨hop, c, gt, ?_, Dict.mem_items.1 h2⟩
    exact (hr.good.inv.queue c gt (by rw [show s.abs.queue = _ from h1]; exact List.mem_cons_self)).1
  · exact h.elim

/-- One event: an entry that stays keeps its name and content, a new one is registered by this event. -/
theorem function_step {cfg : Config} {l : Log} {s s' : Sched} (hr : Reach cfg l s) {e : Event} (hs : s.step e = .ok s') {f : Bytes} {j : FuncInfo}
    (hj : functionOf s' f = some j) :
    (∃ i, functionOf s f = some i ∧ j.name = i.name ∧ j.content = i.content) ∨
    functionOf s f = none ∧ Registers l e f j.name j.content := by
  have hg := hr.good
  cases he : e.special with
  | false =>
    have hk := Py.Post.ok (step_keeps hg.conc hg.settled e he) hs
    cases hi : functionOf s f with
    | some i =>
      obtain ⟨j', h1, h2, h3⟩ := hk.stay f i hi
      rw [show functionOf s' f = some j' from h1] at hj; cases hj
      exact Or.inl ⟨i, rfl, h2, h3⟩
    | none =>
      rcases hk.new f j hj with ⟨i, h1, _⟩ | h1
      · rw [show functionOf s f = some i from h1] at hi; cases hi
      · exact Or.inr ⟨rfl, registers_of hr h1⟩
  | true =>
    have hsame : functionOf s' f = functionOf s f := by
      obtain ⟨op, now, o⟩ := e
      cases op with
      | recv source m =>
        cases m with
        | heartbeat hb => cases hs; rfl
        | disconnectRequest w1 => unfold functionOf; rw [((onDisconnect_only o source w1).ok hs).1]
        | _ => cases he
      | workerRoutine => unfold functionOf; rw [((workerRoutine_only o now).ok hs).1]
      | functionRoutine =>
        obtain ⟨s1, h1, -, -, h2, h3, -⟩ := Sched.functionRoutine_ok (h := ⟨l, none⟩) hg.conc hg.settled o now
        have h1' : s.functionRoutine o now = .ok s' := hs
        rw [h1] at h1'; cases h1'
        by_cases hx : Expired s now f
        · rw [show functionOf s' f = none from h2 f hx] at hj; cases hj
        · exact h3 f hx
      | _ => cases he
    rw [hsame] at hj
    exact Or.inl ⟨j, hj, rfl, rfl⟩

/-- The events determine the state. -/
theorem exec_unique {cfg : Config} {es : List Event} {l l' : Log} {s s' : Sched} (h : Exec cfg es l s) (h' : Exec cfg es l' s') :
    l = l' ∧ s = s' := by
  induction h generalizing l' s' with
  | init =>
    generalize hes : ([] : List Event) = es' at h'
    cases h' with
    | init => exact ⟨rfl, rfl⟩
    | step e _ _ _ => exact absurd hes (by simp)
  | @step es1 l1 s1 s2 e hx ha hs ih =>
    generalize hes : es1 ++ [e] = es' at h'
    cases h' with
    | init => exact absurd hes (by simp)
    | step e' hx' ha' hs' =>
      obtain ⟨rfl, he⟩ := List.append_inj' hes rfl
      cases he
      obtain ⟨rfl, rfl⟩ := ih hx'
      rw [hs] at hs'; cases hs'
      exact ⟨rfl, rfl⟩

/-- Where a registered function comes from. -/
theorem function_origin {cfg : Config} {es : List Event} {l : Log} {s : Sched} (hx : Exec cfg es l s) {f : Bytes} {i : FuncInfo}
    (hi : functionOf s f = some i) :
    ∃ es1 e es2 l1 s1, es = es1 ++ e :: es2 ∧ Exec cfg es1 l1 s1 ∧ functionOf s1 f = none ∧ Registers l1 e f i.name i.content ∧
      ∀ es3 es4 l3 s3, es2 = es3 ++ es4 → Exec cfg (es1 ++ e :: es3) l3 s3 →
        ∃ j, functionOf s3 f = some j ∧ j.name = i.name ∧ j.content = i.content := by
  induction hx generalizing i with
  | init => cases hi
  | @step es0 l0 s0 s' e hx ha hs ih =>
    have hx' : Exec cfg (es0 ++ [e]) (l0 ++ e.input) s' := .step e hx ha hs
    rcases function_step hx.reach hs hi with ⟨i0, h1, h2, h3⟩ | ⟨h1, h2⟩
    · obtain ⟨es1, e1, es2, l1, s1, h4, h5, h6, h7, h8⟩ := ih h1
      refine ⟨es1, e1, es2 ++ [e], l1, s1, by rw [h4]; simp, h5, h6, by rw [h2, h3]; exact h7, ?_⟩
      intro es3 es4 l3 s3 h9 h10
      rcases List.eq_nil_or_concat es4 with rfl | ⟨es5, e5, rfl⟩
      · rw [List.append_nil] at h9
        subst h9
        have : es1 ++ e1 :: (es2 ++ [e]) = es0 ++ [e] := by rw [h4]; simp
        rw [this] at h10
        obtain ⟨-, rfl⟩ := exec_unique hx' h10
        exact ⟨i, hi, rfl, rfl⟩
      · rw [List.concat_eq_append, ← List.append_assoc] at h9
        obtain ⟨h11, -⟩ := List.append_inj' h9 rfl
        obtain ⟨j, h12, h13, h14⟩ := h8 es3 es5 l3 s3 h11 h10
        exact ⟨j, h12, h13.trans h2.symm, h14.trans h3.symm⟩
    · refine ⟨es0, e, [], l0, s0, rfl, hx, h1, h2, ?_⟩
      intro es3 es4 l3 s3 h9 h10
      obtain ⟨rfl, rfl⟩ := List.nil_eq_append_iff.1 h9
      obtain ⟨-, rfl⟩ := exec_unique hx' h10
      exact ⟨i, hi, rfl, rfl⟩

/-- **C31.** In every execution:
* an event never changes the name or content of a registered function;
* every registered function was created by an event that registers exactly this name and content, at a moment
  when the id was not registered, and has been registered with this name and content ever since;
* a request for it is answered with exactly this name and content. -/
theorem C31_function_fixed (cfg : Config) (es : List Event) (l : Log) (s : Sched) (hx : Exec cfg es l s) (f : Bytes) :
    (∀ e s' i j, s.step e = .ok s' → functionOf s f = some i → functionOf s' f = some j → j.name = i.name ∧ j.content = i.content) ∧
    (∀ i, functionOf s f = some i →
      (∃ es1 e es2 l1 s1, es = es1 ++ e :: es2 ∧ Exec cfg es1 l1 s1 ∧ functionOf s1 f = none ∧ Registers l1 e f i.name i.content ∧
        ∀ es3 es4 l3 s3, es2 = es3 ++ es4 → Exec cfg (es1 ++ e :: es3) l3 s3 →
          ∃ j, functionOf s3 f = some j ∧ j.name = i.name ∧ j.content = i.content) ∧
      ∀ e w nm ct, e.op = .recv w (.functionRequest .request f nm ct) →
        ∃ s', s.step e = .ok s' ∧ s'.out = s.out ++ [(w, .functionResponse .ok f i.name i.content)]) := by
  refine ⟨?_, ?_⟩
  · intro e s' i j hs hi hj
    rcases function_step hx.reach hs hj with ⟨i', h1, h2⟩ | ⟨h1, _⟩
    · rw [hi] at h1; cases h1; exact h2
    · rw [hi] at h1; cases h1
  · intro i hi
    refine ⟨?_, ?_⟩
    · exact function_origin hx hi
    · rintro ⟨op, now, o⟩ w nm ct rfl
      refine ⟨s.functionRequest w f, rfl, ?_⟩
      unfold Sched.functionRequest
      rw [show s.fm.funcs.get? f = some i from hi]
      rfl

/-- The second registration brings other bytes; the worker gets the first. -/
def registerStory : List Event :=
  [addFn, ev (.recv [68] (.functionRequest .add fn [120] [9, 9])),
   sendGraph ⟨[50], Dict.ofList [(fn, ([121], [8]))], [[51]], [⟨[51], fn, []⟩]⟩, gturn, ev (.recv wk (.functionRequest .request fn [] []))]

example : (runInit cfg0 registerStory).map (fun p => p.2.out.filter fun m => match m with
      | (_, .functionResponse ..) => true
      | _ => false) =
    some [(cl, .functionResponse .ok fn [] []), ([68], .functionResponse .duplicated fn [] []),
      (cl, .functionResponse .duplicated fn [] []), (wk, .functionResponse .ok fn [102] [1, 2])] := by decide +kernel

/-! ### Deletion -/

/-- **C32 is false of the code**, and always: in every reachable state a delete request for a registered
function that nobody claims raises a ValueError (`get_values` of a key that is not there), which ends the
scheduler. -/
theorem C32_delete_kills (cfg : Config) (l : Log) (s : Sched) (hr : Reach cfg l s) (e : Event) (c f nm ct : Bytes)
    (he : e.op = .recv c (.functionRequest .delete f nm ct)) (hf : functionOf s f ≠ none) (hu : ∀ t, claimOf s t ≠ some f) :
    s.step e = .error .valueError := by
  have hg := hr.good
  obtain ⟨op, now, o⟩ := e
  cases he
  show s.functionDelete c f = _
  unfold Sched.functionDelete
  have : s.fm.funcs.has f = true := Option.isSome_iff_ne_none.2 hf
  rw [this]
  simp only [Bool.not_true, Bool.false_eq_true, if_false]
  rw [OneToMany.getValues_err hg.conc.uses hu]
  rfl

example : ∃ l s, Reach cfg0 l s ∧ functionOf s fn ≠ none ∧ ∀ t, claimOf s t ≠ some fn := by
  have h : (runInit cfg0 [addFn]).map (fun p => (decide (functionOf p.2 fn ≠ none), decide (p.2.fm.uses.v2k.keys = []))) = some (true, true) := by
    decide +kernel
  obtain ⟨⟨l, s⟩, hp, h⟩ := Option.map_eq_some_iff.1 h
  simp only [Prod.mk.injEq, decide_eq_true_eq] at h
  refine ⟨l, s, runInit_reach hp, h.1, ?_⟩
  intro t ht
  have : t ∈ s.fm.uses.v2k.keys := by
    rw [Dict.mem_keys_isSome, show s.fm.uses.v2k.get? t = some fn from ht]; rfl
  rw [h.2] at this; cases this

/-- **C32, partial.** A delete request for a function that is not registered, or that a task or node claims, is
answered `NotExists` or `StillHaveTask` and changes nothing.

Full statement: also a registered function that nobody claims is removed and answered.  Missing: this case;
it is false in every state (`C32_delete_kills`). -/
theorem C32_delete_partial (cfg : Config) (l : Log) (s : Sched) (hr : Reach cfg l s) (e : Event) (c f nm ct : Bytes)
    (he : e.op = .recv c (.functionRequest .delete f nm ct)) :
    (functionOf s f = none → s.step e = .ok { s with out := s.out ++ [(c, .functionResponse .notExists f [] [])] }) ∧
    (functionOf s f ≠ none → (∃ t, claimOf s t = some f) →
      s.step e = .ok { s with out := s.out ++ [(c, .functionResponse .stillHaveTask f [] [])] }) := by
  have hg := hr.good
  obtain ⟨op, now, o⟩ := e
  cases he
  constructor
  · intro hf
    show s.functionDelete c f = _
    unfold Sched.functionDelete
    have : s.fm.funcs.has f = false := by
      rw [Bool.eq_false_iff]; intro hx
      exact Option.isSome_iff_ne_none.1 hx hf
    rw [this]
    rfl
  · rintro hf ⟨t, hu⟩
    show s.functionDelete c f = _
    unfold Sched.functionDelete
    have : s.fm.funcs.has f = true := Option.isSome_iff_ne_none.2 hf
    rw [this]
    obtain ⟨vs, e, hv⟩ := OneToMany.getValues_ok hg.conc.uses hu
    simp only [Bool.not_true, Bool.false_eq_true, if_false]
    rw [e]
    simp only [Py.ok_bind]
    have : vs.size > 0 := by
      have hm : t ∈ vs := (hv t).2 hu
      have : t ∈ vs.items := hm
      simpa [PySet.size] using List.length_pos_of_mem this
    rw [if_pos this]
    rfl

example : (runInit cfg0 [addFn, submit [1], ev (.recv cl (.functionRequest .delete fn [] [])), ev (.recv cl (.functionRequest .delete [71] [] []))]).map
      (fun p => (p.2.out.drop 2, (functionOf p.2 fn).isSome)) =
    some ([(cl, .functionResponse .stillHaveTask fn [] []), (cl, .functionResponse .notExists [71] [] [])], true) := by decide +kernel

end Verif.Props
