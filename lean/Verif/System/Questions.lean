import Verif.System.Rest
import Verif.System.Ready

/-!
# Questions of processors and their answers, counted

Between processor, agent and scheduler no question about a function and no answer is made up.
-/

namespace Verif.System

open Verif.Wire Verif.Sched Verif.Spec
open Verif.Client (Pickle)

variable {F V X : Type} {p : Pickle} {rt : Proc.Runtime F V X} {cfg : Config} {s s' : Sys F} {P : Bytes → Prop} {t : Bytes}

/-- 1 for a question about `f` -/
def askWeight (f : Bytes) : Message → Nat
  | .functionRequest _ g _ _ => if g = f then 1 else 0
  | _ => 0

/-- 1 for an answer about `f` -/
def replyWeight (f : Bytes) : Message → Nat
  | .functionResponse _ g _ _ => if g = f then 1 else 0
  | _ => 0

/-- the weight of what is sent -/
def actSent (g : Message → Nat) (x : Int × Worker.Act) : Nat := match x.2 with | .sent m => g m | _ => 0
/-- the weight of what is received -/
def actRecv (g : Message → Nat) (x : Int × Worker.Act) : Nat := match x.2 with | .recv m => g m | _ => 0
/-- the weight of what is heard from processors -/
def actHeard (g : Message → Nat) (x : Int × Worker.Act) : Nat := match x.2 with | .heard m => g m | _ => 0
/-- the weight of what is told to processors -/
def actTold (g : Message → Nat) (x : Int × Worker.Act) : Nat := match x.2 with | .told _ m => g m | _ => 0

/-- The agent passes on what it got. -/
structure Passes (l l' : Worker.Hist) : Prop where
  asks : ∀ f, weigh (actSent (askWeight f)) l' + weigh (actHeard (askWeight f)) l ≤ weigh (actSent (askWeight f)) l + weigh (actHeard (askWeight f)) l'
  replies : ∀ f, weigh (actTold (replyWeight f)) l' + weigh (actRecv (replyWeight f)) l ≤
    weigh (actTold (replyWeight f)) l + weigh (actRecv (replyWeight f)) l'

theorem Passes.rfl {l : Worker.Hist} : Passes l l := ⟨fun _ => Nat.le_refl _, fun _ => Nat.le_refl _⟩

theorem Passes.trans {l l' l'' : Worker.Hist} (h : Passes l l') (h' : Passes l' l'') : Passes l l'' := by
  refine ⟨fun f => ?_, fun f => ?_⟩
  · have := h.asks f; have := h'.asks f; omega
  · have := h.replies f; have := h'.replies f; omega

/-- Entries that are neither a question sent nor an answer told. -/
theorem Passes.more {l ys : Worker.Hist} (h : ∀ y ∈ ys, ∀ f, actSent (askWeight f) y = 0 ∧ actTold (replyWeight f) y = 0) : Passes l (l ++ ys) := by
  have h0 : ∀ {g : Int × Worker.Act → Nat} {ys : Worker.Hist}, (∀ y ∈ ys, g y = 0) → weigh g ys = 0 := by
    intro g ys
    induction ys with
    | nil => intro _; rfl
    | cons y ys ih =>
      intro h
      rw [weigh_cons, h y List.mem_cons_self, ih fun y hy => h y (List.mem_cons_of_mem _ hy)]
  refine ⟨fun f => ?_, fun f => ?_⟩
  · rw [weigh_append, weigh_append, h0 fun y hy => (h y hy f).1]; omega
  · rw [weigh_append, weigh_append, h0 fun y hy => (h y hy f).2]; omega

theorem Passes.one {l : Worker.Hist} {now : Int} {x : Worker.Act} (h : ∀ f, actSent (askWeight f) (now, x) = 0 ∧ actTold (replyWeight f) (now, x) = 0) :
    Passes l (l ++ [(now, x)]) := .more fun y hy => by rw [List.mem_singleton.1 hy]; exact h

theorem handOver_passes {a a' : Worker.Agent} {now : Int} {k : Task} (h : a.handOver now k = .ok a') : Passes a.log a'.log := by
  simp only [Worker.Agent.handOver, Py.bind_ok] at h
  obtain ⟨_, -, h⟩ := h
  cases h
  exact .one fun f => ⟨rfl, rfl⟩

theorem awaitProcessor_passes {a a' : Worker.Agent} {now : Int} {k : Task} (h : a.awaitProcessor now k = .ok a') : Passes a.log a'.log := by
  unfold Worker.Agent.awaitProcessor at h
  split at h
  · exact handOver_passes h
  · cases h; exact .rfl

/-- What a step of an agent does. -/
theorem agent_passes {a a' : Worker.Agent} {e : Worker.Agent.Event} (h : a.step e = .ok a') :
    Passes a.log a'.log ∧ ((∀ t, e.op ≠ .recv (.taskCancel t)) → a'.procs = a.procs) := by
  obtain ⟨op, now⟩ := e
  cases op with
  | recv m =>
    simp only [Worker.Agent.step] at h
    have hn : Passes a.log (a.note now (.recv m)).log := .one fun f => ⟨rfl, rfl⟩
    cases m with
    | heartbeatEcho =>
      simp only [Worker.Agent.receive, Worker.Agent.onEcho] at h
      split at h <;> cases h <;> exact ⟨hn, fun _ => rfl⟩
    | task t =>
      simp only [Worker.Agent.receive, Worker.Agent.onTaskNew, Py.bind_ok] at h
      obtain ⟨q, -, h⟩ := h
      cases h; exact ⟨hn, fun _ => rfl⟩
    | taskCancel tid =>
      refine ⟨hn.trans ?_, fun h => absurd rfl (h tid)⟩
      simp only [Worker.Agent.receive] at h
      generalize a.note now (.recv (.taskCancel tid)) = b at h
      unfold Worker.Agent.onCancel at h
      split at h
      · simp only [Py.bind_ok] at h
        obtain ⟨⟨_, _⟩, -, _, -, h⟩ := h
        cases h; exact .one fun f => ⟨rfl, rfl⟩
      · rw [Py.bind_ok] at h
        obtain ⟨⟨r, a1⟩, h1, h⟩ := h
        have key : Passes b.log a1.log := by
          unfold Worker.Agent.cancelRunning at h1
          split at h1
          · cases h1; exact .rfl
          · rw [Py.bind_ok] at h1
            obtain ⟨t, -, h1⟩ := h1
            split at h1
            · cases h1; exact .rfl
            · cases h1
              show Passes b.log (b.restart now).log
              simp only [Worker.Agent.restart, Worker.Agent.startProcessor, Worker.Agent.kill, Worker.Agent.note]
              split
              · exact .one fun f => ⟨rfl, rfl⟩
              · rw [List.append_assoc]
                refine .more fun y hy f => ?_
                simp only [List.cons_append, List.nil_append, List.mem_cons, List.not_mem_nil, or_false] at hy
                rcases hy with rfl | rfl <;> exact ⟨rfl, rfl⟩
        refine key.trans ?_
        simp only at h
        split at h <;> cases h <;> exact .one fun f => ⟨rfl, rfl⟩
    | balanceRequest n =>
      simp only [Worker.Agent.receive, Worker.Agent.onBalance, Py.bind_ok] at h
      obtain ⟨⟨l, a1⟩, h1, h⟩ := h
      cases h
      split at h1
      · cases h1
      · obtain ⟨-, h3, h4⟩ := takeOldest_ready h1
        refine ⟨hn.trans ?_, fun _ => h3⟩
        rw [← h4]
        exact .one fun f => ⟨rfl, rfl⟩
    | functionRequest ty fid nm c =>
      simp only [Worker.Agent.receive, Worker.Agent.onFunctionRequest] at h
      split at h
      · cases h; exact ⟨hn.trans (.one fun f => ⟨rfl, rfl⟩), fun _ => rfl⟩
      · cases h
    | functionResponse st fid nm c =>
      simp only [Worker.Agent.receive, Worker.Agent.onFunctionResponse] at h
      split at h
      · cases h; exact ⟨hn, fun _ => rfl⟩
      · rw [Py.bind_ok] at h
        obtain ⟨t, -, h⟩ := h
        split at h
        · cases h; exact ⟨hn, fun _ => rfl⟩
        · split at h
          · cases h; exact ⟨hn, fun _ => rfl⟩
          · cases h
            refine ⟨⟨fun f => ?_, fun f => ?_⟩, fun _ => rfl⟩
            · simp [Worker.Agent.note, Worker.Agent.tell, weigh_append, weigh_cons, weigh_nil, actSent, actHeard]
            · simp [Worker.Agent.note, Worker.Agent.tell, weigh_append, weigh_cons, weigh_nil, actTold, actRecv]; omega
    | _ => cases h
  | heard m =>
    simp only [Worker.Agent.step] at h
    have hn : Passes a.log (a.note now (.heard m)).log := .one fun f => ⟨rfl, rfl⟩
    cases m with
    | functionRequest ty fid nm c =>
      simp only [Worker.Agent.receiveInternal, Worker.Agent.onInternalFunctionRequest] at h
      split at h
      · cases h; exact ⟨hn, fun _ => rfl⟩
      · split at h
        · cases h; exact ⟨hn, fun _ => rfl⟩
        · split at h
          · cases h; exact ⟨hn, fun _ => rfl⟩
          · rw [Py.bind_ok] at h
            obtain ⟨_, -, h⟩ := h
            cases h
            refine ⟨⟨fun f => ?_, fun f => ?_⟩, fun _ => rfl⟩
            · simp [Worker.Agent.note, Worker.Agent.send, weigh_append, weigh_cons, weigh_nil, actSent, actHeard]; omega
            · simp [Worker.Agent.note, Worker.Agent.send, weigh_append, weigh_cons, weigh_nil, actTold, actRecv]
    | taskResult i st d r =>
      simp only [Worker.Agent.receiveInternal, Except.ok.injEq] at h
      subst h
      generalize hb : a.note now (.heard (.taskResult i st d r)) = b at hn
      have hp : b.procs = a.procs := by subst hb; rfl
      suffices hs : Passes b.log (b.onResult now i st d r).log ∧ (b.onResult now i st d r).procs = b.procs from
        ⟨hn.trans hs.1, fun _ => hs.2.trans hp⟩
      unfold Worker.Agent.onResult
      split
      · unfold Worker.Agent.onInitialized
        split
        · exact ⟨.rfl, rfl⟩
        · simp only
          split
          · exact ⟨.one fun f => ⟨rfl, rfl⟩, rfl⟩
          · exact ⟨.rfl, rfl⟩
      · split
        · exact ⟨.rfl, rfl⟩
        · split
          · exact ⟨.rfl, rfl⟩
          · exact ⟨.one fun f => ⟨rfl, rfl⟩, rfl⟩
    | _ => cases h
  | turn =>
    simp only [Worker.Agent.step, Worker.Agent.turn] at h
    split at h
    · split at h
      · cases h; exact ⟨.rfl, fun _ => rfl⟩
      · simp only [Py.bind_ok] at h
        obtain ⟨⟨t, q⟩, -, ⟨k, ts⟩, -, h⟩ := h
        simp only at h
        unfold Worker.Agent.awaitLock at h
        split at h
        · cases h; exact ⟨.rfl, fun _ => rfl⟩
        · have h1 := awaitProcessor_passes h
          have h2 := (awaitProcessor_ready h).2
          exact ⟨h1, fun _ => h2⟩
    · split at h
      · cases h; exact ⟨.rfl, fun _ => rfl⟩
      · have h1 := awaitProcessor_passes h
        have h2 := (awaitProcessor_ready h).2
        exact ⟨h1, fun _ => h2⟩
    · split at h
      · exact ⟨handOver_passes h, fun _ => (handOver_ready h).2⟩
      · cases h; exact ⟨.rfl, fun _ => rfl⟩
  | heartbeat f =>
    simp only [Worker.Agent.step, Worker.Agent.heartbeat] at h
    split at h
    · cases h; exact ⟨.rfl, fun _ => rfl⟩
    · split at h
      · cases h; exact ⟨.rfl, fun _ => rfl⟩
      · rw [Py.bind_ok] at h
        obtain ⟨_, -, h⟩ := h
        cases h; exact ⟨.one fun f => ⟨rfl, rfl⟩, fun _ => rfl⟩
  | check =>
    simp only [Worker.Agent.step, Worker.Agent.checkTimeout] at h
    split at h
    · cases h; exact ⟨.rfl, fun _ => rfl⟩
    · cases h

/-- The agent makes up no question and no answer, and starts a second processor only after a cancellation. -/
theorem reach_passes {d start : Int} {a : Worker.Agent} (hr : Worker.Reach d start a) :
    (∀ f, weigh (actSent (askWeight f)) a.log ≤ weigh (actHeard (askWeight f)) a.log) ∧
    (∀ f, weigh (actTold (replyWeight f)) a.log ≤ weigh (actRecv (replyWeight f)) a.log) ∧
    ((∀ t now, (now, Worker.Act.recv (.taskCancel t)) ∉ a.log) → a.procs = 1) := by
  induction hr with
  | init => exact ⟨fun f => Nat.le_refl _, fun f => Nat.le_refl _, fun _ => rfl⟩
  | step e hr hs ih =>
    obtain ⟨h1, h2⟩ := agent_passes hs
    obtain ⟨i1, i2, i3⟩ := ih
    obtain ⟨-, -, ys, hlog, -, -⟩ := Worker.step_flows hr.flow hs
    refine ⟨fun f => ?_, fun f => ?_, fun hc => ?_⟩
    · have := h1.asks f; have := i1 f; omega
    · have := h1.replies f; have := i2 f; omega
    · rw [h2 fun t he => ?_, i3 fun t now hm => ?_]
      · refine hc t now ?_
        rw [hlog, List.append_assoc]
        exact List.mem_append_left _ hm
      · refine hc t e.now ?_
        rw [hlog]
        exact List.mem_append_left _ (List.mem_append_right _ (by simp [Worker.Agent.Event.input, he]))

/-! ### The processor -/

/-- the weight of what a processor sent -/
def didSend (g : Message → Nat) (x : Int × Proc.Act) : Nat := match x.2 with | .sent m => g m | _ => 0
/-- the weight of what a processor received -/
def didRecv (g : Message → Nat) (x : Int × Proc.Act) : Nat := match x.2 with | .recv m => g m | _ => 0

/-- The processor waits for the function `f`. -/
def WaitsFor (q : Proc.Proc F) (f : Bytes) : Prop := (∃ k, q.task = some k ∧ k.functionId = f) ∧ ∀ g, q.main ≠ .added g

open Classical in
/-- 1 if the processor waits for the function `f`. -/
noncomputable def waitWeight (q : Proc.Proc F) (f : Bytes) : Nat := if WaitsFor q f then 1 else 0

/-- No more questions than answers and the one that is waited for. -/
def Owes (q : Proc.Proc F) : Prop := ∀ f, weigh (didSend (askWeight f)) q.log ≤ weigh (didRecv (replyWeight f)) q.log + waitWeight q f

theorem WaitsFor.one {q : Proc.Proc F} {f : Bytes} (h : WaitsFor q f) : waitWeight q f = 1 := if_pos h
theorem waitWeight_zero {q : Proc.Proc F} {f : Bytes} (h : ¬ WaitsFor q f) : waitWeight q f = 0 := if_neg h
theorem waitWeight_congr {q q' : Proc.Proc F} {f : Bytes} (h : WaitsFor q f → WaitsFor q' f) : waitWeight q f ≤ waitWeight q' f := by
  by_cases hw : WaitsFor q f
  · rw [hw.one, (h hw).one]; omega
  · rw [waitWeight_zero hw]; omega

/-- A step that neither asks nor ends the wait. -/
theorem Owes.quiet {q q' : Proc.Proc F} (h : Owes q) {ys : List (Int × Proc.Act)} (hl : q'.log = q.log ++ ys)
    (hy : ∀ y ∈ ys, ∀ f, didSend (askWeight f) y = 0) (hw : ∀ f, WaitsFor q f → WaitsFor q' f) : Owes q' := by
  intro f
  have h0 : weigh (didSend (askWeight f)) ys = 0 := by
    have : ∀ {ys : List (Int × Proc.Act)}, (∀ y ∈ ys, didSend (askWeight f) y = 0) → weigh (didSend (askWeight f)) ys = 0 := by
      intro ys
      induction ys with
      | nil => intro _; rfl
      | cons y ys ih =>
        intro h
        rw [weigh_cons, h y List.mem_cons_self, ih fun y hy => h y (List.mem_cons_of_mem _ hy)]
    exact this fun y hy' => hy y hy' f
  have h1 := h f
  have h2 := waitWeight_congr (hw f)
  rw [hl, weigh_append, weigh_append, h0]
  omega

theorem clean_silent (q : Proc.Proc F) (now : Int) : ∃ ys, (q.clean now).log = q.log ++ ys ∧ ∀ y ∈ ys, ∀ m, y.2 ≠ Proc.Act.sent m := by
  unfold Proc.Proc.clean
  split
  · exact ⟨[(now, .scan)], rfl, by simp⟩
  · exact ⟨[], by simp, by simp⟩
  · exact ⟨[], by simp, by simp⟩
  · next fid ids hc =>
    by_cases hf : q.functions.has fid = true
    · exact ⟨[(now, .evicted fid)], by simp [hf, Proc.Proc.note], by simp⟩
    · exact ⟨[], by simp [hf], by simp⟩

/-- What a step of a processor does to its questions, if tasks come one at a time and answers only to questions. -/
theorem Owes.step {q q' : Proc.Proc F} {e : Proc.Event} (h : Owes q) (hs : q.step rt e = .ok q')
    (ht : ∀ k, e.op = .recv (.task k) → q.task = none)
    (hf : ∀ st f nm c, e.op = .recv (.functionResponse st f nm c) → q.main = .idle → WaitsFor q f) : Owes q' := by
  obtain ⟨op, now⟩ := e
  cases op with
  | clean =>
    simp only [Proc.Proc.step] at hs
    cases hs
    obtain ⟨h1, h2, -⟩ := clean_quiet q now
    obtain ⟨ys, h3, h4⟩ := clean_silent q now
    refine h.quiet h3 (fun y hy f => ?_) fun f hw => ?_
    · unfold didSend
      split
      · next m hm => exact absurd hm (h4 y hy m)
      · rfl
    · unfold WaitsFor; rw [h1, h2]; exact hw
  | recv m =>
    simp only [Proc.Proc.step] at hs
    split at hs
    · next hidle =>
      have hnot : ∀ f, q.main ≠ .added f := by intro f e; rw [hidle] at e; cases e
      unfold Proc.Proc.receive at hs
      split at hs
      · next ty fid nm c =>
        cases hs
        by_cases hty : ty = .delete
        · simp only [Proc.Proc.onFunctionRequest, hty, if_true]
          refine h.quiet (ys := [(now, .recv (.functionRequest .delete fid nm c))]) rfl (by simp [didSend]) fun f hw => ?_
          exact ⟨hw.1, nofun⟩
        · simp only [Proc.Proc.onFunctionRequest, hty, if_false]
          exact h.quiet (ys := [(now, .recv (.functionRequest ty fid nm c))]) rfl (by simp [didSend]) fun f hw => hw
      · next k' =>
        cases hs
        have hq := ht k' rfl
        cases hg : q.functions.get? k'.functionId with
        | some f =>
          simp only [Proc.Proc.onTask, Proc.Proc.note, hg]
          refine h.quiet (ys := [(now, .recv (.task k')), (now, .used k'.functionId)]) ?_ (by simp [didSend]) fun f hw => ?_
          · simp
          · obtain ⟨⟨k, hk, -⟩, -⟩ := hw
            rw [hq] at hk; cases hk
        | none =>
          simp only [Proc.Proc.onTask, Proc.Proc.note, hg]
          intro f
          have h1 := h f
          have h2 : waitWeight q f = 0 := waitWeight_zero (by rintro ⟨⟨k, hk, -⟩, -⟩; rw [hq] at hk; cases hk)
          by_cases e : k'.functionId = f
          · have h3 : ∀ q' : Proc.Proc F, q'.task = some k' → q'.main = q.main → waitWeight q' f = 1 := fun q' h3 h4 =>
              WaitsFor.one ⟨⟨k', h3, e⟩, fun g => h4 ▸ hnot g⟩
            rw [h3]
            · simp [weigh_append, weigh_cons, weigh_nil, didSend, didRecv, askWeight, replyWeight, e]
              omega
            · rfl
            · rfl
          · simp [weigh_append, weigh_cons, weigh_nil, didSend, didRecv, askWeight, replyWeight, e]
            omega
      · next st fid nm c =>
        have hw := hf st fid nm c rfl hidle
        simp only at hs
        split at hs
        · next q1 h1 =>
          cases hs
          unfold Proc.Proc.onFunctionResponse at h1
          split at h1
          · cases h1
            intro f
            have h2 := h f
            by_cases e : fid = f
            · subst e
              rw [hw.one] at h2
              simp [Proc.Proc.note, weigh_append, weigh_cons, weigh_nil, didSend, didRecv, replyWeight]
              omega
            · have : waitWeight q f = 0 := by
                refine waitWeight_zero ?_
                rintro ⟨⟨k, hk, hk'⟩, -⟩
                obtain ⟨⟨k', hk1, hk2⟩, -⟩ := hw
                rw [hk] at hk1
                cases hk1
                exact e (hk2.symm.trans hk')
              simp [Proc.Proc.note, weigh_append, weigh_cons, weigh_nil, didSend, didRecv, replyWeight, e]
              omega
          · cases h1
        · cases hs
      · next h1 h2 h3 =>
        cases hs
        exact h.quiet (ys := [(now, .recv m)]) rfl (by simp [didSend]) fun f hw => hw
    · cases hs
      exact h
  | work c dur =>
    simp only [Proc.Proc.step] at hs
    unfold Proc.Proc.work at hs
    split at hs
    · cases hs
      exact h
    · next k' hm' =>
      cases hs
      exact h.quiet (ys := [(now, .stamped k'.functionId)]) rfl (by simp [didSend]) fun f hw => ⟨hw.1, nofun⟩
    · next k' hm' =>
      split at hs
      · cases hs
        exact h.quiet (ys := [(now, .used k'.functionId)]) rfl (by simp [didSend]) fun f hw => ⟨hw.1, nofun⟩
      · cases hs
        exact h.quiet (ys := []) (by simp) (by simp) fun f hw => ⟨hw.1, nofun⟩
    · next k' f hm' =>
      cases hs
      exact h.quiet (ys := [(now, .stamped k'.functionId)]) rfl (by simp [didSend]) fun f hw => ⟨hw.1, nofun⟩
    · next k' f hm' =>
      unfold Proc.Proc.answer at hs
      split at hs
      · next r _ =>
        cases hs
        exact h.quiet (ys := [(now, .sent (.taskResult k'.taskId .success dur r))]) rfl (by simp [didSend, askWeight]) fun f hw => ⟨hw.1, nofun⟩
      · split at hs
        · next r _ =>
          cases hs
          exact h.quiet (ys := [(now, .sent (.taskResult k'.taskId .failed dur r))]) rfl (by simp [didSend, askWeight]) fun f hw => ⟨hw.1, nofun⟩
        · cases hs
    · next fid hm' =>
      split at hs
      · next k' hk' =>
        cases hs
        exact h.quiet (ys := [(now, .stamped fid)]) rfl (by simp [didSend]) fun f hw => absurd hm' (hw.2 fid)
      · cases hs
    · next fid hm' =>
      cases hs
      exact h.quiet (ys := []) (by simp) (by simp) fun f hw => ⟨hw.1, nofun⟩

/-! ### The scheduler -/

theorem weigh_eq_zero {α : Type} {g : α → Nat} {l : List α} (h : ∀ y ∈ l, g y = 0) : weigh g l = 0 := by
  induction l with
  | nil => rfl
  | cons y l ih => rw [weigh_cons, h y List.mem_cons_self, ih fun y hy => h y (List.mem_cons_of_mem _ hy)]

/-- What the scheduler says to a question about a function. -/
theorem sched_replies {sc sc' : Sched.Sched} {e : Sched.Event} (hs : sc.step e = .ok sc') {w f nm c : Bytes}
    (he : e.op = .recv w (.functionRequest .request f nm c)) :
    ∃ st nm c, sc'.out = sc.out ++ [(w, .functionResponse st f nm c)] ∧ (st = .notExists → Props.functionOf sc f = none) := by
  simp only [Sched.step, he, Sched.Sched.receive, Sched.Sched.onFunction, Except.ok.injEq] at hs
  subst hs
  unfold Sched.Sched.functionRequest
  split
  · next hf => exact ⟨_, _, _, rfl, fun _ => hf⟩
  · exact ⟨_, _, _, rfl, nofun⟩

/-- The peer sends no graph and about functions only questions. -/
def AsksOnly (l : Log) (w : Bytes) : Prop :=
  (∀ ty f nm c, (w, Message.functionRequest ty f nm c) ∈ l → ty = .request) ∧ ∀ g, (w, Message.graphTask g) ∉ l

/-- The scheduler answers a peer that only asks at most once per question. -/
theorem Reach.replies (hr : Reach p rt cfg s) {w : Bytes} (hw : AsksOnly s.received w) (f : Bytes) :
    weigh (replyWeight f) (withPeer w s.sched.out) ≤ weigh (askWeight f) (withPeer w s.received) := by
  induction hr with
  | init => exact Nat.zero_le _
  | @step s s' o hr hs ih =>
    rcases sched_moves hs with ⟨h1, h2⟩ | ⟨e, h1, h2, h3, h4⟩
    · rw [h1, h2]
      exact ih (h2 ▸ hw)
    · have hw0 : AsksOnly s.received w := by
        rw [h2] at hw
        exact ⟨fun ty f nm c hm => hw.1 ty f nm c (List.mem_append_left _ hm), fun g hg => hw.2 g (List.mem_append_left _ hg)⟩
      have ih := ih hw0
      obtain ⟨ms, ho, hq⟩ := Py.Post.ok (step_emits s.sched e) h1
      by_cases hm : ∃ st nm c, (w, Message.functionResponse st f nm c) ∈ ms
      · obtain ⟨st, nm, c, hm⟩ := hm
        rcases hq _ hm with ⟨ty, nm', c', h5, -, -⟩ | ⟨gt, rest, -, h5, -⟩
        · have hin : (w, Message.functionRequest ty f nm' c') ∈ e.input := by simp [Sched.Event.input, h5]
          have hty := hw.1 ty f nm' c' (by rw [h2]; exact List.mem_append_right _ hin)
          subst hty
          obtain ⟨st', nm2, c2, h6, -⟩ := sched_replies h1 h5
          rw [h6, h2, withPeer_append, withPeer_append, weigh_append, weigh_append]
          have h7 := weigh_pos (f := askWeight f) (withPeer_mem hin)
          have h8 : weigh (replyWeight f) (withPeer w [(w, Message.functionResponse st' f nm2 c2)]) = 1 := by
            simp [withPeer, weigh_cons, weigh_nil, replyWeight]
          simp only [askWeight, if_true] at h7
          omega
        · have := hr.inv.sched.good.inv.queue w gt (by rw [show s.sched.abs.queue = _ from h5]; exact List.mem_cons_self)
          exact absurd this.1 (hw0.2 gt)
      · have h0 : weigh (replyWeight f) (withPeer w ms) = 0 := by
          refine weigh_eq_zero fun m hmm => ?_
          unfold withPeer at hmm
          obtain ⟨⟨y, m'⟩, h5, h6⟩ := List.mem_filterMap.1 hmm
          simp only at h6
          split at h6
          · next e => 
            cases h6
            subst e
            unfold replyWeight
            split
            · next st g nm c =>
              split
              · next e => subst e; exact absurd ⟨_, _, _, h5⟩ hm
              · rfl
            · rfl
          · cases h6
        rw [ho, h2, withPeer_append, withPeer_append, weigh_append, weigh_append, h0]
        omega

/-! ### Together -/

/-- what an agent heard -/
def heardBy (l : Worker.Hist) : List Message := l.filterMap fun x => match x.2 with | .heard m => some m | _ => none
/-- what a processor sent -/
def saidBy (q : Proc.Proc F) : List Message := q.log.filterMap fun x => match x.2 with | .sent m => some m | _ => none

theorem weigh_filterMap {α β : Type} (g : β → Nat) (h : α → Option β) (l : List α) :
    weigh g (l.filterMap h) = weigh (fun x => match h x with | some m => g m | none => 0) l := by
  induction l with
  | nil => rfl
  | cons x l ih =>
    rw [List.filterMap_cons, weigh_cons]
    split
    · next e => rw [ih, e]; simp
    · next e => rw [weigh_cons, ih, e]

theorem weigh_le_weigh {α : Type} {g g' : α → Nat} (l : List α) (h : ∀ x, g x ≤ g' x) : weigh g l ≤ weigh g' l := by
  induction l with
  | nil => exact Nat.le_refl _
  | cons x l ih => rw [weigh_cons, weigh_cons]; have := h x; omega

theorem weigh_congr {α : Type} {g g' : α → Nat} (l : List α) (h : ∀ x, g x = g' x) : weigh g l = weigh g' l := by
  rw [show g = g' from funext h]

theorem sentBy_weigh (g : Message → Nat) (l : Worker.Hist) : weigh g (sentBy l) = weigh (actSent g) l := by
  unfold sentBy
  rw [weigh_filterMap]
  refine weigh_congr l fun x => ?_
  obtain ⟨now, x⟩ := x
  cases x <;> rfl

theorem gotBy_weigh (g : Message → Nat) (l : Worker.Hist) : weigh g (gotBy l) = weigh (actRecv g) l := by
  unfold gotBy
  rw [weigh_filterMap]
  refine weigh_congr l fun x => ?_
  obtain ⟨now, x⟩ := x
  cases x <;> rfl

theorem heardBy_weigh (g : Message → Nat) (l : Worker.Hist) : weigh g (heardBy l) = weigh (actHeard g) l := by
  unfold heardBy
  rw [weigh_filterMap]
  refine weigh_congr l fun x => ?_
  obtain ⟨now, x⟩ := x
  cases x <;> rfl

theorem toldList_weigh (g : Message → Nat) (n : Nat) (l : Worker.Hist) : weigh g (toldList n l) ≤ weigh (actTold g) l := by
  unfold toldList
  rw [weigh_filterMap]
  refine weigh_le_weigh l fun x => ?_
  obtain ⟨now, x⟩ := x
  cases x with
  | told j m =>
    by_cases e : j = n
    · simp [actTold, e]
    · simp [actTold, e]
  | _ => exact Nat.le_refl _

theorem takenList_weigh (g : Message → Nat) (q : Proc.Proc F) : weigh g (takenList q) = weigh (didRecv g) q.log := by
  unfold takenList
  rw [weigh_filterMap]
  refine weigh_congr q.log fun x => ?_
  obtain ⟨now, x⟩ := x
  cases x <;> rfl

theorem saidBy_weigh (g : Message → Nat) (q : Proc.Proc F) : weigh g (saidBy q) = weigh (didSend g) q.log := by
  unfold saidBy
  rw [weigh_filterMap]
  refine weigh_congr q.log fun x => ?_
  obtain ⟨now, x⟩ := x
  cases x <;> rfl

theorem heardBy_count (l : Worker.Hist) (m : Message) : (heardBy l).count m = heardOf m l := by
  unfold heardOf
  induction l with
  | nil => rfl
  | cons x l ih =>
    obtain ⟨y, n⟩ := x
    unfold heardBy at ih ⊢
    rw [List.filterMap_cons, List.countP_cons]
    cases n <;> simp [ih, List.count_cons]

theorem saidBy_count (q : Proc.Proc F) (m : Message) : (saidBy q).count m = q.log.countP fun x => decide (x.2 = .sent m) := by
  unfold saidBy
  induction q.log with
  | nil => rfl
  | cons x l ih =>
    obtain ⟨y, n⟩ := x
    rw [List.filterMap_cons, List.countP_cons]
    cases n <;> simp [ih, List.count_cons]

variable {w : Bytes} {a : Worker.Agent} {ret : Int} {qs : List (Proc.Proc F)} {left : Option Bytes}

theorem Inv.asksOnly (h : Inv p rt cfg s) (hx : s.peers w = .worker a ret qs left) : AsksOnly s.received w := by
  have key : ∀ m, (w, m) ∈ s.received → m = .disconnectRequest (left.getD []) ∨ Worker.Passed a.log (.sent m) := by
    intro m hm
    rcases Peer.sent_pos (h.received hm) with ⟨c, hc, -⟩ | ⟨a', ret', qs', left', hx', hc⟩
    · rw [hx] at hc; cases hc
    · rw [hx] at hx'
      cases hx'
      rcases hc with ⟨now, hc⟩ | ⟨id, rfl, hc⟩
      · exact .inr (h.workerSent hx hc)
      · exact .inl hc
  refine ⟨fun ty f nm c hm => ?_, fun g hm => ?_⟩
  · rcases key _ hm with h | h
    · cases h
    · exact h
  · rcases key _ hm with h | h
    · cases h
    · exact h

/-- From the answers of the agent back to the questions of the only processor. -/
theorem Reach.chain (hr : Reach p rt cfg s) {q : Proc.Proc F} (hx : s.peers w = .worker a ret [q] left) (f : Bytes) :
    weigh (replyWeight f) (toldList 0 a.log) ≤ weigh (askWeight f) (withPeer w s.received) ∧
    weigh (askWeight f) (sentBy a.log) ≤ weigh (didSend (askWeight f)) q.log := by
  have h := hr.inv
  obtain ⟨d, st, hw⟩ := h.worker hx
  obtain ⟨h1, h2, -⟩ := reach_passes hw
  constructor
  · refine Nat.le_trans (toldList_weigh _ 0 _) (Nat.le_trans (h2 f) (Nat.le_trans ?_ (hr.replies (h.asksOnly hx) f)))
    rw [← gotBy_weigh]
    refine weigh_le fun m _ => ?_
    rw [withPeer_count, gotBy_count]
    have := h.got w m
    rw [hx] at this
    exact this
  · rw [sentBy_weigh]
    refine Nat.le_trans (h1 f) ?_
    rw [← heardBy_weigh, ← saidBy_weigh]
    refine weigh_le fun m _ => ?_
    rw [heardBy_count, saidBy_count]
    have hP := h.peer w
    rw [hx] at hP
    have := hP.2.2.2 m
    simpa [procsSent, heardOf] using this

end Verif.System
