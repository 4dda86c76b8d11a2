import Verif.System.Unfailing

/-!
# Nodes of graphs return

Lemmas.
-/

namespace Verif.System

open Verif.Wire Verif.Sched Verif.Spec
open Verif.Client (Pickle)

variable {F V X : Type} {p : Pickle} {rt : Proc.Runtime F V X} {cfg : Config} {s s' : Sys F} {es : List Sched.Event}

theorem loads_all : ∀ {as : List Argument}, (∀ a ∈ as, ∃ v, rt.loadArg a.data = .ok v) → ∀ x, ¬ Processor.LoadFails rt as x
  | _ :: _, h, x, .head hx => by
    obtain ⟨v, hv⟩ := h _ List.mem_cons_self
    rw [hv] at hx; cases hx
  | _ :: _, h, x, .tail _ hx => loads_all (fun a ha => h a (List.mem_cons_of_mem _ ha)) x hx

/-- A step of the main thread of a processor that has its function: it keeps having it, and a failure is due to the function or
its arguments. -/
theorem holds_step {q q' : Proc.Proc F} {e : Proc.Event} (hi : innerProc e.op = true) (hh : HasFunction q) (ha : ∀ f k, q.main = .added f → q.task = some k → k.functionId = f)
    (h : q.step rt e = .ok q') : HasFunction q' ∧ ∀ now t d r, (now, Proc.Act.sent (.taskResult t .failed d r)) ∈ q'.log →
      (now, Proc.Act.sent (.taskResult t .failed d r)) ∈ q.log ∨ ∃ k f x, q.main = .call k (some f) ∧ k.taskId = t ∧ Processor.Raises rt f k.args x := by
  obtain ⟨op, now⟩ := e
  cases op with
  | clean => cases hi
  | recv m =>
    simp only [Proc.Proc.step] at h
    split at h
    · next hm =>
      unfold Proc.Proc.receive at h
      cases m
      case task k =>
        cases h
        unfold Proc.Proc.onTask
        split
        · next hf =>
          refine ⟨?_, fun now t d r hs => .inl ?_⟩
          · simp [HasFunction, Proc.Proc.note, show q.functions.get? k.functionId = some _ from hf]
          · simpa [Proc.Proc.note] using hs
        · refine ⟨by simp [HasFunction, Proc.Proc.note, hm], fun now t d r hs => .inl (by simpa [Proc.Proc.note] using hs)⟩
      case functionResponse st fid nm c =>
        simp only at h
        split at h
        · next q1 h1 =>
          cases h
          unfold Proc.Proc.onFunctionResponse at h1
          split at h1
          · cases h1
            exact ⟨by simp [HasFunction, Dict.get?_set], fun now t d r hs => .inl (by simpa [Proc.Proc.note] using hs)⟩
          · cases h1
        · cases h
      case functionRequest ty fid nm c =>
        cases h
        unfold Proc.Proc.onFunctionRequest
        split
        · exact ⟨by simp [HasFunction], fun now t d r hs => .inl (by simpa [Proc.Proc.note] using hs)⟩
        · exact ⟨by simp [HasFunction, Proc.Proc.note, hm], fun now t d r hs => .inl (by simpa [Proc.Proc.note] using hs)⟩
      all_goals
        cases h
        exact ⟨by simp [HasFunction, Proc.Proc.note, hm], fun now t d r hs => .inl (by simpa [Proc.Proc.note] using hs)⟩
    · cases h
      exact ⟨hh, fun _ _ _ _ => .inl⟩
  | work c dur =>
    simp only [Proc.Proc.step, Proc.Proc.work] at h
    split at h
    · cases h
      exact ⟨hh, fun _ _ _ _ => .inl⟩
    · next k hm =>
      cases h
      rw [HasFunction, hm] at hh
      exact ⟨by simpa [HasFunction, Proc.Proc.stamp, Proc.Proc.note] using hh, fun now t d r hs => .inl (by simpa [Proc.Proc.stamp, Proc.Proc.note] using hs)⟩
    · next k hm =>
      rw [HasFunction, hm] at hh
      split at h
      · cases h
        exact ⟨by simp [HasFunction], fun now t d r hs => .inl (by simpa [Proc.Proc.note] using hs)⟩
      · next hn => simp [hn] at hh
    · next k f hm =>
      cases h
      exact ⟨by simp [HasFunction], fun now t d r hs => .inl (by simpa [Proc.Proc.stamp, Proc.Proc.note] using hs)⟩
    · next k f hm =>
      rw [HasFunction, hm] at hh
      obtain ⟨f, rfl⟩ := Option.isSome_iff_exists.1 hh
      unfold Proc.Proc.answer at h
      split at h
      · cases h
        exact ⟨by simp [HasFunction], fun now t d r hs => .inl (by simpa [Proc.Proc.note] using hs)⟩
      · next x hx =>
        split at h
        · cases h
          refine ⟨by simp [HasFunction], fun now t d r hs => ?_⟩
          simp only [Proc.Proc.note, List.mem_append, List.mem_singleton] at hs
          rcases hs with hs | hs
          · exact .inl hs
          · cases hs
            exact .inr ⟨k, f, x, hm, rfl, Proc.evaluate_raises hx⟩
        · cases h
    · next fid hm =>
      split at h
      · next k hk =>
        cases h
        rw [HasFunction, hm] at hh
        refine ⟨?_, fun now t d r hs => .inl (by simpa [Proc.Proc.stamp, Proc.Proc.note] using hs)⟩
        rw [← ha fid k hm hk] at hh
        simpa [HasFunction, Proc.Proc.stamp, Proc.Proc.note] using hh
      · cases h
    · next fid hm =>
      cases h
      exact ⟨by simp [HasFunction], fun now t d r hs => .inl hs⟩

/-- An id of a graph that was asked for is not that of a task. -/
theorem notAsked (h : Inv p rt cfg s) {c : Bytes} {k : Task} (hk : (c, .task k) ∈ s.received) : ¬ AskedFor s k.taskId := by
  rintro ⟨call, h1, ht⟩
  obtain ⟨c, nm, b, hx, h2, -⟩ := h.taskSent (h.received hk)
  have h3 := h.calls call h1
  cases hy : s.peers call.client with
  | client d =>
    rw [hy] at h3
    obtain ⟨-, base, ⟨hg, -⟩, -⟩ := h3
    obtain rfl := h.same (Inv.submitted_id hx h2) (Inv.graph_id hy hg ht)
    rw [hx] at hy; cases hy
    exact submitted_graph (h.client hx).ids h2 hg ht
  | _ => rw [hy] at h3; exact h3.elim

/-- What the scheduler knows as a graph was asked for. -/
theorem inGraph_asked (h : Inv p rt cfg s) {t : Bytes} (ht : InGraph s.received t) : AskedFor s t := by
  obtain ⟨c, gt, hg, ht⟩ := ht
  obtain ⟨cl, h1, h2⟩ := h.graphSent (h.received hg)
  obtain ⟨call, h3, -, h4⟩ := h.built c gt (by rw [h1]; exact h2)
  exact ⟨call, h3, h4 ▸ ht⟩

theorem args_from {l : Sched.History} : ∀ {as as' : List Argument}, ArgsOK l as as' → ∀ a' ∈ as', ∃ a ∈ as, ArgOK l a a'
  | _, _, .cons h1 h2, a', ha => by
    rcases List.mem_cons.1 ha with rfl | ha
    · exact ⟨_, List.mem_cons_self, h1⟩
    · obtain ⟨a, h3, h4⟩ := args_from h2 a' ha
      exact ⟨a, List.mem_cons_of_mem _ h3, h4⟩

/-- The function of a node raises nothing. -/
theorem node_returns (h : Inv p rt cfg s) (hi : ∀ b b', p.hash b = p.hash b' → b = b') (hG : GraphsReturn rt s) {x : Bytes} {a : Worker.Agent} {ret : Int}
    {qs : List (Proc.Proc F)} {left : Option Bytes} (hx : s.peers x = .worker a ret qs left) {n : Nat} {q : Proc.Proc F} (hq : qs[n]? = some q) {k : Task} {f : F}
    (hm : q.main = .call k (some f)) (ht : AskedFor s k.taskId) (e : X) : ¬ Processor.Raises rt f k.args e := by
  have hP := h.peer x
  rw [hx] at hP
  obtain ⟨⟨start, hr⟩, -⟩ := hP.2.2.1 n q hq
  have hinv := hr.inv
  obtain ⟨b, h1, h2⟩ := hinv.held k f (by rw [hm]; rfl)
  obtain ⟨h3, -⟩ := Props.proc_function h hx hq (fun _ hy => hy) h1
  obtain ⟨now, h4⟩ := hinv.mainRecv k (by rw [hm]; rfl)
  obtain ⟨u, h5⟩ := Props.proc_got h hx hq h4
  obtain ⟨d, start', hr'⟩ := h.worker hx
  have hout : (x, Message.task k) ∈ s.sched.out := Props.agent_got h hx (hr'.flow.passed _ h5)
  rcases h.sched.good.inv.sent _ _ hout with ⟨c, h6⟩ | ⟨c, gt, T, h6, h7, h8, h9, h10⟩
  · exact absurd ht (notAsked h h6)
  · obtain ⟨cl, h11, h12⟩ := h.graphSent (h.received h6)
    obtain ⟨call, h13, h14, rfl⟩ := h.built c gt (by rw [h11]; exact h12)
    have h15 := h.calls call h13
    rw [h14, h11] at h15
    obtain ⟨y, nm, cb, as, h16, h17, h18⟩ := built_task h15.1 h7
    obtain rfl := hi b cb (by rw [← h3, h9, h17])
    have hload : ∀ x, ¬ Processor.LoadFails rt k.args x := by
      refine loads_all fun a' ha => ?_
      obtain ⟨a, h19, h20⟩ := args_from h10 a' ha
      unfold ArgOK at h20
      split at h20
      · next hd =>
        subst h20
        obtain ⟨z, hz⟩ := (h18 a' h19).1 hd
        exact hG.data call h13 z _ hz
      · next hd =>
        obtain ⟨-, w, d, hw⟩ := h20
        have hin := Inv.graph_id h11 h12 (List.mem_cons_of_mem _ ((h18 a h19).2 hd))
        obtain ⟨k', -, -, b', f', -, -, -, vs, cc, v, -, -, hv⟩ := Props.worked h hw nofun nofun (h.ids c _ hin).2
        exact hG.result v _ hv
    rintro (h19 | ⟨vs, cc, -, h19⟩)
    · exact hload e h19
    · obtain ⟨v, r, h20, h21⟩ := hG.call call h13 y nm b as f h16 h2 vs cc
      rcases h19 with h19 | ⟨v', h19, h22⟩
      · rw [h20] at h19; cases h19
      · rw [h20] at h19; cases h19
        rw [h21] at h22; cases h22

/-- Nothing goes wrong with the nodes in an inner step. -/
theorem fine_step (h : Orderly p rt cfg es s) (hi : ∀ b b', p.hash b = p.hash b' → b = b') (hG : GraphsReturn rt s) (hF : FineSoFar s) {o : Op}
    (ho : inner o = true) (hs : s.step p rt o = some s') : FineSoFar s' ∧ s'.gets = s.gets := by
  have hg : s'.gets = s.gets := by
    rcases step_gets hs with hg | ⟨_, _, _, _, _, _, _, rfl, -⟩
    · exact hg
    · cases ho
  refine ⟨fun x a ret qs left q hx hq => ?_, hg⟩
  have hask : ∀ t, AskedFor s' t ↔ AskedFor s t := fun t => by unfold AskedFor; rw [hg]
  have old : ∀ {a0 qs0 left0}, s.peers x = .worker a0 ret qs0 left0 → q ∈ qs0 →
      HasFunction q ∧ ∀ now t d r, (now, Proc.Act.sent (.taskResult t .failed d r)) ∈ q.log → ¬ AskedFor s' t := by
    intro a0 qs0 left0 h1 h2
    obtain ⟨h3, h4⟩ := hF x _ _ _ _ q h1 h2
    exact ⟨h3, fun now t d r h5 h6 => h4 now t d r h5 ((hask t).1 h6)⟩
  have fresh : ∀ {r start : Int}, q = Proc.Proc.init r start →
      HasFunction q ∧ ∀ now t d r, (now, Proc.Act.sent (.taskResult t .failed d r)) ∈ q.log → ¬ AskedFor s' t := by
    rintro r start rfl
    refine ⟨by simp [HasFunction, Proc.Proc.init], fun now t d r h1 => ?_⟩
    simp [Proc.Proc.init, Proc.Proc.sentinel] at h1
  cases o with
  | sched e =>
    have hp : s'.peers = s.peers := by
      obtain ⟨op, now, od⟩ := e
      simp only [Sys.step, Sys.schedStep] at hs
      repeat' split at hs
      all_goals first | (cases hs; rfl) | cases hs
    rw [hp] at hx
    exact old hx hq
  | client y co =>
    have hp : ∃ c', s'.peers = (s.setPeer y (.client c')).peers := by
      simp only [Sys.step] at hs
      split at hs
      · unfold Sys.clientOp Sys.clientStep at hs
        cases co <;> simp only at hs
        all_goals repeat' split at hs
        all_goals first | (cases hs; exact ⟨_, rfl⟩) | cases hs
      · cases hs
    obtain ⟨c', hp⟩ := hp
    rw [hp] at hx
    simp only [Sys.setPeer] at hx
    split at hx
    · cases hx
    · exact old hx hq
  | agent y e =>
    simp only [Sys.step] at hs
    split at hs
    · next a0 ret0 qs0 hy =>
      have hp : ∃ a' now, s' = s.setPeer y (.worker a' ret0 (extend ret0 now qs0 a'.procs) none) := by
        unfold Sys.agentOp Sys.agentStep at hs
        obtain ⟨op, now⟩ := e
        cases op <;> simp only at hs
        all_goals repeat' split at hs
        all_goals first | (cases hs; exact ⟨_, _, rfl⟩) | cases hs
      obtain ⟨a', now, rfl⟩ := hp
      simp only [Sys.setPeer] at hx
      split at hx
      · next hxy =>
        subst hxy
        cases hx
        unfold extend at hq
        rcases List.mem_append.1 hq with hq | hq
        · exact old hy hq
        · exact fresh (List.eq_of_mem_replicate hq)
      · exact old hx hq
    · cases hs
  | proc y n e =>
    have hst := hs
    simp only [Sys.step] at hs
    split at hs
    · next a0 ret0 qs0 hy =>
      have hp : ∃ q0 q1 e', qs0[n]? = some q0 ∧ innerProc e'.op = true ∧ q0.step rt e' = .ok q1 ∧ s' = s.setPeer y (.worker a0 ret0 (qs0.set n q1) none) := by
        unfold Sys.procOp Sys.procStep at hs
        split at hs
        · split at hs
          · cases hs
          · next q0 hq0 =>
            obtain ⟨op, now⟩ := e
            cases op <;> simp only at hs
            · repeat' split at hs
              all_goals first | (cases hs; done) | skip
              next h1 =>
                cases hs
                exact ⟨q0, _, _, hq0, rfl, h1, rfl⟩
            · split at hs
              · next h1 => cases hs; exact ⟨q0, _, _, hq0, rfl, h1, rfl⟩
              · cases hs
            · cases ho
        · cases hs
      obtain ⟨q0, q1, e', hq0, he', h1, rfl⟩ := hp
      simp only [Sys.setPeer] at hx
      split at hx
      · next hxy =>
        subst hxy
        cases hx
        rcases List.mem_or_eq_of_mem_set hq with hq | rfl
        · exact old hy hq
        · have hmem := List.mem_of_getElem? hq0
          obtain ⟨h2, h3⟩ := hF x _ _ _ _ q0 hy hmem
          have hadd : ∀ f k, q0.main = .added f → q0.task = some k → k.functionId = f := by
            intro f k h4 h5
            obtain ⟨q', rfl, -⟩ := Steady.owes h.steady h.noCancel hy
            cases List.mem_singleton.1 hmem
            obtain ⟨k', h6, h7⟩ := Steady.added h.steady h.noCancel hy f h4
            rw [h5] at h6
            cases h6
            exact h7
          obtain ⟨h4, h5⟩ := holds_step he' h2 hadd h1
          refine ⟨h4, fun now t d r h6 h7 => ?_⟩
          rcases h5 now t d r h6 with h8 | ⟨k, f, e, h8, rfl, h9⟩
          · exact h3 now t d r h8 h7
          · exact node_returns h.reach.inv hi hG hy hq0 h8 h7 e h9
      · exact old hx hq
    · cases hs
  | _ => cases ho

/-- What the processors say is what the workers say. -/
theorem fine_nodes (h : Inv p rt cfg s) (hF : FineSoFar s) : NodesReturn s := by
  intro x t d r hm ht
  rcases Peer.sent_pos hm with ⟨c, hx, hm⟩ | ⟨a, ret, qs, left, hx, ⟨now, hm⟩ | ⟨id, -, hm⟩⟩
  · obtain ⟨l, -, h3⟩ := h.clientSent hx hm
    exact h3.elim
  · rcases h.workerSent hx hm with ⟨h3 | h3, -⟩ | h3
    · cases h3
    · cases h3
    · obtain ⟨n, q, now', hq, hs⟩ := Props.agent_heard h hx h3
      exact (hF x _ _ _ _ q hx (List.mem_of_getElem? hq)).2 now' t d r hs (inGraph_asked h ht)
  · cases hm

/-- Without graphs no node of a graph fails. -/
theorem noGets_nodes (h : Inv p rt cfg s) (hg : s.gets = []) : NodesReturn s := fun x t d r _ ht => by
  obtain ⟨k, hk, -⟩ := inGraph_asked h ht
  rw [hg] at hk; cases hk

/-- No node of a graph fails while the system goes on. -/
theorem continues_fine {es' : List Sched.Event} (hc : Continues p rt es s es' s') (h : Orderly p rt cfg es s) (hi : ∀ b b', p.hash b = p.hash b' → b = b')
    (hG : GraphsReturn rt s) (hF : FineSoFar s) : NodesReturn s' := by
  induction hc with
  | refl es s => exact fine_nodes h.reach.inv hF
  | step o ho hs hm hp _ ih =>
    obtain ⟨h1, h2⟩ := fine_step h hi hG hF ho hs
    exact ih (.step o h hs hm hp) ⟨by rw [h2]; exact hG.data, hG.result, by rw [h2]; exact hG.call⟩ h1

/-- The same without graphs. -/
theorem continues_noGets {es' : List Sched.Event} (hc : Continues p rt es s es' s') (h : Orderly p rt cfg es s) (hg : s.gets = []) : NodesReturn s' := by
  induction hc with
  | refl es s => exact noGets_nodes h.reach.inv hg
  | step o ho hs hm hp _ ih =>
    refine ih (.step o h hs hm hp) ?_
    rcases step_gets hs with h1 | ⟨_, _, _, _, _, _, _, rfl, -⟩
    · rw [h1, hg]
    · cases ho

end Verif.System
