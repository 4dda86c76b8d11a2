import Verif.System.Settle
import Verif.Props.RestRuns

/-!
# C91: left alone, a system comes to rest
-/

namespace Verif.Props

open Verif.Wire Verif.Sched Verif.Spec Verif.System

variable {F V X : Type} {p : Client.Pickle} {rt : Proc.Runtime F V X} {cfg : Config} {s s' : Sys F}

/-- **C91.** No execution goes on for ever by itself: if from some point on users make no calls, nobody joins or leaves, no
heartbeat is due and no clock runs out, then after finitely many events nothing happens any more; only the task routine
may go on looking for a worker, without sending anything. -/
theorem C91_settles (run : Nat → Sys F) (ops : Nat → System.Op) (hr : System.Reach p rt cfg (run 0)) (hi : ∀ i, inner (ops i) = true)
    (hs : ∀ i, (run i).step p rt (ops i) = some (run (i + 1))) : ∃ n, ∀ i, n ≤ i → Idle (run i) (ops i) (run (i + 1)) := by
  obtain ⟨xs, hl⟩ := hr.listed
  exact Run.settles _ run ops ⟨hr, hl, hi, hs⟩ rfl

/-- **C91.** From every state inner events lead to one in which nothing is left to do. -/
theorem C91_still (hr : System.Reach p rt cfg s) : ∃ s', Inner p rt s s' ∧ Still p rt s' := hr.still

theorem inner_reach (hr : System.Reach p rt cfg s) (h : Inner p rt s s') : System.Reach p rt cfg s' := by
  induction h with
  | refl => exact hr
  | step o _ hs _ ih => exact ih (.step o hr hs)

theorem idle_same {o : System.Op} (h : Idle s o s') (ho : ∀ e, o = .sched e → e.op ≠ .taskRoutine) : s' = s := by
  rcases h with h | ⟨e, h1, h2, -⟩
  · exact h
  · exact absurd h2 (ho e h1)

theorem work_main {q q' : Proc.Proc F} {now : Int} {c : Nat} {d : UInt32} (hm : q.main ≠ .idle) (h : q.work rt now c d = .ok q') : q' ≠ q := by
  intro e
  subst e
  unfold Proc.Proc.work at h
  split at h <;> rename_i h0
  · exact hm h0
  · have := congrArg Proc.Proc.main (Except.ok.inj h); rw [h0] at this; cases this
  · split at h <;> (have := congrArg Proc.Proc.main (Except.ok.inj h); rw [h0] at this; cases this)
  · have := congrArg Proc.Proc.main (Except.ok.inj h); rw [h0] at this; cases this
  · unfold Proc.Proc.answer at h
    split at h
    · have := congrArg Proc.Proc.main (Except.ok.inj h); rw [h0] at this; cases this
    · split at h
      · have := congrArg Proc.Proc.main (Except.ok.inj h); rw [h0] at this; cases this
      · cases h
  · split at h
    · have := congrArg Proc.Proc.main (Except.ok.inj h); rw [h0] at this; cases this
    · cases h
  · have := congrArg Proc.Proc.main (Except.ok.inj h); rw [h0] at this; cases this

theorem advance_moves {c c' : Client.Client} (hu : c.user ≠ .idle) (h : c.advance = .ok c') : c' ≠ c := by
  intro e
  subst e
  unfold Client.Client.advance at h
  split at h <;> rename_i h0
  · exact hu h0
  · have := congrArg Client.Client.user (Except.ok.inj h); rw [h0] at this; cases this
  · have := congrArg Client.Client.user (Except.ok.inj h)
    rw [h0] at this
    dsimp only at this
    split at this <;> cases this
  · simp only [Py.bind_ok, Py.pure_eq, Except.ok.injEq] at h
    obtain ⟨c1, -, h⟩ := h
    have := congrArg Client.Client.user h; rw [h0] at this; cases this
  · have := congrArg Client.Client.user (Except.ok.inj h); rw [h0] at this; cases this
  · have := congrArg Client.Client.user (Except.ok.inj h); rw [h0] at this; cases this
  · have := congrArg Client.Client.user (Except.ok.inj h); rw [h0] at this; cases this

theorem take_log {q q' : Proc.Proc F} {now : Int} {m : Message} (h : q.receive rt now m = .ok q') : q' ≠ q := by
  intro e
  have key : ∀ {l : List (Int × Proc.Act)}, q'.log = q.log ++ [(now, Proc.Act.recv m)] ++ l → False := by
    intro l h
    rw [e] at h
    have := congrArg List.length h
    simp at this
  cases m with
  | functionRequest ty f nm c =>
    cases h
    refine key (l := []) ?_
    unfold Proc.Proc.onFunctionRequest
    split <;> simp [Proc.Proc.note]
  | task k =>
    cases h
    unfold Proc.Proc.onTask at key
    split at key
    · exact key rfl
    · exact key rfl
  | functionResponse st f nm c =>
    refine key (l := []) ?_
    unfold Proc.Proc.receive at h
    dsimp only at h
    split at h
    · next q1 hq =>
      have h := Except.ok.inj h
      rw [← h]
      unfold Proc.Proc.onFunctionResponse at hq
      split at hq
      · rw [← Except.ok.inj hq]; simp [Proc.Proc.note]
      · cases hq
    · cases h
  | _ => exact key (l := []) (by rw [← Except.ok.inj h]; exact (List.append_nil _).symm)

/-- **C91.** A state in which nothing is left to do is at rest in the sense of C90, or a part of the system ends with an
exception. -/
theorem C91_rests (hr : System.Reach p rt cfg s) (h : Still p rt s) (hP : Present s) (hF : ¬ Fails p rt s) : Rest s := by
  have go : ∀ o, Due s o → inner o = true → (∀ e, o = .sched e → e.op ≠ .taskRoutine) → s.step p rt o = some s := by
    intro o hd hi ht
    cases hs : s.step p rt o with
    | none => exact absurd ⟨o, hd, hs⟩ hF
    | some s' => rw [idle_same (h o s' hi hs) ht]
  have hpeer : ∀ {x : Bytes} {P : Peer F}, s.setPeer x P = s → P = s.peers x := by
    intro x P e
    have := congrArg (fun s : Sys F => s.peers x) e
    simpa [Sys.setPeer] using this
  refine ⟨fun x m => Nat.not_lt.1 fun hlt => ?_, Classical.byContradiction fun hq => ?_, fun e s' he hs => ?_, hP, fun w a ret qs hx => ⟨fun m => Nat.not_lt.1 fun hlt => ?_, fun now => ?_,
    fun m => Nat.not_lt.1 fun hlt => ?_, fun n q hn hq => ?_⟩, fun x c hx hc => ⟨hc, Classical.byContradiction fun hu => ?_,
    Classical.byContradiction fun ho => ?_, fun m => Nat.not_lt.1 fun hlt => ?_⟩⟩
  · have := go (.sched ⟨.recv x m, 0, fun _ => []⟩) hlt rfl (by rintro e h; cases h; simp)
    simp only [Sys.step, Sys.schedStep, if_pos hlt] at this
    split at this
    · cases this
    · split at this
      · have := congrArg (fun s => s.received.length) (Option.some.inj this)
        simp at this
      · cases this
  · have := go (.sched ⟨.graphRoutine, 0, fun _ => []⟩) hq rfl (by rintro e h; cases h; simp)
    simp only [Sys.step, Sys.schedStep] at this
    split at this
    · next t ht =>
      obtain ⟨⟨c, gt⟩, rest, hc⟩ := List.exists_cons_of_ne_nil hq
      have e1 := graphRoutine_line hc ht
      have := congrArg (fun s => s.sched.gm.queue.length) (Option.some.inj this)
      simp only [e1, hc, List.length_cons] at this
      omega
    · cases this
  · have hst : s.step p rt (.sched e) = some { s with sched := s' } := by
      simp only [Sys.step, Sys.schedStep, he, hs]
    rcases h _ _ (by simp [inner, he]) hst with h1 | ⟨e, -, -, h1, -, -⟩
    · exact congrArg (fun s => s.sched.out) h1
    · exact h1
  · have := go (.agent w ⟨.recv m, 0⟩) ⟨a, ret, qs, hx, hlt⟩ rfl nofun
    simp only [Sys.step, hx, Sys.agentOp] at this
    rw [← hx, if_pos hlt] at this
    split at this
    · cases this
    next y m' hy =>
    have e1 := carryOut_eq hy
    cases e1
    rw [if_pos rfl] at this
    unfold Sys.agentStep at this
    split at this
    case h_2 => cases this
    next a' ha' =>
    have := hpeer (Option.some.inj this)
    rw [hx] at this
    injection this with e1
    have hI := hr.inv.peer w
    rw [hx] at hI
    obtain ⟨⟨d, start, hw⟩, -⟩ := hI
    obtain ⟨-, -, ys, hlog, -, -⟩ := Worker.step_flows hw.flow ha'
    rw [e1] at hlog
    have := congrArg List.length hlog
    simp [Worker.Agent.Event.input] at this
  · have := go (.agent w ⟨.turn, now⟩) ⟨a, ret, qs, hx⟩ rfl nofun
    simp only [Sys.step, hx, Sys.agentOp, Sys.agentStep, Worker.Agent.step] at this
    split at this
    case h_2 => cases this
    next a' ha' =>
    have := hpeer (Option.some.inj this)
    rw [hx] at this
    injection this with e1
    rw [ha', e1]
  · have := go (.agent w ⟨.heard m, 0⟩) ⟨a, ret, qs, hx, hlt⟩ rfl nofun
    simp only [Sys.step, hx, Sys.agentOp] at this
    unfold heardOf at hlt
    rw [if_pos hlt] at this
    split at this
    · cases this
    next m' hy =>
    have e1 := carry_eq hy
    subst e1
    unfold Sys.agentStep at this
    split at this
    case h_2 => cases this
    next a' ha' =>
    have := hpeer (Option.some.inj this)
    rw [hx] at this
    injection this with e1
    have hI := hr.inv.peer w
    rw [hx] at hI
    obtain ⟨⟨d, start, hw⟩, -⟩ := hI
    obtain ⟨-, -, ys, hlog, -, -⟩ := Worker.step_flows hw.flow ha'
    rw [e1] at hlog
    have := congrArg List.length hlog
    simp [Worker.Agent.Event.input] at this
  · have hproc : ∀ {e q'}, q.step rt e = .ok q' → s.setPeer w (.worker a ret (qs.set n q') none) = s → q' = q := by
      intro e q' _ e1
      have := hpeer e1
      rw [hx] at this
      injection this with _ _ e1
      obtain ⟨hlt, e2⟩ := List.getElem?_eq_some_iff.1 hq
      have := congrArg (fun l => l[n]?) e1
      rw [← e2]
      simpa [hlt] using this
    have hm : q.main = .idle := by
      apply Classical.byContradiction
      intro hm
      have := go (.proc w n ⟨.work 0 0, 0⟩) ⟨a, ret, qs, q, hx, hn, hq, hm⟩ rfl nofun
      simp only [Sys.step, hx, Sys.procOp, if_pos hn, hq] at this
      unfold Sys.procStep at this
      split at this
      case h_2 => cases this
      next q' hq' => exact work_main hm hq' (hproc hq' (Option.some.inj this))
    refine ⟨hm, fun m => Nat.not_lt.1 fun hlt => ?_⟩
    have := go (.proc w n ⟨.recv m, 0⟩) ⟨a, ret, qs, q, hx, hn, hq, hm, hlt⟩ rfl nofun
    simp only [Sys.step, hx, Sys.procOp, if_pos hn, hq] at this
    unfold taken toldTo at hlt
    rw [if_pos hlt] at this
    split at this
    · cases this
    next m' hy =>
    have e1 := carry_eq hy
    subst e1
    unfold Sys.procStep at this
    split at this
    case h_2 => cases this
    next q' hq' =>
    have e1 := hproc hq' (Option.some.inj this)
    simp only [Proc.Proc.step, hm] at hq'
    exact take_log hq' e1
  · have := go (.client x .advance) ⟨c, hx, hc, hu⟩ rfl nofun
    simp only [Sys.step, hx, Sys.clientOp, Sys.clientStep, Client.Client.step] at this
    split at this
    case h_2 => cases this
    next c' hc' =>
    have := hpeer (Option.some.inj this)
    rw [hx] at this
    injection this with e1
    subst e1
    exact advance_moves hu hc' rfl
  · have := go (.client x .flush) ⟨c, hx, hc, ho⟩ rfl nofun
    simp only [Sys.step, hx, Sys.clientOp, Sys.clientStep, Client.Client.step, hc, Bool.false_eq_true, if_false] at this
    split at this
    case h_2 => cases this
    next c' hc' =>
    have := hpeer (Option.some.inj this)
    rw [hx] at this
    injection this with e1
    subst e1
    obtain ⟨m, ms, hms⟩ := List.exists_cons_of_ne_nil ho
    simp only [Client.Client.flush, hms, Py.bind_ok, Py.pure_eq, Except.ok.injEq] at hc'
    obtain ⟨-, -, hc'⟩ := hc'
    have := congrArg (fun c => c.outbox.length) hc'
    simp [hms] at this
  · have := go (.client x (.recv m)) ⟨c, hx, hc, hlt⟩ rfl nofun
    simp only [Sys.step, hx, Sys.clientOp] at this
    rw [← hx, if_pos hlt] at this
    split at this
    · cases this
    next y m' hy =>
    have e1 := carryOut_eq hy
    cases e1
    rw [if_pos rfl] at this
    simp only [Sys.clientStep, Client.Client.step, hc, Bool.false_eq_true, if_false] at this
    split at this
    case h_2 => cases this
    next c' hc' =>
    have := hpeer (Option.some.inj this)
    rw [hx] at this
    injection this with e1
    have hlog := Client.receive_log hc'
    rw [e1] at hlog
    have := congrArg List.length hlog
    simp at this

/-- **C91.** Conversely nothing is left to do in a system at rest, if no closed client is in the middle of a call. -/
theorem C91_rest_still (hr : System.Reach p rt cfg s) (hR : Rest s) (hc : ∀ x c, s.peers x = .client c → c.closed = true → c.user = .idle) :
    Still p rt s := by
  intro o s' hi hs
  cases o with
  | joinClient => cases hi
  | joinWorker => cases hi
  | get => cases hi
  | leave => cases hi
  | sched e =>
    obtain ⟨op, now, ord⟩ := e
    cases op with
    | recv x m =>
      simp only [Sys.step, Sys.schedStep] at hs
      rw [if_neg (Nat.not_lt.2 (hR.heard x m))] at hs
      cases hs
    | taskRoutine =>
      simp only [Sys.step, Sys.schedStep] at hs
      split at hs
      · next t ht =>
        cases hs
        exact .inr ⟨_, rfl, rfl, hR.routine _ _ rfl ht, rfl, rfl⟩
      · cases hs
    | graphRoutine =>
      simp only [Sys.step, Sys.schedStep, Sched.step, Sched.graphRoutine, hR.graphs] at hs
      cases hs
      exact .inl rfl
    | _ => cases hi
  | client x o =>
    simp only [Sys.step] at hs
    split at hs
    case h_2 => cases hs
    next c hx =>
    have self : s.setPeer x (.client c) = s := setPeer_self hx
    left
    have hu : c.user = .idle := by
      cases h : c.closed with
      | true => exact hc x c hx h
      | false => exact (hR.client x c hx h).user
    cases o with
    | advance =>
      simp only [Sys.clientOp, Sys.clientStep, Client.Client.step, Client.Client.advance, hu, self] at hs
      exact (Option.some.inj hs).symm
    | flush =>
      cases h : c.closed with
      | true =>
        simp only [Sys.clientOp, Sys.clientStep, Client.Client.step, h, if_true, self] at hs
        exact (Option.some.inj hs).symm
      | false =>
        simp only [Sys.clientOp, Sys.clientStep, Client.Client.step, h, Bool.false_eq_true, if_false, Client.Client.flush, (hR.client x c hx h).outbox, self] at hs
        exact (Option.some.inj hs).symm
    | recv m =>
      simp only [Sys.clientOp] at hs
      cases h : c.closed with
      | true =>
        split at hs
        · split at hs
          · cases hs
          · split at hs
            · simp only [Sys.clientStep, Client.Client.step, h, if_true, self] at hs
              exact (Option.some.inj hs).symm
            · cases hs
        · cases hs
      | false =>
        rw [if_neg (Nat.not_lt.2 ((hR.client x c hx h).got m))] at hs
        cases hs
    | _ => cases hi
  | agent x e =>
    obtain ⟨op, now⟩ := e
    simp only [Sys.step] at hs
    split at hs
    case h_2 => cases hs
    next a ret qs hx =>
    have hW := hR.worker x a ret qs hx
    cases op with
    | recv m =>
      simp only [Sys.agentOp] at hs
      rw [if_neg (Nat.not_lt.2 (hW.got m))] at hs
      cases hs
    | heard m =>
      simp only [Sys.agentOp] at hs
      have := hW.heard m
      unfold heardOf at this
      rw [if_neg (Nat.not_lt.2 this)] at hs
      cases hs
    | turn =>
      simp only [Sys.agentOp, Sys.agentStep, Worker.Agent.step, hW.turn] at hs
      have hI := hr.inv.peer x
      rw [hx] at hI
      obtain ⟨-, hlen, -⟩ := hI
      have : extend ret now qs a.procs = qs := by
        unfold extend
        rw [show a.procs - qs.length = 0 by omega]
        simp
      rw [this, setPeer_self hx] at hs
      exact .inl (Option.some.inj hs).symm
    | _ => cases hi
  | proc x n e =>
    obtain ⟨op, now⟩ := e
    simp only [Sys.step] at hs
    split at hs
    case h_2 => cases hs
    next a ret qs hx =>
    have hW := hR.worker x a ret qs hx
    unfold Sys.procOp at hs
    split at hs
    case isFalse => cases hs
    next hn =>
    split at hs
    · cases hs
    next q hq =>
    obtain ⟨h1, h2⟩ := hW.proc n q hn hq
    cases op with
    | recv m =>
      dsimp only at hs
      have := h2 m
      unfold taken toldTo at this
      rw [if_neg (Nat.not_lt.2 this)] at hs
      cases hs
    | work c d =>
      simp only [Sys.procStep, Proc.Proc.step, Proc.Proc.work, h1] at hs
      obtain ⟨hlt, e⟩ := List.getElem?_eq_some_iff.1 hq
      have : qs.set n q = qs := by rw [← e]; exact List.set_getElem_self hlt
      rw [this, setPeer_self hx] at hs
      exact .inl (Option.some.inj hs).symm
    | _ => cases hi

/-- Nothing that is due fails in a system at rest. -/
theorem rest_fine (hR : Rest s) : ¬ Fails p rt s := by
  rintro ⟨o, hd, hs⟩
  unfold Due at hd
  split at hd
  · exact absurd hd (Nat.not_lt.2 (hR.heard _ _))
  · exact hd hR.graphs
  · obtain ⟨c, hx, hc, hu⟩ := hd
    exact hu (hR.client _ c hx hc).user
  · obtain ⟨c, hx, hc, hu⟩ := hd
    exact hu (hR.client _ c hx hc).outbox
  · obtain ⟨c, hx, hc, hu⟩ := hd
    exact absurd hu (Nat.not_lt.2 ((hR.client _ c hx hc).got _))
  · obtain ⟨a, ret, qs, hx⟩ := hd
    simp only [Sys.step, hx, Sys.agentOp, Sys.agentStep, Worker.Agent.step, (hR.worker _ a ret qs hx).turn] at hs
    cases hs
  · obtain ⟨a, ret, qs, hx, hu⟩ := hd
    exact absurd hu (Nat.not_lt.2 ((hR.worker _ a ret qs hx).got _))
  · obtain ⟨a, ret, qs, hx, hu⟩ := hd
    exact absurd hu (Nat.not_lt.2 ((hR.worker _ a ret qs hx).heard _))
  · obtain ⟨a, ret, qs, q, hx, hn, hq, -, hu⟩ := hd
    exact absurd hu (Nat.not_lt.2 (((hR.worker _ a ret qs hx).proc _ q hn hq).2 _))
  · obtain ⟨a, ret, qs, q, hx, hn, hq, hu⟩ := hd
    exact hu ((hR.worker _ a ret qs hx).proc _ q hn hq).1
  · exact hd

/-- **C91 with C90.** Left alone, a system comes to a state in which every task a client submitted is answered or one
of the known causes keeps it, if no part of it ends with an exception and the workers that the scheduler counts on are
there. -/
theorem C91_answered (hr : System.Reach p rt cfg s) : ∃ s', Inner p rt s s' ∧ Still p rt s' ∧
    ((∀ w a ret qs left, s'.peers w = .worker a ret qs left → ToldOnce a.log) → Present s' → ¬ Fails p rt s' →
      ∀ x c, s'.peers x = .client c → c.closed = false → ∀ k nm b, Client.Act.submitted k nm b ∈ c.log →
        (∃ st d r, Client.Act.recv (.taskResult k.taskId st d r) ∈ c.log) ∨ HeldUp cfg s' c k) := by
  obtain ⟨s', h1, h2⟩ := C91_still hr
  have hr' := inner_reach hr h1
  exact ⟨s', h1, h2, fun ho hP hF x c hx hc k nm b hk => C90_rests_partial hr' ho (C91_rests hr' h2 hP hF) hx hc hk⟩

/-! ### Concrete systems -/

/-- After two tasks were answered nothing is left to do, and nothing fails. -/
example : ∃ s : Sys Nat, System.Reach plainPickle toy narrow s ∧ Still plainPickle toy s ∧ Present s ∧ ¬ Fails plainPickle toy s ∧ Rest s ∧
    (∀ x c, s.peers x = .client c → c.closed = true → c.user = .idle) ∧
    ∃ c, s.peers [1] = .client c ∧ c.closed = false ∧ Client.Act.submitted ⟨[10], [9], []⟩ [5] [9] ∈ c.log ∧ hasResult [10] c.log = true := by
  have h : (clientAt (playRest true [[1], [2]] narrow (twoTasks 5)) [1]).map (fun c => let s := playRest true [[1], [2]] narrow (twoTasks 5)
      decide (rests [[1], [2]] s = true ∧ (agentAt s [2]).isSome = true ∧ c.closed = false ∧
        Client.Act.submitted ⟨[10], [9], []⟩ [5] [9] ∈ c.log ∧ hasResult [10] c.log = true)) = some true := by
    decide +kernel
  obtain ⟨c, hc, h⟩ := Option.map_eq_some_iff.1 h
  obtain ⟨h1, h2, h3⟩ := of_decide_eq_true h
  have hR := rests_ok (playRest_only _ _ _ _) h1
  have hx := clientAt_eq hc
  have hcl : ∀ x c, (playRest true [[1], [2]] narrow (twoTasks 5)).peers x = .client c → c.closed = true → c.user = .idle := by
    intro x c' hx' hcl
    by_cases e1 : x = [1]
    · subst e1
      rw [hx] at hx'
      cases hx'
      rw [h3.1] at hcl
      cases hcl
    · by_cases e2 : x = [2]
      · subst e2
        obtain ⟨a, ha⟩ := Option.isSome_iff_exists.1 h2
        obtain ⟨ret, qs, ha⟩ := agentAt_eq ha
        rw [ha] at hx'
        cases hx'
      · rw [playRest_only true [[1], [2]] narrow (twoTasks 5) x (by simp [e1, e2])] at hx'
        cases hx'
  exact ⟨_, playRest_reach _ _ _ _, C91_rest_still (playRest_reach _ _ _ _) hR hcl, hR.there, rest_fine hR, hR, hcl, c, hx, h3⟩

/-- A run without an end: the client sends what it has, and then the scheduler looks for graphs for ever.  The first
event does something. -/
example : ∃ (run : Nat → Sys Nat) (ops : Nat → System.Op), System.Reach plainPickle toy narrow (run 0) ∧ (∀ i, inner (ops i) = true) ∧
    (∀ i, (run i).step plainPickle toy (ops i) = some (run (i + 1))) ∧ ¬ Idle (run 0) (ops 0) (run 1) := by
  obtain ⟨s0, hr, h⟩ : ∃ s0 : Sys Nat, System.Reach plainPickle toy narrow s0 ∧ (s0.step plainPickle toy (.client [1] .flush)).map (fun s1 => decide (s1.sched.gm.queue = []) &&
      match clientAt s0 [1], clientAt s1 [1] with | some c, some c' => decide (c.outbox ≠ c'.outbox) | _, _ => false) = some true :=
    ⟨playRest true [[1], [2]] narrow [(meet, 1), ((submitAll [10]).map (System.Op.client [1]), 0)], playRest_reach _ _ _ _, by decide +kernel⟩
  obtain ⟨s1, hs, h⟩ := Option.map_eq_some_iff.1 h
  obtain ⟨h1, h2⟩ := Bool.and_eq_true_iff.1 h
  have hg : s1.step plainPickle toy (.sched ⟨.graphRoutine, 0, fun _ => []⟩) = some s1 := by
    simp only [Sys.step, Sys.schedStep, Sched.step, Sched.graphRoutine, of_decide_eq_true h1]
  refine ⟨fun i => if i = 0 then s0 else s1, fun i => if i = 0 then .client [1] .flush else .sched ⟨.graphRoutine, 0, fun _ => []⟩,
    hr, fun i => ?_, fun i => ?_, fun hi => ?_⟩
  · dsimp only; split <;> rfl
  · cases i with
    | zero => exact hs
    | succ i => exact hg
  · rcases hi with hi | ⟨e, he, -⟩
    · have hi : s1 = s0 := hi
      rw [hi] at h2
      split at h2
      · next c c' hc hc' =>
        rw [hc] at hc'
        cases hc'
        exact of_decide_eq_true h2 rfl
      · cases h2
    · cases he

end Verif.Props
