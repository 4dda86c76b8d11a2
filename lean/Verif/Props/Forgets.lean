import Verif.Props.Fair
import Verif.Props.ResidueEnds
import Verif.Props.Trace
import Verif.Props.WorkerSystem
import Verif.Spec.Forgets

/-!
# C101 for a whole system
-/

namespace Verif.Props

open Verif.Wire Verif.Sched Verif.Spec Verif.System
open Verif.Client (Pickle Act)
open Verif.Spec.Client (OneAnswer Answered KeepsNothing unaccepted unacceptedStep isAccepted isRefused isSent openFuture openGraph)

variable {F V X : Type} {p : Pickle} {rt : Proc.Runtime F V X} {cfg : Config} {s s' : Sys F} {es : List Sched.Event}
  {evs : Nat → List Sched.Event} {run : Nat → Sys F} {ops : Nat → System.Op}

/-- **C101.** In every system the scheduler answers each copy of a submitted task at most once. -/
theorem C101_oneAnswer (hr : System.Reach p rt cfg s) {x : Bytes} {c : Client.Client} (hx : s.peers x = .client c) : OneAnswer c.log := by
  intro k nm b hk
  have h := hr.inv
  obtain ⟨-, -, hecho⟩ := C16_exactly_once cfg _ _ h.sched k.taskId (h.notInGraph hx hk)
  rw [count_submits h hx hk] at hecho
  have hheard := h.heard x (.task k)
  have hF := h.got x (.taskEcho k.taskId .functionNotExists)
  have hO := h.got x (.taskEcho k.taskId .submitOK)
  have hsent : (s.peers x).sent (.task k) ≤ c.log.countP (isSent k.taskId) := by
    rw [hx]
    refine List.countP_mono_left fun y _ hy => ?_
    rw [of_decide_eq_true hy]; simp [isSent]
  have hgotF : (s.peers x).got (.taskEcho k.taskId .functionNotExists) = c.log.countP (isRefused k.taskId) := by
    rw [hx]
    refine List.countP_congr fun y _ => ?_
    unfold isRefused
    split <;> simp_all
  have hgotO : (s.peers x).got (.taskEcho k.taskId .submitOK) = c.log.countP (isAccepted k.taskId) := by
    rw [hx]
    refine List.countP_congr fun y _ => ?_
    unfold isAccepted
    split <;> simp_all
  have h1 : s.sched.out.count (x, .taskEcho k.taskId .functionNotExists) ≤ refusals k.taskId s.sched.out := by
    refine List.countP_mono_left fun y _ hy => ?_
    rw [eq_of_beq hy]; simp [isRefusal]
  have h2 : s.sched.out.count (x, .taskEcho k.taskId .submitOK) ≤ acks anyone k.taskId s.sched.out := by
    refine List.countP_mono_left fun y _ hy => ?_
    rw [eq_of_beq hy]; simp [isAck, anyone]
  omega

/-- **C101.** In every system, a client whose calls were all answered keeps nothing of them. -/
theorem C101_client_system (hr : System.Reach p rt cfg s) {x : Bytes} {c : Client.Client} (hx : s.peers x = .client c) (ha : Answered c) : KeepsNothing c :=
  C101_client (hr.inv.client hx) (C101_oneAnswer hr hx) ha

theorem unaccepted_stays {t : Bytes} {l xs : Client.Hist} (h : unaccepted t l = none) (hx : ∀ k nm b, Act.submitted k nm b ∈ xs → k.taskId ≠ t) :
    unaccepted t (l ++ xs) = none := by
  induction xs generalizing l with
  | nil => simpa using h
  | cons x xs ih =>
    rw [show l ++ x :: xs = (l ++ [x]) ++ xs by simp]
    refine ih ?_ fun k nm b hk => hx k nm b (List.mem_cons_of_mem _ hk)
    rw [Client.unaccepted_snoc, h]
    unfold unacceptedStep
    split
    · next k nm b => rw [if_neg (hx k nm b (by simp))]
    · split <;> rfl
    · rfl

/-- A task that waits to be accepted was submitted. -/
theorem unaccepted_submitted {t : Bytes} {k : Task} : ∀ {l : Client.Hist}, unaccepted t l = some k → ∃ nm b, Act.submitted k nm b ∈ l ∧ k.taskId = t := by
  suffices h : ∀ (r : List Act) (l : Client.Hist), l.reverse = r → unaccepted t l = some k → ∃ nm b, Act.submitted k nm b ∈ l ∧ k.taskId = t from
    fun {l} => h l.reverse l rfl
  intro r
  induction r with
  | nil => intro l hl hu; rw [List.reverse_eq_nil_iff] at hl; subst hl; cases hu
  | cons x r ih =>
    intro l hl hu
    have hl' : l = r.reverse ++ [x] := by rw [← List.reverse_reverse l, hl, List.reverse_cons]
    subst hl'
    rw [Client.unaccepted_snoc] at hu
    have hold : unaccepted t r.reverse = some k → ∃ nm b, Act.submitted k nm b ∈ r.reverse ++ [x] ∧ k.taskId = t := fun hu => by
      obtain ⟨nm, b, h1, h2⟩ := ih r.reverse (List.reverse_reverse r) hu
      exact ⟨nm, b, List.mem_append_left _ h1, h2⟩
    unfold unacceptedStep at hu
    split at hu
    · next k' nm b =>
      split at hu
      · next e => cases hu; exact ⟨nm, b, by simp, e⟩
      · exact hold hu
    · split at hu
      · cases hu
      · exact hold hu
    · exact hold hu

/-- A task whose acceptance arrived does not wait for it. -/
theorem accepted_arrived (hr : System.Reach p rt cfg s) : ∀ {x : Bytes} {c : Client.Client} {t : Bytes}, s.peers x = .client c →
    Act.recv (.taskEcho t .submitOK) ∈ c.log → unaccepted t c.log = none := by
  induction hr with
  | init => intro x c t hx; cases hx
  | @step s s' o hr hs ih =>
    intro x c' t hx hm
    cases step_came hs hx with
    | new e => subst e; simp [Client.Client.init] at hm
    | same e => exact ih e hm
    | step c o e hc hsub hrecv =>
      by_cases hin : Act.recv (.taskEcho t .submitOK) ∈ c.log
      · obtain ⟨xs, h1, h2⟩ := Client.step_log hc
        rw [h1]
        refine unaccepted_stays (ih e hin) fun k nm b hk ht => ?_
        have hout := client_got hr.inv e hin
        rcases h2 with h2 | ⟨k', nm', b', h2, args, h3⟩ | ⟨g, h2, -⟩
        · have := submitted_used hk
          rw [h2] at this; cases this
        · rw [h2] at hk
          cases List.mem_singleton.1 hk
          refine hsub _ _ _ _ h3 ?_
          obtain ⟨c1, e1, hu⟩ := hr.inv.echo_used hout
          rw [e] at e1; cases e1
          rw [ht]
          rcases hu with ⟨k2, hk2, rfl⟩ | ⟨g, hg, hg'⟩
          · obtain ⟨c2, nm2, b2, e2, hs2, -⟩ := hr.inv.taskSent (x := x) (k := k2) (by rw [e]; exact List.countP_pos_iff.2 ⟨_, hk2, by simp⟩)
            exact (hr.inv.ids x _ (Inv.submitted_id e2 hs2)).1
          · exact (hr.inv.ids x _ (Inv.graph_id e hg hg')).1
        · rw [h2] at hk
          cases List.mem_singleton.1 hk
      · have hpos : 0 < c'.log.countP fun y => decide (y = .recv (.taskEcho t .submitOK)) := List.countP_pos_iff.2 ⟨_, hm, by simp⟩
        have hzero : (c.log.countP fun y => decide (y = .recv (.taskEcho t .submitOK))) = 0 :=
          List.countP_eq_zero.2 fun y hy hd => hin (of_decide_eq_true hd ▸ hy)
        have h4 := Client.step_recv hc (.taskEcho t .submitOK)
        split at h4
        · next ho =>
          subst ho
          simp only [Client.Client.step] at hc
          split at hc
          · cases hc; exact absurd hm hin
          · rw [Client.receive_log hc, Client.unaccepted_snoc]
            simp [unacceptedStep]
        · omega

/-- In a system that went well nothing is held. -/
theorem well_free (hW : WentWell p rt cfg s) (t : Bytes) : ¬ Holding s.sched t := by
  obtain ⟨w, hw⟩ := hW.worker
  intro hh
  rcases (C18_one_place cfg _ _ hW.steady.reach.inv.sched t).1.1 hh with h | h | ⟨w', h⟩
  · exact (C90_placed_partial hW.steady hW.noCancel hW.rest hW.loads hW.room hw).1 h
  · exact (C90_placed_partial hW.steady hW.noCancel hW.rest hW.loads hW.room hw).2 h
  · rw [C90_idle_partial hW.steady hW.noCancel hW.rest] at h; cases h

/-- **C101.** When everything that was asked for went well and nothing is left to do, nobody keeps anything of it. -/
theorem C101_well (h : Orderly p rt cfg es s) (hW : WentWell p rt cfg s) (hw : cfg.maxWaiting < 0) : NothingLeft s := by
  have hr := h.reach
  have hi := hr.inv
  obtain ⟨w, hcw⟩ := hW.worker
  have hgraph : ∀ {x c g}, s.peers x = .client c → Act.graph g ∈ c.log → ∃ st rs, Act.recv (.graphTaskResult g.taskId st rs) ∈ c.log := fun {x c g} hx hg =>
    (C90_graph_partial hW.steady hW.noCancel hW.rest hW.loads hW.room hw hcw hx (h.client hx).1.calm.open' hg).resolve_right
      (((hi.client hx).noCancel (h.client hx).1.calm.open').2 _)
  have hopen : NothingOpen s.sched := by
    refine C101_answered cfg _ _ hi.sched (fun t ht => ?_) (fun c g hg => ?_) fun t _ => well_free hW t
    · have := (C16_exactly_once cfg _ _ hi.sched t ht).2.1
      rwa [if_neg (well_free hW t)] at this
    · obtain ⟨cc, hx, hg⟩ := hi.graphSent (hi.received hg)
      obtain ⟨st, rs, hm⟩ := hgraph hx hg
      exact ⟨c, st, rs, client_got hi hx hm⟩
  have hno : ∀ c t, (c, .taskEcho t .noWorker) ∉ s.sched.out := fun c t hm => by have := hi.sched.noWorker hm; omega
  obtain ⟨hkept, hclaims⟩ := C101_nothing_partial cfg _ _ hi.sched hopen
  refine ⟨fun x c hx => C101_client_system hr hx ?_, hkept, hclaims hno, fun v a ret qs left hx => ?_⟩
  · obtain ⟨hT, -⟩ := h.client hx
    have hR := hW.rest.client x c hx hT.calm.open'
    have hd := hT.alone.done (hr.timely x c hx)
    have hans : ∀ {k nm b}, Act.submitted k nm b ∈ c.log → ∃ st d r, Act.recv (.taskResult k.taskId st d r) ∈ c.log := fun hk =>
      C90_answered_partial hW.steady hW.noCancel hW.rest hW.loads hW.room hcw hx hT.alone hT.calm.open' hk
    refine ⟨hR.user, fun t => ?_, fun t => ?_, fun g => ?_⟩
    · cases hu : unaccepted t c.log with
      | none => rfl
      | some k =>
        obtain ⟨nm, b, hk, rfl⟩ := unaccepted_submitted hu
        obtain ⟨st, d, r, hm⟩ := hans hk
        obtain ⟨he, -⟩ := hi.sched.good.sent.result x _ st d r (client_got hi hx hm)
        have h1 := hR.got (.taskEcho k.taskId .submitOK)
        rw [hx] at h1
        have h2 : 0 < (Peer.client c : Peer F).got (.taskEcho k.taskId .submitOK) := Nat.lt_of_lt_of_le (List.count_pos_iff.2 he) h1
        obtain ⟨y, hy, hd⟩ := List.countP_pos_iff.1 h2
        rw [of_decide_eq_true hd] at hy
        rw [accepted_arrived hr hx hy] at hu
        cases hu
    · cases hu : openFuture t c.log with
      | none => rfl
      | some n =>
        obtain ⟨k, nm, b, hk, rfl⟩ := (hi.client hx).returned (Client.openFuture_returned hu)
        obtain ⟨st, d, r, hm⟩ := hans hk
        rw [(hd.shut _ st d r hm).1] at hu
        cases hu
    · cases hu : openGraph g c.log with
      | none => rfl
      | some ns =>
        obtain ⟨m, hm, rfl, -⟩ := (hi.client hx).startLength g ns (.inl (Client.openGraph_started hu))
        obtain ⟨st, rs, hrs⟩ := hgraph hx hm
        rw [(hd.shutG _ st rs hrs).1] at hu
        cases hu
  · have hl := h.stay hx
    subst hl
    have hnone : ∀ t, ¬ Spec.Holds a t := fun t ht => by
      obtain ⟨_, _, _, _, _, _, _, _, hx', -, -, -, -, -, hout⟩ := rests_empty hr hW.rest hx (C89_toldOnce hW.steady hx) ht
      exact absurd hout (C90_functions_partial hW.steady hW.noCancel hx' _ _ _)
    obtain ⟨d, start, hwr⟩ := hi.worker hx
    obtain ⟨h1, -, h3⟩ := C101_agent_size hwr
    have hq : a.queue.contents = [] := List.eq_nil_iff_forall_not_mem.2 fun t ht => hnone t (.inl ht)
    rw [hq] at h1 h3
    refine ⟨List.length_eq_zero_iff.1 h1, hq, List.length_eq_zero_iff.1 h3, ?_, ?_⟩
    · cases hp : a.pos with
      | idle => rfl
      | lock k => exact absurd (.inr (.inl ⟨k, rfl, .inl hp⟩)) (hnone k.taskId)
      | init k b => exact absurd (.inr (.inl ⟨k, rfl, .inr ⟨b, hp⟩⟩)) (hnone k.taskId)
    · cases ht : a.task with
      | none => rfl
      | some k => exact absurd (.inr (.inr ⟨k, rfl, ht⟩)) (hnone k.taskId)

/-- **C101.** Where nothing happens any more, nobody keeps anything. -/
theorem C101_stopped (h : Orderly p rt cfg es s) (hH : Harmless p rt) (hw : cfg.maxWaiting < 0) (hq : fitsBits 32 cfg.queueSize) (h1 : 1 ≤ cfg.queueSize)
    (hc : ∃ w, Connected s.sched w) (ht : turnDue es = some false) (hN : NodesReturn s)
    (hs : ∀ o s', inner o = true → Mild rt s o → s.step p rt o = some s' → Idle s o s') : NothingLeft s := by
  have hL : LoadsRight s.sched := fun v n ts hp hv => Option.some.inj (hp.symm.trans (prompt_records h.exec h.prompt (by omega) v ts hv))
  exact C101_well h ⟨h.steady, h.noCancel, C97_rests h hH hw hq ht hN hs, hL, h1, hc⟩ hw

/-- **C101.** A system that runs as it should and has a worker comes to such a state after finitely many further events, none of which needs a
user, a clock or an operator. -/
theorem C101_forgets (h : Orderly p rt cfg es s) (hH : Harmless p rt) (hw : cfg.maxWaiting < 0) (hq : fitsBits 32 cfg.queueSize) (h1 : 1 ≤ cfg.queueSize)
    (hc : ∃ w, Connected s.sched w) (hN : ∀ es' s', Continues p rt es s es' s' → NodesReturn s') :
    ∃ es' s', Continues p rt es s es' s' ∧ NothingLeft s' := by
  obtain ⟨es', s', h2, hW⟩ := continues_well h hH hw hq h1 hc hN
  exact ⟨es', s', h2, C101_well (h2.orderly h) hW hw⟩

/-- The task routine has nothing to do where nothing is kept. -/
theorem routine_still {l : Log} {sc sc' : Sched} (hr : Sched.Reach cfg l sc) (hk : NothingKept sc) (h : sc.taskRoutine = .ok sc') : sc' = sc := by
  have hl : sc.tm.unassigned.len = 0 := by
    have hc := hr.good.conc.queue
    rw [hc.len]
    obtain ⟨q, hq⟩ := hc
    rw [Queue.IQueue.contents_eq hq]
    cases q with
    | nil => rfl
    | cons e q =>
      have := (hq.map e.2 e.1).2 ⟨e.2, by simp, rfl⟩
      rw [Dict.items_eq_nil.1 hk.queue] at this
      cases this
  simp only [Sched.taskRoutine, hk.pending, hl, if_true] at h
  cases h; rfl

/-- **C101.** In every run of a system in which everything goes as it should, sooner or later nobody keeps anything of what was asked for, and
this stays so as long as nothing new is asked for. -/
theorem C101_every (hf : FairRun p rt evs run ops) (h : Orderly p rt cfg (evs 0) (run 0)) (hH : Harmless p rt) (hw : cfg.maxWaiting < 0)
    (hq : fitsBits 32 cfg.queueSize) (h1 : 1 ≤ cfg.queueSize) (hc : ∃ w, Connected (run 0).sched w)
    (hN : ∀ es' s', Continues p rt (evs 0) (run 0) es' s' → NodesReturn s') : ∃ n, ∀ i, n ≤ i → NothingLeft (run i) := by
  obtain ⟨n, hn⟩ := C91_settles run ops h.reach hf.inner hf.step
  have hcont : ∀ i, Continues p rt (evs 0) (run 0) (evs i) (run i) := fun i => by simpa using hf.continues 0 i
  obtain ⟨j, hj, hd | ⟨ht, hno⟩⟩ := hf.progress n
  · exact absurd (hn j hj) hd
  obtain ⟨w, hc⟩ := hc
  have hleft : NothingLeft (run j) :=
    C101_stopped ((hcont j).orderly h) hH hw hq h1 ⟨w, ((hcont j).keeps h).2 w hc⟩ ht (hN _ _ (hcont j)) hno
  refine ⟨j, fun i hi => ?_⟩
  obtain ⟨d, rfl⟩ : ∃ d, i = j + d := ⟨i - j, by omega⟩
  clear hi
  suffices h : run (j + d) = run j by rw [h]; exact hleft
  induction d with
  | zero => rfl
  | succ d ih =>
    rw [show j + (d + 1) = j + d + 1 by omega]
    have hst := hf.step (j + d)
    rcases hn (j + d) (by omega) with he | ⟨e, ho, he, -⟩
    · rw [he, ih]
    · rw [ho, ih] at hst
      simp only [Sys.step, Sys.schedStep, he] at hst
      split at hst
      · next t hs =>
        have hst := (Option.some.inj hst).symm
        rw [hst]
        rw [show (run j).sched.step e = (run j).sched.taskRoutine by simp [Sched.step, he]] at hs
        rw [routine_still ((hcont j).orderly h).reach.inv.sched hleft.sched hs]
      · cases hst

/-- A run from where the worker has a task and the client waits. -/
example : ∃ evs run ops, FairRun strictPickle kind evs run ops ∧ Orderly strictPickle kind narrow (evs 0) (run 0) ∧ Harmless strictPickle kind ∧
    narrow.maxWaiting < 0 ∧ fitsBits 32 narrow.queueSize ∧ 1 ≤ narrow.queueSize ∧ Connected (run 0).sched [2] ∧
    (run 0).sched.tm.tasks.size = 1 ∧ (∃ c, (run 0).peers [1] = .client c ∧ c.toFuture.items.length = 1) ∧
    (∃ a ret qs, (run 0).peers [2] = .worker a ret qs none ∧ a.queue.contents = [[10]]) ∧
    ∀ es' s', Continues strictPickle kind (evs 0) (run 0) es' s' → NodesReturn s' := by
  have h := orderlyRun_ok narrow halfWay
  have hc : Connected (orderlyRun narrow halfWay).2.sched [2] := by decide +kernel
  have hN := C97_quiet h (List.isEmpty_iff.1 (by decide +kernel))
  have hq : fitsBits 32 narrow.queueSize := by unfold fitsBits; decide
  obtain ⟨evs, run, ops, hf, he, hr⟩ := C97_fair_run h kind_harmless (by decide) hq ⟨_, hc⟩ hN
  refine ⟨evs, run, ops, hf, by rw [he, hr]; exact h, kind_harmless, by decide, hq, by decide, by rw [hr]; exact hc, by rw [hr]; decide +kernel, ?_, ?_,
    by rw [he, hr]; exact hN⟩
  · rw [hr]
    obtain ⟨c, hc, h1⟩ : ∃ c, clientAt (orderlyRun narrow halfWay).2 [1] = some c ∧ c.toFuture.items.length = 1 :=
      ⟨((clientAt (orderlyRun narrow halfWay).2 [1]).getD .init), by decide +kernel, by decide +kernel⟩
    exact ⟨c, clientAt_eq hc, h1⟩
  · rw [hr]
    have hm : (agentAt (orderlyRun narrow halfWay).2 [2]).map (·.queue.contents) = some [[10]] := by decide +kernel
    obtain ⟨a, hc, h1⟩ := Option.map_eq_some_iff.1 hm
    obtain ⟨ret, qs, hx⟩ := agentAt_eq hc
    exact ⟨a, ret, qs, hx, h1⟩

end Verif.Props
