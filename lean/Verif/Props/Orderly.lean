import Verif.System.Holds
import Verif.Props.Finish
import Verif.Props.Settle
import Verif.Props.RestRuns
import Verif.Props.Running

/-!
# C97: a system that runs as it should answers every submitted task and every graph
-/

namespace Verif.Props

open Verif.Wire Verif.Sched Verif.Spec Verif.System
open Verif.Client (Pickle)

variable {F V X : Type} {p : Pickle} {rt : Proc.Runtime F V X} {cfg : Config} {s s' : Sys F} {es : List Sched.Event}

/-- **C97.** Nothing that is due fails. -/
theorem C97_fine (h : Orderly p rt cfg es s) (hH : Harmless p rt) (hw : cfg.maxWaiting < 0) (hq : fitsBits 32 cfg.queueSize) {o : System.Op}
    (hd : Due s o) (hm : Mild rt s o) (hp : Prompt (es ++ schedPart o)) : ∃ s', s.step p rt o = some s' := by
  unfold Due at hd
  split at hd
  · next x m now od =>
    obtain ⟨t, ht⟩ := h.sched (by omega) hp (e := ⟨.recv x m, now, od⟩) nofun (fun _ _ e => by cases e; exact hd) nofun hm.2
    simp only [Sys.step, Sys.schedStep, if_pos hd, carryIn_ok (h.sendable hq (Nat.lt_of_le_of_lt (Nat.zero_le _) hd)), ht]
    exact ⟨_, rfl⟩
  · next now od =>
    obtain ⟨t, ht⟩ := h.sched (by omega) hp (e := ⟨.graphRoutine, now, od⟩) nofun nofun nofun nofun
    simp only [Sys.step, Sys.schedStep, ht]
    exact ⟨_, rfl⟩
  · obtain ⟨c, hx, -, -⟩ := hd
    obtain ⟨c', hc'⟩ := (h.client hx).1.advance
    simp only [Sys.step, hx, Sys.clientOp, Sys.clientStep, hc']
    exact ⟨_, rfl⟩
  · obtain ⟨c, hx, -, -⟩ := hd
    obtain ⟨c', hc'⟩ := (h.client hx).1.flush
    simp only [Sys.step, hx, Sys.clientOp, Sys.clientStep, hc']
    exact ⟨_, rfl⟩
  · next x m =>
    obtain ⟨c, hx, -, hlt⟩ := hd
    obtain ⟨c', hc'⟩ := h.receives hH hw hx hlt hm
    have hs : sendable m := C71_sendable h.reach.inv.sched hq (x, m) (List.count_pos_iff.1 (Nat.lt_of_le_of_lt (Nat.zero_le _) hlt))
    simp only [Sys.step, hx, Sys.clientOp]
    rw [← hx, if_pos hlt]
    simp only [carryOut_ok hs, if_true, Sys.clientStep, hc']
    exact ⟨_, rfl⟩
  · next now =>
    obtain ⟨a, ret, qs, hx⟩ := hd
    obtain ⟨a', ha⟩ := (C53_system_partial h.reach hx now).2.2
    simp only [Sys.step, hx, Sys.agentOp, Sys.agentStep, ha]
    exact ⟨_, rfl⟩
  · next x m now =>
    obtain ⟨a, ret, qs, hx, hlt⟩ := hd
    obtain ⟨a', ha⟩ := h.agent hx hlt now
    have hs : sendable m := C71_sendable h.reach.inv.sched hq (x, m) (List.count_pos_iff.1 (Nat.lt_of_le_of_lt (Nat.zero_le _) hlt))
    simp only [Sys.step, hx, Sys.agentOp]
    rw [← hx, if_pos hlt]
    simp only [carryOut_ok hs, if_true, Sys.agentStep, ha]
    exact ⟨_, rfl⟩
  · next x m now =>
    obtain ⟨a, ret, qs, hx, hlt⟩ := hd
    have hpos := Nat.lt_of_le_of_lt (Nat.zero_le _) hlt
    obtain ⟨a', ha⟩ := (C53_system_partial h.reach hx now).2.1 m hpos
    have hs : sendable m := by
      obtain ⟨q, hq1, hq2⟩ := procsSent_pos hpos
      obtain ⟨n, hn⟩ := List.getElem?_of_mem hq1
      have hP := h.reach.inv.peer x
      rw [hx] at hP
      obtain ⟨start, hpr⟩ := (hP.2.2.1 n q hn).1
      obtain ⟨y, h1, h2⟩ := List.countP_pos_iff.1 hq2
      have := proc_says hpr y h1 m (by simpa using h2)
      cases m <;> first | trivial | exact this.elim
    simp only [Sys.step, hx, Sys.agentOp]
    unfold heardOf at hlt
    rw [if_pos hlt]
    simp only [carry_ok hs, Sys.agentStep, ha]
    exact ⟨_, rfl⟩
  · next x n m now =>
    obtain ⟨a, ret, qs, q, hx, hn, hq1, hi, hlt⟩ := hd
    obtain ⟨q', hq'⟩ := h.proc hH hx hq1 ⟨.recv m, now⟩ (fun _ e => by cases e; exact Nat.lt_of_le_of_lt (Nat.zero_le _) hlt)
    have hs : sendable m := by
      obtain ⟨d, start, hw⟩ := h.reach.inv.worker hx
      obtain ⟨y, h1, h2⟩ := List.countP_pos_iff.1 (Nat.lt_of_le_of_lt (Nat.zero_le _) hlt)
      have := hw.flow.passed y h1
      rw [of_decide_eq_true h2] at this
      cases m <;> first | trivial | exact this.elim
    unfold taken toldTo at hlt
    simp only [Sys.step, hx, Sys.procOp, hn, if_true, hq1]
    rw [if_pos hlt]
    simp only [carry_ok hs, Sys.procStep, hq']
    exact ⟨_, rfl⟩
  · next x n c dur now =>
    obtain ⟨a, ret, qs, q, hx, hn, hq1, hi⟩ := hd
    obtain ⟨q', hq'⟩ := h.proc hH hx hq1 ⟨.work c dur, now⟩ nofun
    simp only [Sys.step, hx, Sys.procOp, hn, if_true, hq1, Sys.procStep, hq']
    exact ⟨_, rfl⟩
  · exact hd.elim

/-- Without a due turn of the task routine every event may come next. -/
theorem prompt_any {o : System.Op} (h : turnDue es = some false) : Prompt (es ++ schedPart o) := by
  cases o <;> simp only [schedPart, List.append_nil]
  case sched e =>
    unfold Prompt
    rw [turnDue_snoc, h]
    simp only [Option.bind_some, nextDue]
    repeat' split
    all_goals simp_all
  all_goals (unfold Prompt; rw [h]; nofun)

/-- **C97.** When no such event does anything any more, the system is at rest. -/
theorem C97_rests (h : Orderly p rt cfg es s) (hH : Harmless p rt) (hw : cfg.maxWaiting < 0) (hq : fitsBits 32 cfg.queueSize) (ht : turnDue es = some false)
    (hN : NodesReturn s) (hs : ∀ o s', inner o = true → Mild rt s o → s.step p rt o = some s' → Idle s o s') : Rest s := by
  have fine : ∀ {o}, Due s o → Mild rt s o → inner o = true → (∀ e, o = .sched e → e.op ≠ .taskRoutine) → s.step p rt o = some s := by
    intro o hd hm hi ht'
    obtain ⟨s', hs'⟩ := C97_fine h hH hw hq hd hm (prompt_any ht)
    rw [hs', idle_same (hs o s' hi hm hs') ht']
  have hpeer : ∀ {x : Bytes} {P : Peer F}, s.setPeer x P = s → P = s.peers x := by
    intro x P e
    have := congrArg (fun s : Sys F => s.peers x) e
    simpa [Sys.setPeer] using this
  have hidle : ∀ x c, s.peers x = .client c → c.user = .idle := by
    intro x c hx
    refine Classical.byContradiction fun hu => ?_
    have h1 := fine (o := .client x .advance) ⟨c, hx, (h.client hx).1.calm.open', hu⟩ trivial rfl nofun
    simp only [Sys.step, hx, Sys.clientOp, Sys.clientStep, Client.Client.step] at h1
    split at h1
    · next c' hc' =>
      have h2 := hpeer (Option.some.inj h1)
      rw [hx] at h2
      injection h2 with h2
      exact advance_moves hu hc' h2
    · cases h1
  have hgot : ∀ x c, s.peers x = .client c → ∀ m, ¬ (s.peers x).got m < s.sched.out.count (x, m) := by
    intro x c hx m hlt
    obtain ⟨hT, tail, e⟩ := h.client hx
    cases tail with
    | nil =>
      rw [List.append_nil] at e
      have h1 := letters_count x s.sched.out m
      rw [← e, arrived_count, hx] at *
      simp only [Peer.got] at hlt
      omega
    | cons m' tail =>
      have hM : Mild rt s (.client x (.recv m')) := by
        intro c' hc'
        rw [hx] at hc'
        cases hc'
        exact ⟨hidle x c hx, tail, by rw [← e]; simp⟩
      have hlt' : (s.peers x).got m' < s.sched.out.count (x, m') := by
        have h1 := letters_count x s.sched.out m'
        rw [← e, List.count_append, arrived_count, List.count_cons_self] at h1
        rw [hx]
        simp only [Peer.got]
        omega
      have h1 := fine (o := .client x (.recv m')) ⟨c, hx, hT.calm.open', hlt'⟩ hM rfl nofun
      obtain ⟨c', hc'⟩ := h.receives hH hw hx hlt' hM
      have hsend : sendable m' := C71_sendable h.reach.inv.sched hq (x, m') (List.count_pos_iff.1 (Nat.lt_of_le_of_lt (Nat.zero_le _) hlt'))
      simp only [Sys.step, hx, Sys.clientOp] at h1
      rw [← hx, if_pos hlt'] at h1
      simp only [carryOut_ok hsend, if_true, Sys.clientStep, hc'] at h1
      have h2 := hpeer (Option.some.inj h1)
      rw [hx] at h2
      injection h2 with h2
      rw [h2] at hc'
      simp only [Client.Client.step, hT.calm.open', Bool.false_eq_true, if_false] at hc'
      have h3 := congrArg List.length (Client.receive_log hc')
      simp at h3
  have hmild : ∀ o, inner o = true → (∀ x m, o ≠ .client x (.recv m)) →
      (∀ e x m, o = .sched e → e.op = .recv x m → 0 < (s.peers x).sent m) → Mild rt s o := by
    intro o hi hn hse
    cases o with
    | sched e =>
      refine ⟨fun he => ?_, fun x t d r he => hN x t d r (hse e _ _ rfl he)⟩
      simp only [inner, he] at hi
      cases hi
    | client x co =>
      cases co <;> first | exact absurd rfl (hn _ _) | trivial | cases hi
    | _ => first | trivial | cases hi
  refine C91_rests h.reach (fun o s' hi hst => ?_) h.present fun ⟨o, hd, hn⟩ => ?_
  · by_cases hc : ∃ x m, o = .client x (.recv m)
    · obtain ⟨x, m, rfl⟩ := hc
      simp only [Sys.step] at hst
      split at hst
      · next c hx =>
        simp only [Sys.clientOp] at hst
        rw [if_neg (hgot x c hx m)] at hst
        cases hst
      · cases hst
    · refine hs o s' hi (hmild o hi (fun x m e => hc ⟨x, m, e⟩) ?_) hst
      rintro ⟨op, now, od⟩ x m rfl rfl
      simp only [Sys.step, Sys.schedStep] at hst
      split at hst
      · next h1 => exact Nat.lt_of_le_of_lt (Nat.zero_le _) h1
      · cases hst
  · by_cases hc : ∃ x m, o = .client x (.recv m)
    · obtain ⟨x, m, rfl⟩ := hc
      obtain ⟨c, hx, -, hlt⟩ := hd
      exact hgot x c hx m hlt
    · have hi : inner o = true := by
        unfold Due at hd
        split at hd <;> first | rfl | exact hd.elim
      have hse : ∀ e x m, o = .sched e → e.op = .recv x m → 0 < (s.peers x).sent m := by
        rintro ⟨op, now, od⟩ x m rfl rfl
        exact Nat.lt_of_le_of_lt (Nat.zero_le _) hd
      obtain ⟨s', hs'⟩ := C97_fine h hH hw hq hd (hmild o hi (fun x m e => hc ⟨x, m, e⟩) hse) (prompt_any ht)
      rw [hn] at hs'
      cases hs'

theorem _root_.Verif.Spec.Continues.snoc {es es' : List Sched.Event} {s s' s'' : Sys F} (h : Continues p rt es s es' s') {o : System.Op} (hi : inner o = true)
    (hs : s'.step p rt o = some s'') (hm : Mild rt s' o) (hp : Prompt (es' ++ schedPart o)) : Continues p rt es s (es' ++ schedPart o) s'' := by
  induction h with
  | refl es s => exact .step o hi hs hm hp (.refl _ _)
  | step o' hi' hs' hm' hp' _ ih => exact .step o' hi' hs' hm' hp' (ih hs hm hp)

theorem _root_.Verif.Spec.Continues.trans {es es' es'' : List Sched.Event} {s s' s'' : Sys F} (h : Continues p rt es s es' s') (h' : Continues p rt es' s' es'' s'') :
    Continues p rt es s es'' s'' := by
  induction h with
  | refl es s => exact h'
  | step o hi hs hm hp _ ih => exact .step o hi hs hm hp (ih h')

theorem _root_.Verif.Spec.Continues.orderly {es es' : List Sched.Event} {s s' : Sys F} (h : Continues p rt es s es' s') (ho : Orderly p rt cfg es s) : Orderly p rt cfg es' s' := by
  induction h with
  | refl es s => exact ho
  | step o hi hs hm hp _ ih => exact ih (.step o ho hs hm hp)

/-- What clients did and the workers that the scheduler knows are kept. -/
theorem _root_.Verif.Spec.Continues.keeps {es es' : List Sched.Event} {s s' : Sys F} (h : Continues p rt es s es' s') (ho : Orderly p rt cfg es s) :
    (∀ x c, s.peers x = .client c → ∃ c', s'.peers x = .client c' ∧ c.log <+: c'.log) ∧ ∀ w, Connected s.sched w → Connected s'.sched w := by
  induction h with
  | refl es s => exact ⟨fun x c hx => ⟨c, hx, List.prefix_refl _⟩, fun _ => id⟩
  | @step es es' s s1 s2 o hi hs hm hp _ ih =>
    obtain ⟨h1, h2⟩ := ih (.step o ho hs hm hp)
    refine ⟨fun x c hx => ?_, fun w hw => h2 w (ho.kept hs hm hw)⟩
    have key : ∃ c', s1.peers x = .client c' ∧ c.log <+: c'.log := by
      rcases step_shift hm hs with ⟨-, -, h1, -, -, -⟩ | ⟨y, _, _, _, h1, -, -, -, hn⟩ | ⟨y, h1, -, -, -, hn⟩ | ⟨y, c0, c1, co, -, hy, hc, -, h1, -⟩
      · exact ⟨c, by rw [h1]; exact hx, List.prefix_refl _⟩
      · have e : x ≠ y := fun e => hn c (e ▸ hx)
        exact ⟨c, by rw [h1]; simp [Sys.setPeer, e, hx], List.prefix_refl _⟩
      · have e : x ≠ y := fun e => hn c (e ▸ hx)
        exact ⟨c, by rw [h1]; simp [Sys.setPeer, e, hx], List.prefix_refl _⟩
      · by_cases e : x = y
        · subst e
          rw [hx] at hy
          cases hy
          refine ⟨c1, by rw [h1]; simp [Sys.setPeer], ?_⟩
          cases Client.step_io hc with
          | quiet xs ms h1 => exact ⟨_, h1.symm⟩
          | get g h1 h2 => exact ⟨_, h2.symm⟩
          | recv m ms h1 h2 => exact ⟨_, h2.symm⟩
          | flush m h1 => exact ⟨_, h1.symm⟩
          | started g ns h1 h2 => exact ⟨_, h2.symm⟩
        · exact ⟨c, by rw [h1]; simp [Sys.setPeer, e, hx], List.prefix_refl _⟩
    obtain ⟨c', hc', hl⟩ := key
    obtain ⟨c'', hc'', hl'⟩ := h1 x c' hc'
    exact ⟨c'', hc'', hl.trans hl'⟩

/-- A turn of the task routine. -/
theorem turn_taken (h : Orderly p rt cfg es s) (hw : cfg.maxWaiting < 0) {xs : List Bytes} (hl : Listed xs s) :
    ∃ s' es', Continues p rt es s es' s' ∧ turnDue es' = some false ∧ Listed xs s' ∧ (size4 xs s' = size4 xs s ∨ Less (size4 xs s') (size4 xs s)) := by
  let e : Sched.Event := ⟨.taskRoutine, 0, fun _ => []⟩
  have ht : turnDue (es ++ [e]) = some false := by
    rw [turnDue_snoc]
    cases hd : turnDue es with
    | none => exact absurd hd h.prompt
    | some d => rfl
  have hp : Prompt (es ++ schedPart (.sched e)) := by
    show turnDue (es ++ [e]) ≠ none
    rw [ht]; nofun
  obtain ⟨t, hs⟩ := h.sched (by omega) hp nofun nofun nofun nofun
  have hst : s.step p rt (.sched e) = some { s with sched := t } := by
    simp only [Sys.step, Sys.schedStep, e]
    simp only [e] at hs
    rw [hs]
  have hm : Mild rt s (.sched e) := ⟨nofun, nofun⟩
  have hr := Orderly.step _ h hst hm hp
  refine ⟨_, _, .step _ rfl hst hm hp (.refl _ _), ht, step_listed hl rfl hst, ?_⟩
  rcases step_down h.reach hl rfl hst with ⟨-, h1⟩ | h1
  · exact h1.less
  · exact .inr (h1.less hr.reach.inv)

/-- Such a system gets to where no inner event does anything. -/
theorem C97_stops (h : Orderly p rt cfg es s) (hw : cfg.maxWaiting < 0) : ∃ es' s', Continues p rt es s es' s' ∧ turnDue es' = some false ∧
    ∀ o s'', inner o = true → Mild rt s' o → s'.step p rt o = some s'' → Idle s' o s'' := by
  obtain ⟨xs, hl⟩ := h.reach.listed
  have main : ∀ z, ∀ {es : List Sched.Event} {s : Sys F}, Orderly p rt cfg es s → turnDue es = some false → Listed xs s → size4 xs s = z →
      ∃ es' s', Continues p rt es s es' s' ∧ turnDue es' = some false ∧
        ∀ o s'', inner o = true → Mild rt s' o → s'.step p rt o = some s'' → Idle s' o s'' := by
    intro z
    induction z using less_wf.induction with
    | _ z ih =>
    intro es s h ht hl e
    by_cases hs : ∀ o s', inner o = true → Mild rt s o → s.step p rt o = some s' → Idle s o s'
    · exact ⟨es, s, .refl _ _, ht, hs⟩
    · simp only [Classical.not_forall] at hs
      obtain ⟨o, s1, hi, hm, hst, hid⟩ := hs
      rcases step_down h.reach hl hi hst with ⟨h1, -⟩ | hd
      · exact absurd h1 hid
      · have ho1 := Orderly.step o h hst hm (prompt_any ht)
        have hl1 := step_listed hl hi hst
        have hless := hd.less ho1.reach.inv
        obtain ⟨s2, es2, h2, ht2, hl2, hsz⟩ := turn_taken ho1 hw hl1
        have hless2 : Less (size4 xs s2) z := by
          rw [← e]
          rcases hsz with hsz | hsz
          · rw [hsz]; exact hless
          · exact less_trans hsz hless
        obtain ⟨es', s', h3, h4⟩ := ih _ hless2 (h2.orderly ho1) ht2 hl2 rfl
        exact ⟨es', s', .step o hi hst hm (prompt_any ht) (h2.trans h3), h4⟩
  obtain ⟨s1, es1, h1, ht, hl1, -⟩ := turn_taken h hw hl
  obtain ⟨es', s', h2, h3⟩ := main _ (h1.orderly h) ht hl1 rfl
  exact ⟨es', s', h1.trans h2, h3⟩

/-- **C97.** Such a system comes to rest: messages arrive, threads and loops go on with what they have, and after
finitely many such events nothing is left to do. -/
theorem C97_settles (h : Orderly p rt cfg es s) (hH : Harmless p rt) (hw : cfg.maxWaiting < 0) (hq : fitsBits 32 cfg.queueSize)
    (hN : ∀ es' s', Continues p rt es s es' s' → NodesReturn s') : ∃ es' s', Continues p rt es s es' s' ∧ turnDue es' = some false ∧ Rest s' := by
  obtain ⟨es', s', h1, h2, h3⟩ := C97_stops h hw
  exact ⟨es', s', h1, h2, C97_rests (h1.orderly h) hH hw hq h2 (hN _ _ h1) h3⟩

/-- **C97.** If nobody asked for a graph, no node of a graph fails. -/
theorem C97_quiet (h : Orderly p rt cfg es s) (hg : s.gets = []) : ∀ es' s', Continues p rt es s es' s' → NodesReturn s' :=
  fun _ _ hc => continues_noGets hc h hg

/-- **C97.** Nor does it if the functions of the graphs return and the cleaner took no function that is about to be called. -/
theorem C97_nodes (h : Orderly p rt cfg es s) (hi : ∀ b b', p.hash b = p.hash b' → b = b') (hG : GraphsReturn rt s) (hF : FineSoFar s) :
    ∀ es' s', Continues p rt es s es' s' → NodesReturn s' :=
  fun _ _ hc => continues_fine hc h hi hG hF

/-- The calls of `get` are the same. -/
theorem _root_.Verif.Spec.Continues.gets {es es' : List Sched.Event} {s s' : Sys F} (h : Continues p rt es s es' s') : s'.gets = s.gets := by
  induction h with
  | refl es s => rfl
  | step o hi hs hm hp _ ih =>
    rw [ih]
    rcases step_gets hs with h1 | ⟨_, _, _, _, _, _, _, rfl, -⟩
    · exact h1
    · cases hi

/-- The end of such a run. -/
theorem continues_well (h : Orderly p rt cfg es s) (hH : Harmless p rt) (hw : cfg.maxWaiting < 0) (hq : fitsBits 32 cfg.queueSize) (h1 : 1 ≤ cfg.queueSize)
    (hc : ∃ w, Connected s.sched w) (hN : ∀ es' s', Continues p rt es s es' s' → NodesReturn s') : ∃ es' s', Continues p rt es s es' s' ∧ WentWell p rt cfg s' := by
  obtain ⟨es', s', h2, -, h3⟩ := C97_settles h hH hw hq hN
  have ho := h2.orderly h
  obtain ⟨k1, k2⟩ := h2.keeps h
  obtain ⟨w, hc⟩ := hc
  have hL : LoadsRight s'.sched := fun v n ts hp hv => Option.some.inj (hp.symm.trans (prompt_records ho.exec ho.prompt (by omega) v ts hv))
  exact ⟨es', s', h2, ho.steady, ho.noCancel, h3, hL, h1, w, k2 w hc⟩

/-- What was submitted is answered then. -/
theorem well_submitted (ho : Orderly p rt cfg es s) (hW : WentWell p rt cfg s) {x : Bytes} {c : Client.Client} (hx : s.peers x = .client c) {k : Task} {nm b : Bytes}
    (hk : Client.Act.submitted k nm b ∈ c.log) :
    ∃ n r, Client.Act.returned k.taskId n ∈ c.log ∧ (c.futures[n]? = some (.result r) ∨ c.futures[n]? = some (.exception r)) := by
  obtain ⟨hT, -⟩ := ho.client hx
  rcases hT.calm.ret k nm b hk with h4 | ⟨n, hn⟩
  · rw [(hW.rest.client x c hx hT.calm.open').user] at h4
    cases h4
  · obtain ⟨r, hr⟩ := C95_submit hW hx hT.alone hT.calm.open' hn
    exact ⟨n, r, hn, hr⟩

/-- And so are the graphs. -/
theorem well_graph (ho : Orderly p rt cfg es s) (hW : WentWell p rt cfg s) (hw : cfg.maxWaiting < 0) {call : GetCall} (hc : call ∈ s.gets)
    (hkeys : (call.keys.take call.message.targets.length).Nodup) :
    ∃ c, s.peers call.client = .client c ∧ ∀ key ∈ call.keys, ∃ n r, call.futures.get? key = some n ∧ c.futures[n]? = some (.result r) := by
  have h := ho.reach.inv
  have hok := h.calls call hc
  cases hx : s.peers call.client with
  | client c =>
    rw [hx] at hok
    obtain ⟨⟨ids, gid, hl, hnd, hb⟩, base, ⟨hg, hst⟩, hret⟩ := hok
    refine ⟨c, rfl, fun key hkey => ?_⟩
    obtain ⟨hT, -⟩ := ho.client hx
    have hstart : Client.Act.started call.message.taskId (List.range' base call.message.targets.length) ∈ c.log := by
      rcases hst with hst | hst
      · exact hst
      · rw [(hW.rest.client _ c hx hT.calm.open').user] at hst
        cases hst
    obtain ⟨id, hs, hmem, hright⟩ := C43_exact p call.graph call.keys ids gid hl hnd call.message hb base call.futures hret
    obtain ⟨i, h1, h2⟩ := hright.2 hkeys key hkey
    have hi : i < call.message.targets.length := (List.getElem?_eq_some_iff.1 h2).1
    obtain ⟨w, hw1⟩ := hW.worker
    have hans : ∃ st rs, Client.Act.recv (.graphTaskResult call.message.taskId st rs) ∈ c.log :=
      (C90_graph_partial hW.steady hW.noCancel hW.rest hW.loads hW.room hw hw1 hx hT.calm.open' hg).resolve_right (((h.client hx).noCancel hT.calm.open').2 _)
    obtain ⟨st, rs, hm, hH⟩ := hT.alone.resolvedGraph (ho.reach.timely _ c hx) hstart hans
    obtain ⟨rfl, hlen⟩ := ho.graphWell hx hg (client_got h hx hm)
    have hi' : i < rs.length := by omega
    have hj : (List.range' base call.message.targets.length)[i]? = some (base + i) := by
      rw [List.getElem?_range' hi, Nat.one_mul]
    exact ⟨base + i, rs[i], h1, (hH i _ _ hj (List.getElem?_eq_getElem hi')).1 rfl⟩
  | _ => rw [hx] at hok; exact hok.elim

/-- **C97.** In a system that runs as it should and has a worker, everything that was asked for is answered after finitely many
further events, none of which needs a user, a clock or an operator.  Every call of `submit` returned a future, and the future holds
what the function gave or raised; and every future that `get` returned holds a result.  (For repeated keys see
`C63_repeated_key`.) -/
theorem C97_answered (h : Orderly p rt cfg es s) (hH : Harmless p rt) (hw : cfg.maxWaiting < 0) (hq : fitsBits 32 cfg.queueSize) (h1 : 1 ≤ cfg.queueSize)
    (hc : ∃ w, Connected s.sched w) (hN : ∀ es' s', Continues p rt es s es' s' → NodesReturn s') : ∃ es' s', Continues p rt es s es' s' ∧
      (∀ x c, s.peers x = .client c → ∃ c', s'.peers x = .client c' ∧ c.log <+: c'.log ∧ ∀ k nm b, Client.Act.submitted k nm b ∈ c'.log →
        ∃ n r, Client.Act.returned k.taskId n ∈ c'.log ∧ (c'.futures[n]? = some (.result r) ∨ c'.futures[n]? = some (.exception r))) ∧
      ∀ call ∈ s.gets, (call.keys.take call.message.targets.length).Nodup → ∃ c', s'.peers call.client = .client c' ∧
        ∀ key ∈ call.keys, ∃ n r, call.futures.get? key = some n ∧ c'.futures[n]? = some (.result r) := by
  obtain ⟨es', s', h2, hW⟩ := continues_well h hH hw hq h1 hc hN
  have ho := h2.orderly h
  refine ⟨es', s', h2, fun x c hx => ?_, fun call hcall hkeys => well_graph ho hW hw (by rw [h2.gets]; exact hcall) hkeys⟩
  obtain ⟨c', hx', hl⟩ := (h2.keeps h).1 x c hx
  exact ⟨c', hx', hl, fun k nm b hk => well_submitted ho hW hx' hk⟩

/-- **C97.** What the future of a task holds is what the function gave when it was called with the arguments of the task, or the
exception that came instead; what the future of a node holds is the value of the node in the user's graph. -/
theorem C97_value (h : Orderly p rt cfg es s) (hH : Harmless p rt) (hw : cfg.maxWaiting < 0) (hq : fitsBits 32 cfg.queueSize) (h1 : 1 ≤ cfg.queueSize)
    (hc : ∃ w, Connected s.sched w) (hN : ∀ es' s', Continues p rt es s es' s' → NodesReturn s') (hi : ∀ b b', p.hash b = p.hash b' → b = b') :
    ∃ es' s', Continues p rt es s es' s' ∧
      (∀ x c, s.peers x = .client c → ∃ c', s'.peers x = .client c' ∧ c.log <+: c'.log ∧ ∀ k nm b, Client.Act.submitted k nm b ∈ c'.log →
        ∃ n r, Client.Act.returned k.taskId n ∈ c'.log ∧
          ((c'.futures[n]? = some (.result r) ∧ ∃ f, rt.loadFn b = .ok f ∧ Processor.Returns rt f k.args r) ∨
           (c'.futures[n]? = some (.exception r) ∧ ∃ e, rt.dumpExc e = some r ∧
             ((∃ f, rt.loadFn b = .ok f ∧ Processor.Raises rt f k.args e) ∨ Processor.LoadFails rt k.args e ∨ e = rt.notCallable)))) ∧
      ∀ call ∈ s.gets, (call.keys.take call.message.targets.length).Nodup → ∃ c', s'.peers call.client = .client c' ∧
        ∀ key ∈ call.keys, ∃ n r, call.futures.get? key = some n ∧ c'.futures[n]? = some (.result r) ∧
          ∀ value, Deterministic rt value → UserValue call.graph value key r := by
  obtain ⟨es', s', h2, h3, h3'⟩ := C97_answered h hH hw hq h1 hc hN
  have hr := (h2.orderly h).reach
  have hn : NoCollision p s' := fun b b' _ _ e => hi b b' e
  refine ⟨es', s', h2, fun x c hx => ?_, fun call hcall hkeys => ?_⟩
  · obtain ⟨c', hx', hl, h4⟩ := h3 x c hx
    refine ⟨c', hx', hl, fun k nm b hk => ?_⟩
    obtain ⟨n, r, h5, h6⟩ := h4 k nm b hk
    refine ⟨n, r, h5, ?_⟩
    rcases h6 with h6 | h6
    · obtain ⟨k', nm', b', f, g1, g2, g3, g4⟩ := C62_value hr hn hx' h5 h6
      obtain ⟨rfl, -, rfl⟩ := (hr.inv.client hx').task.once _ _ _ _ _ _ g1 hk g2
      exact .inl ⟨h6, f, g3, g4⟩
    · obtain ⟨k', nm', b', e, g1, g2, g3, g4⟩ := C62_exception hr hn hx' h5 h6
      obtain ⟨rfl, -, rfl⟩ := (hr.inv.client hx').task.once _ _ _ _ _ _ g1 hk g2
      exact .inr ⟨h6, e, g3, g4⟩
  · obtain ⟨c', hx', h4⟩ := h3' call hcall hkeys
    refine ⟨c', hx', fun key hkey => ?_⟩
    obtain ⟨n, r, h5, h6⟩ := h4 key hkey
    exact ⟨n, r, h5, h6, fun value hd => (C63_value_partial hr hn hd (by rw [h2.gets]; exact hcall) hkeys hx' h5 h6).2⟩

/-! ### A run -/

/-- Functions of which every exception can be pickled; the empty string is no function. -/
def kind : Proc.Runtime Nat Nat Nat := { toy with dumpExc := fun x => some [UInt8.ofNat x] }

/-- The empty string is no pickle. -/
def strictPickle : Pickle := ⟨fun b => decide (b ≠ []), id⟩

theorem kind_harmless : Harmless strictPickle kind :=
  ⟨nofun, fun v r h => by cases h; rfl, fun x r h => by cases h; rfl⟩

/-- Is the event one of those that may happen? -/
def mildB (s : Sys Nat) : System.Op → Bool
  | .joinClient _ => true
  | .joinWorker _ _ _ _ => true
  | .sched e => decide (e.op ≠ .workerRoutine) && match e.op with
    | .recv _ (.taskResult _ .failed _ _) => false
    | _ => true
  | .client x (.recv m) =>
    match s.peers x with
    | .client c => decide (c.user = .idle) && (mailIn c.log ++ [m]).isPrefixOf (letters x s.sched.out)
    | _ => false
  | .client _ (.submit _ _ b _) => decide (b ≠ [])
  | .client _ .advance => true
  | .client _ .flush => true
  | .get _ _ _ g keys => g.items.any (fun y => match y.2 with | .call _ _ _ => true | .data _ => false) &&
      decide (g.items.length < 2 ^ 32 ∧ keys.length < 2 ^ 32) && g.items.all fun y => match y.2 with
        | .call _ b as => decide (2 + 2 * as.length < 2 ^ 32) && decide (b ≠ []) && decide as.Nodup
        | .data _ => true
  | .agent _ _ => true
  | .proc _ _ _ => true
  | _ => false

theorem mildB_ok {s : Sys Nat} {o : System.Op} (h : mildB s o = true) : Mild kind s o := by
  unfold mildB at h
  split at h
  · trivial
  · trivial
  · refine ⟨fun he => ?_, fun x t d r he => ?_⟩ <;> simp [he] at h
  · next x m =>
    intro c hc
    rw [hc] at h
    simp only [Bool.and_eq_true, decide_eq_true_eq, List.isPrefixOf_iff_prefix] at h
    exact h
  · next b _ =>
    cases b with
    | nil => simp at h
    | cons y b => exact ⟨_, rfl⟩
  all_goals first | trivial | (cases h; done) | skip
  next g keys =>
    simp only [Bool.and_eq_true, decide_eq_true_eq, List.any_eq_true, List.all_eq_true] at h
    obtain ⟨⟨⟨⟨x, n⟩, h1, h2⟩, h3⟩, h4⟩ := h
    refine ⟨?_, h3, fun x nm b as hx => ?_⟩
    · cases n with
      | call nm b as => exact ⟨x, nm, b, as, Dict.mem_items.1 h1⟩
      | data b => cases h2
    · have := h4 _ (Dict.mem_items.2 hx)
      simp only [Bool.and_eq_true, decide_eq_true_eq] at this
      obtain ⟨⟨h5, h6⟩, h7⟩ := this
      refine ⟨h5, ?_, fun y _ => List.nodup_iff_count.1 h7 y⟩
      cases b with
      | nil => exact absurd rfl h6
      | cons y b => exact ⟨_, rfl⟩

/-- An event, if it may happen. -/
def orderlyTry (x : List Sched.Event × Sys Nat) (o : System.Op) : List Sched.Event × Sys Nat :=
  if mildB x.2 o && decide (Prompt (x.1 ++ schedPart o)) then
    match x.2.step strictPickle kind o with
    | some s => (x.1 ++ schedPart o, s)
    | none => x
  else x

def orderlyRun (cfg : Config) (os : List System.Op) : List Sched.Event × Sys Nat := os.foldl orderlyTry ([], Sys.init cfg)

theorem orderlyRun_ok (cfg : Config) (os : List System.Op) : Orderly strictPickle kind cfg (orderlyRun cfg os).1 (orderlyRun cfg os).2 := by
  unfold orderlyRun
  suffices h : ∀ x : List Sched.Event × Sys Nat, Orderly strictPickle kind cfg x.1 x.2 →
      Orderly strictPickle kind cfg (os.foldl orderlyTry x).1 (os.foldl orderlyTry x).2 from h _ .init
  induction os with
  | nil => exact fun _ h => h
  | cons o os ih =>
    intro x h
    refine ih _ ?_
    unfold orderlyTry
    split
    · next hc =>
      simp only [Bool.and_eq_true, decide_eq_true_eq] at hc
      split
      · next s hs => exact .step o h hs (mildB_ok hc.1) hc.2
      · exact h
    · exact h

/-- Two tasks: the first one is with the worker, the second one is still in the queue of the client's connector. -/
def halfWay : List System.Op :=
  meet ++ (submitAll [10]).map (System.Op.client [1]) ++
    [.client [1] .flush, schedOp (.recv [1] (.functionRequest .add [9] [5] [9])), .client [1] fnOk, .client [1] .flush,
      schedOp (.recv [1] (.task ⟨[10], [9], []⟩)), schedOp .taskRoutine, .agent [2] ⟨.recv (.task ⟨[10], [9], []⟩), 5⟩] ++
    [.client [1] (.submit [11] [6] [0, 3] [[7]]), .client [1] .advance, .client [1] .advance, .client [1] .advance, .client [1] .advance]

example : ∃ es s, Orderly strictPickle kind narrow es s ∧ Harmless strictPickle kind ∧ narrow.maxWaiting < 0 ∧ fitsBits 32 narrow.queueSize ∧
    1 ≤ narrow.queueSize ∧ Connected s.sched [2] ∧ s.gets = [] ∧ ∃ c, s.peers [1] = .client c ∧ Client.Act.submitted ⟨[10], [9], []⟩ [5] [9] ∈ c.log ∧
      Client.Act.submitted ⟨[11], [0, 3], [⟨.data, [7]⟩]⟩ [6] [0, 3] ∈ c.log ∧ c.futures = [.pending] := by
  refine ⟨_, _, orderlyRun_ok narrow halfWay, kind_harmless, by decide, (by unfold fitsBits; decide), by decide, by decide +kernel, List.isEmpty_iff.1 (by decide +kernel), ?_⟩
  obtain ⟨c, hc, h1, h2, h3⟩ : ∃ c, clientAt (orderlyRun narrow halfWay).2 [1] = some c ∧ Client.Act.submitted ⟨[10], [9], []⟩ [5] [9] ∈ c.log ∧
      Client.Act.submitted ⟨[11], [0, 3], [⟨.data, [7]⟩]⟩ [6] [0, 3] ∈ c.log ∧ c.futures = [.pending] :=
    ⟨((clientAt (orderlyRun narrow halfWay).2 [1]).getD .init), by decide +kernel, by decide +kernel, by decide +kernel, by decide +kernel⟩
  exact ⟨c, clientAt_eq hc, h1, h2, h3⟩

/-- A message from the worker is on its way. -/
example : ∃ es s, Orderly strictPickle kind narrow es s ∧ Due s (schedOp (.recv [2] asks9)) ∧ Mild kind s (schedOp (.recv [2] asks9)) ∧
    Prompt (es ++ schedPart (schedOp (.recv [2] asks9))) := by
  refine ⟨_, _, orderlyRun_ok narrow (halfWay ++ [fromProc ready9, agentTurn, .proc [2] 0 ⟨.recv (task9 [10]), 5⟩, fromProc asks9]), ?_, ⟨nofun, nofun⟩, ?_⟩
  · show _ < _
    decide +kernel
  · decide +kernel

/-- A system that got to where nothing happens. -/
example : ∃ es s, Orderly strictPickle kind narrow es s ∧ turnDue es = some false ∧ NodesReturn s ∧
    (∀ o s', inner o = true → Mild kind s o → s.step strictPickle kind o = some s' → Idle s o s') ∧
    ∃ c, s.peers [1] = .client c ∧ Client.Act.submitted ⟨[10], [9], []⟩ [5] [9] ∈ c.log := by
  have h := orderlyRun_ok narrow halfWay
  obtain ⟨c, hc, h1⟩ : ∃ c, clientAt (orderlyRun narrow halfWay).2 [1] = some c ∧ Client.Act.submitted ⟨[10], [9], []⟩ [5] [9] ∈ c.log :=
    ⟨((clientAt (orderlyRun narrow halfWay).2 [1]).getD .init), by decide +kernel, by decide +kernel⟩
  obtain ⟨es, s, h2, h3, h4⟩ := C97_stops h (by decide)
  obtain ⟨c', hx, hl⟩ := (h2.keeps h).1 _ c (clientAt_eq hc)
  exact ⟨es, s, h2.orderly h, h3, C97_quiet h (List.isEmpty_iff.1 (by decide +kernel)) _ _ h2, h4, c', hx, hl.subset h1⟩

/-! ### A run with a graph -/

/-- The message of the graph. -/
def askMessage : GraphTask :=
  match Client.buildGraph strictPickle [[20], [21]] [30] getGraph [[3], [2]] with
  | .ok m => m
  | .error _ => ⟨[], .empty, [], []⟩

/-- The scheduler got the graph and gave the first node to the worker. -/
def askWay : List System.Op :=
  meet ++ [.get [1] [[20], [21]] [30] getGraph [[3], [2]], .client [1] .advance, .client [1] .flush, schedOp (.recv [1] (.graphTask askMessage)),
    schedOp .graphRoutine, schedOp .taskRoutine, .agent [2] ⟨.recv (.task ⟨[20], [9], [⟨.data, [7]⟩]⟩), 5⟩]

theorem orderlyRun_only {xs : List Bytes} {os : List System.Op} (h : ∀ o ∈ os, ∀ x, opPeer o = some x → x ∈ xs) (cfg : Config) : Only xs (orderlyRun cfg os).2 := by
  unfold orderlyRun
  suffices hk : ∀ (y : List Sched.Event × Sys Nat), Only xs y.2 → Only xs (os.foldl orderlyTry y).2 from hk _ fun _ _ => rfl
  clear cfg
  induction os with
  | nil => exact fun _ h => h
  | cons o os ih =>
    intro y hy
    refine ih (fun o ho => h o (List.mem_cons_of_mem _ ho)) _ fun x hx => ?_
    unfold orderlyTry
    split
    · split
      · next s hs =>
        rw [step_other hs fun e => hx (h o List.mem_cons_self x e)]
        exact hy x hx
      · exact hy x hx
    · exact hy x hx

/-- Is the processor idle, and did it report no failure? -/
def procFine (q : Proc.Proc Nat) : Bool :=
  decide (q.main = .idle) && q.log.all fun y => match y.2 with
    | .sent (.taskResult _ .failed _ _) => false
    | _ => true

theorem procFine_ok {xs : List Bytes} {s : Sys Nat} (ho : Only xs s) (h : (xs.all fun x => match s.peers x with
    | .worker _ _ qs _ => qs.all procFine
    | _ => true) = true) : FineSoFar s := by
  intro x a ret qs left q hx hq
  have hin : x ∈ xs := Classical.byContradiction fun hn => by rw [ho x hn] at hx; cases hx
  have h1 := List.all_eq_true.1 h x hin
  rw [hx] at h1
  have h2 := List.all_eq_true.1 h1 q hq
  simp only [procFine, Bool.and_eq_true, decide_eq_true_eq, List.all_eq_true] at h2
  refine ⟨by simp [HasFunction, h2.1], fun now t d r h3 => ?_⟩
  have := h2.2 _ h3
  cases this

/-- The functions of the graph return. -/
theorem askWay_returns : GraphsReturn kind (orderlyRun narrow askWay).2 := by
  have hg : ∀ k ∈ (orderlyRun narrow askWay).2.gets, k.graph = getGraph := by
    intro k hk
    have h : (orderlyRun narrow askWay).2.gets.all (fun k => decide (k.graph.items = getGraph.items)) = true := by decide +kernel
    have := of_decide_eq_true (List.all_eq_true.1 h k hk)
    cases hc : k.graph
    rw [hc] at this
    cases this
    rfl
  refine ⟨fun k hk x b hx => ?_, fun v r h => ?_, fun k hk x nm b as f hx hf vs c => ?_⟩
  · rw [hg k hk] at hx
    have := Dict.mem_items.2 hx
    simp [getGraph, Dict.set, Dict.empty, Dict.lset] at this
    obtain ⟨-, rfl⟩ := this
    exact ⟨_, rfl⟩
  · cases h
    exact ⟨_, rfl⟩
  · rw [hg k hk] at hx
    have := Dict.mem_items.2 hx
    simp [getGraph, Dict.set, Dict.empty, Dict.lset] at this
    rcases this with ⟨-, -, rfl, -⟩ | ⟨-, -, rfl, -⟩ <;> cases hf <;> exact ⟨_, _, rfl, rfl⟩

/-- The hypotheses of `C97_nodes` and, with it, of `C97_answered` and `C97_value` can be met. -/
example : ∃ es s, Orderly strictPickle kind narrow es s ∧ GraphsReturn kind s ∧ FineSoFar s ∧ Connected s.sched [2] ∧
    (∀ b b', strictPickle.hash b = strictPickle.hash b' → b = b') ∧ ∃ call ∈ s.gets, call.keys = [[3], [2]] ∧
      (call.keys.take call.message.targets.length).Nodup ∧ ∃ c, s.peers call.client = .client c ∧ c.futures = [.pending, .pending] := by
  refine ⟨_, _, orderlyRun_ok narrow askWay, askWay_returns, procFine_ok (xs := [[1], [2]]) (orderlyRun_only (by decide) _) (by decide +kernel),
    by decide +kernel, fun _ _ h => h, ?_⟩
  obtain ⟨c, hc, h1⟩ : ∃ c, clientAt (orderlyRun narrow askWay).2 [1] = some c ∧ c.futures = [.pending, .pending] :=
    ⟨((clientAt (orderlyRun narrow askWay).2 [1]).getD .init), by decide +kernel, by decide +kernel⟩
  obtain ⟨call, h2, h3, h4⟩ : ∃ call ∈ (orderlyRun narrow askWay).2.gets, call.client = [1] ∧ call.keys = [[3], [2]] := by decide +kernel
  exact ⟨call, h2, h4, (by rw [h4]; decide : call.keys.Nodup).sublist (List.take_sublist _ _), c, by rw [h3]; exact clientAt_eq hc, h1⟩

end Verif.Props
