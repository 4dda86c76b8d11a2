import Verif.Spec.Ended
import Verif.Props.Running
import Verif.Props.RestRuns

/-!
# C96: processors that come to their end
-/

namespace Verif.Props

open Verif.Wire Verif.System Verif.Spec

variable {F V X : Type} {p : Client.Pickle} {rt : Proc.Runtime F V X} {cfg : Sched.Config} {s s' : Sys F} {x : Bytes}

theorem ended_clean {q : Proc.Proc F} (h : ProcEnded rt q) (now : Int) : ProcEnded rt (q.clean now) := by
  have hm : (q.clean now).main = q.main ∧ (q.clean now).task = q.task := by
    unfold Proc.Proc.clean
    split
    · exact ⟨rfl, rfl⟩
    · exact ⟨rfl, rfl⟩
    · exact ⟨rfl, rfl⟩
    · simp only; split <;> exact ⟨rfl, rfl⟩
  refine ⟨hm.1 ▸ h.1, fun now' c d => ?_⟩
  obtain ⟨y, hy⟩ := h.2 now' c d
  simp only [Proc.Proc.step, Proc.Proc.work, hm.1] at hy ⊢
  revert hy
  cases hmain : q.main with
  | idle => exact absurd hmain h.1
  | stamp k => simp
  | fetch k =>
    simp only
    split <;> intro hy <;> cases hy
  | stamp2 k f => simp
  | call k f =>
    simp only [Proc.Proc.answer]
    split
    · intro hy; cases hy
    · split
      · intro hy; cases hy
      · exact fun _ => ⟨_, rfl⟩
  | added f =>
    simp only [hm.2]
    cases q.task with
    | none => exact fun _ => ⟨_, rfl⟩
    | some k => intro hy; cases hy
  | del2 f => simp

theorem clean_sent (q : Proc.Proc F) (now : Int) (m : Message) :
    ((q.clean now).log.countP fun y => decide (y.2 = .sent m)) = q.log.countP fun y => decide (y.2 = .sent m) := by
  unfold Proc.Proc.clean
  split
  · simp [Proc.Proc.note]
  · rfl
  · rfl
  · simp only
    split
    · simp [Proc.Proc.note]
    · rfl

/-- What stays as it is. -/
structure Blocked (rt : Proc.Runtime F V X) (a : Worker.Agent) (qs : List (Proc.Proc F)) (n : Nat) (k : Task) : Prop where
  proc : a.processor = some n
  task : a.task = some k
  locked : a.locked = true
  init : a.initialized = true
  procs : a.procs ≤ qs.length
  ended : ∃ q, qs[n]? = some q ∧ ProcEnded rt q
  none : ∀ st d r, procsSent (.taskResult k.taskId st d r) qs ≤ heardOf (.taskResult k.taskId st d r) a.log

/-- The agent's tables are as before, and it has given and answered nothing. -/
structure SameHold (a a' : Worker.Agent) : Prop where
  proc : a'.processor = a.processor
  task : a'.task = a.task
  locked : a'.locked = a.locked
  init : a'.initialized = a.initialized
  procs : a'.procs = a.procs
  log : ∃ l, a'.log = a.log ++ l ∧ ∀ y ∈ l, gaveTask y.2 = false ∧ sentResult y.2 = false

theorem SameHold.refl (a : Worker.Agent) : SameHold a a := ⟨rfl, rfl, rfl, rfl, rfl, [], by simp, by simp⟩

theorem takeOldest_same {n : Nat} {a a' : Worker.Agent} {l : List Bytes} (h : a.takeOldest n = .ok (l, a')) : SameHold a a' := by
  induction n generalizing a a' l with
  | zero => simp only [Worker.Agent.takeOldest] at h; cases h; exact .refl _
  | succ n ih =>
    simp only [Worker.Agent.takeOldest, Py.bind_ok] at h
    obtain ⟨⟨t, qu⟩, -, ⟨k, ts⟩, -, ⟨l', a1⟩, h3, h4⟩ := h
    cases h4
    have := ih h3
    exact ⟨this.proc, this.task, this.locked, this.init, this.procs, this.log⟩

theorem SameHold.trans {a b c : Worker.Agent} (h : SameHold a b) (h' : SameHold b c) : SameHold a c := by
  obtain ⟨l, e, hl⟩ := h.log
  obtain ⟨l', e', hl'⟩ := h'.log
  refine ⟨h'.proc.trans h.proc, h'.task.trans h.task, h'.locked.trans h.locked, h'.init.trans h.init, h'.procs.trans h.procs, l ++ l', ?_, fun y hy => ?_⟩
  · rw [e', e, List.append_assoc]
  · rcases List.mem_append.1 hy with hy | hy
    · exact hl y hy
    · exact hl' y hy

theorem SameHold.note (a : Worker.Agent) (now : Int) {y : Worker.Act} (h : gaveTask y = false) (h' : sentResult y = false) : SameHold a (a.note now y) :=
  ⟨rfl, rfl, rfl, rfl, rfl, [(now, y)], rfl, fun z hz => by rw [List.mem_singleton.1 hz]; exact ⟨h, h'⟩⟩

/-- An agent whose processor has a task, gets no cancel and hears no result of this task goes on holding it. -/
theorem agent_quiet {a a' : Worker.Agent} {e : Worker.Agent.Event} {k : Task} (ht : a.task = some k) (hl : a.locked = true) (hi : a.initialized = true)
    (hc : ∀ t, e.op ≠ .recv (.taskCancel t)) (hh : ∀ st d r, e.op ≠ .heard (.taskResult k.taskId st d r)) (h : a.step e = .ok a') : SameHold a a' := by
  unfold Worker.Agent.step at h
  split at h
  · next m hm =>
    refine (SameHold.note a e.now (y := .recv m) rfl rfl).trans ?_
    have ht1 : (a.note e.now (.recv m)).task = some k := ht
    have hi1 : (a.note e.now (.recv m)).initialized = true := hi
    generalize a.note e.now (.recv m) = b at h ht1 hi1 ⊢
    rw [hm] at hc
    unfold Worker.Agent.receive at h
    split at h
    · cases h
      unfold Worker.Agent.onEcho
      split
      · exact .refl _
      · exact ⟨rfl, rfl, rfl, rfl, rfl, [], by simp, by simp⟩
    · simp only [Worker.Agent.onTaskNew, Py.bind_ok] at h
      obtain ⟨_, -, h⟩ := h
      cases h
      exact ⟨rfl, rfl, rfl, rfl, rfl, [], by simp, by simp⟩
    · exact absurd rfl (hc _)
    · simp only [Py.bind_ok, Worker.Agent.onBalance] at h
      obtain ⟨⟨l, b'⟩, h1, h2⟩ := h
      cases h2
      split at h1
      · cases h1
      · exact (takeOldest_same h1).trans (SameHold.note _ _ rfl rfl)
    · unfold Worker.Agent.onFunctionRequest at h
      split at h
      · cases h; exact SameHold.note _ _ rfl rfl
      · cases h
    · simp only [Worker.Agent.onFunctionResponse, hi1, Bool.not_true, Bool.false_eq_true, if_false, ht1, orRaise, Py.ok_bind] at h
      split at h
      · cases h; exact .refl _
      · split at h
        · cases h; exact .refl _
        · cases h; exact SameHold.note _ _ rfl rfl
    · cases h
  · next m hm =>
    refine (SameHold.note a e.now (y := .heard m) rfl rfl).trans ?_
    have ht1 : (a.note e.now (.heard m)).task = some k := ht
    have hi1 : (a.note e.now (.heard m)).initialized = true := hi
    generalize a.note e.now (.heard m) = b at h ht1 hi1 ⊢
    rw [hm] at hh
    unfold Worker.Agent.receiveInternal at h
    split at h
    · simp only [Worker.Agent.onInternalFunctionRequest, hi1, Bool.not_true, Bool.false_eq_true, if_false, ht1] at h
      split at h
      · cases h; exact .refl _
      · simp only [Py.bind_ok] at h
        obtain ⟨_, -, h⟩ := h
        cases h; exact SameHold.note _ _ rfl rfl
    · next t st d r =>
      simp only [Worker.Agent.onResult, hi1, Bool.not_true, Bool.false_eq_true, if_false, ht1] at h
      split at h
      · cases h; exact .refl _
      · next hne => exact absurd (by rw [Decidable.not_not.1 hne]) (hh st d r)
    · cases h
  · unfold Worker.Agent.turn at h
    split at h
    · split at h
      · cases h; exact .refl _
      · simp only [Py.bind_ok] at h
        obtain ⟨⟨t, qu⟩, -, ⟨k', ts⟩, -, h⟩ := h
        simp only [Worker.Agent.awaitLock, hl, if_true] at h
        cases h
        exact ⟨rfl, rfl, hl.symm, rfl, rfl, [], by simp, by simp⟩
    · simp only [hl, if_true] at h
      cases h; exact .refl _
    · split at h
      · simp only [Worker.Agent.handOver, ht, Option.isNone_some, pyAssert, Py.bind_ok] at h
        obtain ⟨_, h, -⟩ := h
        cases h
      · cases h; exact .refl _
  · unfold Worker.Agent.heartbeat at h
    split at h
    · cases h; exact .refl _
    · split at h
      · cases h; exact .refl _
      · simp only [Py.bind_ok] at h
        obtain ⟨_, -, h⟩ := h
        cases h
        exact ⟨rfl, rfl, rfl, rfl, rfl, [(e.now, .sent (.heartbeat _))], rfl, fun z hz => by rw [List.mem_singleton.1 hz]; exact ⟨rfl, rfl⟩⟩
  · unfold Worker.Agent.checkTimeout at h
    split at h
    · cases h; exact .refl _
    · cases h

theorem SameHold.heard {a a' : Worker.Agent} (h : SameHold a a') (m : Message) : heardOf m a.log ≤ heardOf m a'.log := by
  obtain ⟨l, e, -⟩ := h.log
  rw [e]
  simp only [heardOf, List.countP_append]
  omega

theorem sum_set_eq {α : Type} (f : α → Nat) : ∀ {l : List α} {i : Nat} {y z : α}, l[i]? = some y → f z = f y → ((l.set i z).map f).sum = (l.map f).sum
  | _ :: _, 0, _, _, h, e => by cases h; simp [e]
  | _ :: l, i + 1, _, _, h, e => by
    have := sum_set_eq f (l := l) (by simpa using h) e
    simp only [List.set_cons_succ, List.map_cons, List.sum_cons, this]

theorem extend_same {ret now : Int} {qs : List (Proc.Proc F)} {n : Nat} (h : n ≤ qs.length) : extend ret now qs n = qs := by
  unfold extend
  rw [Nat.sub_eq_zero_of_le h]
  simp

theorem set_apart {y : Bytes} {P Q : Peer F} (h : s.peers x = P) (hy : x ≠ y) : (s.setPeer y Q).peers x = P := by
  simpa [Sys.setPeer, hy] using h

theorem set_here {P : Peer F} : (s.setPeer x P).peers x = P := by simp [Sys.setPeer]

/-- What an event can do to a worker. -/
theorem worker_next {o : System.Op} {a : Worker.Agent} {ret : Int} {qs : List (Proc.Proc F)} {left : Option Bytes}
    (hx : s.peers x = .worker a ret qs left) (hs : s.step p rt o = some s') :
    s'.peers x = .worker a ret qs left ∨ s'.peers x = .worker a ret qs (some x) ∨
    (∃ e a', o = .agent x e ∧ a.step e = .ok a' ∧ s'.peers x = .worker a' ret (extend ret e.now qs a'.procs) none ∧
      ∀ m, e.op = .heard m → heardOf m a.log < procsSent m qs) ∨
    (∃ n q q' e, a.processor = some n ∧ qs[n]? = some q ∧ q.step rt e = .ok q' ∧ s'.peers x = .worker a ret (qs.set n q') none) := by
  cases o with
  | joinClient y =>
    simp only [Sys.step] at hs
    split at hs <;> cases hs
    exact .inl (set_apart hx fun e => by subst e; simp_all)
  | joinWorker y d ret' now =>
    simp only [Sys.step] at hs
    split at hs <;> cases hs
    exact .inl (set_apart hx fun e => by subst e; simp_all)
  | sched e =>
    simp only [Sys.step, Sys.schedStep] at hs
    repeat' split at hs
    all_goals cases hs <;> exact .inl hx
  | client y o =>
    simp only [Sys.step] at hs
    split at hs
    · next c hc =>
      have hy : x ≠ y := fun e => by subst e; rw [hx] at hc; cases hc
      have key : ∀ {s : Sys F} {c o}, s.peers x = .worker a ret qs left → s.clientStep p y c o = some s' → s'.peers x = .worker a ret qs left := by
        intro s c o hx h
        unfold Sys.clientStep at h
        split at h <;> cases h
        exact set_apart hx hy
      left
      unfold Sys.clientOp at hs
      split at hs
      · split at hs
        · cases hs
        · refine key ?_ hs; exact hx
      · cases hs
      · split at hs
        · split at hs
          · cases hs
          · split at hs
            · exact key hx hs
            · cases hs
        · cases hs
      · exact key hx hs
    · cases hs
  | get y ids gid g keys =>
    simp only [Sys.step] at hs
    split at hs
    · next c hc =>
      have hy : x ≠ y := fun e => by subst e; rw [hx] at hc; cases hc
      unfold Sys.getOp at hs
      split at hs
      · split at hs <;> cases hs
        exact .inl (set_apart hx hy)
      · cases hs
    · cases hs
  | agent y e =>
    simp only [Sys.step] at hs
    split at hs
    · next a₀ ret₀ qs₀ hc =>
      by_cases hy : x = y
      · subst hy
        rw [hx] at hc
        cases hc
        right; right; left
        have key : ∀ {e' : Worker.Agent.Event}, e' = e → (∀ m, e.op = .heard m → heardOf m a.log < procsSent m qs) → s.agentStep x a ret qs e' = some s' →
            ∃ e' a', System.Op.agent x e = .agent x e' ∧ a.step e' = .ok a' ∧ s'.peers x = .worker a' ret (extend ret e'.now qs a'.procs) none ∧
              ∀ m, e'.op = .heard m → heardOf m a.log < procsSent m qs := by
          intro e' he hh h
          subst he
          unfold Sys.agentStep at h
          split at h <;> cases h
          exact ⟨_, _, rfl, ‹_›, set_here, hh⟩
        unfold Sys.agentOp at hs
        split at hs
        · next m hm =>
          split at hs
          · split at hs
            · cases hs
            · next hcar =>
              cases carryOut_eq hcar
              simp only [if_true] at hs
              exact key (by rw [← hm]) (fun m' hm' => by rw [hm] at hm'; cases hm') hs
          · cases hs
        · next m hm =>
          split at hs
          · next hlt =>
            split at hs
            · cases hs
            · next hcar =>
              cases carry_eq hcar
              exact key (by rw [← hm]) (fun m' hm' => by rw [hm] at hm'; cases hm'; exact hlt) hs
          · cases hs
        · next h1 h2 => exact key rfl (fun m' hm' => absurd hm' (h2 m')) hs
      · left
        have key : ∀ {e'}, s.agentStep y a₀ ret₀ qs₀ e' = some s' → s'.peers x = .worker a ret qs left := by
          intro e' h
          unfold Sys.agentStep at h
          split at h <;> cases h
          exact set_apart hx hy
        unfold Sys.agentOp at hs
        repeat' split at hs
        all_goals first | cases hs | exact key hs
    · cases hs
  | proc y n e =>
    simp only [Sys.step] at hs
    split at hs
    · next a₀ ret₀ qs₀ hc =>
      unfold Sys.procOp at hs
      split at hs
      · next hn =>
        split at hs
        · cases hs
        · next q hq =>
          have key : ∀ {e'}, s.procStep rt y a₀ ret₀ qs₀ n q e' = some s' → ∃ q', q.step rt e' = .ok q' ∧ s' = s.setPeer y (.worker a₀ ret₀ (qs₀.set n q') none) := by
            intro e' h
            unfold Sys.procStep at h
            split at h <;> cases h
            exact ⟨_, ‹_›, rfl⟩
          obtain ⟨e', q', hq', rfl⟩ : ∃ e' q', q.step rt e' = .ok q' ∧ s' = s.setPeer y (.worker a₀ ret₀ (qs₀.set n q') none) := by
            repeat' split at hs
            all_goals first | cases hs | exact ⟨_, key hs⟩
          by_cases hy : x = y
          · subst hy
            rw [hx] at hc
            cases hc
            exact .inr (.inr (.inr ⟨n, q, q', e', hn, hq, hq', set_here⟩))
          · exact .inl (set_apart hx hy)
      · cases hs
    · cases hs
  | leave y =>
    simp only [Sys.step] at hs
    split at hs
    · next a₀ ret₀ qs₀ hc =>
      cases hs
      by_cases hy : x = y
      · subst hy
        rw [hx] at hc
        cases hc
        exact .inr (.inl set_here)
      · exact .inl (set_apart hx hy)
    · cases hs

/-- One event leaves everything at the worker as it is. -/
theorem blocked_step {o : System.Op} {a : Worker.Agent} {ret : Int} {qs : List (Proc.Proc F)} {left : Option Bytes} {n : Nat} {k : Task}
    (hx : s.peers x = .worker a ret qs left) (hb : Blocked rt a qs n k) (ho : NoCancelFor x o) (hs : s.step p rt o = some s') :
    ∃ a' qs' left', s'.peers x = .worker a' ret qs' left' ∧ Blocked rt a' qs' n k ∧ SameHold a a' := by
  rcases worker_next hx hs with h | h | ⟨e, a', rfl, h1, h2, h3⟩ | ⟨n', q, q', e, hn, hq, hs', h⟩
  · exact ⟨_, _, _, h, hb, .refl _⟩
  · exact ⟨_, _, _, h, hb, .refl _⟩
  · have hq := agent_quiet hb.task hb.locked hb.init (fun t ht => ho t e.now (by rw [← ht]))
      (fun st d r hh => by have := h3 _ hh; have := hb.none st d r; omega) h1
    rw [extend_same (hq.procs ▸ hb.procs)] at h2
    exact ⟨_, _, _, h2, ⟨hq.proc.trans hb.proc, hq.task.trans hb.task, hq.locked.trans hb.locked, hq.init.trans hb.init, hq.procs ▸ hb.procs, hb.ended,
      fun st d r => Nat.le_trans (hb.none st d r) (hq.heard _)⟩, hq⟩
  · rw [hb.proc] at hn
    cases hn
    obtain ⟨q₀, hq₀, he⟩ := hb.ended
    rw [hq] at hq₀
    cases hq₀
    refine ⟨_, _, _, h, ?_, .refl _⟩
    have hlt := (List.getElem?_eq_some_iff.1 hq).1
    have key : ProcEnded rt q' ∧ ∀ m, (q'.log.countP fun y => decide (y.2 = .sent m)) = q.log.countP fun y => decide (y.2 = .sent m) := by
      unfold Proc.Proc.step at hs'
      split at hs'
      · split at hs'
        · exact absurd ‹_› he.1
        · cases hs'; exact ⟨he, fun _ => rfl⟩
      · next c d hop =>
        obtain ⟨y, hy⟩ := he.2 e.now c d
        simp only [Proc.Proc.step] at hy
        rw [hy] at hs'; cases hs'
      · cases hs'; exact ⟨ended_clean he _, fun m => clean_sent _ _ _⟩
    refine ⟨hb.proc, hb.task, hb.locked, hb.init, by simpa using hb.procs, ⟨q', by simp [hlt], key.1⟩, fun st d r => ?_⟩
    have := hb.none st d r
    unfold procsSent at this ⊢
    rw [sum_set_eq _ hq (key.2 _)]
    exact this

/-- When the processor of a worker has ended while the agent waits for the result of its task, and no result of this task is on
the way, then until the worker is asked to cancel something it starts no other processor, gives no processor another task and sends
the scheduler no result of any task. -/
theorem ended_blocks {a : Worker.Agent} {ret : Int} {qs : List (Proc.Proc F)} {left : Option Bytes} {n : Nat} {q : Proc.Proc F} {k : Task}
    (hr : System.Reach p rt cfg s) (hx : s.peers x = .worker a ret qs left) (hk : a.task = some k) (hn : a.processor = some n)
    (hq : qs[n]? = some q) (he : ProcEnded rt q)
    (hno : ∀ st d r, procsSent (.taskResult k.taskId st d r) qs ≤ heardOf (.taskResult k.taskId st d r) a.log)
    (h : Uncancelled p rt x s s') : ∃ a' qs' left', s'.peers x = .worker a' ret qs' left' ∧ a'.task = some k ∧ a'.processor = some n ∧ a'.procs = a.procs ∧
      (∃ q', qs'[n]? = some q' ∧ ProcEnded rt q') ∧ howOften gaveTask a'.log = howOften gaveTask a.log ∧ howOften sentResult a'.log = howOften sentResult a.log := by
  obtain ⟨d, st, hw⟩ := hr.inv.worker hx
  have hinv := hw.good.inv
  have hb : Blocked rt a qs n k := by
    refine ⟨hn, hk, by rw [hinv.lock, hk]; rfl, hinv.init (by rw [hk]; rfl), ?_, ⟨q, hq, he⟩, hno⟩
    have := hinv.procs n hn
    have := (List.getElem?_eq_some_iff.1 hq).1
    omega
  have key : ∃ a' qs' left', s'.peers x = .worker a' ret qs' left' ∧ Blocked rt a' qs' n k ∧ SameHold a a' := by
    induction h with
    | refl => exact ⟨_, _, _, hx, hb, .refl _⟩
    | step o _ ho hs ih =>
      obtain ⟨a1, qs1, left1, hx1, hb1, hs1⟩ := ih
      obtain ⟨a2, qs2, left2, hx2, hb2, hs2⟩ := blocked_step hx1 hb1 ho hs
      exact ⟨_, _, _, hx2, hb2, hs1.trans hs2⟩
  obtain ⟨a', qs', left', hx', hb', hh⟩ := key
  obtain ⟨l, e, hl⟩ := hh.log
  refine ⟨_, _, _, hx', hb'.task, hb'.proc, hh.procs, hb'.ended, ?_, ?_⟩
  · simp only [howOften, e, List.countP_append]
    rw [List.countP_eq_zero.2 fun y (hy : y ∈ l) => by rw [(hl y hy).1]; exact Bool.false_ne_true]
    rfl
  · simp only [howOften, e, List.countP_append]
    rw [List.countP_eq_zero.2 fun y (hy : y ∈ l) => by rw [(hl y hy).2]; exact Bool.false_ne_true]
    rfl

theorem loads_args {as : List Argument} {vs : List V} (h : Processor.Loads rt as vs) : (as.mapM fun a => rt.loadArg a.data) = .ok vs := by
  induction h with
  | nil => rfl
  | cons h1 _ ih => simp only [List.mapM_cons, h1, ih]; rfl

theorem fatal_evaluate {k : Task} {f : F} (h : EndsProcessor rt k f) (c : Nat) : ∃ e, Proc.Proc.evaluate rt k (some f) c = .error e ∧ rt.dumpExc e = none := by
  obtain ⟨vs, h1, h2⟩ := h
  obtain ⟨e, h3, h4⟩ := h2 c
  refine ⟨e, ?_, h4⟩
  unfold Proc.Proc.evaluate
  rw [loads_args h1]
  show (do let v ← rt.call f vs c; rt.dump v) = _
  rw [h3]
  rfl

theorem fatal_ended {q : Proc.Proc F} {k : Task} {f : F} (h : EndsProcessor rt k f) (hm : q.main = .call k (some f)) : ProcEnded rt q := by
  refine ⟨by rw [hm]; simp, fun now c d => ?_⟩
  obtain ⟨e, h1, h2⟩ := fatal_evaluate h c
  simp only [Proc.Proc.step, Proc.Proc.work, hm, Proc.Proc.answer, h1, h2]
  exact ⟨_, rfl⟩

/-- **C96.** When the processor of a worker calls a function that raises something which is not an `Exception` or cannot be pickled,
and the worker was given no task twice, then until the worker is asked to cancel something it starts no other processor, gives no
processor another task and sends the scheduler no result of any task.  Nothing in the agent looks after the processor. -/
theorem C96_blocks {a : Worker.Agent} {ret : Int} {qs : List (Proc.Proc F)} {left : Option Bytes} {n : Nat} {q : Proc.Proc F} {k : Task} {f : F}
    (hr : System.Reach p rt cfg s) (hx : s.peers x = .worker a ret qs left) (ho : ToldOnce a.log) (hn : a.processor = some n)
    (hq : qs[n]? = some q) (hm : q.main = .call k (some f)) (hf : EndsProcessor rt k f) (h : Uncancelled p rt x s s') :
    ∃ a' qs' left', s'.peers x = .worker a' ret qs' left' ∧ a'.task = some k ∧ a'.processor = some n ∧ a'.procs = a.procs ∧
      howOften gaveTask a'.log = howOften gaveTask a.log ∧ howOften sentResult a'.log = howOften sentResult a.log := by
  have hk : a.task = some k := C88_alone_partial hr hx ho hn hq (.inr (.inr (.inr (.inr (.inr ⟨_, hm⟩)))))
  have hat : AtProc n a.log q k := .inr (.inl (by rw [hm]; rfl))
  obtain ⟨a', qs', left', h1, h2, h3, h4, -, h5⟩ := ended_blocks hr hx hk hn hq (fatal_ended hf hm)
    (fun st d r => by rw [hat.unanswered (hr.inv.wired hx) ho hq st d r]; exact Nat.zero_le _) h
  exact ⟨a', qs', left', h1, h2, h3, h4, h5⟩

/-- **C96.** A cancel of the task that is with the processor makes the agent start another processor and release its lock, and the
loop of the agent can go on; this is so whatever became of the old processor. -/
theorem C96_cancel {a : Worker.Agent} {d st now : Int} {k : Task} (hr : Worker.Reach d st a) (hk : a.task = some k) (hq : a.tasks.has k.taskId = false) :
    ∃ a', a.step ⟨.recv (.taskCancel k.taskId), now⟩ = .ok a' ∧ a'.task = none ∧ a'.locked = false ∧ a'.processor = some a.procs ∧
      a'.initialized = false ∧ a'.queue = a.queue ∧ a'.tasks = a.tasks ∧ a'.pos = a.pos ∧ (now, .sent (.taskResult k.taskId .canceled 0 [])) ∈ a'.log := by
  have hi := hr.good.inv.init (by rw [hk]; rfl)
  obtain ⟨n, hn⟩ := Option.isSome_iff_exists.1 hr.good.inv.proc
  refine ⟨_, by
    simp only [Worker.Agent.step, Worker.Agent.receive, Worker.Agent.onCancel, Worker.Agent.note, hq, Bool.false_eq_true, if_false, Worker.Agent.cancelRunning,
      hi, Bool.not_true, hk, orRaise, Py.ok_bind, ne_eq, not_true, if_true, Worker.Agent.restart, Worker.Agent.kill, hn, Worker.Agent.startProcessor, Py.pure_eq]
    rfl, ?_⟩
  simp [Worker.Agent.send, Worker.Agent.note]

/-- A client submits a task whose function raises what cannot be pickled, and then one with another function. -/
def fatalScript : Script :=
  [(meet, 1), ((.submit [10] [5] [1] [] :: List.replicate 4 .advance).map (System.Op.client [1]), 12),
    ((.submit [11] [5] [9] [] :: List.replicate 4 .advance).map (System.Op.client [1]), 12)]

theorem fatal_toy (k : Task) (h : k.args = []) : EndsProcessor toy k 1 := ⟨[], h ▸ .nil, fun _ => ⟨6, rfl, rfl⟩⟩

/-- Worker `[2]` with its first processor. -/
def workerAt (s : Sys Nat) : Option (Worker.Agent × Int × List (Proc.Proc Nat) × Proc.Proc Nat) :=
  match s.peers [2] with
  | .worker a ret qs none => qs[0]?.map fun q => (a, ret, qs, q)
  | _ => none

theorem workerAt_eq {s : Sys Nat} {w : Worker.Agent × Int × List (Proc.Proc Nat) × Proc.Proc Nat} (h : workerAt s = some w) :
    s.peers [2] = .worker w.1 w.2.1 w.2.2.1 none ∧ w.2.2.1[0]? = some w.2.2.2 := by
  unfold workerAt at h
  split at h
  · next hx =>
    obtain ⟨q, hq, rfl⟩ := Option.map_eq_some_iff.1 h
    exact ⟨hx, hq⟩
  · cases h

/-- The hypotheses of `C96_blocks` can be met: the second task waits behind the first one. -/
theorem fatal_run : ∃ s : Sys Nat, System.Reach plainPickle toy wide s ∧ (∃ c, s.peers [1] = .client c ∧ c.futures = [.running, .running]) ∧
    ∃ a ret qs q, s.peers [2] = .worker a ret qs none ∧ ToldOnce a.log ∧ a.processor = some 0 ∧ qs[0]? = some q ∧
      q.main = .call ⟨[10], [1], []⟩ (some 1) ∧ a.pos = .lock ⟨[11], [9], []⟩ ∧ howOften sentResult a.log = 0 ∧ a.tasks.has [10] = false := by
  have h : ((workerAt (playRest true [[1], [2]] wide fatalScript)).bind fun w => (clientAt (playRest true [[1], [2]] wide fatalScript) [1]).map fun c =>
      decide (c.futures = [.running, .running] ∧ (toldIds w.1.log).Nodup ∧ w.1.processor = some 0 ∧ w.2.2.2.main = .call ⟨[10], [1], []⟩ (some 1) ∧
        w.1.pos = .lock ⟨[11], [9], []⟩ ∧ howOften sentResult w.1.log = 0 ∧ w.1.tasks.has [10] = false)) = some true := by decide +kernel
  obtain ⟨w, hw, h⟩ := Option.bind_eq_some_iff.1 h
  obtain ⟨c, hc, h⟩ := Option.map_eq_some_iff.1 h
  obtain ⟨h1, h2, h3, h4, h5, h6⟩ := of_decide_eq_true h
  obtain ⟨hx, hq⟩ := workerAt_eq hw
  exact ⟨_, playRest_reach _ _ _ _, ⟨c, clientAt_eq hc, h1⟩, _, _, _, _, hx, toldOnce_of h2, h3, hq, h4, h5, h6⟩

/-- **The claim is false**: a client's two tasks are with the only worker.  The function of the first one ends the processor, and as
long as the worker is asked to cancel nothing, no result ever comes from it. -/
theorem C96_stuck : ∃ s : Sys Nat, System.Reach plainPickle toy wide s ∧ (∃ c, s.peers [1] = .client c ∧ c.futures = [.running, .running]) ∧
    (∃ a ret qs, s.peers [2] = .worker a ret qs none ∧ a.pos = .lock ⟨[11], [9], []⟩) ∧
    ∀ s', Uncancelled plainPickle toy [2] s s' → ∃ a ret qs left, s'.peers [2] = .worker a ret qs left ∧ howOften sentResult a.log = 0 := by
  obtain ⟨s, hr, hc, a, ret, qs, q, hx, ho, hn, hq, hm, hp, h0, -⟩ := fatal_run
  refine ⟨s, hr, hc, ⟨a, ret, qs, hx, hp⟩, fun s' h => ?_⟩
  obtain ⟨a', qs', left', h1, -, -, -, -, h2⟩ := C96_blocks hr hx ho hn hq hm (fatal_toy _ rfl) h
  exact ⟨a', ret, qs', left', h1, h2.trans h0⟩

/-- The hypotheses of `C96_cancel` can be met in such a state. -/
example : ∃ (a : Worker.Agent) (d st : Int) (k : Task), Worker.Reach d st a ∧ a.task = some k ∧ a.tasks.has k.taskId = false ∧
    a.pos = .lock ⟨[11], [9], []⟩ := by
  obtain ⟨s, hr, -, a, ret, qs, q, hx, ho, hn, hq, hm, hp, -, ht⟩ := fatal_run
  obtain ⟨d, st, hw⟩ := hr.inv.worker hx
  exact ⟨a, d, st, ⟨[10], [1], []⟩, hw, C88_alone_partial hr hx ho hn hq (.inr (.inr (.inr (.inr (.inr ⟨_, hm⟩))))), ht, hp⟩

/-- **C96 (partial).** Otherwise the processor answers.  Full statement: whatever a function does, its processor answers the task and goes on
to the next one.  Missing: functions that raise something which is not an `Exception` or cannot be pickled (`C96_stuck`). -/
theorem C96_answers_partial {q : Proc.Proc F} {k : Task} {f : F} {vs : List V} {c : Nat} (hm : q.main = .call k (some f)) (hv : Processor.Loads rt k.args vs)
    (h : (∃ v r, rt.call f vs c = .ok v ∧ rt.dump v = .ok r) ∨ (∃ v e r, rt.call f vs c = .ok v ∧ rt.dump v = .error e ∧ rt.dumpExc e = some r) ∨
      ∃ e r, rt.call f vs c = .error e ∧ rt.dumpExc e = some r) (now : Int) (d : UInt32) :
    ∃ q' st r, q.step rt ⟨.work c d, now⟩ = .ok q' ∧ q'.main = .idle ∧ q'.log = q.log ++ [(now, .sent (.taskResult k.taskId st d r))] ∧
      (st = .success ↔ ∃ v, rt.call f vs c = .ok v ∧ rt.dump v = .ok r) := by
  have hev : Proc.Proc.evaluate rt k (some f) c = (do let v ← rt.call f vs c; rt.dump v) := by
    unfold Proc.Proc.evaluate
    rw [loads_args hv]
    rfl
  rcases h with ⟨v, r, h1, h2⟩ | ⟨v, e, r, h1, h2, h3⟩ | ⟨e, r, h1, h2⟩
  · have : Proc.Proc.evaluate rt k (some f) c = .ok r := by rw [hev, h1]; exact h2
    refine ⟨{ (q.note now (.sent (.taskResult k.taskId .success d r))) with main := .idle }, .success, r, ?_, ?_, ?_, ?_⟩
    · simp only [Proc.Proc.step, Proc.Proc.work, hm, Proc.Proc.answer, this]
    · rfl
    · rfl
    · exact ⟨fun _ => ⟨v, h1, h2⟩, fun _ => rfl⟩
  · have : Proc.Proc.evaluate rt k (some f) c = .error e := by rw [hev, h1]; exact h2
    refine ⟨{ (q.note now (.sent (.taskResult k.taskId .failed d r))) with main := .idle }, .failed, r, ?_, ?_, ?_, ?_⟩
    · simp only [Proc.Proc.step, Proc.Proc.work, hm, Proc.Proc.answer, this, h3]
    · rfl
    · rfl
    · refine ⟨(fun h => nomatch h), fun ⟨v', h4, h5⟩ => ?_⟩
      rw [h1] at h4; cases h4; rw [h2] at h5; cases h5
  · have : Proc.Proc.evaluate rt k (some f) c = .error e := by rw [hev, h1]; rfl
    refine ⟨{ (q.note now (.sent (.taskResult k.taskId .failed d r))) with main := .idle }, .failed, r, ?_, ?_, ?_, ?_⟩
    · simp only [Proc.Proc.step, Proc.Proc.work, hm, Proc.Proc.answer, this, h2]
    · rfl
    · rfl
    · refine ⟨(fun h => nomatch h), fun ⟨v', h4, h5⟩ => ?_⟩
      rw [h1] at h4; cases h4

/-- Each of the three cases can be met, with values that are numbers and a result that can be dumped only below 100. -/
example : ∃ (rt : Proc.Runtime Nat Nat Nat) (k : Task), Processor.Loads rt k.args [7] ∧
    (∃ v r, rt.call 1 [7] 0 = .ok v ∧ rt.dump v = .ok r) ∧
    (∃ v e r, rt.call 2 [7] 0 = .ok v ∧ rt.dump v = .error e ∧ rt.dumpExc e = some r) ∧
    ∃ e r, rt.call 0 [7] 0 = .error e ∧ rt.dumpExc e = some r :=
  ⟨{ toy with call := fun f vs _ => if f = 0 then .error 5 else .ok (if f = 1 then vs.sum else 100), dump := fun v => if v < 100 then .ok [UInt8.ofNat v] else .error 8 },
    ⟨[1], [2], [⟨.data, [7]⟩]⟩, .cons rfl .nil, ⟨7, [7], rfl, rfl⟩, ⟨100, 8, [8], rfl, rfl, rfl⟩, 5, [5], rfl, rfl⟩

end Verif.Props
