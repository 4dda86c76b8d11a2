import Verif.Spec.Pids
import Verif.Props.Process

/-!
# The worker signals and measures its own processor (C108)
-/

namespace Verif.Props

open Verif Verif.Wire Verif.Worker Verif.Spec

theorem kill_processor (a : Agent) (now : Int) : (a.kill now).processor = none ∧ (a.kill now).procs = a.procs := by
  cases h : a.processor <;> simp [Agent.kill, h, Agent.note]

theorem quit_processor (p : Worker.Proc) (id : Bytes) (now : Int) :
    (p.quit id now).agent.processor = none ∧ (p.quit id now).agent.procs = p.agent.procs :=
  kill_processor _ _

/-- How a turn changes the processor: it stays, it goes, or the next one takes its place. -/
theorem turn_processor {id : Bytes} {d start : Int} {p : Worker.Proc} (h : Spec.Worker.Lives id d start p) (op : POp) :
    ((p.step id op).agent.processor = p.agent.processor ∧ (p.step id op).agent.procs = p.agent.procs) ∨
    ((p.step id op).agent.processor = none ∧ (p.step id op).agent.procs = p.agent.procs) ∨
    (p.agent.processor ≠ none ∧ ∃ n, (p.step id op).agent.processor = some n ∧ (p.step id op).agent.procs = n + 1) := by
  cases he : p.exit with
  | some x => left; unfold Worker.Proc.step; simp [he]
  | none =>
    obtain ⟨a, ha, h1 | h1 | h1⟩ := lives_agent h
    · cases op with
      | interrupt now => right; left; simpa [Worker.Proc.step, he] using quit_processor p id now
      | terminate => left; simp [Worker.Proc.step, he]
      | loop e =>
        cases hs : p.agent.step e with
        | ok b =>
          right; right
          rw [h1.2] at hs
          have g := ha.good.inv
          have g' := (Worker.Reach.step e ha hs).good.inv
          have hb : (p.step id (.loop e)).agent = b := by simp [Worker.Proc.step, he, h1.2, hs]
          rw [hb, h1.2]
          obtain ⟨n, hn⟩ := Option.isSome_iff_exists.1 g'.proc
          obtain ⟨m, hm⟩ := Option.isSome_iff_exists.1 g.proc
          exact ⟨by simp [hm], n, hn, (g'.procs n hn).symm⟩
        | error x =>
          by_cases hx : x = .timeoutError
          · subst hx
            right; left
            simpa [Worker.Proc.step, he, hs] using quit_processor p id e.now
          · left
            cases x <;> first | exact absurd rfl hx | simp [Worker.Proc.step, he, hs]
    · rw [he] at h1; cases h1.1
    · rw [he] at h1; rcases h1.1 with ⟨_, h, _⟩ | h <;> cases h

/-- What is known of a worker and its children at all times. -/
structure KinInv (id : Bytes) (d start : Int) (k : Kin) : Prop where
  lives : Spec.Worker.Lives id d start k.proc
  watched : ∃ pid c, k.watched = some pid ∧ k.child? pid = some c ∧ c.index + 1 = k.proc.agent.procs ∧
    (∀ n, k.proc.agent.processor = some n → c.index = n)
  holder : k.holder = if k.proc.agent.processor.isSome then k.watched else none
  looked : ∀ x ∈ k.looked, x.1 + 1 = x.2

theorem start_ok {k : Kin} {n pid : Nat} (hf : FreePid k pid) :
    ∃ k', k.start n pid = .ok k' ∧ k'.proc = k.proc ∧ k'.watched = some pid ∧ k'.holder = some pid ∧ k'.signalled = k.signalled ∧
      k'.looked = k.looked ∧ k'.child? pid = some ⟨n, pid, false⟩ ∧
      k'.children = (k.children.filter fun c => !c.ended) ++ [⟨n, pid, false⟩] := by
  have h0 : (k.children.filter fun c => !c.ended).find? (fun c => c.pid == pid) = none := by
    rw [List.find?_eq_none]
    intro c hc
    simp only [List.mem_filter, Bool.not_eq_true'] at hc
    simpa using hf c hc.1 hc.2
  have h1 : ((k.children.filter fun c => !c.ended) ++ [Child.mk n pid false]).find? (fun c => c.pid == pid) = some ⟨n, pid, false⟩ := by
    rw [List.find?_append, h0]; simp
  refine ⟨{ k with children := (k.children.filter fun c => !c.ended) ++ [Child.mk n pid false], holder := some pid, watched := some pid }, ?_, rfl, rfl,
    rfl, rfl, rfl, h1, rfl⟩
  simp only [Kin.start, Kin.setProcessorPid, Kin.child?, Kin.cleanup, h1]

/-- A turn of the worker. -/
theorem turn_ok {id : Bytes} {d start : Int} {k : Kin} (h : KinInv id d start k) (op : POp) {pid : Nat} (hf : FreePid k pid) :
    ∃ k', k.step id (.worker op pid) = .ok k' ∧ KinInv id d start k' ∧ k'.proc = k.proc.step id op ∧
      k'.signalled = k.signalled ++ (if k'.proc.agent.processor = k.proc.agent.processor then [] else k.proc.agent.processor.toList) ∧
      (k'.proc.agent.processor = k.proc.agent.processor → k'.children = k.children) ∧
      (k'.proc.agent.processor = none → k'.children = k.children) ∧
      (k'.proc.agent.processor ≠ k.proc.agent.processor → ∀ n, k'.proc.agent.processor = some n →
        k'.children = (k.children.filter fun c => !c.ended) ++ [⟨n, pid, false⟩]) := by
  obtain ⟨wp, c, hw, hc, hi, hm⟩ := h.watched
  obtain ⟨k1, e1, hp, hch, hho, hwa, hsi, hlo⟩ : ∃ k1, (if Kin.looks k.proc op then k.look else .ok k) = .ok k1 ∧ k1.proc = k.proc ∧
      k1.children = k.children ∧ k1.holder = k.holder ∧ k1.watched = k.watched ∧ k1.signalled = k.signalled ∧ ∀ x ∈ k1.looked, x.1 + 1 = x.2 := by
    split
    · refine ⟨{ k with looked := k.looked ++ [(c.index, k.proc.agent.procs)] }, by simp only [Kin.look, hw, hc], rfl, rfl, rfl, rfl, rfl, fun x hx => ?_⟩
      rcases List.mem_append.1 hx with hx | hx
      · exact h.looked x hx
      · cases List.mem_singleton.1 hx; exact hi
    · exact ⟨k, rfl, rfl, rfl, rfl, rfl, rfl, h.looked⟩
  have hl : Spec.Worker.Lives id d start (k.proc.step id op) := .step op h.lives
  have hc1 : k1.child? wp = some c := by unfold Kin.child? at hc ⊢; rw [hch]; exact hc
  have hstep : k.step id (.worker op pid) = (k1.follow k.proc.agent.processor (k.proc.step id op).agent.processor pid) >>= fun k2 =>
      .ok { k2 with proc := k.proc.step id op } := by
    by_cases hlk : Kin.looks k.proc op = true
    · rw [if_pos hlk] at e1
      simp only [Kin.step, hlk, if_true, e1, Bind.bind, Except.bind, hp, Pure.pure, Except.pure]
    · rw [if_neg hlk] at e1
      cases e1
      simp only [Kin.step, hlk, Bind.bind, Except.bind, Pure.pure, Except.pure]
      rfl
  by_cases he : (k.proc.step id op).agent.processor = k.proc.agent.processor
  · refine ⟨{ k1 with proc := k.proc.step id op }, ?_, ⟨hl, ⟨wp, c, by rw [← hw]; exact hwa, hc1, ?_, fun n hn => hm n (by rw [← he]; exact hn)⟩, ?_, hlo⟩,
      rfl, by simp [he, hsi], fun _ => hch, fun _ => hch, fun hne => absurd he hne⟩
    · rw [hstep, he]; simp only [Kin.follow, if_true]; rfl
    · rcases turn_processor h.lives op with ⟨-, e⟩ | ⟨-, e⟩ | ⟨-, n, e, e'⟩
      · rw [e]; exact hi
      · rw [e]; exact hi
      · rw [e', hm n (by rw [← he]; exact e)]
    · show k1.holder = if (k.proc.step id op).agent.processor.isSome then k1.watched else none
      rw [hho, hwa, he]; exact h.holder
  · obtain ⟨m, hold⟩ : ∃ m, k.proc.agent.processor = some m := by
      cases hold : k.proc.agent.processor with
      | some m => exact ⟨m, rfl⟩
      | none =>
        rcases turn_processor h.lives op with ⟨e, -⟩ | ⟨e, -⟩ | ⟨e, -⟩
        · exact absurd e he
        · exact absurd (e.trans hold.symm) he
        · exact absurd hold e
    have hidx : c.index = m := hm m hold
    have hkill : k1.kill = .ok { k1 with holder := none, signalled := k1.signalled ++ [m] } := by
      have : k1.holder = some wp := by rw [hho, h.holder, hold, hw]; rfl
      simp only [Kin.kill, this, hc1, hidx]
    have hfol : k1.follow k.proc.agent.processor (k.proc.step id op).agent.processor pid =
        match (k.proc.step id op).agent.processor with
        | none => .ok { k1 with holder := none, signalled := k1.signalled ++ [m] }
        | some n => Kin.start { k1 with holder := none, signalled := k1.signalled ++ [m] } n pid := by
      simp only [Kin.follow, if_neg (Ne.symm he), hkill]
      rfl
    cases hnew : (k.proc.step id op).agent.processor with
    | none =>
      refine ⟨{ k1 with holder := none, signalled := k1.signalled ++ [m], proc := k.proc.step id op }, ?_,
        ⟨hl, ⟨wp, c, by rw [← hw]; exact hwa, hc1, ?_, fun n hn => ?_⟩, ?_, hlo⟩, rfl, ?_, fun e => ?_, fun _ => hch, fun _ n hn => ?_⟩
      · rw [hstep, hfol, hnew]; rfl
      · rcases turn_processor h.lives op with ⟨e, -⟩ | ⟨-, e⟩ | ⟨-, n, e, -⟩
        · exact absurd e he
        · rw [e]; exact hi
        · rw [hnew] at e; cases e
      · have hn : (k.proc.step id op).agent.processor = some n := hn
        rw [hnew] at hn; cases hn
      · show none = if (k.proc.step id op).agent.processor.isSome then k1.watched else none
        rw [hnew]; rfl
      · show k1.signalled ++ [m] = k.signalled ++ if (k.proc.step id op).agent.processor = _ then _ else _
        rw [if_neg he, hold, hsi]; rfl
      · exact absurd e he
      · have hn : (k.proc.step id op).agent.processor = some n := hn
        rw [hnew] at hn; cases hn
    | some n =>
      obtain ⟨k2, e2, g1, g2, g3, g4, g5, g6, g7⟩ := start_ok (k := { k1 with holder := none, signalled := k1.signalled ++ [m] }) (n := n) (pid := pid)
        (fun c hc => hf c (hch ▸ hc))
      refine ⟨{ k2 with proc := k.proc.step id op }, ?_, ⟨hl, ⟨pid, _, g2, g6, ?_, fun i hn => ?_⟩, ?_, ?_⟩, rfl, ?_, fun e => absurd e he, fun e => ?_, fun _ i hn => ?_⟩
      · rw [hstep, hfol, hnew]; simp only [e2]; rfl
      · rcases turn_processor h.lives op with ⟨e, -⟩ | ⟨e, -⟩ | ⟨-, i, e, e'⟩
        · exact absurd e he
        · rw [hnew] at e; cases e
        · rw [hnew] at e; cases e; exact e'.symm
      · have hn : (k.proc.step id op).agent.processor = some i := hn
        rw [hnew] at hn; exact Option.some.inj hn
      · show k2.holder = if (k.proc.step id op).agent.processor.isSome then k2.watched else none
        rw [hnew, g2, g3]; rfl
      · show ∀ x ∈ k2.looked, _
        rw [g5]; exact hlo
      · show k2.signalled = k.signalled ++ if (k.proc.step id op).agent.processor = _ then _ else _
        rw [if_neg he, hold, g4]
        show k1.signalled ++ [m] = _
        rw [hsi]; rfl
      · have e : (k.proc.step id op).agent.processor = none := e
        rw [hnew] at e; cases e
      · have hn : (k.proc.step id op).agent.processor = some i := hn
        rw [hnew] at hn; cases hn
        show k2.children = _
        rw [g7]
        show (k1.children.filter _) ++ _ = _
        rw [hch]

theorem kin_inv {id : Bytes} {d start : Int} {k : Kin} (h : KinRuns id d start k) : KinInv id d start k := by
  induction h with
  | @init pid k h =>
    obtain ⟨k', e, g1, g2, g3, g4, g5, g6, g7⟩ := start_ok (k := Kin.blank d start) (n := 0) (pid := pid) (fun c hc => by cases hc)
    have : k' = k := by rw [Kin.init, e] at h; exact Except.ok.inj h
    subst this
    refine ⟨by rw [g1]; exact .init, ⟨pid, _, g2, g6, by rw [g1]; rfl, fun n hn => ?_⟩, by rw [g1, g2, g3]; rfl, by rw [g5]; intro x hx; cases hx⟩
    rw [g1] at hn; exact Option.some.inj hn
  | @ends k k' pid h hs ih =>
    cases hs
    obtain ⟨wp, c, hw, hc, hi, hm⟩ := ih.watched
    have : ∀ l : List Child, l.find? (fun c => c.pid == wp) = some c →
        ∃ c', (l.map fun c => if c.pid = pid then { c with ended := true } else c).find? (fun c => c.pid == wp) = some c' ∧ c'.index = c.index := by
      intro l
      induction l with
      | nil => intro h; cases h
      | cons x l ihl =>
        intro h
        have hx : (if x.pid = pid then { x with ended := true } else x).pid = x.pid := by split <;> rfl
        simp only [List.map_cons, List.find?_cons, hx] at h ⊢
        by_cases e : x.pid == wp
        · simp only [e] at h ⊢
          cases h
          exact ⟨_, rfl, by split <;> rfl⟩
        · simp only [Bool.not_eq_true] at e
          simp only [e] at h ⊢
          exact ihl h
    obtain ⟨c', hc', hi'⟩ := this _ hc
    exact ⟨ih.lives, ⟨wp, c', hw, hc', by rw [hi']; exact hi, fun n hn => by rw [hi']; exact hm n hn⟩, ih.holder, ih.looked⟩
  | @worker k k' op pid h hf hs ih =>
    obtain ⟨k2, e, g, -⟩ := turn_ok ih op hf
    rw [e] at hs
    cases hs
    exact g

theorem pids_differ {id : Bytes} {d start : Int} {k : Kin} (h : KinRuns id d start k) : (k.children.map (·.pid)).Nodup := by
  have filt : ∀ (k : Kin) (pid n : Nat), FreePid k pid → (k.children.map (·.pid)).Nodup →
      (((k.children.filter fun c => !c.ended) ++ [Child.mk n pid false]).map (·.pid)).Nodup := by
    intro k pid n hf hn
    rw [List.map_append, List.nodup_append]
    refine ⟨hn.sublist (List.filter_sublist.map _), by simp, fun a ha b hb => ?_⟩
    simp only [List.map_cons, List.map_nil, List.mem_singleton] at hb
    obtain ⟨c, hc, rfl⟩ := List.mem_map.1 ha
    simp only [List.mem_filter, Bool.not_eq_true'] at hc
    rw [hb]
    exact hf c hc.1 hc.2
  induction h with
  | @init pid k h =>
    obtain ⟨k', e, -, -, -, -, -, -, g⟩ := start_ok (k := Kin.blank d start) (n := 0) (pid := pid) (fun c hc => by cases hc)
    have : k' = k := by rw [Kin.init, e] at h; exact Except.ok.inj h
    subst this
    rw [g]; simp [Kin.blank]
  | @ends k k' pid h hs ih =>
    cases hs
    rw [List.map_map]
    have : ((fun c : Child => c.pid) ∘ fun c => if c.pid = pid then { c with ended := true } else c) = fun c => c.pid := by
      funext c; simp only [Function.comp]; split <;> rfl
    rw [this]; exact ih
  | @worker k k' op pid h hf hs ih =>
    obtain ⟨k2, e, g, g1, g2, g3, g5, g4⟩ := turn_ok (kin_inv h) op hf
    rw [e] at hs
    cases hs
    by_cases he : k'.proc.agent.processor = k.proc.agent.processor
    · rw [g3 he]; exact ih
    · cases hn : k'.proc.agent.processor with
      | some n => rw [g4 he n hn]; exact filt k pid n hf ih
      | none => rw [g5 hn]; exact ih

theorem child_unique : ∀ {l : List Child}, (l.map (·.pid)).Nodup → ∀ {a b : Child}, a ∈ l → b ∈ l → a.pid = b.pid → a = b
  | x :: l, hn, a, b, ha, hb, e => by
    simp only [List.map_cons, List.nodup_cons] at hn
    rcases List.mem_cons.1 ha with ha' | ha' <;> rcases List.mem_cons.1 hb with hb' | hb'
    · rw [ha', hb']
    · exact absurd (List.mem_map.2 ⟨b, hb', by rw [← e, ha']⟩) hn.1
    · exact absurd (List.mem_map.2 ⟨a, ha', by rw [e, hb']⟩) hn.1
    · exact child_unique hn.2 ha' hb' e

/-- **C108.** Whatever happens, neither `os.kill` nor `psutil` meets a number that no child of the worker has. -/
theorem C108_safe {id : Bytes} {d start : Int} {k : Kin} (h : KinRuns id d start k) (op : POp) {pid : Nat} (hf : FreePid k pid) :
    ∃ k', k.step id (.worker op pid) = .ok k' ∧ k'.proc = k.proc.step id op :=
  let ⟨k', e, _, e', _⟩ := turn_ok (kin_inv h) op hf
  ⟨k', e, e'⟩

/-- **C108.** A turn in which the agent gives up its processor sends one signal, to that processor; no other turn sends any. -/
theorem C108_signals {id : Bytes} {d start : Int} {k k' : Kin} (h : KinRuns id d start k) (op : POp) {pid : Nat} (hf : FreePid k pid)
    (hs : k.step id (.worker op pid) = .ok k') :
    k'.signalled = k.signalled ++ if k'.proc.agent.processor = k.proc.agent.processor then [] else k.proc.agent.processor.toList := by
  obtain ⟨k2, e, -, -, g, -⟩ := turn_ok (kin_inv h) op hf
  rw [e] at hs
  cases hs
  exact g

/-- **C108.** The number that the heartbeat looks at belongs to one child, the processor that was started last, and it is that of the
agent's processor, if the agent has one; and so were all figures that were ever read. -/
theorem C108_figures {id : Bytes} {d start : Int} {k : Kin} (h : KinRuns id d start k) :
    (∃ c ∈ k.children, k.watched = some c.pid ∧ c.index + 1 = k.proc.agent.procs ∧ (∀ c' ∈ k.children, c'.pid = c.pid → c' = c) ∧
      (∀ n, k.proc.agent.processor = some n → c.index = n ∧ k.holder = k.watched)) ∧
    (k.proc.agent.processor = none → k.holder = none) ∧ ∀ x ∈ k.looked, x.1 + 1 = x.2 := by
  have hi := kin_inv h
  obtain ⟨pid, c, hw, hc, hx, hm⟩ := hi.watched
  have h1 := List.mem_of_find?_eq_some hc
  have h2 : c.pid = pid := by simpa using List.find?_some hc
  refine ⟨⟨c, h1, by rw [h2]; exact hw, hx, fun c' hc' e => ?_, fun n hn => ⟨hm n hn, by rw [hi.holder, hn]; rfl⟩⟩, fun hn => by rw [hi.holder, hn]; rfl, hi.looked⟩
  exact child_unique (pids_differ h) hc' h1 e

theorem start_looked {k k' : Kin} {n pid : Nat} (h : k.start n pid = .ok k') : k'.looked = k.looked := by
  simp only [Kin.start, Kin.setProcessorPid] at h
  split at h
  · cases h
  · cases h; rfl

theorem follow_looked {k k' : Kin} {old new : Option Nat} {pid : Nat} (h : k.follow old new pid = .ok k') : k'.looked = k.looked := by
  unfold Kin.follow at h
  split at h
  · cases h; rfl
  · cases hk : k.kill with
    | error e => rw [hk] at h; cases h
    | ok k1 =>
      have e1 : k1.looked = k.looked := by
        unfold Kin.kill at hk
        split at hk
        · cases hk; rfl
        · split at hk
          · cases hk
          · cases hk; rfl
      rw [hk] at h
      cases new with
      | none => cases h; exact e1
      | some n => exact (start_looked h).trans e1

/-- **C108.** Figures are read in the turns that send a heartbeat, once and of the processor that was started last, and in no other: not
while an answer is awaited and not after the end of the worker. -/
theorem C108_read {id : Bytes} {d start : Int} {k k' : Kin} (h : KinRuns id d start k) (op : POp) {pid : Nat}
    (hs : k.step id (.worker op pid) = .ok k') :
    ((∃ f now, op = .loop ⟨.heartbeat f, now⟩) ∧ k.proc.exit = none ∧ k.proc.agent.beatAt = 0 →
      ∃ n, n + 1 = k.proc.agent.procs ∧ k'.looked = k.looked ++ [(n, k.proc.agent.procs)]) ∧
    (¬ ((∃ f now, op = .loop ⟨.heartbeat f, now⟩) ∧ k.proc.exit = none ∧ k.proc.agent.beatAt = 0) → k'.looked = k.looked) := by
  obtain ⟨wp, c, hw, hc, hi, -⟩ := (kin_inv h).watched
  have hlook : k.look = .ok { k with looked := k.looked ++ [(c.index, k.proc.agent.procs)] } := by simp only [Kin.look, hw, hc]
  have hiff : Kin.looks k.proc op = true ↔ (∃ f now, op = .loop ⟨.heartbeat f, now⟩) ∧ k.proc.exit = none ∧ k.proc.agent.beatAt = 0 := by
    constructor
    · intro e
      unfold Kin.looks at e
      split at e
      · simp only [Bool.and_eq_true, Option.isNone_iff_eq_none, decide_eq_true_eq] at e
        exact ⟨⟨_, _, rfl⟩, e⟩
      · cases e
    · rintro ⟨⟨f, now, rfl⟩, e1, e2⟩
      simp [Kin.looks, e1, e2]
  rw [← hiff]
  by_cases hl : Kin.looks k.proc op = true
  · refine ⟨fun _ => ⟨c.index, hi, ?_⟩, fun e => absurd hl e⟩
    simp only [Kin.step, hl, if_true, hlook, Bind.bind, Except.bind, Pure.pure, Except.pure] at hs
    split at hs
    · cases hs
    · next e => cases hs; exact (follow_looked e :)
  · refine ⟨fun e => absurd e hl, fun _ => ?_⟩
    rw [Bool.not_eq_true] at hl
    simp only [Kin.step, hl, Bool.false_eq_true, if_false, Bind.bind, Except.bind, Pure.pure, Except.pure] at hs
    split at hs
    · cases hs
    · next e => cases hs; exact (follow_looked e :)

/-- **C108.** When a processor is started, every child that had ended before has been waited for: of those only the new one and children that
still run are left. -/
theorem C108_collected {id : Bytes} {d start : Int} {k k' : Kin} (h : KinRuns id d start k) (op : POp) {pid n : Nat} (hf : FreePid k pid)
    (hs : k.step id (.worker op pid) = .ok k') (hn : k'.proc.agent.processor = some n) (hne : k.proc.agent.processor ≠ some n) :
    (∀ c ∈ k'.children, c.ended = false) ∧ ∀ c, c ∈ k'.children ↔ c = ⟨n, pid, false⟩ ∨ c ∈ k.children ∧ c.ended = false := by
  obtain ⟨k2, e, -, -, -, -, -, g⟩ := turn_ok (kin_inv h) op hf
  rw [e] at hs
  cases hs
  rw [g (by rw [hn]; exact Ne.symm hne) n hn]
  constructor
  · intro c hc
    simp only [List.mem_append, List.mem_filter, List.mem_singleton, Bool.not_eq_true'] at hc
    rcases hc with hc | rfl
    · exact hc.2
    · rfl
  · intro c
    simp only [List.mem_append, List.mem_filter, List.mem_singleton, Bool.not_eq_true']
    exact Or.comm

/-! ### A concrete worker -/

instance (k : Kin) (pid : Nat) : Decidable (FreePid k pid) := by unfold FreePid; exact inferInstance

/-- An event, if it may happen. -/
def kinTry (id : Bytes) (k : Kin) (op : KOp) : Kin :=
  match op with
  | .ends _ => (k.step id op).toOption.getD k
  | .worker _ pid => if FreePid k pid then (k.step id op).toOption.getD k else k

theorem kinTry_runs {id : Bytes} {d start : Int} : ∀ (ops : List KOp) {k : Kin}, KinRuns id d start k → KinRuns id d start (ops.foldl (kinTry id) k)
  | [], _, h => h
  | op :: ops, k, h => kinTry_runs ops (by
    unfold kinTry
    cases op with
    | ends pid =>
      simp only
      cases hs : k.step id (.ends pid) with
      | ok k' => exact .ends pid h hs
      | error e => exact h
    | worker op pid =>
      simp only
      split
      · rename_i hf
        cases hs : k.step id (.worker op pid) with
        | ok k' => exact .worker op pid h hf hs
        | error e => exact h
      · exact h)

/-- The first processor has the number 100. -/
def kinFirst : Kin := ⟨Worker.Proc.init 10 1, [⟨0, 100, false⟩], some 100, some 100, [], []⟩

/-- The processor begins a task, figures are read, and it dies; figures are read again when the answer has come. -/
def kinStory : List KOp :=
  [.worker (.loop ⟨.recv (.task ⟨[1], [7], []⟩), 1⟩) 7, .worker (.loop ⟨.heard (.taskResult [] .success 0 []), 1⟩) 7, .worker (.loop ⟨.turn, 1⟩) 7,
   .worker (.loop ⟨.heartbeat ⟨1, 1, 1, 1⟩, 2⟩) 7, .ends 100,
   .worker (.loop ⟨.heartbeat ⟨1, 1, 1, 1⟩, 2⟩) 7, .worker (.loop ⟨.recv .heartbeatEcho, 2⟩) 7, .worker (.loop ⟨.heartbeat ⟨1, 1, 1, 1⟩, 2⟩) 7]

/-- The task is cancelled, and the new processor gets the number of the old one; figures are read, and the worker is interrupted. -/
def kinEnd : List KOp :=
  [.worker (.loop ⟨.recv (.taskCancel [1]), 3⟩) 100, .worker (.loop ⟨.recv .heartbeatEcho, 3⟩) 7, .worker (.loop ⟨.heartbeat ⟨1, 1, 1, 1⟩, 4⟩) 7, .worker (.interrupt 5) 7]

/-- A processor that died is still there: its figures are read, and the signal finds it.  The next one may get its number, and from
then on that number means the new one. -/
example : KinRuns [80] 10 1 (kinStory.foldl (kinTry [80]) kinFirst) ∧
    (let k := kinStory.foldl (kinTry [80]) kinFirst
     (k.children, k.holder, k.watched, k.signalled, k.looked) = ([⟨0, 100, true⟩], some 100, some 100, [], [(0, 1), (0, 1)])) ∧
    (let k := (kinStory ++ kinEnd).foldl (kinTry [80]) kinFirst
     (k.children, k.holder, k.watched, k.signalled, k.looked) = ([⟨1, 100, false⟩], none, some 100, [0, 1], [(0, 1), (0, 1), (1, 2)]) ∧
      k.proc.exit = some .quit) :=
  ⟨kinTry_runs _ (.init (pid := 100) rfl), by decide +kernel, by decide +kernel⟩

end Verif.Props
