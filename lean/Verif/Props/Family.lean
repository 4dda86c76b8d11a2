import Verif.Spec.Family
import Verif.Props.Process
import Verif.Props.Lingers

/-!
# When the process of a worker is over (C106)
-/

namespace Verif.Props
open Verif Verif.Wire Verif.Worker Verif.Spec

variable {F V X : Type}

/-- What is known of a family at all times. -/
structure FamilyInv (id : Bytes) (d start : Int) (f : Family F) : Prop where
  lives : Spec.Worker.Lives id d start f.worker
  mine : ∀ n, f.worker.agent.processor = some n → ∃ t, f.processors.get? n = some t
  others : ∀ n t, f.processors.get? n = some t → t.over = true ∨ f.worker.agent.processor = some n
  killed : f.killed = true → f.worker.exit ≠ none

theorem over_stays {rt : Proc.Runtime F V X} {t : Proc.Threads F} (h : t.over = true) (op : Proc.TOp) : (t.step rt op).over = true := by
  unfold Proc.Threads.step; rw [if_pos h]; exact h

theorem touch_get {rt : Proc.Runtime F V X} (ps : Dict Nat (Proc.Threads F)) (n : Nat) (op : Proc.TOp) (m : Nat) :
    (Family.touch rt ps n op).get? m = if m = n then (ps.get? n).map (·.step rt op) else ps.get? m := by
  unfold Family.touch
  cases h : ps.get? n with
  | none => by_cases hm : m = n <;> simp [hm, h]
  | some t =>
    by_cases hm : m = n
    · simp [hm]
    · simp [hm, Ne.symm hm, Dict.get?_set]

theorem follow_get {rt : Proc.Runtime F V X} {ret now : Int} (ps : Dict Nat (Proc.Threads F)) (old new : Option Nat) (m : Nat) :
    (Family.follow rt ret now ps old new).get? m =
      if old = new then ps.get? m
      else if new = some m then some (.init ret now)
      else if old = some m then (ps.get? m).map (·.step rt .terminate)
      else ps.get? m := by
  unfold Family.follow
  by_cases h : old = new
  · simp [h]
  · simp only [h, if_false]
    cases new with
    | none =>
      cases old with
      | none => exact absurd rfl h
      | some n => 
        simp only [touch_get, reduceCtorEq, if_false, Option.some.injEq]
        by_cases hm : m = n
        · subst hm; simp
        · simp [hm, Ne.symm hm]
    | some k =>
      simp only [Dict.get?_set, Option.some.injEq]
      by_cases hk : m = k
      · subst hk; simp
      · simp only [Ne.symm hk, if_false]
        cases old with
        | none => simp
        | some n =>
          simp only [touch_get, Option.some.injEq]
          by_cases hm : m = n
          · subst hm; simp
          · simp [hm, Ne.symm hm]

theorem family_inv {rt : Proc.Runtime F V X} {id : Bytes} {d ret start : Int} {f : Family F} (h : Raises rt id d ret start f) :
    FamilyInv id d start f := by
  induction h with
  | init =>
    refine ⟨.init, fun n hn => ?_, fun n t ht => ?_, fun h => by cases h⟩
    · have hn : (Worker.Proc.init d start).agent.processor = some n := hn
      exact ⟨_, by simp only [Family.init, follow_get, hn]; simp; rfl⟩
    · by_cases hn : (Worker.Proc.init d start).agent.processor = some n
      · exact .inr hn
      · simp only [Family.init, follow_get, hn, if_false] at ht
        simp at ht
  | @step f op h ih =>
    cases op with
    | processor n op =>
      refine ⟨ih.lives, fun m hm => ?_, fun m t ht => ?_, ih.killed⟩
      · obtain ⟨t, ht⟩ := ih.mine m hm
        simp only [Family.step, touch_get]
        by_cases e : m = n
        · subst e; exact ⟨_, by simp [ht]; rfl⟩
        · exact ⟨t, by simp [e, ht]⟩
      · simp only [Family.step, touch_get] at ht
        by_cases e : m = n
        · subst e
          simp only [if_true, Option.map_eq_some_iff] at ht
          obtain ⟨u, hu, rfl⟩ := ht
          rcases ih.others m u hu with h1 | h1
          · exact .inl (over_stays h1 op)
          · exact .inr h1
        · rw [if_neg e] at ht
          exact ih.others m t ht
    | worker op =>
      have hw : (f.step rt id ret (.worker op)).worker = f.worker.step id op := by cases op <;> rfl
      have hp : (f.step rt id ret (.worker op)).processors =
          Family.follow rt ret op.now f.processors f.worker.agent.processor (f.worker.step id op).agent.processor := by cases op <;> rfl
      refine ⟨by rw [hw]; exact .step op ih.lives, fun m hm => ?_, fun m t ht => ?_, fun hk => ?_⟩
      · rw [hw] at hm
        rw [hp, follow_get, hm]
        split
        · rename_i e; exact ih.mine m e
        · simp
      · rw [hw]
        rw [hp, follow_get] at ht
        by_cases e : f.worker.agent.processor = (f.worker.step id op).agent.processor
        · rw [if_pos e] at ht
          rw [← e]
          exact ih.others m t ht
        · rw [if_neg e] at ht
          by_cases e2 : (f.worker.step id op).agent.processor = some m
          · exact .inr e2
          · rw [if_neg e2] at ht
            by_cases e3 : f.worker.agent.processor = some m
            · simp only [e3, if_true, Option.map_eq_some_iff] at ht
              obtain ⟨u, _, rfl⟩ := ht
              exact .inl (C105_terminate_partial rt u)
            · rw [if_neg e3] at ht
              rcases ih.others m t ht with h1 | h1
              · exact .inl h1
              · exact absurd h1 e3
      · rw [hw]
        cases he : f.worker.exit with
        | some x => rw [C77_final id f.worker (by simp [he]), he]; simp
        | none =>
          cases op with
          | terminate => simp [Worker.Proc.step, he]
          | loop e => exact absurd he (ih.killed hk)
          | interrupt now => exact absurd he (ih.killed hk)

/-- **C106**, what a turn of the worker's loops does to the processes: nothing if it keeps its processor, and otherwise the
old one is killed, the new one begins with nothing at that moment, and no other is touched. -/
theorem C106_replaced {rt : Proc.Runtime F V X} {id : Bytes} {ret : Int} (f : Family F) (e : Worker.Agent.Event) :
    let g := f.step rt id ret (.worker (.loop e))
    g.worker = f.worker.step id (.loop e) ∧ g.killed = f.killed ∧
    (g.worker.agent.processor = f.worker.agent.processor → g.processors = f.processors) ∧
    (g.worker.agent.processor ≠ f.worker.agent.processor → ∀ m, g.processors.get? m =
      if g.worker.agent.processor = some m then some (.init ret e.now)
      else if f.worker.agent.processor = some m then (f.processors.get? m).map (·.step rt .terminate)
      else f.processors.get? m) := by
  refine ⟨rfl, rfl, fun h => ?_, fun h m => ?_⟩
  · have h : (f.worker.step id (.loop e)).agent.processor = _ := h
    simp only [Family.step, Family.follow, h, if_true]
  · have h : (f.worker.step id (.loop e)).agent.processor ≠ _ := h
    simp only [Family.step, follow_get, if_neg (Ne.symm h)]
    rfl

/-- **C106**, the beginning: a worker that runs, with one processor that runs since the same moment and keeps functions as long as it was told. -/
theorem C106_begins (rt : Proc.Runtime F V X) (d ret start : Int) :
    let f := Family.init rt d ret start
    f.worker = Worker.Proc.init d start ∧ f.killed = false ∧
    ∀ n t, f.processors.get? n = some t ↔ n = 0 ∧ t.proc = Proc.Proc.init ret start ∧ t.mainOver = false ∧ t.look = none ∧ t.cleanerOver = false ∧
      t.killed = false := by
  refine ⟨rfl, rfl, fun n t => ?_⟩
  have h : (Worker.Proc.init d start).agent.processor = some 0 := rfl
  simp only [Family.init, follow_get, h, Option.some.injEq, reduceCtorEq, if_false]
  by_cases hn : 0 = n
  · subst hn
    simp only [if_true, Option.some.injEq, true_and]
    constructor
    · rintro rfl; exact ⟨rfl, rfl, rfl, rfl, rfl⟩
    · obtain ⟨a, b, c, d, e⟩ := t
      rintro ⟨h1, h2, h3, h4, h5⟩
      simp only at h1 h2 h3 h4 h5
      subst h1 h2 h3 h4 h5
      rfl
  · simp [hn, Ne.symm hn]

/-- **C106**: `SIGTERM` ends the process of a worker at once, and leaves its processors alone. -/
theorem C106_terminated (rt : Proc.Runtime F V X) (id : Bytes) (ret : Int) (f : Family F) :
    (f.step rt id ret (.worker .terminate)).gone = true ∧ (f.step rt id ret (.worker .terminate)).processors = f.processors := by
  refine ⟨rfl, ?_⟩
  have : (f.worker.step id .terminate).agent.processor = f.worker.agent.processor := by
    unfold Worker.Proc.step; cases f.worker.exit <;> rfl
  simp only [Family.step, Family.follow, this, if_true]

/-- **C106**: a worker that runs is not over. -/
theorem C106_running {rt : Proc.Runtime F V X} {id : Bytes} {d ret start : Int} {f : Family F} (h : Raises rt id d ret start f)
    (he : f.worker.exit = none) : f.gone = false := by
  have : f.killed = false := by
    cases hk : f.killed with
    | false => rfl
    | true => exact absurd he ((family_inv h).killed hk)
  simp [Family.gone, this, he]

/-- **C106**, orderly ends: a worker that has quit is over at once, and so are all its processors.

Full statement: this holds of every worker that has ended.  Missing: workers that end by an exception; of these it is
false (`C106_waits`). -/
theorem C106_quit_partial {rt : Proc.Runtime F V X} {id : Bytes} {d ret start : Int} {f : Family F} (h : Raises rt id d ret start f)
    (he : f.worker.exit = some .quit) : f.gone = true ∧ ∀ n t, f.processors.get? n = some t → t.over = true := by
  have hi := family_inv h
  have hnone : f.worker.agent.processor = none := by
    obtain ⟨a, ha, h1⟩ := lives_agent hi.lives
    rcases h1 with ⟨h1, _⟩ | ⟨_, now, h1⟩ | ⟨h1, _⟩
    · rw [he] at h1; cases h1
    · rw [h1]; simp only [Agent.kill]; split <;> simp_all
    · rcases h1 with ⟨x, h1, _⟩ | h1 <;> rw [he] at h1 <;> cases h1
  have hall : ∀ n t, f.processors.get? n = some t → t.over = true := fun n t ht => by
    rcases hi.others n t ht with h1 | h1
    · exact h1
    · rw [hnone] at h1; cases h1
  refine ⟨?_, hall⟩
  simp only [Family.gone, he, Option.isSome_some, Bool.true_and, Bool.or_eq_true, List.all_eq_true]
  exact .inr fun x hx => hall x.1 x.2 (Dict.mem_items.1 hx)

/-- **C106**, exactly: a worker that has ended in another way has one processor that was not killed, its last one.  If the
worker was not killed itself, its process is over when that of the processor is. -/
theorem C106_exact {rt : Proc.Runtime F V X} {id : Bytes} {d ret start : Int} {f : Family F} (h : Raises rt id d ret start f)
    {e : Exit} (he : f.worker.exit = some e) (hq : e ≠ .quit) :
    ∃ n t, Spec.Worker.alive f.worker.agent.log = [n] ∧ f.processors.get? n = some t ∧
      (∀ m u, f.processors.get? m = some u → m ≠ n → u.over = true) ∧ (f.gone = true ↔ f.killed = true ∨ t.over = true) := by
  have hi := family_inv h
  obtain ⟨a, ha, h1⟩ := lives_agent hi.lives
  have hag : f.worker.agent = a := by
    rcases h1 with ⟨h1, _⟩ | ⟨h1, _⟩ | ⟨_, h1⟩
    · rw [he] at h1; cases h1
    · rw [he] at h1; cases h1; exact absurd rfl hq
    · exact h1
  obtain ⟨n, hn⟩ := Option.isSome_iff_exists.1 ha.good.inv.proc
  obtain ⟨h2, _⟩ := ha.neat
  rw [hn] at h2
  obtain ⟨t, ht⟩ := hi.mine n (by rw [hag]; exact hn)
  have ho : ∀ m u, f.processors.get? m = some u → m ≠ n → u.over = true := fun m u hu hm => by
    rcases hi.others m u hu with h3 | h3
    · exact h3
    · rw [hag, hn] at h3; cases h3; exact absurd rfl hm
  refine ⟨n, t, by rw [hag]; exact h2, ht, ho, ?_⟩
  simp only [Family.gone, he, Option.isSome_some, Bool.true_and, Bool.or_eq_true, List.all_eq_true]
  refine or_congr Iff.rfl ⟨fun hx => hx (n, t) (Dict.mem_items.2 ht), fun hx x hxm => ?_⟩
  have hxm : f.processors.get? x.1 = some x.2 := Dict.mem_items.1 hxm
  by_cases hm : x.1 = n
  · rw [hm, ht] at hxm; cases hxm; exact hx
  · exact ho _ _ hxm hm

/-- A processor that waits, hears nothing and gets no signal goes on waiting. -/
theorem waits_step {rt : Proc.Runtime F V X} {t : Proc.Threads F} (hm : t.mainOver = false) (hk : t.killed = false)
    (hi : t.proc.main = .idle) {op : Proc.TOp} (ho : NoSignal op) (hr : ∀ m now, op ≠ .main ⟨.recv m, now⟩) :
    (t.step rt op).mainOver = false ∧ (t.step rt op).killed = false ∧ (t.step rt op).proc.main = .idle := by
  have hov : t.over = false := by simp [Proc.Threads.over, hm, hk]
  unfold Proc.Threads.step
  rw [hov]
  simp only [Bool.false_eq_true, if_false]
  cases op with
  | terminate => exact ho.elim
  | interrupt => exact ho.elim
  | main e =>
    obtain ⟨o, now⟩ := e
    cases o with
    | recv m => exact absurd rfl (hr m now)
    | clean => simp [hm, hk, hi]
    | work c dur => simp [hm, hk, hi, Proc.Proc.step, Proc.Proc.work]
  | clean now done =>
    simp only [Proc.Threads.clean, Proc.Proc.clean, Proc.Proc.note]
    repeat' split
    all_goals exact ⟨hm, hk, hi⟩

theorem waits_run {rt : Proc.Runtime F V X} {id : Bytes} {ret : Int} {e : Exit} {n : Nat} : ∀ (ops : List FOp) {f : Family F} {t : Proc.Threads F},
    f.worker.exit = some e → f.killed = false → f.processors.get? n = some t →
    t.mainOver = false → t.killed = false → t.proc.main = .idle →
    (∀ op ∈ ops, LeftAlone op ∧ Silence n op) → (f.run rt id ret ops).gone = false
  | [], f, t, he, hkf, hg, hm, hk, hi, _ => by
    have : ¬ (f.processors.items.all fun x => x.2.over) = true := fun hx => by
      have := List.all_eq_true.1 hx (n, t) (Dict.mem_items.2 hg)
      simp [Proc.Threads.over, hm, hk] at this
    simp only [Family.run, List.foldl_nil, Family.gone, hkf, he]
    simpa using this
  | op :: ops, f, t, he, hkf, hg, hm, hk, hi, hops => by
    obtain ⟨h1, h2⟩ := hops op (by simp)
    have hrest : ∀ o ∈ ops, LeftAlone o ∧ Silence n o := fun o ho => hops o (by simp [ho])
    show ((f.step rt id ret op).run rt id ret ops).gone = false
    cases op with
    | worker op =>
      have hs : f.worker.step id op = f.worker := C77_final id f.worker (by simp [he]) op
      have hf : f.step rt id ret (.worker op) = f := by
        cases op with
        | terminate => exact h1.elim
        | loop e => simp [Family.step, hs, Family.follow]
        | interrupt now => simp [Family.step, hs, Family.follow]
      rw [hf]
      exact waits_run ops he hkf hg hm hk hi hrest
    | processor m op =>
      by_cases hmn : m = n
      · subst hmn
        have hr : ∀ x now, op ≠ .main ⟨.recv x, now⟩ := fun x now e => by subst e; exact h2 rfl
        obtain ⟨g1, g2, g3⟩ := waits_step (rt := rt) hm hk hi h1 hr
        exact waits_run ops (f := f.step rt id ret (.processor m op)) he hkf (by simp [Family.step, touch_get, hg]) g1 g2 g3 hrest
      · exact waits_run ops (f := f.step rt id ret (.processor m op)) he hkf
          (by simp only [Family.step, touch_get, if_neg (Ne.symm hmn)]; exact hg) hm hk hi hrest

/-- **C106**, the other way: a worker that an exception has ended while its processor waits for a message is never over
until one of the two is sent a signal, whatever else happens. -/
theorem C106_waits {rt : Proc.Runtime F V X} {id : Bytes} {ret : Int} {f : Family F}
    {x : PyErr} (he : f.worker.exit = some (.raised x)) (hk : f.killed = false) {n : Nat} {t : Proc.Threads F}
    (ht : f.processors.get? n = some t) (ho : t.over = false) (hm : t.mainOver = false) (hi : t.proc.main = .idle)
    (ops : List FOp) (hops : ∀ op ∈ ops, LeftAlone op ∧ Silence n op) : (f.run rt id ret ops).gone = false := by
  have hkt : t.killed = false := by
    simp only [Proc.Threads.over, Bool.or_eq_false_iff] at ho; exact ho.1
  exact waits_run ops he hk ht hm hkt hi hops

theorem raises_run {rt : Proc.Runtime F V X} {id : Bytes} {d ret start : Int} : ∀ (ops : List FOp) {f : Family F},
    Raises rt id d ret start f → Raises rt id d ret start (f.run rt id ret ops)
  | [], _, h => h
  | op :: ops, _, h => raises_run ops (.step op h)

private def t1 : Task := ⟨[1], [7], []⟩

/-- A task is run and its result crosses a cancel. -/
def crossing : List FOp :=
  [.worker (.loop ⟨.heard (.taskResult [] .success 0 []), 1⟩), .worker (.loop ⟨.recv (.task t1), 1⟩), .worker (.loop ⟨.turn, 1⟩),
   .processor 0 (.main ⟨.recv (.task t1), 2⟩), .worker (.loop ⟨.heard (.functionRequest .request [7] [] []), 2⟩),
   .worker (.loop ⟨.recv (.functionResponse .ok [7] [] [9]), 3⟩), .processor 0 (.main ⟨.recv (.functionResponse .ok [7] [] [9]), 3⟩),
   .processor 0 (.main ⟨.work 0 0, 4⟩), .processor 0 (.main ⟨.work 0 0, 4⟩), .processor 0 (.main ⟨.work 0 0, 4⟩),
   .processor 0 (.main ⟨.work 0 0, 4⟩), .worker (.loop ⟨.heard (.taskResult [1] .success 0 [9]), 5⟩),
   .worker (.loop ⟨.recv (.taskCancel [1]), 6⟩)]

/-- **C106 is false**: a cancel that crosses the result of its task ends the worker by an exception, and its process
stays for ever, together with its processor. -/
theorem C106_hangs (after : List FOp) (h : ∀ op ∈ after, LeftAlone op ∧ Silence 0 op) :
    let f := (Family.init toy 10 60 1).run toy [80] 60 crossing
    Raises toy [80] 10 60 1 f ∧ f.worker.exit = some (.raised .attributeError) ∧ (f.run toy [80] 60 after).gone = false := by
  intro f
  have he : f.worker.exit = some (.raised .attributeError) := by decide +kernel
  have ht : (f.processors.get? 0).map (fun t => (t.mainOver, t.killed, t.proc.main)) = some (false, false, .idle) := by decide +kernel
  refine ⟨raises_run _ .init, he, ?_⟩
  obtain ⟨t, ht, e⟩ := Option.map_eq_some_iff.1 ht
  simp only [Prod.mk.injEq] at e
  exact C106_waits he (by decide +kernel) ht (by simp [Proc.Threads.over, e.1, e.2.1]) e.1 e.2.2 after h

/-- Killing the processor is enough, and so is killing the worker. -/
example : ((Family.init toy 10 60 1).run toy [80] 60 (crossing ++ [.processor 0 .terminate])).gone = true ∧
    ((Family.init toy 10 60 1).run toy [80] 60 (crossing ++ [.worker .terminate])).gone = true := by decide +kernel

/-- An interrupt to the processor is not. -/
example : ((Family.init toy 10 60 1).run toy [80] 60 (crossing ++ [.processor 0 .interrupt, .processor 0 (.clean 7 true), .processor 0 (.clean 8 true)])).gone
    = false := by decide +kernel

/-- A worker replaces its processor, is interrupted, and is over with both of them. -/
example :
    let f := (Family.init toy 10 60 1).run toy [80] 60 [.worker (.loop ⟨.heard (.taskResult [] .success 0 []), 1⟩),
      .worker (.loop ⟨.recv (.task t1), 1⟩), .worker (.loop ⟨.turn, 1⟩), .worker (.loop ⟨.recv (.taskCancel [1]), 2⟩), .worker (.interrupt 3)]
    f.worker.exit = some .quit ∧ f.processors.items.map (fun x => (x.1, x.2.over)) = [(0, true), (1, true)] ∧ f.gone = true := by
  decide +kernel

/-- A worker that was killed is over, and its processor goes on. -/
example :
    let f := (Family.init toy 10 60 1).run toy [80] 60 [.worker .terminate]
    f.worker.exit = some .terminated ∧ f.gone = true ∧ f.processors.items.map (fun x => (x.1, x.2.over)) = [(0, false)] := by
  decide +kernel

end Verif.Props
