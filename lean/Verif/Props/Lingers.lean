import Verif.Spec.Lingers
import Verif.Props.Processor

/-!
# When the process of a processor is over
-/

namespace Verif.Props
open Verif Verif.Proc Verif.Spec

variable {F V X : Type}

/-- A look is only under way while the cleaner does not evict. -/
def LookInv (t : Threads F) : Prop := t.look ≠ none → t.proc.cleaner = .asleep

theorem main_cleaner {rt : Runtime F V X} {p q : Proc.Proc F} {e : Proc.Event} (h : p.step rt e = .ok q) (hc : e.op ≠ .clean) :
    q.cleaner = p.cleaner := by
  obtain ⟨op, now⟩ := e
  cases op with
  | clean => exact absurd rfl hc
  | recv m =>
    simp only [Proc.Proc.step] at h
    split at h
    · simp only [Proc.Proc.receive] at h
      split at h
      · cases h
        simp only [Proc.Proc.onFunctionRequest]
        split <;> rfl
      · cases h
        simp only [Proc.Proc.onTask]
        split <;> rfl
      · split at h
        · rename_i hq
          cases h
          simp only [Proc.Proc.onFunctionResponse] at hq
          split at hq
          · cases hq; rfl
          · cases hq
        · cases h
      · cases h; rfl
    · cases h; rfl
  | work c dur =>
    simp only [Proc.Proc.step, Proc.Proc.work] at h
    split at h
    · cases h; rfl
    · cases h; rfl
    · split at h <;> cases h <;> rfl
    · cases h; rfl
    · simp only [Proc.Proc.answer] at h
      split at h
      · cases h; rfl
      · split at h
        · cases h; rfl
        · cases h
    · split at h
      · cases h; rfl
      · cases h
    · cases h; rfl

/-- **C105**: what ends the process, exactly: `SIGTERM`, or that both threads are over. -/
theorem C105_over (rt : Runtime F V X) (t : Threads F) (h : t.over = false) (op : TOp) :
    (t.step rt op).over = true ↔ op = .terminate ∨
      (t.cleanerOver = true ∧ Ends rt t.proc op) ∨
      (t.mainOver = true ∧ (∃ now done, op = .clean now done) ∧ ¬ Calm t) := by
  have hk : t.killed = false ∧ ¬ (t.mainOver = true ∧ t.cleanerOver = true) := by
    simp only [Threads.over, Bool.or_eq_false_iff] at h
    refine ⟨h.1, fun ⟨a, b⟩ => ?_⟩
    simp [a, b] at h
  unfold Threads.step
  rw [h]
  simp only [Bool.false_eq_true, if_false]
  cases op with
  | terminate => simp [Threads.over]
  | interrupt => simp [Threads.over, hk.1, Ends]
  | main e =>
    simp only [reduceCtorEq, Ends, false_or, exists_false, false_and, and_false, or_false]
    by_cases hc : e.op = .clean
    · simp [hc, h]
    · simp only [hc, decide_false, Bool.or_false]
      cases hm : t.mainOver with
      | true =>
        have : t.cleanerOver = false := by
          cases hco : t.cleanerOver with
          | false => rfl
          | true => exact absurd ⟨hm, hco⟩ hk.2
        simp [h, this]
      | false =>
        cases hs : t.proc.step rt e with
        | ok p => simp [Threads.over, hk.1]
        | error x => simp [Threads.over, hk.1, hc]
  | clean now done =>
    simp only [reduceCtorEq, Ends, and_false, false_or]
    cases hco : t.cleanerOver with
    | true =>
      have : t.mainOver = false := by
        cases hm : t.mainOver with
        | false => rfl
        | true => exact absurd ⟨hm, hco⟩ hk.2
      simp [h, this]
    | false =>
      simp only [Bool.false_eq_true, if_false, Threads.clean, Calm]
      split
      · rename_i ha
        split
        · rename_i hl
          simp [Threads.over, hk.1, hco, hl]
        · rename_i n hl
          by_cases hn : n = t.proc.alive.size
          · cases done <;> simp [Threads.over, hk.1, hco, hl, hn]
          · simp [Threads.over, hk.1, hl, ha, hn]
      · rename_i hne
        have : ¬ t.proc.cleaner = .asleep := fun e => hne e
        simp [Threads.over, hk.1, hco, this]

/-- **C105, a look.** A look for idle functions has a beginning, a middle of any number of steps and a last one.  Idle functions are
found by the last step only, and only if there are as many entries as at the beginning; with another number the cleaner is over. -/
theorem C105_look (rt : Runtime F V X) (t : Threads F) (now : Int) (done : Bool) (h : t.over = false) (hc : t.cleanerOver = false)
    (ha : t.proc.cleaner = .asleep) :
    (t.look = none → t.step rt (.clean now done) = { t with look := some t.proc.alive.size }) ∧
    (t.look = some t.proc.alive.size → t.step rt (.clean now done) = if done then { t with proc := t.proc.clean now, look := none } else t) ∧
    (∀ n, t.look = some n → n ≠ t.proc.alive.size → t.step rt (.clean now done) = { t with cleanerOver := true, look := none }) := by
  refine ⟨fun hl => ?_, fun hl => ?_, fun n hl hn => ?_⟩ <;> simp [Threads.step, h, hc, Threads.clean, ha, hl]
  exact fun h' => absurd h' hn

example : (Threads.init 5 0 : Threads Nat).over = false ∧ (Threads.init 5 0 : Threads Nat).cleanerOver = false ∧
    (Threads.init 5 0 : Threads Nat).proc.cleaner = .asleep := by decide

/-- **C105**, partial: the process does not end before the main thread, except by `SIGTERM`. -/
theorem C105_main_first_partial (rt : Runtime F V X) (t : Threads F) (h : t.over = false) (op : TOp) (ht : op ≠ .terminate)
    (ho : (t.step rt op).over = true) : (t.step rt op).mainOver = true := by
  have hk : t.killed = false := by
    simp only [Threads.over, Bool.or_eq_false_iff] at h; exact h.1
  have hk' : (t.step rt op).killed = false := by
    unfold Threads.step
    rw [h]
    simp only [Bool.false_eq_true, if_false]
    cases op with
    | terminate => exact absurd rfl ht
    | interrupt => exact hk
    | main e =>
      simp only
      split
      · exact hk
      · split <;> exact hk
    | clean now done =>
      simp only [Threads.clean]
      repeat' split
      all_goals exact hk
  simp only [Threads.over, hk', Bool.false_or, Bool.and_eq_true] at ho
  exact ho.1

/-- **C105**, partial: `SIGTERM` ends it, whatever it does. -/
theorem C105_terminate_partial (rt : Runtime F V X) (t : Threads F) : (t.step rt .terminate).over = true := by
  unfold Threads.step
  split
  · assumption
  · simp [Threads.over]

theorem lingers_step {rt : Runtime F V X} {t : Threads F} (hm : t.mainOver = true) (hc : t.cleanerOver = false)
    (hk : t.killed = false) (hl : LookInv t) (hcalm : Calm t) {op : TOp} (hop : NoSignal op) :
    (t.step rt op).mainOver = true ∧ (t.step rt op).cleanerOver = false ∧ (t.step rt op).killed = false ∧
      LookInv (t.step rt op) ∧ Calm (t.step rt op) := by
  have ho : t.over = false := by simp [Threads.over, hc, hk]
  unfold Threads.step
  rw [ho]
  simp only [Bool.false_eq_true, if_false]
  cases op with
  | terminate => exact hop.elim
  | interrupt => exact hop.elim
  | main e => simp only [hm, Bool.true_or, if_true]; exact ⟨trivial, hc, hk, hl, hcalm⟩
  | clean now done =>
    simp only [hc, Bool.false_eq_true, if_false, Threads.clean]
    split
    · rename_i ha
      split
      · refine ⟨hm, rfl, hk, fun _ => ha, fun _ n hn => ?_⟩
        simp only [Option.some.injEq] at hn
        exact hn.symm
      · rename_i n hn
        rw [if_pos (hcalm ha n hn)]
        split
        · exact ⟨hm, rfl, hk, fun h => absurd rfl h, fun _ n hn => by cases hn⟩
        · exact ⟨hm, hc, hk, hl, hcalm⟩
    · rename_i hne
      refine ⟨hm, rfl, hk, fun h => absurd (hl h) hne, fun _ n hn => ?_⟩
      have : t.look = some n := hn
      exact absurd (hl (by simp [this])) hne

/-- **C105**, the other way: once the main thread is over and the cleaner is not about to notice a change, the process
stays for ever unless it is sent a signal, and does nothing. -/
theorem C105_lingers {rt : Runtime F V X} {t : Threads F} (hm : t.mainOver = true) (hc : t.cleanerOver = false)
    (hk : t.killed = false) (hl : LookInv t) (hcalm : Calm t) : ∀ {ops : List TOp}, (∀ op ∈ ops, NoSignal op) →
    (t.run rt ops).over = false ∧ (t.run rt ops).mainOver = true
  | [], _ => ⟨by simp [Threads.run, Threads.over, hc, hk], hm⟩
  | op :: ops, h => by
    obtain ⟨h1, h2, h3, h4, h5⟩ := lingers_step (rt := rt) hm hc hk hl hcalm (h op (by simp))
    exact C105_lingers h1 h2 h3 h4 h5 (fun o ho => h o (by simp [ho]))

theorem left_cleaner (p : Proc.Proc F) (e : Proc.Event) : (Threads.left p e).cleaner = p.cleaner := by
  unfold Threads.left
  split <;> rfl

theorem look_step {rt : Runtime F V X} {t : Threads F} (hl : LookInv t) (op : TOp) : LookInv (t.step rt op) := by
  unfold Threads.step
  split
  · exact hl
  · cases op with
    | terminate => exact hl
    | interrupt => exact hl
    | main e =>
      simp only
      split
      · exact hl
      · rename_i hc
        simp only [Bool.or_eq_true, decide_eq_true_eq, not_or] at hc
        split
        · rename_i p hp
          intro h
          show p.cleaner = _
          rw [main_cleaner hp hc.2]
          exact hl h
        · intro h
          show (Threads.left t.proc e).cleaner = _
          rw [left_cleaner]
          exact hl h
    | clean now done =>
      simp only [Threads.clean]
      repeat' split
      · exact hl
      · rename_i ha _ _; exact fun _ => ha
      · exact fun h => absurd rfl h
      · exact hl
      · exact fun h => absurd rfl h
      · rename_i hne; exact fun h => absurd (hl h) hne

/-- **C105**: it is so in every state that comes about: when the main thread ends, the process is over at that moment
(the cleaner was over before), or the cleaner is in a look during which the number of functions has changed by then, or the
process stays until it is sent a signal. -/
theorem C105_exact {rt : Runtime F V X} {ret start : Int} (before : List TOp) (op : TOp)
    (hlive : ((Threads.init ret start : Threads F).run rt before).over = false)
    (hend : Ends rt ((Threads.init ret start : Threads F).run rt before).proc op)
    (hmain : ((Threads.init ret start : Threads F).run rt before).mainOver = false) :
    let t := ((Threads.init ret start : Threads F).run rt before)
    (t.cleanerOver = true ∧ (t.step rt op).over = true) ∨
    (t.cleanerOver = false ∧ ¬ Calm (t.step rt op)) ∨
    (t.cleanerOver = false ∧ ∀ after : List TOp, (∀ o ∈ after, NoSignal o) → ((t.step rt op).run rt after).over = false) := by
  intro t
  have hl : LookInv t := by
    suffices ∀ (ops : List TOp) (t : Threads F), LookInv t → LookInv (t.run rt ops) from
      this before _ (fun h => absurd rfl h)
    intro ops
    induction ops with
    | nil => intro t h; exact h
    | cons o os ih => intro t h; exact ih _ (look_step h o)
  cases hc : t.cleanerOver with
  | true =>
    refine .inl ⟨rfl, ?_⟩
    rw [C105_over rt t hlive]
    exact .inr (.inl ⟨hc, hend⟩)
  | false =>
    by_cases hcalm : Calm (t.step rt op)
    · refine .inr (.inr ⟨rfl, fun after ha => ?_⟩)
      have hk : t.killed = false := by
        have := hlive
        simp only [Threads.over, Bool.or_eq_false_iff] at this
        exact this.1
      have hs : (t.step rt op).mainOver = true ∧ (t.step rt op).cleanerOver = false ∧ (t.step rt op).killed = false := by
        unfold Threads.step
        have : t.over = false := hlive
        rw [this]
        simp only [Bool.false_eq_true, if_false]
        cases op with
        | terminate => exact hend.elim
        | interrupt => exact ⟨rfl, hc, hk⟩
        | clean now done => exact hend.elim
        | main e =>
          obtain ⟨h1, x, h2⟩ := hend
          have hm : t.mainOver = false := hmain
          have h2 : t.proc.step rt e = .error x := h2
          simp [hm, h1, h2, hc, hk]
      exact (C105_lingers hs.1 hs.2.1 hs.2.2 (look_step hl op) hcalm ha).1
    · exact .inr (.inl ⟨rfl, hcalm⟩)

/-- **C105**: the end of the main thread itself changes the number of functions only if a function came that no task waits for; its
time is then written down, and a cleaner that is in a look ends too, and with it the process. -/
theorem C105_unasked (rt : Runtime F V X) (t : Threads F) (h : t.over = false) (hm : t.mainOver = false) {e : Proc.Event} (he : e.op ≠ .clean)
    {x : Proc.Proc.Died X} (hx : t.proc.step rt e = .error x) :
    (t.step rt (.main e)).look = t.look ∧ (t.step rt (.main e)).proc.functions = t.proc.functions ∧
    ((∀ fid, t.proc.main ≠ .added fid) → (t.step rt (.main e)).proc = t.proc) ∧
    ∀ fid, t.proc.main = .added fid → x = .noTask ∧ (t.step rt (.main e)).proc.alive = t.proc.alive.set fid e.now := by
  have hs : t.step rt (.main e) = { t with proc := Threads.left t.proc e, mainOver := true } := by
    simp [Threads.step, h, hm, he, hx]
  rw [hs]
  refine ⟨rfl, ?_, fun hn => ?_, fun fid hf => ?_⟩
  · simp only [Threads.left]; split <;> rfl
  · simp only [Threads.left]; split
    · next h' => exact absurd h' (hn _)
    · rfl
  · obtain ⟨op, now⟩ := e
    cases op with
    | clean => exact absurd rfl he
    | recv m => simp [Proc.Proc.step, hf] at hx
    | work c dur =>
      simp only [Proc.Proc.step, Proc.Proc.work, hf] at hx
      split at hx
      · cases hx
      · cases hx; exact ⟨rfl, by simp [Threads.left, hf, Proc.Proc.stamp]⟩

/-- A function nobody asked for comes in the middle of a look: the main thread is over, then the cleaner, and the process with them. -/
example : let ops : List TOp := [.clean 0 false, .main ⟨.recv (.functionResponse .ok [70] [] [2]), 1⟩, .main ⟨.work 0 0, 2⟩]
    ((Threads.init 10 0 : Threads Nat).run toy ops).mainOver = true ∧ ((Threads.init 10 0 : Threads Nat).run toy ops).over = false ∧
    ((Threads.init 10 0 : Threads Nat).run toy (ops ++ [.clean 3 false])).over = true := by
  decide +kernel

/-- A task whose function raises what is no `Exception`: the main thread is over without an answer, and the process
stays until it is sent a signal. -/
theorem C105_stays (after : List TOp) (h : ∀ o ∈ after, NoSignal o) :
    let t := (Threads.init 10 0 : Threads Nat).run toy [.clean 0 true, .clean 0 true, .main ⟨.recv (.task ⟨[1], [70], []⟩), 1⟩,
      .main ⟨.recv (.functionResponse .ok [70] [] [1]), 2⟩, .main ⟨.work 0 0, 3⟩, .main ⟨.work 0 0, 4⟩,
      .main ⟨.work 0 0, 5⟩, .main ⟨.work 0 0, 6⟩]
    t.mainOver = true ∧ (t.run toy after).over = false ∧
      ¬ ∃ now st dur r, (now, Proc.Act.sent (.taskResult [1] st dur r)) ∈ t.proc.log := by
  intro t
  have hm : t.mainOver = true := by decide +kernel
  have hl : LookInv t := fun hh => absurd (show t.look = none by decide +kernel) hh
  refine ⟨hm, (C105_lingers hm (by decide +kernel) (by decide +kernel) hl
    (fun _ n hn => by rw [show t.look = none by decide +kernel] at hn; cases hn) h).1, ?_⟩
  rintro ⟨now, st, dur, r, hmem⟩
  have hall : t.proc.log.all (fun x => match x.2 with
    | .sent (.taskResult id _ _ _) => decide (id ≠ [1])
    | _ => true) = true := by decide +kernel
  have := List.all_eq_true.1 hall _ hmem
  simp at this

/-- `SIGINT` to a processor that waits: the same. -/
theorem C105_interrupted (after : List TOp) (h : ∀ o ∈ after, NoSignal o) :
    (((Threads.init 10 0 : Threads Nat).step toy .interrupt).run toy after).over = false := by
  refine (C105_lingers (by decide +kernel) (by decide +kernel) (by decide +kernel) (fun hh => absurd (by decide +kernel) hh)
    (fun _ n hn => ?_) h).1
  cases hn

/-- Both ends come about: a cleaner that ended first (a function came during its look), and then the main thread. -/
example : ((Threads.init 10 0 : Threads Nat).run toy [.clean 0 false, .main ⟨.recv (.task ⟨[1], [70], []⟩), 1⟩,
    .main ⟨.recv (.functionResponse .ok [70] [] [2]), 2⟩, .main ⟨.work 0 0, 3⟩, .clean 4 false]).cleanerOver = true ∧
    ((Threads.init 10 0 : Threads Nat).run toy [.clean 0 false, .main ⟨.recv (.task ⟨[1], [70], []⟩), 1⟩,
    .main ⟨.recv (.functionResponse .ok [70] [] [2]), 2⟩, .main ⟨.work 0 0, 3⟩, .clean 4 false, .interrupt]).over = true ∧
    ((Threads.init 10 0 : Threads Nat).run toy [.clean 0 false, .main ⟨.recv (.task ⟨[1], [70], []⟩), 1⟩,
    .main ⟨.recv (.functionResponse .ok [70] [] [2]), 2⟩, .main ⟨.work 0 0, 3⟩, .interrupt, .clean 4 false]).over = true := by
  decide +kernel

/-- A processor that holds a function and is told to run it, in the middle of a look: it is not over, the next step of
its main thread ends it, and the cleaner will notice nothing. -/
example : let t := (Threads.init 10 0 : Threads Nat).run toy [.main ⟨.recv (.task ⟨[1], [70], []⟩), 1⟩,
      .main ⟨.recv (.functionResponse .ok [70] [] [1]), 2⟩, .main ⟨.work 0 0, 3⟩, .clean 3 false, .main ⟨.work 0 0, 4⟩,
      .main ⟨.work 0 0, 5⟩]
    t.over = false ∧ t.mainOver = false ∧ t.look = some 1 ∧ Calm t ∧ Ends toy t.proc (.main ⟨.work 0 0, 6⟩) := by
  intro t
  have hl : t.look = some 1 := by decide +kernel
  have hs : t.proc.alive.size = 1 := by decide +kernel
  refine ⟨by decide +kernel, by decide +kernel, hl, fun _ n hn => ?_, by simp, .unpicklable 6, by rfl⟩
  rw [hl] at hn
  cases hn
  exact hs.symm

end Verif.Props
