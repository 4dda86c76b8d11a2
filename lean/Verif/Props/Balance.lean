import Verif.Props.Workers
import Verif.Spec.Ticks

/-!
# C15: balance requests are debounced
-/

namespace Verif.Props

open Verif.Queue Verif.Util Verif.Wire Verif.Sched Verif.Spec

theorem sameDict_iff {a b : Dict Bytes Int} : Sched.sameDict a b = true ↔ SameTable a b := by
  unfold Sched.sameDict SameTable
  simp only [Bool.and_eq_true, decide_eq_true_eq, List.all_eq_true]
  constructor
  · rintro ⟨hsz, hall⟩ w
    cases ha : a.get? w with
    | some v => rw [hall (w, v) (Dict.mem_items.2 ha)]
    | none =>
      cases hb : b.get? w with
      | none => rfl
      | some v =>
        exfalso
        have hn : (w :: a.keys).Nodup := by
          rw [List.nodup_cons]
          exact ⟨Dict.not_mem_keys.2 ha, Dict.nodup_keys a⟩
        have hsub : w :: a.keys ⊆ b.keys := by
          intro x hx
          rcases List.mem_cons.1 hx with rfl | hx
          · exact Dict.mem_keys.2 ⟨v, hb⟩
          · obtain ⟨v', hv'⟩ := Dict.mem_keys.1 hx
            exact Dict.mem_keys.2 ⟨v', hall (x, v') (Dict.mem_items.2 hv')⟩
        have := hn.length_le_of_subset hsub
        rw [List.length_cons, Dict.size_keys, Dict.size_keys] at this
        omega
  · intro h
    have hk : a.keys ⊆ b.keys ∧ b.keys ⊆ a.keys := by
      constructor <;> intro x hx <;> obtain ⟨v, hv⟩ := Dict.mem_keys.1 hx
      · exact Dict.mem_keys.2 ⟨v, by rw [← h]; exact hv⟩
      · exact Dict.mem_keys.2 ⟨v, by rw [h]; exact hv⟩
    constructor
    · have h1 := (Dict.nodup_keys a).length_le_of_subset hk.1
      have h2 := (Dict.nodup_keys b).length_le_of_subset hk.2
      rw [Dict.size_keys, Dict.size_keys] at h1 h2
      omega
    · rintro ⟨w, v⟩ hp
      rw [← h]
      exact Dict.mem_items.1 hp

/-- Executions with the advices (`balance`, C14) at the ticks of the worker routine, newest first. -/
inductive Ticked (cfg : Config) : List (Dict Bytes Int) → Log → Sched → Prop
  | init : Ticked cfg [] [] (Sched.init cfg)
  | step {as : List (Dict Bytes Int)} {l : Log} {s s' : Sched} (e : Event) (hr : Ticked cfg as l s) (ha : ∀ m ∈ e.input, Allowed l s.out m)
      (hs : s.step e = .ok s') :
      Ticked cfg (if e.op = .workerRoutine then s.wm.alloc.balance :: as else as) (l ++ e.input) s'

theorem Ticked.reach {cfg : Config} {as : List (Dict Bytes Int)} {l : Log} {s : Sched} (h : Ticked cfg as l s) : Reach cfg l s := by
  induction h with
  | init => exact .init
  | step e _ ha hs ih => exact .step e ih ha hs

/-- The scheduler's counter. -/
def Counter (as : List (Dict Bytes Int)) (s : Sched) : Prop :=
  match as with
  | [] => s.wm.lastAdvice = none
  | a :: _ => ∃ b n, s.wm.lastAdvice = some b ∧ SameTable b a ∧ Streak as n ∧ s.wm.sameCount = n

theorem _root_.Verif.Spec.SameTable.symm {a b : Dict Bytes Int} (h : SameTable a b) : SameTable b a := fun w => (h w).symm
theorem _root_.Verif.Spec.SameTable.trans {a b c : Dict Bytes Int} (h : SameTable a b) (h' : SameTable b c) : SameTable a c := fun w => (h w).trans (h' w)

theorem streak_unique {as : List (Dict Bytes Int)} {n m : Nat} (h : Streak as n) (h' : Streak as m) : n = m := by
  induction h generalizing m with
  | one => cases h'; rfl
  | more _ hs ih =>
    cases h' with
    | more h2 _ => rw [ih h2]
    | new hn => exact absurd hs hn
  | new hn =>
    cases h' with
    | more _ hs => exact absurd hs hn
    | new => rfl

theorem step_counter {cfg : Config} {l : Log} {s s' : Sched} (hg : Good cfg l s) {e : Event} (hs : s.step e = .ok s')
    (he : e.op ≠ .workerRoutine) : s'.wm.lastAdvice = s.wm.lastAdvice ∧ s'.wm.sameCount = s.wm.sameCount := by
  cases hsp : e.special with
  | false =>
    have h := Py.Post.ok (step_keeps hg.conc hg.settled e hsp) hs
    exact ⟨h.last, h.count⟩
  | true =>
    obtain ⟨op, now, o⟩ := e
    cases op with
    | recv source m =>
      cases m with
      | heartbeat hb => cases hs; exact ⟨rfl, rfl⟩
      | disconnectRequest w1 =>
        have h := (onDisconnect_only o source w1).ok hs
        exact ⟨h.2.2.1, h.2.2.2.1⟩
      | _ => cases hsp
    | workerRoutine => exact absurd rfl he
    | functionRoutine =>
      have h := ((functionRoutine_only o now).ok hs).1
      rw [h]; exact ⟨rfl, rfl⟩
    | _ => cases hsp

theorem sendAll (l : List (Bytes × Int)) (s : Sched) : l.foldl (fun s p => s.send p.1 (.balanceRequest p.2)) s =
    { s with out := s.out ++ l.map fun p => (p.1, .balanceRequest p.2) } := by
  induction l generalizing s with
  | nil => simp
  | cons p l ih => rw [List.foldl_cons, ih]; simp [Sched.send]

/-- What a tick of an enabled balancer does. -/
theorem balanceRequest_tick {as : List (Dict Bytes Int)} {s : Sched} (hen : 0 < s.cfg.balanceSeconds) (hc : Counter as s) :
    Counter (s.wm.alloc.balance :: as) s.balanceRequest ∧
    ∃ n, Streak (s.wm.alloc.balance :: as) n ∧
      s.balanceRequest.out = s.out ++
        if 2 ≤ n ∧ (n : Int) = s.cfg.balanceTriggers then s.wm.alloc.balance.items.map fun p => (p.1, .balanceRequest p.2) else [] := by
  unfold Sched.balanceRequest
  rw [if_neg (by omega)]
  simp only
  cases as with
  | nil =>
    have hc' : s.wm.lastAdvice = none := hc
    rw [hc']
    simp only [Option.map_none, Option.getD_none, Bool.not_false, if_true]
    refine ⟨⟨s.wm.alloc.balance, 1, rfl, fun _ => rfl, .one _, rfl⟩, 1, .one _, by simp⟩
  | cons a as =>
    obtain ⟨b, n, h1, h2, h3, h4⟩ := hc
    rw [h1]
    simp only [Option.map_some, Option.getD_some]
    by_cases hsame : Sched.sameDict b s.wm.alloc.balance = true
    case neg =>
      rw [if_pos (by simp [hsame])]
      have hns : ¬ SameTable a s.wm.alloc.balance := by
        intro h
        exact hsame (sameDict_iff.2 (h2.trans h))
      exact ⟨⟨s.wm.alloc.balance, 1, rfl, fun _ => rfl, .new hns, rfl⟩, 1, .new hns, by simp⟩
    case pos =>
      rw [if_neg (by simp [hsame])]
      have hs2 : SameTable a s.wm.alloc.balance := h2.symm.trans (sameDict_iff.1 hsame)
      have hst : Streak (s.wm.alloc.balance :: a :: as) (n + 1) := .more h3 hs2
      have hn : 1 ≤ n := by cases h3 <;> omega
      split
      · next hne =>
        refine ⟨⟨b, n + 1, rfl, sameDict_iff.1 hsame, hst, by simp [h4]⟩, n + 1, hst, ?_⟩
        rw [if_neg]
        · simp
        · rintro ⟨_, h⟩
          apply hne
          rw [h4]
          simpa using h
      · next heq =>
        have heq' : ((n + 1 : Nat) : Int) = s.cfg.balanceTriggers := by
          have := Classical.not_not.1 heq
          rw [h4] at this
          simpa using this
        split
        · next hemp =>
          refine ⟨⟨b, n + 1, rfl, sameDict_iff.1 hsame, hst, by simp [h4]⟩, n + 1, hst, ?_⟩
          have : s.wm.alloc.balance.items = [] := List.isEmpty_iff.1 hemp
          simp [this]
        · rw [sendAll]
          refine ⟨⟨s.wm.alloc.balance, n + 1, rfl, fun _ => rfl, hst, by simp [h4]⟩, n + 1, hst, ?_⟩
          rw [if_pos ⟨by omega, heq'⟩]

theorem Ticked.counter {cfg : Config} {as : List (Dict Bytes Int)} {l : Log} {s : Sched} (h : Ticked cfg as l s)
    (hen : 0 < cfg.balanceSeconds) : Counter as s := by
  induction h with
  | init => rfl
  | @step as l s s' e hr ha hs ih =>
    have hg := hr.reach.good
    by_cases he : e.op = .workerRoutine
    · rw [if_pos he]
      obtain ⟨op, now, o⟩ := e
      cases he
      obtain ⟨h1, _⟩ := balanceRequest_tick (by rw [hg.cfg]; exact hen) ih
      obtain ⟨-, -, h2, h3, -⟩ := (workerRoutine_only o now).ok hs
      unfold Counter at h1 ⊢
      rw [h2, h3]
      exact h1
    · rw [if_neg he]
      obtain ⟨h1, h2⟩ := step_counter hg hs he
      unfold Counter at ih ⊢
      rw [h1, h2]
      exact ih

/-- **C15, partial.** For every execution and every tick of the worker routine that is handled, with trigger
setting other than 1: what the scheduler sends is nothing, or a balance request with exactly the advised number to each
worker named in the advice, in this order; it sends something iff balancing is enabled, the advice is not
empty and this is exactly the `load_balance_trigger_times`-th tick in a row with this advice.

Full statement: also for trigger setting 1.  This is false (`C15_never_sends`). -/
theorem C15_debounced_partial (cfg : Config) (as : List (Dict Bytes Int)) (l : Log) (s s' : Sched) (hr : Ticked cfg as l s) (e : Event)
    (he : e.op = .workerRoutine) (hs : s.step e = .ok s') (htrig : cfg.balanceTriggers ≠ 1) :
    (s'.out = s.out ∨ s'.out = s.out ++ s.wm.alloc.balance.items.map fun p => (p.1, .balanceRequest p.2)) ∧
    (s'.out ≠ s.out ↔ 0 < cfg.balanceSeconds ∧ s.wm.alloc.balance.items ≠ [] ∧
      ∃ n : Nat, Streak (s.wm.alloc.balance :: as) n ∧ (n : Int) = cfg.balanceTriggers) := by
  have hg := hr.reach.good
  obtain ⟨op, now, o⟩ := e
  cases he
  have ho := ((workerRoutine_only o now).ok hs).2.1
  by_cases hen : 0 < cfg.balanceSeconds
  · obtain ⟨-, n, h1, h2⟩ := balanceRequest_tick (by rw [hg.cfg]; exact hen) (hr.counter hen)
    rw [ho, h2, hg.cfg]
    by_cases hn : 2 ≤ n ∧ (n : Int) = cfg.balanceTriggers
    · rw [if_pos hn]
      refine ⟨Or.inr rfl, ?_⟩
      constructor
      · intro hne
        refine ⟨hen, ?_, n, h1, hn.2⟩
        intro e
        apply hne
        rw [e]; simp
      · rintro ⟨_, hne, _⟩ e
        apply hne
        have := congrArg List.length e
        simp at this
        exact this
    · rw [if_neg hn]
      refine ⟨Or.inl (by simp), ?_⟩
      constructor
      · intro hne; simp at hne
      · rintro ⟨_, _, m, h3, h4⟩
        exfalso
        have := streak_unique h1 h3
        subst this
        have : 1 ≤ n := by cases h1 <;> omega
        exact hn ⟨by omega, h4⟩
  · have : s.balanceRequest = s := by
      unfold Sched.balanceRequest
      rw [if_pos (by rw [hg.cfg]; omega)]
    rw [ho, this]
    refine ⟨Or.inl rfl, ?_⟩
    constructor
    · intro h; exact absurd rfl h
    · rintro ⟨h, _⟩; exact absurd h hen

/-- The advice stays the same for three ticks, then changes. -/
def tick : Event := ev .workerRoutine

def tickStory : List Event :=
  [addFn, beat wk, submit [1], submit [2], turn, turn, beat wk2, tick, tick, tick, done [1] [7], tick]

/-- Trigger setting 2: the request is sent at the second tick only, and is sent to the worker that has the tasks. -/
example : ((List.range 5).map fun n => (runInit cfg0 (tickStory.take (8 + n))).map fun p =>
      p.2.out.filter fun m => match m.2 with | .balanceRequest _ => true | _ => false) =
    [some [], some [(wk, .balanceRequest 1)], some [(wk, .balanceRequest 1)], some [(wk, .balanceRequest 1)],
     some [(wk, .balanceRequest 1)]] := by decide +kernel

theorem runFrom_ticked {cfg : Config} : ∀ (es : List Event) {as : List (Dict Bytes Int)} {l : Log} {s : Sched} {p : Log × Sched},
    Ticked cfg as l s → (es.all fun e => !decide (e.op = .workerRoutine)) = true → runFrom l s es = some p → Ticked cfg as p.1 p.2 := by
  intro es
  induction es with
  | nil => intro as l s p h _ hp; cases hp; exact h
  | cons e es ih =>
    intro as l s p h hn hp
    rw [List.all_cons, Bool.and_eq_true] at hn
    unfold runFrom at hp
    split at hp
    · next ha =>
      split at hp
      · next s1 hs =>
        have := Ticked.step e h (fun m hm => allowedB_sound (List.all_eq_true.1 ha m hm)) hs
        rw [if_neg (by simpa using hn.1)] at this
        exact ih this hn.2 hp
      · cases hp
    · cases hp

/-- **C15 is false of the code** for trigger setting 1: at the first tick with an advice the streak is one, as set, and
nothing is sent.  (Then the counter is past 1, so nothing is ever sent.) -/
theorem C15_never_sends : ∃ cfg as l s s' e, Ticked cfg as l s ∧ cfg.balanceTriggers = 1 ∧ 0 < cfg.balanceSeconds ∧ e.op = .workerRoutine ∧
    s.step e = .ok s' ∧ s.wm.alloc.balance.items = [(wk, 1)] ∧ Streak (s.wm.alloc.balance :: as) 1 ∧ s'.out = s.out := by
  have h : (runFrom [] (Sched.init ⟨-1, 2, 100, 100, 1, 1⟩) [addFn, beat wk, submit [1], submit [2], turn, turn, beat wk2]).map (fun p =>
      (p.2.wm.alloc.balance.items, (p.2.step tick).toOption.map fun s' => decide (s'.out = p.2.out))) =
      some ([(wk, 1)], some true) := by decide +kernel
  obtain ⟨⟨l, s⟩, hp, h⟩ := Option.map_eq_some_iff.1 h
  simp only [Prod.mk.injEq] at h
  obtain ⟨h1, h2⟩ := h
  obtain ⟨s', h3, h4⟩ := Option.map_eq_some_iff.1 h2
  refine ⟨⟨-1, 2, 100, 100, 1, 1⟩, [], l, s, s', tick, runFrom_ticked _ .init (by decide) hp, rfl, by decide, rfl, ?_, h1, .one _, by simpa using h4⟩
  cases hx : s.step tick with
  | ok s1 => rw [hx] at h3; cases h3; rfl
  | error _ => rw [hx] at h3; cases h3

/-- With trigger setting 1 (or less) no tick of any execution sends anything. -/
theorem C15_trigger_one_silent (cfg : Config) (as : List (Dict Bytes Int)) (l : Log) (s s' : Sched) (hr : Ticked cfg as l s) (e : Event)
    (he : e.op = .workerRoutine) (hs : s.step e = .ok s') (htrig : cfg.balanceTriggers ≤ 1) : s'.out = s.out := by
  have hg := hr.reach.good
  obtain ⟨op, now, o⟩ := e
  cases he
  rw [((workerRoutine_only o now).ok hs).2.1]
  by_cases hen : 0 < cfg.balanceSeconds
  · obtain ⟨-, n, h1, h2⟩ := balanceRequest_tick (by rw [hg.cfg]; exact hen) (hr.counter hen)
    rw [h2, hg.cfg, if_neg (by omega), List.append_nil]
  · unfold Sched.balanceRequest
    rw [if_pos (by rw [hg.cfg]; omega)]

end Verif.Props
