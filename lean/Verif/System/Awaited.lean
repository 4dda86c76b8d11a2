import Verif.System.Asked
import Verif.System.Causal
import Verif.Client.ClientIo

/-!
# The answer about a function that a client awaits is on its way
-/

namespace Verif.System

open Verif.Wire Verif.Sched Verif.Spec
open Verif.Spec.Client (asked askStep)

variable {F V X : Type} {p : Client.Pickle} {rt : Proc.Runtime F V X} {cfg : Config} {s s' : Sys F}
variable {x f : Bytes} {c c' : Client.Client}

/-- The function that client `x` registers, or the answer, is on its way. -/
def Registering (s : Sys F) (x f : Bytes) : Prop :=
  (∃ nm b, s.received.count (x, .functionRequest .add f nm b) < (s.peers x).sent (.functionRequest .add f nm b)) ∨
  ∃ st nm b, (s.peers x).got (.functionResponse st f nm b) < s.sched.out.count (x, .functionResponse st f nm b)

theorem asked_append (f : Bytes) (l : List Client.Act) (y : Client.Act) : asked f (l ++ [y]) = askStep f y (asked f l) := by
  simp [asked, List.foldl_append]

theorem asked_calm {l xs : List Client.Act} (h : ∀ y ∈ xs, Client.Calm y) : asked f (l ++ xs) = asked f l := by
  induction xs generalizing l with
  | nil => simp
  | cons y xs ih =>
    have hy := h y (List.mem_cons_self ..)
    have := ih (l := l ++ [y]) fun z hz => h z (List.mem_cons_of_mem _ hz)
    rw [List.append_assoc, List.singleton_append] at this
    rw [this, asked_append]
    cases y <;> first | rfl | exact hy.elim | skip
    next m => cases m <;> first | rfl | exact hy.elim

/-- The scheduler answers a client that registers a function. -/
theorem sched_registers {sc sc' : Sched.Sched} {e : Sched.Event} (hs : sc.step e = .ok sc') {nm b : Bytes}
    (he : e.op = .recv x (.functionRequest .add f nm b)) : ∃ st nm b, sc'.out = sc.out ++ [(x, .functionResponse st f nm b)] := by
  simp only [Sched.step, he, Sched.Sched.receive, Sched.Sched.onFunction, Except.ok.injEq] at hs
  subst hs
  unfold Sched.Sched.functionAdd
  split
  · exact ⟨_, _, _, rfl⟩
  · exact ⟨_, _, _, rfl⟩

theorem Reach.registering (hr : Reach p rt cfg s) : ∀ {x : Bytes} {c : Client.Client} {f : Bytes},
    s.peers x = .client c → asked f c.log = true → Registering s x f := by
  induction hr with
  | init => intro x c f hx; cases hx
  | @step s s' o hr hs ih =>
    intro x c f hx ha
    have h := hr.inv
    rcases sched_moves hs with ⟨hsch, hrec⟩ | ⟨e, he, hrec, hpe, hin⟩
    · have same : ∀ c₀ : Client.Client, s.peers x = .client c₀ →
          (∀ m, (∀ nm b, m = .functionRequest .add f nm b → c₀.log.countP (fun y => decide (y = .sent m)) ≤ c.log.countP fun y => decide (y = .sent m)) ∧
            (∀ st nm b, m = .functionResponse st f nm b → c.log.countP (fun y => decide (y = .recv m)) ≤ c₀.log.countP fun y => decide (y = .recv m))) →
          asked f c₀.log = true → Registering s' x f := by
        intro c₀ hx₀ hcmp ha₀
        rcases ih hx₀ ha₀ with ⟨nm, b, h⟩ | ⟨st, nm, b, h⟩
        · refine .inl ⟨nm, b, ?_⟩
          rw [hrec, hx]
          rw [hx₀] at h
          exact Nat.lt_of_lt_of_le h ((hcmp _).1 nm b rfl)
        · refine .inr ⟨st, nm, b, ?_⟩
          rw [hsch, hx]
          rw [hx₀] at h
          exact Nat.lt_of_le_of_lt ((hcmp _).2 st nm b rfl) h
      have calm : ∀ c₀ : Client.Client, ∀ xs, s.peers x = .client c₀ → c.log = c₀.log ++ xs → asked f c.log = asked f c₀.log →
          (∀ st nm b, .recv (.functionResponse st f nm b) ∉ xs) → Registering s' x f := by
        intro c₀ xs hx₀ hl hask hno
        refine same c₀ hx₀ (fun m => ⟨fun nm b _ => ?_, fun st nm b hm => ?_⟩) (hask ▸ ha)
        · rw [hl, List.countP_append]; omega
        · rw [hl, List.countP_append, (List.countP_eq_zero (l := xs)).2]
          · omega
          · intro y hy
            simp only [decide_eq_true_eq]
            rintro rfl
            exact hno st nm b (hm ▸ hy)
      rcases step_came hs hx with h1 | h1 | ⟨c₀, o', hx₀, hs', -, -⟩
      · rw [h1] at ha; cases ha
      · exact calm c [] h1 (by simp) rfl (by simp)
      · cases Client.step_io hs' with
        | quiet xs ms h1 h2 =>
          exact calm c₀ xs hx₀ h1 (by rw [h1, asked_calm h2]) fun st nm b hm => (h2 _ hm).elim
        | get g h1 h2 =>
          exact calm c₀ _ hx₀ h2 (by rw [h2, asked_append]; rfl) (by simp)
        | started g ns h1 h2 =>
          exact calm c₀ _ hx₀ h2 (by rw [h2, asked_append]; rfl) (by simp)
        | recv m ms h1 h2 =>
          by_cases hm : ∃ st nm b, m = .functionResponse st f nm b
          · obtain ⟨st, nm, b, rfl⟩ := hm
            rw [h2, asked_append] at ha
            simp [askStep] at ha
          · refine calm c₀ _ hx₀ h2 ?_ (fun st nm b hmem => hm ⟨st, nm, b, by cases List.mem_singleton.1 hmem; rfl⟩)
            rw [h2, asked_append]
            cases m <;> first | rfl | skip
            next st f' nm b =>
              have : f' ≠ f := fun e => hm ⟨st, nm, b, by rw [e]⟩
              simp [askStep, this]
        | flush m h1 h2 h3 =>
          clear h2 h3
          by_cases hm : ∃ nm b, m = .functionRequest .add f nm b
          · obtain ⟨nm, b, rfl⟩ := hm
            refine .inl ⟨nm, b, ?_⟩
            have := h.heard x (.functionRequest .add f nm b)
            rw [hx₀] at this
            rw [hrec, hx]
            show _ < c.log.countP _
            rw [h1, List.countP_append]
            simp only [Peer.sent] at this
            simp
            omega
          · refine calm c₀ _ hx₀ h1 ?_ (by simp)
            rw [h1, asked_append]
            cases m <;> first | rfl | skip
            rename_i ty f' nm b
            cases ty <;> first | rfl | skip
            have : f' ≠ f := fun e => hm ⟨nm, b, by rw [e]⟩
            simp [askStep, this]
    · rw [hpe] at hx
      obtain ⟨l, hl⟩ := out_grows hr he hin
      rcases ih hx ha with ⟨nm, b, h'⟩ | ⟨st, nm, b, h'⟩
      · by_cases hop : e.op = .recv x (.functionRequest .add f nm b)
        · obtain ⟨st, nm', b', ho⟩ := sched_registers he hop
          refine .inr ⟨st, nm', b', ?_⟩
          have := h.got x (.functionResponse st f nm' b')
          rw [ho, hpe, List.count_append]
          simp only [List.count_singleton_self]
          omega
        · refine .inl ⟨nm, b, ?_⟩
          rw [hrec, hpe, List.count_append]
          have : e.input.count (x, .functionRequest .add f nm b) = 0 := by
            refine List.count_eq_zero.2 fun hm => hop ?_
            unfold Sched.Event.input at hm
            split at hm
            · next y m hy =>
              rw [List.mem_singleton] at hm
              cases hm
              exact hy
            · cases hm
          omega
      · refine .inr ⟨st, nm, b, ?_⟩
        rw [hl, hpe, List.count_append]
        omega

end Verif.System
