import Verif.System.Causal
import Verif.Client.ClientDone

/-!
# Results follow calls

In a system of this scheduler, these clients and these workers, a result does not come before its task or graph exists.
-/

namespace Verif.System

open Verif.Wire Verif.Sched Verif.Spec
open Verif.Client (Pickle usedIds Timely)

variable {F V X : Type} {p : Pickle} {rt : Proc.Runtime F V X} {cfg : Config} {s s' : Sys F}

/-- Whoever got a result has used the id. -/
theorem Inv.result_used (h : Inv p rt cfg s) {x : Bytes} {c : Client.Client} (hx : s.peers x = .client c) {t : Bytes} {st : TaskStatus} {d : UInt32} {r : Bytes}
    (hm : (x, .taskResult t st d r) ∈ s.sched.out) : t ∈ usedIds c.log := by
  obtain ⟨he, -⟩ := h.sched.good.sent.result x t st d r hm
  obtain ⟨c1, hx1, hu⟩ := h.echo_used he
  rw [hx] at hx1; cases hx1
  rcases hu with ⟨k, hk, rfl⟩ | ⟨g, hg, ht⟩
  · have h3 : 0 < (s.peers x).sent (.task k) := by
      rw [hx]; exact List.countP_pos_iff.2 ⟨_, hk, by simp⟩
    obtain ⟨c2, nm, b, hx2, hs, -⟩ := h.taskSent h3
    rw [hx] at hx2; cases hx2
    exact submitted_used hs
  · exact Client.graph_used hg t ht

/-- Whoever got the answer for a graph has passed it. -/
theorem Inv.answer_graph (h : Inv p rt cfg s) {x : Bytes} {c : Client.Client} (hx : s.peers x = .client c) {g : Bytes} {st : TaskStatus} {rs : List Bytes}
    (hm : (x, .graphTaskResult g st rs) ∈ s.sched.out) : ∃ gt, Client.Act.graph gt ∈ c.log ∧ gt.taskId = g ∧ (x, .graphTask gt) ∈ s.received := by
  obtain ⟨gt, h1, h2, -⟩ := h.sched.good.answered x g st rs hm
  obtain ⟨c1, hx1, hg⟩ := h.graphSent (h.received h1)
  rw [hx] at hx1; cases hx1
  exact ⟨gt, hg, h2, h1⟩

/-- In every execution results arrive for ids that were used before. -/
theorem Reach.timely (h : Reach p rt cfg s) : ∀ x c, s.peers x = .client c → Spec.Client.Always Timely c.log := by
  induction h with
  | init => intro x c hx; cases hx
  | @step s s' o hr hs ih =>
    intro x c' hx
    cases step_came hs hx with
    | new e => subst e; intro l₁ y l₂ e; simp [Client.Client.init] at e
    | same e => exact ih x c' e
    | step c o e hc hsub hrecv =>
      have hi := ih x c e
      by_cases ho : ∃ m, o = .recv m
      · obtain ⟨m, rfl⟩ := ho
        simp only [Client.Client.step] at hc
        split at hc
        · cases hc; exact hi
        · have hl := Client.receive_log hc
          rw [hl]
          refine Client.always_snoc hi ?_
          have hm : (x, m) ∈ s.sched.out := List.count_pos_iff.1 (by have := hrecv m rfl; omega)
          cases m with
          | taskResult t st d r => exact hr.inv.result_used e hm
          | graphTaskResult g st rs =>
            obtain ⟨gt, h1, h2, -⟩ := hr.inv.answer_graph e hm
            exact Client.graph_used h1 _ (by rw [← h2]; exact List.mem_cons_self)
          | _ => trivial
      · obtain ⟨xs, h1, -⟩ := Client.step_log hc
        rw [h1]
        intro l₁ y l₂ el
        rcases List.append_eq_append_iff.1 el with ⟨a, h2, h3⟩ | ⟨b, h2, h3⟩
        · have hy : y ∈ xs := by rw [h3]; simp
          cases y with
          | recv m =>
            exfalso
            have h4 := Client.step_recv hc m
            rw [if_neg (fun e => ho ⟨m, e⟩), h1, List.countP_append] at h4
            have : 0 < xs.countP fun y => decide (y = .recv m) := List.countP_pos_iff.2 ⟨_, hy, by simp⟩
            omega
          | _ => trivial
        · cases b with
          | nil =>
            have hy : y ∈ xs := by simp at h3; rw [← h3]; simp
            cases y with
            | recv m =>
              exfalso
              have h4 := Client.step_recv hc m
              rw [if_neg (fun e => ho ⟨m, e⟩), h1, List.countP_append] at h4
              have : 0 < xs.countP fun y => decide (y = .recv m) := List.countP_pos_iff.2 ⟨_, hy, by simp⟩
              omega
            | _ => trivial
          | cons z b =>
            simp only [List.cons_append, List.cons.injEq] at h3
            obtain ⟨rfl, -⟩ := h3
            exact hi _ _ _ h2

end Verif.System
