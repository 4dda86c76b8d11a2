import Verif.Sched.Later

/-!
# Acceptances are sent before results

A lemma.  The scheduler sends a result to a client after it told the client that the task was accepted.
-/

namespace Verif.Sched

open Verif.Queue Verif.Util Verif.Wire Verif.Spec

/-- Before every result there is the acceptance of its task. -/
def EchoFirst (l : Log) : Prop :=
  ∀ l₁ l₂ c t st d r, l = l₁ ++ (c, .taskResult t st d r) :: l₂ → (c, Message.taskEcho t .submitOK) ∈ l₁

theorem AStep.echoFirst {h : History} {a b : Abs} (hs : AStep h a b) (hS : Sent h a) (he : EchoFirst a.out) : EchoFirst b.out := by
  intro l₁ l₂ c t st d r e
  obtain ⟨l, e1, hl⟩ := hs.says
  rw [e1] at e
  rcases List.append_eq_append_iff.1 e with ⟨l', h1, h2⟩ | ⟨l', h1, h2⟩
  · obtain ⟨hE, hc, -⟩ := hl.result_inv (by rw [h2]; exact List.mem_append_right _ List.mem_cons_self)
    rw [h1]
    exact List.mem_append_left _ (hS.held t c hE.1 hc)
  · cases l' with
    | nil =>
      rw [List.nil_append] at h2
      obtain ⟨hE, hc, -⟩ := hl.result_inv (by rw [← h2]; exact List.mem_cons_self)
      have := hS.held t c hE.1 hc
      rw [h1, List.append_nil] at this
      exact this
    | cons y l' =>
      cases (List.cons.inj h2).1
      exact he _ _ _ _ _ _ _ h1

theorem Reach.echoFirst {cfg : Config} {l : Log} {s : Sched} (hr : Reach cfg l s) : EchoFirst s.out := by
  induction hr with
  | init => intro l₁ l₂ c t st d r e; exact absurd e (by simp [Sched.init])
  | @step l s s' e hr ha hs ih =>
    have hg := hr.good
    have hA : Sched.After (e.hist l) s s' := (step_post hg e ha).ok hs
    exact (hA.steps.lift (P := fun a => Sent (e.hist l) a ∧ EchoFirst a.out) (fun a b st hi hp => ⟨st.sent hi hp.1, st.echoFirst hp.1 hp.2⟩)
        (hg.inv.mono (e.hist_mem l)) ⟨hg.sent.mono (e.hist_mem l), ih⟩).2

end Verif.Sched
