import Verif.Sched.Peers

/-!
# When the scheduler says that nobody can work

The echo NoWorker is sent by the task manager alone (`on_task_new`, /repo/scaled/scheduler/task_manager.py lines
85 to 95), and only after the test `0 <= max_number_of_tasks_waiting`. So a scheduler without a limit never
sends it, to anybody, for a task of a graph or any other.
-/

namespace Verif.Sched

open Verif.Queue Verif.Util Verif.Wire Verif.Spec

/-- Every NoWorker echo sent so far was sent under a limit. -/
def Limits (a : Abs) : Prop := ∀ c t, (c, .taskEcho t .noWorker) ∈ a.out → a.limited = true

theorem AStep.limits {h : History} {a b : Abs} (hs : AStep h a b) (hx : Limits a) : Limits b := by
  intro c t hm
  rw [hs.limited]
  obtain ⟨l, hl, hsay⟩ := hs.says
  rw [hl] at hm
  rcases List.mem_append.1 hm with hm | hm
  · exact hx c t hm
  · cases hsay with
    | mute hmu => exact absurd rfl ((hmu _ hm).1 t .noWorker)
    | echo c' k st hk hf hst hlim => cases List.mem_singleton.1 hm; exact hlim rfl
    | node gid g t' i st hg ht hi hst =>
      cases List.mem_singleton.1 hm
      rcases hst with e | ⟨-, e⟩
      · cases e
      · exact e
    | result r c' he hc hn =>
      have := List.mem_singleton.1 hm
      simp only [Prod.mk.injEq, TaskRes.msg] at this
      cases this.2
    | graph gid g l' ans hg hmu ha he =>
      rcases List.mem_append.1 hm with hm | hm
      · exact absurd rfl ((hmu _ hm).1 t .noWorker)
      · cases ha with
        | none => cases hm
        | success => cases List.mem_singleton.1 hm
        | failed => cases List.mem_singleton.1 hm

/-- Without a limit the scheduler never answers that there is no worker. -/
theorem Reach.noWorker {cfg : Config} {l : Log} {s : Sched} (hr : Reach cfg l s) {c t : Bytes}
    (hm : (c, .taskEcho t .noWorker) ∈ s.out) : 0 ≤ cfg.maxWaiting := by
  have h : Limits s.abs := by
    clear hm
    induction hr with
    | init => exact nofun
    | @step l s s' e hr ha hs ih =>
      have hA : Sched.After (e.hist l) s s' := (step_post hr.good e ha).ok hs
      exact hA.steps.lift (P := Limits) (fun a b st _ hp => st.limits hp) (hr.good.inv.mono (e.hist_mem l)) ih
  have := h c t hm
  have e : s.abs.limited = Config.limited s.cfg := rfl
  rw [e, hr.good.cfg] at this
  exact of_decide_eq_true this

end Verif.Sched
