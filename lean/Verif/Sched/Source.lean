import Verif.Props.Functions
import Verif.Sched.Emit

/-!
# Where the content of a function response comes from
-/

namespace Verif.Sched

open Verif.Wire Verif.Spec Verif.Props

/-- The function was sent to the scheduler under this id, alone or with a graph. -/
def Given (l : Log) (f content : Bytes) : Prop :=
  ∃ c, (∃ nm, (c, .functionRequest .add f nm content) ∈ l) ∨
    ∃ gt nm, (c, .graphTask gt) ∈ l ∧ gt.functions.get? f = some (nm, content)

theorem Given.mono {l l' : Log} {f c : Bytes} (h : Given l f c) : Given (l ++ l') f c := by
  obtain ⟨x, ⟨nm, h⟩ | ⟨gt, nm, h, h2⟩⟩ := h
  · exact ⟨x, .inl ⟨nm, List.mem_append_left _ h⟩⟩
  · exact ⟨x, .inr ⟨gt, nm, List.mem_append_left _ h, h2⟩⟩

theorem mem_input {e : Event} {x : Bytes} {m : Message} (h : e.op = .recv x m) : (x, m) ∈ e.input := by
  obtain ⟨op, now, o⟩ := e
  cases h
  simp [Event.input]

/-- A registered function was given. -/
theorem Reach.given {cfg : Config} {l : Log} {s : Sched} (hr : Reach cfg l s) {f : Bytes} {i : FuncInfo}
    (hi : functionOf s f = some i) : Given l f i.content := by
  induction hr generalizing i with
  | init => cases hi
  | @step l s s' e hr ha hs ih =>
    rcases function_step hr hs hi with ⟨j, h1, -, h3⟩ | ⟨-, ⟨c, h⟩ | ⟨-, c, gt, h1, h2⟩⟩
    · rw [h3]; exact (ih h1).mono
    · exact ⟨c, .inl ⟨_, List.mem_append_right _ (mem_input h)⟩⟩
    · exact ⟨c, .inr ⟨gt, _, List.mem_append_left _ h1, h2⟩⟩

/-- Where a function response comes from: it says that the function is unknown, or has the content that was given for
it, or answers a request to add or delete, or a graph. -/
theorem Reach.response {cfg : Config} {l : Log} {s : Sched} (hr : Reach cfg l s) {x : Bytes} {st : FunctionResponseType}
    {f nm c : Bytes} (h : (x, .functionResponse st f nm c) ∈ s.out) :
    st = .notExists ∨ Given l f c ∨ (∃ ty nm c, ty ≠ .request ∧ (x, .functionRequest ty f nm c) ∈ l) ∨
      ∃ gt, (x, .graphTask gt) ∈ l := by
  induction hr with
  | init => cases h
  | @step l s s' e hr ha hs ih =>
    obtain ⟨ms, ho, hq⟩ := Py.Post.ok (step_emits s e) hs
    rw [ho] at h
    rcases List.mem_append.1 h with h | h
    · rcases ih h with h | h | ⟨ty, nm, c, h1, h2⟩ | ⟨gt, h⟩
      · exact .inl h
      · exact .inr (.inl h.mono)
      · exact .inr (.inr (.inl ⟨ty, nm, c, h1, List.mem_append_left _ h2⟩))
      · exact .inr (.inr (.inr ⟨gt, List.mem_append_left _ h⟩))
    · rcases hq _ h with ⟨ty, nm', c', h2, -, h3⟩ | ⟨gt, rest, -, h2, -⟩
      · by_cases h1 : ty = .request
        · rcases h3 h1 with h | ⟨i, h1, -, rfl⟩
          · exact .inl h
          · exact .inr (.inl (hr.given h1).mono)
        · exact .inr (.inr (.inl ⟨ty, nm', c', h1, List.mem_append_right _ (mem_input h2)⟩))
      · refine .inr (.inr (.inr ⟨gt, List.mem_append_left _ ?_⟩))
        exact (hr.good.inv.queue x gt (by rw [show s.abs.queue = _ from h2]; exact List.mem_cons_self)).1

/-- Which answers a peer gets about functions, and which echoes are sent. -/
theorem Reach.statuses {cfg : Config} {l : Log} {s : Sched} (hr : Reach cfg l s) {x : Bytes} {m : Message} (h : (x, m) ∈ s.out) :
    (∀ st f nm c, m = .functionResponse st f nm c → st = .ok ∨ st = .duplicated ∨
      ∃ ty nm c, ty ≠ .add ∧ (x, .functionRequest ty f nm c) ∈ l ∧ Matches ty st) ∧
    (∀ t st, m = .taskEcho t st → st = .submitOK ∨ st = .functionNotExists ∨ st = .noWorker) := by
  induction hr with
  | init => cases h
  | @step l s s' e hr ha hs ih =>
    obtain ⟨ms, ho, hq⟩ := Py.Post.ok (step_emits s e) hs
    rw [ho] at h
    rcases List.mem_append.1 h with h | h
    · obtain ⟨h1, h2⟩ := ih h
      refine ⟨fun st f nm c hm => ?_, h2⟩
      rcases h1 st f nm c hm with h | h | ⟨ty, nm, c, h3, h4, h5⟩
      · exact .inl h
      · exact .inr (.inl h)
      · exact .inr (.inr ⟨ty, nm, c, h3, List.mem_append_left _ h4, h5⟩)
    · have h1 := hq _ h
      refine ⟨?_, ?_⟩
      · rintro st f nm c rfl
        rcases h1 with ⟨ty, nm', c', h2, h3, -⟩ | ⟨gt, rest, -, -, h3⟩
        · by_cases hty : ty = .add
          · subst hty
            rcases h3 with h3 | h3
            · exact .inl h3
            · exact .inr (.inl h3)
          · exact .inr (.inr ⟨ty, nm', c', hty, List.mem_append_right _ (mem_input h2), h3⟩)
        · rcases h3 with h3 | h3
          · exact .inl h3
          · exact .inr (.inl h3)
      · rintro t st rfl
        exact h1

end Verif.Sched
