import Verif.Worker.AgentFlow

/-!
# The times in an agent's log
-/

namespace Verif.Worker

open Verif.Wire

/-- What was noted from `a` to `a'` was noted now. -/
def Stamped (now : Int) (a a' : Agent) : Prop := ∃ ys, a'.log = a.log ++ ys ∧ ∀ y ∈ ys, y.1 = now

theorem Stamped.same {now : Int} {a a' : Agent} (h : a'.log = a.log) : Stamped now a a' := ⟨[], by simp [h], by simp⟩

theorem Stamped.one {now : Int} {a a' : Agent} {x : Act} (h : a'.log = a.log ++ [(now, x)]) : Stamped now a a' :=
  ⟨_, h, fun y hy => by rw [List.mem_singleton.1 hy]⟩

theorem Stamped.trans {now : Int} {a b c : Agent} (h : Stamped now a b) (h' : Stamped now b c) : Stamped now a c := by
  obtain ⟨ys, h1, h2⟩ := h
  obtain ⟨zs, h3, h4⟩ := h'
  refine ⟨ys ++ zs, by rw [h3, h1, List.append_assoc], fun y hy => ?_⟩
  rcases List.mem_append.1 hy with hy | hy
  · exact h2 y hy
  · exact h4 y hy

theorem restart_stamped (a : Agent) (now : Int) : Stamped now a (a.restart now) := by
  refine Stamped.trans (b := a.kill now) ?_ (.one rfl)
  unfold Agent.kill
  split
  · exact .same rfl
  · exact .one rfl

theorem handOver_stamped {a a' : Agent} {now : Int} {t : Task} (h : a.handOver now t = .ok a') : Stamped now a a' := by
  unfold Agent.handOver at h
  obtain ⟨-, -, h⟩ := Py.bind_ok.1 h
  cases h
  exact .one rfl

theorem awaitProcessor_stamped {a a' : Agent} {now : Int} {t : Task} (h : a.awaitProcessor now t = .ok a') : Stamped now a a' := by
  unfold Agent.awaitProcessor at h
  split at h
  · exact handOver_stamped h
  · cases h; exact .same rfl

theorem takeOldest_log {n : Nat} : ∀ {a a' : Agent} {l : List Bytes}, a.takeOldest n = .ok (l, a') → a'.log = a.log := by
  induction n with
  | zero => intro a a' l h; cases h; rfl
  | succ n ih =>
    intro a a' l h
    unfold Agent.takeOldest at h
    obtain ⟨⟨t, q⟩, -, h⟩ := Py.bind_ok.1 h
    obtain ⟨⟨k, ts⟩, -, h⟩ := Py.bind_ok.1 h
    obtain ⟨⟨l', b⟩, h1, h⟩ := Py.bind_ok.1 h
    cases h
    have := ih h1
    exact this

/-- What an event notes, it notes with its time. -/
theorem step_stamped {a a' : Agent} {e : Agent.Event} (h : a.step e = .ok a') : Stamped e.now a a' := by
  obtain ⟨op, now⟩ := e
  cases op with
  | recv m =>
    refine Stamped.trans (b := a.note now (.recv m)) (.one rfl) ?_
    unfold Agent.step at h
    dsimp only at h
    generalize a.note now (.recv m) = a at h
    unfold Agent.receive at h
    split at h
    · cases h
      unfold Agent.onEcho
      split
      · exact .same rfl
      · exact .same rfl
    · unfold Agent.onTaskNew at h
      obtain ⟨q, -, h⟩ := Py.bind_ok.1 h
      cases h
      exact .same rfl
    · unfold Agent.onCancel at h
      split at h
      · obtain ⟨⟨t, q⟩, -, h⟩ := Py.bind_ok.1 h
        obtain ⟨q', -, h⟩ := Py.bind_ok.1 h
        cases h
        exact .one rfl
      · obtain ⟨⟨b, c⟩, h1, h⟩ := Py.bind_ok.1 h
        refine Stamped.trans (b := c) ?_ ?_
        · unfold Agent.cancelRunning at h1
          split at h1
          · cases h1; exact .same rfl
          · obtain ⟨t, -, h1⟩ := Py.bind_ok.1 h1
            split at h1
            · cases h1; exact .same rfl
            · cases h1
              exact (restart_stamped a now).trans (.same rfl)
        · dsimp only at h
          split at h
          · cases h; exact .one rfl
          · cases h; exact .one rfl
    · obtain ⟨⟨l, c⟩, h1, h⟩ := Py.bind_ok.1 h
      cases h
      refine Stamped.trans (b := c) ?_ (.one rfl)
      unfold Agent.onBalance at h1
      dsimp only at h1
      split at h1
      · cases h1
      · exact .same (takeOldest_log h1)
    · unfold Agent.onFunctionRequest at h
      split at h
      · cases h; exact .one rfl
      · cases h
    · unfold Agent.onFunctionResponse at h
      split at h
      · cases h; exact .same rfl
      · obtain ⟨t, -, h⟩ := Py.bind_ok.1 h
        split at h
        · cases h; exact .same rfl
        · split at h
          · cases h; exact .same rfl
          · cases h; exact .one rfl
    · cases h
  | heard m =>
    refine Stamped.trans (b := a.note now (.heard m)) (.one rfl) ?_
    unfold Agent.step at h
    dsimp only at h
    generalize a.note now (.heard m) = a at h
    unfold Agent.receiveInternal at h
    split at h
    · unfold Agent.onInternalFunctionRequest at h
      split at h
      · cases h; exact .same rfl
      · split at h
        · cases h; exact .same rfl
        · split at h
          · cases h; exact .same rfl
          · obtain ⟨-, -, h⟩ := Py.bind_ok.1 h
            cases h
            exact .one rfl
    · cases h
      unfold Agent.onResult
      split
      · unfold Agent.onInitialized
        split
        · exact .same rfl
        · dsimp only
          split
          · exact .one rfl
          · exact .same rfl
      · split
        · exact .same rfl
        · split
          · exact .same rfl
          · exact .one rfl
    · cases h
  | turn =>
    unfold Agent.step at h
    dsimp only at h
    unfold Agent.turn at h
    split at h
    · split at h
      · cases h; exact .same rfl
      · obtain ⟨⟨t, q⟩, -, h⟩ := Py.bind_ok.1 h
        obtain ⟨⟨k, ts⟩, -, h⟩ := Py.bind_ok.1 h
        dsimp only at h
        unfold Agent.awaitLock at h
        split at h
        · cases h; exact .same rfl
        · have := awaitProcessor_stamped h; exact this
    · split at h
      · cases h; exact .same rfl
      · have := awaitProcessor_stamped h; exact this
    · split at h
      · exact handOver_stamped h
      · cases h; exact .same rfl
  | heartbeat f =>
    unfold Agent.step at h
    dsimp only at h
    unfold Agent.heartbeat at h
    split at h
    · cases h; exact .same rfl
    · split at h
      · cases h; exact .same rfl
      · obtain ⟨-, -, h⟩ := Py.bind_ok.1 h
        cases h
        exact .one rfl
  | check =>
    unfold Agent.step at h
    dsimp only at h
    unfold Agent.checkTimeout at h
    split at h
    · cases h; exact .same rfl
    · cases h

end Verif.Worker
