import Verif.Worker.AgentFlow
import Verif.Props.Wire

/-!
# Everything a worker sends has a wire form

Lemmas.  Figures are packed before a heartbeat is sent, and a balance response holds no more tasks than were asked for.
-/

namespace Verif.Worker

open Verif.Wire Verif.Spec Agent

/-- What one event makes the agent send. -/
def Out (e : Agent.Event) (m : Message) : Prop :=
  sendable m ∨ ∃ l n, m = .balanceResponse l ∧ e.op = .recv (.balanceRequest n) ∧ l.length ≤ n.toNat

/-- Entries are added that are not sent or may be sent. -/
def Said (e : Agent.Event) (l l' : List (Int × Act)) : Prop := ∀ y ∈ l', y ∈ l ∨ ∀ m, y.2 = .sent m → Out e m

variable {e : Agent.Event} {a a' : Agent}

theorem Said.rfl {l : List (Int × Act)} : Said e l l := fun _ => .inl

theorem Said.trans {l l' l'' : List (Int × Act)} (h : Said e l l') (h' : Said e l' l'') : Said e l l'' := fun y hy => by
  rcases h' y hy with hy | hy
  · exact h y hy
  · exact .inr hy

theorem Said.one {l : List (Int × Act)} {now : Int} {x : Act} (h : ∀ m, x = .sent m → Out e m) : Said e l (l ++ [(now, x)]) := fun y hy => by
  rcases List.mem_append.1 hy with hy | hy
  · exact .inl hy
  · rw [List.mem_singleton.1 hy]; exact .inr h

theorem Said.send {l : List (Int × Act)} {now : Int} {m : Message} (h : sendable m) : Said e l (l ++ [(now, .sent m)]) :=
  .one fun m' e' => by cases e'; exact .inl h

theorem takeOldest_said : ∀ {n : Nat} {a a' : Agent} {l : List Bytes}, a.takeOldest n = .ok (l, a') → l.length = n ∧ a'.log = a.log
  | 0, a, a', l, h => by cases h; exact ⟨rfl, rfl⟩
  | n + 1, a, a', l, h => by
    simp only [takeOldest, Py.bind_ok] at h
    obtain ⟨⟨t, q⟩, -, ⟨k, ts⟩, -, ⟨l', a1⟩, h1, h⟩ := h
    cases h
    obtain ⟨h2, h3⟩ := takeOldest_said h1
    exact ⟨by simp [h2], h3⟩

theorem handOver_said {now : Int} {k : Task} (h : a.handOver now k = .ok a') : Said e a.log a'.log := by
  simp only [handOver, Py.bind_ok] at h
  obtain ⟨_, -, h⟩ := h
  cases h
  exact .one nofun

theorem awaitProcessor_said {now : Int} {k : Task} (h : a.awaitProcessor now k = .ok a') : Said e a.log a'.log := by
  unfold awaitProcessor at h
  split at h
  · exact handOver_said h
  · cases h; exact .rfl

theorem step_said (h : a.step e = .ok a') : Said e a.log a'.log := by
  obtain ⟨op, now⟩ := e
  cases op with
  | recv m =>
    simp only [Agent.step] at h
    have hn : Said ⟨.recv m, now⟩ a.log (a.note now (.recv m)).log := .one nofun
    cases m with
    | heartbeatEcho =>
      simp only [receive, onEcho] at h
      split at h <;> cases h <;> exact hn
    | task t =>
      simp only [receive, onTaskNew, Py.bind_ok] at h
      obtain ⟨q, -, h⟩ := h
      cases h; exact hn
    | taskCancel tid =>
      refine hn.trans ?_
      simp only [receive] at h
      generalize a.note now (.recv (.taskCancel tid)) = b at h
      unfold onCancel at h
      split at h
      · simp only [Py.bind_ok] at h
        obtain ⟨⟨_, _⟩, -, _, -, h⟩ := h
        cases h; exact .send trivial
      · rw [Py.bind_ok] at h
        obtain ⟨⟨r, a1⟩, h1, h⟩ := h
        have key : Said ⟨.recv (.taskCancel tid), now⟩ b.log a1.log := by
          unfold cancelRunning at h1
          split at h1
          · cases h1; exact .rfl
          · rw [Py.bind_ok] at h1
            obtain ⟨t, -, h1⟩ := h1
            split at h1
            · cases h1; exact .rfl
            · cases h1
              show Said _ b.log (b.restart now).log
              simp only [restart, startProcessor, kill, note]
              split
              · exact .one nofun
              · exact Said.trans (.one (by intro m e'; cases e')) (.one (by intro m e'; cases e'))
        refine key.trans ?_
        simp only at h
        split at h <;> cases h <;> exact .send trivial
    | balanceRequest n =>
      simp only [receive, onBalance, Py.bind_ok] at h
      obtain ⟨⟨l, a1⟩, h1, h⟩ := h
      cases h
      split at h1
      · cases h1
      · obtain ⟨h3, h4⟩ := takeOldest_said h1
        refine hn.trans ?_
        rw [← h4]
        exact .one fun m e' => by cases e'; exact .inr ⟨l, n, rfl, rfl, by omega⟩
    | functionRequest ty fid nm c =>
      simp only [receive, onFunctionRequest] at h
      split at h
      · cases h; exact hn.trans (.one nofun)
      · cases h
    | functionResponse st fid nm c =>
      simp only [receive, onFunctionResponse] at h
      split at h
      · cases h; exact hn
      · rw [Py.bind_ok] at h
        obtain ⟨t, -, h⟩ := h
        split at h
        · cases h; exact hn
        · split at h
          · cases h; exact hn
          · cases h; exact hn.trans (.one nofun)
    | _ => cases h
  | heard m =>
    simp only [Agent.step] at h
    have hn : Said ⟨.heard m, now⟩ a.log (a.note now (.heard m)).log := .one nofun
    cases m with
    | functionRequest ty fid nm c =>
      simp only [receiveInternal, onInternalFunctionRequest] at h
      split at h
      · cases h; exact hn
      · split at h
        · cases h; exact hn
        · split at h
          · cases h; exact hn
          · rw [Py.bind_ok] at h
            obtain ⟨_, -, h⟩ := h
            cases h; exact hn.trans (.send trivial)
    | taskResult i st d r =>
      simp only [receiveInternal, Except.ok.injEq] at h
      subst h
      refine hn.trans ?_
      generalize a.note now (.heard (.taskResult i st d r)) = b
      unfold onResult
      split
      · unfold onInitialized
        split
        · exact .rfl
        · simp only
          split
          · exact .one nofun
          · exact .rfl
      · split
        · exact .rfl
        · split
          · exact .rfl
          · exact .send trivial
    | _ => cases h
  | turn =>
    simp only [Agent.step, turn] at h
    split at h
    · split at h
      · cases h; exact .rfl
      · simp only [Py.bind_ok] at h
        obtain ⟨⟨t, q⟩, -, ⟨k, ts⟩, -, h⟩ := h
        simp only at h
        unfold awaitLock at h
        split at h
        · cases h; exact .rfl
        · exact awaitProcessor_said (a := { a with queue := q, tasks := ts, locked := true }) h
    · split at h
      · cases h; exact .rfl
      · exact awaitProcessor_said (a := { a with locked := true }) h
    · split at h
      · exact handOver_said h
      · cases h; exact .rfl
  | heartbeat f =>
    simp only [Agent.step, heartbeat] at h
    split at h
    · cases h; exact .rfl
    · split at h
      · cases h; exact .rfl
      · rw [Py.bind_ok] at h
        obtain ⟨fs, h1, h⟩ := h
        cases h
        exact .send ((Props.C03_sendable (.heartbeat (a.heartbeatMsg f))).1 ⟨_, by simp only [encode, Message.serialize, h1]; rfl⟩)
  | check =>
    simp only [Agent.step, checkTimeout] at h
    split at h
    · cases h; exact .rfl
    · cases h

end Verif.Worker
