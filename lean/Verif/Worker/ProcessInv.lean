import Verif.Spec.Process
import Verif.Worker.AgentInv

/-!
# The processors of a worker, and its goodbye
-/

namespace Verif.Worker

open Verif.Wire Verif.Queue Verif.Spec.Worker Agent

theorem alive_snoc (l : Hist) (x : Int × Act) : alive (l ++ [x]) = aliveStep x.2 (alive l) := by
  simp [alive, List.foldl_append]

/-- Neither about processors nor the goodbye. -/
def plain : Act → Bool
  | .started _ => false
  | .killed _ => false
  | .sent (.disconnectRequest _) => false
  | _ => true

/-- Exactly the current processor runs, and there was no goodbye. -/
def Neat (a : Agent) : Prop := alive a.log = a.processor.toList ∧ times isGoodbye a.log = 0

def Tidy (a b : Agent) : Prop := Neat a → Neat b

theorem Tidy.rfl {a : Agent} : Tidy a a := id

theorem Tidy.note {a b : Agent} (h : Tidy a b) (now : Int) {x : Act} (hx : plain x = true) : Tidy a (b.note now x) := by
  intro hn
  obtain ⟨h1, h2⟩ := h hn
  have e1 : aliveStep x (alive b.log) = alive b.log := by cases x <;> first | rfl | cases hx
  have e2 : isGoodbye x = false := by
    cases x with
    | sent m => cases m <;> first | rfl | cases hx
    | _ => rfl
  refine ⟨?_, ?_⟩
  · show alive (b.log ++ _) = _
    rw [alive_snoc, e1]; exact h1
  · show times isGoodbye (b.log ++ _) = _
    rw [times_snoc, h2]; simp [e2]

theorem takeOldest_tidy {n : Nat} : ∀ {a b b' : Agent} {l : List Bytes}, Tidy a b → b.takeOldest n = .ok (l, b') → Tidy a b' := by
  induction n with
  | zero => intro a b b' l h e; cases e; exact h
  | succ n ih =>
    intro a b b' l h e
    simp only [takeOldest, Py.bind_ok] at e
    obtain ⟨⟨t, q⟩, _, ⟨k, ts⟩, _, ⟨l', c⟩, e, e'⟩ := e
    cases e'
    exact ih (a := a) (b := { b with queue := q, tasks := ts }) h e

theorem handOver_tidy {a b b' : Agent} {now : Int} {k : Task} (h : Tidy a b) (e : b.handOver now k = .ok b') : Tidy a b' := by
  simp only [handOver, Py.bind_ok] at e
  obtain ⟨_, _, e⟩ := e
  cases e
  exact Tidy.note (b := { b with task := some k, pos := .idle }) h now (by rfl)

theorem awaitProcessor_tidy {a b b' : Agent} {now : Int} {k : Task} (h : Tidy a b) (e : b.awaitProcessor now k = .ok b') : Tidy a b' := by
  unfold awaitProcessor at e
  split at e
  · exact handOver_tidy h e
  · cases e; exact h

theorem restart_tidy {a b : Agent} {now : Int} (h : Tidy a b) : Tidy a (b.restart now) := by
  intro hn
  obtain ⟨h1, h2⟩ := h hn
  unfold restart startProcessor kill
  split
  · next hp =>
    rw [hp] at h1
    refine ⟨?_, ?_⟩
    · simp [Agent.note, alive_snoc, aliveStep, h1]
    · simp [Agent.note, times_snoc, isGoodbye, h2]
  · next n hp =>
    rw [hp] at h1
    refine ⟨?_, ?_⟩
    · simp [Agent.note, alive_snoc, aliveStep, h1, -List.append_assoc]
    · simp [Agent.note, times_snoc, isGoodbye, h2, -List.append_assoc]

theorem step_tidy {a a' : Agent} {e : Event} (hs : a.step e = .ok a') : Tidy a a' := by
  unfold Agent.step at hs
  split at hs
  · next m he =>
    have hc : ∀ x, plain (.recv x) = true → Tidy a (a.note e.now (.recv x)) := fun x hx => Tidy.rfl.note e.now hx
    cases m with
    | heartbeatEcho =>
      cases hs
      have h := hc .heartbeatEcho (by rfl)
      unfold onEcho
      split
      · exact h
      · exact h
    | task k =>
      simp only [receive, onTaskNew, Py.bind_ok] at hs
      obtain ⟨q, _, hs⟩ := hs
      cases hs
      exact hc (.task k) (by rfl)
    | taskCancel t =>
      have h := hc (.taskCancel t) (by rfl)
      simp only [receive, onCancel] at hs
      split at hs
      · simp only [Py.bind_ok] at hs
        obtain ⟨⟨k, ts⟩, _, q, _, hs⟩ := hs
        cases hs
        exact Tidy.note (b := { (a.note e.now (.recv (.taskCancel t))) with tasks := ts, queue := q }) h e.now (by rfl)
      · simp only [Py.bind_ok] at hs
        obtain ⟨⟨b, c⟩, hb, hs⟩ := hs
        have : Tidy a c := by
          unfold cancelRunning at hb
          split at hb
          · cases hb; exact h
          · simp only [Py.bind_ok] at hb
            obtain ⟨k, _, hb⟩ := hb
            split at hb
            · cases hb; exact h
            · cases hb; exact restart_tidy h
        split at hs
        · cases hs; exact this.note e.now (by rfl)
        · cases hs; exact this.note e.now (by rfl)
    | balanceRequest n =>
      have h := hc (.balanceRequest n) (by rfl)
      simp only [receive, Py.bind_ok, onBalance] at hs
      obtain ⟨⟨l, b⟩, hb, hs⟩ := hs
      cases hs
      split at hb
      · cases hb
      · exact (takeOldest_tidy h hb).note e.now (by rfl)
    | functionRequest ty fid nm c =>
      have h := hc (.functionRequest ty fid nm c) (by rfl)
      simp only [receive, onFunctionRequest] at hs
      split at hs
      · cases hs; exact h.note e.now (by rfl)
      · cases hs
    | functionResponse st fid nm c =>
      have h := hc (.functionResponse st fid nm c) (by rfl)
      simp only [receive, onFunctionResponse] at hs
      split at hs
      · cases hs; exact h
      · simp only [Py.bind_ok] at hs
        obtain ⟨k, _, hs⟩ := hs
        split at hs
        · cases hs; exact h
        split at hs
        · cases hs; exact h
        · cases hs; exact h.note e.now (by rfl)
    | _ => simp only [receive] at hs; cases hs
  · next m he =>
    have hc : ∀ x, Tidy a (a.note e.now (.heard x)) := fun x => Tidy.rfl.note e.now (by rfl)
    cases m with
    | functionRequest ty fid nm c =>
      have h := hc (.functionRequest ty fid nm c)
      simp only [receiveInternal, onInternalFunctionRequest] at hs
      split at hs
      · cases hs; exact h
      split at hs
      · cases hs; exact h
      split at hs
      · cases hs; exact h
      · simp only [Py.bind_ok] at hs
        obtain ⟨_, _, hs⟩ := hs
        cases hs; exact h.note e.now (by rfl)
    | taskResult i st dur r =>
      have h := hc (.taskResult i st dur r)
      simp only [receiveInternal] at hs
      cases hs
      unfold onResult
      split
      · unfold onInitialized
        split
        · exact h
        · simp only
          split
          · exact Tidy.note (b := { (a.note e.now (.heard (.taskResult i st dur r))) with initialized := true, pos := _ }) h e.now (by rfl)
          · exact h
      · split
        · exact h
        · split
          · exact h
          · exact h.note e.now (by rfl)
    | _ => simp only [receiveInternal] at hs; cases hs
  · unfold turn at hs
    split at hs
    · split at hs
      · cases hs; exact Tidy.rfl
      · simp only [Py.bind_ok] at hs
        obtain ⟨⟨t, q⟩, _, ⟨k, ts⟩, _, hs⟩ := hs
        unfold awaitLock at hs
        split at hs
        · cases hs; exact Tidy.rfl
        · exact awaitProcessor_tidy (a := a) (b := { a with queue := q, tasks := ts, locked := true }) Tidy.rfl hs
    · split at hs
      · cases hs; exact Tidy.rfl
      · exact awaitProcessor_tidy (a := a) (b := { a with locked := true }) Tidy.rfl hs
    · split at hs
      · exact handOver_tidy Tidy.rfl hs
      · cases hs; exact Tidy.rfl
  · unfold heartbeat at hs
    split at hs
    · cases hs; exact Tidy.rfl
    split at hs
    · cases hs; exact Tidy.rfl
    · simp only [Py.bind_ok] at hs
      obtain ⟨_, _, hs⟩ := hs
      cases hs
      exact Tidy.rfl.note e.now (by rfl)
  · unfold checkTimeout at hs
    split at hs
    · cases hs; exact Tidy.rfl
    · cases hs

theorem Reach.neat {d start : Int} {a : Agent} (h : Reach d start a) : Neat a := by
  induction h with
  | init => exact ⟨rfl, rfl⟩
  | step e _ hs ih => exact step_tidy hs ih

end Verif.Worker
