import Verif.Cluster.Combo
import Verif.Props.Cluster
import Verif.Props.SchedProcess

/-!
# C82: the end of scheduler and workers that were started together
-/

namespace Verif.Props

open Verif.Cluster Verif.Sched Verif.Spec

/-- The process has ended. -/
def Gone : Handle Life → Prop
  | .killed => True
  | .up p => ∃ x, p.stage = .ended x
  | _ => False

/-- What the processes of a combination can look like: both were started, or what `__init__` left. -/
structure ComboInv (k : Nat) (c : Combo) : Prop where
  cluster : match k with
    | 0 => c.cluster = .missing
    | 1 => c.cluster = .created
    | 2 => c.cluster = .created
    | _ => c.cluster ≠ .missing ∧ c.cluster ≠ .created ∧ ∀ m, c.cluster = .up m → ∃ n ops, (Master.init n).run ops = m
  scheduler : match k with
    | 0 => c.scheduler = .missing
    | 1 => c.scheduler = .missing
    | 2 => c.scheduler = .created
    | 3 => c.scheduler = .created
    | _ => c.scheduler ≠ .missing ∧ c.scheduler ≠ .created ∧ ∀ p, c.scheduler = .up p → ∃ cfg ops, Lived cfg .process ops p

theorem master_snoc {m : Master} (h : ∃ n ops, (Master.init n).run ops = m) (op : Cluster.Op) : ∃ n ops, (Master.init n).run ops = m.apply op := by
  obtain ⟨n, ops, rfl⟩ := h
  exact ⟨n, ops ++ [op], by simp [Master.run]⟩

theorem life_snoc {p : Life} (h : ∃ cfg ops, Lived cfg .process ops p) (op : LifeOp) : ∃ cfg ops, Lived cfg .process ops (p.step .process op) := by
  obtain ⟨cfg, ops, h⟩ := h
  exact ⟨cfg, ops ++ [op], lived_append h⟩

theorem combo_inv (k : Nat) (hk : k ≤ 4) (ops : List ComboOp) : ComboInv k ((Combo.built k).run ops) := by
  induction ops using snoc_induction with
  | h0 =>
    match k, hk with
    | 0, _ => exact ⟨rfl, rfl⟩
    | 1, _ => exact ⟨rfl, rfl⟩
    | 2, _ => exact ⟨rfl, rfl⟩
    | 3, _ => exact ⟨⟨by simp [Combo.run, Combo.built], by simp [Combo.run, Combo.built], by simp [Combo.run, Combo.built]⟩, rfl⟩
    | 4, _ => exact ⟨⟨by simp [Combo.run, Combo.built], by simp [Combo.run, Combo.built], by simp [Combo.run, Combo.built]⟩,
        ⟨by simp [Combo.run, Combo.built], by simp [Combo.run, Combo.built], by simp [Combo.run, Combo.built]⟩⟩
  | h1 ops op ih =>
    have hs : (Combo.built k).run (ops ++ [op]) = ((Combo.built k).run ops).step op := by simp [Combo.run]
    rw [hs]
    generalize (Combo.built k).run ops = c at ih
    obtain ⟨cl, sc⟩ := c
    have hcl : ∀ cl', (cl' = cl ∨ (cl = .booting ∧ (cl' = .killed ∨ ∃ n, cl' = .up (Master.init n))) ∨
        ∃ m op, cl = .up m ∧ cl' = .up (m.apply op)) → ∀ sc', (sc' = sc ∨ (sc = .booting ∧ (sc' = .killed ∨ ∃ cfg, sc' = .up (Life.init cfg))) ∨
        ∃ p op, sc = .up p ∧ sc' = .up (p.step .process op)) → ComboInv k ⟨cl', sc'⟩ := by
      intro cl' h1 sc' h2
      obtain ⟨i1, i2⟩ := ih
      match k, hk with
      | 0, _ =>
        dsimp only at i1 i2; subst i1 i2
        simp at h1 h2; subst h1 h2; exact ⟨rfl, rfl⟩
      | 1, _ =>
        dsimp only at i1 i2; subst i1 i2
        simp at h1 h2; subst h1 h2; exact ⟨rfl, rfl⟩
      | 2, _ =>
        dsimp only at i1 i2; subst i1 i2
        simp at h1 h2; subst h1 h2; exact ⟨rfl, rfl⟩
      | 3, _ =>
        have i3 : sc = .created := i2
        rw [i3] at h2
        simp at h2; subst h2
        refine ⟨?_, rfl⟩
        rcases h1 with h1 | ⟨_, h1 | ⟨n, h1⟩⟩ | ⟨m, op, e1, h1⟩ <;> subst h1
        · exact i1
        · simp
        · exact ⟨by simp, by simp, fun m hm => by cases hm; exact ⟨n, [], rfl⟩⟩
        · exact ⟨by simp, by simp, fun m' hm => by cases hm; exact master_snoc (i1.2.2 m e1) op⟩
      | 4, _ =>
        refine ⟨?_, ?_⟩
        · rcases h1 with h1 | ⟨_, h1 | ⟨n, h1⟩⟩ | ⟨m, op, e1, h1⟩ <;> subst h1
          · exact i1
          · simp
          · exact ⟨by simp, by simp, fun m hm => by cases hm; exact ⟨n, [], rfl⟩⟩
          · exact ⟨by simp, by simp, fun m' hm => by cases hm; exact master_snoc (i1.2.2 m e1) op⟩
        · rcases h2 with h2 | ⟨_, h2 | ⟨cfg, h2⟩⟩ | ⟨p, op, e2, h2⟩ <;> subst h2
          · exact i2
          · simp
          · exact ⟨by simp, by simp, fun m hm => by cases hm; exact ⟨cfg, [], rfl⟩⟩
          · exact ⟨by simp, by simp, fun m' hm => by cases hm; exact life_snoc (i2.2.2 p e2) op⟩
    cases op with
    | clusterUp n =>
      cases cl with
      | booting => exact hcl _ (Or.inr (Or.inl ⟨rfl, Or.inr ⟨n, rfl⟩⟩)) _ (by simp)
      | _ => exact hcl _ (by simp) _ (by simp)
    | schedulerUp cfg =>
      cases sc with
      | booting => exact hcl _ (by simp) _ (Or.inr (Or.inl ⟨rfl, Or.inr ⟨cfg, rfl⟩⟩))
      | _ => exact hcl _ (by simp) _ (by simp)
    | cluster op =>
      cases cl with
      | up m => exact hcl _ (Or.inr (Or.inr ⟨m, op, rfl, rfl⟩)) _ (by simp)
      | _ => exact hcl _ (by simp) _ (by simp)
    | scheduler op =>
      cases sc with
      | up m => exact hcl _ (by simp) _ (Or.inr (Or.inr ⟨m, op, rfl, rfl⟩))
      | _ => exact hcl _ (by simp) _ (by simp)
    | shutdown =>
      cases cl with
      | missing => exact hcl _ (by simp) _ (by simp)
      | created => exact hcl _ (by simp) _ (by simp)
      | booting => cases sc with
        | up p => exact hcl _ (by simp) _ (Or.inr (Or.inr ⟨p, .signal .term, rfl, rfl⟩))
        | _ => exact hcl _ (by simp) _ (by simp)
      | up m => cases sc with
        | up p => exact hcl _ (Or.inr (Or.inr ⟨m, .signal .term, rfl, rfl⟩)) _ (Or.inr (Or.inr ⟨p, .signal .term, rfl, rfl⟩))
        | _ => exact hcl _ (Or.inr (Or.inr ⟨m, .signal .term, rfl, rfl⟩)) _ (by simp)
      | killed => cases sc with
        | up p => exact hcl _ (by simp) _ (Or.inr (Or.inr ⟨p, .signal .term, rfl, rfl⟩))
        | _ => exact hcl _ (by simp) _ (by simp)

/-- **C82, partial.** When `__init__` has come to its end, `shutdown` never raises, however often it is called
and whatever has happened to the processes.  After it the scheduler has ended, and does nothing more.  If the
process of the workers was not ready it has ended too; if all its workers are started and it has not waited
for one yet, each running worker is interrupted.

Full statement: after `shutdown` all running workers have been interrupted.  Missing: the other moments, for
which it is false (`C82_early`, `C82_one_worker` and C75). -/
theorem C82_shutdown_partial (ops : List ComboOp) (c : Combo) (h : (Combo.built 4).run ops = c) :
    c.shutdown.2 = none ∧ Gone c.shutdown.1.scheduler ∧
    (∀ op p, c.shutdown.1.scheduler = .up p → p.step .process op = p) ∧
    (c.cluster = .booting → c.shutdown.1.cluster = .killed) ∧
    (∀ m, c.cluster = .up m → Up m → ∃ m', c.shutdown.1.cluster = .up m' ∧ Obeyed m m') := by
  have hi := combo_inv 4 (by decide) ops
  rw [h] at hi
  obtain ⟨⟨h1, h2, h3⟩, ⟨h4, h5, h6⟩⟩ := hi
  obtain ⟨cl, sc⟩ := c
  simp only at h1 h2 h3 h4 h5 h6
  have hterm : ∀ p : Life, ∃ x, (p.signal .process .term).stage = .ended x := by
    intro p
    cases hst : p.stage with
    | ended x => exact ⟨x, by simp [Life.signal, hst]⟩
    | _ => exact ⟨.terminated, by simp [Life.signal, hst]⟩
  have hobey : ∀ m, cl = .up m → Up m → Obeyed m (m.signal .term) := by
    intro m hm hu
    obtain ⟨n, ops', hr⟩ := h3 m hm
    exact C75_obeyed_partial n ops' m hr hu .term
  cases cl with
  | missing => exact absurd rfl h1
  | created => exact absurd rfl h2
  | booting =>
    cases sc with
    | missing => exact absurd rfl h4
    | created => exact absurd rfl h5
    | booting => simp [Combo.shutdown, Handle.terminate, Gone]
    | killed => simp [Combo.shutdown, Handle.terminate, Gone]
    | up p =>
      refine ⟨rfl, hterm p, ?_, fun _ => rfl, by simp⟩
      intro op q hq; cases hq
      obtain ⟨x, hx⟩ := hterm p
      exact run_ended hx [op]
  | up m =>
    cases sc with
    | missing => exact absurd rfl h4
    | created => exact absurd rfl h5
    | booting => exact ⟨rfl, trivial, (by intro op q hq; cases hq), (by simp), fun m' hm hu => by cases hm; exact ⟨_, rfl, hobey m rfl hu⟩⟩
    | killed => exact ⟨rfl, trivial, (by intro op q hq; cases hq), (by simp), fun m' hm hu => by cases hm; exact ⟨_, rfl, hobey m rfl hu⟩⟩
    | up p =>
      refine ⟨rfl, hterm p, ?_, by simp, fun m' hm hu => by cases hm; exact ⟨_, rfl, hobey m rfl hu⟩⟩
      intro op q hq; cases hq
      obtain ⟨x, hx⟩ := hterm p
      exact run_ended hx [op]
  | killed =>
    cases sc with
    | missing => exact absurd rfl h4
    | created => exact absurd rfl h5
    | booting => simp [Combo.shutdown, Handle.terminate, Gone]
    | killed => simp [Combo.shutdown, Handle.terminate, Gone]
    | up p =>
      refine ⟨rfl, hterm p, ?_, by simp, by simp⟩
      intro op q hq; cases hq
      obtain ⟨x, hx⟩ := hterm p
      exact run_ended hx [op]

/-- When `__init__` did not come to its end, `shutdown` (and with it `__del__`) raises `AttributeError`; a
cluster that was started before gets its signal nevertheless. -/
theorem C82_failed_init (k : Nat) (hk : k < 4) (ops : List ComboOp) (c : Combo) (h : (Combo.built k).run ops = c) :
    c.shutdown.2 = some .attributeError ∧ (c.cluster = .booting → c.shutdown.1.cluster = .killed) ∧
    ∀ m, c.cluster = .up m → c.shutdown.1.cluster = .up (m.signal .term) := by
  have hi := combo_inv k (by omega) ops
  rw [h] at hi
  obtain ⟨h1, h2⟩ := hi
  obtain ⟨cl, sc⟩ := c
  match k, hk with
  | 0, _ => dsimp only at h1 h2; subst h1 h2; simp [Combo.shutdown, Handle.terminate]
  | 1, _ => dsimp only at h1 h2; subst h1 h2; simp [Combo.shutdown, Handle.terminate]
  | 2, _ => dsimp only at h1 h2; subst h1 h2; simp [Combo.shutdown, Handle.terminate]
  | 3, _ =>
    dsimp only at h1 h2; subst h2
    cases cl with
    | missing => exact absurd rfl h1.1
    | created => exact absurd rfl h1.2.1
    | _ => simp [Combo.shutdown, Handle.terminate]

/-- What is left of the workers after a run: how they are, and what was done to them. -/
def workersOf (c : Combo) : Option (Phase × List Child × List Act) :=
  match c.cluster with
  | .up m => some (m.phase, m.workers, m.log)
  | _ => none

/-- **C82 is false of the code:** a `shutdown` that comes when the cluster has just begun is lost; the scheduler
has ended and the workers are started afterwards. -/
theorem C82_early : workersOf ((Combo.built 4).run [.clusterUp 2, .shutdown, .cluster .step, .cluster .step, .cluster .step, .cluster .step]) =
    some (.joining 0, [.running, .running], [.start 0, .start 1]) := by decide

/-- **C82 is false of the code:** with one worker the signal makes the process of the worker fail. -/
theorem C82_one_worker : workersOf ((Combo.built 4).run [.clusterUp 1, .cluster .step, .cluster .step, .shutdown]) =
    some (.raised .typeError, [.created], []) := by decide

/-- Three workers that run are interrupted, and a second `shutdown` interrupts them again. -/
example : workersOf ((Combo.built 4).run ([.clusterUp 3, .schedulerUp cfg0] ++ List.replicate 5 (.cluster .step) ++ [.shutdown, .shutdown])) =
    some (.joining 0, [.running, .running, .running], [.start 0, .start 1, .start 2] ++ interrupts 3 ++ interrupts 3) := by decide

end Verif.Props
