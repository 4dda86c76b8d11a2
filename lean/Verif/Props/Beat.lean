import Verif.Props.Agent

/-!
# C69: what a heartbeat says
-/

namespace Verif.Props

open Verif.Queue Verif.Wire Verif.Worker Verif.Worker.Agent Verif.Spec.Worker

def delays (l : Hist) : Option Int × Int := l.foldl (fun p x => delayStep x.1 x.2 p) (none, 0)

theorem delays_snoc (l : Hist) (now : Int) (x : Act) : delays (l ++ [(now, x)]) = delayStep now x (delays l) := by
  simp [delays, List.foldl_append]

theorem delays_quiet {l l' : Hist} (h : ∀ x ∈ l', quiet x.2 = true) : delays (l ++ l') = delays l := by
  induction l' generalizing l with
  | nil => simp
  | cons x l' ih =>
    rw [show l ++ x :: l' = (l ++ [x]) ++ l' by simp, ih (fun y hy => h y (List.mem_cons_of_mem _ hy))]
    obtain ⟨now, x⟩ := x
    rw [delays_snoc]
    have := h (now, x) List.mem_cons_self
    unfold delayStep
    split <;> simp_all [quiet]

theorem delay_inv {d start : Int} {a : Agent} (hr : Worker.Reach d start a) (hc : Clock a.log) :
    delays a.log = (if a.beatAt = 0 then none else some a.beatAt, a.latency) := by
  induction hr with
  | init => rfl
  | @step a a' e hr hs ih =>
    have f := step_fine hr.good hs
    obtain ⟨l, hl⟩ := f.ext
    have hc0 : Clock a.log := fun x hx => hc x (by rw [hl]; exact List.mem_append_left _ hx)
    have ih := ih hc0
    by_cases hbeat : ∃ f, e.op = .heartbeat f
    · obtain ⟨fg, hop⟩ := hbeat
      simp only [Agent.step, hop, heartbeat] at hs
      split at hs
      · cases hs; exact ih
      split at hs
      · cases hs; exact ih
      · next hz =>
        simp only [Py.bind_ok] at hs
        obtain ⟨_, _, hs⟩ := hs
        cases hs
        have hnow : e.now ≠ 0 := hc (e.now, .sent (.heartbeat (a.heartbeatMsg fg))) (by simp [Agent.send, Agent.note])
        simp only [Agent.send, Agent.note, delays_snoc, ih, delayStep, hnow, if_false]
    · by_cases hecho : e.op = .recv .heartbeatEcho
      · simp only [Agent.step, hecho, receive] at hs
        cases hs
        unfold onEcho
        split
        · next hz =>
          have hz : a.beatAt = 0 := hz
          simp only [Agent.note, delays_snoc, ih, delayStep, hz, if_true]
        · next hz =>
          have hz : ¬ a.beatAt = 0 := hz
          simp only [Agent.note, delays_snoc, ih, delayStep, hz, if_true, if_false]
          rw [Int.ediv_ediv_of_nonneg (by omega)]
          rfl
      · obtain ⟨h1, h2, h3, l, h4, h5⟩ := step_calm hs (fun f h => hbeat ⟨f, h⟩) hecho
        rw [h1, h3.2, h4, delays_quiet h5]
        exact ih

/-- **C69.** A turn of the heartbeat routine that does not raise sends nothing if a heartbeat is unanswered; else it sends
one heartbeat, which says the truth: the measured figures, the number of queued tasks, the latency that the
last answered heartbeat showed, whether the processor has announced itself, whether it has a task, and
whether the lock is held: the processor has a task, or the loop has one in hand for a processor that is not ready. -/
theorem C69_heartbeat {d start : Int} {a a' : Agent} (hr : Worker.Reach d start a) (hc : Clock a.log) (now : Int) (f : Figures)
    (hs : a.step ⟨.heartbeat f, now⟩ = .ok a') :
    (openBeats a.log ≠ 0 → a' = a) ∧
    (openBeats a.log = 0 → ∃ b, a'.log = a.log ++ [(now, .sent (.heartbeat b))] ∧
      b.agentCpu = f.agentCpu ∧ b.agentRss = f.agentRss ∧ b.workerCpu = f.workerCpu ∧ b.workerRss = f.workerRss ∧
      b.queuedTasks = (a.queue.contents.length : Int) ∧
      b.latencyUs = latency a.log ∧
      b.initialized = ready a.log ∧
      (b.hasTask = true ↔ ∃ k, busy a.log = some k ∧ k.taskId ≠ []) ∧
      (b.taskLock = true ↔ busy a.log ≠ none ∨ ∃ k w, a.pos = .init k w)) := by
  have hg := hr.good
  have ho : openBeats a.log = if a.beatAt = 0 then 0 else 1 := by
    rw [openBeats_answers start, (beat_inv hr hc).1]
  have hp : a.procs ≠ 0 := by
    obtain ⟨n, hn⟩ := Option.isSome_iff_exists.1 hg.inv.proc
    have := hg.inv.procs n hn
    omega
  simp only [Agent.step, heartbeat, if_neg hp] at hs
  constructor
  · intro h
    have hz : a.beatAt ≠ 0 := fun hz => h (by rw [ho, if_pos hz])
    rw [if_pos hz] at hs
    cases hs; rfl
  · intro h
    have hz : a.beatAt = 0 := Classical.byContradiction fun hz => by rw [ho, if_neg hz] at h; omega
    rw [if_neg (by simpa using hz)] at hs
    simp only [Py.bind_ok] at hs
    obtain ⟨_, _, hs⟩ := hs
    cases hs
    refine ⟨a.heartbeatMsg f, rfl, rfl, rfl, rfl, rfl, hg.inv.wf.len, ?_, hg.mt.ready.symm, ?_, ?_⟩
    · show a.latency = (delays a.log).2
      rw [delay_inv hr hc]
    · rw [hg.mt.busy]
      unfold heartbeatMsg
      cases a.task <;> simp
    · rw [hg.mt.busy]
      show a.locked = true ↔ _
      rw [hg.inv.lock]
      cases a.task <;> cases a.pos <;> simp [Pos.isInit]

/-- One task is with the processor, one in hand, one queued; the last heartbeat was answered after 6 ms. -/
example : agentWitness 100000000 1 [⟨.heartbeat ⟨1, 2, 3, 4⟩, 2⟩, ⟨.recv .heartbeatEcho, 6000002⟩, ⟨.recv (.task ⟨[1], [7], []⟩), 3⟩,
      ⟨.recv (.task ⟨[2], [7], []⟩), 3⟩, ⟨.recv (.task ⟨[3], [7], []⟩), 3⟩, ⟨.heard (.taskResult [] .success 0 []), 4⟩, ⟨.turn, 4⟩, ⟨.turn, 4⟩]
    [⟨.heartbeat ⟨1, 2, 3, 4⟩, 7000000⟩] (fun a b => (openBeats a.log, b.log.drop a.log.length)) =
    some (0, [(7000000, .sent (.heartbeat ⟨1, 2, 3, 4, 1, 3000, true, true, true⟩))]) := by decide +kernel

end Verif.Props
