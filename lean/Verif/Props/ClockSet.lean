import Verif.Props.Process
import Verif.Props.Workers
import Verif.Spec.ClockSet

/-!
# C112 A clock that is set ends nobody
-/

namespace Verif.Props

open Verif Verif.Wire Verif.Worker Verif.Worker.Agent Verif.Spec.Worker

theorem hist_snoc {P : Hist → Prop} (h0 : P []) (h1 : ∀ l x, P l → P (l ++ [x])) (l : Hist) : P l := by
  have : ∀ m : Hist, P m.reverse := by
    intro m
    induction m with
    | nil => exact h0
    | cons x m ih => rw [List.reverse_cons]; exact h1 _ _ ih
  simpa using this l.reverse

theorem awaited_quiet {t : Int} {l : Hist} (h : Awaited t l) {x : Int × Act} (h1 : x.2 ≠ .recv .heartbeatEcho)
    (h2 : ∀ b, x.2 ≠ .sent (.heartbeat b)) : Awaited t (l ++ [x]) := by
  obtain ⟨p, b, m, rfl, hm⟩ := h
  refine ⟨p, b, m ++ [x], by simp, fun y hy => ?_⟩
  rcases List.mem_append.1 hy with hy | hy
  · exact hm y hy
  · cases List.mem_singleton.1 hy; exact ⟨h1, h2⟩

theorem steady_init {l : Hist} {x : Int × Act} (h : Steady (l ++ [x])) : Steady l :=
  fun before t t' after e ha => h before t t' (after ++ [x]) (by rw [e]; simp) ha

/-- The latency of a steady history can be packed. -/
theorem steady_delays (l : Hist) : Steady l → (∀ t, (delays l).1 = some t → Awaited t l) ∧ 0 ≤ (delays l).2 ∧ (delays l).2 < 2 ^ 32 := by
  induction l using hist_snoc with
  | h0 => exact fun _ => ⟨fun t h => (by cases h), by decide, by decide⟩
  | h1 l x ih =>
    intro hs
    obtain ⟨h1, h2, h3⟩ := ih (steady_init hs)
    obtain ⟨now, act⟩ := x
    rw [delays_snoc]
    unfold delayStep
    split
    · next b => exact ⟨fun t h => (by cases h; exact ⟨l, b, [], rfl, fun _ h => (by cases h)⟩), h2, h3⟩
    · split
      · next sent hd =>
        obtain ⟨h4, h5⟩ := hs l sent now [] rfl (h1 sent hd)
        refine ⟨fun t h => (by cases h), ?_, ?_⟩ <;> simp only <;> omega
      · next hd => exact ⟨fun t h => (by rw [hd] at h; cases h), h2, h3⟩
    · next hb he =>
      exact ⟨fun t h => awaited_quiet (h1 t h) (fun e => he e) (fun b e => hb b e), h2, h3⟩

theorem delays_noBeat {l m : Hist} (h : NoBeat m) : delays (l ++ m) = delays l := by
  induction m using hist_snoc with
  | h0 => simp
  | h1 m x ih =>
    obtain ⟨now, act⟩ := x
    rw [← List.append_assoc, delays_snoc, ih (fun y hy => h y (List.mem_append_left _ hy))]
    obtain ⟨h1, h2⟩ := h (now, act) (by simp)
    unfold delayStep
    split
    · next b => exact absurd rfl (h2 b)
    · exact absurd rfl h1
    · rfl

theorem awaited_delays {t : Int} {l : Hist} (h : Awaited t l) : (delays l).1 = some t := by
  obtain ⟨p, b, m, rfl, hm⟩ := h
  rw [show p ++ (t, Act.sent (.heartbeat b)) :: m = (p ++ [(t, Act.sent (.heartbeat b))]) ++ m by simp, delays_noBeat hm, delays_snoc]
  rfl

theorem setBack_delays {l : Hist} (h : SetBack l) : (delays l).1 = none ∧ (delays l).2 < 0 := by
  obtain ⟨p, t, t', m, rfl, ha, hlt, hm⟩ := h
  rw [show p ++ (t', Act.recv .heartbeatEcho) :: m = (p ++ [(t', Act.recv .heartbeatEcho)]) ++ m by simp, delays_noBeat hm, delays_snoc]
  have := awaited_delays ha
  simp only [delayStep, this]
  exact ⟨trivial, by omega⟩

/-- **C112**, for clocks that are not set back between a heartbeat and its answer: the next heartbeat is sent, if the figures of the
processes fit into their fields and fewer than `2 ^ 16` tasks are queued. -/
theorem C112_steady_partial {d start : Int} {a : Agent} (hr : Worker.Reach d start a) (hc : Clock a.log) (hs : Steady a.log) (f : Figures)
    (h1 : 0 ≤ f.agentCpu ∧ f.agentCpu < 2 ^ 16) (h2 : 0 ≤ f.agentRss ∧ f.agentRss < 2 ^ 64) (h3 : 0 ≤ f.workerCpu ∧ f.workerCpu < 2 ^ 16)
    (h4 : 0 ≤ f.workerRss ∧ f.workerRss < 2 ^ 64) (h5 : a.queue.contents.length < 2 ^ 16) (now : Int) :
    ∃ a', a.step ⟨.heartbeat f, now⟩ = .ok a' := by
  obtain ⟨-, h6⟩ := steady_delays a.log hs
  obtain ⟨g1, g2⟩ := loop_event hr hc ⟨.heartbeat f, now⟩
  cases hx : a.step ⟨.heartbeat f, now⟩ with
  | ok a' => exact ⟨a', rfl⟩
  | error x =>
    by_cases ht : x = .timeoutError
    · subst ht
      exact absurd (g2.1 hx).1 (by simp)
    · exact absurd ⟨h1, h2, h3, h4, h5, h6⟩ (g1.1 ⟨x, hx, ht⟩).2

/-- **C112 is false of the code**: once the clock was set back while a heartbeat was on its way, the worker dies with its next heartbeat,
whatever it measures: the latency is negative and cannot be packed. -/
theorem C112_back {d start : Int} {a : Agent} (hr : Worker.Reach d start a) (hc : Clock a.log) (hb : SetBack a.log) (f : Figures) (now : Int) :
    ∃ x, a.step ⟨.heartbeat f, now⟩ = .error x ∧ x ≠ .timeoutError := by
  obtain ⟨h1, h2⟩ := setBack_delays hb
  refine (loop_event hr hc ⟨.heartbeat f, now⟩).1.2 ⟨?_, fun h => ?_⟩
  · rw [openBeats_answers start, (beat_inv hr hc).1]
    rw [delay_inv hr hc] at h1
    simp only at h1 ⊢
    split at h1
    · next h => rw [if_pos h]
    · cases h1
  · have h3 : 0 ≤ (delays a.log).2 := h.2.2.2.2.2.1
    omega

/-- **C112 is false of the code**: a nanosecond is enough. -/
theorem C112_set_back : ∃ a, Worker.Reach 10 1 a ∧ Clock a.log ∧ SetBack a.log ∧ a.step ⟨.heartbeat ⟨1, 2, 3, 4⟩, 2000⟩ = .error .structError := by
  have h : agentWitness 10 1 [⟨.heartbeat ⟨1, 2, 3, 4⟩, 1000⟩, ⟨.recv .heartbeatEcho, 999⟩] []
      (fun a _ => (a.log, match a.step ⟨.heartbeat ⟨1, 2, 3, 4⟩, 2000⟩ with | .ok _ => none | .error e => some e)) =
      some ([(1, .started 0), (1000, .sent (.heartbeat ⟨1, 2, 3, 4, 0, 0, false, false, false⟩)), (999, .recv .heartbeatEcho)], some .structError) := by
    decide +kernel
  obtain ⟨a, b, hr, -, hx⟩ := agentWitness_sound h
  obtain ⟨h1, h2⟩ := Prod.mk.inj hx
  refine ⟨a, hr, ?_, ?_, ?_⟩
  · rw [h1]
    intro x hx
    simp only [List.mem_cons, List.not_mem_nil, or_false] at hx
    rcases hx with rfl | rfl | rfl <;> decide
  · rw [h1]
    exact ⟨[_, _], 1000, 999, [], rfl, ⟨[_], _, [], rfl, fun _ h => (by cases h)⟩, by decide, fun _ h => (by cases h)⟩
  · cases hs : a.step ⟨.heartbeat ⟨1, 2, 3, 4⟩, 2000⟩ with
    | ok a' => simp only [hs] at h2; cases h2
    | error e => simp only [hs] at h2; cases h2; rfl

/-- **C112 is false of the code**: if the clock of a worker is set forward by its timeout, the worker ends at its next look; if it is set
back, the worker does not. -/
theorem C112_worker {d start : Int} {a : Agent} (hr : Worker.Reach d start a) (hc : Clock a.log) (now : Int) (hd : 0 < d) :
    (lastAnswer start a.log + d ≤ now → a.step ⟨.check, now⟩ = .error .timeoutError) ∧
    (now ≤ lastAnswer start a.log → a.step ⟨.check, now⟩ = .ok a) :=
  ⟨fun h => (C57_timeout hr hc now).1.2 (by omega), fun h => (C57_timeout hr hc now).2.2 (by omega)⟩

/-- **C112 is false of the code**: if the clock of the scheduler is set forward by more than `worker_timeout_seconds`, the scheduler gives
up all workers at its next look, alive as they are; if it is set back, none. -/
theorem C112_scheduler (cfg : Sched.Config) (es : List Sched.Event) (l : Spec.Log) (s s' : Sched.Sched) (hx : Sched.Exec cfg es l s) (e : Sched.Event)
    (he : e.op = .workerRoutine) (hs : s.step e = .ok s') (ht : 0 ≤ cfg.workerTimeout) :
    ((∀ w t, LastHeard w t es → t + cfg.workerTimeout < e.now) → ∀ w, ¬ Connected s' w) ∧
    ((∀ w t, LastHeard w t es → e.now ≤ t) → ∀ w, Connected s' w ↔ Connected s w) := by
  obtain ⟨-, h1, h2⟩ := C27_liveness cfg es l s hx
  have h2 := h2 e s' he hs
  constructor
  · intro h w hw
    obtain ⟨h3, h4⟩ := (h2 w).1 hw
    obtain ⟨t, h5⟩ := h1 w h3
    have := h4 t h5
    have := h w t h5
    omega
  · intro h w
    rw [h2 w]
    exact ⟨fun h => h.1, fun hw => ⟨hw, fun t h5 => by have := h w t h5; omega⟩⟩

/-- A heartbeat that was answered six milliseconds later: the history is steady, and the next one is sent. -/
example : agentWitness 10 1 [⟨.heartbeat ⟨1, 2, 3, 4⟩, 1000⟩, ⟨.recv .heartbeatEcho, 6001000⟩] [⟨.heartbeat ⟨1, 2, 3, 4⟩, 7000000⟩]
      (fun a b => (a.log, b.log.drop a.log.length)) =
      some ([(1, .started 0), (1000, .sent (.heartbeat ⟨1, 2, 3, 4, 0, 0, false, false, false⟩)), (6001000, .recv .heartbeatEcho)],
        [(7000000, .sent (.heartbeat ⟨1, 2, 3, 4, 0, 3000, false, false, false⟩))]) := by
  decide +kernel

example : Steady [(1, .started 0), (1000, .sent (.heartbeat ⟨1, 2, 3, 4, 0, 0, false, false, false⟩)), (6001000, .recv .heartbeatEcho)] := by
  intro p t t' after h ha
  have hd := awaited_delays ha
  rcases p with _ | ⟨x, _ | ⟨y, _ | ⟨z, p⟩⟩⟩
  · cases h
  · cases h
  · cases h; cases hd; decide
  · cases p <;> cases h

/-- Two workers were heard at 0; a clock that is set forward to 101 costs the scheduler both. -/
example : (Sched.runInit cfg0 [beat wk, beat wk2]).bind (fun p => match p.2.step (evAt 101 .workerRoutine) with
      | .ok s => some (p.2.wm.alive.keys, s.wm.alive.keys) | .error _ => none) = some ([wk, wk2], []) := by
  decide +kernel

end Verif.Props
