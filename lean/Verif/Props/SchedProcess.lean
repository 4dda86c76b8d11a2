import Verif.Sched.Process
import Verif.Props.Fatal
import Verif.Props.Server

/-!
# C81: how the scheduler runs and ends
-/

namespace Verif.Props

open Verif.Queue Verif.Util Verif.Wire Verif.Sched Verif.Spec

/-- The process was started by `b` and has gone through `ops`. -/
def Lived (cfg : Config) (b : Starter) (ops : List LifeOp) (p : Life) : Prop := (Life.init cfg).run b ops = p

/-- A signal was received. -/
def isSignal : LifeOp → Bool
  | .signal _ => true
  | _ => false

/-- What holds of a process at any time: how it stands with signals, failures and sockets. -/
structure Sound (cfg : Config) (b : Starter) (ops : List LifeOp) (p : Life) : Prop where
  server : ∃ is, (Server.init cfg).run is = .ok p.server
  sockets : p.binderOpen = p.monitorOpen ∧ (p.binderOpen = false ↔ p.stage = .ended .returned)
  asked : p.stopped = true ∨ p.stage = .cancelled ∨ p.stage = .ended .returned ∨ p.stage = .ended .interrupted ∨ p.stage = .ended .terminated →
    ∃ op ∈ ops, isSignal op
  starter : p.stage = .cancelled ∨ p.stage = .ended .returned → b = .command
  dead : p.dead = [] → p.stage = .waiting ∨ p.stage = .cancelled ∨ ∃ x, p.stage = .ended x ∧ ∀ e, x ≠ .raised e
  alive : p.stage = .waiting → p.dead = []
  stopped : p.stage = .waiting → p.stopped = false

theorem server_run_append (v : Server) (is js : List (Server.Input × Int × Order)) :
    v.run (is ++ js) = (v.run is).bind (fun v => v.run js) := by
  induction is generalizing v with
  | nil => rfl
  | cons i is ih =>
    obtain ⟨i, now, o⟩ := i
    simp only [List.cons_append, Server.run]
    cases v.step now o i with
    | ok v' => exact ih v'
    | error e => rfl

theorem sound_step {cfg : Config} {b : Starter} {ops : List LifeOp} {p : Life} (h : Sound cfg b ops p) (op : LifeOp) :
    Sound cfg b (ops ++ [op]) (p.step b op) := by
  have hmem : (∃ op ∈ ops, isSignal op) → ∃ op' ∈ ops ++ [op], isSignal op' := by
    rintro ⟨x, h1, h2⟩; exact ⟨x, List.mem_append_left _ h1, h2⟩
  cases op with
  | turn i now o =>
    simp only [Life.step, Life.turn]
    split
    · next hc =>
      cases hs : p.server.step now o i with
      | ok v =>
        obtain ⟨is, h1⟩ := h.server
        refine ⟨⟨is ++ [(i, now, o)], ?_⟩, h.sockets, fun hx => hmem (h.asked hx), h.starter, h.dead, h.alive, h.stopped⟩
        rw [server_run_append, h1]
        simp [Except.bind, Server.run, hs]
      | error e =>
        refine ⟨h.server, ?_, ?_, ?_, ?_, ?_, ?_⟩
        · have := h.sockets
          dsimp only
          split
          · next hw => rw [hw] at this; simpa using this
          · exact this
        · intro hx
          refine hmem (h.asked ?_)
          dsimp only at hx
          split at hx
          · next hw => exact Or.inl (by simpa using hx)
          · exact hx
        · intro hx
          dsimp only at hx
          split at hx
          · simp at hx
          · exact h.starter hx
        · intro hx; simp at hx
        · intro hx
          dsimp only at hx
          split at hx
          · cases hx
          · next hn => exact absurd hx hn
        · intro hx
          dsimp only at hx
          split at hx
          · cases hx
          · next hn => exact absurd hx hn
    · exact ⟨h.server, h.sockets, fun hx => hmem (h.asked hx), h.starter, h.dead, h.alive, h.stopped⟩
  | wake =>
    obtain ⟨v, st, due, dead, stopped, bo, mo⟩ := p
    obtain ⟨h1, h2, h3, h4, h5, h6, h7⟩ := h
    simp only at h1 h2 h3 h4 h5 h6 h7
    cases st with
    | waiting => exact ⟨h1, h2, fun hx => hmem (h3 hx), h4, h5, h6, h7⟩
    | failed e =>
      exact ⟨h1, by simpa [Life.step, Life.wake] using h2, fun hx => hmem (h3 (by simpa [Life.step, Life.wake] using hx)),
        by simp [Life.step, Life.wake], by simpa [Life.step, Life.wake] using h5, by simp [Life.step, Life.wake], by simp [Life.step, Life.wake]⟩
    | told e =>
      exact ⟨h1, by simpa [Life.step, Life.wake] using h2, fun hx => hmem (h3 (by simpa [Life.step, Life.wake] using hx)),
        by simp [Life.step, Life.wake], by simpa [Life.step, Life.wake] using h5, by simp [Life.step, Life.wake], by simp [Life.step, Life.wake]⟩
    | cancelled =>
      exact ⟨h1, by simp [Life.step, Life.wake, Life.close], fun _ => hmem (h3 (by simp)), fun _ => h4 (by simp),
        by simp [Life.step, Life.wake, Life.close], by simp [Life.step, Life.wake, Life.close], by simp [Life.step, Life.wake, Life.close]⟩
    | ended x => exact ⟨h1, h2, fun hx => hmem (h3 hx), h4, h5, h6, h7⟩
  | signal s =>
    have hsig : ∃ op' ∈ ops ++ [LifeOp.signal s], isSignal op' := ⟨.signal s, by simp, rfl⟩
    obtain ⟨v, st, due, dead, stopped, bo, mo⟩ := p
    obtain ⟨h1, h2, h3, h4, h5, h6, h7⟩ := h
    simp only at h1 h2 h3 h4 h5 h6 h7
    cases st with
    | ended x => exact ⟨h1, h2, fun _ => hsig, h4, h5, h6, h7⟩
    | waiting =>
      cases b <;> cases s <;>
        exact ⟨h1, by simpa [Life.step, Life.signal, Life.cancelAll] using h2, fun _ => hsig, by simp [Life.step, Life.signal, Life.cancelAll],
          by simp [Life.step, Life.signal, Life.cancelAll], by simp [Life.step, Life.signal, Life.cancelAll],
          by simp [Life.step, Life.signal, Life.cancelAll]⟩
    | failed e =>
      cases b <;> cases s <;>
        exact ⟨h1, by simpa [Life.step, Life.signal, Life.cancelAll] using h2, fun _ => hsig, by simp [Life.step, Life.signal, Life.cancelAll],
          fun hx => by first | (simp [Life.step, Life.signal]; done) | simpa [Life.step, Life.signal, Life.cancelAll] using h5 hx, by simp [Life.step, Life.signal, Life.cancelAll],
          by simp [Life.step, Life.signal, Life.cancelAll]⟩
    | told e =>
      cases b <;> cases s <;>
        exact ⟨h1, by simpa [Life.step, Life.signal, Life.cancelAll] using h2, fun _ => hsig, by simp [Life.step, Life.signal, Life.cancelAll],
          by simp [Life.step, Life.signal, Life.cancelAll], by simp [Life.step, Life.signal, Life.cancelAll],
          by simp [Life.step, Life.signal, Life.cancelAll]⟩
    | cancelled =>
      have hb : b = .command := h4 (by simp)
      subst hb
      exact ⟨h1, by simpa [Life.step, Life.signal, Life.cancelAll] using h2, fun _ => hsig, fun _ => rfl,
        by simp [Life.step, Life.signal, Life.cancelAll], by simp [Life.step, Life.signal, Life.cancelAll],
        by simp [Life.step, Life.signal, Life.cancelAll]⟩

theorem run_snoc (b : Starter) (p : Life) (ops : List LifeOp) (op : LifeOp) : p.run b (ops ++ [op]) = (p.run b ops).step b op := by
  simp [Life.run]

theorem lived_append {cfg : Config} {b : Starter} {ops ops' : List LifeOp} {p : Life} (h : Lived cfg b ops p) :
    Lived cfg b (ops ++ ops') (p.run b ops') := by
  unfold Lived at *
  rw [← h]; simp [Life.run]

theorem snoc_induction {α : Type} {P : List α → Prop} (h0 : P []) (h1 : ∀ l a, P l → P (l ++ [a])) (l : List α) : P l := by
  rw [← List.reverse_reverse l]
  induction l.reverse with
  | nil => exact h0
  | cons a l ih => rw [List.reverse_cons]; exact h1 _ _ ih

theorem Lived.sound {cfg : Config} {b : Starter} {ops : List LifeOp} {p : Life} (h : Lived cfg b ops p) : Sound cfg b ops p := by
  unfold Lived at h
  subst h
  induction ops using snoc_induction with
  | h0 =>
    exact ⟨⟨[], rfl⟩, by simp [Life.run, Life.init], by simp [Life.run, Life.init], by simp [Life.run, Life.init], by simp [Life.run, Life.init],
      by simp [Life.run, Life.init], by simp [Life.run, Life.init]⟩
  | h1 ops op ih => rw [run_snoc]; exact sound_step ih op

/-- A loop has raised `err`: when it took its turn after `A`. -/
def RaisedAt (cfg : Config) (b : Starter) (ops : List LifeOp) (err : PyErr) : Prop :=
  ∃ A i now o B, ops = A ++ .turn i now o :: B ∧ ((Life.init cfg).run b A).stage = .waiting ∧
    ((Life.init cfg).run b A).server.step now o i = .error err

theorem RaisedAt.snoc {cfg : Config} {b : Starter} {ops : List LifeOp} {err : PyErr} (h : RaisedAt cfg b ops err) (op : LifeOp) :
    RaisedAt cfg b (ops ++ [op]) err := by
  obtain ⟨A, i, now, o, B, rfl, h1, h2⟩ := h
  exact ⟨A, i, now, o, B ++ [op], by simp, h1, h2⟩

theorem raisedAt {cfg : Config} {b : Starter} (ops : List LifeOp) (err : PyErr)
    (hp : ((Life.init cfg).run b ops).stage = .failed err ∨ ((Life.init cfg).run b ops).stage = .told err ∨
      ((Life.init cfg).run b ops).stage = .ended (.raised err)) : RaisedAt cfg b ops err := by
  induction ops using snoc_induction with
  | h0 => simp [Life.run, Life.init] at hp
  | h1 ops op ih =>
    rw [run_snoc] at hp
    cases op with
    | turn i now o =>
      simp only [Life.step, Life.turn] at hp
      split at hp
      · cases hs : ((Life.init cfg).run b ops).server.step now o i with
        | ok v =>
          rw [hs] at hp
          exact (ih hp).snoc _
        | error e =>
          rw [hs] at hp
          dsimp only at hp
          split at hp
          · next hw =>
            have : e = err := by simpa using hp
            exact ⟨ops, i, now, o, [], by simp, hw, by rw [hs, this]⟩
          · exact (ih hp).snoc _
      · exact (ih hp).snoc _
    | wake =>
      refine (ih ?_).snoc _
      simp only [Life.step, Life.wake] at hp
      split at hp
      · exact hp
      · next he => left; rw [he]; simpa using hp
      · next he => right; left; rw [he]; simpa using hp
      · simp [Life.close] at hp
      · exact hp
    | signal s =>
      refine (ih ?_).snoc _
      simp only [Life.step, Life.signal] at hp
      split at hp
      · exact hp
      · split at hp
        · simp only [Life.cancelAll] at hp
          split at hp
          · simp at hp
          · exact hp
          · simp at hp
          · exact hp
          · exact hp
        · simp at hp
        · simp at hp

theorem run_ended {b : Starter} {p : Life} {x : End} (h : p.stage = .ended x) (ops : List LifeOp) : p.run b ops = p := by
  induction ops with
  | nil => rfl
  | cons op ops ih =>
    have : p.step b op = p := by
      cases op with
      | turn i now o => simp [Life.step, Life.turn, Life.canTurn, h]
      | wake => simp [Life.step, Life.wake, h]
      | signal s => simp [Life.step, Life.signal, h]
    show (p.step b op).run b ops = p
    rw [this, ih]

theorem run_cancelled {p : Life} (h : p.stage = .cancelled) (ops : List LifeOp) :
    (p.run .command ops).server = p.server ∧
    ((∃ op ∈ ops, op = .wake) → p.run .command ops = p.close) := by
  induction ops with
  | nil => exact ⟨rfl, by rintro ⟨_, h, _⟩; cases h⟩
  | cons op ops ih =>
    have hcons : p.run .command (op :: ops) = (p.step .command op).run .command ops := rfl
    have hsame : p.step .command op = p → (p.run .command (op :: ops)).server = p.server ∧
        ((∃ op' ∈ op :: ops, op' = .wake) → op ≠ .wake → p.run .command (op :: ops) = p.close) := by
      intro hs
      rw [hcons, hs]
      refine ⟨ih.1, ?_⟩
      rintro ⟨x, hx, rfl⟩ hne
      rcases List.mem_cons.1 hx with hx | hx
      · exact absurd hx.symm hne
      · exact ih.2 ⟨_, hx, rfl⟩
    cases op with
    | turn i now o =>
      obtain ⟨h1, h2⟩ := hsame (by simp [Life.step, Life.turn, Life.canTurn, h])
      exact ⟨h1, fun hx => h2 hx (by simp)⟩
    | wake =>
      have hw : p.step .command .wake = p.close := by simp [Life.step, Life.wake, h]
      rw [hcons, hw, run_ended (x := .returned) rfl]
      exact ⟨rfl, fun _ => rfl⟩
    | signal s =>
      obtain ⟨h1, h2⟩ := hsame (by simp [Life.step, Life.signal, Life.cancelAll, h])
      exact ⟨h1, fun hx => h2 hx (by simp)⟩

/-- **C81, the end on a signal.** A running scheduler that was started by `scaled_scheduler` ends on the first
`SIGINT` or `SIGTERM`: from that moment it handles and sends nothing, and when the event loop has run its
callbacks the process returns and both sockets are destroyed, whatever comes in between. -/
theorem C81_signal (cfg : Config) (ops : List LifeOp) (p : Life) (_h : Lived cfg .command ops p) (hw : p.stage = .waiting) (s : Sig)
    (more : List LifeOp) :
    (p.run .command (.signal s :: more)).server = p.server ∧
    ((∃ op ∈ more, op = .wake) → (p.run .command (.signal s :: more)).stage = .ended .returned ∧
      (p.run .command (.signal s :: more)).binderOpen = false ∧ (p.run .command (.signal s :: more)).monitorOpen = false) := by
  have h1 : (p.signal .command s).stage = .cancelled := by simp [Life.signal, Life.cancelAll, hw]
  have h2 : (p.signal .command s).server = p.server := by simp [Life.signal, Life.cancelAll, hw]
  obtain ⟨h3, h4⟩ := run_cancelled h1 more
  refine ⟨h3.trans h2, fun hx => ?_⟩
  have h5 : p.run .command (.signal s :: more) = (p.signal .command s).close := h4 hx
  rw [h5]
  exact ⟨rfl, rfl, rfl⟩

/-- **C81, partial.** The process runs as long as no signal comes and no loop raises (C28 says when one does);
it returns only after a signal, and it has ended with an exception only if a loop raised it.  What the server
has done is what its loops did, one turn after the other.  The sockets are destroyed exactly if `get_loops`
returns.

Full statement: the sockets are destroyed whenever the process ends.  Missing: the end by an exception, for
which it is false (`C81_left_open`), and `SchedulerProcess` (`C81_process`). -/
theorem C81_ends_partial (cfg : Config) (b : Starter) (ops : List LifeOp) (p : Life) (h : Lived cfg b ops p) :
    (∃ is, (Server.init cfg).run is = .ok p.server) ∧
    (p.stage = .waiting ∨ (∃ op ∈ ops, isSignal op) ∨ ∃ err, RaisedAt cfg b ops err) ∧
    (p.stage = .ended .returned → b = .command ∧ ∃ op ∈ ops, isSignal op) ∧
    (∀ err, p.stage = .ended (.raised err) → RaisedAt cfg b ops err) ∧
    ((p.binderOpen = false ↔ p.stage = .ended .returned) ∧ (p.monitorOpen = false ↔ p.stage = .ended .returned)) ∧
    (∀ x, p.stage = .ended x → ∀ op, p.step b op = p) := by
  have hs := h.sound
  have hr : ∀ err, p.stage = .failed err ∨ p.stage = .told err ∨ p.stage = .ended (.raised err) → RaisedAt cfg b ops err := by
    intro err hx
    refine raisedAt ops err ?_
    rw [show (Life.init cfg).run b ops = p from h]; exact hx
  refine ⟨hs.server, ?_, fun hx => ⟨hs.starter (Or.inr hx), hs.asked (by simp [hx])⟩, fun err hx => hr err (by simp [hx]),
    ⟨hs.sockets.2, hs.sockets.1 ▸ hs.sockets.2⟩, fun x hx op => run_ended hx [op]⟩
  cases hst : p.stage with
  | waiting => exact Or.inl rfl
  | failed e => exact Or.inr (Or.inr ⟨e, hr e (by simp [hst])⟩)
  | told e => exact Or.inr (Or.inr ⟨e, hr e (by simp [hst])⟩)
  | cancelled => exact Or.inr (Or.inl (hs.asked (by simp [hst])))
  | ended x =>
    cases x with
    | raised e => exact Or.inr (Or.inr ⟨e, hr e (by simp [hst])⟩)
    | returned => exact Or.inr (Or.inl (hs.asked (by simp [hst])))
    | interrupted => exact Or.inr (Or.inl (hs.asked (by simp [hst])))
    | terminated => exact Or.inr (Or.inl (hs.asked (by simp [hst])))

/-- `SchedulerProcess` (and with it `SchedulerClusterCombo`, whose `shutdown` sends `SIGTERM`) has no handler: a
signal ends the process at once, and the sockets are never destroyed. -/
theorem C81_process (cfg : Config) (ops : List LifeOp) (p : Life) (h : Lived cfg .process ops p) :
    p.binderOpen = true ∧ p.monitorOpen = true ∧
    ((∀ x, p.stage ≠ .ended x) → ∀ s, (p.signal .process s).stage = .ended (match s with | .int => .interrupted | .term => .terminated)) := by
  have hs := h.sound
  have hb : p.binderOpen = true := by
    rw [← Bool.not_eq_false]
    intro hx
    have := hs.starter (Or.inr (hs.sockets.2.1 hx))
    cases this
  refine ⟨hb, hs.sockets.1 ▸ hb, fun hx s => ?_⟩
  cases hst : p.stage with
  | ended x => exact absurd hst (hx x)
  | _ => cases s <;> simp [Life.signal, hst]

theorem due_grows {b : Starter} {p : Life} {x : Loop} {d : Int} (h : p.due x = some d) (ops : List LifeOp) :
    ∃ d', (p.run b ops).due x = some d' ∧ d ≤ d' := by
  induction ops generalizing p d with
  | nil => exact ⟨d, h, Int.le_refl d⟩
  | cons op ops ih =>
    have hone : ∃ d', (p.step b op).due x = some d' ∧ d ≤ d' := by
      cases op with
      | turn i now o =>
        simp only [Life.step, Life.turn]
        split
        · next hc =>
          cases p.server.step now o i with
          | ok v =>
            dsimp only
            by_cases e : x = i.loop
            · refine ⟨now + i.loop.sleep, by simp [e], ?_⟩
              simp only [Life.canTurn, Bool.and_eq_true] at hc
              have h2 := hc.2
              rw [← e, h] at h2
              have h3 : d ≤ now := by simpa using h2
              have : 0 ≤ i.loop.sleep := by cases i.loop <;> simp [Loop.sleep]
              omega
            · exact ⟨d, by simp [e, h], Int.le_refl d⟩
          | error e => exact ⟨d, h, Int.le_refl d⟩
        · exact ⟨d, h, Int.le_refl d⟩
      | wake =>
        refine ⟨d, ?_, Int.le_refl d⟩
        simp only [Life.step, Life.wake]
        split <;> exact h
      | signal s =>
        refine ⟨d, ?_, Int.le_refl d⟩
        simp only [Life.step, Life.signal]
        split
        · exact h
        · split
          · simp only [Life.cancelAll]
            split <;> exact h
          · exact h
          · exact h
    obtain ⟨d', h1, h2⟩ := hone
    obtain ⟨d'', h3, h4⟩ := ih h1
    exact ⟨d'', h3, by omega⟩

/-- **C81, turns.** While the scheduler waits in `gather`, a loop whose sleep is over does its work: frames are
handled and routines run whenever they can.  After a turn of one of the routines that clean up or report, the
same routine does nothing for a second, whatever else happens; the other loops have no such pause. -/
theorem C81_turns (cfg : Config) (b : Starter) (ops : List LifeOp) (p : Life) (h : Lived cfg b ops p) (hw : p.stage = .waiting)
    (i : Server.Input) (now : Int) (o : Order) (hd : ∀ d, p.due i.loop = some d → d ≤ now) (v : Server) (hv : p.server.step now o i = .ok v) :
    (p.turn i now o).server = v ∧ (p.turn i now o).stage = .waiting ∧
    (∀ x, x ≠ i.loop → (p.turn i now o).due x = p.due x) ∧
    (i = .function ∨ i = .worker ∨ i = .report → (p.turn i now o).due i.loop = some (now + 1) ∧
      ∀ (more : List LifeOp) (now' : Int) (o' : Order), now' < now + 1 →
        ((p.turn i now o).run b more).turn i now' o' = (p.turn i now o).run b more) ∧
    (¬ (i = .function ∨ i = .worker ∨ i = .report) → (p.turn i now o).due i.loop = some now) := by
  have hs := h.sound
  have hc : p.canTurn i.loop now = true := by
    unfold Life.canTurn
    rw [hw, hs.alive hw, hs.stopped hw]
    cases hx : p.due i.loop with
    | none => rfl
    | some d => simp [hd d hx]
  have he : p.turn i now o = { p with server := v, due := fun x => if x = i.loop then some (now + i.loop.sleep) else p.due x } := by
    simp [Life.turn, hc, hv]
  have hdue : (p.turn i now o).due i.loop = some (now + i.loop.sleep) := by rw [he]; simp
  refine ⟨by rw [he], by rw [he]; exact hw, fun x hx => by rw [he]; simp [hx], ?_, ?_⟩
  · intro hi
    have hsl : i.loop.sleep = 1 := by rcases hi with rfl | rfl | rfl <;> rfl
    rw [hsl] at hdue
    refine ⟨hdue, fun more now' o' hlt => ?_⟩
    obtain ⟨d', h1, h2⟩ := due_grows (b := b) hdue more
    have : ((p.turn i now o).run b more).canTurn i.loop now' = false := by
      unfold Life.canTurn
      rw [h1]
      have : ¬ d' ≤ now' := by omega
      simp [this]
    rw [Life.turn, this]
    rfl
  · intro hi
    have hsl : i.loop.sleep = 0 := by cases i <;> first | rfl | (exact absurd (by simp) hi)
    rw [hdue, hsl]; simp

/-- A client cancels a graph that the scheduler does not know (C28). -/
def badCancel : LifeOp := .turn (.frames [cl, [0x47, 0x43], [50]]) 0 (fun _ => [])

/-- A worker says that it is there. -/
def hello : LifeOp := .turn (.frames [wk, [0x48, 0x42], List.replicate 43 0]) 0 (fun _ => [])

/-- **C81 is false of the code:** an exception in a loop ends the process and the sockets are not destroyed. -/
theorem C81_left_open : ∃ ops p err, Lived cfg0 .command ops p ∧ p.stage = .ended (.raised err) ∧ p.binderOpen = true ∧ p.monitorOpen = true :=
  ⟨[badCancel, .wake, .wake], _, .valueError, rfl, by decide +kernel, by decide +kernel, by decide +kernel⟩

/-- A signal that comes while the exception is on its way hides it if `gather` has it already, and not otherwise; either
way every loop is cancelled and none takes another turn. -/
theorem C81_hidden (p : Life) (err : PyErr) (s : Sig) :
    (p.stage = .told err → ((p.signal .command s).wake).stage = .ended .returned) ∧
    (p.stage = .failed err → (((p.signal .command s).wake).wake).stage = .ended (.raised err)) ∧
    (p.stage = .told err ∨ p.stage = .failed err → ∀ i now o, (p.signal .command s).turn i now o = p.signal .command s) ∧
    (p.stage = .waiting ∨ p.stage = .told err ∨ p.stage = .failed err → (p.signal .command s).stopped = true) := by
  refine ⟨fun h => by simp [Life.signal, Life.cancelAll, Life.wake, Life.close, h], fun h => by simp [Life.signal, Life.cancelAll, Life.wake, h],
    fun h i now o => ?_, fun h => ?_⟩
  · rcases h with h | h <;> simp [Life.signal, Life.cancelAll, Life.turn, Life.canTurn, h]
  · rcases h with h | h | h <;> simp [Life.signal, Life.cancelAll, h]

/-- Between the exception and the end the other loops go on: here the scheduler still reports. -/
example : ((Life.init cfg0).run .command [badCancel, .turn .report 0 (fun _ => []), .wake, .wake]).due .report = some 1 ∧
    ((Life.init cfg0).run .command [badCancel, .wake, .signal .int, .wake]).stage = .ended .returned := by
  constructor <;> decide +kernel

/-- A scheduler that has answered a worker, reports once a second and ends on `SIGTERM`. -/
example : (fun p : Life => (p.server.wire.length, p.due .report, p.stage, p.binderOpen))
    ((Life.init cfg0).run .command [hello, .turn .report 0 (fun _ => []), .turn .report 0 (fun _ => []), .turn .report 1 (fun _ => []),
      .signal .term, .turn .report 2 (fun _ => []), hello, .wake]) = (1, some 2, .ended .returned, false) := by
  decide +kernel

/-- A turn that raises ends the loop it belongs to, and no other. -/
theorem C81_raises (p : Life) (i : Server.Input) (now : Int) (o : Order) (e : PyErr) (hs : p.server.step now o i = .error e)
    (hc : p.canTurn i.loop now = true) :
    (p.turn i now o).dead = (match i with | .frames _ => .binder | .task => .task | .graph => .graph | .function => .function | .worker => .worker | .report => .report) :: p.dead ∧
    (p.turn i now o).due = p.due := by
  simp only [Life.turn, hc, hs, if_true]
  cases i <;> simp [Server.Input.loop]

example : (match (Life.init cfg0).server.step 0 (fun _ => []) (.frames [cl, [0x47, 0x43], [50]]) with | .error .valueError => true | _ => false) = true ∧
    (Life.init cfg0).canTurn (Server.Input.frames [cl, [0x47, 0x43], [50]]).loop 0 = true ∧
    ((Life.init cfg0).step .command badCancel).dead = [.binder] := by
  refine ⟨?_, ?_, ?_⟩ <;> decide +kernel

end Verif.Props
