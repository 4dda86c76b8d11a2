import Verif.System.Beats
import Verif.Props.System

/-!
# A worker and a scheduler that answer each other in time do not give each other up (C102)
-/

namespace Verif.Props

open Verif.Wire Verif.Sched Verif.Spec Verif.System
open Verif.Client (Pickle)

variable {F V X : Type} {p : Pickle} {rt : Proc.Runtime F V X} {cfg : Config} {x : Bytes}
  {h δ : Int} {N : Nat} {run : Nat → Sys F} {ops : Nat → System.Op} {time : Nat → Int} {clockS clockW : Int}

/-- Which events take a worker off the table. -/
theorem alive_gone {s s' : Sched} (hc : Conc s) (hset : AllSettled s.abs) {e : Sched.Event} (hs : s.step e = .ok s') {w : Bytes} {v : Int × Heartbeat}
    (h : s.wm.alive.get? w = some v) (h' : s'.wm.alive.get? w = none) :
    (∃ y, e.op = .recv y (.disconnectRequest w)) ∨ (e.op = .workerRoutine ∧ e.now - v.1 > s.cfg.workerTimeout) := by
  cases he : e.special with
  | false =>
    rw [(Py.Post.ok (step_keeps hc hset e he) hs).alive, h] at h'
    cases h'
  | true =>
    obtain ⟨op, now, o⟩ := e
    cases op with
    | recv source m =>
      cases m with
      | heartbeat hb =>
        cases hs
        rw [(onHeartbeat_alive ..).1, Dict.get?_set] at h'
        split at h'
        · cases h'
        · rw [h] at h'; cases h'
      | disconnectRequest w1 =>
        rw [((onDisconnect_only o source w1).ok hs).2.2.2.2 w] at h'
        split at h'
        · next e => subst e; exact .inl ⟨source, rfl⟩
        · rw [h] at h'; cases h'
      | _ => cases he
    | workerRoutine =>
      rw [((workerRoutine_only o now).ok hs).2.2.2.2 w, h] at h'
      simp only at h'
      split at h'
      · next hlate => exact .inr ⟨rfl, hlate⟩
      · cases h'
    | functionRoutine =>
      rw [((functionRoutine_only o now).ok hs).1, h] at h'
      cases h'
    | _ => cases he

/-- The scheduler's part of an event of the system. -/
theorem step_schedule {s s' : Sys F} {o : System.Op} (hs : s.step p rt o = some s') :
    (∃ e, o = .sched e ∧ s.sched.step e = .ok s'.sched ∧ ∀ x m, e.op = .recv x m → 0 < (s.peers x).sent m) ∨
      ((∀ e, o ≠ .sched e) ∧ s'.sched = s.sched) := by
  cases o with
  | sched e =>
    left
    obtain ⟨op, now, o⟩ := e
    simp only [Sys.step, Sys.schedStep] at hs
    split at hs
    · split at hs
      · next hd =>
        split at hs
        · cases hs
        · next x' m' hcar =>
          cases carryIn_eq hcar
          split at hs
          · next t ht =>
            cases hs
            exact ⟨_, rfl, ht, fun _ _ e => by cases e; omega⟩
          · cases hs
      · cases hs
    · next hop =>
      split at hs
      · next t ht =>
        cases hs
        exact ⟨_, rfl, ht, fun x m e => absurd e (hop x m)⟩
      · cases hs
  | joinClient y =>
    right
    simp only [Sys.step] at hs
    split at hs <;> cases hs
    exact ⟨by simp, rfl⟩
  | joinWorker y d ret now =>
    right
    simp only [Sys.step] at hs
    split at hs <;> cases hs
    exact ⟨by simp, rfl⟩
  | client y o =>
    right
    refine ⟨by simp, ?_⟩
    simp only [Sys.step] at hs
    split at hs
    · next c hy =>
      have key : ∀ {t u : Sys F} {o' : Client.Op}, t.clientStep p y c o' = some u → u.sched = t.sched := by
        intro t u o' hu
        obtain ⟨c1, -, rfl⟩ := clientStep_some hu
        rfl
      unfold Sys.clientOp at hs
      split at hs
      · split at hs
        · cases hs
        · next t _ _ _ _ => exact key (t := { s with used := t :: s.used }) hs
      · cases hs
      · split at hs
        · split at hs
          · cases hs
          · split at hs
            · exact key hs
            · cases hs
        · cases hs
      · exact key hs
    · cases hs
  | get y ids gid g keys =>
    right
    refine ⟨by simp, ?_⟩
    simp only [Sys.step] at hs
    split at hs
    · unfold Sys.getOp at hs
      split at hs
      · split at hs
        · cases hs; rfl
        · cases hs
      · cases hs
    · cases hs
  | agent y e =>
    right
    refine ⟨by simp, ?_⟩
    simp only [Sys.step] at hs
    split at hs
    · obtain ⟨a', qs', -, rfl⟩ := agentOp_some hs
      rfl
    · cases hs
  | proc y n e =>
    right
    refine ⟨by simp, ?_⟩
    simp only [Sys.step] at hs
    split at hs
    · obtain ⟨qs', rfl⟩ := procOp_some hs
      rfl
    · cases hs
  | leave y =>
    right
    simp only [Sys.step] at hs
    split at hs <;> cases hs
    exact ⟨by simp, rfl⟩

theorem within_at {time : Nat → Int} {N M i : Nat} {d : Int} {P : Nat → Prop} (hm : ∀ {i j : Nat}, i ≤ j → j ≤ N → time i ≤ time j)
    (hw : Within time N d i P) (hM : M ≤ N) : time M ≤ time i + d ∨ ∃ j, i < j ∧ j < M ∧ time j ≤ time i + d ∧ P j := by
  rcases hw with hw | ⟨j, h1, h2, h3, h4⟩
  · exact .inl (Int.le_trans (hm hM (Nat.le_refl _)) hw)
  · by_cases hj : j < M
    · exact .inr ⟨j, h1, hj, h3, h4⟩
    · exact .inl (Int.le_trans (hm (by omega) (by omega)) h3)

section
variable (hT : InTime p rt cfg x h δ N run ops time clockS clockW)
include hT

theorem timed_left {i : Nat} (hi : i ≤ N + 1) {y : Bytes} {a : Worker.Agent} {ret : Int} {qs : List (Proc.Proc F)} {id : Bytes}
    (hy : (run i).peers y = .worker a ret qs (some id)) : id = y ∧ ∃ k, k < i ∧ ops k = .leave y := by
  induction i generalizing a ret qs with
  | zero => rw [hT.start] at hy; cases hy
  | succ i ih =>
    have keep : ∀ {a ret qs}, (run i).peers y = .worker a ret qs (some id) → id = y ∧ ∃ k, k < i + 1 ∧ ops k = .leave y := fun h => by
      obtain ⟨h1, k, h2, h3⟩ := ih (by omega) h
      exact ⟨h1, k, by omega, h3⟩
    cases step_turn (hT.step i (by omega)) y with
    | same h' ho hl => exact keep (h'.symm.trans hy)
    | join d ret' now ho h' h'' => rw [hy] at h''; cases h''
    | proc a1 ret1 qs1 qs' n e ho h' h'' => rw [hy] at h''; cases h''
    | leave a1 ret1 qs1 ho h' h'' => rw [hy] at h''; cases h''; exact ⟨rfl, i, by omega, ho⟩
    | client c h' h'' => rw [hy] at h''; cases h''
    | agent a1 a' ret1 qs1 qs' e ho h' hs h'' => rw [hy] at h''; cases h''

/-- After a heartbeat the next one is not late. -/
theorem timed_again (hh : 0 ≤ h) (hδ : 0 ≤ δ) {R M : Nat} (hR : HearsBeat x ops R) (hRM : R < M) (hM : M ≤ N) (hno : ∀ k, R < k → k < M → ¬ HearsBeat x ops k) :
    time M ≤ time R + (h + 2 * δ) := by
  have hm := @timed_mono F V X p rt cfg x h δ N run ops time clockS clockW hT
  rcases within_at hm (hT.down R (by omega) hR) hM with hw | ⟨j, h1, h2, h3, he⟩
  · omega
  rcases within_at hm (hT.tries j (by omega) (.inr he)) hM with hw | ⟨j', h4, h5, h6, ht⟩
  · omega
  obtain ⟨a, ha, h0⟩ := timed_echo hT (by omega) he
  obtain ⟨k, h7, h8, hs, -⟩ := timed_send hT ha h0 (by omega) (by omega) ht
  have h9 := hm h8 (by omega)
  rcases within_at hm (hT.up k (by omega) hs) hM with hw | ⟨l, h10, h11, h12, hl⟩
  · omega
  · exact absurd hl (hno l (by omega) h11)

theorem timed_alive (hh : 0 ≤ h) (hδ : 0 ≤ δ) (hto : h + 2 * δ ≤ cfg.workerTimeout) (hl : ∀ i, i ≤ N → ops i ≠ .leave x) {M : Nat} (hM : M ≤ N + 1)
    (hR : ∃ R, R < M ∧ HearsBeat x ops R) :
    ∃ R, R < M ∧ HearsBeat x ops R ∧ (∀ k, R < k → k < M → ¬ HearsBeat x ops k) ∧ ∃ hb, (run M).sched.wm.alive.get? x = some (time R + clockS, hb) := by
  induction M with
  | zero => obtain ⟨R, h1, -⟩ := hR; omega
  | succ M ih =>
    have hg := (timed_reach hT (by omega : M ≤ N + 1)).inv.sched.good
    rcases step_schedule (hT.step M (by omega)) with ⟨e, ho, hs, hsent⟩ | ⟨ho, hs⟩
    · rcases step_alive hg.conc hg.settled hs x with ⟨hb, h1, h2⟩ | ⟨h1, h2⟩
      · have hop : e.op = .recv x (.heartbeat hb) := by
          obtain ⟨op, now, o⟩ := e
          cases op with
          | recv y m => cases m <;> cases h1; rfl
          | _ => cases h1
        refine ⟨M, by omega, ⟨hb, e.now, e.order, by rw [ho, ← hop]⟩, fun k _ _ => by omega, hb, ?_⟩
        rw [h2, hT.sched M e (by omega) ho]
      · have hnot : ¬ HearsBeat x ops M := by
          rintro ⟨hb, now, o, h⟩
          rw [ho] at h
          cases h
          exact h1 hb rfl
        obtain ⟨R, r1, r2, r3, hb, r4⟩ := ih (by omega) (by
          obtain ⟨R, h3, h4⟩ := hR
          refine ⟨R, ?_, h4⟩
          rcases Nat.lt_succ_iff_lt_or_eq.1 h3 with h3 | rfl
          · exact h3
          · exact absurd h4 hnot)
        refine ⟨R, by omega, r2, fun k k1 k2 => ?_, hb, ?_⟩
        · rcases Nat.lt_succ_iff_lt_or_eq.1 k2 with k2 | rfl
          · exact r3 k k1 k2
          · exact hnot
        rcases h2 with h2 | h2
        · exfalso
          rcases alive_gone hg.conc hg.settled hs r4 h2 with ⟨y, hy⟩ | ⟨hw, hlate⟩
          · have hi := (timed_reach hT (by omega : M ≤ N + 1)).inv
            rcases Peer.sent_pos (hsent y _ hy) with ⟨c, c1, c2⟩ | ⟨a, ret, qs, left, c1, ⟨now, c2⟩ | ⟨id, c2, c3⟩⟩
            · obtain ⟨l, -, c3⟩ := hi.clientSent c1 c2
              exact c3
            · exact hi.workerSent c1 c2
            · subst c2
              cases c3
              obtain ⟨rfl, k, k1, k2⟩ := timed_left hT (by omega) c1
              exact hl k (by omega) k2
          · have := timed_again hT hh hδ r2 r1 (by omega) r3
            rw [hT.sched M e (by omega) ho, hg.cfg] at hlate
            simp only at hlate
            omega
        · rw [h2]; exact r4
    · have hnot : ¬ HearsBeat x ops M := by
        rintro ⟨hb, now, o, h⟩
        exact ho _ h
      obtain ⟨R, r1, r2, r3, hb, r4⟩ := ih (by omega) (by
        obtain ⟨R, h3, h4⟩ := hR
        refine ⟨R, ?_, h4⟩
        rcases Nat.lt_succ_iff_lt_or_eq.1 h3 with h3 | rfl
        · exact h3
        · exact absurd h4 hnot)
      refine ⟨R, by omega, r2, fun k k1 k2 => ?_, hb, by rw [hs]; exact r4⟩
      rcases Nat.lt_succ_iff_lt_or_eq.1 k2 with k2 | rfl
      · exact r3 k k1 k2
      · exact hnot

/-- C102: a worker whose heartbeats and their answers are in time, and that has not left, stays with the scheduler from its first heartbeat on: it is not
declared dead. -/
theorem C102_kept (hh : 0 ≤ h) (hδ : 0 ≤ δ) (hto : h + 2 * δ ≤ cfg.workerTimeout) (hl : ∀ i, i ≤ N → ops i ≠ .leave x)
    (hR : ∃ R, R ≤ N ∧ HearsBeat x ops R) : Connected (run (N + 1)).sched x := by
  obtain ⟨R, h1, h2⟩ := hR
  obtain ⟨R, -, -, -, hb, h3⟩ := timed_alive hT hh hδ hto hl (Nat.le_refl _) ⟨R, by omega, h2⟩
  simp [Connected, Dict.has, h3]

theorem timed_seen {M : Nat} (hM : M ≤ N + 1) {a : Worker.Agent} (ha : At (run M) x a) :
    ∃ E, E < M ∧ (Joins x ops E ∨ GetsEcho x ops E) ∧ a.lastSeen = time E + clockW ∧ (∃ b, At (run (E + 1)) x b ∧ b.beatAt = 0) ∧
      ∀ k b, E < k → k < M → GetsEcho x ops k → At (run k) x b → b.beatAt = 0 := by
  induction M generalizing a with
  | zero => obtain ⟨_, _, _, ha⟩ := ha; rw [hT.start] at ha; cases ha
  | succ M ih =>
    by_cases hex : ∃ b, At (run M) x b
    · obtain ⟨b, hb⟩ := hex
      obtain ⟨E, e1, e2, e3, e4, e5⟩ := ih (by omega) hb
      obtain ⟨a', ha', hbeat⟩ := timed_next hT (by omega) hb
      cases ha.unique ha'
      have keep : a.lastSeen = b.lastSeen → (GetsEcho x ops M → b.beatAt = 0) → ∃ E, E < M + 1 ∧ (Joins x ops E ∨ GetsEcho x ops E) ∧ a.lastSeen = time E + clockW ∧
          (∃ b, At (run (E + 1)) x b ∧ b.beatAt = 0) ∧ ∀ k b, E < k → k < M + 1 → GetsEcho x ops k → At (run k) x b → b.beatAt = 0 := by
        intro h1 h2
        refine ⟨E, by omega, e2, h1.trans e3, e4, fun k c k1 k2 k3 k4 => ?_⟩
        rcases Nat.lt_succ_iff_lt_or_eq.1 k2 with k2 | rfl
        · exact e5 k c k1 k2 k3 k4
        · rw [k4.unique hb]; exact h2 k3
      cases hbeat with
      | waits h h' hg => exact keep (by rw [h']) fun h => absurd h hg
      | sends h h1 h2 h3 hs hg => exact keep h2 fun h => absurd h hg
      | calm ht hg h1 h2 h3 => exact keep h2 fun h => absurd h hg
      | echo h h1 h2 h3 =>
        by_cases hz : b.beatAt = 0
        · exact keep (by rw [h2, if_pos hz]) fun _ => hz
        · exact ⟨M, by omega, .inr h, by rw [h2, if_neg hz], ⟨a, ha, h1⟩, fun k _ _ _ => by omega⟩
    · obtain ⟨ret, qs, left, ha⟩ := ha
      have hn : ∀ a ret qs left, (run M).peers x ≠ .worker a ret qs left := fun a ret qs left h => hex ⟨a, ret, qs, left, h⟩
      cases step_turn (hT.step M (by omega)) x with
      | same h' ho hl => exact absurd (h'.symm.trans ha) (hn _ _ _ _)
      | join d ret' now ho h' h'' =>
        rw [ha] at h''
        cases h''
        exact ⟨M, by omega, .inl ⟨_, _, _, ho⟩, hT.join M _ _ _ (by omega) ho, ⟨_, ⟨_, _, _, ha⟩, rfl⟩, fun k _ _ _ => by omega⟩
      | proc a1 ret1 qs1 qs' n e ho h' h'' => exact absurd h' (hn _ _ _ _)
      | leave a1 ret1 qs1 ho h' h'' => exact absurd h' (hn _ _ _ _)
      | client c h' h'' => rw [ha] at h''; cases h''
      | agent a1 a' ret1 qs1 qs' e ho h' hs h'' => exact absurd h' (hn _ _ _ _)

/-- While an answer is awaited and none comes, it stays awaited. -/
theorem timed_awaits {i j : Nat} (hij : i ≤ j) (hj : j ≤ N) {b : Worker.Agent} (hb : At (run i) x b) (h0 : b.beatAt ≠ 0)
    (hno : ∀ k c, i ≤ k → k < j → GetsEcho x ops k → At (run k) x c → c.beatAt = 0) : ∃ c, At (run j) x c ∧ c.beatAt ≠ 0 := by
  induction hij with
  | refl => exact ⟨b, hb, h0⟩
  | @step j hij ih =>
    obtain ⟨c, hc, hc0⟩ := ih (by omega) fun k d k1 k2 => hno k d k1 (by omega)
    obtain ⟨c', hc', hbeat⟩ := timed_next hT (by omega) hc
    refine ⟨c', hc', ?_⟩
    cases hbeat with
    | waits h h' hg => rw [h']; exact hc0
    | sends h h1 h2 h3 hs hg => exact absurd h hc0
    | calm ht hg h1 h2 h3 => rw [h1]; exact hc0
    | echo h h1 h2 h3 => exact absurd (hno j c hij (by omega) h hc) hc0

/-- C102: such a worker does not end for want of an answer. -/
theorem C102_lives (hδ : 0 ≤ δ) {a : Worker.Agent} {ret : Int} {qs : List (Proc.Proc F)} {left : Option Bytes}
    (ha : (run N).peers x = .worker a ret qs left) (hto : h + 2 * δ < a.deathTimeout) : a.step ⟨.check, time N + clockW⟩ = .ok a := by
  have hm := @timed_mono F V X p rt cfg x h δ N run ops time clockS clockW hT
  obtain ⟨E, e1, e2, e3, ⟨b, hb, h0⟩, e5⟩ := timed_seen hT (by omega) ⟨_, _, _, ha⟩
  suffices hlate : time N ≤ time E + (h + 2 * δ) by
    simp only [Worker.Agent.step, Worker.Agent.checkTimeout]
    rw [if_pos (by omega)]
  rcases hT.tries E e1 e2 with hw | ⟨j, h1, h2, h3, ht⟩
  · omega
  obtain ⟨k, h4, h5, hs, c, hc, hc0⟩ := timed_send hT hb h0 (by omega) (by omega) ht
  have h6 := hm h5 (by omega)
  rcases hT.up k (by omega) hs with hw | ⟨l, h7, h8, h9, hl⟩
  · omega
  rcases hT.down l (by omega) hl with hw | ⟨m, h10, h11, h12, he⟩
  · omega
  obtain ⟨d, hd, hd0⟩ := timed_awaits hT (by omega : k + 1 ≤ m) (by omega) hc hc0 fun k' c' k1 k2 k3 k4 => e5 k' c' (by omega) (by omega) k3 k4
  exact absurd (e5 m d (by omega) h11 he hd) hd0

end

/-- A worker comes and sends two heartbeats, which are answered; the scheduler looks twice for silent workers. -/
def promptOps : List System.Op :=
  [.joinWorker [2] 9 100 1, .agent [2] ⟨.heartbeat ⟨0, 0, 0, 0⟩, 3⟩, .sched ⟨.recv [2] (.heartbeat ⟨0, 0, 0, 0, 0, 0, false, false, false⟩), 104, fun _ => []⟩,
    .agent [2] ⟨.recv .heartbeatEcho, 5⟩, .agent [2] ⟨.heartbeat ⟨0, 0, 0, 0⟩, 8⟩, .sched ⟨.workerRoutine, 109, fun _ => []⟩,
    .sched ⟨.recv [2] (.heartbeat ⟨0, 0, 0, 0, 0, 0, false, false, false⟩), 110, fun _ => []⟩, .agent [2] ⟨.recv .heartbeatEcho, 11⟩,
    .sched ⟨.workerRoutine, 112, fun _ => []⟩]

def promptTime (i : Nat) : Int := [1, 3, 4, 5, 8, 9, 10, 11, 12].getD i 0

def promptOp (i : Nat) : System.Op := promptOps.getD i (.joinClient [])

def promptCfg : Config := { wide with workerTimeout := 8 }

def promptRun : Nat → Sys Nat
  | 0 => Sys.init promptCfg
  | i + 1 => ((promptRun i).step plainPickle toy (promptOp i)).getD (promptRun i)

theorem prompt_step {i : Nat} (h : ((promptRun i).step plainPickle toy (promptOp i)).isSome) :
    (promptRun i).step plainPickle toy (promptOp i) = some (promptRun (i + 1)) := by
  obtain ⟨s, hs⟩ := Option.isSome_iff_exists.1 h
  rw [promptRun, hs]; rfl

theorem prompt_inTime : InTime plainPickle toy promptCfg [2] 4 2 8 promptRun promptOp promptTime 100 0 where
  start := rfl
  step i hi := prompt_step (match i, hi with
    | 0, _ => by decide +kernel
    | 1, _ => by decide +kernel
    | 2, _ => by decide +kernel
    | 3, _ => by decide +kernel
    | 4, _ => by decide +kernel
    | 5, _ => by decide +kernel
    | 6, _ => by decide +kernel
    | 7, _ => by decide +kernel
    | 8, _ => by decide +kernel
    | n + 9, hi => by omega)
  mono i hi := match i, hi with
    | 0, _ => by decide
    | 1, _ => by decide
    | 2, _ => by decide
    | 3, _ => by decide
    | 4, _ => by decide
    | 5, _ => by decide
    | 6, _ => by decide
    | 7, _ => by decide
    | 8, _ => by omega
    | n + 9, hi => by omega
  sched i e hi := match i, hi with
    | 0, _ => fun h => by cases h
    | 1, _ => fun h => by cases h
    | 2, _ => fun h => by cases h; rfl
    | 3, _ => fun h => by cases h
    | 4, _ => fun h => by cases h
    | 5, _ => fun h => by cases h; rfl
    | 6, _ => fun h => by cases h; rfl
    | 7, _ => fun h => by cases h
    | 8, _ => fun h => by cases h; rfl
    | n + 9, hi => by omega
  agent i e hi := match i, hi with
    | 0, _ => fun h => by cases h
    | 1, _ => fun h => by cases h; decide
    | 2, _ => fun h => by cases h
    | 3, _ => fun h => by cases h; decide
    | 4, _ => fun h => by cases h; decide
    | 5, _ => fun h => by cases h
    | 6, _ => fun h => by cases h
    | 7, _ => fun h => by cases h; decide
    | 8, _ => fun h => by cases h
    | n + 9, hi => by omega
  join i d ret now hi := match i, hi with
    | 0, _ => fun h => by cases h; rfl
    | 1, _ => fun h => by cases h
    | 2, _ => fun h => by cases h
    | 3, _ => fun h => by cases h
    | 4, _ => fun h => by cases h
    | 5, _ => fun h => by cases h
    | 6, _ => fun h => by cases h
    | 7, _ => fun h => by cases h
    | 8, _ => fun h => by cases h
    | n + 9, hi => by omega
  tries i hi := match i, hi with
    | 0, _ => fun _ => .inr ⟨1, by decide, by decide, by decide, _, _, rfl⟩
    | 1, _ => fun h => by rcases h with ⟨_, _, _, h⟩ | ⟨_, h⟩ <;> cases h
    | 2, _ => fun h => by rcases h with ⟨_, _, _, h⟩ | ⟨_, h⟩ <;> cases h
    | 3, _ => fun _ => .inr ⟨4, by decide, by decide, by decide, _, _, rfl⟩
    | 4, _ => fun h => by rcases h with ⟨_, _, _, h⟩ | ⟨_, h⟩ <;> cases h
    | 5, _ => fun h => by rcases h with ⟨_, _, _, h⟩ | ⟨_, h⟩ <;> cases h
    | 6, _ => fun h => by rcases h with ⟨_, _, _, h⟩ | ⟨_, h⟩ <;> cases h
    | 7, _ => fun _ => .inl (by decide)
    | 8, _ => by omega
    | n + 9, hi => by omega
  up i hi := match i, hi with
    | 0, _ => fun h => absurd h (by unfold SendsBeat; decide +kernel)
    | 1, _ => fun _ => .inr ⟨2, by decide, by decide, by decide, _, _, _, rfl⟩
    | 2, _ => fun h => absurd h (by unfold SendsBeat; decide +kernel)
    | 3, _ => fun h => absurd h (by unfold SendsBeat; decide +kernel)
    | 4, _ => fun _ => .inr ⟨6, by decide, by decide, by decide, _, _, _, rfl⟩
    | 5, _ => fun h => absurd h (by unfold SendsBeat; decide +kernel)
    | 6, _ => fun h => absurd h (by unfold SendsBeat; decide +kernel)
    | 7, _ => fun h => absurd h (by unfold SendsBeat; decide +kernel)
    | 8, _ => by omega
    | n + 9, hi => by omega
  down i hi := match i, hi with
    | 0, _ => fun h => by obtain ⟨_, _, _, h⟩ := h; cases h
    | 1, _ => fun h => by obtain ⟨_, _, _, h⟩ := h; cases h
    | 2, _ => fun _ => .inr ⟨3, by decide, by decide, by decide, _, rfl⟩
    | 3, _ => fun h => by obtain ⟨_, _, _, h⟩ := h; cases h
    | 4, _ => fun h => by obtain ⟨_, _, _, h⟩ := h; cases h
    | 5, _ => fun h => by obtain ⟨_, _, _, h⟩ := h; cases h
    | 6, _ => fun _ => .inr ⟨7, by decide, by decide, by decide, _, rfl⟩
    | 7, _ => fun h => by obtain ⟨_, _, _, h⟩ := h; cases h
    | 8, _ => by omega
    | n + 9, hi => by omega

/-- The hypotheses of `C102_kept` and `C102_lives` can be met. -/
example : ∃ (run : Nat → Sys Nat) (ops : Nat → System.Op) (time : Nat → Int), InTime plainPickle toy promptCfg [2] 4 2 8 run ops time 100 0 ∧
    4 + 2 * 2 ≤ promptCfg.workerTimeout ∧ (∀ i, i ≤ 8 → ops i ≠ .leave [2]) ∧ (∃ R, R ≤ 8 ∧ HearsBeat [2] ops R) ∧
    ∃ a ret qs left, (run 8).peers [2] = .worker a ret qs left ∧ 4 + 2 * 2 < a.deathTimeout := by
  refine ⟨promptRun, promptOp, promptTime, prompt_inTime, by decide, ?_, ⟨2, by decide, _, _, _, rfl⟩, ?_⟩
  · exact fun i hi => match i, hi with
    | 0, _ => nofun
    | 1, _ => nofun
    | 2, _ => nofun
    | 3, _ => nofun
    | 4, _ => nofun
    | 5, _ => nofun
    | 6, _ => nofun
    | 7, _ => nofun
    | 8, _ => nofun
    | n + 9, hi => by omega
  · have h : (match (promptRun 8).peers [2] with
        | .worker a _ _ _ => decide (4 + 2 * 2 < a.deathTimeout)
        | _ => false) = true := by decide +kernel
    split at h
    · next hx => exact ⟨_, _, _, _, hx, of_decide_eq_true h⟩
    · cases h

/-- A worker comes and sends two heartbeats, the second one as late as it may; then `last`. -/
def edgeOps (last : List System.Op) (i : Nat) : System.Op :=
  (([.joinWorker [2] 8 100 1, .agent [2] ⟨.heartbeat ⟨0, 0, 0, 0⟩, 3⟩, .sched ⟨.recv [2] (.heartbeat ⟨0, 0, 0, 0, 0, 0, false, false, false⟩), 4, fun _ => []⟩,
    .agent [2] ⟨.recv .heartbeatEcho, 6⟩, .agent [2] ⟨.heartbeat ⟨0, 0, 0, 0⟩, 10⟩] : List System.Op) ++ last).getD i (.joinClient [])

def edgeTime (i : Nat) : Int := [1, 3, 4, 6, 10, 12, 14].getD i 0

def edgeCfg : Config := { wide with workerTimeout := 7 }

def edgeRun (last : List System.Op) : Nat → Sys Nat
  | 0 => Sys.init edgeCfg
  | i + 1 => ((edgeRun last i).step plainPickle toy (edgeOps last i)).getD (edgeRun last i)

theorem edge_step {last : List System.Op} {i : Nat} (h : ((edgeRun last i).step plainPickle toy (edgeOps last i)).isSome) :
    (edgeRun last i).step plainPickle toy (edgeOps last i) = some (edgeRun last (i + 1)) := by
  obtain ⟨s, hs⟩ := Option.isSome_iff_exists.1 h
  rw [edgeRun, hs]; rfl

/-- The scheduler looks for silent workers. -/
def edgeLook : List System.Op := [.sched ⟨.workerRoutine, 12, fun _ => []⟩]

/-- The scheduler receives the second heartbeat; its answer has not arrived yet. -/
def edgeHear : List System.Op := [.sched ⟨.recv [2] (.heartbeat ⟨0, 0, 0, 0, 0, 0, false, false, false⟩), 12, fun _ => []⟩, .sched ⟨.taskRoutine, 14, fun _ => []⟩]

theorem edge_look : InTime plainPickle toy edgeCfg [2] 4 2 5 (edgeRun edgeLook) (edgeOps edgeLook) edgeTime 0 0 where
  start := rfl
  step i hi := edge_step (match i, hi with
    | 0, _ => by decide +kernel
    | 1, _ => by decide +kernel
    | 2, _ => by decide +kernel
    | 3, _ => by decide +kernel
    | 4, _ => by decide +kernel
    | 5, _ => by decide +kernel
    | n + 6, hi => by omega)
  mono i hi := match i, hi with
    | 0, _ => by decide
    | 1, _ => by decide
    | 2, _ => by decide
    | 3, _ => by decide
    | 4, _ => by decide
    | 5, _ => by omega
    | n + 6, hi => by omega
  sched i e hi := match i, hi with
    | 0, _ => fun h => by cases h
    | 1, _ => fun h => by cases h
    | 2, _ => fun h => by cases h; rfl
    | 3, _ => fun h => by cases h
    | 4, _ => fun h => by cases h
    | 5, _ => fun h => by cases h; rfl
    | n + 6, hi => by omega
  agent i e hi := match i, hi with
    | 0, _ => fun h => by cases h
    | 1, _ => fun h => by cases h; decide
    | 2, _ => fun h => by cases h
    | 3, _ => fun h => by cases h; decide
    | 4, _ => fun h => by cases h; decide
    | 5, _ => fun h => by cases h
    | n + 6, hi => by omega
  join i d ret now hi := match i, hi with
    | 0, _ => fun h => by cases h; rfl
    | 1, _ => fun h => by cases h
    | 2, _ => fun h => by cases h
    | 3, _ => fun h => by cases h
    | 4, _ => fun h => by cases h
    | 5, _ => fun h => by cases h
    | n + 6, hi => by omega
  tries i hi := match i, hi with
    | 0, _ => fun _ => .inr ⟨1, by decide, by decide, by decide, _, _, rfl⟩
    | 1, _ => fun h => by rcases h with ⟨_, _, _, h⟩ | ⟨_, h⟩ <;> cases h
    | 2, _ => fun h => by rcases h with ⟨_, _, _, h⟩ | ⟨_, h⟩ <;> cases h
    | 3, _ => fun _ => .inr ⟨4, by decide, by decide, by decide, _, _, rfl⟩
    | 4, _ => fun h => by rcases h with ⟨_, _, _, h⟩ | ⟨_, h⟩ <;> cases h
    | 5, _ => by omega
    | n + 6, hi => by omega
  up i hi := match i, hi with
    | 0, _ => fun h => absurd h (by unfold SendsBeat; decide +kernel)
    | 1, _ => fun _ => .inr ⟨2, by decide, by decide, by decide, _, _, _, rfl⟩
    | 2, _ => fun h => absurd h (by unfold SendsBeat; decide +kernel)
    | 3, _ => fun h => absurd h (by unfold SendsBeat; decide +kernel)
    | 4, _ => fun _ => .inl (by decide)
    | 5, _ => by omega
    | n + 6, hi => by omega
  down i hi := match i, hi with
    | 0, _ => fun h => by obtain ⟨_, _, _, h⟩ := h; cases h
    | 1, _ => fun h => by obtain ⟨_, _, _, h⟩ := h; cases h
    | 2, _ => fun _ => .inr ⟨3, by decide, by decide, by decide, _, rfl⟩
    | 3, _ => fun h => by obtain ⟨_, _, _, h⟩ := h; cases h
    | 4, _ => fun h => by obtain ⟨_, _, _, h⟩ := h; cases h
    | 5, _ => by omega
    | n + 6, hi => by omega

theorem edge_hear : InTime plainPickle toy edgeCfg [2] 4 2 6 (edgeRun edgeHear) (edgeOps edgeHear) edgeTime 0 0 where
  start := rfl
  step i hi := edge_step (match i, hi with
    | 0, _ => by decide +kernel
    | 1, _ => by decide +kernel
    | 2, _ => by decide +kernel
    | 3, _ => by decide +kernel
    | 4, _ => by decide +kernel
    | 5, _ => by decide +kernel
    | 6, _ => by decide +kernel
    | n + 7, hi => by omega)
  mono i hi := match i, hi with
    | 0, _ => by decide
    | 1, _ => by decide
    | 2, _ => by decide
    | 3, _ => by decide
    | 4, _ => by decide
    | 5, _ => by decide
    | 6, _ => by omega
    | n + 7, hi => by omega
  sched i e hi := match i, hi with
    | 0, _ => fun h => by cases h
    | 1, _ => fun h => by cases h
    | 2, _ => fun h => by cases h; rfl
    | 3, _ => fun h => by cases h
    | 4, _ => fun h => by cases h
    | 5, _ => fun h => by cases h; rfl
    | 6, _ => fun h => by cases h; rfl
    | n + 7, hi => by omega
  agent i e hi := match i, hi with
    | 0, _ => fun h => by cases h
    | 1, _ => fun h => by cases h; decide
    | 2, _ => fun h => by cases h
    | 3, _ => fun h => by cases h; decide
    | 4, _ => fun h => by cases h; decide
    | 5, _ => fun h => by cases h
    | 6, _ => fun h => by cases h
    | n + 7, hi => by omega
  join i d ret now hi := match i, hi with
    | 0, _ => fun h => by cases h; rfl
    | 1, _ => fun h => by cases h
    | 2, _ => fun h => by cases h
    | 3, _ => fun h => by cases h
    | 4, _ => fun h => by cases h
    | 5, _ => fun h => by cases h
    | 6, _ => fun h => by cases h
    | n + 7, hi => by omega
  tries i hi := match i, hi with
    | 0, _ => fun _ => .inr ⟨1, by decide, by decide, by decide, _, _, rfl⟩
    | 1, _ => fun h => by rcases h with ⟨_, _, _, h⟩ | ⟨_, h⟩ <;> cases h
    | 2, _ => fun h => by rcases h with ⟨_, _, _, h⟩ | ⟨_, h⟩ <;> cases h
    | 3, _ => fun _ => .inr ⟨4, by decide, by decide, by decide, _, _, rfl⟩
    | 4, _ => fun h => by rcases h with ⟨_, _, _, h⟩ | ⟨_, h⟩ <;> cases h
    | 5, _ => fun h => by rcases h with ⟨_, _, _, h⟩ | ⟨_, h⟩ <;> cases h
    | 6, _ => by omega
    | n + 7, hi => by omega
  up i hi := match i, hi with
    | 0, _ => fun h => absurd h (by unfold SendsBeat; decide +kernel)
    | 1, _ => fun _ => .inr ⟨2, by decide, by decide, by decide, _, _, _, rfl⟩
    | 2, _ => fun h => absurd h (by unfold SendsBeat; decide +kernel)
    | 3, _ => fun h => absurd h (by unfold SendsBeat; decide +kernel)
    | 4, _ => fun _ => .inr ⟨5, by decide, by decide, by decide, _, _, _, rfl⟩
    | 5, _ => fun h => absurd h (by unfold SendsBeat; decide +kernel)
    | 6, _ => by omega
    | n + 7, hi => by omega
  down i hi := match i, hi with
    | 0, _ => fun h => by obtain ⟨_, _, _, h⟩ := h; cases h
    | 1, _ => fun h => by obtain ⟨_, _, _, h⟩ := h; cases h
    | 2, _ => fun _ => .inr ⟨3, by decide, by decide, by decide, _, rfl⟩
    | 3, _ => fun h => by obtain ⟨_, _, _, h⟩ := h; cases h
    | 4, _ => fun h => by obtain ⟨_, _, _, h⟩ := h; cases h
    | 5, _ => fun _ => .inl (by decide)
    | 6, _ => by omega
    | n + 7, hi => by omega

/-- C102: the bounds are sharp.  With a limit of the scheduler that is one less, a worker that is in time is declared dead; with a limit of the worker
that is one less, a worker that is in time ends. -/
theorem C102_sharp :
    (∃ (cfg : Config) (N : Nat) (run : Nat → Sys Nat) (ops : Nat → System.Op) (time : Nat → Int), InTime plainPickle toy cfg [2] 4 2 N run ops time 0 0 ∧
      cfg.workerTimeout + 1 = 4 + 2 * 2 ∧ (∀ i, i ≤ N → ops i ≠ .leave [2]) ∧ (∃ R, R ≤ N ∧ HearsBeat [2] ops R) ∧ ¬ Connected (run (N + 1)).sched [2]) ∧
    ∃ (cfg : Config) (N : Nat) (run : Nat → Sys Nat) (ops : Nat → System.Op) (time : Nat → Int) (a : Worker.Agent) (ret : Int) (qs : List (Proc.Proc Nat)),
      InTime plainPickle toy cfg [2] 4 2 N run ops time 0 0 ∧ (run N).peers [2] = .worker a ret qs none ∧ a.deathTimeout = 4 + 2 * 2 ∧
      a.step ⟨.check, time N⟩ = .error .timeoutError := by
  refine ⟨⟨edgeCfg, 5, _, _, _, edge_look, by decide, ?_, ⟨2, by decide, _, _, _, rfl⟩, by decide +kernel⟩, ?_⟩
  · exact fun i hi => match i, hi with
    | 0, _ => nofun
    | 1, _ => nofun
    | 2, _ => nofun
    | 3, _ => nofun
    | 4, _ => nofun
    | 5, _ => nofun
    | n + 6, hi => by omega
  · have h : (match (edgeRun edgeHear 6).peers [2] with
        | .worker a _ _ none => decide (a.deathTimeout = 4 + 2 * 2) && (match a.step ⟨.check, edgeTime 6⟩ with
          | .error .timeoutError => true
          | _ => false)
        | _ => false) = true := by decide +kernel
    split at h
    · next hx =>
      rw [Bool.and_eq_true, decide_eq_true_eq] at h
      obtain ⟨h1, h2⟩ := h
      refine ⟨edgeCfg, 6, _, _, _, _, _, _, edge_hear, hx, h1, ?_⟩
      split at h2
      · next he => exact he
      · cases h2
    · cases h

end Verif.Props
