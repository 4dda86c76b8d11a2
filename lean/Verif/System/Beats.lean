import Verif.System.Inside
import Verif.Props.Agent
import Verif.Sched.Exec
import Verif.Spec.Timely

/-!
# Heartbeats of one worker in a run of a system
-/

namespace Verif.System

open Verif.Wire Verif.Sched Verif.Spec
open Verif.Client (Pickle)

variable {F V X : Type} {p : Pickle} {rt : Proc.Runtime F V X} {cfg : Config} {s s' : Sys F} {x : Bytes}

theorem agentOp_some {y : Bytes} {a : Worker.Agent} {ret : Int} {qs : List (Proc.Proc F)} {e : Worker.Agent.Event} (hs : s.agentOp y a ret qs e = some s') :
    ∃ a' qs', a.step e = .ok a' ∧ s' = s.setPeer y (.worker a' ret qs' none) := by
  have hstep : ∀ {t : Sys F} {e' : Worker.Agent.Event}, e' = e → s.agentStep y a ret qs e' = some t → ∃ a' qs', a.step e = .ok a' ∧ t = s.setPeer y (.worker a' ret qs' none) := by
    intro t e' he ht
    subst he
    unfold Sys.agentStep at ht
    split at ht <;> cases ht
    next a' ha => exact ⟨a', _, ha, rfl⟩
  obtain ⟨op, now⟩ := e
  unfold Sys.agentOp at hs
  split at hs
  · next m hop =>
    split at hs
    · split at hs
      · cases hs
      · next hcar =>
        cases carryOut_eq hcar
        rw [if_pos rfl] at hs
        exact hstep (by simp only at hop ⊢; rw [hop]) hs
    · cases hs
  · next m hop =>
    split at hs
    · split at hs
      · cases hs
      · next hcar =>
        cases carry_eq hcar
        exact hstep (by simp only at hop ⊢; rw [hop]) hs
    · cases hs
  · exact hstep rfl hs

theorem procOp_some {y : Bytes} {a : Worker.Agent} {ret : Int} {qs : List (Proc.Proc F)} {n : Nat} {e : Proc.Event} (hs : s.procOp rt y a ret qs n e = some s') :
    ∃ qs', s' = s.setPeer y (.worker a ret qs' none) := by
  have hstep : ∀ {t : Sys F} {q : Proc.Proc F} {e' : Proc.Event}, s.procStep rt y a ret qs n q e' = some t → ∃ qs', t = s.setPeer y (.worker a ret qs' none) := by
    intro t q e' ht
    unfold Sys.procStep at ht
    split at ht <;> cases ht
    exact ⟨_, rfl⟩
  unfold Sys.procOp at hs
  split at hs
  · split at hs
    · cases hs
    · split at hs
      · split at hs
        · split at hs
          · cases hs
          · exact hstep hs
        · cases hs
      · exact hstep hs
  · cases hs

/-- What an event does to a peer. -/
inductive Turn (s : Sys F) (o : Op) (s' : Sys F) (x : Bytes) : Prop where
  | same (h : s'.peers x = s.peers x) (ho : ∀ e, o ≠ .agent x e) (hl : o ≠ .leave x)
  | join (d ret now : Int) (ho : o = .joinWorker x d ret now) (h : s.peers x = .absent) (h' : s'.peers x = .worker (.init d now) ret [Proc.Proc.init ret now] none)
  | agent (a a' : Worker.Agent) (ret : Int) (qs qs' : List (Proc.Proc F)) (e : Worker.Agent.Event) (ho : o = .agent x e) (h : s.peers x = .worker a ret qs none)
      (hs : a.step e = .ok a') (h' : s'.peers x = .worker a' ret qs' none)
  | proc (a : Worker.Agent) (ret : Int) (qs qs' : List (Proc.Proc F)) (n : Nat) (e : Proc.Event) (ho : o = .proc x n e) (h : s.peers x = .worker a ret qs none)
      (h' : s'.peers x = .worker a ret qs' none)
  | leave (a : Worker.Agent) (ret : Int) (qs : List (Proc.Proc F)) (ho : o = .leave x) (h : s.peers x = .worker a ret qs none) (h' : s'.peers x = .worker a ret qs (some x))
  | client (c : Client.Client) (h : ∀ a ret qs left, s.peers x ≠ .worker a ret qs left) (h' : s'.peers x = .client c)

theorem peer_self {P : Peer F} : (s.setPeer x P).peers x = P := by simp only [Sys.setPeer, if_true]

theorem peer_other {y : Bytes} {P : Peer F} (h : y ≠ x) : (s.setPeer y P).peers x = s.peers x := by simp only [Sys.setPeer, if_neg (Ne.symm h)]

theorem step_turn {o : Op} (hs : s.step p rt o = some s') (x : Bytes) : Turn s o s' x := by
  cases o with
  | joinClient y =>
    simp only [Sys.step] at hs
    split at hs <;> cases hs
    next hy =>
    by_cases e : y = x
    · subst e
      exact .client _ (by simp [hy]) peer_self
    · exact .same (peer_other e) (by simp) (by simp)
  | joinWorker y d ret' now =>
    simp only [Sys.step] at hs
    split at hs <;> cases hs
    next hy =>
    by_cases e : y = x
    · subst e
      exact .join _ _ _ rfl hy peer_self
    · exact .same (peer_other e) (by simp) (by simp)
  | sched e =>
    refine .same ?_ (by simp) (by simp)
    simp only [Sys.step, Sys.schedStep] at hs
    split at hs
    · split at hs
      · split at hs
        · cases hs
        · split at hs <;> cases hs
          rfl
      · cases hs
    · split at hs <;> cases hs
      rfl
  | client y o =>
    simp only [Sys.step] at hs
    split at hs
    · next c hy =>
      have key : ∀ {t u : Sys F} {o' : Client.Op}, t.peers = s.peers → t.clientStep p y c o' = some u → Turn s (.client y o) u x := by
        intro t u o' ht hu
        obtain ⟨c1, -, rfl⟩ := clientStep_some hu
        by_cases e : y = x
        · subst e
          exact .client c1 (by simp [hy]) peer_self
        · exact .same ((peer_other e).trans (congrFun ht x)) (by simp) (by simp)
      unfold Sys.clientOp at hs
      split at hs
      · split at hs
        · cases hs
        · next t _ _ _ _ => exact key (t := { s with used := t :: s.used }) rfl hs
      · cases hs
      · split at hs
        · split at hs
          · cases hs
          · split at hs
            · exact key rfl hs
            · cases hs
        · cases hs
      · exact key rfl hs
    · cases hs
  | get y ids gid g keys =>
    simp only [Sys.step] at hs
    split at hs
    · next c hy =>
      unfold Sys.getOp at hs
      split at hs
      · split at hs
        · cases hs
          next c1 _ _ _ =>
          by_cases e : y = x
          · subst e
            exact .client c1 (by simp [hy]) peer_self
          · exact .same (peer_other (P := .client c1) e) (by simp) (by simp)
        · cases hs
      · cases hs
    · cases hs
  | agent y e =>
    simp only [Sys.step] at hs
    split at hs
    · next a1 ret1 qs1 hy =>
      obtain ⟨a', qs', h1, rfl⟩ := agentOp_some hs
      by_cases he : y = x
      · subst he
        exact .agent a1 a' ret1 qs1 qs' e rfl hy h1 peer_self
      · exact .same (peer_other he) (fun e' h => by cases h; exact he rfl) (by simp)
    · cases hs
  | proc y n e =>
    simp only [Sys.step] at hs
    split at hs
    · next a1 ret1 qs1 hy =>
      obtain ⟨qs', rfl⟩ := procOp_some hs
      by_cases he : y = x
      · subst he
        exact .proc a1 ret1 qs1 qs' n e rfl hy peer_self
      · exact .same (peer_other he) (by simp) (by simp)
    · cases hs
  | leave y =>
    simp only [Sys.step] at hs
    split at hs <;> cases hs
    next a1 ret1 qs1 hy =>
    by_cases he : y = x
    · subst he
      exact .leave a1 ret1 qs1 rfl hy peer_self
    · exact .same (peer_other he) (by simp) (fun h => by cases h; exact he rfl)

/-- What the worker's table of heartbeats goes through in an event. -/
inductive Beat (x : Bytes) (run : Nat → Sys F) (ops : Nat → Op) (i : Nat) (now : Int) (a a' : Worker.Agent) : Prop where
  | waits (h : a.beatAt ≠ 0) (h' : a' = a) (hg : ¬ GetsEcho x ops i)
  | sends (h : a.beatAt = 0) (h1 : a'.beatAt ≠ 0) (h2 : a'.lastSeen = a.lastSeen) (h3 : a'.deathTimeout = a.deathTimeout) (hs : SendsBeat x run i)
      (hg : ¬ GetsEcho x ops i)
  | echo (h : GetsEcho x ops i) (h1 : a'.beatAt = 0) (h2 : a'.lastSeen = if a.beatAt = 0 then a.lastSeen else now) (h3 : a'.deathTimeout = a.deathTimeout)
  | calm (ht : ¬ TriesBeat x ops i) (hg : ¬ GetsEcho x ops i) (h1 : a'.beatAt = a.beatAt) (h2 : a'.lastSeen = a.lastSeen) (h3 : a'.deathTimeout = a.deathTimeout)

/-- A worker and its table. -/
def At (s : Sys F) (x : Bytes) (a : Worker.Agent) : Prop := ∃ ret qs left, s.peers x = .worker a ret qs left

theorem At.unique {a a' : Worker.Agent} (h : At s x a) (h' : At s x a') : a = a' := by
  obtain ⟨_, _, _, h⟩ := h
  obtain ⟨_, _, _, h'⟩ := h'
  rw [h] at h'
  cases h'; rfl

section
variable {h δ : Int} {N : Nat} {run : Nat → Sys F} {ops : Nat → Op} {time : Nat → Int} {clockS clockW : Int}
  (hT : InTime p rt cfg x h δ N run ops time clockS clockW)
include hT

theorem timed_reach : ∀ {i : Nat}, i ≤ N + 1 → Reach p rt cfg (run i)
  | 0, _ => hT.start ▸ .init
  | i + 1, hi => .step _ (timed_reach (by omega)) (hT.step i (by omega))

theorem timed_mono {i j : Nat} (hij : i ≤ j) (hj : j ≤ N) : time i ≤ time j := by
  induction hij with
  | refl => exact Int.le_refl _
  | @step j hij ih => exact Int.le_trans (ih (by omega)) (hT.mono j (by omega))

theorem timed_next {i : Nat} (hi : i ≤ N) {a : Worker.Agent} (ha : At (run i) x a) :
    ∃ a', At (run (i + 1)) x a' ∧ Beat x run ops i (time i + clockW) a a' := by
  obtain ⟨ret, qs, left, ha⟩ := ha
  cases step_turn (hT.step i hi) x with
  | same h' ho hl =>
    refine ⟨a, ⟨ret, qs, left, h'.trans ha⟩, .calm ?_ ?_ rfl rfl rfl⟩
    · rintro ⟨f, now, h⟩; exact ho _ h
    · rintro ⟨now, h⟩; exact ho _ h
  | join d ret' now ho h' h'' => rw [ha] at h'; cases h'
  | proc a1 ret1 qs1 qs' n e ho h' h'' =>
    rw [ha] at h'; cases h'
    refine ⟨a, ⟨_, _, _, h''⟩, .calm ?_ ?_ rfl rfl rfl⟩
    · rintro ⟨f, now, h⟩; rw [ho] at h; cases h
    · rintro ⟨now, h⟩; rw [ho] at h; cases h
  | leave a1 ret1 qs1 ho h' h'' =>
    rw [ha] at h'; cases h'
    refine ⟨a, ⟨_, _, _, h''⟩, .calm ?_ ?_ rfl rfl rfl⟩
    · rintro ⟨f, now, h⟩; rw [ho] at h; cases h
    · rintro ⟨now, h⟩; rw [ho] at h; cases h
  | client c h' h'' => exact absurd ha (h' _ _ _ _)
  | agent a1 a' ret1 qs1 qs' e ho h' hs h'' =>
    rw [ha] at h'; cases h'
    refine ⟨a', ⟨_, _, _, h''⟩, ?_⟩
    obtain ⟨hnow, hnz⟩ := hT.agent i e hi ho
    obtain ⟨op, now⟩ := e
    simp only at hnow hnz
    by_cases hbeat : ∃ f, op = .heartbeat f
    · obtain ⟨f, rfl⟩ := hbeat
      have hg : ¬ GetsEcho x ops i := by rintro ⟨now, h⟩; rw [ho] at h; cases h
      obtain ⟨d, st, hr⟩ := (timed_reach hT (by omega : i ≤ N + 1)).inv.worker ha
      have hp : a.procs ≠ 0 := by
        obtain ⟨n, hn⟩ := Option.isSome_iff_exists.1 hr.good.inv.proc
        have := hr.good.inv.procs n hn
        omega
      simp only [Worker.Agent.step, Worker.Agent.heartbeat, if_neg hp] at hs
      split at hs
      · next hb => cases hs; exact .waits hb rfl hg
      · next hb =>
        simp only [Py.bind_ok] at hs
        obtain ⟨_, _, hs⟩ := hs
        cases hs
        refine .sends (Classical.byContradiction hb) hnz rfl rfl ?_ hg
        unfold SendsBeat
        rw [ha, h'']
        simp [beatsSent, Worker.Agent.send, Worker.Agent.note, List.countP_append]
    · have ht : ¬ TriesBeat x ops i := by
        rintro ⟨f, now, h⟩; rw [ho] at h; cases h; exact hbeat ⟨f, rfl⟩
      by_cases hecho : op = .recv .heartbeatEcho
      · subst hecho
        refine .echo ⟨_, ho⟩ ?_ ?_ ?_
        all_goals
          simp only [Worker.Agent.step, Worker.Agent.receive] at hs
          cases hs
          simp only [Worker.Agent.onEcho, Worker.Agent.note]
          by_cases hz : a.beatAt = 0 <;> simp only [hz, if_true, if_false, hnow]
      · obtain ⟨h1, h2, h3, -⟩ := Props.step_calm hs (fun f h => hbeat ⟨f, h⟩) hecho
        refine .calm ht ?_ h1 h2 h3.1
        rintro ⟨now, h⟩; rw [ho] at h; cases h; exact hecho rfl

/-- Workers stay. -/
theorem timed_stays {i j : Nat} (hij : i ≤ j) (hj : j ≤ N + 1) {a : Worker.Agent} (ha : At (run i) x a) : ∃ a', At (run j) x a' := by
  induction hij with
  | refl => exact ⟨a, ha⟩
  | @step j hij ih =>
    obtain ⟨b, hb⟩ := ih (by omega)
    obtain ⟨b', hb', -⟩ := timed_next hT (by omega) hb
    exact ⟨b', hb'⟩

/-- After an echo nothing is awaited. -/
theorem timed_echo {i : Nat} (hi : i ≤ N) (he : GetsEcho x ops i) : ∃ a', At (run (i + 1)) x a' ∧ a'.beatAt = 0 := by
  have hex : ∃ a, At (run i) x a := by
    obtain ⟨now, he⟩ := he
    cases step_turn (hT.step i hi) x with
    | same h' ho hl => exact absurd he (ho _)
    | join d ret' now ho h' h'' => rw [he] at ho; cases ho
    | proc a1 ret1 qs1 qs' n e ho h' h'' => exact ⟨_, _, _, _, h'⟩
    | leave a1 ret1 qs1 ho h' h'' => exact ⟨_, _, _, _, h'⟩
    | client c h' h'' =>
      have hs := hT.step i hi
      simp only [he, Sys.step] at hs
      split at hs
      · next hx => exact absurd hx (h' _ _ _ _)
      · cases hs
    | agent a1 a' ret1 qs1 qs' e ho h' hs h'' => exact ⟨_, _, _, _, h'⟩
  obtain ⟨a, ha⟩ := hex
  obtain ⟨a', ha', hb⟩ := timed_next hT hi ha
  refine ⟨a', ha', ?_⟩
  cases hb with
  | waits h h' hg => exact absurd he hg
  | sends h h1 h2 h3 hs hg => exact absurd he hg
  | echo h h1 h2 h3 => exact h1
  | calm ht hg h1 h2 h3 => exact absurd he hg

/-- If nothing is awaited, the next turn of the loop sends a heartbeat, if it was not sent before. -/
theorem timed_send {i : Nat} {a : Worker.Agent} (ha : At (run i) x a) (h0 : a.beatAt = 0) {j : Nat} (hij : i ≤ j) (hj : j ≤ N) (ht : TriesBeat x ops j) :
    ∃ k, i ≤ k ∧ k ≤ j ∧ SendsBeat x run k ∧ ∃ b, At (run (k + 1)) x b ∧ b.beatAt ≠ 0 := by
  obtain ⟨n, rfl⟩ : ∃ n, j = i + n := ⟨j - i, by omega⟩
  induction n generalizing i a with
  | zero =>
    obtain ⟨a', ha', hb⟩ := timed_next hT (by omega : i ≤ N) ha
    cases hb with
    | waits h h' hg => exact absurd h0 h
    | sends h h1 h2 h3 hs hg => exact ⟨i, by omega, by omega, hs, a', ha', h1⟩
    | echo h h1 h2 h3 =>
      obtain ⟨_, _, ht⟩ := ht
      obtain ⟨_, h⟩ := h
      rw [Nat.add_zero, h] at ht; cases ht
    | calm ht' hg h1 h2 h3 => exact absurd ht ht'
  | succ n ih =>
    obtain ⟨a', ha', hb⟩ := timed_next hT (by omega : i ≤ N) ha
    have go : a'.beatAt = 0 → ∃ k, i ≤ k ∧ k ≤ i + (n + 1) ∧ SendsBeat x run k ∧ ∃ b, At (run (k + 1)) x b ∧ b.beatAt ≠ 0 := by
      intro h0'
      obtain ⟨k, h1, h2, h3⟩ := ih ha' h0' (by omega) (by omega) (by rwa [Nat.add_right_comm, Nat.add_assoc])
      exact ⟨k, by omega, by omega, h3⟩
    cases hb with
    | waits h h' hg => exact absurd h0 h
    | sends h h1 h2 h3 hs hg => exact ⟨i, by omega, by omega, hs, a', ha', h1⟩
    | echo h h1 h2 h3 => exact go h1
    | calm ht' hg h1 h2 h3 => exact go (h1.trans h0)

end

end Verif.System
