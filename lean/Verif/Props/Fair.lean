import Verif.Props.Orderly
import Verif.Spec.Fair

/-!
# C97 for every run
-/

namespace Verif.Props

open Verif.Wire Verif.Sched Verif.Spec Verif.System
open Verif.Client (Pickle)

variable {F V X : Type} {p : Pickle} {rt : Proc.Runtime F V X} {cfg : Config} {s s' : Sys F} {es : List Sched.Event}
  {evs : Nat → List Sched.Event} {run : Nat → Sys F} {ops : Nat → System.Op}

theorem _root_.Verif.Spec.FairRun.continues (hf : FairRun p rt evs run ops) (i j : Nat) : Continues p rt (evs i) (run i) (evs (i + j)) (run (i + j)) := by
  induction j generalizing i with
  | zero => exact .refl _ _
  | succ j ih =>
    have h1 := ih (i + 1)
    rw [hf.next i, show i + 1 + j = i + (j + 1) by omega] at h1
    exact .step _ (hf.inner i) (hf.step i) (hf.mild i) (hf.prompt i) h1

theorem idle_peers {o : System.Op} (h : Idle s o s') : s'.peers = s.peers := by
  rcases h with h | ⟨_, _, _, _, h, _⟩
  · rw [h]
  · exact h

/-- **C97.** Where nothing happens any more, everything is answered. -/
theorem C97_stopped (h : Orderly p rt cfg es s) (hH : Harmless p rt) (hw : cfg.maxWaiting < 0) (hq : fitsBits 32 cfg.queueSize) (h1 : 1 ≤ cfg.queueSize)
    (hc : ∃ w, Connected s.sched w) (ht : turnDue es = some false) (hN : NodesReturn s)
    (hs : ∀ o s', inner o = true → Mild rt s o → s.step p rt o = some s' → Idle s o s') : AllAnswered s := by
  have hL : LoadsRight s.sched := fun v n ts hp hv => Option.some.inj (hp.symm.trans (prompt_records h.exec h.prompt (by omega) v ts hv))
  have hW : WentWell p rt cfg s := ⟨h.steady, h.noCancel, C97_rests h hH hw hq ht hN hs, hL, h1, hc⟩
  exact ⟨fun x c hx k nm b hk => well_submitted h hW hx hk, fun call hcall hkeys => well_graph h hW hw hcall hkeys⟩

/-- **C97.** In every run of a system in which everything goes as it should, everything that was asked for is answered sooner or later,
whatever the order of the events, if events that can happen do not stay away for ever. -/
theorem C97_every (hf : FairRun p rt evs run ops) (h : Orderly p rt cfg (evs 0) (run 0)) (hH : Harmless p rt) (hw : cfg.maxWaiting < 0)
    (hq : fitsBits 32 cfg.queueSize) (h1 : 1 ≤ cfg.queueSize) (hc : ∃ w, Connected (run 0).sched w)
    (hN : ∀ es' s', Continues p rt (evs 0) (run 0) es' s' → NodesReturn s') : ∃ n, ∀ i, n ≤ i → AllAnswered (run i) := by
  obtain ⟨n, hn⟩ := C91_settles run ops h.reach hf.inner hf.step
  have hcont : ∀ i, Continues p rt (evs 0) (run 0) (evs i) (run i) := fun i => by simpa using hf.continues 0 i
  have hpeers : ∀ i j, n ≤ i → (run (i + j)).peers = (run i).peers := by
    intro i j hi
    induction j with
    | zero => rfl
    | succ j ih => rw [← ih]; exact idle_peers (hn (i + j) (by omega))
  obtain ⟨j, hj, hd | ⟨ht, hno⟩⟩ := hf.progress n
  · exact absurd (hn j hj) hd
  obtain ⟨w, hc⟩ := hc
  have hans : AllAnswered (run j) :=
    C97_stopped ((hcont j).orderly h) hH hw hq h1 ⟨w, ((hcont j).keeps h).2 w hc⟩ ht (hN _ _ (hcont j)) hno
  refine ⟨j, fun i hi => ?_⟩
  obtain ⟨d, rfl⟩ : ∃ d, i = j + d := ⟨i - j, by omega⟩
  have hp := hpeers j d hj
  have hg : (run (j + d)).gets = (run j).gets := (hf.continues j d).gets
  unfold AllAnswered
  rw [hp, hg]
  exact hans

/-! ### There are such runs -/

theorem fair_cons {o : System.Op} (hf : FairRun p rt evs run ops) (hi : inner o = true) (hs : s.step p rt o = some (run 0)) (hm : Mild rt s o)
    (hp : Prompt (es ++ schedPart o)) (he : evs 0 = es ++ schedPart o) :
    FairRun p rt (fun i => match i with | 0 => es | i + 1 => evs i) (fun i => match i with | 0 => s | i + 1 => run i)
      (fun i => match i with | 0 => o | i + 1 => ops i) := by
  constructor
  · intro i; cases i with | zero => exact hi | succ i => exact hf.inner i
  · intro i; cases i with | zero => exact hs | succ i => exact hf.step i
  · intro i; cases i with | zero => exact hm | succ i => exact hf.mild i
  · intro i; cases i with | zero => exact hp | succ i => exact hf.prompt i
  · intro i; cases i with | zero => exact he | succ i => exact hf.next i
  · intro i
    obtain ⟨j, hj, h⟩ := hf.progress i
    exact ⟨j + 1, by omega, h⟩

theorem fair_stay {o : System.Op} (hi : inner o = true) (hs : s.step p rt o = some s) (hm : Mild rt s o) (ho : schedPart o = []) (ht : turnDue es = some false)
    (hno : ∀ o s', inner o = true → Mild rt s o → s.step p rt o = some s' → Idle s o s') :
    FairRun p rt (fun _ => es) (fun _ => s) (fun _ => o) :=
  ⟨fun _ => hi, fun _ => hs, fun _ => hm, fun _ => prompt_any ht, fun _ => by rw [ho, List.append_nil], fun i => ⟨i, Nat.le_refl _, .inr ⟨ht, hno⟩⟩⟩

theorem fair_before {es' : List Sched.Event} (h : Continues p rt es s es' s') (hf : FairRun p rt evs run ops) (he : evs 0 = es') (hr : run 0 = s') :
    ∃ evs' run' ops', FairRun p rt evs' run' ops' ∧ evs' 0 = es ∧ run' 0 = s := by
  induction h with
  | refl es s => exact ⟨evs, run, ops, hf, he, hr⟩
  | step o hi hs hm hp _ ih =>
    obtain ⟨evs', run', ops', hf', he', hr'⟩ := ih he hr
    exact ⟨_, _, _, fair_cons hf' hi (hr'.symm ▸ hs) hm hp he', rfl, rfl⟩

/-- Every such system has such a run. -/
theorem C97_fair_run (h : Orderly p rt cfg es s) (hH : Harmless p rt) (hw : cfg.maxWaiting < 0) (hq : fitsBits 32 cfg.queueSize)
    (hc : ∃ w, Connected s.sched w) (hN : ∀ es' s', Continues p rt es s es' s' → NodesReturn s') :
    ∃ evs run ops, FairRun p rt evs run ops ∧ evs 0 = es ∧ run 0 = s := by
  obtain ⟨es', s', h1, h2, h3⟩ := C97_stops h hw
  have ho := h1.orderly h
  have hR := C97_rests ho hH hw hq h2 (hN _ _ h1) h3
  obtain ⟨w, hc⟩ := hc
  obtain ⟨a, ret, qs, hx⟩ := hR.there w ((h1.keeps h).2 w hc)
  obtain ⟨s2, hs2⟩ := C97_fine ho hH hw hq (o := .agent w ⟨.turn, 0⟩) ⟨a, ret, qs, hx⟩ trivial (prompt_any h2)
  have e := idle_same (h3 (.agent w ⟨.turn, 0⟩) _ rfl trivial hs2) nofun
  subst e
  exact fair_before h1 (fair_stay (o := .agent w ⟨.turn, 0⟩) rfl hs2 trivial rfl h2 h3) rfl rfl

/-- A run from where the worker has a task and the client waits. -/
example : ∃ evs run ops, FairRun strictPickle kind evs run ops ∧ Orderly strictPickle kind narrow (evs 0) (run 0) ∧ Harmless strictPickle kind ∧
    narrow.maxWaiting < 0 ∧ fitsBits 32 narrow.queueSize ∧ 1 ≤ narrow.queueSize ∧ Connected (run 0).sched [2] ∧ ¬ AllAnswered (run 0) ∧
    ∀ es' s', Continues strictPickle kind (evs 0) (run 0) es' s' → NodesReturn s' := by
  have h := orderlyRun_ok narrow halfWay
  have hc : Connected (orderlyRun narrow halfWay).2.sched [2] := by decide +kernel
  have hN := C97_quiet h (List.isEmpty_iff.1 (by decide +kernel))
  have hq : fitsBits 32 narrow.queueSize := by unfold fitsBits; decide
  obtain ⟨evs, run, ops, hf, he, hr⟩ := C97_fair_run h kind_harmless (by decide) hq ⟨_, hc⟩ hN
  refine ⟨evs, run, ops, hf, by rw [he, hr]; exact h, kind_harmless, by decide, hq, by decide, by rw [hr]; exact hc, ?_, by rw [he, hr]; exact hN⟩
  rw [hr]
  obtain ⟨c, hc, h1, h2⟩ : ∃ c, clientAt (orderlyRun narrow halfWay).2 [1] = some c ∧ Client.Act.submitted ⟨[10], [9], []⟩ [5] [9] ∈ c.log ∧
      c.futures = [.pending] :=
    ⟨((clientAt (orderlyRun narrow halfWay).2 [1]).getD .init), by decide +kernel, by decide +kernel, by decide +kernel⟩
  intro hA
  obtain ⟨n, r, -, h3⟩ := hA.1 [1] c (clientAt_eq hc) _ _ _ h1
  rw [h2] at h3
  cases n with
  | zero => rcases h3 with h3 | h3 <;> cases h3
  | succ n => rcases h3 with h3 | h3 <;> cases h3

end Verif.Props
