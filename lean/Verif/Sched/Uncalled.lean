import Verif.Sched.Called

/-!
# When workers are told to cancel nothing

A lemma.  Nobody cancels anything and no node of a graph fails.
-/

namespace Verif.Sched

open Verif.Queue Verif.Util Verif.Wire Verif.Spec

/-- Nobody cancels anything and no node of a graph fails. -/
structure Untroubled (l : Log) : Prop where
  task : ∀ c t, (c, .taskCancel t) ∉ l
  graph : ∀ c g, (c, .graphTaskCancel g) ∉ l
  node : ∀ w t st d r, (w, .taskResult t st d r) ∈ l → InGraph l t → st = .success

/-- No cancels, and no node that failed. -/
def Uncalled (a : Abs) : Prop :=
  (∀ w t, (w, .taskCancel t) ∉ a.out) ∧ ∀ gid g t i, a.graphs gid = some g → g.tasks.get? t = some i → i.state ≠ .failed ∧ i.state ≠ .canceled

theorem AStep.uncalled {h : History} {a b : Abs} (hs : AStep h a b) (hi : Inv h a) (hu : Untroubled h.log) (x : Uncalled a) : Uncalled b := by
  obtain ⟨x1, x2⟩ := x
  have put : ∀ {gid' : Bytes} {g1 : Graph}, (∀ t i, g1.tasks.get? t = some i → i.state ≠ .failed ∧ i.state ≠ .canceled) →
      ∀ gid g t i, upd a.graphs gid' (some g1) gid = some g → g.tasks.get? t = some i → i.state ≠ .failed ∧ i.state ≠ .canceled := by
    intro gid' g1 h1 gid g t i hg ht
    rw [upd_apply] at hg
    split at hg
    · cases hg; exact h1 t i ht
    · exact x2 gid g t i hg ht
  have say : ∀ {c : Bytes} {m : Message}, (∀ t, m ≠ .taskCancel t) → ∀ w t, (w, Message.taskCancel t) ∉ a.out ++ [(c, m)] := by
    intro c m hm w t h1
    rcases List.mem_append.1 h1 with h1 | h1
    · exact x1 w t h1
    · cases List.mem_singleton.1 h1
      exact hm t rfl
  have consume : ∀ {gid : Bytes} {g g' : Graph} {t : Bytes} {i : NodeInfo} {k : Task} {gone : Bytes → Bool}, a.graphs gid = some g → Consume g t i k g' gone →
      ∀ t i, g'.tasks.get? t = some i → i.state ≠ .failed ∧ i.state ≠ .canceled := by
    intro gid g g' t i k gone hg hc t' i' h1
    rw [hc.tasks] at h1
    split at h1
    · cases h1; exact ⟨nofun, nofun⟩
    · split at h1
      · cases h1
      · exact x2 gid g t' i' hg h1
  cases hs with
  | say c m hx =>
    refine ⟨say fun t e => ?_, x2⟩
    subst e
    exact hx.elim
  | halt t' w' hw hc => obtain ⟨c, hc⟩ := hc; exact absurd hc (hu.task c t')
  | refuse | accept | place => exact ⟨say nofun, x2⟩
  | answer r c he hc hn =>
    refine ⟨say nofun, ?_⟩
    have : (a.retire r.taskId r.status).graphs = a.graphs := by cases r.status <;> rfl
    rw [this]
    exact x2
  | nodeDone r gid g i st so he hn hg hi' hst hso =>
    refine ⟨by cases r.status <;> exact x1, put fun t i' h1 => ?_⟩
    dsimp only at h1
    rw [Dict.get?_set] at h1
    split at h1
    · cases h1
      obtain ⟨-, ⟨⟨w, hw⟩, -⟩ | ⟨-, -, c, hc⟩⟩ := he
      · obtain ⟨gt, hok⟩ := hi.graphs gid g hg
        have := hu.node w r.taskId r.status _ _ hw ⟨g.client, gt, hok.src, List.mem_cons_of_mem _ (hok.mem_node hi')⟩
        rw [this] at hst
        cases hst
        exact ⟨nofun, nofun⟩
      · exact absurd hc (hu.task c _)
    · exact x2 gid g t i' hg h1
  | unpack c gt rest g hq hk hc hg hin ht =>
    refine ⟨x1, put fun t i h1 => ?_⟩
    rw [hin t i h1]
    exact ⟨nofun, nofun⟩
  | getReady gid g hg => exact ⟨x1, put fun t i h1 => x2 gid g t i hg h1⟩
  | launch gid g t i k g' gone hg ht hin ho hk ha hd hc => exact ⟨say nofun, put (consume hg hc)⟩
  | reject gid g t i k g' gone hg ht hin ho hk ha hd hc hl => exact ⟨say nofun, put (consume hg hc)⟩
  | clean gid g ids ans hg hids hnodup hw ha he =>
    constructor
    · intro w t hm
      rcases List.mem_append.1 hm with hm | hm
      · exact x1 w t hm
      · cases ha with
        | none => obtain ⟨c, hc⟩ := he rfl; exact absurd hc (hu.graph c gid)
        | success hd hr =>
          rcases List.mem_append.1 hm with hm | hm
          · obtain ⟨t', -, h1⟩ := List.mem_filterMap.1 hm
            split at h1
            · next i hi' => rw [hd t' i hi'] at h1; cases h1
            · cases h1
          · cases List.mem_singleton.1 hm
        | @failed t0 i st r ht hst hi' hr =>
          have := x2 gid g t0 i hg ht
          cases st <;> first | exact absurd rfl hst | exact this.1 hi' | exact this.2 hi' | exact hi'.elim
    · intro gid' g' t i h1 h2
      dsimp only [Abs.clean] at h1
      rw [upd_apply] at h1
      split at h1
      · cases h1
      · exact x2 gid' g' t i h1 h2
  | _ => exact ⟨x1, x2⟩

theorem Reach.uncalled {cfg : Config} {l : Log} {s : Sched} (hr : Reach cfg l s) (hu : Untroubled l) : Uncalled s.abs := by
  induction hr with
  | init => exact ⟨nofun, fun gid g t i h => by cases h⟩
  | @step l s s' e hr ha hs ih =>
    have hsub : Untroubled l := ⟨fun c t h => hu.task c t (List.mem_append_left _ h), fun c g h => hu.graph c g (List.mem_append_left _ h),
      fun w t st d r h ⟨c, gt, h1, h2⟩ => hu.node w t st d r (List.mem_append_left _ h) ⟨c, gt, List.mem_append_left _ h1, h2⟩⟩
    have hA : Sched.After (e.hist l) s s' := (step_post hr.good e ha).ok hs
    exact hA.steps.lift (P := Uncalled) (fun a b st hi hp => st.uncalled hi hu hp) (hr.good.inv.mono (e.hist_mem l)) (ih hsub)

end Verif.Sched
