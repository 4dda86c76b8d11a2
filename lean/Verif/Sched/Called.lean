import Verif.Sched.Later

/-!
# What workers are told to cancel

The scheduler tells a worker to cancel a task if a client has cancelled this task, or if it has dropped the graph of the
task.
-/

namespace Verif.Sched

open Verif.Queue Verif.Util Verif.Wire Verif.Spec

def Called (h : History) (a : Abs) : Prop :=
  ∀ w t, (w, .taskCancel t) ∈ a.out →
    (∃ c, (c, .taskCancel t) ∈ h.log) ∨ ∃ c gt, (c, .graphTask gt) ∈ h.log ∧ t ∈ nodeIds gt ∧ Dead a gt

theorem AStep.called_new {h : History} {a b : Abs} (hs : AStep h a b) (hi : Inv h a) {w t : Bytes} (hm : (w, .taskCancel t) ∈ b.out) :
    (w, .taskCancel t) ∈ a.out ∨ (∃ c, (c, .taskCancel t) ∈ h.log) ∨
      ∃ c gt, (c, .graphTask gt) ∈ h.log ∧ t ∈ nodeIds gt ∧ Dead b gt := by
  cases hs with
  | say c m hx =>
    rcases List.mem_append.1 hm with hm | hm
    · exact .inl hm
    · cases List.mem_singleton.1 hm
      exact hx.elim
  | halt t' w' hw hc =>
    rcases List.mem_append.1 hm with hm | hm
    · exact .inl hm
    · cases List.mem_singleton.1 hm
      exact .inr (.inl hc)
  | refuse | accept | place | answer | launch | reject =>
    rcases List.mem_append.1 hm with hm | hm
    · exact .inl hm
    · cases List.mem_singleton.1 hm
  | clean gid g ids ans hg hids hnodup hw ha he =>
    rcases List.mem_append.1 hm with hm | hm
    · exact .inl hm
    · rcases List.mem_append.1 hm with hm | hm
      · obtain ⟨t', -, ht⟩ := List.mem_filterMap.1 hm
        split at ht
        · next i hi' =>
          split at ht
          · cases hw' : a.worker t' with
            | none => rw [hw'] at ht; cases ht
            | some w' =>
              rw [hw'] at ht
              cases ht
              obtain ⟨gt, hok⟩ := hi.graphs gid g hg
              refine .inr (.inr ⟨g.client, gt, hok.src, hok.mem_node hi', ?_, ?_⟩)
              · show upd a.graphs gid none gt.taskId = none
                rw [upd_apply, if_pos hok.id.symm]
              · intro c hx
                have h1 := ((hi.queue c gt hx).2 gt.taskId List.mem_cons_self).2.1
                have h2 := (hi.gid gid g hg).1
                rw [hok.id, h2] at h1
                cases h1
          · cases ht
        · cases ht
      · cases ha with
        | none => cases hm
        | success => cases List.mem_singleton.1 hm
        | failed => cases List.mem_singleton.1 hm
  | nodeDone r => exact .inl (by revert hm; cases r.status <;> exact id)
  | _ => exact .inl hm

theorem AStep.called {h : History} {a b : Abs} (hs : AStep h a b) (hi : Inv h a) (hu : UniqueIds h.log) (hp : PlainSub h) (hn : NoGraphSub h)
    (x : Called h a) : Called h b := by
  intro w t hm
  rcases hs.called_new hi hm with hm | hm
  · rcases x w t hm with hx | ⟨c, gt, h1, h2, h3⟩
    · exact .inl hx
    · exact .inr ⟨c, gt, h1, h2, (hs.dead hi hu hp h1 (fun c' => hn c' gt) h3).1⟩
  · exact hm

theorem Called.mono {h h' : History} (hh : ∀ m ∈ h.log, m ∈ h'.log) {a : Abs} (x : Called h a) : Called h' a := by
  intro w t hm
  rcases x w t hm with ⟨c, hx⟩ | ⟨c, gt, h1, h2, h3⟩
  · exact .inl ⟨c, hh _ hx⟩
  · exact .inr ⟨c, gt, hh _ h1, h2, h3⟩

theorem Reach.called {cfg : Config} {l : Log} {s : Sched} (hr : Reach cfg l s) : Called ⟨l, none⟩ s.abs := by
  induction hr with
  | init => exact nofun
  | @step l s s' e hr ha hs ih =>
    have hg := hr.good
    have hr' := Reach.step e hr ha hs
    by_cases hng : NoGraphSub (e.hist l)
    · have hA : Sched.After (e.hist l) s s' := (step_post hg e ha).ok hs
      have h3 := hA.steps.lift (P := Called (e.hist l)) (fun a b st hi hp => st.called hi hr'.good.unique (e.plainSub ha) hng hp)
        (hg.inv.mono (e.hist_mem l)) (ih.mono (e.hist_mem l))
      exact Called.mono (h := e.hist l) (h' := ⟨l ++ e.input, none⟩) (fun m hm => hm) h3
    · simp only [NoGraphSub, Classical.not_forall, ne_eq, Classical.not_not] at hng
      obtain ⟨c, gt, hsub⟩ := hng
      obtain ⟨op, now, o⟩ := e
      cases op <;> simp [Event.hist, Event.input] at hsub
      rename_i source m
      obtain ⟨rfl, rfl⟩ := hsub
      have hs' : s' = s.onGraphTask source gt := by
        have := hs
        simp only [Sched.step, Sched.receive] at this
        cases this; rfl
      subst hs'
      intro w t hm
      rcases ih w t hm with ⟨c, hx⟩ | ⟨c, gt', h1, h2, h3⟩
      · exact .inl ⟨c, List.mem_append_left _ hx⟩
      · refine .inr ⟨c, gt', List.mem_append_left _ h1, h2, h3.1, fun c' hx => ?_⟩
        rcases List.mem_append.1 hx with hx | hx
        · exact h3.2 c' hx
        · cases List.mem_singleton.1 hx
          exact (ha _ List.mem_cons_self).2 gt.taskId (mem_allIds_gid gt) (.inl ⟨c, gt, h1, mem_allIds_gid gt⟩)

/-- If no client has cancelled the node itself, its graph is not in the tables any more. -/
theorem Reach.called_node {cfg : Config} {l : Log} {s : Sched} (hr : Reach cfg l s) {w t : Bytes} (hm : (w, .taskCancel t) ∈ s.out)
    (hc : ∀ c, (c, .taskCancel t) ∉ l) : s.gm.nodeGraph.get? t = none := by
  rcases hr.called w t hm with ⟨c, hx⟩ | ⟨c, gt, h1, h2, h3, -⟩
  · exact absurd hx (hc c)
  · cases hn : s.gm.nodeGraph.get? t with
    | none => rfl
    | some gid =>
      exfalso
      have hg := hr.good
      obtain ⟨g, hx, hy⟩ := (hg.inv.nodes t gid).1 hn
      obtain ⟨gt', hok⟩ := hg.inv.graphs gid g hx
      obtain ⟨i, hi⟩ := Option.isSome_iff_exists.1 hy
      have := (hg.unique _ gt' c gt t hok.src h1 (mem_allIds_node (hok.mem_node hi)) (mem_allIds_node h2)).2
      subst this
      rw [hok.id, hx] at h3
      cases h3

end Verif.Sched
