import Verif.Sched.Later
import Verif.Spec.Peers

/-!
# Every message goes to a peer that prompted it
-/

namespace Verif.Sched

open Verif.Queue Verif.Util Verif.Wire Verif.Spec

structure Peers (h : History) (a : Abs) : Prop where
  up : ∀ w, a.up w = true → Beats h.log w
  owner : ∀ t c, a.owner t = some c → (a.tasks t).isSome → Gave h.log c t
  out : ∀ c m, (c, m) ∈ a.out → Prompted h.log c m

theorem _root_.Verif.Spec.Prompted.mono {l l' : Log} (hh : ∀ m ∈ l, m ∈ l') {c : Bytes} {m : Message} (h : Prompted l c m) : Prompted l' c m := by
  cases m <;> simp only [Prompted, Gave, Beats] at h ⊢ <;> grind

theorem Peers.mono {h h' : History} (hh : ∀ m ∈ h.log, m ∈ h'.log) {a : Abs} (x : Peers h a) : Peers h' a := by
  refine ⟨fun w hw => ?_, fun t c ho ht => ?_, fun c m hm => (x.out c m hm).mono hh⟩
  · obtain ⟨b, hb⟩ := x.up w hw
    exact ⟨b, hh _ hb⟩
  · rcases x.owner t c ho ht with ⟨k, h1, h2⟩ | ⟨g, h1, h2⟩
    · exact Or.inl ⟨k, hh _ h1, h2⟩
    · exact Or.inr ⟨g, hh _ h1, h2⟩

theorem Peers.add {h : History} {a : Abs} (x : Peers h a) {b : Abs} {l : List (Bytes × Message)} (e : b.out = a.out ++ l)
    (hup : ∀ w, b.up w = true → Beats h.log w)
    (ho : ∀ t c, b.owner t = some c → (b.tasks t).isSome → Gave h.log c t)
    (hl : ∀ c m, (c, m) ∈ l → Prompted h.log c m) : Peers h b := by
  refine ⟨hup, ho, fun c m hm => ?_⟩
  rw [e] at hm
  exact (List.mem_append.1 hm).elim (x.out c m) (hl c m)

theorem AStep.peers {h : History} {a b : Abs} (hs : AStep h a b) (hi : Inv h a) (hsub : ∀ m, h.sub = some m → m ∈ h.log)
    (x : Peers h a) : Peers h b := by
  have hret : ∀ {t' : Bytes} {st : TaskStatus} t c, (a.retire t' st).owner t = some c → ((a.retire t' st).tasks t).isSome → Gave h.log c t := by
    intro t' st t c ho ht
    simp only [Abs.retire, upd_apply] at ho ht
    split at ho
    · cases ho
    · next hne => rw [if_neg hne] at ht; exact x.owner t c ho ht
  have hup : ∀ {t' : Bytes} {st : TaskStatus} w, (a.retire t' st).up w = true → Beats h.log w := by
    intro t' st w hw
    refine x.up w ?_
    rw [← hw]; cases st <;> rfl
  have hout : ∀ {t' : Bytes} {st : TaskStatus}, (a.retire t' st).out = a.out := by
    intro t' st; cases st <;> rfl
  have hnode : ∀ {gid : Bytes} {g : Graph} {t : Bytes} {i : NodeInfo}, a.graphs gid = some g → g.tasks.get? t = some i → Gave h.log g.client t := by
    intro gid g t i hg ht
    obtain ⟨gt, hok⟩ := hi.graphs gid g hg
    obtain ⟨T, hT, e, -⟩ := hok.node t i ht
    exact Or.inr ⟨gt, hok.src, List.mem_map.2 ⟨T, hT, e⟩⟩
  cases hs with
  | say c m hm =>
    refine x.add (b := _) rfl x.up x.owner ?_
    intro c' m' hm'
    cases List.mem_singleton.1 hm'
    cases m <;> simp only [Talk] at hm <;> simp only [Prompted]
    case balanceRequest => exact x.up _ hm.1
    case functionRequest => exact ⟨hm.1, x.up _ hm.2⟩
    all_goals exact hm
  | halt t w hw =>
    refine x.add (b := _) rfl x.up x.owner ?_
    intro c' m' hm'
    cases List.mem_singleton.1 hm'
    exact x.up _ (hi.up _ _ hw)
  | func => exact ⟨x.up, x.owner, x.out⟩
  | drop => exact ⟨x.up, x.owner, x.out⟩
  | refuse c k st hs hst hf hl =>
    refine x.add (b := _) rfl x.up x.owner ?_
    intro c' m' hm'
    cases List.mem_singleton.1 hm'
    exact Or.inl ⟨k, hsub _ hs, rfl⟩
  | accept c k hs hm hf hk =>
    have hg : Gave h.log c k.taskId := Or.inl ⟨k, hm, rfl⟩
    refine x.add (b := _) rfl x.up ?_ ?_
    · intro t c' ho ht
      simp only [Abs.accept, upd_apply] at ho ht
      split at ho
      · next e => cases ho; subst e; exact hg
      · next e => rw [if_neg e] at ht; exact x.owner t c' ho ht
    · intro c' m' hm'
      cases List.mem_singleton.1 hm'
      exact hg
  | up w hb _ =>
    refine ⟨fun w' hw' => ?_, x.owner, x.out⟩
    simp only [upd_apply] at hw'
    split at hw'
    · next e => subst e; exact hb
    · exact x.up w' hw'
  | requeue ts up' h1 h2 h3 hd _ => exact ⟨fun w hw => x.up w (hd w hw), x.owner, x.out⟩
  | queueGraph => exact ⟨x.up, x.owner, x.out⟩
  | take => exact ⟨x.up, x.owner, x.out⟩
  | putBack => exact ⟨x.up, x.owner, x.out⟩
  | place k w hp hw =>
    refine x.add (b := _) rfl x.up x.owner ?_
    intro c' m' hm'
    cases List.mem_singleton.1 hm'
    exact x.up w hw
  | answer r c he hc hn =>
    refine x.add (b := _) rfl (hup (t' := r.taskId) (st := r.status)) (hret (t' := r.taskId) (st := r.status)) ?_
    intro c' m' hm'
    cases List.mem_singleton.1 hm'
    exact x.owner _ _ hc he.1
  | nodeDone r gid g i st so he hn hg hi' hst hso =>
    exact x.add (l := []) (by simp [hout]) (hup (t' := r.taskId) (st := r.status)) (hret (t' := r.taskId) (st := r.status)) (by simp)
  | unpack c gt rest g hq hk hc hg hi' ht =>
    refine x.add (l := []) (by simp [Abs.unpack]) x.up ?_ (by simp)
    intro t c' ho ht'
    simp only [Abs.unpack, upd_apply] at ho ht'
    split at ho
    · next e =>
      subst e
      have := ((hi.queue c gt (by rw [hq]; exact List.mem_cons_self)).2 gt.taskId List.mem_cons_self).2.1
      have h2 := hi.owned _ ht'
      rw [this] at h2; cases h2
    · exact x.owner t c' ho ht'
  | getReady => exact ⟨x.up, x.owner, x.out⟩
  | launch gid g t i k g' gone hg ht hi' ho hk ha hd hc =>
    have hg' : Gave h.log g.client k.taskId := by rw [hk.1]; exact hnode hg ht
    refine x.add (b := _) rfl x.up ?_ ?_
    · intro t c' ho ht
      simp only [Abs.accept, upd_apply] at ho ht
      split at ho
      · next e => cases ho; subst e; exact hg'
      · next e => rw [if_neg e] at ht; exact x.owner t c' ho ht
    · intro c' m' hm'
      cases List.mem_singleton.1 hm'
      exact hg'
  | reject gid g t i k g' gone hg ht hi' ho hk ha hd hc hl =>
    have hg' : Gave h.log g.client k.taskId := by rw [hk.1]; exact hnode hg ht
    refine x.add (b := _) rfl x.up x.owner ?_
    intro c' m' hm'
    cases List.mem_singleton.1 hm'
    exact hg'
  | clean gid g ids ans hg hids hnodup hw ha he =>
    refine x.add (b := _) rfl x.up ?_ ?_
    · intro t c ho ht
      simp only [Abs.clean, upd_apply] at ho ht
      split at ho
      · cases ho
      · exact x.owner t c ho ht
    · intro c m hm
      rcases List.mem_append.1 hm with hm | hm
      · obtain ⟨t, -, ht⟩ := List.mem_filterMap.1 hm
        split at ht
        · split at ht
          · cases hw' : a.worker t with
            | none => rw [hw'] at ht; cases ht
            | some w =>
              rw [hw'] at ht
              cases ht
              exact x.up _ (hi.up _ _ hw')
          · cases ht
        · cases ht
      · obtain ⟨gt, hok⟩ := hi.graphs gid g hg
        cases ha with
        | none => cases hm
        | success => cases List.mem_singleton.1 hm; exact ⟨gt, hok.src, hok.id⟩
        | failed => cases List.mem_singleton.1 hm; exact ⟨gt, hok.src, hok.id⟩

theorem Reach.peers {cfg : Config} {l : Log} {s : Sched} (hr : Reach cfg l s) : Peers ⟨l, none⟩ s.abs := by
  induction hr with
  | init => exact ⟨nofun, nofun, nofun⟩
  | @step l s s' e hr ha hs ih =>
    have hA : Sched.After (e.hist l) s s' := (step_post hr.good e ha).ok hs
    have h1 : Peers (e.hist l) s.abs := ih.mono (fun m hm => List.mem_append_left _ hm)
    have h2 : ∀ m, (e.hist l).sub = some m → m ∈ (e.hist l).log := by
      intro m hm
      exact List.mem_append_right _ (List.mem_of_head? hm)
    have h3 := hA.steps.lift (P := Peers (e.hist l)) (fun a b st hi hp => st.peers hi h2 hp) (hr.good.inv.mono (e.hist_mem l)) h1
    exact Peers.mono (h := e.hist l) (h' := ⟨l ++ e.input, none⟩) (fun m hm => hm) h3

end Verif.Sched
