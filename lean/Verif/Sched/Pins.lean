import Verif.Sched.Once

/-!
# Claims on functions, running nodes, and what is sent to clients
-/

namespace Verif.Sched

open Verif.Queue Verif.Util Verif.Wire Verif.Spec

variable {h : History} {a b : Abs}

/-- The submission of `t` was refused for lack of workers. -/
def Rejected (a : Abs) (t : Bytes) : Prop := a.limited = true ∧ ∃ c, (c, .taskEcho t .noWorker) ∈ a.out

/-- A node of a graph in the tables that is not finished. -/
def Live (a : Abs) (t : Bytes) : Prop :=
  ∃ gid g i, a.graphs gid = some g ∧ g.tasks.get? t = some i ∧ (i.state = .inactive ∨ i.state = .running)

structure Pins (h : History) (a : Abs) : Prop where
  running : ∀ gid g t i, a.graphs gid = some g → g.tasks.get? t = some i → i.state = .running →
    (a.tasks t).isSome ∨ Rejected a t
  uses : ∀ t, (a.uses t).isSome → (a.tasks t).isSome ∨ Live a t ∨ InGraph h.log t ∧ Rejected a t

theorem AStep.limited (hs : AStep h a b) : b.limited = a.limited := by
  cases hs <;> first | rfl | (simp only [Abs.retire, Abs.count]; split <;> rfl)

theorem AStep.rejected (hs : AStep h a b) {t : Bytes} (hr : Rejected a t) : Rejected b t := by
  obtain ⟨h1, c, h2⟩ := hr
  exact ⟨hs.limited.trans h1, c, hs.out_mono h2⟩

theorem Live.same (ht : b.graphs = a.graphs) {t : Bytes} (hl : Live a t) : Live b t := by
  obtain ⟨gid, g, i, h1, h2, h3⟩ := hl
  exact ⟨gid, g, i, by rw [ht]; exact h1, h2, h3⟩

/-- Steps that leave graphs alone, keep tasks and add no claim. -/
theorem Pins.same (hP : Pins h a) (hs : AStep h a b) (hg : b.graphs = a.graphs) (ht : ∀ t, (a.tasks t).isSome → (b.tasks t).isSome)
    (hu : ∀ t, (b.uses t).isSome → (a.uses t).isSome ∨ (b.tasks t).isSome) : Pins h b := by
  constructor
  · intro gid g t i h1 h2 h3
    rw [hg] at h1
    rcases hP.running gid g t i h1 h2 h3 with x | x
    · exact Or.inl (ht t x)
    · exact Or.inr (hs.rejected x)
  · intro t hx
    rcases hu t hx with hx | hx
    · rcases hP.uses t hx with x | x | ⟨x, y⟩
      · exact Or.inl (ht t x)
      · exact Or.inr (Or.inl (x.same hg))
      · exact Or.inr (Or.inr ⟨x, hs.rejected y⟩)
    · exact Or.inl hx

/-- Steps that start a node. -/
theorem Pins.start (hP : Pins h a) (hi : Inv h a) (hs : AStep h a b) {gid : Bytes} {g g' : Graph} {t : Bytes} {i : NodeInfo} {k : Task}
    {gone : Bytes → Bool} (hg : a.graphs gid = some g) (ht : g.tasks.get? t = some i)
    (hd : ∀ d ∈ inputs i.task, ∃ j, g.tasks.get? d = some j ∧ j.state = .success) (hc : Consume g t i k g' gone)
    (hgs : b.graphs = upd a.graphs gid (some g')) (hts : ∀ x, (a.tasks x).isSome → (b.tasks x).isSome)
    (hu : ∀ x, (b.uses x).isSome → (a.uses x).isSome ∨ (b.tasks x).isSome)
    (hk : (b.tasks t).isSome ∨ Rejected b t) : Pins h b := by
  constructor
  · intro gid1 g1 x j h1 h2 h3
    rw [hgs, upd_apply] at h1
    have old : ∀ {g0 : Graph} {gid0 : Bytes}, a.graphs gid0 = some g0 → g0.tasks.get? x = some j → (b.tasks x).isSome ∨ Rejected b x := by
      intro g0 gid0 e1 e2
      rcases hP.running gid0 g0 x j e1 e2 h3 with y | y
      · exact Or.inl (hts x y)
      · exact Or.inr (hs.rejected y)
    by_cases e : gid = gid1
    · rw [if_pos e] at h1
      cases h1
      rw [hc.tasks] at h2
      split at h2
      · next e => subst e; exact hk
      · split at h2
        · cases h2
        · exact old hg h2
    · rw [if_neg e] at h1
      exact old h1 h2
  · intro x hx
    rcases hu x hx with hx | hx
    · rcases hP.uses x hx with y | ⟨gid1, g1, j, h1, h2, h3⟩ | ⟨y, z⟩
      · exact Or.inl (hts x y)
      · by_cases e : gid1 = gid
        · subst e
          rw [hg] at h1; cases h1
          have hb : b.graphs gid1 = some g' := by rw [hgs]; simp
          by_cases ext : x = t
          · rcases hk with hk | hk
            · rw [ext]; exact Or.inl hk
            · exact Or.inr (Or.inr ⟨hi.tasks_inGraph hg h2, by rw [ext]; exact hk⟩)
          · have hgone : gone x = false := by
              cases hx' : gone x with
              | false => rfl
              | true =>
                obtain ⟨j', hj', hs'⟩ := hd x ((hc.ghost x).1 hx').1
                rw [h2] at hj'; cases hj'
                rw [hs'] at h3
                simp at h3
            refine Or.inr (Or.inl ⟨gid1, g', j, hb, ?_, h3⟩)
            rw [hc.tasks, if_neg ext, hgone]
            exact h2
        · refine Or.inr (Or.inl ⟨gid1, g1, j, ?_, h2, h3⟩)
          rw [hgs, upd_apply, if_neg (Ne.symm e)]
          exact h1
      · exact Or.inr (Or.inr ⟨y, hs.rejected z⟩)
    · exact Or.inl hx

theorem AStep.pins (hs : AStep h a b) (hi : Inv h a) (hP : Pins h a) : Pins h b := by
  cases hs with
  | say c m hm => exact hP.same (.say c m hm) rfl (fun _ x => x) (fun _ x => Or.inl x)
  | halt t w hw hc => exact hP.same (.halt t w hw hc) rfl (fun _ x => x) (fun _ x => Or.inl x)
  | func fid i hx hn => exact hP.same (.func fid i hx hn) rfl (fun _ x => x) (fun _ x => Or.inl x)
  | drop fid hx => exact hP.same (.drop fid hx) rfl (fun _ x => x) (fun _ x => Or.inl x)
  | refuse c k st h1 h2 h3 h4 => exact hP.same (.refuse c k st h1 h2 h3 h4) rfl (fun _ x => x) (fun _ x => Or.inl x)
  | accept c k h1 h2 h3 h4 =>
    refine hP.same (.accept c k h1 h2 h3 h4) rfl ?_ ?_
    · intro t ht
      simp only [Abs.accept, upd_apply]
      split
      · rfl
      · exact ht
    · intro t ht
      simp only [Abs.accept, upd_apply] at ht ⊢
      split
      · exact Or.inr rfl
      · next e => rw [if_neg e] at ht; exact Or.inl ht
  | up w hb hs => exact hP.same (.up w hb hs) rfl (fun _ x => x) (fun _ x => Or.inl x)
  | requeue ts up' h1 h2 h3 h4 h5 => exact hP.same (.requeue ts up' h1 h2 h3 h4 h5) rfl (fun _ x => x) (fun _ x => Or.inl x)
  | queueGraph c gt h1 h2 h3 h4 => exact hP.same (.queueGraph c gt h1 h2 h3 h4) rfl (fun _ x => x) (fun _ x => Or.inl x)
  | take t ts k h1 h2 h3 => exact hP.same (.take t ts k h1 h2 h3) rfl (fun _ x => x) (fun _ x => Or.inl x)
  | putBack k h1 => exact hP.same (.putBack k h1) rfl (fun _ x => x) (fun _ x => Or.inl x)
  | place k w h1 h2 => exact hP.same (.place k w h1 h2) rfl (fun _ x => x) (fun _ x => Or.inl x)
  | answer r c he hc hn =>
    have hs := AStep.answer (h := h) r c he hc hn
    constructor
    · intro gid g t i h1 h2 h3
      have h1' : a.graphs gid = some g := by simpa [Abs.retire] using h1
      have hne : r.taskId ≠ t := by
        rintro rfl
        have := (hi.nodes r.taskId gid).2 ⟨g, h1', by rw [h2]; rfl⟩
        rw [hn] at this; cases this
      rcases hP.running gid g t i h1' h2 h3 with x | x
      · left; simpa [Abs.retire, hne] using x
      · exact Or.inr (hs.rejected x)
    · intro t ht
      simp only [Abs.retire, upd_apply] at ht
      by_cases e : r.taskId = t
      · rw [if_pos e] at ht; cases ht
      · rw [if_neg e] at ht
        rcases hP.uses t ht with x | x | ⟨x, y⟩
        · left; simpa [Abs.retire, e] using x
        · exact Or.inr (Or.inl (x.same (by simp [Abs.retire])))
        · exact Or.inr (Or.inr ⟨x, hs.rejected y⟩)
  | nodeDone r gid g i st so he hn hg hx hst hso =>
    have hs := AStep.nodeDone (h := h) r gid g i st so he hn hg hx hst hso
    have hst' : st ≠ .running ∧ st ≠ .inactive := by
      revert hst; cases r.status <;> simp [NodeEnd] <;> rintro rfl <;> simp
    constructor
    · intro gid1 g1 t j h1 h2 h3
      simp only [upd_apply] at h1
      have old : r.taskId ≠ t → ∀ {g0 : Graph} {gid0 : Bytes}, a.graphs gid0 = some g0 → g0.tasks.get? t = some j →
          (upd a.tasks r.taskId none t).isSome ∨ Rejected a t := by
        intro hne g0 gid0 e1 e2
        rcases hP.running gid0 g0 t j e1 e2 h3 with y | y
        · left; simpa [hne] using y
        · exact Or.inr y
      suffices (upd a.tasks r.taskId none t).isSome ∨ Rejected a t from this.imp id hs.rejected
      by_cases e : gid = gid1
      · rw [if_pos e] at h1
        cases h1
        simp only [Dict.get?_set] at h2
        split at h2
        · cases h2; exact absurd h3 hst'.1
        · next hne => exact old hne hg h2
      · rw [if_neg e] at h1
        have h1' : a.graphs gid1 = some g1 := by simpa [Abs.retire] using h1
        refine old ?_ h1' h2
        rintro rfl
        exact e (hi.node_unique hg h1' (by rw [hx]; rfl) (by rw [h2]; rfl))
    · intro t ht
      simp only [Abs.retire, upd_apply] at ht
      by_cases e : r.taskId = t
      · rw [if_pos e] at ht; cases ht
      · rw [if_neg e] at ht
        rcases hP.uses t ht with x | ⟨gid1, g1, j, h1, h2, h3⟩ | ⟨x, y⟩
        · left; simpa [Abs.retire, e] using x
        · right; left
          by_cases e' : gid = gid1
          · subst e'
            rw [hg] at h1; cases h1
            refine ⟨gid, { g with tasks := g.tasks.set r.taskId { i with state := st, result := some r.result }, sorter := so }, j, by simp, ?_, h3⟩
            simp [Dict.get?_set, e, h2]
          · exact ⟨gid1, g1, j, by simp [e', h1], h2, h3⟩
        · exact Or.inr (Or.inr ⟨x, hs.rejected y⟩)
  | unpack c gt rest g hq hk hc hg hx ht =>
    have hs := AStep.unpack (h := h) (a := a) c gt rest g hq hk hc hg hx ht
    have hnone : a.graphs gt.taskId = none :=
      hi.unused_graph ((hi.queue c gt (by rw [hq]; exact List.mem_cons_self)).2 _ (mem_allIds_gid gt))
    constructor
    · intro gid1 g1 t j h1 h2 h3
      simp only [Abs.unpack, upd_apply] at h1
      by_cases e : gt.taskId = gid1
      · rw [if_pos e] at h1
        cases h1
        rw [hx t j h2] at h3; cases h3
      · rw [if_neg e] at h1
        exact (hP.running gid1 g1 t j h1 h2 h3).imp id hs.rejected
    · intro t hu
      by_cases hin : t ∈ nodeIds gt
      · obtain ⟨j, hj⟩ := Option.isSome_iff_exists.1 ((ht t).2 hin)
        exact Or.inr (Or.inl ⟨gt.taskId, g, j, by simp [Abs.unpack], hj, Or.inl (hx t j hj)⟩)
      · simp only [Abs.unpack, funcOf_none hin, Option.none_or] at hu
        rcases hP.uses t hu with x | ⟨gid1, g1, j, h1, h2, h3⟩ | ⟨x, y⟩
        · exact Or.inl x
        · refine Or.inr (Or.inl ⟨gid1, g1, j, ?_, h2, h3⟩)
          simp only [Abs.unpack, upd_apply]
          rw [if_neg]
          · exact h1
          · rintro rfl; rw [hnone] at h1; cases h1
        · exact Or.inr (Or.inr ⟨x, hs.rejected y⟩)
  | getReady gid g hg =>
    have hs := AStep.getReady (h := h) gid g hg
    constructor
    · intro gid1 g1 t j h1 h2 h3
      simp only [upd_apply] at h1
      by_cases e : gid = gid1
      · rw [if_pos e] at h1
        cases h1
        exact (hP.running gid g t j hg h2 h3).imp id hs.rejected
      · rw [if_neg e] at h1
        exact (hP.running gid1 g1 t j h1 h2 h3).imp id hs.rejected
    · intro t ht
      rcases hP.uses t ht with x | ⟨gid1, g1, j, h1, h2, h3⟩ | ⟨x, y⟩
      · exact Or.inl x
      · right; left
        by_cases e' : gid = gid1
        · subst e'
          rw [hg] at h1; cases h1
          exact ⟨gid, { g with sorter := g.sorter.getReady.2 }, j, by simp, h2, h3⟩
        · exact ⟨gid1, g1, j, by simp [e', h1], h2, h3⟩
      · exact Or.inr (Or.inr ⟨x, hs.rejected y⟩)
  | launch gid g t i k g' gone hg ht hx ho hk ha hd hc =>
    refine hP.start hi (.launch gid g t i k g' gone hg ht hx ho hk ha hd hc) hg ht hd hc rfl ?_ ?_ ?_
    · intro x hx
      simp only [Abs.accept, upd_apply]
      split
      · rfl
      · exact hx
    · intro x hx
      simp only [Abs.accept, upd_apply] at hx ⊢
      split
      · exact Or.inr rfl
      · next e => rw [if_neg e] at hx; exact Or.inl hx
    · left; simp [Abs.accept, hk.1]
  | reject gid g t i k g' gone hg ht hx ho hk ha hd hc hl =>
    refine hP.start hi (.reject gid g t i k g' gone hg ht hx ho hk ha hd hc hl) hg ht hd hc rfl ?_ ?_ ?_
    · exact fun x hx => hx
    · exact fun x hx => Or.inl hx
    · right
      refine ⟨hl, g.client, List.mem_append_right _ ?_⟩
      rw [hk.1]
      exact List.mem_cons_self
  | clean gid g ids ans hg hids hn hw ha he =>
    have hs := AStep.clean (h := h) gid g ids ans hg hids hn hw ha he
    constructor
    · intro gid1 g1 t j h1 h2 h3
      simp only [Abs.clean, upd_apply] at h1
      by_cases e : gid = gid1
      · rw [if_pos e] at h1; cases h1
      · rw [if_neg e] at h1
        exact (hP.running gid1 g1 t j h1 h2 h3).imp id hs.rejected
    · intro t ht
      simp only [Abs.clean] at ht
      by_cases e : (g.tasks.get? t).map (·.state) = some .inactive
      · rw [if_pos e] at ht; cases ht
      · rw [if_neg e] at ht
        rcases hP.uses t ht with x | ⟨gid1, g1, j, h1, h2, h3⟩ | ⟨x, y⟩
        · exact Or.inl x
        · by_cases e' : gid = gid1
          · subst e'
            rw [hg] at h1; cases h1
            have hrun : j.state = .running := by
              rcases h3 with h3 | h3
              · rw [h2] at e; simp [h3] at e
              · exact h3
            rcases hP.running gid g t j hg h2 hrun with x | x
            · exact Or.inl x
            · exact Or.inr (Or.inr ⟨hi.tasks_inGraph hg h2, hs.rejected x⟩)
          · refine Or.inr (Or.inl ⟨gid1, g1, j, ?_, h2, h3⟩)
            simp only [Abs.clean, upd_apply, if_neg e']
            exact h1
        · exact Or.inr (Or.inr ⟨x, hs.rejected y⟩)

/-! ### Messages to clients -/

/-- Results are sent to the client that was told of the acceptance, and they are what some worker sent, or
the cancellation of a waiting task. -/
structure Sent (h : History) (a : Abs) : Prop where
  held : ∀ t c, (a.tasks t).isSome → a.owner t = some c → (c, .taskEcho t .submitOK) ∈ a.out
  result : ∀ c t st d r, (c, .taskResult t st d r) ∈ a.out → (c, .taskEcho t .submitOK) ∈ a.out ∧
    ((∃ w, (w, .taskResult t st d r) ∈ h) ∨ st = .canceled ∧ d = 0 ∧ r = [] ∧ ∃ c, (c, .taskCancel t) ∈ h)

theorem Says.result_inv {l : Log} (hs : Says h a l) {c t : Bytes} {st : TaskStatus} {d : UInt32} {r : Bytes}
    (hm : (c, .taskResult t st d r) ∈ l) :
    Ends h a ⟨t, st, d, r⟩ ∧ a.owner t = some c ∧ a.node t = none := by
  cases hs with
  | mute hl => exact absurd rfl ((hl _ hm).2.1 t st d r)
  | echo => simp at hm
  | node => simp at hm
  | result r' c' he hc hn =>
    simp only [TaskRes.msg, List.mem_singleton, Prod.mk.injEq, Message.taskResult.injEq] at hm
    obtain ⟨rfl, rfl, rfl, rfl, rfl⟩ := hm
    exact ⟨he, hc, hn⟩
  | graph gid g l ans hg hl ha he =>
    rcases List.mem_append.1 hm with hm | hm
    · exact absurd rfl ((hl _ hm).2.1 t st d r)
    · cases ha <;> simp at hm

theorem AStep.sent_held (hs : AStep h a b) (hi : Inv h a) (hS : Sent h a) {t c : Bytes} (ht : (b.tasks t).isSome)
    (hc : b.owner t = some c) : (c, .taskEcho t .submitOK) ∈ b.out := by
  have old : (a.tasks t).isSome → a.owner t = some c → (c, .taskEcho t .submitOK) ∈ b.out :=
    fun x y => hs.out_mono (hS.held t c x y)
  cases hs with
  | accept c' k h1 h2 h3 h4 =>
    simp only [Abs.accept, upd_apply] at ht hc ⊢
    by_cases e : k.taskId = t
    · rw [if_pos e] at hc; cases hc
      subst e
      exact List.mem_append_right _ List.mem_cons_self
    · rw [if_neg e] at ht hc
      exact old ht hc
  | launch gid g t' i k g' gone hg ht' hx ho hk ha hd hcn =>
    simp only [Abs.accept, upd_apply] at ht hc ⊢
    by_cases e : k.taskId = t
    · rw [if_pos e] at hc; cases hc
      subst e
      exact List.mem_append_right _ List.mem_cons_self
    · rw [if_neg e] at ht hc
      exact old ht hc
  | answer r c' he hc' hn =>
    simp only [Abs.retire, upd_apply] at ht hc
    by_cases e : r.taskId = t
    · rw [if_pos e] at ht; cases ht
    · rw [if_neg e] at ht hc
      exact old ht hc
  | nodeDone r gid g i st so he hn hg hx hst hso =>
    simp only [Abs.retire, upd_apply] at ht hc
    by_cases e : r.taskId = t
    · rw [if_pos e] at ht; cases ht
    · rw [if_neg e] at ht hc
      exact old ht hc
  | unpack c' gt rest g hq hk hc' hg hx hin =>
    simp only [Abs.unpack, upd_apply] at ht hc
    by_cases e : gt.taskId = t
    · subst e
      have := hi.unused_tasks ((hi.queue c' gt (by rw [hq]; exact List.mem_cons_self)).2 _ (mem_allIds_gid gt))
      rw [this] at ht; cases ht
    · rw [if_neg e] at hc
      exact old ht hc
  | clean gid g ids ans hg hids hn hw ha he =>
    simp only [Abs.clean, upd_apply] at ht hc
    by_cases e : gid = t
    · rw [if_pos e] at hc; cases hc
    · rw [if_neg e] at hc
      exact old ht hc
  | _ => exact old ht hc

theorem AStep.sent (hs : AStep h a b) (hi : Inv h a) (hS : Sent h a) : Sent h b := by
  refine ⟨fun t c => hs.sent_held hi hS, ?_⟩
  intro c t st d r hm
  obtain ⟨l, e, hl⟩ := hs.says
  rw [e] at hm
  rcases List.mem_append.1 hm with hm | hm
  · obtain ⟨h1, h2⟩ := hS.result c t st d r hm
    exact ⟨hs.out_mono h1, h2⟩
  · obtain ⟨he, hc, _⟩ := hl.result_inv hm
    refine ⟨hs.out_mono (hS.held t c he.1 hc), ?_⟩
    rcases he.2 with ⟨hw, _⟩ | ⟨e, _, hx⟩
    · exact Or.inl hw
    · simp only [TaskRes.mk.injEq, true_and] at e
      exact Or.inr ⟨e.1, e.2.1, e.2.2, hx⟩

/-! ### Answers for graphs -/

/-- `f` gives a received successful result for every node in `ts`. -/
def Results (h : History) (gt : GraphTask) (ts rs : List Bytes) : Prop :=
  ∃ f : Bytes → Bytes, rs = ts.map f ∧ ∀ t ∈ ts, t ∈ nodeIds gt ∧ HasResult h t (f t)

/-- The graph is closed and without cycles. -/
def Proper (gt : GraphTask) : Prop :=
  (nodeIds gt).Nodup ∧ (∀ n ∈ nodeIds gt, ∀ d ∈ req gt n, d ∈ nodeIds gt) ∧
  ∃ rank : Bytes → Nat, ∀ n ∈ nodeIds gt, ∀ d ∈ req gt n, rank d < rank n

/-- A successful answer carries received results of the targets; any other is about a node that came to this end. -/
def Answered (h : History) (a : Abs) : Prop :=
  ∀ c gid st rs, (c, .graphTaskResult gid st rs) ∈ a.out → ∃ gt, (c, .graphTask gt) ∈ h ∧ gt.taskId = gid ∧ Proper gt ∧
    (st = .success → Results h gt gt.targets rs) ∧
    (st ≠ .success → (st = .failed ∨ st = .canceled) ∧ ∃ t r, rs = [r] ∧ t ∈ nodeIds gt ∧ Stopped h t st r)

theorem GraphOK.proper {gid : Bytes} {gt : GraphTask} {g : Graph} (hok : GraphOK h gid gt g) : Proper gt :=
  by
  obtain ⟨rank, hr⟩ := hok.sorter.rank
  exact ⟨hok.nodup, fun n hn d hd => hok.sorter.closed n d hn hd, rank, fun n hn d hd => hr n d hn hd⟩

theorem Says.answer_inv {l : Log} (hs : Says h a l) {c gid : Bytes} {st : TaskStatus} {rs : List Bytes}
    (hm : (c, .graphTaskResult gid st rs) ∈ l) :
    ∃ g, a.graphs gid = some g ∧ g.client = c ∧ GraphAnswer gid g [(c, .graphTaskResult gid st rs)] := by
  cases hs with
  | mute hl => exact absurd rfl ((hl _ hm).2.2 gid st rs)
  | echo => simp at hm
  | node => simp at hm
  | result r' c' he hc hn => simp [TaskRes.msg] at hm
  | graph gid' g l ans hg hl ha he =>
    rcases List.mem_append.1 hm with hm | hm
    · exact absurd rfl ((hl _ hm).2.2 gid st rs)
    · cases ha with
      | none => cases hm
      | success hd hr =>
        simp only [List.mem_singleton, Prod.mk.injEq, Message.graphTaskResult.injEq] at hm
        obtain ⟨rfl, rfl, rfl, rfl⟩ := hm
        exact ⟨g, hg, rfl, .success hd hr⟩
      | failed ht hs hi hr =>
        simp only [List.mem_singleton, Prod.mk.injEq, Message.graphTaskResult.injEq] at hm
        obtain ⟨rfl, rfl, rfl, rfl⟩ := hm
        exact ⟨g, hg, rfl, .failed ht hs hi hr⟩

theorem map_some_eq {f : Bytes → Option Bytes} {ts rs : List Bytes} (he : ts.map f = rs.map some) :
    rs = ts.map (fun t => (f t).getD []) ∧ ∀ t ∈ ts, (f t).isSome := by
  induction ts generalizing rs with
  | nil => cases rs <;> simp_all
  | cons t ts ih =>
    cases rs with
    | nil => simp at he
    | cons r rs =>
      simp only [List.map_cons, List.cons.injEq] at he
      obtain ⟨h1, h2⟩ := ih he.2
      refine ⟨by simp [he.1, ← h1], ?_⟩
      intro x hx
      rcases List.mem_cons.1 hx with rfl | hx
      · rw [he.1]; rfl
      · exact h2 x hx

theorem AStep.answered (hs : AStep h a b) (hi : Inv h a) (hA : Answered h a) : Answered h b := by
  intro c gid st rs hm
  obtain ⟨l, e, hl⟩ := hs.says
  rw [e] at hm
  rcases List.mem_append.1 hm with hm | hm
  · exact hA c gid st rs hm
  · obtain ⟨g, hg, rfl, ha⟩ := hl.answer_inv hm
    obtain ⟨gt, hok⟩ := hi.graphs gid g hg
    refine ⟨gt, hok.src, hok.id, hok.proper, ?_, ?_⟩
    · rintro rfl
      cases ha with
      | failed ht hs => exact absurd rfl hs
      | success hd hr =>
        rw [hok.targets] at hr
        obtain ⟨e1, e2⟩ := map_some_eq hr
        refine ⟨_, e1, ?_⟩
        intro t ht
        have := e2 t ht
        cases hx : g.tasks.get? t with
        | none => rw [hx] at this; cases this
        | some i =>
          obtain ⟨T, hT, rfl, hok'⟩ := hok.node t i hx
          refine ⟨List.mem_map.2 ⟨T, hT, rfl⟩, ?_⟩
          have hst := hd T.taskId i hx
          rw [NodeOK, hst] at hok'
          obtain ⟨_, _, _, _, r, hr1, hr2⟩ := hok'
          simpa [hr1] using hr2
    · intro hst
      cases ha with
      | success => exact absurd rfl hst
      | @failed t i _ r ht hs hi hr =>
        obtain ⟨T, hT, rfl, hok'⟩ := hok.node t i ht
        have hmem : T.taskId ∈ nodeIds gt := List.mem_map.2 ⟨T, hT, rfl⟩
        cases hst' : st <;> rw [hst'] at hi <;> simp only [NodeEnd] at hi
        · exact absurd hst' hst
        · rw [NodeOK, hi] at hok'
          obtain ⟨-, -, -, r', hr1, hr2⟩ := hok'
          rw [hr] at hr1; cases hr1
          exact ⟨.inl rfl, _, _, rfl, hmem, hr2⟩
        · rw [NodeOK, hi] at hok'
          obtain ⟨-, -, -, r', hr1, hr2⟩ := hok'
          rw [hr] at hr1; cases hr1
          exact ⟨.inr rfl, _, _, rfl, hmem, hr2⟩

end Verif.Sched
