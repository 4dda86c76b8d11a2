import Verif.Sched.GraphAdd
import Verif.Spec.Sched

/-!
# What the abstract steps do to the log of sent messages
-/

namespace Verif.Sched

open Verif.Queue Verif.Util Verif.Wire Verif.Spec

variable {h : History} {a b : Abs}

theorem acks_append (p : Bytes → Bool) (t : Bytes) (l l' : Log) : acks p t (l ++ l') = acks p t l + acks p t l' := by simp [acks]
theorem refusals_append (t : Bytes) (l l' : Log) : refusals t (l ++ l') = refusals t l + refusals t l' := by simp [refusals]
theorem results_append (p : Bytes → Bool) (t : Bytes) (l l' : Log) : results p t (l ++ l') = results p t l + results p t l' := by
  simp [results]
theorem answers_append (t : Bytes) (l l' : Log) : answers t (l ++ l') = answers t l + answers t l' := by simp [answers]
theorem submits_append (t : Bytes) (l l' : Log) : submits t (l ++ l') = submits t l + submits t l' := by simp [submits]
theorem allAcks_append (l l' : Log) : allAcks (l ++ l') = allAcks l + allAcks l' := by simp [allAcks]

/-- Messages that are not about submissions, results or graphs count nowhere. -/
def Mute (l : Log) : Prop := ∀ m ∈ l, (∀ t st, m.2 ≠ .taskEcho t st) ∧ (∀ t st d r, m.2 ≠ .taskResult t st d r) ∧
  ∀ g st rs, m.2 ≠ .graphTaskResult g st rs

theorem countP_zero {f : Bytes × Message → Bool} {l : Log} (hf : ∀ m ∈ l, f m = false) : l.countP f = 0 := by
  rw [List.countP_eq_zero]
  intro m hm; simp [hf m hm]

theorem isAck_false {p : Bytes → Bool} {t : Bytes} {m : Bytes × Message} (h1 : ∀ t st, m.2 ≠ .taskEcho t st) : isAck p t m = false := by
  obtain ⟨c, m⟩ := m
  cases m <;> simp_all [isAck]

theorem isRefusal_false {t : Bytes} {m : Bytes × Message} (h1 : ∀ t st, m.2 ≠ .taskEcho t st) : isRefusal t m = false := by
  obtain ⟨c, m⟩ := m
  cases m <;> simp_all [isRefusal]

theorem isAnyAck_false {m : Bytes × Message} (h1 : ∀ t st, m.2 ≠ .taskEcho t st) : isAnyAck m = false := by
  obtain ⟨c, m⟩ := m
  cases m <;> simp_all [isAnyAck]

theorem isResult_false {p : Bytes → Bool} {t : Bytes} {m : Bytes × Message} (h1 : ∀ t st d r, m.2 ≠ .taskResult t st d r) :
    isResult p t m = false := by
  obtain ⟨c, m⟩ := m
  cases m with
  | taskResult t st d r => exact absurd rfl (h1 t st d r)
  | _ => rfl

theorem isAnswer_false {t : Bytes} {m : Bytes × Message} (h1 : ∀ t st rs, m.2 ≠ .graphTaskResult t st rs) : isAnswer t m = false := by
  obtain ⟨c, m⟩ := m
  cases m <;> simp_all [isAnswer]

theorem Mute.acks {l : Log} (hl : Mute l) (p : Bytes → Bool) (t : Bytes) : Spec.acks p t l = 0 :=
  countP_zero fun m hm => isAck_false (hl m hm).1
theorem Mute.refusals {l : Log} (hl : Mute l) (t : Bytes) : Spec.refusals t l = 0 :=
  countP_zero fun m hm => isRefusal_false (hl m hm).1
theorem Mute.results {l : Log} (hl : Mute l) (p : Bytes → Bool) (t : Bytes) : Spec.results p t l = 0 :=
  countP_zero fun m hm => isResult_false (hl m hm).2.1
theorem Mute.answers {l : Log} (hl : Mute l) (t : Bytes) : Spec.answers t l = 0 :=
  countP_zero fun m hm => isAnswer_false (hl m hm).2.2
theorem Mute.allAcks {l : Log} (hl : Mute l) : Spec.allAcks l = 0 :=
  countP_zero fun m hm => isAnyAck_false (hl m hm).1

theorem Neutral.mute {c : Bytes} {m : Message} (hm : Neutral m) : Mute [(c, m)] := by
  intro x hx
  rw [List.mem_singleton] at hx
  subst hx
  refine ⟨?_, ?_, ?_⟩
  · rintro t st rfl; exact hm
  · rintro t st d r rfl; exact hm
  · rintro t st rs rfl; exact hm

theorem mute_nil : Mute [] := fun _ hm => by cases hm

theorem mute_task (w : Bytes) (k : Task) : Mute [(w, .task k)] := by
  intro x hx
  rw [List.mem_singleton] at hx
  subst hx
  exact ⟨by simp, by simp, by simp⟩

theorem mute_cancels (a : Abs) (g : Graph) (ids : List Bytes) : Mute (cancels a g ids) := by
  intro m hm
  obtain ⟨t, _, ht⟩ := List.mem_filterMap.1 hm
  have : ∃ w, m = (w, .taskCancel t) := by
    split at ht
    · split at ht
      · obtain ⟨w, _, e⟩ := Option.map_eq_some_iff.1 ht
        exact ⟨w, e.symm⟩
      · cases ht
    · cases ht
  obtain ⟨w, rfl⟩ := this
  exact ⟨by simp, by simp, by simp⟩

/-- What one step says: nothing of interest, an echo, a result or the answer for a graph. -/
inductive Says (h : History) (a : Abs) : Log → Prop
  | mute {l} (hl : Mute l) : Says h a l
  | echo (c k st) (hk : h.sub = some (c, .task k)) (hf : Fresh a k.taskId) (hst : st = .submitOK → (a.funcs k.functionId).isSome)
      (hl : st = .noWorker → a.limited = true) :
      Says h a [(c, .taskEcho k.taskId st)]
  | node (gid g t i st) (hg : a.graphs gid = some g) (ht : g.tasks.get? t = some i) (hi : i.state = .inactive)
      (hst : st = .submitOK ∨ st = .noWorker ∧ a.limited = true) : Says h a [(g.client, .taskEcho t st)]
  | result (r c) (he : Ends h a r) (hc : a.owner r.taskId = some c) (hn : a.node r.taskId = none) : Says h a [(c, r.msg)]
  | graph (gid g l ans) (hg : a.graphs gid = some g) (hl : Mute l) (ha : GraphAnswer gid g ans)
      (he : ans = [] → ∃ c, (c, .graphTaskCancel gid) ∈ h) : Says h a (l ++ ans)

theorem AStep.says (hs : AStep h a b) : ∃ l, b.out = a.out ++ l ∧ Says h a l := by
  cases hs with
  | say c m hm => exact ⟨_, rfl, .mute hm.neutral.mute⟩
  | halt t w hw => exact ⟨_, rfl, .mute (show Neutral (.taskCancel t) from trivial).mute⟩
  | func => exact ⟨[], by simp, .mute mute_nil⟩
  | drop => exact ⟨[], by simp, .mute mute_nil⟩
  | refuse c k st hs hst hf hl => exact ⟨_, rfl, .echo c k st hs hf (fun e => absurd e hst) hl⟩
  | accept c k hs hm hf hk => exact ⟨_, rfl, .echo c k .submitOK hs hf (fun _ => hk) (by simp)⟩
  | up => exact ⟨[], by simp, .mute mute_nil⟩
  | requeue => exact ⟨[], by simp, .mute mute_nil⟩
  | queueGraph => exact ⟨[], by simp, .mute mute_nil⟩
  | take => exact ⟨[], by simp, .mute mute_nil⟩
  | putBack => exact ⟨[], by simp, .mute mute_nil⟩
  | place k w hp hw => exact ⟨_, rfl, .mute (mute_task w k)⟩
  | answer r c he hc hn => exact ⟨_, rfl, .result r c he hc hn⟩
  | nodeDone => exact ⟨[], by simp [Abs.retire], .mute mute_nil⟩
  | unpack => exact ⟨[], by simp [Abs.unpack], .mute mute_nil⟩
  | getReady => exact ⟨[], by simp, .mute mute_nil⟩
  | launch gid g t i k g' gone hg ht hi ho hk ha hd hc =>
    refine ⟨_, rfl, ?_⟩
    have := Says.node (h := h) gid g t i .submitOK hg ht hi (Or.inl rfl)
    rw [← hk.1] at this
    exact this
  | reject gid g t i k g' gone hg ht hi ho hk ha hd hc hl =>
    refine ⟨_, rfl, ?_⟩
    have := Says.node (h := h) gid g t i .noWorker hg ht hi (Or.inr ⟨rfl, hl⟩)
    rw [← hk.1] at this
    exact this
  | clean gid g ids ans hg hids hn hw ha he =>
    exact ⟨_, rfl, .graph gid g _ ans hg (mute_cancels a g ids) ha he⟩

/-! ### Ids in graphs -/

theorem mem_allIds_gid (gt : GraphTask) : gt.taskId ∈ allIds gt := List.mem_cons_self
theorem mem_allIds_node {gt : GraphTask} {t : Bytes} (ht : t ∈ nodeIds gt) : t ∈ allIds gt := List.mem_cons_of_mem _ ht

theorem GraphOK.inGraph {gid : Bytes} {gt : GraphTask} {g : Graph} (hok : GraphOK h gid gt g) : InGraph h.log gid :=
  ⟨g.client, gt, hok.src, by rw [← hok.id]; exact mem_allIds_gid gt⟩

theorem GraphOK.mem_node {gid : Bytes} {gt : GraphTask} {g : Graph} (hok : GraphOK h gid gt g) {t : Bytes} {i : NodeInfo}
    (ht : g.tasks.get? t = some i) : t ∈ nodeIds gt := by
  obtain ⟨T, hT, rfl, _⟩ := hok.node t i ht
  exact List.mem_map.2 ⟨T, hT, rfl⟩

theorem Inv.graph_inGraph (hi : Inv h a) {gid : Bytes} {g : Graph} (hg : a.graphs gid = some g) : InGraph h.log gid := by
  obtain ⟨gt, hok⟩ := hi.graphs gid g hg
  exact hok.inGraph

theorem Inv.tasks_inGraph (hi : Inv h a) {gid : Bytes} {g : Graph} {t : Bytes} {i : NodeInfo} (hg : a.graphs gid = some g)
    (ht : g.tasks.get? t = some i) : InGraph h.log t := by
  obtain ⟨gt, hok⟩ := hi.graphs gid g hg
  exact ⟨g.client, gt, hok.src, mem_allIds_node (hok.mem_node ht)⟩

theorem Inv.node_inGraph (hi : Inv h a) {t gid : Bytes} (hn : a.node t = some gid) : InGraph h.log t := by
  obtain ⟨g, hg, ht⟩ := (hi.nodes t gid).1 hn
  obtain ⟨i, ht⟩ := Option.isSome_iff_exists.1 ht
  exact hi.tasks_inGraph hg ht

theorem Inv.queue_inGraph (hi : Inv h a) {c : Bytes} {gt : GraphTask} (hq : (c, gt) ∈ a.queue) {t : Bytes} (ht : t ∈ allIds gt) :
    InGraph h.log t := ⟨c, gt, (hi.queue c gt hq).1, ht⟩

theorem GraphAnswer.counts {gid : Bytes} {g : Graph} {ans : Log} (ha : GraphAnswer gid g ans) :
    (∀ p t, acks p t ans = 0) ∧ (∀ t, refusals t ans = 0) ∧ (∀ p t, results p t ans = 0) ∧ allAcks ans = 0 ∧
    (∀ x, x ≠ gid → answers x ans = 0) ∧ (ans = [] ∨ answers gid ans = 1) := by
  cases ha with
  | none => exact ⟨fun _ _ => rfl, fun _ => rfl, fun _ _ => rfl, rfl, fun _ _ => rfl, Or.inl rfl⟩
  | success hd hr =>
    refine ⟨fun _ _ => rfl, fun _ => rfl, fun _ _ => rfl, rfl, ?_, Or.inr ?_⟩
    · intro x hx; simp [answers, isAnswer, hx.symm]
    · simp [answers, isAnswer]
  | failed ht hs hx hr =>
    refine ⟨fun _ _ => rfl, fun _ => rfl, fun _ _ => rfl, rfl, ?_, Or.inr ?_⟩
    · intro x hx; simp [answers, isAnswer, hx.symm]
    · simp [answers, isAnswer]

/-! ### Submissions and results of single tasks -/

/-- Every accepted submission of a single task is answered once, or the task is still held. -/
def Acct (h : History) (a : Abs) : Prop :=
  ∀ p t, ¬ InGraph h.log t → acks p t a.out = results p t a.out + if (a.owner t).any p = true ∧ (a.tasks t).isSome then 1 else 0

theorem Acct.of_same (hA : Acct h a) (ho : ∃ l, b.out = a.out ++ l ∧ Mute l)
    (hs : ∀ t, ¬ InGraph h.log t → b.owner t = a.owner t ∧ b.tasks t = a.tasks t) : Acct h b := by
  intro p t ht
  obtain ⟨l, e, hl⟩ := ho
  obtain ⟨e1, e2⟩ := hs t ht
  rw [e, acks_append, results_append, hl.acks, hl.results, e1, e2]
  exact hA p t ht

theorem AStep.acct (hs : AStep h a b) (hi : Inv h a) (hA : Acct h a) : Acct h b := by
  cases hs with
  | say c m hm => exact hA.of_same ⟨_, rfl, hm.neutral.mute⟩ (fun _ _ => ⟨rfl, rfl⟩)
  | halt t w hw => exact hA.of_same ⟨_, rfl, (show Neutral (.taskCancel t) from trivial).mute⟩ (fun _ _ => ⟨rfl, rfl⟩)
  | func => exact hA.of_same ⟨[], by simp, mute_nil⟩ (fun _ _ => ⟨rfl, rfl⟩)
  | drop => exact hA.of_same ⟨[], by simp, mute_nil⟩ (fun _ _ => ⟨rfl, rfl⟩)
  | refuse c k st hs hst hf hl =>
    intro p t ht
    have := hA p t ht
    simp only [acks_append, results_append]
    have e1 : acks p t [(c, .taskEcho k.taskId st)] = 0 := by
      cases st <;> first | exact absurd rfl hst | rfl
    have e2 : results p t [(c, .taskEcho k.taskId st)] = 0 := rfl
    rw [e1, e2]
    exact this
  | accept c k hs hm hf hk =>
    intro p t ht
    have := hA p t ht
    simp only [Abs.accept, acks_append, results_append, upd_apply]
    have e2 : results p t [(c, .taskEcho k.taskId .submitOK)] = 0 := rfl
    rw [e2]
    by_cases e : k.taskId = t
    · subst e
      have h1 := hi.unused_tasks hf.1
      rw [h1] at this
      simp only [Option.isSome_none, Bool.false_eq_true, and_false, if_false] at this
      rw [this]
      by_cases hp : p c = true <;> simp [acks, isAck, hp]
    · have : acks p t [(c, .taskEcho k.taskId .submitOK)] = 0 := by simp [acks, isAck, e]
      simp only [if_neg e, this]
      exact hA p t ht
  | up => exact hA.of_same ⟨[], by simp, mute_nil⟩ (fun _ _ => ⟨rfl, rfl⟩)
  | requeue => exact hA.of_same ⟨[], by simp, mute_nil⟩ (fun _ _ => ⟨rfl, rfl⟩)
  | queueGraph => exact hA.of_same ⟨[], by simp, mute_nil⟩ (fun _ _ => ⟨rfl, rfl⟩)
  | take => exact hA.of_same ⟨[], by simp, mute_nil⟩ (fun _ _ => ⟨rfl, rfl⟩)
  | putBack => exact hA.of_same ⟨[], by simp, mute_nil⟩ (fun _ _ => ⟨rfl, rfl⟩)
  | place k w hp hw => exact hA.of_same ⟨_, rfl, mute_task w k⟩ (fun _ _ => ⟨rfl, rfl⟩)
  | answer r c he hc hn =>
    intro p t ht
    have := hA p t ht
    simp only [Abs.retire, acks_append, results_append, upd_apply]
    have e2 : acks p t [(c, r.msg)] = 0 := rfl
    rw [e2]
    by_cases e : r.taskId = t
    · subst e
      simp only [hc, he.1, Option.any_some, and_true] at this
      simp only [if_pos]
      rw [this]
      by_cases hp : p c = true <;> simp [results, isResult, TaskRes.msg, hp]
    · have : results p t [(c, r.msg)] = 0 := by simp [results, isResult, TaskRes.msg, e]
      simp only [if_neg e, this]
      exact hA p t ht
  | nodeDone r gid g i st so he hn hg hx hst hso =>
    refine hA.of_same ⟨[], by simp [Abs.retire], mute_nil⟩ ?_
    intro t ht
    have : r.taskId ≠ t := by rintro rfl; exact ht (hi.node_inGraph hn)
    simp [Abs.retire, this]
  | unpack c gt rest g hq hk hc hg hx ht =>
    refine hA.of_same ⟨[], by simp [Abs.unpack], mute_nil⟩ ?_
    intro t ht
    have : gt.taskId ≠ t := by
      rintro rfl
      exact ht (hi.queue_inGraph (by rw [hq]; exact List.mem_cons_self) (mem_allIds_gid gt))
    simp [Abs.unpack, this]
  | getReady => exact hA.of_same ⟨[], by simp, mute_nil⟩ (fun _ _ => ⟨rfl, rfl⟩)
  | launch gid g t i k g' gone hg ht hx ho hk ha hd hc =>
    intro p x hnx
    have hne : k.taskId ≠ x := by
      rintro rfl
      rw [hk.1] at hnx
      exact hnx (hi.tasks_inGraph hg ht)
    have e1 : acks p x [(g.client, .taskEcho k.taskId .submitOK)] = 0 := by simp [acks, isAck, hne]
    have e2 : results p x [(g.client, .taskEcho k.taskId .submitOK)] = 0 := rfl
    simp only [Abs.accept, acks_append, results_append, upd_apply, if_neg hne, e1, e2]
    exact hA p x hnx
  | reject gid g t i k g' gone hg ht hx ho hk ha hd hc hl =>
    intro p x hnx
    have := hA p x hnx
    simp only [acks_append, results_append]
    exact this
  | clean gid g ids ans hg hids hn hw ha he =>
    intro p x hnx
    have hne : gid ≠ x := by rintro rfl; exact hnx (hi.graph_inGraph hg)
    obtain ⟨c1, _, c3, _⟩ := ha.counts
    have hm := mute_cancels a g ids
    simp only [Abs.clean, acks_append, results_append, upd_apply, if_neg hne, c1, c3, hm.acks, hm.results]
    exact hA p x hnx

/-! ### Echoes -/

/-- Only the submission being handled is answered with an echo; other single tasks get none. -/
theorem AStep.echo_frame (hs : AStep h a b) (hi : Inv h a) {t : Bytes} (ht : ¬ InGraph h.log t)
    (hsub : ∀ c k, h.sub = some (c, .task k) → k.taskId ≠ t) :
    acks anyone t b.out = acks anyone t a.out ∧ refusals t b.out = refusals t a.out := by
  obtain ⟨l, e, hl⟩ := hs.says
  rw [e, acks_append, refusals_append]
  suffices acks anyone t l = 0 ∧ refusals t l = 0 by rw [this.1, this.2]; exact ⟨rfl, rfl⟩
  cases hl with
  | mute hl => exact ⟨hl.acks _ _, hl.refusals _⟩
  | echo c k st hk hf hst hl =>
    have := hsub c k hk
    constructor
    · cases st <;> simp [acks, isAck, this]
    · simp [refusals, isRefusal, this]
  | node gid g t' i st hg ht' hx hst =>
    have : t' ≠ t := by rintro rfl; exact ht (hi.tasks_inGraph hg ht')
    constructor
    · cases st <;> simp [acks, isAck, this]
    · simp [refusals, isRefusal, this]
  | result r c he hc hn => exact ⟨rfl, rfl⟩
  | graph gid g l ans hg hl ha he =>
    obtain ⟨c1, c2, _⟩ := ha.counts
    rw [acks_append, refusals_append, hl.acks, hl.refusals, c1, c2]
    exact ⟨rfl, rfl⟩

/-! ### Counters -/

/-- A status with which a worker may end a task. -/
def Final (st : TaskStatus) : Prop := st = .success ∨ st = .failed ∨ st = .canceled ∨ st = .notFound

/-- Results received carry final statuses. -/
def FinalLog (h : History) : Prop := ∀ w t st d r, (w, .taskResult t st d r) ∈ h → Final st

/-- Accepted tasks are held or counted. -/
def Counted (a : Abs) : Prop := (allAcks a.out : Int) = a.success + a.failed + a.canceled + a.notFound + a.held

theorem Ends.final {r : TaskRes} (hF : FinalLog h) (he : Ends h a r) : Final r.status := by
  rcases he.2 with ⟨⟨w, hw⟩, _⟩ | ⟨e, _⟩
  · exact hF w _ _ _ _ hw
  · rw [e]; exact Or.inr (Or.inr (Or.inl rfl))

theorem Counted.retire {r : TaskRes} (hC : Counted a) (hf : Final r.status) :
    (allAcks a.out : Int) = (a.retire r.taskId r.status).success + (a.retire r.taskId r.status).failed +
      (a.retire r.taskId r.status).canceled + (a.retire r.taskId r.status).notFound + (a.retire r.taskId r.status).held := by
  unfold Counted at hC
  rcases hf with e | e | e | e <;> rw [e] <;> simp [Abs.retire, Abs.count] <;> omega

theorem AStep.counted (hs : AStep h a b) (hF : FinalLog h) (hC : Counted a) : Counted b := by
  have hmute : ∀ {l : Log}, Mute l → (allAcks (a.out ++ l) : Int) = allAcks a.out := by
    intro l hl; rw [allAcks_append, hl.allAcks]; simp
  cases hs with
  | say c m hm => exact (hmute hm.neutral.mute).trans hC
  | halt t w hw => exact (hmute (show Neutral (.taskCancel t) from trivial).mute).trans hC
  | func => exact hC
  | drop => exact hC
  | refuse c k st hs hst hf hl =>
    have : allAcks [(c, .taskEcho k.taskId st)] = 0 := by cases st <;> first | exact absurd rfl hst | rfl
    show (allAcks (a.out ++ _) : Int) = _
    rw [allAcks_append, this]
    exact hC
  | accept c k hs hm hf hk =>
    show (allAcks (a.out ++ _) : Int) = _
    rw [allAcks_append, show allAcks [(c, .taskEcho k.taskId .submitOK)] = 1 from rfl]
    unfold Counted at hC
    simp only [Abs.accept]
    omega
  | up => exact hC
  | requeue => exact hC
  | queueGraph => exact hC
  | take => exact hC
  | putBack => exact hC
  | place k w hp hw => exact (hmute (mute_task w k)).trans hC
  | answer r c he hc hn =>
    show (allAcks (a.out ++ _) : Int) = _
    rw [allAcks_append, show allAcks [(c, r.msg)] = 0 from rfl]
    exact hC.retire (he.final hF)
  | nodeDone r gid g i st so he hn hg hx hst hso =>
    show (allAcks (a.retire r.taskId r.status).out : Int) = _
    rw [show (a.retire r.taskId r.status).out = a.out by simp [Abs.retire]]
    exact hC.retire (he.final hF)
  | unpack => exact hC
  | getReady => exact hC
  | launch gid g t i k g' gone hg ht hx ho hk ha hd hc =>
    show (allAcks (a.out ++ _) : Int) = _
    rw [allAcks_append, show allAcks [(g.client, .taskEcho k.taskId .submitOK)] = 1 from rfl]
    unfold Counted at hC
    simp only [Abs.accept]
    omega
  | reject gid g t i k g' gone hg ht hx ho hk ha hd hc hl =>
    show (allAcks (a.out ++ _) : Int) = _
    rw [allAcks_append, show allAcks [(g.client, .taskEcho k.taskId .noWorker)] = 0 from rfl]
    exact hC
  | clean gid g ids ans hg hids hn hw ha he =>
    show (allAcks (a.out ++ (_ ++ _)) : Int) = _
    rw [allAcks_append, allAcks_append, (mute_cancels a g ids).allAcks, ha.counts.2.2.2.1]
    exact hC

end Verif.Sched
