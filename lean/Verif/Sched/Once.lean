import Verif.Sched.Account

/-!
# Nothing is said twice about a graph or its nodes
-/

namespace Verif.Sched

open Verif.Queue Verif.Util Verif.Wire Verif.Spec

variable {h : History} {a b : Abs}

/-- The id a sent message is about, if it is an echo, a result or the answer for a graph. -/
def about : Message → Option Bytes
  | .taskEcho t _ => some t
  | .taskResult t _ _ _ => some t
  | .graphTaskResult t _ _ => some t
  | _ => none

/-- Nothing was said about `t`. -/
def Quiet (t : Bytes) (l : Log) : Prop := ∀ m ∈ l, about m.2 ≠ some t

theorem Quiet.append {t : Bytes} {l l' : Log} (x : Quiet t l) (y : Quiet t l') : Quiet t (l ++ l') := by
  intro m hm
  rcases List.mem_append.1 hm with hm | hm
  · exact x m hm
  · exact y m hm

theorem Mute.quiet {l : Log} (hl : Mute l) (t : Bytes) : Quiet t l := by
  intro m hm e
  obtain ⟨h1, h2, h3⟩ := hl m hm
  obtain ⟨c, m⟩ := m
  cases m <;> simp [about] at e
  · exact h1 _ _ rfl
  · exact h2 _ _ _ _ rfl
  · exact h3 _ _ _ rfl

theorem Quiet.single {t : Bytes} {c : Bytes} {m : Message} (hm : about m ≠ some t) : Quiet t [(c, m)] := by
  intro x hx
  rw [List.mem_singleton] at hx
  subst hx
  exact hm

theorem GraphAnswer.quiet {gid : Bytes} {g : Graph} {ans : Log} (ha : GraphAnswer gid g ans) {t : Bytes} (ht : t ≠ gid) :
    Quiet t ans := by
  cases ha with
  | none => intro m hm; cases hm
  | success => exact Quiet.single (by simp [about, ht.symm])
  | failed => exact Quiet.single (by simp [about, ht.symm])

/-- A graph, or a node of it that is not started yet. -/
def Silent (queue : List (Bytes × GraphTask)) (graphs : Bytes → Option Graph) (t : Bytes) : Prop :=
  (∃ c gt, (c, gt) ∈ queue ∧ t ∈ allIds gt) ∨ (graphs t).isSome ∨
  ∃ gid g i, graphs gid = some g ∧ g.tasks.get? t = some i ∧ i.state = .inactive

theorem Inv.silent_inGraph (hi : Inv h a) {t : Bytes} (ht : Silent a.queue a.graphs t) : InGraph h.log t := by
  rcases ht with ⟨c, gt, hq, ht⟩ | hg | ⟨gid, g, i, hg, ht, _⟩
  · exact hi.queue_inGraph hq ht
  · obtain ⟨g, hg⟩ := Option.isSome_iff_exists.1 hg
    exact hi.graph_inGraph hg
  · exact hi.tasks_inGraph hg ht

/-- Changing one graph without making nodes inactive again. -/
theorem Silent.regraph {queue : List (Bytes × GraphTask)} {graphs : Bytes → Option Graph} {gid : Bytes} {g g' : Graph} {t : Bytes}
    (hg : graphs gid = some g)
    (hin : ∀ t i, g'.tasks.get? t = some i → i.state = .inactive → ∃ j, g.tasks.get? t = some j ∧ j.state = .inactive)
    (ht : Silent queue (upd graphs gid (some g')) t) : Silent queue graphs t := by
  rcases ht with hq | hx | ⟨gid', g2, i, hg2, ht, hi⟩
  · exact Or.inl hq
  · rw [upd_apply] at hx
    by_cases e : gid = t
    · subst e; exact Or.inr (Or.inl (by rw [hg]; rfl))
    · rw [if_neg e] at hx; exact Or.inr (Or.inl hx)
  · rw [upd_apply] at hg2
    by_cases e : gid = gid'
    · subst e
      rw [if_pos rfl] at hg2
      cases hg2
      obtain ⟨j, hj, hs⟩ := hin t i ht hi
      exact Or.inr (Or.inr ⟨gid, g, j, hg, hj, hs⟩)
    · rw [if_neg e] at hg2; exact Or.inr (Or.inr ⟨gid', g2, i, hg2, ht, hi⟩)

theorem Consume.inactive {g g' : Graph} {t : Bytes} {i : NodeInfo} {k : Task} {gone : Bytes → Bool} (hc : Consume g t i k g' gone)
    {x : Bytes} {j : NodeInfo} (hx : g'.tasks.get? x = some j) (hj : j.state = .inactive) : x ≠ t ∧ g.tasks.get? x = some j := by
  rw [hc.tasks] at hx
  split at hx
  · cases hx; cases hj
  · next e =>
    split at hx
    · cases hx
    · exact ⟨e, hx⟩

/-- A started node is not silent any more. -/
theorem Inv.started_not_silent (hi : Inv h a) {gid : Bytes} {g g' : Graph} {t : Bytes} {i : NodeInfo} {k : Task} {gone : Bytes → Bool}
    (hg : a.graphs gid = some g) (ht : g.tasks.get? t = some i) (hc : Consume g t i k g' gone) :
    ¬ Silent a.queue (upd a.graphs gid (some g')) t := by
  have hnode : a.node t = some gid := (hi.nodes t gid).2 ⟨g, hg, by rw [ht]; rfl⟩
  rintro (⟨c, gt, hq, hx⟩ | hx | ⟨gid', g2, j, hg2, hx, hj⟩)
  · have := ((hi.queue c gt hq).2 t hx).2.2
    rw [hnode] at this; cases this
  · have : (a.graphs t).isSome := by
      rw [upd_apply] at hx
      by_cases e : gid = t
      · subst e; rw [hg]; rfl
      · rwa [if_neg e] at hx
    obtain ⟨g0, h0⟩ := Option.isSome_iff_exists.1 this
    have := (hi.gid t g0 h0).2.2
    rw [hnode] at this; cases this
  · rw [upd_apply] at hg2
    by_cases e : gid = gid'
    · subst e
      rw [if_pos rfl] at hg2
      cases hg2
      exact (hc.inactive hx hj).1 rfl
    · rw [if_neg e] at hg2
      exact e (hi.node_unique hg hg2 (by rw [ht]; rfl) (by rw [hx]; rfl))

/-- A task that ends and is no node of a graph is not silent. -/
theorem Inv.plain_not_silent (hi : Inv h a) {t : Bytes} (ht : (a.tasks t).isSome) (hn : a.node t = none) :
    ¬ Silent a.queue a.graphs t := by
  rintro (⟨c, gt, hq, hx⟩ | hx | ⟨gid, g, i, hg, hx, _⟩)
  · exact hi.not_unused ht ((hi.queue c gt hq).2 t hx)
  · rw [hi.task_graph ht] at hx; cases hx
  · have := (hi.nodes t gid).2 ⟨g, hg, by rw [hx]; rfl⟩
    rw [hn] at this; cases this

/-- A removed graph is not silent any more. -/
theorem Inv.cleaned_not_silent (hi : Inv h a) {gid : Bytes} {g : Graph} (hg : a.graphs gid = some g) :
    ¬ Silent a.queue (upd a.graphs gid none) gid := by
  obtain ⟨h1, h2, h3⟩ := hi.gid gid g hg
  rintro (⟨c, gt, hq, hx⟩ | hx | ⟨gid', g2, i, hg2, hx, _⟩)
  · have := ((hi.queue c gt hq).2 gid hx).2.1
    rw [h1] at this; cases this
  · simp at hx
  · rw [upd_apply] at hg2
    by_cases e : gid = gid'
    · rw [if_pos e] at hg2; cases hg2
    · rw [if_neg e] at hg2
      have := (hi.nodes gid gid').2 ⟨g2, hg2, by rw [hx]; rfl⟩
      rw [h3] at this; cases this

theorem Silent.clean {queue : List (Bytes × GraphTask)} {graphs : Bytes → Option Graph} {gid t : Bytes}
    (ht : Silent queue (upd graphs gid none) t) : Silent queue graphs t := by
  rcases ht with hq | hx | ⟨gid', g2, i, hg2, ht, hi⟩
  · exact Or.inl hq
  · rw [upd_apply] at hx
    by_cases e : gid = t
    · rw [if_pos e] at hx; cases hx
    · rw [if_neg e] at hx; exact Or.inr (Or.inl hx)
  · rw [upd_apply] at hg2
    by_cases e : gid = gid'
    · rw [if_pos e] at hg2; cases hg2
    · rw [if_neg e] at hg2; exact Or.inr (Or.inr ⟨gid', g2, i, hg2, ht, hi⟩)

/-- Submissions of single tasks use ids of single tasks. -/
def PlainSub (h : History) : Prop := ∀ c k, h.sub = some (c, .task k) → ¬ InGraph h.log k.taskId

/-- No graph is being submitted. -/
def NoGraphSub (h : History) : Prop := ∀ c gt, h.sub ≠ some (c, .graphTask gt)

/-- What a step says is not about anything silent, before and after. -/
theorem AStep.silent (hs : AStep h a b) (hi : Inv h a) (hp : PlainSub h) (hn : NoGraphSub h) {t : Bytes} (ht : Silent b.queue b.graphs t) :
    Silent a.queue a.graphs t ∧ ∃ l, b.out = a.out ++ l ∧ Quiet t l := by
  cases hs with
  | say c m hm => exact ⟨ht, _, rfl, hm.neutral.mute.quiet t⟩
  | halt t' w hw => exact ⟨ht, _, rfl, (show Neutral (.taskCancel t') from trivial).mute.quiet t⟩
  | func => exact ⟨ht, [], by simp, mute_nil.quiet t⟩
  | drop => exact ⟨ht, [], by simp, mute_nil.quiet t⟩
  | refuse c k st hs hst hf hl =>
    refine ⟨ht, _, rfl, Quiet.single ?_⟩
    simp only [about, ne_eq, Option.some.injEq]
    rintro rfl
    exact hp c k hs (hi.silent_inGraph ht)
  | accept c k hs hm hf hk =>
    refine ⟨ht, _, rfl, Quiet.single ?_⟩
    simp only [about, ne_eq, Option.some.injEq]
    rintro rfl
    exact hp c k hs (hi.silent_inGraph ht)
  | up => exact ⟨ht, [], by simp, mute_nil.quiet t⟩
  | requeue => exact ⟨ht, [], by simp, mute_nil.quiet t⟩
  | queueGraph c gt hs hm hn' hf => exact absurd hs (hn c gt)
  | take => exact ⟨ht, [], by simp, mute_nil.quiet t⟩
  | putBack => exact ⟨ht, [], by simp, mute_nil.quiet t⟩
  | place k w hp hw => exact ⟨ht, _, rfl, (mute_task w k).quiet t⟩
  | answer r c he hc hn =>
    have ht' : Silent a.queue a.graphs t := by simpa [Abs.retire] using ht
    refine ⟨ht', _, rfl, Quiet.single ?_⟩
    simp only [TaskRes.msg, about, ne_eq, Option.some.injEq]
    rintro rfl
    exact hi.plain_not_silent he.1 hn ht'
  | nodeDone r gid g i st so he hn hg hx hst hso =>
    refine ⟨?_, [], by simp [Abs.retire], mute_nil.quiet t⟩
    have ht' : Silent a.queue (upd a.graphs gid
        (some { g with tasks := g.tasks.set r.taskId { i with state := st, result := some r.result }, sorter := so })) t := by
      simpa [Abs.retire] using ht
    refine ht'.regraph hg ?_
    intro x j hj hji
    simp only [Dict.get?_set] at hj
    split at hj
    · cases hj
      exfalso
      simp only at hji
      subst hji
      revert hst; cases r.status <;> simp [NodeEnd]
    · exact ⟨j, hj, hji⟩
  | unpack c gt rest g hq hk hc hg hx hin =>
    refine ⟨?_, [], by simp [Abs.unpack], mute_nil.quiet t⟩
    have hq0 : (c, gt) ∈ a.queue := by rw [hq]; exact List.mem_cons_self
    rcases ht with ⟨c', gt', hq', hx'⟩ | hx' | ⟨gid', g2, i, hg2, hx', hi2⟩
    · exact Or.inl ⟨c', gt', by rw [hq]; exact List.mem_cons_of_mem _ hq', hx'⟩
    · simp only [Abs.unpack, upd_apply] at hx'
      by_cases e : gt.taskId = t
      · subst e; exact Or.inl ⟨c, gt, hq0, mem_allIds_gid gt⟩
      · rw [if_neg e] at hx'; exact Or.inr (Or.inl hx')
    · simp only [Abs.unpack, upd_apply] at hg2
      by_cases e : gt.taskId = gid'
      · rw [if_pos e] at hg2
        cases hg2
        exact Or.inl ⟨c, gt, hq0, mem_allIds_node ((hin t).1 (by rw [hx']; rfl))⟩
      · rw [if_neg e] at hg2; exact Or.inr (Or.inr ⟨gid', g2, i, hg2, hx', hi2⟩)
  | getReady gid g hg =>
    have ht' : Silent a.queue (upd a.graphs gid (some { g with sorter := g.sorter.getReady.2 })) t := ht
    refine ⟨Silent.regraph hg ?_ ht', [], by simp, mute_nil.quiet t⟩
    exact fun x j hj hji => ⟨j, hj, hji⟩
  | launch gid g t' i k g' gone hg ht' hx ho hk ha hd hc =>
    have ht2 : Silent a.queue (upd a.graphs gid (some g')) t := ht
    refine ⟨ht2.regraph hg (fun x j hj hji => ⟨j, (hc.inactive hj hji).2, hji⟩), _, rfl, Quiet.single ?_⟩
    simp only [about, ne_eq, Option.some.injEq]
    rintro rfl
    rw [hk.1] at ht2
    exact hi.started_not_silent hg ht' hc ht2
  | reject gid g t' i k g' gone hg ht' hx ho hk ha hd hc hl =>
    have ht2 : Silent a.queue (upd a.graphs gid (some g')) t := ht
    refine ⟨ht2.regraph hg (fun x j hj hji => ⟨j, (hc.inactive hj hji).2, hji⟩), _, rfl, Quiet.single ?_⟩
    simp only [about, ne_eq, Option.some.injEq]
    rintro rfl
    rw [hk.1] at ht2
    exact hi.started_not_silent hg ht' hc ht2
  | clean gid g ids ans hg hids hnd hw ha he =>
    have ht2 : Silent a.queue (upd a.graphs gid none) t := ht
    refine ⟨ht2.clean, _, rfl, Quiet.append ((mute_cancels a g ids).quiet t) (ha.quiet ?_)⟩
    rintro rfl
    exact hi.cleaned_not_silent hg ht2

/-! ### At most once -/

/-- A reply to a submission of `t`. -/
def isEcho (t : Bytes) : Bytes × Message → Bool
  | (_, .taskEcho t' _) => decide (t' = t)
  | _ => false

def echoes (t : Bytes) (l : Log) : Nat := l.countP (isEcho t)

theorem echoes_append (t : Bytes) (l l' : Log) : echoes t (l ++ l') = echoes t l + echoes t l' := by simp [echoes]

theorem echoes_eq (t : Bytes) (l : Log) : echoes t l = acks anyone t l + refusals t l := by
  induction l with
  | nil => rfl
  | cons m l ih =>
    obtain ⟨c, m⟩ := m
    simp only [echoes, acks, refusals, List.countP_cons] at ih ⊢
    rw [ih]
    cases m with
    | taskEcho t' st =>
      by_cases e : t' = t
      · cases st <;> simp [isEcho, isAck, isRefusal, anyone, e] <;> omega
      · cases st <;> simp [isEcho, isAck, isRefusal, e]
    | _ => simp [isEcho, isAck, isRefusal]

theorem Quiet.echoes {t : Bytes} {l : Log} (hq : Quiet t l) : Sched.echoes t l = 0 := by
  refine countP_zero fun m hm => ?_
  have := hq m hm
  obtain ⟨c, m⟩ := m
  cases m <;> simp_all [isEcho, about]

theorem Quiet.answers {t : Bytes} {l : Log} (hq : Quiet t l) : Spec.answers t l = 0 := by
  refine countP_zero fun m hm => ?_
  have := hq m hm
  obtain ⟨c, m⟩ := m
  cases m <;> simp_all [isAnswer, about]

structure Once (h : History) (a : Abs) : Prop where
  silent : ∀ t, Silent a.queue a.graphs t → Quiet t a.out
  echo : ∀ t, InGraph h.log t → echoes t a.out ≤ 1
  answer : ∀ t, answers t a.out ≤ 1

theorem Mute.echoes {l : Log} (hl : Mute l) (t : Bytes) : Sched.echoes t l = 0 := (hl.quiet t).echoes

theorem AStep.once (hs : AStep h a b) (hi : Inv h a) (hp : PlainSub h) (hn : NoGraphSub h) (ho : Once h a) : Once h b := by
  refine ⟨?_, ?_, ?_⟩
  · intro t ht
    obtain ⟨h1, l, e, hl⟩ := hs.silent hi hp hn ht
    rw [e]
    exact (ho.silent t h1).append hl
  · intro t ht
    obtain ⟨l, e, hl⟩ := hs.says
    rw [e, echoes_append]
    have h1 := ho.echo t ht
    cases hl with
    | mute hl => rw [hl.echoes]; exact h1
    | echo c k st hk hf hst hl =>
      have : k.taskId ≠ t := by rintro rfl; exact hp c k hk ht
      simpa [echoes, isEcho, this] using h1
    | node gid g t' i st hg ht' hx hst =>
      by_cases e' : t' = t
      · subst e'
        rw [(ho.silent t' (Or.inr (Or.inr ⟨gid, g, i, hg, ht', hx⟩))).echoes]
        simp [echoes, isEcho]
      · simpa [echoes, isEcho, e'] using h1
    | result r c he hc hn => exact h1
    | graph gid g l ans hg hl ha he =>
      have : echoes t ans = 0 := by
        rw [echoes_eq, ha.counts.1, ha.counts.2.1]
      rw [echoes_append, hl.echoes, this]
      exact h1
  · intro t
    obtain ⟨l, e, hl⟩ := hs.says
    rw [e, answers_append]
    have h1 := ho.answer t
    cases hl with
    | mute hl => rw [hl.answers]; exact h1
    | echo c k st hk hf hst hl => exact h1
    | node gid g t' i st hg ht' hx hst => exact h1
    | result r c he hc hn => exact h1
    | graph gid g l ans hg hl ha he =>
      obtain ⟨_, _, _, _, c5, c6⟩ := ha.counts
      rw [answers_append, hl.answers]
      by_cases e' : t = gid
      · subst e'
        rw [(ho.silent t (Or.inr (Or.inl (by rw [hg]; rfl)))).answers]
        rcases c6 with c6 | c6
        · rw [c6]; simp [answers]
        · rw [c6]; omega
      · rw [c5 t e']; exact h1

/-! ### Only known ids are spoken about -/

/-- Nothing is said about ids that were never submitted. -/
def Said (h : History) (a : Abs) : Prop := ∀ t, ¬ Mentioned h.log t → Quiet t a.out

theorem Origin.mentioned {k : Task} (ho : Origin h k) : Mentioned h.log k.taskId := by
  rcases ho with ⟨c, hc⟩ | ⟨c, gt, T, hc, hT, e, _⟩
  · exact Or.inr ⟨c, k, hc, rfl⟩
  · exact Or.inl ⟨c, gt, hc, by rw [e]; exact mem_allIds_node (List.mem_map.2 ⟨T, hT, rfl⟩)⟩

theorem Inv.task_mentioned (hi : Inv h a) {t : Bytes} (ht : (a.tasks t).isSome) : Mentioned h.log t := by
  obtain ⟨k, hk⟩ := Option.isSome_iff_exists.1 ht
  have := (hi.origin t k hk).mentioned
  rwa [hi.key t k hk] at this

/-- The submission being handled is in the log. -/
def SubIn (h : History) : Prop := ∀ m, h.sub = some m → m ∈ h

theorem AStep.said (hs : AStep h a b) (hi : Inv h a) (hsub : SubIn h) (hS : Said h a) : Said h b := by
  intro t ht
  obtain ⟨l, e, hl⟩ := hs.says
  rw [e]
  refine (hS t ht).append ?_
  cases hl with
  | mute hl => exact hl.quiet t
  | echo c k st hk hf hst hl =>
    refine Quiet.single ?_
    simp only [about, ne_eq, Option.some.injEq]
    rintro rfl
    exact ht (Or.inr ⟨c, k, hsub _ hk, rfl⟩)
  | node gid g t' i st hg ht' hx hst =>
    refine Quiet.single ?_
    simp only [about, ne_eq, Option.some.injEq]
    rintro rfl
    exact ht (Or.inl (hi.tasks_inGraph hg ht'))
  | result r c he hc hn =>
    refine Quiet.single ?_
    simp only [TaskRes.msg, about, ne_eq, Option.some.injEq]
    rintro rfl
    exact ht (hi.task_mentioned he.1)
  | graph gid g l ans hg hl ha he =>
    refine (hl.quiet t).append (ha.quiet ?_)
    rintro rfl
    exact ht (Or.inl (hi.graph_inGraph hg))

/-! ### Every graph is queued, in the tables, answered or cancelled -/

/-- What became of the graph `gt` from client `c`. -/
def Fate (h : History) (a : Abs) (c : Bytes) (gt : GraphTask) : Prop :=
  (c, gt) ∈ a.queue ∨ (∃ g, a.graphs gt.taskId = some g ∧ g.client = c ∧ GraphOK h gt.taskId gt g) ∨
  (∃ st rs, (c, .graphTaskResult gt.taskId st rs) ∈ a.out) ∨ ∃ c', (c', .graphTaskCancel gt.taskId) ∈ h

theorem AStep.out_mono (hs : AStep h a b) {m : Bytes × Message} (hm : m ∈ a.out) : m ∈ b.out := by
  obtain ⟨l, e, _⟩ := hs.says
  rw [e]; exact List.mem_append_left _ hm

/-- Each step keeps the source of a graph that stays. -/
theorem AStep.sameSource (hs : AStep h a b) (hi : Inv h a) {gid : Bytes} {g : Graph} (hg : a.graphs gid = some g) {gt : GraphTask}
    (hok : GraphOK h gid gt g) {g' : Graph} (hg' : b.graphs gid = some g') : g'.client = g.client ∧ GraphOK h gid gt g' := by
  have same : a.graphs gid = some g' → g'.client = g.client ∧ GraphOK h gid gt g' := by
    intro e; rw [hg] at e; cases e; exact ⟨rfl, hok⟩
  cases hs with
  | say => exact same hg'
  | halt => exact same hg'
  | func => exact same hg'
  | drop => exact same hg'
  | refuse => exact same hg'
  | accept => exact same hg'
  | up => exact same hg'
  | requeue => exact same hg'
  | queueGraph => exact same hg'
  | take => exact same hg'
  | putBack => exact same hg'
  | place => exact same hg'
  | answer => exact same (by simpa [Abs.retire] using hg')
  | nodeDone r gid' g0 i st so he hn hg0 hx hst hso =>
    simp only [upd_apply] at hg'
    by_cases e : gid' = gid
    · subst e
      rw [if_pos rfl] at hg'
      rw [hg] at hg0; cases hg0
      cases hg'
      refine ⟨rfl, hok.nodeDone hx (hi.held_running hg hx he.1).1 hso ?_⟩
      have := he.2
      cases hr : r.status <;> rw [hr] at hst <;> simp only [NodeEnd] at hst
      · refine Or.inr (Or.inr ⟨hst, ?_⟩)
        rcases this with ⟨⟨w, hw⟩, _⟩ | ⟨e, _⟩
        · exact ⟨w, r.duration, by rw [TaskRes.msg, hr] at hw; exact hw⟩
        · rw [e] at hr; cases hr
      · exact Or.inr (Or.inl ⟨hst, hr ▸ he.stopped⟩)
      · exact Or.inl ⟨hst, hr ▸ he.stopped⟩
    · rw [if_neg e] at hg'; exact same (by simpa [Abs.retire] using hg')
  | unpack c gt' rest g0 hq hk hc hg0 hx ht =>
    simp only [Abs.unpack, upd_apply] at hg'
    by_cases e : gt'.taskId = gid
    · exfalso
      have := hi.unused_graph ((hi.queue c gt' (by rw [hq]; exact List.mem_cons_self)).2 _ (mem_allIds_gid gt'))
      rw [e, hg] at this; cases this
    · rw [if_neg e] at hg'; exact same hg'
  | getReady gid' g0 hg0 =>
    simp only [upd_apply] at hg'
    by_cases e : gid' = gid
    · subst e
      rw [if_pos rfl] at hg'
      rw [hg] at hg0; cases hg0
      cases hg'
      exact ⟨rfl, hok.getReady⟩
    · rw [if_neg e] at hg'; exact same hg'
  | launch gid' g0 t i k g1 gone hg0 ht hx ho hk ha hd hc =>
    simp only [Abs.accept, upd_apply] at hg'
    by_cases e : gid' = gid
    · subst e
      rw [if_pos rfl] at hg'
      rw [hg] at hg0; cases hg0
      cases hg'
      exact ⟨hc.same.2.1, hok.consume ht hx ho hk ha hd hc⟩
    · rw [if_neg e] at hg'; exact same hg'
  | reject gid' g0 t i k g1 gone hg0 ht hx ho hk ha hd hc hl =>
    simp only [upd_apply] at hg'
    by_cases e : gid' = gid
    · subst e
      rw [if_pos rfl] at hg'
      rw [hg] at hg0; cases hg0
      cases hg'
      exact ⟨hc.same.2.1, hok.consume ht hx ho hk ha hd hc⟩
    · rw [if_neg e] at hg'; exact same hg'
  | clean gid' g0 ids ans hg0 hids hn hw ha he =>
    simp only [Abs.clean, upd_apply] at hg'
    by_cases e : gid' = gid
    · rw [if_pos e] at hg'; cases hg'
    · rw [if_neg e] at hg'; exact same hg'

/-- A graph that disappears is answered or was cancelled. -/
theorem AStep.leaves (hs : AStep h a b) {gid : Bytes} {g : Graph} (hg : a.graphs gid = some g) (hb : b.graphs gid = none) :
    (∃ st rs, (g.client, .graphTaskResult gid st rs) ∈ b.out) ∨ ∃ c', (c', .graphTaskCancel gid) ∈ h := by
  have same : a.graphs gid = none → (∃ st rs, (g.client, .graphTaskResult gid st rs) ∈ b.out) ∨ ∃ c', (c', .graphTaskCancel gid) ∈ h := by
    intro e; rw [hg] at e; cases e
  have put : ∀ {gid' : Bytes} {g1 : Graph}, upd a.graphs gid' (some g1) gid = none → a.graphs gid = none := by
    intro gid' g1 e
    rw [upd_apply] at e
    split at e
    · cases e
    · exact e
  cases hs with
  | say => exact same hb
  | halt => exact same hb
  | func => exact same hb
  | drop => exact same hb
  | refuse => exact same hb
  | accept => exact same hb
  | up => exact same hb
  | requeue => exact same hb
  | queueGraph => exact same hb
  | take => exact same hb
  | putBack => exact same hb
  | place => exact same hb
  | answer => exact same (by simpa [Abs.retire] using hb)
  | nodeDone => exact same (put (by simpa [Abs.retire] using hb))
  | unpack => exact same (put hb)
  | getReady => exact same (put hb)
  | launch => exact same (put hb)
  | reject => exact same (put hb)
  | clean gid' g0 ids ans hg0 hids hn hw ha he =>
    simp only [Abs.clean, upd_apply] at hb
    by_cases e : gid' = gid
    · subst e
      rw [hg] at hg0; cases hg0
      have mem : ∀ {m}, m ∈ ans → m ∈ (a.clean gid' g (cancels a g ids ++ ans) (halts a g ids)).out := by
        intro m hm
        exact List.mem_append_right _ (List.mem_append_right _ hm)
      cases ha with
      | none => exact Or.inr (he rfl)
      | success hd hr => exact Or.inl ⟨_, _, mem List.mem_cons_self⟩
      | failed ht hs hi hr => exact Or.inl ⟨_, _, mem List.mem_cons_self⟩
    · rw [if_neg e] at hb; exact same hb

theorem AStep.fate (hs : AStep h a b) (hi : Inv h a) {c : Bytes} {gt : GraphTask} (hF : Fate h a c gt) : Fate h b c gt := by
  rcases hF with hq | ⟨g, hg, hc, hok⟩ | ⟨st, rs, hr⟩ | hcn
  · have keep : b.queue = a.queue → Fate h b c gt := fun e => Or.inl (by rw [e]; exact hq)
    cases hs with
    | queueGraph c' gt' => exact Or.inl (List.mem_append_left _ hq)
    | unpack c' gt' rest g hq' hk hc hg hx ht =>
      rw [hq'] at hq
      rcases List.mem_cons.1 hq with e | hq
      · cases e
        exact Or.inr (Or.inl ⟨g, by simp [Abs.unpack], hc, hg⟩)
      · exact Or.inl hq
    | answer => exact keep (by simp [Abs.retire])
    | nodeDone => exact keep (by simp [Abs.retire])
    | _ => exact keep rfl
  · cases hb : b.graphs gt.taskId with
    | some g' =>
      obtain ⟨e1, e2⟩ := hs.sameSource hi hg hok hb
      exact Or.inr (Or.inl ⟨g', hb, e1.trans hc, e2⟩)
    | none =>
      rcases hs.leaves hg hb with ⟨st, rs, hr⟩ | hcn
      · exact Or.inr (Or.inr (Or.inl ⟨st, rs, by rw [← hc]; exact hr⟩))
      · exact Or.inr (Or.inr (Or.inr hcn))
  · exact Or.inr (Or.inr (Or.inl ⟨st, rs, hs.out_mono hr⟩))
  · exact Or.inr (Or.inr (Or.inr hcn))

end Verif.Sched
