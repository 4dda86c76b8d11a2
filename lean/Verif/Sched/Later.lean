import Verif.Sched.Run

/-!
# Executions that continue from a state; graphs that are gone stay gone
-/

namespace Verif.Sched

open Verif.Queue Verif.Util Verif.Wire Verif.Spec

/-- `(l', s')` comes later than `(l, s)` in an execution. -/
inductive Later (l : Log) (s : Sched) : Log → Sched → Prop
  | now : Later l s l s
  | step {l' : Log} {s' s'' : Sched} (e : Event) (hr : Later l s l' s') (ha : ∀ m ∈ e.input, Allowed l' s'.out m)
      (hs : s'.step e = .ok s'') : Later l s (l' ++ e.input) s''

theorem Later.reach {cfg : Config} {l l' : Log} {s s' : Sched} (h : Later l s l' s') (hr : Reach cfg l s) : Reach cfg l' s' := by
  induction h with
  | now => exact hr
  | step e _ ha hs ih => exact .step e ih ha hs

theorem runFrom_later {l0 : Log} {s0 : Sched} : ∀ (es : List Event) {l : Log} {s : Sched} {p : Log × Sched}, Later l0 s0 l s →
    runFrom l s es = some p → Later l0 s0 p.1 p.2
  | [], l, s, p, hr, hp => by cases hp; exact hr
  | e :: es, l, s, p, hr, hp => by
    rw [runFrom] at hp
    split at hp
    · next ha =>
      split at hp
      · next s' hs =>
        exact runFrom_later es (.step e hr (fun m hm => allowedB_sound (List.all_eq_true.1 ha m hm)) hs) hp
      · cases hp
    · cases hp

theorem Later.mem {l l' : Log} {s s' : Sched} (h : Later l s l' s') {m : Bytes × Message} (hm : m ∈ l) : m ∈ l' := by
  induction h with
  | now => exact hm
  | step e _ _ _ ih => exact List.mem_append_left _ ih

theorem Later.log_append {l l' : Log} {s s' : Sched} (h : Later l s l' s') : ∃ m, l' = l ++ m := by
  induction h with
  | now => exact ⟨[], by simp⟩
  | step e _ _ _ ih =>
    obtain ⟨m, rfl⟩ := ih
    exact ⟨m ++ e.input, by rw [List.append_assoc]⟩

theorem ASteps.out_append {h : History} {a b : Abs} (hs : ASteps h a b) : ∃ l, b.out = a.out ++ l := by
  induction hs with
  | refl => exact ⟨[], by simp⟩
  | tail _ t ih =>
    obtain ⟨l, e⟩ := ih
    obtain ⟨l2, e2, _⟩ := t.says
    exact ⟨l ++ l2, by rw [e2, e, List.append_assoc]⟩

theorem Later.out_append {cfg : Config} {l l' : Log} {s s' : Sched} (h : Later l s l' s') (hr : Reach cfg l s) :
    ∃ m, s'.out = s.out ++ m := by
  induction h with
  | now => exact ⟨[], by simp⟩
  | @step l1 s1 s2 e hl ha hs ih =>
    obtain ⟨m, e1⟩ := ih
    have hA : Sched.After (e.hist l1) s1 s2 := (step_post (hl.reach hr).good e ha).ok hs
    obtain ⟨m2, e2⟩ := hA.steps.out_append
    exact ⟨m ++ m2, by rw [show s2.out = s1.out ++ m2 from e2, e1, List.append_assoc]⟩

theorem Reach.graph_nodup {cfg : Config} {l : Log} {s : Sched} (hr : Reach cfg l s) : ∀ c g, (c, .graphTask g) ∈ l → (graphIds g).Nodup := by
  induction hr with
  | init => intro c g h; cases h
  | step e _ ha _ ih =>
    intro c g h
    rcases List.mem_append.1 h with h | h
    · exact ih c g h
    · exact (ha _ h).1

/-- The graph is neither queued nor in the tables. -/
def Dead (a : Abs) (gt : GraphTask) : Prop := a.graphs gt.taskId = none ∧ ∀ c, (c, gt) ∉ a.queue

theorem AStep.dead {h : History} {a b : Abs} (hs : AStep h a b) (hi : Inv h a) (hu : UniqueIds h.log) (hp : PlainSub h)
    {c : Bytes} {gt : GraphTask} (hm : (c, .graphTask gt) ∈ h) (hn : ∀ c', h.sub ≠ some (c', .graphTask gt)) (hd : Dead a gt) :
    Dead b gt ∧ ∀ t ∈ allIds gt, ∃ l, b.out = a.out ++ l ∧ echoes t l = 0 ∧ answers t l = 0 := by
  constructor
  · have put : ∀ {gid' : Bytes} {g0 g1 : Graph}, a.graphs gid' = some g0 → upd a.graphs gid' (some g1) gt.taskId = none := by
      intro gid' g0 g1 hg
      rw [upd_apply, if_neg]
      · exact hd.1
      · rintro rfl
        rw [hd.1] at hg; cases hg
    cases hs with
    | queueGraph c' gt' hs' hm' hn' hf =>
      refine ⟨hd.1, fun c1 hx => ?_⟩
      rcases List.mem_append.1 hx with hx | hx
      · exact hd.2 c1 hx
      · rw [List.mem_singleton] at hx
        cases hx
        exact hn _ hs'
    | nodeDone r gid' g0 i st so he hn hg0 hx hst hso => exact ⟨by simpa [Abs.retire] using put hg0, by simpa [Abs.retire] using hd.2⟩
    | answer => exact ⟨by simpa [Abs.retire] using hd.1, by simpa [Abs.retire] using hd.2⟩
    | unpack c' gt' rest g0 hq hk hc hg0 hx ht =>
      have hq' : (c', gt') ∈ a.queue := by rw [hq]; exact List.mem_cons_self
      refine ⟨?_, fun c1 hx => hd.2 c1 (by rw [hq]; exact List.mem_cons_of_mem _ hx)⟩
      show upd a.graphs gt'.taskId (some g0) gt.taskId = none
      rw [upd_apply, if_neg]
      · exact hd.1
      · intro e
        have := (hu c' gt' c gt gt.taskId (hi.queue c' gt' hq').1 hm (by rw [← e]; exact mem_allIds_gid _) (mem_allIds_gid _)).2
        subst this
        exact hd.2 c' hq'
    | getReady gid' g0 hg0 => exact ⟨put hg0, hd.2⟩
    | launch gid' g0 t i k g1 gone hg0 => exact ⟨put hg0, hd.2⟩
    | reject gid' g0 t i k g1 gone hg0 => exact ⟨put hg0, hd.2⟩
    | clean gid' g0 ids ans hg0 =>
      refine ⟨?_, hd.2⟩
      show upd a.graphs gid' none gt.taskId = none
      rw [upd_apply]
      split
      · rfl
      · exact hd.1
    | _ => exact hd
  · intro t ht
    obtain ⟨l, e, hl⟩ := hs.says
    refine ⟨l, e, ?_⟩
    cases hl with
    | mute hl => exact ⟨hl.echoes t, (hl.quiet t).answers⟩
    | echo c' k st hk =>
      have : t ≠ k.taskId := by
        rintro rfl
        exact hp c' k hk ⟨c, gt, hm, ht⟩
      have hq : Quiet t [(c', .taskEcho k.taskId st)] := Quiet.single (by simp [about, this.symm])
      exact ⟨hq.echoes, hq.answers⟩
    | node gid g t' i st hg ht' hx hst =>
      have : t ≠ t' := by
        rintro rfl
        obtain ⟨gt', hok⟩ := hi.graphs gid g hg
        have := (hu _ gt' c gt t hok.src hm (mem_allIds_node (hok.mem_node ht')) ht).2
        subst this
        have h1 := hd.1
        rw [hok.id, hg] at h1
        cases h1
      have hq : Quiet t [(g.client, .taskEcho t' st)] := Quiet.single (by simp [about, this.symm])
      exact ⟨hq.echoes, hq.answers⟩
    | result r c' he hc hn =>
      exact ⟨by simp [echoes, isEcho, TaskRes.msg], by simp [answers, isAnswer, TaskRes.msg]⟩
    | graph gid g l' ans hg hl' ha he =>
      have : t ≠ gid := by
        rintro rfl
        obtain ⟨gt', hok⟩ := hi.graphs t g hg
        have := (hu _ gt' c gt t hok.src hm (by rw [← hok.id]; exact mem_allIds_gid _) ht).2
        subst this
        have h1 := hd.1
        rw [hok.id, hg] at h1
        cases h1
      have hq := (hl'.quiet t).append (ha.quiet this)
      exact ⟨hq.echoes, hq.answers⟩

theorem Event.plainSub {l : Log} {s : Sched} (e : Event) (ha : ∀ m ∈ e.input, Allowed l s.out m) : PlainSub (e.hist l) := by
  intro c k hk
  have hmem := List.mem_of_mem_head? (by rw [show e.input.head? = some (c, .task k) from hk]; rfl : (c, Message.task k) ∈ e.input.head?)
  obtain ⟨h1, _⟩ := ha _ hmem
  rintro ⟨c', g, hx, ht⟩
  rcases List.mem_append.1 hx with hx | hx
  · exact h1 ⟨c', g, hx, ht⟩
  · obtain ⟨op, now, o⟩ := e
    cases op <;> simp [Event.input] at hmem hx
    rw [← hmem.2] at hx; cases hx.2

theorem Later.dead {cfg : Config} {l l' : Log} {s s' : Sched} (h : Later l s l' s') (hr : Reach cfg l s) {c : Bytes} {gt : GraphTask}
    (hm : (c, .graphTask gt) ∈ l) (hd : Dead s.abs gt) :
    Dead s'.abs gt ∧ ∀ t ∈ allIds gt, echoes t s'.out = echoes t s.out ∧ answers t s'.out = answers t s.out := by
  induction h with
  | now => exact ⟨hd, fun _ _ => ⟨rfl, rfl⟩⟩
  | @step l1 s1 s2 e hl ha hs ih =>
    have hr1 := hl.reach hr
    have hg := hr1.good
    have hg2 := (Reach.step e hr1 ha hs).good
    have hA : Sched.After (e.hist l1) s1 s2 := (step_post hg e ha).ok hs
    have hmem := hl.mem hm
    have hn : ∀ c', (e.hist l1).sub ≠ some (c', .graphTask gt) := by
      intro c' hx
      have hx' := List.mem_of_mem_head? (by rw [show e.input.head? = some (c', .graphTask gt) from hx]; rfl : (c', Message.graphTask gt) ∈ e.input.head?)
      exact (ha _ hx').2 gt.taskId (mem_allIds_gid gt) (Or.inl ⟨c, gt, hmem, mem_allIds_gid gt⟩)
    have := hA.steps.lift (P := fun b => Dead b gt ∧ ∀ t ∈ allIds gt, echoes t b.out = echoes t s1.out ∧ answers t b.out = answers t s1.out)
      (fun a b x y z => by
        obtain ⟨h1, h2⟩ := x.dead y hg2.unique (e.plainSub ha) (List.mem_append_left _ hmem) hn z.1
        refine ⟨h1, fun t ht => ?_⟩
        obtain ⟨l, e1, e2, e3⟩ := h2 t ht
        rw [e1, echoes_append, e2, Nat.add_zero, answers_append, e3, Nat.add_zero]
        exact z.2 t ht) (hg.inv.mono (e.hist_mem l1)) ⟨ih.1, fun _ _ => ⟨rfl, rfl⟩⟩
    refine ⟨this.1, fun t ht => ⟨?_, ?_⟩⟩
    · exact (this.2 t ht).1.trans (ih.2 t ht).1
    · exact (this.2 t ht).2.trans (ih.2 t ht).2

/-! ### Nodes that a graph no longer stores are finished -/

def Tidy (a : Abs) : Prop := ∀ gid g t, a.graphs gid = some g → t ∈ g.taskIds → g.tasks.get? t = none → a.tasks t = none

theorem Tidy.same {a b : Abs} (hT : Tidy a) (hg : b.graphs = a.graphs) (ht : ∀ t, a.tasks t = none → b.tasks t = none) : Tidy b := by
  intro gid g t h1 h2 h3
  rw [hg] at h1
  exact ht t (hT gid g t h1 h2 h3)

theorem Consume.tidy {h : History} {a : Abs} (hi : Inv h a) (hT : Tidy a) (hu : UniqueIds h.log) {gid : Bytes} {g g' : Graph} {t : Bytes} {i : NodeInfo}
    {k : Task} {gone : Bytes → Bool} (hg : a.graphs gid = some g) (ht : g.tasks.get? t = some i)
    (hd : ∀ d ∈ inputs i.task, ∃ j, g.tasks.get? d = some j ∧ j.state = .success) (hc : Consume g t i k g' gone) :
    ∀ gid1 g1 t1, upd a.graphs gid (some g') gid1 = some g1 → t1 ∈ g1.taskIds → g1.tasks.get? t1 = none → a.tasks t1 = none ∧ t1 ≠ t := by
  intro gid1 g1 t1 h1 h2 h3
  rw [upd_apply] at h1
  split at h1
  · cases h1
    rw [hc.tasks] at h3
    rw [hc.same.2.2.1] at h2
    split at h3
    · cases h3
    · next hne =>
      refine ⟨?_, hne⟩
      split at h3
      · next hgone =>
        obtain ⟨j, hj, hjs⟩ := hd t1 ((hc.ghost t1).1 hgone).1
        have := hi.link gid g t1 j hg hj
        rw [Link, hjs] at this
        exact this.1
      · exact hT gid g t1 hg h2 h3
  · next hne =>
    refine ⟨hT gid1 g1 t1 h1 h2 h3, ?_⟩
    rintro rfl
    obtain ⟨gt1, hok1⟩ := hi.graphs gid1 g1 h1
    obtain ⟨gt, hok⟩ := hi.graphs gid g hg
    have := (hu _ gt1 _ gt t1 hok1.src hok.src (mem_allIds_node ((hok1.ids t1).1 h2)) (mem_allIds_node (hok.mem_node ht))).2
    subst this
    exact hne (hok.id.symm.trans hok1.id)

theorem AStep.tidy {h : History} {a b : Abs} (hs : AStep h a b) (hi : Inv h a) (hu : UniqueIds h.log) (hp : PlainSub h) (hT : Tidy a) : Tidy b := by
  cases hs with
  | accept c k hsub hm hf hk =>
    intro gid g t h1 h2 h3
    have h4 := hT gid g t h1 h2 h3
    show upd a.tasks k.taskId (some k) t = none
    rw [upd_apply, if_neg]
    · exact h4
    · rintro rfl
      obtain ⟨gt, hok⟩ := hi.graphs gid g h1
      exact hp c k hsub ⟨_, gt, hok.src, mem_allIds_node ((hok.ids _).1 h2)⟩
  | answer r c he hc hn =>
    refine hT.same (by simp [Abs.retire]) ?_
    intro t ht
    simp only [Abs.retire, upd_apply]
    split <;> simp_all
  | nodeDone r gid' g0 i st so he hn hg0 hx hst hso =>
    intro gid g t h1 h2 h3
    simp only [Abs.retire, upd_apply] at h1 ⊢
    split at h1
    · cases h1
      rw [Dict.get?_set] at h3
      split at h3
      · cases h3
      · next e => rw [if_neg e]; exact hT gid' g0 t hg0 h2 h3
    · split
      · rfl
      · exact hT gid g t h1 h2 h3
  | unpack c gt rest g0 hq hk hc hg hx ht =>
    intro gid g t h1 h2 h3
    simp only [Abs.unpack, upd_apply] at h1
    split at h1
    · cases h1
      have := (ht t).2 ((hg.ids t).1 h2)
      rw [h3] at this; cases this
    · exact hT gid g t h1 h2 h3
  | getReady gid' g0 hg0 =>
    intro gid g t h1 h2 h3
    simp only [upd_apply] at h1
    split at h1
    · cases h1; exact hT gid' g0 t hg0 h2 h3
    · exact hT gid g t h1 h2 h3
  | launch gid' g0 t i k g1 gone hg0 ht hx ho hk ha hd hc =>
    intro gid g t1 h1 h2 h3
    obtain ⟨h4, h5⟩ := Consume.tidy hi hT hu hg0 ht hd hc gid g t1 h1 h2 h3
    show upd a.tasks k.taskId (some k) t1 = none
    rw [upd_apply, if_neg]
    · exact h4
    · rw [hk.1]; exact fun e => h5 e.symm
  | reject gid' g0 t i k g1 gone hg0 ht hx ho hk ha hd hc hl =>
    intro gid g t1 h1 h2 h3
    exact (Consume.tidy hi hT hu hg0 ht hd hc gid g t1 h1 h2 h3).1
  | clean gid' g0 ids ans hg0 =>
    intro gid g t h1 h2 h3
    simp only [Abs.clean, upd_apply] at h1
    split at h1
    · cases h1
    · exact hT gid g t h1 h2 h3
  | _ => exact hT.same rfl (fun _ x => x)

theorem Reach.tidy {cfg : Config} {l : Log} {s : Sched} (hr : Reach cfg l s) : Tidy s.abs := by
  induction hr with
  | init => intro gid g t h1; simp [Sched.init, Sched.abs] at h1
  | @step l1 s1 s2 e hr ha hs ih =>
    have hg := hr.good
    have hg2 := (Reach.step e hr ha hs).good
    have hA : Sched.After (e.hist l1) s1 s2 := (step_post hg e ha).ok hs
    exact hA.steps.lift (P := Tidy) (fun a b x y z => x.tidy y hg2.unique (e.plainSub ha) z) (hg.inv.mono (e.hist_mem l1)) ih

end Verif.Sched
