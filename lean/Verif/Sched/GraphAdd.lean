import Verif.Sched.Handlers

/-!
# Taking a graph from the queue
-/

namespace Verif.Sched

open Verif.Queue Verif.Util Verif.Wire

theorem Sorter.OK.congr {nodes nodes' : Bytes → Prop} {req req' : Bytes → List Bytes} {s : Sorter} (h : Sorter.OK nodes req s)
    (hn : ∀ n, nodes n ↔ nodes' n) (hr : ∀ n, nodes n → (req n).Perm (req' n)) : Sorter.OK nodes' req' s := by
  have hnode : ∀ n i, s.info.get? n = some i → nodes n := fun n i hi => (h.dom n).1 (by simp [hi])
  refine ⟨fun n => (h.dom n).trans (hn n), ?_, ?_, ?_, h.succNodup, h.range, ?_, ?_, h.ready, h.readyNodup, h.count, ?_⟩
  · intro n d hnn hd
    have := (hn n).2 hnn
    exact (hn d).1 (h.closed n d this ((hr n this).mem_iff.2 hd))
  · intro n hnn
    have := (hn n).2 hnn
    exact (hr n this).nodup_iff.1 (h.reqNodup n this)
  · intro n i m hi
    rw [h.succ n i m hi]
    constructor
    · rintro ⟨h1, h2⟩; exact ⟨(hn m).1 h1, (hr m h1).mem_iff.1 h2⟩
    · rintro ⟨h1, h2⟩
      have h1' := (hn m).2 h1
      exact ⟨h1', (hr m h1').mem_iff.2 h2⟩
  · intro n i hi hpos
    rw [h.waiting n i hi hpos, (hr n (hnode n i hi)).countP_eq]
  · intro n i hi hneg d hd
    exact h.started n i hi hneg d ((hr n (hnode n i hi)).mem_iff.2 hd)
  · obtain ⟨rank, hrank⟩ := h.rank
    refine ⟨rank, fun n d hnn hd => ?_⟩
    have := (hn n).2 hnn
    exact hrank n d this ((hr n this).mem_iff.2 hd)

/-- A graph task that the scheduler cannot take. -/
def BadSubmit (a : Abs) (gt : GraphTask) : Prop :=
  (∃ T ∈ gt.graph, a.funcs T.functionId = none ∧ T.functionId ∉ gt.functions.keys) ∨
  (¬ ∃ rank : Bytes → Nat, ∀ T ∈ gt.graph, ∀ d ∈ inputs T, rank d < rank T.taskId) ∨
  (∃ T ∈ gt.graph, ∃ d ∈ inputs T, d ∉ nodeIds gt) ∨
  (gt.graph = [] ∧ gt.targets ≠ [])

namespace Sched

variable {s : Sched} {h : History}

/-! ### An input that is no node -/

theorem onTaskNew_gm {s s' : Sched} {c : Bytes} {k : Task} {now : Int} (hs : s.onTaskNew c k now = .ok s') : s'.gm = s.gm := by
  unfold onTaskNew at hs
  by_cases hf : (!s.hasFunction k.functionId) = true
  · rw [if_pos hf] at hs
    cases hs; rfl
  rw [if_neg hf] at hs
  obtain ⟨⟨b, s1⟩, h1, hs⟩ := Py.bind_ok.1 hs
  have e1 : s1.gm = s.gm := by
    unfold hasAvailableWorker at h1
    obtain ⟨_, _, h2⟩ := Py.bind_ok.1 h1
    cases h2; rfl
  simp only at hs
  by_cases hw : (!b && (decide (0 ≤ s1.cfg.maxWaiting) && decide (s1.cfg.maxWaiting ≤ s1.tm.unassigned.len))) = true
  · rw [if_pos hw] at hs
    cases hs; exact e1
  rw [if_neg hw] at hs
  obtain ⟨s2, h2, hs⟩ := Py.bind_ok.1 hs
  obtain ⟨s3, h3, hs⟩ := Py.bind_ok.1 hs
  obtain ⟨q, _, hs⟩ := Py.bind_ok.1 hs
  rw [sendMonitor_gm hs]
  show s3.gm = _
  have e3 : s3.gm = s2.gm := by
    unfold clientNew at h3
    obtain ⟨_, _, h4⟩ := Py.bind_ok.1 h3
    cases h4; rfl
  have e2 : s2.gm = s1.gm := by
    unfold useFunction at h2
    obtain ⟨_, _, h4⟩ := Py.bind_ok.1 h2
    obtain ⟨_, _, h5⟩ := Py.bind_ok.1 h4
    cases h5; rfl
  rw [e3, e2, e1]

theorem getTaskResult_none {gid tid arg d : Bytes} {g : Graph} {p : Bytes × Sched} (hg : s.gm.graphs.get? gid = some g)
    (hd : g.tasks.get? d = none) (hs : s.getTaskResult gid tid arg = .ok p) :
    ∃ g', p.2.gm.graphs.get? gid = some g' ∧ g'.tasks.get? d = none := by
  unfold getTaskResult at hs
  rw [Dict.getPy_of_get? hg] at hs
  simp only [Py.ok_bind] at hs
  obtain ⟨deps, _, hs⟩ := Py.bind_ok.1 hs
  obtain ⟨i, _, hs⟩ := Py.bind_ok.1 hs
  obtain ⟨res, _, hs⟩ := Py.bind_ok.1 hs
  split at hs
  · cases hs; exact ⟨{ g with deps }, by simp [setGraph], hd⟩
  · split at hs
    · obtain ⟨_, _, hs⟩ := Py.bind_ok.1 hs
      obtain ⟨q, hq, hs⟩ := Py.bind_ok.1 hs
      cases hs
      refine ⟨{ g with deps, tasks := q.2 }, by simp [setGraph], ?_⟩
      rw [Dict.pop_ok] at hq
      simp only [hq.2, Dict.get?_erase, hd]
      split <;> rfl
    · cases hs; exact ⟨{ g with deps }, by simp [setGraph], hd⟩

theorem getArguments_none {gid tid d : Bytes} : ∀ (as : List Argument) (s : Sched) (g : Graph) (p : List Argument × Sched),
    s.gm.graphs.get? gid = some g → g.tasks.get? d = none → s.getArguments gid tid as = .ok p →
    ∃ g', p.2.gm.graphs.get? gid = some g' ∧ g'.tasks.get? d = none := by
  intro as
  induction as with
  | nil => intro s g p hg hd hs; cases hs; exact ⟨g, hg, hd⟩
  | cons a as ih =>
    intro s g p hg hd hs
    unfold getArguments at hs
    cases hty : a.type with
    | data =>
      rw [hty] at hs
      simp only at hs
      obtain ⟨q, hq, hs⟩ := Py.bind_ok.1 hs
      cases hs
      exact ih s g q hg hd hq
    | task =>
      rw [hty] at hs
      simp only at hs
      obtain ⟨q, hq, hs⟩ := Py.bind_ok.1 hs
      obtain ⟨q2, hq2, hs⟩ := Py.bind_ok.1 hs
      cases hs
      obtain ⟨g1, h1, h2⟩ := getTaskResult_none hg hd hq
      exact ih q.2 g1 q2 h1 h2 hq2

theorem startNode_none {gid t d : Bytes} {g : Graph} {now : Int} (hg : s.gm.graphs.get? gid = some g)
    (hd : g.tasks.get? d = none) {s' : Sched} (hs : s.startNode gid now t = .ok s') :
    t ≠ d ∧ ∃ g', s'.gm.graphs.get? gid = some g' ∧ g'.tasks.get? d = none := by
  unfold startNode at hs
  rw [Dict.getPy_of_get? hg] at hs
  simp only [Py.ok_bind] at hs
  obtain ⟨i, hi, hs⟩ := Py.bind_ok.1 hs
  have hne : t ≠ d := by
    rintro rfl
    rw [Dict.getPy_none hd] at hi; cases hi
  obtain ⟨p, hp, hs⟩ := Py.bind_ok.1 hs
  obtain ⟨g1, h1, h2⟩ := getArguments_none _ _ _ _ hg hd hp
  rw [Dict.getPy_of_get? h1] at hs
  simp only [Py.ok_bind] at hs
  refine ⟨hne, ?_⟩
  rw [onTaskNew_gm hs]
  refine ⟨_, by simp [setGraph]; rfl, ?_⟩
  simp [h2, hne]

theorem startNodes_none {gid d : Bytes} {now : Int} : ∀ (ts : List Bytes) (s : Sched) (g : Graph),
    s.gm.graphs.get? gid = some g → g.tasks.get? d = none → d ∈ ts → ∃ e, s.startNodes gid now ts = .error e := by
  intro ts
  induction ts with
  | nil => intro s g _ _ hd; cases hd
  | cons t ts ih =>
    intro s g hg hd hm
    unfold startNodes
    refine bind_error fun s1 h1 => ?_
    obtain ⟨hne, g1, hg1, hd1⟩ := startNode_none hg hd h1
    exact ih s1 g1 hg1 hd1 ((List.mem_cons.1 hm).resolve_left (fun e => hne e.symm))

/-! ### Reading the graph -/

/-- The functions that come with the graph. -/
theorem functionAdds_spec (client : Bytes) (now : Int) : ∀ (l : List (Bytes × Bytes × Bytes)) (s : Sched), Conc s → AllSettled s.abs →
    (∀ p ∈ l, Asked h client p.1 ∧ Supplied h p.1 p.2.1 p.2.2) →
    ∃ s', l.foldl (fun s p => s.functionAdd client p.1 p.2.1 p.2.2 now) s = s' ∧ After h s s' ∧
      s'.clients = s.clients ∧ s'.fm.uses = s.fm.uses ∧ s'.tm = s.tm ∧ s'.wm = s.wm ∧ s'.gm = s.gm ∧
      (∀ f, (s'.fm.funcs.get? f).isSome ↔ (s.fm.funcs.get? f).isSome ∨ f ∈ l.map (·.1)) := by
  intro l
  induction l with
  | nil => intro s hc hset _; exact ⟨s, rfl, .refl hc hset, rfl, rfl, rfl, rfl, rfl, by simp⟩
  | cons p l ih =>
    intro s hc hset hh
    have hA := functionAdd_after (h := h) hc hset client p.1 p.2.1 p.2.2 now (hh p List.mem_cons_self).1 (hh p List.mem_cons_self).2
    obtain ⟨i, m, e, -, -, -, -⟩ := functionAdd_spec hc client p.1 p.2.1 p.2.2 now
    obtain ⟨s', e', hB, h1, h2, h3, h4, h5, h6⟩ := ih _ hA.conc hA.settled fun q hq => hh q (List.mem_cons_of_mem _ hq)
    refine ⟨s', e', hA.trans hB, ?_, ?_, ?_, ?_, ?_, ?_⟩
    · rw [h1, e]
    · rw [h2, e]
    · rw [h3, e]
    · rw [h4, e]
    · rw [h5, e]
    · intro f
      rw [h6, e]
      simp only [Dict.get?_set, List.map_cons, List.mem_cons]
      by_cases ef : p.1 = f
      · simp [ef]
      · have : ¬ f = p.1 := fun e => ef e.symm
        simp [ef, this]

theorem functionAdd_pop (client fid name content : Bytes) (now : Int) (s : Sched) (q : List (Bytes × GraphTask)) :
    functionAdd { s with gm := { s.gm with queue := q } } client fid name content now =
      { (s.functionAdd client fid name content now) with gm := { s.gm with queue := q } } ∧
    (s.functionAdd client fid name content now).gm = s.gm := by
  unfold functionAdd
  cases s.fm.funcs.get? fid <;> exact ⟨rfl, rfl⟩

theorem functionAdds_pop (client : Bytes) (now : Int) (q : List (Bytes × GraphTask)) :
    ∀ (l : List (Bytes × Bytes × Bytes)) (s : Sched),
    l.foldl (fun s p => s.functionAdd client p.1 p.2.1 p.2.2 now) { s with gm := { s.gm with queue := q } } =
      { (l.foldl (fun s p => s.functionAdd client p.1 p.2.1 p.2.2 now) s) with gm := { s.gm with queue := q } } := by
  intro l
  induction l with
  | nil => intro s; rfl
  | cons p l ih =>
    intro s
    simp only [List.foldl_cons]
    obtain ⟨e1, e2⟩ := functionAdd_pop client p.1 p.2.1 p.2.2 now s q
    rw [e1]
    have := ih (s.functionAdd client p.1 p.2.1 p.2.2 now)
    rw [e2] at this
    exact this

/-- The function table can get from `F` to `F'` by keeping functions alive. -/
def FuncReach (h : History) (F F' : Bytes → Option FuncInfo) : Prop :=
  (∀ a : Abs, a.funcs = F → ASteps h a { a with funcs := F' }) ∧ ∀ f, (F' f).isSome ↔ (F f).isSome

theorem FuncReach.refl (F : Bytes → Option FuncInfo) : FuncReach h F F :=
  ⟨fun a e => by subst e; exact .refl _, fun _ => Iff.rfl⟩

theorem FuncReach.touch {F : Bytes → Option FuncInfo} {f : Bytes} {i : FuncInfo} (hi : F f = some i) (now : Int) :
    FuncReach h F (upd F f (some { i with aliveSince := now })) := by
  refine ⟨?_, ?_⟩
  · intro a e
    subst e
    refine (AStep.func f _ ?_ ?_).steps
    · intro j hj
      rw [hi] at hj; cases hj; exact ⟨rfl, rfl⟩
    · intro hj
      rw [hi] at hj; cases hj
  · intro x
    simp only [upd_apply]
    split
    · next e => subst e; simp [hi]
    · rfl

theorem FuncReach.trans {F F' F'' : Bytes → Option FuncInfo} (x : FuncReach h F F') (y : FuncReach h F' F'') : FuncReach h F F'' := by
  refine ⟨?_, fun f => (y.2 f).trans (x.2 f)⟩
  intro a e
  exact (x.1 a e).trans (y.1 { a with funcs := F' } rfl)

/-- What has been collected after the nodes `l`. -/
structure Collected (o : Order) (l : List Task) (u : Unpack) : Prop where
  ids : ∀ t, t ∈ u.taskIds ↔ t ∈ l.map (·.taskId)
  tasks : ∀ t, u.tasks.get? t = (l.find? fun T => T.taskId = t).map fun T => ⟨.inactive, T, none⟩
  depsWF : u.deps.WF
  deps : ∀ d t, u.deps.rel d t ↔ ∃ T ∈ l, T.taskId = t ∧ d ∈ inputs T
  graph : u.graph.items = l.map fun T => (T.taskId, orderBy (o T.taskId) (inputs T))

theorem addDeps_spec (t : Bytes) : ∀ (ds : List Bytes) (k : KeyValueSet Bytes Bytes), k.WF →
    (ds.foldl (fun d r => d.add r t) k).WF ∧ ∀ d x, (ds.foldl (fun d r => d.add r t) k).rel d x ↔ k.rel d x ∨ (d ∈ ds ∧ x = t) := by
  intro ds
  induction ds with
  | nil => intro k hk; exact ⟨hk, by simp⟩
  | cons r ds ih =>
    intro k hk
    obtain ⟨h1, h2⟩ := ih (k.add r t) (KeyValueSet.add_wf hk r t)
    refine ⟨h1, fun d x => ?_⟩
    rw [List.foldl_cons, h2, KeyValueSet.add_rel]
    simp only [List.mem_cons]
    constructor
    · rintro ((h | ⟨rfl, rfl⟩) | ⟨h, rfl⟩)
      · exact Or.inl h
      · exact Or.inr ⟨Or.inl rfl, rfl⟩
      · exact Or.inr ⟨Or.inr h, rfl⟩
    · rintro (h | ⟨rfl | h, rfl⟩)
      · exact Or.inl (Or.inl h)
      · exact Or.inl (Or.inr ⟨rfl, rfl⟩)
      · exact Or.inr ⟨h, rfl⟩

theorem unpackNodes_spec (o : Order) (now : Int) (gt : GraphTask) : ∀ (ts l : List Task) (s : Sched) (u : Unpack),
    ((l ++ ts).map (·.taskId)).Nodup → Collected o l u → s.fm.uses.WF → (∀ T ∈ ts, s.fm.uses.v2k.get? T.taskId = none) →
    Py.Post (s.unpackNodes o now gt u ts)
      (fun p => Collected o (l ++ ts) p.1 ∧ p.2.cfg = s.cfg ∧ p.2.clients = s.clients ∧ p.2.tm = s.tm ∧ p.2.wm = s.wm ∧
        (p.2.out = s.out ∧ p.2.mon = s.mon ++ views gt ts) ∧ p.2.gm.queue = s.gm.queue ∧ p.2.gm.graphs = s.gm.graphs ∧ p.2.fm.uses.WF ∧
        p.2.fm.uses.v2k.get? = (fun t => ((ts.find? fun T => T.taskId = t).map (·.functionId)).or (s.fm.uses.v2k.get? t)) ∧
        p.2.gm.nodeGraph.get? = (fun t => if t ∈ ts.map (·.taskId) then some gt.taskId else s.gm.nodeGraph.get? t) ∧
        FuncReach h s.fm.funcs.get? p.2.fm.funcs.get? ∧ ∀ T ∈ ts, (s.fm.funcs.get? T.functionId).isSome)
      (fun _ => ∃ T ∈ ts, s.fm.funcs.get? T.functionId = none) := by
  intro ts
  induction ts with
  | nil =>
    intro l s u _ hu hW _
    simp only [unpackNodes, Py.post_ok, List.append_nil]
    exact ⟨hu, trivial, trivial, trivial, trivial, ⟨trivial, by simp [views]⟩, trivial, trivial, hW, by simp, by simp, .refl _, by simp⟩
  | cons T ts ih =>
    intro l s u hn hu hW huses
    have hTl : T.taskId ∉ l.map (·.taskId) := by
      intro hm
      rw [List.map_append, List.nodup_append] at hn
      exact hn.2.2 _ hm _ (by simp) rfl
    have hTts : T.taskId ∉ ts.map (·.taskId) := by
      rw [List.map_append, List.nodup_append] at hn
      have := hn.2.1
      rw [List.map_cons, List.nodup_cons] at this
      exact this.1
    unfold unpackNodes
    rw [Py.post_bind]
    cases hf : s.fm.funcs.get? T.functionId with
    | none =>
      unfold unpackNode useFunction
      rw [Dict.getPy_none hf]
      exact ⟨T, List.mem_cons_self, hf⟩
    | some i =>
      obtain ⟨uses, e1, hU, hU'⟩ := useFunction_ok (s := s) (tid := T.taskId) (fid := T.functionId) (now := now) (i := i) hW hf
        (Or.inl (huses T List.mem_cons_self))
      unfold unpackNode
      rw [e1]
      simp only [Py.ok_bind, Py.post_pure]
      have hperm := orderBy_perm (o T.taskId) (inputs T)
      have hu1 : Collected o (l ++ [T]) {
          taskIds := u.taskIds.add T.taskId
          tasks := u.tasks.set T.taskId ⟨.inactive, T, none⟩
          deps := (orderBy (o T.taskId) (requiredIds T).items).foldl (fun d r => d.add r T.taskId) u.deps
          graph := u.graph.set T.taskId (orderBy (o T.taskId) (requiredIds T).items) } := by
        obtain ⟨hd1, hd2⟩ := addDeps_spec T.taskId (orderBy (o T.taskId) (requiredIds T).items) u.deps hu.depsWF
        refine ⟨?_, ?_, hd1, ?_, ?_⟩
        · intro t
          rw [PySet.mem_add, hu.ids]
          simp only [List.map_append, List.mem_append, List.map_cons, List.map_nil, List.mem_singleton]
        · intro t
          rw [Dict.get?_set, hu.tasks, List.find?_append]
          by_cases e : T.taskId = t
          · have : l.find? (fun T => T.taskId = t) = none := by
              rw [List.find?_eq_none]
              intro x hx hx'
              simp only [decide_eq_true_eq] at hx'
              exact hTl (List.mem_map.2 ⟨x, hx, hx'.trans e.symm⟩)
            simp [this, e]
          · simp [e]
        · intro d t
          rw [hd2, hu.deps, mem_orderBy]
          constructor
          · rintro (⟨T', h1, h2, h3⟩ | ⟨h1, h2⟩)
            · exact ⟨T', List.mem_append_left _ h1, h2, h3⟩
            · exact ⟨T, List.mem_append_right _ (List.mem_singleton.2 rfl), h2.symm, h1⟩
          · rintro ⟨T', h1, h2, h3⟩
            rcases List.mem_append.1 h1 with h1 | h1
            · exact Or.inl ⟨T', h1, h2, h3⟩
            · rw [List.mem_singleton] at h1
              subst h1
              exact Or.inr ⟨h3, h2.symm⟩
        · have hnew : u.graph.get? T.taskId = none := by
            cases hx : u.graph.get? T.taskId with
            | none => rfl
            | some v =>
              have := Dict.mem_items.2 hx
              rw [hu.graph] at this
              obtain ⟨T', h1, h2⟩ := List.mem_map.1 this
              exact absurd (List.mem_map.2 ⟨T', h1, congrArg Prod.fst h2⟩) hTl
          rw [Dict.items_set_new _ hnew, hu.graph]
          simp [inputs]
      refine (ih (l ++ [T]) _ _ ?_ hu1 ?_ ?_).imp ?_ ?_
      · simpa using hn
      · exact hU
      · intro T' hT'
        show uses.v2k.get? T'.taskId = none
        rw [hU', upd_apply, if_neg]
        · exact huses T' (List.mem_cons_of_mem _ hT')
        · intro e
          exact hTts (List.mem_map.2 ⟨T', hT', e.symm⟩)
      · rintro ⟨u', s'⟩ ⟨h1, h2, h3, h4, h5, h6, h7, h8, h9, h10, h11, h12, h13⟩
        have hreach : FuncReach h s.fm.funcs.get? ((s.fm.funcs.set T.functionId { i with aliveSince := now }).get?) := by
          rw [Dict.get?_set_upd]; exact FuncReach.touch hf now
        refine ⟨by simpa using h1, h2, h3, h4, h5, ⟨h6.1, h6.2.trans (by simp [views, Sched.monitor])⟩, h7, h8, h9, ?_, ?_, hreach.trans h12, ?_⟩
        · rw [h10]
          funext t
          show Option.or _ (uses.v2k.get? t) = _
          rw [hU', upd_apply, List.find?_cons]
          by_cases e : T.taskId = t
          · have : ts.find? (fun T => T.taskId = t) = none := by
              rw [List.find?_eq_none]
              intro x hx hx'
              simp only [decide_eq_true_eq] at hx'
              exact hTts (List.mem_map.2 ⟨x, hx, hx'.trans e.symm⟩)
            simp [this, e]
          · simp [e]
        · rw [h11]
          funext t
          show (if t ∈ ts.map (·.taskId) then some gt.taskId else (s.gm.nodeGraph.set T.taskId gt.taskId).get? t) = _
          rw [Dict.get?_set]
          simp only [List.map_cons, List.mem_cons]
          by_cases e : T.taskId = t
          · simp [e]
          · have : ¬ t = T.taskId := fun e' => e e'.symm
            simp [e, this]
        · intro T' hT'
          rcases List.mem_cons.1 hT' with rfl | hT'
          · simp [hf]
          · exact (hreach.2 _).1 (h13 T' hT')
      · rintro _ ⟨T', h1, h2⟩
        refine ⟨T', List.mem_cons_of_mem _ h1, ?_⟩
        have hreach : FuncReach h s.fm.funcs.get? ((s.fm.funcs.set T.functionId { i with aliveSince := now }).get?) := by
          rw [Dict.get?_set_upd]; exact FuncReach.touch hf now
        have := hreach.2 T'.functionId
        have h2' : (s.fm.funcs.set T.functionId { i with aliveSince := now }).get? T'.functionId = none := h2
        rw [h2'] at this
        simpa using this

theorem addGraph_spec (hc : Conc s) (hi : Inv h s.abs) (hset : AllSettled s.abs) (o : Order) (now : Int) {client : Bytes}
    {gt : GraphTask} {rest : List (Bytes × GraphTask)} (hq : s.abs.queue = (client, gt) :: rest) :
    Py.Post (addGraph { s with gm := { s.gm with queue := rest } } o now client gt)
      (fun s' => After h s s' ∧ ¬ BadSubmit s.abs gt) (fun _ => BadSubmit s.abs gt) := by
  obtain ⟨hn, hf⟩ := hi.head_fresh hq
  have hm := (hi.queue client gt (by rw [hq]; exact List.mem_cons_self)).1
  have hnid : (nodeIds gt).Nodup := (List.nodup_cons.1 hn).2
  obtain ⟨s1, e1, hA1, c1, c2, c3, c4, c5, c6⟩ := functionAdds_spec (h := h) client now gt.functions.items s hc hset
    (fun p hp => ⟨.inr ⟨gt, hm, Dict.mem_keys.2 ⟨p.2, Dict.mem_items.1 hp⟩⟩, .inr ⟨client, gt, hm, Dict.mem_items.1 hp⟩⟩)
  have hi1 := hA1.steps.inv hi
  have hfun1 : ∀ f, (s1.abs.funcs f).isSome ↔ (s.abs.funcs f).isSome ∨ f ∈ gt.functions.keys := c6
  have hu1 : s1.abs.uses = s.abs.uses := by simp [Sched.abs, c2]
  have ho1 : s1.abs.owner = s.abs.owner := by simp [Sched.abs, c1]
  have hq1 : s1.abs.queue = (client, gt) :: rest := by rw [← hq]; simp [Sched.abs, c5]
  have hf1 : ∀ t ∈ allIds gt, s1.abs.uses t = none ∧ s1.abs.owner t = none := by
    intro t ht
    obtain ⟨⟨a1, a2, a3⟩, a4⟩ := hf t ht
    exact ⟨by rw [hu1]; exact a1, by rw [ho1]; exact a2⟩
  unfold addGraph
  rw [functionAdds_pop client now rest, e1, ← c5]
  obtain ⟨clients, e2, hC, hC'⟩ := clientNew_ok (s := { s1 with gm := { s1.gm with queue := rest } }) hA1.conc.clients
    (c := client) (tid := gt.taskId) (hf1 gt.taskId List.mem_cons_self).2
  simp only
  rw [e2]
  simp only [Py.ok_bind]
  rw [Py.post_bind]
  refine (unpackNodes_spec (h := h) o now gt gt.graph []
    { s1 with clients, gm := { s1.gm with queue := rest } } _ (by simpa [nodeIds] using hnid)
    ⟨by simp, by simp, KeyValueSet.wf_empty, fun d t => by simp [KeyValueSet.rel_empty], rfl⟩ hA1.conc.uses ?_).imp ?_ ?_
  · intro T hT
    exact (hf1 T.taskId (List.mem_cons_of_mem _ (List.mem_map.2 ⟨T, hT, rfl⟩))).1
  · rintro ⟨u, s2⟩ ⟨hu, h1, h2, h3, h4, h5, h6, h7, h8, h9, h10, h11, h12⟩
    simp only at h1 h2 h3 h4 h5 h6 h7 h8 h9 h10 h11
    simp only [List.nil_append] at hu
    simp only
    have hkeys : (u.graph.items.map (·.1)).Nodup := by
      rw [hu.graph]; simpa [nodeIds, Function.comp_def] using hnid
    have hps : ∀ p ∈ u.graph.items, p.2.Nodup := by
      intro p hp
      rw [hu.graph] at hp
      obtain ⟨T, _, rfl⟩ := List.mem_map.1 hp
      exact (orderBy_perm _ _).nodup_iff.2 (requiredIds T).nodup
    have hreq : ∀ n d, d ∈ Sorter.reqOf u.graph.items n ↔ ∃ T ∈ gt.graph, T.taskId = n ∧ d ∈ inputs T := by
      intro n d
      rw [Sorter.mem_reqOf hkeys, hu.graph]
      constructor
      · rintro ⟨p, hp, e, hd⟩
        obtain ⟨T, hT, rfl⟩ := List.mem_map.1 hp
        exact ⟨T, hT, e, mem_orderBy.1 hd⟩
      · rintro ⟨T, hT, e, hd⟩
        exact ⟨_, List.mem_map.2 ⟨T, hT, rfl⟩, e, mem_orderBy.2 hd⟩
    cases hprep : (Sorter.build u.graph.items).prepare with
    | error e =>
      refine Or.inr (Or.inl ?_)
      rintro ⟨rank, hr⟩
      obtain ⟨so, hso⟩ := Sorter.prepare_ok hkeys hps (rank := rank) (by
        intro n d hd
        obtain ⟨T, hT, e, hd⟩ := (hreq n d).1 hd
        rw [← e]; exact hr T hT d hd)
      rw [hprep] at hso; cases hso
    | ok so =>
      simp only [Py.ok_bind]
      obtain ⟨hOK, hnone⟩ := Sorter.prepare_spec hkeys hps hprep
      by_cases hcl : ∀ T ∈ gt.graph, ∀ d ∈ inputs T, d ∈ nodeIds gt
      · -- every input is a node
        let g : Graph := ⟨gt.targets, u.taskIds, so, u.tasks, u.deps, client⟩
        have hreqT : ∀ T ∈ gt.graph, req gt T.taskId = inputs T := by
          intro T hT
          rw [req, find_node hnid hT]
        have hnodes : ∀ n, Sorter.nodesOf u.graph.items n ↔ n ∈ nodeIds gt := by
          intro n
          unfold Sorter.nodesOf
          rw [hu.graph]
          constructor
          · rintro (hx | ⟨p, hp, hx⟩)
            · simpa [nodeIds, Function.comp_def] using hx
            · obtain ⟨T, hT, rfl⟩ := List.mem_map.1 hp
              exact hcl T hT n (mem_orderBy.1 hx)
          · intro hx
            left
            simpa [nodeIds, Function.comp_def] using hx
        have hOK' : so.OK (· ∈ nodeIds gt) (req gt) := by
          refine hOK.congr hnodes ?_
          intro n hnn
          obtain ⟨T, hT, e⟩ := List.mem_map.1 ((hnodes n).1 hnn)
          have : Sorter.reqOf u.graph.items n = orderBy (o T.taskId) (inputs T) := by
            have hl : (T.taskId, orderBy (o T.taskId) (inputs T)) ∈ u.graph.items := by
              rw [hu.graph]; exact List.mem_map.2 ⟨T, hT, rfl⟩
            have := Dict.mem_items.1 hl
            unfold Sorter.reqOf
            rw [show Dict.lget u.graph.items n = u.graph.get? n from rfl, ← e, this]
            rfl
          rw [this, ← e, hreqT T hT]
          exact orderBy_perm _ _
        have htasks : ∀ t i, u.tasks.get? t = some i → ∃ T ∈ gt.graph, T.taskId = t ∧ i = ⟨.inactive, T, none⟩ := by
          intro t i ht
          rw [hu.tasks] at ht
          obtain ⟨T, hT, rfl⟩ := Option.map_eq_some_iff.1 ht
          exact ⟨T, List.mem_of_find?_eq_some hT, by simpa using List.find?_some hT, rfl⟩
        have hhas : ∀ T ∈ gt.graph, u.tasks.get? T.taskId = some ⟨.inactive, T, none⟩ := by
          intro T hT
          rw [hu.tasks, find_node hnid hT]; rfl
        have hgok : GraphOK h gt.taskId gt g := by
          refine ⟨hm, rfl, rfl, ?_, hnid, hOK', hu.depsWF, ?_, ?_, ?_, ?_⟩
          · exact hu.ids
          · intro d t
            show u.deps.rel d t ↔ _
            rw [hu.deps]
            constructor
            · rintro ⟨T, hT, rfl, hd⟩
              exact ⟨by rw [hreqT T hT]; exact hd, _, hhas T hT, rfl⟩
            · rintro ⟨hd, i, hti, _⟩
              obtain ⟨T, hT, e, _⟩ := htasks t i hti
              exact ⟨T, hT, e, by rw [← e, hreqT T hT] at hd; exact hd⟩
          · intro t i hti
            obtain ⟨T, hT, e, rfl⟩ := htasks t i hti
            exact ⟨T, hT, e, rfl, rfl, rfl, rfl, (hnone _).1⟩
          · intro t ht hx
            obtain ⟨T, hT, e⟩ := List.mem_map.1 ht
            rw [← e, show g.tasks.get? T.taskId = _ from hhas T hT] at hx; cases hx
          · intro t ht
            rw [(hnone t).2] at ht; cases ht
        have hia : ∀ t i, g.tasks.get? t = some i → i.state = .inactive := by
          intro t i hti
          obtain ⟨T, _, _, rfl⟩ := htasks t i hti
          rfl
        have hdom : ∀ t, (g.tasks.get? t).isSome ↔ t ∈ nodeIds gt := by
          intro t
          constructor
          · intro hx
            obtain ⟨i, hx⟩ := Option.isSome_iff_exists.1 hx
            obtain ⟨T, hT, e, _⟩ := htasks t i hx
            exact List.mem_map.2 ⟨T, hT, e⟩
          · intro hx
            obtain ⟨T, hT, e⟩ := List.mem_map.1 hx
            rw [← e, show g.tasks.get? T.taskId = _ from hhas T hT]; rfl
        have habs : (s2.setGraph gt.taskId g).abs =
            ({ s1.abs with funcs := s2.fm.funcs.get?, queue := rest } : Abs).unpack client gt g := by
          simp only [Sched.abs, setGraph, Abs.unpack, h1, h2, h3, h4, h5.1, h5.2, h6, h7, h9, h10, hC', Dict.get?_set_upd]
          rfl
        have hfun : ∀ T ∈ gt.graph, (s2.fm.funcs.get? T.functionId).isSome :=
          fun T hT => (h11.2 _).2 (h12 T hT)
        have hsteps : ASteps h s1.abs (s2.setGraph gt.taskId g).abs := by
          rw [habs]
          refine (h11.1 s1.abs rfl).tail ?_
          exact AStep.unpack (a := { s1.abs with funcs := s2.fm.funcs.get? }) client gt rest g hq1 hfun rfl hgok hia hdom
        have hc4 : Conc (s2.setGraph gt.taskId g) := by
          refine ⟨?_, ?_, ?_, h8, ?_, ?_, ?_⟩
          · show s2.wm.alloc.Inv
            rw [h4]; exact hA1.conc.alloc
          · show s2.wm.alloc.max = s2.cfg.queueSize
            rw [h4, h1]; exact hA1.conc.max
          · show s2.tm.unassigned.WF id
            rw [h3]; exact hA1.conc.queue
          · show s2.clients.WF
            rw [h2]; exact hC
          · show ∀ t, t ∈ s2.tm.running ↔ (s2.wm.alloc.t2w.get? t).isSome
            rw [h3, h4]; exact hA1.conc.running
          · show ∀ w, s2.wm.alive.has w = true ↔ (s2.wm.alloc.w2t.get? w).isSome
            rw [h4]; exact hA1.conc.alive
        have hgr : (s2.setGraph gt.taskId g).abs.graphs = upd s1.abs.graphs gt.taskId (some g) := by
          rw [habs]; rfl
        have hempty : gt.graph = [] → gt.targets ≠ [] → BadGraph g := by
          intro d1 d2
          obtain ⟨t, ts, e⟩ := List.exists_cons_of_ne_nil d2
          refine Or.inl ⟨?_, t, by rw [show g.targets = gt.targets from rfl, e]; exact List.mem_cons_self, ?_⟩
          · rw [Bool.eq_false_iff]
            intro hx
            rcases (Sorter.isActive_iff hOK').1 hx with ⟨n, hn1⟩ | hn1
            · rw [(hnone n).2] at hn1; cases hn1
            · obtain ⟨x, l, e⟩ := List.exists_cons_of_ne_nil hn1
              obtain ⟨n, hn2, _⟩ := (hOK'.ready x).1 (by rw [e]; exact List.mem_cons_self)
              have := (hOK'.dom x).1 (by rw [hn2]; rfl)
              rw [nodeIds, d1] at this; cases this
          · intro hx
            have := (hu.ids t).1 hx
            rw [d1] at this; cases this
        refine (checkGraph_spec (taskDone_fails o now _) hc4 (hsteps.inv hi1) o now (gid := gt.taskId) (g := g)
          (by rw [hgr]; simp) ?_ ?_).imp ?_ ?_
        · intro t i hti; exact Or.inl (hia t i hti)
        · intro t i _ _; exact (hnone t).2
        · rintro s' ⟨k0, k1, k2, k3, og, k4, k5⟩
          refine ⟨hA1.trans ⟨k1, k2.trans h1, hsteps.trans k3, ?_⟩, ?_⟩
          rotate_left
          · rintro (⟨T, hT, d1, d2⟩ | d1 | ⟨T, hT, d, d1, d2⟩ | ⟨d1, d2⟩)
            · rcases (hfun1 T.functionId).1 (h12 T hT) with d3 | d3
              · rw [d1] at d3; cases d3
              · exact d2 d3
            · obtain ⟨rank, hr⟩ := hOK'.rank
              exact d1 ⟨rank, fun T hT d hd => hr T.taskId d (List.mem_map.2 ⟨T, hT, rfl⟩) (by rw [hreqT T hT]; exact hd)⟩
            · exact d2 (hcl T hT d d1)
            · exact k0 (hempty d1 d2)
          intro gid' g' hg'
          rw [k4, hgr] at hg'
          simp only [upd_apply] at hg'
          split at hg'
          · exact k5 g' hg'
          · exact hA1.settled gid' g' hg'
        · intro _ hb
          rcases hb with ⟨b0, t, b1, b2⟩ | ⟨_, t, b1, i, b2, b3⟩
          · refine Or.inr (Or.inr (Or.inr ⟨?_, by intro e; rw [show g.targets = gt.targets from rfl, e] at b1; cases b1⟩))
            rw [List.eq_nil_iff_forall_not_mem]
            intro T hT
            have := Sorter.inactive_done hOK' b0 T.taskId (List.mem_map.2 ⟨T, hT, rfl⟩)
            rw [(hnone _).1] at this; cases this
          · obtain ⟨T, hT, e, rfl⟩ := htasks t i b2
            have hin : inputs T = [] := by
              rw [List.eq_nil_iff_forall_not_mem]
              intro d hd
              obtain ⟨n, hn1, hn2⟩ := (hOK'.ready t).1 b1
              have hw := hOK'.waiting t n hn1 (by omega)
              rw [hn2, ← e, hreqT T hT] at hw
              have := List.countP_eq_zero.1 (show List.countP (fun d => !so.isDone d) (inputs T) = 0 by omega) d hd
              simp [(hnone d).1] at this
            have : refs T.args = [] := by
              rw [List.eq_nil_iff_forall_not_mem]
              intro d hd
              have := mem_inputs.2 hd
              rw [hin] at this; cases this
            exact absurd (by rw [this]; exact List.nodup_nil) b3
      · -- a dangling input makes the loop fail
        have hcl' : ∃ T ∈ gt.graph, ∃ d ∈ inputs T, d ∉ nodeIds gt := by
          simpa [Classical.not_forall] using hcl
        obtain ⟨T, hT, d, hd, hdn⟩ := hcl'
        have hdr : d ∈ so.ready := by
          have hnd : Sorter.nodesOf u.graph.items d := by
            right
            refine ⟨_, by rw [hu.graph]; exact List.mem_map.2 ⟨T, hT, rfl⟩, mem_orderBy.2 hd⟩
          obtain ⟨n, hnn⟩ := Option.isSome_iff_exists.1 ((hOK.dom d).2 hnd)
          have hreqd : Sorter.reqOf u.graph.items d = [] := by
            rw [List.eq_nil_iff_forall_not_mem]
            intro x hx
            obtain ⟨T', hT', e, _⟩ := (hreq d x).1 hx
            exact hdn (List.mem_map.2 ⟨T', hT', e⟩)
          rw [hOK.ready]
          refine ⟨n, hnn, ?_⟩
          rcases hOK.range d n hnn with hr | hr | hr
          · have := Sorter.isDone_iff.2 ⟨n, hnn, hr⟩
            rw [(hnone d).1] at this; cases this
          · have := Sorter.isOut_iff.2 ⟨n, hnn, hr⟩
            rw [(hnone d).2] at this; cases this
          · have := hOK.waiting d n hnn hr
            rw [hreqd] at this
            simpa using this
        have hact : so.isActive = true := (Sorter.isActive_iff hOK).2 (Or.inr (by intro e; rw [e] at hdr; cases hdr))
        have hfail : ∀ st : Sched, st.gm.graphs.get? gt.taskId = some ⟨gt.targets, u.taskIds, so, u.tasks, u.deps, client⟩ →
            ∃ e, checkGraph (taskDone o now st.depth) st o now gt.taskId = .error e := by
          intro st hst
          unfold checkGraph
          rw [Dict.getPy_of_get? hst]
          simp only [Py.ok_bind, hact, Bool.not_true, Bool.false_eq_true, if_false]
          rw [(Sorter.getReady_spec hOK).1]
          refine startNodes_none (d := d) so.ready _ { (⟨gt.targets, u.taskIds, so, u.tasks, u.deps, client⟩ : Graph) with sorter := so.getReady.2 }
            (by simp [setGraph]) ?_ hdr
          show u.tasks.get? d = none
          rw [hu.tasks, Option.map_eq_none_iff, List.find?_eq_none]
          intro x hx hx'
          simp only [decide_eq_true_eq] at hx'
          exact hdn (List.mem_map.2 ⟨x, hx, hx'⟩)
        obtain ⟨e, he⟩ := hfail (s2.setGraph gt.taskId ⟨gt.targets, u.taskIds, so, u.tasks, u.deps, client⟩) (by simp [setGraph])
        rw [he]
        exact Or.inr (Or.inr (Or.inl ⟨T, hT, d, hd, hdn⟩))
  · rintro _ ⟨T, hT, hx⟩
    refine Or.inl ⟨T, hT, ?_⟩
    have := hfun1 T.functionId
    rw [show s1.abs.funcs T.functionId = none from hx] at this
    simp only [Option.isSome_none, Bool.false_eq_true, false_iff, not_or, Option.not_isSome_iff_eq_none] at this
    exact this

theorem graphRoutine_spec (hc : Conc s) (hi : Inv h s.abs) (hset : AllSettled s.abs) (o : Order) (now : Int) :
    Py.Post (s.graphRoutine o now)
      (fun s' => After h s s' ∧ ¬ ∃ c gt rest, s.abs.queue = (c, gt) :: rest ∧ BadSubmit s.abs gt)
      (fun _ => ∃ c gt rest, s.abs.queue = (c, gt) :: rest ∧ BadSubmit s.abs gt) := by
  unfold graphRoutine
  cases hq : s.gm.queue with
  | nil =>
    refine ⟨.refl hc hset, ?_⟩
    rintro ⟨c, gt, rest, hx, _⟩
    rw [show s.abs.queue = [] from hq] at hx; cases hx
  | cons p rest =>
    obtain ⟨c, gt⟩ := p
    have hqa : s.abs.queue = (c, gt) :: rest := hq
    exact (addGraph_spec hc hi hset o now hqa).imp (fun _ hB => ⟨hB.1, by
      rintro ⟨c', gt', rest', hx, hb⟩
      rw [hqa] at hx; cases hx
      exact hB.2 hb⟩) (fun _ hx => ⟨c, gt, rest, hqa, hx⟩)

end Sched

end Verif.Sched
