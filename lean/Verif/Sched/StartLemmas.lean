import Verif.Sched.DoneLemmas

/-!
# Starting the nodes of a graph
-/

namespace Verif.Sched

open Verif.Queue Verif.Util Verif.Wire

/-- The nodes named by a list of arguments, in order. -/
def refs (l : List Argument) : List Bytes := (l.filter fun a => a.type = .task).map (·.data)

theorem mem_inputs {t : Task} {d : Bytes} : d ∈ inputs t ↔ d ∈ refs t.args := by
  simp [inputs, Sched.requiredIds, refs]

namespace Sched

variable {s : Sched} {h : History}

/-- Nothing but the graph manager's tables changed. -/
structure GMOnly (s s' : Sched) : Prop where
  cfg : s'.cfg = s.cfg
  clients : s'.clients = s.clients
  fm : s'.fm = s.fm
  tm : s'.tm = s.tm
  wm : s'.wm = s.wm
  out : s'.out = s.out
  queue : s'.gm.queue = s.gm.queue
  mon : s'.mon = s.mon

theorem GMOnly.refl (s : Sched) : GMOnly s s := ⟨rfl, rfl, rfl, rfl, rfl, rfl, rfl, rfl⟩

theorem GMOnly.trans {s s' s'' : Sched} (x : GMOnly s s') (y : GMOnly s' s'') : GMOnly s s'' :=
  ⟨y.cfg.trans x.cfg, y.clients.trans x.clients, y.fm.trans x.fm, y.tm.trans x.tm, y.wm.trans x.wm, y.out.trans x.out,
    y.queue.trans x.queue, y.mon.trans x.mon⟩

theorem GMOnly.conc {s s' : Sched} (x : GMOnly s s') (hc : Conc s) : Conc s' := by
  refine ⟨?_, ?_, ?_, ?_, ?_, ?_, ?_⟩
  · rw [x.wm]; exact hc.alloc
  · rw [x.wm, x.cfg]; exact hc.max
  · rw [x.tm]; exact hc.queue
  · rw [x.fm]; exact hc.uses
  · rw [x.clients]; exact hc.clients
  · rw [x.tm, x.wm]; exact hc.running
  · rw [x.wm]; exact hc.alive

theorem GMOnly.abs {s s' : Sched} (x : GMOnly s s') :
    s'.abs = { s.abs with graphs := s'.gm.graphs.get?, node := s'.gm.nodeGraph.get? } := by
  simp [Sched.abs, x.cfg, x.clients, x.fm, x.tm, x.wm, x.out, x.queue, x.mon]

/-- `__get_task_result` of an input that is there. -/
theorem getTaskResult_ok {gid tid arg : Bytes} {g : Graph} {i : NodeInfo} {r : Bytes}
    (hg : s.gm.graphs.get? gid = some g) (hd : g.deps.WF) (hr : g.deps.rel arg tid)
    (hi : g.tasks.get? arg = some i) (hres : i.result = some r) (hn : (s.gm.nodeGraph.get? arg).isSome) :
    ∃ s' g', s.getTaskResult gid tid arg = .ok (r, s') ∧ GMOnly s s' ∧
      s'.gm.graphs.get? = upd s.gm.graphs.get? gid (some g') ∧
      (g'.targets = g.targets ∧ g'.client = g.client ∧ g'.taskIds = g.taskIds ∧ g'.sorter = g.sorter) ∧
      g'.deps.WF ∧ (∀ d x, g'.deps.rel d x ↔ g.deps.rel d x ∧ ¬ (d = arg ∧ x = tid)) ∧
      ((arg ∈ g.targets ∨ ∃ y, g'.deps.rel arg y) ∧ g'.tasks = g.tasks ∧ s'.gm.nodeGraph = s.gm.nodeGraph ∨
       (arg ∉ g.targets ∧ ∀ y, ¬ g'.deps.rel arg y) ∧ g'.tasks = g.tasks.erase arg ∧
         s'.gm.nodeGraph = s.gm.nodeGraph.erase arg) := by
  obtain ⟨deps, e1, hW, hR⟩ := KeyValueSet.removeValue_ok hd hr
  have hk := KeyValueSet.hasKey_iff hW arg
  unfold getTaskResult
  rw [Dict.getPy_of_get? hg]
  simp only [Py.ok_bind]
  rw [e1]
  simp only [Py.ok_bind]
  rw [Dict.getPy_of_get? hi]
  simp only [Py.ok_bind, hres, orRaise]
  by_cases hy : ∃ y, deps.rel arg y
  · rw [if_pos (hk.2 hy)]
    exact ⟨_, { g with deps }, rfl, ⟨rfl, rfl, rfl, rfl, rfl, rfl, rfl, rfl⟩, Dict.get?_set_upd _ _ _,
      ⟨rfl, rfl, rfl, rfl⟩, hW, hR, Or.inl ⟨Or.inr hy, rfl, rfl⟩⟩
  · rw [if_neg (fun hh => hy (hk.1 hh))]
    by_cases ht : arg ∈ g.targets
    · rw [if_neg (by simpa using ht)]
      exact ⟨_, { g with deps }, rfl, ⟨rfl, rfl, rfl, rfl, rfl, rfl, rfl, rfl⟩, Dict.get?_set_upd _ _ _,
        ⟨rfl, rfl, rfl, rfl⟩, hW, hR, Or.inl ⟨Or.inl ht, rfl, rfl⟩⟩
    · rw [if_pos (by simpa using ht)]
      obtain ⟨gid', hn'⟩ := Option.isSome_iff_exists.1 hn
      rw [show (s.setGraph gid { g with deps }).gm.nodeGraph = s.gm.nodeGraph from rfl, Dict.pop_of_get? hn']
      simp only [Py.ok_bind]
      rw [Dict.pop_of_get? hi]
      simp only [Py.ok_bind]
      refine ⟨_, { g with deps, tasks := g.tasks.erase arg }, rfl, ⟨rfl, rfl, rfl, rfl, rfl, rfl, rfl, rfl⟩, ?_,
        ⟨rfl, rfl, rfl, rfl⟩, hW, hR, Or.inr ⟨⟨ht, ?_⟩, rfl, rfl⟩⟩
      · funext x
        simp only [setGraph, Dict.get?_set, upd_apply]
        split <;> rfl
      · simpa using hy

theorem getTaskResult_err {gid tid arg : Bytes} {g : Graph}
    (hg : s.gm.graphs.get? gid = some g) (hr : ¬ g.deps.rel arg tid) :
    s.getTaskResult gid tid arg = .error .keyError := by
  unfold getTaskResult
  rw [Dict.getPy_of_get? hg]
  simp only [Py.ok_bind]
  rw [KeyValueSet.removeValue_err hr]
  rfl

/-- The inputs of a node are taken; those nobody else needs disappear. -/
theorem getArguments_ok {gid tid : Bytes} : ∀ (as : List Argument) (s : Sched) (g : Graph), (refs as).Nodup →
    s.gm.graphs.get? gid = some g → g.deps.WF → (∀ d ∈ refs as, g.deps.rel d tid) →
    (∀ d ∈ refs as, ∃ i r, g.tasks.get? d = some i ∧ i.result = some r ∧ HasResult h d r) →
    (∀ d ∈ refs as, (s.gm.nodeGraph.get? d).isSome) →
    ∃ as' s' g', ∃ gone : Bytes → Bool, s.getArguments gid tid as = .ok (as', s') ∧ GMOnly s s' ∧
      s'.gm.graphs.get? = upd s.gm.graphs.get? gid (some g') ∧
      (g'.targets = g.targets ∧ g'.client = g.client ∧ g'.taskIds = g.taskIds ∧ g'.sorter = g.sorter) ∧
      g'.deps.WF ∧ (∀ d x, g'.deps.rel d x ↔ g.deps.rel d x ∧ ¬ (d ∈ refs as ∧ x = tid)) ∧
      (∀ x, gone x = true ↔ x ∈ refs as ∧ x ∉ g.targets ∧ ∀ y, ¬ g'.deps.rel x y) ∧
      (∀ x, g'.tasks.get? x = if gone x then none else g.tasks.get? x) ∧
      (∀ x, s'.gm.nodeGraph.get? x = if gone x then none else s.gm.nodeGraph.get? x) ∧ ArgsOK h as as' := by
  intro as
  induction as with
  | nil =>
    intro s g _ hg hW _ _ _
    refine ⟨[], s, g, fun _ => false, rfl, .refl s, ?_, ⟨rfl, rfl, rfl, rfl⟩, hW, by simp [refs], by simp [refs], by simp,
      by simp, .nil⟩
    funext x; simp only [upd_apply]; split
    · next e => rw [← e, hg]
    · rfl
  | cons a as ih =>
    intro s g hn hg hW hrel hres hnode
    cases hty : a.type with
    | data =>
      have hrefs : refs (a :: as) = refs as := by simp [refs, hty]
      rw [hrefs] at hn hrel hres hnode
      obtain ⟨as', s', g', gone, e, h1, h2, h3, h4, h5, h6, h7, h8, h9⟩ := ih s g hn hg hW hrel hres hnode
      refine ⟨a :: as', s', g', gone, ?_, h1, h2, h3, h4, by rwa [hrefs], by rwa [hrefs], h7, h8, .cons ?_ h9⟩
      · unfold getArguments
        simp [hty, e]
      · simp [ArgOK, hty]
    | task =>
      have hrefs : refs (a :: as) = a.data :: refs as := by simp [refs, hty]
      rw [hrefs] at hn hrel hres hnode
      rw [List.nodup_cons] at hn
      obtain ⟨i, r, hi, hr, hR⟩ := hres a.data List.mem_cons_self
      obtain ⟨s1, g1, e1, f1, f2, ⟨t1, t2, t3, t4⟩, f4, f5, f6⟩ := getTaskResult_ok hg hW (hrel a.data List.mem_cons_self) hi hr
        (hnode a.data List.mem_cons_self)
      have ht1 : ∀ x, x ≠ a.data → g1.tasks.get? x = g.tasks.get? x := by
        intro x hx
        have : ¬ a.data = x := fun e => hx e.symm
        rcases f6 with ⟨_, e, _⟩ | ⟨_, e, _⟩ <;> simp [e, this]
      have hn1 : ∀ x, x ≠ a.data → s1.gm.nodeGraph.get? x = s.gm.nodeGraph.get? x := by
        intro x hx
        have : ¬ a.data = x := fun e => hx e.symm
        rcases f6 with ⟨_, _, e⟩ | ⟨_, _, e⟩ <;> simp [e, this]
      have hne : ∀ d ∈ refs as, d ≠ a.data := fun d hd e => hn.1 (e ▸ hd)
      obtain ⟨as', s', g', gone, e, h1, h2, ⟨u1, u2, u3, u4⟩, h4, h5, h6, h7, h8, h9⟩ := ih s1 g1 hn.2 (by rw [f2]; simp) f4
        (by
          intro d hd
          exact (f5 d tid).2 ⟨hrel d (List.mem_cons_of_mem _ hd), fun e => hne d hd e.1⟩)
        (by
          intro d hd
          rw [ht1 d (hne d hd)]
          exact hres d (List.mem_cons_of_mem _ hd))
        (by
          intro d hd
          rw [hn1 d (hne d hd)]
          exact hnode d (List.mem_cons_of_mem _ hd))
      have hrel1 : ∀ y, g'.deps.rel a.data y ↔ g1.deps.rel a.data y := by
        intro y
        rw [h5]
        exact ⟨fun h => h.1, fun h => ⟨h, fun h' => hn.1 h'.1⟩⟩
      have hgoneA : gone a.data = false := by
        rw [Bool.eq_false_iff]; intro hg'
        exact hn.1 ((h6 a.data).1 hg').1
      -- was the first input dropped?
      have hcase : ∃ b : Bool, (b = true ↔ a.data ∉ g.targets ∧ ∀ y, ¬ g1.deps.rel a.data y) ∧
          (∀ x, g1.tasks.get? x = if x = a.data ∧ b then none else g.tasks.get? x) ∧
          (∀ x, s1.gm.nodeGraph.get? x = if x = a.data ∧ b then none else s.gm.nodeGraph.get? x) := by
        rcases f6 with ⟨hc, e, e'⟩ | ⟨hc, e, e'⟩
        · refine ⟨false, ?_, by simp [e], by simp [e']⟩
          simp only [Bool.false_eq_true, false_iff, not_and, Classical.not_forall, Classical.not_not]
          intro hnt
          exact hc.resolve_left hnt
        · refine ⟨true, by simpa using hc, ?_, ?_⟩
          · intro x; rw [e, Dict.get?_erase]; simp [eq_comm]
          · intro x; rw [e', Dict.get?_erase]; simp [eq_comm]
      obtain ⟨b, hb1, hb2, hb3⟩ := hcase
      refine ⟨⟨.data, r⟩ :: as', s', g', fun x => gone x || (decide (x = a.data) && b), ?_, f1.trans h1, ?_,
        ⟨u1.trans t1, u2.trans t2, u3.trans t3, u4.trans t4⟩, h4, ?_, ?_, ?_, ?_, .cons ?_ h9⟩
      · unfold getArguments
        simp [hty, e1, e]
      · rw [h2, f2]
        funext x; simp only [upd_apply]; split <;> rfl
      · intro d x
        rw [h5, f5, hrefs]
        simp only [List.mem_cons]
        constructor
        · rintro ⟨⟨h1, h2⟩, h3⟩
          refine ⟨h1, ?_⟩
          rintro ⟨h4 | h4, h5⟩
          · exact h2 ⟨h4, h5⟩
          · exact h3 ⟨h4, h5⟩
        · rintro ⟨h1, h2⟩
          exact ⟨⟨h1, fun h => h2 ⟨Or.inl h.1, h.2⟩⟩, fun h => h2 ⟨Or.inr h.1, h.2⟩⟩
      · intro x
        rw [hrefs]
        simp only [Bool.or_eq_true, Bool.and_eq_true, decide_eq_true_eq, List.mem_cons]
        by_cases ex : x = a.data
        · subst ex
          simp only [hgoneA, Bool.false_eq_true, true_and, false_or, true_or]
          rw [hb1]
          simp only [hrel1]
        · simp only [ex, false_and, or_false, false_or]
          rw [h6, t1]
      · intro x
        rw [h7, hb2]
        by_cases ex : x = a.data
        · subst ex; simp [hgoneA]
        · simp [ex]
      · intro x
        rw [h8, hb3]
        by_cases ex : x = a.data
        · subst ex; simp [hgoneA]
        · simp [ex]
      · simp only [ArgOK, hty]
        exact ⟨trivial, hR⟩

theorem getTaskResult_rel {gid tid arg : Bytes} {g : Graph} {p : Bytes × Sched} (hg : s.gm.graphs.get? gid = some g)
    (hW : g.deps.WF) (hs : s.getTaskResult gid tid arg = .ok p) :
    ∃ g', p.2.gm.graphs.get? gid = some g' ∧ g'.deps.WF ∧ ∀ d x, g'.deps.rel d x ↔ g.deps.rel d x ∧ ¬ (d = arg ∧ x = tid) := by
  by_cases hr : g.deps.rel arg tid
  · obtain ⟨deps, e1, hW', hR⟩ := KeyValueSet.removeValue_ok hW hr
    unfold getTaskResult at hs
    rw [Dict.getPy_of_get? hg] at hs
    simp only [Py.ok_bind] at hs
    rw [e1] at hs
    simp only [Py.ok_bind] at hs
    obtain ⟨i, _, hs⟩ := Py.bind_ok.1 hs
    obtain ⟨res, _, hs⟩ := Py.bind_ok.1 hs
    split at hs
    · cases hs; exact ⟨{ g with deps }, by simp [setGraph], hW', hR⟩
    · split at hs
      · obtain ⟨_, _, hs⟩ := Py.bind_ok.1 hs
        obtain ⟨q, _, hs⟩ := Py.bind_ok.1 hs
        cases hs
        exact ⟨{ g with deps, tasks := q.2 }, by simp [setGraph], hW', hR⟩
      · cases hs; exact ⟨{ g with deps }, by simp [setGraph], hW', hR⟩
  · rw [getTaskResult_err hg hr] at hs; cases hs

/-- An input that is not recorded as needed by this node. -/
theorem getArguments_missing {gid tid d : Bytes} : ∀ (as : List Argument) (s : Sched) (g : Graph),
    s.gm.graphs.get? gid = some g → g.deps.WF → d ∈ refs as → ¬ g.deps.rel d tid →
    ∃ e, s.getArguments gid tid as = .error e := by
  intro as
  induction as with
  | nil => intro s g _ _ hd; simp [refs] at hd
  | cons a as ih =>
    intro s g hg hW hd hr
    unfold getArguments
    cases hty : a.type with
    | data =>
      have hrefs : refs (a :: as) = refs as := by simp [refs, hty]
      rw [hrefs] at hd
      obtain ⟨e, he⟩ := ih s g hg hW hd hr
      exact ⟨e, by simp [he]⟩
    | task =>
      have hrefs : refs (a :: as) = a.data :: refs as := by simp [refs, hty]
      rw [hrefs] at hd
      simp only
      refine bind_error fun p hp => ?_
      obtain ⟨g', h1, h2, h3⟩ := getTaskResult_rel hg hW hp
      have hne : d ≠ a.data := by
        rintro rfl
        rw [getTaskResult_err hg hr] at hp; cases hp
      obtain ⟨e, he⟩ := ih p.2 g' h1 h2 ((List.mem_cons.1 hd).resolve_left hne) (fun h => hr ((h3 d tid).1 h).1)
      exact ⟨e, by simp [he]⟩

/-- A node that names an input twice cannot be started. -/
theorem getArguments_repeated {gid tid : Bytes} : ∀ (as : List Argument) (s : Sched) (g : Graph),
    s.gm.graphs.get? gid = some g → g.deps.WF → ¬ (refs as).Nodup →
    ∃ e, s.getArguments gid tid as = .error e := by
  intro as
  induction as with
  | nil => intro s g _ _ hd; simp [refs] at hd
  | cons a as ih =>
    intro s g hg hW hd
    unfold getArguments
    cases hty : a.type with
    | data =>
      have hrefs : refs (a :: as) = refs as := by simp [refs, hty]
      rw [hrefs] at hd
      obtain ⟨e, he⟩ := ih s g hg hW hd
      exact ⟨e, by simp [he]⟩
    | task =>
      have hrefs : refs (a :: as) = a.data :: refs as := by simp [refs, hty]
      rw [hrefs, List.nodup_cons, Classical.not_and_iff_not_or_not, Classical.not_not] at hd
      simp only
      refine bind_error fun p hp => ?_
      obtain ⟨g', h1, h2, h3⟩ := getTaskResult_rel hg hW hp
      rcases hd with hd | hd
      · obtain ⟨e, he⟩ := getArguments_missing as p.2 g' h1 h2 hd (fun h => ((h3 a.data tid).1 h).2 ⟨rfl, rfl⟩)
        exact ⟨e, by simp [he]⟩
      · obtain ⟨e, he⟩ := ih p.2 g' h1 h2 hd
        exact ⟨e, by simp [he]⟩

end Sched

/-- No node of the graph failed or was cancelled. -/
def Alive (g : Graph) : Prop :=
  ∀ t i, g.tasks.get? t = some i → i.state = .inactive ∨ i.state = .running ∨ i.state = .success

/-- The inputs of a node that is handed out are there. -/
theorem GraphOK.inputs_there {h : History} {gid : Bytes} {gt : GraphTask} {g : Graph} (hok : GraphOK h gid gt g) (ha : Alive g)
    {t : Bytes} {i : NodeInfo} (ht : g.tasks.get? t = some i) (hs : i.state = .inactive) (ho : g.sorter.isOut t = true)
    {d : Bytes} (hd : d ∈ inputs i.task) :
    g.deps.rel d t ∧ ∃ j, g.tasks.get? d = some j ∧ j.state = .success := by
  obtain ⟨T, hT, hTt, hN1, hN2, hN3⟩ := hok.node t i ht
  simp only [hs] at hN3
  have hreq : req gt t = inputs i.task := by
    rw [hN3.1, req, ← hTt, find_node hok.nodup hT]
  have hdr : d ∈ req gt t := by rw [hreq]; exact hd
  have hrel : g.deps.rel d t := (hok.deps d t).2 ⟨hdr, i, ht, hs⟩
  refine ⟨hrel, ?_⟩
  obtain ⟨n, hn, hneg⟩ := Sorter.isOut_iff.1 ho
  have hdone : g.sorter.isDone d = true := hok.sorter.started t n hn (by omega) d hdr
  have hnd : d ∈ nodeIds gt := hok.sorter.closed t d (by
    exact List.mem_map.2 ⟨T, hT, hTt⟩) hdr
  cases hx : g.tasks.get? d with
  | none => exact absurd hrel ((hok.gone d hnd hx).2.2 t)
  | some j =>
    refine ⟨j, rfl, ?_⟩
    obtain ⟨D, _, hDd, _, _, hD⟩ := hok.node d j hx
    rcases ha d j hx with e | e | e
    · simp only [e, hDd] at hD; rw [hdone] at hD; cases hD.2.2
    · simp only [e, hDd] at hD
      obtain ⟨n1, h1, h2⟩ := Sorter.isOut_iff.1 hD.2.1
      obtain ⟨n2, h3, h4⟩ := Sorter.isDone_iff.1 hdone
      rw [h1] at h3; cases h3; omega
    · exact e

namespace Sched

variable {s : Sched} {h : History}

/-- One turn of the loop that starts nodes. -/
theorem startNode_spec (hc : Conc s) (hi : Inv h s.abs) {gid t : Bytes} {g : Graph} {i : NodeInfo} (now : Int)
    (hg : s.abs.graphs gid = some g) (ha : Alive g) (ht : g.tasks.get? t = some i) (hs : i.state = .inactive)
    (ho : g.sorter.isOut t = true) :
    Py.Post (s.startNode gid now t)
      (fun s' => (refs i.task.args).Nodup ∧ Conc s' ∧ s'.cfg = s.cfg ∧ ASteps h s.abs s'.abs ∧
        ∃ g' k gone, Consume g t i k g' gone ∧ s'.abs.graphs = upd s.abs.graphs gid (some g') ∧
          (∀ x, gone x = true → ∃ j, g.tasks.get? x = some j ∧ j.state = .success))
      (fun _ => ¬ (refs i.task.args).Nodup) := by
  obtain ⟨gt, hok⟩ := hi.graphs gid g hg
  obtain ⟨T, hT, hTt, hN1, hN2, hN3⟩ := hok.node t i ht
  simp only [hs] at hN3
  have hid : i.task.taskId = t := hN1.trans hTt
  have hl := hi.link gid g t i hg ht
  simp only [Link, hs] at hl
  have hin := fun d hd => hok.inputs_there ha ht hs ho (d := d) hd
  by_cases hnd : (refs i.task.args).Nodup
  · have hres : ∀ d ∈ refs i.task.args, ∃ j r, g.tasks.get? d = some j ∧ j.result = some r ∧ HasResult h d r := by
      intro d hd
      obtain ⟨j, hj, e⟩ := (hin d (mem_inputs.2 hd)).2
      obtain ⟨D, _, hDd, _, _, hD⟩ := hok.node d j hj
      simp only [e, hDd] at hD
      obtain ⟨_, _, r, h1, h2⟩ := hD
      exact ⟨j, r, hj, h1, h2⟩
    have hnode : ∀ d ∈ refs i.task.args, (s.gm.nodeGraph.get? d).isSome := by
      intro d hd
      obtain ⟨j, hj, _⟩ := (hin d (mem_inputs.2 hd)).2
      have := (hi.nodes d gid).2 ⟨g, hg, by simp [hj]⟩
      rw [show s.gm.nodeGraph.get? d = s.abs.node d from rfl, this]; rfl
    obtain ⟨args, s1, g1, gone, e1, f1, f2, ⟨u1, u2, u3, u4⟩, f4, f5, f6, f7, f8, f9⟩ :=
      getArguments_ok (h := h) (gid := gid) (tid := t) i.task.args s g hnd hg hok.depsWF
        (fun d hd => (hin d (mem_inputs.2 hd)).1) hres hnode
    have hgone : ∀ x, gone x = true → ∃ j, g.tasks.get? x = some j ∧ j.state = .success :=
      fun x hx => (hin x (mem_inputs.2 ((f6 x).1 hx).1)).2
    have hgt : gone t = false := by
      rw [Bool.eq_false_iff]; intro hx
      obtain ⟨j, hj, e⟩ := hgone t hx
      rw [ht] at hj; cases hj; rw [hs] at e; cases e
    let k : Task := { i.task with args }
    let g' : Graph := { g1 with tasks := g1.tasks.set t { i with task := k, state := .running } }
    have hcon : Consume g t i k g' gone := by
      refine ⟨⟨u1, u2, u3, u4⟩, f4, ?_, ?_, ?_⟩
      · intro d x
        show g1.deps.rel d x ↔ _
        rw [f5]
        constructor
        · rintro ⟨h1, h2⟩
          refine ⟨h1, ?_⟩
          rintro rfl
          have := ((hok.deps d x).1 h1).1
          rw [req, ← hTt, find_node hok.nodup hT] at this
          exact h2 ⟨mem_inputs.1 (by rw [hN3.1]; exact this), rfl⟩
        · rintro ⟨h1, h2⟩
          exact ⟨h1, fun h3 => h2 h3.2⟩
      · intro x
        rw [mem_inputs]
        exact f6 x
      · intro x
        show (g1.tasks.set t _).get? x = _
        rw [Dict.get?_set, f7]
        by_cases e : x = t
        · subst e; simp
        · have : ¬ t = x := fun e' => e e'.symm
          simp [e, this]
    let s2 : Sched := s1.setGraph gid g'
    have hc2 : Conc s2 := by
      have := f1.conc hc
      exact ⟨this.alloc, this.max, this.queue, this.uses, this.clients, this.running, this.alive⟩
    have hs2 : s2.abs = { s.abs with graphs := upd s.abs.graphs gid (some g'), node := fun x => if gone x then none else s.abs.node x } := by
      have : GMOnly s s2 := ⟨f1.cfg, f1.clients, f1.fm, f1.tm, f1.wm, f1.out, f1.queue, f1.mon⟩
      rw [this.abs]
      have e3 : s2.gm.graphs.get? = upd s.abs.graphs gid (some g') := by
        show (s1.gm.graphs.set gid g').get? = _
        rw [Dict.get?_set_upd, f2]
        funext x; simp only [upd_apply]; split <;> rfl
      have e4 : s2.gm.nodeGraph.get? = fun x => if gone x then none else s.abs.node x := funext f8
      rw [e3, e4]
    have htid : k.taskId = t := hid
    have hw : k.taskId ∉ s2.tm.unassigned.contents := by
      rw [show s2.tm = s.tm from f1.tm, htid]
      intro hm
      have := (hi.place t).2 (Or.inl hm)
      rw [hl.1] at this; cases this
    obtain ⟨s3, e3, hc3, ⟨hcfg, -⟩, hcase⟩ := onTaskNew_spec (s := s2) hc2 (client := g1.client) (k := k) (now := now)
      (by rw [show s2.tm = s.tm from f1.tm, htid]; exact hl.1)
      (by rw [show s2.clients = s.clients from f1.clients, htid]; exact hl.2.1)
      (by rw [show s2.fm = s.fm from f1.fm, htid]; exact Or.inr hl.2.2) hw
    have hfn : (s.abs.funcs k.functionId).isSome := hi.known t _ hl.2.2
    have erun : s.startNode gid now t = .ok s3 := by
      unfold startNode
      rw [Dict.getPy_of_get? hg]
      simp only [Py.ok_bind]
      rw [Dict.getPy_of_get? ht]
      simp only [Py.ok_bind]
      rw [e1]
      simp only [Py.ok_bind]
      rw [Dict.getPy_of_get? (by rw [f2]; simp : s1.gm.graphs.get? gid = some g1)]
      simp only [Py.ok_bind]
      exact e3
    rw [erun]
    refine ⟨hnd, hc3, hcfg.trans f1.cfg, ?_, g', k, gone, hcon, ?_, hgone⟩
    · have hd : ∀ d ∈ inputs i.task, ∃ j, g.tasks.get? d = some j ∧ j.state = .success := fun d hd => (hin d hd).2
      rcases hcase with ⟨h1, _⟩ | ⟨fi, _, hl, h1⟩ | ⟨fi, hfi, _, h1⟩
      · rw [show s2.fm = s.fm from f1.fm] at h1
        rw [show s.abs.funcs k.functionId = s.fm.funcs.get? k.functionId from rfl, h1] at hfn; cases hfn
      · rw [h1, hs2, u2]
        exact (AStep.reject gid g t i k g' gone hg ht hs ho ⟨htid, rfl⟩ f9 hd hcon
          (by have := hl.2.1; rw [show s2.cfg = s.cfg from f1.cfg] at this; simpa [Sched.abs, Config.limited] using this)).steps
      · rw [h1, hs2, u2]
        rw [show s2.fm = s.fm from f1.fm] at hfi
        refine ASteps.head (AStep.func k.functionId { fi with aliveSince := now } ?_ ?_) ?_
        · intro j hj
          rw [show s.abs.funcs k.functionId = s.fm.funcs.get? k.functionId from rfl, hfi] at hj
          cases hj; exact ⟨rfl, rfl⟩
        · intro hj
          rw [show s.abs.funcs k.functionId = s.fm.funcs.get? k.functionId from rfl, hfi] at hj; cases hj
        · exact (AStep.launch (a := { s.abs with funcs := upd s.abs.funcs k.functionId (some { fi with aliveSince := now }) })
            gid g t i k g' gone hg ht hs ho ⟨htid, rfl⟩ f9 hd hcon).steps
    · rcases hcase with ⟨h1, h2⟩ | ⟨fi, _, _, h1⟩ | ⟨fi, _, _, h1⟩
      · rw [h2, hs2]
      · rw [h1, hs2]
      · rw [h1, hs2]; rfl
  · obtain ⟨e, he⟩ := getArguments_repeated (gid := gid) (tid := t) i.task.args s g hg hok.depsWF hnd
    unfold startNode
    rw [Dict.getPy_of_get? hg]
    simp only [Py.ok_bind]
    rw [Dict.getPy_of_get? ht]
    simp only [Py.ok_bind]
    rw [he]
    exact hnd

/-- State of a graph while the nodes `ts` are being started. -/
structure Starting (g : Graph) (ts : List Bytes) : Prop where
  ready : g.sorter.ready = []
  alive : Alive g
  todo : ∀ t ∈ ts, ∃ i, g.tasks.get? t = some i ∧ i.state = .inactive ∧ g.sorter.isOut t = true
  only : ∀ t i, g.tasks.get? t = some i → i.state = .inactive → g.sorter.isOut t = true → t ∈ ts

theorem startNodes_spec {gid : Bytes} (now : Int) : ∀ (ts : List Bytes), ts.Nodup → ∀ (s : Sched), Conc s → Inv h s.abs →
    ∀ g, s.abs.graphs gid = some g → Starting g ts →
    Py.Post (s.startNodes gid now ts)
      (fun s' => (∀ t ∈ ts, ∀ i, g.tasks.get? t = some i → (refs i.task.args).Nodup) ∧
        Conc s' ∧ s'.cfg = s.cfg ∧ ASteps h s.abs s'.abs ∧
        ∃ g', s'.abs.graphs = upd s.abs.graphs gid (some g') ∧ Starting g' [] ∧ g'.sorter = g.sorter)
      (fun _ => ∃ t ∈ ts, ∃ i, g.tasks.get? t = some i ∧ ¬ (refs i.task.args).Nodup) := by
  intro ts
  induction ts with
  | nil =>
    intro _ s hc hi g hg hst
    refine ⟨by simp, hc, rfl, .refl _, g, ?_, hst, rfl⟩
    funext x; simp only [upd_apply]; split
    · next e => rw [← e, hg]
    · rfl
  | cons t ts ih =>
    intro hn s hc hi g hg hst
    rw [List.nodup_cons] at hn
    obtain ⟨i, ht, hs, ho⟩ := hst.todo t List.mem_cons_self
    simp only [startNodes, Py.post_bind]
    refine (startNode_spec hc hi now hg hst.alive ht hs ho).imp ?_ ?_
    · rintro s1 ⟨hnd, hc1, e1, hA, g1, k, gone, hcon, hgr, hgone⟩
      have hkeep : ∀ x j, x ≠ t → g.tasks.get? x = some j → j.state = .inactive → g1.tasks.get? x = some j := by
        intro x j hx hj e
        have : gone x = false := by
          rw [Bool.eq_false_iff]; intro h2
          obtain ⟨j', hj', e'⟩ := hgone x h2
          rw [hj] at hj'; cases hj'; rw [e] at e'; cases e'
        rw [hcon.tasks]; simp [hx, this, hj]
      have hback : ∀ x j, g1.tasks.get? x = some j → (x = t ∧ j.state = .running) ∨ g.tasks.get? x = some j ∧ x ≠ t := by
        intro x j hj
        rw [hcon.tasks] at hj
        split at hj
        · next e => cases hj; exact Or.inl ⟨e, rfl⟩
        · next e =>
          split at hj
          · cases hj
          · exact Or.inr ⟨hj, e⟩
      have hso := hcon.same.2.2.2
      have hst1 : Starting g1 ts := by
        refine ⟨by rw [hso]; exact hst.ready, ?_, ?_, ?_⟩
        · intro x j hj
          rcases hback x j hj with ⟨_, e⟩ | ⟨hj', _⟩
          · exact Or.inr (Or.inl e)
          · exact hst.alive x j hj'
        · intro x hx
          obtain ⟨j, hj, e, ho'⟩ := hst.todo x (List.mem_cons_of_mem _ hx)
          exact ⟨j, hkeep x j (by rintro rfl; exact hn.1 hx) hj e, e, by rw [hso]; exact ho'⟩
        · intro x j hj e ho'
          rcases hback x j hj with ⟨_, e'⟩ | ⟨hj', hne⟩
          · rw [e] at e'; cases e'
          · rw [hso] at ho'
            exact (List.mem_cons.1 (hst.only x j hj' e ho')).resolve_left hne
      refine (ih hn.2 s1 hc1 (hA.inv hi) g1 (by rw [hgr]; simp) hst1).imp ?_ ?_
      · rintro s' ⟨hnd', hc', e', hA', g', hgr', hst', hso'⟩
        refine ⟨?_, hc', e'.trans e1, hA.trans hA', g', ?_, hst', hso'.trans hso⟩
        · intro x hx j hj
          rcases List.mem_cons.1 hx with rfl | hx'
          · rw [ht] at hj; cases hj; exact hnd
          · obtain ⟨j', hj', e2, _⟩ := hst.todo x hx
            rw [hj] at hj'; cases hj'
            exact hnd' x hx' j (hkeep x j (by rintro rfl; exact hn.1 hx') hj e2)
        rw [hgr', hgr]
        funext x; simp only [upd_apply]; split <;> rfl
      · rintro _ ⟨x, hx, j, hj, hnd⟩
        rcases hback x j hj with ⟨e', _⟩ | ⟨hj', _⟩
        · subst e'; exact absurd hx hn.1
        · exact ⟨x, List.mem_cons_of_mem _ hx, j, hj', hnd⟩
    · intro _ hnd
      exact ⟨t, List.mem_cons_self, i, ht, hnd⟩

end Sched

end Verif.Sched
