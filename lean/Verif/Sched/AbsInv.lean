import Verif.Sched.Abs

/-!
# The invariant is kept by every abstract step
-/

namespace Verif.Sched

open Verif.Queue Verif.Util Verif.Wire

variable {h : History} {a : Abs}

/-- ids of tasks are in use -/
theorem Inv.not_unused (hi : Inv h a) {t : Bytes} (ht : (a.tasks t).isSome) : ¬ Unused a t := by
  intro hu
  have := hi.owned t ht
  rw [hu.2.1] at this
  cases this

theorem Inv.unused_tasks (hi : Inv h a) {t : Bytes} (hu : Unused a t) : a.tasks t = none := by
  cases ht : a.tasks t with
  | none => rfl
  | some k => exact absurd hu (hi.not_unused (by simp [ht]))

theorem Inv.unused_graph (hi : Inv h a) {t : Bytes} (hu : Unused a t) : a.graphs t = none := by
  cases ht : a.graphs t with
  | none => rfl
  | some k =>
    have := (hi.gid t k ht).1
    rw [hu.2.1] at this; cases this

theorem Inv.show_ (hi : Inv h a) (ms : List Message) : Inv h { a with mon := ms } := { hi with }

theorem Inv.say (hi : Inv h a) (c : Bytes) (m : Message) (hm : ∀ k, m ≠ .task k) :
    Inv h { a with out := a.out ++ [(c, m)] } := by
  refine { hi with sent := ?_ }
  intro w k hk
  simp only [List.mem_append, List.mem_singleton] at hk
  rcases hk with hk | hk
  · exact hi.sent w k hk
  · cases hk; exact absurd rfl (hm k)

theorem Inv.func (hi : Inv h a) (fid : Bytes) (i : FuncInfo) :
    Inv h { a with funcs := upd a.funcs fid (some i) } := by
  refine { hi with known := ?_ }
  intro t f hf
  have := hi.known t f hf
  grind

theorem Inv.drop (hi : Inv h a) (fid : Bytes) (hu : ∀ t, a.uses t ≠ some fid) :
    Inv h { a with funcs := upd a.funcs fid none } := by
  refine { hi with known := ?_ }
  intro t f hf
  have := hi.known t f hf
  have := hu t
  grind

theorem Inv.up_ (hi : Inv h a) (w : Bytes) : Inv h { a with up := upd a.up w true } := by
  refine { hi with up := ?_ }
  intro t w' hw
  have := hi.up t w' hw
  grind

theorem Inv.requeue (hi : Inv h a) (ts : List Bytes) (up' : Bytes → Bool) (hn : ts.Nodup)
    (ht : ∀ t ∈ ts, (a.worker t).isSome) (hu : ∀ t w, t ∉ ts → a.worker t = some w → up' w = true) :
    Inv h { a with
        up := up'
        worker := fun t => if t ∈ ts then none else a.worker t
        waiting := a.waiting ++ ts } := by
  refine { hi with place := ?_, nodup := ?_, apart := ?_, apart' := ?_, up := ?_ }
  · intro t
    rw [hi.place t]
    have := ht t
    simp only [Abs.pendId, List.mem_append]
    by_cases h1 : t ∈ ts <;> simp_all
  · refine List.nodup_append.2 ⟨hi.nodup, hn, ?_⟩
    intro x hx y hy e
    subst e
    have := (hi.apart x hx).2
    have := ht x hy
    simp_all
  · intro t hm
    simp only [List.mem_append] at hm
    rcases hm with hm | hm
    · have := hi.apart t hm
      refine ⟨this.1, ?_⟩
      simp [this.2]
    · refine ⟨fun hp => ?_, by simp [hm]⟩
      have := hi.apart' t hp
      have := ht t hm
      simp_all
  · intro t hp
    have := hi.apart' t hp
    simp [this]
  · intro t w hw
    simp only at hw
    split at hw
    · cases hw
    · exact hu t w ‹_› hw

theorem Inv.accept (hi : Inv h a) (c : Bytes) (k : Task) (hm : (c, .task k) ∈ h) (hf : Fresh a k.taskId)
    (hk : (a.funcs k.functionId).isSome) : Inv h (a.accept c k) := by
  have h1 := hi.unused_tasks hf.1
  have h2 := hi.unused_graph hf.1
  have hp := hi.place k.taskId
  rw [h1] at hp
  simp only [Option.isSome_none, Bool.false_eq_true, false_iff, not_or] at hp
  obtain ⟨hp1, hp2, hp3⟩ := hp
  obtain ⟨⟨hu1, hu2, hu3⟩, hq⟩ := hf
  constructor
  · intro t k' ht
    have := hi.key t k'
    simp only [Abs.accept] at ht
    grind
  · intro t
    have := hi.place t
    simp only [Abs.accept, Abs.pendId, List.mem_append, List.mem_singleton, upd_apply] at this ⊢
    by_cases e : k.taskId = t
    · subst e; simp
    · have : ¬ t = k.taskId := fun e' => e e'.symm
      simp_all
  · intro k' hk'
    have := hi.pend k' hk'
    have e : k.taskId ≠ k'.taskId := by intro e; rw [← e, h1] at this; cases this
    simpa [Abs.accept, e] using this
  · refine List.nodup_append.2 ⟨hi.nodup, by simp, ?_⟩
    intro x hx y hy e
    simp only [List.mem_singleton] at hy
    subst hy e
    exact hp1 hx
  · intro t ht
    simp only [Abs.accept, List.mem_append, List.mem_singleton] at ht
    rcases ht with ht | rfl
    · exact hi.apart t ht
    · exact ⟨hp2, by show a.worker k.taskId = none; simpa using hp3⟩
  · exact hi.apart'
  · exact hi.up
  · intro t k' ht
    have := hi.pinned t k'
    simp only [Abs.accept] at ht ⊢
    grind
  · intro t f ht
    have := hi.known t f
    simp only [Abs.accept] at ht ⊢
    grind
  · intro t ht
    have := hi.owned t
    simp only [Abs.accept] at ht ⊢
    grind
  · intro t ht
    have := hi.owner t
    simp only [Abs.accept] at ht ⊢
    grind
  · intro gid g hg
    have := hi.gid gid g hg
    have e : k.taskId ≠ gid := by intro e; rw [e, show a.graphs gid = some g from hg] at h2; cases h2
    simpa [Abs.accept, e] using this
  · exact hi.nodes
  · intro gid g t i hg ht
    have hl := hi.link gid g t i hg ht
    have e : k.taskId ≠ t := by
      intro e
      have := (hi.nodes t gid).2 ⟨g, hg, by simp [ht]⟩
      rw [← e, hu3] at this; cases this
    simpa [Link, Abs.accept, e] using hl
  · exact hi.graphs
  · exact hi.queueNodup
  · intro c' gt hm'
    obtain ⟨h3, h4⟩ := hi.queue c' gt hm'
    refine ⟨h3, fun t ht => ?_⟩
    have e : k.taskId ≠ t := fun e => hq (List.mem_flatMap.2 ⟨(c', gt), hm', e ▸ ht⟩)
    simpa [Unused, Abs.accept, e] using h4 t ht
  · intro t k' ht
    have := hi.origin t k'
    simp only [Abs.accept, upd_apply] at ht
    split at ht
    · cases ht; exact Or.inl ⟨c, hm⟩
    · exact this ht
  · intro w k' hk'
    simp only [Abs.accept, List.mem_append, List.mem_singleton] at hk'
    rcases hk' with hk' | hk'
    · exact hi.sent w k' hk'
    · cases hk'

theorem Inv.queueGraph (hi : Inv h a) (c : Bytes) (gt : GraphTask) (hm : (c, .graphTask gt) ∈ h)
    (hn : (allIds gt).Nodup) (hf : ∀ t ∈ allIds gt, Fresh a t) :
    Inv h { a with queue := a.queue ++ [(c, gt)] } := by
  refine { hi with queueNodup := ?_, queue := ?_ }
  · simp only [List.flatMap_append, List.flatMap_cons, List.flatMap_nil, List.append_nil]
    refine List.nodup_append.2 ⟨hi.queueNodup, hn, ?_⟩
    intro x hx y hy e
    subst e
    exact (hf x hy).2 hx
  · intro c' gt' hm'
    simp only [List.mem_append, List.mem_singleton] at hm'
    rcases hm' with hm' | hm'
    · exact hi.queue c' gt' hm'
    · cases hm'; exact ⟨hm, fun t ht => (hf t ht).1⟩

theorem Inv.popGraph (hi : Inv h a) (p : Bytes × GraphTask) (rest : List (Bytes × GraphTask))
    (hq : a.queue = p :: rest) : Inv h { a with queue := rest } := by
  refine { hi with queueNodup := ?_, queue := ?_ }
  · have := hi.queueNodup
    rw [hq, List.flatMap_cons] at this
    exact (List.nodup_append.1 this).2.1
  · intro c gt hm
    exact hi.queue c gt (by rw [hq]; exact List.mem_cons_of_mem _ hm)

theorem Inv.take (hi : Inv h a) (t : Bytes) (ts : List Bytes) (k : Task) (hw : a.waiting = t :: ts)
    (hk : a.tasks t = some k) (hp : a.pending = none) :
    Inv h { a with waiting := ts, pending := some k } := by
  have e := hi.key t k hk
  have hn := hi.nodup
  rw [hw, List.nodup_cons] at hn
  have hpn : a.pendId = none := by simp [Abs.pendId, hp]
  refine { hi with place := ?_, pend := ?_, nodup := hn.2, apart := ?_, apart' := ?_ }
  · intro x
    have := hi.place x
    rw [hw, hpn] at this
    rw [this]
    simp only [List.mem_cons, Abs.pendId, Option.map_some, Option.some.injEq, e, reduceCtorEq, false_or]
    rw [eq_comm]
    constructor
    · rintro ((h | h) | h) <;> simp [h]
    · rintro (h | h | h) <;> simp [h]
  · intro k' hk'
    cases hk'
    rw [e]; exact hk
  · intro x hx
    have := hi.apart x (by rw [hw]; simp [hx])
    refine ⟨?_, this.2⟩
    simp only [Abs.pendId, Option.map_some, ne_eq, Option.some.injEq, e]
    rintro rfl
    exact hn.1 hx
  · intro x hx
    simp only [Abs.pendId, Option.map_some, Option.some.injEq, e] at hx
    subst hx
    exact (hi.apart t (by rw [hw]; simp)).2

theorem Inv.putBack (hi : Inv h a) (k : Task) (hp : a.pending = some k) :
    Inv h { a with waiting := a.waiting ++ [k.taskId], pending := none } := by
  have hpn : a.pendId = some k.taskId := by simp [Abs.pendId, hp]
  refine { hi with place := ?_, pend := ?_, nodup := ?_, apart := ?_, apart' := ?_ }
  · intro x
    rw [hi.place x, hpn]
    simp only [List.mem_append, List.mem_singleton, Abs.pendId, Option.map_none, Option.some.injEq]
    constructor
    · rintro (h | h | h) <;> simp [h]
    · rintro ((h | h) | h | h) <;> simp_all
  · intro k' hk'; cases hk'
  · refine List.nodup_append.2 ⟨hi.nodup, by simp, ?_⟩
    intro x hx y hy e
    simp only [List.mem_singleton] at hy
    subst hy e
    exact (hi.apart _ hx).1 hpn
  · intro x hx
    simp only [List.mem_append, List.mem_singleton] at hx
    rcases hx with hx | rfl
    · exact ⟨by simp [Abs.pendId], (hi.apart x hx).2⟩
    · exact ⟨by simp [Abs.pendId], hi.apart' _ hpn⟩
  · intro x hx; simp [Abs.pendId] at hx

theorem Inv.place_ (hi : Inv h a) (k : Task) (w : Bytes) (hp : a.pending = some k) (hw : a.up w = true) :
    Inv h { a with
        pending := none, worker := upd a.worker k.taskId (some w), out := a.out ++ [(w, .task k)] } := by
  have hpn : a.pendId = some k.taskId := by simp [Abs.pendId, hp]
  refine { hi with place := ?_, pend := ?_, apart := ?_, apart' := ?_, up := ?_, sent := ?_ }
  · intro x
    rw [hi.place x, hpn]
    simp only [Abs.pendId, Option.map_none, upd_apply, Option.some.injEq, reduceCtorEq, false_or]
    by_cases e : k.taskId = x <;> simp [e]
  · intro k' hk'; cases hk'
  · intro x hx
    have := hi.apart x hx
    refine ⟨by simp [Abs.pendId], ?_⟩
    have e : k.taskId ≠ x := by rintro rfl; exact this.1 hpn
    simp [e, this.2]
  · intro x hx; simp [Abs.pendId] at hx
  · intro t w' ht
    have := hi.up t w'
    simp only [upd_apply] at ht
    split at ht
    · cases ht; exact hw
    · exact this ht
  · intro w' k' hk'
    simp only [List.mem_append, List.mem_singleton] at hk'
    rcases hk' with hk' | hk'
    · exact hi.sent w' k' hk'
    · cases hk'; exact hi.origin _ _ (hi.pend k hp)

/-! ### A task ends -/

section
variable (a : Abs) (st : TaskStatus)
@[simp] theorem count_funcs : (a.count st).funcs = a.funcs := by cases st <;> rfl
@[simp] theorem count_pending : (a.count st).pending = a.pending := by cases st <;> rfl
@[simp] theorem count_up : (a.count st).up = a.up := by cases st <;> rfl
@[simp] theorem count_queue : (a.count st).queue = a.queue := by cases st <;> rfl
@[simp] theorem count_graphs : (a.count st).graphs = a.graphs := by cases st <;> rfl
@[simp] theorem count_node : (a.count st).node = a.node := by cases st <;> rfl
@[simp] theorem count_out : (a.count st).out = a.out := by cases st <;> rfl
end

theorem Ends.stopped {r : TaskRes} (he : Ends h a r) : Stopped h r.taskId r.status r.result := by
  rcases he.2 with ⟨⟨w, hw⟩, _⟩ | ⟨hr, _, hc⟩
  · exact .inl ⟨w, r.duration, hw⟩
  · exact .inr ⟨by rw [hr], by rw [hr], hc⟩

theorem Ends.notPending (hi : Inv h a) {r : TaskRes} (he : Ends h a r) : a.pendId ≠ some r.taskId := by
  intro hp
  rcases he.2 with ⟨_, hw⟩ | ⟨_, hw, _⟩
  · rw [hi.apart' _ hp] at hw; cases hw
  · exact (hi.apart _ hw).1 hp

theorem Inv.task_graph (hi : Inv h a) {t : Bytes} (ht : (a.tasks t).isSome) : a.graphs t = none := by
  cases hg : a.graphs t with
  | none => rfl
  | some g =>
    obtain ⟨k, hk⟩ := Option.isSome_iff_exists.1 ht
    have h1 := hi.pinned t k hk
    rw [(hi.gid t g hg).2.1] at h1; cases h1

theorem Inv.retire (hi : Inv h a) {t : Bytes} (st : TaskStatus) (ht : (a.tasks t).isSome) (hp : a.pendId ≠ some t)
    (graphs' : Bytes → Option Graph) (out' : List (Bytes × Message))
    (hgs : ∀ gid g, graphs' gid = some g → ∃ g0, a.graphs gid = some g0 ∧ g.client = g0.client)
    (hgs' : ∀ gid, (a.graphs gid).isSome → (graphs' gid).isSome)
    (hnodes : ∀ t gid, a.node t = some gid ↔ ∃ g, graphs' gid = some g ∧ (g.tasks.get? t).isSome)
    (hlink : ∀ gid g x i, graphs' gid = some g → g.tasks.get? x = some i → Link (a.retire t st) g x i)
    (hgraphs : ∀ gid g, graphs' gid = some g → ∃ gt, GraphOK h gid gt g)
    (hsent : ∀ w k, (w, .task k) ∈ out' → (w, .task k) ∈ a.out) :
    Inv h { a.retire t st with graphs := graphs', out := out' } := by
  have hg0 := hi.task_graph ht
  constructor
  · intro x k hk
    have := hi.key x k
    simp only [Abs.retire] at hk
    grind
  · intro x
    have := hi.place x
    simp only [Abs.retire, Abs.pendId, count_pending, upd_apply, List.mem_filter] at this ⊢
    by_cases e : t = x
    · subst e
      simp only [if_true, Abs.pendId] at hp ⊢
      simpa using hp
    · have e' : ¬ x = t := fun e' => e e'.symm
      simp only [e, if_false]
      simpa [e'] using this
  · intro k hk
    simp only [Abs.retire, count_pending] at hk
    have := hi.pend k hk
    have e : t ≠ k.taskId := by
      rintro rfl
      exact hp (by simp [Abs.pendId, hk])
    simpa [Abs.retire, e] using this
  · exact List.filter_sublist.nodup hi.nodup
  · intro x hx
    simp only [Abs.retire, List.mem_filter] at hx
    have := hi.apart x hx.1
    simp only [Abs.retire, Abs.pendId, count_pending, upd_apply]
    refine ⟨this.1, ?_⟩
    split
    · rfl
    · exact this.2
  · intro x hx
    simp only [Abs.retire, Abs.pendId, count_pending, upd_apply] at hx ⊢
    split
    · rfl
    · exact hi.apart' x hx
  · intro x w hw
    have := hi.up x w
    simp only [Abs.retire, count_up] at hw ⊢
    grind
  · intro x k hk
    have := hi.pinned x k
    simp only [Abs.retire] at hk ⊢
    grind
  · intro x f hf
    have := hi.known x f
    simp only [Abs.retire, count_funcs] at hf ⊢
    grind
  · intro x hx
    have := hi.owned x
    simp only [Abs.retire] at hx ⊢
    grind
  · intro x hx
    have := hi.owner x
    have := hgs' x
    simp only [Abs.retire] at hx ⊢
    grind
  · intro gid g hg
    obtain ⟨g0, h1, h2⟩ := hgs gid g hg
    have := hi.gid gid g0 h1
    have e : t ≠ gid := by rintro rfl; rw [hg0] at h1; cases h1
    simpa [Abs.retire, e, h2] using this
  · intro x gid
    simpa [Abs.retire] using hnodes x gid
  · intro gid g x i hg hx
    exact hlink gid g x i hg hx
  · exact hgraphs
  · simpa [Abs.retire] using hi.queueNodup
  · intro c gt hm
    simp only [Abs.retire, count_queue] at hm
    obtain ⟨h1, h2⟩ := hi.queue c gt hm
    refine ⟨h1, fun x hx => ?_⟩
    have := h2 x hx
    simp only [Unused, Abs.retire, count_node] at this ⊢
    grind
  · intro x k hk
    have := hi.origin x k
    simp only [Abs.retire, upd_apply] at hk
    split at hk
    · cases hk
    · exact this hk
  · intro w k hk
    exact hi.sent w k (hsent w k hk)

theorem Link.retire {t : Bytes} (st : TaskStatus) {g : Graph} {x : Bytes} {i : NodeInfo}
    (hl : Link a g x i) (hx : x ≠ t) : Link (a.retire t st) g x i := by
  have e : ¬ t = x := fun e => hx e.symm
  simpa [Link, Abs.retire, e] using hl

theorem Inv.answer (hi : Inv h a) (r : TaskRes) (c : Bytes) (he : Ends h a r) (hn : a.node r.taskId = none) :
    Inv h { a.retire r.taskId r.status with out := a.out ++ [(c, r.msg)] } := by
  have hr := hi.retire r.status he.1 (he.notPending hi) a.graphs (a.out ++ [(c, r.msg)])
    (fun gid g hg => ⟨g, hg, rfl⟩) (fun _ h => h) hi.nodes ?_ hi.graphs ?_
  · simpa [Abs.retire] using hr
  · intro gid g x i hg hx
    refine (hi.link gid g x i hg hx).retire r.status ?_
    rintro rfl
    have := (hi.nodes r.taskId gid).2 ⟨g, hg, by simp [hx]⟩
    rw [hn] at this; cases this
  · intro w k hk
    simp only [List.mem_append, List.mem_singleton] at hk
    rcases hk with hk | hk
    · exact hk
    · simp [TaskRes.msg] at hk

/-- The only node states in which the task is held. -/
theorem Inv.held_running (hi : Inv h a) {gid t : Bytes} {g : Graph} {i : NodeInfo} (hg : a.graphs gid = some g)
    (ht : g.tasks.get? t = some i) (hs : (a.tasks t).isSome) :
    i.state = .running ∧ a.tasks t = some i.task ∧ a.owner t = some g.client := by
  have := hi.link gid g t i hg ht
  cases e : i.state <;> simp [Link, e] at this <;> grind

theorem GraphOK.nodeDone {gid : Bytes} {gt : GraphTask} {g : Graph} (hok : GraphOK h gid gt g) {t : Bytes} {i : NodeInfo}
    (ht : g.tasks.get? t = some i) (hi : i.state = .running) {st : NodeState}
    {so : Sorter} (hso : g.sorter.done t = .ok so) {res : Bytes}
    (hst : (st = .canceled ∧ Stopped h t .canceled res) ∨ (st = .failed ∧ Stopped h t .failed res) ∨ (st = .success ∧ HasResult h t res)) :
    GraphOK h gid gt { g with tasks := g.tasks.set t { i with state := st, result := some res }, sorter := so } := by
  obtain ⟨T, hT, hTt, hN⟩ := hok.node t i ht
  obtain ⟨hN1, hN2, hN3⟩ := hN
  simp only [hi] at hN3
  obtain ⟨hres, hout, hargs⟩ := hN3
  rw [hTt] at hout
  obtain ⟨so', e, h1, h2, h3⟩ := Sorter.done_spec hok.sorter hout
  rw [hso] at e
  cases e
  have hdone : ∀ x, x ≠ t → so.isDone x = g.sorter.isDone x := by
    intro x hx
    rw [Bool.eq_iff_iff, h2]; simp [hx]
  have houtx : ∀ x, x ≠ t → so.isOut x = g.sorter.isOut x := by
    intro x hx
    rw [Bool.eq_iff_iff, h3]; simp [hx]
  refine ⟨hok.src, hok.id, hok.targets, hok.ids, hok.nodup, h1, hok.depsWF, ?_, ?_, ?_, ?_⟩
  · intro d x
    rw [hok.deps d x]
    refine and_congr_right fun _ => ?_
    simp only [Dict.get?_set]
    by_cases e : t = x
    · subst e
      simp only [ht, if_true, Option.some.injEq, exists_eq_left', hi]
      rcases hst with ⟨rfl, _⟩ | ⟨rfl, _⟩ | ⟨rfl, _⟩ <;> simp
    · simp [e]
  · intro x j hj
    simp only [Dict.get?_set] at hj
    by_cases e : t = x
    · subst e
      simp only [if_true, Option.some.injEq] at hj
      subst hj
      refine ⟨T, hT, hTt, hN1, hN2, ?_⟩
      have hd : so.isDone T.taskId = true := by rw [hTt, h2]; exact Or.inr rfl
      rcases hst with ⟨rfl, hr⟩ | ⟨rfl, hr⟩ | ⟨rfl, hr⟩
      · exact ⟨hd, res, rfl, hTt ▸ hr⟩
      · exact ⟨hd, res, rfl, hTt ▸ hr⟩
      · exact ⟨hd, hargs, res, rfl, hTt ▸ hr⟩
    · simp only [e, if_false] at hj
      obtain ⟨T', h5, h6, h7, h8, h9⟩ := hok.node x j hj
      have e' : x ≠ t := fun e' => e e'.symm
      refine ⟨T', h5, h6, h7, h8, ?_⟩
      rw [h6] at h9 ⊢
      cases hjs : j.state <;> simp only [hjs] at h9 ⊢ <;> simpa only [hdone x e', houtx x e'] using h9
  · intro x hx hn
    simp only [Dict.get?_set] at hn
    by_cases e : t = x
    · simp [e] at hn
    · simp only [e, if_false] at hn
      obtain ⟨h5, h6⟩ := hok.gone x hx hn
      exact ⟨(h2 x).2 (Or.inl h5), h6⟩
  · intro x hx
    obtain ⟨h5, h6⟩ := (h3 x).1 hx
    obtain ⟨j, hj, h7⟩ := hok.out x h5
    have e' : ¬ t = x := fun e' => h6 e'.symm
    exact ⟨j, by simp [e', hj], h7⟩

theorem Inv.nodeDone (hi : Inv h a) (r : TaskRes) (gid : Bytes) (g : Graph) (i : NodeInfo) (st : NodeState) (so : Sorter)
    (he : Ends h a r) (hn : a.node r.taskId = some gid)
    (hg : a.graphs gid = some g) (hix : g.tasks.get? r.taskId = some i) (hst : NodeEnd r.status st)
    (hso : g.sorter.done r.taskId = .ok so) :
    Inv h { a.retire r.taskId r.status with
        graphs := upd a.graphs gid
          (some { g with tasks := g.tasks.set r.taskId { i with state := st, result := some r.result }, sorter := so }) } := by
  obtain ⟨hrun, htask, hown⟩ := hi.held_running hg hix he.1
  have hstop := he.stopped
  have hst' : (st = .canceled ∧ Stopped h r.taskId .canceled r.result) ∨ (st = .failed ∧ Stopped h r.taskId .failed r.result) ∨
      (st = .success ∧ HasResult h r.taskId r.result) := by
    cases hs : r.status <;> simp [hs, NodeEnd] at hst
    · right; right
      refine ⟨hst, ?_⟩
      rcases he.2 with ⟨⟨w, hw⟩, _⟩ | ⟨hr, _⟩
      · exact ⟨w, r.duration, by simpa [TaskRes.msg, hs] using hw⟩
      · rw [hr] at hs; cases hs
    · exact Or.inr (Or.inl ⟨hst, hs ▸ hstop⟩)
    · exact Or.inl ⟨hst, hs ▸ hstop⟩
  have hr := hi.retire r.status he.1 (he.notPending hi) (upd a.graphs gid
      (some { g with tasks := g.tasks.set r.taskId { i with state := st, result := some r.result }, sorter := so })) a.out
    ?_ ?_ ?_ ?_ ?_ ?_
  · simpa [Abs.retire] using hr
  · intro gid' g' hg'
    simp only [upd_apply] at hg'
    split at hg'
    · next e => cases hg'; subst e; exact ⟨g, hg, rfl⟩
    · exact ⟨g', hg', rfl⟩
  · intro gid' hs
    simp only [upd_apply]; split <;> simp [hs]
  · intro x gid'
    rw [hi.nodes x gid']
    simp only [upd_apply]
    by_cases e : gid = gid'
    · subst e
      simp only [hg, if_true, Option.some.injEq, exists_eq_left', Dict.get?_set]
      by_cases e2 : r.taskId = x
      · subst e2; simp [hix]
      · simp [e2]
    · simp [e]
  · intro gid' g' x j hg' hx
    simp only [upd_apply] at hg'
    by_cases e2 : r.taskId = x
    · subst e2
      by_cases e : gid = gid'
      · subst e
        simp only [if_true, Option.some.injEq] at hg'
        subst hg'
        simp only [Dict.get?_set, if_true, Option.some.injEq] at hx
        subst hx
        have : st = .canceled ∨ st = .failed ∨ st = .success := by
          rcases hst' with h | h | ⟨h, _⟩ <;> simp [h]
        rcases this with rfl | rfl | rfl <;> simp [Link, Abs.retire]
      · simp only [e, if_false] at hg'
        have := (hi.nodes r.taskId gid').2 ⟨g', hg', by simp [hx]⟩
        rw [hn] at this
        exact absurd (Option.some.inj this) e
    · have e2' : x ≠ r.taskId := fun e' => e2 e'.symm
      split at hg'
      · next e =>
        subst e
        simp only [Option.some.injEq] at hg'
        subst hg'
        simp only [Dict.get?_set, e2, if_false] at hx
        exact (hi.link gid g x j hg hx).retire r.status e2'
      · exact (hi.link gid' g' x j hg' hx).retire r.status e2'
  · intro gid' g' hg'
    simp only [upd_apply] at hg'
    split at hg'
    · next e =>
      subst e
      cases hg'
      obtain ⟨gt, hok⟩ := hi.graphs gid g hg
      exact ⟨gt, hok.nodeDone hix hrun hso hst'⟩
    · exact hi.graphs gid' g' hg'
  · exact fun _ _ h => h

/-! ### Graphs -/

theorem Inv.regraph (hi : Inv h a) (graphs' : Bytes → Option Graph) (node' : Bytes → Option Bytes)
    (hgs : ∀ gid g, graphs' gid = some g → ∃ g0, a.graphs gid = some g0 ∧ g.client = g0.client)
    (hgs' : ∀ gid, (a.graphs gid).isSome → (graphs' gid).isSome)
    (hn' : ∀ t, a.node t = none → node' t = none)
    (hnodes : ∀ t gid, node' t = some gid ↔ ∃ g, graphs' gid = some g ∧ (g.tasks.get? t).isSome)
    (hlink : ∀ gid g x i, graphs' gid = some g → g.tasks.get? x = some i → Link a g x i)
    (hgraphs : ∀ gid g, graphs' gid = some g → ∃ gt, GraphOK h gid gt g) :
    Inv h { a with graphs := graphs', node := node' } := by
  refine { hi with owner := ?_, gid := ?_, nodes := hnodes, link := ?_, graphs := hgraphs, queue := ?_ }
  · intro t ht
    exact (hi.owner t ht).imp id (hgs' t)
  · intro gid g hg
    obtain ⟨g0, h1, h2⟩ := hgs gid g hg
    obtain ⟨h3, h4, h5⟩ := hi.gid gid g0 h1
    exact ⟨h2 ▸ h3, h4, hn' _ h5⟩
  · intro gid g t i hg ht
    exact hlink gid g t i hg ht
  · intro c gt hm
    obtain ⟨h1, h2⟩ := hi.queue c gt hm
    exact ⟨h1, fun t ht => ⟨(h2 t ht).1, (h2 t ht).2.1, hn' _ (h2 t ht).2.2⟩⟩

/-- A node belongs to one graph. -/
theorem Inv.node_unique (hi : Inv h a) {t gid gid' : Bytes} {g g' : Graph} (hg : a.graphs gid = some g)
    (hg' : a.graphs gid' = some g') (ht : (g.tasks.get? t).isSome) (ht' : (g'.tasks.get? t).isSome) : gid = gid' := by
  have h1 := (hi.nodes t gid).2 ⟨g, hg, ht⟩
  have h2 := (hi.nodes t gid').2 ⟨g', hg', ht'⟩
  rw [h1] at h2
  exact Option.some.inj h2

theorem NodeOK.mono {g g' : Graph} {T : Task} {i : NodeInfo} (hd : g'.sorter.isDone T.taskId = g.sorter.isDone T.taskId)
    (ho : g.sorter.isOut T.taskId = true → g'.sorter.isOut T.taskId = true) (hn : NodeOK h g T i) : NodeOK h g' T i := by
  obtain ⟨h1, h2, h3⟩ := hn
  refine ⟨h1, h2, ?_⟩
  cases e : i.state <;> simp only [e] at h3 ⊢ <;> first | exact ⟨h3.1, ho h3.2.1, h3.2.2⟩ | (rw [hd]; exact h3)

theorem GraphOK.getReady {gid : Bytes} {gt : GraphTask} {g : Graph} (hok : GraphOK h gid gt g) :
    GraphOK h gid gt { g with sorter := g.sorter.getReady.2 } := by
  obtain ⟨_, h2, _, h4, h5⟩ := Sorter.getReady_spec hok.sorter
  refine ⟨hok.src, hok.id, hok.targets, hok.ids, hok.nodup, h2, hok.depsWF, hok.deps, ?_, ?_, ?_⟩
  · intro t i ht
    obtain ⟨T, hT, hTt, hN⟩ := hok.node t i ht
    exact ⟨T, hT, hTt, hN.mono (h4 _) (fun h => (h5 _).2 (Or.inl h))⟩
  · intro t ht hn
    have := hok.gone t ht hn
    simpa [h4] using this
  · intro t ht
    rcases (h5 t).1 ht with ho | hr
    · exact hok.out t ho
    · obtain ⟨i, hi, e⟩ := (hok.sorter.ready t).1 hr
      have hnode : t ∈ nodeIds gt := (hok.sorter.dom t).1 (by simp [hi])
      have hnd : g.sorter.isDone t = false := by
        rw [Bool.eq_false_iff]; intro hd
        obtain ⟨i', hi', e'⟩ := Sorter.isDone_iff.1 hd
        rw [hi] at hi'; cases hi'; omega
      have hno : g.sorter.isOut t = false := by
        rw [Bool.eq_false_iff]; intro hd
        obtain ⟨i', hi', e'⟩ := Sorter.isOut_iff.1 hd
        rw [hi] at hi'; cases hi'; omega
      cases hx : g.tasks.get? t with
      | none => rw [(hok.gone t hnode hx).1] at hnd; cases hnd
      | some j =>
        refine ⟨j, rfl, ?_⟩
        obtain ⟨T, _, hTt, _, _, hN⟩ := hok.node t j hx
        rw [hTt] at hN
        cases e : j.state <;> simp [e, hnd, hno] at hN ⊢

theorem Inv.getReady (hi : Inv h a) (gid : Bytes) (g : Graph) (hg : a.graphs gid = some g) :
    Inv h { a with graphs := upd a.graphs gid (some { g with sorter := g.sorter.getReady.2 }) } := by
  refine hi.regraph (upd a.graphs gid (some { g with sorter := g.sorter.getReady.2 })) a.node ?_ ?_ (fun _ h => h) ?_ ?_ ?_
  · intro gid' g' hg'
    simp only [upd_apply] at hg'
    split at hg'
    · next e => cases hg'; subst e; exact ⟨g, hg, rfl⟩
    · exact ⟨g', hg', rfl⟩
  · intro gid' hs
    simp only [upd_apply]; split <;> simp [hs]
  · intro x gid'
    rw [hi.nodes x gid']
    simp only [upd_apply]
    by_cases e : gid = gid'
    · subst e; simp [hg]
    · simp [e]
  · intro gid' g' x i hg' hx
    simp only [upd_apply] at hg'
    split at hg'
    · next e => cases hg'; exact hi.link gid g x i hg hx
    · exact hi.link gid' g' x i hg' hx
  · intro gid' g' hg'
    simp only [upd_apply] at hg'
    split at hg'
    · next e =>
      subst e; cases hg'
      obtain ⟨gt, hok⟩ := hi.graphs gid g hg
      exact ⟨gt, hok.getReady⟩
    · exact hi.graphs gid' g' hg'

theorem GraphOK.consume {gid : Bytes} {gt : GraphTask} {g : Graph} (hok : GraphOK h gid gt g) {t : Bytes} {i : NodeInfo}
    {k : Task} {g' : Graph} {gone : Bytes → Bool} (ht : g.tasks.get? t = some i)
    (hi : i.state = .inactive) (ho : g.sorter.isOut t = true)
    (hk : k.taskId = t ∧ k.functionId = i.task.functionId) (ha : ArgsOK h i.task.args k.args)
    (hd : ∀ d ∈ inputs i.task, ∃ j, g.tasks.get? d = some j ∧ j.state = .success)
    (hc : Consume g t i k g' gone) : GraphOK h gid gt g' := by
  obtain ⟨⟨c1, c2, c3, c4⟩, hWF, hdeps, hghost, htasks⟩ := hc
  have hgone : ∀ x, gone x = true → ∃ j, g.tasks.get? x = some j ∧ j.state = .success :=
    fun x hx => hd x ((hghost x).1 hx).1
  have hgt : gone t = false := by
    rw [Bool.eq_false_iff]; intro hx
    obtain ⟨j, hj, e⟩ := hgone t hx
    rw [ht] at hj; cases hj; rw [hi] at e; cases e
  refine ⟨c2 ▸ hok.src, hok.id, c1 ▸ hok.targets, c3 ▸ hok.ids, hok.nodup, c4 ▸ hok.sorter, hWF, ?_, ?_, ?_, ?_⟩
  · intro d x
    rw [hdeps, hok.deps d x, htasks x]
    by_cases e : x = t
    · subst e; simp
    · by_cases e2 : gone x = true
      · obtain ⟨j, hj, e3⟩ := hgone x e2
        simp [e, e2, hj, e3]
      · simp [e, e2]
  · intro x j hj
    rw [htasks x] at hj
    split at hj
    · next e =>
      subst e
      cases hj
      obtain ⟨T, hT, hTt, hN1, hN2, hN3⟩ := hok.node x i ht
      simp only [hi] at hN3
      obtain ⟨rfl, h4, h5⟩ := hN3
      exact ⟨i.task, hT, hTt, hk.1.trans hTt.symm, hk.2, h4, by rw [c4, hTt]; exact ho, ha⟩
    · split at hj
      · cases hj
      · obtain ⟨T, hT, hTt, hN⟩ := hok.node x j hj
        exact ⟨T, hT, hTt, hN.mono (by rw [c4]) (by rw [c4]; exact fun h => h)⟩
  · intro x hx hn
    rw [htasks x] at hn
    rw [c4, c1]
    split at hn
    · cases hn
    · split at hn
      · next e2 =>
        obtain ⟨h1, h2, h3⟩ := (hghost x).1 e2
        obtain ⟨j, hj, e3⟩ := hgone x e2
        obtain ⟨T, hT, hTt, hN1, hN2, hN3⟩ := hok.node x j hj
        simp only [e3] at hN3
        exact ⟨hTt ▸ hN3.1, h2, h3⟩
      · obtain ⟨h1, h2, h3⟩ := hok.gone x hx hn
        refine ⟨h1, h2, fun y hy => h3 y ?_⟩
        exact ((hdeps x y).1 hy).1
  · intro x hx
    rw [c4] at hx
    obtain ⟨j, hj, e⟩ := hok.out x hx
    rw [htasks x]
    by_cases e1 : x = t
    · simp [e1]
    · have : gone x = false := by
        rw [Bool.eq_false_iff]; intro h2
        obtain ⟨j', hj', e'⟩ := hgone x h2
        rw [hj] at hj'; cases hj'; simp [e'] at e
      exact ⟨j, by simp [e1, this, hj], e⟩

theorem Inv.consume (hi : Inv h a) (gid : Bytes) (g : Graph) (t : Bytes) (i : NodeInfo) (k : Task) (g' : Graph)
    (gone : Bytes → Bool) (hg : a.graphs gid = some g) (ht : g.tasks.get? t = some i)
    (hs : i.state = .inactive) (ho : g.sorter.isOut t = true)
    (hk : k.taskId = t ∧ k.functionId = i.task.functionId) (ha : ArgsOK h i.task.args k.args)
    (hd : ∀ d ∈ inputs i.task, ∃ j, g.tasks.get? d = some j ∧ j.state = .success)
    (hc : Consume g t i k g' gone) :
    Inv h { a with graphs := upd a.graphs gid (some g'), node := fun x => if gone x then none else a.node x } := by
  have hgone : ∀ x, gone x = true → ∃ j, g.tasks.get? x = some j ∧ j.state = .success :=
    fun x hx => hd x ((hc.ghost x).1 hx).1
  have hsome : ∀ x, (g'.tasks.get? x).isSome ↔ (g.tasks.get? x).isSome ∧ gone x = false := by
    intro x
    rw [hc.tasks x]
    by_cases e : x = t
    · subst e
      have : gone x = false := by
        rw [Bool.eq_false_iff]; intro hx
        obtain ⟨j, hj, e⟩ := hgone x hx
        rw [ht] at hj; cases hj; rw [hs] at e; cases e
      simp [ht, this]
    · by_cases e2 : gone x = true
      · simp [e, e2]
      · simp [e, e2]
  refine hi.regraph (upd a.graphs gid (some g')) (fun x => if gone x then none else a.node x) ?_ ?_ ?_ ?_ ?_ ?_
  · intro gid' g2 hg'
    simp only [upd_apply] at hg'
    split at hg'
    · next e => cases hg'; subst e; exact ⟨g, hg, hc.same.2.1⟩
    · exact ⟨g2, hg', rfl⟩
  · intro gid' hs
    simp only [upd_apply]; split <;> simp [hs]
  · intro x hx; simp [hx]
  · intro x gid'
    by_cases e2 : gone x = true
    · simp only [e2, if_true]
      constructor
      · intro h; cases h
      · rintro ⟨g2, h1, h2⟩
        simp only [upd_apply] at h1
        split at h1
        · next e =>
          cases h1
          rw [hsome] at h2; simp [e2] at h2
        · next e =>
          obtain ⟨j, hj, _⟩ := hgone x e2
          exact absurd (hi.node_unique hg h1 (by simp [hj]) h2) e
    · rw [show (if gone x = true then none else a.node x) = a.node x by simp [e2], hi.nodes x gid']
      simp only [upd_apply]
      by_cases e : gid = gid'
      · subst e; simp [hg, hsome, e2]
      · simp [e]
  · intro gid' g2 x j hg' hx
    simp only [upd_apply] at hg'
    split at hg'
    · next e =>
      cases hg'
      rw [hc.tasks x] at hx
      split at hx
      · next e1 =>
        subst e1
        cases hx
        have hl := hi.link gid g x i hg ht
        simp only [Link, hs] at hl
        exact ⟨by rw [hl.2.2, hk.2], Or.inr ⟨hl.1, hl.2.1⟩⟩
      · split at hx
        · cases hx
        · have hl := hi.link gid g x j hg hx
          simpa [Link, hc.same.2.1] using hl
    · exact hi.link gid' g2 x j hg' hx
  · intro gid' g2 hg'
    simp only [upd_apply] at hg'
    split at hg'
    · next e =>
      subst e; cases hg'
      obtain ⟨gt, hok⟩ := hi.graphs gid g hg
      exact ⟨gt, hok.consume ht hs ho hk ha hd hc⟩
    · exact hi.graphs gid' g2 hg'

theorem Inv.hold (hi : Inv h a) (gid : Bytes) (g : Graph) (i : NodeInfo) (k : Task)
    (hg : a.graphs gid = some g) (ht : g.tasks.get? k.taskId = some i) (hs : i.state = .running) (hk : i.task = k)
    (h1 : a.tasks k.taskId = none) (h0 : a.owner k.taskId = none) (ho : Origin h k) : Inv h (a.accept g.client k) := by
  have h2 : a.graphs k.taskId = none := by
    cases hx : a.graphs k.taskId with
    | none => rfl
    | some g2 => rw [(hi.gid _ _ hx).1] at h0; cases h0
  have hu : a.uses k.taskId = some k.functionId := by
    have := hi.link gid g _ i hg ht
    simp only [Link, hs, hk] at this
    exact this.1
  have hn : a.node k.taskId = some gid := (hi.nodes _ _).2 ⟨g, hg, by simp [ht]⟩
  have hp := hi.place k.taskId
  rw [h1] at hp
  simp only [Option.isSome_none, Bool.false_eq_true, false_iff, not_or] at hp
  obtain ⟨hp1, hp2, hp3⟩ := hp
  have huses : upd a.uses k.taskId (some k.functionId) = a.uses := by
    funext x; simp only [upd_apply]; split
    · next e => rw [← e, hu]
    · rfl
  constructor
  · intro t k' ht
    have := hi.key t k'
    simp only [Abs.accept] at ht
    grind
  · intro t
    have := hi.place t
    simp only [Abs.accept, Abs.pendId, List.mem_append, List.mem_singleton, upd_apply] at this ⊢
    by_cases e : k.taskId = t
    · subst e; simp
    · have : ¬ t = k.taskId := fun e' => e e'.symm
      simp_all
  · intro k' hk'
    have := hi.pend k' hk'
    have e : k.taskId ≠ k'.taskId := by intro e; rw [← e, h1] at this; cases this
    simpa [Abs.accept, e] using this
  · refine List.nodup_append.2 ⟨hi.nodup, by simp, ?_⟩
    intro x hx y hy e
    simp only [List.mem_singleton] at hy
    subst hy e
    exact hp1 hx
  · intro t ht
    simp only [Abs.accept, List.mem_append, List.mem_singleton] at ht
    rcases ht with ht | rfl
    · exact hi.apart t ht
    · exact ⟨hp2, by show a.worker k.taskId = none; simpa using hp3⟩
  · exact hi.apart'
  · exact hi.up
  · intro t k' ht
    have := hi.pinned t k'
    simp only [Abs.accept] at ht ⊢
    grind
  · intro t f ht
    have := hi.known t f
    simp only [Abs.accept] at ht ⊢
    grind
  · intro t ht
    have := hi.owned t
    simp only [Abs.accept] at ht ⊢
    grind
  · intro t ht
    have := hi.owner t
    simp only [Abs.accept] at ht ⊢
    grind
  · intro gid' g' hg'
    have := hi.gid gid' g' hg'
    have e : k.taskId ≠ gid' := by intro e; rw [e, show a.graphs gid' = some g' from hg'] at h2; cases h2
    simpa [Abs.accept, e] using this
  · exact hi.nodes
  · intro gid' g' t j hg' ht'
    have hl := hi.link gid' g' t j hg' ht'
    by_cases e : k.taskId = t
    · subst e
      have e' := hi.node_unique (t := k.taskId) hg hg' (by simp [ht]) (by simp [ht'])
      subst e'
      rw [show a.graphs gid = some g' from hg'] at hg; cases hg
      rw [ht] at ht'; cases ht'
      simp only [Link, hs, hk, Abs.accept, huses] at hl ⊢
      exact ⟨hl.1, Or.inl ⟨by simp, by simp⟩⟩
    · simpa [Link, Abs.accept, e] using hl
  · exact hi.graphs
  · exact hi.queueNodup
  · intro c' gt hm'
    obtain ⟨h3, h4⟩ := hi.queue c' gt hm'
    refine ⟨h3, fun t ht => ?_⟩
    have e : k.taskId ≠ t := by
      rintro rfl
      have := (h4 _ ht).2.2; rw [hn] at this; cases this
    simpa [Unused, Abs.accept, e] using h4 t ht
  · intro t k' ht
    have := hi.origin t k'
    simp only [Abs.accept, upd_apply] at ht
    split at ht
    · cases ht; exact ho
    · exact this ht
  · intro w k' hk'
    simp only [Abs.accept, List.mem_append, List.mem_singleton] at hk'
    rcases hk' with hk' | hk'
    · exact hi.sent w k' hk'
    · simp at hk'

theorem Inv.launch (hi : Inv h a) (gid : Bytes) (g : Graph) (t : Bytes) (i : NodeInfo) (k : Task) (g' : Graph)
    (gone : Bytes → Bool) (hg : a.graphs gid = some g) (ht : g.tasks.get? t = some i)
    (hs : i.state = .inactive) (ho : g.sorter.isOut t = true)
    (hk : k.taskId = t ∧ k.functionId = i.task.functionId) (ha : ArgsOK h i.task.args k.args)
    (hd : ∀ d ∈ inputs i.task, ∃ j, g.tasks.get? d = some j ∧ j.state = .success)
    (hc : Consume g t i k g' gone) :
    Inv h ({ a with
        graphs := upd a.graphs gid (some g')
        node := fun x => if gone x then none else a.node x } |>.accept g.client k) := by
  have h1 := hi.consume gid g t i k g' gone hg ht hs ho hk ha hd hc
  have hl := hi.link gid g t i hg ht
  simp only [Link, hs] at hl
  obtain ⟨gt, hok⟩ := hi.graphs gid g hg
  obtain ⟨T, hT, hTt, hN1, hN2, hN3⟩ := hok.node t i ht
  simp only [hs] at hN3
  have h2 := h1.hold gid g' ⟨.running, k, i.result⟩ k (by simp) (by rw [hk.1, hc.tasks]; simp) rfl rfl
    (by rw [hk.1]; exact hl.1) (by rw [hk.1]; exact hl.2.1)
    (Or.inr ⟨g.client, gt, T, hok.src, hT, hk.1.trans hTt.symm, by rw [hk.2, hN3.1], by rw [← hN3.1]; exact ha⟩)
  rw [hc.same.2.1] at h2
  exact h2

theorem Inv.reject (hi : Inv h a) (gid : Bytes) (g : Graph) (t : Bytes) (i : NodeInfo) (k : Task) (g' : Graph)
    (gone : Bytes → Bool) (hg : a.graphs gid = some g) (ht : g.tasks.get? t = some i)
    (hs : i.state = .inactive) (ho : g.sorter.isOut t = true)
    (hk : k.taskId = t ∧ k.functionId = i.task.functionId) (ha : ArgsOK h i.task.args k.args)
    (hd : ∀ d ∈ inputs i.task, ∃ j, g.tasks.get? d = some j ∧ j.state = .success)
    (hc : Consume g t i k g' gone) :
    Inv h { a with
        graphs := upd a.graphs gid (some g')
        node := fun x => if gone x then none else a.node x
        out := a.out ++ [(g.client, .taskEcho k.taskId .noWorker)] } :=
  (hi.consume gid g t i k g' gone hg ht hs ho hk ha hd hc).say g.client (.taskEcho k.taskId .noWorker) (by intro k hk; cases hk)

theorem GraphAnswer.no_task {gid : Bytes} {g : Graph} {ans : List (Bytes × Message)} (ha : GraphAnswer gid g ans)
    (w : Bytes) (k : Task) : (w, .task k) ∉ ans := by
  cases ha <;> simp

theorem Inv.clean (hi : Inv h a) (gid : Bytes) (g : Graph) (ids : List Bytes) (ans : List (Bytes × Message))
    (hg : a.graphs gid = some g) (ha : GraphAnswer gid g ans) : Inv h (a.clean gid g (cancels a g ids ++ ans) (halts a g ids)) := by
  have hin : ∀ t, (g.tasks.get? t).map (·.state) = some .inactive → a.tasks t = none ∧ a.owner t = none := by
    intro t ht
    cases hx : g.tasks.get? t with
    | none => simp [hx] at ht
    | some i =>
      simp only [hx, Option.map_some, Option.some.injEq] at ht
      have := hi.link gid g t i hg hx
      simp only [Link, ht] at this
      exact ⟨this.1, this.2.1⟩
  refine { hi with pinned := ?_, known := ?_, owned := ?_, owner := ?_, gid := ?_, nodes := ?_, link := ?_, graphs := ?_, queue := ?_, sent := ?_ }
  · intro t k hk
    have h1 := hi.pinned t k hk
    have h2 := hin t
    simp only [Abs.clean]
    split
    · next e =>
      rw [show (a.clean gid g (cancels a g ids ++ ans) (halts a g ids)).tasks t = a.tasks t from rfl, (h2 e).1] at hk; cases hk
    · exact h1
  · intro t f hf
    simp only [Abs.clean] at hf
    split at hf
    · cases hf
    · exact hi.known t f hf
  · intro t ht
    have h1 := hi.task_graph ht
    simp only [Abs.clean, upd_apply]
    split
    · next e => rw [e, h1] at hg; cases hg
    · exact hi.owned t ht
  · intro t ht
    simp only [Abs.clean, upd_apply] at ht ⊢
    split at ht
    · cases ht
    · next e => simpa [e] using hi.owner t ht
  · intro gid' g' hg'
    simp only [Abs.clean, upd_apply] at hg' ⊢
    split at hg'
    · cases hg'
    · next e =>
      obtain ⟨h1, h2, h3⟩ := hi.gid gid' g' hg'
      simp [e, h1, h2, h3]
  · intro t gid'
    simp only [Abs.clean, upd_apply]
    by_cases e : gid = gid'
    · subst e
      simp only [if_true]
      by_cases e2 : (g.tasks.get? t).isSome
      · simp [e2]
      · simp only [e2]
        constructor
        · intro hx
          obtain ⟨g2, h1, h2⟩ := (hi.nodes t gid).1 hx
          rw [hg] at h1; cases h1
          exact absurd h2 e2
        · rintro ⟨g2, h1, _⟩; cases h1
    · simp only [e, if_false]
      rw [← hi.nodes t gid']
      split
      · next e2 =>
        simp only [(hi.nodes t gid).2 ⟨g, hg, e2⟩, Option.some.injEq, e]
        simp
      · rfl
  · intro gid' g' t i hg' ht
    simp only [Abs.clean, upd_apply] at hg'
    split at hg'
    · cases hg'
    · next e =>
      have hl := hi.link gid' g' t i hg' ht
      have e1 : g.tasks.get? t = none := by
        cases hx : g.tasks.get? t with
        | none => rfl
        | some j => exact absurd (hi.node_unique (t := t) hg hg' (by simp [hx]) (by simp [ht])) e
      have e2 : gid ≠ t := by
        rintro rfl
        have := (hi.nodes gid gid').2 ⟨g', hg', by simp [ht]⟩
        rw [(hi.gid gid g hg).2.2] at this; cases this
      simpa [Link, Abs.clean, e1, e2] using hl
  · intro gid' g' hg'
    simp only [Abs.clean, upd_apply] at hg'
    split at hg'
    · cases hg'
    · exact hi.graphs gid' g' hg'
  · intro c gt hm
    obtain ⟨h1, h2⟩ := hi.queue c gt hm
    refine ⟨h1, fun t ht => ?_⟩
    obtain ⟨h3, h4, h5⟩ := h2 t ht
    simp [Unused, Abs.clean, h3, h4, h5]
  · intro w k hk
    simp only [Abs.clean, List.mem_append] at hk
    rcases hk with hk | hk | hk
    · exact hi.sent w k hk
    · simp only [cancels, List.mem_filterMap] at hk
      obtain ⟨t, _, hx⟩ := hk
      split at hx
      · split at hx
        · cases hw : a.worker t <;> simp [hw] at hx
        · cases hx
      · cases hx
    · exact absurd hk (ha.no_task w k)

theorem find_node {gt : GraphTask} (hn : (nodeIds gt).Nodup) {T : Task} (hT : T ∈ gt.graph) :
    gt.graph.find? (fun T' => T'.taskId = T.taskId) = some T := by
  unfold nodeIds at hn
  generalize gt.graph = l at hn hT
  induction l with
  | nil => cases hT
  | cons x xs ih =>
    simp only [List.map_cons, List.nodup_cons] at hn
    rcases List.mem_cons.1 hT with rfl | hm
    · simp
    · have : x.taskId ≠ T.taskId := fun e => hn.1 (e ▸ List.mem_map.2 ⟨T, hm, rfl⟩)
      rw [List.find?_cons_of_neg (by simpa using this)]
      exact ih hn.2 hm

theorem funcOf_eq {gt : GraphTask} (hn : (nodeIds gt).Nodup) {T : Task} (hT : T ∈ gt.graph) :
    funcOf gt T.taskId = some T.functionId := by
  simp [funcOf, find_node hn hT]

theorem funcOf_none {gt : GraphTask} {t : Bytes} (ht : t ∉ nodeIds gt) : funcOf gt t = none := by
  simp only [funcOf, Option.map_eq_none_iff, List.find?_eq_none, decide_eq_true_eq]
  intro T hT e
  exact ht (e ▸ List.mem_map.2 ⟨T, hT, rfl⟩)

theorem funcOf_some {gt : GraphTask} {t f : Bytes} (h : funcOf gt t = some f) : ∃ T ∈ gt.graph, T.taskId = t ∧ T.functionId = f := by
  simp only [funcOf, Option.map_eq_some_iff] at h
  obtain ⟨T, h1, h2⟩ := h
  exact ⟨T, List.mem_of_find?_eq_some h1, by simpa using List.find?_some h1, h2⟩

theorem Inv.unpack (hi : Inv h a) (c : Bytes) (gt : GraphTask) (g : Graph)
    (hn : (allIds gt).Nodup) (hf : ∀ t ∈ allIds gt, Fresh a t)
    (hk : ∀ T ∈ gt.graph, (a.funcs T.functionId).isSome) (hc : g.client = c)
    (hg : GraphOK h gt.taskId gt g)
    (hin : ∀ t i, g.tasks.get? t = some i → i.state = .inactive)
    (hnt : ∀ t, (g.tasks.get? t).isSome ↔ t ∈ nodeIds gt) : Inv h (a.unpack c gt g) := by
  have hn' := List.nodup_cons.1 hn
  have hself : Unused a gt.taskId := (hf _ (List.mem_cons_self)).1
  have hnode : ∀ t ∈ nodeIds gt, Unused a t := fun t ht => (hf t (List.mem_cons_of_mem _ ht)).1
  have hgnone := hi.unused_graph hself
  have huse : ∀ t, t ∉ nodeIds gt → (a.unpack c gt g).uses t = a.uses t := by
    intro t ht; simp [Abs.unpack, funcOf_none ht]
  refine { hi with pinned := ?_, known := ?_, owned := ?_, owner := ?_, gid := ?_, nodes := ?_, link := ?_, graphs := ?_, queue := ?_ }
  · intro t k ht
    have : t ∉ nodeIds gt := by
      intro hm
      rw [show (a.unpack c gt g).tasks t = a.tasks t from rfl, hi.unused_tasks (hnode t hm)] at ht; cases ht
    rw [huse t this]
    exact hi.pinned t k ht
  · intro t f ht
    show (a.funcs f).isSome
    simp only [Abs.unpack] at ht
    cases hx : funcOf gt t with
    | none => simp only [hx, Option.none_or] at ht; exact hi.known t f ht
    | some f' =>
      simp only [hx, Option.some_or, Option.some.injEq] at ht
      subst ht
      obtain ⟨T, hT, _, e⟩ := funcOf_some hx
      exact e ▸ hk T hT
  · intro t ht
    have := hi.owned t ht
    simp only [Abs.unpack, upd_apply]
    split <;> simp [this]
  · intro t ht
    simp only [Abs.unpack, upd_apply] at ht ⊢
    split
    · simp
    · next e => simp only [e, if_false] at ht; exact hi.owner t ht
  · intro gid g' hg'
    simp only [Abs.unpack, upd_apply] at hg'
    split at hg'
    · next e =>
      subst e; cases hg'
      refine ⟨by simp [Abs.unpack, hc], ?_, ?_⟩
      · rw [huse _ hn'.1]; exact hself.1
      · simp [Abs.unpack, hn'.1, hself.2.2]
    · next e =>
      obtain ⟨h1, h2, h3⟩ := hi.gid gid g' hg'
      have : gid ∉ nodeIds gt := by
        intro hm; have := (hnode gid hm).2.1; rw [h1] at this; cases this
      refine ⟨by simp [Abs.unpack, e, h1], ?_, ?_⟩
      · rw [huse _ this]; exact h2
      · simp [Abs.unpack, this, h3]
  · intro t gid
    simp only [Abs.unpack, upd_apply]
    by_cases hm : t ∈ nodeIds gt
    · simp only [hm, if_true, Option.some.injEq]
      by_cases e : gt.taskId = gid
      · subst e; simp [(hnt t).2 hm]
      · simp only [e, if_false, false_iff]
        rintro ⟨g', h1, h2⟩
        have := (hi.nodes t gid).2 ⟨g', h1, h2⟩
        rw [(hnode t hm).2.2] at this; cases this
    · simp only [hm, if_false]
      by_cases e : gt.taskId = gid
      · subst e
        simp only [if_true, Option.some.injEq, exists_eq_left', hnt t, hm, iff_false]
        intro hx
        obtain ⟨g', h1, _⟩ := (hi.nodes t _).1 hx
        rw [hgnone] at h1; cases h1
      · simp only [e, if_false]; exact hi.nodes t gid
  · intro gid g' t i hg' ht
    simp only [Abs.unpack, upd_apply] at hg'
    split at hg'
    · next e =>
      cases hg'
      have hm := (hnt t).1 (by simp [ht])
      have hs := hin t i ht
      have hu := hnode t hm
      obtain ⟨T, hT, hTt, hN1, hN2, hN3⟩ := hg.node t i ht
      have e2 : gt.taskId ≠ t := fun e2 => hn'.1 (e2 ▸ hm)
      simp only [Link, hs]
      refine ⟨hi.unused_tasks hu, by simp [Abs.unpack, e2, hu.2.1], ?_⟩
      simp only [Abs.unpack]
      rw [← hTt, funcOf_eq hn'.2 hT, hN2]; rfl
    · next e =>
      have hl := hi.link gid g' t i hg' ht
      have hx := (hi.nodes t gid).2 ⟨g', hg', by simp [ht]⟩
      have h1 : t ∉ nodeIds gt := by
        intro hm; rw [(hnode t hm).2.2] at hx; cases hx
      have h2 : gt.taskId ≠ t := by
        rintro rfl; rw [hself.2.2] at hx; cases hx
      simpa [Link, Abs.unpack, h2, funcOf_none h1] using hl
  · intro gid g' hg'
    simp only [Abs.unpack, upd_apply] at hg'
    split at hg'
    · next e => subst e; cases hg'; exact ⟨gt, hg⟩
    · exact hi.graphs gid g' hg'
  · intro c' gt' hm
    obtain ⟨h1, h2⟩ := hi.queue c' gt' hm
    refine ⟨h1, fun t ht => ?_⟩
    have hne : t ∉ allIds gt := fun hx => (hf t hx).2 (List.mem_flatMap.2 ⟨(c', gt'), hm, ht⟩)
    simp only [allIds, List.mem_cons, not_or] at hne
    have e2 : gt.taskId ≠ t := fun e => hne.1 e.symm
    simpa [Unused, Abs.unpack, funcOf_none hne.2, e2, hne.2] using h2 t ht

/-! ### All steps -/

theorem Inv.head_fresh (hi : Inv h a) {c : Bytes} {gt : GraphTask} {rest : List (Bytes × GraphTask)}
    (hq : a.queue = (c, gt) :: rest) :
    (allIds gt).Nodup ∧ ∀ t ∈ allIds gt, Fresh ({ a with queue := rest } : Abs) t := by
  have hmem := hi.queue c gt (by rw [hq]; exact List.mem_cons_self)
  have hnd := hi.queueNodup
  rw [hq, List.flatMap_cons, List.nodup_append] at hnd
  exact ⟨hnd.1, fun t ht => ⟨hmem.2 t ht, fun hx => hnd.2.2 t ht t hx rfl⟩⟩

theorem AStep.inv {b : Abs} (hs : AStep h a b) (hi : Inv h a) : Inv h b := by
  cases hs with
  | say c m hm => exact hi.say c m (by rintro k rfl; exact hm.neutral)
  | halt t w hw => exact (hi.say w (.taskCancel t) (by intro k hk; cases hk)).show_ _
  | refuse c k st _ _ _ _ => exact hi.say c _ (by intro k hk; cases hk)
  | func fid i _ => exact hi.func fid i
  | drop fid hu => exact hi.drop fid hu
  | accept c k _ hm hf hk => exact hi.accept c k hm hf hk
  | up w _ _ => exact hi.up_ w
  | requeue ts up' hn ht hu _ _ => exact (hi.requeue ts up' hn ht hu).show_ _
  | queueGraph c gt _ hm hn hf => exact hi.queueGraph c gt hm hn hf
  | take t ts k hw hk hp => exact hi.take t ts k hw hk hp
  | putBack k hp => exact hi.putBack k hp
  | place k w hp hw => exact (hi.place_ k w hp hw).show_ _
  | answer r c he hc hn => exact hi.answer r c he hn
  | nodeDone r gid g i st so he hn hg hx hst hso => exact hi.nodeDone r gid g i st so he hn hg hx hst hso
  | unpack c gt rest g hq hk hc hg hx ht =>
    obtain ⟨hn, hf⟩ := hi.head_fresh hq
    exact (hi.popGraph (c, gt) rest hq).unpack c gt g hn hf hk hc hg hx ht
  | getReady gid g hg => exact hi.getReady gid g hg
  | launch gid g t i k g' gone hg ht hx ho hk ha hd hc => exact hi.launch gid g t i k g' gone hg ht hx ho hk ha hd hc
  | reject gid g t i k g' gone hg ht hx ho hk ha hd hc _ => exact hi.reject gid g t i k g' gone hg ht hx ho hk ha hd hc
  | clean gid g ids ans hg _ _ _ ha _ => exact hi.clean gid g ids ans hg ha

theorem ASteps.inv {b : Abs} (hs : ASteps h a b) (hi : Inv h a) : Inv h b := by
  induction hs with
  | refl => exact hi
  | tail _ s ih => exact s.inv ih

end Verif.Sched
