import Verif.Sched.Pins

/-!
# All executions of the scheduler

`Reach cfg l s`: the scheduler is in state `s` after receiving the messages `l`, where clients choose the
ids of tasks and graphs properly (`Spec.Allowed`).  Everything else is arbitrary: senders, contents, order,
clock readings, iteration orders of sets, and when the routines run.
-/

namespace Verif.Sched

open Verif.Queue Verif.Util Verif.Wire Verif.Spec

/-- What an event receives. -/
def Event.input (e : Event) : Log :=
  match e.op with
  | .recv source m => [(source, m)]
  | _ => []

inductive Reach (cfg : Config) : Log → Sched → Prop
  | init : Reach cfg [] (Sched.init cfg)
  | step {l : Log} {s s' : Sched} (e : Event) (hr : Reach cfg l s) (ha : ∀ m ∈ e.input, Allowed l s.out m)
      (hs : s.step e = .ok s') : Reach cfg (l ++ e.input) s'

/-- The history while the event is handled. -/
def Event.hist (e : Event) (l : Log) : History := ⟨l ++ e.input, e.input.head?⟩

/-- No two submitted graphs share an id. -/
def UniqueIds (l : Log) : Prop :=
  ∀ c g c' g' t, (c, .graphTask g) ∈ l → (c', .graphTask g') ∈ l → t ∈ allIds g → t ∈ allIds g' → c = c' ∧ g = g'

/-- What holds between two events. -/
structure Good (cfg : Config) (l : Log) (s : Sched) : Prop where
  cfg : s.cfg = cfg
  conc : Conc s
  inv : Inv ⟨l, none⟩ s.abs
  settled : AllSettled s.abs
  acct : Acct ⟨l, none⟩ s.abs
  once : Once ⟨l, none⟩ s.abs
  said : Said ⟨l, none⟩ s.abs
  pins : Pins ⟨l, none⟩ s.abs
  sent : Sent ⟨l, none⟩ s.abs
  answered : Answered ⟨l, none⟩ s.abs
  fate : ∀ c gt, (c, .graphTask gt) ∈ l → Fate ⟨l, none⟩ s.abs c gt
  echo : ∀ t, ¬ InGraph l t → submits t l = acks anyone t s.out + refusals t s.out
  unique : UniqueIds l
  apart : ∀ c k, (c, .task k) ∈ l → ¬ InGraph l k.taskId
  counted : FinalLog ⟨l, none⟩ → Counted s.abs

/-! ### Monotonicity in the history -/

theorem _root_.Verif.Spec.InGraph.mono {l l' : Log} (hh : ∀ m ∈ l, m ∈ l') {t : Bytes} (x : InGraph l t) : InGraph l' t := by
  obtain ⟨c, g, h1, h2⟩ := x
  exact ⟨c, g, hh _ h1, h2⟩

theorem _root_.Verif.Spec.Mentioned.mono {l l' : Log} (hh : ∀ m ∈ l, m ∈ l') {t : Bytes} (x : Mentioned l t) : Mentioned l' t := by
  rcases x with x | ⟨c, k, h1, h2⟩
  · exact Or.inl (x.mono hh)
  · exact Or.inr ⟨c, k, hh _ h1, h2⟩

section
variable {h h' : History} (hh : ∀ m ∈ h.log, m ∈ h'.log) {a : Abs}
include hh

theorem Acct.mono (x : Acct h a) : Acct h' a := fun p t ht => x p t (fun y => ht (y.mono hh))

theorem Said.mono (x : Said h a) : Said h' a := fun t ht => x t (fun y => ht (y.mono hh))

omit hh in
theorem Once.mono (x : Once h a) (hs : Said h a) (hm : ∀ t, InGraph h'.log t → InGraph h.log t ∨ ¬ Mentioned h.log t) : Once h' a := by
  refine ⟨x.silent, ?_, x.answer⟩
  intro t ht
  rcases hm t ht with y | y
  · exact x.echo t y
  · rw [(hs t y).echoes]; omega

theorem Pins.mono (x : Pins h a) : Pins h' a :=
  ⟨x.running, fun t ht => (x.uses t ht).imp id (Or.imp id (fun y => ⟨y.1.mono hh, y.2⟩))⟩

theorem Sent.mono (x : Sent h a) : Sent h' a := by
  refine ⟨x.held, ?_⟩
  intro c t st d r hm
  obtain ⟨h1, h2⟩ := x.result c t st d r hm
  exact ⟨h1, h2.imp (fun ⟨w, hw⟩ => ⟨w, hh _ hw⟩) fun ⟨h3, h4, h5, c, hc⟩ => ⟨h3, h4, h5, c, hh _ hc⟩⟩

theorem Answered.mono (x : Answered h a) : Answered h' a := by
  intro c gid st rs hm
  obtain ⟨gt, h1, h2, h3, h4, h5⟩ := x c gid st rs hm
  refine ⟨gt, hh _ h1, h2, h3, ?_, ?_⟩
  · intro e
    obtain ⟨f, hf, hf'⟩ := h4 e
    exact ⟨f, hf, fun t ht => ⟨(hf' t ht).1, (hf' t ht).2.mono hh⟩⟩
  · intro e
    obtain ⟨h6, t, r, h7, h8, h9⟩ := h5 e
    exact ⟨h6, t, r, h7, h8, h9.mono hh⟩

theorem Fate.mono {c : Bytes} {gt : GraphTask} (x : Fate h a c gt) : Fate h' a c gt := by
  rcases x with x | ⟨g, h1, h2, h3⟩ | x | ⟨c', x⟩
  · exact Or.inl x
  · exact Or.inr (Or.inl ⟨g, h1, h2, h3.mono hh⟩)
  · exact Or.inr (Or.inr (Or.inl x))
  · exact Or.inr (Or.inr (Or.inr ⟨c', hh _ x⟩))

end

theorem ASteps.lift {h : History} {P : Abs → Prop} (hP : ∀ a b, AStep h a b → Inv h a → P a → P b) {a b : Abs}
    (hs : ASteps h a b) (hi : Inv h a) (ha : P a) : P b := by
  induction hs with
  | refl => exact ha
  | tail s t ih => exact hP _ _ t (s.inv hi) ih

/-! ### Ids that clients may use are not in use -/

theorem Inv.uses_mentioned {h : History} {a : Abs} (hi : Inv h a) (hp : Pins h a) {t : Bytes} (hu : (a.uses t).isSome) :
    (a.tasks t).isSome ∨ InGraph h.log t := by
  rcases hp.uses t hu with x | ⟨gid, g, i, h1, h2, _⟩ | x
  · exact Or.inl x
  · exact Or.inr (hi.tasks_inGraph h1 h2)
  · exact Or.inr x.1

theorem Good.fresh_of {cfg : Config} {l : Log} {s : Sched} (hg : Good cfg l s) {t : Bytes} (hn : ¬ InGraph l t)
    (ht : s.abs.tasks t = none) : Fresh s.abs t := by
  refine ⟨⟨?_, ?_, ?_⟩, ?_⟩
  · cases hu : s.abs.uses t with
    | none => rfl
    | some f =>
      rcases hg.inv.uses_mentioned hg.pins (by rw [hu]; rfl) with x | x
      · rw [ht] at x; cases x
      · exact absurd x hn
  · cases hu : s.abs.owner t with
    | none => rfl
    | some c =>
      rcases hg.inv.owner t (by rw [hu]; rfl) with x | x
      · rw [ht] at x; cases x
      · obtain ⟨g, x⟩ := Option.isSome_iff_exists.1 x
        exact absurd (hg.inv.graph_inGraph x) hn
  · cases hu : s.abs.node t with
    | none => rfl
    | some gid => exact absurd (hg.inv.node_inGraph hu) hn
  · intro hm
    obtain ⟨⟨c, gt⟩, h1, h2⟩ := List.mem_flatMap.1 hm
    exact hn (hg.inv.queue_inGraph h1 h2)

theorem Good.fresh_task {cfg : Config} {l : Log} {s : Sched} (hg : Good cfg l s) {c : Bytes} {k : Task}
    (ha : Allowed l s.out (c, .task k)) : Fresh s.abs k.taskId := by
  refine hg.fresh_of ha.1 ?_
  have h1 := hg.echo k.taskId ha.1
  have h2 := hg.acct anyone k.taskId ha.1
  have h3 : submits k.taskId l = refusals k.taskId s.out + results anyone k.taskId s.out := ha.2
  have h4 : s.abs.out = s.out := rfl
  rw [h4] at h2
  cases ht : s.abs.tasks k.taskId with
  | none => rfl
  | some k' =>
    exfalso
    have ho := hg.inv.owned k.taskId (by rw [ht]; rfl)
    obtain ⟨c', ho⟩ := Option.isSome_iff_exists.1 ho
    rw [ho, ht] at h2
    simp [anyone] at h2
    omega

theorem Good.fresh_graph {cfg : Config} {l : Log} {s : Sched} (hg : Good cfg l s) {c : Bytes} {gt : GraphTask}
    (ha : Allowed l s.out (c, .graphTask gt)) : ∀ t ∈ allIds gt, Fresh s.abs t := by
  intro t ht
  have hn : ¬ Mentioned l t := ha.2 t ht
  refine hg.fresh_of (fun x => hn (Or.inl x)) ?_
  cases hk : s.abs.tasks t with
  | none => rfl
  | some k => exact absurd (hg.inv.task_mentioned (by rw [hk]; rfl)) hn

/-! ### Exceptions -/

/-- The names shown in the status report are text. -/
def Readable (s : Sched) : Prop :=
  (∀ c t, s.abs.owner t = some c → (Sched.decodeText c).toBool = true) ∧
  (∀ t f i, s.abs.uses t = some f → s.abs.funcs f = some i → (Sched.decodeText i.name).toBool = true) ∧
  (∀ w, s.abs.up w = true → (Sched.decodeText w).toBool = true)

/-- Why an event raises. -/
def Cause (s : Sched) (e : Event) : Prop :=
  match e.op with
  | .recv _ (.taskResult t st d r) =>
    s.ResultTrouble ⟨t, st, d, r⟩
  | .recv _ (.taskCancel t) => t ∈ s.abs.waiting ∧ Sched.NodeTrouble s.abs ⟨t, .canceled, 0, []⟩
  | .recv _ (.balanceResponse ids) => Sched.Jam s.wm.alloc ids
  | .recv _ (.disconnectRequest w) => s.abs.up w = true ∧ s.wm.alloc.queue.stale w ≠ none
  | .recv _ (.graphTaskCancel gid) => s.abs.graphs gid = none ∨
      ∃ g t i, s.abs.graphs gid = some g ∧ g.tasks.get? t = some i ∧ i.state = .running ∧ t ∈ s.abs.waiting
  | .recv _ (.functionRequest type fid _ _) => type = .delete ∧ (s.abs.funcs fid).isSome ∧ ∀ t, s.abs.uses t ≠ some fid
  | .graphRoutine => ∃ c gt rest, s.abs.queue = (c, gt) :: rest ∧ BadSubmit s.abs gt
  | .workerRoutine => s.Overdue e.now
  | .report => ¬ Readable s
  | _ => False

theorem decodeText_eq {b n : Bytes} (hd : Sched.decodeText b = .ok n) : n = b := by
  unfold Sched.decodeText at hd
  split at hd <;> cases hd
  rfl

theorem decodeText_post (b : Bytes) :
    Py.Post (Sched.decodeText b) (fun n => n = b ∧ (Sched.decodeText b).toBool = true) (fun e => e = .unicodeError ∧ ¬ (Sched.decodeText b).toBool = true) := by
  unfold Sched.decodeText
  split
  · exact ⟨rfl, by simp [Except.toBool]⟩
  · exact ⟨rfl, by simp [Except.toBool]⟩

theorem clientRows_post : ∀ l : List (Bytes × PySet Bytes), Py.Post (Sched.clientRows l) (fun _ => ∀ p ∈ l, (Sched.decodeText p.1).toBool = true)
    (fun e => e = .unicodeError ∧ ∃ p ∈ l, ¬ (Sched.decodeText p.1).toBool = true)
  | [] => by intro p hp; cases hp
  | (c, ts) :: l => by
    rw [Sched.clientRows, Py.post_bind]
    refine (decodeText_post c).imp ?_ ?_
    · intro n hn
      rw [Py.post_bind]
      refine (clientRows_post l).imp (fun _ hl => by
        rw [Py.post_pure]
        intro p hp
        rcases List.mem_cons.1 hp with rfl | hp
        · exact hn.2
        · exact hl p hp) ?_
      rintro e ⟨h1, p, h2, h3⟩
      exact ⟨h1, p, List.mem_cons_of_mem _ h2, h3⟩
    · rintro e ⟨h1, h2⟩
      exact ⟨h1, _, List.mem_cons_self, h2⟩

theorem functionRows_post (funcs : Dict Bytes FuncInfo) : ∀ l : List (Bytes × PySet Bytes), (∀ p ∈ l, (funcs.get? p.1).isSome) →
    Py.Post (Sched.functionRows funcs l) (fun _ => ∀ p ∈ l, ∀ i, funcs.get? p.1 = some i → (Sched.decodeText i.name).toBool = true)
    (fun e => e = .unicodeError ∧ ∃ p ∈ l, ∃ i, funcs.get? p.1 = some i ∧ ¬ (Sched.decodeText i.name).toBool = true)
  | [], _ => by intro p hp; cases hp
  | (f, ts) :: l, hl => by
    obtain ⟨i, hi⟩ := Option.isSome_iff_exists.1 (hl _ List.mem_cons_self)
    rw [Sched.functionRows, Py.post_bind, Dict.getPy_of_get? hi, Py.post_ok, Py.post_bind]
    refine (decodeText_post i.name).imp ?_ ?_
    · intro n hn
      rw [Py.post_bind]
      refine (functionRows_post funcs l (fun p hp => hl p (List.mem_cons_of_mem _ hp))).imp (fun _ hr => by
        rw [Py.post_pure]
        intro p hp j hj
        rcases List.mem_cons.1 hp with rfl | hp
        · rw [hi] at hj; cases hj; exact hn.2
        · exact hr p hp j hj) ?_
      rintro e ⟨h1, p, h2, h3⟩
      exact ⟨h1, p, List.mem_cons_of_mem _ h2, h3⟩
    · rintro e ⟨h1, h2⟩
      exact ⟨h1, _, List.mem_cons_self, i, hi, h2⟩

theorem workerRows_post (stats : Dict Bytes (Int × Int)) (now : Int) : ∀ l : List (Bytes × Int × Heartbeat),
    (∀ p ∈ l, (stats.get? p.1).isSome) →
    Py.Post (Sched.workerRows stats now l) (fun _ => ∀ p ∈ l, (Sched.decodeText p.1).toBool = true)
    (fun e => e = .unicodeError ∧ ∃ p ∈ l, ¬ (Sched.decodeText p.1).toBool = true)
  | [], _ => by intro p hp; cases hp
  | (w, last, hb) :: l, hl => by
    obtain ⟨i, hi⟩ := Option.isSome_iff_exists.1 (hl _ List.mem_cons_self)
    rw [Sched.workerRows, Py.post_bind]
    refine (decodeText_post w).imp ?_ ?_
    · intro n hn
      rw [Py.post_bind, Dict.getPy_of_get? hi, Py.post_ok, Py.post_bind]
      refine (workerRows_post stats now l (fun p hp => hl p (List.mem_cons_of_mem _ hp))).imp (fun _ hr => by
        rw [Py.post_pure]
        intro p hp
        rcases List.mem_cons.1 hp with rfl | hp
        · exact hn.2
        · exact hr p hp) ?_
      rintro e ⟨h1, p, h2, h3⟩
      exact ⟨h1, p, List.mem_cons_of_mem _ h2, h3⟩
    · rintro e ⟨h1, h2⟩
      exact ⟨h1, _, List.mem_cons_self, h2⟩

theorem report_post {h : History} {s : Sched} (hc : Conc s) (hi : Inv h s.abs) (now : Int) :
    Py.Post (s.report now) (fun _ => Readable s) (fun e => e = .unicodeError ∧ ¬ Readable s) := by
  unfold Sched.report
  rw [Py.post_bind]
  refine (clientRows_post _).imp ?_ ?_
  · intro _ hcl
    rw [Py.post_bind]
    refine (functionRows_post s.fm.funcs _ ?_).imp ?_ ?_
    · intro p hp
      obtain ⟨t, ht⟩ := (OneToMany.hasKey_iff hc.uses p.1).1 (by
        rw [OneToMany.hasKey, Dict.has_iff]
        exact Dict.mem_keys.2 ⟨p.2, Dict.mem_items.1 hp⟩)
      exact hi.known t p.1 ht
    · intro _ hfn
      rw [Py.post_bind]
      refine (workerRows_post _ now _ ?_).imp (fun _ hwk => by
        rw [Py.post_pure]
        refine ⟨?_, ?_, ?_⟩
        · intro c t hct
          have := (OneToMany.hasKey_iff hc.clients c).2 ⟨t, hct⟩
          rw [OneToMany.hasKey, Dict.has_iff] at this
          obtain ⟨v, hv⟩ := Dict.mem_keys.1 this
          exact hcl (c, v) (Dict.mem_items.2 hv)
        · intro t f i hu hf
          have := (OneToMany.hasKey_iff hc.uses f).2 ⟨t, hu⟩
          rw [OneToMany.hasKey, Dict.has_iff] at this
          obtain ⟨v, hv⟩ := Dict.mem_keys.1 this
          exact hfn (f, v) (Dict.mem_items.2 hv) i hf
        · intro w hw
          have : s.wm.alive.has w = true := hw
          rw [Dict.has_iff] at this
          obtain ⟨v, hv⟩ := Dict.mem_keys.1 this
          exact hwk (w, v) (Dict.mem_items.2 hv)) ?_
      · intro p hp
        have h1 : s.wm.alive.has p.1 = true := by rw [Dict.has_iff]; exact Dict.mem_keys.2 ⟨p.2, Dict.mem_items.1 hp⟩
        obtain ⟨x, hx⟩ := Option.isSome_iff_exists.1 ((hc.alive p.1).1 h1)
        have hk : (s.wm.alloc.statistics.map (·.1)) = s.wm.alloc.w2t.keys := by
          simp [Alloc.statistics, Dict.keys]
        have hn : (s.wm.alloc.statistics.map (·.1)).Nodup := by rw [hk]; exact Dict.nodup_keys _
        have : p.1 ∈ (Dict.ofList s.wm.alloc.statistics).keys := by
          rw [Dict.keys, Dict.ofList_items hn, hk]
          exact Dict.mem_keys.2 ⟨x, hx⟩
        obtain ⟨v, hv⟩ := Dict.mem_keys.1 this
        rw [hv]; rfl
      · rintro e ⟨h1, p, h2, h3⟩
        refine ⟨h1, fun hr => h3 (hr.2.2 p.1 ?_)⟩
        show s.wm.alive.has p.1 = true
        rw [Dict.has_iff]; exact Dict.mem_keys.2 ⟨p.2, Dict.mem_items.1 h2⟩
    · rintro e ⟨h1, p, h2, i, h3, h4⟩
      refine ⟨h1, fun hr => h4 ?_⟩
      obtain ⟨t, ht⟩ := (OneToMany.hasKey_iff hc.uses p.1).1 (by
        rw [OneToMany.hasKey, Dict.has_iff]
        exact Dict.mem_keys.2 ⟨p.2, Dict.mem_items.1 h2⟩)
      exact hr.2.1 t p.1 i ht h3
  · rintro e ⟨h1, p, h2, h3⟩
    refine ⟨h1, fun hr => h3 ?_⟩
    obtain ⟨t, ht⟩ := (OneToMany.hasKey_iff hc.clients p.1).1 (by
      rw [OneToMany.hasKey, Dict.has_iff]
      exact Dict.mem_keys.2 ⟨p.2, Dict.mem_items.1 h2⟩)
    exact hr.1 p.1 t ht

/-! ### One event -/

theorem Event.hist_mem (e : Event) (l : Log) : ∀ m ∈ (⟨l, none⟩ : History).log, m ∈ (e.hist l).log :=
  fun _ hm => List.mem_append_left _ hm

theorem Event.hist_back (e : Event) (l : Log) : ∀ m ∈ (e.hist l).log, m ∈ (⟨l ++ e.input, none⟩ : History).log := fun _ hm => hm

theorem step_exact {cfg : Config} {l : Log} {s : Sched} (hg : Good cfg l s) (e : Event) (ha : ∀ m ∈ e.input, Allowed l s.out m) :
    Py.Post (s.step e) (fun s' => Sched.After (e.hist l) s s' ∧ ¬ Cause s e) (fun _ => Cause s e) := by
  have hc := hg.conc
  have hi : Inv (e.hist l) s.abs := hg.inv.mono (e.hist_mem l)
  have hset := hg.settled
  obtain ⟨op, now, o⟩ := e
  cases op with
  | taskRoutine =>
    obtain ⟨s', h1, h2, _⟩ := Sched.taskRoutine_ok hc hi hset
    show Py.Post s.taskRoutine _ _
    rw [h1]; exact ⟨h2, id⟩
  | graphRoutine => exact Sched.graphRoutine_spec hc hi hset o now
  | functionRoutine =>
    obtain ⟨s', h1, h2, _⟩ := Sched.functionRoutine_ok (h := Event.hist ⟨.functionRoutine, now, o⟩ l) hc hset o now
    show Py.Post (s.functionRoutine o now) _ _
    rw [h1]; exact ⟨h2, id⟩
  | workerRoutine => exact Sched.workerRoutine_spec hc hi hset o now (by intro x b hx; cases hx)
  | report =>
    show Py.Post (s.report now >>= fun _ => pure s) _ _
    rw [Py.post_bind]
    exact (report_post hc hi now).imp (fun _ x => ⟨.refl hc hset, fun hn => hn x⟩) (fun _ x => x.2)
  | recv source m =>
    have hm : ∀ (m' : Message), m' = m → (source, m') ∈ Event.hist ⟨.recv source m, now, o⟩ l := by
      rintro m' rfl
      exact List.mem_append_right _ List.mem_cons_self
    have hall : Allowed l s.out (source, m) := ha _ List.mem_cons_self
    have hsub : (Event.hist ⟨.recv source m, now, o⟩ l).sub = some (source, m) := rfl
    show Py.Post (s.receive o now source m) _ _
    cases m with
    | heartbeat hb => exact ⟨(Sched.onHeartbeat_spec hc hset source hb now (hm _ rfl) hsub).1, id⟩
    | balanceResponse ids =>
      refine (Sched.onBalanceResponse_spec hc hi hset ids ⟨source, hsub⟩).imp ?_ (fun _ x => x)
      rintro _ ⟨h1, _, _, _, _, h2⟩
      exact ⟨h1, h2⟩
    | graphTask gt => exact ⟨Sched.onGraphTask_after hc hset hsub (hm _ rfl) hall.1 (hg.fresh_graph hall), id⟩
    | graphTaskCancel gid =>
      refine (Sched.onGraphTaskCancel_spec hc hi hset o now gid (hm _ rfl)).imp ?_ (fun _ x => x)
      rintro _ ⟨h1, g, h2, _, h3⟩
      refine ⟨h1, ?_⟩
      rintro (hx | ⟨g', t, i, h4, h5, h6, h7⟩)
      · rw [h2] at hx; cases hx
      · rw [h2] at h4; cases h4; exact h3 t i h5 h6 h7
    | task k =>
      obtain ⟨s', h1, h2⟩ := Sched.onTaskNew_after (now := now) hc hi hset hsub (hm _ rfl) (hg.fresh_task hall)
      show Py.Post (s.onTaskNew source k now) _ _
      rw [h1]; exact ⟨h2, id⟩
    | taskCancel t => exact (Sched.onTaskCancel_spec hc hi hset o now t (hm _ rfl)).imp (fun _ x => ⟨x.1, x.2.2.2.2⟩) (fun _ x => x)
    | taskResult t st d r =>
      exact (Sched.onTaskResult_spec hc hi hset o now (w0 := source) (r := ⟨t, st, d, r⟩) (hm _ rfl)).imp (fun _ x => ⟨x.1, x.2.2.2⟩) (fun _ x => x)
    | functionRequest type fid name content => exact Sched.onFunction_spec hc hset source type fid name content now (hm _ rfl)
    | disconnectRequest w => exact Sched.onDisconnect_spec hc hi hset o source w (hm _ rfl) (by rw [hsub]; intro x b hx; cases hx)
    | _ => exact ⟨.refl hc hset, id⟩

theorem step_post {cfg : Config} {l : Log} {s : Sched} (hg : Good cfg l s) (e : Event) (ha : ∀ m ∈ e.input, Allowed l s.out m) :
    Py.Post (s.step e) (Sched.After (e.hist l) s) (fun _ => Cause s e) := (step_exact hg e ha).imp (fun _ x => x.1) (fun _ x => x)

theorem submits_single (t c : Bytes) (m : Message) :
    submits t [(c, m)] = match m with | .task k => if k.taskId = t then 1 else 0 | _ => 0 := by
  cases m <;> simp [submits, isSubmit, List.countP_cons]

/-- A submission is answered by one echo. -/
theorem onTaskNew_out {h : History} {s s' : Sched} (hc : Conc s) (hi : Inv h s.abs) {client : Bytes} {k : Task} {now : Int} (hf : Fresh s.abs k.taskId)
    (hs : s.onTaskNew client k now = .ok s') : ∃ st, s'.out = s.out ++ [(client, .taskEcho k.taskId st)] := by
  have htn := hi.unused_tasks hf.1
  obtain ⟨s1, e, _, _, hcase⟩ := Sched.onTaskNew_spec (now := now) hc (client := client) (k := k) htn hf.1.2.1 (Or.inl hf.1.1) (by
    intro hm
    have := (hi.place _).2 (Or.inl hm)
    rw [htn] at this; cases this)
  rw [hs] at e; cases e
  rcases hcase with ⟨_, e⟩ | ⟨i, _, _, e⟩ | ⟨i, _, _, e⟩
  · exact ⟨.functionNotExists, congrArg Abs.out e⟩
  · exact ⟨.noWorker, congrArg Abs.out e⟩
  · exact ⟨.submitOK, congrArg Abs.out e⟩

theorem FinalLog.mono {h h' : History} (hh : ∀ m ∈ h.log, m ∈ h'.log) (x : FinalLog h') : FinalLog h :=
  fun w t st d r hm => x w t st d r (hh _ hm)

theorem Good.step {cfg : Config} {l : Log} {s s' : Sched} (hg : Good cfg l s) (e : Event) (ha : ∀ m ∈ e.input, Allowed l s.out m)
    (hs : s.step e = .ok s') : Good cfg (l ++ e.input) s' := by
  have hA : Sched.After (e.hist l) s s' := (step_post hg e ha).ok hs
  have hi : Inv (e.hist l) s.abs := hg.inv.mono (e.hist_mem l)
  have hsubin : SubIn (e.hist l) := by
    intro m hm
    exact List.mem_append_right _ (List.mem_of_mem_head? (by rw [show e.input.head? = some m from hm]; rfl))
  have hplain : PlainSub (e.hist l) := by
    intro c k hk
    have hmem := List.mem_of_mem_head? (by rw [show e.input.head? = some (c, .task k) from hk]; rfl : (c, Message.task k) ∈ e.input.head?)
    obtain ⟨h1, _⟩ := ha _ hmem
    rintro ⟨c', g, hx, ht⟩
    rcases List.mem_append.1 hx with hx | hx
    · exact h1 ⟨c', g, hx, ht⟩
    · obtain ⟨op, now, o⟩ := e
      cases op <;> simp [Event.input] at hmem hx
      rw [← hmem.2] at hx; cases hx.2
  have hnew : ∀ t, InGraph (e.hist l).log t → InGraph l t ∨ ¬ Mentioned l t := by
    rintro t ⟨c', g, hx, ht⟩
    rcases List.mem_append.1 hx with hx | hx
    · exact Or.inl ⟨c', g, hx, ht⟩
    · exact Or.inr ((ha _ hx).2 t ht)
  have honce : Once (e.hist l) s.abs := Once.mono hg.once hg.said hnew
  have hsaid : Said (e.hist l) s.abs := hg.said.mono (e.hist_mem l)
  have hpins : Pins (e.hist l) s.abs := hg.pins.mono (e.hist_mem l)
  have hsent : Sent (e.hist l) s.abs := hg.sent.mono (e.hist_mem l)
  have hans : Answered (e.hist l) s.abs := hg.answered.mono (e.hist_mem l)
  have hacct : Acct (e.hist l) s.abs := hg.acct.mono (e.hist_mem l)
  have hi' : Inv (e.hist l) s'.abs := hA.steps.inv hi
  refine {
    cfg := hA.cfg.trans hg.cfg
    conc := hA.conc
    inv := hi'.mono (e.hist_back l)
    settled := hA.settled
    acct := (hA.steps.lift (P := Acct (e.hist l)) (fun _ _ x y z => x.acct y z) hi hacct).mono (e.hist_back l)
    once := ?_
    said := (hA.steps.lift (P := Said (e.hist l)) (fun _ _ x y z => x.said y hsubin z) hi hsaid).mono (e.hist_back l)
    pins := (hA.steps.lift (P := Pins (e.hist l)) (fun _ _ x y z => x.pins y z) hi hpins).mono (e.hist_back l)
    sent := (hA.steps.lift (P := Sent (e.hist l)) (fun _ _ x y z => x.sent y z) hi hsent).mono (e.hist_back l)
    answered := (hA.steps.lift (P := Answered (e.hist l)) (fun _ _ x y z => x.answered y z) hi hans).mono (e.hist_back l)
    fate := ?_
    echo := ?_
    unique := ?_
    apart := ?_
    counted := ?_ }
  · -- once
    by_cases hng : NoGraphSub (e.hist l)
    · have := hA.steps.lift (P := Once (e.hist l)) (fun _ _ x y z => x.once y hplain hng z) hi honce
      exact ⟨this.silent, this.echo, this.answer⟩
    · simp only [NoGraphSub, Classical.not_forall, ne_eq, Classical.not_not] at hng
      obtain ⟨c, gt, hsub⟩ := hng
      obtain ⟨op, now, o⟩ := e
      cases op <;> simp [Event.hist, Event.input] at hsub
      rename_i source m
      obtain ⟨rfl, rfl⟩ := hsub
      have hall : Allowed l s.out (source, .graphTask gt) := ha _ List.mem_cons_self
      have hs' : s' = s.onGraphTask source gt := by
        have := hs
        simp only [Sched.step, Sched.receive] at this
        cases this; rfl
      subst hs'
      refine ⟨?_, honce.echo, honce.answer⟩
      rintro t (⟨c', gt', hq, ht⟩ | ht | ht)
      · rcases List.mem_append.1 (show (c', gt') ∈ s.abs.queue ++ [_] from hq) with hq | hq
        · exact honce.silent t (Or.inl ⟨c', gt', hq, ht⟩)
        · rw [List.mem_singleton] at hq
          cases hq
          exact hg.said t (hall.2 t ht)
      · exact honce.silent t (Or.inr (Or.inl ht))
      · exact honce.silent t (Or.inr (Or.inr ht))
  · -- fate
    intro c gt hm
    rcases List.mem_append.1 hm with hm | hm
    · exact (hA.steps.lift (P := fun a => Fate (e.hist l) a c gt) (fun _ _ x y z => x.fate y z) hi
        ((hg.fate c gt hm).mono (e.hist_mem l))).mono (e.hist_back l)
    · obtain ⟨op, now, o⟩ := e
      cases op <;> simp [Event.input] at hm
      obtain ⟨rfl, rfl⟩ := hm
      have hs' : s' = s.onGraphTask c gt := by
        have := hs
        simp only [Sched.step, Sched.receive] at this
        cases this; rfl
      subst hs'
      exact Or.inl (List.mem_append_right _ List.mem_cons_self)
  · -- echo
    intro t ht
    have ht' : ¬ InGraph l t := fun x => ht (x.mono (e.hist_mem l))
    have hold := hg.echo t ht'
    by_cases hk : ∃ c k, e.input = [(c, .task k)] ∧ k.taskId = t
    · obtain ⟨c, k, hin, rfl⟩ := hk
      have hall : Allowed l s.out (c, .task k) := ha _ (by rw [hin]; exact List.mem_cons_self)
      rw [hin, submits_append, submits_single]
      obtain ⟨op, now, o⟩ := e
      cases op <;> simp [Event.input] at hin
      obtain ⟨rfl, rfl⟩ := hin
      obtain ⟨st, he⟩ := onTaskNew_out hg.conc hg.inv (hg.fresh_task hall) (show s.onTaskNew _ k now = .ok s' from hs)
      rw [he, acks_append, refusals_append]
      simp only [if_true]
      cases st <;> simp [acks, refusals, isAck, isRefusal, anyone] at hold ⊢ <;> omega
    · have hsame := hA.steps.lift (P := fun a => acks anyone t a.out = acks anyone t s.out ∧ refusals t a.out = refusals t s.out)
        (fun a b x y z => by
          obtain ⟨h1, h2⟩ := x.echo_frame y ht (fun c k hk' => by
            rintro rfl
            refine hk ⟨c, k, ?_, rfl⟩
            obtain ⟨op, now, o⟩ := e
            cases op <;> simp [Event.hist, Event.input] at hk' ⊢
            exact hk')
          exact ⟨h1.trans z.1, h2.trans z.2⟩) hi ⟨rfl, rfl⟩
      have h0 : submits t e.input = 0 := by
        obtain ⟨op, now, o⟩ := e
        cases op with
        | recv c m =>
          show submits t [(c, m)] = 0
          rw [submits_single]
          cases m <;> simp
          rintro rfl
          exact hk ⟨_, _, rfl, rfl⟩
        | _ => rfl
      rw [submits_append, h0, Nat.add_zero, hold]
      exact (congr (congrArg HAdd.hAdd hsame.1) hsame.2).symm
  · -- unique
    intro c g c' g' t h1 h2 h3 h4
    rcases List.mem_append.1 h1 with h1 | h1 <;> rcases List.mem_append.1 h2 with h2 | h2
    · exact hg.unique c g c' g' t h1 h2 h3 h4
    · exact absurd (Or.inl ⟨c, g, h1, h3⟩) ((ha _ h2).2 t h4)
    · exact absurd (Or.inl ⟨c', g', h2, h4⟩) ((ha _ h1).2 t h3)
    · obtain ⟨op, now, o⟩ := e
      have x1 := h1
      have x2 := h2
      clear h1 h2
      cases op <;> simp [Event.input] at x1 x2
      refine ⟨x1.1.trans x2.1.symm, ?_⟩
      have := x1.2.trans x2.2.symm
      exact Message.graphTask.inj this
  · -- apart
    intro c k hm
    rcases List.mem_append.1 hm with hm | hm
    · rintro ⟨c', g, hx, ht⟩
      rcases List.mem_append.1 hx with hx | hx
      · exact hg.apart c k hm ⟨c', g, hx, ht⟩
      · exact (ha _ hx).2 k.taskId ht (Or.inr ⟨c, k, hm, rfl⟩)
    · refine hplain c k ?_
      obtain ⟨op, now, o⟩ := e
      cases op <;> simp [Event.hist, Event.input] at hm ⊢
      exact ⟨hm.1.symm, hm.2.symm⟩
  · -- counted
    intro hF
    have hF' : FinalLog (e.hist l) := hF.mono (e.hist_back l)
    exact hA.steps.lift (P := Counted) (fun _ _ x _ z => x.counted hF' z) hi (hg.counted (hF.mono (e.hist_mem l)))

/-! ### Every reachable state -/

theorem conc_init (cfg : Config) : Conc (Sched.init cfg) where
  alloc := Alloc.inv_init _
  max := rfl
  queue := IQueue.wf_empty _
  uses := OneToMany.wf_empty
  clients := OneToMany.wf_empty
  running := by intro t; simp [Sched.init, Alloc.init]
  alive := by intro w; simp [Sched.init, Alloc.init, Dict.has]

theorem inv_init (h : History) (cfg : Config) : Inv h (Sched.init cfg).abs := by
  constructor <;> simp [Sched.init, Sched.abs, OneToMany.empty, IQueue.contents_empty, Abs.pendId, Alloc.init]

theorem Good.init (cfg : Config) : Good cfg [] (Sched.init cfg) where
  cfg := rfl
  conc := conc_init cfg
  inv := inv_init _ cfg
  settled := by intro gid g hg; simp [Sched.init, Sched.abs] at hg
  acct := by intro p t _; simp [Sched.init, Sched.abs, acks, results]
  once := by
    refine ⟨fun t _ m hm => by simp [Sched.init, Sched.abs] at hm, ?_, ?_⟩
    · intro t _; simp [Sched.init, Sched.abs, echoes]
    · intro t; simp [Sched.init, Sched.abs, answers]
  said := fun t _ m hm => by simp [Sched.init, Sched.abs] at hm
  pins := by constructor <;> simp [Sched.init, Sched.abs, OneToMany.empty]
  sent := by constructor <;> simp [Sched.init, Sched.abs]
  answered := by intro c gid st rs hm; simp [Sched.init, Sched.abs] at hm
  fate := by intro c gt hm; cases hm
  echo := by intro t _; rfl
  unique := by intro c g c' g' t h1; cases h1
  apart := by intro c k hm; cases hm
  counted := by intro _; simp [Counted, Sched.init, Sched.abs, allAcks, Dict.size, Dict.empty]

theorem Reach.good {cfg : Config} {l : Log} {s : Sched} (hr : Reach cfg l s) : Good cfg l s := by
  induction hr with
  | init => exact Good.init cfg
  | step e _ ha hs ih => exact ih.step e ha hs

/-! ### Running concrete events -/

/-- `Allowed` as a test. -/
def allowedB (received sent : Log) : Bytes × Message → Bool
  | (_, .task k) =>
    (received.all fun m => match m.2 with | .graphTask g => decide (k.taskId ∉ graphIds g) | _ => true) &&
    decide (submits k.taskId received = refusals k.taskId sent + results anyone k.taskId sent)
  | (_, .graphTask g) => decide (graphIds g).Nodup && received.all fun m => match m.2 with
    | .graphTask g' => (graphIds g).all fun t => decide (t ∉ graphIds g')
    | .task k => decide (k.taskId ∉ graphIds g)
    | _ => true
  | _ => true

theorem allowedB_sound {received sent : Log} {m : Bytes × Message} (hm : allowedB received sent m = true) : Allowed received sent m := by
  obtain ⟨c, m⟩ := m
  cases m with
  | task k =>
    simp only [allowedB, Bool.and_eq_true, List.all_eq_true, decide_eq_true_eq] at hm
    refine ⟨?_, hm.2⟩
    rintro ⟨c', g, h1, h2⟩
    have := hm.1 _ h1
    simp only [decide_eq_true_eq] at this
    exact this h2
  | graphTask g =>
    simp only [allowedB, Bool.and_eq_true, List.all_eq_true, decide_eq_true_eq] at hm
    refine ⟨hm.1, ?_⟩
    rintro t ht (⟨c', g', h1, h2⟩ | ⟨c', k, h1, h2⟩)
    · have := hm.2 _ h1
      simp only [List.all_eq_true, decide_eq_true_eq] at this
      exact this t ht h2
    · have := hm.2 _ h1
      simp only [decide_eq_true_eq] at this
      exact this (by rw [h2]; exact ht)
  | _ => trivial

/-- Run events as long as they are allowed; stops at the first exception or improper id. -/
def runFrom (l : Log) (s : Sched) : List Event → Option (Log × Sched)
  | [] => some (l, s)
  | e :: es =>
    if e.input.all (allowedB l s.out) then
      match s.step e with
      | .ok s' => runFrom (l ++ e.input) s' es
      | .error _ => none
    else none

theorem runFrom_reach {cfg : Config} : ∀ (es : List Event) {l : Log} {s : Sched} {p : Log × Sched}, Reach cfg l s →
    runFrom l s es = some p → Reach cfg p.1 p.2
  | [], l, s, p, hr, hp => by cases hp; exact hr
  | e :: es, l, s, p, hr, hp => by
    rw [runFrom] at hp
    split at hp
    · next ha =>
      split at hp
      · next s' hs =>
        exact runFrom_reach es (.step e hr (fun m hm => allowedB_sound (List.all_eq_true.1 ha m hm)) hs) hp
      · cases hp
    · cases hp

/-- The events run from the start. -/
def runInit (cfg : Config) (es : List Event) : Option (Log × Sched) := runFrom [] (Sched.init cfg) es

theorem runInit_reach {cfg : Config} {es : List Event} {p : Log × Sched} (hp : runInit cfg es = some p) : Reach cfg p.1 p.2 :=
  runFrom_reach es .init hp

end Verif.Sched
