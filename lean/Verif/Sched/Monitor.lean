import Verif.Sched.Later
import Verif.Spec.Monitor

/-!
# What the monitor is shown agrees with what is done
-/

namespace Verif.Sched

open Verif.Queue Verif.Util Verif.Wire Verif.Spec

variable {h : History} {a b : Abs}

/-! ### Statuses -/

@[simp] theorem shown_append (t : Bytes) (l l' : List Message) : shown t (l ++ l') = shown t l ++ shown t l' := by
  simp [shown]

@[simp] theorem shown_nil (t : Bytes) : shown t [] = [] := rfl

theorem shown_one (t t' n : Bytes) (st : TaskStatus) : shown t [.taskState t' n st] = if t' = t then [st] else [] := by
  by_cases e : t' = t <;> simp [shown, shows, e]

theorem shown_views (t : Bytes) (gt : GraphTask) (ts : List Task) : shown t (views gt ts) = [] := by
  simp [shown, views, shows]

theorem shown_backs (t : Bytes) (a : Abs) {ts : List Bytes} (hn : ts.Nodup) :
    shown t (a.backs ts) = if t ∈ ts then [.inactive] else [] := by
  induction ts with
  | nil => rfl
  | cons x ts ih =>
    obtain ⟨h1, h2⟩ := List.nodup_cons.1 hn
    have e : a.backs (x :: ts) = [.taskState x (a.nameOf x) .inactive] ++ a.backs ts := rfl
    rw [e, shown_append, shown_one, ih h2]
    by_cases ex : x = t
    · subst ex; simp [h1]
    · simp [ex, Ne.symm ex]

theorem shown_halts (t : Bytes) (a : Abs) (g : Graph) (ids : List Bytes) :
    (∀ st ∈ shown t (halts a g ids), st = .canceling) ∧ (shown t (halts a g ids) ≠ [] → (a.worker t).isSome) := by
  induction ids with
  | nil => exact ⟨nofun, fun x => absurd rfl x⟩
  | cons x ids ih =>
    rw [show halts a g (x :: ids) = halts a g [x] ++ halts a g ids by
      rw [show x :: ids = [x] ++ ids from rfl]; simp only [halts, List.filterMap_append], shown_append]
    have hx : shown t (halts a g [x]) = [] ∨ shown t (halts a g [x]) = [.canceling] ∧ (a.worker t).isSome := by
      simp only [halts, List.filterMap_cons, List.filterMap_nil]
      cases hg : g.tasks.get? x with
      | none => exact Or.inl rfl
      | some i =>
        simp only
        by_cases hr : i.state = .running
        · simp only [hr, if_true]
          cases hw : a.worker x with
          | none => exact Or.inl rfl
          | some w =>
            simp only [Option.map_some, shown_one]
            by_cases e : x = t
            · subst e; simp [hw]
            · simp [e]
        · simp [hr]
    rcases hx with hx | ⟨hx, hw⟩
    · rw [hx]; exact ih
    · rw [hx]
      refine ⟨?_, fun _ => hw⟩
      intro st hst
      rcases List.mem_cons.1 hst with rfl | hst
      · rfl
      · exact ih.1 st hst

/-- What the last status says about where the task is. -/
structure Stage (a : Abs) (t : Bytes) (o : Option TaskStatus) : Prop where
  queued : t ∈ a.waiting ∨ a.pendId = some t → o = some .inactive
  placed : (a.worker t).isSome → o = some .running ∨ o = some .canceling
  gone : a.tasks t = none → o = none ∨ ∃ st, o = some st ∧ Final st

structure Told (a : Abs) (t : Bytes) : Prop where
  legal : Legal (shown t a.mon)
  stage : Stage a t (shown t a.mon).getLast?

/-- Nothing about the task changes. -/
theorem Told.same {t : Bytes} (x : Told a t) {l : List Message} (e : b.mon = a.mon ++ l) (hl : shown t l = [])
    (hw : t ∈ b.waiting ∨ b.pendId = some t → t ∈ a.waiting ∨ a.pendId = some t)
    (hp : (b.worker t).isSome → (a.worker t).isSome) (ht : b.tasks t = none → a.tasks t = none) : Told b t := by
  have hs : shown t b.mon = shown t a.mon := by rw [e]; simp [hl]
  refine ⟨?_, ?_⟩
  · rw [hs]; exact x.legal
  · rw [hs]; exact ⟨fun h => x.stage.queued (hw h), fun h => x.stage.placed (hp h), fun h => x.stage.gone (ht h)⟩

/-- One more status. -/
theorem Told.next {t : Bytes} (x : Told a t) {l : List Message} {st : TaskStatus} (e : b.mon = a.mon ++ l) (hl : shown t l = [st])
    (hf : mayFollow (shown t a.mon).getLast? st) (hs : Stage b t (some st)) : Told b t := by
  have hs' : shown t b.mon = shown t a.mon ++ [st] := by rw [e]; simp [hl]
  refine ⟨?_, ?_⟩
  · rw [hs']; exact .snoc x.legal hf
  · rw [hs']; simpa using hs

theorem legal_cancel {p : List TaskStatus} (hp : Legal p) (hl : p.getLast? = some .running ∨ p.getLast? = some .canceling) :
    ∀ (q : List TaskStatus), (∀ st ∈ q, st = .canceling) →
    Legal (p ++ q) ∧ ((p ++ q).getLast? = some .running ∨ (p ++ q).getLast? = some .canceling) := by
  intro q
  induction q generalizing p with
  | nil => intro _; simpa using ⟨hp, hl⟩
  | cons st q ih =>
    intro hq
    obtain rfl := hq st List.mem_cons_self
    have h1 : Legal (p ++ [.canceling]) := .snoc hp (by rcases hl with e | e <;> rw [e] <;> simp [mayFollow])
    have := ih h1 (by simp) (fun st hst => hq st (List.mem_cons_of_mem _ hst))
    simpa using this

/-- The last status of a task that ended with `st`. -/
theorem Told.retire {r : TaskRes} (hi : Inv h a) (hF : FinalLog h) (he : Ends h a r) (x : ∀ t, Told a t) (t : Bytes) :
    Told (a.retire r.taskId r.status) t := by
  have hf := he.final hF
  have em : (a.retire r.taskId r.status).mon = a.mon ++ [.taskState r.taskId (a.nameOf r.taskId) r.status] := by
    cases r.status <;> rfl
  have ep : (a.retire r.taskId r.status).pendId = a.pendId := by cases r.status <;> rfl
  by_cases e : r.taskId = t
  · subst e
    have hlast : mayFollow (shown r.taskId a.mon).getLast? r.status := by
      rcases he.2 with ⟨_, hw⟩ | ⟨e, hw, _⟩
      · rcases (x r.taskId).stage.placed hw with e | e <;> rw [e] <;> rcases hf with e | e | e | e <;> rw [e] <;> simp [mayFollow]
      · rw [(x r.taskId).stage.queued (Or.inl hw), e]
        exact Or.inr rfl
    refine (x r.taskId).next em (by simp [shown_one]) hlast ⟨?_, ?_, fun _ => Or.inr ⟨_, rfl, hf⟩⟩
    · rw [ep]
      rintro (hm | hm)
      · simp [Abs.retire] at hm
      · exfalso
        rcases he.2 with ⟨_, hw⟩ | ⟨_, hw, _⟩
        · rw [hi.apart' _ hm] at hw; cases hw
        · exact (hi.apart _ hw).1 hm
    · intro hw
      simp [Abs.retire] at hw
  · refine (x t).same em (by simp [shown_one, e]) ?_ ?_ ?_
    · rw [ep]
      rintro (hm | hm)
      · exact Or.inl (List.mem_filter.1 hm).1
      · exact Or.inr hm
    · intro hw
      simpa [Abs.retire, e] using hw
    · intro ht
      simpa [Abs.retire, e] using ht

/-- A new task. -/
theorem Told.accept (hi : Inv h a) {c : Bytes} {k : Task} (hk : a.tasks k.taskId = none) (x : ∀ t, Told a t) (t : Bytes) :
    Told (a.accept c k) t := by
  have hno : k.taskId ∉ a.waiting ∧ a.pendId ≠ some k.taskId ∧ a.worker k.taskId = none := by
    have := hi.place k.taskId
    rw [hk] at this
    simp only [Option.isSome_none, Bool.false_eq_true, false_iff, not_or] at this
    refine ⟨this.1, this.2.1, ?_⟩
    cases hw : a.worker k.taskId with
    | none => rfl
    | some w => exact absurd (by rw [hw]; rfl) this.2.2
  by_cases e : k.taskId = t
  · subst e
    refine (x k.taskId).next (b := a.accept c k) rfl (by simp [shown_one]) ?_ ⟨fun _ => rfl, ?_, ?_⟩
    · rcases (x k.taskId).stage.gone hk with e | ⟨st, e, hf⟩
      · rw [e]; rfl
      · rw [e]; rcases hf with e | e | e | e <;> rw [e] <;> rfl
    · intro hw
      rw [show (a.accept c k).worker k.taskId = none from hno.2.2] at hw; cases hw
    · intro ht
      simp [Abs.accept] at ht
  · refine (x t).same (b := a.accept c k) rfl (by simp [shown_one, e]) ?_ (fun hw => hw) ?_
    · rintro (hm | hm)
      · rcases List.mem_append.1 hm with hm | hm
        · exact Or.inl hm
        · exact absurd (List.mem_singleton.1 hm).symm e
      · exact Or.inr hm
    · intro ht
      simpa [Abs.accept, e] using ht

theorem AStep.told (hs : AStep h a b) (hi : Inv h a) (hF : FinalLog h) (x : ∀ t, Told a t) (t : Bytes) : Told b t := by
  have same : ∀ {b : Abs}, b.mon = a.mon → b.waiting = a.waiting → b.pendId = a.pendId → b.worker = a.worker → b.tasks = a.tasks →
      Told b t := by
    intro b e1 e2 e3 e4 e5
    exact (x t).same (l := []) (by simp [e1]) rfl (by rw [e2, e3]; exact fun h => h) (by rw [e4]; exact fun h => h)
      (by rw [e5]; exact fun h => h)
  cases hs with
  | say | func | drop | refuse | up | queueGraph | getReady | reject => exact same rfl rfl rfl rfl rfl
  | halt t' w hw =>
    by_cases e : t' = t
    · subst e
      have hp := (x t').stage.placed (by rw [hw]; rfl)
      refine (x t').next (l := [_]) rfl (by simp [shown_one]) (by rcases hp with e | e <;> rw [e] <;> simp [mayFollow]) ⟨?_, fun _ => Or.inr rfl, ?_⟩
      · intro hq
        exfalso
        rcases hq with hq | hq
        · rw [(hi.apart _ hq).2] at hw; cases hw
        · rw [hi.apart' _ hq] at hw; cases hw
      · intro ht
        have := (hi.place t').2 (Or.inr (Or.inr (by rw [hw]; rfl)))
        rw [show a.tasks t' = none from ht] at this; cases this
    · exact (x t).same (l := [_]) rfl (by simp [shown_one, e]) (fun h => h) (fun h => h) (fun h => h)
  | accept c k hs hm hf hk =>
    refine Told.accept hi ?_ x t
    cases ht : a.tasks k.taskId with
    | none => rfl
    | some k' =>
      have h1 := hf.1.1
      rw [hi.pinned _ _ ht] at h1; cases h1
  | requeue ts up' hn ht hu hd _ =>
    by_cases e : t ∈ ts
    · have hw := ht t e
      have hp := (x t).stage.placed hw
      refine (x t).next (l := a.backs ts) rfl (by rw [shown_backs t a hn, if_pos e])
        (by rcases hp with e | e <;> rw [e] <;> simp [mayFollow]) ⟨fun _ => rfl, ?_, ?_⟩
      · intro hx; simp [e] at hx
      · intro hx
        have := (hi.place t).2 (Or.inr (Or.inr hw))
        rw [show a.tasks t = none from hx] at this; cases this
    · refine (x t).same (l := a.backs ts) rfl (by rw [shown_backs t a hn, if_neg e]) ?_ ?_ (fun h => h)
      · rintro (hm | hm)
        · exact Or.inl ((List.mem_append.1 hm).resolve_right e)
        · exact Or.inr hm
      · intro hx; simpa [e] using hx
  | take t' ts k hw hk hp =>
    refine (x t).same (l := []) (by simp) rfl ?_ (fun h => h) (fun h => h)
    have hkey := hi.key _ _ hk
    rintro (hm | hm)
    · exact Or.inl (by rw [hw]; exact List.mem_cons_of_mem _ hm)
    · cases hm
      refine Or.inl ?_
      show k.taskId ∈ a.waiting
      rw [hw, hkey]; exact List.mem_cons_self
  | putBack k hp =>
    refine (x t).same (l := []) (by simp) rfl ?_ (fun h => h) (fun h => h)
    rintro (hm | hm)
    · rcases List.mem_append.1 hm with hm | hm
      · exact Or.inl hm
      · exact Or.inr (by rw [List.mem_singleton.1 hm]; simp [Abs.pendId, hp])
    · cases hm
  | place k w hp hw =>
    have hpid : a.pendId = some k.taskId := by simp [Abs.pendId, hp]
    by_cases e : k.taskId = t
    · subst e
      refine (x k.taskId).next (l := [_]) rfl (by simp [shown_one]) ?_ ⟨?_, fun _ => Or.inl rfl, ?_⟩
      · rw [(x k.taskId).stage.queued (Or.inr hpid)]; exact Or.inl rfl
      · rintro (hm | hm)
        · exact absurd hpid (hi.apart _ hm).1
        · cases hm
      · intro ht
        rw [show a.tasks k.taskId = some k from hi.pend k hp] at ht; cases ht
    · refine (x t).same (l := [_]) rfl (by simp [shown_one, e]) ?_ ?_ (fun h => h)
      · rintro (hm | hm)
        · exact Or.inl hm
        · cases hm
      · intro hx; simpa [e] using hx
  | answer r c he hc hn =>
    have := Told.retire hi hF he x t
    exact ⟨this.legal, this.stage.queued, this.stage.placed, this.stage.gone⟩
  | nodeDone r gid g i st so he hn hg hx hst hso =>
    have := Told.retire hi hF he x t
    exact ⟨this.legal, this.stage.queued, this.stage.placed, this.stage.gone⟩
  | unpack c gt rest g hq hk hc hg hx ht =>
    exact (x t).same (l := views gt gt.graph) rfl (shown_views _ _ _) (fun h => h) (fun h => h) (fun h => h)
  | launch gid g t' i k g' gone hg ht hst ho hk ha hd hc =>
    have hl := hi.link gid g t' i hg ht
    simp only [Link, hst] at hl
    have hy := Told.accept (c := g.client) hi (by rw [hk.1]; exact hl.1) x t
    exact ⟨hy.legal, hy.stage.queued, hy.stage.placed, hy.stage.gone⟩
  | clean gid g ids ans hg hids hnodup hw ha he =>
    obtain ⟨h1, h2⟩ := shown_halts t a g ids
    by_cases e : shown t (halts a g ids) = []
    · exact (x t).same (l := halts a g ids) rfl e (fun h => h) (fun h => h) (fun h => h)
    · have hw := h2 e
      have hl := (x t).stage.placed hw
      obtain ⟨h3, h4⟩ := legal_cancel (x t).legal hl _ h1
      have hs : shown t (a.clean gid g (cancels a g ids ++ ans) (halts a g ids)).mon = shown t a.mon ++ shown t (halts a g ids) := by
        simp [Abs.clean]
      refine ⟨by rw [hs]; exact h3, ?_, fun _ => by rw [hs]; exact h4, ?_⟩
      · intro hq
        exfalso
        rcases hq with hq | hq
        · rw [(hi.apart _ hq).2] at hw; cases hw
        · rw [hi.apart' _ hq] at hw; cases hw
      · intro ht
        have := (hi.place t).2 (Or.inr (Or.inr hw))
        rw [show a.tasks t = none from ht] at this; cases this

/-! ### Dispatches and requests to stop -/

def Marked (a : Abs) : Prop := a.mon.filterMap markShown = a.out.filterMap markSent

theorem Marked.add (x : Marked a) {l : List Message} {o : List (Bytes × Message)} (e1 : b.mon = a.mon ++ l)
    (e2 : b.out = a.out ++ o) (e : l.filterMap markShown = o.filterMap markSent) : Marked b := by
  unfold Marked at x ⊢
  rw [e1, e2, List.filterMap_append, List.filterMap_append, x, e]

theorem markSent_answer {gid : Bytes} {g : Graph} {ans : List (Bytes × Message)} (ha : GraphAnswer gid g ans) :
    ans.filterMap markSent = [] := by
  cases ha <;> rfl

theorem mark_halts (a : Abs) (g : Graph) (ids : List Bytes) :
    (halts a g ids).filterMap markShown = (cancels a g ids).filterMap markSent := by
  unfold halts cancels
  rw [List.filterMap_filterMap, List.filterMap_filterMap]
  congr 1
  funext t
  cases g.tasks.get? t with
  | none => rfl
  | some i =>
    simp only
    by_cases hr : i.state = .running
    · simp only [hr, if_true]
      cases a.worker t <;> rfl
    · simp [hr]

theorem AStep.marked (hs : AStep h a b) (hF : FinalLog h) (x : Marked a) : Marked b := by
  have hret : ∀ {r : TaskRes}, Ends h a r → (a.retire r.taskId r.status).mon = a.mon ++ [.taskState r.taskId (a.nameOf r.taskId) r.status] ∧
      [Message.taskState r.taskId (a.nameOf r.taskId) r.status].filterMap markShown = [] ∧ (a.retire r.taskId r.status).out = a.out := by
    intro r he
    refine ⟨by cases r.status <;> rfl, ?_, by cases r.status <;> rfl⟩
    rcases he.final hF with e | e | e | e <;> rw [e] <;> rfl
  cases hs with
  | say c m hm =>
    refine x.add (l := []) (by simp) rfl ?_
    cases m <;> first | rfl | exact hm.elim
  | func | drop | up | queueGraph | getReady | take | putBack => exact x
  | refuse => exact x.add (l := []) (by simp) rfl rfl
  | reject => exact x.add (l := []) (by simp) rfl rfl
  | halt t w hw => exact x.add rfl rfl rfl
  | accept c k hs hm hf hk => exact x.add (b := a.accept c k) rfl rfl rfl
  | requeue ts up' hn ht hu hd _ =>
    refine x.add (o := []) rfl (by simp) ?_
    simp [Abs.backs, markShown]
  | place k w hp hw => exact x.add rfl rfl rfl
  | answer r c he hc hn =>
    obtain ⟨h1, h2, h3⟩ := hret he
    exact x.add (o := [(c, r.msg)]) h1 rfl (by rw [h2]; rfl)
  | nodeDone r gid g i st so he hn hg hx hst hso =>
    obtain ⟨h1, h2, h3⟩ := hret he
    exact x.add (o := []) h1 (by simp [h3]) (by rw [h2]; rfl)
  | unpack c gt rest g hq hk hc hg hx ht =>
    refine x.add (l := views gt gt.graph) (o := []) rfl (by simp [Abs.unpack]) ?_
    simp [views, markShown]
  | launch => exact x.add (l := [_]) (o := [_]) rfl rfl rfl
  | clean gid g ids ans hg hids hnodup hw ha he =>
    refine x.add (l := halts a g ids) (o := cancels a g ids ++ ans) rfl rfl ?_
    rw [List.filterMap_append, markSent_answer ha, List.append_nil]
    exact mark_halts a g ids

/-! ### Names and nodes -/

/-- A message shows the name that was given for the function of a submitted task, or a node of a submitted graph. -/
def TrueMsg (l : Log) : Message → Prop
  | .taskState t n _ => ∃ f, Submitted l t f ∧ Named l f n
  | .graphTaskState g t ty ps => ∃ c gt T, (c, .graphTask gt) ∈ l ∧ T ∈ gt.graph ∧ ShowsNode gt T (.graphTaskState g t ty ps)
  | _ => False

structure Named' (h : History) (a : Abs) : Prop where
  funcs : ∀ f i, a.funcs f = some i → Named h.log f i.name
  mon : ∀ m ∈ a.mon, TrueMsg h.log m
  all : ∀ gid g, a.graphs gid = some g → ∃ gt, (g.client, .graphTask gt) ∈ h.log ∧ gt.taskId = gid ∧
    ∀ T ∈ gt.graph, ∃ m ∈ a.mon, ShowsNode gt T m

theorem Origin.submitted {k : Task} (ho : Origin h k) : Submitted h.log k.taskId k.functionId := by
  rcases ho with ⟨c, hc⟩ | ⟨c, gt, T, h1, h2, h3, h4, -⟩
  · exact Or.inl ⟨c, k, hc, rfl, rfl⟩
  · exact Or.inr ⟨c, gt, T, h1, h2, h3.symm, h4.symm⟩

theorem Named'.task (x : Named' h a) (hi : Inv h a) {t : Bytes} (ht : (a.tasks t).isSome) (st : TaskStatus) :
    TrueMsg h.log (.taskState t (a.nameOf t) st) := by
  obtain ⟨k, hk⟩ := Option.isSome_iff_exists.1 ht
  obtain ⟨i, hf⟩ := Option.isSome_iff_exists.1 (hi.known t _ (hi.pinned t k hk))
  refine ⟨k.functionId, ?_, ?_⟩
  · have := (hi.origin t k hk).submitted
    rwa [hi.key t k hk] at this
  · have e : a.nameOf t = i.name := by simp [Abs.nameOf, hk, hf]
    rw [e]
    exact x.funcs _ i hf

theorem Named'.add (x : Named' h a) {l : List Message} (e : b.mon = a.mon ++ l)
    (hf : ∀ f i, b.funcs f = some i → Named h.log f i.name) (hl : ∀ m ∈ l, TrueMsg h.log m)
    (hg : ∀ gid g, b.graphs gid = some g → (∃ g0, a.graphs gid = some g0 ∧ g0.client = g.client) ∨
      ∃ gt, (g.client, .graphTask gt) ∈ h.log ∧ gt.taskId = gid ∧ ∀ T ∈ gt.graph, ∃ m ∈ l, ShowsNode gt T m) : Named' h b := by
  refine ⟨hf, ?_, ?_⟩
  · intro m hm
    rw [e] at hm
    exact (List.mem_append.1 hm).elim (x.mon m) (hl m)
  · intro gid g hgg
    rw [e]
    rcases hg gid g hgg with ⟨g0, h0, hc⟩ | ⟨gt, h1, h2, h3⟩
    · obtain ⟨gt, h1, h2, h3⟩ := x.all gid g0 h0
      refine ⟨gt, hc ▸ h1, h2, fun T hT => ?_⟩
      obtain ⟨m, hm, hs⟩ := h3 T hT
      exact ⟨m, List.mem_append_left _ hm, hs⟩
    · refine ⟨gt, h1, h2, fun T hT => ?_⟩
      obtain ⟨m, hm, hs⟩ := h3 T hT
      exact ⟨m, List.mem_append_right _ hm, hs⟩

theorem Named.mono {l l' : Log} (hh : ∀ m ∈ l, m ∈ l') {f n : Bytes} (x : Named l f n) : Named l' f n := by
  rcases x with ⟨c, ct, x⟩ | ⟨c, g, ct, x, y⟩
  · exact Or.inl ⟨c, ct, hh _ x⟩
  · exact Or.inr ⟨c, g, ct, hh _ x, y⟩

theorem Submitted.mono {l l' : Log} (hh : ∀ m ∈ l, m ∈ l') {t f : Bytes} (x : Submitted l t f) : Submitted l' t f := by
  rcases x with ⟨c, k, x, y⟩ | ⟨c, g, T, x, y⟩
  · exact Or.inl ⟨c, k, hh _ x, y⟩
  · exact Or.inr ⟨c, g, T, hh _ x, y⟩

theorem TrueMsg.mono {l l' : Log} (hh : ∀ m ∈ l, m ∈ l') {m : Message} (x : TrueMsg l m) : TrueMsg l' m := by
  cases m <;> first | exact x.elim | skip
  · obtain ⟨f, x, y⟩ := x
    exact ⟨f, Submitted.mono hh x, Named.mono hh y⟩
  · obtain ⟨c, gt, T, x, y⟩ := x
    exact ⟨c, gt, T, hh _ x, y⟩

theorem Named'.mono {h h' : History} (hh : ∀ m ∈ h.log, m ∈ h'.log) {a : Abs} (x : Named' h a) : Named' h' a := by
  refine ⟨fun f i hf => Named.mono hh (x.funcs f i hf), fun m hm => (x.mon m hm).mono hh, ?_⟩
  intro gid g hg
  obtain ⟨gt, h1, h2⟩ := x.all gid g hg
  exact ⟨gt, hh _ h1, h2⟩

theorem view_true (gt : GraphTask) (T : Task) :
    ShowsNode gt T (.graphTaskState gt.taskId T.taskId (if T.taskId ∈ gt.targets then .target else .normal) (Sched.requiredIds T)) := by
  refine ⟨rfl, rfl, ?_, ?_⟩
  · by_cases e : T.taskId ∈ gt.targets <;> simp [e]
  · intro x
    simp [Sched.requiredIds, and_assoc]

theorem AStep.named (hs : AStep h a b) (hi : Inv h a) (x : Named' h a) : Named' h b := by
  have keep : ∀ gid g, a.graphs gid = some g → (∃ g0, a.graphs gid = some g0 ∧ g0.client = g.client) ∨
      ∃ gt, (g.client, .graphTask gt) ∈ h.log ∧ gt.taskId = gid ∧ ∀ T ∈ gt.graph, ∃ m ∈ ([] : List Message), ShowsNode gt T m :=
    fun gid g hg => Or.inl ⟨g, hg, rfl⟩
  have setg : ∀ {gid : Bytes} {g g' : Graph} {l : List Message}, a.graphs gid = some g → g'.client = g.client → ∀ gid2 g2,
      upd a.graphs gid (some g') gid2 = some g2 → (∃ g0, a.graphs gid2 = some g0 ∧ g0.client = g2.client) ∨
      ∃ gt, (g2.client, .graphTask gt) ∈ h.log ∧ gt.taskId = gid2 ∧ ∀ T ∈ gt.graph, ∃ m ∈ l, ShowsNode gt T m := by
    intro gid g g' l hg hc gid2 g2 h2
    rw [upd_apply] at h2
    split at h2
    · next e => cases h2; exact Or.inl ⟨g, e ▸ hg, hc.symm⟩
    · exact Or.inl ⟨g2, h2, rfl⟩
  have hret : ∀ {r : TaskRes}, Ends h a r → (a.retire r.taskId r.status).mon = a.mon ++ [.taskState r.taskId (a.nameOf r.taskId) r.status] ∧
      (a.retire r.taskId r.status).funcs = a.funcs ∧ (a.retire r.taskId r.status).graphs = a.graphs ∧
      ∀ m ∈ [Message.taskState r.taskId (a.nameOf r.taskId) r.status], TrueMsg h.log m := by
    intro r he
    refine ⟨by cases r.status <;> rfl, by cases r.status <;> rfl, by cases r.status <;> rfl, ?_⟩
    intro m hm
    rw [List.mem_singleton.1 hm]
    exact x.task hi he.1 _
  cases hs with
  | say | refuse | up | queueGraph | take | putBack =>
    exact x.add (l := []) (by simp) x.funcs nofun (fun gid g hg => keep gid g hg)
  | func fid i hx hn =>
    refine x.add (l := []) (by simp) ?_ nofun (fun gid g hg => keep gid g hg)
    intro f j hj
    simp only [upd_apply] at hj
    split at hj
    · next e =>
      cases hj
      subst e
      cases hfa : a.funcs fid with
      | none =>
        rcases hn hfa with ⟨c, hc⟩ | ⟨c, gt, hc, hd⟩
        · exact Or.inl ⟨c, _, hc⟩
        · exact Or.inr ⟨c, gt, _, hc, hd⟩
      | some j =>
        rw [(hx j hfa).1]
        exact x.funcs fid j hfa
    · exact x.funcs f j hj
  | drop fid hu =>
    refine x.add (l := []) (by simp) ?_ nofun (fun gid g hg => keep gid g hg)
    intro f j hj
    simp only [upd_apply] at hj
    split at hj
    · cases hj
    · exact x.funcs f j hj
  | getReady gid g hg => exact x.add (l := []) (by simp) x.funcs nofun (setg hg rfl)
  | reject gid g t i k g' gone hg ht hst ho hk ha hd hc hl =>
    exact x.add (l := []) (by simp) x.funcs nofun (setg hg hc.same.2.1)
  | halt t w hw =>
    refine x.add (l := [_]) rfl x.funcs ?_ (fun gid g hg => Or.inl ⟨g, hg, rfl⟩)
    intro m hm
    rw [List.mem_singleton.1 hm]
    exact x.task hi ((hi.place t).2 (Or.inr (Or.inr (by rw [hw]; rfl)))) _
  | accept c k hs hm hf hk =>
    refine x.add (b := a.accept c k) rfl x.funcs ?_ (fun gid g hg => Or.inl ⟨g, hg, rfl⟩)
    intro m hm'
    rw [List.mem_singleton.1 hm']
    obtain ⟨i, hi'⟩ := Option.isSome_iff_exists.1 hk
    refine ⟨k.functionId, Or.inl ⟨c, k, hm, rfl, rfl⟩, ?_⟩
    rw [hi']
    exact x.funcs _ i hi'
  | requeue ts up' hn ht hu hd _ =>
    refine x.add (l := a.backs ts) rfl x.funcs ?_ (fun gid g hg => Or.inl ⟨g, hg, rfl⟩)
    intro m hm
    obtain ⟨t, htm, rfl⟩ := List.mem_map.1 hm
    exact x.task hi ((hi.place t).2 (Or.inr (Or.inr (ht t htm)))) _
  | place k w hp hw =>
    refine x.add (l := [_]) rfl x.funcs ?_ (fun gid g hg => Or.inl ⟨g, hg, rfl⟩)
    intro m hm
    rw [List.mem_singleton.1 hm]
    exact x.task hi (by rw [hi.pend k hp]; rfl) _
  | answer r c he hc hn =>
    obtain ⟨h1, h2, h3, h4⟩ := hret he
    exact x.add h1 (by simpa [h2] using x.funcs) h4 (fun gid g hg => Or.inl ⟨g, by simpa [h3] using hg, rfl⟩)
  | nodeDone r gid g i st so he hn hg hx hst hso =>
    obtain ⟨h1, h2, h3, h4⟩ := hret he
    exact x.add h1 (by simpa [h2] using x.funcs) h4 (setg hg rfl)
  | unpack c gt rest g hq hk hc hg hx ht =>
    refine x.add (l := views gt gt.graph) rfl x.funcs ?_ ?_
    · intro m hm
      obtain ⟨T, hT, rfl⟩ := List.mem_map.1 hm
      exact ⟨g.client, gt, T, hg.src, hT, view_true gt T⟩
    · intro gid2 g2 h2
      simp only [Abs.unpack, upd_apply] at h2
      split at h2
      · next e =>
        cases h2
        refine Or.inr ⟨gt, hg.src, e, fun T hT => ⟨_, List.mem_map.2 ⟨T, hT, rfl⟩, view_true gt T⟩⟩
      · exact Or.inl ⟨g2, h2, rfl⟩
  | launch gid g t i k g' gone hg ht hst ho hk ha hd hc =>
    refine x.add (l := [_]) rfl x.funcs ?_ (setg hg hc.same.2.1)
    intro m hm
    rw [List.mem_singleton.1 hm]
    obtain ⟨gt, hok⟩ := hi.graphs gid g hg
    obtain ⟨T, hT, e, hnode⟩ := hok.node t i ht
    have hl := hi.link gid g t i hg ht
    simp only [Link, hst] at hl
    obtain ⟨fi, hfi⟩ := Option.isSome_iff_exists.1 (hi.known t _ hl.2.2)
    refine ⟨k.functionId, Or.inr ⟨g.client, gt, T, hok.src, hT, e.trans hk.1.symm, ?_⟩, ?_⟩
    · rw [hk.2]; exact hnode.2.1.symm
    · rw [hk.2, hfi]
      exact x.funcs _ fi hfi
  | clean gid g ids ans hg hids hnodup hw ha he =>
    refine x.add (l := halts a g ids) rfl x.funcs ?_ ?_
    · intro m hm
      obtain ⟨t, -, ht⟩ := List.mem_filterMap.1 hm
      split at ht
      · split at ht
        · cases hw' : a.worker t with
          | none => rw [hw'] at ht; cases ht
          | some w =>
            rw [hw'] at ht
            cases ht
            exact x.task hi ((hi.place t).2 (Or.inr (Or.inr (by rw [hw']; rfl)))) _
        · cases ht
      · cases ht
    · intro gid2 g2 h2
      simp only [Abs.clean, upd_apply] at h2
      split at h2
      · cases h2
      · exact Or.inl ⟨g2, h2, rfl⟩

/-! ### All events -/

theorem Reach.told {cfg : Config} {l : Log} {s : Sched} (hr : Reach cfg l s) (hF : FinalLog ⟨l, none⟩) (t : Bytes) :
    Told s.abs t := by
  induction hr generalizing t with
  | init => exact ⟨.nil, nofun, nofun, fun _ => Or.inl rfl⟩
  | @step l s s' e hr ha hs ih =>
    have hA : Sched.After (e.hist l) s s' := (step_post hr.good e ha).ok hs
    have hF' : FinalLog (e.hist l) := hF.mono (e.hist_back l)
    have h1 := ih (hF.mono (fun m hm => List.mem_append_left _ hm))
    exact hA.steps.lift (P := fun a => ∀ t, Told a t) (fun a b st hi hp => st.told hi hF' hp) (hr.good.inv.mono (e.hist_mem l)) h1 t

theorem Reach.marked {cfg : Config} {l : Log} {s : Sched} (hr : Reach cfg l s) (hF : FinalLog ⟨l, none⟩) : Marked s.abs := by
  induction hr with
  | init => rfl
  | @step l s s' e hr ha hs ih =>
    have hA : Sched.After (e.hist l) s s' := (step_post hr.good e ha).ok hs
    have hF' : FinalLog (e.hist l) := hF.mono (e.hist_back l)
    have h1 := ih (hF.mono (fun m hm => List.mem_append_left _ hm))
    exact hA.steps.lift (P := Marked) (fun a b st _ hp => st.marked hF' hp) (hr.good.inv.mono (e.hist_mem l)) h1

theorem Reach.named {cfg : Config} {l : Log} {s : Sched} (hr : Reach cfg l s) : Named' ⟨l, none⟩ s.abs := by
  induction hr with
  | init => exact ⟨nofun, nofun, nofun⟩
  | @step l s s' e hr ha hs ih =>
    have hA : Sched.After (e.hist l) s s' := (step_post hr.good e ha).ok hs
    have h1 : Named' (e.hist l) s.abs := ih.mono (fun m hm => List.mem_append_left _ hm)
    have h3 := hA.steps.lift (P := Named' (e.hist l)) (fun a b st hi hp => st.named hi hp) (hr.good.inv.mono (e.hist_mem l)) h1
    exact Named'.mono (h := e.hist l) (h' := ⟨l ++ e.input, none⟩) (fun m hm => hm) h3

end Verif.Sched
