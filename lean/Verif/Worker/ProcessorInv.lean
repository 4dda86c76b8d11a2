import Verif.Spec.Processor

/-!
# Invariants of the processor
-/

namespace Verif.Proc

open Verif.Wire Verif.Spec.Processor Proc

variable {F V X : Type}

theorem registered_snoc (fid : Bytes) (l : Hist) (now : Int) (x : Act) :
    registered fid (l ++ [(now, x)]) = registeredStep fid x (registered fid l) := by
  simp [registered, List.foldl_append]

theorem lastStamp_snoc (fid : Bytes) (l : Hist) (now : Int) (x : Act) :
    lastStamp fid (l ++ [(now, x)]) = stampStep fid now x (lastStamp fid l) := by
  simp [lastStamp, List.foldl_append]

theorem lastReceived_snoc (l : Hist) (now : Int) (x : Act) :
    lastReceived (l ++ [(now, x)]) = receivedStep x (lastReceived l) := by
  simp [lastReceived, List.foldl_append]

theorem times_snoc (p : Act → Bool) (l : Hist) (now : Int) (x : Act) :
    times p (l ++ [(now, x)]) = times p l + if p x then 1 else 0 := by
  simp [times, List.countP_append, List.countP_cons]

theorem always_snoc {P : Hist → Act → Prop} {l : Hist} {now : Int} {x : Act} (h : Always P l) (hx : P l x) :
    Always P (l ++ [(now, x)]) := by
  intro l₁ y l₂ e
  rcases List.eq_nil_or_concat l₂ with rfl | ⟨l₂', z, rfl⟩
  · obtain ⟨e1, e2⟩ := List.append_inj' e rfl
    cases e2; cases e1; exact hx
  · rw [List.concat_eq_append, ← List.cons_append, ← List.append_assoc] at e
    have := List.append_inj' e rfl
    exact h l₁ y l₂' this.1

/-- The task the main thread works on. -/
def Main.task? : Main F → Option Task
  | .stamp k => some k
  | .fetch k => some k
  | .stamp2 k _ => some k
  | .call k _ => some k
  | _ => none

/-- The function read from the cache. -/
def Main.fn? : Main F → Option (Task × F)
  | .stamp2 k f => some (k, f)
  | .call k (some f) => some (k, f)
  | _ => none

/-- The function whose tables the main thread is changing. -/
def Main.pending : Main F → Option Bytes
  | .stamp k => some k.functionId
  | .stamp2 k _ => some k.functionId
  | .added fid => some fid
  | .del2 fid => some fid
  | _ => none

/-- Functions the cleaner will evict. -/
def Cleaner.ids : Cleaner → List Bytes
  | .asleep => []
  | .evicting ids => ids
  | .evict2 fid ids => fid :: ids

/-- The function whose tables the cleaner is changing. -/
def Cleaner.pending : Cleaner → Option Bytes
  | .evict2 fid _ => some fid
  | _ => none

/-- 1 if it is a task named `t`. -/
def taskCount (t : Bytes) : Option Task → Nat
  | some k => if k.taskId = t then 1 else 0
  | none => 0

/-- `fid` was idle at the latest scan. -/
def Stale (retention : Int) (fid : Bytes) (l : Hist) : Prop :=
  ∃ l₁ s l₂ t, l = l₁ ++ (s, .scan) :: l₂ ∧ (∀ x ∈ l₂, x.2 ≠ .scan) ∧ lastStamp fid l₁ = some t ∧ s - t > retention

theorem Stale.snoc {retention : Int} {fid : Bytes} {l : Hist} (h : Stale retention fid l) (now : Int) {x : Act} (hx : x ≠ .scan) :
    Stale retention fid (l ++ [(now, x)]) := by
  obtain ⟨l₁, s, l₂, t, e, h1, h2, h3⟩ := h
  refine ⟨l₁, s, l₂ ++ [(now, x)], t, by simp [e], ?_, h2, h3⟩
  intro y hy
  rcases List.mem_append.1 hy with hy | hy
  · exact h1 y hy
  · simp only [List.mem_singleton] at hy; subst hy; exact hx

/-- What holds in every state. -/
structure Inv (rt : Runtime F V X) (r : Int) (p : Proc F) : Prop where
  ret : p.retention = r
  fn : ∀ fid f, p.functions.get? fid = some f → (∀ i, p.main = .del2 i → i ≠ fid) →
    ∃ c, registered fid p.log = some c ∧ rt.loadFn c = .ok f
  held : ∀ k f, p.main.fn? = some (k, f) → FunctionOf rt p.log k f
  mainRecv : ∀ k, p.main.task? = some k → ∃ now, (now, Act.recv (.task k)) ∈ p.log
  taskRecv : ∀ k, p.task = some k → ∃ now, (now, Act.recv (.task k)) ∈ p.log
  stamp : ∀ fid t, p.alive.get? fid = some t → lastStamp fid p.log = some t
  stale : ∀ fid ∈ p.cleaner.ids, Stale r fid p.log
  sub : ∀ fid, (p.functions.get? fid).isSome → (p.alive.get? fid).isSome ∨ p.main.pending = some fid ∨ p.cleaner.pending = some fid
  del : ∀ fid, p.main = .del2 fid → ∃ nm c, lastReceived p.log = some (.functionRequest .delete fid nm c)
  count : ∀ t, t ≠ [] →
    times (isAnswer t) p.log + taskCount t p.main.task? + taskCount t p.task ≤ times (isTask t) p.log
  ok : Always (Proper rt) p.log
  ev : Always (EvictProper r) p.log

theorem init_inv (rt : Runtime F V X) (r start : Int) : Inv rt r (Proc.init r start : Proc F) := by
  constructor
  · rfl
  · intro fid f h; simp [Proc.init] at h
  · intro k f h; simp [Proc.init, Main.fn?] at h
  · intro k h; simp [Proc.init, Main.task?] at h
  · intro k h; simp [Proc.init] at h
  · intro fid t h; simp [Proc.init] at h
  · intro fid h; simp [Proc.init, Cleaner.ids] at h
  · intro fid h; simp [Proc.init] at h
  · intro fid h; simp [Proc.init] at h
  · intro t ht
    have : ¬ [] = t := fun h => ht h.symm
    simp [Proc.init, sentinel, times, isAnswer, isTask, taskCount, Main.task?, this]
  · have : Always (Proper rt) ([] : Hist) := fun l₁ x l₂ e => by simp at e
    exact always_snoc (l := []) (now := start) this (Or.inl ⟨rfl, rfl, rfl, rfl⟩)
  · have : Always (EvictProper r) ([] : Hist) := fun l₁ x l₂ e => by simp at e
    exact always_snoc (l := []) (now := start) this trivial

/-- An entry that changes no bookkeeping. -/
def Act.plain : Act → Bool
  | .used _ => true
  | .evicted _ => true
  | .sent (.functionRequest ..) => true
  | _ => false

theorem plain_registered {x : Act} (h : x.plain = true) (fid : Bytes) (r : Option Bytes) : registeredStep fid x r = r := by
  cases x <;> first | rfl | cases h

theorem plain_stamp {x : Act} (h : x.plain = true) (fid : Bytes) (now : Int) (r : Option Int) : stampStep fid now x r = r := by
  cases x <;> first | rfl | cases h

theorem plain_received {x : Act} (h : x.plain = true) (r : Option Message) : receivedStep x r = r := by
  cases x <;> first | rfl | cases h

theorem plain_answer {x : Act} (h : x.plain = true) (t : Bytes) : isAnswer t x = false := by
  cases x with
  | sent m => cases m <;> first | rfl | cases h
  | _ => first | rfl | cases h

theorem plain_task {x : Act} (h : x.plain = true) (t : Bytes) : isTask t x = false := by
  cases x <;> first | rfl | cases h

theorem plain_proper {x : Act} (h : x.plain = true) (rt : Runtime F V X) (l : Hist) : Proper rt l x := by
  cases x with
  | sent m => cases m <;> first | trivial | cases h
  | _ => first | trivial | cases h

theorem plain_scan {x : Act} (h : x.plain = true) : x ≠ .scan := by
  cases x <;> first | (intro e; cases e; done) | cases h

/-- Extends the history by an entry about nothing, and keeps what is about tables and threads. -/
theorem Inv.note {rt : Runtime F V X} {r : Int} {p : Proc F} (g : Inv rt r p) (now : Int) {x : Act} (h : x.plain = true)
    (he : EvictProper r p.log x) : Inv rt r (p.note now x) := by
  have hm : ∀ y, y ∈ p.log → y ∈ p.log ++ [(now, x)] := fun y hy => List.mem_append_left _ hy
  constructor
  · exact g.ret
  · intro fid f h1 h2
    simp only [Proc.note, registered_snoc, plain_registered h]
    exact g.fn fid f h1 h2
  · intro k f h1
    simp only [FunctionOf, Proc.note, registered_snoc, plain_registered h]
    exact g.held k f h1
  · intro k h1; obtain ⟨n, h2⟩ := g.mainRecv k h1; exact ⟨n, hm _ h2⟩
  · intro k h1; obtain ⟨n, h2⟩ := g.taskRecv k h1; exact ⟨n, hm _ h2⟩
  · intro fid t h1
    simp only [Proc.note, lastStamp_snoc, plain_stamp h]
    exact g.stamp fid t h1
  · intro fid h1; exact (g.stale fid h1).snoc now (plain_scan h)
  · exact g.sub
  · intro fid h1
    simp only [Proc.note, lastReceived_snoc, plain_received h]
    exact g.del fid h1
  · intro t ht
    simp only [Proc.note, times_snoc, plain_answer h, plain_task h]
    exact g.count t ht
  · exact always_snoc g.ok (plain_proper h rt _)
  · exact always_snoc g.ev he

/-- Writes down the time of use of the pending function. -/
theorem Inv.stamped {rt : Runtime F V X} {r : Int} {p : Proc F} (g : Inv rt r p) (now : Int) (fid : Bytes) :
    Inv rt r (p.stamp now fid) := by
  have hm : ∀ y, y ∈ p.log → y ∈ p.log ++ [(now, .stamped fid)] := fun y hy => List.mem_append_left _ hy
  constructor
  · exact g.ret
  · intro i f h1 h2
    simp only [Proc.stamp, registered_snoc, registeredStep]
    exact g.fn i f h1 h2
  · intro k f h1
    simp only [FunctionOf, Proc.stamp, registered_snoc, registeredStep]
    exact g.held k f h1
  · intro k h1; obtain ⟨n, h2⟩ := g.mainRecv k h1; exact ⟨n, hm _ h2⟩
  · intro k h1; obtain ⟨n, h2⟩ := g.taskRecv k h1; exact ⟨n, hm _ h2⟩
  · intro i t h1
    simp only [Proc.stamp, Dict.get?_set] at h1
    simp only [Proc.stamp, lastStamp_snoc, stampStep]
    split at h1
    · next e => rw [if_pos e]; exact h1
    · next e => rw [if_neg e]; exact g.stamp i t h1
  · intro i h1; exact (g.stale i h1).snoc now (by simp)
  · intro i h1
    rcases g.sub i h1 with h | h | h
    · left; simp only [Proc.stamp, Dict.get?_set]; split
      · rfl
      · exact h
    · exact Or.inr (Or.inl h)
    · exact Or.inr (Or.inr h)
  · intro i h1
    simp only [Proc.stamp, lastReceived_snoc, receivedStep]
    exact g.del i h1
  · intro t ht
    have := g.count t ht
    simpa [Proc.stamp, times_snoc, isAnswer, isTask] using this
  · exact always_snoc g.ok trivial
  · exact always_snoc g.ev trivial

theorem mapM_loads {rt : Runtime F V X} : ∀ {as : List Argument} {vs : List V},
    (as.mapM fun a => rt.loadArg a.data) = .ok vs → Loads rt as vs
  | [], vs, h => by
    simp only [List.mapM_nil] at h; cases h; exact .nil
  | a :: as, vs, h => by
    rw [List.mapM_cons] at h
    cases ha : rt.loadArg a.data with
    | error x => rw [ha] at h; cases h
    | ok v =>
      cases hr : (as.mapM fun a => rt.loadArg a.data) with
      | error x => rw [ha, hr] at h; cases h
      | ok vs' =>
        rw [ha, hr] at h; cases h
        exact .cons ha (mapM_loads hr)

theorem mapM_fails {rt : Runtime F V X} : ∀ {as : List Argument} {x : X},
    (as.mapM fun a => rt.loadArg a.data) = .error x → LoadFails rt as x
  | [], x, h => by
    simp only [List.mapM_nil] at h; cases h
  | a :: as, x, h => by
    rw [List.mapM_cons] at h
    cases ha : rt.loadArg a.data with
    | error x => rw [ha] at h; cases h; exact .head ha
    | ok v =>
      cases hr : (as.mapM fun a => rt.loadArg a.data) with
      | error x => rw [ha, hr] at h; cases h; exact .tail ha (mapM_fails hr)
      | ok vs' => rw [ha, hr] at h; cases h

theorem evaluate_returns {rt : Runtime F V X} {k : Task} {f : F} {c : Nat} {r : Bytes}
    (h : evaluate rt k (some f) c = .ok r) : Returns rt f k.args r := by
  unfold evaluate at h
  cases hm : (k.args.mapM fun a => rt.loadArg a.data) with
  | error x => rw [hm] at h; cases h
  | ok vs =>
    rw [hm] at h
    cases hc : rt.call f vs c with
    | error x => simp only [bind, Except.bind, hc] at h; cases h
    | ok v =>
      simp only [bind, Except.bind, hc] at h
      exact ⟨vs, c, v, mapM_loads hm, hc, h⟩

theorem evaluate_raises {rt : Runtime F V X} {k : Task} {f : F} {c : Nat} {x : X}
    (h : evaluate rt k (some f) c = .error x) : Raises rt f k.args x := by
  unfold evaluate at h
  cases hm : (k.args.mapM fun a => rt.loadArg a.data) with
  | error y => rw [hm] at h; cases h; exact Or.inl (mapM_fails hm)
  | ok vs =>
    rw [hm] at h
    cases hc : rt.call f vs c with
    | error y => simp only [bind, Except.bind, hc] at h; cases h; exact Or.inr ⟨vs, c, mapM_loads hm, Or.inl hc⟩
    | ok v =>
      simp only [bind, Except.bind, hc] at h
      exact Or.inr ⟨vs, c, mapM_loads hm, Or.inr ⟨v, hc, h⟩⟩

theorem evaluate_none {rt : Runtime F V X} {k : Task} {c : Nat} :
    ∃ x, evaluate rt k none c = .error x ∧ (LoadFails rt k.args x ∨ x = rt.notCallable) := by
  unfold evaluate
  cases hm : (k.args.mapM fun a => rt.loadArg a.data) with
  | error y => exact ⟨y, rfl, Or.inl (mapM_fails hm)⟩
  | ok vs => exact ⟨rt.notCallable, rfl, Or.inr rfl⟩

theorem idle_mem {p : Proc F} {now : Int} {fid : Bytes} (h : fid ∈ p.idleFunctions now) :
    ∃ t, p.alive.get? fid = some t ∧ now - t > p.retention := by
  simp only [idleFunctions, List.mem_map, List.mem_filter, decide_eq_true_eq] at h
  obtain ⟨⟨i, t⟩, ⟨h1, h2⟩, rfl⟩ := h
  exact ⟨t, Dict.mem_items.1 h1, h2⟩

/-- The main thread moves on. -/
theorem Inv.move {rt : Runtime F V X} {r : Int} {p : Proc F} (g : Inv rt r p) (m : Main F) (tk : Option Task)
    (hd : ∀ i, p.main ≠ .del2 i) (hd' : ∀ i, m ≠ .del2 i)
    (h1 : ∀ k f, m.fn? = some (k, f) → FunctionOf rt p.log k f)
    (h2 : ∀ k, m.task? = some k ∨ tk = some k → p.main.task? = some k ∨ p.task = some k)
    (h3 : ∀ fid, p.main.pending = some fid → m.pending = some fid ∨ (p.alive.get? fid).isSome)
    (h4 : ∀ t, taskCount t m.task? + taskCount t tk ≤ taskCount t p.main.task? + taskCount t p.task) :
    Inv rt r { p with main := m, task := tk } := by
  have hr : ∀ k, m.task? = some k ∨ tk = some k → ∃ now, (now, Act.recv (.task k)) ∈ p.log := by
    intro k hk
    rcases h2 k hk with h | h
    · exact g.mainRecv k h
    · exact g.taskRecv k h
  constructor
  · exact g.ret
  · intro fid f h _
    exact g.fn fid f h (fun i e => (hd i e).elim)
  · exact h1
  · intro k h; exact hr k (Or.inl h)
  · intro k h; exact hr k (Or.inr h)
  · exact g.stamp
  · exact g.stale
  · intro fid h
    rcases g.sub fid h with h | h | h
    · exact Or.inl h
    · rcases h3 fid h with h | h
      · exact Or.inr (Or.inl h)
      · exact Or.inl h
    · exact Or.inr (Or.inr h)
  · intro fid h; exact (hd' fid h).elim
  · intro t ht
    have := g.count t ht
    have := h4 t
    simp only
    omega
  · exact g.ok
  · exact g.ev

/-- A result is sent. -/
theorem Inv.answered {rt : Runtime F V X} {r : Int} {p : Proc F} (g : Inv rt r p) (now : Int) {k : Task} {fo : Option F}
    (hm : p.main = .call k fo) {st : TaskStatus} {dur : UInt32} {b : Bytes} (ha : Answers rt p.log k st b) :
    Inv rt r { (p.note now (.sent (.taskResult k.taskId st dur b))) with main := .idle } := by
  have hmem : ∀ y, y ∈ p.log → y ∈ p.log ++ [(now, .sent (.taskResult k.taskId st dur b))] :=
    fun y hy => List.mem_append_left _ hy
  obtain ⟨n0, hn0⟩ := g.mainRecv k (by rw [hm]; rfl)
  constructor
  · exact g.ret
  · intro fid f h1 _
    simp only [Proc.note, registered_snoc, registeredStep]
    exact g.fn fid f h1 (fun i e => by rw [hm] at e; cases e)
  · intro k' f h1; cases h1
  · intro k' h1; cases h1
  · intro k' h1; obtain ⟨n, h2⟩ := g.taskRecv k' h1; exact ⟨n, hmem _ h2⟩
  · intro fid t h1
    simp only [Proc.note, lastStamp_snoc, stampStep]
    exact g.stamp fid t h1
  · intro fid h1; exact (g.stale fid h1).snoc now (by simp)
  · intro fid h
    rcases g.sub fid h with h | h | h
    · exact Or.inl h
    · rw [hm] at h; cases h
    · exact Or.inr (Or.inr h)
  · intro fid h; cases h
  · intro t ht
    have := g.count t ht
    rw [hm] at this
    simp only [Main.task?, taskCount] at this
    simp only [Proc.note, times_snoc, isAnswer, isTask, Main.task?, taskCount, decide_eq_true_eq]
    simp only [Bool.false_eq_true, if_false]
    omega
  · exact always_snoc g.ok (Or.inr ⟨n0, k, hn0, rfl, ha⟩)
  · exact always_snoc g.ev trivial

/-- Every step of the main thread. -/
theorem work_inv {rt : Runtime F V X} {r : Int} {p p' : Proc F} (g : Inv rt r p) {now : Int} {c : Nat} {dur : UInt32}
    (h : work rt p now c dur = .ok p') : Inv rt r p' := by
  unfold work at h
  split at h
  · cases h; exact g
  · next k hm =>
    cases h
    have g' := g.stamped now k.functionId
    refine g'.move (.fetch k) p.task (fun i e => ?_) (fun i e => by cases e) (fun k f e => by cases e) ?_ ?_ ?_
    · rw [show (p.stamp now k.functionId).main = p.main from rfl, hm] at e; cases e
    · intro k' h; rw [show (p.stamp now k.functionId).main = p.main from rfl, hm]; exact h
    · intro fid h
      rw [show (p.stamp now k.functionId).main = p.main from rfl, hm] at h
      cases h; right; simp [Proc.stamp]
    · intro t; rw [show (p.stamp now k.functionId).main = p.main from rfl, hm]; exact Nat.le_refl _
  · next k hm =>
    split at h
    · next f hf =>
      cases h
      have g' := g.note now (x := .used k.functionId) (by rfl) trivial
      refine g'.move (.stamp2 k f) p.task (fun i e => ?_) (fun i e => by cases e) (fun k' f' e => ?_) ?_ ?_ ?_
      · rw [show (p.note now _).main = p.main from rfl, hm] at e; cases e
      · cases e
        exact g'.fn _ _ hf (fun i e => by rw [show (p.note now _).main = p.main from rfl, hm] at e; cases e)
      · intro k' h; rw [show (p.note now _).main = p.main from rfl, hm]; exact h
      · intro fid h
        rw [show (p.note now _).main = p.main from rfl, hm] at h; cases h
      · intro t; rw [show (p.note now _).main = p.main from rfl, hm]; exact Nat.le_refl _
    · cases h
      refine g.move (.call k none) p.task (fun i e => ?_) (fun i e => by cases e) (fun k f e => by cases e) ?_ ?_ ?_
      · rw [hm] at e; cases e
      · intro k' h; rw [hm]; exact h
      · intro fid h
        rw [hm] at h; cases h
      · intro t; rw [hm]; exact Nat.le_refl _
  · next k f hm =>
    cases h
    have g' := g.stamped now k.functionId
    refine g'.move (.call k (some f)) p.task (fun i e => ?_) (fun i e => by cases e) (fun k' f' e => ?_) ?_ ?_ ?_
    · rw [show (p.stamp now k.functionId).main = p.main from rfl, hm] at e; cases e
    · cases e; exact g'.held k f (by rw [show (p.stamp now k.functionId).main = p.main from rfl, hm]; rfl)
    · intro k' h; rw [show (p.stamp now k.functionId).main = p.main from rfl, hm]; exact h
    · intro fid h
      rw [show (p.stamp now k.functionId).main = p.main from rfl, hm] at h
      cases h; right; simp [Proc.stamp]
    · intro t; rw [show (p.stamp now k.functionId).main = p.main from rfl, hm]; exact Nat.le_refl _
  · next k f hm =>
    unfold answer at h
    split at h
    · next b hb =>
      cases h
      cases f with
      | none => obtain ⟨x, e, _⟩ := @evaluate_none F V X rt k c; rw [e] at hb; cases hb
      | some f =>
        exact g.answered now hm ⟨f, g.held k f (by rw [hm]; rfl), evaluate_returns hb⟩
    · next x hx =>
      split at h
      · next b hb =>
        cases h
        refine g.answered now hm ⟨x, hb, ?_⟩
        cases f with
        | none =>
          obtain ⟨y, e, hy⟩ := @evaluate_none F V X rt k c
          rw [e] at hx; cases hx
          exact Or.inr hy
        | some f => exact Or.inl ⟨f, g.held k f (by rw [hm]; rfl), evaluate_raises hx⟩
      · cases h
  · next fid hm =>
    split at h
    · next k hk =>
      cases h
      have g' := g.stamped now fid
      refine g'.move (.fetch k) none (fun i e => ?_) (fun i e => by cases e) (fun k f e => by cases e) ?_ ?_ ?_
      · rw [show (p.stamp now fid).main = p.main from rfl, hm] at e; cases e
      · intro k' h
        rcases h with h | h
        · cases h; exact Or.inr hk
        · cases h
      · intro i h
        rw [show (p.stamp now fid).main = p.main from rfl, hm] at h
        cases h; right; simp [Proc.stamp]
      · intro t
        rw [show (p.stamp now fid).main = p.main from rfl, hm, show (p.stamp now fid).task = p.task from rfl, hk]
        simp [Main.task?, taskCount]
    · cases h
  · next fid hm =>
    cases h
    constructor
    · exact g.ret
    · intro i f h1 _
      simp only [Dict.get?_erase] at h1
      split at h1
      · cases h1
      · next e =>
        refine g.fn i f h1 (fun j ej => ?_)
        rw [hm] at ej; cases ej; exact e
    · intro k' f h1; cases h1
    · intro k' h1; cases h1
    · exact g.taskRecv
    · exact g.stamp
    · exact g.stale
    · intro i h
      simp only [Dict.get?_erase] at h
      split at h
      · cases h
      · next e =>
        rcases g.sub i h with h | h | h
        · exact Or.inl h
        · rw [hm] at h; cases h; exact (e rfl).elim
        · exact Or.inr (Or.inr h)
    · intro i h; cases h
    · intro t ht
      have := g.count t ht
      rw [hm] at this
      exact this
    · exact g.ok
    · exact g.ev

/-- Every step of the cleaner. -/
theorem clean_inv {rt : Runtime F V X} {r : Int} {p : Proc F} (g : Inv rt r p) (now : Int) : Inv rt r (p.clean now) := by
  unfold clean
  split
  · next hc =>
    have hm : ∀ y, y ∈ p.log → y ∈ p.log ++ [(now, .scan)] := fun y hy => List.mem_append_left _ hy
    constructor
    · exact g.ret
    · intro fid f h1 h2
      simp only [Proc.note, registered_snoc, registeredStep]
      exact g.fn fid f h1 h2
    · intro k f h1
      simp only [FunctionOf, Proc.note, registered_snoc, registeredStep]
      exact g.held k f h1
    · intro k h1; obtain ⟨n, h2⟩ := g.mainRecv k h1; exact ⟨n, hm _ h2⟩
    · intro k h1; obtain ⟨n, h2⟩ := g.taskRecv k h1; exact ⟨n, hm _ h2⟩
    · intro fid t h1
      simp only [Proc.note, lastStamp_snoc, stampStep]
      exact g.stamp fid t h1
    · intro fid h1
      obtain ⟨t, h2, h3⟩ := idle_mem h1
      rw [g.ret] at h3
      exact ⟨p.log, now, [], t, rfl, by simp, g.stamp fid t h2, h3⟩
    · intro i h
      rcases g.sub i h with h | h | h
      · exact Or.inl h
      · exact Or.inr (Or.inl h)
      · rw [hc] at h; cases h
    · intro fid h1
      simp only [Proc.note, lastReceived_snoc, receivedStep]
      exact g.del fid h1
    · intro t ht
      have := g.count t ht
      simpa [Proc.note, times_snoc, isAnswer, isTask] using this
    · exact always_snoc g.ok trivial
    · exact always_snoc g.ev trivial
  · next hc =>
    exact ⟨g.ret, g.fn, g.held, g.mainRecv, g.taskRecv, g.stamp, (fun i h => by cases h),
      (fun i h => by
        rcases g.sub i h with h | h | h
        · exact Or.inl h
        · exact Or.inr (Or.inl h)
        · rw [hc] at h; cases h),
      g.del, g.count, g.ok, g.ev⟩
  · next fid ids hc =>
    exact ⟨g.ret, g.fn, g.held, g.mainRecv, g.taskRecv,
      (fun i t h => by
        simp only [Dict.get?_erase] at h
        split at h
        · cases h
        · exact g.stamp i t h),
      fun i h => g.stale i (by rw [hc]; exact h),
      (fun i h => by
        by_cases e : fid = i
        · subst e; exact Or.inr (Or.inr rfl)
        · rcases g.sub i h with h | h | h
          · left; simp only [Dict.get?_erase, e, if_false]; exact h
          · exact Or.inr (Or.inl h)
          · rw [hc] at h; cases h),
      g.del, g.count, g.ok, g.ev⟩
  · next fid ids hc =>
    have key : ∀ q : Proc F, Inv rt r q → q.functions = p.functions → q.cleaner = p.cleaner → q.main = p.main →
        Inv rt r { q with functions := p.functions.erase fid, cleaner := .evicting ids } := by
      intro q g hf hc' _
      rw [hc] at hc'
      exact ⟨g.ret,
        (fun i f h1 h2 => by
          simp only [Dict.get?_erase] at h1
          split at h1
          · cases h1
          · exact g.fn i f (by rw [hf]; exact h1) h2),
        g.held, g.mainRecv, g.taskRecv, g.stamp,
        fun i h => g.stale i (by rw [hc']; exact List.mem_cons_of_mem _ h),
        (fun i h => by
          simp only [Dict.get?_erase] at h
          split at h
          · cases h
          · next e =>
            rcases g.sub i (by rw [hf]; exact h) with h | h | h
            · exact Or.inl h
            · exact Or.inr (Or.inl h)
            · rw [hc'] at h; cases h; exact (e rfl).elim),
        g.del, g.count, g.ok, g.ev⟩
    simp only
    split
    · have : EvictProper r p.log (.evicted fid) := g.stale fid (by rw [hc]; exact List.mem_cons_self)
      exact key _ (g.note now (by rfl) this) rfl rfl rfl
    · exact key _ g rfl rfl rfl

/-- A message is recorded; about tables and threads nothing changes. -/
theorem Inv.received {rt : Runtime F V X} {r : Int} {p : Proc F} (g : Inv rt r p) (now : Int) (m : Message)
    (hm : p.main = .idle) (h : ∀ fid c, registeredStep fid (.recv m) c = c) : Inv rt r (p.note now (.recv m)) := by
  have hmem : ∀ y, y ∈ p.log → y ∈ p.log ++ [(now, .recv m)] := fun y hy => List.mem_append_left _ hy
  constructor
  · exact g.ret
  · intro fid f h1 h2
    simp only [Proc.note, registered_snoc, h]
    exact g.fn fid f h1 h2
  · intro k f h1; rw [show (p.note now (.recv m)).main = p.main from rfl, hm] at h1; cases h1
  · intro k h1; obtain ⟨n, h2⟩ := g.mainRecv k h1; exact ⟨n, hmem _ h2⟩
  · intro k h1; obtain ⟨n, h2⟩ := g.taskRecv k h1; exact ⟨n, hmem _ h2⟩
  · intro fid t h1
    simp only [Proc.note, lastStamp_snoc, stampStep]
    exact g.stamp fid t h1
  · intro fid h1; exact (g.stale fid h1).snoc now (by simp)
  · exact g.sub
  · intro fid h1; rw [show (p.note now (.recv m)).main = p.main from rfl, hm] at h1; cases h1
  · intro t ht
    have := g.count t ht
    simp only [Proc.note, times_snoc, isAnswer]
    simp only [Bool.false_eq_true, if_false]
    omega
  · exact always_snoc g.ok trivial
  · exact always_snoc g.ev trivial

/-- Every message. -/
theorem receive_inv {rt : Runtime F V X} {r : Int} {p p' : Proc F} (g : Inv rt r p) {now : Int} {m : Message}
    (hm : p.main = .idle) (h : receive rt p now m = .ok p') : Inv rt r p' := by
  cases m with
  | task k =>
    simp only [receive] at h
    cases h
    have g1 := g.received now (.task k) hm (fun _ _ => rfl)
    have hin : (now, Act.recv (.task k)) ∈ (p.note now (.recv (.task k))).log := by simp [Proc.note]
    have hcnt : ∀ t, t ≠ [] → times (isAnswer t) (p.note now (.recv (.task k))).log + (taskCount t (some k) + taskCount t p.task) ≤
        times (isTask t) (p.note now (.recv (.task k))).log := by
      intro t ht
      have := g.count t ht
      rw [hm] at this
      simp only [Main.task?, taskCount] at this
      simp only [Proc.note, times_snoc, isAnswer, isTask, taskCount, decide_eq_true_eq]
      simp only [Bool.false_eq_true, if_false]
      omega
    unfold onTask
    split
    · have g2 := g1.note now (x := .used k.functionId) (by rfl) trivial
      exact ⟨g2.ret, (fun fid f h1 _ => g2.fn fid f h1 (fun i e => by
            rw [show ((p.note now (.recv (.task k))).note now (.used k.functionId)).main = p.main from rfl, hm] at e; cases e)),
        (fun k f e => by cases e),
        (fun k' e => by cases e; exact ⟨now, List.mem_append_left _ hin⟩),
        g2.taskRecv, g2.stamp, g2.stale,
        (fun fid h => by
          rcases g2.sub fid h with h | h | h
          · exact Or.inl h
          · rw [show ((p.note now (.recv (.task k))).note now (.used k.functionId)).main = p.main from rfl, hm] at h; cases h
          · exact Or.inr (Or.inr h)),
        (fun i e => by cases e),
        (fun t ht => by
          have := hcnt t ht
          simp only [Proc.note, times_snoc, isAnswer, isTask, Main.task?, taskCount] at this ⊢
          simp only [Bool.false_eq_true, if_false] at this ⊢
          omega),
        g2.ok, g2.ev⟩
    · have g2 := g1.note now (x := .sent (.functionRequest .request k.functionId [] [])) (by rfl) trivial
      exact ⟨g2.ret, g2.fn, g2.held, g2.mainRecv,
        (fun k' e => by cases e; exact ⟨now, List.mem_append_left _ hin⟩),
        g2.stamp, g2.stale, g2.sub, g2.del,
        (fun t ht => by
          have := hcnt t ht
          have hm' : ((p.note now (.recv (.task k))).note now (.sent (.functionRequest .request k.functionId [] []))).main = .idle := hm
          simp only [hm']
          simp only [Proc.note, times_snoc, isAnswer, isTask, Main.task?, taskCount] at this ⊢
          simp only [Bool.false_eq_true, if_false] at this ⊢
          omega),
        g2.ok, g2.ev⟩
  | functionResponse st fid nm c =>
    simp only [receive, onFunctionResponse] at h
    split at h
    · next q hq =>
      cases h
      split at hq
      · next f hf =>
        cases hq
        have hmem : ∀ y, y ∈ p.log → y ∈ p.log ++ [(now, .recv (.functionResponse st fid nm c))] :=
          fun y hy => List.mem_append_left _ hy
        constructor
        · exact g.ret
        · intro i f' h1 _
          simp only [Dict.get?_set] at h1
          simp only [Proc.note, registered_snoc, registeredStep]
          split at h1
          · next e => cases h1; rw [if_pos e]; exact ⟨c, rfl, hf⟩
          · next e => rw [if_neg e]; exact g.fn i f' h1 (fun j ej => by rw [hm] at ej; cases ej)
        · intro k f e; cases e
        · intro k e; cases e
        · intro k h1; obtain ⟨n, h2⟩ := g.taskRecv k h1; exact ⟨n, hmem _ h2⟩
        · intro i t h1
          simp only [Proc.note, lastStamp_snoc, stampStep]
          exact g.stamp i t h1
        · intro i h1; exact (g.stale i h1).snoc now (by simp)
        · intro i h1
          by_cases e : fid = i
          · subst e; exact Or.inr (Or.inl rfl)
          · simp only [Dict.get?_set, e, if_false] at h1
            rcases g.sub i h1 with h | h | h
            · exact Or.inl h
            · rw [hm] at h; cases h
            · exact Or.inr (Or.inr h)
        · intro i e; cases e
        · intro t ht
          have := g.count t ht
          rw [hm] at this
          simpa [Proc.note, times_snoc, isAnswer, isTask, Main.task?] using this
        · exact always_snoc g.ok trivial
        · exact always_snoc g.ev trivial
      · cases hq
    · cases h
  | functionRequest ty fid nm c =>
    simp only [receive, onFunctionRequest] at h
    cases h
    split
    · next e =>
      subst e
      have hmem : ∀ y, y ∈ p.log → y ∈ p.log ++ [(now, .recv (.functionRequest .delete fid nm c))] :=
        fun y hy => List.mem_append_left _ hy
      constructor
      · exact g.ret
      · intro i f' h1 h2
        have := h2 fid rfl
        simp only [Proc.note, registered_snoc, registeredStep, this, if_false]
        exact g.fn i f' h1 (fun j ej => by rw [hm] at ej; cases ej)
      · intro k f e; cases e
      · intro k e; cases e
      · intro k h1; obtain ⟨n, h2⟩ := g.taskRecv k h1; exact ⟨n, hmem _ h2⟩
      · intro i t h1
        simp only [Proc.note, lastStamp_snoc, stampStep]
        simp only [Proc.note, Dict.get?_erase] at h1
        split at h1
        · cases h1
        · exact g.stamp i t h1
      · intro i h1; exact (g.stale i h1).snoc now (by simp)
      · intro i h1
        by_cases e : fid = i
        · subst e; exact Or.inr (Or.inl rfl)
        · rcases g.sub i h1 with h | h | h
          · left; simp only [Proc.note, Dict.get?_erase, e, if_false]; exact h
          · rw [hm] at h; cases h
          · exact Or.inr (Or.inr h)
      · intro i e
        cases e
        exact ⟨nm, c, by simp only [Proc.note, lastReceived_snoc, receivedStep]⟩
      · intro t ht
        have := g.count t ht
        rw [hm] at this
        simpa [Proc.note, times_snoc, isAnswer, isTask, Main.task?] using this
      · exact always_snoc g.ok trivial
      · exact always_snoc g.ev trivial
    · next e =>
      refine g.received now _ hm (fun i r => ?_)
      cases ty <;> first | rfl | exact (e rfl).elim
  | _ => simp only [receive] at h; cases h; exact g.received now _ hm (fun _ _ => rfl)

/-- Every step. -/
theorem step_inv {rt : Runtime F V X} {r : Int} {p p' : Proc F} (g : Inv rt r p) {e : Event}
    (h : p.step rt e = .ok p') : Inv rt r p' := by
  unfold Proc.step at h
  split at h
  · split at h
    · next hm => exact receive_inv g hm h
    · cases h; exact g
  · exact work_inv g h
  · cases h; exact clean_inv g e.now

theorem Reach.inv {rt : Runtime F V X} {r start : Int} {p : Proc F} (hr : Reach rt r start p) : Inv rt r p := by
  induction hr with
  | init => exact init_inv rt r start
  | step e _ h ih => exact step_inv ih h

end Verif.Proc
