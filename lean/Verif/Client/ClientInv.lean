import Verif.Spec.Client

/-!
# Invariants of the client
-/

namespace Verif.Client

open Verif.Wire Verif.Spec.Client Client

theorem openFuture_snoc (t : Bytes) (l : Hist) (x : Act) : openFuture t (l ++ [x]) = futureStep t x (openFuture t l) := by
  simp [openFuture, List.foldl_append]

theorem openGraph_snoc (g : Bytes) (l : Hist) (x : Act) : openGraph g (l ++ [x]) = graphStep g x (openGraph g l) := by
  simp [openGraph, List.foldl_append]

theorem asked_snoc (fid : Bytes) (l : Hist) (x : Act) : asked fid (l ++ [x]) = askStep fid x (asked fid l) := by
  simp [asked, List.foldl_append]

theorem lastCopy_snoc (t : Bytes) (l : Hist) (x : Act) : lastCopy t (l ++ [x]) = copyStep t x (lastCopy t l) := by
  simp [lastCopy, List.foldl_append]

theorem countP_snoc (p : Act → Bool) (l : Hist) (x : Act) : (l ++ [x]).countP p = l.countP p + if p x then 1 else 0 := by
  simp [List.countP_append, List.countP_cons]

theorem usedIds_append (l l' : Hist) : usedIds (l ++ l') = usedIds l ++ usedIds l' := by
  induction l with
  | nil => rfl
  | cons x l ih => cases x <;> simp [usedIds, ih]

theorem always_snoc {P : Hist → Act → Prop} {l : Hist} {x : Act} (h : Always P l) (hx : P l x) : Always P (l ++ [x]) := by
  intro l₁ y l₂ e
  rcases List.eq_nil_or_concat l₂ with rfl | ⟨l₂', z, rfl⟩
  · obtain ⟨e1, e2⟩ := List.append_inj' e rfl
    cases e2; cases e1; exact hx
  · rw [List.concat_eq_append, ← List.cons_append, ← List.append_assoc] at e
    have := List.append_inj' e rfl
    exact h l₁ y l₂' this.1

/-- The task `submit` works on. -/
def User.task? : User → Option Task
  | .stored k _ _ => some k
  | .check k => some k
  | .request k => some k
  | .append k => some k
  | .register k => some k
  | _ => none

/-- The task `submit` has not put anywhere yet. -/
def User.unsent? : User → Option Task
  | .stored k _ _ => some k
  | .check k => some k
  | .request k => some k
  | .append k => some k
  | _ => none

/-- The futures `get` has not put into its table yet. -/
def User.refs : User → List Nat
  | .registerGraph _ ns => ns
  | _ => []

/-- The futures the client can still reach. -/
def Client.refs (c : Client) : List Nat := c.toFuture.values ++ c.graphs.values.flatten ++ c.user.refs

/-- 1 if it is a task named `t`. -/
def userCount (t : Bytes) : Option Task → Nat
  | some k => if k.taskId = t then 1 else 0
  | none => 0

/-- Tasks named `t` that wait for the answer about their function. -/
def waitCount (t : Bytes) (c : Client) : Nat := (c.notReady.values.flatten).countP fun k => decide (k.taskId = t)

/-- a task named `t` -/
def isTask (t : Bytes) : Message → Bool
  | .task k => decide (k.taskId = t)
  | _ => false

/-- A message of the queue is proper. -/
def OutProper (p : Pickle) (l : Hist) : Message → Prop
  | .task k => (∃ nm c, Act.submitted k nm c ∈ l ∧ k.functionId = p.hash c) ∧ Known k.functionId l
  | .functionRequest ty fid nm c => ty = .add ∧ fid = p.hash c ∧ ∃ k, Act.submitted k nm c ∈ l
  | .graphTask g => Act.graph g ∈ l
  | _ => False

/-- A task was created by `submit`. -/
def Made (p : Pickle) (l : Hist) (k : Task) : Prop := ∃ nm c, Act.submitted k nm c ∈ l ∧ k.functionId = p.hash c

/-- What holds of the futures. -/
structure FutInv (c : Client) : Prop where
  fut : ∀ t, c.toFuture.get? t = openFuture t c.log
  gr : ∀ g, c.graphs.get? g = openGraph g c.log
  used : ∀ t, (c.toFuture.get? t).isSome → t ∈ usedIds c.log
  usedG : ∀ t, (c.graphs.get? t).isSome → t ∈ usedIds c.log
  user : ∀ k, c.user.task? = some k → c.toFuture.get? k.taskId = none ∧ k.taskId ∈ usedIds c.log
  userG : ∀ g ns, c.user = .registerGraph g ns → c.graphs.get? g = none ∧ g ∈ usedIds c.log
  nodup : c.refs.Nodup
  bound : ∀ n ∈ c.refs, n < c.futures.length

/-- What holds of the tasks. -/
structure TaskInv (p : Pickle) (c : Client) : Prop where
  made : ∀ k nm b, Act.submitted k nm b ∈ c.log → k.functionId = p.hash b
  once : ∀ k nm b k' nm' b', Act.submitted k nm b ∈ c.log → Act.submitted k' nm' b' ∈ c.log → k.taskId = k'.taskId →
    k = k' ∧ nm = nm' ∧ b = b'
  used : ∀ k nm b, Act.submitted k nm b ∈ c.log → k.taskId ∈ usedIds c.log
  user : ∀ k, c.user.task? = some k → Made p c.log k
  stored : ∀ k nm b, c.user = .stored k nm b → Act.submitted k nm b ∈ c.log
  task : ∀ t k, c.toTask.get? t = some k → k.taskId = t ∧ Made p c.log k
  fn : ∀ t nm b, c.toFunction.get? t = some (nm, b) → ∃ k, Act.submitted k nm b ∈ c.log ∧ k.taskId = t
  wait : ∀ fid ks, c.notReady.get? fid = some ks → ∀ k ∈ ks, k.functionId = fid ∧ Made p c.log k
  out : ∀ m ∈ c.outbox, OutProper p c.log m
  sent : Always (Proper p) c.log

/-- Copies of a task: sent, queued, waiting or in `submit`. -/
def CountInv (c : Client) : Prop :=
  ∀ t, c.log.countP (isSent t) + c.outbox.countP (isTask t) + waitCount t c + userCount t c.user.unsent? ≤
    c.log.countP (isSubmit t) + c.log.countP (isRefused t)

/-! ## Tables -/

theorem values_erase_sublist {κ ν : Type} [DecidableEq κ] (d : Dict κ ν) (k : κ) : (d.erase k).values.Sublist d.values := by
  simp only [Dict.values, Dict.erase, Dict.lerase]
  exact List.filter_sublist.map _

theorem flatten_sublist {α : Type} {l l' : List (List α)} (h : l.Sublist l') : l.flatten.Sublist l'.flatten := by
  induction h with
  | slnil => simp
  | cons a _ ih => exact List.Sublist.trans ih (by simp)
  | cons_cons a _ ih => simpa using ih

theorem values_set_new {κ ν : Type} [DecidableEq κ] {d : Dict κ ν} {k : κ} (v : ν) (h : d.get? k = none) :
    (d.set k v).values = d.values ++ [v] := by
  simp [Dict.values, Dict.items_set_new v h]

/-- Sum of the sizes of the entries. -/
def weight {κ ν : Type} (f : ν → Nat) (l : List (κ × ν)) : Nat := (l.map fun e => f e.2).sum

theorem weight_lerase {κ ν : Type} [DecidableEq κ] (f : ν → Nat) {l : List (κ × ν)} (hn : (l.map (·.1)).Nodup) (k : κ) :
    weight f (Dict.lerase l k) + ((Dict.lget l k).map f).getD 0 = weight f l := by
  induction l with
  | nil => simp [weight, Dict.lerase, Dict.lget]
  | cons e l ih =>
    obtain ⟨a, v⟩ := e
    simp only [List.map_cons, List.nodup_cons] at hn
    have ih := ih hn.2
    by_cases h : a = k
    · subst h
      have : Dict.lget l a = none := by
        cases hg : Dict.lget l a with
        | none => rfl
        | some w => exact absurd (List.mem_map.2 ⟨_, Dict.lget_mem hg, rfl⟩) hn.1
      rw [this] at ih
      simp only [weight, Dict.lerase, Dict.lget] at ih ⊢
      simp at ih ⊢; omega
    · simp only [weight, Dict.lerase, Dict.lget] at ih ⊢
      simp [h] at ih ⊢; omega

theorem weight_lset {κ ν : Type} [DecidableEq κ] (f : ν → Nat) (l : List (κ × ν)) (k : κ) (v : ν) :
    weight f (Dict.lset l k v) + ((Dict.lget l k).map f).getD 0 = weight f l + f v := by
  induction l with
  | nil => simp [weight, Dict.lset, Dict.lget]
  | cons e l ih =>
    obtain ⟨a, w⟩ := e
    by_cases h : a = k
    · subst h
      simp [weight, Dict.lset, Dict.lget]; omega
    · simp only [weight, Dict.lset, Dict.lget] at ih ⊢
      simp [h] at ih ⊢; omega

theorem waitCount_eq (t : Bytes) (c : Client) :
    waitCount t c = weight (fun ks : List Task => ks.countP fun k => decide (k.taskId = t)) c.notReady.items := by
  simp [waitCount, weight, Dict.values, List.countP_flatten, List.map_map, Function.comp_def]

theorem waitCount_append (t : Bytes) (c : Client) (k : Task) :
    waitCount t (c.appendTask k) = waitCount t c + if k.taskId = t then 1 else 0 := by
  simp only [waitCount_eq, appendTask]
  have := weight_lset (fun ks : List Task => ks.countP fun k => decide (k.taskId = t)) c.notReady.items k.functionId
    (((c.notReady.get? k.functionId).getD []) ++ [k])
  simp only [Dict.set] at *
  have e : Dict.lget c.notReady.items k.functionId = c.notReady.get? k.functionId := rfl
  rw [e] at this
  cases h : c.notReady.get? k.functionId <;> simp [h, List.countP_append, List.countP_cons] at this ⊢ <;> omega

theorem waitCount_erase (t : Bytes) (c : Client) {fid : Bytes} {ks : List Task} (h : c.notReady.get? fid = some ks) :
    waitCount t { c with notReady := c.notReady.erase fid } + ks.countP (fun k => decide (k.taskId = t)) = waitCount t c := by
  simp only [waitCount_eq]
  have := weight_lerase (fun ks : List Task => ks.countP fun k => decide (k.taskId = t)) c.notReady.nodup fid
  have e : Dict.lget c.notReady.items fid = some ks := h
  rw [e] at this
  exact this

/-! ## Futures -/

theorem setFuture_ok {c c' : Client} {n : Nat} {f : FState → Py FState} (h : c.setFuture n f = .ok c') :
    ∃ s s', c.futures[n]? = some s ∧ f s = .ok s' ∧ c' = { c with futures := c.futures.set n s' } := by
  simp only [setFuture, Py.bind_ok, Py.pure_eq] at h
  obtain ⟨s, hs, s', hs', e⟩ := h
  cases e
  have hs : c.futures[n]? = some s := by
    simp only [pyIndex] at hs
    split at hs <;> cases hs
    assumption
  exact ⟨s, s', hs, hs', rfl⟩

theorem FutInv.congr {c c' : Client} (h : FutInv c) (h1 : c'.toFuture = c.toFuture) (h2 : c'.graphs = c.graphs)
    (h3 : c'.user = c.user) (h4 : c'.log = c.log) (h5 : c.futures.length = c'.futures.length) : FutInv c' := by
  obtain ⟨a1, a2, a3, a4, a5, a6, a7, a8⟩ := h
  constructor
  · simpa [h1, h4] using a1
  · simpa [h2, h4] using a2
  · simpa [h1, h4] using a3
  · simpa [h2, h4] using a4
  · simpa [h1, h3, h4] using a5
  · simpa [h2, h3, h4] using a6
  · simpa [Client.refs, h1, h2, h3] using a7
  · simpa [Client.refs, h1, h2, h3, h5] using a8

/-- An entry that changes no bookkeeping of futures. -/
structure Plain (x : Act) : Prop where
  fut : ∀ t s, futureStep t x s = s
  gr : ∀ t s, graphStep t x s = s
  used : usedIds [x] = []

theorem FutInv.note {c : Client} (h : FutInv c) {x : Act} (hx : Plain x) : FutInv (c.note x) := by
  obtain ⟨a1, a2, a3, a4, a5, a6, a7, a8⟩ := h
  have e : usedIds (c.log ++ [x]) = usedIds c.log := by rw [usedIds_append, hx.used]; simp
  constructor
  · intro t; simp only [Client.note]; rw [openFuture_snoc, hx.fut]; exact a1 t
  · intro t; simp only [Client.note]; rw [openGraph_snoc, hx.gr]; exact a2 t
  · simpa [Client.note, e] using a3
  · simpa [Client.note, e] using a4
  · simpa [Client.note, e] using a5
  · simpa [Client.note, e] using a6
  · exact a7
  · exact a8

theorem plain_sent (m : Message) : Plain (.sent m) := ⟨fun _ _ => rfl, fun _ _ => rfl, rfl⟩
theorem plain_cancelled (n : Nat) : Plain (.cancelled n) := ⟨fun _ _ => rfl, fun _ _ => rfl, rfl⟩
theorem plain_exited : Plain .exited := ⟨fun _ _ => rfl, fun _ _ => rfl, rfl⟩
theorem plain_echo (t : Bytes) (s : TaskEchoStatus) : Plain (.recv (.taskEcho t s)) := ⟨fun _ _ => rfl, fun _ _ => rfl, rfl⟩
theorem plain_fnResponse (s : FunctionResponseType) (i n b : Bytes) : Plain (.recv (.functionResponse s i n b)) :=
  ⟨fun _ _ => rfl, fun _ _ => rfl, rfl⟩

theorem init_fut : FutInv Client.init := by
  constructor
  · intro t; rfl
  · intro t; rfl
  all_goals simp [Client.init, Client.refs, Dict.values, User.refs, User.task?]
  all_goals simp [Dict.empty]

theorem submit_fut {p : Pickle} {c : Client} (h : FutInv c) (hu : c.user = .idle) {t : Bytes} (ht : t ∉ usedIds c.log)
    (nm b : Bytes) (args : List Bytes) : FutInv (c.submit p t nm b args) := by
  obtain ⟨a1, a2, a3, a4, a5, a6, a7, a8⟩ := h
  constructor
  · intro i; simp only [submit, Client.note]; rw [openFuture_snoc]; exact a1 i
  · intro i; simp only [submit, Client.note]; rw [openGraph_snoc]; exact a2 i
  · intro i hi; simp only [submit, Client.note, usedIds_append]; exact List.mem_append_left _ (a3 i hi)
  · intro i hi; simp only [submit, Client.note, usedIds_append]; exact List.mem_append_left _ (a4 i hi)
  · intro k hk
    simp only [submit, Client.note, User.task?, Option.some.injEq] at hk
    subst hk
    refine ⟨?_, ?_⟩
    · cases hg : c.toFuture.get? t with
      | none => exact hg
      | some n => exact absurd (a3 t (by simp [hg])) ht
    · simp [submit, Client.note, usedIds_append, usedIds]
  · intro g ns hg; simp [submit, Client.note] at hg
  · simpa [Client.refs, submit, Client.note, hu, User.refs] using a7
  · simpa [Client.refs, submit, Client.note, hu, User.refs] using a8

theorem get_fut {c : Client} (h : FutInv c) (hu : c.user = .idle) {g : GraphTask} (ht : g.taskId ∉ usedIds c.log) :
    FutInv (c.get g) := by
  obtain ⟨a1, a2, a3, a4, a5, a6, a7, a8⟩ := h
  constructor
  · intro i; simp only [Client.get, Client.note, Client.send]; rw [openFuture_snoc]; exact a1 i
  · intro i; simp only [Client.get, Client.note, Client.send]; rw [openGraph_snoc]; exact a2 i
  · intro i hi; simp only [Client.get, Client.note, Client.send, usedIds_append]; exact List.mem_append_left _ (a3 i hi)
  · intro i hi; simp only [Client.get, Client.note, Client.send, usedIds_append]; exact List.mem_append_left _ (a4 i hi)
  · intro k hk
    simp [Client.get, Client.note, Client.send, User.task?] at hk
  · intro i ns hg
    simp only [Client.get, Client.note, Client.send, User.registerGraph.injEq] at hg
    obtain ⟨rfl, rfl⟩ := hg
    refine ⟨?_, ?_⟩
    · cases hg : c.graphs.get? g.taskId with
      | none => exact hg
      | some n => exact absurd (a4 _ (by simp [hg])) ht
    · simp [Client.get, Client.note, Client.send, usedIds_append, usedIds, graphIds]
  · simp only [Client.refs, Client.get, Client.note, Client.send, hu, User.refs, List.append_nil] at a7 a8 ⊢
    rw [List.nodup_append]
    refine ⟨a7, List.nodup_range', ?_⟩
    intro x hx y hy e
    have := a8 x hx
    simp only [List.mem_range'] at hy
    omega
  · simp only [Client.refs, Client.get, Client.note, Client.send, hu, User.refs, List.append_nil] at a8 ⊢
    intro n hn
    simp only [List.length_append, List.length_map]
    rcases List.mem_append.1 hn with hn | hn
    · have := a8 n hn; omega
    · simp only [List.mem_range'] at hn; omega

theorem register_fut {c : Client} (h : FutInv c) {k : Task} (hu : c.user = .register k) :
    FutInv { (c.note (.returned k.taskId c.futures.length)) with
      futures := c.futures ++ [.pending], toFuture := c.toFuture.set k.taskId c.futures.length, user := .idle } := by
  obtain ⟨a1, a2, a3, a4, a5, a6, a7, a8⟩ := h
  obtain ⟨u1, u2⟩ := a5 k (by rw [hu]; rfl)
  constructor
  · intro i
    simp only [Client.note]
    rw [openFuture_snoc, Dict.get?_set, a1 i]
    simp only [futureStep]
  · intro i; simp only [Client.note]; rw [openGraph_snoc]; exact a2 i
  · intro i hi
    simp only [Client.note, usedIds_append, Dict.get?_set] at hi ⊢
    refine List.mem_append_left _ ?_
    split at hi
    · rename_i e; subst e; exact u2
    · exact a3 i hi
  · intro i hi; simp only [Client.note, usedIds_append]; exact List.mem_append_left _ (a4 i hi)
  · intro k hk
    simp [User.task?] at hk
  · intro g ns hg; simp at hg
  · have hb : ∀ n ∈ c.refs, n ≠ c.futures.length := fun n hn => Nat.ne_of_lt (a8 n hn)
    simp only [Client.refs, Client.note, hu, User.refs, values_set_new _ u1] at a7 hb ⊢
    simp only [List.nodup_append, List.append_nil, List.mem_append] at a7 hb ⊢
    grind
  · simp only [Client.refs, Client.note, hu, User.refs, values_set_new _ u1] at a8 ⊢
    simp only [List.mem_append, List.length_append, List.length_singleton, List.append_nil] at a8 ⊢
    grind

theorem registerGraph_fut {c : Client} (h : FutInv c) {g : Bytes} {ns : List Nat} (hu : c.user = .registerGraph g ns) :
    FutInv { (c.note (.started g ns)) with graphs := c.graphs.set g ns, user := .idle } := by
  obtain ⟨a1, a2, a3, a4, a5, a6, a7, a8⟩ := h
  obtain ⟨u1, u2⟩ := a6 g ns hu
  constructor
  · intro i; simp only [Client.note]; rw [openFuture_snoc]; exact a1 i
  · intro i
    simp only [Client.note]
    rw [openGraph_snoc, Dict.get?_set, a2 i]
    simp only [graphStep]
  · intro i hi; simp only [Client.note, usedIds_append]; exact List.mem_append_left _ (a3 i hi)
  · intro i hi
    simp only [Client.note, usedIds_append, Dict.get?_set] at hi ⊢
    refine List.mem_append_left _ ?_
    split at hi
    · rename_i e; subst e; exact u2
    · exact a4 i hi
  · intro k hk
    simp [User.task?] at hk
  · intro g ns hg; simp at hg
  · simpa [Client.refs, Client.note, hu, User.refs, values_set_new _ u1] using a7
  · simpa [Client.refs, Client.note, hu, User.refs, values_set_new _ u1] using a8

theorem result_fut {c : Client} (h : FutInv c) (t : Bytes) (st : TaskStatus) (m : UInt32) (r : Bytes) :
    FutInv { (c.note (.recv (.taskResult t st m r))) with toFuture := c.toFuture.erase t } := by
  obtain ⟨a1, a2, a3, a4, a5, a6, a7, a8⟩ := h
  have e : usedIds (c.log ++ [.recv (.taskResult t st m r)]) = usedIds c.log := by rw [usedIds_append]; simp [usedIds]
  have sub : ({ (c.note (.recv (.taskResult t st m r))) with toFuture := c.toFuture.erase t } : Client).refs.Sublist c.refs := by
    simp only [Client.refs, Client.note]
    exact ((values_erase_sublist _ _).append (List.Sublist.refl _)).append (List.Sublist.refl _)
  constructor
  · intro i
    simp only [Client.note]
    rw [openFuture_snoc, Dict.get?_erase, a1 i]
    simp only [futureStep]
  · intro i; simp only [Client.note]; rw [openGraph_snoc]; exact a2 i
  · intro i hi
    simp only [Client.note, e, Dict.get?_erase] at hi ⊢
    split at hi
    · simp at hi
    · exact a3 i hi
  · simpa [Client.note, e] using a4
  · intro k hk
    obtain ⟨u1, u2⟩ := a5 k hk
    refine ⟨?_, by simpa [Client.note, e] using u2⟩
    simp only [Dict.get?_erase]
    split
    · rfl
    · exact u1
  · simpa [Client.note, e] using a6
  · exact sub.nodup a7
  · exact fun n hn => a8 n (sub.subset hn)

theorem graphResult_fut {c : Client} (h : FutInv c) (g : Bytes) (st : TaskStatus) (rs : List Bytes) :
    FutInv { (c.note (.recv (.graphTaskResult g st rs))) with graphs := c.graphs.erase g } := by
  obtain ⟨a1, a2, a3, a4, a5, a6, a7, a8⟩ := h
  have e : usedIds (c.log ++ [.recv (.graphTaskResult g st rs)]) = usedIds c.log := by rw [usedIds_append]; simp [usedIds]
  have sub : ({ (c.note (.recv (.graphTaskResult g st rs))) with graphs := c.graphs.erase g } : Client).refs.Sublist c.refs := by
    simp only [Client.refs, Client.note]
    exact ((List.Sublist.refl _).append (flatten_sublist (values_erase_sublist _ _))).append (List.Sublist.refl _)
  constructor
  · intro i; simp only [Client.note]; rw [openFuture_snoc]; exact a1 i
  · intro i
    simp only [Client.note]
    rw [openGraph_snoc, Dict.get?_erase, a2 i]
    simp only [graphStep]
  · simpa [Client.note, e] using a3
  · intro i hi
    simp only [Client.note, e, Dict.get?_erase] at hi ⊢
    split at hi
    · simp at hi
    · exact a4 i hi
  · simpa [Client.note, e] using a5
  · intro k ns hk
    obtain ⟨u1, u2⟩ := a6 k ns hk
    refine ⟨?_, by simpa [Client.note, e] using u2⟩
    simp only [Dict.get?_erase]
    split
    · rfl
    · exact u1
  · exact sub.nodup a7
  · exact fun n hn => a8 n (sub.subset hn)

/-- Only futures change. -/
structure OnlyFutures (c c' : Client) : Prop where
  toTask : c'.toTask = c.toTask
  toFunction : c'.toFunction = c.toFunction
  toFuture : c'.toFuture = c.toFuture
  notReady : c'.notReady = c.notReady
  graphs : c'.graphs = c.graphs
  outbox : c'.outbox = c.outbox
  stop : c'.stop = c.stop
  closed : c'.closed = c.closed
  user : c'.user = c.user
  log : c'.log = c.log
  length : c.futures.length = c'.futures.length

theorem OnlyFutures.refl (c : Client) : OnlyFutures c c := by constructor <;> rfl

theorem OnlyFutures.trans {a b c : Client} (h : OnlyFutures a b) (h' : OnlyFutures b c) : OnlyFutures a c := by
  obtain ⟨h1, h2, h3, h4, h5, h6, h7, h8, h9, h10, h11⟩ := h
  obtain ⟨i1, i2, i3, i4, i5, i6, i7, i8, i9, i10, i11⟩ := h'
  constructor <;> simp [*]

theorem setFuture_only {c c' : Client} {n : Nat} {f : FState → Py FState} (h : c.setFuture n f = .ok c') : OnlyFutures c c' := by
  obtain ⟨s, s', _, _, rfl⟩ := setFuture_ok h
  constructor <;> simp

theorem resolveAll_only {f : Bytes → Py FState} {rs : List Bytes} {ns : List Nat} {c c' : Client}
    (h : c.resolveAll f rs ns = .ok c') : OnlyFutures c c' := by
  induction rs generalizing c ns with
  | nil => simp only [resolveAll] at h; cases h; exact .refl _
  | cons r rs ih =>
    cases ns with
    | nil => simp [resolveAll] at h
    | cons n ns =>
      simp only [resolveAll, Py.bind_ok] at h
      obtain ⟨s, _, c1, h1, h2⟩ := h
      exact (setFuture_only h1).trans (ih h2)

theorem exitFutures_only {ns : List Nat} {c c' : Client} (h : c.exitFutures ns = .ok c') : OnlyFutures c c' := by
  induction ns generalizing c with
  | nil => simp only [exitFutures] at h; cases h; exact .refl _
  | cons r rs ih =>
    simp only [exitFutures, Py.bind_ok] at h
    obtain ⟨c1, h1, h2⟩ := h
    exact (setFuture_only h1).trans (ih h2)

theorem FutInv.only {c c' : Client} (h : FutInv c) (ho : OnlyFutures c c') : FutInv c' :=
  h.congr ho.toFuture ho.graphs ho.user ho.log ho.length

theorem exitTasks_fut {l : List (Bytes × Nat)} {c c' : Client} (h : FutInv c) (e : c.exitTasks l = .ok c') : FutInv c' := by
  induction l generalizing c with
  | nil => simp only [exitTasks] at e; cases e; exact h
  | cons x l ih =>
    simp only [exitTasks, Py.bind_ok] at e
    obtain ⟨c1, h1, h2⟩ := e
    exact ih ((h.note (plain_sent _)).only (setFuture_only h1)) h2

theorem exitGraphs_fut {l : List (Bytes × List Nat)} {c c' : Client} (h : FutInv c) (e : c.exitGraphs l = .ok c') : FutInv c' := by
  induction l generalizing c with
  | nil => simp only [exitGraphs] at e; cases e; exact h
  | cons x l ih =>
    simp only [exitGraphs, Py.bind_ok] at e
    obtain ⟨c1, h1, h2⟩ := e
    exact ih ((h.note (plain_sent _)).only (exitFutures_only h1)) h2

theorem bufferSend_fut {c c' : Client} {k : Task} (h : FutInv c) (e : c.bufferSend k = .ok c') : FutInv c' := by
  simp only [bufferSend] at e
  split at e
  · cases e; exact h.congr rfl rfl rfl rfl rfl
  · simp only [requestFunction, Py.bind_ok, Py.pure_eq] at e
    obtain ⟨c1, ⟨x, _, e1⟩, e2⟩ := e
    cases e1; cases e2
    exact h.congr rfl rfl rfl rfl rfl

theorem receive_fut {p : Pickle} {c c' : Client} {m : Message} (h : FutInv c) (e : c.receive p m = .ok c') : FutInv c' := by
  simp only [receive] at e
  split at e
  · rename_i t st
    have h := h.note (plain_echo t st)
    simp only [onTaskEcho] at e
    split at e
    · cases e; exact h
    · split at e
      · cases e; exact h
      · exact bufferSend_fut h e
      · cases e
      · simp only [Py.bind_ok] at e
        obtain ⟨x, hx, y, hy, n, _, e⟩ := e
        have ho := setFuture_only e
        exact h.congr ho.toFuture ho.graphs ho.user ho.log ho.length
      · cases e
      · cases e
  · rename_i st fid nm b
    have h := h.note (plain_fnResponse st fid nm b)
    simp only [onFunctionResponse, Py.bind_ok] at e
    obtain ⟨_, _, e⟩ := e
    split at e <;> cases e
    · exact h
    · exact h.congr rfl rfl rfl rfl rfl
  · rename_i t st mm r
    have h1 := result_fut h t st mm r
    simp only [onTaskResult] at e
    split at e
    · rename_i hg
      cases e
      exact h1.congr (by
        refine Dict.ext_items ?_
        simp only [Dict.erase, Dict.lerase]
        have hg : t ∉ c.toFuture.keys := Dict.not_mem_keys.2 hg
        have : ∀ e ∈ c.toFuture.items, e.1 ≠ t := fun e he he' => hg (List.mem_map.2 ⟨e, he, he'⟩)
        rw [List.filter_eq_self.2]
        · rfl
        · simpa using this) rfl rfl rfl rfl
    · split at e
      · simp only [Py.bind_ok] at e
        obtain ⟨_, _, e⟩ := e
        exact h1.only (setFuture_only e)
      · simp only [Py.bind_ok] at e
        obtain ⟨_, _, e⟩ := e
        exact h1.only (setFuture_only e)
      · cases e; exact h1
  · rename_i g st rs
    have h1 := graphResult_fut h g st rs
    simp only [onGraphTaskResult] at e
    split at e
    · rename_i hg
      cases e
      exact h1.congr rfl (by
        refine Dict.ext_items ?_
        simp only [Dict.erase, Dict.lerase]
        have hg : g ∉ c.graphs.keys := Dict.not_mem_keys.2 hg
        have : ∀ e ∈ c.graphs.items, e.1 ≠ g := fun e he he' => hg (List.mem_map.2 ⟨e, he, he'⟩)
        rw [List.filter_eq_self.2]
        · rfl
        · simpa using this) rfl rfl rfl
    · split at e
      · exact h1.only (resolveAll_only e)
      · simp only [Py.bind_ok] at e
        obtain ⟨_, _, _, _, e⟩ := e
        exact h1.only (resolveAll_only e)
      · cases e; exact h1
  · cases e

theorem step_fut {p : Pickle} {c c' : Client} {o : Op} (h : FutInv c) (hf : FreshOp c o) (e : c.step p o = .ok c') : FutInv c' := by
  cases o with
  | submit t nm b args =>
    simp only [step] at e
    split at e <;> cases e
    · exact submit_fut h ‹_› hf nm b args
    · exact h
  | get g =>
    simp only [step] at e
    split at e <;> cases e
    · exact get_fut h ‹_› (hf.2 _ (by simp [graphIds]))
    · exact h
  | advance =>
    simp only [step, advance] at e
    split at e
    · cases e; exact h
    · rename_i k nm b hu
      cases e
      obtain ⟨a1, a2, a3, a4, a5, a6, a7, a8⟩ := h
      exact ⟨a1, a2, a3, a4, by simpa [hu, User.task?] using a5, by simp,
        by simpa [Client.refs, hu, User.refs] using a7, by simpa [Client.refs, hu, User.refs] using a8⟩
    · rename_i k hu
      cases e
      obtain ⟨a1, a2, a3, a4, a5, a6, a7, a8⟩ := h
      by_cases hh : c.notReady.has k.functionId = true
      all_goals simp only [hh, if_true, if_false, Bool.false_eq_true]
      · exact ⟨a1, a2, a3, a4, by simpa [hu, User.task?] using a5, by simp,
          by simpa [Client.refs, hu, User.refs] using a7, by simpa [Client.refs, hu, User.refs] using a8⟩
      · exact ⟨a1, a2, a3, a4, by simpa [hu, User.task?] using a5, by simp,
          by simpa [Client.refs, hu, User.refs] using a7, by simpa [Client.refs, hu, User.refs] using a8⟩
    · rename_i k hu
      simp only [requestFunction, Py.bind_ok, Py.pure_eq] at e
      obtain ⟨c1, ⟨x, _, e1⟩, e2⟩ := e
      cases e1; cases e2
      obtain ⟨a1, a2, a3, a4, a5, a6, a7, a8⟩ := h
      exact ⟨a1, a2, a3, a4, by simpa [hu, User.task?, Client.send] using a5, by simp,
        by simpa [Client.refs, hu, User.refs, Client.send] using a7, by simpa [Client.refs, hu, User.refs, Client.send] using a8⟩
    · rename_i k hu
      cases e
      obtain ⟨a1, a2, a3, a4, a5, a6, a7, a8⟩ := h
      exact ⟨a1, a2, a3, a4, by simpa [hu, User.task?, appendTask] using a5, by simp,
        by simpa [Client.refs, hu, User.refs, appendTask] using a7, by simpa [Client.refs, hu, User.refs, appendTask] using a8⟩
    · cases e; exact register_fut h ‹_›
    · cases e; exact registerGraph_fut h ‹_›
  | cancel n =>
    cases e
    exact (h.note (plain_cancelled n)).congr rfl rfl rfl rfl (by simp [Client.note])
  | disconnect => cases e; exact h.congr rfl rfl rfl rfl rfl
  | recv m =>
    simp only [step] at e
    split at e
    · cases e; exact h
    · exact receive_fut h e
  | flush =>
    simp only [step] at e
    split at e
    · cases e; exact h
    · simp only [flush] at e
      split at e
      · cases e; exact h
      · simp only [Py.bind_ok, Py.pure_eq] at e
        obtain ⟨_, _, e⟩ := e
        cases e
        exact (h.note (plain_sent _)).congr rfl rfl rfl rfl rfl
  | exit =>
    simp only [step] at e
    split at e
    · simp only [exit, Py.bind_ok, Py.pure_eq] at e
      obtain ⟨c1, h1, c2, h2, e⟩ := e
      cases e
      exact ((exitGraphs_fut (exitTasks_fut h h1) h2).note plain_exited).congr rfl rfl rfl rfl rfl
    · cases e; exact h

theorem Reach.fut {p : Pickle} {c : Client} (h : Reach p c) : FutInv c := by
  induction h with
  | init => exact init_fut
  | step o _ hf e ih => exact step_fut ih hf e

/-! ## Tasks -/

theorem Made.mono {p : Pickle} {l l' : Hist} {k : Task} (h : Made p l k) (hs : ∀ x ∈ l, x ∈ l') : Made p l' k := by
  obtain ⟨nm, c, h1, h2⟩ := h
  exact ⟨nm, c, hs _ h1, h2⟩

theorem Known.mono {l l' : Hist} {fid : Bytes} (h : Known fid l) (hs : ∀ x ∈ l, x ∈ l') : Known fid l' := by
  obtain ⟨st, nm, c, h1, h2⟩ := h
  exact ⟨st, nm, c, hs _ h1, h2⟩

theorem OutProper.mono {p : Pickle} {l l' : Hist} {m : Message} (h : OutProper p l m) (hs : ∀ x ∈ l, x ∈ l') : OutProper p l' m := by
  cases m <;> simp only [OutProper] at h ⊢
  · obtain ⟨h1, h2⟩ := h
    exact ⟨Made.mono h1 hs, Known.mono h2 hs⟩
  · exact hs _ h
  · obtain ⟨h1, h2, k, h3⟩ := h
    exact ⟨h1, h2, k, hs _ h3⟩

theorem OutProper.proper {p : Pickle} {l : Hist} {m : Message} (h : OutProper p l m) : Proper p l (.sent m) := by
  cases m <;> first | exact h | exact absurd h id

theorem TaskInv.congr {p : Pickle} {c c' : Client} (h : TaskInv p c) (h1 : c'.toTask = c.toTask) (h2 : c'.toFunction = c.toFunction)
    (h3 : c'.notReady = c.notReady) (h4 : c'.outbox = c.outbox) (h5 : c'.user = c.user) (h6 : c'.log = c.log) : TaskInv p c' := by
  obtain ⟨a1, a2, a3, a4, a5, a6, a7, a8, a9, a10⟩ := h
  constructor
  · simpa [h6] using a1
  · simpa [h6] using a2
  · simpa [h6] using a3
  · simpa [h5, h6] using a4
  · simpa [h5, h6] using a5
  · simpa [h1, h6] using a6
  · simpa [h2, h6] using a7
  · simpa [h3, h6] using a8
  · simpa [h4, h6] using a9
  · simpa [h6] using a10

theorem TaskInv.only {p : Pickle} {c c' : Client} (h : TaskInv p c) (ho : OnlyFutures c c') : TaskInv p c' :=
  h.congr ho.toTask ho.toFunction ho.notReady ho.outbox ho.user ho.log

theorem TaskInv.note {p : Pickle} {c : Client} (h : TaskInv p c) {x : Act} (hx : ∀ k nm b, x ≠ .submitted k nm b)
    (hp : Proper p c.log x) : TaskInv p (c.note x) := by
  obtain ⟨a1, a2, a3, a4, a5, a6, a7, a8, a9, a10⟩ := h
  have sub : ∀ y ∈ c.log, y ∈ c.log ++ [x] := fun y hy => List.mem_append_left _ hy
  have back : ∀ k nm b, Act.submitted k nm b ∈ c.log ++ [x] → Act.submitted k nm b ∈ c.log := by
    intro k nm b hm
    rcases List.mem_append.1 hm with hm | hm
    · exact hm
    · exact absurd (List.mem_singleton.1 hm).symm (hx k nm b)
  constructor
  · exact fun k nm b hm => a1 k nm b (back _ _ _ hm)
  · exact fun k nm b k' nm' b' hm hm' => a2 k nm b k' nm' b' (back _ _ _ hm) (back _ _ _ hm')
  · intro k nm b hm
    simp only [Client.note, usedIds_append]
    exact List.mem_append_left _ (a3 k nm b (back _ _ _ hm))
  · exact fun k hk => (a4 k hk).mono sub
  · exact fun k nm b hk => sub _ (a5 k nm b hk)
  · exact fun t k hk => ⟨(a6 t k hk).1, (a6 t k hk).2.mono sub⟩
  · intro t nm b hk
    obtain ⟨k, h1, h2⟩ := a7 t nm b hk
    exact ⟨k, sub _ h1, h2⟩
  · exact fun fid ks hg k hk => ⟨(a8 fid ks hg k hk).1, (a8 fid ks hg k hk).2.mono sub⟩
  · exact fun m hm => (a9 m hm).mono sub
  · exact always_snoc a10 hp

theorem init_task (p : Pickle) : TaskInv p Client.init := by
  constructor
  all_goals simp [Client.init, User.task?]
  exact fun l₁ x l₂ e => by simp at e

theorem submit_task {p : Pickle} {c : Client} (h : TaskInv p c) {t : Bytes} (ht : t ∉ usedIds c.log)
    (nm b : Bytes) (args : List Bytes) : TaskInv p (c.submit p t nm b args) := by
  obtain ⟨a1, a2, a3, a4, a5, a6, a7, a8, a9, a10⟩ := h
  have sub : ∀ x, ∀ y ∈ c.log, y ∈ c.log ++ [x] := fun x y hy => List.mem_append_left _ hy
  constructor
  · intro k nm' b' hm
    simp only [submit, Client.note, List.mem_append, List.mem_singleton] at hm
    rcases hm with hm | hm
    · exact a1 _ _ _ hm
    · cases hm; rfl
  · intro k nm1 b1 k' nm2 b2 hm hm' he
    simp only [submit, Client.note, List.mem_append, List.mem_singleton] at hm hm'
    rcases hm with hm | hm <;> rcases hm' with hm' | hm'
    · exact a2 _ _ _ _ _ _ hm hm' he
    · cases hm'; have := a3 _ _ _ hm; rw [he] at this; exact absurd this ht
    · cases hm; have := a3 _ _ _ hm'; rw [← he] at this; exact absurd this ht
    · cases hm; cases hm'; exact ⟨rfl, rfl, rfl⟩
  · intro k nm1 b1 hm
    simp only [submit, Client.note, List.mem_append, List.mem_singleton, usedIds_append] at hm ⊢
    rcases hm with hm | hm
    · exact .inl (a3 _ _ _ hm)
    · cases hm; right; simp [usedIds]
  · intro k hk
    simp only [submit, Client.note, User.task?, Option.some.injEq] at hk
    subst hk
    exact ⟨nm, b, by simp [submit, Client.note], rfl⟩
  · intro k nm1 b1 hk
    simp only [submit, Client.note, User.stored.injEq] at hk
    obtain ⟨rfl, rfl, rfl⟩ := hk
    simp [submit, Client.note]
  · intro i k hk
    simp only [submit, Client.note, Dict.get?_set] at hk
    split at hk
    · cases hk
      exact ⟨‹_›, nm, b, by simp [submit, Client.note], rfl⟩
    · exact ⟨(a6 i k hk).1, (a6 i k hk).2.mono (sub _)⟩
  · intro t nm b hk
    obtain ⟨k, h1, h2⟩ := a7 t nm b hk
    exact ⟨k, sub _ _ h1, h2⟩
  · exact fun fid ks hg k hk => ⟨(a8 fid ks hg k hk).1, (a8 fid ks hg k hk).2.mono (sub _)⟩
  · exact fun m hm => (a9 m hm).mono (sub _)
  · exact always_snoc a10 trivial

theorem request_task {p : Pickle} {c c' : Client} (h : TaskInv p c) {k : Task} (hm : Made p c.log k)
    (e : c.requestFunction k = .ok c') : TaskInv p c' := by
  simp only [requestFunction, Py.bind_ok, Py.pure_eq] at e
  obtain ⟨⟨nm, b⟩, h1, e1⟩ := e
  cases e1
  obtain ⟨a1, a2, a3, a4, a5, a6, a7, a8, a9, a10⟩ := h
  refine ⟨a1, a2, a3, a4, a5, a6, a7, a8, ?_, a10⟩
  intro m hm'
  rcases List.mem_append.1 hm' with hm' | hm'
  · exact a9 m hm'
  · simp only [List.mem_singleton] at hm'
    subst hm'
    obtain ⟨k', h2, h3⟩ := a7 _ _ _ (Dict.getPy_ok.1 h1)
    obtain ⟨nm', b', h4, h5⟩ := hm
    obtain ⟨e1, e2, e3⟩ := a2 _ _ _ _ _ _ h2 h4 h3
    subst e3
    exact ⟨rfl, h5, k', h2⟩

theorem append_task {p : Pickle} {c : Client} (h : TaskInv p c) {k : Task} (hm : Made p c.log k) : TaskInv p (c.appendTask k) := by
  obtain ⟨a1, a2, a3, a4, a5, a6, a7, a8, a9, a10⟩ := h
  refine ⟨a1, a2, a3, a4, a5, a6, a7, ?_, a9, a10⟩
  intro fid ks hg k' hk'
  simp only [appendTask, Dict.get?_set] at hg
  split at hg
  · rename_i e
    subst e
    cases hg
    rcases List.mem_append.1 hk' with hk' | hk'
    · cases hg : c.notReady.get? k.functionId with
      | none => simp [hg] at hk'
      | some ks => simp only [hg, Option.getD_some] at hk'; exact a8 _ _ hg _ hk'
    · simp only [List.mem_singleton] at hk'
      subst hk'
      exact ⟨rfl, hm⟩
  · exact a8 _ _ hg _ hk'

theorem bufferSend_task {p : Pickle} {c c' : Client} {k : Task} (h : TaskInv p c) (hm : Made p c.log k)
    (e : c.bufferSend k = .ok c') : TaskInv p c' := by
  simp only [bufferSend] at e
  split at e
  · cases e; exact append_task h hm
  · simp only [Py.bind_ok, Py.pure_eq] at e
    obtain ⟨c1, e1, e2⟩ := e
    cases e2
    have hl : c1.log = c.log := by
      simp only [requestFunction, Py.bind_ok, Py.pure_eq] at e1
      obtain ⟨_, _, e1⟩ := e1
      cases e1; rfl
    exact append_task (request_task h hm e1) (hl ▸ hm)

theorem receive_task {p : Pickle} {c c' : Client} {m : Message} (h : TaskInv p c) (e : c.receive p m = .ok c') : TaskInv p c' := by
  simp only [receive] at e
  have h := h.note (x := .recv m) (by simp) trivial
  split at e
  · rename_i t st
    simp only [onTaskEcho] at e
    split at e
    · cases e; exact h
    · rename_i k hk
      split at e
      · cases e; exact h
      · exact bufferSend_task h (h.task _ _ hk).2 e
      · cases e
      · simp only [Py.bind_ok] at e
        obtain ⟨⟨x, x'⟩, hx, ⟨y, y'⟩, hy, n, _, e⟩ := e
        have ho := setFuture_only e
        obtain ⟨a1, a2, a3, a4, a5, a6, a7, a8, a9, a10⟩ := h
        obtain ⟨_, h1⟩ := Dict.pop_ok.1 hx
        obtain ⟨_, h2⟩ := Dict.pop_ok.1 hy
        cases h1; cases h2
        have : TaskInv p { (c.note (.recv (.taskEcho t .submitOK))) with
            toTask := ((c.note (.recv (.taskEcho t .submitOK))).toTask.erase t)
            toFunction := ((c.note (.recv (.taskEcho t .submitOK))).toFunction.erase t) } := by
          refine ⟨a1, a2, a3, a4, a5, ?_, ?_, a8, a9, a10⟩
          · intro i k hk
            simp only [Dict.get?_erase] at hk
            split at hk
            · cases hk
            · exact a6 i k hk
          · intro i nm b hk
            simp only [Dict.get?_erase] at hk
            split at hk
            · cases hk
            · exact a7 i nm b hk
        exact this.only ho
      · cases e
      · cases e
  · rename_i st fid nm b
    simp only [onFunctionResponse, Py.bind_ok] at e
    obtain ⟨_, hst, e⟩ := e
    have hst := pyAssert_ok.1 hst
    split at e <;> cases e
    · exact h
    · rename_i ks hg
      obtain ⟨a1, a2, a3, a4, a5, a6, a7, a8, a9, a10⟩ := h
      refine ⟨a1, a2, a3, a4, a5, a6, a7, ?_, ?_, a10⟩
      · intro i ks' hk
        simp only [Dict.get?_erase] at hk
        split at hk
        · cases hk
        · exact a8 i ks' hk
      · intro m hm
        rcases List.mem_append.1 hm with hm | hm
        · exact a9 m hm
        · obtain ⟨k, hk, rfl⟩ := List.mem_map.1 hm
          obtain ⟨h1, h2⟩ := a8 _ _ hg _ hk
          exact ⟨h2, st, nm, b, by simp [Client.note, h1], by simpa using hst⟩
  · rename_i t st mm r
    simp only [onTaskResult] at e
    split at e
    · cases e; exact h
    · split at e
      · simp only [Py.bind_ok] at e
        obtain ⟨_, _, e⟩ := e
        have ho := setFuture_only e
        exact h.congr ho.toTask ho.toFunction ho.notReady ho.outbox ho.user ho.log
      · simp only [Py.bind_ok] at e
        obtain ⟨_, _, e⟩ := e
        have ho := setFuture_only e
        exact h.congr ho.toTask ho.toFunction ho.notReady ho.outbox ho.user ho.log
      · cases e; exact h.congr rfl rfl rfl rfl rfl rfl
  · rename_i g st rs
    simp only [onGraphTaskResult] at e
    split at e
    · cases e; exact h
    · split at e
      · have ho := resolveAll_only e
        exact h.congr ho.toTask ho.toFunction ho.notReady ho.outbox ho.user ho.log
      · simp only [Py.bind_ok] at e
        obtain ⟨_, _, _, _, e⟩ := e
        have ho := resolveAll_only e
        exact h.congr ho.toTask ho.toFunction ho.notReady ho.outbox ho.user ho.log
      · cases e; exact h.congr rfl rfl rfl rfl rfl rfl
  · cases e

theorem openFuture_returned {t : Bytes} {n : Nat} {l : Hist} (h : openFuture t l = some n) : Act.returned t n ∈ l := by
  rcases List.eq_nil_or_concat l with rfl | ⟨l', x, rfl⟩
  · simp [openFuture] at h
  · rw [List.concat_eq_append] at h ⊢
    rw [openFuture_snoc] at h
    have ih : ∀ {n}, openFuture t l' = some n → Act.returned t n ∈ l' := fun h => openFuture_returned h
    unfold futureStep at h
    split at h
    · split at h
      · cases h; subst_vars; simp
      · exact List.mem_append_left _ (ih h)
    · split at h
      · cases h
      · exact List.mem_append_left _ (ih h)
    · exact List.mem_append_left _ (ih h)
termination_by l.length
decreasing_by simp_all

theorem openGraph_started {t : Bytes} {n : List Nat} {l : Hist} (h : openGraph t l = some n) : Act.started t n ∈ l := by
  rcases List.eq_nil_or_concat l with rfl | ⟨l', x, rfl⟩
  · simp [openGraph] at h
  · rw [List.concat_eq_append] at h ⊢
    rw [openGraph_snoc] at h
    have ih : ∀ {n}, openGraph t l' = some n → Act.started t n ∈ l' := fun h => openGraph_started h
    unfold graphStep at h
    split at h
    · split at h
      · cases h; subst_vars; simp
      · exact List.mem_append_left _ (ih h)
    · split at h
      · cases h
      · exact List.mem_append_left _ (ih h)
    · exact List.mem_append_left _ (ih h)
termination_by l.length
decreasing_by simp_all

theorem exitTasks_task {p : Pickle} {l : List (Bytes × Nat)} {c c' : Client} (h : TaskInv p c)
    (hl : ∀ t n, (t, n) ∈ l → Act.returned t n ∈ c.log) (e : c.exitTasks l = .ok c') :
    TaskInv p c' ∧ c'.graphs = c.graphs ∧ (∀ x ∈ c.log, x ∈ c'.log) := by
  induction l generalizing c with
  | nil => simp only [exitTasks] at e; cases e; exact ⟨h, rfl, fun _ hx => hx⟩
  | cons x l ih =>
    obtain ⟨t, n⟩ := x
    simp only [exitTasks, Py.bind_ok] at e
    obtain ⟨c1, h1, h2⟩ := e
    have ho := setFuture_only h1
    have h3 := h.note (x := .sent (.taskCancel t)) (by simp) ⟨n, hl t n (by simp)⟩
    obtain ⟨i1, i2, i3⟩ := ih (h3.only ho) (by
      intro t' n' hm
      rw [ho.log]
      exact List.mem_append_left _ (hl t' n' (by simp [hm]))) h2
    refine ⟨i1, by rw [i2, ho.graphs]; rfl, ?_⟩
    intro x hx
    exact i3 _ (by rw [ho.log]; exact List.mem_append_left _ hx)

theorem exitGraphs_task {p : Pickle} {l : List (Bytes × List Nat)} {c c' : Client} (h : TaskInv p c)
    (hl : ∀ t n, (t, n) ∈ l → Act.started t n ∈ c.log) (e : c.exitGraphs l = .ok c') : TaskInv p c' := by
  induction l generalizing c with
  | nil => simp only [exitGraphs] at e; cases e; exact h
  | cons x l ih =>
    obtain ⟨t, n⟩ := x
    simp only [exitGraphs, Py.bind_ok] at e
    obtain ⟨c1, h1, h2⟩ := e
    have ho := exitFutures_only h1
    have h3 := h.note (x := .sent (.graphTaskCancel t)) (by simp) ⟨n, hl t n (by simp)⟩
    exact ih (h3.only ho) (by
      intro t' n' hm
      rw [ho.log]
      exact List.mem_append_left _ (hl t' n' (by simp [hm]))) h2

theorem step_task {p : Pickle} {c c' : Client} {o : Op} (hf : FutInv c) (h : TaskInv p c) (hn : FreshOp c o)
    (e : c.step p o = .ok c') : TaskInv p c' := by
  cases o with
  | submit t nm b args =>
    simp only [step] at e
    split at e <;> cases e
    · exact submit_task h hn nm b args
    · exact h
  | get g =>
    simp only [step] at e
    split at e <;> cases e
    · have h := h.note (x := .graph g) (by simp) trivial
      obtain ⟨a1, a2, a3, a4, a5, a6, a7, a8, a9, a10⟩ := h
      refine ⟨a1, a2, a3, by simp [Client.get, User.task?], by simp [Client.get], a6, a7, a8, ?_, a10⟩
      intro m hm
      rcases List.mem_append.1 hm with hm | hm
      · exact a9 m hm
      · simp only [List.mem_singleton] at hm
        subst hm
        simp [OutProper, Client.get, Client.send, Client.note]
    · exact h
  | advance =>
    simp only [step, advance] at e
    split at e
    · cases e; exact h
    · rename_i k nm b hu
      cases e
      obtain ⟨a1, a2, a3, a4, a5, a6, a7, a8, a9, a10⟩ := h
      refine ⟨a1, a2, a3, by simpa [hu, User.task?] using a4, by simp, a6, ?_, a8, a9, a10⟩
      intro i nm' b' hg
      simp only [Dict.get?_set] at hg
      split at hg
      · cases hg; exact ⟨k, a5 _ _ _ hu, ‹_›⟩
      · exact a7 _ _ _ hg
    · rename_i k hu
      cases e
      obtain ⟨a1, a2, a3, a4, a5, a6, a7, a8, a9, a10⟩ := h
      by_cases hh : c.notReady.has k.functionId = true
      all_goals simp only [hh, if_true, if_false, Bool.false_eq_true]
      all_goals exact ⟨a1, a2, a3, by simpa [hu, User.task?] using a4, by simp, a6, a7, a8, a9, a10⟩
    · rename_i k hu
      simp only [Py.bind_ok, Py.pure_eq] at e
      obtain ⟨c1, e1, e2⟩ := e
      cases e2
      have hu' : c1.user = c.user := by
        simp only [requestFunction, Py.bind_ok, Py.pure_eq] at e1
        obtain ⟨_, _, e1⟩ := e1
        cases e1; rfl
      obtain ⟨a1, a2, a3, a4, a5, a6, a7, a8, a9, a10⟩ := request_task h (h.user k (by rw [hu]; rfl)) e1
      exact ⟨a1, a2, a3, by simpa [hu, hu', User.task?] using a4, by simp, a6, a7, a8, a9, a10⟩
    · rename_i k hu
      cases e
      obtain ⟨a1, a2, a3, a4, a5, a6, a7, a8, a9, a10⟩ := append_task h (h.user k (by rw [hu]; rfl))
      exact ⟨a1, a2, a3, by simpa [hu, appendTask, User.task?] using a4, by simp, a6, a7, a8, a9, a10⟩
    · rename_i k hu
      cases e
      have h := h.note (x := .returned k.taskId c.futures.length) (by simp) trivial
      obtain ⟨a1, a2, a3, a4, a5, a6, a7, a8, a9, a10⟩ := h
      exact ⟨a1, a2, a3, by simp [User.task?], by simp, a6, a7, a8, a9, a10⟩
    · rename_i g ns hu
      cases e
      have h := h.note (x := .started g ns) (by simp) trivial
      obtain ⟨a1, a2, a3, a4, a5, a6, a7, a8, a9, a10⟩ := h
      exact ⟨a1, a2, a3, by simp [User.task?], by simp, a6, a7, a8, a9, a10⟩
  | cancel n =>
    cases e
    exact (h.note (x := .cancelled n) (by simp) trivial).congr rfl rfl rfl rfl rfl rfl
  | disconnect => cases e; exact h.congr rfl rfl rfl rfl rfl rfl
  | recv m =>
    simp only [step] at e
    split at e
    · cases e; exact h
    · exact receive_task h e
  | flush =>
    simp only [step] at e
    split at e
    · cases e; exact h
    · simp only [flush] at e
      split at e
      · cases e; exact h
      · rename_i m ms ho
        simp only [Py.bind_ok, Py.pure_eq] at e
        obtain ⟨_, _, e⟩ := e
        cases e
        have h := h.note (x := .sent m) (by simp) (h.out m (by simp [ho])).proper
        obtain ⟨a1, a2, a3, a4, a5, a6, a7, a8, a9, a10⟩ := h
        exact ⟨a1, a2, a3, a4, a5, a6, a7, a8, fun m' hm => a9 m' (by simp [Client.note, ho, hm]), a10⟩
  | exit =>
    simp only [step] at e
    split at e
    · simp only [exit, Py.bind_ok, Py.pure_eq] at e
      obtain ⟨c1, h1, c2, h2, e⟩ := e
      cases e
      obtain ⟨i1, i2, i3⟩ := exitTasks_task h (by
        intro t n hm
        have := Dict.mem_items.1 hm
        rw [hf.fut] at this
        exact openFuture_returned this) h1
      have := exitGraphs_task i1 (by
        intro t n hm
        rw [i2] at hm
        have := Dict.mem_items.1 hm
        rw [hf.gr] at this
        exact i3 _ (openGraph_started this)) h2
      exact (this.note (x := .exited) (by simp) trivial).congr rfl rfl rfl rfl rfl rfl
    · cases e; exact h

theorem Reach.task {p : Pickle} {c : Client} (h : Reach p c) : TaskInv p c := by
  induction h with
  | init => exact init_task p
  | step o hr hf e ih => exact step_task hr.fut ih hf e

/-! ## Copies -/

theorem countP_task (t : Bytes) (ks : List Task) :
    (ks.map Message.task).countP (isTask t) = ks.countP fun k => decide (k.taskId = t) := by
  simp [List.countP_map, Function.comp_def, isTask]

theorem CountInv.congr {c c' : Client} (h : CountInv c) (h1 : c'.notReady = c.notReady) (h2 : c'.outbox = c.outbox)
    (h3 : c'.user = c.user) (h4 : c'.log = c.log) : CountInv c' := by
  intro t
  simpa [waitCount, h1, h2, h3, h4] using h t

theorem CountInv.only {c c' : Client} (h : CountInv c) (ho : OnlyFutures c c') : CountInv c' :=
  h.congr ho.notReady ho.outbox ho.user ho.log

theorem CountInv.note {c : Client} (h : CountInv c) {x : Act} (hx : ∀ t, isSent t x = false) : CountInv (c.note x) := by
  intro t
  have := h t
  simp only [Client.note, countP_snoc, hx, waitCount] at this ⊢
  simp only [Bool.false_eq_true, if_false, Nat.add_zero]
  omega

theorem request_count {c c' : Client} {k : Task} (e : c.requestFunction k = .ok c') :
    ∃ nm b, c' = c.send (.functionRequest .add k.functionId nm b) := by
  simp only [requestFunction, Py.bind_ok, Py.pure_eq] at e
  obtain ⟨⟨nm, b⟩, _, e⟩ := e
  cases e
  exact ⟨nm, b, rfl⟩

theorem bufferSend_count {c c' : Client} {k : Task} (e : c.bufferSend k = .ok c') (t : Bytes) :
    c'.outbox.countP (isTask t) = c.outbox.countP (isTask t) ∧ c'.log = c.log ∧ c'.user = c.user ∧
    waitCount t c' = waitCount t c + if k.taskId = t then 1 else 0 := by
  simp only [bufferSend] at e
  split at e
  · cases e; exact ⟨rfl, rfl, rfl, waitCount_append t c k⟩
  · simp only [Py.bind_ok, Py.pure_eq] at e
    obtain ⟨c1, e1, e2⟩ := e
    cases e2
    obtain ⟨nm, b, rfl⟩ := request_count e1
    refine ⟨?_, rfl, rfl, ?_⟩
    · simp [appendTask, Client.send, List.countP_append, isTask]
    · rw [waitCount_append]; rfl

theorem receive_count {p : Pickle} {c c' : Client} {m : Message} (ht : TaskInv p c) (h : CountInv c) (e : c.receive p m = .ok c') :
    CountInv c' := by
  simp only [receive] at e
  have h1 := h.note (x := .recv m) (fun _ => rfl)
  split at e
  · rename_i t st
    simp only [onTaskEcho] at e
    split at e
    · cases e; exact h1
    · rename_i k hk
      split at e
      · cases e; exact h1
      · intro i
        obtain ⟨b1, b2, b3, b4⟩ := bufferSend_count e i
        rw [b1, b2, b3, b4]
        have := h i
        have hid : k.taskId = t := (ht.task t k hk).1
        subst hid
        simp only [Client.note, countP_snoc, waitCount, isSent, isSubmit, isRefused] at this ⊢
        simp only [decide_eq_true_eq, Bool.false_eq_true, if_false]
        omega
      · cases e
      · simp only [Py.bind_ok] at e
        obtain ⟨x, hx, y, hy, n, _, e⟩ := e
        have ho := setFuture_only e
        exact h1.congr ho.notReady ho.outbox ho.user ho.log
      · cases e
      · cases e
  · rename_i st fid nm b
    simp only [onFunctionResponse, Py.bind_ok] at e
    obtain ⟨_, hst, e⟩ := e
    split at e <;> cases e
    · exact h1
    · rename_i ks hg
      intro i
      have h1 := h1 i
      have := waitCount_erase i (c.note (.recv (.functionResponse st fid nm b))) hg
      have e2 : waitCount i { (c.note (.recv (.functionResponse st fid nm b))) with
          notReady := (c.note (.recv (.functionResponse st fid nm b))).notReady.erase fid,
          outbox := (c.note (.recv (.functionResponse st fid nm b))).outbox ++ ks.map Message.task } =
        waitCount i { (c.note (.recv (.functionResponse st fid nm b))) with
          notReady := (c.note (.recv (.functionResponse st fid nm b))).notReady.erase fid } := rfl
      rw [e2]
      simp only [List.countP_append, countP_task]
      omega
  · rename_i t st mm r
    simp only [onTaskResult] at e
    split at e
    · cases e; exact h1
    · split at e
      · simp only [Py.bind_ok] at e
        obtain ⟨_, _, e⟩ := e
        have ho := setFuture_only e
        exact h1.congr ho.notReady ho.outbox ho.user ho.log
      · simp only [Py.bind_ok] at e
        obtain ⟨_, _, e⟩ := e
        have ho := setFuture_only e
        exact h1.congr ho.notReady ho.outbox ho.user ho.log
      · cases e; exact h1.congr rfl rfl rfl rfl
  · rename_i g st rs
    simp only [onGraphTaskResult] at e
    split at e
    · cases e; exact h1
    · split at e
      · have ho := resolveAll_only e
        exact h1.congr ho.notReady ho.outbox ho.user ho.log
      · simp only [Py.bind_ok] at e
        obtain ⟨_, _, _, _, e⟩ := e
        have ho := resolveAll_only e
        exact h1.congr ho.notReady ho.outbox ho.user ho.log
      · cases e; exact h1.congr rfl rfl rfl rfl
  · cases e

theorem exitTasks_count {l : List (Bytes × Nat)} {c c' : Client} (h : CountInv c) (e : c.exitTasks l = .ok c') : CountInv c' := by
  induction l generalizing c with
  | nil => simp only [exitTasks] at e; cases e; exact h
  | cons x l ih =>
    simp only [exitTasks, Py.bind_ok] at e
    obtain ⟨c1, h1, h2⟩ := e
    exact ih ((h.note (fun _ => rfl)).only (setFuture_only h1)) h2

theorem exitGraphs_count {l : List (Bytes × List Nat)} {c c' : Client} (h : CountInv c) (e : c.exitGraphs l = .ok c') : CountInv c' := by
  induction l generalizing c with
  | nil => simp only [exitGraphs] at e; cases e; exact h
  | cons x l ih =>
    simp only [exitGraphs, Py.bind_ok] at e
    obtain ⟨c1, h1, h2⟩ := e
    exact ih ((h.note (fun _ => rfl)).only (exitFutures_only h1)) h2

theorem step_count {p : Pickle} {c c' : Client} {o : Op} (ht : TaskInv p c) (h : CountInv c) (e : c.step p o = .ok c') : CountInv c' := by
  cases o with
  | submit t nm b args =>
    simp only [step] at e
    split at e <;> cases e
    · rename_i hu
      intro i
      have := h i
      simp only [submit, Client.note, countP_snoc, waitCount, hu, User.unsent?, userCount, isSent, isSubmit, isRefused] at this ⊢
      simp only [decide_eq_true_eq, Bool.false_eq_true, if_false]
      omega
    · exact h
  | get g =>
    simp only [step] at e
    split at e <;> cases e
    · rename_i hu
      intro i
      have := h i
      simp only [Client.get, Client.note, Client.send, waitCount, hu, User.unsent?, userCount, isSent, isSubmit, isRefused,
        List.countP_append, List.countP_cons, List.countP_nil, isTask] at this ⊢
      simp only [Bool.false_eq_true, if_false]
      omega
    · exact h
  | advance =>
    simp only [step, advance] at e
    split at e
    · cases e; exact h
    · rename_i k nm b hu
      cases e
      intro i; have := h i; simpa [hu, User.unsent?, waitCount] using this
    · rename_i k hu
      cases e
      intro i; have := h i
      by_cases hh : c.notReady.has k.functionId = true
      all_goals simp only [hh, if_true, if_false, Bool.false_eq_true]
      all_goals simpa [hu, User.unsent?, waitCount] using this
    · rename_i k hu
      simp only [Py.bind_ok, Py.pure_eq] at e
      obtain ⟨c1, e1, e2⟩ := e
      cases e2
      obtain ⟨nm, b, rfl⟩ := request_count e1
      intro i; have := h i
      simpa [hu, User.unsent?, waitCount, Client.send, List.countP_append, isTask] using this
    · rename_i k hu
      cases e
      intro i
      have := h i
      have hw := waitCount_append i c k
      have e1 : ∀ u, waitCount i { (c.appendTask k) with user := u } = waitCount i (c.appendTask k) := fun _ => rfl
      simp only [hu, User.unsent?, userCount] at this
      simp only [User.unsent?, userCount, e1, hw]
      simp only [appendTask] at this ⊢
      omega
    · rename_i k hu
      cases e
      intro i
      have := h.note (x := .returned k.taskId c.futures.length) (fun _ => rfl) i
      simpa [hu, User.unsent?, waitCount, Client.note] using this
    · rename_i g ns hu
      cases e
      intro i
      have := h.note (x := .started g ns) (fun _ => rfl) i
      simpa [hu, User.unsent?, waitCount, Client.note] using this
  | cancel n =>
    cases e
    exact (h.note (x := .cancelled n) (fun _ => rfl)).congr rfl rfl rfl rfl
  | disconnect => cases e; exact h.congr rfl rfl rfl rfl
  | recv m =>
    simp only [step] at e
    split at e
    · cases e; exact h
    · exact receive_count ht h e
  | flush =>
    simp only [step] at e
    split at e
    · cases e; exact h
    · simp only [flush] at e
      split at e
      · cases e; exact h
      · rename_i m ms ho
        simp only [Py.bind_ok, Py.pure_eq] at e
        obtain ⟨_, _, e⟩ := e
        cases e
        intro i
        have := h i
        have e1 : isSent i (.sent m) = isTask i m := by cases m <;> rfl
        simp only [Client.note, countP_snoc, waitCount, ho, List.countP_cons, e1] at this ⊢
        have e2 : isSubmit i (.sent m) = false := rfl
        have e3 : isRefused i (.sent m) = false := rfl
        simp only [e2, e3, Bool.false_eq_true, if_false]
        omega
  | exit =>
    simp only [step] at e
    split at e
    · simp only [exit, Py.bind_ok, Py.pure_eq] at e
      obtain ⟨c1, h1, c2, h2, e⟩ := e
      cases e
      exact ((exitGraphs_count (exitTasks_count h h1) h2).note (x := .exited) (fun _ => rfl)).congr rfl rfl rfl rfl
    · cases e; exact h

theorem Reach.count {p : Pickle} {c : Client} (h : Reach p c) : CountInv c := by
  induction h with
  | init =>
    intro t
    simp [Client.init, waitCount, Dict.values, Dict.empty, User.unsent?, userCount]
  | step o hr hf e ih => exact step_count hr.task ih e

end Verif.Client
