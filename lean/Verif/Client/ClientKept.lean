import Verif.Client.ClientAlone
import Verif.Spec.Residue

/-!
# What a client keeps of its tasks

`_task_id_to_task` and `_task_id_to_function` hold exactly the tasks that were submitted and not accepted yet.
-/

namespace Verif.Client

open Verif Verif.Wire Verif.Spec Verif.Spec.Client Client

theorem unaccepted_snoc (t : Bytes) (l : Hist) (x : Act) : unaccepted t (l ++ [x]) = unacceptedStep t x (unaccepted t l) := by
  simp [unaccepted]

structure KeptInv (c : Client) : Prop where
  task : ∀ t, c.toTask.get? t = unaccepted t c.log
  fn : ∀ t, (c.toFunction.get? t).isSome = true ↔ (c.toTask.get? t).isSome = true ∧ ∀ k nm b, c.user = .stored k nm b → k.taskId ≠ t
  stored : ∀ k nm b, c.user = .stored k nm b → (c.toTask.get? k.taskId).isSome = true
  full : ∀ fid ks, c.notReady.get? fid = some ks → ks ≠ []

/-- A step that does not concern the two tables. -/
structure Aside (c c' : Client) : Prop where
  task : c'.toTask = c.toTask
  fn : c'.toFunction = c.toFunction
  log : ∀ t, unaccepted t c'.log = unaccepted t c.log
  user : ∀ k nm b, c'.user = .stored k nm b ↔ c.user = .stored k nm b
  full : ∀ fid ks, c'.notReady.get? fid = some ks → ks ≠ [] ∨ c.notReady.get? fid = some ks

theorem Aside.trans {a b c : Client} (h : Aside a b) (h' : Aside b c) : Aside a c :=
  ⟨h'.task.trans h.task, h'.fn.trans h.fn, fun t => (h'.log t).trans (h.log t), fun k nm x => (h'.user k nm x).trans (h.user k nm x),
    fun f ks hk => (h'.full f ks hk).elim .inl (h.full f ks)⟩

theorem Aside.refl (c : Client) : Aside c c := ⟨rfl, rfl, fun _ => rfl, fun _ _ _ => .rfl, fun _ _ hk => .inr hk⟩

theorem KeptInv.aside {c c' : Client} (h : KeptInv c) (ha : Aside c c') : KeptInv c' := by
  obtain ⟨h1, h2, h3, h4⟩ := h
  obtain ⟨a1, a2, a3, a4, a5⟩ := ha
  refine ⟨fun t => by rw [a1, a3]; exact h1 t, fun t => ?_, fun k nm b hu => by rw [a1]; exact h3 k nm b ((a4 k nm b).1 hu),
    fun f ks hk => (a5 f ks hk).elim id (h4 f ks)⟩
  rw [a1, a2, h2 t]
  simp only [a4]

theorem Aside.only {c c' : Client} (h : OnlyFutures c c') : Aside c c' :=
  ⟨h.toTask, h.toFunction, fun _ => by rw [h.log], fun _ _ _ => by rw [h.user],
    fun _ _ hk => .inr (by rw [h.notReady] at hk; exact hk)⟩

theorem Aside.note (c : Client) {x : Act} (h : ∀ t s, unacceptedStep t x s = s) : Aside c (c.note x) :=
  ⟨rfl, rfl, fun t => by show unaccepted t (c.log ++ [x]) = _; rw [unaccepted_snoc, h], fun _ _ _ => .rfl, fun _ _ hk => .inr hk⟩

theorem exitTasks_aside {l : List (Bytes × Nat)} {c c' : Client} (e : c.exitTasks l = .ok c') : Aside c c' := by
  induction l generalizing c with
  | nil => simp only [exitTasks] at e; cases e; exact .refl _
  | cons x l ih =>
    simp only [exitTasks, Py.bind_ok] at e
    obtain ⟨c1, h1, h2⟩ := e
    exact ((Aside.note c (fun _ _ => rfl)).trans (.only (setFuture_only h1))).trans (ih h2)

theorem exitGraphs_aside {l : List (Bytes × List Nat)} {c c' : Client} (e : c.exitGraphs l = .ok c') : Aside c c' := by
  induction l generalizing c with
  | nil => simp only [exitGraphs] at e; cases e; exact .refl _
  | cons x l ih =>
    simp only [exitGraphs, Py.bind_ok] at e
    obtain ⟨c1, h1, h2⟩ := e
    exact ((Aside.note c (fun _ _ => rfl)).trans (.only (exitFutures_only h1))).trans (ih h2)

theorem requestFunction_aside {c c' : Client} {k : Task} (e : c.requestFunction k = .ok c') : Aside c c' := by
  simp only [requestFunction, Py.bind_ok, Py.pure_eq] at e
  obtain ⟨_, _, e⟩ := e
  cases e
  exact ⟨rfl, rfl, fun _ => rfl, fun _ _ _ => .rfl, fun _ _ hk => .inr hk⟩

theorem append_full (c : Client) (k : Task) (fid : Bytes) (ks : List Task) (h : (c.appendTask k).notReady.get? fid = some ks) :
    ks ≠ [] ∨ c.notReady.get? fid = some ks := by
  simp only [appendTask, Dict.get?_set] at h
  split at h
  · cases h; exact .inl (by simp)
  · exact .inr h

theorem bufferSend_aside {c c' : Client} {k : Task} (e : c.bufferSend k = .ok c') : Aside c c' := by
  simp only [bufferSend] at e
  split at e
  · cases e; exact ⟨rfl, rfl, fun _ => rfl, fun _ _ _ => .rfl, append_full c k⟩
  · simp only [Py.bind_ok, Py.pure_eq] at e
    obtain ⟨c1, h1, e⟩ := e
    cases e
    exact (requestFunction_aside h1).trans ⟨rfl, rfl, fun _ => rfl, fun _ _ _ => .rfl, append_full c1 k⟩

theorem receive_kept {p : Pickle} {c c' : Client} {m : Message} (h : KeptInv c) (e : c.receive p m = .ok c') : KeptInv c' := by
  simp only [receive] at e
  split at e
  · next t st =>
    have hq : st ≠ .submitOK → Aside c (c.note (.recv (.taskEcho t st))) := fun hs => .note c (fun _ _ => by
      cases st <;> first | exact absurd rfl hs | rfl)
    simp only [onTaskEcho] at e
    split at e
    · next hk =>
      cases e
      replace hk : c.toTask.get? t = none := hk
      refine h.aside ⟨rfl, rfl, fun u => ?_, fun _ _ _ => .rfl, fun _ _ hk => .inr hk⟩
      show unaccepted u (c.log ++ [_]) = _
      rw [unaccepted_snoc]
      cases st <;> try rfl
      simp only [unacceptedStep]
      split
      · next hu => subst hu; rw [← h.task]; exact hk.symm
      · rfl
    · next k hk =>
      split at e
      · cases e; exact h.aside (hq (by simp))
      · exact h.aside ((hq (by simp)).trans (bufferSend_aside e))
      · cases e
      · simp only [Py.bind_ok] at e
        obtain ⟨⟨x, x'⟩, hx, ⟨y, y'⟩, hy, n, _, e⟩ := e
        obtain ⟨_, h1⟩ := Dict.pop_ok.1 hx
        obtain ⟨h2, h3⟩ := Dict.pop_ok.1 hy
        subst h1 h3
        have ho := setFuture_only e
        have h2 : c.toFunction.get? t = some y := h2
        have hst := (h.fn t).1 (by rw [h2]; rfl)
        constructor
        · intro u
          rw [ho.toTask, ho.log]
          show (c.toTask.erase t).get? u = unaccepted u (c.log ++ [_])
          rw [unaccepted_snoc, Dict.get?_erase, ← h.task]
          rfl
        · intro u
          rw [ho.toTask, ho.toFunction, ho.user]
          show ((c.toFunction.erase t).get? u).isSome = true ↔ ((c.toTask.erase t).get? u).isSome = true ∧ ∀ k nm b, c.user = .stored k nm b → k.taskId ≠ u
          rw [Dict.get?_erase, Dict.get?_erase]
          split
          · simp
          · exact h.fn u
        · intro k nm b hu
          rw [ho.user] at hu
          rw [ho.toTask]
          show ((c.toTask.erase t).get? k.taskId).isSome = true
          rw [Dict.get?_erase, if_neg (fun e => hst.2 k nm b hu e.symm)]
          exact h.stored k nm b hu
        · rw [ho.notReady]
          exact h.full
      · cases e
      · cases e
  · simp only [onFunctionResponse, Py.bind_ok] at e
    obtain ⟨_, hst, e⟩ := e
    split at e <;> cases e
    · exact h.aside (Aside.note c (fun _ _ => rfl))
    · refine h.aside ((Aside.note c (fun _ _ => rfl)).trans ⟨rfl, rfl, fun _ => rfl, fun _ _ _ => .rfl, fun f ks hk => .inr ?_⟩)
      simp only [Dict.get?_erase] at hk
      split at hk
      · cases hk
      · exact hk
  · next t st d r =>
    have hn : Aside c (c.note (.recv (.taskResult t st d r))) := .note c (fun _ _ => rfl)
    simp only [onTaskResult] at e
    split at e
    · cases e; exact h.aside hn
    · have hn : Aside c { (c.note (.recv (.taskResult t st d r))) with toFuture := (c.note (.recv (.taskResult t st d r))).toFuture.erase t } :=
        ⟨hn.task, hn.fn, hn.log, hn.user, hn.full⟩
      split at e
      · simp only [Py.bind_ok] at e
        obtain ⟨_, _, e⟩ := e
        exact h.aside (hn.trans (.only (setFuture_only e)))
      · simp only [Py.bind_ok] at e
        obtain ⟨_, _, e⟩ := e
        exact h.aside (hn.trans (.only (setFuture_only e)))
      · cases e; exact h.aside hn
  · next g st rs =>
    have hn : Aside c (c.note (.recv (.graphTaskResult g st rs))) := .note c (fun _ _ => rfl)
    simp only [onGraphTaskResult] at e
    split at e
    · cases e; exact h.aside hn
    · have hn : Aside c { (c.note (.recv (.graphTaskResult g st rs))) with graphs := (c.note (.recv (.graphTaskResult g st rs))).graphs.erase g } :=
        ⟨hn.task, hn.fn, hn.log, hn.user, hn.full⟩
      split at e
      · exact h.aside (hn.trans (.only (resolveAll_only e)))
      · simp only [Py.bind_ok] at e
        obtain ⟨_, _, _, _, e⟩ := e
        exact h.aside (hn.trans (.only (resolveAll_only e)))
      · cases e; exact h.aside hn
  · cases e

theorem step_kept {p : Pickle} {c c' : Client} {o : Op} (h : KeptInv c) (hfr : FreshOp c o) (ht : ∀ t, (c.toTask.get? t).isSome → t ∈ usedIds c.log)
    (e : c.step p o = .ok c') : KeptInv c' := by
  cases o with
  | submit t nm b args =>
    simp only [Client.step] at e
    split at e
    · next hu =>
      cases e
      have hnew : c.toTask.get? t = none := Option.not_isSome_iff_eq_none.1 fun hh => hfr (ht t hh)
      constructor
      · intro u
        show (c.toTask.set t _).get? u = unaccepted u (c.log ++ [_])
        rw [unaccepted_snoc, Dict.get?_set, ← h.task]
        rfl
      · intro u
        show (c.toFunction.get? u).isSome = true ↔ ((c.toTask.set t _).get? u).isSome = true ∧ ∀ k nm' b', User.stored _ nm b = .stored k nm' b' → k.taskId ≠ u
        rw [Dict.get?_set, h.fn u, hu]
        by_cases htu : t = u
        · subst htu
          rw [hnew]
          simp
        · simp [htu]
      · intro k nm' b' hk
        cases hk
        show ((c.toTask.set t _).get? t).isSome = true
        rw [Dict.get?_set, if_pos rfl]
        rfl
      · exact h.full
    · cases e; exact h
  | get g =>
    simp only [Client.step] at e
    split at e
    · next hu =>
      cases e
      refine h.aside ((Aside.note c (x := .graph g) (fun _ _ => rfl)).trans ⟨rfl, rfl, fun _ => rfl, fun k nm b => ?_, fun _ _ hk => .inr hk⟩)
      show User.registerGraph _ _ = _ ↔ c.user = _
      rw [hu]
      simp
    · cases e; exact h
  | advance =>
    have quiet : ∀ {c' : Client}, c'.toTask = c.toTask → c'.toFunction = c.toFunction → (∀ t, unaccepted t c'.log = unaccepted t c.log) →
        (∀ k nm b, c.user ≠ .stored k nm b) → (∀ k nm b, c'.user ≠ .stored k nm b) →
        (∀ fid ks, c'.notReady.get? fid = some ks → ks ≠ [] ∨ c.notReady.get? fid = some ks) → KeptInv c' := fun h1 h2 h3 h4 h5 h6 =>
      h.aside ⟨h1, h2, h3, fun k nm b => ⟨fun x => absurd x (h5 k nm b), fun x => absurd x (h4 k nm b)⟩, h6⟩
    simp only [Client.step, advance] at e
    split at e
    · cases e; exact h
    · next k nm b hu =>
      cases e
      constructor
      · exact h.task
      · intro u
        show ((c.toFunction.set k.taskId (nm, b)).get? u).isSome = true ↔ (c.toTask.get? u).isSome = true ∧ ∀ k' nm' b', User.check k = .stored k' nm' b' → k'.taskId ≠ u
        rw [Dict.get?_set]
        by_cases hk : k.taskId = u
        · subst hk
          simp [h.stored k nm b hu]
        · rw [if_neg hk, h.fn u, hu]
          simp [hk]
      · intro k' nm' b' hk
        cases hk
      · exact h.full
    · next hu => cases e; refine quiet rfl rfl (fun _ => rfl) (by simp [hu]) (fun _ _ _ => ?_) (fun _ _ hk => .inr hk); dsimp only; split <;> simp
    · next hu =>
      simp only [Py.bind_ok, Py.pure_eq] at e
      obtain ⟨c1, e1, e2⟩ := e
      cases e2
      have ha := requestFunction_aside e1
      exact quiet ha.task ha.fn ha.log (by simp [hu]) (by simp) ha.full
    · next k hu => cases e; exact quiet rfl rfl (fun _ => rfl) (by simp [hu]) (by simp) (append_full c k)
    · next k hu =>
      cases e
      exact quiet rfl rfl (Aside.note c (x := .returned k.taskId c.futures.length) (fun _ _ => rfl)).log (by simp [hu]) (by simp) (fun _ _ hk => .inr hk)
    · next g ns hu =>
      cases e
      exact quiet rfl rfl (Aside.note c (x := .started g ns) (fun _ _ => rfl)).log (by simp [hu]) (by simp) (fun _ _ hk => .inr hk)
  | cancel n => cases e; exact h.aside ((Aside.note c (fun _ _ => rfl)).trans ⟨rfl, rfl, fun _ => rfl, fun _ _ _ => .rfl, fun _ _ hk => .inr hk⟩)
  | disconnect => cases e; exact h.aside ⟨rfl, rfl, fun _ => rfl, fun _ _ _ => .rfl, fun _ _ hk => .inr hk⟩
  | flush =>
    simp only [Client.step] at e
    split at e
    · cases e; exact h
    · simp only [flush] at e
      split at e
      · cases e; exact h
      · next m ms hm =>
        simp only [Py.bind_ok, Py.pure_eq] at e
        obtain ⟨_, _, e⟩ := e
        cases e
        exact h.aside ((Aside.note c (x := .sent m) (fun _ _ => rfl)).trans ⟨rfl, rfl, fun _ => rfl, fun _ _ _ => .rfl, fun _ _ hk => .inr hk⟩)
  | exit =>
    simp only [Client.step] at e
    split at e
    · simp only [exit, Py.bind_ok, Py.pure_eq] at e
      obtain ⟨c1, h1, c2, h2, e⟩ := e
      cases e
      exact h.aside (((exitTasks_aside h1).trans (exitGraphs_aside h2)).trans
        ((Aside.note c2 (x := .exited) (fun _ _ => rfl)).trans ⟨rfl, rfl, fun _ => rfl, fun _ _ _ => .rfl, fun _ _ hk => .inr hk⟩))
    · cases e; exact h
  | recv m =>
    simp only [Client.step] at e
    split at e
    · cases e; exact h
    · exact receive_kept h e

theorem Reach.kept {p : Pickle} {c : Client} (h : Reach p c) : KeptInv c := by
  induction h with
  | init => exact ⟨fun _ => rfl, fun _ => by simp [Client.init], fun _ _ _ h => (by cases h), fun _ _ h => (by cases h)⟩
  | @step c c' o hr hf e ih =>
    refine step_kept ih hf (fun t ht => ?_) e
    obtain ⟨k, hk⟩ := Option.isSome_iff_exists.1 ht
    obtain ⟨hid, nm, b, hm, _⟩ := hr.task.task t k hk
    exact hid ▸ hr.task.used k nm b hm

end Verif.Client
