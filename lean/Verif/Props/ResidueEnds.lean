import Verif.Client.ClientKept
import Verif.Props.Agent
import Verif.Props.Client
import Verif.Props.Residue

/-!
# C101: clients and workers keep nothing for what is finished
-/

namespace Verif.Props

section
open Verif.Wire Verif.Client Verif.Spec.Client

/-- **C101.** What the tables of a client hold, in every execution: the futures that were not answered, the graphs that were not answered, the
tasks that were not accepted, each with its function. -/
theorem C101_client_tables {p : Pickle} {c : Client.Client} (hr : Client.Reach p c) :
    (∀ t, c.toFuture.get? t = openFuture t c.log) ∧ (∀ g, c.graphs.get? g = openGraph g c.log) ∧
    (∀ t, c.toTask.get? t = unaccepted t c.log) ∧
    (c.user = .idle → ∀ t, (c.toFunction.get? t).isSome = true ↔ (unaccepted t c.log).isSome = true) :=
  ⟨hr.fut.fut, hr.fut.gr, hr.kept.task, fun hu t => by rw [hr.kept.fn, hr.kept.task, hu]; simp⟩

theorem unaccepted_none {t : Bytes} {k : Task} {nm b : Bytes} : ∀ {l : Hist}, Act.submitted k nm b ∈ l → k.taskId = t → unaccepted t l = none →
    0 < l.countP (isAccepted t) := by
  suffices h : ∀ (r : List Act), (∀ l : Hist, l.reverse = r → Act.submitted k nm b ∈ l → k.taskId = t → unaccepted t l = none →
      0 < l.countP (isAccepted t)) from fun {l} => h l.reverse l rfl
  intro r
  induction r with
  | nil => intro l hl hm; rw [List.reverse_eq_nil_iff] at hl; subst hl; cases hm
  | cons x r ih =>
    intro l hl hm hk hu
    have hl' : l = r.reverse ++ [x] := by rw [← List.reverse_reverse l, hl, List.reverse_cons]
    subst hl'
    rw [unaccepted_snoc] at hu
    rw [countP_snoc]
    have hx : x ≠ .submitted k nm b := fun e => by subst e; simp [unacceptedStep, hk] at hu
    have hm : Act.submitted k nm b ∈ r.reverse := by
      rcases List.mem_append.1 hm with h | h
      · exact h
      · exact absurd (List.mem_singleton.1 h).symm hx
    by_cases ha : isAccepted t x = true
    · rw [if_pos ha]; omega
    · refine Nat.lt_add_right _ (ih r.reverse (List.reverse_reverse r) hm hk ?_)
      unfold unacceptedStep at hu
      split at hu
      · split at hu
        · cases hu
        · exact hu
      · split at hu
        · next h => exact absurd (by simp [isAccepted, h]) ha
        · exact hu
      · exact hu

/-- **C101.** A client whose calls were all answered keeps nothing of them, if the scheduler answers each copy of a task once.  Messages may be
handled in the middle of a call.

Not included are the functions the client remembers: see `C100_kept`. -/
theorem C101_client {p : Pickle} {c : Client.Client} (hr : Client.Reach p c) (hp : OneAnswer c.log) (ha : Answered c) : KeepsNothing c := by
  obtain ⟨h1, h2, h3, h4⟩ := C101_client_tables hr
  have hfun : ∀ t, c.toFunction.get? t = none := fun t => Option.not_isSome_iff_eq_none.1 fun hh => by
    have := (h4 ha.idle t).1 hh
    rw [ha.accepted] at this
    cases this
  have hwait : ∀ fid, c.notReady.get? fid = none := fun fid => by
    cases hk : c.notReady.get? fid with
    | none => rfl
    | some ks =>
      exfalso
      obtain ⟨k, r, rfl⟩ := List.exists_cons_of_ne_nil (hr.kept.full fid ks hk)
      obtain ⟨_, nm, b, hm, _⟩ := hr.task.wait fid _ hk k (by simp)
      have hacc := unaccepted_none hm rfl (ha.accepted k.taskId)
      have hc := hr.count k.taskId
      have h1 := countP_submit_le k.taskId c.log
      have h2 := countP_le_one hr.ids k.taskId
      have hw := waitCount_erase k.taskId c hk
      have h3 := hp k nm b hm
      simp only [List.countP_cons, decide_true, if_true] at hw
      omega
  exact ⟨Dict.items_eq_nil.2 fun t => (h3 t).trans (ha.accepted t), Dict.items_eq_nil.2 hfun, Dict.items_eq_nil.2 fun t => (h1 t).trans (ha.tasks t),
    Dict.items_eq_nil.2 hwait, Dict.items_eq_nil.2 fun t => (h2 t).trans (ha.graphs t)⟩

/-- Two tasks, one of which is refused at first, and a graph. -/
def residueCalls : List Client.Op :=
  submitAll [1] ++ submitAll [2] ++ [.get pair, .advance, .flush, fnOk, .flush, .flush, .flush, .recv (.taskEcho [1] .submitOK),
    .recv (.taskEcho [2] .functionNotExists), .flush, fnOk, .flush, .recv (.taskEcho [2] .submitOK), .recv (.taskResult [1] .success 0 [42]),
    .recv (.taskResult [2] .failed 0 [43]), .recv (.graphTaskResult [20] .success [[7], [8]])]

example : ∃ c, Client.Reach plainPickle c ∧ OneAnswer c.log ∧ Answered c ∧ c.futures = [.result [42], .exception [43], .result [7], .result [8]] := by
  have h : clientWitness residueCalls (fun c => decide (c.user = .idle ∧ c.toTask.items = [] ∧ c.toFuture.items = [] ∧ c.graphs.items = [] ∧
      c.futures = [.result [42], .exception [43], .result [7], .result [8]] ∧
      c.log.filter (fun x => match x with | .recv (.taskEcho _ _) => true | .sent (.task _) => true | _ => false) =
        [.sent (.task ⟨[1], [9], []⟩), .sent (.task ⟨[2], [9], []⟩), .recv (.taskEcho [1] .submitOK),
          .recv (.taskEcho [2] .functionNotExists), .sent (.task ⟨[2], [9], []⟩), .recv (.taskEcho [2] .submitOK)])) = some true := by decide +kernel
  obtain ⟨c, hc, hf⟩ := clientWitness_sound h
  obtain ⟨h1, h2, h3, h4, h5, h6⟩ := of_decide_eq_true hf
  obtain ⟨t1, t2, t3, _⟩ := C101_client_tables hc
  refine ⟨c, hc, fun k _ _ _ => ?_, ⟨h1, fun t => ?_, fun t => ?_, fun t => ?_⟩, h5⟩
  · generalize k.taskId = t
    have e : ∀ (f : Act → Bool), (∀ x, f x = true → (match x with | .recv (.taskEcho _ _) => true | .sent (.task _) => true | _ => false) = true) →
        c.log.countP f = (c.log.filter (fun x => match x with | .recv (.taskEcho _ _) => true | .sent (.task _) => true | _ => false)).countP f := by
      intro f hf
      rw [List.countP_filter]
      refine List.countP_congr fun x _ => ?_
      simp only [Bool.and_eq_true]
      exact ⟨fun h => ⟨h, hf x h⟩, fun h => h.1⟩
    rw [e (isAccepted t), e (isRefused t), e (isSent t), h6]
    · by_cases e1 : [1] = t
      · subst e1; decide
      · by_cases e2 : [2] = t
        · subst e2; decide
        · simp [isAccepted, isRefused, isSent, e1, e2]
    · intro x hx; unfold isSent at hx; split at hx <;> first | rfl | cases hx
    · intro x hx; unfold isRefused at hx; split at hx <;> first | rfl | cases hx
    · intro x hx; unfold isAccepted at hx; split at hx <;> first | rfl | cases hx
  · rw [← t3, Dict.items_eq_nil.1 h2]
  · rw [← t1, Dict.items_eq_nil.1 h3]
  · rw [← t2, Dict.items_eq_nil.1 h4]

/-- Half of it: the first task is accepted, the second is not, and both futures are open. -/
example : clientWitness (residueCalls.take 20) (fun c => [c.toTask.keys, c.toFunction.keys, c.toFuture.keys, c.notReady.keys, c.graphs.keys]) =
    some [[[2]], [[2]], [[1], [2]], [], [[20]]] := by decide +kernel

end

section
open Verif.Wire Verif.Queue Verif.Worker Verif.Worker.Agent Verif.Spec.Worker

/-- **C101.** A worker whose tasks were all answered or given back holds none: the tables of its agent are empty, and nothing is in the
processor. -/
theorem C101_agent {d start : Int} {a : Agent} (hr : Worker.Reach d start a) (hh : Honest a.log)
    (ha : ∀ t, times (isTask t) a.log = times (isAnswer t) a.log + returned t a.log) : Spec.Worker.Empty a := by
  have h0 : ∀ t, a.queue.contents.count t = 0 ∧ taskCount t a.pos.task? = 0 ∧ taskCount t a.task = 0 := fun t => by
    have := C51_accounted hr hh t
    have h2 := ha t
    unfold pend runs Pos.count at this
    omega
  have hi := hr.good.inv
  have hc : a.queue.contents = [] := List.eq_nil_iff_forall_not_mem.2 fun t ht => by
    have := List.count_pos_iff.2 ht
    have := (h0 t).1
    omega
  have hnone : ∀ o : Option Task, (∀ t, taskCount t o = 0) → o = none := fun o h => by
    cases o with
    | none => rfl
    | some k => have := h k.taskId; simp at this
  refine ⟨Dict.items_eq_nil.2 fun t => ?_, hc, Dict.items_eq_nil.2 fun t => ?_, ?_, hnone _ fun t => (h0 t).2.2⟩
  · have := hi.keys t
    rw [hc] at this
    simpa [Dict.has] using this
  · obtain ⟨l, hl⟩ := hi.wf
    have : l = [] := by rw [IQueue.contents_eq hl] at hc; simpa using hc
    subst this
    refine Option.not_isSome_iff_eq_none.1 fun hs => ?_
    obtain ⟨i, hi⟩ := Option.isSome_iff_exists.1 hs
    have := (hl.map t i).1 hi
    simp at this
  · have := hnone _ fun t => (h0 t).2.1
    cases hp : a.pos <;> rw [hp] at this <;> first | rfl | cases this

/-- **C101.** At any time, the tables of a worker's agent have as many entries as tasks wait in its queue. -/
theorem C101_agent_size {d start : Int} {a : Agent} (hr : Worker.Reach d start a) :
    a.tasks.size = a.queue.contents.length ∧ a.queue.len = a.queue.contents.length ∧ a.queue.map.size = a.queue.contents.length := by
  have hi := hr.good.inv
  obtain ⟨l, hl⟩ := hi.wf
  have hn : a.queue.contents.Nodup := IQueue.WF.nodup ⟨l, hl⟩
  refine ⟨Nat.le_antisymm (size_le fun t k hk => (hi.keys t).1 ?_) ?_, IQueue.WF.len ⟨l, hl⟩, ?_⟩
  · simp [Dict.has, hk]
  · rw [keys_size]
    exact length_le_of_subset hn fun t ht => Dict.mem_keys_isSome.2 ((hi.keys t).2 ht)
  · rw [IQueue.contents_eq hl] at hn ⊢
    refine Nat.le_antisymm (size_le fun t i ht => ?_) ?_
    · obtain ⟨v, hv, he⟩ := (hl.map t i).1 ht
      exact List.mem_map.2 ⟨(i, v), hv, he⟩
    · rw [keys_size]
      refine length_le_of_subset hn fun t ht => ?_
      obtain ⟨⟨i, v⟩, hv, rfl⟩ := List.mem_map.1 ht
      exact Dict.mem_keys.2 ⟨i, (hl.map _ i).2 ⟨v, hv, rfl⟩⟩

/-- Four tasks: one is given back, one is cancelled, two are run. -/
def residueTasks : List Event :=
  [⟨.recv (.task ⟨[1], [7], []⟩), 1⟩, ⟨.recv (.task ⟨[2], [7], []⟩), 1⟩, ⟨.recv (.task ⟨[3], [7], []⟩), 1⟩, ⟨.recv (.task ⟨[4], [7], []⟩), 1⟩, ⟨.heard (.taskResult [] .success 0 []), 1⟩, ⟨.turn, 1⟩,
    ⟨.recv (.balanceRequest 1), 1⟩, ⟨.recv (.taskCancel [3]), 1⟩, ⟨.heard (.taskResult [1] .success 0 [9]), 2⟩, ⟨.turn, 3⟩,
    ⟨.heard (.taskResult [4] .failed 0 [9]), 4⟩]

example : agentWitness 10 1 residueTasks [] (fun a _ => [[1], [2], [3], [4]].map fun t =>
      (times (isTask t) a.log, times (isAnswer t) a.log, returned t a.log)) =
    some [(1, 1, 0), (1, 0, 1), (1, 1, 0), (1, 1, 0)] := by decide +kernel

example : agentWitness 10 1 (residueTasks.take 6) [] (fun a _ => (a.tasks.size, a.queue.contents.length, a.queue.map.size, a.task.isSome)) =
    some (3, 3, 3, true) := by decide +kernel

end

end Verif.Props
