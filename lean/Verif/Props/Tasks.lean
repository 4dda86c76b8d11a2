import Verif.Props.SchedView
import Verif.Sched.EchoFirst

/-!
# C16, C17, C18, C29: what the scheduler does with accepted tasks
-/

namespace Verif.Props

open Verif.Queue Verif.Util Verif.Wire Verif.Sched Verif.Spec

theorem ite_iff {p q : Prop} [Decidable p] [Decidable q] (h : p ↔ q) : (if p then 1 else 0 : Nat) = if q then 1 else 0 := by
  by_cases hp : p
  · rw [if_pos hp, if_pos (h.1 hp)]
  · rw [if_neg hp, if_neg (fun x => hp (h.2 x))]

/-- **C16.** In every execution, for every id that is not a graph node and for every client: the number of
acceptances sent to this client is the number of results sent to it, plus one if the scheduler holds the
task for it.  And every submission was answered, with an acceptance or a refusal. -/
theorem C16_exactly_once (cfg : Config) (l : Log) (s : Sched) (hr : Reach cfg l s) (t : Bytes) (ht : ¬ InGraph l t) :
    (∀ c, acks (only c) t s.out = results (only c) t s.out + if Holding s t ∧ ownerOf s t = some c then 1 else 0) ∧
    acks anyone t s.out = results anyone t s.out + (if Holding s t then 1 else 0) ∧
    submits t l = acks anyone t s.out + refusals t s.out := by
  have hg := hr.good
  refine ⟨?_, ?_, hg.echo t ht⟩
  · intro c
    have := hg.acct (only c) t ht
    have e : s.abs.out = s.out := rfl
    rw [e] at this
    rw [this]
    congr 1
    apply ite_iff
    show (s.clients.v2k.get? t).any (only c) = true ∧ (s.tm.tasks.get? t).isSome ↔ _
    unfold Holding ownerOf only
    cases s.clients.v2k.get? t <;> simp [and_comm]
  · have := hg.acct anyone t ht
    have e : s.abs.out = s.out := rfl
    rw [e] at this
    rw [this]
    congr 1
    apply ite_iff
    have ho := hg.inv.owned t
    change (s.tm.tasks.get? t).isSome = true → (s.clients.v2k.get? t).isSome = true at ho
    show (s.clients.v2k.get? t).any anyone = true ∧ (s.tm.tasks.get? t).isSome ↔ _
    unfold Holding anyone
    cases h1 : s.clients.v2k.get? t with
    | none =>
      rw [h1] at ho
      simp only [Option.any_none, Bool.false_eq_true, false_and, false_iff]
      intro h; exact absurd (ho h) (by simp)
    | some c => simp

/-- Two tasks; the worker that has them dies; one result arrives from another worker, twice. -/
def taskStory : List Event :=
  [addFn, beat wk, submit [1], submit [2], turn, turn, beat wk2, turn, ev (.recv cl (.disconnectRequest wk)),
   turn, turn, done [2] [7], done [2] [7]]

example : (runInit cfg0 taskStory).map (fun p =>
      ([acks anyone [1] p.2.out, results anyone [1] p.2.out, acks anyone [2] p.2.out, results (only cl) [2] p.2.out],
       [decide (Holding p.2 [1]), decide (Holding p.2 [2])], workerOf p.2 [1])) =
    some ([1, 0, 1, 1], [true, false], some wk2) := by decide +kernel

/-- **C17.** Every result that is sent goes to a client that was told that its submission of this task was
accepted; and its content is what some worker reported, or a cancellation that a client asked for.  For ids that are not graph
nodes a client gets at most as many results as acceptances. -/
theorem C17_right_client (cfg : Config) (l : Log) (s : Sched) (hr : Reach cfg l s) (c t d' : Bytes) (st : TaskStatus) (d : UInt32)
    (hm : (c, .taskResult t st d d') ∈ s.out) :
    (c, .taskEcho t .submitOK) ∈ s.out ∧ Mentioned l t ∧
    ((∃ w, (w, .taskResult t st d d') ∈ l) ∨ st = .canceled ∧ d = 0 ∧ d' = [] ∧ ∃ c', (c', .taskCancel t) ∈ l) ∧
    (¬ InGraph l t → results (only c) t s.out ≤ acks (only c) t s.out) := by
  have hg := hr.good
  obtain ⟨h1, h2⟩ := hg.sent.result c t st d d' hm
  refine ⟨h1, ?_, h2, ?_⟩
  · apply Classical.byContradiction
    intro hn
    have h3 := hg.said t hn _ hm
    exact h3 rfl
  · intro hn
    rw [(C16_exactly_once cfg l s hr t hn).1 c]
    exact Nat.le_add_right _ _

/-- two clients -/
def twoClients : List Event :=
  [addFn, beat wk, submit [1], ev (.recv [68] (.task ⟨[2], fn, []⟩)), turn, turn, done [2] [7], done [1] [8]]

example : (runInit cfg0 twoClients).map (fun p => p.2.out.filter fun m => isResult anyone [1] m || isResult anyone [2] m) =
    some [([68], .taskResult [2] .success 0 [7]), (cl, .taskResult [1] .success 0 [8])] := by decide +kernel

/-- **C17.** The acceptance is sent before the result. -/
theorem C17_echo_first (cfg : Config) (l : Log) (s : Sched) (hr : Reach cfg l s) (l₁ l₂ : Log) (c t d' : Bytes) (st : TaskStatus) (d : UInt32)
    (hm : s.out = l₁ ++ (c, .taskResult t st d d') :: l₂) : (c, .taskEcho t .submitOK) ∈ l₁ :=
  hr.echoFirst l₁ l₂ c t st d d' hm

example : (runInit cfg0 twoClients).map (fun p => p.2.out.filterMap fun m => if m.1 = cl then some m.2 else none) =
    some [.functionResponse .ok fn [] [], .taskEcho [1] .submitOK, .taskResult [1] .success 0 [8]] := by decide +kernel

/-- **C18.** In every reachable state a task is held exactly if it is in the waiting queue, or being placed,
or with a worker, and never in two of these; the queue has no duplicates; the worker is connected, and the
task is in the task set of this worker and of no other. -/
theorem C18_one_place (cfg : Config) (l : Log) (s : Sched) (hr : Reach cfg l s) (t : Bytes) :
    (Holding s t ↔ t ∈ waitingQueue s ∨ beingPlaced s = some t ∨ ∃ w, workerOf s t = some w) ∧
    ¬ (t ∈ waitingQueue s ∧ beingPlaced s = some t) ∧
    ¬ (t ∈ waitingQueue s ∧ ∃ w, workerOf s t = some w) ∧
    ¬ (beingPlaced s = some t ∧ ∃ w, workerOf s t = some w) ∧
    (waitingQueue s).Nodup ∧
    (∀ w, workerOf s t = some w → Connected s w) ∧
    (∀ w, workerOf s t = some w ↔ ∃ ts, s.wm.alloc.w2t.get? w = some ts ∧ t ∈ ts) := by
  have hg := hr.good
  have hi := hg.inv
  refine ⟨?_, ?_, ?_, ?_, hi.nodup, hi.up t, fun w => hg.conc.alloc.agree t w⟩
  · have := hi.place t
    rw [Option.isSome_iff_exists (x := s.abs.worker t)] at this
    exact this
  · rintro ⟨h1, h2⟩; exact (hi.apart t h1).1 h2
  · rintro ⟨h1, w, h2⟩; exact absurd h2 (by rw [show workerOf s t = none from (hi.apart t h1).2]; simp)
  · rintro ⟨h1, w, h2⟩; exact absurd h2 (by rw [show workerOf s t = none from hi.apart' t h1]; simp)

/-- No worker, then one with a queue of two. -/
def placeStory : List Event :=
  [addFn, submit [1], submit [2], submit [3], turn, beat wk, turn, turn, turn]

example : ((List.range 10).map fun n => (runInit cfg0 (placeStory.take n)).map fun p =>
      (waitingQueue p.2, beingPlaced p.2, [1, 2, 3].filter fun t => workerOf p.2 [t] = some wk)) =
    [some ([], none, []), some ([], none, []), some ([[1]], none, []), some ([[1], [2]], none, []),
     some ([[1], [2], [3]], none, []), some ([[2], [3]], some [1], []), some ([[2], [3]], some [1], []),
     some ([[2], [3]], none, [1]), some ([[3]], none, [1, 2]), some ([[3]], none, [1, 2])] := by decide +kernel

/-- **C29.** In every execution in which workers report final statuses, the number of acceptances is
success + failed + canceled + not found plus the number of tasks held.  Tasks held are those waiting, being
placed and running.  Producing the status report raises nothing but `UnicodeDecodeError`, and that only if
some client, worker or function name is not UTF-8. -/
theorem C29_statistics (cfg : Config) (l : Log) (s : Sched) (hr : Reach cfg l s) :
    ((∀ w t st d r, (w, .taskResult t st d r) ∈ l → st = .success ∨ st = .failed ∨ st = .canceled ∨ st = .notFound) →
      allAcks s.out = s.tm.success + s.tm.failed + s.tm.canceled + s.tm.notFound + s.tm.tasks.size) ∧
    s.tm.tasks.size = (waitingQueue s).length + (beingPlaced s).toList.length + s.tm.running.size ∧
    (∀ now, (∃ r, s.report now = .ok r ∧ r.success = s.tm.success ∧ r.failed = s.tm.failed ∧ r.canceled = s.tm.canceled ∧
        r.notFound = s.tm.notFound ∧ r.unassigned = (waitingQueue s).length ∧ r.running = s.tm.running.size) ∨
      (s.report now = .error .unicodeError ∧ ¬ Readable s)) := by
  have hg := hr.good
  have hi := hg.inv
  refine ⟨?_, ?_, ?_⟩
  · intro hf
    have h1 : (allAcks s.out : Int) = s.tm.success + s.tm.failed + s.tm.canceled + s.tm.notFound + s.tm.tasks.size :=
      hg.counted hf
    omega
  · have hrun : ∀ t, t ∈ s.tm.running.items ↔ (s.abs.worker t).isSome := hg.conc.running
    have hperm : s.tm.tasks.keys.Perm (waitingQueue s ++ ((beingPlaced s).toList ++ s.tm.running.items)) := by
      rw [List.perm_ext_iff_of_nodup (Dict.nodup_keys _)]
      · intro t
        rw [Dict.mem_keys, List.mem_append, List.mem_append, hrun, Option.mem_toList, ← Option.isSome_iff_exists]
        exact hi.place t
      · rw [List.nodup_append]
        refine ⟨hi.nodup, ?_, ?_⟩
        · rw [List.nodup_append]
          refine ⟨?_, s.tm.running.nodup, ?_⟩
          · cases beingPlaced s <;> simp
          · intro a ha b hb
            rintro rfl
            rw [Option.mem_toList] at ha
            rw [hrun] at hb
            rw [hi.apart' a ha] at hb; cases hb
        · intro a ha b hb
          rintro rfl
          have h2 := hi.apart a ha
          rcases List.mem_append.1 hb with hb | hb
          · rw [Option.mem_toList] at hb; exact h2.1 hb
          · rw [hrun, h2.2] at hb; cases hb
    have := hperm.length_eq
    simp only [List.length_append] at this
    rw [← Dict.size_keys, this]
    show _ = _ + _ + s.tm.running.items.length
    omega
  · intro now
    have hp := report_post hg.conc hi now
    cases hrep : s.report now with
    | error e =>
      rw [hrep] at hp
      obtain ⟨h1, h2⟩ : e = .unicodeError ∧ ¬ Readable s := hp
      exact Or.inr ⟨by rw [h1], h2⟩
    | ok r =>
      refine Or.inl ⟨r, rfl, ?_⟩
      unfold Sched.report at hrep
      obtain ⟨_, _, hrep⟩ := Py.bind_ok.1 hrep
      obtain ⟨_, _, hrep⟩ := Py.bind_ok.1 hrep
      obtain ⟨_, _, hrep⟩ := Py.bind_ok.1 hrep
      cases hrep
      exact ⟨rfl, rfl, rfl, rfl, IQueue.WF.len hg.conc.queue, rfl⟩

example : (runInit cfg0 (taskStory ++ [submit [3], ev (.recv cl (.taskCancel [3])), turn])).map (fun p =>
      (allAcks p.2.out, p.2.tm.success, p.2.tm.canceled, p.2.tm.tasks.size, (waitingQueue p.2).length, p.2.tm.running.size)) =
    some (3, 1, 1, 1, 0, 1) := by decide +kernel

end Verif.Props
