import Verif.Props.SchedView

/-!
# C28: does the scheduler survive?
-/

namespace Verif.Props

open Verif.Queue Verif.Util Verif.Wire Verif.Sched Verif.Spec

/-- Executions with proper traffic at whose end the scheduler terminates with an exception. -/
def deaths : List (List Event × PyErr) :=
  [ -- a worker leaves (by request or timeout) after a submission that found it available
    ([addFn, beat wk, submit [1], ev (.recv wk (.disconnectRequest wk))], .assertionError),
    ([addFn, beat wk, submit [1], evAt 200 .workerRoutine], .assertionError),
    -- two results after such a submission
    ([addFn, beat wk, submit [1], submit [2], turn, turn, submit [3], done [1] [7], done [2] [8]], .valueError),
    -- the same with a balance response
    ([addFn, beat wk, submit [1], submit [2], turn, turn, submit [3], ev (.recv wk (.balanceResponse [[1], [2]]))], .valueError),
    -- a client cancels its graph before the scheduler unpacks it
    ([sendGraph (graphMsg [50] [([51], [val [1]])] [[51]]), cancelGraph [50]], .valueError),
    -- after it was answered
    ([beat wk, sendGraph (graphMsg [50] [([51], [val [1]])] [[51]]), gturn, turn, done [51] [7], cancelGraph [50]], .valueError),
    -- while a node waits
    ([sendGraph (graphMsg [50] [([51], [val [1]])] [[51]]), gturn, cancelGraph [50]], .keyError),
    -- a node fails while another one waits
    ([beat wk, sendGraph (graphMsg [50] [([51], []), ([52], []), ([53], [])] [[53]]), gturn, turn, turn, failed [51]], .keyError),
    -- a client cancels a waiting node while another one waits
    ([sendGraph (graphMsg [50] [([51], []), ([52], [])] [[51], [52]]), gturn, ev (.recv cl (.taskCancel [51]))], .keyError),
    -- a worker does not know a node that is cancelled there
    ([beat wk, sendGraph (graphMsg [50] [([51], [])] [[51]]), gturn, turn, ev (.recv wk (.taskResult [51] .notFound 0 []))], .valueError),
    -- a node names an input twice
    ([beat wk, sendGraph (graphMsg [50] [([51], []), ([52], [ref [51], ref [51]])] [[52]]), gturn, turn, done [51] [7]], .keyError),
    -- a function that nobody uses is deleted
    ([addFn, ev (.recv cl (.functionRequest .delete fn [] []))], .valueError),
    -- the report meets a client name that is not UTF-8
    ([addFn, ev (.recv [255] (.task ⟨[1], fn, []⟩)), ev .report], .unicodeError) ]

/-- **C28 is false of the code.** In each of these executions clients use fresh ids, registered functions and
acyclic graphs, and the scheduler ends with an exception. -/
theorem C28_scheduler_dies : ∀ p ∈ deaths, ∃ l s e, p.1.getLast? = some e ∧ Reach cfg0 l s ∧
    (∀ m ∈ e.input, Allowed l s.out m) ∧ s.step e = .error p.2 := by
  have h : ∀ p ∈ deaths, lastRaises cfg0 p.1 = some p.2 := by decide +kernel
  exact fun p hp => lastRaises_sound (h p hp)

/-- The locator of the worker is out of date: `max_priority` was called and the worker was not at the head of
the queue since (C08). -/
def OutOfDate (s : Sched) (w : Bytes) : Prop := s.wm.alloc.queue.stale w ≠ none

/-- The graph was submitted by a client and cannot be carried through: a node needs a function that is not
registered and not sent along, the nodes are cyclic, an input or target is no node, or a node names an input
twice. -/
def Defective (s : Sched) (gt : GraphTask) : Prop :=
  (∃ T ∈ gt.graph, functionOf s T.functionId = none ∧ T.functionId ∉ gt.functions.keys) ∨
  (¬ ∃ rank : Bytes → Nat, ∀ T ∈ gt.graph, ∀ a ∈ T.args, a.type = .task → rank a.data < rank T.taskId) ∨
  (∃ T ∈ gt.graph, ∃ a ∈ T.args, a.type = .task ∧ a.data ∉ gt.graph.map (·.taskId)) ∨
  (∃ t ∈ gt.targets, t ∉ gt.graph.map (·.taskId)) ∨
  (∃ T ∈ gt.graph, ¬ ((T.args.filter fun a => a.type = .task).map (·.data)).Nodup)

/-- A node of the graph in the tables was submitted and waits. -/
def NodeWaits (s : Sched) (gid t : Bytes) : Prop :=
  s.gm.nodeGraph.get? t = some gid ∧ t ∈ waitingQueue s

/-- Everything that can make the scheduler raise. -/
def Danger (l : Log) (s : Sched) (e : Event) : Prop :=
  match e.op with
  | .recv _ (.taskResult t st _ _) =>
    (∃ w, workerOf s t = some w ∧ OutOfDate s w) ∨
    ∃ gid w, s.gm.nodeGraph.get? t = some gid ∧ workerOf s t = some w ∧
      (st ≠ .success ∧ st ≠ .canceled ∧ st ≠ .failed ∨
       st = .success ∧ (∃ c gt, (c, .graphTask gt) ∈ l ∧ gt.taskId = gid ∧ Defective s gt) ∨
       (st = .canceled ∨ st = .failed) ∧ ∃ t', t' ≠ t ∧ NodeWaits s gid t')
  | .recv _ (.taskCancel t) => ∃ gid, NodeWaits s gid t ∧ ∃ t', t' ≠ t ∧ NodeWaits s gid t'
  | .recv _ (.balanceResponse _) => ∃ w, OutOfDate s w
  | .recv _ (.disconnectRequest w) => OutOfDate s w
  | .recv _ (.graphTaskCancel gid) => s.gm.graphs.get? gid = none ∨ ∃ t, NodeWaits s gid t
  | .recv _ (.functionRequest type fid _ _) => type = .delete ∧ functionOf s fid ≠ none ∧ ∀ t, claimOf s t ≠ some fid
  | .graphRoutine => ∃ c gt rest, s.gm.queue = (c, gt) :: rest ∧ Defective s gt
  | .workerRoutine => ∃ w, OutOfDate s w
  | .report => ¬ Readable s
  | _ => False

theorem defective_of_badSubmit {s : Sched} {gt : GraphTask} (h : BadSubmit s.abs gt) : Defective s gt := by
  have hin : ∀ (T : Task) d, d ∈ inputs T ↔ ∃ a ∈ T.args, a.type = .task ∧ a.data = d := by
    intro T d
    rw [mem_inputs]
    simp [refs, and_assoc]
  rcases h with h | h | ⟨T, hT, d, hd, hn⟩ | ⟨h1, h2⟩
  · exact Or.inl h
  · refine Or.inr (Or.inl ?_)
    rintro ⟨rank, hr⟩
    refine h ⟨rank, ?_⟩
    intro T hT d hd
    obtain ⟨a, ha, h1, rfl⟩ := (hin T d).1 hd
    exact hr T hT a ha h1
  · obtain ⟨a, ha, h1, rfl⟩ := (hin T d).1 hd
    exact Or.inr (Or.inr (Or.inl ⟨T, hT, a, ha, h1, hn⟩))
  · obtain ⟨t, ts, e⟩ := List.exists_cons_of_ne_nil h2
    exact Or.inr (Or.inr (Or.inr (Or.inl ⟨t, by rw [e]; exact List.mem_cons_self, by rw [h1]; simp⟩)))

/-- A node that can start when another one has ended was not submitted before. -/
theorem ready_after {h : History} {gid t u : Bytes} {gt : GraphTask} {g : Graph} {i0 i j : NodeInfo} {so : Sorter} (hok : GraphOK h gid gt g)
    (hset : Settled g) (hi0 : g.tasks.get? t = some i0) (hrun : i0.state = .running) (hso : g.sorter.done t = .ok so) (hu : u ∈ so.ready)
    (hj : (g.tasks.set t i).get? u = some j) : g.tasks.get? u = some j ∧ j.state = .inactive := by
  have hout : g.sorter.isOut t = true := by
    obtain ⟨T, _, hTt, _, _, hN⟩ := hok.node t i0 hi0
    simp only [hrun, hTt] at hN
    exact hN.2.1
  obtain ⟨so', hso', hOK, hd, ho⟩ := Sorter.done_spec hok.sorter hout
  rw [hso] at hso'; cases hso'
  obtain ⟨n, hn, h0⟩ := (hOK.ready u).1 hu
  have hnd : so.isDone u = false := by
    rw [Bool.eq_false_iff]; intro hx
    obtain ⟨n', h1, h2⟩ := Sorter.isDone_iff.1 hx
    rw [hn] at h1; cases h1; omega
  have hno : so.isOut u = false := by
    rw [Bool.eq_false_iff]; intro hx
    obtain ⟨n', h1, h2⟩ := Sorter.isOut_iff.1 hx
    rw [hn] at h1; cases h1; omega
  have hut : u ≠ t := by
    rintro rfl
    have := hd u
    rw [hnd] at this
    simp at this
  rw [Dict.get?_set, if_neg (fun e => hut e.symm)] at hj
  refine ⟨hj, ?_⟩
  obtain ⟨T, _, hTt, _, _, hN⟩ := hok.node u j hj
  rcases hset.alive u j hj with e | e | e
  · exact e
  · simp only [e, hTt] at hN
    have := ho u
    rw [hno, hN.2.1] at this
    simp [hut] at this
  · simp only [e, hTt] at hN
    have := hd u
    rw [hnd, hN.1] at this
    simp at this

theorem danger_of_cause {cfg : Config} {l : Log} {s : Sched} (hg : Good cfg l s) {e : Event} (hc : Cause s e) : Danger l s e := by
  have hi := hg.inv
  have hnode : ∀ gid g t i, s.abs.graphs gid = some g → g.tasks.get? t = some i → s.gm.nodeGraph.get? t = some gid := by
    intro gid g t i h1 h2
    exact (hi.nodes t gid).2 ⟨g, h1, by rw [h2]; rfl⟩
  have htrouble : ∀ r : TaskRes, (s.abs.worker r.taskId).isSome → Sched.NodeTrouble s.abs r →
      ∃ gid w, s.gm.nodeGraph.get? r.taskId = some gid ∧ workerOf s r.taskId = some w ∧
      (r.status ≠ .success ∧ r.status ≠ .canceled ∧ r.status ≠ .failed ∨
       r.status = .success ∧ (∃ c gt, (c, .graphTask gt) ∈ l ∧ gt.taskId = gid ∧ Defective s gt) ∨
       (r.status = .canceled ∨ r.status = .failed) ∧ ∃ t', t' ≠ r.taskId ∧ NodeWaits s gid t') := by
    rintro r hw ⟨gid, g, h1, h2, h3⟩
    obtain ⟨w, hw⟩ := Option.isSome_iff_exists.1 hw
    refine ⟨gid, w, h1, hw, ?_⟩
    rcases h3 with h3 | ⟨h3, i0, so, hi0, hso, h4⟩ | ⟨h3, t, i, h4, h5, h6, h7⟩
    · exact Or.inl h3
    · refine Or.inr (Or.inl ⟨h3, ?_⟩)
      obtain ⟨gt, hok⟩ := hi.graphs gid g h2
      refine ⟨g.client, gt, hok.src, hok.id, ?_⟩
      rcases h4 with ⟨_, t, ht, hn⟩ | ⟨_, t, htr, i, ht, hn⟩
      · refine Or.inr (Or.inr (Or.inr (Or.inl ⟨t, by rw [← hok.targets]; exact ht, ?_⟩)))
        intro hx; exact hn ((hok.ids t).2 hx)
      · have hrun := (hi.held_running h2 hi0 ((hi.place _).2 (Or.inr (Or.inr (by rw [hw]; rfl))))).1
        obtain ⟨ht, hst⟩ := ready_after hok (hg.settled gid g h2) hi0 hrun hso htr ht
        obtain ⟨T, hT, _, hNok⟩ := hok.node t i ht
        obtain ⟨_, _, h5⟩ := hNok
        rw [hst] at h5
        simp only at h5
        refine Or.inr (Or.inr (Or.inr (Or.inr ⟨T, hT, ?_⟩)))
        rw [← h5.1]; exact hn
    · exact Or.inr (Or.inr ⟨h3, t, h4, hnode gid g t i h2 h5, h7⟩)
  obtain ⟨op, now, o⟩ := e
  cases op with
  | recv c m =>
    cases m with
    | taskResult t st d r =>
      rcases hc with h1 | ⟨h1, h2⟩
      · obtain ⟨w, h1, h2⟩ := h1
        exact Or.inl ⟨w, h1, h2.stale⟩
      · exact Or.inr (htrouble ⟨t, st, d, r⟩ h1 h2)
    | taskCancel t =>
      obtain ⟨h1, gid, g, h2, h3, h4⟩ := hc
      refine ⟨gid, ⟨h2, h1⟩, ?_⟩
      rcases h4 with h4 | ⟨h4, _⟩ | ⟨_, t', i, h5, h6, h7, h8⟩
      · exact absurd rfl h4.2.1
      · cases h4
      · exact ⟨t', h5, hnode gid g t' i h3 h6, h8⟩
    | graphTaskCancel gid =>
      rcases hc with h1 | ⟨g, t, i, h1, h2, _, h4⟩
      · exact Or.inl h1
      · exact Or.inr ⟨t, hnode gid g t i h1 h2, h4⟩
    | functionRequest type fid name content =>
      obtain ⟨h1, h2, h3⟩ := hc
      exact ⟨h1, Option.isSome_iff_ne_none.1 h2, h3⟩
    | balanceResponse ids =>
      obtain ⟨t, _, w, _, h1 | ⟨h1, _⟩⟩ := hc
      · exact ⟨w, h1.stale⟩
      · exact ⟨w, h1⟩
    | disconnectRequest w => exact hc.2
    | _ => exact hc
  | workerRoutine =>
    obtain ⟨w, _, _, _, _, h1⟩ := hc
    exact ⟨w, h1⟩
  | graphRoutine =>
    obtain ⟨c, gt, rest, h1, h2⟩ := hc
    exact ⟨c, gt, rest, h1, defective_of_badSubmit h2⟩
  | _ => exact hc

/-- **C28, partial.** In every reachable state, every event with properly chosen ids is handled without an
exception, except in the situations listed in `Danger`.  In particular submissions, heartbeats, the task
routine and the function routine never raise.

Full statement: no event raises in a reachable state with acyclic graphs and registered functions.  Missing:
the situations in `Danger`; for these it is false (`C28_scheduler_dies`). -/
theorem C28_survives_partial (cfg : Config) (l : Log) (s : Sched) (hr : Reach cfg l s) (e : Event)
    (ha : ∀ m ∈ e.input, Allowed l s.out m) (hd : ¬ Danger l s e) :
    ∃ s', s.step e = .ok s' ∧ Reach cfg (l ++ e.input) s' := by
  have hg := hr.good
  have hp := step_post hg e ha
  cases hs : s.step e with
  | ok s' => exact ⟨s', rfl, .step e hr ha hs⟩
  | error err =>
    rw [hs] at hp
    exact absurd (danger_of_cause hg hp) hd

/-- A diamond next to single tasks, with results in a mixed order, and a function that expires. -/
def liveStory : List Event :=
  [addFn, beat wk, sendGraph (graphMsg [50] [([51], [val [1]]), ([52], [ref [51]]), ([53], [val [2], ref [51]]),
     ([54], [ref [53], ref [52]])] [[54], [51]]),
   gturn, submit [1], turn, turn, done [51] [7], turn, done [1] [9], turn, done [52] [10], done [53] [11], turn, done [54] [12],
   evAt 50 .report, evAt 99 (.recv wk (.heartbeat hb0)), evAt 150 .workerRoutine, evAt 200 .functionRoutine]

example : (runInit cfg0 liveStory).map (fun p => (p.2.out.getLast?, p.2.out.filter (isAnswer [50]))) =
    some (some (wk, .functionRequest .delete fn [] []), [(cl, .graphTaskResult [50] .success [[12], [7]])]) := by decide +kernel

end Verif.Props
