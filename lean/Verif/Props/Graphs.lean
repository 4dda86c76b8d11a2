import Verif.Props.Survive
import Verif.Sched.Later
import Verif.Spec.Graph

/-!
# C33 to C40: graphs
-/

namespace Verif.Props

open Verif.Queue Verif.Util Verif.Wire Verif.Sched Verif.Spec

/-- The graph in the tables that the node belongs to. -/
def graphOf (s : Sched) (t : Bytes) : Option Bytes := s.gm.nodeGraph.get? t

/-- ids of the nodes of a graph message -/
def nodesOf (g : GraphTask) : List Bytes := g.graph.map (·.taskId)

/-- `g` waits to be unpacked. -/
def Queued (s : Sched) (g : GraphTask) : Prop := ∃ c, (c, g) ∈ s.gm.queue

theorem filled_of_argsOK {l : Log} {as bs : List Argument} (h : ArgsOK ⟨l, none⟩ as bs) : Filled l as bs := by
  induction h with
  | nil => exact .nil
  | @cons a a' as as' h1 _ ih =>
    obtain ⟨ty, x⟩ := a
    cases ty with
    | data =>
      have e : a' = ⟨.data, x⟩ := h1
      rw [e]; exact .data ih
    | task =>
      obtain ⟨e, r⟩ : a'.type = .data ∧ HasResult _ x a'.data := h1
      obtain ⟨ty', y⟩ := a'
      change ty' = .data at e
      subst e
      exact .node r ih

/-- **C33.** In every execution, whenever a task with a node's id is held by the scheduler or was sent to a
worker, it is a node of a received graph, with the declared function, and its arguments are the declared
ones in order with every reference replaced by a result of this node that was received.  (Taken in the state
right after the node was accepted or sent this says that the results were there before.)  Tasks that are not
nodes are held and sent exactly as a client submitted them. -/
theorem C33_after_inputs (cfg : Config) (l : Log) (s : Sched) (hr : Reach cfg l s) (k : Task)
    (hk : s.tm.tasks.get? k.taskId = some k ∨ ∃ w, (w, .task k) ∈ s.out) :
    (InGraph l k.taskId → ∃ c g T, (c, .graphTask g) ∈ l ∧ T ∈ g.graph ∧ k.taskId = T.taskId ∧ k.functionId = T.functionId ∧
      Filled l T.args k.args) ∧
    (¬ InGraph l k.taskId → ∃ c, (c, .task k) ∈ l) := by
  have hg := hr.good
  have ho : Origin ⟨l, none⟩ k := by
    rcases hk with hk | ⟨w, hk⟩
    · exact hg.inv.origin _ k hk
    · exact hg.inv.sent w k hk
  rcases ho with ⟨c, h1⟩ | ⟨c, g, T, h1, h2, h3, h4, h5⟩
  · exact ⟨fun h => absurd h (hg.apart c k h1), fun _ => ⟨c, h1⟩⟩
  · refine ⟨fun _ => ⟨c, g, T, h1, h2, h3, h4, filled_of_argsOK h5⟩, fun h => absurd ⟨c, g, h1, ?_⟩ h⟩
    rw [h3]
    exact List.mem_cons_of_mem _ (List.mem_map.2 ⟨T, h2, rfl⟩)

/-- A diamond; the two middle nodes end in the order opposite to the one in which the last node names them. -/
def diamond : GraphTask := graphMsg [50] [([51], [val [1]]), ([52], [ref [51]]), ([53], [val [2], ref [51]]),
  ([54], [ref [53], val [3], ref [52]])] [[54], [51]]

def diamondStory : List Event :=
  [beat wk, sendGraph diamond, gturn, turn, done [51] [7], turn, turn, done [52] [8], done [53] [9], turn, done [54] [10]]

example : (runInit cfg0 diamondStory).map (fun p => p.2.out.filterMap fun m => match m.2 with | .task k => some (k.taskId, k.args) | _ => none) =
    some [([51], [val [1]]), ([52], [val [7]]), ([53], [val [2], val [7]]), ([54], [val [9], val [3], val [8]])] := by decide +kernel

/-- **C34.** In every execution every node of a graph is submitted at most once: at most one acceptance or
refusal was ever said for its id. -/
theorem C34_at_most_once (cfg : Config) (l : Log) (s : Sched) (hr : Reach cfg l s) (c : Bytes) (g : GraphTask)
    (hg : (c, .graphTask g) ∈ l) (t : Bytes) (ht : t ∈ nodesOf g) : acks anyone t s.out + refusals t s.out ≤ 1 := by
  rw [← echoes_eq]
  exact hr.good.once.echo t ⟨c, g, hg, List.mem_cons_of_mem _ ht⟩

example : (runInit cfg0 diamondStory).map (fun p => (nodesOf diamond).map fun t => acks anyone t p.2.out) = some [1, 1, 1, 1] := by
  decide +kernel

/-! ### The value -/

theorem find_node {g : GraphTask} (hn : (nodeIds g).Nodup) {T : Task} (hT : T ∈ g.graph) :
    (g.graph.find? fun T' => T'.taskId = T.taskId) = some T := by
  unfold nodeIds at hn
  generalize g.graph = ts at hn hT
  induction ts with
  | nil => cases hT
  | cons a ts ih =>
    rw [List.map_cons, List.nodup_cons] at hn
    rcases List.mem_cons.1 hT with e | hT
    · subst e; simp
    · have : a.taskId ≠ T.taskId := by
        intro e
        exact hn.1 (by rw [e]; exact List.mem_map.2 ⟨T, hT, rfl⟩)
      rw [List.find?_cons_of_neg (by simpa using this)]
      exact ih hn.2 hT

theorem mapM_filled {l : Log} {as bs : List Argument} (h : Filled l as bs) (v : Bytes → Option Bytes)
    (hv : ∀ a ∈ as, a.type = .task → ∀ r, Succeeded l a.data r → v a.data = some r) :
    as.mapM (argValue v) = some (bs.map (·.data)) := by
  induction h with
  | nil => rfl
  | data _ ih =>
    rw [List.mapM_cons]
    simp only [Option.pure_def, Option.bind_eq_bind]
    rw [ih (fun a ha => hv a (List.mem_cons_of_mem _ ha))]
    rfl
  | @node t r as bs hs _ ih =>
    rw [List.mapM_cons]
    simp only [Option.pure_def, Option.bind_eq_bind]
    rw [ih (fun a ha => hv a (List.mem_cons_of_mem _ ha)), argValue]
    simp only
    rw [hv _ List.mem_cons_self rfl r hs]
    rfl

theorem le_sum_of_mem {x : Nat} : ∀ {xs : List Nat}, x ∈ xs → x ≤ xs.sum
  | y :: ys, h => by
    rw [List.sum_cons]
    rcases List.mem_cons.1 h with rfl | h
    · omega
    · have := le_sum_of_mem h; omega

/-- **C35.** If whoever reports success of a node reports the value of the node's function on the arguments
it was sent, then in every execution a Success answer for a graph carries the values of the targets of the
graph, in order, and goes to the client that submitted the graph. -/
theorem C35_graph_value (cfg : Config) (l : Log) (s : Sched) (hr : Reach cfg l s) (F : Bytes → List Bytes → Bytes)
    (hF : HonestNodes F l s.out) (c gid : Bytes) (rs : List Bytes) (hm : (c, .graphTaskResult gid .success rs) ∈ s.out) :
    ∃ g, (c, .graphTask g) ∈ l ∧ g.taskId = gid ∧ GraphValue g F rs := by
  have hg := hr.good
  obtain ⟨g, h1, h2, ⟨hn, hcl, rank, hrank⟩, h3, _⟩ := hg.answered c gid .success rs hm
  obtain ⟨f, hrs, hf⟩ := h3 rfl
  refine ⟨g, h1, h2, ?_⟩
  have key : ∀ n t r, rank t < n → t ∈ nodeIds g → Succeeded l t r → evalNode g F n t = some r := by
    intro n
    induction n with
    | zero => intro t r h; omega
    | succ n ih =>
      intro t r hlt ht hs
      obtain ⟨w, k, hk, rfl, rfl⟩ := hF t r ⟨c, g, h1, List.mem_cons_of_mem _ ht⟩ hs
      obtain ⟨c', g', T, k1, k2, k3, k4, k5⟩ :=
        (C33_after_inputs cfg l s hr k (Or.inr ⟨w, hk⟩)).1 ⟨c, g, h1, List.mem_cons_of_mem _ ht⟩
      have : g' = g := (hg.unique c' g' c g k.taskId k1 h1
        (by rw [k3]; exact List.mem_cons_of_mem _ (List.mem_map.2 ⟨T, k2, rfl⟩)) (List.mem_cons_of_mem _ ht)).2
      subst this
      have hfind := find_node hn k2
      rw [evalNode, k3, hfind]
      simp only
      have hreq : ∀ a ∈ T.args, a.type = .task → a.data ∈ req g' T.taskId := by
        intro a ha hta
        rw [req, hfind]
        simp only [mem_inputs]
        simp only [refs, List.mem_map, List.mem_filter]
        exact ⟨a, ⟨ha, by simpa using hta⟩, rfl⟩
      rw [mapM_filled k5 (evalNode g' F n) (by
        intro a ha hta r' hr'
        have h5 := hreq a ha hta
        rw [← k3] at h5
        have h6 := hrank _ ht _ h5
        exact ih a.data r' (by omega) (hcl _ ht _ h5) hr')]
      rw [Option.map_some, k4]
  refine ⟨(g.targets.map rank).sum + 1, fun n hle => ?_⟩
  rw [hrs, List.map_map]
  apply List.map_congr_left
  intro t ht
  have hle2 : rank t ≤ (g.targets.map rank).sum := le_sum_of_mem (List.mem_map.2 ⟨t, ht, rfl⟩)
  exact key n t (f t) (by omega) (hf t ht).1 (hf t ht).2

/-- the function that concatenates its arguments -/
def cat (_ : Bytes) (xs : List Bytes) : Bytes := xs.flatten

def honestStory : List Event :=
  [beat wk, sendGraph diamond, gturn, turn, done [51] [1], turn, turn, done [52] [1], done [53] [2, 1], turn, done [54] [2, 1, 3, 1]]

example : (runInit cfg0 honestStory).map (fun p => p.2.out.filter (isAnswer [50])) =
    some [(cl, .graphTaskResult [50] .success [[2, 1, 3, 1], [1]])] := by decide +kernel

/-- `HonestNodes` as a test. -/
def honestB (F : Bytes → List Bytes → Bytes) (l out : Log) : Bool :=
  l.all fun m => match m.2 with
    | .taskResult t .success _ r => out.any fun m' => match m'.2 with
      | .task k => decide (k.taskId = t ∧ r = F k.functionId (k.args.map (·.data)))
      | _ => false
    | _ => true

theorem honestB_sound {F : Bytes → List Bytes → Bytes} {l out : Log} (h : honestB F l out = true) : HonestNodes F l out := by
  rintro t r - ⟨w, d, hm⟩
  have := List.all_eq_true.1 h _ hm
  simp only [List.any_eq_true] at this
  obtain ⟨⟨w', m⟩, hm', h2⟩ := this
  cases m <;> simp at h2
  exact ⟨w', _, hm', h2.1, h2.2⟩

example : ∃ p, runInit cfg0 honestStory = some p ∧ Reach cfg0 p.1 p.2 ∧ HonestNodes cat p.1 p.2.out := by
  have h : ((runInit cfg0 honestStory).map fun p => honestB cat p.1 p.2.out) = some true := by decide +kernel
  obtain ⟨p, hp, h2⟩ := Option.map_eq_some_iff.1 h
  exact ⟨p, hp, runInit_reach hp, honestB_sound h2⟩

example : diamond.targets.map (evalNode diamond cat 5) = [some [2, 1, 3, 1], some [1]] := by decide +kernel

/-! ### Progress -/

/-- **C36, partial.** In every execution: a received graph for which no cancel was received and no answer was
sent is waiting to be unpacked, or one of its nodes is held by the scheduler (submitted and unfinished); so
when no node is held any more, it has been answered.

Full statement: the same without `hw`.  Missing: with a limit on waiting tasks a node can be refused with
`NoWorker`; then the statement is false (`C36_stuck`). -/
theorem C36_not_stuck_partial (cfg : Config) (l : Log) (s : Sched) (hr : Reach cfg l s) (c : Bytes) (g : GraphTask)
    (hg : (c, .graphTask g) ∈ l) (hc : ∀ c', (c', .graphTaskCancel g.taskId) ∉ l)
    (ha : ∀ st rs, (c, .graphTaskResult g.taskId st rs) ∉ s.out)
    (hw : cfg.maxWaiting < 0 ∨ ∀ t ∈ nodesOf g, ∀ c', (c', .taskEcho t .noWorker) ∉ s.out) :
    Queued s g ∨ ∃ t ∈ nodesOf g, Holding s t := by
  have hG := hr.good
  rcases hG.fate c g hg with h | ⟨gr, h1, _, hok⟩ | ⟨st, rs, h⟩ | ⟨c', h⟩
  · exact Or.inl ⟨c, h⟩
  · right
    have hset := hG.settled g.taskId gr h1
    obtain ⟨t, ht⟩ := hset.active
    obtain ⟨i, h2, h3⟩ := hok.out t ht
    have hrun : i.state = .running := by
      rcases h3 with h3 | h3
      · have := hset.started t i h2 h3
        rw [ht] at this; cases this
      · exact h3
    have hmem := hok.mem_node h2
    refine ⟨t, hmem, ?_⟩
    rcases hG.pins.running g.taskId gr t i h1 h2 hrun with h4 | ⟨h4, c', h5⟩
    · exact h4
    · exfalso
      rcases hw with hw | hw
      · have : (decide (0 ≤ s.cfg.maxWaiting)) = true := h4
        rw [hG.cfg] at this
        have := of_decide_eq_true this
        omega
      · exact hw t hmem c' h5
  · exact absurd h (ha st rs)
  · exact absurd h (hc c')

example : ((List.range 12).map fun n => (runInit cfg0 (diamondStory.take n)).map fun p =>
      (p.2.gm.queue.length, (nodesOf diamond).filter fun t => Holding p.2 t, answers [50] p.2.out)) =
    [some (0, [], 0), some (0, [], 0), some (1, [], 0), some (0, [[51]], 0), some (0, [[51]], 0), some (0, [[52], [53]], 0),
     some (0, [[52], [53]], 0), some (0, [[52], [53]], 0), some (0, [[53]], 0), some (0, [[54]], 0), some (0, [[54]], 0),
     some (0, [], 1)] := by decide +kernel

/-- No task may wait. -/
def cfgFull : Config := { cfg0 with maxWaiting := 0 }

/-- **C36 is false of the code.** With a limit on waiting tasks and no worker, the only node of the graph is
refused; the graph stays unanswered though no node of it is held. -/
theorem C36_stuck : ∃ l s c g, Reach cfgFull l s ∧ (c, .graphTask g) ∈ l ∧ (∀ c', (c', .graphTaskCancel g.taskId) ∉ l) ∧
    (∀ st rs, (c, .graphTaskResult g.taskId st rs) ∉ s.out) ∧ (s.gm.graphs.get? g.taskId).isSome ∧
    ¬ (Queued s g ∨ ∃ t ∈ nodesOf g, Holding s t) := by
  have h : (runInit cfgFull [sendGraph (graphMsg [50] [([51], [val [1]])] [[51]]), gturn]).map
      (fun p => (p.1.length, p.2.gm.queue.length, (p.2.gm.graphs.get? [50]).isSome, (p.2.out.filter (isAnswer [50])).length,
        decide (Holding p.2 [51]))) = some (1, 0, true, 0, false) := by decide +kernel
  obtain ⟨⟨l, s⟩, hp, h⟩ := Option.map_eq_some_iff.1 h
  simp only [Prod.mk.injEq, List.length_eq_zero_iff, decide_eq_false_iff_not] at h
  obtain ⟨-, h2, h3, h4, h5⟩ := h
  have hl : l = [(cl, .graphTask (graphMsg [50] [([51], [val [1]])] [[51]]))] := by
    have : ((runInit cfgFull [sendGraph (graphMsg [50] [([51], [val [1]])] [[51]]), gturn]).map (·.1)) =
      some [(cl, .graphTask (graphMsg [50] [([51], [val [1]])] [[51]]))] := by decide +kernel
    rw [hp] at this
    exact Option.some.inj this
  refine ⟨l, s, cl, graphMsg [50] [([51], [val [1]])] [[51]], runInit_reach hp, ?_, ?_, ?_, h3, ?_⟩
  · rw [hl]; exact List.mem_cons_self
  · rw [hl]; simp
  · intro st rs hm
    have := List.filter_eq_nil_iff.1 h4 _ hm
    simp [isAnswer, graphMsg] at this
  · rintro (⟨c, hq⟩ | ⟨t, ht, hh⟩)
    · rw [h2] at hq; cases hq
    · simp [nodesOf, graphMsg] at ht
      subst ht
      exact h5 hh

/-! ### Failure -/

theorem mem_cancels {h : History} {a : Abs} (hi : Inv h a) (hT : Tidy a) {gid : Bytes} {gr : Graph} {g : GraphTask} {ids : List Bytes}
    (hg : a.graphs gid = some gr) (hok : GraphOK h gid g gr) (hids : ∀ t, t ∈ ids ↔ t ∈ gr.taskIds) (m : Bytes × Message) :
    m ∈ cancels a gr ids ↔ ∃ t w, t ∈ nodeIds g ∧ a.worker t = some w ∧ m = (w, .taskCancel t) := by
  unfold cancels
  rw [List.mem_filterMap]
  constructor
  · rintro ⟨t, ht, he⟩
    split at he
    · split at he
      · obtain ⟨w, hw, e⟩ := Option.map_eq_some_iff.1 he
        exact ⟨t, w, (hok.ids t).1 ((hids t).1 ht), hw, e.symm⟩
      · cases he
    · cases he
  · rintro ⟨t, w, ht, hw, rfl⟩
    have hids' := (hok.ids t).2 ht
    refine ⟨t, (hids t).2 hids', ?_⟩
    have hheld : (a.tasks t).isSome := (hi.place t).2 (Or.inr (Or.inr (by rw [hw]; rfl)))
    cases hx : gr.tasks.get? t with
    | none =>
      rw [hT gid gr t hg hids' hx] at hheld; cases hheld
    | some i =>
      have : i.state = .running := (hi.held_running hg hx hheld).1
      simp [this, hw]

/-- **C37, partial.** A worker's report that a node failed (or was canceled), handled without exception: the messages sent are
a cancel to the worker of every other node that a worker has, and an answer with this status and with the error of this
node to the client of the graph.  In every continuation no other answer for this graph is sent and no node
of it is submitted any more.

Full statement: the same without the assumption that the event is handled.  Missing: it raises if another
node of the graph waits for a worker; then the scheduler dies (`C37_failure_kills`), so the full statement
is false. -/
theorem C37_failed_node_partial (cfg : Config) (l : Log) (s s' : Sched) (hr : Reach cfg l s) (e : Event) (w t r gid : Bytes) (st : TaskStatus) (d : UInt32)
    (he : e.op = .recv w (.taskResult t st d r)) (hn : graphOf s t = some gid) (hw : ∃ w', workerOf s t = some w')
    (hst : st ≠ .success) (hs : s.step e = .ok s') :
    ∃ c g cs, (c, .graphTask g) ∈ l ∧ g.taskId = gid ∧ t ∈ nodesOf g ∧
      s'.out = s.out ++ cs ++ [(c, .graphTaskResult gid st [r])] ∧
      (∀ m, m ∈ cs ↔ ∃ t' w', t' ∈ nodesOf g ∧ t' ≠ t ∧ workerOf s t' = some w' ∧ m = (w', .taskCancel t')) ∧
      ∀ l2 s2, Later (l ++ e.input) s' l2 s2 →
        answers gid s2.out = 1 ∧ ∀ t' ∈ nodesOf g, acks anyone t' s2.out = acks anyone t' s'.out := by
  have hG := hr.good
  obtain ⟨op, now, o⟩ := e
  simp only at he
  subst he
  have hall : ∀ m ∈ Event.input ⟨.recv w (.taskResult t st d r), now, o⟩, Allowed l s.out m := by
    intro m hm
    simp only [Event.input, List.mem_singleton] at hm
    subst hm; trivial
  have hr' : Reach cfg (l ++ Event.input ⟨.recv w (.taskResult t st d r), now, o⟩) s' := .step _ hr hall hs
  generalize hl' : l ++ Event.input ⟨.recv w (.taskResult t st d r), now, o⟩ = l' at hr'
  have hsub : ∀ m ∈ l, m ∈ l' := by rw [← hl']; exact fun m hm => List.mem_append_left _ hm
  have hi : Inv ⟨l', none⟩ s.abs := hG.inv.mono (h' := ⟨l', none⟩) hsub
  have hpost := Sched.onTaskResult_spec (h := ⟨l', none⟩) hG.conc hi hG.settled o now (w0 := w) (r := ⟨t, st, d, r⟩)
    (by rw [← hl']; exact List.mem_append_right _ List.mem_cons_self)
  obtain ⟨w', hw⟩ := hw
  obtain ⟨-, -, hE, -⟩ := hpost.ok hs
  have hE := hE (by show (workerOf s t).isSome; rw [hw]; rfl)
  obtain ⟨gr, gr2, i, j, ids, h1, h2, h3, h4, h5, h6, h7, h8⟩ := hE.node gid hn hst
  simp only at h2 h5 h8
  obtain ⟨g, hok⟩ := hG.inv.graphs gid gr h1
  have hT := hr.tidy
  -- the cancel messages
  have hcs : ∀ m, m ∈ cancels (s.abs.retire t st) gr2 ids ↔
      ∃ t' w', t' ∈ nodesOf g ∧ t' ≠ t ∧ workerOf s t' = some w' ∧ m = (w', .taskCancel t') := by
    intro m
    have e1 : m ∈ cancels (s.abs.retire t st) gr2 ids ↔ m ∈ cancels s.abs gr (ids.filter (· ≠ t)) := by
      unfold cancels
      rw [List.mem_filterMap, List.mem_filterMap]
      constructor
      · rintro ⟨x, hx, hy⟩
        rw [h5.1, Dict.get?_set] at hy
        by_cases ex : t = x
        · subst ex
          simp [h4.1] at hy
        · refine ⟨x, List.mem_filter.2 ⟨hx, by simpa using fun e => ex e.symm⟩, ?_⟩
          simpa [ex, Abs.retire] using hy
      · rintro ⟨x, hx, hy⟩
        obtain ⟨hx, ex⟩ := List.mem_filter.1 hx
        have ex : ¬ t = x := fun e => (by simpa using ex : x ≠ t) e.symm
        refine ⟨x, hx, ?_⟩
        rw [h5.1, Dict.get?_set]
        simpa [ex, Abs.retire] using hy
    rw [e1]
    unfold cancels
    have e2 := mem_cancels hG.inv hT h1 hok h7 m
    unfold cancels at e2
    rw [List.mem_filterMap] at e2 ⊢
    constructor
    · rintro ⟨x, hx, hy⟩
      obtain ⟨hx, ex⟩ := List.mem_filter.1 hx
      obtain ⟨t', w1, k1, k2, k3⟩ := e2.1 ⟨x, hx, hy⟩
      refine ⟨t', w1, k1, ?_, k2, k3⟩
      have : x = t' := by
        split at hy
        · split at hy
          · obtain ⟨w2, _, hy⟩ := Option.map_eq_some_iff.1 hy
            rw [k3] at hy
            have := congrArg Prod.snd hy
            simpa using this
          · cases hy
        · cases hy
      rw [← this]; simpa using ex
    · rintro ⟨t', w1, k1, k2, k3, k4⟩
      obtain ⟨x, hx, hy⟩ := e2.2 ⟨t', w1, k1, k3, k4⟩
      have : x = t' := by
        split at hy
        · split at hy
          · obtain ⟨w2, _, hy⟩ := Option.map_eq_some_iff.1 hy
            rw [k4] at hy
            have := congrArg Prod.snd hy
            simpa using this
          · cases hy
        · cases hy
      exact ⟨x, List.mem_filter.2 ⟨hx, by rw [this]; simpa using k2⟩, hy⟩
  have hout : s'.out = s.out ++ cancels (s.abs.retire t st) gr2 ids ++ [(gr.client, .graphTaskResult gid st [r])] := by
    have := congrArg Abs.out h8
    have h9 : (s.abs.retire t st).out = s.out := by cases st <;> rfl
    rw [List.append_assoc, ← h9]
    exact this
  refine ⟨gr.client, g, cancels (s.abs.retire t st) gr2 ids, hok.src, hok.id, hok.mem_node h2, hout, hcs, ?_⟩
  intro l2 s2 hlater
  have hdead : Dead s'.abs g := by
    refine ⟨?_, ?_⟩
    · rw [h8, hok.id]
      simp [Abs.clean]
    · intro c hq
      have hq' : (c, g) ∈ s.abs.queue := by
        have h9 : (s.abs.retire t st).queue = s.abs.queue := by cases st <;> rfl
        rw [h8] at hq
        rw [← h9]
        exact hq
      have := hG.inv.unused_graph ((hG.inv.queue c g hq').2 _ (mem_allIds_gid g))
      rw [hok.id, h1] at this; cases this
  obtain ⟨-, hL⟩ := hlater.dead hr' (hsub _ hok.src) hdead
  constructor
  · have h9 := (hL g.taskId (mem_allIds_gid g)).2
    have h10 := hr'.good.once.answer gid
    have h11 : 1 ≤ answers gid s'.out := by
      rw [hout, answers_append]
      have : answers gid [(gr.client, Message.graphTaskResult gid st [r])] = 1 := by simp [answers, isAnswer]
      omega
    change answers gid s'.out ≤ 1 at h10
    rw [hok.id] at h9
    omega
  · intro t' ht'
    have h9 := (hL t' (mem_allIds_node ht')).1
    obtain ⟨m, hm⟩ := hlater.out_append hr'
    rw [echoes_eq, echoes_eq, hm, acks_append, refusals_append] at h9
    rw [hm, acks_append]
    omega

def failStory : List Event :=
  [beat wk, sendGraph diamond, gturn, turn, done [51] [7], turn, turn, failed [52]]

example : (runInit cfg0 failStory).map (fun p => (p.2.out.drop 8, (p.2.gm.graphs.get? [50]).isSome)) =
    some ([(wk, .taskCancel [53]), (cl, .graphTaskResult [50] .failed [[69]])], false) := by decide +kernel

/-- The worker reports that it canceled the node. -/
example : (runInit cfg0 [beat wk, sendGraph diamond, gturn, turn, done [51] [7], turn, turn,
      ev (.recv wk (.taskResult [52] .canceled 0 []))]).map (fun p => (p.2.out.drop 8, (p.2.gm.graphs.get? [50]).isSome)) =
    some ([(wk, .taskCancel [53]), (cl, .graphTaskResult [50] .canceled [[]])], false) := by decide +kernel

/-- **C37.** Whenever a graph is answered otherwise than with success, the answer says that a node of it failed or was canceled, and
carries one result: what a worker reported for this node, or nothing if a cancellation of this node was asked for. -/
theorem C37_reason (cfg : Config) (l : Log) (s : Sched) (hr : Reach cfg l s) (c gid : Bytes) (st : TaskStatus) (rs : List Bytes)
    (hm : (c, .graphTaskResult gid st rs) ∈ s.out) (hst : st ≠ .success) :
    (st = .failed ∨ st = .canceled) ∧ ∃ g t r, (c, .graphTask g) ∈ l ∧ g.taskId = gid ∧ t ∈ nodesOf g ∧ rs = [r] ∧
      ((∃ w d, (w, .taskResult t st d r) ∈ l) ∨ st = .canceled ∧ r = [] ∧ ∃ c', (c', .taskCancel t) ∈ l) := by
  obtain ⟨g, h1, h2, -, -, h3⟩ := hr.good.answered c gid st rs hm
  obtain ⟨h4, t, r, h5, h6, h7⟩ := h3 hst
  exact ⟨h4, g, t, r, h1, h2, h6, h5, h7⟩

example : (runInit cfg0 failStory).map (fun p => (decide ((cl, Message.graphTaskResult [50] .failed [[69]]) ∈ p.2.out),
    decide ((wk, Message.taskResult [52] .failed 0 [69]) ∈ p.1))) = some (true, true) := by decide +kernel

/-- The worker reports that the node is not there: the scheduler dies (graph_manager.py 233-234), before the assertion in line 123 that
allows this status. -/
theorem C37_notFound_kills : ∃ l s, Reach cfg0 l s ∧ graphOf s [52] = some [50] ∧ workerOf s [52] = some wk ∧
    s.step (ev (.recv wk (.taskResult [52] .notFound 0 []))) = .error .valueError := by
  have h : (runInit cfg0 [beat wk, sendGraph diamond, gturn, turn, done [51] [7], turn, turn]).map
      (fun p => (graphOf p.2 [52], workerOf p.2 [52], match p.2.step (ev (.recv wk (.taskResult [52] .notFound 0 []))) with | .ok _ => none | .error e => some e)) =
      some (some [50], some wk, some .valueError) := by decide +kernel
  obtain ⟨⟨l, s⟩, hp, h⟩ := Option.map_eq_some_iff.1 h
  simp only [Prod.mk.injEq] at h
  refine ⟨l, s, runInit_reach hp, h.1, h.2.1, ?_⟩
  have := h.2.2
  split at this
  · cases this
  · next e he => cases this; exact he

/-- **C37 is false of the code** when another node waits: the scheduler dies and nobody is answered. -/
theorem C37_failure_kills : ∃ l s e w t d r, Reach cfg0 l s ∧ e.op = .recv w (.taskResult t .failed d r) ∧ graphOf s t = some [50] ∧
    workerOf s t = some wk ∧ s.step e = .error .keyError := by
  have h : (runInit cfg0 [beat wk, sendGraph (graphMsg [50] [([51], []), ([52], []), ([53], [])] [[53]]), gturn, turn, turn]).map
      (fun p => (graphOf p.2 [51], workerOf p.2 [51], match p.2.step (failed [51]) with | .ok _ => none | .error e => some e)) =
      some (some [50], some wk, some .keyError) := by decide +kernel
  obtain ⟨⟨l, s⟩, hp, h⟩ := Option.map_eq_some_iff.1 h
  simp only [Prod.mk.injEq] at h
  refine ⟨l, s, failed [51], wk, [51], 0, [69], runInit_reach hp, rfl, h.1, h.2.1, ?_⟩
  have := h.2.2
  split at this
  · cases this
  · cases this; assumption

/-! ### What is left of a graph -/

/-- **C38, partial.** In every execution, once a graph was answered: it is neither queued nor in the tables,
no node of it is known as a node, its own ownership record is gone, and a node that is not held any more has no
ownership record and, unless it was refused with `NoWorker`, no claim on its function.

Full statement: the same for refused nodes.  Missing: these keep their claim, see `C38_claim_leaks`. -/
theorem C38_no_residue_partial (cfg : Config) (l : Log) (s : Sched) (hr : Reach cfg l s) (c gid : Bytes) (st : TaskStatus) (rs : List Bytes)
    (hm : (c, .graphTaskResult gid st rs) ∈ s.out) :
    ∃ g, (c, .graphTask g) ∈ l ∧ g.taskId = gid ∧ ¬ Queued s g ∧ s.gm.graphs.get? gid = none ∧ ownerOf s gid = none ∧
      ∀ t ∈ nodesOf g, graphOf s t = none ∧
        (¬ Holding s t → ownerOf s t = none ∧ ((∀ c', (c', .taskEcho t .noWorker) ∉ s.out) → claimOf s t = none)) := by
  have hG := hr.good
  have hi := hG.inv
  obtain ⟨g, h1, h2, _, _⟩ := hG.answered c gid st rs hm
  have h1 : (c, .graphTask g) ∈ l := h1
  have hloud : ¬ Silent s.abs.queue s.abs.graphs gid := by
    intro h
    exact hG.once.silent gid h _ hm rfl
  have hgone : s.abs.graphs gid = none := by
    cases hx : s.abs.graphs gid with
    | none => rfl
    | some gr => exact absurd (Or.inr (Or.inl (by rw [hx]; rfl))) hloud
  -- no graph in the tables contains an id of this graph
  have hother : ∀ gid' gr, s.abs.graphs gid' = some gr → ∀ gt', GraphOK ⟨l, none⟩ gid' gt' gr → ∀ t ∈ allIds g, t ∉ allIds gt' := by
    intro gid' gr hx gt' hok t ht ht'
    have := (hG.unique _ gt' c g t hok.src h1 ht' ht).2
    subst this
    rw [← h2, hok.id, hx] at hgone
    cases hgone
  refine ⟨g, h1, h2, ?_, hgone, ?_, ?_⟩
  · rintro ⟨c', hq⟩
    exact hloud (Or.inl ⟨c', g, hq, by rw [← h2]; exact mem_allIds_gid g⟩)
  · show s.abs.owner gid = none
    cases ho : s.abs.owner gid with
    | none => rfl
    | some c' =>
      exfalso
      rcases hi.owner gid (by rw [ho]; rfl) with h | h
      · obtain ⟨k, hk⟩ := Option.isSome_iff_exists.1 h
        have hkid := hi.key gid k hk
        rcases hi.origin gid k hk with ⟨c1, hx⟩ | ⟨c1, gt, T, k1, k2, k3, _⟩
        · exact hG.apart c1 k hx ⟨c, g, h1, by rw [hkid, ← h2]; exact mem_allIds_gid g⟩
        · have hT : gid ∈ nodeIds gt := by rw [← hkid, k3]; exact List.mem_map.2 ⟨T, k2, rfl⟩
          have := (hG.unique c1 gt c g gid k1 h1 (mem_allIds_node hT) (by rw [← h2]; exact mem_allIds_gid g)).2
          subst this
          have hnd := hr.graph_nodup c gt h1
          rw [← h2] at hT
          exact (List.nodup_cons.1 hnd).1 hT
      · rw [hgone] at h; cases h
  · intro t ht
    have hnode : s.abs.node t = none := by
      cases hx : s.abs.node t with
      | none => rfl
      | some gid' =>
        exfalso
        obtain ⟨gr, k1, k2⟩ := (hi.nodes t gid').1 hx
        obtain ⟨i, k2⟩ := Option.isSome_iff_exists.1 k2
        obtain ⟨gt', hok⟩ := hi.graphs gid' gr k1
        exact hother gid' gr k1 gt' hok t (mem_allIds_node ht) (mem_allIds_node (hok.mem_node k2))
    refine ⟨hnode, fun hnh => ⟨?_, ?_⟩⟩
    · show s.abs.owner t = none
      cases ho : s.abs.owner t with
      | none => rfl
      | some c' =>
        exfalso
        rcases hi.owner t (by rw [ho]; rfl) with h | h
        · exact hnh h
        · obtain ⟨gr, k1⟩ := Option.isSome_iff_exists.1 h
          obtain ⟨gt', hok⟩ := hi.graphs t gr k1
          exact hother t gr k1 gt' hok t (mem_allIds_node ht) (by rw [← hok.id]; exact mem_allIds_gid gt')
    · intro hnw
      show s.abs.uses t = none
      cases hu : s.abs.uses t with
      | none => rfl
      | some f =>
        exfalso
        rcases hG.pins.uses t (by rw [hu]; rfl) with h | ⟨gid', gr, i, k1, k2, _⟩ | ⟨_, _, c', h⟩
        · exact hnh h
        · obtain ⟨gt', hok⟩ := hi.graphs gid' gr k1
          exact hother gid' gr k1 gt' hok t (mem_allIds_node ht) (mem_allIds_node (hok.mem_node k2))
        · exact hnw c' h

example : (runInit cfg0 (failStory ++ [ev (.recv wk (.taskResult [53] .canceled 0 []))])).map (fun p =>
      ((nodesOf diamond).map fun t => [graphOf p.2 t, ownerOf p.2 t, claimOf p.2 t], p.2.tm.tasks.size, p.2.gm.nodeGraph.size)) =
    some ([[none, none, none], [none, none, none], [none, none, none], [none, none, none]], 0, 0) := by
  decide +kernel

/-- At most one task may wait. -/
def cfgOne : Config := { cfg0 with maxWaiting := 1 }

/-- **C38 is false of the code.** One node waits, the other is refused, the first fails: the graph is
answered, no node is held, but the claim of the refused node on its function stays. -/
theorem C38_claim_leaks : ∃ l s, Reach cfgOne l s ∧ (cl, .graphTaskResult [50] .failed [[69]]) ∈ s.out ∧
    ¬ Holding s [52] ∧ claimOf s [52] = some fn := by
  have h : (runInit cfgOne [sendGraph (graphMsg [50] [([51], []), ([52], [])] [[51], [52]]), gturn, beat wk, turn, failed [51]]).map
      (fun p => (decide ((cl, .graphTaskResult [50] .failed [[69]]) ∈ p.2.out), decide (Holding p.2 [52]), claimOf p.2 [52])) =
      some (true, false, some fn) := by decide +kernel
  obtain ⟨⟨l, s⟩, hp, h⟩ := Option.map_eq_some_iff.1 h
  simp only [Prod.mk.injEq, decide_eq_true_eq, decide_eq_false_iff_not] at h
  exact ⟨l, s, runInit_reach hp, h.1, h.2.1, h.2.2⟩

/-! ### Repeated inputs -/

/-- **C39 is false of the code.** A graph whose second node names the first one twice: when the first node
succeeds the scheduler dies. -/
theorem C39_repeated_input_kills : ∃ l s e, Reach cfg0 l s ∧ (cl, .graphTask (graphMsg [50] [([51], []), ([52], [ref [51], ref [51]])] [[52]])) ∈ l ∧
    e.op = .recv wk (.taskResult [51] .success 0 [7]) ∧ workerOf s [51] = some wk ∧ s.step e = .error .keyError := by
  have h : (runInit cfg0 [beat wk, sendGraph (graphMsg [50] [([51], []), ([52], [ref [51], ref [51]])] [[52]]), gturn, turn]).map
      (fun p => (decide ((cl, .graphTask (graphMsg [50] [([51], []), ([52], [ref [51], ref [51]])] [[52]])) ∈ p.1),
        workerOf p.2 [51], match p.2.step (done [51] [7]) with | .ok _ => none | .error e => some e)) =
      some (true, some wk, some .keyError) := by decide +kernel
  obtain ⟨⟨l, s⟩, hp, h⟩ := Option.map_eq_some_iff.1 h
  simp only [Prod.mk.injEq, decide_eq_true_eq] at h
  refine ⟨l, s, done [51] [7], runInit_reach hp, h.1, rfl, h.2.1, ?_⟩
  have := h.2.2
  split at this
  · cases this
  · cases this; assumption

/-- **C39, partial.** If no node of the graphs received so far names an input twice (and graphs are acyclic,
closed, with known functions), a successful result of a node is handled without exception, provided the
worker's locator is up to date (C08).  The values are right by C35.

Full statement: the same for nodes with repeated inputs; false, see `C39_repeated_input_kills`. -/
theorem C39_inputs_partial (cfg : Config) (l : Log) (s : Sched) (hr : Reach cfg l s) (e : Event) (w t r : Bytes) (d : UInt32)
    (he : e.op = .recv w (.taskResult t .success d r)) (hd : ∀ c g, (c, .graphTask g) ∈ l → ¬ Defective s g)
    (hw : ∀ w', workerOf s t = some w' → ¬ OutOfDate s w') : ∃ s', s.step e = .ok s' := by
  obtain ⟨op, now, o⟩ := e
  simp only at he
  subst he
  obtain ⟨s', h, _⟩ := C28_survives_partial cfg l s hr ⟨.recv w (.taskResult t .success d r), now, o⟩ (by
    intro m hm
    simp only [Event.input, List.mem_singleton] at hm
    subst hm; trivial) (by
    rintro (⟨w', h1, h2⟩ | ⟨gid, w', h1, h2, h3⟩)
    · exact hw w' h1 h2
    · rcases h3 with h3 | ⟨_, c, g, h4, _, h5⟩ | ⟨h3, _⟩
      · exact h3.1 rfl
      · exact hd c g h4 h5
      · simp at h3)
  exact ⟨s', h⟩

/-! ### Cancelling -/

/-- **C40 is false of the code.** A cancel for a graph that is still queued, that has a waiting node, or that
was answered kills the scheduler. -/
theorem C40_cancel_kills :
    (∃ l s e err, Reach cfg0 l s ∧ e.op = .recv cl (.graphTaskCancel [50]) ∧ s.gm.queue.length = 1 ∧ s.step e = .error err) ∧
    (∃ l s e err, Reach cfg0 l s ∧ e.op = .recv cl (.graphTaskCancel [50]) ∧ waitingQueue s = [[51]] ∧ s.step e = .error err) ∧
    (∃ l s e err, Reach cfg0 l s ∧ e.op = .recv cl (.graphTaskCancel [50]) ∧ answers [50] s.out = 1 ∧ s.step e = .error err) := by
  have aux : ∀ (es : List Event) (f : Sched → Bool), (runInit cfg0 es).map (fun p =>
      (f p.2, match p.2.step (cancelGraph [50]) with | .ok _ => false | .error _ => true)) = some (true, true) →
      ∃ l s e err, Reach cfg0 l s ∧ e.op = .recv cl (.graphTaskCancel [50]) ∧ f s = true ∧ s.step e = .error err := by
    intro es f h
    obtain ⟨⟨l, s⟩, hp, h⟩ := Option.map_eq_some_iff.1 h
    simp only [Prod.mk.injEq] at h
    have := h.2
    split at this
    · cases this
    · next err he => exact ⟨l, s, cancelGraph [50], err, runInit_reach hp, rfl, h.1, he⟩
  refine ⟨?_, ?_, ?_⟩
  · obtain ⟨l, s, e, err, h1, h2, h3, h4⟩ := aux [sendGraph (graphMsg [50] [([51], [val [1]])] [[51]])]
      (fun s => decide (s.gm.queue.length = 1)) (by decide +kernel)
    exact ⟨l, s, e, err, h1, h2, of_decide_eq_true h3, h4⟩
  · obtain ⟨l, s, e, err, h1, h2, h3, h4⟩ := aux [sendGraph (graphMsg [50] [([51], [val [1]])] [[51]]), gturn]
      (fun s => decide (waitingQueue s = [[51]])) (by decide +kernel)
    exact ⟨l, s, e, err, h1, h2, of_decide_eq_true h3, h4⟩
  · obtain ⟨l, s, e, err, h1, h2, h3, h4⟩ := aux
      [beat wk, sendGraph (graphMsg [50] [([51], [val [1]])] [[51]]), gturn, turn, done [51] [7]]
      (fun s => decide (answers [50] s.out = 1)) (by decide +kernel)
    exact ⟨l, s, e, err, h1, h2, of_decide_eq_true h3, h4⟩

/-- **C40, partial.** A cancel of a graph that is in the tables and has no waiting node is handled: every node
that a worker has is cancelled there, nothing else is sent, and the graph, its nodes and its owner record are
gone.  In every continuation no node of it is submitted and no answer is sent.

Full statement: the same for every moment, where a graph that is not in the tables is simply forgotten.
Missing: graphs that are queued, answered, or have a waiting node; there it is false (`C40_cancel_kills`). -/
theorem C40_cancel_partial (cfg : Config) (l : Log) (s : Sched) (hr : Reach cfg l s) (e : Event) (c gid : Bytes)
    (he : e.op = .recv c (.graphTaskCancel gid)) (hg : (s.gm.graphs.get? gid).isSome) (hw : ¬ ∃ t, NodeWaits s gid t) :
    ∃ s' g c' cs, s.step e = .ok s' ∧ (c', .graphTask g) ∈ l ∧ g.taskId = gid ∧ s'.out = s.out ++ cs ∧
      (∀ m, m ∈ cs ↔ ∃ t w, t ∈ nodesOf g ∧ workerOf s t = some w ∧ m = (w, .taskCancel t)) ∧
      s'.gm.graphs.get? gid = none ∧ ownerOf s' gid = none ∧ (∀ t ∈ nodesOf g, graphOf s' t = none) ∧
      ∀ l2 s2, Later (l ++ e.input) s' l2 s2 → answers gid s2.out = 0 ∧ ∀ t ∈ nodesOf g, acks anyone t s2.out = acks anyone t s'.out := by
  have hG := hr.good
  obtain ⟨gr, h1⟩ := Option.isSome_iff_exists.1 hg
  have h1 : s.abs.graphs gid = some gr := h1
  obtain ⟨op, now, o⟩ := e
  simp only at he
  subst he
  have hall : ∀ m ∈ Event.input ⟨.recv c (.graphTaskCancel gid), now, o⟩, Allowed l s.out m := by
    intro m hm
    simp only [Event.input, List.mem_singleton] at hm
    subst hm; trivial
  obtain ⟨s', hs, hr'⟩ := C28_survives_partial cfg l s hr _ hall (by
    rintro (h | ⟨t, h⟩)
    · rw [h] at hg; cases hg
    · exact hw ⟨t, h⟩)
  generalize hl' : l ++ Event.input ⟨.recv c (.graphTaskCancel gid), now, o⟩ = l' at hr'
  have hsub : ∀ m ∈ l, m ∈ l' := by rw [← hl']; exact fun m hm => List.mem_append_left _ hm
  have hi : Inv ⟨l', none⟩ s.abs := hG.inv.mono (h' := ⟨l', none⟩) hsub
  have hpost := Sched.onGraphTaskCancel_spec (h := ⟨l', none⟩) hG.conc hi hG.settled o now (source := c) gid
    (by rw [← hl']; exact List.mem_append_right _ List.mem_cons_self)
  obtain ⟨-, gr', h2, h3, -⟩ := hpost.ok hs
  rw [h1] at h2; cases h2
  obtain ⟨g, hok⟩ := hG.inv.graphs gid gr h1
  have hcs := mem_cancels hG.inv hr.tidy h1 hok (ids := orderBy (o gid) gr.taskIds.items) (fun t => by rw [mem_orderBy]; rfl)
  have hout : s'.out = s.out ++ cancels s.abs gr (orderBy (o gid) gr.taskIds.items) := congrArg Abs.out h3
  have hdead : Dead s'.abs g := by
    refine ⟨?_, ?_⟩
    · rw [h3, hok.id]
      simp [Abs.clean]
    · intro c hq
      have hq' : (c, g) ∈ s.abs.queue := by
        rw [h3] at hq
        exact hq
      have := hG.inv.unused_graph ((hG.inv.queue c g hq').2 _ (mem_allIds_gid g))
      rw [hok.id, h1] at this; cases this
  refine ⟨s', g, gr.client, _, hs, hok.src, hok.id, hout, hcs, ?_, ?_, ?_, ?_⟩
  · show s'.abs.graphs gid = none
    rw [h3]; simp [Abs.clean]
  · show s'.abs.owner gid = none
    rw [h3]; simp [Abs.clean]
  · intro t ht
    show s'.abs.node t = none
    have hg' := hr'.good
    cases hx : s'.abs.node t with
    | none => rfl
    | some gid' =>
      exfalso
      obtain ⟨gr', k1, k2⟩ := (hg'.inv.nodes t gid').1 hx
      obtain ⟨i, k2⟩ := Option.isSome_iff_exists.1 k2
      obtain ⟨gt', hok'⟩ := hg'.inv.graphs gid' gr' k1
      have := (hg'.unique _ gt' _ g t hok'.src (hsub _ hok.src) (mem_allIds_node (hok'.mem_node k2)) (mem_allIds_node ht)).2
      subst this
      have hd1 := hdead.1
      rw [hok'.id, k1] at hd1; cases hd1
  · intro l2 s2 hlater
    obtain ⟨-, hL⟩ := hlater.dead hr' (hsub _ hok.src) hdead
    have hcm : ∀ t, Quiet t (cancels s.abs gr (orderBy (o gid) gr.taskIds.items)) := fun t => (mute_cancels s.abs gr _).quiet t
    constructor
    · have h9 := (hL g.taskId (mem_allIds_gid g)).2
      rw [hok.id] at h9
      have h10 : Quiet gid s.out := hG.once.silent gid (Or.inr (Or.inl (by rw [h1]; rfl)))
      rw [h9, hout, answers_append, (hcm gid).answers, h10.answers]
    · intro t' ht'
      have h9 := (hL t' (mem_allIds_node ht')).1
      obtain ⟨m, hm⟩ := hlater.out_append hr'
      rw [echoes_eq, echoes_eq, hm, acks_append, refusals_append] at h9
      rw [hm, acks_append]
      omega

example : (runInit cfg0 [beat wk, sendGraph diamond, gturn, turn, done [51] [7], turn, turn, cancelGraph [50]]).map
      (fun p => (p.2.out.drop 8, (p.2.gm.graphs.get? [50]).isSome, ownerOf p.2 [50], (nodesOf diamond).map (graphOf p.2))) =
    some ([(wk, .taskCancel [52]), (wk, .taskCancel [53])], false, none, [none, none, none, none]) := by decide +kernel

end Verif.Props
