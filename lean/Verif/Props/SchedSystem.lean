import Verif.Props.System
import Verif.Props.ClientSystem
import Verif.Props.Fatal
import Verif.Props.Admission
import Verif.Sched.Called

/-!
# C83: what ends the scheduler of a system
-/

namespace Verif.Props

open Verif.Wire Verif.Sched Verif.Spec Verif.System
open Verif.Client (Pickle UserNode)

variable {F V X : Type} {p : Pickle} {rt : Proc.Runtime F V X} {cfg : Config} {s : Sys F}

/-! ### Graphs that a client sends can be started -/

theorem _root_.Verif.Spec.Trail.trans' {g : Dict Bytes UserNode} {x y z : Bytes} (h : Trail g x y) (h' : Trail g y z) : Trail g x z := by
  induction h with
  | one h => exact .more h h'
  | more h _ ih => exact .more h (ih h')

/-- How many nodes are needed for `x`. -/
noncomputable def needed (g : Dict Bytes UserNode) (x : Bytes) : Nat :=
  open Classical in g.keys.countP fun y => decide (Trail g x y)

theorem needed_lt {g : Dict Bytes UserNode} (hc : ¬ Cyclic g) {x a : Bytes} (h : Needs g x a) (ha : g.get? a ≠ none) : needed g a < needed g x := by
  classical
  have key : ∀ l : List Bytes, (l.countP fun y => decide (Trail g a y)) ≤ (l.countP fun y => decide (Trail g x y)) ∧
      (a ∈ l → (l.countP fun y => decide (Trail g a y)) < l.countP fun y => decide (Trail g x y)) := by
    intro l
    induction l with
    | nil => exact ⟨Nat.le_refl _, nofun⟩
    | cons y l ih =>
      rw [List.countP_cons, List.countP_cons]
      have hxa : Trail g x a := .one h
      have haa : ¬ Trail g a a := fun hh => hc ⟨a, hh⟩
      by_cases h1 : Trail g a y
      · have h2 := hxa.trans' h1
        simp only [h1, h2, decide_true, if_true]
        refine ⟨by omega, fun hm => ?_⟩
        rcases List.mem_cons.1 hm with rfl | hm
        · exact absurd h1 haa
        · have := ih.2 hm; omega
      · simp only [h1, decide_false, Bool.false_eq_true, if_false, Nat.add_zero]
        refine ⟨by have := ih.1; omega, fun hm => ?_⟩
        rcases List.mem_cons.1 hm with rfl | hm
        · have := ih.1
          simp only [hxa, decide_true, if_true]; omega
        · have := ih.2 hm; omega
  exact (key g.keys).2 (Dict.mem_keys.2 (Option.ne_none_iff_exists'.1 ha))

/-- The scheduler can start every graph that a client has built. -/
theorem built_starts {g : Dict Bytes UserNode} {keys : List Bytes} {m : GraphTask} (hb : BuiltFrom p g keys m) (t : Sched) :
    ¬ CannotStart t m ∧ ∀ x ∈ m.targets, x ∈ m.graph.map (·.taskId) := by
  obtain ⟨ids, gid, hl, hn, hm⟩ := hb
  obtain ⟨-, id, -, hs⟩ := C44_same p g keys ids gid hl hn m hm
  have hno : ∀ e, Client.buildGraph p ids gid g keys ≠ .error e := fun e he => by rw [hm] at he; cases he
  have hdef : ∀ x a, Needs g x a → g.get? a ≠ none := fun x a h1 h2 =>
    hno .keyError ((C44_rejected p g keys ids gid hl _).2 (.inl ⟨rfl, .inr ⟨x, a, h1, h2⟩⟩))
  have hkeys : ∀ k ∈ keys, IsCall g k := fun k hk => Classical.byContradiction fun hx =>
    hno .keyError ((C44_rejected p g keys ids gid hl _).2 (.inl ⟨rfl, .inl ⟨k, hk, hx⟩⟩))
  have hc : ¬ Cyclic g := fun hc => hno .cycleError ((C44_rejected p g keys ids gid hl _).2 (.inr ⟨rfl, hkeys, hdef, hc⟩))
  have htask : ∀ T ∈ m.graph, ∃ x nm c as, g.get? x = some (.call nm c as) ∧ T = ⟨id x, p.hash c, as.map (argument g id)⟩ := by
    intro T hT
    rw [hs.tasks, List.mem_filterMap] at hT
    obtain ⟨⟨x, n⟩, h1, h2⟩ := hT
    cases n with
    | data b => cases h2
    | call nm c as =>
      cases h2
      exact ⟨x, nm, c, as, Dict.mem_items.1 h1, rfl⟩
  have hnode : ∀ x, IsCall g x → id x ∈ m.graph.map (·.taskId) := by
    rintro x ⟨nm, c, as, hx⟩
    refine List.mem_map.2 ⟨⟨id x, p.hash c, as.map (argument g id)⟩, ?_, rfl⟩
    rw [hs.tasks, List.mem_filterMap]
    exact ⟨_, Dict.mem_items.2 hx, rfl⟩
  have harg : ∀ {x nm c : Bytes} {as : List Bytes}, g.get? x = some (.call nm c as) → ∀ a ∈ as.map (argument g id), a.type = .task →
      ∃ y, Needs g x y ∧ IsCall g y ∧ a.data = id y := by
    intro x nm c as hx a ha ht
    obtain ⟨y, hy, rfl⟩ := List.mem_map.1 ha
    have hn : Needs g x y := ⟨nm, c, as, hx, hy⟩
    refine ⟨y, hn, ?_⟩
    unfold argument at ht ⊢
    cases hg : g.get? y with
    | none => exact absurd hg (hdef x y hn)
    | some n =>
      cases n with
      | data b => rw [hg] at ht; cases ht
      | call nm' c' as' => exact ⟨⟨nm', c', as', hg⟩, rfl⟩
  have htarget : ∀ x ∈ m.targets, x ∈ m.graph.map (·.taskId) := by
    intro x hx
    obtain ⟨k, hk, rfl⟩ := (hs.targets x).1 hx
    exact hnode k (hkeys k hk)
  refine ⟨?_, htarget⟩
  rintro (⟨T, hT, -, h2⟩ | h | ⟨T, hT, a, ha, h1, h2⟩ | ⟨h1, h2⟩)
  · obtain ⟨x, nm, c, as, hx, rfl⟩ := htask T hT
    exact h2 (Dict.mem_keys.2 (Option.isSome_iff_exists.1 (hs.all x nm c as hx)))
  · classical
    refine h ⟨fun t => if h : ∃ x, IsCall g x ∧ id x = t then needed g (Classical.choose h) else 0, ?_⟩
    have hval : ∀ x, IsCall g x → (if h : ∃ y, IsCall g y ∧ id y = id x then needed g (Classical.choose h) else 0) = needed g x := by
      intro x hx
      have h : ∃ y, IsCall g y ∧ id y = id x := ⟨x, hx, rfl⟩
      rw [dif_pos h, hs.inj _ x (Classical.choose_spec h).1 hx (Classical.choose_spec h).2]
    intro T hT a ha h1
    obtain ⟨x, nm, c, as, hx, rfl⟩ := htask T hT
    obtain ⟨y, h2, h3, h4⟩ := harg hx a ha h1
    simp only [h4, hval x ⟨nm, c, as, hx⟩, hval y h3]
    exact needed_lt hc h2 (hdef x y h2)
  · obtain ⟨x, nm, c, as, hx, rfl⟩ := htask T hT
    obtain ⟨y, -, h3, h4⟩ := harg hx a ha h1
    exact h2 (h4 ▸ hnode y h3)
  · obtain ⟨x, hx⟩ := List.exists_mem_of_ne_nil _ h2
    have := htarget x hx
    rw [h1] at this
    cases this

/-! ### What is left of `Fatal` -/

/-- When `t` has succeeded, a node that was not submitted before has all its inputs and names one of them twice. -/
def RepeatsInput (g : Graph) (t : Bytes) : Prop :=
  ∃ u i, g.tasks.get? u = some i ∧ i.state = .inactive ∧ (∀ a ∈ i.task.args, a.type = .task → Finished g t a.data) ∧
    ¬ ((i.task.args.filter fun a => a.type = .task).map (·.data)).Nodup

/-- The events at which the scheduler of a system dies. -/
def EndsScheduler (s : Sched) (e : Event) : Prop :=
  match e.op with
  | .recv _ (.taskResult t st _ _) => ∃ w, workerOf s t = some w ∧
    (Mislaid s w ∨ ∃ gid g, s.gm.nodeGraph.get? t = some gid ∧ s.gm.graphs.get? gid = some g ∧
      (st = .success ∧ RepeatsInput g t ∨ st = .failed ∧ ∃ t', t' ≠ t ∧ NodeWaits s gid t'))
  | .recv _ (.balanceResponse ids) => ∃ t ∈ ids, ∃ w, workerOf s t = some w ∧
    (Mislaid s w ∨ OutOfDate s w ∧ ∃ t' ∈ ids, t' ≠ t ∧ workerOf s t' = some w)
  | .recv _ (.disconnectRequest w) => Connected s w ∧ OutOfDate s w
  | .recv _ (.graphTaskCancel gid) => s.gm.graphs.get? gid = none ∨ ∃ t, NodeWaits s gid t
  | .workerRoutine => ∃ w last hb, s.wm.alive.get? w = some (last, hb) ∧ e.now - last > s.cfg.workerTimeout ∧ OutOfDate s w
  | .report => ¬ Readable s
  | _ => False

/-- A graph that the scheduler received was built by a client. -/
theorem received_built (h : Inv p rt cfg s) {c : Bytes} {gt : GraphTask} (hm : (c, .graphTask gt) ∈ s.received) :
    ∃ g keys, BuiltFrom p g keys gt := by
  obtain ⟨cl, hx, hg⟩ := h.graphSent (h.received hm)
  obtain ⟨k, hk, rfl, rfl⟩ := h.built c gt (by rw [hx]; exact hg)
  have := h.calls k hk
  rw [hx] at this
  exact ⟨_, _, this.1⟩

/-- Clients cancel tasks, not nodes of graphs. -/
theorem cancel_plain (h : Inv p rt cfg s) {c t : Bytes} (hm : 0 < (s.peers c).sent (.taskCancel t)) : ¬ InGraph s.received t := by
  rcases Peer.sent_pos hm with ⟨cl, hx, hm⟩ | ⟨a, ret, qs, left, hx, ⟨now, hm⟩ | ⟨id, -, hm⟩⟩
  · obtain ⟨l, hl, n, hn⟩ := h.clientSent hx hm
    obtain ⟨k, nm, b, hk, rfl⟩ := (h.client hx).returned (hl _ hn)
    exact h.notInGraph hx hk
  · exact (h.workerSent hx hm).elim
  · cases hm

/-- A result for a node of a graph in the tables is that of a call: nobody asks a worker to cancel such a node. -/
theorem node_result (h : Inv p rt cfg s) {w t gid : Bytes} {st : TaskStatus} {d : UInt32} {r : Bytes}
    (hm : 0 < (s.peers w).sent (.taskResult t st d r)) (hn : s.sched.gm.nodeGraph.get? t = some gid) : st = .success ∨ st = .failed := by
  have hg := h.sched.good
  have hin : InGraph s.received t := inGraph_of_node hg hn
  have ht : t ≠ [] := by
    obtain ⟨c, gt, hgt, ht⟩ := hin
    obtain ⟨cl, hx, hg'⟩ := h.graphSent (h.received hgt)
    exact (h.ids c t (Inv.graph_id hx hg' ht)).2
  have hno : ¬ ((st = .canceled ∨ st = .notFound) ∧ (w, .taskCancel t) ∈ s.sched.out) := by
    rintro ⟨-, hc⟩
    have := h.sched.called_node hc fun c hx => cancel_plain h (h.received hx) hin
    rw [this] at hn
    cases hn
  by_cases hst : st = .canceled ∨ st = .notFound
  · exfalso
    rcases Peer.sent_pos hm with ⟨cl, hx, hm'⟩ | ⟨a, ret, qs, left, hx, ⟨now, hm'⟩ | ⟨id, -, hm'⟩⟩
    · obtain ⟨l, -, h3⟩ := h.clientSent hx hm'
      exact h3
    · rcases h.workerSent hx hm' with ⟨-, h3⟩ | h3
      · exact hno ⟨hst, agent_got h hx h3⟩
      · obtain ⟨n, q, now', hq, hs⟩ := agent_heard h hx h3
        have hP := h.peer w
        rw [hx] at hP
        obtain ⟨⟨start, hr⟩, -⟩ := hP.2.2.1 n q hq
        obtain ⟨l₁, l₂, e⟩ := List.append_of_mem hs
        rcases C55_answers_partial hr _ _ _ e with ⟨-, h4, -⟩ | ⟨u, k, h4, h5, h6⟩
        · exact ht h4
        · rcases hst with rfl | rfl <;> exact h6
    · cases hm'
  · rw [not_or] at hst
    obtain ⟨k, -, -, h6⟩ := worked_sent h hm hst.1 hst.2 ht
    cases st <;> first | exact .inl rfl | exact .inr rfl | exact h6.elim

/-- **C83.** Clients, workers and the scheduler of this code together: exactly at these events the scheduler terminates with an
exception.  Results of tasks and answers to balance requests do it through a locator that `max_priority` left behind (C08); so do
workers that leave or fall silent.  Results of nodes do it if they complete the inputs of a node that names one of them twice, or if
the node failed while another node of the graph waits; clients that end do it if their graph is not in the tables or has waiting
nodes.  Cancellations of tasks, requests for functions and graphs as clients build them never do. -/
theorem C83_exact (hr : System.Reach p rt cfg s) (e : Event)
    (he : ∀ x m, e.op = .recv x m → s.received.count (x, m) < (s.peers x).sent m) :
    (∃ err, s.sched.step e = .error err) ↔ EndsScheduler s.sched e := by
  have h := hr.inv
  have hg := h.sched.good
  have ha : ∀ m ∈ e.input, Allowed s.received s.sched.out m := by
    obtain ⟨op, now, o⟩ := e
    cases op <;> simp only [Event.input, List.mem_singleton, List.not_mem_nil] <;> rintro m hm
    · subst hm; exact h.allowed (he _ _ rfl)
    all_goals exact hm.elim
  rw [(C28_exact cfg _ _ h.sched e ha).1]
  obtain ⟨op, now, o⟩ := e
  cases op with
  | recv x m =>
    have hpos : 0 < (s.peers x).sent m := by have := he x m rfl; omega
    cases m with
    | taskResult t st d r =>
      simp only [Fatal, EndsScheduler]
      refine exists_congr fun w => and_congr_right fun _ => or_congr_right ?_
      refine exists_congr fun gid => exists_congr fun g => and_congr_right fun hn => and_congr_right fun hgr => ?_
      have hst := node_result h hpos hn
      have hgo : CannotGoOn g t ↔ RepeatsInput g t := by
        refine ⟨fun hx => hx.elim id ?_, .inl⟩
        rintro ⟨-, y, hy, hy'⟩
        obtain ⟨gt, hok⟩ := hg.inv.graphs gid g hgr
        obtain ⟨ug, keys, hb⟩ := received_built h hok.src
        exact absurd ((hok.ids y).2 ((built_starts hb s.sched).2 y (hok.targets ▸ hy))) hy'
      rcases hst with rfl | rfl <;> simp [hgo]
    | taskCancel t =>
      simp only [Fatal, EndsScheduler, iff_false]
      rintro ⟨gid, ⟨hn, -⟩, -⟩
      exact cancel_plain h hpos (inGraph_of_node hg hn)
    | functionRequest ty f nm b =>
      simp only [Fatal, EndsScheduler, iff_false]
      rintro ⟨rfl, -⟩
      rcases Peer.sent_pos hpos with ⟨c, hx, hm⟩ | ⟨a, ret, qs, left, hx, ⟨now', hm⟩ | ⟨id, -, hm⟩⟩
      · obtain ⟨l, hl, h1, -⟩ := h.clientSent hx hm
        cases h1
      · have := h.workerSent hx hm
        cases this
      · cases hm
    | _ => rfl
  | graphRoutine =>
    simp only [Fatal, EndsScheduler, iff_false]
    rintro ⟨c, gt, rest, hq, hbad⟩
    have hq' : (c, gt) ∈ s.sched.abs.queue := by
      show (c, gt) ∈ s.sched.gm.queue
      rw [hq]; exact List.mem_cons_self
    obtain ⟨ug, keys, hb⟩ := received_built h (hg.inv.queue c gt hq').1
    exact (built_starts hb s.sched).1 hbad
  | _ => rfl

/-! ### How it happens -/

/-- Everybody goes on a little; the scheduler gets no results, answers to balance requests or cancellations of graphs, and runs
no routines. -/
def unheardRound (xs : List Bytes) (s : Sys Nat) : Sys Nat :=
  ((xs.flatMap (peerOps s)).filter fun o => match o with
    | .sched ⟨.recv _ (.taskResult ..), _, _⟩ | .sched ⟨.recv _ (.balanceResponse _), _, _⟩ |
      .sched ⟨.recv _ (.graphTaskCancel _), _, _⟩ => false
    | _ => true).foldl tryOp s

/-- `n` such rounds. -/
def unheardRounds (xs : List Bytes) : Nat → Sys Nat → Sys Nat
  | 0, s => s
  | n + 1, s => unheardRounds xs n (unheardRound xs s)

theorem unheardRounds_reach {cfg : Config} {xs : List Bytes} {n : Nat} {s : Sys Nat} (h : System.Reach plainPickle toy cfg s) :
    System.Reach plainPickle toy cfg (unheardRounds xs n s) := by
  induction n generalizing s with
  | zero => exact h
  | succ n ih => exact ih (tryOp_reach h _)

/-- Events, and then `n` such rounds. -/
abbrev Script := List (List System.Op × Nat)

/-- The state after a script. -/
def playScript (cfg : Config) (l : Script) : Sys Nat :=
  l.foldl (fun s x => unheardRounds [[1], [2], [3], [255]] x.2 (x.1.foldl tryOp s)) (Sys.init cfg)

theorem playScript_reach (cfg : Config) (l : Script) : System.Reach plainPickle toy cfg (playScript cfg l) := by
  unfold playScript
  suffices h : ∀ s, System.Reach plainPickle toy cfg s →
      System.Reach plainPickle toy cfg (l.foldl (fun s x => unheardRounds [[1], [2], [3], [255]] x.2 (x.1.foldl tryOp s)) s) from h _ .init
  induction l with
  | nil => exact fun _ h => h
  | cons x l ih => exact fun s h => ih _ (unheardRounds_reach (tryOp_reach h _))

/-- The scheduler does something. -/
def schedOp (o : Sched.Op) : System.Op := .sched ⟨o, 5, fun _ => []⟩

/-- A client, and a worker that the scheduler knows. -/
def meet : List System.Op :=
  [.joinClient [1], .joinWorker [2] 100 100 0, .agent [2] ⟨.heartbeat ⟨0, 0, 0, 0⟩, 5⟩,
    schedOp (.recv [2] (.heartbeat ⟨0, 0, 0, 0, 0, 0, false, false, false⟩))]

/-- The client submits a task. -/
def sysSubmit (t : Bytes) : List System.Op × Nat := ([.client [1] (.submit t [5] [9] [])], 7)

/-- The result of such a task. -/
def result9 (t : Bytes) : Sched.Op := .recv [2] (.taskResult t .success 0 [9])

/-- Two nodes; the second one names the first one twice. -/
def twiceGraph : Dict Bytes Client.UserNode := (Dict.empty.set [1] (.call [5] [9] [])).set [2] (.call [6] [8] [[1], [1]])

/-- Three nodes of which the first one raises. -/
def failGraph : Dict Bytes Client.UserNode :=
  ((Dict.empty.set [1] (.call [5] [0] [])).set [2] (.call [6] [8] [])).set [3] (.call [7] [7] [])

/-- One node. -/
def soleGraph : Dict Bytes Client.UserNode := Dict.empty.set [1] (.call [5] [9] [])

/-- The client ends. -/
def quit : List System.Op := [.client [1] .disconnect, .client [1] .exit]

/-- How a system of this code can come to the end of its scheduler: the settings, what happened before, the event. -/
def systemDeaths : List (Config × Script × Sched.Event × PyErr) :=
  [ -- a worker leaves after a submission that found it available
    (cfg0, [(meet, 0), sysSubmit [10], ([.leave [2]], 0)], ⟨.recv [2] (.disconnectRequest [2]), 5, fun _ => []⟩, .assertionError),
    -- a worker falls silent after such a submission
    (cfg0, [(meet, 0), sysSubmit [10]], ⟨.workerRoutine, 200, fun _ => []⟩, .assertionError),
    -- two results after such a submission
    (cfg0, [(meet, 0), sysSubmit [10], sysSubmit [11], ([schedOp .taskRoutine, schedOp .taskRoutine], 20), sysSubmit [12],
      ([schedOp (result9 [10])], 0)], ⟨result9 [11], 5, fun _ => []⟩, .valueError),
    -- tasks taken back from a worker after such a submission
    (wide, [(meet, 0), sysSubmit [10], sysSubmit [11], sysSubmit [12], sysSubmit [13], ([schedOp .taskRoutine, schedOp .taskRoutine, schedOp .taskRoutine, schedOp .taskRoutine], 0),
      sysSubmit [14], ([.joinWorker [3] 100 100 0, .agent [3] ⟨.heartbeat ⟨0, 0, 0, 0⟩, 5⟩,
        schedOp (.recv [3] (.heartbeat ⟨0, 0, 0, 0, 0, 0, false, false, false⟩)), schedOp .workerRoutine, schedOp .workerRoutine, schedOp .workerRoutine], 2)],
      ⟨.recv [2] (.balanceResponse [[12], [13]]), 5, fun _ => []⟩, .valueError),
    -- a client ends before its graph is unpacked, while a node waits, and after it was answered
    (cfg0, [(meet, 0), ([.get [1] [[20]] [30] soleGraph [[1]]], 8), (quit, 0)], ⟨.recv [1] (.graphTaskCancel [30]), 5, fun _ => []⟩, .valueError),
    (cfg0, [(meet, 0), ([.get [1] [[20]] [30] soleGraph [[1]]], 8), (schedOp .graphRoutine :: quit, 0)],
      ⟨.recv [1] (.graphTaskCancel [30]), 5, fun _ => []⟩, .keyError),
    (cfg0, [(meet, 0), ([.get [1] [[20]] [30] soleGraph [[1]]], 8), ([schedOp .graphRoutine, schedOp .taskRoutine], 20),
      (schedOp (result9 [20]) :: quit, 0)], ⟨.recv [1] (.graphTaskCancel [30]), 5, fun _ => []⟩, .valueError),
    -- a node fails while another one waits
    (cfg0, [(meet, 0), ([.get [1] [[20], [21], [22]] [30] failGraph [[3]]], 8), ([schedOp .graphRoutine, schedOp .taskRoutine, schedOp .taskRoutine], 20)],
      ⟨.recv [2] (.taskResult [20] .failed 0 [5]), 5, fun _ => []⟩, .keyError),
    -- a node names an input twice
    (cfg0, [(meet, 0), ([.get [1] [[20], [21]] [30] twiceGraph [[2]]], 8), ([schedOp .graphRoutine, schedOp .taskRoutine], 20)],
      ⟨result9 [20], 5, fun _ => []⟩, .keyError),
    -- the report meets a client whose name is not UTF-8
    (cfg0, [([.joinClient [255], .client [255] (.submit [10] [5] [9] [])], 7)], ⟨.report, 5, fun _ => []⟩, .unicodeError) ]

/-- The message of the event, if any, is under way. -/
def underWay (s : Sys Nat) (e : Sched.Event) : Bool :=
  match e.op with
  | .recv x m => decide (s.received.count (x, m) < (s.peers x).sent m)
  | _ => true

/-- What the scheduler raises. -/
def raises (s : Sys Nat) (e : Sched.Event) : Option PyErr :=
  match s.sched.step e with
  | .ok _ => none
  | .error x => some x


theorem underWay_sound {s : Sys Nat} {e : Sched.Event} (h : underWay s e = true) :
    ∀ x m, e.op = .recv x m → s.received.count (x, m) < (s.peers x).sent m := by
  intro x m he
  unfold underWay at h
  rw [he] at h
  exact of_decide_eq_true h

theorem raises_sound {s : Sys Nat} {e : Sched.Event} {x : PyErr} (h : raises s e = some x) : s.sched.step e = .error x := by
  unfold raises at h
  split at h
  · cases h
  · next he => cases h; exact he

/-- Each of these events ends the scheduler of a system of this code. -/
theorem C83_dies : ∀ d ∈ systemDeaths, ∃ s : Sys Nat, System.Reach plainPickle toy d.1 s ∧
    (∀ x m, d.2.2.1.op = .recv x m → s.received.count (x, m) < (s.peers x).sent m) ∧ s.sched.step d.2.2.1 = .error d.2.2.2 ∧
    EndsScheduler s.sched d.2.2.1 := by
  have h : ∀ d ∈ systemDeaths, underWay (playScript d.1 d.2.1) d.2.2.1 = true ∧ raises (playScript d.1 d.2.1) d.2.2.1 = some d.2.2.2 := by
    decide +kernel
  intro d hd
  obtain ⟨h1, h2⟩ := h d hd
  have hr := playScript_reach d.1 d.2.1
  exact ⟨_, hr, underWay_sound h1, raises_sound h2, (C83_exact hr _ (underWay_sound h1)).1 ⟨_, raises_sound h2⟩⟩

/-- A worker that leaves says so once and does nothing more; nobody else is touched. -/
theorem C83_goodbye {F V X : Type} {p : Client.Pickle} {rt : Proc.Runtime F V X} {s s' : Sys F} {x : Bytes} (h : s.step p rt (.leave x) = some s') :
    (∀ m, (s'.peers x).sent m = (s.peers x).sent m + if m = .disconnectRequest x then 1 else 0) ∧
    (∀ m, (s'.peers x).got m = (s.peers x).got m) ∧ (∀ y, y ≠ x → s'.peers y = s.peers y) ∧
    s'.sched = s.sched ∧ s'.received = s.received ∧
    ∀ e n e', s'.step p rt (.agent x e) = none ∧ s'.step p rt (.proc x n e') = none ∧ s'.step p rt (.leave x) = none := by
  simp only [Sys.step] at h
  split at h
  · next a ret qs hx =>
    cases h
    have h1 : (s.setPeer x (.worker a ret qs (some x))).peers x = .worker a ret qs (some x) := if_pos rfl
    refine ⟨fun m => ?_, fun m => ?_, fun y hy => if_neg hy, rfl, rfl, fun e n e' => ?_⟩
    · rw [h1, hx]
      simp only [Peer.sent, Option.map_some, Option.map_none, Option.some.injEq, reduceCtorEq, if_false, eq_comm (a := m), Nat.add_zero]
    · rw [h1, hx]; rfl
    · simp only [Sys.step, h1, and_self]
  · cases h

/-- A worker that leaves before anything was submitted ends nothing, and its goodbye is the last that it does. -/
example : ∃ s : Sys Nat, System.Reach plainPickle toy cfg0 s ∧
    s.received.count ([2], .disconnectRequest [2]) < (s.peers [2]).sent (.disconnectRequest [2]) ∧
    ¬ EndsScheduler s.sched ⟨.recv [2] (.disconnectRequest [2]), 5, fun _ => []⟩ := by
  have h : underWay (playScript cfg0 [(meet ++ [.leave [2]], 0)]) ⟨.recv [2] (.disconnectRequest [2]), 5, fun _ => []⟩ = true ∧
      raises (playScript cfg0 [(meet ++ [.leave [2]], 0)]) ⟨.recv [2] (.disconnectRequest [2]), 5, fun _ => []⟩ = none := by decide +kernel
  have hr := playScript_reach cfg0 [(meet ++ [.leave [2]], 0)]
  refine ⟨_, hr, underWay_sound h.1 _ _ rfl, fun hx => ?_⟩
  obtain ⟨x, hx⟩ := (C83_exact hr _ (underWay_sound h.1)).2 hx
  have := h.2
  unfold raises at this
  rw [hx] at this
  cases this

end Verif.Props
