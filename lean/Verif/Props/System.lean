import Verif.System.SystemStep
import Verif.Props.Processor
import Verif.Props.Graphs
import Verif.Spec.System

/-!
# Properties of whole systems (C62, C63)

Any number of clients and workers with one scheduler; every message may be delayed for any time or lost, messages may
overtake each other; any party may stop at any time; workers are declared dead at any time.
-/

namespace Verif.Props

open Verif.Wire Verif.Spec Verif.System
open Verif.Client (Pickle)

variable {F V X : Type} {p : Pickle} {rt : Proc.Runtime F V X} {cfg : Sched.Config} {s : Sys F}

/-! ### Concrete runs -/

/-- Whatever a peer can do now, and the scheduler with what the peer sent. -/
def peerOps (s : Sys Nat) (x : Bytes) : List Op :=
  let inbox := (s.sched.out.filter fun a => a.1 = x).map (·.2)
  match s.peers x with
  | .absent => []
  | .client c => [.client x .advance, .client x .flush] ++ inbox.map (fun m => .client x (.recv m)) ++
      c.log.filterMap fun a => match a with
        | .sent m => some (.sched ⟨.recv x m, 5, fun _ => []⟩)
        | _ => none
  | .worker a _ qs _ => [.agent x ⟨.turn, 5⟩] ++ inbox.map (fun m => .agent x ⟨.recv m, 5⟩) ++
      (qs.flatMap fun q => q.log.filterMap fun a => match a.2 with
        | .sent m => some (.agent x ⟨.heard m, 5⟩)
        | _ => none) ++
      (a.log.flatMap fun b => match b.2 with
        | .told n m => [.proc x n ⟨.recv m, 5⟩]
        | .sent m => [.sched ⟨.recv x m, 5, fun _ => []⟩]
        | _ => []) ++
      (List.range qs.length).map fun n => .proc x n ⟨.work 0 0, 5⟩

/-- An event, if it can happen. -/
def tryStep (s : Sys Nat) (o : Op) : Sys Nat := (s.step plainPickle toy o).getD s

/-- Everybody goes on a little. -/
def systemRound (xs : List Bytes) (s : Sys Nat) : Sys Nat :=
  (xs.flatMap (peerOps s) ++ [Op.sched ⟨.graphRoutine, 5, fun _ => []⟩, Op.sched ⟨.taskRoutine, 5, fun _ => []⟩]).foldl tryStep s

def systemRounds (xs : List Bytes) : Nat → Sys Nat → Sys Nat
  | 0, s => s
  | n + 1, s => systemRounds xs n (systemRound xs s)

def wide : Sched.Config := ⟨-1, 1000, 100, 100, 1, 2⟩

theorem tryStep_reach {s : Sys Nat} (h : System.Reach plainPickle toy wide s) (o : Op) : System.Reach plainPickle toy wide (tryStep s o) := by
  unfold tryStep
  cases he : s.step plainPickle toy o with
  | none => exact h
  | some s' => exact .step o h he

theorem foldl_reach {s : Sys Nat} (h : System.Reach plainPickle toy wide s) (os : List Op) : System.Reach plainPickle toy wide (os.foldl tryStep s) := by
  induction os generalizing s with
  | nil => exact h
  | cons o os ih => exact ih (tryStep_reach h o)

theorem systemRounds_reach {xs : List Bytes} {n : Nat} {s : Sys Nat} (h : System.Reach plainPickle toy wide s) :
    System.Reach plainPickle toy wide (systemRounds xs n s) := by
  induction n generalizing s with
  | zero => exact h
  | succ n ih => exact ih (foldl_reach h _)

/-- A client `[1]` and a worker `[2]` that the scheduler knows; then `o` and `n` rounds. -/
def systemRun (o : Op) (n : Nat) : Sys Nat :=
  systemRounds [[1], [2]] n ((.agent [2] ⟨.heartbeat ⟨0, 0, 0, 0⟩, 5⟩ :: [.sched ⟨.recv [2] (.heartbeat ⟨0, 0, 0, 0, 0, 0, false, false, false⟩), 5, fun _ => []⟩, o]).foldl tryStep
    ([.joinClient [1], .joinWorker [2] 100 100 0].foldl tryStep (Sys.init wide)))

theorem systemRun_reach (o : Op) (n : Nat) : System.Reach plainPickle toy wide (systemRun o n) :=
  systemRounds_reach (foldl_reach (foldl_reach .init _) _)

/-- The client of a state. -/
def clientAt (s : Sys Nat) (x : Bytes) : Option Client.Client :=
  match s.peers x with
  | .client c => some c
  | _ => none

theorem clientAt_eq {s : Sys Nat} {x : Bytes} {c : Client.Client} (h : clientAt s x = some c) : s.peers x = .client c := by
  unfold clientAt at h
  split at h
  · next hx => rw [hx]; cases h; rfl
  · cases h

/-- What the functions of `toy` return. -/
def toyValue (b : Bytes) (xs : List Bytes) : Bytes := [UInt8.ofNat ((b.headD 0).toNat + (xs.map fun x => (x.headD 0).toNat).sum)]

theorem toy_deterministic : Deterministic toy toyValue := by
  rintro b f args r hf ⟨vs, c, v, h1, h2, h3⟩
  have hb : f = (b.headD 0).toNat := by
    cases b with
    | nil => cases hf
    | cons x b => cases hf; rfl
  have hv : vs = args.map fun a => (a.data.headD 0).toNat := by
    clear h2
    induction h1 with
    | nil => rfl
    | @cons a v as vs h _ ih =>
      rw [List.map_cons, ← ih]
      · congr 1
        cases hd : a.data with
        | nil => simp [toy, hd] at h
        | cons x b => simp [toy, hd] at h; simp [← h]
  simp only [toy] at h2 h3
  split at h2
  · cases h2
  · split at h2
    · cases h2
    · cases h2
      cases h3
      simp [toyValue, hb, hv, Function.comp_def]

/-! ### Where results come from -/

theorem mem_got {P : Peer F} {m : Message} {c : Client.Client} (hP : P = .client c) (h : Client.Act.recv m ∈ c.log) : 0 < P.got m := by
  subst hP
  exact List.countP_pos_iff.2 ⟨_, h, by simp⟩

/-- What a client received was sent to it. -/
theorem client_got (h : Inv p rt cfg s) {x : Bytes} {c : Client.Client} (hx : s.peers x = .client c) {m : Message}
    (hm : Client.Act.recv m ∈ c.log) : (x, m) ∈ s.sched.out :=
  List.count_pos_iff.1 (Nat.lt_of_lt_of_le (mem_got hx hm) (h.got x m))

/-- What a worker received was sent to it. -/
theorem agent_got (h : Inv p rt cfg s) {x : Bytes} {a : Worker.Agent} {ret : Int} {qs : List (Proc.Proc F)} {left : Option Bytes} (hx : s.peers x = .worker a ret qs left)
    {m : Message} (hm : Worker.Got a.log m) : (x, m) ∈ s.sched.out := by
  obtain ⟨now, hm⟩ := hm
  refine List.count_pos_iff.1 (Nat.lt_of_lt_of_le ?_ (h.got x m))
  rw [hx]
  exact List.countP_pos_iff.2 ⟨_, hm, by simp⟩

/-- What a processor received was told to it by its agent. -/
theorem proc_got (h : Inv p rt cfg s) {x : Bytes} {a : Worker.Agent} {ret : Int} {qs : List (Proc.Proc F)} {left : Option Bytes} (hx : s.peers x = .worker a ret qs left)
    {n : Nat} {q : Proc.Proc F} (hq : qs[n]? = some q) {m : Message} {now : Int} (hm : (now, Proc.Act.recv m) ∈ q.log) :
    ∃ now', (now', Worker.Act.told n m) ∈ a.log := by
  have hP := h.peer x
  rw [hx] at hP
  have h1 := (hP.2.2.1 n q hq).2 m
  have h2 : 0 < a.log.countP fun y => decide (y.2 = .told n m) :=
    Nat.lt_of_lt_of_le (List.countP_pos_iff.2 ⟨_, hm, by simp⟩) h1
  obtain ⟨⟨t, y⟩, hy, he⟩ := List.countP_pos_iff.1 h2
  simp only [decide_eq_true_eq] at he
  subst he
  exact ⟨t, hy⟩

/-- What an agent heard was sent by one of its processors. -/
theorem agent_heard (h : Inv p rt cfg s) {x : Bytes} {a : Worker.Agent} {ret : Int} {qs : List (Proc.Proc F)} {left : Option Bytes} (hx : s.peers x = .worker a ret qs left)
    {m : Message} (hm : Worker.Heard a.log m) : ∃ (n : Nat) (q : Proc.Proc F) (now : Int), qs[n]? = some q ∧ (now, Proc.Act.sent m) ∈ q.log := by
  obtain ⟨now, hm⟩ := hm
  have hP := h.peer x
  rw [hx] at hP
  have h2 : 0 < procsSent m qs := Nat.lt_of_lt_of_le (List.countP_pos_iff.2 ⟨_, hm, by simp⟩) (hP.2.2.2 m)
  unfold procsSent at h2
  have key : ∀ l : List (Proc.Proc F), 0 < (l.map fun q => q.log.countP fun x => decide (x.2 = Proc.Act.sent m)).sum →
      ∃ q ∈ l, 0 < q.log.countP fun x => decide (x.2 = Proc.Act.sent m) := by
    intro l
    induction l with
    | nil => intro h; cases h
    | cons q l ih =>
      intro h
      rw [List.map_cons, List.sum_cons] at h
      by_cases hq : 0 < q.log.countP fun x => decide (x.2 = Proc.Act.sent m)
      · exact ⟨q, List.mem_cons_self, hq⟩
      · obtain ⟨q', h1, h2⟩ := ih (by omega)
        exact ⟨q', List.mem_cons_of_mem _ h1, h2⟩
  obtain ⟨q, hq, hc⟩ := key qs h2
  obtain ⟨n, hn⟩ := List.getElem?_of_mem hq
  obtain ⟨⟨t, y⟩, hy, he⟩ := List.countP_pos_iff.1 hc
  simp only [decide_eq_true_eq] at he
  subst he
  exact ⟨n, q, t, hn, hy⟩

/-- A function comes from a user and is named by its hash. -/
theorem given_passed (h : Inv p rt cfg s) {f b : Bytes} (hg : Sched.Given s.received f b) : f = p.hash b ∧ Passed s b := by
  obtain ⟨y, ⟨nm, hg⟩ | ⟨gt, nm, hg, hf⟩⟩ := hg
  · obtain ⟨c, k, h1, h2, h3⟩ := h.functionSent (by decide) (h.received hg)
    exact ⟨h3, .inl ⟨y, c, k, nm, h1, h2⟩⟩
  · obtain ⟨c, h1, h2⟩ := h.graphSent (h.received hg)
    obtain ⟨call, h3, rfl, rfl⟩ := h.built y gt (by rw [h1]; exact h2)
    have h4 := h.calls call h3
    rw [h1] at h4
    obtain ⟨⟨ids, gid, hl, hn, hb⟩, -⟩ := h4
    obtain ⟨-, id, -, hs⟩ := C44_same p _ _ ids gid hl hn _ hb
    obtain ⟨h5, z, as, h6⟩ := hs.functions _ _ _ hf
    exact ⟨h5, .inr ⟨call, h3, z, nm, as, h6⟩⟩

/-- A function in a processor comes from a user and is named by its hash. -/
theorem proc_function (h : Inv p rt cfg s) {x : Bytes} {a : Worker.Agent} {ret : Int} {qs : List (Proc.Proc F)} {left : Option Bytes} (hx : s.peers x = .worker a ret qs left)
    {n : Nat} {q : Proc.Proc F} (hq : qs[n]? = some q) {l : Spec.Processor.Hist} (hl : ∀ y ∈ l, y ∈ q.log) {f b : Bytes}
    (hf : Spec.Processor.registered f l = some b) : f = p.hash b ∧ Passed s b := by
  obtain ⟨now, st, nm, h1⟩ := Proc.registered_mem hf
  obtain ⟨now', h2⟩ := proc_got h hx hq (hl _ h1)
  obtain ⟨d, start, hr⟩ := h.worker hx
  have h3 : (x, .functionResponse st f nm b) ∈ s.sched.out := agent_got h hx (hr.flow.passed _ h2)
  obtain ⟨l₁, l₂, e⟩ := List.append_of_mem h2
  have h4 := (hr.good.ok _ _ _ e).2.1
  rcases h.sched.response h3 with h5 | h5 | ⟨ty, nm', b', h5, h6⟩ | ⟨gt, h5⟩
  · exact absurd h5 h4
  · exact given_passed h h5
  · obtain ⟨c, -, h7, -⟩ := h.functionSent h5 (h.received h6)
    rw [hx] at h7; cases h7
  · obtain ⟨c, h7, -⟩ := h.graphSent (h.received h5)
    rw [hx] at h7; cases h7

/-- A result a worker sent for a task with a proper id is that of the function on the arguments. -/
theorem worked_sent (h : Inv p rt cfg s) {w t : Bytes} {st : TaskStatus} {d : UInt32} {r : Bytes} (hm : 0 < (s.peers w).sent (.taskResult t st d r))
    (h1 : st ≠ .canceled) (h2 : st ≠ .notFound) (ht : t ≠ []) :
    ∃ k, (w, .task k) ∈ s.sched.out ∧ k.taskId = t ∧
      match st with
      | .success => ∃ b f, k.functionId = p.hash b ∧ Passed s b ∧ rt.loadFn b = .ok f ∧ Processor.Returns rt f k.args r
      | .failed => ∃ e, rt.dumpExc e = some r ∧ ((∃ b f, k.functionId = p.hash b ∧ Passed s b ∧ rt.loadFn b = .ok f ∧ Processor.Raises rt f k.args e) ∨
          Processor.LoadFails rt k.args e ∨ e = rt.notCallable)
      | _ => False := by
  rcases Peer.sent_pos hm with ⟨c, hx, hm⟩ | ⟨a, ret, qs, left, hx, ⟨now, hm⟩ | ⟨id, -, hm⟩⟩
  · obtain ⟨l, -, h3⟩ := h.clientSent hx hm
    exact h3.elim
  · rcases h.workerSent hx hm with ⟨h3 | h3, -⟩ | h3
    · exact absurd h3 h1
    · exact absurd h3 h2
    · obtain ⟨n, q, now', hq, hs⟩ := agent_heard h hx h3
      have hP := h.peer w
      rw [hx] at hP
      obtain ⟨⟨start, hr⟩, -⟩ := hP.2.2.1 n q hq
      obtain ⟨l₁, l₂, e⟩ := List.append_of_mem hs
      have hsub : ∀ y ∈ l₁, y ∈ q.log := fun y hy => by rw [e]; exact List.mem_append_left _ hy
      rcases C55_answers_partial hr _ _ _ e with ⟨-, h4, -⟩ | ⟨u, k, h4, h5, h6⟩
      · exact absurd h4 ht
      · obtain ⟨u', h7⟩ := proc_got h hx hq (hsub _ h4)
        obtain ⟨d', start', hr'⟩ := h.worker hx
        refine ⟨k, agent_got h hx (hr'.flow.passed _ h7), h5, ?_⟩
        cases st with
        | success =>
          obtain ⟨f, ⟨b, h8, h9⟩, h10⟩ := h6
          obtain ⟨h11, h12⟩ := proc_function h hx hq hsub h8
          exact ⟨b, f, h11, h12, h9, h10⟩
        | failed =>
          obtain ⟨e, h7, ⟨f, ⟨b, h8, h9⟩, h10⟩ | h8⟩ := h6
          · obtain ⟨h11, h12⟩ := proc_function h hx hq hsub h8
            exact ⟨e, h7, .inl ⟨b, f, h11, h12, h9, h10⟩⟩
          · exact ⟨e, h7, .inr h8⟩
        | _ => exact h6.elim
  · cases hm

theorem worked (h : Inv p rt cfg s) {w t : Bytes} {st : TaskStatus} {d : UInt32} {r : Bytes} (hm : (w, .taskResult t st d r) ∈ s.received)
    (h1 : st ≠ .canceled) (h2 : st ≠ .notFound) (ht : t ≠ []) :
    ∃ k, (w, .task k) ∈ s.sched.out ∧ k.taskId = t ∧
      match st with
      | .success => ∃ b f, k.functionId = p.hash b ∧ Passed s b ∧ rt.loadFn b = .ok f ∧ Processor.Returns rt f k.args r
      | .failed => ∃ e, rt.dumpExc e = some r ∧ ((∃ b f, k.functionId = p.hash b ∧ Passed s b ∧ rt.loadFn b = .ok f ∧ Processor.Raises rt f k.args e) ∨
          Processor.LoadFails rt k.args e ∨ e = rt.notCallable)
      | _ => False := worked_sent h (h.received hm) h1 h2 ht

/-- Tasks sent to workers under the id of a submitted task are that task. -/
theorem sent_submitted (h : Inv p rt cfg s) {x : Bytes} {c : Client.Client} (hx : s.peers x = .client c) {k : Task} {nm b : Bytes}
    (hk : Client.Act.submitted k nm b ∈ c.log) {w : Bytes} {k' : Task} (hw : (w, .task k') ∈ s.sched.out) (ht : k'.taskId = k.taskId) :
    k' = k ∧ k.functionId = p.hash b := by
  have hin := h.notInGraph hx hk
  obtain ⟨y, hy⟩ := (C33_after_inputs cfg _ _ h.sched k' (.inr ⟨w, hw⟩)).2 (ht ▸ hin)
  obtain ⟨d, nm', b', hy, hk', hb⟩ := h.taskSent (h.received hy)
  obtain rfl := h.same (Inv.submitted_id hx hk) (ht ▸ Inv.submitted_id hy hk')
  rw [hx] at hy; cases hy
  obtain ⟨rfl, rfl, rfl⟩ := (h.client hx).task.once _ _ _ _ _ _ hk' hk ht
  exact ⟨rfl, hb⟩

/-! ### C62 -/

/-- **C62.** If the future of a submitted task resolves with a value, the value is what the function returned on the
arguments, in whatever way clients, scheduler and workers were run. -/
theorem C62_value (hr : System.Reach p rt cfg s) (hc : NoCollision p s) {x : Bytes} {c : Client.Client} (hx : s.peers x = .client c)
    {t : Bytes} {n : Nat} (hn : Client.Act.returned t n ∈ c.log) {r : Bytes} (hf : c.futures[n]? = some (.result r)) :
    ∃ k nm b f, Client.Act.submitted k nm b ∈ c.log ∧ k.taskId = t ∧ rt.loadFn b = .ok f ∧ Processor.Returns rt f k.args r := by
  have h := hr.inv
  obtain ⟨k, nm, b, hk, hkt⟩ := (h.client hx).returned hn
  obtain ⟨d, hd⟩ := (C45_own (h.client hx) hn).1 r hf
  obtain ⟨-, ⟨w, hw⟩ | h3⟩ := h.sched.good.sent.result _ _ _ _ _ (client_got h hx hd)
  · have ht : t ≠ [] := (h.ids x t (by subst hkt; exact Inv.submitted_id hx hk)).2
    obtain ⟨k', h1, h2, b', f, h3, h4, h5, h6⟩ := worked h hw nofun nofun ht
    obtain ⟨rfl, h7⟩ := sent_submitted h hx hk h1 (h2.trans hkt.symm)
    obtain rfl := hc b' b h4 (.inl ⟨x, c, k', nm, hx, hk⟩) (h3.symm.trans h7)
    exact ⟨k', nm, b', f, hk, hkt, h5, h6⟩
  · cases h3.1

/-- If it resolves with an exception, this is what loading, calling or pickling raised, or that of a missing
function (the case of `C55_evicted_under_task`). -/
theorem C62_exception (hr : System.Reach p rt cfg s) (hc : NoCollision p s) {x : Bytes} {c : Client.Client} (hx : s.peers x = .client c)
    {t : Bytes} {n : Nat} (hn : Client.Act.returned t n ∈ c.log) {r : Bytes} (hf : c.futures[n]? = some (.exception r)) :
    ∃ k nm b e, Client.Act.submitted k nm b ∈ c.log ∧ k.taskId = t ∧ rt.dumpExc e = some r ∧
      ((∃ f, rt.loadFn b = .ok f ∧ Processor.Raises rt f k.args e) ∨ Processor.LoadFails rt k.args e ∨ e = rt.notCallable) := by
  have h := hr.inv
  obtain ⟨k, nm, b, hk, hkt⟩ := (h.client hx).returned hn
  obtain ⟨d, hd⟩ := (C45_own (h.client hx) hn).2 r hf
  obtain ⟨-, ⟨w, hw⟩ | h3⟩ := h.sched.good.sent.result _ _ _ _ _ (client_got h hx hd)
  · have ht : t ≠ [] := (h.ids x t (by subst hkt; exact Inv.submitted_id hx hk)).2
    obtain ⟨k', h1, h2, e, h3, h4⟩ := worked h hw nofun nofun ht
    obtain ⟨rfl, h7⟩ := sent_submitted h hx hk h1 (h2.trans hkt.symm)
    refine ⟨k', nm, b, e, hk, hkt, h3, ?_⟩
    rcases h4 with ⟨b', f, h4, h5, h6, h8⟩ | h4
    · obtain rfl := hc b' b h5 (.inl ⟨x, c, k', nm, hx, hk⟩) (h4.symm.trans h7)
      exact .inl ⟨f, h6, h8⟩
    · exact .inr h4
  · cases h3.1

/-! ### C63 -/

open Classical in
/-- The function with this hash. -/
noncomputable def byHash (p : Pickle) (s : Sys F) (value : Bytes → List Bytes → Bytes) (f : Bytes) : List Bytes → Bytes :=
  if h : ∃ b, Passed s b ∧ p.hash b = f then value (Classical.choose h) else fun _ => []

theorem byHash_eq {value : Bytes → List Bytes → Bytes} (hc : NoCollision p s) {b : Bytes} (hb : Passed s b) :
    byHash p s value (p.hash b) = value b := by
  unfold byHash
  have h : ∃ b', Passed s b' ∧ p.hash b' = p.hash b := ⟨b, hb, rfl⟩
  rw [dif_pos h]
  have := Classical.choose_spec h
  rw [hc _ _ this.1 hb this.2]

/-- Workers are honest. -/
theorem honest_nodes (h : Inv p rt cfg s) (hc : NoCollision p s) {value : Bytes → List Bytes → Bytes} (hd : Deterministic rt value) :
    HonestNodes (byHash p s value) s.received s.sched.out := by
  rintro t r ⟨y, g, hg, ht⟩ ⟨w, d, hw⟩
  obtain ⟨c, h1, h2⟩ := h.graphSent (h.received hg)
  have hne := (h.ids y t (Inv.graph_id h1 h2 ht)).2
  obtain ⟨k, h3, h4, b, f, h5, h6, h7, h8⟩ := worked h hw nofun nofun hne
  refine ⟨w, k, h3, h4, ?_⟩
  rw [h5, byHash_eq hc h6]
  exact hd b f k.args r h7 h8

/-- The `i`-th future of a graph holds the value of the node of its `i`-th target. -/
theorem target_value (hr : System.Reach p rt cfg s) (hc : NoCollision p s) {value : Bytes → List Bytes → Bytes} (hd : Deterministic rt value)
    {call : GetCall} (hcall : call ∈ s.gets) {c : Client.Client} (hx : s.peers call.client = .client c)
    {ids : List Bytes} {gid : Bytes} (hl : Client.Enough call.graph ids) (hb : Client.buildGraph p ids gid call.graph call.keys = .ok call.message)
    {base : Nat} (hfut : Client.Futures call.message base c) {id : Bytes → Bytes} (hs : SameGraph p call.graph call.keys id call.message)
    {key : Bytes} (hkey : key ∈ call.keys) {i : Nat} (h2 : call.message.targets[i]? = some (id key)) {r : Bytes}
    (hf : c.futures[base + i]? = some (.result r)) : UserValue call.graph value key r := by
  have h := hr.inv
  have hi : i < call.message.targets.length := (List.getElem?_eq_some_iff.1 h2).1
  obtain ⟨rs, h3, h4⟩ := hfut.own (h.client hx) hi hf
  obtain ⟨g, h5, h6, depth, h7⟩ := C35_graph_value cfg _ _ h.sched _ (honest_nodes h hc hd) _ _ rs (client_got h hx h3)
  obtain ⟨c', h8, h9⟩ := h.graphSent (h.received h5)
  rw [hx] at h8; cases h8
  obtain rfl := graph_unique (h.client hx).ids h9 hfut.1 (t := call.message.taskId) (by simp [Client.graphIds, h6]) (by simp [Client.graphIds])
  have h10 := congrArg (·[i]?) (h7 depth (Nat.le_refl _))
  simp only [List.getElem?_map, h2, h4, Option.map_some, Option.some.injEq] at h10
  refine ⟨depth, ?_⟩
  rw [← C44_value hs ?_ value (byHash p s value) ?_ depth key ((targets_eq p hl hb).2 key hkey), h10]
  · intro y a hy ha
    have := (C44_rejected p call.graph call.keys ids gid hl .keyError).2 (.inl ⟨rfl, .inr ⟨y, a, hy, ha⟩⟩)
    rw [hb] at this
    cases this
  · intro y nm b as hy
    exact byHash_eq hc (.inr ⟨call, hcall, y, nm, as, hy⟩)

/-- **C63**, if the first keys, as many as there are targets, are different: what a future returned by `get` holds is the value
of its node in the user's graph.  Full statement: for all keys.  Missing: repetitions among these keys, for which `get` returns
futures of other nodes (`C63_repeated_key`); of which, is said by `C63_value_any`. -/
theorem C63_value_partial (hr : System.Reach p rt cfg s) (hc : NoCollision p s) {value : Bytes → List Bytes → Bytes} (hd : Deterministic rt value)
    {call : GetCall} (hcall : call ∈ s.gets) (hkeys : (call.keys.take call.message.targets.length).Nodup) {c : Client.Client} (hx : s.peers call.client = .client c)
    {key : Bytes} {n : Nat} (hn : call.futures.get? key = some n) {r : Bytes} (hf : c.futures[n]? = some (.result r)) :
    key ∈ call.keys ∧ UserValue call.graph value key r := by
  have hok := hr.inv.calls call hcall
  rw [hx] at hok
  obtain ⟨⟨ids, gid, hl, hnd, hb⟩, base, hfut, hret⟩ := hok
  obtain ⟨id, hs, hmem, hright⟩ := C43_exact p call.graph call.keys ids gid hl hnd call.message hb base call.futures hret
  have hkey := hmem key (by rw [hn]; rfl)
  refine ⟨hkey, ?_⟩
  obtain ⟨i, h1, h2⟩ := hright.2 hkeys key hkey
  rw [hn] at h1
  cases h1
  exact target_value hr hc hd hcall hx hl hb hfut hs hkey h2 hf

theorem mem_differentKeys {key : Bytes} : ∀ (keys l : List Bytes), key ∈ keys.foldl (fun l k => if k ∈ l then l else l ++ [k]) l → key ∈ l ∨ key ∈ keys
  | [], _, h => .inl h
  | k :: keys, l, h => by
    rcases mem_differentKeys keys _ h with h | h
    · dsimp only at h
      split at h
      · exact .inl h
      · rcases List.mem_append.1 h with h | h
        · exact .inl h
        · rw [List.mem_singleton.1 h]; simp
    · simp [h]

/-- **C63**, for all keys: the future that `get` returns for a key holds the value of the node that stands for the key. -/
theorem C63_value_any (hr : System.Reach p rt cfg s) (hc : NoCollision p s) {value : Bytes → List Bytes → Bytes} (hd : Deterministic rt value)
    {call : GetCall} (hcall : call ∈ s.gets) {c : Client.Client} (hx : s.peers call.client = .client c)
    {key : Bytes} {n : Nat} (hn : call.futures.get? key = some n) {r : Bytes} (hf : c.futures[n]? = some (.result r)) :
    ∃ key', Stands call.keys key key' ∧ UserValue call.graph value key' r := by
  have hok := hr.inv.calls call hcall
  rw [hx] at hok
  obtain ⟨⟨ids, gid, hl, hnd, hb⟩, base, hfut, hret⟩ := hok
  obtain ⟨id, hs, -, hst⟩ := C43_stands p call.graph call.keys ids gid hl hnd call.message hb base call.futures hret
  obtain ⟨i, key', rfl, h1, h2⟩ := hst key n hn
  have hkey : key' ∈ call.keys := by
    obtain ⟨j, _, _, hj⟩ := h1
    exact (mem_differentKeys call.keys [] (List.mem_of_getElem? hj)).elim (fun h => nomatch h) (fun h => h)
  exact ⟨key', h1, target_value hr hc hd hcall hx hl hb hfut hs hkey h2 hf⟩

/-- `submit(f, 1, 2)` with `f` adding 4. -/
def submitRun : Sys Nat := systemRun (.client [1] (.submit [10] [99] [4] [[1], [2]])) 20

/-- The hypotheses of `C62_value` can be met. -/
example : ∃ s : Sys Nat, System.Reach plainPickle toy wide s ∧ NoCollision plainPickle s ∧ ∃ c, s.peers [1] = .client c ∧
    Client.Act.returned [10] 0 ∈ c.log ∧ c.futures[0]? = some (.result [7]) := by
  have h : ((clientAt submitRun [1]).map fun c => decide (Client.Act.returned [10] 0 ∈ c.log ∧ c.futures[0]? = some (.result [7]))) = some true := by
    decide +kernel
  obtain ⟨c, h1, h2⟩ := Option.map_eq_some_iff.1 h
  exact ⟨submitRun, systemRun_reach _ _, fun _ _ _ _ h => h, c, clientAt_eq h1, of_decide_eq_true h2⟩

/-- `get({1: 7, 2: (f, 1), 3: (g, 2, 1)}, keys)` with `f` adding 9 and `g` adding 8. -/
def getGraph : Dict Bytes Client.UserNode := ((Dict.empty.set [1] (.data [7])).set [2] (.call [5] [9] [[1]])).set [3] (.call [6] [8] [[2], [1]])

def getRun (keys : List Bytes) : Sys Nat := systemRun (.get [1] [[20], [21]] [30] getGraph keys) 28

/-- The hypotheses of `C63_value_partial` can be met. -/
example : ∃ s : Sys Nat, System.Reach plainPickle toy wide s ∧ NoCollision plainPickle s ∧ Deterministic toy toyValue ∧ ∃ call ∈ s.gets,
    (call.keys.take call.message.targets.length).Nodup ∧ ∃ c, s.peers call.client = .client c ∧ ∃ n, call.futures.get? [3] = some n ∧ c.futures[n]? = some (.result [31]) := by
  have h : ((clientAt (getRun [[3], [2]]) [1]).map fun c => decide (∃ call ∈ (getRun [[3], [2]]).gets, call.client = [1] ∧ call.keys = [[3], [2]] ∧
      call.futures.get? [3] = some 0 ∧ c.futures[0]? = some (.result [31]))) = some true := by
    decide +kernel
  obtain ⟨c, h1, h2⟩ := Option.map_eq_some_iff.1 h
  obtain ⟨call, h3, h4, h5, h6, h7⟩ := of_decide_eq_true h2
  exact ⟨_, systemRun_reach _ _, fun _ _ _ _ h => h, toy_deterministic, call, h3, (by rw [h5]; decide : call.keys.Nodup).sublist (List.take_sublist _ _), c, by rw [h4]; exact clientAt_eq h1, 0, h6, h7⟩

/-- **The claim is false for repeated keys**: `get(graph, [3, 3, 2])` returns for key 3 a future that holds 16, the value
of node 2, but the value of node 3 is 31. -/
theorem C63_repeated_key : ∃ s : Sys Nat, System.Reach plainPickle toy wide s ∧ NoCollision plainPickle s ∧ ∃ call ∈ s.gets,
    ∃ c, s.peers call.client = .client c ∧ ∃ n, call.futures.get? [3] = some n ∧ c.futures[n]? = some (.result [16]) ∧
      ∀ v, UserValue call.graph toyValue [3] v → v = [31] := by
  have h : ((clientAt (getRun [[3], [3], [2]]) [1]).map fun c => decide (∃ call ∈ (getRun [[3], [3], [2]]).gets, call.client = [1] ∧
      call.graph.items = getGraph.items ∧ call.futures.get? [3] = some 1 ∧ c.futures[1]? = some (.result [16]))) = some true := by
    decide +kernel
  obtain ⟨c, h1, h2⟩ := Option.map_eq_some_iff.1 h
  obtain ⟨call, h3, h4, h5, h6, h7⟩ := of_decide_eq_true h2
  refine ⟨_, systemRun_reach _ _, fun _ _ _ _ h => h, call, h3, c, by rw [h4]; exact clientAt_eq h1, 1, h6, h7, ?_⟩
  have hg : call.graph = getGraph := by
    cases hc : call.graph
    rw [hc] at h5
    cases h5
    rfl
  rw [hg]
  rintro v ⟨n, hn⟩
  match n, hn with
  | 0, hn => cases hn
  | 1, hn => cases hn
  | 2, hn => exact (Option.some.inj hn).symm
  | n + 3, hn => exact (Option.some.inj hn).symm

end Verif.Props
