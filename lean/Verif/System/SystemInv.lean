import Verif.System.System
import Verif.Sched.Source
import Verif.Client.ClientIo
import Verif.Client.GraphLemmas
import Verif.Worker.AgentFlow
import Verif.Worker.ProcessorFlow
import Verif.Props.Wire
import Verif.Props.Client

/-!
# What always holds in a system
-/

namespace Verif.System

open Verif.Wire Verif.Sched Verif.Spec
open Verif.Client (Pickle Futures usedIds Enough)

/-! ### Messages arrive as sent -/

theorem carry_eq {m m' : Message} (h : carry m = some m') : m' = m := by
  unfold carry at h
  split at h
  · next fs he =>
    rw [Props.C02_decode_encode m fs he] at h
    cases h; rfl
  · cases h

theorem carryIn_eq {x : Bytes} {m : Message} {r : Bytes × Message} (h : carryIn x m = some r) : r = (x, m) := by
  unfold carryIn at h
  split at h
  · next fs he =>
    rw [Props.C02_binder_decode x m fs he] at h
    cases h; rfl
  · cases h

theorem carryOut_eq {x : Bytes} {m : Message} {r : Bytes × Message} (h : carryOut x m = some r) : r = (x, m) := by
  unfold carryOut at h
  split at h
  · next y fs he =>
    obtain ⟨ps, h1, -, h3⟩ := Props.C02_binder_encode x m _ he
    cases h1
    rw [h3] at h
    cases h; rfl
  · cases h

/-! ### Ids in a client's history -/

section
open Verif.Client

theorem nodup_append_apart {α : Type} {l l' : List α} (h : (l ++ l').Nodup) {a : α} (h1 : a ∈ l) (h2 : a ∈ l') : False :=
  (List.nodup_append.1 h).2.2 a h1 a h2 rfl

theorem submitted_used {l : List Client.Act} {k : Task} {nm b : Bytes} (h : Act.submitted k nm b ∈ l) : k.taskId ∈ usedIds l := by
  induction l with
  | nil => cases h
  | cons x l ih =>
    rcases List.mem_cons.1 h with rfl | h
    · simp [usedIds]
    · have := ih h
      cases x <;> simp [usedIds, this]

theorem submitted_graph {l : List Client.Act} (hn : (usedIds l).Nodup) {k : Task} {nm b : Bytes} (h : Act.submitted k nm b ∈ l) {m : GraphTask}
    (hm : Act.graph m ∈ l) (ht : k.taskId ∈ Client.graphIds m) : False := by
  induction l with
  | nil => cases h
  | cons x l ih =>
    rcases List.mem_cons.1 h with rfl | h1
    · rcases List.mem_cons.1 hm with e | hm
      · cases e
      · exact (List.nodup_cons.1 hn).1 (graph_used hm _ ht)
    · rcases List.mem_cons.1 hm with rfl | hm1
      · exact nodup_append_apart hn ht (submitted_used h1)
      · refine ih ?_ h1 hm1
        cases x <;> simp only [usedIds] at hn <;> first | exact hn | exact (List.nodup_cons.1 hn).2 | exact (List.nodup_append.1 hn).2.1

theorem graph_nodup {l : List Client.Act} (hn : (usedIds l).Nodup) {m : GraphTask} (hm : Act.graph m ∈ l) : (Client.graphIds m).Nodup := by
  induction l with
  | nil => cases hm
  | cons x l ih =>
    rcases List.mem_cons.1 hm with rfl | hm
    · exact (List.nodup_append.1 hn).1
    · refine ih ?_ hm
      cases x <;> simp only [usedIds] at hn <;> first | exact hn | exact (List.nodup_cons.1 hn).2 | exact (List.nodup_append.1 hn).2.1

theorem graph_unique {l : List Client.Act} (hn : (usedIds l).Nodup) {m m' : GraphTask} (hm : Act.graph m ∈ l) (hm' : Act.graph m' ∈ l) {t : Bytes}
    (ht : t ∈ Client.graphIds m) (ht' : t ∈ Client.graphIds m') : m = m' := by
  induction l with
  | nil => cases hm
  | cons x l ih =>
    rcases List.mem_cons.1 hm with rfl | h1
    · rcases List.mem_cons.1 hm' with e | h2
      · cases e; rfl
      · exact (nodup_append_apart hn ht (graph_used h2 _ ht')).elim
    · rcases List.mem_cons.1 hm' with rfl | h2
      · exact (nodup_append_apart hn ht' (graph_used h1 _ ht)).elim
      · refine ih ?_ h1 h2
        cases x <;> simp only [usedIds] at hn <;> first | exact hn | exact (List.nodup_cons.1 hn).2 | exact (List.nodup_append.1 hn).2.1

end

variable {F V X : Type}

/-! ### The invariant -/

/-- Ids the peer has used. -/
def Peer.ids : Peer F → List Bytes
  | .client c => usedIds c.log
  | _ => []

/-- Graphs the peer has built. -/
def Peer.Graph (m : GraphTask) : Peer F → Prop
  | .client c => Client.Act.graph m ∈ c.log
  | _ => False

/-- Every peer is in a state its own code can reach, and processors only get what their agent told them. -/
def PeerOk (p : Pickle) (rt : Proc.Runtime F V X) : Peer F → Prop
  | .absent => True
  | .client c => Client.Reach p c
  | .worker a ret qs _ => (∃ d start, Worker.Reach d start a) ∧ qs.length = a.procs ∧
      (∀ n q, qs[n]? = some q → (∃ start, Proc.Reach rt ret start q) ∧
        ∀ m, (q.log.countP fun y => decide (y.2 = .recv m)) ≤ a.log.countP fun y => decide (y.2 = .told n m)) ∧
      ∀ m, (a.log.countP fun y => decide (y.2 = .heard m)) ≤ procsSent m qs

/-- The graph message is made from this graph. -/
def BuiltFrom (p : Pickle) (g : Dict Bytes Client.UserNode) (keys : List Bytes) (m : GraphTask) : Prop :=
  ∃ ids gid, Enough g ids ∧ ids.Nodup ∧ Client.buildGraph p ids gid g keys = .ok m

/-- What is known of a call of `get`. -/
def CallOk (p : Pickle) (k : GetCall) : Peer F → Prop
  | .client c => BuiltFrom p k.graph k.keys k.message ∧
      ∃ base, Futures k.message base c ∧ k.futures = Client.returnFutures k.keys (List.range' base k.message.targets.length)
  | _ => False

/-- What always holds. -/
structure Inv (p : Pickle) (rt : Proc.Runtime F V X) (cfg : Config) (s : Sys F) : Prop where
  sched : Sched.Reach cfg s.received s.sched
  heard : ∀ x m, s.received.count (x, m) ≤ (s.peers x).sent m
  got : ∀ x m, (s.peers x).got m ≤ s.sched.out.count (x, m)
  peer : ∀ x, PeerOk p rt (s.peers x)
  ids : ∀ x, ∀ t ∈ (s.peers x).ids, t ∈ s.used ∧ t ≠ []
  apart : ∀ x y, x ≠ y → ∀ t ∈ (s.peers x).ids, t ∉ (s.peers y).ids
  built : ∀ x m, (s.peers x).Graph m → ∃ k ∈ s.gets, k.client = x ∧ k.message = m
  calls : ∀ k ∈ s.gets, CallOk p k (s.peers k.client)

theorem Inv.set {p : Pickle} {rt : Proc.Runtime F V X} {cfg : Config} {s : Sys F} (h : Inv p rt cfg s) {x : Bytes} {P : Peer F} {used : List Bytes}
    {gets : List GetCall} (hP : PeerOk p rt P) (hu : ∀ t ∈ s.used, t ∈ used) (hsent : ∀ m, (s.peers x).sent m ≤ P.sent m)
    (hgot : ∀ m, P.got m ≤ s.sched.out.count (x, m)) (hids : ∀ t ∈ P.ids, t ∈ (s.peers x).ids ∨ t ∉ s.used ∧ t ∈ used ∧ t ≠ [])
    (hgr : ∀ m, P.Graph m →
      (s.peers x).Graph m ∨ ∃ k ∈ gets, k.client = x ∧ k.message = m) (hgets : ∀ k ∈ s.gets, k ∈ gets)
    (hold : ∀ k, k.client = x → CallOk p k (s.peers x) → CallOk p k P) (hnew : ∀ k ∈ gets, k ∈ s.gets ∨ k.client = x ∧ CallOk p k P) :
    Inv p rt cfg { (s.setPeer x P) with used := used, gets := gets } where
  sched := h.sched
  heard y m := by
    show s.received.count (y, m) ≤ Peer.sent m (if y = x then P else s.peers y)
    split
    · subst y; exact Nat.le_trans (h.heard x m) (hsent m)
    · exact h.heard y m
  got y m := by
    show Peer.got m (if y = x then P else s.peers y) ≤ _
    split
    · subst y; exact hgot m
    · exact h.got y m
  peer y := by
    show PeerOk p rt (if y = x then P else s.peers y)
    split
    · exact hP
    · exact h.peer y
  ids y t := by
    show t ∈ Peer.ids (if y = x then P else s.peers y) → t ∈ used ∧ t ≠ []
    split
    · intro ht
      rcases hids t ht with ht | ht
      · exact ⟨hu t (h.ids x t ht).1, (h.ids x t ht).2⟩
      · exact ht.2
    · intro ht
      exact ⟨hu t (h.ids y t ht).1, (h.ids y t ht).2⟩
  apart y z hyz t := by
    show t ∈ Peer.ids (if y = x then P else s.peers y) → t ∉ Peer.ids (if z = x then P else s.peers z)
    split
    · subst y
      rw [if_neg (Ne.symm hyz)]
      intro ht
      rcases hids t ht with ht | ht
      · exact h.apart x z hyz t ht
      · exact fun hz => ht.1 (h.ids z t hz).1
    · intro ht
      split
      · subst z
        intro hz
        rcases hids t hz with hz | hz
        · exact h.apart y x hyz t ht hz
        · exact hz.1 (h.ids y t ht).1
      · exact h.apart y z hyz t ht
  built y m := by
    show Peer.Graph m (if y = x then P else s.peers y) → _
    split
    · subst y
      intro hm
      rcases hgr m hm with hm | hm
      · obtain ⟨k, h1, h2⟩ := h.built _ m hm
        exact ⟨k, hgets k h1, h2⟩
      · exact hm
    · intro hm
      obtain ⟨k, h1, h2⟩ := h.built y m hm
      exact ⟨k, hgets k h1, h2⟩
  calls k hk := by
    show CallOk p k (if k.client = x then P else s.peers k.client)
    split
    · next hx =>
      rcases hnew k hk with hk | hk
      · exact hold k hx (hx ▸ h.calls k hk)
      · exact hk.2
    · next hx =>
      rcases hnew k hk with hk | hk
      · exact h.calls k hk
      · exact absurd hk.1 hx

/-! ### Who sent what -/

theorem Peer.sent_pos {P : Peer F} {m : Message} (h : 0 < P.sent m) :
    (∃ c, P = .client c ∧ Client.Act.sent m ∈ c.log) ∨ ∃ a ret qs left, P = .worker a ret qs left ∧
      ((∃ now, (now, Worker.Act.sent m) ∈ a.log) ∨ ∃ id, left = some id ∧ m = .disconnectRequest id) := by
  cases P with
  | absent => simp [Peer.sent] at h
  | client c =>
    rw [Peer.sent, List.countP_pos_iff] at h
    obtain ⟨x, h1, h2⟩ := h
    simp only [decide_eq_true_eq] at h2
    exact .inl ⟨c, rfl, h2 ▸ h1⟩
  | worker a ret qs left =>
    refine .inr ⟨a, ret, qs, left, rfl, ?_⟩
    by_cases hl : left.map Message.disconnectRequest = some m
    · obtain ⟨id, h1, h2⟩ := Option.map_eq_some_iff.1 hl
      exact .inr ⟨id, h1, h2.symm⟩
    · rw [Peer.sent, if_neg hl, Nat.add_zero, List.countP_pos_iff] at h
      obtain ⟨x, h1, h2⟩ := h
      simp only [decide_eq_true_eq] at h2
      exact .inl ⟨x.1, h2 ▸ h1⟩

section
variable {p : Pickle} {rt : Proc.Runtime F V X} {cfg : Config} {s : Sys F} (h : Inv p rt cfg s)
include h

theorem Inv.worker {x : Bytes} {a : Worker.Agent} {ret : Int} {qs : List (Proc.Proc F)} {left : Option Bytes} (hx : s.peers x = .worker a ret qs left) :
    ∃ d start, Worker.Reach d start a := by
  have := h.peer x
  rw [hx] at this
  exact this.1

theorem Inv.client {x : Bytes} {c : Client.Client} (hx : s.peers x = .client c) : Client.Reach p c := by
  have := h.peer x
  rw [hx] at this
  exact this

/-- A worker sends nothing but answers, requests and reports. -/
theorem Inv.workerSent {x : Bytes} {a : Worker.Agent} {ret : Int} {qs : List (Proc.Proc F)} {left : Option Bytes} (hx : s.peers x = .worker a ret qs left) {m : Message} {now : Int}
    (hm : (now, Worker.Act.sent m) ∈ a.log) : Worker.Passed a.log (.sent m) := by
  obtain ⟨d, st, hr⟩ := h.worker hx
  exact hr.flow.passed _ hm

theorem Inv.clientSent {x : Bytes} {c : Client.Client} (hx : s.peers x = .client c) {m : Message} (hm : Client.Act.sent m ∈ c.log) :
    ∃ l, (∀ y ∈ l, y ∈ c.log) ∧ Spec.Client.Proper p l (.sent m) := by
  obtain ⟨l₁, l₂, e⟩ := List.append_of_mem hm
  exact ⟨l₁, fun y hy => by rw [e]; exact List.mem_append_left _ hy, (h.client hx).task.sent _ _ _ e⟩

/-- Tasks come from clients that submitted them. -/
theorem Inv.taskSent {x : Bytes} {k : Task} (hm : 0 < (s.peers x).sent (.task k)) :
    ∃ c nm b, s.peers x = .client c ∧ Client.Act.submitted k nm b ∈ c.log ∧ k.functionId = p.hash b := by
  rcases Peer.sent_pos hm with ⟨c, hx, hm⟩ | ⟨a, ret, qs, left, hx, ⟨now, hm⟩ | ⟨id, -, hm⟩⟩
  · obtain ⟨l, hl, ⟨nm, b, h1, h2⟩, -⟩ := h.clientSent hx hm
    exact ⟨c, nm, b, hx, hl _ h1, h2⟩
  · exact (h.workerSent hx hm).elim
  · cases hm

/-- Graphs come from clients that built them. -/
theorem Inv.graphSent {x : Bytes} {g : GraphTask} (hm : 0 < (s.peers x).sent (.graphTask g)) :
    ∃ c, s.peers x = .client c ∧ Client.Act.graph g ∈ c.log := by
  rcases Peer.sent_pos hm with ⟨c, hx, hm⟩ | ⟨a, ret, qs, left, hx, ⟨now, hm⟩ | ⟨id, -, hm⟩⟩
  · obtain ⟨l, hl, h1⟩ := h.clientSent hx hm
    exact ⟨c, hx, hl _ h1⟩
  · exact (h.workerSent hx hm).elim
  · cases hm

/-- Functions come from clients, under their own hash. -/
theorem Inv.functionSent {x : Bytes} {ty : FunctionRequestType} {f nm b : Bytes} (hty : ty ≠ .request)
    (hm : 0 < (s.peers x).sent (.functionRequest ty f nm b)) : ∃ c k, s.peers x = .client c ∧ Client.Act.submitted k nm b ∈ c.log ∧ f = p.hash b := by
  rcases Peer.sent_pos hm with ⟨c, hx, hm⟩ | ⟨a, ret, qs, left, hx, ⟨now, hm⟩ | ⟨id, -, hm⟩⟩
  · obtain ⟨l, hl, h1, h2, k, h3⟩ := h.clientSent hx hm
    exact ⟨c, k, hx, hl _ h3, h2⟩
  · exact absurd (h.workerSent hx hm) hty
  · cases hm

theorem Inv.received {x : Bytes} {m : Message} (hm : (x, m) ∈ s.received) : 0 < (s.peers x).sent m :=
  Nat.lt_of_lt_of_le (List.count_pos_iff.2 hm) (h.heard x m)

/-- Two clients do not use the same id. -/
theorem Inv.same {x y t : Bytes} (hx : t ∈ (s.peers x).ids) (hy : t ∈ (s.peers y).ids) : x = y :=
  Classical.byContradiction fun hne => h.apart x y hne t hx hy

omit h in
theorem Inv.submitted_id {x : Bytes} {c : Client.Client} (hx : s.peers x = .client c) {k : Task} {nm b : Bytes} (hk : Client.Act.submitted k nm b ∈ c.log) :
    k.taskId ∈ (s.peers x).ids := by
  rw [hx]; exact submitted_used hk

omit h in
theorem Inv.graph_id {x : Bytes} {c : Client.Client} (hx : s.peers x = .client c) {g : GraphTask} (hk : Client.Act.graph g ∈ c.log) {t : Bytes}
    (ht : t ∈ Spec.graphIds g) : t ∈ (s.peers x).ids := by
  rw [hx]; exact Client.graph_used hk t ht

/-- The ids of submitted tasks are in no graph. -/
theorem Inv.notInGraph {x : Bytes} {c : Client.Client} (hx : s.peers x = .client c) {k : Task} {nm b : Bytes} (hk : Client.Act.submitted k nm b ∈ c.log) :
    ¬ InGraph s.received k.taskId := by
  rintro ⟨y, g, hg, ht⟩
  obtain ⟨d, hy, hg⟩ := h.graphSent (h.received hg)
  obtain rfl := h.same (Inv.submitted_id hx hk) (Inv.graph_id hy hg ht)
  rw [hx] at hy; cases hy
  exact submitted_graph (h.client hx).ids hk hg ht

theorem Inv.task_unique {x y : Bytes} {k k' : Task} (hx : 0 < (s.peers x).sent (.task k)) (hy : 0 < (s.peers y).sent (.task k'))
    (ht : k'.taskId = k.taskId) : y = x ∧ k' = k := by
  obtain ⟨c, nm, b, hx, hk, -⟩ := h.taskSent hx
  obtain ⟨c', nm', b', hy, hk', -⟩ := h.taskSent hy
  obtain rfl := h.same (Inv.submitted_id hx hk) (ht ▸ Inv.submitted_id hy hk')
  rw [hx] at hy; cases hy
  exact ⟨rfl, ((h.client hx).task.once _ _ _ _ _ _ hk' hk ht).1⟩

omit h in
theorem results_le {l : Log} {t : Bytes} (hr : Sched.Reach cfg l s.sched) (ht : ¬ InGraph l t) : results anyone t s.sched.out ≤ acks anyone t s.sched.out := by
  have := hr.good.acct anyone t ht
  change acks anyone t s.sched.out = results anyone t s.sched.out + _ at this
  omega

/-- Clients choose ids properly. -/
theorem Inv.allowed {x : Bytes} {m : Message} (hm : s.received.count (x, m) < (s.peers x).sent m) : Allowed s.received s.sched.out (x, m) := by
  have hpos : 0 < (s.peers x).sent m := by omega
  cases m with
  | task k =>
    obtain ⟨c, nm, b, hx, hk, -⟩ := h.taskSent hpos
    have hin := h.notInGraph hx hk
    refine ⟨hin, ?_⟩
    have hcount : submits k.taskId s.received = s.received.count (x, .task k) := by
      unfold submits List.count
      apply List.countP_congr
      rintro ⟨y, m⟩ hy
      constructor
      · intro hs
        cases m <;> simp only [isSubmit, decide_eq_true_eq, Bool.false_eq_true] at hs
        obtain ⟨rfl, rfl⟩ := h.task_unique hpos (h.received hy) hs
        exact beq_self_eq_true _
      · intro hs
        have := eq_of_beq hs
        cases this
        simp [isSubmit]
    have h1 := Props.C47_once (h.client hx) k.taskId
    have h2 : (s.peers x).sent (.task k) ≤ c.log.countP (Spec.Client.isSent k.taskId) := by
      rw [hx, Peer.sent]
      apply List.countP_mono_left
      intro y _ hy
      simp only [decide_eq_true_eq] at hy
      subst hy
      simp [Spec.Client.isSent]
    have h3 : c.log.countP (Spec.Client.isRefused k.taskId) ≤ (s.peers x).got (.taskEcho k.taskId .functionNotExists) := by
      rw [hx, Peer.got]
      apply List.countP_mono_left
      intro y _ hy
      unfold Spec.Client.isRefused at hy
      split at hy
      · simp only [decide_eq_true_eq] at hy
        subst hy
        simp
      · cases hy
    have h4 := h.got x (.taskEcho k.taskId .functionNotExists)
    have h5 : s.sched.out.count (x, .taskEcho k.taskId .functionNotExists) ≤ refusals k.taskId s.sched.out := by
      unfold refusals List.count
      apply List.countP_mono_left
      intro y _ hy
      have := eq_of_beq hy
      subst this
      simp [isRefusal]
    have h6 := h.sched.good.echo k.taskId hin
    have h7 := results_le h.sched hin
    omega
  | graphTask g =>
    obtain ⟨c, hx, hg⟩ := h.graphSent hpos
    refine ⟨graph_nodup (h.client hx).ids hg, ?_⟩
    rintro t ht (⟨y, g', hy, ht'⟩ | ⟨y, k, hy, rfl⟩)
    · have hy0 := hy
      obtain ⟨d, hy, hg'⟩ := h.graphSent (h.received hy)
      obtain rfl := h.same (Inv.graph_id hx hg ht) (Inv.graph_id hy hg' ht')
      rw [hx] at hy; cases hy
      obtain rfl := graph_unique (h.client hx).ids hg hg' ht ht'
      have h1 := List.count_pos_iff.2 hy0
      have h2 := (h.client hx).graphOnce g
      rw [hx, Peer.sent] at hm
      omega
    · obtain ⟨d, nm, b, hy, hk, -⟩ := h.taskSent (h.received hy)
      obtain rfl := h.same (Inv.graph_id hx hg ht) (Inv.submitted_id hy hk)
      rw [hx] at hy; cases hy
      exact submitted_graph (h.client hx).ids hk hg ht
  | _ => trivial

end

end Verif.System
