import Verif.Spec.Orderly
import Verif.System.Causal
import Verif.System.Unrefused
import Verif.System.Settle
import Verif.Client.ClientTame
import Verif.Client.ClientDone
import Verif.Spec.Rest
import Verif.Worker.AgentWire
import Verif.Sched.EchoFirst
import Verif.Sched.Uncalled
import Verif.System.MildGraph
import Verif.System.SystemStep
import Verif.Props.Finish
import Verif.Props.Prompt
import Verif.Props.SchedSystem
import Verif.Props.Server
import Verif.Props.Steady

/-!
# Systems in which everything goes as it should

Lemmas: what never happens there.
-/

namespace Verif.System

open Verif.Wire Verif.Sched Verif.Spec
open Verif.Client (Pickle usedIds)

variable {F V X : Type} {p : Pickle} {rt : Proc.Runtime F V X} {cfg : Config} {s s' : Sys F} {es : List Sched.Event}

theorem _root_.Verif.Spec.Orderly.reach (h : Orderly p rt cfg es s) : Reach p rt cfg s := by
  induction h with
  | init => exact .init
  | step o _ hs _ _ ih => exact .step o ih hs

/-- The client's part of an event. -/
def Comes (p : Pickle) (s : Sys F) (o : Op) (x : Bytes) (co : Client.Op) : Prop :=
  o = .client x co ∨ ∃ ids gid g keys m, o = .get x ids gid g keys ∧ co = .get m ∧ Client.Enough g ids ∧ (gid :: ids).Nodup ∧
    (∀ t ∈ gid :: ids, t ∉ s.used) ∧ Client.buildGraph p ids gid g keys = .ok m

/-- Who changes at such an event, and how. -/
inductive Shift (p : Pickle) (s : Sys F) (o : Op) (s' : Sys F) : Prop where
  | sched (e : Sched.Event) (ho : o = .sched e) (h : s'.peers = s.peers) (hs : s.sched.step e = .ok s'.sched)
      (hr : s'.received = s.received ++ e.input) (hd : ∀ x m, e.op = .recv x m → s.received.count (x, m) < (s.peers x).sent m)
  | worker (x : Bytes) (a : Worker.Agent) (ret : Int) (qs : List (Proc.Proc F)) (h : s'.peers = (s.setPeer x (.worker a ret qs none)).peers)
      (hs : s'.sched = s.sched) (hr : s'.received = s.received) (ho : schedPart o = []) (hx : ∀ c, s.peers x ≠ .client c)
  | new (x : Bytes) (h : s'.peers = (s.setPeer x (.client .init)).peers) (hs : s'.sched = s.sched) (hr : s'.received = s.received) (ho : schedPart o = [])
      (hx : ∀ c, s.peers x ≠ .client c)
  | client (x : Bytes) (c c' : Client.Client) (co : Client.Op) (ho : Comes p s o x co) (hx : s.peers x = .client c) (hc : c.step p co = .ok c')
      (hf : ∀ t nm b args, co = .submit t nm b args → t ∉ s.used) (h : s'.peers = (s.setPeer x (.client c')).peers)
      (hs : s'.sched = s.sched) (hr : s'.received = s.received)

theorem step_shift {o : Op} (hm : Mild rt s o) (hs : s.step p rt o = some s') : Shift p s o s' := by
  cases o with
  | joinClient x =>
    simp only [Sys.step] at hs
    split at hs <;> cases hs
    next hx => exact .new x rfl rfl rfl rfl fun c => by rw [hx]; nofun
  | joinWorker x d ret now =>
    simp only [Sys.step] at hs
    split at hs <;> cases hs
    next hx => exact .worker x _ _ _ rfl rfl rfl rfl fun c => by rw [hx]; nofun
  | sched e =>
    obtain ⟨op, now, o⟩ := e
    simp only [Sys.step, Sys.schedStep] at hs
    split at hs
    · next _ x m =>
      split at hs
      · next hd =>
        split at hs
        · cases hs
        · next x' m' hcar =>
          cases carryIn_eq hcar
          split at hs
          · next t ht =>
            cases hs
            exact .sched _ rfl rfl ht rfl fun _ _ e => by cases e; exact hd
          · cases hs
      · cases hs
    · next hop =>
      split at hs
      · next t ht =>
        cases hs
        refine .sched _ rfl rfl ht ?_ fun x m e => absurd e (hop x m)
        cases op <;> simp [Event.input]
        exact absurd rfl (hop _ _)
      · cases hs
  | client x co =>
    simp only [Sys.step] at hs
    split at hs
    · next c hx =>
      unfold Sys.clientOp at hs
      split at hs
      · split at hs
        · cases hs
        · next hfresh =>
          rw [not_or] at hfresh
          obtain ⟨c1, hc, rfl⟩ := clientStep_some hs
          exact .client x c c1 _ (.inl rfl) hx hc (fun _ _ _ _ e => by cases e; exact hfresh.1) rfl rfl rfl
      · cases hs
      · split at hs
        · split at hs
          · cases hs
          · next y' m' hcar =>
            cases carryOut_eq hcar
            rw [if_pos rfl] at hs
            obtain ⟨c1, hc, rfl⟩ := clientStep_some hs
            exact .client x c c1 _ (.inl rfl) hx hc (fun _ _ _ _ e => by cases e) rfl rfl rfl
        · cases hs
      · next h1 h2 h3 =>
        obtain ⟨c1, hc, rfl⟩ := clientStep_some hs
        exact .client x c c1 _ (.inl rfl) hx hc (fun _ _ _ _ e => absurd e (h1 _ _ _ _)) rfl rfl rfl
    · cases hs
  | get x ids gid g keys =>
    simp only [Sys.step] at hs
    split at hs
    · next c hx =>
      simp only [Sys.getOp] at hs
      split at hs
      · next hc =>
        split at hs
        · next m c1 ret hb hcall =>
          cases hs
          simp only [Client.Client.callGet, Py.bind_ok] at hcall
          obtain ⟨m', hm', hcall⟩ := hcall
          rw [hb] at hm'; cases hm'
          cases hcall
          exact .client x c (c.get m) (.get m) (.inr ⟨ids, gid, g, keys, m, rfl, rfl, Nat.le_of_eq hc.2.2.2, hc.2.1, fun t ht => (hc.2.2.1 t ht).1, hb⟩) hx
            (by simp [Client.Client.step, hc.1]) nofun rfl rfl rfl
        · cases hs
      · cases hs
    · cases hs
  | agent x e =>
    simp only [Sys.step] at hs
    split at hs
    · next a ret qs hx =>
      have key : ∀ e', s.agentStep x a ret qs e' = some s' → Shift p s (.agent x e) s' := by
        intro e' hs
        unfold Sys.agentStep at hs
        split at hs <;> cases hs
        exact .worker x _ _ _ rfl rfl rfl rfl fun c => by rw [hx]; nofun
      unfold Sys.agentOp at hs
      split at hs
      · split at hs
        · split at hs
          · cases hs
          · split at hs
            · exact key _ hs
            · cases hs
        · cases hs
      · split at hs
        · split at hs
          · cases hs
          · exact key _ hs
        · cases hs
      · exact key _ hs
    · cases hs
  | proc x n e =>
    simp only [Sys.step] at hs
    split at hs
    · next a ret qs hx =>
      have key : ∀ q e', s.procStep rt x a ret qs n q e' = some s' → Shift p s (.proc x n e) s' := by
        intro q e' hs
        unfold Sys.procStep at hs
        split at hs <;> cases hs
        exact .worker x _ _ _ rfl rfl rfl rfl fun c => by rw [hx]; nofun
      unfold Sys.procOp at hs
      split at hs
      · split at hs
        · cases hs
        · split at hs
          · split at hs
            · split at hs
              · cases hs
              · exact key _ _ hs
            · cases hs
          · exact key _ _ hs
      · cases hs
    · cases hs
  | leave x => exact hm.elim

theorem setPeer_at {x y : Bytes} {P : Peer F} : (s.setPeer x P).peers y = if y = x then P else s.peers y := rfl

/-- Nobody leaves. -/
theorem _root_.Verif.Spec.Orderly.stay (h : Orderly p rt cfg es s) : ∀ {w a ret qs left}, s.peers w = .worker a ret qs left → left = none := by
  induction h with
  | init => nofun
  | @step es s s' o h hs hm hp ih =>
    intro w a ret qs left hx
    rcases step_shift hm hs with ⟨-, -, h1, -, -, -⟩ | ⟨x, _, _, _, h1, -⟩ | ⟨x, h1, -⟩ | ⟨x, _, _, _, _, _, _, _, h1, -⟩ <;> rw [h1] at hx
    · exact ih hx
    all_goals
      rw [setPeer_at] at hx
      split at hx
      · cases hx <;> rfl
      · exact ih hx

theorem arrived_append (l l' : List Client.Act) : mailIn (l ++ l') = mailIn l ++ mailIn l' := List.filterMap_append

theorem letters_append (x : Bytes) (l l' : Log) : letters x (l ++ l') = letters x l ++ letters x l' := List.filterMap_append

theorem arrived_nil {l : List Client.Act} (h : ∀ m, .recv m ∉ l) : mailIn l = [] := by
  refine List.filterMap_eq_nil_iff.2 fun x hx => ?_
  cases x with
  | recv m => exact absurd hx (h m)
  | _ => rfl

theorem arrived_count (l : List Client.Act) (m : Message) : (mailIn l).count m = l.countP fun x => decide (x = .recv m) := by
  induction l with
  | nil => rfl
  | cons x l ih =>
    rw [List.countP_cons, ← ih]
    cases x with
    | recv m' => simp [mailIn, List.count_cons]
    | _ => simp [mailIn]

theorem letters_count (x : Bytes) (l : Log) (m : Message) : (letters x l).count m = l.count (x, m) := withPeer_count x l m

theorem io_arrived {c c' : Client.Client} {o : Client.Op} (h : Client.Io c c' o) :
    mailIn c'.log = mailIn c.log ∨ ∃ m, o = .recv m ∧ mailIn c'.log = mailIn c.log ++ [m] := by
  cases h with
  | quiet xs ms h1 h2 =>
    left
    rw [h1, arrived_append, arrived_nil fun m hm => h2 _ hm, List.append_nil]
  | get g h1 h2 => left; rw [h2, arrived_append]; simp [mailIn]
  | recv m ms h1 h2 => right; exact ⟨m, h1, by rw [h2, arrived_append]; rfl⟩
  | flush m h1 => left; rw [h1, arrived_append]; simp [mailIn]
  | started g ns h1 h2 => left; rw [h2, arrived_append]; simp [mailIn]

/-- What a client does is mild. -/
theorem Comes.tame {x : Bytes} {c : Client.Client} {o : Op} {co : Client.Op} (hc : Comes p s o x co) (h : Inv p rt cfg s) (hx : s.peers x = .client c) (hm : Mild rt s o)
    (hf : ∀ t nm b args, co = .submit t nm b args → t ∉ s.used) : Client.TameOp c co := by
  rcases hc with rfl | ⟨ids, gid, g, keys, m, rfl, rfl, hl, hn, hu, hb⟩
  · cases co with
    | submit t nm b args => exact fun ht => hf _ _ _ _ rfl (h.ids x t (by rw [hx]; exact ht)).1
    | recv m => exact (hm c hx).1
    | _ => first | trivial | exact hm.elim
  · obtain ⟨h1, h2⟩ := built_ids hl hn hb
    exact ⟨⟨h1, fun t ht hus => hu t (h2 t ht) (h.ids x t (by rw [hx]; exact hus)).1⟩, (built_mild ⟨ids, gid, hl, (List.nodup_cons.1 hn).2, hb⟩ hm).1⟩

/-- Clients handle their messages in order, between the calls of their users. -/
theorem _root_.Verif.Spec.Orderly.client (h : Orderly p rt cfg es s) : ∀ {x c}, s.peers x = .client c →
    Client.Tame p c ∧ mailIn c.log <+: letters x s.sched.out := by
  induction h with
  | init => nofun
  | @step es s s' o h hs hm hp ih =>
    intro y c' hy
    obtain ⟨l, hl⟩ := h.reach.out_step hs
    have old : s.peers y = .client c' → Client.Tame p c' ∧ mailIn c'.log <+: letters y s'.sched.out := fun hy => by
      refine ⟨(ih hy).1, (ih hy).2.trans ?_⟩
      rw [hl, letters_append]
      exact List.prefix_append _ _
    rcases step_shift hm hs with ⟨-, -, h1, -, -, -⟩ | ⟨x, _, _, _, h1, h2, -⟩ | ⟨x, h1, h2, -⟩ | ⟨x, c, c1, co, ho, hx, hc, hf, h1, h2, -⟩ <;> rw [h1] at hy
    · exact old hy
    all_goals
      rw [setPeer_at] at hy
      split at hy
    · cases hy
    · exact old hy
    · cases hy
      exact ⟨.init, List.nil_prefix⟩
    · exact old hy
    · next e =>
      subst e
      cases hy
      obtain ⟨hT, hA⟩ := ih hx
      refine ⟨.step co hT (ho.tame h.reach.inv hx hm hf) hc, ?_⟩
      rw [h2]
      rcases io_arrived (Client.step_io hc) with e | ⟨m, rfl, e⟩ <;> rw [e]
      · exact hA
      · rcases ho with rfl | ⟨_, _, _, _, _, -, ho, -⟩
        · exact (hm _ hx).2
        · cases ho
    · exact old hy

/-- Everything workers send has a wire form. -/
theorem Reach.wire (h : Reach p rt cfg s) (hq : fitsBits 32 cfg.queueSize) : ∀ {w a ret qs left}, s.peers w = .worker a ret qs left →
    ∀ now m, (now, Worker.Act.sent m) ∈ a.log → sendable m := by
  induction h with
  | init => nofun
  | @step s s' o h hs ih =>
    intro w a ret qs left hx now m hm
    cases step_worked hs hx with
    | new d start h1 =>
      subst h1
      simp [Worker.Agent.init, Worker.Agent.blank, Worker.Agent.startProcessor, Worker.Agent.note] at hm
    | same h1 => exact ih h1 now m hm
    | agent a0 qs0 e h1 h2 h3 h4 h5 =>
      rcases Worker.step_said h2 _ hm with hm | hm
      · exact ih h1 now m hm
      · rcases hm m rfl with hm | ⟨l, n, rfl, h6, h7⟩
        · exact hm
        · have h8 := h5 _ h6
          have h9 := Props.C71_asks h.inv.sched hq.1 w n (List.count_pos_iff.1 (by omega))
          have := hq.2
          show l.length < 2 ^ 32
          omega
    | proc qs0 n q q' e h1 => exact ih h1 now m hm
    | leave h1 => exact ih h1 now m hm

theorem _root_.Verif.Spec.Orderly.exec (h : Orderly p rt cfg es s) : Exec cfg es s.received s.sched := by
  induction h with
  | init => exact .init
  | @step es s s' o h hs hm hp ih =>
    rcases step_shift hm hs with ⟨e, rfl, -, h1, h2, h3⟩ | ⟨_, _, _, _, _, h1, h2, h3, -⟩ | ⟨_, _, h1, h2, h3, -⟩ | ⟨_, _, _, _, h3, _, _, _, _, h1, h2⟩
    · rw [h2]
      refine .step e ih ?_ h1
      intro m hm'
      obtain ⟨op, now, o⟩ := e
      cases op <;> simp only [Event.input, List.mem_singleton, List.not_mem_nil] at hm'
      subst hm'
      exact h.reach.inv.allowed (h3 _ _ rfl)
    · rw [h1, h2, h3, List.append_nil]; exact ih
    · rw [h1, h2, h3, List.append_nil]; exact ih
    · have : schedPart o = [] := by rcases h3 with rfl | ⟨_, _, _, _, _, rfl, -⟩ <;> rfl
      rw [h1, h2, this, List.append_nil]; exact ih

theorem _root_.Verif.Spec.Orderly.prompt (h : Orderly p rt cfg es s) : Prompt es := by
  cases h with
  | init => exact nofun
  | step _ _ _ _ hp => exact hp

theorem step_gets {o : Op} (hs : s.step p rt o = some s') : s'.gets = s.gets ∨ ∃ x ids gid g keys m ret, o = .get x ids gid g keys ∧ s'.gets = s.gets ++ [⟨x, g, keys, m, ret⟩] := by
  cases o with
  | joinClient x =>
    simp only [Sys.step] at hs
    split at hs <;> cases hs
    exact .inl rfl
  | joinWorker x d ret now =>
    simp only [Sys.step] at hs
    split at hs <;> cases hs
    exact .inl rfl
  | leave x =>
    simp only [Sys.step] at hs
    split at hs <;> cases hs
    exact .inl rfl
  | sched e =>
    simp only [Sys.step, Sys.schedStep] at hs
    repeat' split at hs
    all_goals cases hs
    all_goals exact .inl rfl
  | get x ids gid g keys =>
    simp only [Sys.step] at hs
    split at hs
    · unfold Sys.getOp at hs
      split at hs
      · split at hs <;> cases hs
        exact .inr ⟨x, ids, gid, g, keys, _, _, rfl, rfl⟩
      · cases hs
    · cases hs
  | client x o =>
    left
    simp only [Sys.step, Sys.clientOp, Sys.clientStep] at hs
    repeat' split at hs
    all_goals cases hs
    all_goals rfl
  | agent x e =>
    left
    simp only [Sys.step, Sys.agentOp, Sys.agentStep] at hs
    repeat' split at hs
    all_goals cases hs
    all_goals rfl
  | proc x n e =>
    left
    simp only [Sys.step, Sys.procOp, Sys.procStep] at hs
    repeat' split at hs
    all_goals cases hs
    all_goals rfl

/-- Graphs are as they should be. -/
theorem _root_.Verif.Spec.Orderly.gets (h : Orderly p rt cfg es s) : ∀ k ∈ s.gets, MildGraph rt k.graph k.keys := by
  induction h with
  | init => nofun
  | @step es s s' o h hs hm hp ih =>
    rcases step_gets hs with e | ⟨x, ids, gid, g, keys, m, ret, rfl, e⟩ <;> rw [e]
    · exact ih
    · intro k hk
      rcases List.mem_append.1 hk with hk | hk
      · exact ih k hk
      · cases List.mem_singleton.1 hk
        exact hm

/-- The graphs that clients send. -/
theorem _root_.Verif.Spec.Orderly.graph (h : Orderly p rt cfg es s) {x : Bytes} {c : Client.Client} (hx : s.peers x = .client c) {m : GraphTask}
    (hg : Client.Act.graph m ∈ c.log) : sendable (.graphTask m) ∧ (∀ T ∈ m.graph, ((T.args.filter fun a => a.type = .task).map (·.data)).Nodup) ∧
      ∀ fid nm b, m.functions.get? fid = some (nm, b) → ∃ f, rt.loadFn b = .ok f := by
  obtain ⟨k, hk, rfl, rfl⟩ := h.reach.inv.built x m (by rw [hx]; exact hg)
  have := h.reach.inv.calls k hk
  rw [hx] at this
  exact built_mild this.1 (h.gets k hk)

/-- No goodbyes. -/
theorem _root_.Verif.Spec.Orderly.noGoodbye (h : Orderly p rt cfg es s) (x w : Bytes) : ¬ 0 < (s.peers x).sent (.disconnectRequest w) := fun hx => by
  rcases Peer.sent_pos hx with ⟨c, h1, h2⟩ | ⟨a, ret, qs, left, h1, ⟨now, h2⟩ | ⟨id, h2, -⟩⟩
  · obtain ⟨l, -, h3⟩ := h.reach.inv.clientSent h1 h2
    exact h3
  · exact h.reach.inv.workerSent h1 h2
  · rw [h.stay h1] at h2; cases h2

/-- Clients cancel nothing. -/
theorem _root_.Verif.Spec.Orderly.uncancelled (h : Orderly p rt cfg es s) (x t : Bytes) :
    ¬ 0 < (s.peers x).sent (.taskCancel t) ∧ ¬ 0 < (s.peers x).sent (.graphTaskCancel t) := by
  constructor
  all_goals
    intro h1
    rcases Peer.sent_pos h1 with ⟨cl, h2, h3⟩ | ⟨a, ret, qs, left, h2, ⟨now, h3⟩ | ⟨id, -, h3⟩⟩
  · exact ((h.client h2).1.alone.reach.noCancel (h.client h2).1.calm.open').1 t h3
  · exact h.reach.inv.workerSent h2 h3
  · cases h3
  · exact ((h.client h2).1.alone.reach.noCancel (h.client h2).1.calm.open').2 t h3
  · exact h.reach.inv.workerSent h2 h3
  · cases h3

/-- A task of a client is no node of a graph. -/
theorem plain_task (h : Inv p rt cfg s) {c : Bytes} {k : Task} (hk : (c, .task k) ∈ s.received) : ¬ InGraph s.received k.taskId := by
  obtain ⟨c, nm, b, hx, h1, -⟩ := h.taskSent (h.received hk)
  exact h.notInGraph hx h1

/-- What the scheduler heard of tasks that failed. -/
theorem _root_.Verif.Spec.Orderly.failed (h : Orderly p rt cfg es s) {w t : Bytes} {d : UInt32} {r : Bytes} (hm : (w, .taskResult t .failed d r) ∈ s.received) :
    ¬ InGraph s.received t := by
  suffices hS : t ≠ [] → ∃ c k, (c, .task k) ∈ s.received ∧ k.taskId = t by
    intro hin
    have ht : t ≠ [] := by
      obtain ⟨c, gt, hgt, ht⟩ := hin
      obtain ⟨cl, hx, hg'⟩ := h.reach.inv.graphSent (h.reach.inv.received hgt)
      exact (h.reach.inv.ids c t (Inv.graph_id hx hg' ht)).2
    obtain ⟨c, k, hk, rfl⟩ := hS ht
    exact plain_task h.reach.inv hk hin
  intro ht
  induction h with
  | init => cases hm
  | @step es s s' o h hs hm' hp ih =>
    have keep : ∀ l, s'.received = s.received ++ l → (w, Message.taskResult t .failed d r) ∈ s.received → ∃ c k, (c, .task k) ∈ s'.received ∧ k.taskId = t := by
      intro l e h1
      obtain ⟨c, k, h2, h3⟩ := ih h1
      exact ⟨c, k, by rw [e]; exact List.mem_append_left _ h2, h3⟩
    rcases step_shift hm' hs with ⟨e, rfl, -, h1, h2, h3⟩ | ⟨_, _, _, _, _, -, h1, -⟩ | ⟨_, _, -, h1, -⟩ | ⟨_, _, _, _, _, _, _, _, _, -, h1⟩
    · rw [h2] at hm
      rcases List.mem_append.1 hm with hm | hm
      · exact keep _ h2 hm
      · obtain ⟨op, now, od⟩ := e
        cases op <;> simp only [Event.input, List.mem_singleton, List.not_mem_nil] at hm
        cases hm
        have hlt := h3 _ _ rfl
        obtain ⟨k, h4, rfl, -⟩ := Props.worked_sent h.reach.inv (Nat.lt_of_le_of_lt (Nat.zero_le _) hlt) nofun nofun ht
        rcases h.reach.inv.sched.good.inv.sent _ _ h4 with ⟨c, h5⟩ | ⟨c, gt, T, h5, h6, h7, -⟩
        · exact ⟨c, k, by rw [h2]; exact List.mem_append_left _ h5, rfl⟩
        · exact absurd ⟨c, gt, h5, List.mem_cons_of_mem _ (List.mem_map.2 ⟨T, h6, h7.symm⟩)⟩ (hm'.2 _ _ _ _ rfl)
    · exact keep [] (by rw [h1, List.append_nil]) (h1 ▸ hm)
    · exact keep [] (by rw [h1, List.append_nil]) (h1 ▸ hm)
    · exact keep [] (by rw [h1, List.append_nil]) (h1 ▸ hm)

/-- No cancels. -/
theorem _root_.Verif.Spec.Orderly.noCancel (h : Orderly p rt cfg es s) : NoCancel s := by
  induction h with
  | init => exact nofun
  | @step es s s' o h hs hm hp ih =>
    have h' := Orderly.step o h hs hm hp
    rcases step_shift hm hs with ⟨e, rfl, h0, h1, h2, h3⟩ | ⟨_, _, _, _, _, h1, -⟩ | ⟨_, _, h1, -⟩ | ⟨_, _, _, _, _, _, _, _, _, h1, -⟩
    · refine (h'.reach.inv.sched.uncalled ⟨fun c t hx => (h'.uncancelled c t).1 (h'.reach.inv.received hx), fun c g hx => (h'.uncancelled c g).2 (h'.reach.inv.received hx),
        fun w t st d r hx hin => ?_⟩).1
      have ht : t ≠ [] := by
        obtain ⟨c, gt, hgt, ht⟩ := hin
        obtain ⟨cl, hx, hg'⟩ := h'.reach.inv.graphSent (h'.reach.inv.received hgt)
        exact (h'.reach.inv.ids c t (Inv.graph_id hx hg' ht)).2
      have hsent := h'.reach.inv.received hx
      rw [h0] at hsent
      rcases Props.canceled_said h.reach.inv hsent ht with (h4 | rfl) | h4
      · exact h4
      · exact absurd hin (h'.failed hx)
      · exact absurd h4 (ih w t)
    all_goals intro x t; rw [h1]; exact ih x t

/-- The workers that the scheduler knows are there. -/
theorem _root_.Verif.Spec.Orderly.present (h : Orderly p rt cfg es s) : Present s := fun w hw => by
  obtain ⟨b, hb⟩ := h.reach.inv.sched.peers.up w hw
  rcases Peer.sent_pos (h.reach.inv.received hb) with ⟨c, h1, h2⟩ | ⟨a, ret, qs, left, h1, -⟩
  · obtain ⟨l, -, h3⟩ := h.reach.inv.clientSent h1 h2
    exact h3.elim
  · exact ⟨a, ret, qs, by rw [h1, h.stay h1]⟩

/-- No worker is given up. -/
theorem _root_.Verif.Spec.Orderly.kept (h : Orderly p rt cfg es s) {o : Op} (hs : s.step p rt o = some s') (hm : Mild rt s o) {w : Bytes}
    (hw : Props.Connected s.sched w) : Props.Connected s'.sched w := by
  rcases step_shift hm hs with ⟨e, rfl, -, h1, h2, h3⟩ | ⟨_, _, _, _, _, h1, -⟩ | ⟨_, _, h1, -⟩ | ⟨_, _, _, _, _, _, _, _, _, h1, -⟩
  · unfold Props.Connected at hw ⊢
    obtain ⟨x, hx⟩ := Option.isSome_iff_exists.1 hw
    refine Classical.byContradiction fun hn => ?_
    rcases step_forgets h.reach.inv.sched h1 hx (Option.not_isSome_iff_eq_none.1 hn) with ⟨c, hc⟩ | ⟨hc, ht⟩
    · have := h3 _ _ hc
      exact h.noGoodbye c w (by omega)
    · have := hm.1 hc w x hx
      rw [h.reach.inv.sched.good.cfg] at this
      omega
  all_goals rw [h1]; exact hw

theorem _root_.Verif.Spec.Orderly.steady (h : Orderly p rt cfg es s) : Steady p rt cfg (fun _ => True) s := by
  induction h with
  | init => exact .init
  | @step es s s' o h hs hm hp ih =>
    exact .step o ih hs fun t w _ hw => h.kept hs hm (h.reach.inv.sched.good.inv.up t w hw)

/-- The scheduler does not fail. -/
theorem _root_.Verif.Spec.Orderly.sched (h : Orderly p rt cfg es s) (hw : cfg.maxWaiting ≠ 0) {e : Sched.Event} (hp : Prompt (es ++ [e])) (hr : e.op ≠ .report)
    (hd : ∀ x m, e.op = .recv x m → s.received.count (x, m) < (s.peers x).sent m) (hl : e.op ≠ .workerRoutine)
    (hf : ∀ x t d r, e.op = .recv x (.taskResult t .failed d r) → ¬ InGraph s.received t) : ∃ t, s.sched.step e = .ok t := by
  cases hs : s.sched.step e with
  | ok t => exact ⟨t, rfl⟩
  | error err =>
    exfalso
    have h1 := (Props.C83_exact h.reach e hd).1 ⟨err, hs⟩
    obtain ⟨op, now, o⟩ := e
    have hfresh := fun hW w => Props.prompt_fresh h.exec hp hw hW w
    cases op with
    | recv x m =>
      cases m with
      | taskResult t st d r =>
        obtain ⟨w, -, ⟨q, h2, -⟩ | ⟨gid, g, h2, h3, ⟨rfl, u, i, h4, h5, -, h6⟩ | ⟨rfl, -⟩⟩⟩ := h1
        · rw [hfresh rfl w] at h2; cases h2
        · obtain ⟨gt, hok⟩ := h.reach.inv.sched.good.inv.graphs gid g h3
          obtain ⟨T, hT, -, hN⟩ := hok.node u i h4
          obtain ⟨c, hx, hg⟩ := h.reach.inv.graphSent (h.reach.inv.received hok.src)
          have hi : i.task = T := by
            have := hN.2.2
            rw [h5] at this
            exact this.1
          rw [hi] at h6
          exact h6 ((h.graph hx hg).2.1 T hT)
        · exact hf _ _ _ _ rfl (Props.inGraph_of_node h.reach.inv.sched.good h2)
      | balanceResponse ids =>
        obtain ⟨t, -, w, -, ⟨q, h2, -⟩ | ⟨h2, -⟩⟩ := h1
        · rw [hfresh rfl w] at h2; cases h2
        · exact h2 (hfresh rfl w)
      | disconnectRequest w =>
        have := hd _ _ rfl
        exact h.noGoodbye x w (by omega)
      | graphTaskCancel gid =>
        exact (h.uncancelled x gid).2 (Nat.lt_of_le_of_lt (Nat.zero_le _) (hd _ _ rfl))
      | _ => exact h1.elim
    | report => exact hr rfl
    | workerRoutine => exact hl rfl
    | _ => exact h1.elim

/-- The functions that were submitted can be loaded. -/
theorem _root_.Verif.Spec.Orderly.loadable (h : Orderly p rt cfg es s) : ∀ {x : Bytes} {c : Client.Client}, s.peers x = .client c →
    ∀ {k nm b}, Client.Act.submitted k nm b ∈ c.log → ∃ f, rt.loadFn b = .ok f := by
  induction h with
  | init => nofun
  | @step es s s' o h hs hm hp ih =>
    intro y c' hy k nm b hk
    rcases step_shift hm hs with ⟨-, -, h1, -, -, -⟩ | ⟨x, _, _, _, h1, h2, -⟩ | ⟨x, h1, h2, -⟩ | ⟨x, c, c1, co, ho, hx, hc, hf, h1, h2, -⟩
    · rw [h1] at hy; exact ih hy hk
    · rw [h1, setPeer_at] at hy
      split at hy
      · cases hy
      · exact ih hy hk
    · rw [h1, setPeer_at] at hy
      split at hy
      · cases hy; cases hk
      · exact ih hy hk
    · rw [h1, setPeer_at] at hy
      split at hy
      · cases hy
        rcases (ho.tame h.reach.inv hx hm hf).submits hc hk with h3 | ⟨t, args, rfl⟩
        · exact ih hx h3
        · rcases ho with rfl | ⟨_, _, _, _, _, -, ho, -⟩
          · exact hm
          · cases ho
      · exact ih hy hk

end Verif.System
