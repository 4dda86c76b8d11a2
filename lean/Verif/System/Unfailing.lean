import Verif.System.Orderly
import Verif.Props.WorkerSystem
import Verif.Props.System
import Verif.Props.Finish

/-!
# Nothing that is due fails in a system that runs as it should
-/

namespace Verif.System

open Verif.Wire Verif.Sched Verif.Spec
open Verif.Client (Pickle usedIds)

variable {F V X : Type} {p : Pickle} {rt : Proc.Runtime F V X} {cfg : Config} {s s' : Sys F} {t : Bytes} {es : List Sched.Event}
variable {w : Bytes} {a : Worker.Agent} {ret : Int} {qs : List (Proc.Proc F)} {left : Option Bytes} {q : Proc.Proc F}

/-- A processor that is about to be given a function waits for it. -/
theorem Steady.waits (h : Steady p rt cfg (fun _ => True) s) (hc : NoCancel s) (hx : s.peers w = .worker a ret [q] left)
    {st : FunctionResponseType} {f nm c : Bytes} (h1 : taken (.functionResponse st f nm c) q < toldTo 0 (.functionResponse st f nm c) a.log) : WaitsFor q f := by
  have hr := h.reach
  obtain ⟨q', e, hq'⟩ := Steady.owes h hc hx
  cases e
  obtain ⟨h2, h3⟩ := hr.chain hx f
  have h4 : weigh (replyWeight f) (takenList q) + 1 ≤ weigh (replyWeight f) (toldList 0 a.log) := by
    refine weigh_lt (x := Message.functionResponse st f nm c) (by simp [replyWeight]) (fun m _ => ?_) ?_
    · rw [takenList_count, toldList_count]
      exact (hr.inv.wired hx).got 0 q rfl m
    · rw [takenList_count, toldList_count]
      exact h1
  have h5 : weigh (askWeight f) (withPeer w s.received) ≤ weigh (askWeight f) (sentBy a.log) := by
    refine weigh_le fun m hm => ?_
    rw [withPeer_count, sentBy_count]
    have := hr.inv.heard w m
    rw [hx] at this
    simp only [Peer.sent] at this
    split at this
    · next e =>
      cases left with
      | none => cases e
      | some id => cases e; exact absurd rfl hm
    · exact this
  have h6 := hq' f
  rw [takenList_weigh] at h4
  refine Classical.byContradiction fun hno => ?_
  rw [waitWeight_zero hno] at h6
  omega

/-- An answer on its way to a worker: its processor waits for the function. -/
theorem Steady.waits' (h : Steady p rt cfg (fun _ => True) s) (hc : NoCancel s) (hx : s.peers w = .worker a ret [q] left)
    {st : FunctionResponseType} {f nm c : Bytes} (h1 : (s.peers w).got (.functionResponse st f nm c) < s.sched.out.count (w, .functionResponse st f nm c)) :
    WaitsFor q f := by
  have hr := h.reach
  obtain ⟨q', e, hq'⟩ := Steady.owes h hc hx
  cases e
  obtain ⟨-, h3⟩ := hr.chain hx f
  obtain ⟨d, st', hw⟩ := hr.inv.worker hx
  obtain ⟨-, h2, -⟩ := reach_passes hw
  have h4 : weigh (replyWeight f) (gotBy a.log) + 1 ≤ weigh (replyWeight f) (withPeer w s.sched.out) := by
    refine weigh_lt (x := Message.functionResponse st f nm c) (by simp [replyWeight]) (fun m _ => ?_) ?_
    · rw [withPeer_count, gotBy_count]
      have := hr.inv.got w m
      rw [hx] at this
      exact this
    · rw [withPeer_count, gotBy_count]
      rw [hx] at h1
      exact h1
  have h7 := hr.replies (hr.inv.asksOnly hx) f
  have h8 : weigh (replyWeight f) (takenList q) ≤ weigh (replyWeight f) (toldList 0 a.log) := by
    refine weigh_le fun m _ => ?_
    rw [takenList_count, toldList_count]
    exact (hr.inv.wired hx).got 0 q rfl m
  have h9 := toldList_weigh (replyWeight f) 0 a.log
  have h10 := h2 f
  have h5 : weigh (askWeight f) (withPeer w s.received) ≤ weigh (askWeight f) (sentBy a.log) := by
    refine weigh_le fun m hm => ?_
    rw [withPeer_count, sentBy_count]
    have := hr.inv.heard w m
    rw [hx] at this
    simp only [Peer.sent] at this
    split at this
    · next e =>
      cases left with
      | none => cases e
      | some id => cases e; exact absurd rfl hm
    · exact this
  have h6 := hq' f
  rw [takenList_weigh] at h8
  rw [gotBy_weigh] at h4
  refine Classical.byContradiction fun hno => ?_
  rw [waitWeight_zero hno] at h6
  omega

theorem added_step {q q' : Proc.Proc F} {e : Proc.Event} {f : Bytes} (h : q.step rt e = .ok q') (hm : q'.main = .added f) :
    q'.task = q.task ∧ (q.main = .added f ∨ q.main = .idle ∧ ∃ st nm c, e.op = .recv (.functionResponse st f nm c)) := by
  obtain ⟨op, now⟩ := e
  cases op with
  | clean =>
    simp only [Proc.Proc.step] at h
    cases h
    have : (q.clean now).main = q.main ∧ (q.clean now).task = q.task := by
      unfold Proc.Proc.clean
      split <;> simp [Proc.Proc.note]
      split <;> simp
    exact ⟨this.2, .inl (this.1 ▸ hm)⟩
  | recv m =>
    simp only [Proc.Proc.step] at h
    split at h
    · next hi =>
      cases m with
      | functionResponse st g nm c =>
        simp only [Proc.Proc.receive, Proc.Proc.onFunctionResponse] at h
        split at h
        · next q1 hq =>
          cases h
          split at hq
          · cases hq
            cases hm
            exact ⟨rfl, .inr ⟨hi, _, _, _, rfl⟩⟩
          · cases hq
        · cases h
      | functionRequest ty g nm c =>
        cases h
        simp only [Proc.Proc.onFunctionRequest, Proc.Proc.note] at hm
        split at hm
        · cases hm
        · rw [hi] at hm; cases hm
      | task k =>
        cases h
        simp only [Proc.Proc.onTask, Proc.Proc.note] at hm
        split at hm
        · cases hm
        · rw [hi] at hm; cases hm
      | _ =>
        cases h
        rw [Proc.Proc.note, hi] at hm; cases hm
    · cases h; exact ⟨rfl, .inl hm⟩
  | work c d =>
    simp only [Proc.Proc.step, Proc.Proc.work] at h
    split at h <;> rename_i h0
    · cases h; exact ⟨rfl, .inl hm⟩
    · cases h; cases hm
    · split at h <;> (cases h; cases hm)
    · cases h; cases hm
    · unfold Proc.Proc.answer at h
      split at h
      · cases h; cases hm
      · split at h
        · cases h; cases hm
        · cases h
    · split at h
      · cases h; cases hm
      · cases h
    · cases h; cases hm

/-- A processor that was given a function has the task that needs it. -/
theorem Steady.added (h : Steady p rt cfg (fun _ => True) s) (hc : NoCancel s) :
    ∀ {w : Bytes} {a : Worker.Agent} {ret : Int} {q : Proc.Proc F} {left : Option Bytes}, s.peers w = .worker a ret [q] left →
      ∀ f, q.main = .added f → ∃ k, q.task = some k ∧ k.functionId = f := by
  induction h with
  | init => intro w a ret qs left hx; cases hx
  | @step s s' o h hs hk ih =>
    intro w a ret q left hx f hf
    have hr := h.reach
    have hc0 : NoCancel s := by
      obtain ⟨l, hl⟩ := hr.out_step hs
      intro x t hm
      exact hc x t (by rw [hl]; exact List.mem_append_left _ hm)
    have ih := @ih hc0
    rcases step_worked hs hx with ⟨d, start, rfl, h1, -⟩ | hx' | ⟨a₀, qs₀, e, hx', hs', h1, -, -, -⟩ | ⟨qs₀, n, q0, q₁, e, hx', hn, hq, hs', h1, -, hrecv⟩ | ⟨hx', -⟩
    · cases h1; cases hf
    · exact ih hx' f hf
    · obtain ⟨q0, rfl, hq⟩ := Steady.owes h hc0 hx'
      unfold extend at h1
      rw [List.singleton_append] at h1
      cases (List.cons.inj h1).1
      exact ih hx' f hf
    · obtain ⟨q', rfl, hq'⟩ := Steady.owes h hc0 hx'
      have hn0 : n = 0 := by
        have := (List.getElem?_eq_some_iff.1 hq).1
        simp at this
        exact this
      subst hn0
      cases hq
      cases h1
      obtain ⟨h2, h3 | ⟨hi, st, nm, c, he⟩⟩ := added_step hs' hf
      · rw [h2]; exact ih hx' f h3
      · rw [h2]
        exact (Steady.waits h hc0 hx' (hrecv _ he)).1
    · exact ih hx' f hf

/-- A worker receives whatever is sent to it without an exception. -/
theorem _root_.Verif.Spec.Orderly.agent (h : Orderly p rt cfg es s) (hx : s.peers w = .worker a ret qs none) {m : Message} (hm : (s.peers w).got m < s.sched.out.count (w, m))
    (now : Int) : ∃ a', a.step ⟨.recv m, now⟩ = .ok a' := by
  cases hs : a.step ⟨.recv m, now⟩ with
  | ok a' => exact ⟨a', rfl⟩
  | error err =>
    exfalso
    have h1 := ((Props.C53_system_partial h.reach hx now).1 m hm).1 ⟨err, hs⟩
    obtain ⟨q, rfl, ho⟩ := Steady.owes h.steady h.noCancel hx
    obtain ⟨d, start, hw⟩ := h.reach.inv.worker hx
    cases m with
    | task k =>
      have h2 : k.taskId ∈ a.queue.contents := h1
      have h3 := (h.steady.single (t := k.taskId) trivial).once w
      have h4 := Props.C51_told hw k.taskId
      have h5 : 0 < a.pend k.taskId := by
        have := List.count_pos_iff.2 h2
        unfold Worker.Agent.pend
        omega
      have h6 : backFrom s k.taskId w ≤ Worker.returned k.taskId a.log := by
        rw [← weigh_back]
        refine weigh_le fun m hm => ?_
        rw [withPeer_count, sentBy_count]
        have := h.reach.inv.heard w m
        rw [hx] at this
        simpa [Peer.sent] using this
      have h7 : weigh (taskWeight k.taskId) (gotBy a.log) + 1 ≤ sentTo s k.taskId w := by
        refine weigh_lt (x := Message.task k) (by simp [taskWeight]) (fun m _ => ?_) ?_
        · rw [withPeer_count, gotBy_count]
          have := h.reach.inv.got w m
          rw [hx] at this
          exact this
        · rw [withPeer_count, gotBy_count]
          rw [hx] at hm
          exact hm
      rw [weigh_got] at h7
      omega
    | taskCancel t => exact h.noCancel w t (List.count_pos_iff.1 (by omega))
    | functionResponse st f nm c =>
      obtain ⟨⟨k, hk, -⟩, -⟩ := Steady.waits' h.steady h.noCancel hx hm
      have ht := Props.C89_toldOnce h.steady hx
      have h2 : Spec.Worker.ready a.log = true ∧ Spec.Worker.busy a.log = none := h1
      have hproc : a.processor = some 0 := by
        have h6 := hw.good.inv.proc
        cases h7 : a.processor with
        | none => rw [h7] at h6; cases h6
        | some j =>
          have h8 := hw.good.inv.procs j h7
          have h9 := (reach_passes hw).2.2 (h.reach.inv.noCancel hx h.noCancel)
          have : j = 0 := by omega
          rw [this]
      have := (h.reach.inside hx ht).held 0 q k (hw.good.mt.current.trans hproc) rfl (.inl hk)
      rw [h2.2] at this
      cases this
    | _ => exact h1.elim

theorem letters_split {x : Bytes} {l : Log} {u v : List Message} {m : Message} (h : letters x l = u ++ m :: v) :
    ∃ l₁ l₂, l = l₁ ++ (x, m) :: l₂ ∧ letters x l₁ = u ∧ letters x l₂ = v := by
  unfold letters at h ⊢
  obtain ⟨l₁, l₂, e, h1, h2⟩ := List.filterMap_eq_append_iff.1 h
  obtain ⟨l₃, y, l₄, e2, h3, h4, h5⟩ := List.filterMap_eq_cons_iff.1 h2
  obtain ⟨y1, y2⟩ := y
  dsimp only at h4
  split at h4
  · next e3 =>
    cases h4
    subst e3
    refine ⟨l₁ ++ l₃, l₄, by rw [e, e2]; simp, ?_, h5⟩
    rw [List.filterMap_append, h1, List.filterMap_eq_nil_iff.2 h3, List.append_nil]
  · cases h4

theorem mem_letters {x : Bytes} {l : Log} {m : Message} : m ∈ letters x l ↔ (x, m) ∈ l := by
  unfold letters
  rw [List.mem_filterMap]
  constructor
  · rintro ⟨⟨y, m'⟩, h1, h2⟩
    dsimp only at h2
    split at h2
    · next e => cases h2; subst e; exact h1
    · cases h2
  · intro h
    exact ⟨_, h, if_pos rfl⟩

/-- Graphs are answered with the results of their targets. -/
theorem _root_.Verif.Spec.Orderly.graphWell (h : Orderly p rt cfg es s) {x : Bytes} {c : Client.Client} (hx : s.peers x = .client c) {g : GraphTask}
    (hg : Client.Act.graph g ∈ c.log) {st : TaskStatus} {rs : List Bytes} (hout : (x, Message.graphTaskResult g.taskId st rs) ∈ s.sched.out) :
    st = .success ∧ rs.length = g.targets.length := by
  have hi := h.reach.inv
  obtain ⟨gt, h5, h6, -, -, h8⟩ := hi.sched.good.answered _ _ _ _ hout
  rcases Props.graph_status hi h.noCancel hx hg hout with ⟨h11, hl⟩ | ⟨rfl, -⟩
  · exact ⟨h11, hl⟩
  · obtain ⟨-, t, r, rfl, h9, ⟨w, d, h10⟩ | ⟨h10, -⟩⟩ := h8 nofun
    · exact absurd ⟨x, gt, h5, List.mem_cons_of_mem _ h9⟩ (h.failed h10)
    · cases h10

/-- A client receives the messages sent to it without an exception. -/
theorem _root_.Verif.Spec.Orderly.receives (h : Orderly p rt cfg es s) (hH : Harmless p rt) (hw : cfg.maxWaiting < 0) {x : Bytes} {c : Client.Client}
    (hx : s.peers x = .client c) {m : Message} (hm : (s.peers x).got m < s.sched.out.count (x, m)) (hM : Mild rt s (.client x (.recv m))) :
    ∃ c', c.step p (.recv m) = .ok c' := by
  obtain ⟨hT, -⟩ := h.client hx
  obtain ⟨hu, hpre⟩ := hM c hx
  cases hs : c.step p (.recv m) with
  | ok c' => exact ⟨c', rfl⟩
  | error err =>
    exfalso
    have h1 := (Props.C80_system h.reach hx hT.calm.open' hm).1 ⟨err, hs⟩
    cases m with
    | taskEcho t st =>
      obtain ⟨h2, ⟨-, h3⟩ | ⟨rfl, h3⟩⟩ := h1
      · omega
      · obtain ⟨k, hk⟩ := Option.isSome_iff_exists.1 h2
        obtain ⟨st, d, r, h4⟩ := hT.openFuture hu hk h3
        have h5 : Message.taskResult t st d r ∈ mailIn c.log := List.mem_filterMap.2 ⟨_, h4, rfl⟩
        obtain ⟨u, v, e⟩ := List.append_of_mem h5
        obtain ⟨tail, e2⟩ := hpre
        rw [e] at e2
        obtain ⟨l₁, l₂, e3, -, e4⟩ := letters_split (x := x) (l := s.sched.out) (u := u) (v := v ++ .taskEcho t .submitOK :: tail)
          (m := .taskResult t st d r) (by rw [← e2]; simp)
        have h6 := h.reach.inv.sched.echoFirst l₁ l₂ x t st d r e3
        have h7 : (x, Message.taskEcho t .submitOK) ∈ l₂ := mem_letters.1 (by rw [e4]; simp)
        have h8 := h.reach.inv.acks_le t
        rw [e3] at h8
        unfold acks at h8
        rw [List.countP_append, List.countP_cons] at h8
        have h9 : 0 < l₁.countP (isAck anyone t) := List.countP_pos_iff.2 ⟨_, h6, by simp [isAck, anyone]⟩
        have h10 : 0 < l₂.countP (isAck anyone t) := List.countP_pos_iff.2 ⟨_, h7, by simp [isAck, anyone]⟩
        omega
    | taskResult t st d r =>
      obtain ⟨n, hn, -, h2 | h2⟩ := h1
      · have hi := h.reach.inv
        obtain ⟨k, nm, b, hk, rfl⟩ := (hi.client hx).returned (Client.openFuture_returned hn)
        have hout : (x, Message.taskResult k.taskId st d r) ∈ s.sched.out := List.count_pos_iff.1 (Nat.lt_of_le_of_lt (Nat.zero_le _) hm)
        have hid := Inv.submitted_id hx hk
        have hst := Props.task_status hi hx hT.calm.open' hk hout
        obtain ⟨-, hw | ⟨h3, -⟩⟩ := hi.sched.good.sent.result _ _ _ _ _ hout
        · obtain ⟨v, hw⟩ := hw
          obtain ⟨k', -, -, h3⟩ := Props.worked hi hw (by rintro rfl; simp at hst) (by rintro rfl; simp at hst) (hi.ids _ _ hid).2
          rcases hst with rfl | rfl
          · obtain ⟨b, f, -, -, -, vs, cc, y, -, -, h4⟩ := h3
            rw [hH.result y r h4] at h2; cases h2
          · obtain ⟨e, h4, -⟩ := h3
            rw [hH.failure e r h4] at h2; cases h2
        · rw [h3] at hst; simp at hst
      · exact hT.calm.futures n h2
    | graphTaskResult g st rs =>
      obtain ⟨ns, h2, h1⟩ := h1
      obtain ⟨g, h3, rfl, h4⟩ := hT.alone.reach.startLength _ _ (.inl (Client.openGraph_started h2))
      have hi := h.reach.inv
      have hout : (x, Message.graphTaskResult g.taskId st rs) ∈ s.sched.out := List.count_pos_iff.1 (Nat.lt_of_le_of_lt (Nat.zero_le _) hm)
      obtain ⟨gt, h5, h6, -, h7, -⟩ := hi.sched.good.answered _ _ _ _ hout
      obtain ⟨rfl, hl⟩ := h.graphWell hx h3 hout
      rcases h1 with ⟨-, h1 | ⟨r, h1, h9⟩ | ⟨n, -, h1⟩⟩ | ⟨h1, -⟩
      · omega
      · obtain ⟨f, rfl, h10⟩ := h7 rfl
        obtain ⟨t, ht, rfl⟩ := List.mem_map.1 h1
        obtain ⟨h11, w, d, hw⟩ := h10 t ht
        have hin : InGraph s.received t := ⟨x, gt, h5, List.mem_cons_of_mem _ h11⟩
        have htn : t ≠ [] := by
          obtain ⟨c, gt, hgt, ht⟩ := hin
          obtain ⟨cl, hx, hg'⟩ := hi.graphSent (hi.received hgt)
          exact (hi.ids c t (Inv.graph_id hx hg' ht)).2
        obtain ⟨k', -, -, h3⟩ := Props.worked hi hw nofun nofun htn
        obtain ⟨b, f, -, -, -, vs, cc, y, -, -, h4⟩ := h3
        rw [hH.result y _ h4] at h9; cases h9
      · exact hT.calm.futures n h1
      · cases h1
    | _ => exact h1.elim

/-- A processor goes on without an exception. -/
theorem _root_.Verif.Spec.Orderly.proc (h : Orderly p rt cfg es s) (hH : Harmless p rt) (hx : s.peers w = .worker a ret qs none) {n : Nat} (hq : qs[n]? = some q)
    (e : Proc.Event) (he : ∀ m, e.op = .recv m → 0 < toldTo n m a.log) : ∃ q', q.step rt e = .ok q' := by
  obtain ⟨q0, rfl, ho⟩ := Steady.owes h.steady h.noCancel hx
  have hn0 : n = 0 := by
    have := (List.getElem?_eq_some_iff.1 hq).1
    simp at this
    exact this
  subst hn0
  cases hq
  have hP := h.reach.inv.peer w
  rw [hx] at hP
  obtain ⟨start, hpr⟩ := (hP.2.2.1 0 q rfl).1
  cases hs : q.step rt e with
  | ok q' => exact ⟨q', rfl⟩
  | error d =>
    exfalso
    rcases (Props.C64_dies_partial hpr).1 hs with ⟨st, fid, nm, c, x, ho, -, h1, -⟩ | ⟨c, dur, k, f, x, -, -, -, h1, -⟩ | ⟨c, dur, fid, -, h1, h2, -⟩
    · obtain ⟨y, hy, hy2⟩ := List.countP_pos_iff.1 (he _ ho)
      have hy2 := of_decide_eq_true hy2
      obtain ⟨now, y⟩ := y
      subst hy2
      obtain ⟨d', start', hr⟩ := h.reach.inv.worker hx
      have h3 : (w, .functionResponse st fid nm c) ∈ s.sched.out := Props.agent_got h.reach.inv hx (hr.flow.passed _ hy)
      obtain ⟨l₁, l₂, e3⟩ := List.append_of_mem hy
      have h4 := (hr.good.ok _ _ _ e3).2.1
      have hi := h.reach.inv
      have hpass : ∃ f, rt.loadFn c = .ok f := by
        rcases hi.sched.response h3 with h5 | ⟨y, ⟨nm', h5⟩ | ⟨gt, nm', h5, h6⟩⟩ | ⟨ty, nm', b', h5, h6⟩ | ⟨gt, h5⟩
        · exact absurd h5 h4
        · obtain ⟨c', k, h6, h7, -⟩ := hi.functionSent (by decide) (hi.received h5)
          exact h.loadable h6 h7
        · obtain ⟨c', h7, h8⟩ := hi.graphSent (hi.received h5)
          exact (h.graph h7 h8).2.2 _ _ _ h6
        · obtain ⟨c, -, h7, -⟩ := hi.functionSent h5 (hi.received h6)
          rw [hx] at h7; cases h7
        · obtain ⟨c', h7, -⟩ := hi.graphSent (hi.received h5)
          rw [hx] at h7; cases h7
      obtain ⟨f, hf⟩ := hpass
      rw [hf] at h1; cases h1
    · exact hH.exception x h1
    · obtain ⟨k, h3, -⟩ := Steady.added h.steady h.noCancel hx fid h1
      rw [h2] at h3; cases h3

theorem carry_ok {m : Message} (h : sendable m) : carry m = some m := by
  obtain ⟨fs, hf⟩ := (Props.C03_sendable m).2 h
  simp only [carry, hf, Props.C02_decode_encode m fs hf]

theorem carryIn_ok {x : Bytes} {m : Message} (h : sendable m) : carryIn x m = some (x, m) := by
  obtain ⟨fs, hf⟩ := (Props.C03_sendable m).2 h
  simp only [carryIn, hf, Props.C02_binder_decode x m fs hf]

theorem carryOut_ok {x : Bytes} {m : Message} (h : sendable m) : carryOut x m = some (x, m) := by
  obtain ⟨fs, hf⟩ := (Props.C03_sendable m).2 h
  have hb : ∃ gs, binderEncode x m = .ok gs := by
    have := hf
    simp only [encode, Py.bind_ok] at this
    obtain ⟨ps, hp, -⟩ := this
    simp only [binderEncode, Py.bind_ok]
    exact ⟨_, ps, hp, rfl⟩
  obtain ⟨gs, hg⟩ := hb
  obtain ⟨ps, rfl, -, h3⟩ := Props.C02_binder_encode x m gs hg
  simp only [carryOut, hg, h3]

/-- Whatever is sent to the scheduler has a wire form. -/
theorem _root_.Verif.Spec.Orderly.sendable (h : Orderly p rt cfg es s) (hq : fitsBits 32 cfg.queueSize) {x : Bytes} {m : Message} (hm : 0 < (s.peers x).sent m) :
    Spec.sendable m := by
  rcases Peer.sent_pos hm with ⟨c, h1, h2⟩ | ⟨a, ret, qs, left, h1, ⟨now, h2⟩ | ⟨id, h2, -⟩⟩
  · obtain ⟨l, hl, h3⟩ := h.reach.inv.clientSent h1 h2
    have hg := (h.client h1).1.calm.graph
    cases m <;> first | trivial | exact h3.elim | exact hg _ (hl _ h3)
  · exact h.reach.wire hq h1 now m h2
  · rw [h.stay h1] at h2; cases h2

end Verif.System
