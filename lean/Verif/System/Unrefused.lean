import Verif.System.Questions
import Verif.Props.Steady

/-!
# Without cancellations no worker is refused a function

In a run in which no worker with a task is given up and no task is cancelled, every worker has one processor, and when
its question about a function comes to the scheduler, the task that needs the function is still held there.
-/

namespace Verif.System

open Verif.Wire Verif.Sched Verif.Spec
open Verif.Client (Pickle)

variable {F V X : Type} {p : Pickle} {rt : Proc.Runtime F V X} {cfg : Config} {s s' : Sys F} {t : Bytes}
variable {w : Bytes} {a : Worker.Agent} {ret : Int} {qs : List (Proc.Proc F)} {left : Option Bytes}

theorem count_le_weigh {α : Type} [BEq α] [LawfulBEq α] {g : α → Nat} {x : α} (hx : g x = 1) (l : List α) : l.count x ≤ weigh g l := by
  induction l with
  | nil => exact Nat.le_refl _
  | cons y l ih =>
    rw [List.count_cons, weigh_cons]
    by_cases e : y = x
    · subst e; simp; omega
    · simp [e]; omega

theorem weigh_lt {α : Type} [BEq α] [LawfulBEq α] {g : α → Nat} {x : α} (hx : g x = 1) {l l' : List α} (h : ∀ y, g y ≠ 0 → l.count y ≤ l'.count y)
    (hlt : l.count x < l'.count x) : weigh g l + 1 ≤ weigh g l' := by
  have : weigh g (x :: l) ≤ weigh g l' := by
    refine weigh_le fun y hy => ?_
    rw [List.count_cons]
    by_cases e : x = y
    · subst e; simp; omega
    · simp [e]; exact h y hy
  rw [weigh_cons, hx] at this
  omega

theorem Owes.init (ret start : Int) : Owes (Proc.Proc.init ret start : Proc.Proc F) := by
  intro f
  exact Nat.zero_le _

/-- The scheduler never takes back what it sent. -/
theorem Reach.out_step (hr : Reach p rt cfg s) {o : Op} (hs : s.step p rt o = some s') : ∃ l, s'.sched.out = s.sched.out ++ l := by
  rcases sched_moves hs with ⟨h1, -⟩ | ⟨e, h1, -, -, h4⟩
  · exact ⟨[], by rw [h1]; simp⟩
  · exact out_grows hr h1 h4

theorem Inv.noCancel (h : Inv p rt cfg s) (hx : s.peers w = .worker a ret qs left) (hc : ∀ x t, (x, Message.taskCancel t) ∉ s.sched.out) :
    ∀ t now, (now, Worker.Act.recv (.taskCancel t)) ∉ a.log := by
  intro t now hm
  have h2 := h.got w (.taskCancel t)
  rw [hx] at h2
  have : 0 < (Peer.worker a ret qs left : Peer F).got (.taskCancel t) := List.countP_pos_iff.2 ⟨_, hm, by simp⟩
  exact hc w t (List.count_pos_iff.1 (by omega))

/-- A processor has one task at a time. -/
theorem Inside.alone (hin : Inside a.log qs) (hw : Wired rt a.log qs) (ho : ToldOnce a.log) {n : Nat} {q : Proc.Proc F} {k : Task}
    (hn : Spec.Worker.current a.log = some n) (hq : qs[n]? = some q) (hk : taken (.task k) q < toldTo n (.task k) a.log) : q.task = none := by
  cases ht : q.task with
  | none => rfl
  | some k' =>
    have h1 := hin.held n q k' hn hq (.inl ht)
    have h2 := hin.held n q k hn hq (.inr (.inr hk))
    rw [h1] at h2
    cases h2
    obtain ⟨r, hinv⟩ := hw.inv n q hq
    obtain ⟨now, hm⟩ := hinv.taskRecv k ht
    have h3 := taken_mem hm
    have h4 := told_le k.taskId n a.log
    have h5 := ho k.taskId
    have h6 := count_le_weigh (g := taskWeight k.taskId) (x := Message.task k) (by simp [taskWeight]) (toldList n a.log)
    rw [toldList_count] at h6
    omega

/-- Every worker has one processor, which asks again only after an answer. -/
theorem Steady.owes (h : Steady p rt cfg (fun _ => True) s) (hc : ∀ x t, (x, Message.taskCancel t) ∉ s.sched.out) :
    ∀ {w : Bytes} {a : Worker.Agent} {ret : Int} {qs : List (Proc.Proc F)} {left : Option Bytes}, s.peers w = .worker a ret qs left →
      ∃ q, qs = [q] ∧ Owes q := by
  induction h with
  | init => intro w a ret qs left hx; cases hx
  | @step s s' o h hs hk ih =>
    intro w a ret qs left hx
    have hr := h.reach
    have hr' := (Steady.step o h hs hk).reach
    have hc0 : ∀ x t, (x, Message.taskCancel t) ∉ s.sched.out := by
      obtain ⟨l, hl⟩ := hr.out_step hs
      intro x t hm
      exact hc x t (by rw [hl]; exact List.mem_append_left _ hm)
    have ih := @ih hc0
    rcases step_worked hs hx with ⟨d, start, rfl, rfl, -⟩ | hx' | ⟨a₀, qs₀, e, hx', hs', rfl, -, -, -⟩ | ⟨qs₀, n, q, q₁, e, hx', hn, hq, hs', rfl, -, hrecv⟩ | ⟨hx', -⟩
    · exact ⟨_, rfl, Owes.init _ _⟩
    · exact ih hx'
    · obtain ⟨q, rfl, hq⟩ := ih hx'
      obtain ⟨d, st, hw⟩ := hr'.inv.worker hx
      have h1 := (reach_passes hw).2.2 (hr'.inv.noCancel hx hc)
      refine ⟨q, ?_, hq⟩
      rw [h1]
      simp [extend]
    · obtain ⟨q', rfl, hq'⟩ := ih hx'
      have hn0 : n = 0 := by
        have := (List.getElem?_eq_some_iff.1 hq).1
        simp at this
        exact this
      subst hn0
      cases hq
      refine ⟨q₁, rfl, ?_⟩
      have ho := Props.C89_toldOnce h hx'
      obtain ⟨d, st, hw⟩ := hr.inv.worker hx'
      refine hq'.step hs' (fun k he => ?_) fun st f nm c he _ => ?_
      · exact (hr.inside hx' ho).alone (hr.inv.wired hx') ho (hw.good.mt.current.trans hn) rfl (hrecv _ he)
      · have h1 := hrecv _ he
        obtain ⟨h2, h3⟩ := hr.chain hx' f
        have h4 : weigh (replyWeight f) (takenList q) + 1 ≤ weigh (replyWeight f) (toldList 0 a.log) := by
          refine weigh_lt (x := Message.functionResponse st f nm c) (by simp [replyWeight]) (fun m _ => ?_) ?_
          · rw [takenList_count, toldList_count]
            exact (hr.inv.wired hx').got 0 q rfl m
          · rw [takenList_count, toldList_count]
            exact h1
        have h5 : weigh (askWeight f) (withPeer w s.received) ≤ weigh (askWeight f) (sentBy a.log) := by
          refine weigh_le fun m hm => ?_
          rw [withPeer_count, sentBy_count]
          have := hr.inv.heard w m
          rw [hx'] at this
          simpa [Peer.sent] using this
        have h6 := hq' f
        rw [takenList_weigh] at h4
        refine Classical.byContradiction fun hno => ?_
        rw [waitWeight_zero hno] at h6
        omega
    · exact ih hx'

theorem nodup_map_inj {α β : Type} {f : α → β} : ∀ {l : List α} {x y : α}, (l.map f).Nodup → x ∈ l → y ∈ l → f x = f y → x = y
  | z :: l, x, y, h, hx, hy, e => by
    rw [List.map_cons, List.nodup_cons] at h
    rcases List.mem_cons.1 hx with h1 | h1 <;> rcases List.mem_cons.1 hy with h2 | h2
    · rw [h1, h2]
    · exact absurd (List.mem_map.2 ⟨y, h2, by rw [← h1, e]⟩) h.1
    · exact absurd (List.mem_map.2 ⟨x, h1, by rw [← h2, e]⟩) h.1
    · exact nodup_map_inj h.2 h1 h2 e

/-- Tasks of one name have one function. -/
theorem Inv.sameFunction (h : Inv p rt cfg s) {k k' : Task} (hk : Origin ⟨s.received, none⟩ k) (hk' : Origin ⟨s.received, none⟩ k')
    (e : k.taskId = k'.taskId) : k.functionId = k'.functionId := by
  have hg := h.sched.good
  rcases hk with ⟨c, h1⟩ | ⟨c, gt, T, h1, h2, h3, h4, -⟩
  · rcases hk' with ⟨c', h1'⟩ | ⟨c', gt', T', h1', h2', h3', h4', -⟩
    · have := (h.task_unique (h.received h1) (h.received h1') e.symm).2
      rw [this]
    · refine absurd ⟨c', gt', h1', ?_⟩ (hg.apart c k h1)
      rw [e, h3']
      exact List.mem_cons_of_mem _ (List.mem_map.2 ⟨T', h2', rfl⟩)
  · rcases hk' with ⟨c', h1'⟩ | ⟨c', gt', T', h1', h2', h3', h4', -⟩
    · refine absurd ⟨c, gt, h1, ?_⟩ (hg.apart c' k' h1')
      rw [← e, h3]
      exact List.mem_cons_of_mem _ (List.mem_map.2 ⟨T, h2, rfl⟩)
    · have hT : T.taskId = T'.taskId := h3.symm.trans (e.trans h3')
      have m1 : T.taskId ∈ allIds gt := List.mem_cons_of_mem _ (List.mem_map.2 ⟨T, h2, rfl⟩)
      have m2 : T.taskId ∈ allIds gt' := by rw [hT]; exact List.mem_cons_of_mem _ (List.mem_map.2 ⟨T', h2', rfl⟩)
      obtain ⟨rfl, rfl⟩ := hg.unique c gt c' gt' T.taskId h1 h1' m1 m2
      obtain ⟨c0, hc0, hgr⟩ := h.graphSent (h.received h1)
      have hnd : (gt.graph.map (·.taskId)).Nodup := (List.nodup_cons.1 (graph_nodup (h.client hc0).ids hgr)).2
      have : T = T' := nodup_map_inj hnd h2 h2' hT
      rw [h4, h4', this]

/-- When a question of a worker comes to the scheduler, the function is there. -/
theorem Steady.asked (h : Steady p rt cfg (fun _ => True) s) (hc : ∀ x t, (x, Message.taskCancel t) ∉ s.sched.out)
    (hx : s.peers w = .worker a ret qs left) {f nm c : Bytes}
    (hm : s.received.count (w, .functionRequest .request f nm c) < (s.peers w).sent (.functionRequest .request f nm c)) :
    Props.functionOf s.sched f ≠ none := by
  have hr := h.reach
  have hi := hr.inv
  have ho := Props.C89_toldOnce h hx
  obtain ⟨d, st, hw⟩ := hi.worker hx
  obtain ⟨q, rfl, hq⟩ := Steady.owes h hc hx
  have hsent : ∀ m, askWeight f m ≠ 0 → (s.peers w).sent m = a.log.countP fun x => decide (x.2 = .sent m) := by
    intro m hm
    rw [hx]
    simp only [Peer.sent]
    split
    · next e =>
      cases left with
      | none => cases e
      | some id => cases e; exact absurd rfl hm
    · rfl
  have h1 : weigh (askWeight f) (withPeer w s.received) + 1 ≤ weigh (askWeight f) (sentBy a.log) := by
    refine weigh_lt (x := Message.functionRequest .request f nm c) (by simp [askWeight]) (fun m hm => ?_) ?_
    · rw [withPeer_count, sentBy_count, ← hsent m hm]
      exact hi.heard w m
    · rw [withPeer_count, sentBy_count, ← hsent _ (by simp [askWeight])]
      exact hm
  obtain ⟨h2, h3⟩ := hr.chain hx f
  have h4 : weigh (replyWeight f) (takenList q) ≤ weigh (replyWeight f) (toldList 0 a.log) := by
    refine weigh_le fun m _ => ?_
    rw [takenList_count, toldList_count]
    exact (hi.wired hx).got 0 q rfl m
  rw [takenList_weigh] at h4
  have h5 := hq f
  have hwait : WaitsFor q f := Classical.byContradiction fun hno => by
    rw [waitWeight_zero hno] at h5
    omega
  obtain ⟨⟨k, hk, rfl⟩, -⟩ := hwait
  have hp0 : a.processor = some 0 := by
    have h6 := hw.good.inv.proc
    cases h7 : a.processor with
    | none => rw [h7] at h6; cases h6
    | some j =>
      have h8 := hw.good.inv.procs j h7
      have hP := hi.peer w
      rw [hx] at hP
      have h9 := hP.2.1
      simp at h9
      congr 1
      omega
  have hta := Props.C88_alone_partial hr hx ho hp0 (q := q) rfl (.inr (.inl hk))
  have hwk := Steady.held h (t := k.taskId) trivial (fun x => hc x _) hx (.inr (.inr ⟨k, rfl, hta⟩))
  have hg := hi.sched.good
  have hsome : (s.sched.abs.tasks k.taskId).isSome := (hg.inv.place _).2 (.inr (.inr (by rw [hwk]; rfl)))
  obtain ⟨k', hk'⟩ := Option.isSome_iff_exists.1 hsome
  have hgot := hw.flow.task k hta
  obtain ⟨now, hgot⟩ := hgot
  have hout : (w, Message.task k) ∈ s.sched.out := by
    have h2 := hi.got w (.task k)
    rw [hx] at h2
    have : 0 < (Peer.worker a ret [q] left : Peer F).got (.task k) := List.countP_pos_iff.2 ⟨_, hgot, by simp⟩
    exact List.count_pos_iff.1 (by omega)
  have hsame := hi.sameFunction (hg.inv.sent w k hout) (hg.inv.origin _ _ hk') (hg.inv.key _ _ hk').symm
  have hpin := hg.inv.pinned _ _ hk'
  have hkn := hg.inv.known _ _ hpin
  rw [← hsame] at hkn
  intro hnone
  have hkn : (Props.functionOf s.sched k.functionId).isSome := hkn
  rw [hnone] at hkn
  cases hkn

/-- No worker is refused a function. -/
theorem Steady.unrefused (h : Steady p rt cfg (fun _ => True) s) (hc : ∀ x t, (x, Message.taskCancel t) ∉ s.sched.out)
    {w : Bytes} (hw : AsksOnly s.received w) (f nm c : Bytes) : (w, Message.functionResponse .notExists f nm c) ∉ s.sched.out := by
  induction h with
  | init => exact List.not_mem_nil
  | @step s s' o h hs hk ih =>
    have hr := h.reach
    have hc0 : ∀ x t, (x, Message.taskCancel t) ∉ s.sched.out := by
      obtain ⟨l, hl⟩ := hr.out_step hs
      intro x t hm
      exact hc x t (by rw [hl]; exact List.mem_append_left _ hm)
    rcases sched_moves hs with ⟨h1, h2⟩ | ⟨e, h1, h2, h3, h4⟩
    · rw [h1]
      exact ih hc0 (h2 ▸ hw)
    · have hw0 : AsksOnly s.received w := by
        rw [h2] at hw
        exact ⟨fun ty f nm c hm => hw.1 ty f nm c (List.mem_append_left _ hm), fun g hg => hw.2 g (List.mem_append_left _ hg)⟩
      intro hm
      obtain ⟨ms, ho, hq⟩ := Py.Post.ok (step_emits s.sched e) h1
      rw [ho] at hm
      rcases List.mem_append.1 hm with hm | hm
      · exact ih hc0 hw0 hm
      · rcases hq _ hm with ⟨ty, nm', c', h5, -, -⟩ | ⟨gt, rest, -, h5, h6⟩
        · have hin : (w, Message.functionRequest ty f nm' c') ∈ e.input := by simp [Sched.Event.input, h5]
          have hty := hw.1 ty f nm' c' (by rw [h2]; exact List.mem_append_right _ hin)
          subst hty
          have hlt := h4 _ _ h5
          obtain ⟨st', nm2, c2, h6, h7⟩ := sched_replies h1 h5
          have : ms = [(w, Message.functionResponse st' f nm2 c2)] := List.append_cancel_left (ho.symm.trans h6)
          rw [this, List.mem_singleton] at hm
          cases hm
          have h7 := h7 rfl
          rcases Peer.sent_pos (Nat.lt_of_le_of_lt (Nat.zero_le _) hlt) with ⟨c0, hx, hc⟩ | ⟨a, ret, qs, left, hx, -⟩
          · obtain ⟨l, -, h8⟩ := hr.inv.clientSent hx hc
            exact absurd h8.1 (by simp)
          · exact Steady.asked h hc0 hx hlt h7
        · rcases h6 with h6 | h6 <;> cases h6

end Verif.System
