import Verif.Spec.Trace
import Verif.System.Trace
import Verif.Props.Transit

/-!
# C85: no task gets lost
-/

namespace Verif.Props

open Verif.Queue Verif.Util Verif.Wire Verif.Sched Verif.Spec Verif.System
open Verif.Client (Pickle UserNode)

variable {F V X : Type} {p : Pickle} {rt : Proc.Runtime F V X} {cfg : Config} {s : Sys F}

/-- The last echo was received. -/
theorem lastCopy_echoed {t : Bytes} {st : TaskEchoStatus} {l : List Client.Act} (h : Spec.Client.lastCopy t l = .echoed st) :
    Client.Act.recv (.taskEcho t st) ∈ l := by
  have key : ∀ (l : List Client.Act) (s0 : Spec.Client.Copy), l.foldl (fun s x => Spec.Client.copyStep t x s) s0 = .echoed st →
      s0 = .echoed st ∨ Client.Act.recv (.taskEcho t st) ∈ l := by
    intro l
    induction l with
    | nil => exact fun s0 h => .inl h
    | cons x l ih =>
      intro s0 h
      rcases ih _ h with h | h
      · simp only [Spec.Client.copyStep] at h
        split at h
        · split at h
          · cases h
          · exact .inl h
        · split at h
          · next e => cases h; subst e; exact .inr List.mem_cons_self
          · exact .inl h
        · exact .inl h
      · exact .inr (List.mem_cons_of_mem _ h)
  exact (key l .none h).resolve_left nofun

/-- A task that the scheduler holds. -/
theorem held_traced (hr : System.Reach p rt cfg s) {x : Bytes} {c : Client.Client} {k : Task} (hh : Holding s.sched k.taskId) :
    Traced s x c k := by
  rcases ((C18_one_place cfg _ _ hr.inv.sched k.taskId).1).1 hh with h | h | ⟨w, hw⟩
  · exact .waiting (.inl h)
  · exact .waiting (.inr h)
  · exact .given w hw (C84_located hr hw)

/-- A task that the scheduler has accepted. -/
theorem acked_traced (hr : System.Reach p rt cfg s) {x : Bytes} {c : Client.Client} (hx : s.peers x = .client c) {k : Task} {nm b : Bytes}
    (hk : Client.Act.submitted k nm b ∈ c.log) (ha : 0 < acks anyone k.taskId s.sched.out) : Traced s x c k := by
  have h := hr.inv
  have hn := h.notInGraph hx hk
  by_cases hh : Holding s.sched k.taskId
  · exact held_traced hr hh
  · have h1 := (C16_exactly_once cfg _ _ h.sched k.taskId hn).2.1
    rw [if_neg hh] at h1
    have h2 : 0 < results anyone k.taskId s.sched.out := by omega
    obtain ⟨⟨y, m⟩, hm, hy⟩ := List.countP_pos_iff.1 h2
    cases m with
    | taskResult i st d r =>
      simp only [isResult, anyone, Bool.true_and, decide_eq_true_eq] at hy
      subst hy
      -- it goes to the client that submitted it
      have h3 := (h.sched.good.sent.result y _ st d r hm).1
      obtain ⟨c', hy', hu⟩ := h.echo_used h3
      have : y = x := by
        refine h.same (t := k.taskId) ?_ (Inv.submitted_id hx hk)
        rcases hu with ⟨k', hs, ht⟩ | ⟨g, hg, ht⟩
        · obtain ⟨c2, nm', b', hx2, hsb, -⟩ := h.taskSent (x := y) (k := k') (by
            rw [hy']; exact List.countP_pos_iff.2 ⟨_, hs, by simp⟩)
          rw [← ht]
          exact Inv.submitted_id hx2 hsb
        · exact Inv.graph_id hy' hg ht
      subst this
      by_cases hg : (s.peers y).got (.taskResult k.taskId st d r) < s.sched.out.count (y, .taskResult k.taskId st d r)
      · exact .done st d r hg
      · have h4 : 0 < s.sched.out.count (y, .taskResult k.taskId st d r) := List.count_pos_iff.2 hm
        have h5 : 0 < (s.peers y).got (.taskResult k.taskId st d r) := by omega
        rw [hx] at h5
        obtain ⟨z, hz, he⟩ := List.countP_pos_iff.1 h5
        refine .answered st d r ?_
        rw [← of_decide_eq_true he]; exact hz
    | _ => cases hy

/-- **C85.** A task that a user submitted is with the client, or on the way to the scheduler, or refused with the refusal
on the way back, or with the scheduler, or with a worker (or on the way there or back), or its result is on the way to
the client or has arrived there: nothing in the system loses it, whatever happens elsewhere. -/
theorem C85_traced (hr : System.Reach p rt cfg s) {x : Bytes} {c : Client.Client} (hx : s.peers x = .client c) {k : Task} {nm b : Bytes}
    (hk : Client.Act.submitted k nm b ∈ c.log) : Traced s x c k := by
  have h := hr.inv
  have hc := h.client hx
  have hn := h.notInGraph hx hk
  -- the scheduler said that it accepts the task
  by_cases ha : 0 < acks anyone k.taskId s.sched.out
  · exact acked_traced hr hx hk ha
  have hout : ∀ y, (y, Message.taskEcho k.taskId .submitOK) ∉ s.sched.out := fun y hy =>
    ha (List.countP_pos_iff.2 ⟨_, hy, by simp [isAck, anyone]⟩)
  have hun : Client.Act.recv (.taskEcho k.taskId .submitOK) ∉ c.log := by
    intro hm
    have h1 : 0 < (s.peers x).got (.taskEcho k.taskId .submitOK) := by
      rw [hx]; exact List.countP_pos_iff.2 ⟨_, hm, by simp⟩
    exact hout x (List.count_pos_iff.1 (Nat.lt_of_lt_of_le h1 (h.got _ _)))
  rcases hc.place _ k (hc.unacked k nm b hk hun) with hp | ⟨ks, h1, h2⟩ | hp | hp | hp
  · refine .inCall ?_
    unfold InSubmit
    cases hu : c.user <;> simp_all [Client.User.unsent?]
  · exact .buffered ks h1 h2
  · exact .queued hp
  · have hlt := flying_lt hr hx hp
    by_cases h1 : s.received.count (x, .task k) < (s.peers x).sent (.task k)
    · exact .sent h1
    by_cases h2 : ∃ st, (s.peers x).got (.taskEcho k.taskId st) < s.sched.out.count (x, .taskEcho k.taskId st)
    · obtain ⟨st, h2⟩ := h2
      have hm : (x, .taskEcho k.taskId st) ∈ s.sched.out := List.count_pos_iff.1 (by omega)
      rcases (h.sched.statuses hm).2 _ _ rfl with rfl | h3 | h3
      · exact absurd hm (hout x)
      · exact .refused st (.inl h3) h2
      · exact .refused st (.inr h3) h2
    exfalso
    -- everything has arrived
    have h3 : weigh (taskWeight k.taskId) (Verif.System.clientPut c.log) ≤ weigh (taskWeight k.taskId) (withPeer x s.received) := weigh_le fun m hm => by
      cases m with
      | task k' =>
        by_cases e : k'.taskId = k.taskId
        · by_cases hs : 0 < (s.peers x).sent (.task k')
          · have hs' : 0 < (s.peers x).sent (.task k) := by
              obtain ⟨c', nm', b', hx', hk', -⟩ := h.taskSent hs
              rw [hx] at hx'; cases hx'
              rw [← (hc.task.once _ _ _ _ _ _ hk' hk e).1]; exact hs
            obtain ⟨-, rfl⟩ := h.task_unique hs' hs e
            rw [clientPut_count, withPeer_count]
            rw [hx] at h1
            exact Nat.le_of_not_lt h1
          · rw [clientPut_count]
            rw [hx] at hs
            simp only [Peer.sent] at hs
            omega
        · simp [taskWeight, e] at hm
      | _ => exact absurd rfl hm
    rw [submits_peer h hx hk, h.sched.good.echo _ hn, ← weigh_echo] at h3
    have h4 : weigh (fun y => echoWeight k.taskId y.2) s.sched.out = weigh (echoWeight k.taskId) (withPeer x s.sched.out) := by
      refine (weigh_withPeer_eq ?_).symm
      rintro ⟨y, m⟩ hy hm
      cases m with
      | taskEcho i st =>
        have e : i = k.taskId := by
          by_cases e : i = k.taskId
          · exact e
          · simp [echoWeight, e] at hm
        subst e
        obtain ⟨c', hy', hu⟩ := h.echo_used hy
        refine h.same (t := k.taskId) ?_ (Inv.submitted_id hx hk)
        rcases hu with ⟨k', hs, ht⟩ | ⟨g, hg, ht⟩
        · obtain ⟨c2, nm', b', hx2, hsb, -⟩ := h.taskSent (x := y) (k := k') (by
            rw [hy']; exact List.countP_pos_iff.2 ⟨_, hs, by simp⟩)
          rw [← ht]
          exact Inv.submitted_id hx2 hsb
        · exact Inv.graph_id hy' hg ht
      | _ => exact absurd rfl hm
    have h5 : weigh (echoWeight k.taskId) (withPeer x s.sched.out) ≤ weigh (echoWeight k.taskId) (clientGot c.log) := weigh_le fun m hm => by
      cases m with
      | taskEcho i st =>
        have e : i = k.taskId := by
          by_cases e : i = k.taskId
          · exact e
          · simp [echoWeight, e] at hm
        subst e
        have : ¬ (s.peers x).got (.taskEcho k.taskId st) < s.sched.out.count (x, .taskEcho k.taskId st) := fun hlt => h2 ⟨st, hlt⟩
        rw [hx] at this
        rw [withPeer_count, clientGot_count]
        exact Nat.le_of_not_lt this
      | _ => exact absurd rfl hm
    omega
  · -- no such echo is sent
    exfalso
    have hm : Client.Act.recv (.taskEcho k.taskId .duplicated) ∈ c.log := lastCopy_echoed hp
    have h1 : 0 < (s.peers x).got (.taskEcho k.taskId .duplicated) := by
      rw [hx]; exact List.countP_pos_iff.2 ⟨_, hm, by simp⟩
    have h2 := (h.sched.statuses (List.count_pos_iff.1 (Nat.lt_of_lt_of_le h1 (h.got _ _)))).2 _ _ rfl
    simp at h2

/-- A task is with the scheduler at most once per submission. -/
theorem count_submits (h : System.Inv p rt cfg s) {x : Bytes} {c : Client.Client} (hx : s.peers x = .client c) {k : Task} {nm b : Bytes}
    (hk : Client.Act.submitted k nm b ∈ c.log) : submits k.taskId s.received = s.received.count (x, .task k) := by
  unfold submits
  rw [List.count]
  refine List.countP_congr ?_
  rintro ⟨y, m⟩ hy
  cases m with
  | task k' =>
    simp only [isSubmit, decide_eq_true_eq, beq_iff_eq, Prod.mk.injEq, Message.task.injEq]
    refine ⟨fun e => ?_, fun e => by rw [e.2]⟩
    have hyx := submits_from h hx hk hy e
    subst hyx
    obtain ⟨c', nm', b', hx', hk', -⟩ := h.taskSent (h.received hy)
    rw [hx] at hx'; cases hx'
    exact ⟨rfl, ((h.client hx).task.once _ _ _ _ _ _ hk' hk e).1⟩
  | _ => simp [isSubmit]

/-- **C85.** There is exactly one copy of a submitted task: in one place at the client, or on the way, or refused, or with
the scheduler (and beyond), or answered; it is neither lost nor duplicated between client and scheduler. -/
theorem C85_once (hr : System.Reach p rt cfg s) {x : Bytes} {c : Client.Client} (hx : s.peers x = .client c) {k : Task} {nm b : Bytes}
    (hk : Client.Act.submitted k nm b ∈ c.log) : copies s x c k = 1 := by
  have h := hr.inv
  have hc := h.client hx
  have hn := h.notInGraph hx hk
  obtain ⟨-, hacc, hecho⟩ := C16_exactly_once cfg _ _ h.sched k.taskId hn
  rw [count_submits h hx hk] at hecho
  have hheard := h.heard x (.task k)
  have hF := h.got x (.taskEcho k.taskId .functionNotExists)
  have hN := h.got x (.taskEcho k.taskId .noWorker)
  have hcount := hc.count k.taskId
  have hone : c.log.countP (Spec.Client.isSubmit k.taskId) ≤ 1 :=
    Nat.le_trans (Client.countP_submit_le _ _) (by
      have e : (Client.usedIds c.log).countP (fun i => decide (i = k.taskId)) = (Client.usedIds c.log).count k.taskId := by
        simp only [List.count]; congr; funext i; rw [Bool.eq_iff_iff]; simp
      rw [e]
      exact List.nodup_iff_count.1 hc.ids _)
  have hsent : (s.peers x).sent (.task k) ≤ c.log.countP (Spec.Client.isSent k.taskId) := by
    rw [hx]
    refine List.countP_mono_left fun y _ hy => ?_
    rw [of_decide_eq_true hy]; simp [Spec.Client.isSent]
  have hgot : (s.peers x).got (.taskEcho k.taskId .functionNotExists) = c.log.countP (Spec.Client.isRefused k.taskId) := by
    rw [hx]
    refine List.countP_congr fun y _ => ?_
    unfold Spec.Client.isRefused
    split <;> simp_all
  have href : s.sched.out.count (x, .taskEcho k.taskId .functionNotExists) + s.sched.out.count (x, .taskEcho k.taskId .noWorker) ≤
      refusals k.taskId s.sched.out := by
    unfold refusals
    generalize s.sched.out = l
    induction l with
    | nil => simp
    | cons y l ih =>
      simp only [List.count_cons, List.countP_cons]
      have : (if (y == (x, Message.taskEcho k.taskId .functionNotExists)) = true then 1 else 0) + (if (y == (x, Message.taskEcho k.taskId .noWorker)) = true then 1 else 0) ≤
          if isRefusal k.taskId y = true then 1 else 0 := by
        by_cases e1 : y = (x, Message.taskEcho k.taskId .functionNotExists)
        · subst e1; simp [isRefusal]
        · by_cases e2 : y = (x, Message.taskEcho k.taskId .noWorker)
          · subst e2; simp [isRefusal]
          · simp [e1, e2]
      omega
  have hout : c.outbox.countP (carries k.taskId) = c.outbox.countP (Client.isTask k.taskId) := by
    refine List.countP_congr fun y _ => ?_
    cases y <;> simp [carries, Client.isTask]
  have hhand : (if inHand k.taskId c.user then 1 else 0) = Client.userCount k.taskId c.user.unsent? := by
    cases c.user <;> simp [inHand, Client.User.unsent?, Client.userCount]
  refine Nat.le_antisymm ?_ ?_
  · unfold copies toPeer
    rw [hhand, hout]
    unfold Client.waitCount at hcount
    split <;> rename_i hh
    · rw [if_pos hh] at hacc; omega
    · rw [if_neg hh] at hacc; omega
  · have hmem : 0 < results anyone k.taskId s.sched.out → 1 ≤ copies s x c k := by intro h; unfold copies; omega
    have hhold : Holding s.sched k.taskId → 1 ≤ copies s x c k := by intro h; unfold copies; rw [if_pos h]; omega
    have hcirc := (C18_one_place cfg _ _ h.sched k.taskId).1
    cases C85_traced hr hx hk with
    | inCall h =>
      have : inHand k.taskId c.user = true := by
        rcases h with ⟨nm, b, h⟩ | h | h | h <;> rw [h] <;> simp [inHand]
      unfold copies; rw [if_pos this]; omega
    | buffered ks hf h =>
      have : 0 < c.notReady.values.flatten.countP fun k' => decide (k'.taskId = k.taskId) :=
        List.countP_pos_iff.2 ⟨k, List.mem_flatten.2 ⟨ks, List.mem_map.2 ⟨(_, ks), Dict.mem_items.2 hf, rfl⟩, h⟩, by simp⟩
      unfold copies; omega
    | queued h =>
      have : 0 < c.outbox.countP (carries k.taskId) := List.countP_pos_iff.2 ⟨_, h, by simp [carries]⟩
      unfold copies; omega
    | sent h => unfold copies; omega
    | refused st hst h =>
      unfold copies toPeer
      rcases hst with rfl | rfl <;> omega
    | waiting h => exact hhold (hcirc.2 (h.elim .inl fun h => .inr (.inl h)))
    | given w hw _ => exact hhold (hcirc.2 (.inr (.inr ⟨w, hw⟩)))
    | done st d r h =>
      exact hmem (List.countP_pos_iff.2 ⟨(x, .taskResult k.taskId st d r), List.count_pos_iff.1 (by omega), by simp [isResult, anyone]⟩)
    | answered st d r hm =>
      have h1 : 0 < (s.peers x).got (.taskResult k.taskId st d r) := by
        rw [hx]; exact List.countP_pos_iff.2 ⟨_, hm, by simp⟩
      exact hmem (List.countP_pos_iff.2 ⟨(x, .taskResult k.taskId st d r), List.count_pos_iff.1 (Nat.lt_of_lt_of_le h1 (h.got _ _)), by simp [isResult, anyone]⟩)

/-- The client submits the task 10 whose function is known to the scheduler; before the task arrives, the function is
dropped. -/
def droppedRun : List System.Op :=
  [.client [1] (.submit [10] [5] [9] []), .client [1] .advance, .client [1] .advance, .client [1] .advance, .client [1] .advance,
    .client [1] .advance, .client [1] .flush, schedOp (.recv [1] (.functionRequest .add [9] [5] [9])),
    .client [1] (.recv (.functionResponse .ok [9] [] [])), .client [1] .flush, .sched ⟨.functionRoutine, 1000, fun _ => []⟩,
    schedOp (.recv [1] (task9 [10]))]

/-- Runs of a system in which the task 10 is in each of the places. -/
def traces : List Script :=
  [ [(meet, 0), (droppedRun.take 1, 0)], [(meet, 0), (droppedRun.take 5, 0)], [(meet, 0), (droppedRun.take 9, 0)],
    [(meet, 0), (droppedRun.take 10, 0)], [(meet, 0), (droppedRun, 0)], [(meet, 0), sysSubmit [10]],
    [(meet, 0), sysSubmit [10], ([schedOp .taskRoutine], 20)],
    [(meet, 0), sysSubmit [10], ([schedOp .taskRoutine], 20), ([schedOp (result9 [10])], 0)],
    [(meet, 0), sysSubmit [10], ([schedOp .taskRoutine], 20), ([schedOp (result9 [10])], 2)] ]

/-- Which of the places the task 10 is in. -/
def traceAt (s : Sys Nat) : List Bool :=
  match clientAt s [1] with
  | none => []
  | some c =>
    [ inHand [10] c.user, decide (⟨[10], [9], []⟩ ∈ (c.notReady.get? [9]).getD []), decide (task9 [10] ∈ c.outbox),
      decide (s.received.count ([1], task9 [10]) < (s.peers [1]).sent (task9 [10])),
      decide (0 < toPeer s [1] (.taskEcho [10] .functionNotExists)), decide ([10] ∈ waitingQueue s.sched),
      (workerOf s.sched [10]).isSome, decide (0 < toPeer s [1] (.taskResult [10] .success 0 [9])),
      decide (Client.Act.recv (.taskResult [10] .success 0 [9]) ∈ c.log) ]

/-- Each of the nine places is met. -/
example : ∀ n < 9, ∃ (s : Sys Nat) (c : Client.Client), System.Reach plainPickle toy wide s ∧ s.peers [1] = .client c ∧
    Client.Act.submitted ⟨[10], [9], []⟩ [5] [9] ∈ c.log ∧ traceAt s = (List.range 9).map fun i => decide (i = n) := by
  have h : ∀ n < 9, (traces[n]?).map (fun l => decide (traceAt (playScript wide l) = (List.range 9).map fun i => decide (i = n)) &&
      ((clientAt (playScript wide l) [1]).map fun c => decide (Client.Act.submitted ⟨[10], [9], []⟩ [5] [9] ∈ c.log)).getD false) = some true := by
    decide +kernel
  intro n hn
  obtain ⟨l, _, he⟩ := Option.map_eq_some_iff.1 (h n hn)
  rw [Bool.and_eq_true] at he
  obtain ⟨h1, h2⟩ := he
  cases hc : clientAt (playScript wide l) [1] with
  | none => rw [hc] at h2; cases h2
  | some c =>
    rw [hc] at h2
    exact ⟨_, c, playScript_reach wide l, clientAt_eq hc, of_decide_eq_true h2, of_decide_eq_true h1⟩

end Verif.Props
