import Verif.Sched.Progress
import Verif.Sched.Frame

/-!
# What steps of the scheduler cannot undo
-/

namespace Verif.Sched

open Verif.Queue Verif.Util Verif.Wire Verif.Spec

variable {h : History} {a b c : Abs}

/-- Twice the acceptances, without the tasks held: every acceptance and every end of a task adds one. -/
def Abs.gain (a : Abs) : Int := 2 * (allAcks a.out : Int) - a.held

theorem retire_held (t : Bytes) (st : TaskStatus) : (a.retire t st).held = a.held - 1 := rfl

theorem retire_out (t : Bytes) (st : TaskStatus) : (a.retire t st).out = a.out := by cases st <;> rfl

/-- What a step changes when it neither accepts nor ends a task, nor gives one to a worker. -/
theorem AStep.gain (hs : AStep h a b) : a.gain < b.gain ∨ a.gain ≤ b.gain ∧
    (b.worker = a.worker ∨ (∃ w k l, b.out = a.out ++ l ∧ (w, Message.task k) ∈ l) ∨
      ∃ ts up', ts ≠ [] ∧ b.up = up' ∧ (∀ w, up' w = true → a.up w = true) ∧
        ∀ t ∈ ts, (∃ x ids, h.sub = some (x, .balanceResponse ids)) ∨ ∃ w, a.worker t = some w ∧ up' w = false) := by
  have hout : ∀ l : Log, 2 * (allAcks a.out : Int) - a.held ≤ 2 * (allAcks (a.out ++ l) : Int) - a.held := by
    intro l; rw [allAcks_append]; omega
  cases hs with
  | say c m hm => exact .inr ⟨hout _, .inl rfl⟩
  | halt t w hw => exact .inr ⟨hout _, .inl rfl⟩
  | func => exact .inr ⟨Int.le_refl _, .inl rfl⟩
  | drop => exact .inr ⟨Int.le_refl _, .inl rfl⟩
  | refuse c k st hs hst hf hl => exact .inr ⟨hout _, .inl rfl⟩
  | accept c k hs hm hf hk =>
    refine .inl ?_
    show _ < 2 * (allAcks (a.out ++ _) : Int) - (a.held + 1)
    rw [allAcks_append, show allAcks [(c, .taskEcho k.taskId .submitOK)] = 1 from rfl]
    unfold Abs.gain
    omega
  | up => exact .inr ⟨Int.le_refl _, .inl rfl⟩
  | requeue ts up' hn ht hu hd hy =>
    refine .inr ⟨Int.le_refl _, ?_⟩
    cases ts with
    | nil => exact .inl (by funext t; simp)
    | cons t0 ts =>
      refine .inr (.inr ⟨t0 :: ts, up', by simp, rfl, hd, fun t htt => ?_⟩)
      rcases hy t htt with ⟨x, ids, h1, _⟩ | ⟨_, h2⟩
      · exact .inl ⟨x, ids, h1⟩
      · exact .inr h2
  | queueGraph => exact .inr ⟨Int.le_refl _, .inl rfl⟩
  | take => exact .inr ⟨Int.le_refl _, .inl rfl⟩
  | putBack => exact .inr ⟨Int.le_refl _, .inl rfl⟩
  | place k w hp hw => exact .inr ⟨hout _, .inr (.inl ⟨w, k, _, rfl, List.mem_singleton.2 rfl⟩)⟩
  | answer r c he hc hn =>
    refine .inl ?_
    show _ < 2 * (allAcks (a.out ++ _) : Int) - (a.held - 1)
    rw [allAcks_append]
    unfold Abs.gain
    omega
  | nodeDone r gid g i st so he hn hg hx hst hso =>
    refine .inl ?_
    show _ < 2 * (allAcks (a.retire r.taskId r.status).out : Int) - (a.held - 1)
    rw [retire_out]
    unfold Abs.gain
    omega
  | unpack => exact .inr ⟨Int.le_refl _, .inl rfl⟩
  | getReady => exact .inr ⟨Int.le_refl _, .inl rfl⟩
  | launch gid g t i k g' gone hg ht hx ho hk ha hd hc =>
    refine .inl ?_
    show _ < 2 * (allAcks (a.out ++ _) : Int) - (a.held + 1)
    rw [allAcks_append, show allAcks [(g.client, .taskEcho k.taskId .submitOK)] = 1 from rfl]
    unfold Abs.gain
    omega
  | reject gid g t i k g' gone hg ht hx ho hk ha hd hc hl => exact .inr ⟨hout _, .inl rfl⟩
  | clean gid g ids ans hg hids hnodup hw ha he => exact .inr ⟨hout _, .inl rfl⟩

theorem AStep.gain_le (hs : AStep h a b) : a.gain ≤ b.gain := by
  rcases hs.gain with h | h
  · omega
  · exact h.1

theorem ASteps.gain_le (hs : ASteps h a b) : a.gain ≤ b.gain := by
  induction hs with
  | refl => exact Int.le_refl _
  | tail _ h ih => exact Int.le_trans ih h.gain_le

theorem AStep.out_grows (hs : AStep h a b) : ∃ l, b.out = a.out ++ l := by
  cases hs with
  | answer r c he hc hn => exact ⟨_, rfl⟩
  | nodeDone r gid g i st so he hn hg hx hst hso => exact ⟨[], by rw [List.append_nil]; exact retire_out r.taskId r.status⟩
  | _ => first | exact ⟨_, rfl⟩ | exact ⟨[], (List.append_nil _).symm⟩

theorem ASteps.out_grows (hs : ASteps h a b) : ∃ l, b.out = a.out ++ l := by
  induction hs with
  | refl => exact ⟨[], (List.append_nil _).symm⟩
  | tail _ h ih =>
    obtain ⟨l, e⟩ := ih
    obtain ⟨l', e'⟩ := h.out_grows
    exact ⟨l ++ l', by rw [e', e, List.append_assoc]⟩

/-- Without heartbeats no worker appears. -/
theorem AStep.up_le (hs : AStep h a b) (hh : ∀ x m, h.sub ≠ some (x, .heartbeat m)) {w : Bytes} (hw : b.up w = true) : a.up w = true := by
  cases hs with
  | up w' hb hs => obtain ⟨m, hm⟩ := hs; exact absurd hm (hh _ _)
  | requeue ts up' hn ht hu hd hy => exact hd w hw
  | answer r c he hc hn => revert hw; cases r.status <;> exact id
  | nodeDone r gid g i st so he hn hg hx hst hso => revert hw; cases hrs : r.status <;> exact id
  | _ => exact hw

/-- A worker is gone for good, somebody was given a task, or nothing moved away from workers. -/
theorem ASteps.gain_or (hs : ASteps h a b) (hi : Inv h a) (hh : ∀ x m, h.sub ≠ some (x, .heartbeat m))
    (hb : ∀ x ids, h.sub ≠ some (x, .balanceResponse ids)) :
    (∀ w, b.up w = true → a.up w = true) ∧ (a.gain < b.gain ∨ (∃ w, a.up w = true ∧ b.up w = false) ∨
      (∃ w k l, b.out = a.out ++ l ∧ (w, Message.task k) ∈ l) ∨ b.worker = a.worker) := by
  induction hs with
  | refl => exact ⟨fun _ h => h, .inr (.inr (.inr rfl))⟩
  | @tail b c s t ih =>
    obtain ⟨hu, ih⟩ := ih
    refine ⟨fun w hw => hu w (t.up_le hh hw), ?_⟩
    have hle := t.gain_le
    rcases ih with ih | ⟨w, h1, h2⟩ | ⟨w, k, l, e, hm⟩ | ih
    · exact .inl (by omega)
    · refine .inr (.inl ⟨w, h1, ?_⟩)
      cases hc : c.up w with
      | false => rfl
      | true => rw [t.up_le hh hc] at h2; cases h2
    · obtain ⟨l', e'⟩ := t.out_grows
      exact .inr (.inr (.inl ⟨w, k, l ++ l', by rw [e', e, List.append_assoc], List.mem_append_left _ hm⟩))
    · have hg := s.gain_le
      rcases t.gain with h1 | ⟨h1, h2 | ⟨w, k, l, e, hm⟩ | ⟨ts, up', hts, e, hd, hy⟩⟩
      · exact .inl (by omega)
      · exact .inr (.inr (.inr (h2.trans ih)))
      · obtain ⟨l', e'⟩ := s.out_grows
        exact .inr (.inr (.inl ⟨w, k, l' ++ l, by rw [e, e', List.append_assoc], List.mem_append_right _ hm⟩))
      · obtain ⟨t0, ht0⟩ := List.exists_mem_of_ne_nil ts hts
        rcases hy t0 ht0 with ⟨x, ids, hx⟩ | ⟨w, hw, hwu⟩
        · exact absurd hx (hb x ids)
        · refine .inr (.inl ⟨w, hu w ((s.inv hi).up t0 w hw), ?_⟩)
          rw [e]; exact hwu

/-- The queue of graphs only grows when a graph arrives. -/
theorem AStep.queue_le (hs : AStep h a b) (hh : ∀ x g, h.sub ≠ some (x, .graphTask g)) : b.queue.length ≤ a.queue.length := by
  cases hs with
  | queueGraph c gt hs => exact absurd hs (hh _ _)
  | unpack c gt rest g hq => show rest.length ≤ _; rw [hq]; simp
  | answer r c he hc hn => cases r.status <;> exact Nat.le_refl _
  | nodeDone r gid g i st so he hn hg hx hst hso => cases r.status <;> exact Nat.le_refl _
  | _ => exact Nat.le_refl _

theorem ASteps.queue_le (hs : ASteps h a b) (hh : ∀ x g, h.sub ≠ some (x, .graphTask g)) : b.queue.length ≤ a.queue.length := by
  induction hs with
  | refl => exact Nat.le_refl _
  | tail _ h ih => exact Nat.le_trans (h.queue_le hh) ih

/-- The end of a task that a worker has. -/
theorem result_gain {cfg : Config} {l : Log} {s s' : Sched} (hg : Good cfg l s) {x t : Bytes} {st : TaskStatus} {d : UInt32} {r : Bytes} {now : Int}
    {o : Order} (ha : Allowed l s.out (x, .taskResult t st d r)) (hs : s.step ⟨.recv x (.taskResult t st d r), now, o⟩ = .ok s') {w : Bytes}
    (hw : s.abs.worker t = some w) : s.abs.gain < s'.abs.gain := by
  have hA := (step_post hg ⟨.recv x (.taskResult t st d r), now, o⟩ (fun m hm => by rw [List.mem_singleton.1 hm]; exact ha)).ok hs
  have hi : Inv (Event.hist ⟨.recv x (.taskResult t st d r), now, o⟩ l) s.abs := hg.inv.mono (Event.hist_mem _ l)
  have hk := Py.Post.ok (step_keeps hg.conc hg.settled ⟨.recv x (.taskResult t st d r), now, o⟩ rfl) hs
  have hE := ((Sched.onTaskResult_spec hg.conc hi hg.settled o now (w0 := x) (r := ⟨t, st, d, r⟩)
    (List.mem_append_right _ (List.mem_singleton.2 rfl))).ok hs).2.2.1 (by simp only [hw]; rfl)
  obtain ⟨-, h1⟩ := hA.steps.gain_or hi (fun x m e => by cases e) (fun x m e => by cases e)
  obtain ⟨l1, e1, hl1⟩ := hk.said
  have hno : ∀ (w : Bytes) (k : Task) (l2 : Log), s'.abs.out = s.abs.out ++ l2 → (w, Message.task k) ∈ l2 → False := by
    intro w k l2 e2 hm
    have e3 : s.out ++ l1 = s.out ++ l2 := e1.symm.trans e2
    rw [← List.append_cancel_left e3] at hm
    cases hl1 w k hm
  rcases h1 with h1 | ⟨w', h1, h2⟩ | ⟨w', k, l2, e2, hm⟩ | h1
  · exact h1
  · have : s'.abs.up = s.abs.up := congrArg Dict.has hk.alive
    rw [this, h1] at h2
    cases h2
  · exact (hno _ _ _ e2 hm).elim
  · obtain ⟨k, hm⟩ := hE.again w (by rw [h1]; exact hw)
    have e2 : s'.abs.out = s.abs.out ++ l1 := e1
    rw [e2, List.drop_left] at hm
    exact (hno _ _ _ e2 hm).elim

end Verif.Sched
