import Verif.Sched.Run

/-!
# Bounds for the argument that everything can be finished
-/

namespace Verif.Sched

open Verif.Queue Verif.Util Verif.Wire Verif.Spec

variable {h : History} {a b : Abs}

/-! ### Who has a task was given it -/

/-- The worker of a task was sent the task. -/
def Handed (a : Abs) : Prop := ∀ t w, a.worker t = some w → ∃ k, k.taskId = t ∧ (w, .task k) ∈ a.out

theorem AStep.handed (hs : AStep h a b) (hG : Handed a) : Handed b := by
  have hret : ∀ (t : Bytes) (st : TaskStatus) (x w : Bytes), (a.retire t st).worker x = some w → a.worker x = some w := by
    intro t st x w hx
    simp only [Abs.retire, upd_apply] at hx
    split at hx
    · cases hx
    · exact hx
  have hmono : ∀ (l : Log) (t w : Bytes), a.worker t = some w → ∃ k, k.taskId = t ∧ (w, .task k) ∈ a.out ++ l :=
    fun l t w hw => (hG t w hw).imp fun k hk => ⟨hk.1, List.mem_append_left _ hk.2⟩
  cases hs with
  | say c m hm => exact hmono _
  | halt t w hw => exact hmono _
  | func => exact hG
  | drop => exact hG
  | refuse c k st hs hst hf hl => exact hmono _
  | accept c k hs hm hf hk => exact hmono _
  | up => exact hG
  | requeue ts up' hn ht hu hd _ =>
    intro t w hw
    simp only at hw
    split at hw
    · cases hw
    · exact hG t w hw
  | queueGraph => exact hG
  | take => exact hG
  | putBack => exact hG
  | place k w hp hw =>
    intro t w' hw'
    simp only [upd_apply] at hw'
    split at hw'
    · next e => cases hw'; exact ⟨k, e, by simp⟩
    · exact hmono _ t w' hw'
  | answer r c he hc hn => exact fun t w hw => hmono _ t w (hret r.taskId r.status t w hw)
  | nodeDone r gid g i st so he hn hg hx hst hso =>
    intro t w hw
    have := hG t w (hret r.taskId r.status t w hw)
    simpa [Abs.retire] using this
  | unpack c gt rest g => exact hG
  | getReady => exact hG
  | launch gid g t i k g' gone hg ht hx ho hk ha hd hc => exact hmono _
  | reject gid g t i k g' gone hg ht hx ho hk ha hd hc hl => exact hmono _
  | clean gid g ids ans hg hids hnodup hw ha he => exact hmono _

theorem Reach.handed {cfg : Config} {l : Log} {s : Sched} (hr : Reach cfg l s) : Handed s.abs := by
  induction hr with
  | init => intro t w hw; simp [Sched.init, Sched.abs, Alloc.init] at hw
  | @step l s s' e hr ha hs ih =>
    have hA := (step_post hr.good e ha).ok hs
    exact hA.steps.lift (P := Handed) (fun _ _ x _ z => x.handed z) (hr.good.inv.mono (e.hist_mem l)) ih

/-! ### The number of successes is bounded -/

/-- Tasks that succeeded or are held were accepted. -/
def Bounded (a : Abs) : Prop := a.success + a.held ≤ (allAcks a.out : Int)

theorem Bounded.retire (hB : Bounded a) (t : Bytes) (st : TaskStatus) :
    (a.retire t st).success + (a.retire t st).held ≤ (allAcks a.out : Int) := by
  unfold Bounded at hB
  cases st <;> simp [Abs.retire, Abs.count] <;> omega

theorem AStep.bounded (hs : AStep h a b) (hB : Bounded a) : Bounded b := by
  have hmono : ∀ (l : Log), a.success + a.held ≤ (allAcks (a.out ++ l) : Int) := by
    intro l; rw [allAcks_append]; unfold Bounded at hB; omega
  cases hs with
  | say c m hm => exact hmono _
  | halt t w hw => exact hmono _
  | func => exact hB
  | drop => exact hB
  | refuse c k st hs hst hf hl => exact hmono _
  | accept c k hs hm hf hk =>
    show _ ≤ (allAcks (a.out ++ _) : Int)
    rw [allAcks_append, show allAcks [(c, .taskEcho k.taskId .submitOK)] = 1 from rfl]
    unfold Bounded at hB
    simp only [Abs.accept]
    omega
  | up => exact hB
  | requeue => exact hB
  | queueGraph => exact hB
  | take => exact hB
  | putBack => exact hB
  | place k w hp hw => exact hmono _
  | answer r c he hc hn =>
    show (a.retire r.taskId r.status).success + (a.retire r.taskId r.status).held ≤ (allAcks (a.out ++ _) : Int)
    have := hB.retire r.taskId r.status
    rw [allAcks_append]
    omega
  | nodeDone r gid g i st so he hn hg hx hst hso =>
    show (a.retire r.taskId r.status).success + (a.retire r.taskId r.status).held ≤ (allAcks (a.retire r.taskId r.status).out : Int)
    rw [show (a.retire r.taskId r.status).out = a.out by simp [Abs.retire]]
    exact hB.retire r.taskId r.status
  | unpack => exact hB
  | getReady => exact hB
  | launch gid g t i k g' gone hg ht hx ho hk ha hd hc =>
    show _ ≤ (allAcks (a.out ++ _) : Int)
    rw [allAcks_append, show allAcks [(g.client, .taskEcho k.taskId .submitOK)] = 1 from rfl]
    unfold Bounded at hB
    simp only [Abs.accept]
    omega
  | reject gid g t i k g' gone hg ht hx ho hk ha hd hc hl => exact hmono _
  | clean gid g ids ans hg hids hnodup hw ha he => exact hmono _

theorem Reach.bounded {cfg : Config} {l : Log} {s : Sched} (hr : Reach cfg l s) : s.tm.success + s.tm.tasks.size ≤ allAcks s.out := by
  have : Bounded s.abs := by
    induction hr with
    | init => simp [Bounded, Sched.init, Sched.abs, allAcks, Dict.size, Dict.empty]
    | @step l s s' e hr ha hs ih =>
      have hA := (step_post hr.good e ha).ok hs
      exact hA.steps.lift (P := Bounded) (fun _ _ x _ z => x.bounded z) (hr.good.inv.mono (e.hist_mem l)) ih
  have h2 : (s.tm.success : Int) + (s.tm.tasks.size : Int) ≤ (allAcks s.out : Int) := this
  omega

/-! ### The number of acceptances is bounded -/

/-- The ids a message submits. -/
def msgIds : Message → List Bytes
  | .task k => [k.taskId]
  | .graphTask g => graphIds g
  | _ => []

/-- All ids submitted. -/
def logIds (l : Log) : List Bytes := l.flatMap fun m => msgIds m.2

theorem mem_logIds {l : Log} {t : Bytes} : t ∈ logIds l ↔ Mentioned l t := by
  unfold logIds Mentioned InGraph
  rw [List.mem_flatMap]
  constructor
  · rintro ⟨⟨c, m⟩, hm, ht⟩
    cases m with
    | task k => exact .inr ⟨c, k, hm, by simpa [msgIds, eq_comm] using ht⟩
    | graphTask g => exact .inl ⟨c, g, hm, ht⟩
    | _ => cases ht
  · rintro (⟨c, g, h1, h2⟩ | ⟨c, k, h1, h2⟩)
    · exact ⟨_, h1, h2⟩
    · exact ⟨_, h1, by simp [msgIds, h2]⟩

/-- More acceptances than this are impossible. -/
def room (l : Log) : Nat := ((logIds l).map fun t => 1 + submits t l).sum

theorem sum_le_sum {f g : Bytes → Nat} (hfg : ∀ t, f t ≤ g t) : ∀ l : List Bytes, (l.map f).sum ≤ (l.map g).sum
  | [] => Nat.le_refl _
  | t :: l => by
    simp only [List.map_cons, List.sum_cons]
    have := sum_le_sum hfg l
    have := hfg t
    omega

theorem sum_add {f g : Bytes → Nat} : ∀ l : List Bytes, (l.map fun t => f t + g t).sum = (l.map f).sum + (l.map g).sum
  | [] => rfl
  | t :: l => by
    simp only [List.map_cons, List.sum_cons, sum_add l]
    omega

theorem allAcks_le_sum (U : List Bytes) : ∀ out : Log, (∀ c t, (c, .taskEcho t .submitOK) ∈ out → t ∈ U) → allAcks out ≤ (U.map fun t => acks anyone t out).sum
  | [], _ => by simp [allAcks]
  | m :: out, hU => by
    have ih := allAcks_le_sum U out fun c t hm => hU c t (List.mem_cons_of_mem _ hm)
    have e1 : allAcks (m :: out) = allAcks [m] + allAcks out := allAcks_append [m] out
    have e2 : ∀ t, acks anyone t (m :: out) = acks anyone t [m] + acks anyone t out := fun t => acks_append anyone t [m] out
    rw [e1]
    simp only [e2]
    rw [sum_add]
    refine Nat.add_le_add ?_ ih
    cases hm : isAnyAck m with
    | false => simp [allAcks, hm]
    | true =>
      obtain ⟨c, t, rfl⟩ : ∃ c t, m = (c, .taskEcho t .submitOK) := by
        obtain ⟨c, m⟩ := m
        cases m with
        | taskEcho t st => cases st <;> first | exact ⟨c, t, rfl⟩ | cases hm
        | _ => cases hm
      have ht := hU c t List.mem_cons_self
      have : ∀ (V : List Bytes), t ∈ V → 1 ≤ (V.map fun t' => acks anyone t' [(c, .taskEcho t .submitOK)]).sum := by
        intro V
        induction V with
        | nil => intro h; cases h
        | cons x V ih =>
          intro h
          simp only [List.map_cons, List.sum_cons]
          rcases List.mem_cons.1 h with rfl | h
          · have : acks anyone t [(c, .taskEcho t .submitOK)] = 1 := by simp [acks, isAck, anyone]
            omega
          · have := ih h; omega
      have h1 : allAcks [(c, .taskEcho t .submitOK)] = 1 := rfl
      rw [h1]
      exact this U ht

theorem Reach.room {cfg : Config} {l : Log} {s : Sched} (hr : Reach cfg l s) : allAcks s.out ≤ room l := by
  have hg := hr.good
  refine Nat.le_trans (allAcks_le_sum (logIds l) s.out ?_) (sum_le_sum ?_ _)
  · intro c t hm
    rw [mem_logIds]
    refine Classical.byContradiction fun hn => ?_
    exact hg.said t hn _ hm rfl
  · intro t
    by_cases ht : InGraph l t
    · have := hg.once.echo t ht
      rw [echoes_eq] at this
      have e : s.abs.out = s.out := rfl
      rw [e] at this
      omega
    · have := hg.echo t ht
      omega

/-- Results take no room. -/
theorem room_result (l : Log) (w t : Bytes) (st : TaskStatus) (d : UInt32) (r : Bytes) : Sched.room (l ++ [(w, .taskResult t st d r)]) = Sched.room l := by
  have h1 : logIds (l ++ [(w, .taskResult t st d r)]) = logIds l := by simp [logIds, msgIds]
  have h2 : ∀ t', submits t' (l ++ [(w, .taskResult t st d r)]) = submits t' l := by
    intro t'; rw [submits_append]; simp [submits, isSubmit]
  simp only [Verif.Sched.room, h1, h2]

end Verif.Sched
