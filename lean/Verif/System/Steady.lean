import Verif.Sched.Steady
import Verif.Spec.Steady
import Verif.System.Inside
import Verif.Props.Transit

/-!
# A task whose worker stays connected is at one worker
-/

namespace Verif.System

open Verif.Wire Verif.Sched Verif.Spec
open Verif.Client (Pickle)

variable {F V X : Type} {p : Pickle} {rt : Proc.Runtime F V X} {cfg : Config} {s s' : Sys F} {P : Bytes → Prop} {t : Bytes}

theorem _root_.Verif.Spec.Steady.reach (h : Steady p rt cfg P s) : Reach p rt cfg s := by
  induction h with
  | init => exact .init
  | step o _ hs _ ih => exact .step o ih hs

/-- No id is accepted twice. -/
theorem Inv.acks_le (h : Inv p rt cfg s) (t : Bytes) : acks anyone t s.sched.out ≤ 1 := by
  by_cases ht : InGraph s.received t
  · have := h.sched.good.once.echo t ht
    rw [echoes_eq] at this
    change acks anyone t s.sched.out + _ ≤ 1 at this
    omega
  · have h6 := h.sched.good.echo t ht
    by_cases h0 : submits t s.received = 0
    · omega
    · obtain ⟨⟨x, m⟩, hm, hs⟩ := List.countP_pos_iff.1 (Nat.pos_of_ne_zero h0)
      cases m <;> simp only [isSubmit, decide_eq_true_eq, Bool.false_eq_true] at hs
      next k =>
      subst hs
      have hpos := h.received hm
      obtain ⟨c, nm, b, hx, hk, -⟩ := h.taskSent hpos
      have hcount : submits k.taskId s.received = s.received.count (x, .task k) := by
        unfold submits List.count
        apply List.countP_congr
        rintro ⟨y, m⟩ hy
        constructor
        · intro hs
          cases m <;> simp only [isSubmit, decide_eq_true_eq, Bool.false_eq_true] at hs
          obtain ⟨rfl, rfl⟩ := h.task_unique hpos (h.received hy) hs
          exact beq_self_eq_true _
        · intro hs
          have := eq_of_beq hs
          cases this
          simp [isSubmit]
      have h1 := Props.C47_once (h.client hx) k.taskId
      have h2 : (s.peers x).sent (.task k) ≤ c.log.countP (Spec.Client.isSent k.taskId) := by
        rw [hx, Peer.sent]
        apply List.countP_mono_left
        intro y _ hy
        simp only [decide_eq_true_eq] at hy
        subst hy
        simp [Spec.Client.isSent]
      have h3 : c.log.countP (Spec.Client.isRefused k.taskId) ≤ (s.peers x).got (.taskEcho k.taskId .functionNotExists) := by
        rw [hx, Peer.got]
        apply List.countP_mono_left
        intro y _ hy
        unfold Spec.Client.isRefused at hy
        split at hy
        · simp only [decide_eq_true_eq] at hy
          subst hy
          simp
        · cases hy
      have h4 := h.got x (.taskEcho k.taskId .functionNotExists)
      have h5 : s.sched.out.count (x, .taskEcho k.taskId .functionNotExists) ≤ refusals k.taskId s.sched.out := by
        unfold refusals List.count
        apply List.countP_mono_left
        intro y _ hy
        have := eq_of_beq hy
        subst this
        simp [isRefusal]
      have h7 := h.heard x (.task k)
      omega

/-! ### Tasks that workers give back -/

/-- how often a message gives back the task `t` -/
def backWeight (t : Bytes) : Message → Nat
  | .balanceResponse ids => ids.count t
  | _ => 0

theorem back_le_end (t : Bytes) (l : List Message) : weigh (backWeight t) l ≤ weigh (endWeight t) l := by
  induction l with
  | nil => exact Nat.le_refl _
  | cons m l ih =>
    rw [weigh_cons, weigh_cons]
    have : backWeight t m ≤ endWeight t m := by cases m <;> simp [backWeight, endWeight]
    omega

theorem weigh_back (t : Bytes) (l : Worker.Hist) : weigh (backWeight t) (sentBy l) = Worker.returned t l := by
  induction l with
  | nil => rfl
  | cons x l ih =>
    obtain ⟨y, n⟩ := x
    unfold sentBy at ih ⊢
    rw [List.filterMap_cons]
    simp only [Worker.returned, List.map_cons, List.sum_cons] at ih ⊢
    cases n with
    | sent m =>
      simp only [weigh_cons, ih]
      cases m <;> simp [backWeight, Worker.returns]
    | recv | heard | told | started | killed => simp [ih, Worker.returns]

/-- How often the scheduler sent `t` to `w`. -/
def sentTo (s : Sys F) (t w : Bytes) : Nat := weigh (taskWeight t) (withPeer w s.sched.out)

/-- How often the scheduler got `t` back from `w`. -/
def backFrom (s : Sys F) (t w : Bytes) : Nat := weigh (backWeight t) (withPeer w s.received)

/-- A task whose worker stays connected is sent again only after it was given back. -/
structure Single (s : Sys F) (t : Bytes) : Prop where
  once : ∀ w, sentTo s t w ≤ backFrom s t w + 1
  one : ∀ w w', backFrom s t w < sentTo s t w → backFrom s t w' < sentTo s t w' → w = w'
  here : ∀ w, (s.sched.abs.tasks t).isSome → backFrom s t w < sentTo s t w → s.sched.abs.worker t = some w
  kept : ∀ w, backFrom s t w < sentTo s t w → (s.sched.abs.tasks t).isSome ∨ ∃ x st d r, (x, .taskResult t st d r) ∈ s.received

theorem withPeer_single (w x : Bytes) (m : Message) : withPeer w [(x, m)] = if x = w then [m] else [] := by
  unfold withPeer
  by_cases e : x = w <;> simp [e]

theorem weigh_no_task {l : Log} (h : ∀ w k, (w, Message.task k) ∈ l → k.taskId ≠ t) (w : Bytes) : weigh (taskWeight t) (withPeer w l) = 0 := by
  induction l with
  | nil => rfl
  | cons x l ih =>
    rw [show x :: l = [x] ++ l from rfl, withPeer_append, weigh_append, ih fun w k hm => h w k (List.mem_cons_of_mem _ hm)]
    obtain ⟨y, m⟩ := x
    rw [withPeer_single]
    split
    · cases m with
      | task k =>
        have := h y k List.mem_cons_self
        simp [weigh, taskWeight, this]
      | _ => rfl
    · rfl

theorem _root_.Verif.Spec.Steady.single (h : Steady p rt cfg P s) (ht : P t) : Single s t := by
  induction h with
  | init => exact ⟨fun w => Nat.zero_le _, fun w w' h => absurd h (Nat.lt_irrefl 0), (fun w h => by cases h), fun w h => absurd h (Nat.lt_irrefl 0)⟩
  | @step s s' o hst hs hk ih =>
    have hr := hst.reach
    have hi := hr.inv
    have hi' := (Reach.step o hr hs).inv
    rcases sched_moves hs with ⟨e1, e2⟩ | ⟨e, h1, h2, h3, h4⟩
    · refine ⟨?_, ?_, ?_, ?_⟩
      · unfold sentTo backFrom; rw [e1, e2]; exact ih.once
      · unfold sentTo backFrom; rw [e1, e2]; exact ih.one
      · unfold sentTo backFrom; rw [e1, e2]; exact ih.here
      · unfold sentTo backFrom; rw [e1, e2]; exact ih.kept
    · have ha : ∀ m ∈ e.input, Allowed s.received s.sched.out m := by
        intro m hm
        obtain ⟨op, now, ord⟩ := e
        cases op with
        | recv x n =>
          rw [List.mem_singleton.1 hm]
          exact hi.allowed (h4 x n rfl)
        | _ => cases hm
      have hle : ∀ w, backFrom s' t w ≤ sentTo s t w := fun w =>
        Nat.le_trans (back_le_end t _) (Props.ends_le hi hi' h3 t w)
      have hR : ∀ w, backFrom s' t w = backFrom s t w + weigh (backWeight t) (withPeer w e.input) := by
        intro w
        unfold backFrom
        rw [h2, withPeer_append, weigh_append]
      have hack := hi'.acks_le t
      have hplace : ∀ w, s'.sched.abs.worker t = some w → (s'.sched.abs.tasks t).isSome := fun w hw =>
        (hi'.sched.good.inv.place t).2 (.inr (.inr (by rw [hw]; rfl)))
      by_cases hb : ∃ x ids, e.input.head? = some (x, .balanceResponse ids) ∧ t ∈ ids
      · obtain ⟨x, ids, hin, hid⟩ := hb
        have hin' : e.input = [(x, .balanceResponse ids)] := by
          obtain ⟨op, now, ord⟩ := e
          cases op <;> cases hin
          rfl
        obtain ⟨m, hm, hno | ⟨w, k, -, hn, -⟩⟩ := step_sends hi.sched h1
        · have hT : ∀ w, sentTo s' t w = sentTo s t w := by
            intro w
            unfold sentTo
            rw [hm, withPeer_append, weigh_append, weigh_no_task fun w k hmem => absurd hmem (hno w k)]
            rfl
          have hpos : 0 < ids.count t := List.count_pos_iff.2 hid
          have hx : backFrom s' t x = backFrom s t x + ids.count t := by
            rw [hR, hin', withPeer_single]; simp [weigh, backWeight]
          have hox : backFrom s t x < sentTo s t x := by have := hle x; omega
          have hclosed : ∀ w, ¬ backFrom s' t w < sentTo s' t w := by
            intro w hw
            rw [hT] at hw
            by_cases e' : w = x
            · subst e'
              have := ih.once w; omega
            · exact e' (ih.one w x (by have := hR w; omega) hox)
          exact ⟨fun w => by have := hclosed w; omega, fun w w' h => absurd h (hclosed w), fun w _ h => absurd h (hclosed w),
            fun w h => absurd h (hclosed w)⟩
        · rw [hin'] at hn; cases hn
      · have hR' : ∀ w, backFrom s' t w = backFrom s t w := by
          intro w
          rw [hR]
          obtain ⟨op, now, ord⟩ := e
          cases op with
          | recv x n =>
            show _ + weigh (backWeight t) (withPeer w [(x, n)]) = _
            rw [withPeer_single]
            split
            · cases n with
              | balanceResponse ids =>
                have : ids.count t = 0 := List.count_eq_zero.2 fun hid => hb ⟨x, ids, rfl, hid⟩
                simp [weigh, backWeight, this]
              | _ => rfl
            · rfl
          | _ => rfl
        obtain ⟨m, hm, hsend⟩ := step_sends hi.sched h1
        by_cases hsent : ∃ w k, m = [(w, Message.task k)] ∧ k.taskId = t
        · obtain ⟨w0, k, hmk, hkt⟩ := hsent
          rcases hsend with hno | ⟨w1, k1, hm1, -, hh, hn, hw⟩
          · exact absurd (by rw [hmk]; exact List.mem_singleton_self _) (hno w0 k)
          · rw [hmk] at hm1
            cases hm1
            rw [hkt] at hh hn hw
            have hclosed : ∀ w, ¬ backFrom s t w < sentTo s t w := fun w ho => by
              have := ih.here w (by rw [hh]; rfl) ho
              rw [hn] at this; cases this
            have hT : ∀ w, sentTo s' t w = sentTo s t w + if w0 = w then 1 else 0 := by
              intro w
              unfold sentTo
              rw [hm, withPeer_append, weigh_append, hmk, withPeer_single]
              split <;> simp [weigh, taskWeight, hkt]
            have howed : ∀ w, backFrom s' t w < sentTo s' t w → w = w0 := by
              intro w ho
              refine Classical.byContradiction fun hne => hclosed w ?_
              rw [hR', hT, if_neg fun e => hne e.symm] at ho
              exact ho
            refine ⟨fun w => ?_, fun w w' h h' => (howed w h).trans (howed w' h').symm, fun w _ ho => by rw [howed w ho]; exact hw,
              fun w _ => .inl (hplace _ hw)⟩
            rw [hR', hT]
            have := hclosed w
            split <;> omega
        · have hT : ∀ w, sentTo s' t w = sentTo s t w := by
            intro w
            unfold sentTo
            rw [hm, withPeer_append, weigh_append, weigh_no_task (l := m) fun w k hmem hkt => ?_]
            · rfl
            · rcases hsend with hno | ⟨w1, k1, hm1, -⟩
              · exact hno w k hmem
              · rw [hm1] at hmem
                have := List.mem_singleton.1 hmem
                cases this
                exact hsent ⟨_, _, hm1, hkt⟩
          refine ⟨fun w => by rw [hR', hT]; exact ih.once w, fun w w' => by rw [hR', hT, hR', hT]; exact ih.one w w', fun w hh ho => ?_, fun w ho => ?_⟩
          case refine_2 =>
            rw [hR', hT] at ho
            rw [h2]
            rcases ih.kept w ho with h0 | ⟨x, st, d, r, h0⟩
            · have hw := ih.here w h0 ho
              rcases step_stays hi.sched ha h1 hack hw with h5 | h5 | h5 | h5
              · exact .inl (hplace w h5)
              · exact .inr h5.2
              · exact absurd h5 hb
              · have := hk t w ht hw
                change s'.sched.wm.alive.has w = true at this
                change s'.sched.wm.alive.has w = false at h5
                rw [h5] at this; cases this
            · exact .inr ⟨x, st, d, r, List.mem_append_left _ h0⟩
          rw [hR', hT] at ho
          by_cases h0 : s.sched.abs.tasks t = none
          · have := step_birth hi.sched ha h1 hack h0 hh
            have : sentTo s t w = 0 := weigh_no_task (fun w k hmem hkt => this w k hkt hmem) w
            omega
          · have hw := ih.here w (Option.isSome_iff_ne_none.2 h0) ho
            rcases step_stays hi.sched ha h1 hack hw with h5 | h5 | h5 | h5
            · exact h5
            · rw [h5.1] at hh; cases hh
            · exact absurd h5 hb
            · have := hk t w ht hw
              change s'.sched.wm.alive.has w = true at this
              change s'.sched.wm.alive.has w = false at h5
              rw [h5] at this; cases this

/-! ### Inside a worker -/

/-- What a worker gave to its processors and has not given back is what the scheduler sent. -/
theorem given_le (h : Inv p rt cfg s) {w : Bytes} {a : Worker.Agent} {ret : Int} {qs : List (Proc.Proc F)} {left : Option Bytes}
    (hx : s.peers w = .worker a ret qs left) (t : Bytes) : givenOut t a.log + backFrom s t w ≤ sentTo s t w := by
  obtain ⟨d, start, hr⟩ := h.worker hx
  have h1 : backFrom s t w ≤ Worker.returned t a.log := by
    rw [← weigh_back]
    refine weigh_le fun m hm => ?_
    rw [withPeer_count, sentBy_count]
    have := h.heard w m
    rw [hx] at this
    simp only [Peer.sent] at this
    split at this
    · next e =>
      cases left with
      | none => cases e
      | some id => cases e; exact absurd rfl hm
    · exact this
  have h2 : weigh (taskWeight t) (gotBy a.log) ≤ sentTo s t w := by
    refine weigh_le fun m _ => ?_
    rw [withPeer_count, gotBy_count]
    have := h.got w m
    rw [hx] at this
    exact this
  rw [weigh_got] at h2
  have := Props.C51_told hr t
  unfold givenOut
  omega

/-- A processor received a task no more often than the agent gave it to it. -/
theorem began_le (h : Inv p rt cfg s) {w : Bytes} {a : Worker.Agent} {ret : Int} {qs : List (Proc.Proc F)} {left : Option Bytes}
    (hx : s.peers w = .worker a ret qs left) {n : Nat} {q : Proc.Proc F} (hq : qs[n]? = some q) (t : Bytes) :
    began t q ≤ weigh (taskWeight t) (toldList n a.log) := by
  have hP := h.peer w
  rw [hx] at hP
  unfold began
  rw [← weigh_taken]
  refine weigh_le fun m _ => ?_
  rw [takenList_count, toldList_count]
  exact (hP.2.2.1 n q hq).2 m

end Verif.System
