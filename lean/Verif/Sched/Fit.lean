import Verif.Sched.Peers

/-!
# Every message of the scheduler has a wire form

Lemmas.  The scheduler never sends a heartbeat, a graph or a balance response, and it asks a worker for at least one and
at most `per_worker_queue_size` tasks.
-/

namespace Verif.Sched

open Verif.Wire Verif.Spec

/-- What the scheduler says; `cap` is `per_worker_queue_size`. -/
def Fit (cap : Int) : Message → Prop
  | .balanceRequest n => 0 < n ∧ (0 ≤ cap → n ≤ cap)
  | .balanceResponse _ => False
  | .heartbeat _ => False
  | .graphTask _ => False
  | _ => True

/-- Everything said so far. -/
structure Fits (cap : Int) (a : Abs) : Prop where
  size : a.cap = cap
  out : ∀ c m, (c, m) ∈ a.out → Fit cap m

theorem Fits.add {cap : Int} {a b : Abs} {l : List (Bytes × Message)} (x : Fits cap a) (hc : b.cap = a.cap) (ho : b.out = a.out ++ l)
    (hl : ∀ c m, (c, m) ∈ l → Fit cap m) : Fits cap b := by
  refine ⟨hc.trans x.size, fun c m hm => ?_⟩
  rw [ho] at hm
  rcases List.mem_append.1 hm with hm | hm
  · exact x.out c m hm
  · exact hl c m hm

theorem AStep.fits {h : History} {a b : Abs} {cap : Int} (st : AStep h a b) (x : Fits cap a) : Fits cap b := by
  cases st with
  | say c m hm =>
    refine x.add (l := [(c, m)]) rfl rfl ?_
    intro c' m' hm'
    cases List.mem_singleton.1 hm'
    cases m <;> simp only [Talk] at hm <;> simp only [Fit]
    case balanceRequest n =>
      obtain ⟨-, h0, ts, -, -, h1, h2⟩ := hm
      refine ⟨h0, fun hc => ?_⟩
      rw [x.size] at h2
      exact Int.le_trans h1 (h2 hc)
  | halt t w hw => exact x.add rfl rfl (by intro c m hm; cases List.mem_singleton.1 hm; trivial)
  | func => exact ⟨x.size, x.out⟩
  | drop => exact ⟨x.size, x.out⟩
  | refuse => exact x.add rfl rfl (by intro c m hm; cases List.mem_singleton.1 hm; trivial)
  | accept => exact x.add rfl rfl (by intro c m hm; cases List.mem_singleton.1 hm; trivial)
  | up => exact ⟨x.size, x.out⟩
  | requeue => exact ⟨x.size, x.out⟩
  | queueGraph => exact ⟨x.size, x.out⟩
  | take => exact ⟨x.size, x.out⟩
  | putBack => exact ⟨x.size, x.out⟩
  | place => exact x.add rfl rfl (by intro c m hm; cases List.mem_singleton.1 hm; trivial)
  | answer r => 
    refine x.add (a := a) (l := [(_, r.msg)]) ?_ rfl (by intro c m hm; cases List.mem_singleton.1 hm; trivial)
    cases hr : r.status <;> simp [Abs.retire, Abs.count]
  | nodeDone r =>
    refine x.add (a := a) (l := []) ?_ ?_ (by simp) <;> cases hr : r.status <;> simp [Abs.retire, Abs.count]
  | unpack => exact x.add (l := []) rfl (by simp [Abs.unpack]) (by simp)
  | getReady => exact ⟨x.size, x.out⟩
  | launch => exact x.add rfl rfl (by intro c m hm; cases List.mem_singleton.1 hm; trivial)
  | reject => exact x.add rfl rfl (by intro c m hm; cases List.mem_singleton.1 hm; trivial)
  | clean gid g ids ans hg hids hnodup hw ha he =>
    refine x.add rfl rfl ?_
    intro c m hm
    rcases List.mem_append.1 hm with hm | hm
    · obtain ⟨t, -, ht⟩ := List.mem_filterMap.1 hm
      split at ht
      · split at ht
        · cases hw' : a.worker t with
          | none => rw [hw'] at ht; cases ht
          | some w => rw [hw'] at ht; cases ht; trivial
        · cases ht
      · cases ht
    · cases ha with
      | none => cases hm
      | success => cases List.mem_singleton.1 hm; trivial
      | failed => cases List.mem_singleton.1 hm; trivial

theorem Reach.fits {cfg : Config} {l : Log} {s : Sched} (hr : Reach cfg l s) : Fits cfg.queueSize s.abs := by
  induction hr with
  | init => exact ⟨rfl, nofun⟩
  | @step l s s' e hr ha hs ih =>
    have hA : Sched.After (e.hist l) s s' := (step_post hr.good e ha).ok hs
    exact hA.steps.lift (P := Fits cfg.queueSize) (fun a b st _ hp => st.fits hp) (hr.good.inv.mono (e.hist_mem l)) ih

end Verif.Sched
