import Verif.Sched.AbsInv

/-!
# What the small operations of the managers do to the state
-/

namespace Verif

theorem Dict.pop_of_get? {κ ν : Type} [DecidableEq κ] {d : Dict κ ν} {k : κ} {v : ν} (h : d.get? k = some v) :
    d.pop k = .ok (v, d.erase k) := Dict.pop_ok.2 ⟨h, rfl⟩

theorem PySet.remove_of_mem {α : Type} [DecidableEq α] {s : PySet α} {a : α} (h : a ∈ s) :
    s.remove a = .ok (s.discard a) := PySet.remove_ok.2 ⟨h, rfl⟩

end Verif

namespace Verif.Sched

open Verif.Queue Verif.Util Verif.Wire

/-- Growing the history keeps everything. -/
theorem HasResult.mono {h h' : History} (hh : ∀ m ∈ h, m ∈ h') {t r : Bytes} (x : HasResult h t r) : HasResult h' t r :=
  let ⟨w, d, hm⟩ := x
  ⟨w, d, hh _ hm⟩

theorem ArgsOK.mono {h h' : History} (hh : ∀ m ∈ h, m ∈ h') {l l' : List Argument} (x : ArgsOK h l l') : ArgsOK h' l l' := by
  induction x with
  | nil => exact .nil
  | cons ha _ ih =>
    refine .cons ?_ ih
    unfold ArgOK at ha ⊢
    split
    · next e => simpa [e] using ha
    · next e => simp only [e] at ha; exact ⟨ha.1, ha.2.mono hh⟩

theorem Origin.mono {h h' : History} (hh : ∀ m ∈ h, m ∈ h') {k : Task} (x : Origin h k) : Origin h' k := by
  rcases x with ⟨c, hc⟩ | ⟨c, gt, T, h1, h2, h3, h4, h5⟩
  · exact Or.inl ⟨c, hh _ hc⟩
  · exact Or.inr ⟨c, gt, T, hh _ h1, h2, h3, h4, h5.mono hh⟩

theorem Stopped.mono {h h' : History} (hh : ∀ m ∈ h, m ∈ h') {t : Bytes} {st : TaskStatus} {r : Bytes} (x : Stopped h t st r) : Stopped h' t st r :=
  x.imp (fun ⟨w, d, hw⟩ => ⟨w, d, hh _ hw⟩) fun ⟨h1, h2, c, hc⟩ => ⟨h1, h2, c, hh _ hc⟩

theorem NodeOK.hist {h h' : History} (hh : ∀ m ∈ h, m ∈ h') {g : Graph} {T : Task} {i : NodeInfo} (x : NodeOK h g T i) :
    NodeOK h' g T i := by
  obtain ⟨h1, h2, h3⟩ := x
  refine ⟨h1, h2, ?_⟩
  cases e : i.state <;> simp only [e] at h3 ⊢
  · exact h3
  · exact ⟨h3.1, h3.2.1, h3.2.2.mono hh⟩
  · obtain ⟨h4, r, h5, h6⟩ := h3
    exact ⟨h4, r, h5, h6.mono hh⟩
  · obtain ⟨h4, r, h5, h6⟩ := h3
    exact ⟨h4, r, h5, h6.mono hh⟩
  · obtain ⟨h4, h5, r, h6, h7⟩ := h3
    exact ⟨h4, h5.mono hh, r, h6, h7.mono hh⟩

theorem GraphOK.mono {h h' : History} (hh : ∀ m ∈ h, m ∈ h') {gid : Bytes} {gt : GraphTask} {g : Graph}
    (x : GraphOK h gid gt g) : GraphOK h' gid gt g :=
  { x with
    src := hh _ x.src
    node := fun t i ht => let ⟨T, h1, h2, h3⟩ := x.node t i ht; ⟨T, h1, h2, h3.hist hh⟩ }

theorem Inv.mono {h h' : History} (hh : ∀ m ∈ h, m ∈ h') {a : Abs} (x : Inv h a) : Inv h' a :=
  { x with
    graphs := fun gid g hg => let ⟨gt, h1⟩ := x.graphs gid g hg; ⟨gt, h1.mono hh⟩
    queue := fun c gt hm => ⟨hh _ (x.queue c gt hm).1, (x.queue c gt hm).2⟩
    origin := fun t k ht => (x.origin t k ht).mono hh
    sent := fun w k hk => (x.sent w k hk).mono hh }

namespace Sched

variable {s : Sched}

@[simp] theorem send_abs (s : Sched) (to : Bytes) (m : Message) :
    (s.send to m).abs = { s.abs with out := s.abs.out ++ [(to, m)] } := rfl

@[simp] theorem monitor_abs (s : Sched) (m : Message) : (s.monitor m).abs = { s.abs with mon := s.abs.mon ++ [m] } := rfl

section
variable (s : Sched) (to : Bytes) (m : Message)
@[simp] theorem send_cfg : (s.send to m).cfg = s.cfg := rfl
@[simp] theorem send_clients : (s.send to m).clients = s.clients := rfl
@[simp] theorem send_fm : (s.send to m).fm = s.fm := rfl
@[simp] theorem send_tm : (s.send to m).tm = s.tm := rfl
@[simp] theorem send_wm : (s.send to m).wm = s.wm := rfl
@[simp] theorem send_gm : (s.send to m).gm = s.gm := rfl
@[simp] theorem send_out : (s.send to m).out = s.out ++ [(to, m)] := rfl
@[simp] theorem send_mon : (s.send to m).mon = s.mon := rfl
@[simp] theorem monitor_cfg : (s.monitor m).cfg = s.cfg := rfl
@[simp] theorem monitor_clients : (s.monitor m).clients = s.clients := rfl
@[simp] theorem monitor_fm : (s.monitor m).fm = s.fm := rfl
@[simp] theorem monitor_tm : (s.monitor m).tm = s.tm := rfl
@[simp] theorem monitor_wm : (s.monitor m).wm = s.wm := rfl
@[simp] theorem monitor_gm : (s.monitor m).gm = s.gm := rfl
@[simp] theorem monitor_out : (s.monitor m).out = s.out := rfl
end

theorem _root_.Verif.Sched.Conc.send (hc : Conc s) (to : Bytes) (m : Message) : Conc (s.send to m) :=
  ⟨hc.alloc, hc.max, hc.queue, hc.uses, hc.clients, hc.running, hc.alive⟩

theorem _root_.Verif.Sched.Conc.monitor (hc : Conc s) (m : Message) : Conc (s.monitor m) :=
  ⟨hc.alloc, hc.max, hc.queue, hc.uses, hc.clients, hc.running, hc.alive⟩

theorem sendMonitor_ok {tid : Bytes} {st : TaskStatus} {k : Task} {i : FuncInfo}
    (hk : s.tm.tasks.get? tid = some k) (hi : s.fm.funcs.get? k.functionId = some i) :
    s.sendMonitor tid st = .ok (s.monitor (.taskState tid i.name st)) := by
  simp [sendMonitor, Dict.getPy_of_get? hk, functionName, Dict.getPy_of_get? hi]

theorem useFunction_ok (hc : s.fm.uses.WF) {tid fid : Bytes} {now : Int} {i : FuncInfo}
    (hi : s.fm.funcs.get? fid = some i) (hu : s.fm.uses.v2k.get? tid = none ∨ s.fm.uses.v2k.get? tid = some fid) :
    ∃ uses, s.useFunction tid fid now =
        .ok { s with fm := ⟨s.fm.funcs.set fid { i with aliveSince := now }, uses⟩ } ∧ uses.WF ∧
      uses.v2k.get? = upd s.fm.uses.v2k.get? tid (some fid) := by
  obtain ⟨uses, h1, h2, h3⟩ := OneToMany.add_ok hc hu
  exact ⟨uses, by simp [useFunction, Dict.getPy_of_get? hi, h1], h2, funext fun x => by simp [h3]⟩

theorem doneFunction_ok (hc : s.fm.uses.WF) {tid f : Bytes} (hu : s.fm.uses.v2k.get? tid = some f) :
    ∃ uses, s.doneFunction tid = .ok { s with fm := { s.fm with uses } } ∧ uses.WF ∧
      uses.v2k.get? = upd s.fm.uses.v2k.get? tid none := by
  obtain ⟨uses, h1, h2, h3⟩ := OneToMany.removeValue_ok hc hu
  exact ⟨uses, by simp [doneFunction, h1], h2, funext fun x => by simp [h3]⟩

theorem clientNew_ok (hc : s.clients.WF) {c tid : Bytes} (hu : s.clients.v2k.get? tid = none) :
    ∃ clients, s.clientNew c tid = .ok { s with clients } ∧ clients.WF ∧
      clients.v2k.get? = upd s.clients.v2k.get? tid (some c) := by
  obtain ⟨clients, h1, h2, h3⟩ := OneToMany.add_ok (k := c) hc (Or.inl hu)
  exact ⟨clients, by simp [clientNew, h1], h2, funext fun x => by simp [h3]⟩

theorem clientDone_ok (hc : s.clients.WF) {c tid : Bytes} (hu : s.clients.v2k.get? tid = some c) :
    ∃ clients, s.clientDone tid = .ok (c, { s with clients }) ∧ clients.WF ∧
      clients.v2k.get? = upd s.clients.v2k.get? tid none := by
  obtain ⟨clients, h1, h2, h3⟩ := OneToMany.removeValue_ok hc hu
  exact ⟨clients, by simp [clientDone, h1], h2, funext fun x => by simp [h3]⟩

theorem clientDone_err {tid : Bytes} (hu : s.clients.v2k.get? tid = none) : s.clientDone tid = .error .valueError := by
  simp [clientDone, OneToMany.removeValue_err hu]

/-- Some worker can take a task, as the allocator sees it. -/
def Avail (s : Sched) : Prop := ∃ w p, s.wm.alloc.queue.prio w = some p ∧ p < s.cfg.queueSize

theorem hasAvailableWorker_ok (hc : Conc s) : ∃ b alloc, s.hasAvailableWorker =
    .ok (b, { s with wm := { s.wm with alloc } }) ∧ alloc.Inv ∧ alloc.max = s.wm.alloc.max ∧
      alloc.w2t = s.wm.alloc.w2t ∧ alloc.t2w = s.wm.alloc.t2w ∧ (0 ≤ s.cfg.queueSize → (b = true ↔ s.Avail)) ∧
      ∀ w, alloc.queue.prio w = s.wm.alloc.queue.prio w := by
  by_cases hw : ∀ w, s.wm.alloc.w2t.get? w = none
  · refine ⟨false, s.wm.alloc, ?_, hc.alloc, rfl, rfl, rfl, ?_, fun _ => rfl⟩
    · simp [hasAvailableWorker, Alloc.hasAvailable_none hc.alloc hw]
    · intro _
      simp only [Bool.false_eq_true, false_iff]
      rintro ⟨w, p, hp, _⟩
      rw [(hc.alloc.prio_none).2 (hw w)] at hp; cases hp
  · simp only [Classical.not_forall] at hw
    obtain ⟨w0, hw0⟩ := hw
    obtain ⟨s0, hs0⟩ := Option.ne_none_iff_exists'.1 hw0
    obtain ⟨p, w, alloc, h1, h2, h3, h4, h5, h6, h7, h8, _⟩ := Alloc.hasAvailable_some hc.alloc hs0
    refine ⟨_, alloc, by simp only [hasAvailableWorker, h1]; rfl, h2, h3, h4, h5, ?_, h8⟩
    intro hq
    rw [decide_eq_true_iff, ← hc.max] at *
    have hcap := hc.alloc.cap hq
    constructor
    · intro hne
      refine ⟨w, p, h6, ?_⟩
      have := hcap w p h6
      rw [← hc.max]; omega
    · rintro ⟨w', p', h9, h10⟩
      have := h7 w' p' h9
      rw [← hc.max] at h10; omega

/-- `on_task_new` for a task the scheduler does not hold. -/
theorem onTaskNew_spec (hc : Conc s) {client : Bytes} {k : Task} {now : Int}
    (ht : s.tm.tasks.get? k.taskId = none) (ho : s.clients.v2k.get? k.taskId = none)
    (hu : s.fm.uses.v2k.get? k.taskId = none ∨ s.fm.uses.v2k.get? k.taskId = some k.functionId)
    (hw : k.taskId ∉ s.tm.unassigned.contents) :
    ∃ s', s.onTaskNew client k now = .ok s' ∧ Conc s' ∧
      (s'.cfg = s.cfg ∧ ∀ w, s'.wm.alloc.queue.prio w = s.wm.alloc.queue.prio w) ∧
      ((s.fm.funcs.get? k.functionId = none ∧
          s'.abs = { s.abs with out := s.abs.out ++ [(client, .taskEcho k.taskId .functionNotExists)] }) ∨
       (∃ i, s.fm.funcs.get? k.functionId = some i ∧
          ((0 ≤ s.cfg.queueSize → ¬ s.Avail) ∧ 0 ≤ s.cfg.maxWaiting ∧ s.cfg.maxWaiting ≤ s.abs.waiting.length) ∧
          s'.abs = { s.abs with out := s.abs.out ++ [(client, .taskEcho k.taskId .noWorker)] }) ∨
       (∃ i, s.fm.funcs.get? k.functionId = some i ∧
          (s.cfg.maxWaiting < 0 ∨ (s.abs.waiting.length : Int) < s.cfg.maxWaiting ∨ (0 ≤ s.cfg.queueSize → s.Avail)) ∧
          s'.abs = ({ s.abs with funcs := upd s.abs.funcs k.functionId (some { i with aliveSince := now }) } : Abs).accept
            client k)) := by
  unfold onTaskNew
  cases hf : s.fm.funcs.get? k.functionId with
  | none =>
    have : s.hasFunction k.functionId = false := by simp [hasFunction, Dict.has, hf]
    simp only [this, Bool.not_false, if_true]
    exact ⟨_, rfl, hc.send _ _, ⟨rfl, fun _ => rfl⟩, Or.inl ⟨trivial, rfl⟩⟩
  | some i =>
    have : s.hasFunction k.functionId = true := by simp [hasFunction, Dict.has, hf]
    simp only [this, Bool.not_true, Bool.false_eq_true, if_false]
    obtain ⟨b, alloc, h1, h2, h3, h4, h5, h6, h7⟩ := hasAvailableWorker_ok hc
    rw [h1]
    simp only [Py.ok_bind]
    have hc1 : Conc { s with wm := { s.wm with alloc } } :=
      ⟨h2, h3.trans hc.max, hc.queue, hc.uses, hc.clients, by simpa [h5] using hc.running, by simpa [h4] using hc.alive⟩
    have ha1 : ({ s with wm := { s.wm with alloc } } : Sched).abs = s.abs := by simp [Sched.abs, h5]
    have hlen : (s.tm.unassigned.len : Int) = s.abs.waiting.length := by rw [hc.queue.len]; rfl
    split
    · next hcond =>
      simp only [Bool.and_eq_true, Bool.not_eq_true', decide_eq_true_eq] at hcond
      refine ⟨_, rfl, hc1.send _ _, ⟨rfl, h7⟩, Or.inr (Or.inl ⟨i, rfl, ⟨?_, hcond.2.1, by rw [← hlen]; exact hcond.2.2⟩, ?_⟩)⟩
      · intro hq hav
        rw [(h6 hq).2 hav] at hcond
        cases hcond.1
      · rw [send_abs, ha1]
    · next hcond =>
      simp only [Bool.and_eq_true, Bool.not_eq_true', decide_eq_true_eq, not_and] at hcond
      have hwhy : s.cfg.maxWaiting < 0 ∨ (s.abs.waiting.length : Int) < s.cfg.maxWaiting ∨ (0 ≤ s.cfg.queueSize → s.Avail) := by
        cases b with
        | true => exact Or.inr (Or.inr fun hq => (h6 hq).1 rfl)
        | false =>
          have := hcond rfl
          rw [hlen] at this
          omega
      clear hcond
      have hc2 := hc1.send client (.taskEcho k.taskId .submitOK)
      obtain ⟨uses, e1, hU, hU'⟩ := useFunction_ok (s := ({ s with wm := { s.wm with alloc } } : Sched).send client (.taskEcho k.taskId .submitOK))
        (tid := k.taskId) (fid := k.functionId) (now := now) (i := i) hc.uses hf hu
      rw [e1]
      simp only [Py.ok_bind]
      obtain ⟨clients, e2, hC, hC'⟩ := clientNew_ok (s := { ({ s with wm := { s.wm with alloc } } : Sched).send client (.taskEcho k.taskId .submitOK) with
        fm := ⟨s.fm.funcs.set k.functionId { i with aliveSince := now }, uses⟩ }) (c := client) (tid := k.taskId) hc.clients ho
      rw [show (({ s with wm := { s.wm with alloc } } : Sched).send client (.taskEcho k.taskId .submitOK)).fm = s.fm from rfl, e2]
      simp only [Py.ok_bind]
      obtain ⟨q, e3, hQ, hQ'⟩ := hc.queue.put_new (a := k.taskId) (by simpa using hw)
      rw [show (({ s with wm := { s.wm with alloc } } : Sched).send client (.taskEcho k.taskId .submitOK)).tm = s.tm from rfl, e3]
      simp only [Py.ok_bind]
      rw [sendMonitor_ok (k := k) (i := { i with aliveSince := now }) (by simp) (by simp)]
      refine ⟨_, rfl, Conc.monitor ⟨h2, h3.trans hc.max, hQ, hU, hC, by simpa [h5] using hc.running, by simpa [h4] using hc.alive⟩ _,
        ⟨rfl, h7⟩, Or.inr (Or.inr ⟨i, rfl, hwhy, ?_⟩)⟩
      rw [monitor_abs]
      simp only [Sched.abs, Abs.accept, hU', hC', hQ', Dict.get?_set_upd, Dict.size_set_new k ht]
      simp [h5]

end Sched

end Verif.Sched
