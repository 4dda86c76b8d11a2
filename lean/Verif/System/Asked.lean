import Verif.System.Inside

/-!
# A processor that waits for a function has asked for it

In every state of a system the question of such a processor, or its answer, is under way.
-/

namespace Verif.System

open Verif.Wire Verif.Sched Verif.Spec
open Verif.Client (Pickle)
open Verif.Spec.Worker (Hist current busy)

variable {F V X : Type} {p : Pickle} {rt : Proc.Runtime F V X} {cfg : Config} {s s' : Sys F}

theorem clean_quiet (q : Proc.Proc F) (now : Int) : (q.clean now).task = q.task ∧ (q.clean now).main = q.main ∧
    ∃ ys, (q.clean now).log = q.log ++ ys ∧ ∀ y ∈ ys, ∀ m, y.2 ≠ Proc.Act.recv m := by
  unfold Proc.Proc.clean
  split
  · exact ⟨rfl, rfl, [(now, .scan)], rfl, by simp⟩
  · exact ⟨rfl, rfl, [], by simp, by simp⟩
  · exact ⟨rfl, rfl, [], by simp, by simp⟩
  · next fid ids hc =>
    by_cases hf : q.functions.has fid = true
    · refine ⟨by simp [hf, Proc.Proc.note], by simp [hf, Proc.Proc.note], [(now, .evicted fid)], by simp [hf, Proc.Proc.note], by simp⟩
    · exact ⟨by simp [hf], by simp [hf], [], by simp [hf], by simp⟩

/-- What a step of a processor does to its wait for a function. -/
theorem proc_asks {q q' : Proc.Proc F} {e : Proc.Event} (h : q.step rt e = .ok q') {k : Task} (hk : q'.task = some k)
    (hm : ∀ f, q'.main ≠ .added f) :
    (q.task = some k ∧ (∀ f, q.main ≠ .added f) ∧ ∀ st f nm c, taken (.functionResponse st f nm c) q' = taken (.functionResponse st f nm c) q) ∨
    (q'.log.countP fun x => decide (x.2 = .sent (.functionRequest .request k.functionId [] []))) =
      (q.log.countP fun x => decide (x.2 = .sent (.functionRequest .request k.functionId [] []))) + 1 := by
  have quiet : ∀ {q' : Proc.Proc F} {ys : List (Int × Proc.Act)}, q'.log = q.log ++ ys →
      (∀ y ∈ ys, ∀ st f nm c, y.2 ≠ .recv (.functionResponse st f nm c)) →
      ∀ st f nm c, taken (.functionResponse st f nm c) q' = taken (.functionResponse st f nm c) q := by
    intro q' ys h1 h2 st f nm c
    have : (ys.countP fun y => decide (y.2 = .recv (.functionResponse st f nm c))) = 0 := by
      refine List.countP_eq_zero.2 fun y hy => ?_
      have := h2 y hy st f nm c
      simpa using this
    unfold taken
    rw [h1, List.countP_append, this]
    rfl
  obtain ⟨op, now⟩ := e
  cases op with
  | clean =>
    simp only [Proc.Proc.step] at h
    cases h
    obtain ⟨h1, h2, ys, h3, h4⟩ := clean_quiet q now
    rw [h1] at hk
    rw [h2] at hm
    exact .inl ⟨hk, hm, quiet h3 fun y hy _ _ _ _ => h4 y hy _⟩
  | recv m =>
    simp only [Proc.Proc.step] at h
    split at h
    · next hidle =>
      have hnot : ∀ f, q.main ≠ .added f := by intro f e; rw [hidle] at e; cases e
      unfold Proc.Proc.receive at h
      split at h
      · next ty fid nm c =>
        cases h
        refine .inl ?_
        by_cases hty : ty = .delete
        · simp only [Proc.Proc.onFunctionRequest, hty, if_true] at hk ⊢
          exact ⟨hk, hnot, quiet (ys := [(now, .recv (.functionRequest .delete fid nm c))]) rfl (by simp)⟩
        · simp only [Proc.Proc.onFunctionRequest, hty, if_false] at hk ⊢
          exact ⟨hk, hnot, quiet (ys := [(now, .recv (.functionRequest ty fid nm c))]) rfl (by simp)⟩
      · next k' =>
        cases h
        cases hf : q.functions.get? k'.functionId with
        | some f =>
          simp only [Proc.Proc.onTask, Proc.Proc.note, hf] at hk ⊢
          refine .inl ⟨hk, hnot, quiet (ys := [(now, .recv (.task k')), (now, .used k'.functionId)]) ?_ (by simp)⟩
          simp
        | none =>
          simp only [Proc.Proc.onTask, Proc.Proc.note, hf] at hk ⊢
          cases hk
          refine .inr ?_
          simp [List.countP_append]
      · next st fid nm c =>
        simp only at h
        split at h
        · next q1 h1 =>
          cases h
          unfold Proc.Proc.onFunctionResponse at h1
          split at h1
          · cases h1
            exact absurd rfl (hm fid)
          · cases h1
        · cases h
      · next h1 h2 h3 =>
        cases h
        refine .inl ⟨hk, hnot, quiet (ys := [(now, .recv m)]) rfl ?_⟩
        intro y hy st f nm c e
        rw [List.mem_singleton.1 hy] at e
        cases e
        exact h3 _ _ _ _ rfl
    · cases h
      exact .inl ⟨hk, hm, fun _ _ _ _ => rfl⟩
  | work c dur =>
    simp only [Proc.Proc.step] at h
    unfold Proc.Proc.work at h
    split at h
    · cases h
      exact .inl ⟨hk, hm, fun _ _ _ _ => rfl⟩
    · next k' hm' =>
      cases h
      exact .inl ⟨hk, by simp [hm'], quiet (ys := [(now, .stamped k'.functionId)]) rfl (by simp)⟩
    · next k' hm' =>
      split at h
      · cases h
        exact .inl ⟨hk, by simp [hm'], quiet (ys := [(now, .used k'.functionId)]) rfl (by simp)⟩
      · cases h
        exact .inl ⟨hk, by simp [hm'], fun _ _ _ _ => rfl⟩
    · next k' f hm' =>
      cases h
      exact .inl ⟨hk, by simp [hm'], quiet (ys := [(now, .stamped k'.functionId)]) rfl (by simp)⟩
    · next k' f hm' =>
      unfold Proc.Proc.answer at h
      split at h
      · next r _ =>
        cases h
        exact .inl ⟨hk, by simp [hm'], quiet (ys := [(now, .sent (.taskResult k'.taskId .success dur r))]) rfl (by simp)⟩
      · split at h
        · next r _ =>
          cases h
          exact .inl ⟨hk, by simp [hm'], quiet (ys := [(now, .sent (.taskResult k'.taskId .failed dur r))]) rfl (by simp)⟩
        · cases h
    · next fid hm' =>
      split at h
      · next k' hk' =>
        cases h
        cases hk
      · cases h
    · next fid hm' =>
      cases h
      exact .inl ⟨hk, by simp [hm'], fun _ _ _ _ => rfl⟩

/-- What the agent with a task does with a question of its processor about the function of that task. -/
theorem agent_asks {a a' : Worker.Agent} {k : Task} (hk : a.task = some k) (hi : a.initialized = true) {now : Int}
    (hs : a.step ⟨.heard (.functionRequest .request k.functionId [] []), now⟩ = .ok a') :
    a'.log = a.log ++ [(now, .heard (.functionRequest .request k.functionId [] [])), (now, .sent (.functionRequest .request k.functionId [] []))] := by
  simp [Worker.Agent.step, Worker.Agent.receiveInternal, Worker.Agent.onInternalFunctionRequest, Worker.Agent.note, hi, hk, Worker.Agent.send,
    pyAssert, Py.ok_bind] at hs
  rw [← hs]

/-- What the agent with a task does with an answer about the function of that task. -/
theorem agent_tells {a a' : Worker.Agent} {k : Task} (hk : a.task = some k) (hi : a.initialized = true) {n : Nat} (hn : a.processor = some n) {now : Int}
    {st : FunctionResponseType} {nm c : Bytes} (hst : st ≠ .notExists)
    (hs : a.step ⟨.recv (.functionResponse st k.functionId nm c), now⟩ = .ok a') :
    a'.log = a.log ++ [(now, .recv (.functionResponse st k.functionId nm c)), (now, .told n (.functionResponse st k.functionId nm c))] := by
  simp [Worker.Agent.step, Worker.Agent.receive, Worker.Agent.onFunctionResponse, Worker.Agent.note, hi, hk, Worker.Agent.tell, orRaise,
    hn, hst, Py.ok_bind] at hs
  rw [← hs]

/-- The scheduler answers each question about a function. -/
theorem sched_answers {sc sc' : Sched.Sched} {e : Sched.Event} (hs : sc.step e = .ok sc') {w f : Bytes}
    (he : e.op = .recv w (.functionRequest .request f [] [])) : ∃ st nm c, sc'.out = sc.out ++ [(w, .functionResponse st f nm c)] := by
  simp only [Sched.step, he, Sched.Sched.receive, Sched.Sched.onFunction, Except.ok.injEq] at hs
  subst hs
  unfold Sched.Sched.functionRequest
  split
  · exact ⟨_, _, _, rfl⟩
  · exact ⟨_, _, _, rfl⟩

variable {w : Bytes} {a : Worker.Agent} {qs : List (Proc.Proc F)} {n : Nat} {q : Proc.Proc F} {f : Bytes}

/-- What only the scheduler changes. -/
theorem asked_sched (h : Inquired s w a qs n q f) (hg : ∀ m, (s.peers w).got m ≤ s.sched.out.count (w, m)) {e : Sched.Event}
    (hs : s.sched.step e = .ok s'.sched) (hr : s'.received = s.received ++ e.input) (hp : s'.peers = s.peers) (hout : ∃ l, s'.sched.out = s.sched.out ++ l) :
    Inquired s' w a qs n q f := by
  rcases h with h | h | ⟨st, nm, c, h⟩ | ⟨st, nm, c, h⟩ | ⟨nm, c, h⟩
  · exact .asking h
  · by_cases he : e.op = .recv w (.functionRequest .request f [] [])
    · obtain ⟨st, nm, c, h'⟩ := sched_answers hs he
      refine .answered st nm c ?_
      have := hg (.functionResponse st f nm c)
      rw [h', hp, List.count_append]
      simp only [List.count_singleton_self]
      omega
    · refine .sent ?_
      rw [hr, hp, List.count_append]
      have : e.input.count (w, .functionRequest .request f [] []) = 0 := by
        refine List.count_eq_zero.2 fun hm => he ?_
        unfold Sched.Event.input at hm
        split at hm
        · next x m hx =>
          rw [List.mem_singleton] at hm
          cases hm
          exact hx
        · cases hm
      omega
  · obtain ⟨l, hl⟩ := hout
    refine .answered st nm c ?_
    rw [hl, hp, List.count_append]
    omega
  · exact .told st nm c h
  · exact .refused nm c (by rw [hp]; exact h)

/-- A processor that waits for a function has asked for it. -/
def Waits (s : Sys F) (w : Bytes) (a : Worker.Agent) (qs : List (Proc.Proc F)) : Prop :=
  ∀ (n : Nat) q k, a.processor = some n → qs[n]? = some q → q.task = some k → (∀ f, q.main ≠ .added f) → Inquired s w a qs n q k.functionId

theorem out_grows (hr : Reach p rt cfg s) {sc : Sched.Sched} {e : Sched.Event} (hs : s.sched.step e = .ok sc)
    (hin : ∀ x m, e.op = .recv x m → s.received.count (x, m) < (s.peers x).sent m) :
    ∃ l, sc.out = s.sched.out ++ l := by
  have h := hr.inv
  have ha : ∀ m ∈ e.input, Allowed s.received s.sched.out m := by
    intro m hm
    unfold Sched.Event.input at hm
    split at hm
    · next x m' hx =>
      rw [List.mem_singleton.1 hm]
      exact h.allowed (hin x m' hx)
    · cases hm
  exact (Later.step e .now ha hs).out_append h.sched

theorem Waits.agent {d start ret : Int} {a' : Worker.Agent} (hr : Worker.Reach d start a) {e : Worker.Agent.Event} (hs : a.step e = .ok a')
    (hlen : qs.length = a.procs) (hx : s.peers w = .worker a ret qs none) (hx' : s'.peers w = .worker a' ret (extend ret e.now qs a'.procs) none)
    (hsch : s'.sched = s.sched) (hrec : s'.received = s.received) (hin : Inside a.log qs) (h : Waits s w a qs)
    (hw : Wired rt a.log qs) (hgot : ∀ m, s.received.count (w, m) ≤ (s.peers w).sent m) :
    Waits s' w a' (extend ret e.now qs a'.procs) := by
  intro n q k hn hq hk hm
  have hr' := hr.step e hs
  obtain ⟨-, hprocs, ys, hlog, hys, -⟩ := Worker.step_flows hr.flow hs
  have hn' := hr'.good.inv.procs n hn
  have hq' : qs[n]? = some q := by
    unfold extend at hq
    rw [List.getElem?_append] at hq
    split at hq
    · exact hq
    · have hmem := List.mem_of_getElem? hq
      rw [List.mem_replicate] at hmem
      rw [hmem.2] at hk
      cases hk
  have hlt := (List.getElem?_eq_some_iff.1 hq').1
  have hna : a.processor = some n := by
    have h1 := hr.good.inv.proc
    cases h2 : a.processor with
    | none => rw [h2] at h1; cases h1
    | some j =>
      have := hr.good.inv.procs j h2
      congr 1
      omega
  have hbusy := hin.held n q k (hr.good.mt.current.trans hna) hq' (.inl hk)
  have hta : a.task = some k := hr.good.mt.busy.symm.trans hbusy
  have hini : a.initialized = true := hr.good.inv.init (by rw [hta]; rfl)
  have hsent : ∀ m, procsSent m qs ≤ procsSent m (extend ret e.now qs a'.procs) := fun m => by
    unfold extend; exact procsSent_left m _ _
  have hgrow : ∃ zs, a'.log = a.log ++ zs := ⟨e.input ++ ys, by rw [hlog, List.append_assoc]⟩
  have hold : ∀ m, (s.peers w).sent m = (a.log.countP fun x => decide (x.2 = .sent m)) := by
    intro m; rw [hx]; simp [Peer.sent]
  have hnew : ∀ m, (s'.peers w).sent m = (a'.log.countP fun x => decide (x.2 = .sent m)) := by
    intro m; rw [hx']; simp [Peer.sent]
  have holdg : ∀ m, (s.peers w).got m = (a.log.countP fun x => decide (x.2 = .recv m)) := by
    intro m; rw [hx]; rfl
  have hnewg : ∀ m, (s'.peers w).got m = (a'.log.countP fun x => decide (x.2 = .recv m)) := by
    intro m; rw [hx']; rfl
  have hys0 : ∀ m, (ys.countP fun x => decide (x.2 = .recv m)) = 0 ∧ (ys.countP fun x => decide (x.2 = .heard m)) = 0 := by
    intro m
    constructor <;> refine List.countP_eq_zero.2 fun y hy => ?_
    · simpa using (hys y hy m).1
    · simpa using (hys y hy m).2
  rcases h n q k hna hq' hk hm with h | h | ⟨st, nm, c, h⟩ | ⟨st, nm, c, h⟩ | ⟨nm, c, h⟩
  · by_cases he : e.op = .heard (.functionRequest .request k.functionId [] [])
    · obtain ⟨op, now⟩ := e
      cases he
      have hl := agent_asks hta hini hs
      refine .sent ?_
      have := hgot (.functionRequest .request k.functionId [] [])
      rw [hold] at this
      rw [hnew, hrec, hl]
      simp only [List.countP_append] at *
      simp
      omega
    · refine .asking ?_
      have : heardOf (.functionRequest .request k.functionId [] []) a'.log = heardOf (.functionRequest .request k.functionId [] []) a.log := by
        unfold heardOf
        rw [hlog, List.countP_append, List.countP_append, (hys0 _).2]
        have : (e.input.countP fun x => decide (x.2 = .heard (.functionRequest .request k.functionId [] []))) = 0 := by
          refine List.countP_eq_zero.2 fun y hy => ?_
          unfold Worker.Agent.Event.input at hy
          split at hy
          · rw [List.mem_singleton.1 hy]; simp
          · next m hm => 
            rw [List.mem_singleton.1 hy]
            simp only [decide_eq_true_eq, Worker.Act.heard.injEq]
            rintro rfl
            exact he hm
          · cases hy
        omega
      rw [this]
      exact Nat.lt_of_lt_of_le h (hsent _)
  · refine .sent ?_
    obtain ⟨zs, hz⟩ := hgrow
    rw [hold] at h
    rw [hnew, hrec, hz, List.countP_append]
    omega
  · by_cases he : e.op = .recv (.functionResponse st k.functionId nm c)
    · obtain ⟨op, now⟩ := e
      cases he
      by_cases hst : st = .notExists
      · subst hst
        refine .refused nm c ?_
        rw [hnewg, hlog]
        simp only [Worker.Agent.Event.input, List.countP_append, List.countP_singleton]
        simp
        omega
      · have hl := agent_tells hta hini hna hst hs
        refine .told st nm c ?_
        have := hw.got n q hq' (.functionResponse st k.functionId nm c)
        unfold toldTo taken at *
        rw [hl]
        simp only [List.countP_append]
        simp
        omega
    · refine .answered st nm c ?_
      rw [hsch, hnewg]
      rw [holdg] at h
      rw [hlog, List.countP_append, List.countP_append, (hys0 _).1]
      have : (e.input.countP fun x => decide (x.2 = .recv (.functionResponse st k.functionId nm c))) = 0 := by
        refine List.countP_eq_zero.2 fun y hy => ?_
        unfold Worker.Agent.Event.input at hy
        split at hy
        · next m hm => 
          rw [List.mem_singleton.1 hy]
          simp only [decide_eq_true_eq, Worker.Act.recv.injEq]
          rintro rfl
          exact he hm
        · rw [List.mem_singleton.1 hy]; simp
        · cases hy
      omega
  · obtain ⟨zs, hz⟩ := hgrow
    refine .told st nm c ?_
    unfold toldTo at h ⊢
    rw [hz, List.countP_append]
    omega
  · obtain ⟨zs, hz⟩ := hgrow
    refine .refused nm c ?_
    rw [holdg] at h
    rw [hnewg, hz, List.countP_append]
    omega

theorem Waits.proc {q' : Proc.Proc F} {e : Proc.Event} (hn : a.processor = some n) (hq : qs[n]? = some q) (hs : q.step rt e = .ok q')
    (hx : ∀ m, (s'.peers w).sent m = (s.peers w).sent m ∧ (s'.peers w).got m = (s.peers w).got m) (hsch : s'.sched = s.sched)
    (hrec : s'.received = s.received) (h : Waits s w a qs) (hw : Wired rt a.log qs) : Waits s' w a (qs.set n q') := by
  intro n' q'' k hn' hq'' hk hm
  rw [hn] at hn'
  cases hn'
  have hset : (qs.set n q')[n]? = some q' := by
    rw [List.getElem?_set_self']
    simp [hq]
  rw [hset] at hq''
  cases hq''
  have hsent := fun m => procsSent_change m qs n q q' hq
  rcases proc_asks hs hk hm with ⟨h1, h2, h3⟩ | h1
  · have hmono : ∀ m, (q.log.countP fun x => decide (x.2 = .sent m)) ≤ q'.log.countP fun x => decide (x.2 = .sent m) := by
      intro m
      obtain ⟨zs, ys, hy, -⟩ := Proc.step_log hs
      rw [hy, List.countP_append, List.countP_append]
      omega
    rcases h n q k hn hq h1 h2 with h | h | ⟨st, nm, c, h⟩ | ⟨st, nm, c, h⟩ | ⟨nm, c, h⟩
    · refine .asking ?_
      have := hsent (.functionRequest .request k.functionId [] [])
      have := hmono (.functionRequest .request k.functionId [] [])
      omega
    · exact .sent (by rw [hrec, (hx _).1]; exact h)
    · exact .answered st nm c (by rw [hsch, (hx _).2]; exact h)
    · exact .told st nm c (by rw [h3]; exact h)
    · exact .refused nm c (by rw [(hx _).2]; exact h)
  · refine .asking ?_
    have := hsent (.functionRequest .request k.functionId [] [])
    have := hw.heard (.functionRequest .request k.functionId [] [])
    omega

/-- In every state of a system. -/
theorem Reach.waits (hr : Reach p rt cfg s) : ∀ {w : Bytes} {a : Worker.Agent} {ret : Int} {qs : List (Proc.Proc F)} {left : Option Bytes},
    s.peers w = .worker a ret qs left → ToldOnce a.log → Waits s w a qs := by
  induction hr with
  | init => intro w a ret qs left hx; cases hx
  | @step s s' o hr hs ih =>
    intro w a ret qs left hx ho
    have h := hr.inv
    rcases sched_moves hs with ⟨hsch, hrec⟩ | ⟨e, he, hrec, hpe, hin⟩
    · rcases step_worked hs hx with ⟨d, start, rfl, rfl, -⟩ | hx' | ⟨a₀, qs₀, e, hx', hs', rfl, rfl, hrecv, -⟩ | ⟨qs₀, n, q, q', e, hx', hn, hq, hs', rfl, rfl, hrecv⟩ | ⟨hx', rfl⟩
      · intro n q k hn hq hk hm
        have := List.mem_of_getElem? hq
        rw [List.mem_singleton.1 this] at hk
        cases hk
      · intro n q k hn hq hk hm
        have hp : s'.peers w = s.peers w := hx.trans hx'.symm
        rcases ih hx' ho n q k hn hq hk hm with h | h | ⟨st, nm, c, h⟩ | ⟨st, nm, c, h⟩ | ⟨nm, c, h⟩
        · exact .asking h
        · exact .sent (by rw [hrec, hp]; exact h)
        · exact .answered st nm c (by rw [hsch, hp]; exact h)
        · exact .told st nm c h
        · exact .refused nm c (by rw [hp]; exact h)
      · have hP := h.peer w
        rw [hx'] at hP
        obtain ⟨⟨d, st, hr₀⟩, hlen, -, -⟩ := hP
        have ho₀ : ToldOnce a₀.log := by
          obtain ⟨-, -, ys, hlog, -, -⟩ := Worker.step_flows hr₀.flow hs'
          rw [hlog, List.append_assoc] at ho
          exact ToldOnce.left ho
        exact Waits.agent hr₀ hs' hlen hx' hx hsch hrec (hr.inside hx' ho₀) (ih hx' ho₀) (h.wired hx') (h.heard w)
      · refine Waits.proc hn hq hs' (fun m => ?_) hsch hrec (ih hx' ho) (h.wired hx')
        rw [hx, hx']
        exact ⟨rfl, rfl⟩
      · intro n q k hn hq hk hm
        have hg : ∀ m, (s'.peers w).got m = (s.peers w).got m := fun m => by rw [hx, hx']; rfl
        rcases ih hx' ho n q k hn hq hk hm with h | h | ⟨st, nm, c, h⟩ | ⟨st, nm, c, h⟩ | ⟨nm, c, h⟩
        · exact .asking h
        · refine .sent ?_
          rw [hrec, hx]
          rw [hx'] at h
          simp only [Peer.sent] at h ⊢
          simpa using h
        · exact .answered st nm c (by rw [hsch, hg]; exact h)
        · exact .told st nm c h
        · exact .refused nm c (by rw [hg]; exact h)
    · intro n q k hn hq hk hm
      rw [hpe] at hx
      exact asked_sched (ih hx ho n q k hn hq hk hm) (h.got w) he hrec hpe (out_grows hr he hin)

end Verif.System
