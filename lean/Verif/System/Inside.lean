import Verif.System.Transit
import Verif.Spec.Running

/-!
# A task inside a worker

What agent and processors of one worker know about a task: each step of a system either leaves a worker alone or is a
step of its agent or its current processor.
-/

namespace Verif.System

open Verif.Wire Verif.Sched Verif.Spec
open Verif.Client (Pickle)
open Verif.Spec.Worker (Hist current busy)

variable {F V X : Type} {p : Pickle} {rt : Proc.Runtime F V X} {cfg : Config} {s s' : Sys F}

/-- How a worker came to its state. -/
inductive Worked (rt : Proc.Runtime F V X) (s : Sys F) (x : Bytes) (a' : Worker.Agent) (ret : Int) (qs' : List (Proc.Proc F)) (left' : Option Bytes) : Prop where
  | new (d start : Int) (h : a' = .init d start) (hq : qs' = [Proc.Proc.init ret start]) (hl : left' = none)
  | same (h : s.peers x = .worker a' ret qs' left')
  | agent (a : Worker.Agent) (qs : List (Proc.Proc F)) (e : Worker.Agent.Event) (h : s.peers x = .worker a ret qs none)
      (hs : a.step e = .ok a') (hq : qs' = extend ret e.now qs a'.procs) (hl : left' = none)
      (hrecv : ∀ m, e.op = .recv m → (s.peers x).got m < s.sched.out.count (x, m))
      (hheard : ∀ m, e.op = .heard m → heardOf m a.log < procsSent m qs)
  | proc (qs : List (Proc.Proc F)) (n : Nat) (q q' : Proc.Proc F) (e : Proc.Event) (h : s.peers x = .worker a' ret qs none)
      (hn : a'.processor = some n) (hq : qs[n]? = some q) (hs : q.step rt e = .ok q') (hqs : qs' = qs.set n q') (hl : left' = none)
      (hrecv : ∀ m, e.op = .recv m → taken m q < toldTo n m a'.log)
  | leave (h : s.peers x = .worker a' ret qs' none) (hl : left' = some x)

variable {x : Bytes} {a' : Worker.Agent} {ret : Int} {qs' : List (Proc.Proc F)} {left' : Option Bytes}

theorem Worked.setPeer {y : Bytes} {P : Peer F} (h : ((s.setPeer y P).peers x) = .worker a' ret qs' left')
    (hP : y = x → P = .worker a' ret qs' left' → Worked rt s x a' ret qs' left') : Worked rt s x a' ret qs' left' := by
  simp only [Sys.setPeer] at h
  split at h
  · next e => exact hP e.symm h
  · exact .same h

theorem step_worked {o : Op} (hs : s.step p rt o = some s') (hx : s'.peers x = .worker a' ret qs' left') :
    Worked rt s x a' ret qs' left' := by
  cases o with
  | joinClient y =>
    simp only [Sys.step] at hs
    split at hs
    · cases hs
      exact Worked.setPeer hx fun e e' => by cases e'
    · cases hs
  | joinWorker y d ret' now =>
    simp only [Sys.step] at hs
    split at hs
    · cases hs
      refine Worked.setPeer hx fun e e' => ?_
      cases e'; exact .new _ _ rfl rfl rfl
    · cases hs
  | sched e =>
    refine .same ?_
    rw [← hx]
    simp only [Sys.step, Sys.schedStep] at hs
    split at hs
    · split at hs
      · split at hs
        · cases hs
        · split at hs
          · cases hs; rfl
          · cases hs
      · cases hs
    · split at hs
      · cases hs; rfl
      · cases hs
  | client y o =>
    simp only [Sys.step] at hs
    split at hs
    · next c hy =>
      have key : ∀ (s₀ : Sys F) o, s₀.peers = s.peers → s₀.clientStep p y c o = some s' → Worked rt s x a' ret qs' left' := by
        intro s₀ o e hs
        obtain ⟨c1, -, rfl⟩ := clientStep_some hs
        simp only [Sys.setPeer] at hx
        split at hx
        · cases hx
        · rw [e] at hx; exact .same hx
      unfold Sys.clientOp at hs
      split at hs
      · split at hs
        · cases hs
        · refine key _ _ ?_ hs; rfl
      · cases hs
      · split at hs
        · split at hs
          · cases hs
          · split at hs
            · exact key _ _ rfl hs
            · cases hs
        · cases hs
      · exact key _ _ rfl hs
    · cases hs
  | get y ids gid g keys =>
    simp only [Sys.step] at hs
    split at hs
    · next c hy =>
      simp only [Sys.getOp] at hs
      split at hs
      · split at hs
        · next m c1 ret' hm hcall =>
          cases hs
          have hx' : ((s.setPeer y (.client c1)).peers x) = .worker a' ret qs' left' := hx
          exact Worked.setPeer hx' fun e e' => by cases e'
        · cases hs
      · cases hs
    · cases hs
  | agent y e =>
    simp only [Sys.step] at hs
    split at hs
    · next a ret' qs hy =>
      have key : ∀ e', (∀ m, e'.op = .recv m → (s.peers y).got m < s.sched.out.count (y, m)) →
          (∀ m, e'.op = .heard m → heardOf m a.log < procsSent m qs) → s.agentStep y a ret' qs e' = some s' → Worked rt s x a' ret qs' left' := by
        intro e' h1 h2 hs
        unfold Sys.agentStep at hs
        split at hs
        · next a1 ha =>
          cases hs
          refine Worked.setPeer hx fun ex e'' => ?_
          subst ex
          cases e''
          exact .agent a qs e' hy ha rfl rfl h1 h2
        · cases hs
      unfold Sys.agentOp at hs
      split at hs
      · next m hop =>
        split at hs
        · next hgot =>
          split at hs
          · cases hs
          · next y' m' hcar =>
            have := carryOut_eq hcar
            cases this
            rw [if_pos rfl] at hs
            exact key _ (fun m' hm => by cases hm; exact hgot) (fun _ hm => by cases hm) hs
        · cases hs
      · next m hop =>
        split at hs
        · next hh =>
          split at hs
          · cases hs
          · next m' hcar =>
            obtain rfl := carry_eq hcar
            exact key _ (fun _ hm => by cases hm) (fun m' hm => by cases hm; exact hh) hs
        · cases hs
      · next h1 h2 => exact key _ (fun m hm => absurd hm (h1 m)) (fun m hm => absurd hm (h2 m)) hs
    · cases hs
  | proc y n e =>
    simp only [Sys.step] at hs
    split at hs
    · next a ret' qs hy =>
      unfold Sys.procOp at hs
      split at hs
      · next hn =>
        split at hs
        · cases hs
        · next q hq =>
          have key : ∀ e', (∀ m, e'.op = .recv m → taken m q < toldTo n m a.log) → s.procStep rt y a ret' qs n q e' = some s' →
              Worked rt s x a' ret qs' left' := by
            intro e' h1 hs
            unfold Sys.procStep at hs
            split at hs
            · next q1 hq1 =>
              cases hs
              refine Worked.setPeer hx fun ex e'' => ?_
              subst ex
              cases e''
              exact .proc qs n q q1 e' hy hn hq hq1 rfl rfl h1
            · cases hs
          split at hs
          · next m hop =>
            split at hs
            · next hc =>
              split at hs
              · cases hs
              · next m' hcar =>
                obtain rfl := carry_eq hcar
                exact key _ (fun m' hm => by cases hm; exact hc) hs
            · cases hs
          · next hop => exact key _ (fun m hm => absurd hm (hop m)) hs
      · cases hs
    · cases hs
  | leave y =>
    simp only [Sys.step] at hs
    split at hs
    · next a ret' qs hy =>
      cases hs
      refine Worked.setPeer hx fun ex e'' => ?_
      subst ex
      cases e''
      exact .leave hy rfl
    · cases hs

/-! ### One task at a time -/

/-- The task `k` is with the processor `q`, number `n`: it waits for its function, it is at work, or it is on the way. -/
def AtProc (n : Nat) (l : Hist) (q : Proc.Proc F) (k : Task) : Prop :=
  q.task = some k ∨ q.main.task? = some k ∨ taken (.task k) q < toldTo n (.task k) l

/-- The agent's task is with its processor or its result is on the way, and the processor has no other. -/
structure Inside (l : Hist) (qs : List (Proc.Proc F)) : Prop where
  held : ∀ n q k, current l = some n → qs[n]? = some q → AtProc n l q k → busy l = some k
  place : ∀ k, busy l = some k → ∃ n q, current l = some n ∧ qs[n]? = some q ∧
    (AtProc n l q k ∨ ∃ st d r, heardOf (.taskResult k.taskId st d r) l < procsSent (.taskResult k.taskId st d r) qs)

/-- What is known of processors and messages between them and the agent. -/
structure Wired (rt : Proc.Runtime F V X) (l : Hist) (qs : List (Proc.Proc F)) : Prop where
  named : ∀ y ∈ l, ∀ n k, y.2 = .told n (.task k) → k.taskId ≠ []
  got : ∀ (n : Nat) q, qs[n]? = some q → ∀ m, taken m q ≤ toldTo n m l
  heard : ∀ m, heardOf m l ≤ procsSent m qs
  inv : ∀ (n : Nat) q, qs[n]? = some q → ∃ ret, Proc.Inv rt ret q

theorem ToldOnce.left {l l' : Hist} (h : ToldOnce (l ++ l')) : ToldOnce l := fun t => by
  have := h t
  simp only [Worker.times, List.countP_append] at this ⊢
  omega

/-- The messages processor `n` was told. -/
def toldList (n : Nat) (l : Hist) : List Message :=
  l.filterMap fun x => match x.2 with | .told j m => if j = n then some m else none | _ => none

/-- The messages a processor received. -/
def takenList (q : Proc.Proc F) : List Message := q.log.filterMap fun x => match x.2 with | .recv m => some m | _ => none

theorem toldList_count (n : Nat) (m : Message) (l : Hist) : (toldList n l).count m = toldTo n m l := by
  induction l with
  | nil => rfl
  | cons x l ih =>
    obtain ⟨now, x⟩ := x
    simp only [toldList, toldTo] at ih ⊢
    cases x with
    | told j m' =>
      by_cases e : j = n
      · subst e
        by_cases e' : m' = m
        · subst e'; simp [ih]
        · simp [ih, e']
      · simp [ih, e]
    | _ => simp [ih]

theorem takenList_count (m : Message) (q : Proc.Proc F) : (takenList q).count m = taken m q := by
  unfold takenList taken
  induction q.log with
  | nil => rfl
  | cons x l ih =>
    obtain ⟨now, x⟩ := x
    cases x with
    | recv m' =>
      by_cases e' : m' = m
      · subst e'; simp [ih]
      · simp [ih, e']
    | _ => simp [ih]

theorem weigh_taken (t : Bytes) (q : Proc.Proc F) :
    weigh (taskWeight t) (takenList q) = Processor.times (Processor.isTask t) q.log := by
  unfold takenList Processor.times
  induction q.log with
  | nil => rfl
  | cons x l ih =>
    obtain ⟨now, x⟩ := x
    cases x with
    | recv m' =>
      simp only [List.filterMap_cons, weigh_cons, ih, List.countP_cons]
      cases m' <;> simp [taskWeight, Processor.isTask, Nat.add_comm]
    | _ => simp [ih, Processor.isTask]

theorem toldList_cons (n : Nat) (x : Int × Worker.Act) (l : Hist) : toldList n (x :: l) = toldList n [x] ++ toldList n l := by
  rw [show x :: l = [x] ++ l from rfl]
  simp only [toldList, List.filterMap_append]

theorem weigh_told (t : Bytes) (n j : Nat) (hj : j ≠ n) (l : Hist) :
    weigh (taskWeight t) (toldList n l) + weigh (taskWeight t) (toldList j l) ≤ Worker.times (Worker.isTold t) l := by
  induction l with
  | nil => exact Nat.le_refl _
  | cons x l ih =>
    have h : weigh (taskWeight t) (toldList n [x]) + weigh (taskWeight t) (toldList j [x]) ≤ if Worker.isTold t x.2 then 1 else 0 := by
      obtain ⟨now, x⟩ := x
      cases x with
      | told i m =>
        by_cases e : i = n
        · have e' : i ≠ j := fun h => hj (h.symm.trans e)
          cases m <;> simp [toldList, e, Ne.symm hj, weigh, taskWeight, Worker.isTold]
        · by_cases e' : i = j
          · cases m <;> simp [toldList, e', hj, weigh, taskWeight, Worker.isTold]
          · simp [toldList, e, e', weigh]
      | _ => simp [toldList, weigh]
    have h2 : Worker.times (Worker.isTold t) (x :: l) = Worker.times (Worker.isTold t) l + if Worker.isTold t x.2 then 1 else 0 :=
      List.countP_cons
    rw [toldList_cons n, toldList_cons j, weigh_append, weigh_append, h2]
    omega

/-- All copies of a task that one processor was told. -/
theorem told_le (t : Bytes) (n : Nat) (l : Hist) : weigh (taskWeight t) (toldList n l) ≤ Worker.times (Worker.isTold t) l := by
  have := weigh_told t n (n + 1) (by omega) l
  omega

section
variable {l : Hist} {qs : List (Proc.Proc F)}

theorem procsSent_pos {m : Message} : ∀ {qs : List (Proc.Proc F)}, 0 < procsSent m qs → ∃ q ∈ qs, 0 < q.log.countP fun x => decide (x.2 = .sent m)
  | [], h => absurd h (Nat.lt_irrefl _)
  | q :: qs, h => by
    by_cases hq : 0 < q.log.countP fun x => decide (x.2 = .sent m)
    · exact ⟨q, List.mem_cons_self, hq⟩
    · have : 0 < procsSent m qs := by
        simp only [procsSent, List.map_cons, List.sum_cons] at h ⊢
        omega
      obtain ⟨q', h1, h2⟩ := procsSent_pos this
      exact ⟨q', List.mem_cons_of_mem _ h1, h2⟩

theorem taken_mem {k : Task} {q : Proc.Proc F} {now : Int} (h : (now, Proc.Act.recv (.task k)) ∈ q.log) : 0 < taken (.task k) q :=
  List.countP_pos_iff.2 ⟨_, h, by simp⟩

theorem Wired.ne (hw : Wired rt l qs) {n : Nat} {k : Task} (h : 0 < toldTo n (.task k) l) : k.taskId ≠ [] := by
  obtain ⟨y, hy, e⟩ := List.countP_pos_iff.1 h
  exact hw.named y hy n k (of_decide_eq_true e)

theorem AtProc.told (hw : Wired rt l qs) {n : Nat} {q : Proc.Proc F} (hq : qs[n]? = some q) {k : Task} (h : AtProc n l q k) :
    0 < toldTo n (.task k) l := by
  obtain ⟨ret, hi⟩ := hw.inv n q hq
  have := hw.got n q hq (.task k)
  rcases h with h | h | h
  · obtain ⟨now, h⟩ := hi.taskRecv k h
    have := taken_mem h
    omega
  · obtain ⟨now, h⟩ := hi.mainRecv k h
    have := taken_mem h
    omega
  · omega

/-- What a processor was told of a task is at least what it answered and what it has. -/
theorem AtProc.weight (hw : Wired rt l qs) {n : Nat} {q : Proc.Proc F} (hq : qs[n]? = some q) {k : Task} (h : AtProc n l q k) :
    Processor.times (Processor.isAnswer k.taskId) q.log + 1 ≤ weigh (taskWeight k.taskId) (toldList n l) := by
  obtain ⟨ret, hi⟩ := hw.inv n q hq
  have hne := hw.ne (h.told hw hq)
  have hc := hi.count k.taskId hne
  have hgot := hw.got n q hq
  have hle : weigh (taskWeight k.taskId) (takenList q) ≤ weigh (taskWeight k.taskId) (toldList n l) :=
    weigh_le fun m _ => by rw [takenList_count, toldList_count]; exact hgot m
  rw [weigh_taken] at hle
  rcases h with h | h | h
  · rw [h] at hc
    simp only [Proc.taskCount, if_true] at hc
    omega
  · rw [h] at hc
    simp only [Proc.taskCount, if_true] at hc
    omega
  · have hlt : weigh (taskWeight k.taskId) (.task k :: takenList q) ≤ weigh (taskWeight k.taskId) (toldList n l) := by
      refine weigh_le fun m _ => ?_
      rw [List.count_cons, takenList_count, toldList_count]
      have := hgot m
      by_cases e : m = .task k
      · subst e; simp; omega
      · simp [Ne.symm e]; exact this
    rw [weigh_cons, weigh_taken] at hlt
    simp only [taskWeight, if_true] at hlt
    omega

/-- A task that is with a processor was not answered. -/
theorem AtProc.unanswered (hw : Wired rt l qs) (ho : ToldOnce l) {n : Nat} {q : Proc.Proc F} (hq : qs[n]? = some q) {k : Task} (h : AtProc n l q k)
    (st : TaskStatus) (d : UInt32) (r : Bytes) : procsSent (.taskResult k.taskId st d r) qs = 0 := by
  refine Nat.eq_zero_of_not_pos fun hpos => ?_
  have hne := hw.ne (h.told hw hq)
  have h1 := h.weight hw hq
  obtain ⟨q', hq', hp⟩ := procsSent_pos hpos
  obtain ⟨j, hj⟩ := List.getElem?_of_mem hq'
  have hans : 0 < Processor.times (Processor.isAnswer k.taskId) q'.log := by
    obtain ⟨y, hy, e⟩ := List.countP_pos_iff.1 hp
    refine List.countP_pos_iff.2 ⟨y, hy, ?_⟩
    rw [of_decide_eq_true e]
    simp [Processor.isAnswer]
  have hon := ho k.taskId
  by_cases e : j = n
  · subst e
    rw [hq] at hj
    cases hj
    have := told_le k.taskId j l
    omega
  · obtain ⟨ret, hi⟩ := hw.inv j q' hj
    have hc := hi.count k.taskId hne
    have hle : weigh (taskWeight k.taskId) (takenList q') ≤ weigh (taskWeight k.taskId) (toldList j l) :=
      weigh_le fun m _ => by rw [takenList_count, toldList_count]; exact hw.got j q' hj m
    rw [weigh_taken] at hle
    have := weigh_told k.taskId n j e l
    omega

/-! ### What the agent does -/

theorem toldTo_snoc (n : Nat) (m : Message) (l : Hist) (x : Int × Worker.Act) :
    toldTo n m (l ++ [x]) = toldTo n m l + if x.2 = .told n m then 1 else 0 := by
  simp [toldTo, List.countP_append, List.countP_cons]

theorem heardOf_snoc (m : Message) (l : Hist) (x : Int × Worker.Act) :
    heardOf m (l ++ [x]) = heardOf m l + if x.2 = .heard m then 1 else 0 := by
  simp [heardOf, List.countP_append, List.countP_cons]

theorem AtProc.snoc {n : Nat} {x : Int × Worker.Act} {q : Proc.Proc F} {k : Task} (h : AtProc n l q k) : AtProc n (l ++ [x]) q k := by
  rcases h with h | h | h
  · exact .inl h
  · exact .inr (.inl h)
  · refine .inr (.inr ?_)
    rw [toldTo_snoc]
    omega

theorem AtProc.back {n : Nat} {x : Int × Worker.Act} {q : Proc.Proc F} {k : Task} (h : AtProc n (l ++ [x]) q k)
    (hx : x.2 ≠ .told n (.task k)) : AtProc n l q k := by
  rcases h with h | h | h
  · exact .inl h
  · exact .inr (.inl h)
  · refine .inr (.inr ?_)
    rw [toldTo_snoc, if_neg hx] at h
    exact h

/-- One entry of the agent's history. -/
theorem Inside.snoc (h : Inside l qs) (hw : Wired rt l qs) (ho : ToldOnce l) {x : Int × Worker.Act} (hp : Worker.Proper l x.2)
    (hin : ∀ n q, current (l ++ [x]) = some n → qs[n]? = some q → current l ≠ some n → (∀ k, ¬ AtProc n l q k) ∧ ∀ m, x.2 ≠ .told n m)
    (hcur : ∀ n, current l = some n → ∃ q, qs[n]? = some q)
    (hh : ∀ m, heardOf m (l ++ [x]) ≤ procsSent m qs) : Inside (l ++ [x]) qs := by
  obtain ⟨now, x⟩ := x
  -- entries that change neither the processor nor its task
  have calm : current (l ++ [(now, x)]) = current l → busy (l ++ [(now, x)]) = busy l → (∀ n k, x ≠ .told n (.task k)) →
      (∀ k, busy l = some k → ∀ st d r, x ≠ .heard (.taskResult k.taskId st d r)) → Inside (l ++ [(now, x)]) qs := by
    intro h1 h2 h3 h4
    refine ⟨fun n q k hn hq hk => ?_, fun k hk => ?_⟩
    · rw [h1] at hn
      rw [h2]
      exact h.held n q k hn hq (hk.back (h3 n k))
    · rw [h2] at hk
      obtain ⟨n, q, hn, hq, hk'⟩ := h.place k hk
      refine ⟨n, q, h1.trans hn, hq, hk'.imp AtProc.snoc fun ⟨st, d, r, hlt⟩ => ⟨st, d, r, ?_⟩⟩
      rw [heardOf_snoc, if_neg (h4 k hk st d r)]
      exact hlt
  have hc := Worker.current_snoc l (now, x)
  have hb := Worker.busy_snoc l (now, x)
  cases x with
  | recv m => exact calm hc hb nofun nofun
  | sent m => exact calm hc hb nofun nofun
  | told n m =>
    have hcn : current l = some n := hp.1
    cases m with
    | task k =>
      refine ⟨fun n' q k' hn hq hk => ?_, fun k' hk => ?_⟩
      · rw [hc] at hn
        rw [hb]
        show some k = some k'
        by_cases e : k' = k
        · rw [e]
        · have := h.held n' q k' hn hq (hk.back fun e' => by cases e'; exact e rfl)
          rw [hp.2.2] at this
          cases this
      · rw [hb] at hk
        cases hk
        obtain ⟨q, hq⟩ := hcur n hcn
        refine ⟨n, q, hc.trans hcn, hq, .inl (.inr (.inr ?_))⟩
        rw [toldTo_snoc, if_pos rfl]
        have := hw.got n q hq (.task k)
        omega
    | _ => exact calm hc hb nofun nofun
  | started n =>
    have hbn : busy l = none := hp
    refine ⟨fun n' q k hn hq hk => ?_, fun k hk => ?_⟩
    · have hk' := hk.back (x := (now, .started n)) nofun
      by_cases e : current l = some n'
      · rw [hb]; exact h.held n' q k e hq hk'
      · exact absurd hk' ((hin n' q hn hq e).1 k)
    · rw [hb] at hk
      rw [show Worker.busyStep (Worker.Act.started n) (busy l) = busy l from rfl, hbn] at hk
      cases hk
  | killed n =>
    refine ⟨fun n' q k hn hq hk => ?_, fun k hk => ?_⟩
    · rw [hc] at hn; cases hn
    · rw [hb] at hk; cases hk
  | heard m =>
    cases m with
    | taskResult i st d r =>
      by_cases hbk : ∃ k, busy l = some k ∧ k.taskId = i
      · obtain ⟨k, hk, rfl⟩ := hbk
        have hbn : busy (l ++ [(now, .heard (.taskResult k.taskId st d r))]) = none := by
          rw [hb, hk]; simp [Worker.busyStep, Option.filter]
        refine ⟨fun n' q k' hn hq hk' => ?_, fun k' hk' => ?_⟩
        · rw [hc] at hn
          have hk'' := hk'.back (x := (now, .heard (.taskResult k.taskId st d r))) nofun
          have := h.held n' q k' hn hq hk''
          rw [hk] at this
          cases this
          have h0 := hk''.unanswered hw ho hq st d r
          have h1 := hh (.taskResult k.taskId st d r)
          rw [heardOf_snoc, if_pos rfl] at h1
          omega
        · rw [hbn] at hk'; cases hk'
      · have hbb : busy (l ++ [(now, .heard (.taskResult i st d r))]) = busy l := by
          rw [hb]
          cases hbl : busy l with
          | none => rfl
          | some k =>
            have : k.taskId ≠ i := fun e => hbk ⟨k, hbl, e⟩
            simp [Worker.busyStep, Option.filter, this]
        refine calm hc hbb nofun fun k hk st' d' r' e => ?_
        cases e
        exact hbk ⟨k, hk, rfl⟩
    | _ => exact calm hc hb nofun nofun

theorem hist_induction {α : Type} {P : List α → Prop} (h0 : P []) (h1 : ∀ l a, P l → P (l ++ [a])) (l : List α) : P l := by
  suffices h : ∀ (l' l : List α), P l → P (l ++ l') from h l [] h0
  intro l'
  induction l' with
  | nil => intro l hl; simpa using hl
  | cons a l' ih =>
    intro l hl
    have := ih _ (h1 l a hl)
    simpa using this

theorem current_started {l : Hist} : ∀ {n : Nat}, current l = some n → ∃ y ∈ l, y.2 = Worker.Act.started n := by
  induction l using hist_induction with
  | h0 => intro n h; cases h
  | h1 l x ih =>
    intro n h
    rw [Worker.current_snoc] at h
    unfold Worker.currentStep at h
    split at h
    · next j hx => cases h; exact ⟨x, by simp, ‹_›⟩
    · cases h
    · obtain ⟨y, hy, e⟩ := ih h
      exact ⟨y, List.mem_append_left _ hy, e⟩

theorem begun_mem {l : Hist} {n : Nat} : n ∈ l.filterMap Worker.begun ↔ ∃ y ∈ l, y.2 = Worker.Act.started n := by
  rw [List.mem_filterMap]
  constructor
  · rintro ⟨⟨now, y⟩, hy, e⟩
    refine ⟨_, hy, ?_⟩
    cases y <;> simp [Worker.begun] at e
    rw [e]
  · rintro ⟨⟨now, y⟩, hy, e⟩
    obtain rfl : y = _ := e
    exact ⟨_, hy, rfl⟩

/-- Nothing is told to a processor before it is started. -/
theorem told_started (ha : Worker.Always Worker.Proper l) {n : Nat} {m : Message} (h : 0 < toldTo n m l) : ∃ y ∈ l, y.2 = Worker.Act.started n := by
  obtain ⟨y, hy, e⟩ := List.countP_pos_iff.1 h
  obtain ⟨l₁, l₂, rfl⟩ := List.append_of_mem hy
  have hp := ha l₁ y l₂ rfl
  rw [of_decide_eq_true e] at hp
  obtain ⟨z, hz, e'⟩ := current_started hp.1
  exact ⟨z, List.mem_append_left _ hz, e'⟩

theorem Always.left {P : Hist → Worker.Act → Prop} {l l' : Hist} (h : Worker.Always P (l ++ l')) : Worker.Always P l := by
  intro l₁ x l₂ e
  exact h l₁ x (l₂ ++ l') (by rw [e]; simp)

theorem procsSent_left (m : Message) (qs rs : List (Proc.Proc F)) : procsSent m qs ≤ procsSent m (qs ++ rs) := by
  rw [procsSent_append]; omega

/-- The agent takes a step. -/
theorem Inside.agent {d start ret : Int} {a a' : Worker.Agent} (hr : Worker.Reach d start a) {e : Worker.Agent.Event} (hs : a.step e = .ok a')
    (hlen : qs.length = a.procs) (h : Inside a.log qs) (hw : Wired rt a.log qs) (hw' : Wired rt a'.log (extend ret e.now qs a'.procs))
    (ho : ToldOnce a'.log) : Inside a'.log (extend ret e.now qs a'.procs) := by
  have hr' := hr.step e hs
  have hgood := hr.good
  have hgood' := hr'.good
  obtain ⟨-, hprocs, ys, hlog, -, -⟩ := Worker.step_flows hr.flow hs
  have hold : ∀ (n : Nat) q, qs[n]? = some q → (extend ret e.now qs a'.procs)[n]? = some q := by
    intro n q hq
    unfold extend
    rw [List.getElem?_append, if_pos (List.getElem?_eq_some_iff.1 hq).1]
    exact hq
  have hnew : ∀ (n : Nat) q, (extend ret e.now qs a'.procs)[n]? = some q → qs[n]? = some q ∨ a.procs ≤ n ∧ q = Proc.Proc.init ret e.now := by
    intro n q hq
    unfold extend at hq
    rw [List.getElem?_append] at hq
    split at hq
    · exact .inl hq
    · have hmem := List.mem_of_getElem? hq
      rw [List.mem_replicate] at hmem
      exact .inr ⟨by omega, hmem.2⟩
  have hsome : ∀ n, n < a'.procs → ∃ q, (extend ret e.now qs a'.procs)[n]? = some q := by
    intro n hn
    have : n < (extend ret e.now qs a'.procs).length := by
      unfold extend
      simp only [List.length_append, List.length_replicate]
      omega
    exact ⟨_, List.getElem?_eq_getElem this⟩
  have hsent : ∀ m, procsSent m qs ≤ procsSent m (extend ret e.now qs a'.procs) := fun m => by
    unfold extend; exact procsSent_left m _ _
  have h0 : Inside a.log (extend ret e.now qs a'.procs) := by
    refine ⟨fun n q k hn hq hk => ?_, fun k hk => ?_⟩
    · rcases hnew n q hq with hq' | ⟨hle, -⟩
      · exact h.held n q k hn hq' hk
      · rw [hgood.mt.current] at hn
        have := hgood.inv.procs n hn
        omega
    · obtain ⟨n, q, hn, hq, hk'⟩ := h.place k hk
      exact ⟨n, q, hn, hold n q hq, hk'.imp_right fun ⟨st, d, r, hlt⟩ => ⟨st, d, r, Nat.lt_of_lt_of_le hlt (hsent _)⟩⟩
  generalize extend ret e.now qs a'.procs = rs at *
  rw [List.append_assoc] at hlog
  generalize e.input ++ ys = zs at hlog
  have hnum := hr'.begun
  have hok := hgood'.ok
  have hproc' := hgood'.inv
  rw [hlog] at hw' ho hnum hok ⊢
  suffices key : ∀ (zs' l : Hist), a.log <+: l → l ++ zs' = a.log ++ zs → Inside l rs → Inside (a.log ++ zs) rs from
    key zs a.log (List.prefix_refl _) rfl h0
  intro zs'
  induction zs' with
  | nil => intro l _ e h; rw [List.append_nil] at e; rw [← e]; exact h
  | cons x zs' ih =>
    intro l hpre heq h
    have heq' : (l ++ [x]) ++ zs' = a.log ++ zs := by rw [← heq]; simp
    refine ih (l ++ [x]) (hpre.trans (List.prefix_append _ _)) heq' ?_
    rw [← heq'] at hw' ho hnum hok
    obtain ⟨l₀, rfl⟩ := hpre
    have hcount : ∀ (P : Int × Worker.Act → Bool) (l l' : Hist), l.countP P ≤ (l ++ l').countP P := by
      intro P l l'; rw [List.countP_append]; omega
    have hwl : Wired rt (a.log ++ l₀) rs := by
      refine ⟨fun y hy => hw'.named y (List.mem_append_left _ (List.mem_append_left _ hy)), fun n q hq m => ?_, fun m => ?_, hw'.inv⟩
      · rcases hnew n q hq with hq' | ⟨-, rfl⟩
        · exact Nat.le_trans (hw.got n q hq' m) (hcount _ _ _)
        · have : taken m (Proc.Proc.init ret e.now : Proc.Proc F) = 0 := by simp [taken, Proc.Proc.init]
          omega
      · refine Nat.le_trans ?_ (hw'.heard m)
        rw [List.append_assoc]
        exact hcount _ _ _
    refine h.snoc hwl (ToldOnce.left (ToldOnce.left ho)) ?_ ?_ ?_ ?_
    · exact hok (a.log ++ l₀) x zs' (by simp)
    · intro n q hn hq hne
      have hx : x.2 = .started n := by
        rw [Worker.current_snoc] at hn
        unfold Worker.currentStep at hn
        split at hn
        · cases hn; assumption
        · cases hn
        · exact absurd hn hne
      have hfresh : ¬ ∃ y ∈ a.log ++ l₀, y.2 = Worker.Act.started n := by
        rw [← begun_mem]
        intro hm
        have hnd : (List.range' 0 a'.procs).Nodup := List.nodup_range'
        rw [← hnum, List.filterMap_append, List.filterMap_append] at hnd
        have := (List.nodup_append.1 (List.nodup_append.1 hnd).1).2.2 n hm n (by
          obtain ⟨now, y⟩ := x
          obtain rfl : y = _ := hx
          simp [Worker.begun])
        exact this rfl
      refine ⟨fun k hk => ?_, fun m e => by rw [hx] at e; cases e⟩
      have := hk.told hwl hq
      exact hfresh (told_started (Always.left (Always.left hok)) this)
    · intro n hn
      refine hsome n ?_
      obtain ⟨y, hy, e'⟩ := current_started hn
      have : n ∈ ((a.log ++ l₀ ++ [x]) ++ zs').filterMap Worker.begun :=
        begun_mem.2 ⟨y, List.mem_append_left _ (List.mem_append_left _ hy), e'⟩
      rw [hnum, List.mem_range'] at this
      obtain ⟨i, hi, rfl⟩ := this
      omega
    · intro m
      exact Nat.le_trans (hcount _ _ _) (hw'.heard m)

/-! ### What a processor does -/

/-- What a step of a processor does to its task. -/
inductive Move (q q' : Proc.Proc F) (op : Proc.Op) : Prop where
  | quiet (h1 : q'.task = q.task) (h2 : q'.main.task? = q.main.task?) (h3 : ∀ k, taken (.task k) q' = taken (.task k) q)
      (h4 : ∀ m, (q.log.countP fun x => decide (x.2 = .sent m)) ≤ q'.log.countP fun x => decide (x.2 = .sent m))
  | take (k : Task) (hop : op = .recv (.task k)) (h0 : q.main.task? = none)
      (h1 : q'.task = q.task ∧ q'.main.task? = some k ∨ q'.task = some k ∧ q'.main.task? = none)
      (h3 : ∀ k', taken (.task k') q' = taken (.task k') q + if k' = k then 1 else 0)
      (h4 : ∀ m, (q.log.countP fun x => decide (x.2 = .sent m)) ≤ q'.log.countP fun x => decide (x.2 = .sent m))
  | start (k : Task) (h0 : q.main.task? = none) (h1 : q.task = some k) (h2 : q'.task = none) (h3 : q'.main.task? = some k)
      (h4 : ∀ k, taken (.task k) q' = taken (.task k) q)
      (h5 : ∀ m, (q.log.countP fun x => decide (x.2 = .sent m)) ≤ q'.log.countP fun x => decide (x.2 = .sent m))
  | answer (k : Task) (st : TaskStatus) (d : UInt32) (r : Bytes) (now : Int) (h0 : q.main.task? = some k) (h1 : q'.task = q.task)
      (h2 : q'.main.task? = none) (h3 : q'.log = q.log ++ [(now, .sent (.taskResult k.taskId st d r))])

theorem quiet_log {q q' : Proc.Proc F} {op : Proc.Op} (h1 : q'.task = q.task) (h2 : q'.main.task? = q.main.task?)
    (h : ∃ ys, q'.log = q.log ++ ys ∧ ∀ y ∈ ys, ∀ k, y.2 ≠ .recv (.task k)) : Move q q' op := by
  obtain ⟨ys, h3, h4⟩ := h
  refine .quiet h1 h2 (fun k => ?_) fun m => ?_
  · unfold taken
    rw [h3, List.countP_append, countP_none (l := ys)]
    · rfl
    · intro y hy
      simp [h4 y hy k]
  · rw [h3, List.countP_append]; omega

theorem proc_move {q q' : Proc.Proc F} {e : Proc.Event} (h : q.step rt e = .ok q') : Move q q' e.op := by
  obtain ⟨op, now⟩ := e
  cases op with
  | clean =>
    simp only [Proc.Proc.step] at h
    cases h
    show Move q (q.clean now) _
    unfold Proc.Proc.clean
    split
    · exact quiet_log rfl rfl ⟨[(now, .scan)], rfl, by simp⟩
    · exact quiet_log rfl rfl ⟨[], by simp, by simp⟩
    · exact quiet_log rfl rfl ⟨[], by simp, by simp⟩
    · next fid ids _ =>
      split
      · exact quiet_log rfl rfl ⟨[(now, .evicted fid)], rfl, by simp⟩
      · exact quiet_log rfl rfl ⟨[], by simp, by simp⟩
  | recv m =>
    simp only [Proc.Proc.step] at h
    split at h
    · next hm =>
      have hm0 : q.main.task? = none := by rw [hm]; rfl
      unfold Proc.Proc.receive at h
      dsimp only at h
      split at h
      · next ty fid nm c =>
        cases h
        unfold Proc.Proc.onFunctionRequest
        split
        · exact quiet_log rfl hm0.symm ⟨[(now, .recv (.functionRequest ty fid nm c))], rfl, by simp⟩
        · exact quiet_log rfl rfl ⟨[(now, .recv (.functionRequest ty fid nm c))], rfl, by simp⟩
      · next k =>
        cases h
        unfold Proc.Proc.onTask
        split
        · refine .take k rfl hm0 (.inl ⟨rfl, rfl⟩) (fun k' => ?_) fun m => ?_
          · simp [taken, Proc.Proc.note, List.countP_append, List.countP_cons, eq_comm]
          · simp [Proc.Proc.note, List.countP_append]
        · refine .take k rfl hm0 (.inr ⟨rfl, hm0⟩) (fun k' => ?_) fun m => ?_
          · simp [taken, Proc.Proc.note, List.countP_append, List.countP_cons, eq_comm]
          · simp [Proc.Proc.note, List.countP_append]
      · next st fid nm c =>
        split at h
        · next q1 h1 =>
          cases h
          unfold Proc.Proc.onFunctionResponse at h1
          split at h1
          · cases h1
            exact quiet_log rfl hm0.symm ⟨[(now, .recv (.functionResponse st fid nm c))], rfl, by simp⟩
          · cases h1
        · cases h
      · next h1 h2 h3 =>
        cases h
        refine quiet_log rfl rfl ⟨[(now, .recv m)], rfl, ?_⟩
        intro y hy k e
        rw [List.mem_singleton.1 hy] at e
        cases e
        exact h2 k rfl
    · cases h
      exact quiet_log rfl rfl ⟨[], by simp, by simp⟩
  | work c dur =>
    simp only [Proc.Proc.step] at h
    unfold Proc.Proc.work at h
    split at h
    · cases h
      exact quiet_log rfl rfl ⟨[], by simp, by simp⟩
    · next k hm =>
      cases h
      exact quiet_log rfl (by rw [hm]; rfl) ⟨[(now, .stamped k.functionId)], rfl, by simp⟩
    · next k hm =>
      split at h
      · cases h
        exact quiet_log rfl (by rw [hm]; rfl) ⟨[(now, .used k.functionId)], rfl, by simp⟩
      · cases h
        exact quiet_log rfl (by rw [hm]; rfl) ⟨[], by simp, by simp⟩
    · next k f hm =>
      cases h
      exact quiet_log rfl (by rw [hm]; rfl) ⟨[(now, .stamped k.functionId)], rfl, by simp⟩
    · next k f hm =>
      unfold Proc.Proc.answer at h
      split at h
      · next r _ =>
        cases h
        exact .answer k .success dur r now (by rw [hm]; rfl) rfl rfl rfl
      · split at h
        · next r _ =>
          cases h
          exact .answer k .failed dur r now (by rw [hm]; rfl) rfl rfl rfl
        · cases h
    · next fid hm =>
      split at h
      · next k hk =>
        cases h
        refine .start k (by rw [hm]; rfl) hk rfl rfl (fun k' => ?_) fun m => ?_
        · simp [taken, Proc.Proc.stamp, List.countP_append]
        · simp [Proc.Proc.stamp, List.countP_append]
      · cases h
    · next fid hm =>
      cases h
      exact quiet_log rfl (by rw [hm]; rfl) ⟨[], by simp, by simp⟩

theorem procsSent_change (m : Message) : ∀ (qs : List (Proc.Proc F)) (n : Nat) (q q' : Proc.Proc F), qs[n]? = some q →
    procsSent m (qs.set n q') + (q.log.countP fun x => decide (x.2 = .sent m)) =
    procsSent m qs + q'.log.countP fun x => decide (x.2 = .sent m)
  | [], n, q, q', h => by simp at h
  | q₀ :: qs, 0, q, q', h => by
    simp only [List.getElem?_cons_zero, Option.some.injEq] at h
    subst h
    simp only [List.set_cons_zero, procsSent, List.map_cons, List.sum_cons]
    omega
  | q₀ :: qs, n + 1, q, q', h => by
    simp only [List.getElem?_cons_succ] at h
    have ih := procsSent_change m qs n q q' h
    simp only [List.set_cons_succ, procsSent, List.map_cons, List.sum_cons] at ih ⊢
    omega

/-- The current processor takes a step. -/
theorem Inside.proc {n : Nat} {q q' : Proc.Proc F} {e : Proc.Event} (h : Inside l qs) (hw : Wired rt l qs)
    (hn : current l = some n) (hq : qs[n]? = some q) (hs : q.step rt e = .ok q')
    (hrecv : ∀ m, e.op = .recv m → taken m q < toldTo n m l) : Inside l (qs.set n q') := by
  have hset : (qs.set n q')[n]? = some q' := by
    rw [List.getElem?_set_self' ]
    simp [hq]
  have hsent := fun m => procsSent_change m qs n q q' hq
  -- it is enough to look at this processor
  have here : (∀ k, AtProc n l q' k → AtProc n l q k ∨ busy l = some k) →
      (∀ k, busy l = some k → (AtProc n l q k → AtProc n l q' k ∨
        ∃ st d r, heardOf (.taskResult k.taskId st d r) l < procsSent (.taskResult k.taskId st d r) (qs.set n q'))) →
      (∀ m, (q.log.countP fun x => decide (x.2 = .sent m)) ≤ q'.log.countP fun x => decide (x.2 = .sent m)) → Inside l (qs.set n q') := by
    intro h1 h2 h3
    refine ⟨fun n' q'' k hn' hq'' hk => ?_, fun k hk => ?_⟩
    · rw [hn] at hn'
      cases hn'
      rw [hset] at hq''
      cases hq''
      rcases h1 k hk with h1 | h1
      · exact h.held n q k hn hq h1
      · exact h1
    · obtain ⟨n', q'', hn', hq'', hk'⟩ := h.place k hk
      rw [hn] at hn'
      cases hn'
      rw [hq] at hq''
      cases hq''
      refine ⟨n, q', hn, hset, ?_⟩
      rcases hk' with hk' | ⟨st, d, r, hlt⟩
      · exact h2 k hk hk'
      · refine .inr ⟨st, d, r, ?_⟩
        have := hsent (.taskResult k.taskId st d r)
        have := h3 (.taskResult k.taskId st d r)
        omega
  rcases proc_move hs with ⟨h1, h2, h3, h4⟩ | ⟨k, hop, h0, h1, h3, h4⟩ | ⟨k, h0, h1, h2, h3, h4, h5⟩ | ⟨k, st, d, r, now, h0, h1, h2, h3⟩
  · have e : ∀ k, AtProc n l q' k ↔ AtProc n l q k := fun k => by unfold AtProc; rw [h1, h2, h3]
    exact here (fun k hk => .inl ((e k).1 hk)) (fun k _ hk => .inl ((e k).2 hk)) h4
  · have hfl := hrecv _ hop
    have hbk := h.held n q k hn hq (.inr (.inr hfl))
    refine here (fun k' hk' => ?_) (fun k' hk' _ => ?_) h4
    · rcases hk' with hk' | hk' | hk'
      · rcases h1 with ⟨h1, -⟩ | ⟨h1, -⟩
        · rw [h1] at hk'; exact .inl (.inl hk')
        · rw [h1] at hk'; cases hk'; exact .inr hbk
      · rcases h1 with ⟨-, h1⟩ | ⟨-, h1⟩
        · rw [h1] at hk'; cases hk'; exact .inr hbk
        · rw [h1] at hk'; cases hk'
      · rw [h3] at hk'
        exact .inl (.inr (.inr (by omega)))
    · rw [hbk] at hk'
      cases hk'
      rcases h1 with ⟨-, h1⟩ | ⟨h1, -⟩
      · exact .inl (.inr (.inl h1))
      · exact .inl (.inl h1)
  · refine here (fun k' hk' => ?_) (fun k' _ hk' => ?_) h5
    · rcases hk' with hk' | hk' | hk'
      · rw [h2] at hk'; cases hk'
      · rw [h3] at hk'; cases hk'; exact .inl (.inl h1)
      · rw [h4] at hk'; exact .inl (.inr (.inr hk'))
    · rcases hk' with hk' | hk' | hk'
      · rw [h1] at hk'; cases hk'; exact .inl (.inr (.inl h3))
      · rw [h0] at hk'; cases hk'
      · exact .inl (.inr (.inr (by rw [h4]; exact hk')))
  · have ht : ∀ k', taken (.task k') q' = taken (.task k') q := by
      intro k'
      unfold taken
      rw [h3, List.countP_append]
      simp
    refine here (fun k' hk' => ?_) (fun k' hk _ => ?_) (fun m => by rw [h3, List.countP_append]; omega)
    · rcases hk' with hk' | hk' | hk'
      · rw [h1] at hk'; exact .inl (.inl hk')
      · rw [h2] at hk'; cases hk'
      · rw [ht] at hk'; exact .inl (.inr (.inr hk'))
    · have := h.held n q k hn hq (.inr (.inl h0))
      rw [hk] at this
      cases this
      refine .inr ⟨st, d, r, ?_⟩
      have h5 := hsent (.taskResult k.taskId st d r)
      have h6 := hw.heard (.taskResult k.taskId st d r)
      rw [h3, List.countP_append] at h5
      simp at h5
      omega

end

/-! ### In every state of a system -/

/-- Tasks in a worker have names. -/
theorem Inv.named (h : Inv p rt cfg s) {w : Bytes} {a : Worker.Agent} {ret : Int} {qs : List (Proc.Proc F)} {left : Option Bytes}
    (hx : s.peers w = .worker a ret qs left) {k : Task} (hk : Worker.Got a.log (.task k)) : k.taskId ≠ [] := by
  obtain ⟨now, hk⟩ := hk
  have hg : 0 < (s.peers w).got (.task k) := by
    rw [hx]; exact List.countP_pos_iff.2 ⟨_, hk, by simp⟩
  have hout : (w, .task k) ∈ s.sched.out := List.count_pos_iff.1 (Nat.lt_of_lt_of_le hg (h.got w (.task k)))
  rcases h.sched.good.inv.sent w k hout with ⟨c, hc⟩ | ⟨c, gt, T, hc, hT, e, -, -⟩
  · obtain ⟨cl, nm, b, h1, h2, -⟩ := h.taskSent (h.received hc)
    exact (h.ids c _ (Inv.submitted_id h1 h2)).2
  · obtain ⟨cl, h1, h2⟩ := h.graphSent (h.received hc)
    rw [e]
    exact (h.ids c _ (Inv.graph_id h1 h2 (List.mem_cons_of_mem _ (List.mem_map.2 ⟨T, hT, rfl⟩)))).2

theorem Inv.wired (h : Inv p rt cfg s) {w : Bytes} {a : Worker.Agent} {ret : Int} {qs : List (Proc.Proc F)} {left : Option Bytes}
    (hx : s.peers w = .worker a ret qs left) : Wired rt a.log qs := by
  have hP := h.peer w
  rw [hx] at hP
  obtain ⟨⟨d, st, hr⟩, hlen, hq, hh⟩ := hP
  refine ⟨fun y hy n k e => ?_, fun n q hn m => (hq n q hn).2 m, hh, fun n q hn => ?_⟩
  · have := hr.flow.passed y hy
    rw [e] at this
    exact h.named hx this
  · obtain ⟨⟨st, hr⟩, -⟩ := hq n q hn
    exact ⟨ret, hr.inv⟩

theorem Reach.inside (hr : Reach p rt cfg s) : ∀ {w : Bytes} {a : Worker.Agent} {ret : Int} {qs : List (Proc.Proc F)} {left : Option Bytes},
    s.peers w = .worker a ret qs left → ToldOnce a.log → Inside a.log qs := by
  induction hr with
  | init => intro w a ret qs left hx; cases hx
  | @step s s' o hr hs ih =>
    intro w a ret qs left hx ho
    have h := hr.inv
    have h' := (hr.step o hs).inv
    rcases step_worked hs hx with ⟨d, start, rfl, rfl, -⟩ | hx' | ⟨a₀, qs₀, e, hx', hs', rfl, -, -, -⟩ | ⟨qs₀, n, q, q', e, hx', hn, hq, hs', rfl, -, hrecv⟩ | ⟨hx', -⟩
    · refine ⟨fun n q k hn hq hk => ?_, fun k hk => by cases hk⟩
      have := hk.told (h'.wired hx) hq
      simp [toldTo, Worker.Agent.init, Worker.Agent.startProcessor, Worker.Agent.note, Worker.Agent.blank] at this
    · exact ih hx' ho
    · have hP := h.peer w
      rw [hx'] at hP
      obtain ⟨⟨d, st, hr₀⟩, hlen, -, -⟩ := hP
      have ho₀ : ToldOnce a₀.log := by
        obtain ⟨-, -, ys, hlog, -, -⟩ := Worker.step_flows hr₀.flow hs'
        rw [hlog, List.append_assoc] at ho
        exact ToldOnce.left ho
      exact (ih hx' ho₀).agent hr₀ hs' hlen (h.wired hx') (h'.wired hx) ho
    · obtain ⟨d, st, hr₀⟩ := h.worker hx'
      exact (ih hx' ho).proc (h.wired hx') (hr₀.good.mt.current.trans hn) hq hs' hrecv
    · exact ih hx' ho

end Verif.System
