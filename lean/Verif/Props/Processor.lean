import Verif.Worker.ProcessorAlone
import Verif.Worker.ProcessorFlow

/-!
# Properties of the processor (C55, C56, C64)

The theorems are about every state the processor can reach with any pickle and any user functions (`Runtime`),
any messages, and any interleaving of the main thread with the cache cleaner.
-/

namespace Verif.Props

open Verif.Wire Verif.Proc Verif.Proc.Proc Verif.Spec.Processor

variable {F V X : Type}

/-! ### A small runtime for concrete runs -/

/-- Functions, values and exceptions are numbers.  Function `n` adds `n` to the sum of its arguments; function 0
raises 5 and function 1 raises 6, which cannot be pickled; content `[]` is not a function. -/
def toy : Runtime Nat Nat Nat where
  loadFn c := match c with
    | [] => .error 1
    | b :: _ => .ok b.toNat
  loadArg c := match c with
    | [] => .error 2
    | b :: _ => .ok b.toNat
  call f vs _ := if f = 0 then .error 5 else if f = 1 then .error 6 else .ok (f + vs.sum)
  dump v := .ok [UInt8.ofNat v]
  dumpExc x := if x = 6 then none else some [UInt8.ofNat x]
  notCallable := 7

theorem proc_run_reach {rt : Runtime F V X} {r start : Int} : ∀ {es : List Proc.Event} {p q : Proc.Proc F}, Proc.Reach rt r start p →
    p.run rt es = .ok q → Proc.Reach rt r start q
  | [], p, q, h, e => by cases e; exact h
  | ev :: es, p, q, h, e => by
    unfold Proc.Proc.run at e
    cases h1 : p.step rt ev with
    | error x => rw [h1] at e; cases e
    | ok p' => rw [h1] at e; exact proc_run_reach (.step ev h h1) e

/-- The state after a list of events, looked at through `f`. -/
def procWitness {α : Type} (r start : Int) (es : List Proc.Event) (f : Proc.Proc Nat → α) : Option α :=
  match (Proc.Proc.init r start : Proc.Proc Nat).run toy es with
  | .error _ => none
  | .ok a => some (f a)

theorem procWitness_sound {α : Type} {r start : Int} {es : List Proc.Event} {f : Proc.Proc Nat → α} {x : α}
    (h : procWitness r start es f = some x) : ∃ p, Proc.Reach toy r start p ∧ f p = x := by
  unfold procWitness at h
  split at h
  · cases h
  next a ha =>
  cases h
  exact ⟨a, proc_run_reach .init ha, rfl⟩

private def k1 : Task := ⟨[1], [70], [⟨.data, [10]⟩, ⟨.data, [20]⟩]⟩
private def k2 : Task := ⟨[2], [70], [⟨.data, [30]⟩]⟩
private def work (now : Int) : Proc.Event := ⟨.work 0 0, now⟩
private def fn (c : Bytes) (now : Int) : Proc.Event := ⟨.recv (.functionResponse .ok [70] [] c), now⟩

/-! ### C55 -/

/-- Full statement: every result answers a task received before; it is `Success` with the bytes of what the
registered function returned on the task's arguments, or `Failed` with the exception.  Missing in the code: a
function that the cleaner evicts while the task is being handled makes the task fail with the `TypeError` of
calling `None` (last case of `Answers`, see `C55_evicted_under_task`); an exception that cannot be pickled ends
the process (`C64_unpicklable`). -/
theorem C55_answers_partial {rt : Runtime F V X} {r start : Int} {p : Proc.Proc F} (hr : Proc.Reach rt r start p) :
    Always (Proper rt) p.log := hr.inv.ok

/-- If the two threads do not meet, and the agent passes on only responses for the function asked for, a task
fails only with the exception that the registered function raised on the task's arguments. -/
theorem C55_answers_exactly {rt : Runtime F V X} {r start : Int} {p : Proc.Proc F} (hr : ReachAlone rt r start p) :
    Always (ProperExactly rt) p.log := hr.quiet.ok

/-- A task is answered at most once (the empty id is the announcement of the processor). -/
theorem C55_once {rt : Runtime F V X} {r start : Int} {p : Proc.Proc F} (hr : Proc.Reach rt r start p) {t : Bytes} (ht : t ≠ []) :
    times (isAnswer t) p.log ≤ times (isTask t) p.log := by
  have := hr.inv.count t ht
  omega

/-- Task 1 asks for the function and gets 2 + 10 + 20, task 2 finds it in the cache and gets 2 + 30. -/
example : procWitness 100 0 [⟨.recv (.task k1), 1⟩, fn [2] 2, work 3, work 4, work 5, work 6, ⟨.recv (.task k2), 7⟩, work 8,
      ⟨.clean, 9⟩, work 10, work 11, work 12] (fun p => p.log.map (·.2)) =
    some [.sent sentinel, .recv (.task k1), .sent (.functionRequest .request [70] [] []),
      .recv (.functionResponse .ok [70] [] [2]), .stamped [70], .used [70], .stamped [70], .sent (.taskResult [1] .success 0 [32]),
      .recv (.task k2), .used [70], .stamped [70], .scan, .used [70], .stamped [70], .sent (.taskResult [2] .success 0 [32])] := by
  decide +kernel

/-- The function raises 5. -/
example : procWitness 100 0 [⟨.recv (.task k1), 1⟩, fn [0] 2, work 3, work 4, work 5, work 6] (fun p => p.log.getLast?) =
    some (some (6, .sent (.taskResult [1] .failed 0 [5]))) := by decide +kernel

/-- A function that is in the cache and returns makes a task fail: retention 10, last use at 6, the cleaner
looks at time 20, the task arrives at 21 and finds the function, the cleaner evicts it at 22, and the task is
answered with the exception of calling `None`. -/
theorem C55_evicted_under_task : ∃ p, Proc.Reach toy 10 0 p ∧
    (p.log.drop 8).map (·.2) = [.scan, .recv (.task k2), .used [70], .evicted [70], .stamped [70],
      .sent (.taskResult [2] .failed 0 [7])] ∧
    FunctionOf toy p.log k2 2 ∧ Returns toy 2 k2.args [32] ∧ ∀ vs c x, toy.call 2 vs c ≠ .error x := by
  have h : procWitness 10 0 [⟨.recv (.task k1), 1⟩, fn [2] 2, work 3, work 4, work 5, work 6, ⟨.clean, 20⟩,
      ⟨.recv (.task k2), 21⟩, ⟨.clean, 22⟩, ⟨.clean, 22⟩, work 23, work 24, work 25]
      (fun p => decide ((p.log.drop 8).map (·.2) = [.scan, .recv (.task k2), .used [70], .evicted [70], .stamped [70],
        .sent (.taskResult [2] .failed 0 [7])] ∧ registered [70] p.log = some [2])) = some true := by decide +kernel
  obtain ⟨p, hp, hf⟩ := procWitness_sound h
  obtain ⟨h1, h2⟩ := of_decide_eq_true hf
  refine ⟨p, hp, h1, ⟨[2], h2, rfl⟩, ⟨[30], 0, 32, .cons rfl .nil, rfl, rfl⟩, ?_⟩
  intro vs c x e
  simp [toy] at e

/-! ### C56 -/

/-- A function leaves the cache only by the cleaner or because the scheduler asked for it. -/
theorem C56_gone {rt : Runtime F V X} {r start : Int} {p p' : Proc.Proc F} (hr : Proc.Reach rt r start p) {e : Proc.Event}
    (hs : p.step rt e = .ok p') {fid : Bytes} (h : fid ∈ p.functions.keys) (h' : fid ∉ p'.functions.keys) :
    p'.log = p.log ++ [(e.now, .evicted fid)] ∨ ∃ nm c, lastReceived p.log = some (.functionRequest .delete fid nm c) := by
  have g := hr.inv
  have same : p'.functions = p.functions → False := fun e => h' (e ▸ h)
  unfold Proc.Proc.step at hs
  split at hs
  · next m _ =>
    split at hs
    · next hm =>
      exfalso
      cases m with
      | task k =>
        simp only [Proc.Proc.receive] at hs
        cases hs
        apply same
        unfold Proc.Proc.onTask
        split <;> rfl
      | functionRequest ty i nm c =>
        simp only [Proc.Proc.receive] at hs
        cases hs
        apply same
        unfold Proc.Proc.onFunctionRequest
        split <;> rfl
      | functionResponse st i nm c =>
        simp only [Proc.Proc.receive, Proc.Proc.onFunctionResponse] at hs
        split at hs
        · next q hq =>
          cases hs
          split at hq
          · cases hq
            apply h'
            simp only [Dict.mem_keys_isSome, Dict.get?_set] at h ⊢
            split
            · rfl
            · exact h
          · cases hq
        · cases hs
      | _ => simp only [Proc.Proc.receive] at hs; cases hs; exact same rfl
    · cases hs; exact (same rfl).elim
  · unfold Proc.Proc.work at hs
    split at hs
    · cases hs; exact (same rfl).elim
    · cases hs; exact (same rfl).elim
    · split at hs
      · cases hs; exact (same rfl).elim
      · cases hs; exact (same rfl).elim
    · cases hs; exact (same rfl).elim
    · unfold Proc.Proc.answer at hs
      split at hs
      · cases hs; exact (same rfl).elim
      · split at hs
        · cases hs; exact (same rfl).elim
        · cases hs
    · split at hs
      · cases hs; exact (same rfl).elim
      · cases hs
    · next i hm =>
      cases hs
      by_cases ei : i = fid
      · subst ei; exact Or.inr (g.del i hm)
      · exfalso
        apply h'
        simp only [Dict.mem_keys_isSome, Dict.get?_erase, ei, if_false] at h ⊢
        exact h
  · cases hs
    unfold Proc.Proc.clean at h' same ⊢
    split at h'
    · next hc => rw [hc] at same; exact (same rfl).elim
    · next hc => rw [hc] at same; exact (same rfl).elim
    · next hc => rw [hc] at same; exact (same rfl).elim
    · next i ids hc =>
      by_cases ei : i = fid
      · subst ei
        left
        have : p.functions.has i = true := Dict.has_iff.2 h
        simp only [this, if_true]
        rfl
      · exfalso
        apply h'
        simp only [Dict.mem_keys_isSome, Dict.get?_erase, ei, if_false] at h ⊢
        exact h

/-- Full statement: an evicted function was unused for longer than the retention time, and both tables have the
same functions whenever no thread is changing them.  What holds in the code: its last *recorded* use was that long
before the cleaner *looked*; every cached function has a recorded use.  Missing: the function may be used after the
cleaner looked (`C56_evicted_in_use`), and a record may stay without a function (`C56_left_behind`). -/
theorem C56_evict_partial {rt : Runtime F V X} {r start : Int} {p : Proc.Proc F} (hr : Proc.Reach rt r start p) :
    Always (EvictProper r) p.log ∧
    (p.main = .idle → p.cleaner = .asleep → ∀ fid ∈ p.functions.keys, fid ∈ p.alive.keys) := by
  refine ⟨hr.inv.ev, ?_⟩
  intro hm hc fid h
  rw [Dict.mem_keys_isSome] at h ⊢
  rcases hr.inv.sub fid h with h | h | h
  · exact h
  · rw [hm] at h; cases h
  · rw [hc] at h; cases h

/-- If the threads do not meet, the full statement holds. -/
theorem C56_evict_alone {rt : Runtime F V X} {r start : Int} {p : Proc.Proc F} (hr : ReachAlone rt r start p) :
    Always (EvictUnused r) p.log ∧
    (p.main = .idle → p.cleaner = .asleep → ∀ fid, fid ∈ p.functions.keys ↔ fid ∈ p.alive.keys) := by
  refine ⟨hr.quiet.ev, ?_⟩
  intro hm hc fid
  rw [Dict.mem_keys_isSome, Dict.mem_keys_isSome]
  exact hr.quiet.step fid (by rw [hm]; simp [Main.pending]) (by rw [hc]; simp [Cleaner.pending])

/-- With retention time 10, a function used and recorded at time 23 is evicted at time 24. -/
theorem C56_evicted_in_use : ∃ p, Proc.Reach toy 10 0 p ∧ ∃ l, p.log = l ++ [(24, .evicted [70])] ∧ lastStamp [70] l = some 23 := by
  have h : procWitness 10 0 [⟨.recv (.task k1), 1⟩, fn [2] 2, work 3, work 4, work 5, work 6, ⟨.clean, 20⟩,
      ⟨.recv (.task k2), 21⟩, work 22, work 23, work 23, ⟨.clean, 24⟩, ⟨.clean, 24⟩]
      (fun p => decide (p.log = p.log.dropLast ++ [(24, .evicted [70])] ∧ lastStamp [70] p.log.dropLast = some 23)) = some true := by
    decide +kernel
  obtain ⟨p, hp, hf⟩ := procWitness_sound h
  obtain ⟨h1, h2⟩ := of_decide_eq_true hf
  exact ⟨p, hp, p.log.dropLast, h1, h2⟩

/-- Both threads are at rest and the tables differ. -/
theorem C56_left_behind : ∃ p, Proc.Reach toy 10 0 p ∧ p.main = .idle ∧ p.cleaner = .asleep ∧
    [70] ∈ p.alive.keys ∧ [70] ∉ p.functions.keys := by
  have h : procWitness 10 0 [⟨.recv (.task k1), 1⟩, fn [2] 2, work 3, work 4, work 5, work 6, ⟨.clean, 20⟩,
      ⟨.recv (.task k2), 21⟩, ⟨.clean, 22⟩, ⟨.clean, 22⟩, ⟨.clean, 22⟩, work 23, work 24, work 25]
      (fun p => decide ((p.main = .idle ∧ p.cleaner = .asleep) ∧ [70] ∈ p.alive.keys ∧ [70] ∉ p.functions.keys)) = some true := by
    decide +kernel
  obtain ⟨p, hp, hf⟩ := procWitness_sound h
  obtain ⟨h1, h2⟩ := of_decide_eq_true hf
  exact ⟨p, hp, h1.1, h1.2, h2⟩

/-- The cleaner evicts a function that was not used for 14 seconds; a deleted function is gone. -/
example : procWitness 10 0 [⟨.recv (.task k1), 1⟩, fn [2] 2, work 3, work 4, work 5, work 6, ⟨.clean, 15⟩, ⟨.clean, 15⟩,
      ⟨.clean, 20⟩, ⟨.clean, 20⟩, ⟨.clean, 20⟩] (fun p => (p.functions.keys, p.alive.keys, p.log.getLast?)) =
    some ([], [], some (20, .evicted [70])) := by decide +kernel

example : procWitness 10 0 [⟨.recv (.task k1), 1⟩, fn [2] 2, work 3, work 4, work 5, work 6,
      ⟨.recv (.functionRequest .delete [70] [] []), 7⟩, work 8] (fun p => (p.functions.keys, p.alive.keys)) = some ([], []) := by
  decide +kernel

/-- A check for `Alone`. -/
def aloneCheck (p : Proc.Proc Nat) (e : Proc.Event) : Bool :=
  match e.op with
  | .clean => decide (p.main = .idle)
  | .work .. => true
  | .recv m => decide (p.cleaner = .asleep) &&
      match m with
      | .functionResponse _ fid _ _ => p.task.any fun k => decide (k.functionId = fid)
      | _ => true

theorem aloneCheck_sound {p : Proc.Proc Nat} {e : Proc.Event} (h : aloneCheck p e = true) : Alone p e := by
  unfold aloneCheck at h
  unfold Alone
  split
  · next he => rw [he] at h; exact of_decide_eq_true h
  · trivial
  · next m he =>
    rw [he] at h
    simp only [Bool.and_eq_true, decide_eq_true_eq] at h
    refine ⟨h.1, ?_⟩
    cases m <;> first | trivial | skip
    have h2 := h.2
    simp only [Option.any_eq_true, decide_eq_true_eq] at h2 ⊢
    exact h2

/-- The state after events at which the threads do not meet. -/
def aloneRun : Proc.Proc Nat → List Proc.Event → Option (Proc.Proc Nat)
  | p, [] => some p
  | p, e :: es => if aloneCheck p e then match p.step toy e with
    | .ok q => aloneRun q es
    | .error _ => none else none

theorem aloneRun_sound {r start : Int} : ∀ {es : List Proc.Event} {p q : Proc.Proc Nat}, ReachAlone toy r start p →
    aloneRun p es = some q → ReachAlone toy r start q
  | [], p, q, h, e => by cases e; exact h
  | ev :: es, p, q, h, e => by
    unfold aloneRun at e
    split at e
    · next hc =>
      split at e
      · next q' hq => exact aloneRun_sound (.step ev h (aloneCheck_sound hc) hq) e
      · cases e
    · cases e

/-- Threads that do not meet: two tasks are answered and the function is evicted later. -/
example : ∃ p, ReachAlone toy 10 0 p ∧ p.main = .idle ∧ times (isAnswer [1]) p.log = 1 ∧ times (isAnswer [2]) p.log = 1 ∧
    ∃ l, p.log = l ++ [(30, .evicted [70])] := by
  have h : (aloneRun (Proc.Proc.init 10 0) [⟨.recv (.task k1), 1⟩, fn [2] 2, work 3, work 4, work 5, work 6, ⟨.clean, 7⟩, ⟨.clean, 7⟩,
      ⟨.recv (.task k2), 8⟩, work 9, work 9, work 9, work 9, ⟨.clean, 30⟩, ⟨.clean, 30⟩, ⟨.clean, 30⟩]).map
      (fun p => decide ((p.main = .idle ∧ times (isAnswer [1]) p.log = 1) ∧ times (isAnswer [2]) p.log = 1 ∧
        p.log = p.log.dropLast ++ [(30, .evicted [70])])) = some true := by decide +kernel
  rw [Option.map_eq_some_iff] at h
  obtain ⟨p, hp, hf⟩ := h
  obtain ⟨h1, h2⟩ := of_decide_eq_true hf
  exact ⟨p, aloneRun_sound .init hp, h1.1, h1.2, h2.1, _, h2.2⟩

/-! ### C64 -/

/-- Full statement: the processor answers every task it works on.  Missing in the code: exactly these three cases,
which end the process, and nothing tells the agent. -/
theorem C64_dies_partial {rt : Runtime F V X} {r start : Int} {p : Proc.Proc F} (_ : Proc.Reach rt r start p) {e : Proc.Event} {d : Died X} :
    p.step rt e = .error d ↔
      (∃ st fid nm c x, e.op = .recv (.functionResponse st fid nm c) ∧ p.main = .idle ∧ rt.loadFn c = .error x ∧ d = .uncaught x) ∨
      (∃ c dur k f x, e.op = .work c dur ∧ p.main = .call k f ∧ evaluate rt k f c = .error x ∧ rt.dumpExc x = none ∧
        d = .unpicklable x) ∨
      (∃ c dur fid, e.op = .work c dur ∧ p.main = .added fid ∧ p.task = none ∧ d = .noTask) := by
  constructor
  · intro h
    unfold Proc.Proc.step at h
    split at h
    · next m he =>
      split at h
      · next hm =>
        cases m with
        | functionResponse st fid nm c =>
          simp only [Proc.Proc.receive, Proc.Proc.onFunctionResponse] at h
          cases hl : rt.loadFn c with
          | ok f => rw [hl] at h; cases h
          | error x => rw [hl] at h; cases h; exact Or.inl ⟨st, fid, nm, c, x, he, hm, hl, rfl⟩
        | _ => simp only [Proc.Proc.receive] at h; cases h
      · cases h
    · next c dur he =>
      unfold Proc.Proc.work at h
      split at h
      · cases h
      · cases h
      · split at h <;> cases h
      · cases h
      · next k f hm =>
        unfold Proc.Proc.answer at h
        split at h
        · cases h
        · next x hx =>
          split at h
          · cases h
          · next hd => cases h; exact Or.inr (Or.inl ⟨c, dur, k, f, x, he, hm, hx, hd, rfl⟩)
      · next fid hm =>
        split at h
        · cases h
        · next ht => cases h; exact Or.inr (Or.inr ⟨c, dur, fid, he, hm, ht, rfl⟩)
      · cases h
    · cases h
  · intro h
    rcases h with ⟨st, fid, nm, c, x, he, hm, hl, rfl⟩ | ⟨c, dur, k, f, x, he, hm, hx, hd, rfl⟩ | ⟨c, dur, fid, he, hm, ht, rfl⟩
    · simp [Proc.Proc.step, he, hm, Proc.Proc.receive, Proc.Proc.onFunctionResponse, hl]
    · simp [Proc.Proc.step, he, hm, Proc.Proc.work, Proc.Proc.answer, hx, hd]
    · simp [Proc.Proc.step, he, hm, Proc.Proc.work, ht]

/-- How many steps of the main thread remain. -/
def remaining : Main F → Nat
  | .idle => 0
  | .call .. => 1
  | .stamp2 .. => 2
  | .fetch _ => 3
  | .stamp _ => 4
  | .added _ => 4
  | .del2 _ => 1

/-- Each step of the main thread brings it closer to the end of the message, whatever the cleaner does in between;
at the last step for a task its answer is sent. -/
theorem C64_progress {rt : Runtime F V X} {p p' : Proc.Proc F} {now : Int} {c : Nat} {dur : UInt32} (hm : p.main ≠ .idle)
    (hs : p.step rt ⟨.work c dur, now⟩ = .ok p') :
    remaining p'.main < remaining p.main ∧
    (∀ k, p.main.task? = some k → p'.main.task? = some k ∨
      (p'.main = .idle ∧ ∃ st r, p'.log = p.log ++ [(now, .sent (.taskResult k.taskId st dur r))])) ∧
    (∀ fid k, p.main = .added fid → p.task = some k → p'.main.task? = some k) ∧
    ∀ now', (p.clean now').main = p.main ∧ (p.clean now').task = p.task := by
  refine ⟨?_, ?_, ?_, ?_⟩
  · simp only [Proc.Proc.step, Proc.Proc.work] at hs
    split at hs
    · next h => exact (hm h).elim
    · next h => cases hs; rw [h]; simp [remaining]
    · next h => rw [h]; split at hs <;> (cases hs; simp [remaining])
    · next h => cases hs; rw [h]; simp [remaining]
    · next h =>
      rw [h]
      unfold Proc.Proc.answer at hs
      split at hs
      · cases hs; simp [remaining]
      · split at hs
        · cases hs; simp [remaining]
        · cases hs
    · next h => rw [h]; split at hs <;> (cases hs; try simp [remaining])
    · next h => cases hs; rw [h]; simp [remaining]
  · intro k hk
    simp only [Proc.Proc.step, Proc.Proc.work] at hs
    split at hs
    · next h => exact (hm h).elim
    · next h => cases hs; rw [h] at hk; cases hk; exact Or.inl rfl
    · next h => rw [h] at hk; cases hk; split at hs <;> (cases hs; exact Or.inl rfl)
    · next h => cases hs; rw [h] at hk; cases hk; exact Or.inl rfl
    · next h =>
      rw [h] at hk; cases hk
      right
      unfold Proc.Proc.answer at hs
      split at hs
      · cases hs; exact ⟨rfl, _, _, rfl⟩
      · split at hs
        · cases hs; exact ⟨rfl, _, _, rfl⟩
        · cases hs
    · next h => rw [h] at hk; cases hk
    · next h => rw [h] at hk; cases hk
  · intro fid k h hk
    simp only [Proc.Proc.step, Proc.Proc.work, h, hk] at hs
    cases hs; rfl
  · intro now'
    unfold Proc.Proc.clean
    split
    · exact ⟨rfl, rfl⟩
    · exact ⟨rfl, rfl⟩
    · exact ⟨rfl, rfl⟩
    · simp only; split <;> exact ⟨rfl, rfl⟩

/-- The process ends after some events. -/
def procDies (r start : Int) (es : List Proc.Event) (e : Proc.Event) : Option (Died Nat) :=
  match (Proc.Proc.init r start : Proc.Proc Nat).run toy es with
  | .error _ => none
  | .ok a =>
    match a.step toy e with
    | .ok _ => none
    | .error d => some d

theorem procDies_sound {r start : Int} {es : List Proc.Event} {e : Proc.Event} {d : Died Nat} (h : procDies r start es e = some d) :
    ∃ p : Proc.Proc Nat, Proc.Reach toy r start p ∧ (Proc.Proc.init r start : Proc.Proc Nat).run toy es = .ok p ∧ p.step toy e = .error d := by
  unfold procDies at h
  split at h
  · cases h
  next a ha =>
  split at h
  · cases h
  next d' hd =>
  cases h
  exact ⟨a, proc_run_reach .init ha, ha, hd⟩

/-- A task whose function cannot be loaded is never answered: the process ends. -/
theorem C64_unloadable : ∃ p : Proc.Proc Nat, Proc.Reach toy 100 0 p ∧ p.task = some k1 ∧
    p.step toy (fn [] 2) = .error (.uncaught 1) := by
  obtain ⟨p, h1, h2, h3⟩ := procDies_sound (r := 100) (start := 0) (es := [⟨.recv (.task k1), 1⟩]) (e := fn [] 2) (d := .uncaught 1) (by decide +kernel)
  refine ⟨p, h1, ?_, h3⟩
  cases h2; rfl

/-- A task whose function raises an exception that cannot be pickled is never answered: the process ends. -/
theorem C64_unpicklable : ∃ p : Proc.Proc Nat, Proc.Reach toy 100 0 p ∧ p.main.task? = some k1 ∧
    p.step toy (work 6) = .error (.unpicklable 6) := by
  obtain ⟨p, h1, h2, h3⟩ := procDies_sound (r := 100) (start := 0)
    (es := [⟨.recv (.task k1), 1⟩, fn [1] 2, work 3, work 4, work 5]) (e := work 6) (d := .unpicklable 6) (by decide +kernel)
  refine ⟨p, h1, ?_, h3⟩
  rcases (C64_dies_partial h1).1 h3 with ⟨_, _, _, _, _, _, _, _, e⟩ | ⟨c, dur, k, f, x, _, hm, _⟩ | ⟨_, _, _, _, _, _, e⟩
  · cases e
  · have : (Proc.Proc.init 100 0 : Proc.Proc Nat).run toy [⟨.recv (.task k1), 1⟩, fn [1] 2, work 3, work 4, work 5] = .ok p := h2
    cases this; rfl
  · cases e

/-- A second response for the same function ends the process. -/
theorem C64_second_response : ∃ p : Proc.Proc Nat, Proc.Reach toy 100 0 p ∧ p.task = none ∧ p.step toy (work 8) = .error .noTask := by
  obtain ⟨p, h1, h2, h3⟩ := procDies_sound (r := 100) (start := 0)
    (es := [⟨.recv (.task k1), 1⟩, fn [2] 2, work 3, work 4, work 5, work 6, fn [2] 7]) (e := work 8) (d := .noTask) (by decide +kernel)
  refine ⟨p, h1, ?_, h3⟩
  rcases (C64_dies_partial h1).1 h3 with ⟨_, _, _, _, _, _, _, _, e⟩ | ⟨_, _, _, _, _, _, _, _, _, e⟩ | ⟨_, _, _, _, _, h, _⟩
  · cases e
  · cases e
  · exact h

/-- A processor first says that it is there, with the result of a task without id. -/
theorem C64_announced {rt : Runtime F V X} {r start : Int} {p : Proc.Proc F} (hr : Proc.Reach rt r start p) :
    ∃ l, p.log = (start, .sent (.taskResult [] .success 0 [])) :: l := by
  induction hr with
  | init => exact ⟨[], rfl⟩
  | step e _ hs ih =>
    obtain ⟨l, hl⟩ := ih
    obtain ⟨xs, ys, h, -⟩ := Verif.Proc.step_log hs
    exact ⟨l ++ xs ++ ys, by rw [h, hl]; simp⟩

end Verif.Props
