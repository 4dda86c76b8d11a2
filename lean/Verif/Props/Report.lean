import Verif.Props.SchedView
import Verif.Sched.Exec
import Verif.Spec.Report

/-!
# C66: the rows of the status report; C67: answers to function requests
-/

namespace Verif.Props

open Verif.Queue Verif.Util Verif.Wire Verif.Sched Verif.Spec
open Verif.Sched.Sched (decodeText clientRows functionRows workerRows Report)

theorem lastHeartbeat_snoc (w : Bytes) (es : List Event) (e : Event) :
    lastHeartbeat w (es ++ [e]) =
      match e.beat with | some (w', h) => if w' = w then some (e.now, h) else lastHeartbeat w es | none => lastHeartbeat w es := by
  obtain ⟨op, now, o⟩ := e
  unfold lastHeartbeat Event.beat
  rw [List.reverse_append]
  simp only [List.reverse_cons, List.reverse_nil, List.nil_append, List.cons_append, List.findSome?_cons]
  cases op with
  | recv w' m =>
    cases m with
    | heartbeat h =>
      simp only
      by_cases hw : w' = w
      · simp [hw]
      · simp [hw]
    | _ => rfl
  | _ => rfl

theorem exec_heartbeat {cfg : Config} {es : List Event} {l : Log} {s : Sched} (h : Exec cfg es l s) :
    ∀ w x, s.wm.alive.get? w = some x → lastHeartbeat w es = some x := by
  induction h with
  | init => intro w x hx; cases hx
  | @step es l s s' e hr ha hs ih =>
    intro w x hx
    rw [lastHeartbeat_snoc]
    have hg := hr.reach.good
    rcases step_alive hg.conc hg.settled hs w with ⟨hb, h1, h2⟩ | ⟨h1, h2⟩
    · rw [h1]
      rw [h2] at hx
      cases hx
      simp
    · have hold : s.wm.alive.get? w = some x := by
        rcases h2 with h2 | h2
        · rw [h2] at hx; cases hx
        · rw [← h2]; exact hx
      cases hb : e.beat with
      | none => exact ih w x hold
      | some p =>
        obtain ⟨w', hb'⟩ := p
        simp only
        rw [if_neg]
        · exact ih w x hold
        · rintro rfl
          exact h1 hb' hb

theorem decodeText_ok {b n : Bytes} (h : decodeText b = .ok n) : n = b := by
  unfold decodeText at h
  split at h <;> cases h
  rfl

theorem clientRows_ok {l : List (Bytes × PySet Bytes)} {rows : List (Bytes × Nat)} (h : clientRows l = .ok rows) :
    rows = l.map fun p => (p.1, p.2.size) := by
  induction l generalizing rows with
  | nil => cases h; rfl
  | cons p l ih =>
    simp only [clientRows, Py.bind_ok] at h
    obtain ⟨n, hn, r, hr, h⟩ := h
    cases h
    rw [decodeText_ok hn, ih hr]; rfl

theorem functionRows_ok {funcs : Dict Bytes FuncInfo} {l : List (Bytes × PySet Bytes)} {rows : List (Bytes × Nat)}
    (h : functionRows funcs l = .ok rows) :
    ∀ r, r ∈ rows ↔ ∃ p ∈ l, ∃ i, funcs.get? p.1 = some i ∧ r = (i.name, p.2.size) := by
  induction l generalizing rows with
  | nil => cases h; simp
  | cons p l ih =>
    simp only [functionRows, Py.bind_ok] at h
    obtain ⟨i, hi, n, hn, r, hr, h⟩ := h
    cases h
    rw [Dict.getPy_ok] at hi
    intro x
    rw [decodeText_ok hn, List.mem_cons, ih hr]
    simp only [List.mem_cons, exists_eq_or_imp, hi, Option.some.injEq, exists_eq_left']

theorem workerRows_ok {stats : Dict Bytes (Int × Int)} {now : Int} {l : List (Bytes × Int × Heartbeat)}
    {rows : List (Bytes × (Int × Int) × Heartbeat × Int)} (h : workerRows stats now l = .ok rows) :
    rows.map (·.1) = l.map (·.1) ∧
    ∀ r ∈ rows, ∃ p ∈ l, ∃ n, stats.get? p.1 = some n ∧ r = (p.1, n, p.2.2, now - p.2.1) := by
  induction l generalizing rows with
  | nil => cases h; simp
  | cons p l ih =>
    simp only [workerRows, Py.bind_ok] at h
    obtain ⟨w, hw, n, hn, r, hr, h⟩ := h
    cases h
    rw [Dict.getPy_ok] at hn
    obtain ⟨h1, h2⟩ := ih hr
    rw [decodeText_ok hw]
    refine ⟨by simp [h1], ?_⟩
    intro x hx
    rcases List.mem_cons.1 hx with rfl | hx
    · exact ⟨p, List.mem_cons_self, n, hn, rfl⟩
    · obtain ⟨p', hp, n', hn', e⟩ := h2 x hx
      exact ⟨p', List.mem_cons_of_mem _ hp, n', hn', e⟩

/-- What a dictionary built from a list of pairs holds. -/
theorem ofList_get? {l : List (Bytes × Nat)} {k : Bytes} {v : Nat} (h : (Dict.ofList l).get? k = some v) : (k, v) ∈ l := by
  rw [Dict.ofList] at h
  suffices hs : ∀ (l : List (Bytes × Nat)) (d : Dict Bytes Nat),
      (l.foldl (fun d p => d.set p.1 p.2) d).get? k = some v → d.get? k = some v ∨ (k, v) ∈ l by
    rcases hs l _ h with h | h
    · cases h
    · exact h
  intro l
  induction l with
  | nil => intro d h; exact .inl h
  | cons p l ih =>
    intro d h
    rcases ih _ h with h' | h'
    · rw [Dict.get?_set] at h'
      split at h'
      · next hk =>
        have := Option.some.inj h'
        subst hk this
        exact .inr List.mem_cons_self
      · exact .inl h'
    · exact .inr (List.mem_cons_of_mem _ h')

theorem ofList_has {l : List (Bytes × Nat)} {k : Bytes} {v : Nat} (h : (k, v) ∈ l) : ∃ v', (Dict.ofList l).get? k = some v' := by
  rw [Dict.ofList]
  suffices hs : ∀ (l : List (Bytes × Nat)) (d : Dict Bytes Nat),
      (∃ v', d.get? k = some v') ∨ (k, v) ∈ l → ∃ v', (l.foldl (fun d p => d.set p.1 p.2) d).get? k = some v' from
    hs l _ (.inr h)
  intro l
  induction l with
  | nil =>
    rintro d (h | h)
    · exact h
    · cases h
  | cons p l ih =>
    intro d h
    apply ih
    by_cases hk : p.1 = k
    · exact .inl ⟨p.2, by rw [Dict.get?_set, if_pos hk]⟩
    · rcases h with ⟨v', h⟩ | h
      · exact .inl ⟨v', by rw [Dict.get?_set, if_neg hk]; exact h⟩
      · rcases List.mem_cons.1 h with rfl | h
        · exact absurd rfl hk
        · exact .inr h

theorem Counts.ofSet {P : Bytes → Prop} {ts : PySet Bytes} (h : ∀ t, t ∈ ts ↔ P t) : Counts P ts.size :=
  ⟨ts.items, ts.nodup, h, rfl⟩

theorem Counts.unique {P : Bytes → Prop} {n m : Int} (h1 : Counts P n) (h2 : Counts P m) : n = m := by
  obtain ⟨a, a1, a2, rfl⟩ := h1
  obtain ⟨b, b1, b2, rfl⟩ := h2
  have : a.Perm b := (List.perm_ext_iff_of_nodup a1 b1).2 fun t => by rw [a2, b2]
  rw [this.length_eq]

/-- **C66.** When a report is made:
* there is exactly one row per connected worker;
* it says how many tasks the worker has been given, how many more it may get, the figures of its last
  heartbeat and how long ago that was;
* the client table has the clients that own a task or graph, with the number of those. -/
theorem C66_rows (cfg : Config) (es : List Event) (l : Log) (s : Sched) (hx : Exec cfg es l s) (now : Int) (r : Report)
    (h : s.report now = .ok r) :
    (r.workers.map (·.1)).Nodup ∧
    (∀ w, w ∈ r.workers.map (·.1) ↔ Connected s w) ∧
    (∀ w free given hb age, (w, (free, given), hb, age) ∈ r.workers →
      Counts (fun t => workerOf s t = some w) given ∧ free + given = cfg.queueSize ∧
      lastHeartbeat w es = some (now - age, hb)) ∧
    (∀ c n, r.clients.get? c = some n ↔ Counts (fun t => ownerOf s t = some c) n ∧ n ≠ 0) := by
  have hg := hx.reach.good
  simp only [Sched.report, Py.bind_ok] at h
  obtain ⟨cr, hcr, fr, hfr, wr, hwr, h⟩ := h
  cases h
  obtain ⟨w1, w2⟩ := workerRows_ok hwr
  have hk : (s.wm.alloc.statistics.map (·.1)) = s.wm.alloc.w2t.keys := by
    simp [Alloc.statistics, Dict.keys]
  have hn : (s.wm.alloc.statistics.map (·.1)).Nodup := by rw [hk]; exact Dict.nodup_keys _
  refine ⟨?_, ?_, ?_, ?_⟩
  · simp only; rw [w1]; exact Dict.nodup_keys _
  · intro w
    simp only; rw [w1]
    exact (Dict.has_iff ..).symm
  · intro w free given hb age hm
    obtain ⟨⟨w', t, hb'⟩, hp, n, hn', e⟩ := w2 _ hm
    cases e
    have hmem := Dict.mem_items.2 hn'
    rw [Dict.ofList_items hn] at hmem
    simp only [Alloc.statistics, List.mem_map] at hmem
    obtain ⟨⟨w', ts⟩, hq, e⟩ := hmem
    cases e
    have hts := Dict.mem_items.1 hq
    refine ⟨?_, ?_, ?_⟩
    · apply Counts.ofSet
      intro t
      rw [show (workerOf s t = some _) ↔ _ from hg.conc.alloc.agree t _]
      constructor
      · intro ht; exact ⟨ts, hts, ht⟩
      · rintro ⟨ts', h1, h2⟩
        rw [hts] at h1; cases h1; exact h2
    · have h1 := hg.conc.max
      have h2 : s.cfg = cfg := hg.cfg
      rw [← h2, ← h1]; omega
    · rw [exec_heartbeat hx _ _ (Dict.mem_items.1 hp), Option.some.injEq, Prod.mk.injEq]
      exact ⟨by simp only; omega, rfl⟩
  · intro c n
    rw [clientRows_ok hcr]
    have hnd : ((s.clients.k2v.items.map fun p => (p.1, p.2.size)).map (·.1)).Nodup := by
      rw [List.map_map]
      exact Dict.nodup_keys s.clients.k2v
    simp only
    rw [← Dict.mem_items, Dict.ofList_items hnd]
    simp only [List.mem_map, Prod.mk.injEq]
    have hset : ∀ ts, s.clients.k2v.get? c = some ts → ∀ t, t ∈ ts ↔ ownerOf s t = some c := by
      intro ts hts t
      rw [show ownerOf s t = some c ↔ _ from hg.conc.clients.agree c t]
      constructor
      · intro ht; exact ⟨ts, hts, ht⟩
      · rintro ⟨ts', h1, h2⟩
        rw [hts] at h1; cases h1; exact h2
    constructor
    · rintro ⟨⟨c', ts⟩, hp, rfl, rfl⟩
      have hts := Dict.mem_items.1 hp
      refine ⟨Counts.ofSet (hset ts hts), ?_⟩
      obtain ⟨t, ht⟩ := hg.conc.clients.nonempty _ _ hts
      simp only [PySet.size]
      exact fun h0 => by rw [List.length_eq_zero_iff] at h0; have : t ∈ ts.items := ht; simp [h0] at this
    · rintro ⟨h1, h2⟩
      obtain ⟨us, u1, u2, u3⟩ := h1
      have : us ≠ [] := by rintro rfl; simp at u3; exact h2 (by omega)
      obtain ⟨t, ht⟩ := List.exists_mem_of_ne_nil us this
      obtain ⟨ts, hts, _⟩ := (hg.conc.clients.agree c t).1 ((u2 t).1 ht)
      refine ⟨(c, ts), Dict.mem_items.2 hts, rfl, ?_⟩
      have := Counts.unique (Counts.ofSet (hset ts hts)) ⟨us, u1, u2, u3⟩
      show ts.size = n
      omega

/-- **C66.** The function table shows, under the name of a function that is in use, the number of uses of a
function of that name; hence the right number if no other function in use has that name. -/
theorem C66_functions_partial (cfg : Config) (l : Log) (s : Sched) (hr : Reach cfg l s) (now : Int) (r : Report)
    (h : s.report now = .ok r) :
    (∀ n k, r.functions.get? n = some k → ∃ f i, functionOf s f = some i ∧ i.name = n ∧ Counts (fun t => claimOf s t = some f) k ∧ k ≠ 0) ∧
    (∀ f i t, functionOf s f = some i → claimOf s t = some f →
      (∀ f' i' t', functionOf s f' = some i' → claimOf s t' = some f' → i'.name = i.name → f' = f) →
      ∃ k, r.functions.get? i.name = some k ∧ Counts (fun t => claimOf s t = some f) k) := by
  have hg := hr.good
  simp only [Sched.report, Py.bind_ok] at h
  obtain ⟨cr, hcr, fr, hfr, wr, hwr, h⟩ := h
  cases h
  have hrow := functionRows_ok hfr
  have hset : ∀ f ts, s.fm.uses.k2v.get? f = some ts → ∀ t, t ∈ ts ↔ claimOf s t = some f := by
    intro f ts hts t
    rw [show claimOf s t = some f ↔ _ from hg.conc.uses.agree f t]
    constructor
    · intro ht; exact ⟨ts, hts, ht⟩
    · rintro ⟨ts', h1, h2⟩
      rw [hts] at h1; cases h1; exact h2
  have first : ∀ n k, (Dict.ofList fr).get? n = some k →
      ∃ f i, functionOf s f = some i ∧ i.name = n ∧ Counts (fun t => claimOf s t = some f) k ∧ k ≠ 0 ∧ ∃ t, claimOf s t = some f := by
    intro n k hk
    obtain ⟨⟨f, ts⟩, hp, i, hi, e⟩ := (hrow _).1 (ofList_get? hk)
    cases e
    have hts := Dict.mem_items.1 hp
    obtain ⟨t, ht⟩ := hg.conc.uses.nonempty _ _ hts
    refine ⟨f, i, hi, rfl, Counts.ofSet (hset f ts hts), ?_, t, (hset f ts hts t).1 ht⟩
    simp only [PySet.size]
    exact fun h0 => by rw [List.length_eq_zero_iff] at h0; have : t ∈ ts.items := ht; simp [h0] at this
  refine ⟨fun n k hk => ?_, ?_⟩
  · obtain ⟨f, i, h1, h2, h3, h4, _⟩ := first n k hk
    exact ⟨f, i, h1, h2, h3, h4⟩
  · intro f i t hi ht huniq
    obtain ⟨ts, hts, _⟩ := (hg.conc.uses.agree f t).1 ht
    obtain ⟨k, hk⟩ := ofList_has ((hrow (i.name, ts.size)).2 ⟨(f, ts), Dict.mem_items.2 hts, i, hi, rfl⟩)
    refine ⟨k, hk, ?_⟩
    obtain ⟨f', i', h1, h2, h3, _, t', ht'⟩ := first _ _ hk
    rw [huniq f' i' t' h1 ht' h2] at h3
    exact h3

def hb3 : Heartbeat := { hb0 with queuedTasks := 3 }

/-- A worker with one task and room for another, two clients, two functions. -/
def reportStory : List Event :=
  [addFn, ev (.recv cl (.functionRequest .add [71] [103] [3])), evAt 5 (.recv wk (.heartbeat hb3)),
   submit [1], turn, submit [2], ev (.recv [68] (.task ⟨[3], [71], []⟩))]

def reportOf (es : List Event) (now : Int) : Option Report := (runInit cfg0 es).bind fun p => (p.2.report now).toOption

example : ((reportOf reportStory 8).map fun r => (r.clients.items, r.functions.items)) =
      some ([(cl, 2), ([68], 1)], [([102], 2), ([103], 1)]) ∧
    (reportOf reportStory 8).map (·.workers) = some [(wk, (1, 1), hb3, 3)] := by
  constructor <;> decide +kernel

/-- **C66.** Two functions of the same name in use: the table shows the uses of one of them only. -/
theorem C66_same_name : ∃ es l s r, Exec cfg0 es l s ∧ s.report 0 = .ok r ∧ s.tm.tasks.size = 2 ∧
    r.functions.items = [([102], 1)] := by
  have h : ∃ p, runInit cfg0 [addFn, ev (.recv cl (.functionRequest .add [71] [102] [3])), submit [1],
      ev (.recv cl (.task ⟨[2], [71], []⟩))] = some p ∧ ∃ r, p.2.report 0 = .ok r ∧ p.2.tm.tasks.size = 2 ∧
        r.functions.items = [([102], 1)] := by
    refine ⟨_, rfl, _, rfl, ?_⟩
    decide +kernel
  obtain ⟨p, hp, r, h1, h2, h3⟩ := h
  obtain ⟨es, he⟩ := (runInit_reach hp).exec
  exact ⟨es, _, _, r, he, h1, h2, h3⟩

/-- **C67.** A check is answered with `OK` if the function is registered, else with `NotExists`, and changes nothing. -/
theorem C67_check (s : Sched) (e : Event) (c f n ct : Bytes) (he : e.op = .recv c (.functionRequest .check f n ct)) :
    ∃ st, s.step e = .ok { s with out := s.out ++ [(c, .functionResponse st f [] [])] } ∧
      ((functionOf s f).isSome → st = .ok) ∧ (functionOf s f = none → st = .notExists) := by
  obtain ⟨op, now, o⟩ := e
  cases he
  show ∃ st, Except.ok (s.functionCheck c f) = _ ∧ _
  unfold Sched.functionCheck Sched.functionResponse Sched.send functionOf
  split
  · next h => exact ⟨_, rfl, fun _ => rfl, fun h0 => by simp [Dict.has, h0] at h⟩
  · next h => exact ⟨_, rfl, fun h0 => absurd h0 (by simpa [Dict.has] using h), fun _ => rfl⟩

/-- **C67.** Adding a function is answered with `OK` and registers it if it is new; else with `Duplicated`, and then only
the time of the last use changes.  Nothing else in the scheduler changes. -/
theorem C67_add (s : Sched) (e : Event) (c f n ct : Bytes) (he : e.op = .recv c (.functionRequest .add f n ct)) :
    ∃ s' st, s.step e = .ok s' ∧ s'.out = s.out ++ [(c, .functionResponse st f [] [])] ∧
      (functionOf s f = none → st = .ok ∧ functionOf s' f = some ⟨n, ct, e.now⟩) ∧
      (∀ i, functionOf s f = some i → st = .duplicated ∧ functionOf s' f = some { i with aliveSince := e.now }) ∧
      (∀ f', f' ≠ f → functionOf s' f' = functionOf s f') ∧
      s' = { s with out := s'.out, fm := { s.fm with funcs := s'.fm.funcs } } := by
  obtain ⟨op, now, o⟩ := e
  cases he
  suffices h : ∃ st, (s.functionAdd c f n ct now).out = s.out ++ [(c, .functionResponse st f [] [])] ∧
      (functionOf s f = none → st = .ok ∧ functionOf (s.functionAdd c f n ct now) f = some ⟨n, ct, now⟩) ∧
      (∀ i, functionOf s f = some i →
        st = .duplicated ∧ functionOf (s.functionAdd c f n ct now) f = some { i with aliveSince := now }) ∧
      (∀ f', f' ≠ f → functionOf (s.functionAdd c f n ct now) f' = functionOf s f') ∧
      s.functionAdd c f n ct now =
        { s with out := (s.functionAdd c f n ct now).out, fm := { s.fm with funcs := (s.functionAdd c f n ct now).fm.funcs } } by
    obtain ⟨st, h⟩ := h
    exact ⟨_, st, rfl, h⟩
  unfold Sched.functionAdd functionOf
  cases h : s.fm.funcs.get? f with
  | none =>
    refine ⟨.ok, rfl, fun _ => ⟨rfl, ?_⟩, fun i hi => (by cases hi), ?_, rfl⟩
    · simp [Sched.functionResponse, Sched.send]
    · intro f' hf
      simp [Sched.functionResponse, Sched.send, Ne.symm hf]
  | some i =>
    refine ⟨.duplicated, rfl, fun h0 => (by cases h0), fun j hj => ?_, ?_, rfl⟩
    · cases hj
      simp [Sched.functionResponse, Sched.send]
    · intro f' hf
      simp [Sched.functionResponse, Sched.send, Ne.symm hf]

/-- Each answer occurs. -/
example : (runInit cfg0 [ev (.recv cl (.functionRequest .check fn [] [])), addFn, ev (.recv cl (.functionRequest .check fn [] [])), addFn]).map
      (fun p => p.2.out) =
    some [(cl, .functionResponse .notExists fn [] []), (cl, .functionResponse .ok fn [] []),
      (cl, .functionResponse .ok fn [] []), (cl, .functionResponse .duplicated fn [] [])] := by decide +kernel

/-! ### Which names are text -/

theorem utf8_head {c : Char} {b : Bytes} {l : List Nat} (h : b.map (·.toNat) = utf8Char c ++ l) :
    ∃ r : Bytes, r.map (·.toNat) = l ∧ Sched.utf8From 0 0x80 0xBF b = Sched.utf8From 0 0x80 0xBF r := by
  have hv := c.valid
  simp only [UInt32.isValidChar, Nat.isValidChar] at hv
  change c.toNat < 55296 ∨ 57343 < c.toNat ∧ c.toNat < 1114112 at hv
  unfold utf8Char at h
  generalize c.toNat = n at *
  simp only at h
  split at h
  · match b, h with
    | a :: r, h =>
      simp only [List.map_cons, List.cons_append, List.nil_append, List.cons.injEq] at h
      refine ⟨r, h.2, ?_⟩
      simp only [Sched.utf8From, UInt8.lt_iff_toNat_lt, UInt8.reduceToNat]
      rw [if_pos (by omega)]
  · split at h
    · match b, h with
      | [_], h => simp at h
      | a :: b :: r, h =>
        simp only [List.map_cons, List.cons_append, List.nil_append, List.cons.injEq] at h
        refine ⟨r, h.2.2, ?_⟩
        simp only [Sched.utf8From, UInt8.lt_iff_toNat_lt, UInt8.le_iff_toNat_le, UInt8.reduceToNat]
        rw [if_neg (by omega), if_neg (by omega), if_pos (by omega), decide_eq_true (by omega), decide_eq_true (by omega)]
        rfl
    · split at h
      · match b, h with
        | [_], h | [_, _], h => simp at h
        | a :: b :: c :: r, h =>
          simp only [List.map_cons, List.cons_append, List.nil_append, List.cons.injEq] at h
          refine ⟨r, h.2.2.2, ?_⟩
          simp only [Sched.utf8From, UInt8.lt_iff_toNat_lt, UInt8.le_iff_toNat_le, ← UInt8.toNat_inj, UInt8.reduceToNat]
          rw [if_neg (by omega), if_neg (by omega), if_neg (by omega), decide_eq_true (by omega : 128 ≤ c.toNat),
            decide_eq_true (by omega : c.toNat ≤ 191)]
          simp only [Bool.true_and]
          repeat' split
          all_goals first | omega | skip
          all_goals
            rw [decide_eq_true (by omega), decide_eq_true (by omega)]
            rfl
      · match b, h with
        | [_], h | [_, _], h | [_, _, _], h => simp at h
        | a :: b :: c :: d :: r, h =>
          simp only [List.map_cons, List.cons_append, List.nil_append, List.cons.injEq] at h
          refine ⟨r, h.2.2.2.2, ?_⟩
          simp only [Sched.utf8From, UInt8.lt_iff_toNat_lt, UInt8.le_iff_toNat_le, ← UInt8.toNat_inj, UInt8.reduceToNat]
          rw [if_neg (by omega), if_neg (by omega), if_neg (by omega), if_neg (by omega), if_neg (by omega), if_neg (by omega),
            decide_eq_true (by omega : 128 ≤ c.toNat), decide_eq_true (by omega : c.toNat ≤ 191),
            decide_eq_true (by omega : 128 ≤ d.toNat), decide_eq_true (by omega : d.toNat ≤ 191)]
          simp only [Bool.true_and]
          repeat' split
          all_goals first | omega | skip
          all_goals
            rw [decide_eq_true (by omega), decide_eq_true (by omega)]
            rfl

theorem utf8_of_text : ∀ (cs : List Char) (b : Bytes), b.map (·.toNat) = cs.flatMap utf8Char → Sched.utf8From 0 0x80 0xBF b = true := by
  intro cs
  induction cs with
  | nil =>
    intro b h
    cases b with
    | nil => rfl
    | cons => cases h
  | cons c cs ih =>
    intro b h
    rw [List.flatMap_cons] at h
    obtain ⟨r, hr, he⟩ := utf8_head h
    rw [he]
    exact ih r hr

/-- A code point with these bytes. -/
theorem char_of {n : Nat} (h : n < 55296 ∨ 57343 < n ∧ n < 1114112) : ∃ c : Char, c.toNat = n := by
  refine ⟨Char.ofNat n, ?_⟩
  have hv : n.isValidChar := h
  rw [Char.ofNat, dif_pos hv]
  simp only [Char.toNat, Char.ofNatAux]
  rfl

theorem text_cons {c : Char} {b r : Bytes} (h : b.map (·.toNat) = utf8Char c ++ r.map (·.toNat)) (hr : IsText r) : IsText b := by
  obtain ⟨cs, hc⟩ := hr
  exact ⟨c :: cs, by rw [h, hc, List.flatMap_cons]⟩

theorem text_of_utf8 : ∀ (n : Nat) (b : Bytes), b.length ≤ n → Sched.utf8From 0 0x80 0xBF b = true → IsText b := by
  intro n
  induction n with
  | zero =>
    intro b hl _
    cases b with
    | nil => exact ⟨[], rfl⟩
    | cons => simp at hl
  | succ n ih =>
    intro b hl h
    match b, h with
    | [], _ => exact ⟨[], rfl⟩
    | a :: r, h =>
      simp only [List.length_cons] at hl
      have ha := a.toNat_lt
      rw [Sched.utf8From] at h
      simp only [UInt8.lt_iff_toNat_lt, ← UInt8.toNat_inj, UInt8.reduceToNat] at h
      split at h
      · obtain ⟨c, hc⟩ := char_of (n := a.toNat) (by omega)
        refine text_cons (c := c) (r := r) ?_ (ih r (by omega) h)
        simp only [utf8Char, hc]
        rw [if_pos (by omega)]
        rfl
      · split at h
        · cases h
        · split at h
          · match r, h with
            | b :: r, h =>
              simp only [Sched.utf8From, Bool.and_eq_true, decide_eq_true_eq, UInt8.le_iff_toNat_le, UInt8.reduceToNat] at h
              simp only [List.length_cons] at hl
              obtain ⟨c, hc⟩ := char_of (n := (a.toNat - 0xC0) * 64 + (b.toNat - 0x80)) (by omega)
              refine text_cons (c := c) (r := r) ?_ (ih r (by omega) h.2)
              simp only [utf8Char, hc, List.map_cons]
              rw [if_neg (by omega), if_pos (by omega)]
              simp only [List.cons_append, List.nil_append, List.cons.injEq, and_true]
              omega
          · by_cases h3 : a.toNat < 240
            · have h' : ∃ lo hi : UInt8, Sched.utf8From 2 lo hi r = true ∧ 0x80 ≤ lo.toNat ∧ hi.toNat ≤ 0xBF ∧
                  (a.toNat = 0xE0 → 0xA0 ≤ lo.toNat) ∧ (a.toNat = 0xED → hi.toNat ≤ 0x9F) := by
                split at h
                · exact ⟨_, _, h, by decide, by decide, fun _ => by decide, by omega⟩
                · split at h
                  · exact ⟨_, _, h, by decide, by decide, by omega, fun _ => by decide⟩
                  · exact ⟨_, _, h, by decide, by decide, by omega, by omega⟩
              clear h
              obtain ⟨lo, hi, h, h4, h5, h6, h7⟩ := h'
              match r, h with
              | [_], h => simp [Sched.utf8From] at h
              | b :: c :: r, h =>
                simp only [Sched.utf8From, Bool.and_eq_true, decide_eq_true_eq, UInt8.le_iff_toNat_le, UInt8.reduceToNat] at h
                simp only [List.length_cons] at hl
                obtain ⟨k, hk⟩ := char_of (n := (a.toNat - 0xE0) * 4096 + (b.toNat - 0x80) * 64 + (c.toNat - 0x80)) (by omega)
                refine text_cons (c := k) (r := r) ?_ (ih r (by omega) h.2.2)
                simp only [utf8Char, hk, List.map_cons]
                rw [if_neg (by omega), if_neg (by omega), if_pos (by omega)]
                simp only [List.cons_append, List.nil_append, List.cons.injEq, and_true]
                omega
            · rw [if_neg (by omega), if_neg (by omega), if_neg h3] at h
              have h' : ∃ lo hi : UInt8, Sched.utf8From 3 lo hi r = true ∧ 0x80 ≤ lo.toNat ∧ hi.toNat ≤ 0xBF ∧
                  (a.toNat = 0xF0 → 0x90 ≤ lo.toNat) ∧ (a.toNat = 0xF4 → hi.toNat ≤ 0x8F) ∧ a.toNat ≤ 0xF4 := by
                split at h
                · exact ⟨_, _, h, by decide, by decide, fun _ => by decide, by omega, by omega⟩
                · split at h
                  · exact ⟨_, _, h, by decide, by decide, by omega, by omega, by omega⟩
                  · split at h
                    · exact ⟨_, _, h, by decide, by decide, by omega, fun _ => by decide, by omega⟩
                    · cases h
              clear h
              obtain ⟨lo, hi, h, h4, h5, h6, h7, h8⟩ := h'
              match r, h with
              | [_], h | [_, _], h => simp [Sched.utf8From] at h
              | b :: c :: d :: r, h =>
                simp only [Sched.utf8From, Bool.and_eq_true, decide_eq_true_eq, UInt8.le_iff_toNat_le, UInt8.reduceToNat] at h
                simp only [List.length_cons] at hl
                obtain ⟨k, hk⟩ := char_of (n := (a.toNat - 0xF0) * 262144 + (b.toNat - 0x80) * 4096 + (c.toNat - 0x80) * 64 + (d.toNat - 0x80))
                  (by omega)
                refine text_cons (c := k) (r := r) ?_ (ih r (by omega) h.2.2.2)
                simp only [utf8Char, hk, List.map_cons]
                rw [if_neg (by omega), if_neg (by omega), if_neg (by omega)]
                simp only [List.cons_append, List.nil_append, List.cons.injEq, and_true]
                omega

/-- **C66.** A name is decoded iff it is a text in UTF-8, and stays itself; otherwise `UnicodeDecodeError` is raised. -/
theorem C66_text (b : Bytes) : (IsText b → decodeText b = .ok b) ∧ (¬ IsText b → decodeText b = .error .unicodeError) := by
  constructor
  · rintro ⟨cs, h⟩
    rw [decodeText, if_pos (utf8_of_text cs b h)]
  · intro h
    rw [decodeText, if_neg fun hu => h (text_of_utf8 _ b (Nat.le_refl _) hu)]

/-- Characters of one, two, three and four bytes. -/
example : IsText [0x41, 0xC3, 0xA9, 0xE2, 0x82, 0xAC, 0xF0, 0x9F, 0x98, 0x80] := ⟨['A', 'é', '€', '😀'], by decide⟩

/-- A surrogate. -/
example : ¬ IsText [0xED, 0xA0, 0x80] := fun h => by
  have := (C66_text _).1 h
  revert this
  decide

end Verif.Props
