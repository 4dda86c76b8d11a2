import Verif.Spec.Server
import Verif.Sched.Fit
import Verif.Sched.Exec
import Verif.Sched.Emit
import Verif.Props.WireLayout
import Verif.Props.Readable
import Verif.Props.SchedView

/-!
# The scheduler's socket
-/

namespace Verif.Props

open Verif.Sched Verif.Spec Verif.Wire Verif.Util

theorem tagWord_value (ty : MessageType) : ty.value = ascii (tagWord ty) := by cases ty <;> rfl

theorem tagText_type (m : Message) (ty : MessageType) : (tagText m == tagWord ty) = decide (m.type = ty) := by
  cases m <;> cases ty <;> rfl

theorem find_tag (tag : Bytes) (ty : MessageType) :
    (MessageType.members.find? fun m => m.value == tag) = some ty ↔ tag = ascii (tagWord ty) := by
  constructor
  · intro h
    have := List.find?_some h
    rw [← tagWord_value]
    simpa using (beq_iff_eq.1 this).symm
  · rintro rfl
    cases ty <;> decide

theorem find_no_tag (tag : Bytes) :
    (MessageType.members.find? fun m => m.value == tag) = none ↔ ∀ ty, tag ≠ ascii (tagWord ty) := by
  constructor
  · intro h ty he
    rw [(find_tag tag ty).2 he] at h; cases h
  · intro h
    cases hf : MessageType.members.find? fun m => m.value == tag with
    | none => rfl
    | some ty => exact absurd ((find_tag tag ty).1 hf) (h ty)

theorem binderEncode_ok (to : Bytes) (m : Message) (fs : List Bytes) :
    binderEncode to m = .ok fs ↔ sendable m ∧ fs = to :: wireFrames m := by
  have hb : binderEncode to m = .ok fs ↔ ∃ gs, encode m = .ok gs ∧ fs = to :: gs := by
    simp only [binderEncode, encode, Py.bind_ok, Py.pure_eq, Except.ok.injEq]
    constructor
    · rintro ⟨ps, h, rfl⟩; exact ⟨_, ⟨ps, h, rfl⟩, rfl⟩
    · rintro ⟨_, ⟨ps, h, rfl⟩, rfl⟩; exact ⟨ps, h, rfl⟩
  rw [hb]
  constructor
  · rintro ⟨gs, h, rfl⟩
    exact ⟨(C03_sendable m).1 ⟨gs, h⟩, by rw [C65_layout m gs h]⟩
  · rintro ⟨h, rfl⟩
    obtain ⟨gs, h⟩ := (C03_sendable m).2 h
    exact ⟨gs, h, by rw [C65_layout m gs h]⟩

/-- The counters after several messages. -/
def counted (d : Dict MessageType Nat) (l : List (Bytes × Message)) : Dict MessageType Nat :=
  l.foldl (fun d p => Server.countOne d p.2.type) d

theorem sendAll_ok (v v' : Server) (l : List (Bytes × Message)) : v.sendAll l = .ok v' ↔
    (∀ p ∈ l, sendable p.2) ∧ v' = { v with sent := counted v.sent l, wire := v.wire ++ onWire l } := by
  induction l generalizing v with
  | nil =>
    simp only [Server.sendAll, Except.ok.injEq, counted, onWire, List.foldl_nil, List.map_nil, List.append_nil]
    constructor
    · rintro rfl; exact ⟨by simp, rfl⟩
    · rintro ⟨-, rfl⟩; rfl
  | cons p l ih =>
    obtain ⟨to, m⟩ := p
    simp only [Server.sendAll, Py.bind_ok, binderEncode_ok, ih, List.forall_mem_cons, counted, onWire, List.foldl_cons, List.map_cons,
      List.append_assoc, List.singleton_append]
    constructor
    · rintro ⟨_, ⟨h1, rfl⟩, h2, rfl⟩; exact ⟨⟨h1, h2⟩, rfl⟩
    · rintro ⟨⟨h1, h2⟩, rfl⟩; exact ⟨_, ⟨h1, rfl⟩, h2, rfl⟩

theorem out_grows {s s' : Sched} {e : Event} (h : s.step e = .ok s') : s'.out = s.out ++ s'.out.drop s.out.length := by
  have hE := step_emits s e
  rw [h] at hE
  obtain ⟨l, hl, -⟩ : Emitted _ s s' := hE
  rw [hl, List.drop_left]

theorem countOne_listed {d : Dict MessageType Nat} {f : MessageType → Nat} (h : ∀ ty, d.get? ty = listed (f ty)) (ty ty' : MessageType) :
    (Server.countOne d ty).get? ty' = listed (f ty' + if ty = ty' then 1 else 0) := by
  unfold Server.countOne
  rw [Dict.get?_set]
  by_cases he : ty = ty'
  · subst he
    simp only [h, listed, if_true]
    split <;> simp_all
  · simp [he, h]

theorem counted_listed {d : Dict MessageType Nat} {out : List (Bytes × Message)} (h : ∀ ty, d.get? ty = listed (departures ty out))
    (l : List (Bytes × Message)) (ty : MessageType) : (counted d l).get? ty = listed (departures ty (out ++ l)) := by
  induction l generalizing d out with
  | nil => simpa [counted] using h ty
  | cons p l ih =>
    have := ih (d := Server.countOne d p.2.type) (out := out ++ [p]) fun ty' => by
      rw [countOne_listed h]
      congr 1
      simp only [departures, List.countP_append, List.countP_singleton, tagText_type, decide_eq_true_eq]
    simpa [counted, List.append_assoc] using this

/-- The books of the server agree with what its scheduler has said. -/
structure Books (v : Server) : Prop where
  wire : v.wire = onWire v.sched.out
  sent : ∀ ty, v.sent.get? ty = listed (departures ty v.sched.out)

theorem handle_ok {v v' : Server} {e : Event} (h : v.handle e = .ok v') (hb : Books v) :
    v.sched.step e = .ok v'.sched ∧ v'.received = v.received ∧ Books v' := by
  simp only [Server.handle, Py.bind_ok, sendAll_ok] at h
  obtain ⟨s, hs, -, rfl⟩ := h
  have ho := out_grows hs
  refine ⟨hs, rfl, ?_, fun ty => ?_⟩
  · show v.wire ++ onWire _ = onWire s.out
    conv => rhs; rw [ho]
    rw [hb.wire, onWire, onWire, onWire, List.map_append]
  · show (counted v.sent _).get? ty = _
    rw [counted_listed hb.sent, ← ho]

theorem noise_iff (fs : List Bytes) : Noise fs ↔ ∀ source tag p ps, fs = source :: tag :: p :: ps →
    (MessageType.members.find? fun m => m.value == tag) = none := by
  unfold Noise
  constructor
  · rintro h source tag p ps rfl
    rw [find_no_tag]
    rcases h with h | h
    · simp at h; omega
    · intro ty he; exact h ty (by simp [he])
  · intro h
    match fs, h with
    | [], _ => simp
    | [_], _ => simp
    | [_, _], _ => simp
    | source :: tag :: p :: ps, h =>
      right
      intro ty he
      exact (find_no_tag tag).1 (h _ _ _ _ rfl) ty (by simpa using he)

theorem arrive_noise {v : Server} {fs : List Bytes} (h : Noise fs) (now : Int) (o : Order) : v.arrive now o fs = .ok v := by
  unfold Server.arrive
  split
  · rw [(noise_iff _).1 h _ _ _ _ rfl]
  · rfl

theorem arrive_tagged (v : Server) (now : Int) (o : Order) (source : Bytes) (ty : MessageType) (p : Bytes) (ps : List Bytes) :
    v.arrive now o (source :: ascii (tagWord ty) :: p :: ps) = (deserialize ty (p :: ps)).bind fun m =>
      ({ v with received := Server.countOne v.received ty } : Server).handle ⟨.recv source m, now, o⟩ := by
  unfold Server.arrive
  simp only
  rw [(find_tag _ ty).2 rfl]
  rfl

theorem decode_tagged (ty : MessageType) (p : Bytes) (ps : List Bytes) (m : Message) :
    decode (ascii (tagWord ty) :: p :: ps) = .ok (some m) ↔ deserialize ty (p :: ps) = .ok m := by
  unfold decode
  simp only
  rw [(find_tag _ ty).2 rfl]
  simp only [Py.bind_ok, Py.pure_eq, Except.ok.injEq, Option.some.injEq]
  exact ⟨fun ⟨_, h, e⟩ => e ▸ h, fun h => ⟨m, h, rfl⟩⟩

theorem tagged_noise {fs : List Bytes} (h : Noise fs) (ty : MessageType) : tagged ty (.frames fs) = false := by
  unfold tagged
  split
  · next e =>
    cases e
    simpa using (find_no_tag _).1 ((noise_iff _).1 h _ _ _ _ rfl) ty
  · rfl

theorem tagWord_inj {ty ty' : MessageType} (h : ascii (tagWord ty) = ascii (tagWord ty')) : ty = ty' := by
  have h1 := (find_tag _ ty').2 h
  have h2 := (find_tag _ ty).2 rfl
  rw [h2] at h1
  exact Option.some.inj h1

theorem frames_cases (fs : List Bytes) : Noise fs ∨ ∃ source ty p ps, fs = source :: ascii (tagWord ty) :: p :: ps := by
  match fs with
  | [] => left; simp [Noise]
  | [_] => left; simp [Noise]
  | [_, _] => left; simp [Noise]
  | source :: tag :: p :: ps =>
    by_cases h : ∃ ty, tag = ascii (tagWord ty)
    · obtain ⟨ty, rfl⟩ := h
      exact .inr ⟨source, ty, p, ps, rfl⟩
    · left; right
      intro ty he
      exact h ⟨ty, by simpa using he⟩

theorem run_books {is : List (Server.Input × Int × Order)} {v v' : Server} (h : v.run is = .ok v') (hb : Books v)
    {f : MessageType → Nat} (hf : ∀ ty, v.received.get? ty = listed (f ty)) :
    (∃ es, Heard is es ∧ v.sched.run es = .ok v'.sched) ∧ Books v' ∧ ∀ ty, v'.received.get? ty = listed (f ty + arrivals ty is) := by
  induction is generalizing v f with
  | nil =>
    cases h
    exact ⟨⟨[], .nil, rfl⟩, hb, fun ty => by simpa [arrivals] using hf ty⟩
  | cons i is ih =>
    obtain ⟨i, now, o⟩ := i
    simp only [Server.run, Py.bind_ok] at h
    obtain ⟨v1, h1, h2⟩ := h
    have key : ∀ (e : Event) (v0 : Server), v0.sched = v.sched → Books v0 → (∀ ty, v0.received.get? ty = listed (f ty + if tagged ty i then 1 else 0)) →
        v0.handle e = .ok v1 → (∀ is es, Heard is es → Heard ((i, now, o) :: is) (e :: es)) →
        (∃ es, Heard ((i, now, o) :: is) es ∧ v.sched.run es = .ok v'.sched) ∧ Books v' ∧
          ∀ ty, v'.received.get? ty = listed (f ty + arrivals ty ((i, now, o) :: is)) := by
      intro e v0 h0 hb0 hf0 hh hH
      obtain ⟨a1, a2, a3⟩ := handle_ok hh hb0
      obtain ⟨⟨es, b1, b2⟩, b3, b4⟩ := ih h2 a3 (f := fun ty => f ty + if tagged ty i then 1 else 0) (fun ty => by rw [a2, hf0])
      refine ⟨⟨e :: es, hH _ _ b1, ?_⟩, b3, fun ty => ?_⟩
      · simp only [Sched.run, Py.bind_ok]
        exact ⟨_, h0 ▸ a1, b2⟩
      · rw [b4]
        congr 1
        simp only [arrivals, List.countP_cons]
        omega
    cases i with
    | frames fs =>
      rcases frames_cases fs with hn | ⟨source, ty, p, ps, rfl⟩
      · rw [Server.step, arrive_noise hn] at h1
        cases h1
        obtain ⟨⟨es, b1, b2⟩, b3, b4⟩ := ih h2 hb hf
        refine ⟨⟨es, .noise fs now o hn b1, b2⟩, b3, fun ty => ?_⟩
        rw [b4]
        simp [arrivals, tagged_noise hn]
      · rw [Server.step, arrive_tagged] at h1
        obtain ⟨m, hm, hh⟩ := Py.bind_ok.1 h1
        refine key _ { v with received := Server.countOne v.received ty } rfl ⟨hb.wire, hb.sent⟩ (fun ty' => ?_) hh
          fun is es hH => .message source _ p ps m now o ((decode_tagged _ _ _ _).2 hm) hH
        rw [countOne_listed hf]
        congr 2
        by_cases he : ty = ty'
        · subst he; simp [tagged]
        · rw [if_neg he, if_neg]
          simp only [tagged, beq_iff_eq]
          exact fun h => he (tagWord_inj h)
    | task => exact key _ v rfl hb (by simpa [tagged] using hf) h1 fun _ _ => .task now o
    | graph => exact key _ v rfl hb (by simpa [tagged] using hf) h1 fun _ _ => .graph now o
    | function => exact key _ v rfl hb (by simpa [tagged] using hf) h1 fun _ _ => .function now o
    | worker => exact key _ v rfl hb (by simpa [tagged] using hf) h1 fun _ _ => .worker now o
    | report => exact key _ v rfl hb (by simpa [tagged] using hf) h1 fun _ _ => .report now o

/-- **C71.** Whatever happens to the scheduler process, as long as it runs: the scheduler handled exactly the messages
that came in, noise left out; what it said is on the wire in the documented layout, in that order; and the two counters
are the numbers of messages that came in and went out. -/
theorem C71_books (cfg : Config) (is : List (Server.Input × Int × Order)) (v : Server) (h : (Server.init cfg).run is = .ok v) :
    (∃ es, Heard is es ∧ (Sched.init cfg).run es = .ok v.sched) ∧ v.wire = onWire v.sched.out ∧
    (∀ ty, v.received.get? ty = listed (arrivals ty is)) ∧ (∀ ty, v.sent.get? ty = listed (departures ty v.sched.out)) := by
  obtain ⟨h1, h2, h3⟩ := run_books h ⟨rfl, fun ty => rfl⟩ (f := fun _ => 0) (fun ty => rfl)
  exact ⟨h1, h2.wire, by simpa using h3, h2.sent⟩

theorem countOne_keys (l : List MessageType) (d : Dict MessageType Nat) :
    (l.foldl Server.countOne d).keys = d.keys ++ (firsts l).filter fun y => y ∉ d.keys := by
  induction l generalizing d with
  | nil => simp [firsts]
  | cons x l ih =>
    rw [List.foldl_cons, ih, firsts]
    unfold Server.countOne
    by_cases hx : x ∈ d.keys
    · obtain ⟨n, hn⟩ := Dict.mem_keys.1 hx
      rw [Dict.keys_set_old _ hn, List.filter_cons_of_neg (by simpa using hx), List.filter_filter]
      congr 1
      apply List.filter_congr
      intro y _
      by_cases hy : y = x
      · subst hy; simp [hx]
      · simp [hy]
    · rw [Dict.keys_set_new _ (Dict.not_mem_keys.1 hx), List.filter_cons_of_pos (by simpa using hx), List.filter_filter, List.append_assoc]
      congr 1
      rw [List.singleton_append]
      congr 1
      apply List.filter_congr
      intro y _
      by_cases hy : y = x
      · subst hy; simp
      · simp [hy]

theorem typesIn_noise {fs : List Bytes} (h : Noise fs) (now : Int) (o : Order) (is : List (Server.Input × Int × Order)) :
    typesIn ((.frames fs, now, o) :: is) = typesIn is := by
  unfold typesIn
  rw [List.filterMap_cons_none]
  rw [List.find?_eq_none]
  intro ty _
  simp [tagged_noise h]

theorem typesIn_tagged (source : Bytes) (ty : MessageType) (p : Bytes) (ps : List Bytes) (now : Int) (o : Order)
    (is : List (Server.Input × Int × Order)) :
    typesIn ((.frames (source :: ascii (tagWord ty) :: p :: ps), now, o) :: is) = ty :: typesIn is := by
  unfold typesIn
  rw [List.filterMap_cons_some]
  show (MessageType.members.find? fun ty' => ascii (tagWord ty) == ascii (tagWord ty')) = some ty
  cases hf : MessageType.members.find? fun ty' => ascii (tagWord ty) == ascii (tagWord ty') with
  | none =>
    have := List.find?_eq_none.1 hf ty (by cases ty <;> decide)
    simp at this
  | some ty' =>
    have := List.find?_some hf
    rw [tagWord_inj (beq_iff_eq.1 this)]

theorem run_counts {is : List (Server.Input × Int × Order)} {v v' : Server} (h : v.run is = .ok v') :
    v'.received = (typesIn is).foldl Server.countOne v.received ∧
    ∃ new, v'.sched.out = v.sched.out ++ new ∧ v'.sent = (new.map (·.2.type)).foldl Server.countOne v.sent := by
  have handled : ∀ {v v' : Server} {e : Event}, v.handle e = .ok v' → v'.received = v.received ∧
      ∃ new, v'.sched.out = v.sched.out ++ new ∧ v'.sent = (new.map (·.2.type)).foldl Server.countOne v.sent := by
    intro v v' e h
    simp only [Server.handle, Py.bind_ok, sendAll_ok] at h
    obtain ⟨s, hs, -, rfl⟩ := h
    exact ⟨rfl, _, out_grows hs, by simp only [counted, List.foldl_map]⟩
  induction is generalizing v with
  | nil => cases h; exact ⟨rfl, [], by simp, rfl⟩
  | cons i is ih =>
    obtain ⟨i, now, o⟩ := i
    simp only [Server.run, Py.bind_ok] at h
    obtain ⟨v1, h1, h2⟩ := h
    obtain ⟨i1, new2, i2, i3⟩ := ih h2
    have key : ∀ (e : Event) (v0 : Server), v0.sched = v.sched → v0.sent = v.sent → v0.handle e = .ok v1 →
        v'.received = (typesIn is).foldl Server.countOne v0.received ∧
        ∃ new, v'.sched.out = v.sched.out ++ new ∧ v'.sent = (new.map (·.2.type)).foldl Server.countOne v.sent := by
      intro e v0 h0 h0' hh
      obtain ⟨a1, new1, a2, a3⟩ := handled hh
      refine ⟨by rw [i1, a1], new1 ++ new2, by rw [i2, a2, h0, List.append_assoc], by rw [i3, a3, h0', List.map_append, List.foldl_append]⟩
    cases i with
    | frames fs =>
      rcases frames_cases fs with hn | ⟨source, ty, p, ps, rfl⟩
      · rw [Server.step, arrive_noise hn] at h1
        cases h1
        rw [typesIn_noise hn]
        exact ⟨i1, new2, i2, i3⟩
      · rw [Server.step, arrive_tagged] at h1
        obtain ⟨m, hm, hh⟩ := Py.bind_ok.1 h1
        rw [typesIn_tagged]
        exact key _ { v with received := Server.countOne v.received ty } rfl rfl hh
    | task => exact key _ v rfl rfl h1
    | graph => exact key _ v rfl rfl h1
    | function => exact key _ v rfl rfl h1
    | worker => exact key _ v rfl rfl h1
    | report => exact key _ v rfl rfl h1

/-- **C71.** The two counters are listed in the order in which the types first occurred. -/
theorem C71_order (cfg : Config) (is : List (Server.Input × Int × Order)) (v : Server) (h : (Server.init cfg).run is = .ok v) :
    v.statistics.1.map (·.1) = firsts (typesIn is) ∧ v.statistics.2.map (·.1) = firsts (v.sched.out.map (·.2.type)) := by
  obtain ⟨h1, new, h2, h3⟩ := run_counts h
  have h2' : v.sched.out = new := h2
  constructor
  · show v.received.keys = _
    rw [h1, countOne_keys]
    simp [Server.init, Dict.keys, Dict.empty]
  · show v.sent.keys = _
    rw [h3, countOne_keys, h2']
    simp [Server.init, Dict.keys, Dict.empty]

example : firsts (typesIn [(.frames (wk :: wireFrames (.heartbeat hb0)), 0, (ev .report).order), (.task, 0, (ev .report).order),
    (.frames [cl, [1]], 0, (ev .report).order), (.frames (cl :: wireFrames (.task ⟨[1], fn, []⟩)), 0, (ev .report).order),
    (.frames (wk :: wireFrames (.heartbeat hb0)), 0, (ev .report).order)]) = [.heartbeat, .task] := by decide

/-! ### Everything can be sent -/

/-- **C71.** Every message of the scheduler has a wire form, if the number of tasks per worker fits 32 bits. -/
theorem C71_sendable {cfg : Config} {l : Log} {s : Sched} (hr : Reach cfg l s) (hq : fitsBits 32 cfg.queueSize) (p : Bytes × Message)
    (hp : p ∈ s.out) : sendable p.2 := by
  have := hr.fits.out p.1 p.2 hp
  obtain ⟨c, m⟩ := p
  cases m <;> simp only [Fit, sendable, fitsBits] at * <;> try trivial
  have := this.2 hq.1
  omega

/-- **C71.** A worker is asked to give back at least one and at most `per_worker_queue_size` tasks. -/
theorem C71_asks {cfg : Config} {l : Log} {s : Sched} (hr : Reach cfg l s) (hq : 0 ≤ cfg.queueSize) (w : Bytes) (n : Int)
    (h : (w, .balanceRequest n) ∈ s.out) : 0 < n ∧ n ≤ cfg.queueSize := by
  have := hr.fits.out w _ h
  exact ⟨this.1, this.2 hq⟩

theorem handle_sends {cfg : Config} {l : Log} {v : Server} {s : Sched} {e : Event} (h : v.sched.step e = .ok s) (hr : Reach cfg l s)
    (hq : fitsBits 32 cfg.queueSize) : ∃ v', v.handle e = .ok v' ∧ v'.sched = s := by
  suffices hh : ∃ v', (∃ s', v.sched.step e = .ok s' ∧ ({ v with sched := s' } : Server).sendAll (s'.out.drop v.sched.out.length) = .ok v') ∧
      v'.sched = s by
    simpa only [Server.handle, Py.bind_ok] using hh
  exact ⟨_, ⟨s, h, (sendAll_ok _ _ _).2 ⟨fun p hp => C71_sendable hr hq p (List.mem_of_mem_drop hp), rfl⟩⟩, rfl⟩

theorem run_sends {cfg : Config} (hq : fitsBits 32 cfg.queueSize) {is : List (Server.Input × Int × Order)} {es : List Event} (hH : Heard is es)
    {es0 : List Event} {l0 l : Log} {s : Sched} {v : Server} (h0 : Exec cfg es0 l0 v.sched) (h : Exec cfg (es0 ++ es) l s) :
    ∃ v', v.run is = .ok v' ∧ v'.sched = s := by
  have key : ∀ (i : Server.Input) (now : Int) (o : Order) (is : List (Server.Input × Int × Order)) (e : Event) (es : List Event)
      (_ : ∀ {es0 : List Event} {l0 : Log} {v : Server}, Exec cfg es0 l0 v.sched → Exec cfg (es0 ++ es) l s → ∃ v', v.run is = .ok v' ∧ v'.sched = s)
      (es0 : List Event) (l0 : Log) (v v0 : Server) (_ : v0.sched = v.sched) (_ : v.step now o i = v0.handle e)
      (_ : Exec cfg es0 l0 v.sched) (_ : Exec cfg (es0 ++ e :: es) l s), ∃ v', v.run ((i, now, o) :: is) = .ok v' ∧ v'.sched = s := by
    intro i now o is e es ih es0 l0 v v0 hv hs h0 h
    rw [List.append_cons] at h
    obtain ⟨l1, s1, h1⟩ := h.start
    obtain ⟨l2, s2, h2, h3⟩ := h1.last
    obtain ⟨-, rfl⟩ := h2.det h0
    obtain ⟨v1, hv1, rfl⟩ := handle_sends (v := v0) (hv ▸ h3) h1.reach hq
    obtain ⟨v', hv', hs'⟩ := ih h1 h
    refine ⟨v', ?_, hs'⟩
    simp only [Server.run, Py.bind_ok]
    exact ⟨v1, hs.trans hv1, hv'⟩
  induction hH generalizing es0 l0 v with
  | nil =>
    rw [List.append_nil] at h
    obtain ⟨-, rfl⟩ := h0.det h
    exact ⟨v, rfl, rfl⟩
  | noise fs now o hn _ ih =>
    obtain ⟨v', hv', hs'⟩ := ih h0 h
    refine ⟨v', ?_, hs'⟩
    simp only [Server.run, Py.bind_ok]
    exact ⟨v, arrive_noise hn now o, hv'⟩
  | message source tag p ps m now o hm _ ih =>
    rcases frames_cases (source :: tag :: p :: ps) with hn | ⟨_, ty, _, _, he⟩
    · exfalso
      unfold decode at hm
      simp only [(noise_iff _).1 hn _ _ _ _ rfl] at hm
      cases hm
    · cases he
      refine key _ now o _ _ _ ih es0 l0 v { v with received := Server.countOne v.received ty } rfl ?_ h0 h
      rw [Server.step, arrive_tagged, (decode_tagged _ _ _ _).1 hm]
      rfl
  | task now o _ ih => exact key _ now o _ _ _ ih es0 l0 v v rfl rfl h0 h
  | graph now o _ ih => exact key _ now o _ _ _ ih es0 l0 v v rfl rfl h0 h
  | function now o _ ih => exact key _ now o _ _ _ ih es0 l0 v v rfl rfl h0 h
  | worker now o _ ih => exact key _ now o _ _ _ ih es0 l0 v v rfl rfl h0 h
  | report now o _ ih => exact key _ now o _ _ _ ih es0 l0 v v rfl rfl h0 h

/-- **C71.** The socket adds no failure: if the scheduler gets through the messages that came in, so does the process. -/
theorem C71_serves {cfg : Config} (hq : fitsBits 32 cfg.queueSize) {is : List (Server.Input × Int × Order)} {es : List Event} (hH : Heard is es)
    {l : Log} {s : Sched} (h : Exec cfg es l s) : ∃ v, (Server.init cfg).run is = .ok v ∧ v.sched = s :=
  run_sends hq hH (v := Server.init cfg) .init h

/-! ### Malformed messages -/

/-- **C72 is false of the code.** Any peer ends the scheduler with one message, in any state: a proper tag with a
payload that cannot be read. -/
theorem C72_malformed_kills (v : Server) (now : Int) (o : Order) (source : Bytes) (ty : MessageType) (p : Bytes) (ps : List Bytes)
    (h : ¬ Readable ty (p :: ps)) : ∃ e, v.step now o (.frames (source :: ascii (tagWord ty) :: p :: ps)) = .error e := by
  rw [Server.step, arrive_tagged]
  cases hd : deserialize ty (p :: ps) with
  | error e => exact ⟨e, rfl⟩
  | ok m => exact absurd ((C72_decoded _ _).1 ⟨m, hd⟩) h

/-- **C72, the part that holds.** Frames without a payload or without a proper tag change nothing.  A message that can
be read ends the process only if the scheduler itself does not get through it or through its answers.
(Full statement: no frames of any peer end the process.) -/
theorem C72_partial (v : Server) (now : Int) (o : Order) (fs : List Bytes) :
    (Noise fs → v.step now o (.frames fs) = .ok v) ∧
    ∀ source ty p ps, fs = source :: ascii (tagWord ty) :: p :: ps → Readable ty (p :: ps) → ∃ m, decode fs.tail = .ok (some m) ∧
      ((∃ v', v.step now o (.frames fs) = .ok v') ↔
        ∃ s, v.sched.step ⟨.recv source m, now, o⟩ = .ok s ∧ ∀ p ∈ s.out.drop v.sched.out.length, sendable p.2) := by
  refine ⟨fun h => arrive_noise h now o, ?_⟩
  rintro source ty p ps rfl hr
  obtain ⟨m, hm⟩ := (C72_decoded _ _).2 hr
  refine ⟨m, (decode_tagged _ _ _ _).2 hm, ?_⟩
  have : ∀ v', v.step now o (.frames (source :: ascii (tagWord ty) :: p :: ps)) = .ok v' ↔
      ({ v with received := Server.countOne v.received ty } : Server).handle ⟨.recv source m, now, o⟩ = .ok v' := by
    intro v'
    rw [Server.step, arrive_tagged, hm]
    exact Iff.rfl
  simp only [this, Server.handle, Py.bind_ok, sendAll_ok]
  constructor
  · rintro ⟨_, s, h1, h2, -⟩; exact ⟨s, h1, h2⟩
  · rintro ⟨s, h1, h2⟩; exact ⟨_, s, h1, h2, rfl⟩

/-- A worker and a client say hello; noise; a task; it is placed; the process answers and counts.  Then one frame of rubbish. -/
def serverStory : List (Server.Input × Int × Order) :=
  let o := (ev .report).order
  let f := fun fs => (Server.Input.frames fs, (0 : Int), o)
  [f (wk :: wireFrames (.heartbeat hb0)), f [cl, [1]], f [cl, ascii ['Z', 'Z'], []],
    f (cl :: wireFrames (.functionRequest .add fn [9] [8])), f (cl :: wireFrames (.task ⟨[1], fn, []⟩)), (.task, 0, o)]

example : (((Server.init cfg0).run serverStory).toOption.map fun v => (v.wire, v.statistics)) =
    some ([[wk, ascii ['H', 'E'], []], [cl, ascii ['F', 'A'], ascii ['O', 'K'], fn, [], []], [cl, ascii ['T', 'E'], [1], ascii ['S', 'K']],
        [wk, ascii ['T', 'K'], [1], fn]],
      [(.heartbeat, 1), (.functionRequest, 1), (.task, 1)], [(.heartbeatEcho, 1), (.functionResponse, 1), (.taskEcho, 1), (.task, 1)]) := by
  decide +kernel

example : ¬ Readable .taskResult [[1]] ∧ fitsBits 32 cfg0.queueSize := by
  refine ⟨?_, by decide, by decide⟩
  rintro ⟨-, -, h⟩
  simp at h

end Verif.Props
