import Verif.Spec.Connector
import Verif.Props.Server

/-!
# C74: the connectors pass on every message, once and in order, and count it
-/

namespace Verif.Props

open Verif.Spec Verif.Wire Verif.Util

/-! ### One multipart message -/

theorem validFrames_iff (fs : List Bytes) : validFrames fs = true ↔ ∃ ty p ps, fs = ascii (tagWord ty) :: p :: ps := by
  match fs with
  | [] => simp [validFrames]
  | [_] => simp [validFrames]
  | tag :: p :: ps =>
    have hl : ¬ (tag :: p :: ps).length < 2 := by simp
    simp only [validFrames, hl, if_false, List.any_eq_true, beq_iff_eq, List.cons.injEq]
    constructor
    · rintro ⟨ty, -, rfl⟩
      exact ⟨ty, p, ps, tagWord_value ty, rfl, rfl⟩
    · rintro ⟨ty, _, _, rfl, -, -⟩
      exact ⟨ty, by cases ty <;> decide, tagWord_value ty⟩

theorem not_validFrames {fs : List Bytes} (h : ¬ validFrames fs = true) : fs.length < 2 ∨ ∀ ty, fs[0]? ≠ some (ascii (tagWord ty)) := by
  rw [validFrames_iff] at h
  match fs with
  | [] => simp
  | [_] => simp
  | tag :: p :: ps =>
    right
    intro ty he
    exact h ⟨ty, p, ps, by simpa using he⟩

theorem noise_invalid {fs : List Bytes} (h : fs.length < 2 ∨ ∀ ty, fs[0]? ≠ some (ascii (tagWord ty))) : validFrames fs = false := by
  rw [Bool.eq_false_iff]
  intro hv
  obtain ⟨ty, p, ps, rfl⟩ := (validFrames_iff fs).1 hv
  rcases h with h | h
  · simp at h; omega
  · exact h ty rfl

theorem readFrames_ok (ty ty' : MessageType) (p : Bytes) (ps : List Bytes) (m : Message) :
    readFrames (ascii (tagWord ty) :: p :: ps) = .ok (ty', m) ↔ ty' = ty ∧ decode (ascii (tagWord ty) :: p :: ps) = .ok (some m) := by
  unfold readFrames
  simp only
  rw [(find_tag _ ty).2 rfl, decode_tagged]
  simp only [Py.bind_ok, Py.pure_eq, Except.ok.injEq, Prod.mk.injEq]
  constructor
  · rintro ⟨_, h, rfl, rfl⟩; exact ⟨rfl, h⟩
  · rintro ⟨rfl, h⟩; exact ⟨m, h, rfl, rfl⟩

theorem decode_type {ty : MessageType} {p : Bytes} {ps : List Bytes} {m : Message} (h : decode (ascii (tagWord ty) :: p :: ps) = .ok (some m)) :
    m.type = ty := by
  have h1 := C65_tag _ _ h
  simp only [List.head?_cons, Option.some.injEq] at h1
  have h2 := type_value m
  rw [← h1, tagWord_value] at h2
  exact tagWord_inj h2

theorem valid_decode {fs : List Bytes} {m : Message} (h : decode fs = .ok (some m)) : ∃ ty p ps, fs = ascii (tagWord ty) :: p :: ps ∧ m.type = ty := by
  cases hv : validFrames fs with
  | true =>
    obtain ⟨ty, p, ps, rfl⟩ := (validFrames_iff fs).1 hv
    exact ⟨ty, p, ps, rfl, decode_type h⟩
  | false =>
    exfalso
    have := not_validFrames (fs := fs) (by simp [hv])
    unfold decode at h
    split at h
    · next tag p ps =>
      rw [(find_no_tag tag).2] at h
      · cases h
      · intro ty he
        rcases this with h1 | h1
        · simp at h1; omega
        · exact h1 ty (by simp [he])
    · cases h

/-! ### Statistics -/

theorem tallied_nil : Tallied Dict.empty [] := ⟨fun _ => rfl, rfl⟩

theorem mem_firsts {α : Type} [DecidableEq α] {x : α} {l : List α} : x ∈ firsts l ↔ x ∈ l := by
  induction l with
  | nil => simp [firsts]
  | cons a l ih =>
    simp only [firsts, List.mem_cons, List.mem_filter, ih, decide_eq_true_eq]
    by_cases h : x = a <;> simp [h]

theorem firsts_snoc {α : Type} [DecidableEq α] (l : List α) (x : α) : firsts (l ++ [x]) = firsts l ++ if x ∈ l then [] else [x] := by
  induction l with
  | nil => simp [firsts]
  | cons a l ih =>
    rw [List.cons_append, firsts, ih, firsts, List.cons_append, List.filter_append]
    by_cases h : x ∈ l
    · simp [h]
    · by_cases h' : x = a <;> simp [h, h']

theorem ofType_snoc (ty : MessageType) (ms : List Message) (m : Message) : ofType ty (ms ++ [m]) = ofType ty ms + if m.type = ty then 1 else 0 := by
  simp only [ofType, List.countP_append, List.countP_singleton, tagText_type, decide_eq_true_eq]

theorem counts_snoc {d : Dict MessageType Nat} {ms : List Message} (h : Tallied d ms) (m : Message) : Tallied (countType d m.type) (ms ++ [m]) := by
  have hkey : d.keys = firsts (ms.map (·.type)) := h.2
  have h := h.1
  refine ⟨fun ty => ?_, ?_⟩
  case refine_2 =>
    rw [countType, List.map_append, List.map_singleton, firsts_snoc, Dict.keys_set, hkey]
    by_cases hm : m.type ∈ ms.map (·.type)
    · rw [if_pos (mem_firsts.2 hm), if_pos hm, List.append_nil]
    · rw [if_neg (fun hx => hm (mem_firsts.1 hx)), if_neg hm]
  unfold countType
  rw [Dict.get?_set, ofType_snoc]
  by_cases he : m.type = ty
  · subst he
    simp only [h m.type, if_true]
    split <;> simp_all
  · simp [he, h ty]

/-! ### The connector of the agent -/

theorem hears_snoc {fss : List (List Bytes)} {ms ms' : List Message} {fs : List Bytes} (h : Hears fss ms) (h' : Hears [fs] ms') :
    Hears (fss ++ [fs]) (ms ++ ms') := by
  induction h with
  | nil => exact h'
  | noise fs hn _ ih => exact .noise fs hn ih
  | message fs m hm _ ih => exact .message fs m hm ih

theorem calls_append {σ : Type} {f : σ → Message → Py σ} {s s' s'' : σ} {ms ms' : List Message} (h : Calls f s ms s') (h' : Calls f s' ms' s'') :
    Calls f s (ms ++ ms') s'' := by
  induction ms generalizing s with
  | nil => cases h; exact h'
  | cons m ms ih =>
    obtain ⟨s1, h1, h2⟩ := h
    exact ⟨s1, h1, ih h2⟩

theorem routine_ok {σ : Type} {f : σ → Message → Py σ} {c c' : AsyncConn} {s s' : σ} {fs : List Bytes}
    (h : c.routine (some f) s fs = .ok (c', s')) : ∃ ms, Hears [fs] ms ∧ Calls f s ms s' ∧ c'.sent = c.sent ∧ c'.wire = c.wire ∧
      ∀ before, Tallied c.received before → Tallied c'.received (before ++ ms) := by
  unfold AsyncConn.routine at h
  split at h
  · next hv =>
    obtain ⟨ty, p, ps, rfl⟩ := (validFrames_iff fs).1 hv
    obtain ⟨⟨ty', m⟩, h1, h2⟩ := Py.bind_ok.1 h
    obtain ⟨rfl, hd⟩ := (readFrames_ok _ _ _ _ _).1 h1
    simp only [Py.bind_ok, Py.pure_eq, Except.ok.injEq, Prod.mk.injEq] at h2
    obtain ⟨s1, hs, rfl, rfl⟩ := h2
    refine ⟨[m], .message _ m hd .nil, ⟨s1, hs, rfl⟩, rfl, rfl, fun before hb => ?_⟩
    have := counts_snoc hb m
    rwa [decode_type hd] at this
  · next hv =>
    cases h
    exact ⟨[], .noise _ (not_validFrames hv) .nil, rfl, rfl, rfl, fun before hb => by simpa using hb⟩

/-- **C74 (a).** While the connector of an agent runs: its callback got exactly the messages that came in, in their
order; what is no message was left out; and they are counted. -/
theorem C74_async_heard {σ : Type} (f : σ → Message → Py σ) (s s' : σ) (fss : List (List Bytes)) (c : AsyncConn)
    (h : AsyncConn.init.routines (some f) s fss = .ok (c, s')) :
    ∃ ms, Hears fss ms ∧ Calls f s ms s' ∧ Tallied c.received ms ∧ c.sent = Dict.empty ∧ c.wire = [] := by
  suffices hg : ∀ (c0 : AsyncConn) (s : σ) (before : List Message), Tallied c0.received before → c0.routines (some f) s fss = .ok (c, s') →
      ∃ ms, Hears fss ms ∧ Calls f s ms s' ∧ Tallied c.received (before ++ ms) ∧ c.sent = c0.sent ∧ c.wire = c0.wire by
    obtain ⟨ms, h1, h2, h3, h4, h5⟩ := hg AsyncConn.init s [] tallied_nil h
    exact ⟨ms, h1, h2, h3, h4, h5⟩
  clear h
  induction fss with
  | nil =>
    intro c0 s before hb h
    cases h
    exact ⟨[], .nil, rfl, by simpa using hb, rfl, rfl⟩
  | cons fs fss ih =>
    intro c0 s before hb h
    obtain ⟨⟨c1, s1⟩, h1, h2⟩ := Py.bind_ok.1 h
    obtain ⟨ms1, a1, a2, a3, a4, a5⟩ := routine_ok h1
    obtain ⟨ms2, b1, b2, b3, b4, b5⟩ := ih c1 s1 (before ++ ms1) (a5 before hb) h2
    refine ⟨ms1 ++ ms2, ?_, calls_append a2 b2, by rwa [← List.append_assoc], b4.trans a3, b5.trans a4⟩
    cases a1 with
    | noise _ hn h => cases h; exact .noise fs hn b1
    | message _ m hm h => cases h; exact .message fs m hm b1

/-- **C74 (a).** Nothing else can go wrong than a payload that cannot be read and the callback itself. -/
theorem C74_async_goes_on {σ : Type} (f : σ → Message → Py σ) (s s' : σ) (fss : List (List Bytes)) (ms : List Message) (c : AsyncConn)
    (hh : Hears fss ms) (hc : Calls f s ms s') : ∃ c', c.routines (some f) s fss = .ok (c', s') := by
  induction hh generalizing c s with
  | nil => cases hc; exact ⟨c, rfl⟩
  | noise fs hn _ ih =>
    obtain ⟨c', h⟩ := ih s c hc
    refine ⟨c', ?_⟩
    simp only [AsyncConn.routines, AsyncConn.routine, noise_invalid hn, Bool.false_eq_true, if_false, Py.ok_bind]
    exact h
  | message fs m hm _ ih =>
    obtain ⟨s1, h1, h2⟩ := hc
    obtain ⟨ty, p, ps, rfl, rfl⟩ := valid_decode hm
    obtain ⟨c', h⟩ := ih s1 { c with received := countType c.received m.type } h2
    refine ⟨c', ?_⟩
    have hv := (validFrames_iff _).2 ⟨m.type, p, ps, rfl⟩
    simp only [AsyncConn.routines, AsyncConn.routine, hv, if_true, (readFrames_ok _ _ _ _ _).2 ⟨rfl, hm⟩, Py.ok_bind, h1, Py.pure_eq]
    exact h

/-- A connector without a callback only counts. -/
theorem C74_async_silent {σ : Type} (c c' : AsyncConn) (s s' : σ) (fs : List Bytes) (h : c.routine (none : Option (σ → Message → Py σ)) s fs = .ok (c', s')) :
    s' = s ∧ ∃ ms, Hears [fs] ms ∧ ∀ before, Tallied c.received before → Tallied c'.received (before ++ ms) := by
  unfold AsyncConn.routine at h
  split at h
  · next hv =>
    obtain ⟨ty, p, ps, rfl⟩ := (validFrames_iff fs).1 hv
    obtain ⟨⟨ty', m⟩, h1, h2⟩ := Py.bind_ok.1 h
    obtain ⟨rfl, hd⟩ := (readFrames_ok _ _ _ _ _).1 h1
    simp only [Py.pure_eq, Except.ok.injEq, Prod.mk.injEq] at h2
    obtain ⟨rfl, rfl⟩ := h2
    refine ⟨rfl, [m], .message _ m hd .nil, fun before hb => ?_⟩
    have := counts_snoc hb m
    rwa [decode_type hd] at this
  · next hv =>
    cases h
    exact ⟨rfl, [], .noise _ (not_validFrames hv) .nil, fun before hb => by simpa using hb⟩

theorem encode_ok (m : Message) (fs : List Bytes) : encode m = .ok fs ↔ sendable m ∧ fs = wireFrames m := by
  constructor
  · intro h; exact ⟨(C03_sendable m).1 ⟨fs, h⟩, C65_layout m fs h⟩
  · rintro ⟨h, rfl⟩
    obtain ⟨fs, h⟩ := (C03_sendable m).2 h
    rwa [C65_layout m fs h] at h

theorem async_send_ok (c c' : AsyncConn) (m : Message) : c.send m = .ok c' ↔
    sendable m ∧ c' = { c with sent := countType c.sent m.type, wire := c.wire ++ [wireFrames m] } := by
  simp only [AsyncConn.send, Py.bind_ok, encode_ok, Py.pure_eq, Except.ok.injEq]
  constructor
  · rintro ⟨_, ⟨h, rfl⟩, rfl⟩; exact ⟨h, rfl⟩
  · rintro ⟨h, rfl⟩; exact ⟨_, ⟨h, rfl⟩, rfl⟩

/-- **C74 (b).** What is sent is on the wire in the documented form and order, and counted; and it raises exactly if
one of the messages has no wire form. -/
theorem C74_async_sent (ms : List Message) : (∀ c, AsyncConn.init.sends ms = .ok c → c.wire = ms.map wireFrames ∧ Tallied c.sent ms ∧ c.received = Dict.empty) ∧
    ((∃ c, AsyncConn.init.sends ms = .ok c) ↔ ∀ m ∈ ms, sendable m) := by
  suffices hg : ∀ (c0 : AsyncConn) (before : List Message), Tallied c0.sent before →
      (∀ c, c0.sends ms = .ok c → c.wire = c0.wire ++ ms.map wireFrames ∧ Tallied c.sent (before ++ ms) ∧ c.received = c0.received) ∧
      ((∃ c, c0.sends ms = .ok c) ↔ ∀ m ∈ ms, sendable m) by
    simpa [AsyncConn.init] using hg AsyncConn.init [] tallied_nil
  induction ms with
  | nil =>
    intro c0 before hb
    refine ⟨?_, by simp [AsyncConn.sends]⟩
    intro c h
    cases h
    exact ⟨by simp, by simpa using hb, rfl⟩
  | cons m ms ih =>
    intro c0 before hb
    obtain ⟨i1, i2⟩ := ih { c0 with sent := countType c0.sent m.type, wire := c0.wire ++ [wireFrames m] } (before ++ [m]) (counts_snoc hb m)
    constructor
    · intro c h
      simp only [AsyncConn.sends, Py.bind_ok, async_send_ok] at h
      obtain ⟨_, ⟨-, rfl⟩, h⟩ := h
      obtain ⟨a, b, d⟩ := i1 c h
      exact ⟨by simpa using a, by simpa using b, d⟩
    · rw [List.forall_mem_cons, ← i2]
      simp only [AsyncConn.sends, Py.bind_ok, async_send_ok]
      constructor
      · rintro ⟨c, _, ⟨h1, rfl⟩, h2⟩; exact ⟨h1, c, h2⟩
      · rintro ⟨h1, c, h2⟩; exact ⟨c, _, ⟨h1, rfl⟩, h2⟩

/-- **C74 (c), from one connector to another.** The callback of the receiver gets exactly the messages sent. -/
theorem C74_pipe {σ : Type} (f : σ → Message → Py σ) (s : σ) (ms : List Message) (a b b' : AsyncConn) (s' : σ) (h : AsyncConn.init.sends ms = .ok a)
    (hb : b.routines (some f) s a.wire = .ok (b', s')) : Calls f s ms s' := by
  obtain ⟨h1, -, -⟩ := (C74_async_sent ms).1 a h
  have h2 := (C74_async_sent ms).2.1 ⟨a, h⟩
  rw [h1] at hb
  clear h h1
  induction ms generalizing b s with
  | nil => cases hb; rfl
  | cons m ms ih =>
    obtain ⟨⟨c1, s1⟩, h3, h4⟩ := Py.bind_ok.1 hb
    obtain ⟨ms1, a1, a2, -⟩ := routine_ok h3
    have hd : decode (wireFrames m) = .ok (some m) := C02_decode_encode m _ ((encode_ok m _).2 ⟨h2 m (by simp), rfl⟩)
    have : ms1 = [m] := by
      cases a1 with
      | noise _ hn h =>
        obtain ⟨ty, p, ps, he, -⟩ := valid_decode hd
        rw [he] at hn
        rcases hn with hn | hn
        · simp at hn; omega
        · exact absurd rfl (hn ty)
      | message _ m' hm h =>
        cases h
        rw [hd] at hm
        cases hm
        rfl
    subst this
    obtain ⟨_, e1, e2⟩ := a2
    cases e2
    exact ⟨s1, e1, ih s1 c1 h4 fun m hm => h2 m (by simp [hm])⟩

/-! ### The connector of clients and processors -/

/-- What is known after a run: `k` messages of the queue were sent, `j` multipart messages were read. -/
structure Known {σ : Type} (f : σ → Message → Py σ) (exitF : Option (σ → Py σ)) (s0 : σ) (ops : List SyncConn.Op) (c : SyncConn σ) : Prop where
  sent : ∃ k, c.queue = (handed ops).drop k ∧
    Shuffle (((handed ops).take k).map wireFrames) ((direct ops).map wireFrames) c.wire ∧ ∀ m ∈ (handed ops).take k, sendable m
  heard : ∃ j ms s1, c.inbox = (arrived ops).drop j ∧ Hears ((arrived ops).take j) ms ∧ Calls f s0 ms s1 ∧ Tallied c.received ms ∧
    (c.place ≠ .over → c.state = s1 ∧ c.closed = false) ∧
    (c.place = .over → c.stop = true ∧ c.closed = true ∧ Exits exitF s1 c.state)
  never : c.sent = Dict.empty
  stop : c.stop = true ↔ SyncConn.Op.stop ∈ ops

theorem handed_snoc (ops : List SyncConn.Op) (op : SyncConn.Op) : handed (ops ++ [op]) = handed ops ++ handed [op] := by
  simp [handed]

theorem direct_snoc (ops : List SyncConn.Op) (op : SyncConn.Op) : direct (ops ++ [op]) = direct ops ++ direct [op] := by
  simp [direct]

theorem arrived_snoc (ops : List SyncConn.Op) (op : SyncConn.Op) : arrived (ops ++ [op]) = arrived ops ++ arrived [op] := by
  simp [arrived]

theorem known_init {σ : Type} (f : σ → Message → Py σ) (exitF : Option (σ → Py σ)) (s : σ) : Known f exitF s [] (SyncConn.init s) where
  sent := ⟨0, rfl, .nil, by simp [handed]⟩
  heard := ⟨0, [], s, rfl, .nil, rfl, tallied_nil, fun _ => ⟨rfl, rfl⟩, fun h => by cases h⟩
  never := rfl
  stop := by simp [SyncConn.init]

theorem drop_of_le {α : Type} {k : Nat} {l q : List α} {x : α} (h : x :: q = l.drop k) : k < l.length ∧ l[k]? = some x ∧ q = l.drop (k + 1) := by
  have hk : k < l.length := by
    rcases Nat.lt_or_ge k l.length with hk | hk
    · exact hk
    · rw [List.drop_eq_nil_of_le hk] at h; cases h
  rw [List.drop_eq_getElem_cons hk] at h
  injection h with h1 h2
  exact ⟨hk, by rw [List.getElem?_eq_getElem hk, h1], h2⟩

theorem take_snoc {α : Type} {k : Nat} {l : List α} {x : α} (hk : l[k]? = some x) : l.take (k + 1) = l.take k ++ [x] := by
  rw [List.take_add_one, hk]; rfl

theorem known_apply {σ : Type} {f : σ → Message → Py σ} {exitF : Option (σ → Py σ)} {s0 : σ} {ops : List SyncConn.Op} {c c' : SyncConn σ} {op : SyncConn.Op}
    (hk : Known f exitF s0 ops c) (h : c.apply f exitF op = .ok c') : Known f exitF s0 (ops ++ [op]) c' := by
  obtain ⟨⟨k, k1, k2, k3⟩, ⟨j, ms, s1, j1, j2, j3, j4, j5, j6⟩, hn, hstop⟩ := hk
  cases op with
  | send m =>
    cases h
    refine ⟨⟨min k (handed ops).length, ?_, ?_, ?_⟩, ⟨j, ms, s1, ?_, ?_, j3, j4, j5, j6⟩, hn, ?_⟩
    · show c.queue ++ [m] = _
      rw [k1, handed_snoc]
      show _ = ((handed ops) ++ [m]).drop _
      rw [List.drop_append_of_le_length (Nat.min_le_right _ _)]
      congr 1
      rcases Nat.le_total k (handed ops).length with hl | hl
      · rw [Nat.min_eq_left hl]
      · rw [Nat.min_eq_right hl, List.drop_eq_nil_of_le hl, List.drop_length]
    · rw [handed_snoc, direct_snoc]
      show Shuffle ((List.take _ (handed ops ++ [m])).map _) ((direct ops ++ []).map _) _
      rw [List.take_append_of_le_length (Nat.min_le_right _ _), List.append_nil, ← List.take_eq_take_min]
      exact k2
    · rw [handed_snoc]
      show ∀ x ∈ List.take _ (handed ops ++ [m]), _
      rw [List.take_append_of_le_length (Nat.min_le_right _ _), ← List.take_eq_take_min]
      exact k3
    · rw [arrived_snoc]; show _ = List.drop _ (arrived ops ++ []); rw [List.append_nil]; exact j1
    · rw [arrived_snoc]; show Hears (List.take _ (arrived ops ++ [])) _; rw [List.append_nil]; exact j2
    · rw [List.mem_append]; simpa [SyncConn.send] using hstop
  | now m =>
    simp only [SyncConn.apply, SyncConn.sendImmediately, Py.bind_ok, encode_ok, Py.pure_eq, Except.ok.injEq] at h
    obtain ⟨_, ⟨hs, rfl⟩, rfl⟩ := h
    refine ⟨⟨k, ?_, ?_, ?_⟩, ⟨j, ms, s1, ?_, ?_, j3, j4, j5, j6⟩, hn, ?_⟩
    · rw [handed_snoc]; show _ = List.drop _ (handed ops ++ []); rw [List.append_nil]; exact k1
    · rw [handed_snoc, direct_snoc]
      show Shuffle ((List.take _ (handed ops ++ [])).map _) ((direct ops ++ [m]).map _) _
      rw [List.append_nil, List.map_append]
      exact .right _ k2
    · rw [handed_snoc]; show ∀ x ∈ List.take _ (handed ops ++ []), _; rw [List.append_nil]; exact k3
    · rw [arrived_snoc]; show _ = List.drop _ (arrived ops ++ []); rw [List.append_nil]; exact j1
    · rw [arrived_snoc]; show Hears (List.take _ (arrived ops ++ [])) _; rw [List.append_nil]; exact j2
    · rw [List.mem_append]; simpa using hstop
  | stop =>
    cases h
    refine ⟨⟨k, ?_, ?_, ?_⟩, ⟨j, ms, s1, ?_, ?_, j3, j4, j5, fun ho => ⟨rfl, (j6 ho).2⟩⟩, hn, ?_⟩
    · rw [handed_snoc]; show _ = List.drop _ (handed ops ++ []); rw [List.append_nil]; exact k1
    · rw [handed_snoc, direct_snoc]
      show Shuffle ((List.take _ (handed ops ++ [])).map _) ((direct ops ++ []).map _) _
      rw [List.append_nil, List.append_nil]; exact k2
    · rw [handed_snoc]; show ∀ x ∈ List.take _ (handed ops ++ []), _; rw [List.append_nil]; exact k3
    · rw [arrived_snoc]; show _ = List.drop _ (arrived ops ++ []); rw [List.append_nil]; exact j1
    · rw [arrived_snoc]; show Hears (List.take _ (arrived ops ++ [])) _; rw [List.append_nil]; exact j2
    · simp
  | arrive fs =>
    cases h
    refine ⟨⟨k, ?_, ?_, ?_⟩, ⟨min j (arrived ops).length, ms, s1, ?_, ?_, j3, j4, j5, j6⟩, hn, ?_⟩
    · rw [handed_snoc]; show _ = List.drop _ (handed ops ++ []); rw [List.append_nil]; exact k1
    · rw [handed_snoc, direct_snoc]
      show Shuffle ((List.take _ (handed ops ++ [])).map _) ((direct ops ++ []).map _) _
      rw [List.append_nil, List.append_nil]; exact k2
    · rw [handed_snoc]; show ∀ x ∈ List.take _ (handed ops ++ []), _; rw [List.append_nil]; exact k3
    · show c.inbox ++ [fs] = _
      rw [j1, arrived_snoc]
      show _ = ((arrived ops) ++ [fs]).drop _
      rw [List.drop_append_of_le_length (Nat.min_le_right _ _)]
      congr 1
      rcases Nat.le_total j (arrived ops).length with hl | hl
      · rw [Nat.min_eq_left hl]
      · rw [Nat.min_eq_right hl, List.drop_eq_nil_of_le hl, List.drop_length]
    · rw [arrived_snoc]
      show Hears (List.take _ (arrived ops ++ [fs])) _
      rw [List.take_append_of_le_length (Nat.min_le_right _ _), ← List.take_eq_take_min]
      exact j2
    · rw [List.mem_append]; simpa using hstop
  | step =>
    have e1 : handed (ops ++ [.step]) = handed ops := by simp [handed]
    have e2 : direct (ops ++ [.step]) = direct ops := by simp [direct]
    have e3 : arrived (ops ++ [.step]) = arrived ops := by simp [arrived]
    have e4 : (SyncConn.Op.stop ∈ ops ++ [.step]) ↔ SyncConn.Op.stop ∈ ops := by simp
    simp only [SyncConn.apply, SyncConn.step] at h
    split at h
    · next hp =>
      obtain ⟨j5a, j5b⟩ := j5 (by rw [hp]; simp)
      split at h
      · next hst =>
        have hx : ∃ s2, Exits exitF c.state s2 ∧ c' = { c with state := s2, closed := true, place := .over } := by
          cases exitF with
          | none => cases h; exact ⟨_, rfl, rfl⟩
          | some g =>
            obtain ⟨s2, h1, h2⟩ := Py.bind_ok.1 h
            cases h2
            exact ⟨s2, h1, rfl⟩
        obtain ⟨s2, h1, rfl⟩ := hx
        refine ⟨⟨k, by rwa [e1], by rwa [e1, e2], by rwa [e1]⟩, ⟨j, ms, s1, by rwa [e3], by rwa [e3], j3, j4, fun hc => absurd rfl hc, fun _ => ⟨hst, rfl, ?_⟩⟩, hn,
          by rwa [e4]⟩
        rw [j5a] at h1
        exact h1
      · cases h
        exact ⟨⟨k, by rwa [e1], by rwa [e1, e2], by rwa [e1]⟩, ⟨j, ms, s1, by rwa [e3], by rwa [e3], j3, j4, fun _ => ⟨j5a, j5b⟩, fun hc => by cases hc⟩, hn, by rwa [e4]⟩
    · next hp =>
      obtain ⟨j5a, j5b⟩ := j5 (by rw [hp]; simp)
      split at h
      · cases h
        exact ⟨⟨k, by rwa [e1], by rwa [e1, e2], by rwa [e1]⟩, ⟨j, ms, s1, by rwa [e3], by rwa [e3], j3, j4, fun _ => ⟨j5a, j5b⟩, fun hc => by cases hc⟩, hn, by rwa [e4]⟩
      · next m q hq =>
        simp only [Py.bind_ok, encode_ok, Py.pure_eq, Except.ok.injEq] at h
        obtain ⟨_, ⟨hs, rfl⟩, rfl⟩ := h
        obtain ⟨hl, hg, hd⟩ := drop_of_le (hq.symm.trans k1)
        refine ⟨⟨k + 1, by rw [e1]; exact hd, ?_, ?_⟩, ⟨j, ms, s1, by rwa [e3], by rwa [e3], j3, j4, fun _ => ⟨j5a, j5b⟩, fun hc => ?_⟩, hn, by rwa [e4]⟩
        · rw [e1, e2, take_snoc hg, List.map_append]
          exact .left _ k2
        · rw [e1, take_snoc hg]
          intro x hx
          rcases List.mem_append.1 hx with hx | hx
          · exact k3 x hx
          · cases List.mem_singleton.1 hx; exact hs
        · rw [show c.place = .over from hc] at hp; cases hp
    · next hp =>
      obtain ⟨j5a, j5b⟩ := j5 (by rw [hp]; simp)
      split at h
      · cases h
        exact ⟨⟨k, by rwa [e1], by rwa [e1, e2], by rwa [e1]⟩, ⟨j, ms, s1, by rwa [e3], by rwa [e3], j3, j4, fun _ => ⟨j5a, j5b⟩, fun hc => by cases hc⟩, hn, by rwa [e4]⟩
      · next fs rest hi =>
        obtain ⟨c1, h1, h2⟩ := Py.bind_ok.1 h
        simp only [Py.pure_eq, Except.ok.injEq] at h2
        subst h2
        obtain ⟨hl, hg, hd⟩ := drop_of_le (hi.symm.trans j1)
        unfold SyncConn.receive at h1
        split at h1
        · next hv =>
          obtain ⟨ty, p, ps, rfl⟩ := (validFrames_iff fs).1 hv
          obtain ⟨⟨ty', m⟩, g1, g2⟩ := Py.bind_ok.1 h1
          obtain ⟨rfl, hdec⟩ := (readFrames_ok _ _ _ _ _).1 g1
          simp only [Py.bind_ok, Py.pure_eq, Except.ok.injEq] at g2
          obtain ⟨s2, g3, rfl⟩ := g2
          rw [j5a] at g3
          refine ⟨⟨k, by rwa [e1], by rwa [e1, e2], by rwa [e1]⟩, ⟨j + 1, ms ++ [m], s2, by rw [e3]; exact hd, ?_, calls_append j3 ⟨s2, g3, rfl⟩, ?_,
            fun _ => ⟨rfl, j5b⟩, fun hc => by cases hc⟩, hn, by rwa [e4]⟩
          · rw [e3, take_snoc hg]
            exact hears_snoc j2 (.message _ m hdec .nil)
          · have := counts_snoc j4 m
            rwa [decode_type hdec] at this
        · next hv =>
          cases h1
          refine ⟨⟨k, by rwa [e1], by rwa [e1, e2], by rwa [e1]⟩, ⟨j + 1, ms, s1, by rw [e3]; exact hd, ?_, j3, j4, fun _ => ⟨j5a, j5b⟩, fun hc => by cases hc⟩, hn,
            by rwa [e4]⟩
          rw [e3, take_snoc hg]
          have := hears_snoc j2 (.noise fs (not_validFrames hv) .nil)
          simpa using this
    · next hp =>
      cases h
      exact ⟨⟨k, by rwa [e1], by rwa [e1, e2], by rwa [e1]⟩, ⟨j, ms, s1, by rwa [e3], by rwa [e3], j3, j4, j5, j6⟩, hn, by rwa [e4]⟩

theorem known_run {σ : Type} {f : σ → Message → Py σ} {exitF : Option (σ → Py σ)} {s0 : σ} (ops' : List SyncConn.Op) {ops : List SyncConn.Op} {c c' : SyncConn σ}
    (hk : Known f exitF s0 ops c) (h : c.run f exitF ops' = .ok c') : Known f exitF s0 (ops ++ ops') c' := by
  induction ops' generalizing ops c with
  | nil => cases h; simpa using hk
  | cons op ops' ih =>
    obtain ⟨c1, h1, h2⟩ := Py.bind_ok.1 h
    have := ih (known_apply hk h1) h2
    simpa using this

/-- **C74 (d), what leaves.** While the connector of a client or a processor runs: the messages handed over leave in
their order; those that did not leave yet are in the queue; those sent immediately leave in their order, too; nothing
else leaves.

Full statement: everything handed over leaves.  Missing: what is still in the queue when the connector is stopped; it
never leaves (`C74_dropped`).  Without a stop it does (`C74_sync_flush`). -/
theorem C74_sync_sent_partial {σ : Type} (f : σ → Message → Py σ) (exitF : Option (σ → Py σ)) (s : σ) (ops : List SyncConn.Op) (c : SyncConn σ)
    (h : (SyncConn.init s).run f exitF ops = .ok c) :
    ∃ k, c.queue = (handed ops).drop k ∧ Shuffle (((handed ops).take k).map wireFrames) ((direct ops).map wireFrames) c.wire :=
  let ⟨k, h1, h2, _⟩ := (known_run ops (known_init f exitF s) h).sent
  ⟨k, h1, h2⟩

/-- **C74 (d), what comes in.** The callback got exactly the messages of the first arrivals, in their order; the other
arrivals wait; they are counted.  The exit callback is called once, when the connector stops, after all of them; and
the connector stops only if it is told to. -/
theorem C74_sync_heard {σ : Type} (f : σ → Message → Py σ) (exitF : Option (σ → Py σ)) (s : σ) (ops : List SyncConn.Op) (c : SyncConn σ)
    (h : (SyncConn.init s).run f exitF ops = .ok c) :
    ∃ j ms s1, c.inbox = (arrived ops).drop j ∧ Hears ((arrived ops).take j) ms ∧ Calls f s ms s1 ∧ Tallied c.received ms ∧
      (c.place ≠ .over → c.state = s1 ∧ c.closed = false) ∧
      (c.place = .over → SyncConn.Op.stop ∈ ops ∧ c.closed = true ∧ Exits exitF s1 c.state) := by
  have hk := known_run ops (known_init f exitF s) h
  obtain ⟨j, ms, s1, h1, h2, h3, h4, h5, h6⟩ := hk.heard
  refine ⟨j, ms, s1, h1, h2, h3, h4, h5, fun ho => ⟨?_, (h6 ho).2⟩⟩
  have := hk.stop.1 (h6 ho).1
  simpa using this

/-- **C74 (d), it gets everything out.** If nobody stops it and all messages in the queue have a wire form, the thread
empties the queue by itself. -/
theorem C74_sync_flush {σ : Type} (f : σ → Message → Py σ) (exitF : Option (σ → Py σ)) (c : SyncConn σ) (hp : c.place = .check) (hs : c.stop = false)
    (hq : ∀ m ∈ c.queue, sendable m) :
    ∃ c', c.run f exitF (.step :: List.replicate c.queue.length .step) = .ok c' ∧ c'.queue = [] ∧ c'.wire = c.wire ++ c.queue.map wireFrames := by
  have h1 : c.step f exitF = .ok { c with place := .sending } := by simp [SyncConn.step, hp, hs]
  suffices hg : ∀ (q : List Message) (c : SyncConn σ), c.place = .sending → c.queue = q → (∀ m ∈ q, sendable m) →
      ∃ c', c.run f exitF (List.replicate q.length .step) = .ok c' ∧ c'.queue = [] ∧ c'.wire = c.wire ++ q.map wireFrames by
    obtain ⟨c', h2, h3⟩ := hg c.queue { c with place := .sending } rfl rfl hq
    exact ⟨c', by simp only [SyncConn.run, SyncConn.apply, h1, Py.ok_bind]; exact h2, h3⟩
  intro q
  induction q with
  | nil => intro c _ hq _; exact ⟨c, rfl, hq, by simp⟩
  | cons m q ih =>
    intro c hp hcq hq
    have h1 : c.step f exitF = .ok { c with queue := q, wire := c.wire ++ [wireFrames m] } := by
      simp only [SyncConn.step, hp, hcq, (encode_ok m _).2 ⟨hq m (by simp), rfl⟩, Py.ok_bind, Py.pure_eq]
    obtain ⟨c', h2, h3, h4⟩ := ih { c with queue := q, wire := c.wire ++ [wireFrames m] } hp rfl fun x hx => hq x (by simp [hx])
    refine ⟨c', ?_, h3, by simpa using h4⟩
    simp only [List.length_cons, List.replicate_succ, SyncConn.run, SyncConn.apply, h1, Py.ok_bind]
    exact h2

/-- A connector that only listens; its callback keeps what it gets. -/
def keep (l : List Message) (m : Message) : Py (List Message) := .ok (l ++ [m])

/-- A message is handed over, another arrives, and the thread runs around its loop. -/
def connStory : List SyncConn.Op :=
  [.now (.taskCancel [1]), .send (.taskCancel [2]), .arrive [[0], [0]], .arrive (wireFrames (.taskCancel [3])), .send (.taskCancel [4]),
    .step, .step, .step, .step, .step, .step, .step, .step]

example : ((SyncConn.init []).run keep none connStory).toOption.map (fun c => (c.wire, c.state, c.queue, c.received.items, c.sent.items)) =
    some ([wireFrames (.taskCancel [1]), wireFrames (.taskCancel [2]), wireFrames (.taskCancel [4])], [.taskCancel [3]], [], [(.taskCancel, 1)], []) := rfl

/-- **C74, false for the statistics of clients and processors.** `monitor` reports that nothing was ever sent. -/
theorem C74_sent_not_counted {σ : Type} (f : σ → Message → Py σ) (exitF : Option (σ → Py σ)) (s : σ) (ops : List SyncConn.Op) (c : SyncConn σ)
    (h : (SyncConn.init s).run f exitF ops = .ok c) : c.sent = Dict.empty :=
  (known_run ops (known_init f exitF s) h).never

/-- **C74, false when a client is stopped.** A message that was handed over before the stop is never sent. -/
theorem C74_dropped : ∃ c : SyncConn (List Message), (SyncConn.init []).run keep none [.send (.taskCancel [1]), .stop, .step] = .ok c ∧
    c.wire = [] ∧ c.place = .over ∧ ∀ n, c.run keep none (List.replicate n .step) = .ok c := by
  refine ⟨⟨.over, true, [.taskCancel [1]], [], [], Dict.empty, Dict.empty, true, []⟩, rfl, rfl, rfl, ?_⟩
  intro n
  induction n with
  | zero => rfl
  | succ n ih => exact ih

/-- The hypotheses of `C74_pipe` and `C74_sync_flush` can be met. -/
example : ∃ a b s', AsyncConn.init.sends [.taskCancel [1], .balanceRequest 5] = .ok a ∧ AsyncConn.init.routines (some keep) [] a.wire = .ok (b, s') ∧
    s' = [.taskCancel [1], .balanceRequest 5] := by
  exact ⟨_, _, _, rfl, rfl, rfl⟩

example : ∃ c : SyncConn (List Message), (SyncConn.init []).run keep none [.send (.taskCancel [1]), .send (.balanceRequest 5)] = .ok c ∧
    c.place = .check ∧ c.stop = false ∧ (∀ m ∈ c.queue, sendable m) ∧ c.queue.length = 2 := by
  refine ⟨_, rfl, rfl, rfl, ?_, rfl⟩
  intro m hm
  simp only [SyncConn.send, SyncConn.init, List.nil_append, List.cons_append, List.mem_cons, List.not_mem_nil, or_false] at hm
  rcases hm with rfl | rfl
  · trivial
  · simp [sendable, fitsBits]

/-- Frames whose tag is unknown are not read: `MessageType(frames[0])` raises `ValueError`; `validFrames` leaves them
out before it comes to that. -/
theorem C74_unknown (frames : List Bytes) (h : ∀ ty, frames.head? ≠ some (ascii (tagWord ty))) :
    readFrames frames = .error .valueError ∧ validFrames frames = false := by
  constructor
  · unfold readFrames
    cases frames with
    | nil => rfl
    | cons tag ps =>
      have : (MessageType.members.find? fun m => m.value == tag) = none := by
        rw [List.find?_eq_none]
        intro m _ he
        have he : m.value = tag := by simpa using he
        refine h m ?_
        cases m <;> rw [← he] <;> rfl
      simp only [this]
  · cases hv : validFrames frames with
    | false => rfl
    | true =>
      obtain ⟨ty, q, qs, rfl⟩ := (validFrames_iff frames).1 hv
      exact absurd rfl (h ty)

example : readFrames [[1], [2]] = .error .valueError := (C74_unknown [[1], [2]] (fun ty => by cases ty <;> decide)).1

end Verif.Props
