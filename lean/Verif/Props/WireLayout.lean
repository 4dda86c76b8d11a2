import Verif.Props.Wire
import Verif.Spec.WireLayout

/-!
# C65: the exact bytes on the wire, and what a tag can be decoded to
-/

namespace Verif.Props

open Verif Verif.Wire Verif.Spec

theorem packLE_eq (k n : Nat) : packLE k n = little k n := by
  induction k generalizing n with
  | zero => rfl
  | succ k ih =>
    rw [packLE, ih, little, little, List.range_succ_eq_map, List.map_cons, List.map_map]
    congr 1
    · simp [byteOf]
    · apply List.map_congr_left
      intro i _
      have : ((n : Int) / 256).toNat = n / 256 := by omega
      simp [byteOf, Nat.pow_succ, this, Nat.div_div_eq_div_mul, Nat.mul_comm]

theorem packI_eq {n : Int} {b : Bytes} (h : packI n = .ok b) : b = little 4 n := by
  have hr := packI_ok.1 ⟨b, h⟩
  simp only [packI, pack, packFrom, packField, Py.bind_ok] at h
  obtain ⟨x, hx, r, hr', h⟩ := h
  cases hr'
  split at hx
  · cases hx
    cases h
    simp [Code.pad, Code.size, packLE_eq, Int.toNat_of_nonneg hr.1]
  · cases hx

theorem serializeGraph_eq {ts : List Task} {bs : List Bytes} (h : serializeGraph ts = .ok bs) :
    bs = ts.flatMap fun t => little 4 (2 + 2 * t.args.length) :: taskFrames t := by
  have hser : ∀ t : Task, t.serialize = taskFrames t := by
    intro t
    simp only [Task.serialize, taskFrames, List.cons_append, List.nil_append]
    congr 3
    funext a
    obtain ⟨ty, d⟩ := a
    cases ty <;> rfl
  induction ts generalizing bs with
  | nil => cases h; rfl
  | cons t ts ih =>
    simp only [serializeGraph, Py.bind_ok] at h
    obtain ⟨n, hn, r, hr, h⟩ := h
    cases h
    have hl := packI_eq hn
    rw [task_serialize_length] at hl
    rw [List.flatMap_cons, ← ih hr, hser, hl]
    simp

theorem packField_eq {c : Code} {n : Int} {b : Bytes} (hc : c ≠ .bool) (h : packField c n = .ok b) :
    b = little c.size n := by
  cases c <;> simp only [packField, ne_eq, not_true_eq_false] at h hc <;> split at h <;> cases h <;>
    next hr => rw [packLE_eq, Int.toNat_of_nonneg hr.1]

theorem packField_flag {v : Bool} {x : Bytes} (h : packField .bool (boolInt v) = .ok x) :
    x = flag v := by
  cases h; cases v <;> rfl

theorem heartbeat_serialize_eq {h : Heartbeat} {fs : List Bytes} (e : h.serialize = .ok fs) :
    fs = payload (.heartbeat h) := by
  simp only [Heartbeat.serialize, pack, Heartbeat.fields, packFrom, Py.bind_ok] at e
  obtain ⟨b, ⟨x1, h1, r1, ⟨x2, h2, r2, ⟨x3, h3, r3, ⟨x4, h4, r4, ⟨x5, h5, r5, ⟨x6, h6, r6,
    ⟨x7, h7, r7, ⟨x8, h8, r8, ⟨x9, h9, r9, e9, e8⟩, e7⟩, e6⟩, e5⟩, e4⟩, e3⟩, e2⟩, e1⟩, e0⟩, e⟩ := e
  cases e9; cases e8; cases e7; cases e6; cases e5; cases e4; cases e3; cases e2; cases e1
  cases e0; cases e
  rw [packField_eq (by decide) h1, packField_eq (by decide) h2, packField_eq (by decide) h3,
    packField_eq (by decide) h4, packField_eq (by decide) h5, packField_eq (by decide) h6,
    packField_flag h7, packField_flag h8, packField_flag h9]
  simp [payload, gap, Code.pad, Code.size]

theorem type_value (m : Message) : m.type.value = ascii (tagText m) := by cases m <;> rfl

/-- **C65.** Whatever message is sent, the frames are exactly the documented ones, byte for
byte: tag, field order, number width, byte order and alignment. -/
theorem C65_layout (m : Message) (fs : List Bytes) (h : encode m = .ok fs) : fs = wireFrames m := by
  simp only [encode, Py.bind_ok] at h
  obtain ⟨ps, hp, h⟩ := h
  cases h
  rw [wireFrames, type_value]
  congr 1
  cases m with
  | task t =>
    cases hp
    simp only [Task.serialize, payload, taskFrames, List.cons_append, List.nil_append]
    congr 3
    funext a
    obtain ⟨ty, d⟩ := a
    cases ty <;> rfl
  | graphTask g =>
    simp only [Message.serialize, GraphTask.serialize, Py.bind_ok] at hp
    obtain ⟨nf, hnf, _, _, gb, hgb, nt, hnt, hp⟩ := hp
    cases hp
    rw [packI_eq hnf, packI_eq hnt, serializeGraph_eq hgb]
    simp [payload, Dict.keys, Dict.values, Dict.size, Function.comp_def]
  | taskEcho i s => cases hp; cases s <;> rfl
  | graphTaskEcho i s => cases hp; cases s <;> rfl
  | taskResult i s d r =>
    cases hp
    simp only [payload, packF, packLE_eq]
    cases s <;> rfl
  | graphTaskResult i s rs => cases hp; cases s <;> rfl
  | balanceRequest n =>
    simp only [Message.serialize, Py.bind_ok] at hp
    obtain ⟨b, hb, hp⟩ := hp
    cases hp
    rw [packI_eq hb]; rfl
  | balanceResponse ids =>
    simp only [Message.serialize, Py.bind_ok] at hp
    obtain ⟨b, hb, hp⟩ := hp
    cases hp
    rw [packI_eq hb]; rfl
  | heartbeat h => exact heartbeat_serialize_eq hp
  | functionRequest t => cases hp; cases t <;> rfl
  | functionResponse t => cases hp; cases t <;> rfl
  | taskState i n s => cases hp; cases s <;> rfl
  | graphTaskState g i t ps => cases hp; cases t <;> rfl
  | _ => cases hp; rfl

/-- A heartbeat is 43 bytes; the numbers are little-endian and aligned. -/
example :
    wireFrames (.heartbeat ⟨258, 1, 3, 4, 5, 6, true, false, true⟩) =
      [[72, 66],
       [2, 1, 0, 0, 0, 0, 0, 0, 1, 0, 0, 0, 0, 0, 0, 0, 3, 0, 0, 0, 0, 0, 0, 0, 4, 0, 0, 0, 0, 0, 0, 0,
        5, 0, 0, 0, 6, 0, 0, 0, 1, 0, 1]] ∧
    encode (.heartbeat ⟨258, 1, 3, 4, 5, 6, true, false, true⟩) =
      .ok (wireFrames (.heartbeat ⟨258, 1, 3, 4, 5, 6, true, false, true⟩)) ∧
    (∃ fs, encode (.graphTask sampleGraph) = .ok fs) := by
  refine ⟨by decide, by decide, (C03_sendable _).2 ⟨by decide, by decide, by decide, by decide⟩⟩

/-- **C65.** Nothing is decoded under a tag that is not its own: the first frame received is
the tag of the message. -/
theorem C65_tag (frames : List Bytes) (m : Message) (h : decode frames = .ok (some m)) :
    frames.head? = some (ascii (tagText m)) := by
  unfold decode at h
  split at h
  · next tag p ps =>
    split at h
    · simp at h
    · next ty hty =>
      have hv : ty.value = tag := by simpa using List.find?_some hty
      simp only [Py.bind_ok] at h
      obtain ⟨m', hm, h⟩ := h
      simp only [Py.pure_eq, Except.ok.injEq, Option.some.injEq] at h
      subst h
      have key : m'.type = ty := by
        cases ty <;> simp only [deserialize, Py.bind_ok, Py.pure_eq, Except.ok.injEq, reduceCtorEq] at hm
        all_goals grind [Message.type]
      rw [List.head?_cons, ← hv, Option.some.injEq, ← key, type_value]
  · simp at h

/-- **C65.** The tag `GX` has no class: it always raises. -/
theorem C65_no_class (p : Bytes) (ps : List Bytes) :
    decode (ascii ['G', 'X'] :: p :: ps) = .error .keyError := rfl

/-- **C65.** A tag that is not one of the 21 is dropped, and so is a message without payload. -/
theorem C65_dropped (tag : Bytes) (ps : List Bytes)
    (h : tag ∉ ([['T', 'K'], ['T', 'E'], ['T', 'C'], ['T', 'R'], ['G', 'T'], ['G', 'E'], ['G', 'C'], ['G', 'X'], ['G', 'R'], ['B', 'Q'], ['B', 'R'], ['H', 'B'], ['H', 'E'], ['F', 'R'],
      ['F', 'A'], ['D', 'R'], ['D', 'P'], ['P', 'I'], ['S', 'S'], ['T', 'S'], ['G', 'S']].map ascii) ∨ ps = []) :
    decode (tag :: ps) = .ok none := by
  rcases ps with _ | ⟨p, ps⟩
  · rfl
  · have h := h.resolve_right (by simp)
    unfold decode
    have : (MessageType.members.find? fun m => m.value == tag) = none := by
      rw [List.find?_eq_none]
      intro ty _ e
      have e : ty.value = tag := by simpa using e
      subst e
      revert h
      cases ty <;> decide
    simp only [this]

/-- Both kinds of refusal occur. -/
example : decode [ascii ['X', 'X'], [1]] = .ok none ∧ decode [ascii ['G', 'X'], [1]] = .error .keyError ∧
    decode [ascii ['T', 'C'], [1]] = .ok (some (.taskCancel [1])) := by decide

end Verif.Props
