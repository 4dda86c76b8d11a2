import Verif.Wire.Lemmas
import Verif.Spec.Wire

/-!
# C01-C04: the wire protocol
-/

namespace Verif.Props

open Verif.Wire Verif.Spec

/-! ## Sample messages for the non-vacuity examples -/

/-- A graph message with two functions, two targets and three nodes. -/
def sampleGraph : GraphTask where
  taskId := [1]
  functions := ⟨[([10], ([65], [66])), ([11], ([67], [68, 69]))], by decide⟩
  targets := [[3], [2]]
  graph := [⟨[2], [10], [⟨.data, [7, 7]⟩]⟩, ⟨[3], [11], [⟨.task, [2]⟩, ⟨.data, []⟩]⟩, ⟨[4], [11], []⟩]

/-- A heartbeat with every field away from zero. -/
def sampleHeartbeat : Heartbeat := ⟨1001, 4096, 999, 8192, 17, 120000, true, false, true⟩

/-! ## C01: every message survives the wire -/

/-- **C01.** Whatever `serialize` produces, `deserialize` of the same class gives back an
equal message. -/
theorem C01_roundtrip (m : Message) (fs : List Bytes) (h : m.serialize = .ok fs) :
    deserialize m.type fs = .ok m := by
  cases m with
  | task t => cases h; simp [Message.type, deserialize, task_roundtrip]
  | taskEcho i s => cases h; simp [Message.type, deserialize]
  | taskCancel i => cases h; simp [Message.type, deserialize]
  | taskResult i s d r => cases h; simp [Message.type, deserialize, unpackF_packF]
  | graphTask g => simp [Message.type, deserialize, graphTask_roundtrip h]
  | graphTaskEcho i s => cases h; simp [Message.type, deserialize]
  | graphTaskCancel i => cases h; simp [Message.type, deserialize]
  | graphTaskResult i s rs => cases h; simp [Message.type, deserialize]
  | balanceRequest n =>
    simp only [Message.serialize, Py.bind_ok] at h
    obtain ⟨b, hb, h⟩ := h
    cases h
    have h0 := (packI_ok.1 ⟨b, hb⟩).1
    simp only [Message.type, deserialize, pyIndex_zero, Py.ok_bind, unpackI_packI hb, Py.pure_eq]
    rw [Int.toNat_of_nonneg h0]
  | balanceResponse ids =>
    simp only [Message.serialize, Py.bind_ok] at h
    obtain ⟨b, hb, h⟩ := h
    cases h
    simp [Message.type, deserialize, unpackI_packI hb, pyAssert]
  | heartbeat hb => simp [Message.type, deserialize, heartbeat_roundtrip h]
  | heartbeatEcho => cases h; rfl
  | functionRequest t i n c => cases h; simp [Message.type, deserialize]
  | functionResponse t i n c => cases h; simp [Message.type, deserialize]
  | disconnectRequest w => cases h; simp [Message.type, deserialize]
  | disconnectResponse w => cases h; simp [Message.type, deserialize]
  | workerTaskRequest => cases h; rfl
  | schedulerState d => cases h; simp [Message.type, deserialize]
  | taskState i n s => cases h; simp [Message.type, deserialize]
  | graphTaskState g i t ps =>
    cases h
    simp only [Message.type, deserialize, pyIndex_zero, pyIndex_one, pyIndex_two, Py.ok_bind,
      enum_nodeTaskType, Py.pure_eq, List.drop_succ_cons, List.drop_zero]
    rw [PySet.ext_items (PySet.ofList_items ps.nodup)]

/-- `C01` applies to a graph with functions, targets, data and node arguments. -/
example : (Message.graphTask sampleGraph).serialize = .ok
    [[1], [2, 0, 0, 0], [10], [11], [65], [67], [66], [68, 69], [2, 0, 0, 0], [3], [2],
     [4, 0, 0, 0], [2], [10], [0x44], [7, 7],
     [6, 0, 0, 0], [3], [11], [0x54], [2], [0x44], [],
     [2, 0, 0, 0], [4], [11]] := by decide

/-- The heartbeat layout: native alignment, 43 bytes. -/
example : (Message.heartbeat sampleHeartbeat).serialize = .ok
    [[0xE9, 3, 0, 0, 0, 0, 0, 0,  0, 0x10, 0, 0, 0, 0, 0, 0,  0xE7, 3, 0, 0, 0, 0, 0, 0,
      0, 0x20, 0, 0, 0, 0, 0, 0,  17, 0, 0, 0,  0xC0, 0xD4, 1, 0,  1, 0, 1]] := by decide

/-! ## C02: frames are self-describing -/

/-- A message has at least one payload frame. -/
theorem serialize_ne_nil (m : Message) (fs : List Bytes) (h : m.serialize = .ok fs) : fs ≠ [] := by
  rintro rfl
  cases m <;>
    simp [Message.serialize, GraphTask.serialize, Heartbeat.serialize, Py.bind_ok, Task.serialize] at h

/-- **C02 (a).** The frames a connector sends are accepted by a connector and decoded as
the message that was sent: same class, same content. -/
theorem C02_decode_encode (m : Message) (fs : List Bytes) (h : encode m = .ok fs) :
    decode fs = .ok (some m) := by
  simp only [encode, Py.bind_ok] at h
  obtain ⟨ps, hp, h⟩ := h
  cases h
  have hne := serialize_ne_nil m ps hp
  have hrt := C01_roundtrip m ps hp
  match ps, hne with
  | p :: ps, _ => simp [decode, hrt]

/-- **C02 (b).** The scheduler's binder sees the sender identity in front of the frames; it
recovers the sender and the message. -/
theorem C02_binder_decode (src : Bytes) (m : Message) (fs : List Bytes) (h : encode m = .ok fs) :
    binderDecode (src :: fs) = .ok (some (src, m)) := by
  simp only [encode, Py.bind_ok] at h
  obtain ⟨ps, hp, h⟩ := h
  cases h
  have hne := serialize_ne_nil m ps hp
  have hrt := C01_roundtrip m ps hp
  match ps, hne with
  | p :: ps, _ => simp [binderDecode, hrt]

/-- **C02 (c).** What the binder sends is the destination followed by exactly the frames the
peer's connector decodes to the message. -/
theorem C02_binder_encode (dst : Bytes) (m : Message) (fs : List Bytes)
    (h : binderEncode dst m = .ok fs) :
    ∃ ps, fs = dst :: ps ∧ encode m = .ok ps ∧ decode ps = .ok (some m) := by
  simp only [binderEncode, Py.bind_ok] at h
  obtain ⟨ps, hp, h⟩ := h
  cases h
  have he : encode m = .ok (m.type.value :: ps) := by simp [encode, hp]
  exact ⟨_, rfl, he, C02_decode_encode m _ he⟩

/-- **C02 (d).** No two different messages, of the same or different classes, are ever sent
as the same frames. -/
theorem C02_injective (m m' : Message) (fs : List Bytes) (h : encode m = .ok fs)
    (h' : encode m' = .ok fs) : m = m' := by
  have := (C02_decode_encode m fs h).symm.trans (C02_decode_encode m' fs h')
  simpa using this

/-- Two messages of different classes with the same payload frames are told apart. -/
example : ∃ fs fs', encode (.taskCancel [1, 2]) = .ok fs ∧ encode (.graphTaskCancel [1, 2]) = .ok fs' ∧
    fs ≠ fs' ∧ decode fs = .ok (some (.taskCancel [1, 2])) := by
  exact ⟨_, _, rfl, rfl, by decide, by decide⟩

/-! ## C03: exactly which messages cannot be sent -/

theorem serializeGraph_ok (ts : List Task) :
    (∃ fs, serializeGraph ts = .ok fs) ↔ ∀ t ∈ ts, 2 + 2 * t.args.length < 2 ^ 32 := by
  induction ts with
  | nil => simp [serializeGraph]
  | cons t ts ih =>
    have hp := packI_ok (n := (t.serialize.length : Int))
    rw [task_serialize_length] at hp
    simp only [serializeGraph, Py.bind_ok, List.mem_cons, forall_eq_or_imp, ← ih]
    rw [task_serialize_length]
    constructor
    · rintro ⟨_, n, hn, r, hr, _⟩
      have := hp.1 ⟨n, hn⟩
      exact ⟨by omega, r, hr⟩
    · rintro ⟨h1, r, hr⟩
      obtain ⟨n, hn⟩ := hp.2 (by omega)
      exact ⟨_, n, hn, r, hr, rfl⟩

/-- **C03.** A message can be sent iff its numbers fit their fields and, for a graph, the
function table is not empty. -/
theorem C03_sendable (m : Message) : (∃ fs, encode m = .ok fs) ↔ sendable m := by
  have hs : (∃ fs, encode m = .ok fs) ↔ ∃ fs, m.serialize = .ok fs := by
    simp only [encode, Py.bind_ok]
    exact ⟨fun ⟨_, ps, h, _⟩ => ⟨ps, h⟩, fun ⟨ps, h⟩ => ⟨_, ps, h, rfl⟩⟩
  rw [hs]
  cases m with
  | balanceRequest n =>
    have := packI_ok (n := n)
    simp only [Message.serialize, Py.bind_ok, sendable, fitsBits]
    constructor
    · rintro ⟨_, b, hb, _⟩; simpa using this.1 ⟨b, hb⟩
    · intro h
      obtain ⟨b, hb⟩ := this.2 (by simpa using h)
      exact ⟨_, b, hb, rfl⟩
  | balanceResponse ids =>
    have := packI_ok (n := (ids.length : Int))
    simp only [Message.serialize, Py.bind_ok, sendable]
    constructor
    · rintro ⟨_, b, hb, _⟩
      have := this.1 ⟨b, hb⟩
      omega
    · intro h
      obtain ⟨b, hb⟩ := this.2 (by omega)
      exact ⟨_, b, hb, rfl⟩
  | heartbeat hb =>
    have := packFrom_ok (off := 0) (fs := hb.fields)
    simp only [Message.serialize, Heartbeat.serialize, Py.bind_ok, sendable, fitsBits]
    simp only [Heartbeat.fields, List.mem_cons, List.not_mem_nil, or_false, forall_eq_or_imp,
      forall_eq, Code.fits, Code.size, and_true] at this
    constructor
    · rintro ⟨_, b, h, _⟩
      have := this.1 ⟨b, h⟩
      simp only [Nat.reducePow] at *
      exact this
    · intro h
      obtain ⟨b, hb⟩ := this.2 (by simp only [Nat.reducePow] at *; exact h)
      exact ⟨_, b, hb, rfl⟩
  | graphTask g =>
    have h1 := packI_ok (n := (g.functions.size : Int))
    have h2 := packI_ok (n := (g.targets.length : Int))
    have h3 := serializeGraph_ok g.graph
    simp only [Message.serialize, GraphTask.serialize, Py.bind_ok, sendable, raiseIf_ok]
    rw [← h3]
    constructor
    · rintro ⟨_, nf, hnf, _, he, gb, hgb, nt, hnt, _⟩
      have := h1.1 ⟨nf, hnf⟩
      have := h2.1 ⟨nt, hnt⟩
      simp only [Dict.size] at *
      refine ⟨?_, by omega, by omega, gb, hgb⟩
      intro h; simp [h] at he
    · rintro ⟨he, hf, ht, gb, hgb⟩
      obtain ⟨nf, hnf⟩ := h1.2 (by simp only [Dict.size]; omega)
      obtain ⟨nt, hnt⟩ := h2.2 (by omega)
      exact ⟨_, nf, hnf, (), by simpa using he, gb, hgb, nt, hnt, rfl⟩
  | _ => simp [Message.serialize, sendable]

/-- Both sides of C03 occur: a graph that only selects data has no wire form. -/
example : encode (.graphTask ⟨[1], Dict.empty, [], []⟩) = .error .valueError ∧
    (∃ fs, encode (.graphTask sampleGraph) = .ok fs) ∧
    encode (.balanceRequest (2 ^ 32)) = .error .structError ∧
    encode (.heartbeat { sampleHeartbeat with queuedTasks := 65536 }) = .error .structError := by
  refine ⟨by decide, (C03_sendable _).2 ?_, by decide, by decide⟩
  refine ⟨by decide, by decide, by decide, by decide⟩

/-! ## C04: malformed frames -/

theorem ofList_size_le {l : List (Bytes × (Bytes × Bytes))} (d : Dict Bytes (Bytes × Bytes)) :
    (l.foldl (fun d p => d.set p.1 p.2) d).items.length ≤ d.items.length + l.length := by
  induction l generalizing d with
  | nil => simp
  | cons p l ih =>
    simp only [List.foldl_cons, List.length_cons]
    refine Nat.le_trans (ih _) ?_
    have : (d.set p.1 p.2).items.length ≤ d.items.length + 1 := by
      have h1 := Dict.size_keys (d.set p.1 p.2)
      have h2 := Dict.size_keys d
      rw [Dict.keys_set] at h1
      simp only [Dict.size] at h1 h2
      split at h1 <;> (try simp at h1) <;> omega
    omega

theorem deserializeArgs_length {fs : List Bytes} {as : List Argument}
    (h : deserializeArgs fs = .ok as) : 2 * as.length = fs.length := by
  induction fs using deserializeArgs.induct generalizing as with
  | case1 => cases h; rfl
  | case2 a =>
    simp only [deserializeArgs, Argument.deserialize, pyIndex_zero, Py.ok_bind, Py.bind_ok] at h
    obtain ⟨x, ⟨t, _, d, hd, _⟩, _⟩ := h
    simp [pyIndex_ok] at hd
  | case3 a b rest ih =>
    simp only [deserializeArgs, Py.bind_ok] at h
    obtain ⟨x, _, xs, hxs, h⟩ := h
    cases h
    have := ih hxs
    simp; omega

theorem task_deserialize_length {fs : List Bytes} {t : Task} (h : Task.deserialize fs = .ok t) :
    2 + 2 * t.args.length = fs.length := by
  simp only [Task.deserialize, Py.bind_ok] at h
  obtain ⟨i, hi, f, hf, as, has, h⟩ := h
  cases h
  have := deserializeArgs_length has
  rw [pyIndex_ok] at hf
  have := (List.getElem?_eq_some_iff.1 hf).1
  simp at *; omega

theorem graphLoop_lengths {fuel : Nat} {fs : List Bytes} {ts : List Task}
    (h : graphLoop fuel fs = .ok ts) : ∀ t ∈ ts, 2 + 2 * t.args.length < 2 ^ 32 := by
  induction fuel generalizing fs ts with
  | zero =>
    cases fs with
    | nil => cases h; simp
    | cons => simp [graphLoop] at h
  | succ fuel ih =>
    cases fs with
    | nil => simp [graphLoop] at h; subst h; simp
    | cons n rest =>
      simp only [graphLoop, Py.bind_ok] at h
      obtain ⟨k, hk, t, ht, ts', hts, h⟩ := h
      cases h
      intro t' ht'
      rcases List.mem_cons.1 ht' with rfl | ht'
      · have := task_deserialize_length ht
        have := unpackI_lt hk
        have : (rest.take k).length ≤ k := by simp; omega
        omega
      · exact ih hts t' ht'

theorem unpack_heartbeat {b : Bytes} {l : List Int} (h : unpack Heartbeat.format b = .ok l) :
    ∃ a₁ a₂ a₃ a₄ a₅ a₆ a₇ a₈ a₉, l = [a₁, a₂, a₃, a₄, a₅, a₆, a₇, a₈, a₉] ∧
      fitsBits 16 a₁ ∧ fitsBits 64 a₂ ∧ fitsBits 16 a₃ ∧ fitsBits 64 a₄ ∧ fitsBits 16 a₅ ∧
      fitsBits 32 a₆ := by
  unfold unpack at h
  split at h
  · cases h
    have hb : ∀ (k : Nat) (x : Bytes), x.length ≤ k → fitsBits (8 * k) (unpackLE x) := by
      intro k x hx
      have h1 := unpackLE_lt x
      have h2 : 256 ^ x.length ≤ 256 ^ k := Nat.pow_le_pow_right (by omega) hx
      have h3 : (2 : Nat) ^ (8 * k) = 256 ^ k := by rw [Nat.pow_mul]
      simp only [fitsBits, h3]; omega
    refine ⟨_, _, _, _, _, _, _, _, _, rfl, ?_⟩
    refine ⟨hb 2 _ ?_, hb 8 _ ?_, hb 2 _ ?_, hb 8 _ ?_, hb 2 _ ?_, hb 4 _ ?_⟩ <;>
      exact List.length_take_le _ _
  · cases h

/-- **C04.** Whatever frames arrive: if they are decoded to a message, then that message is a
proper one, i.e. it has a wire form and that wire form decodes to the same message again;
the single exception is a graph without functions, which is decoded but has no wire form. -/
theorem C04_decode_stable (frames : List Bytes) (m : Message) (h : decode frames = .ok (some m)) :
    emptyGraph m ∨ ∃ fs, encode m = .ok fs ∧ decode fs = .ok (some m) := by
  suffices hs : emptyGraph m ∨ sendable m by
    rcases hs with hs | hs
    · exact .inl hs
    · obtain ⟨fs, hfs⟩ := (C03_sendable m).2 hs
      exact .inr ⟨fs, hfs, C02_decode_encode m fs hfs⟩
  unfold decode at h
  split at h
  · next tag p ps =>
    split at h
    · simp at h
    · next ty _ =>
      simp only [Py.bind_ok] at h
      obtain ⟨m', hm, h⟩ := h
      simp only [Py.pure_eq, Except.ok.injEq, Option.some.injEq] at h
      subst h
      cases ty <;> simp only [deserialize, Py.bind_ok, Py.pure_eq, Except.ok.injEq, reduceCtorEq] at hm
      case balanceRequest =>
        obtain ⟨b, _, n, hn, hm⟩ := hm
        subst hm
        have := unpackI_lt hn
        right; simp only [sendable, fitsBits]; omega
      case balanceResponse =>
        obtain ⟨b, _, n, hn, _, ha, hm⟩ := hm
        subst hm
        have := unpackI_lt hn
        simp only [pyAssert_ok, beq_iff_eq] at ha
        right; simp only [sendable]; omega
      case heartbeat =>
        obtain ⟨hb, hm, hm'⟩ := hm
        subst hm'
        simp only [Heartbeat.deserialize, Py.bind_ok] at hm
        obtain ⟨f, _, l, hl, hm⟩ := hm
        obtain ⟨a₁, a₂, a₃, a₄, a₅, a₆, a₇, a₈, a₉, rfl, h1, h2, h3, h4, h5, h6⟩ := unpack_heartbeat hl
        simp only [Py.pure_eq, Except.ok.injEq] at hm
        subst hm
        exact .inr ⟨h1, h2, h3, h4, h5, h6⟩
      case graphTask =>
        obtain ⟨g, hm, hm'⟩ := hm
        subst hm'
        simp only [GraphTask.deserialize, Py.bind_ok, Py.pure_eq, Except.ok.injEq] at hm
        obtain ⟨i, _, b, _, n, hn, c, _, k, hk, gr, hgr, hm⟩ := hm
        subst hm
        have hn := unpackI_lt hn
        have hk := unpackI_lt hk
        have hgr := graphLoop_lengths hgr
        by_cases he : (Dict.ofList ((pySlice (p :: ps) 2 (2 + n)).zip
            ((pySlice (p :: ps) (2 + n) (2 + n + n)).zip
              (pySlice (p :: ps) (2 + n + n) (2 + n + n + n))))).items = []
        · exact .inl he
        · refine .inr ⟨he, ?_, ?_, hgr⟩
          · refine Nat.lt_of_le_of_lt (ofList_size_le _) ?_
            simp [Dict.empty, pySlice]
            omega
          · simp [pySlice]; omega
      all_goals
        right
        first
          | (subst hm; simp [sendable])
          | (obtain ⟨_, _, hm⟩ := hm; subst hm; simp [sendable])
          | (obtain ⟨_, _, _, _, hm⟩ := hm; subst hm; simp [sendable])
          | (obtain ⟨_, _, _, _, _, _, hm⟩ := hm; subst hm; simp [sendable])
          | (obtain ⟨_, _, _, _, _, _, _, _, hm⟩ := hm; subst hm; simp [sendable])
          | (obtain ⟨_, _, _, _, _, _, _, _, _, _, hm⟩ := hm; subst hm; simp [sendable])
          | (obtain ⟨_, _, _, _, _, _, _, _, _, _, _, _, hm⟩ := hm; subst hm; simp [sendable])
  · simp at h

/-- Malformed frames of each kind: too few frames, an unknown tag, a tag without a class, a
truncated payload, and the graph that has no wire form. -/
example : decode [[0x54, 0x4B]] = .ok none ∧
    decode [[0], [1]] = .ok none ∧
    decode [[0x47, 0x58], [1]] = .error .keyError ∧
    decode [[0x54, 0x4B], [1]] = .error .indexError ∧
    decode [[0x54, 0x4B], [1], [2], [0x44], [9]] = .ok (some (.task ⟨[1], [2], [⟨.data, [9]⟩]⟩)) ∧
    decode [[0x47, 0x54], [1], [0, 0, 0, 0], [0, 0, 0, 0]] =
      .ok (some (.graphTask ⟨[1], Dict.empty, [], []⟩)) := by decide

/-- **C04, termination.** Decoding a graph never stops for want of loop turns: the model's
bound on the decoding loop is never reached. -/
theorem C04_graph_loop_total (frames : List Bytes) (extra : Nat) :
    graphLoop (frames.length + extra) frames = graphLoop frames.length frames :=
  graphLoop_fuel frames frames.length (Nat.le_refl _) extra

example : graphLoop 3 [[2, 0, 0, 0], [1], [2]] = .ok [⟨[1], [2], []⟩] := by decide

end Verif.Props
