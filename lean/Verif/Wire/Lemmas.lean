import Verif.Wire.Message

/-!
# Helper lemmas about the wire format
-/

namespace Verif.Wire

@[simp] theorem enum_messageType (x : MessageType) :
    MessageType.members.find? (fun m => m.value == x.value) = some x := by cases x <;> decide
@[simp] theorem enum_taskStatus (x : TaskStatus) :
    enumOf TaskStatus.members TaskStatus.value x.value = .ok x := by cases x <;> decide
@[simp] theorem enum_taskEchoStatus (x : TaskEchoStatus) :
    enumOf TaskEchoStatus.members TaskEchoStatus.value x.value = .ok x := by cases x <;> decide
@[simp] theorem enum_nodeTaskType (x : NodeTaskType) :
    enumOf NodeTaskType.members NodeTaskType.value x.value = .ok x := by cases x <;> decide
@[simp] theorem enum_functionRequestType (x : FunctionRequestType) :
    enumOf FunctionRequestType.members FunctionRequestType.value x.value = .ok x := by
  cases x <;> decide
@[simp] theorem enum_functionResponseType (x : FunctionResponseType) :
    enumOf FunctionResponseType.members FunctionResponseType.value x.value = .ok x := by
  cases x <;> decide
@[simp] theorem enum_argumentType (x : ArgumentType) :
    enumOf ArgumentType.members ArgumentType.value x.value = .ok x := by cases x <;> decide

@[simp] theorem pyIndex_zero {α} (a : α) (l : List α) : pyIndex (a :: l) 0 = .ok a := rfl
@[simp] theorem pyIndex_succ {α} (a : α) (l : List α) (i : Nat) :
    pyIndex (a :: l) (i + 1) = pyIndex l i := by simp [pyIndex]
@[simp] theorem pyIndex_one {α} (a b : α) (l : List α) : pyIndex (a :: b :: l) 1 = .ok b := rfl
@[simp] theorem pyIndex_two {α} (a b c : α) (l : List α) : pyIndex (a :: b :: c :: l) 2 = .ok c := rfl
@[simp] theorem pyIndex_three {α} (a b c d : α) (l : List α) :
    pyIndex (a :: b :: c :: d :: l) 3 = .ok d := rfl

theorem deserializeArgs_serialize (args : List Argument) :
    deserializeArgs (args.flatMap Argument.serialize) = .ok args := by
  induction args with
  | nil => rfl
  | cons a args ih => simp [Argument.serialize, deserializeArgs, Argument.deserialize, ih]

theorem task_roundtrip (t : Task) : Task.deserialize t.serialize = .ok t := by
  simp [Task.serialize, Task.deserialize, deserializeArgs_serialize]

theorem task_serialize_length (t : Task) : t.serialize.length = 2 + 2 * t.args.length := by
  obtain ⟨i, f, args⟩ := t
  simp only [Task.serialize, List.length_cons]
  have : (args.flatMap Argument.serialize).length = 2 * args.length := by
    induction args with
    | nil => rfl
    | cons a args ih => simp [Argument.serialize, ih]; omega
  omega

theorem graphLoop_serialize (ts : List Task) (bs : List Bytes) (fuel : Nat)
    (h : serializeGraph ts = .ok bs) (hf : bs.length ≤ fuel) : graphLoop fuel bs = .ok ts := by
  induction ts generalizing bs fuel with
  | nil => cases h; simp [graphLoop]
  | cons t ts ih =>
    simp only [serializeGraph, Py.bind_ok] at h
    obtain ⟨n, hn, rest, hr, h⟩ := h
    cases h
    cases fuel with
    | zero => simp at hf
    | succ fuel =>
      have hk := unpackI_packI hn
      simp only [List.cons_append, graphLoop, hk, Py.ok_bind]
      rw [show ((t.serialize.length : Int)).toNat = t.serialize.length by simp,
        List.take_left, List.drop_left, task_roundtrip, ih rest fuel hr]
      · rfl
      · simp at hf; omega

/-- The loop never runs out of fuel when the fuel is at least the number of frames. -/
theorem graphLoop_fuel (bs : List Bytes) (fuel : Nat) (hf : bs.length ≤ fuel) (n : Nat) :
    graphLoop (fuel + n) bs = graphLoop fuel bs := by
  induction fuel generalizing bs with
  | zero =>
    cases bs with
    | nil => simp [graphLoop]
    | cons _ _ => simp at hf
  | succ fuel ih =>
    cases bs with
    | nil => simp [graphLoop]
    | cons b bs =>
      rw [show fuel + 1 + n = (fuel + n) + 1 by omega]
      simp only [graphLoop]
      congr 1
      funext k
      rw [ih]
      simp at hf ⊢; omega

theorem pySlice_mid {α} (a b c : List α) (i j : Nat) (hi : a.length = i) (hj : i + b.length = j) :
    pySlice (a ++ b ++ c) i j = b := by
  subst hi; subst hj
  simp [pySlice]

theorem zip_functions (d : Dict Bytes (Bytes × Bytes)) :
    d.keys.zip ((d.values.map (·.1)).zip (d.values.map (·.2))) = d.items := by
  simp only [Dict.keys, Dict.values]
  induction d.items with
  | nil => rfl
  | cons p l ih =>
    simpa using ih

theorem graphTask_roundtrip {g : GraphTask} {fs : List Bytes} (h : g.serialize = .ok fs) :
    GraphTask.deserialize fs = .ok g := by
  simp only [GraphTask.serialize, Py.bind_ok] at h
  obtain ⟨nf, hnf, ⟨⟩, _, gb, hgb, nt, hnt, h⟩ := h
  have hn := unpackI_packI hnf
  have hm := unpackI_packI hnt
  simp only [Int.toNat_natCast] at hn hm
  cases h
  generalize hK : g.functions.keys = K
  generalize hN : g.functions.values.map (·.1) = N
  generalize hC : g.functions.values.map (·.2) = C
  generalize hlen : g.functions.size = n at hn
  have lK : K.length = n := by rw [← hK, ← hlen]; exact Dict.size_keys _
  have lN : N.length = n := by rw [← hN, ← hlen]; simp [Dict.values, Dict.size]
  have lC : C.length = n := by rw [← hC, ← hlen]; simp [Dict.values, Dict.size]
  generalize hD : g.taskId :: nf :: K ++ N ++ C ++ nt :: g.targets ++ gb = D
  have i0 : pyIndex D 0 = .ok g.taskId := by subst hD; rfl
  have i1 : pyIndex D 1 = .ok nf := by subst hD; rfl
  have sK : pySlice D 2 (2 + n) = K := by
    subst hD
    have := pySlice_mid [g.taskId, nf] K (N ++ C ++ nt :: g.targets ++ gb) 2 (2 + n) rfl (by omega)
    simpa using this
  have sN : pySlice D (2 + n) (2 + n + n) = N := by
    subst hD
    have := pySlice_mid (g.taskId :: nf :: K) N (C ++ nt :: g.targets ++ gb) (2 + n) (2 + n + n)
      (by simp; omega) (by omega)
    simpa using this
  have sC : pySlice D (2 + n + n) (2 + n + n + n) = C := by
    subst hD
    have := pySlice_mid (g.taskId :: nf :: K ++ N) C (nt :: g.targets ++ gb) (2 + n + n)
      (2 + n + n + n) (by simp; omega) (by omega)
    simpa using this
  have iT : pyIndex D (2 + n + n + n) = .ok nt := by
    subst hD
    rw [pyIndex_ok]
    rw [show g.taskId :: nf :: K ++ N ++ C ++ nt :: g.targets ++ gb
      = (g.taskId :: nf :: K ++ N ++ C) ++ (nt :: (g.targets ++ gb)) by simp]
    rw [List.getElem?_append_right (by simp; omega)]
    rw [show 2 + n + n + n - (g.taskId :: nf :: K ++ N ++ C).length = 0 by simp; omega]
    rfl
  have sT : pySlice D (2 + n + n + n + 1) (2 + n + n + n + 1 + g.targets.length) = g.targets := by
    subst hD
    have := pySlice_mid (g.taskId :: nf :: K ++ N ++ C ++ [nt]) g.targets gb (2 + n + n + n + 1)
      (2 + n + n + n + 1 + g.targets.length) (by simp; omega) (by omega)
    simpa using this
  have dG : D.drop (2 + n + n + n + 1 + g.targets.length) = gb := by
    subst hD
    rw [List.drop_append_of_le_length (by simp; omega),
      List.drop_eq_nil_of_le (by simp; omega), List.nil_append]
  have lG : gb.length ≤ D.length := by rw [← dG]; simp
  simp only [GraphTask.deserialize, i0, i1, hn, hm, sK, sN, sC, iT, sT, dG, Py.ok_bind,
    graphLoop_serialize _ _ _ hgb lG, Py.pure_eq]
  subst hK hN hC
  rw [zip_functions, Dict.ofList_self]

theorem unpackF_packF (d : UInt32) : unpackF (packF d) = .ok d := by
  unfold unpackF packF
  rw [if_pos (by simp), unpackLE_packLE _ _ (by have := d.toNat_lt; omega)]
  simp

theorem norm_boolInt (b : Bool) : Code.norm .bool (boolInt b) = boolInt b := by
  cases b <;> rfl

theorem heartbeat_roundtrip {h : Heartbeat} {fs : List Bytes} (hs : h.serialize = .ok fs) :
    Heartbeat.deserialize fs = .ok h := by
  simp only [Heartbeat.serialize, Py.bind_ok] at hs
  obtain ⟨b, hb, hs⟩ := hs
  cases hs
  have := unpack_pack hb
  have e : h.fields.map (·.1) = Heartbeat.format := rfl
  rw [e] at this
  simp only [Heartbeat.deserialize, pyIndex_zero, Py.ok_bind, this]
  simp only [Heartbeat.fields, List.map_cons, List.map_nil, norm_boolInt]
  obtain ⟨_, _, _, _, _, _, x, y, z⟩ := h
  cases x <;> cases y <;> cases z <;> rfl

end Verif.Wire
