import Verif.Props.WireLayout
import Verif.Spec.Readable

/-!
# Exactly which frames are decoded
-/

namespace Verif.Props

open Verif.Wire Verif.Spec

theorem exists_pure {α β : Type} (x : α) (f : α → β) : (∃ m, (Pure.pure (f x) : Py β) = .ok m) := ⟨f x, rfl⟩

/-- `x` succeeds and then `f` does. -/
theorem exists_bind {α β : Type} {x : Py α} {f : α → Py β} : (∃ m, (x >>= f) = .ok m) ↔ ∃ a, x = .ok a ∧ ∃ m, f a = .ok m := by
  constructor
  · rintro ⟨m, h⟩; obtain ⟨a, h1, h2⟩ := Py.bind_ok.1 h; exact ⟨a, h1, m, h2⟩
  · rintro ⟨a, h1, m, h2⟩; exact ⟨m, Py.bind_ok.2 ⟨a, h1, h2⟩⟩

theorem exists_ok {α : Type} (a : α) : (∃ m, (.ok a : Py α) = .ok m) ↔ True := ⟨fun _ => trivial, fun _ => ⟨a, rfl⟩⟩
theorem exists_pure_iff {α : Type} (a : α) : (∃ m, (Pure.pure a : Py α) = .ok m) ↔ True := ⟨fun _ => trivial, fun _ => ⟨a, rfl⟩⟩

theorem index_iff (ps : List Bytes) (i : Nat) (P : Bytes → Prop) : (∃ a, pyIndex ps i = .ok a ∧ P a) ↔ ∃ b, ps[i]? = some b ∧ P b := by
  simp only [pyIndex_ok]

theorem enum_iff {α : Type} (members : List α) (value : α → Bytes) (b : Bytes) :
    (∃ a, enumOf members value b = .ok a) ↔ b ∈ members.map value := by
  simp only [enumOf, orRaise_ok, List.mem_map]
  constructor
  · rintro ⟨a, h⟩
    exact ⟨a, List.mem_of_find?_eq_some h, by simpa using List.find?_some h⟩
  · rintro ⟨a, ha, rfl⟩
    cases h : members.find? fun m => value m == value a with
    | none => rw [List.find?_eq_none] at h; exact absurd (h a ha) (by simp)
    | some x => exact ⟨x, rfl⟩

theorem unpackI_iff (b : Bytes) (n : Nat) : unpackI b = .ok n ↔ b.length = 4 ∧ n = fourBytes b := by
  unfold unpackI unpack
  by_cases h : b.length = 4
  · have : b.length = sizeFrom 0 [Code.I] := by rw [h]; rfl
    rw [if_pos this]
    match b, h with
    | [a, b', c, d], _ =>
      simp only [Py.ok_bind, unpackFrom, fourBytes]
      constructor
      · intro h
        cases h
        refine ⟨rfl, ?_⟩
        simp [unpackField, unpackLE, Code.pad, Code.size]
        omega
      · rintro ⟨_, rfl⟩
        simp [unpackField, unpackLE, Code.pad, Code.size]
        omega
  · have : b.length ≠ sizeFrom 0 [Code.I] := by
      have : sizeFrom 0 [Code.I] = 4 := rfl
      rw [this]; exact h
    rw [if_neg this]
    simp [h]

theorem args_iff (ps : List Bytes) : (∃ as, deserializeArgs ps = .ok as) ↔ Arguments ps := by
  induction ps using deserializeArgs.induct with
  | case1 => simp [deserializeArgs, Arguments]
  | case2 a =>
    simp only [deserializeArgs, Argument.deserialize, Arguments, iff_false]
    rintro ⟨as, h⟩
    simp only [Py.bind_ok] at h
    obtain ⟨x, ⟨y, _, z, _, w, h, _⟩, _⟩ := h
    rw [pyIndex_ok] at h; cases h
  | case3 k v rest ih =>
    simp only [deserializeArgs, exists_bind, Arguments, exists_pure_iff, and_true]
    rw [← ih]
    have : (∃ a, Argument.deserialize [k, v] = .ok a) ↔ k = ascii ['D'] ∨ k = ascii ['T'] := by
      unfold Argument.deserialize
      simp only [exists_bind, pyIndex_zero, pyIndex_one, Except.ok.injEq, exists_eq_left', exists_pure_iff, and_true, exists_eq', enum_iff]
      simp [ArgumentType.members, ArgumentType.value, ascii]
    constructor
    · rintro ⟨a, h1, h2⟩; exact ⟨this.1 ⟨a, h1⟩, h2⟩
    · rintro ⟨h1, h2⟩; obtain ⟨a, h1⟩ := this.2 h1; exact ⟨a, h1, h2⟩

theorem task_iff (ps : List Bytes) : (∃ t, Task.deserialize ps = .ok t) ↔ TaskLike ps := by
  unfold Task.deserialize
  simp only [exists_bind, exists_pure_iff, and_true, pyIndex_ok]
  match ps with
  | [] => simp [TaskLike]
  | [a] => simp [TaskLike]
  | a :: b :: rest => simp [TaskLike, args_iff]

theorem loop_iff (fuel : Nat) (ps : List Bytes) (hf : ps.length ≤ fuel) : (∃ ts, graphLoop fuel ps = .ok ts) ↔ Nodes ps := by
  induction fuel generalizing ps with
  | zero =>
    have : ps = [] := List.length_eq_zero_iff.1 (by omega)
    subst this
    simp [graphLoop, Nodes.nil]
  | succ fuel ih =>
    cases ps with
    | nil => simp [graphLoop, Nodes.nil]
    | cons n rest =>
      simp only [graphLoop, exists_bind, exists_pure_iff, and_true, unpackI_iff]
      simp only [List.length_cons] at hf
      constructor
      · rintro ⟨k, ⟨h1, rfl⟩, t, h2, h3⟩
        exact .cons h1 ((task_iff _).1 ⟨t, h2⟩) ((ih _ (by rw [List.length_drop]; omega)).1 h3)
      · intro h
        cases h with
        | cons h1 h2 h3 =>
          obtain ⟨t, ht⟩ := (task_iff _).2 h2
          exact ⟨_, ⟨h1, rfl⟩, t, ht, (ih _ (by rw [List.length_drop]; omega)).2 h3⟩

theorem graph_iff (ps : List Bytes) : (∃ g, GraphTask.deserialize ps = .ok g) ↔ GraphLike ps := by
  unfold GraphTask.deserialize GraphLike
  simp only [exists_bind, exists_pure_iff, and_true, unpackI_iff, pyIndex_ok]
  constructor
  · rintro ⟨i, hi, n, hn, k, ⟨h1, rfl⟩, m, hm, j, ⟨h2, rfl⟩, h3⟩
    refine ⟨n, m, hn, h1, ?_, h2, ?_⟩
    · rw [← hm]; congr 1; omega
    · have := (loop_iff _ _ (by rw [List.length_drop]; omega)).1 h3
      rw [show 3 + 3 * fourBytes n + fourBytes m = 2 + fourBytes n + fourBytes n + fourBytes n + 1 + fourBytes m by omega]
      exact this
  · rintro ⟨n, m, hn, h1, hm, h2, h3⟩
    have h0 : 0 < ps.length := by
      have := (List.getElem?_eq_some_iff.1 hn).1; omega
    refine ⟨ps[0], by rw [List.getElem?_eq_getElem h0], n, hn, _, ⟨h1, rfl⟩, m, ?_, _, ⟨h2, rfl⟩, ?_⟩
    · rw [← hm]; congr 1; omega
    · refine (loop_iff _ _ (by rw [List.length_drop]; omega)).2 ?_
      rw [show 2 + fourBytes n + fourBytes n + fourBytes n + 1 + fourBytes m = 3 + 3 * fourBytes n + fourBytes m by omega]
      exact h3

theorem beat_iff (ps : List Bytes) : (∃ g, Heartbeat.deserialize ps = .ok g) ↔ SizedAt ps 0 43 := by
  unfold Heartbeat.deserialize SizedAt
  simp only [exists_bind, pyIndex_ok]
  constructor
  · rintro ⟨b, hb, l, hl, _⟩
    refine ⟨b, hb, ?_⟩
    unfold unpack at hl
    split at hl
    · next h => rw [h]; rfl
    · cases hl
  · rintro ⟨b, hb, hl⟩
    refine ⟨b, hb, unpackFrom 0 Heartbeat.format b, ?_, ?_⟩
    · unfold unpack
      rw [if_pos (by rw [hl]; rfl)]
    · exact ⟨_, rfl⟩

theorem getElem?_exists (ps : List Bytes) (i : Nat) : (∃ b, ps[i]? = some b) ↔ i < ps.length := by
  constructor
  · rintro ⟨b, h⟩; exact (List.getElem?_eq_some_iff.1 h).1
  · intro h; exact ⟨_, List.getElem?_eq_getElem h⟩

theorem word_iff {α : Type} (members : List α) (value : α → Bytes) (words : List (List Char)) (h : members.map value = words.map ascii)
    (ps : List Bytes) (i : Nat) : (∃ a, ps[i]? = some a ∧ ∃ x, enumOf members value a = .ok x) ↔ WordAt ps i words := by
  unfold WordAt
  simp only [enum_iff, h]

theorem unpackF_iff (b : Bytes) : (∃ d, unpackF b = .ok d) ↔ b.length = 4 := by
  unfold unpackF
  split
  · next h => simp [h]
  · next h => simp [h]

set_option linter.unusedSimpArgs false in
/-- **C72.** A payload is decoded exactly if it is readable under its tag. -/
theorem C72_decoded (ty : MessageType) (ps : List Bytes) : (∃ m, deserialize ty ps = .ok m) ↔ Readable ty ps := by
  have e1 : TaskStatus.members.map TaskStatus.value = statuses.map ascii := by decide
  have e2 : TaskEchoStatus.members.map TaskEchoStatus.value = echoes.map ascii := by decide
  have e3 : FunctionRequestType.members.map FunctionRequestType.value = [['C'], ['A'], ['R'], ['D']].map ascii := by decide
  have e4 : FunctionResponseType.members.map FunctionResponseType.value = [['O', 'K'], ['N', 'E'], ['H', 'T'], ['D', 'C']].map ascii := by decide
  have e5 : NodeTaskType.members.map NodeTaskType.value = [['N'], ['T']].map ascii := by decide
  cases ty <;> simp only [deserialize, Readable, exists_bind, exists_pure_iff, and_true, pyIndex_ok, unpackI_iff, exists_ok]
  case task => exact task_iff ps
  case graphTask => exact graph_iff ps
  case heartbeat => exact beat_iff ps
  case balanceResponse =>
    cases ps with
    | nil => simp
    | cons a rest =>
      simp
      omega
  all_goals
    match ps with
    | [] => simp [WordAt, SizedAt]
    | [a] => simp [WordAt, SizedAt, exists_and_right, enum_iff, unpackF_iff]
    | [a, b] => simp [WordAt, SizedAt, exists_and_right, enum_iff, unpackF_iff, e1, e2, e3, e4, e5, -List.map_cons]
    | [a, b, c] => simp [WordAt, SizedAt, exists_and_right, enum_iff, unpackF_iff, e1, e2, e3, e4, e5, -List.map_cons]
    | a :: b :: c :: d :: rest => simp [WordAt, SizedAt, exists_and_right, enum_iff, unpackF_iff, e1, e2, e3, e4, e5, -List.map_cons]

/-- A result, a result without its value, a graph with one node, and a graph whose only node announces more frames
than there are. -/
example : Readable .taskResult [[1], ascii ['S'], [0, 0, 0, 0], [9]] ∧ ¬ Readable .taskResult [[1], ascii ['S'], [0, 0, 0, 0]] ∧
    Readable .graphTask [[1], [0, 0, 0, 0], [0, 0, 0, 0], [2, 0, 0, 0], [5], [6]] ∧
    Readable .graphTask [[1], [0, 0, 0, 0], [0, 0, 0, 0], [9, 0, 0, 0], [5], [6]] := by
  refine ⟨?_, ?_, ?_, ?_⟩
  · exact (C72_decoded _ _).1 ⟨.taskResult [1] .success 0 [9], by decide⟩
  · rw [← C72_decoded]
    rintro ⟨m, h⟩
    cases h
  · exact (C72_decoded _ _).1 ⟨.graphTask ⟨[1], Dict.empty, [], [⟨[5], [6], []⟩]⟩, by decide⟩
  · exact (C72_decoded _ _).1 ⟨.graphTask ⟨[1], Dict.empty, [], [⟨[5], [6], []⟩]⟩, by decide⟩

theorem enum_error {α : Type} (members : List α) (value : α → Bytes) (b : Bytes) (h : b ∉ members.map value) :
    enumOf members value b = .error .valueError := by
  have : (members.find? fun m => value m == b) = none := by
    rw [List.find?_eq_none]
    intro m hm he
    exact h (List.mem_map.2 ⟨m, hm, by simpa using he⟩)
  simp [enumOf, this, orRaise]

/-- A word that is none of the known ones raises `ValueError` in the receiver, whatever follows. -/
theorem C65_bad_word (a b : Bytes) (ps : List Bytes) :
    (b ∉ echoes.map ascii → deserialize .taskEcho (a :: b :: ps) = .error .valueError ∧ deserialize .graphTaskEcho (a :: b :: ps) = .error .valueError) ∧
    (b ∉ statuses.map ascii → deserialize .taskResult (a :: b :: ps) = .error .valueError ∧ deserialize .graphTaskResult (a :: b :: ps) = .error .valueError ∧
      ∀ c, deserialize .taskState (a :: c :: b :: ps) = .error .valueError) ∧
    (a ∉ ([['C'], ['A'], ['R'], ['D']] : List (List Char)).map ascii → deserialize .functionRequest (a :: ps) = .error .valueError) ∧
    (a ∉ ([['O', 'K'], ['N', 'E'], ['H', 'T'], ['D', 'C']] : List (List Char)).map ascii → deserialize .functionResponse (a :: ps) = .error .valueError) := by
  refine ⟨fun h => ?_, fun h => ?_, fun h => ?_, fun h => ?_⟩
  · have := enum_error TaskEchoStatus.members TaskEchoStatus.value b h
    exact ⟨by simp [deserialize, pyIndex, this], by simp [deserialize, pyIndex, this]⟩
  · have := enum_error TaskStatus.members TaskStatus.value b h
    exact ⟨by simp [deserialize, pyIndex, this], by simp [deserialize, pyIndex, this], fun c => by simp [deserialize, pyIndex, this]⟩
  · have := enum_error FunctionRequestType.members FunctionRequestType.value a h
    simp [deserialize, pyIndex, this]
  · have := enum_error FunctionResponseType.members FunctionResponseType.value a h
    simp [deserialize, pyIndex, this]

example : deserialize .taskEcho [[1], [2]] = .error .valueError := ((C65_bad_word [1] [2] []).1 (by decide)).1

/-- What a heartbeat says, byte by byte: the numbers are at fixed places (with gaps), lowest byte first, and any byte but
zero reads as true. -/
theorem C65_heartbeat_read (b : Bytes) (ps : List Bytes) (h : Heartbeat) : deserialize .heartbeat (b :: ps) = .ok (.heartbeat h) ↔
    b.length = 43 ∧ h = ⟨number (slice b 0 2), number (slice b 8 16), number (slice b 16 18), number (slice b 24 32), number (slice b 32 34),
      number (slice b 36 40), b[40]? != some 0, b[41]? != some 0, b[42]? != some 0⟩ := by
  have e : sizeFrom 0 Heartbeat.format = 43 := rfl
  simp only [deserialize, Heartbeat.deserialize, pyIndex_zero, Py.ok_bind, unpack, e]
  by_cases hl : b.length = 43
  · rw [if_pos hl]
    have hf : ∀ x : UInt8, ((if unpackLE [x] = 0 then (0 : Int) else 1) ≠ 0) = ((some x != some 0) = true) := by
      intro x
      have : unpackLE [x] = 0 ↔ x = 0 := by
        simp only [unpackLE, Nat.mul_zero, Nat.add_zero]
        constructor
        · intro h; exact UInt8.toNat_inj.1 h
        · rintro rfl; rfl
      by_cases h0 : x = 0
      · subst h0; simp [unpackLE]
      · simp [this, h0]
    iterate 43 (rcases b with _ | ⟨_, b⟩; (simp at hl))
    rcases b with _ | ⟨_, b⟩
    · clear hl e
      rename_i x40 x41 x42
      have hd : ∀ x : UInt8, decide ((if unpackLE [x] = 0 then (0 : Int) else 1) ≠ 0) = (some x != some 0) := fun x => by
        rw [Bool.eq_iff_iff, decide_eq_true_iff, hf x]
      refine Iff.trans ?_ (b := h = ⟨_, _, _, _, _, _, some x40 != some 0, some x41 != some 0, some x42 != some 0⟩) ⟨fun e => ⟨rfl, e⟩, fun e => e.2⟩
      rw [← hd x40, ← hd x41, ← hd x42]
      refine Iff.trans (b := Except.ok (Message.heartbeat _) = (Except.ok (Message.heartbeat h) : Py Message)) Iff.rfl ?_
      rw [Except.ok.injEq, Message.heartbeat.injEq, eq_comm]
      exact Iff.rfl
    · simp at hl
  · rw [if_neg hl]
    simp [hl]

example : ∃ h, deserialize .heartbeat [List.replicate 43 2] = .ok (.heartbeat h) ∧ h.agentCpu = 514 ∧ h.taskLock = true :=
  ⟨_, (C65_heartbeat_read _ [] _).2 ⟨rfl, rfl⟩, rfl, rfl⟩

end Verif.Props
