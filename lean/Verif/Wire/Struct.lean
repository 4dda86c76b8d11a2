import Verif.Base.Py

/-!
# The `struct` module, as far as `message.py` uses it

Formats `H`, `I`, `Q`, `?` in native mode on a little-endian machine with natural
alignment (CPython `Modules/_struct.c`, native size and alignment, no trailing
padding).  The format `f` is modelled in `Verif.Wire.Message` as a raw 32-bit
pattern.
-/

namespace Verif.Wire

/-- Format characters used by `scaled/protocol/python/message.py` (lines 183, 277,
311). -/
inductive Code where
  | H | I | Q | bool
  deriving DecidableEq, Repr

/-- Size in bytes of one field (CPython `struct`; used by scaled/protocol/python/message.py 167-345). -/
def Code.size : Code → Nat
  | .H => 2
  | .I => 4
  | .Q => 8
  | .bool => 1

/-- `k` little-endian bytes of `n` (CPython `struct`; used by scaled/protocol/python/message.py 167-345). -/
def packLE : Nat → Nat → Bytes
  | 0, _ => []
  | k + 1, n => UInt8.ofNat (n % 256) :: packLE k (n / 256)

/-- Little-endian value (CPython `struct`; used by scaled/protocol/python/message.py 167-345). -/
def unpackLE : Bytes → Nat
  | [] => 0
  | b :: bs => b.toNat + 256 * unpackLE bs

/-- Padding needed at offset `off` before a field of `c` (natural alignment equals
size for the codes above) (CPython `struct`; used by scaled/protocol/python/message.py 167-345). -/
def Code.pad (c : Code) (off : Nat) : Nat := (c.size - off % c.size) % c.size

/-- One field value packed; `struct.error` when out of range.  `?` packs the truth
value (CPython `struct`; used by scaled/protocol/python/message.py 167-345). -/
def packField (c : Code) (n : Int) : Py Bytes :=
  match c with
  | .bool => .ok [if n = 0 then 0 else 1]
  | c => if 0 ≤ n ∧ n < (256 ^ c.size : Nat) then .ok (packLE c.size n.toNat) else .error .structError

/-- One field read back; `?` reads any non-zero byte as true (CPython `struct`; used by scaled/protocol/python/message.py 167-345). -/
def unpackField (c : Code) (bs : Bytes) : Int :=
  match c with
  | .bool => if unpackLE bs = 0 then 0 else 1
  | _ => unpackLE bs

/-- `struct.pack(fmt, *values)` from offset `off` (CPython `struct`; used by scaled/protocol/python/message.py 167-345). -/
def packFrom : Nat → List (Code × Int) → Py Bytes
  | _, [] => .ok []
  | off, (c, n) :: fs => do
    let b ← packField c n
    let rest ← packFrom (off + c.pad off + c.size) fs
    return List.replicate (c.pad off) 0 ++ b ++ rest

/-- `struct.calcsize` from offset `off` (CPython `struct`; used by scaled/protocol/python/message.py 167-345). -/
def sizeFrom : Nat → List Code → Nat
  | _, [] => 0
  | off, c :: cs => c.pad off + c.size + sizeFrom (off + c.pad off + c.size) cs

/-- Field values of a buffer of the right size, from offset `off` (CPython `struct`; used by scaled/protocol/python/message.py 167-345). -/
def unpackFrom : Nat → List Code → Bytes → List Int
  | _, [], _ => []
  | off, c :: cs, bs =>
    let bs := bs.drop (c.pad off)
    unpackField c (bs.take c.size) :: unpackFrom (off + c.pad off + c.size) cs (bs.drop c.size)

/-- `struct.pack(fmt, *values)` (CPython `struct`; used by scaled/protocol/python/message.py 167-345). -/
def pack (fs : List (Code × Int)) : Py Bytes := packFrom 0 fs

/-- `struct.unpack(fmt, buffer)`: `struct.error` unless the buffer has exactly the
size of the format (CPython `struct`; used by scaled/protocol/python/message.py 167-345). -/
def unpack (cs : List Code) (bs : Bytes) : Py (List Int) :=
  if bs.length = sizeFrom 0 cs then .ok (unpackFrom 0 cs bs) else .error .structError

/-- `struct.pack("I", n)` (scaled/protocol/python/message.py 183, 192, 195, 277, 289) -/
def packI (n : Int) : Py Bytes := pack [(.I, n)]

/-- `struct.unpack("I", frame)[0]` (scaled/protocol/python/message.py 203, 217, 225, 281, 293) -/
def unpackI (bs : Bytes) : Py Nat := do
  let l ← unpack [.I] bs
  match l with
  | [n] => return n.toNat
  | _ => throw .valueError

/-! ## Facts -/

@[simp] theorem packLE_length (k n : Nat) : (packLE k n).length = k := by
  induction k generalizing n with
  | zero => rfl
  | succ k ih => simp [packLE, ih]

theorem unpackLE_packLE (k n : Nat) (h : n < 256 ^ k) : unpackLE (packLE k n) = n := by
  induction k generalizing n with
  | zero => simp at h; simp [packLE, unpackLE, h]
  | succ k ih =>
    have h2 : n / 256 < 256 ^ k := by
      rw [Nat.div_lt_iff_lt_mul (by omega)]; rwa [Nat.pow_succ] at h
    simp only [packLE, unpackLE, ih _ h2]
    have : (UInt8.ofNat (n % 256)).toNat = n % 256 := by
      rw [UInt8.toNat_ofNat']; omega
    omega

theorem unpackLE_lt (bs : Bytes) : unpackLE bs < 256 ^ bs.length := by
  induction bs with
  | nil => simp [unpackLE]
  | cons b bs ih =>
    have := b.toNat_lt
    simp only [unpackLE, List.length_cons, Nat.pow_succ]
    omega

/-- When a field can be packed: the fixed-width ones need to be in range (CPython `struct`; used by scaled/protocol/python/message.py 167-345). -/
def Code.fits (c : Code) (n : Int) : Prop :=
  match c with
  | .bool => True
  | c => 0 ≤ n ∧ n < (256 ^ c.size : Nat)

theorem packField_ok {c : Code} {n : Int} :
    (∃ b, packField c n = .ok b) ↔ c.fits n := by
  cases c <;> simp only [packField, Code.fits] <;> (try split) <;> simp_all

theorem packField_error {c : Code} {n : Int} (h : ¬ c.fits n) :
    packField c n = .error .structError := by
  cases c <;> simp only [packField, Code.fits] at * <;> simp_all

theorem packField_length {c : Code} {n : Int} {b : Bytes} (h : packField c n = .ok b) :
    b.length = c.size := by
  cases c <;> simp only [packField] at h <;> (try split at h) <;> cases h <;> simp [Code.size]

/-- `?` normalises its argument to a truth value (CPython `struct`; used by scaled/protocol/python/message.py 167-345). -/
def Code.norm (c : Code) (n : Int) : Int :=
  match c with
  | .bool => if n = 0 then 0 else 1
  | _ => n

theorem unpackField_packField {c : Code} {n : Int} {b : Bytes} (h : packField c n = .ok b) :
    unpackField c b = c.norm n := by
  cases c
  case bool =>
    simp only [packField] at h
    cases h
    simp only [unpackField, Code.norm]
    split <;> decide
  all_goals
    simp only [packField] at h
    split at h
    · next hr =>
      cases h
      simp only [unpackField, Code.norm]
      rw [unpackLE_packLE]
      · omega
      · omega
    · cases h

theorem packFrom_length {off : Nat} {fs : List (Code × Int)} {bs : Bytes}
    (h : packFrom off fs = .ok bs) : bs.length = sizeFrom off (fs.map (·.1)) := by
  induction fs generalizing off bs with
  | nil => cases h; rfl
  | cons p fs ih =>
    obtain ⟨c, n⟩ := p
    simp only [packFrom, Py.bind_ok] at h
    obtain ⟨b, hb, r, hr, h⟩ := h
    cases h
    simp [sizeFrom, packField_length hb, ih hr, Nat.add_assoc]

theorem unpackFrom_packFrom {off : Nat} {fs : List (Code × Int)} {bs : Bytes}
    (h : packFrom off fs = .ok bs) :
    unpackFrom off (fs.map (·.1)) bs = fs.map fun p => p.1.norm p.2 := by
  induction fs generalizing off bs with
  | nil => rfl
  | cons p fs ih =>
    obtain ⟨c, n⟩ := p
    simp only [packFrom, Py.bind_ok] at h
    obtain ⟨b, hb, r, hr, h⟩ := h
    cases h
    have hl := packField_length hb
    have e1 : List.drop (c.pad off) (List.replicate (c.pad off) (0 : UInt8) ++ b ++ r) = b ++ r := by
      rw [List.append_assoc, List.drop_append_of_le_length (by simp)]
      simp
    simp only [List.map_cons, unpackFrom, e1]
    rw [List.take_left' hl, List.drop_left' hl, ih hr, unpackField_packField hb]

theorem unpack_pack {fs : List (Code × Int)} {bs : Bytes} (h : pack fs = .ok bs) :
    unpack (fs.map (·.1)) bs = .ok (fs.map fun p => p.1.norm p.2) := by
  unfold unpack
  rw [if_pos (packFrom_length h), unpackFrom_packFrom h]

theorem packFrom_ok {off : Nat} {fs : List (Code × Int)} :
    (∃ bs, packFrom off fs = .ok bs) ↔ ∀ p ∈ fs, p.1.fits p.2 := by
  induction fs generalizing off with
  | nil => simp [packFrom]
  | cons p fs ih =>
    obtain ⟨c, n⟩ := p
    simp only [packFrom, Py.bind_ok, List.mem_cons, forall_eq_or_imp]
    rw [← packField_ok, ← ih (off := off + c.pad off + c.size)]
    constructor
    · rintro ⟨_, b, hb, r, hr, _⟩; exact ⟨⟨b, hb⟩, ⟨r, hr⟩⟩
    · rintro ⟨⟨b, hb⟩, ⟨r, hr⟩⟩; exact ⟨_, b, hb, r, hr, rfl⟩

theorem packI_ok {n : Int} : (∃ b, packI n = .ok b) ↔ 0 ≤ n ∧ n < 2 ^ 32 := by
  rw [packI, pack, packFrom_ok]
  simp [Code.fits, Code.size]

theorem unpackI_packI {n : Int} {b : Bytes} (h : packI n = .ok b) : unpackI b = .ok n.toNat := by
  have := unpack_pack h
  simp only [List.map_cons, List.map_nil] at this
  simp [unpackI, this, Code.norm]

theorem unpackI_lt {b : Bytes} {n : Nat} (h : unpackI b = .ok n) : n < 2 ^ 32 := by
  unfold unpackI unpack at h
  rw [Py.bind_ok] at h
  obtain ⟨l, hl, h⟩ := h
  split at hl
  · next hlen =>
    cases hl
    simp only [unpackFrom, Py.pure_eq, Except.ok.injEq] at h
    have hlen : b.length = 4 := by simpa [sizeFrom, Code.pad, Code.size] using hlen
    have h2 := unpackLE_lt ((b.drop (Code.I.pad 0)).take Code.I.size)
    have h3 : ((b.drop (Code.I.pad 0)).take Code.I.size).length ≤ 4 := by
      simp [Code.pad, Code.size]; omega
    have h4 := Nat.pow_le_pow_right (n := 256) (by omega) h3
    simp only [unpackField] at h
    omega
  · cases hl

end Verif.Wire
