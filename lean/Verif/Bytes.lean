/-
Model of package `bytewriter` (bytewriter/bytewriter.go): the byte buffer, the write loop,
and `encoding/binary` little-endian encoding as used by `WriteVal`.
-/
namespace Speed

/-- A byte of the buffer (`[]byte`, bytewriter/bytewriter.go:14-16). -/
abbrev Byte := BitVec 8

/-- A Go `string` or `[]byte`: its bytes. Go strings are byte strings, so no UTF-8 assumption. -/
abbrev Str := List Byte

/-- The contents of `ByteWriter.buffer` (bytewriter/bytewriter.go:14-16). -/
abbrev Buf := List Byte

/-! ### Little-endian encoding (`encoding/binary`, `byteOrder = LittleEndian`,
bytewriter/bytewriter.go:11) -/

/-- The `n` little-endian bytes of `x` (`binary.LittleEndian.PutUint16/32/64` via `binary.Write`,
bytewriter/bytewriter.go:65). -/
def le : (n : Nat) → (x : Nat) → List Byte
  | 0, _ => []
  | n + 1, x => BitVec.ofNat 8 x :: le n (x / 256)

/-- Little-endian value of a byte list: what the reader's `unsafe` casts of mmvdump/mmvdump.go:29
etc. see on a little-endian machine. -/
def unLe : List Byte → Nat
  | [] => 0
  | b :: bs => b.toNat + 256 * unLe bs

/-- Go dynamic values that reach `interface{}` parameters of the metrics API
(metrics.go:66-88, bytewriter/bytewriter.go:58). `int`/`uint` are 64 bits wide (amd64/arm64).
Floats are represented by their IEEE-754 bit patterns. `other` stands for any value of another
dynamic type (including `nil`); such values are never accepted by `IsCompatible`. -/
inductive GoVal where
  | int (v : BitVec 64)
  | int32 (v : BitVec 32)
  | int64 (v : BitVec 64)
  | uint (v : BitVec 64)
  | uint32 (v : BitVec 32)
  | uint64 (v : BitVec 64)
  | float32 (bits : BitVec 32)
  | float64 (bits : BitVec 64)
  | str (s : Str)
  | other
  deriving DecidableEq, Repr, Inhabited

/-- `binary.Write(buf, LittleEndian, val)` for the dynamic types above
(bytewriter/bytewriter.go:63-68): fixed-size numbers are encoded, `int`, `uint`, `string` are not
fixed-size and give an error. `other` is given an error too (simplification: some other types are
encodable, but no caller passes them). -/
def binaryWrite : GoVal → Option (List Byte)
  | .int32 v => some (le 4 v.toNat)
  | .int64 v => some (le 8 v.toNat)
  | .uint32 v => some (le 4 v.toNat)
  | .uint64 v => some (le 8 v.toNat)
  | .float32 v => some (le 4 v.toNat)
  | .float64 v => some (le 8 v.toNat)
  | .int _ => none
  | .uint _ => none
  | .str _ => none
  | .other => none

/-! ### The writer -/

/-- Result of a Go write method: `(int, error)` with the buffer after the call, or a panic
(index out of range) with the buffer at that time. -/
inductive WRes where
  | ok (buf : Buf) (off : Int)
  | err (buf : Buf) (off : Int)
  | panic (buf : Buf)
  deriving DecidableEq, Repr

/-- The buffer after a call, whatever its outcome. -/
def WRes.buf : WRes → Buf
  | .ok b _ => b
  | .err b _ => b
  | .panic b => b

/-- Go `int` arithmetic wraps around at 64 bits. -/
def wrap64 (x : Int) : Int := Int.bmod x (2 ^ 64)

/-- The copy loop `for i := 0; i < l; i++ { w.buffer[offset+i] = data[i] }`
(bytewriter/bytewriter.go:41-43), one byte per iteration, starting at index `off` (= `offset+i`).
An index outside the buffer panics. -/
def writeLoop (b : Buf) (off : Int) : List Byte → Buf × Bool
  | [] => (b, true)
  | d :: ds =>
    if 0 ≤ off ∧ off < b.length then
      writeLoop (b.set off.toNat d) (wrap64 (off + 1)) ds
    else (b, false)

/-- `(*ByteWriter).Write` (bytewriter/bytewriter.go:34-46). -/
def bwWrite (b : Buf) (data : List Byte) (off : Int) : WRes :=
  if wrap64 (off + data.length) > b.length then .err b (-1)
  else
    match writeLoop b off data with
    | (b', true) => .ok b' (wrap64 (off + data.length))
    | (b', false) => .panic b'

/-- `(*ByteWriter).WriteString` (bytewriter/bytewriter.go:83-86): returns `offset + len(val)` also
when the write failed. -/
def bwWriteString (b : Buf) (s : Str) (off : Int) : WRes :=
  match bwWrite b s off with
  | .ok b' _ => .ok b' (wrap64 (off + s.length))
  | .err b' _ => .err b' (wrap64 (off + s.length))
  | .panic b' => .panic b'

/-- `(*ByteWriter).WriteVal` (bytewriter/bytewriter.go:58-71). -/
def bwWriteVal (b : Buf) (v : GoVal) (off : Int) : WRes :=
  match v with
  | .str s => bwWriteString b s off
  | v =>
    match binaryWrite v with
    | none => .err b 0
    | some bytes => bwWrite b bytes off

/-- `MustWrite`, `MustWriteVal`, `MustWriteString` (bytewriter/bytewriter.go:49-55, 74-80, 89-95):
an error becomes a panic. -/
def must : WRes → WRes
  | .ok b o => .ok b o
  | .err b _ => .panic b
  | .panic b => .panic b

/-- `NewByteWriter(n)` (bytewriter/bytewriter.go:19-21). -/
def newByteWriter (n : Nat) : Buf := List.replicate n 0

/-! ### Lemmas -/

@[simp] theorem le_length (n x : Nat) : (le n x).length = n := by
  induction n generalizing x with
  | zero => rfl
  | succ n ih => simp [le, ih]

theorem unLe_le (n x : Nat) : unLe (le n x) = x % 256 ^ n := by
  induction n generalizing x with
  | zero => simp [le, unLe, Nat.mod_one]
  | succ n ih =>
    simp only [le, unLe, ih, BitVec.toNat_ofNat]
    rw [show (256:Nat) ^ (n + 1) = 256 * 256 ^ n from by rw [Nat.pow_succ, Nat.mul_comm], Nat.mod_mul]

theorem unLe_lt (l : List Byte) : unLe l < 256 ^ l.length := by
  induction l with
  | nil => simp [unLe]
  | cons b bs ih =>
    simp only [unLe, List.length_cons, Nat.pow_succ]
    have := b.isLt
    omega

theorem le_unLe (l : List Byte) : le l.length (unLe l) = l := by
  induction l with
  | nil => rfl
  | cons b bs ih =>
    simp only [List.length_cons, le, unLe]
    have hb := b.isLt
    have h1 : (b.toNat + 256 * unLe bs) / 256 = unLe bs := by omega
    rw [h1, ih]
    congr 1
    apply BitVec.eq_of_toNat_eq
    simp; omega

theorem wrap64_of_range {x : Int} (h0 : -(2 ^ 63) ≤ x) (h1 : x < 2 ^ 63) : wrap64 x = x := by
  unfold wrap64
  apply Int.bmod_eq_of_le <;> omega

/-- Pointwise description of a buffer with `data` placed at `off`. -/
def place (b : Buf) (off : Nat) (data : List Byte) : Buf :=
  match data with
  | [] => b
  | d :: ds => place (b.set off d) (off + 1) ds

@[simp] theorem place_length (b : Buf) (off : Nat) (data : List Byte) :
    (place b off data).length = b.length := by
  induction data generalizing b off with
  | nil => rfl
  | cons d ds ih => simp [place, ih]

theorem place_get (b : Buf) (off : Nat) (data : List Byte) (hb : off + data.length ≤ b.length)
    (j : Nat) :
    (place b off data)[j]? =
      if off ≤ j ∧ j < off + data.length then data[j - off]? else b[j]? := by
  induction data generalizing b off with
  | nil => simp [place]; intro h1 h2; omega
  | cons d ds ih =>
    simp only [List.length_cons] at hb
    rw [place, ih _ _ (by simp; omega)]
    by_cases h : off + 1 ≤ j ∧ j < off + 1 + ds.length
    · rw [if_pos h, if_pos (by simp; omega)]
      rw [show j - off = (j - (off + 1)) + 1 by omega]
      simp
    · rw [if_neg h]
      by_cases hj : off = j
      · subst hj
        rw [if_pos (by simp)]
        simp [List.getElem?_set]
        omega
      · rw [if_neg (by simp; omega)]
        simp [hj]

theorem writeLoop_nat (b : Buf) (off : Nat) (data : List Byte)
    (hb : off + data.length ≤ b.length) (hl : b.length < 2 ^ 63) :
    writeLoop b off data = (place b off data, true) := by
  induction data generalizing b off with
  | nil => rfl
  | cons d ds ih =>
    simp only [List.length_cons] at hb
    rw [writeLoop, if_pos (by omega), place]
    have : wrap64 ((off : Int) + 1) = ((off + 1 : Nat) : Int) := by
      rw [wrap64_of_range] <;> omega
    rw [this, Int.toNat_natCast, ih _ _ (by simp; omega) (by simpa using hl)]

theorem bwWrite_ok {b : Buf} {data : List Byte} {off : Nat} (h : off + data.length ≤ b.length)
    (hl : b.length < 2 ^ 63) : bwWrite b data off = .ok (place b off data) ((off + data.length : Nat) : Int) := by
  have hw : wrap64 ((off : Int) + (data.length : Int)) = ((off + data.length : Nat) : Int) := by
    rw [wrap64_of_range] <;> omega
  unfold bwWrite
  rw [hw, if_neg (by omega), writeLoop_nat b off data h hl]

theorem bwWriteString_of {b b' : Buf} {off : Int} {s : Str} {n : Int} (h : bwWrite b s off = .ok b' n) :
    bwWriteString b s off = .ok b' (wrap64 (off + s.length)) := by
  unfold bwWriteString
  rw [h]

theorem bwWriteString_ok {b : Buf} {off : Nat} {s : Str} (h : off + s.length ≤ b.length) (hl : b.length < 2 ^ 63) :
    ∃ n, bwWriteString b s off = .ok (place b off s) n :=
  ⟨_, bwWriteString_of (bwWrite_ok h hl)⟩

end Speed
