import Verif.Types
/-
Model of `MetricType.IsCompatible` and `MetricType.resolve` (metrics.go:32-129).
-/
namespace Speed

/-! ### IEEE-754 on bit patterns -/

/-- Exponent field of a float64. -/
def exp64 (x : BitVec 64) : Nat := x.toNat / 2 ^ 52 % 2 ^ 11
/-- Fraction field of a float64. -/
def frac64 (x : BitVec 64) : Nat := x.toNat % 2 ^ 52
/-- Sign bit of a float64. -/
def sign64 (x : BitVec 64) : Nat := x.toNat / 2 ^ 63

/-- Round `m / 2^k` to the nearest integer, ties to even. -/
def roundEven (m k : Nat) : Nat :=
  let q := m / 2 ^ k
  let r := m % 2 ^ k
  if 2 * r < 2 ^ k then q
  else if 2 * r > 2 ^ k then q + 1
  else if q % 2 = 0 then q else q + 1

/-- Go's conversion `float32(x)` of a float64 (metrics.go:117): round to nearest, ties to even; a
carry out of the fraction moves to the exponent by itself. (For NaN the payload is truncated and the
quiet bit set, as hardware does; Go leaves it open. No NaN reaches this conversion.) -/
def cvt32 (x : BitVec 64) : BitVec 32 :=
  let s := sign64 x * 2 ^ 31
  let e := exp64 x
  let f := frac64 x
  if e = 2047 then
    if f = 0 then BitVec.ofNat 32 (s + 255 * 2 ^ 23)
    else BitVec.ofNat 32 (s + 255 * 2 ^ 23 + (f / 2 ^ 29 % 2 ^ 22) + 2 ^ 22)
  else if e ≥ 897 then
    BitVec.ofNat 32 (s + min ((e - 897) * 2 ^ 23 + roundEven (2 ^ 52 + f) 29) (255 * 2 ^ 23))
  else if e = 0 then BitVec.ofNat 32 s
  else BitVec.ofNat 32 (s + roundEven (2 ^ 52 + f) (29 + (897 - e)))

/-- `val >= -math.MaxFloat32 && val <= math.MaxFloat32` (metrics.go:56) on bit patterns:
`MaxFloat32` as a float64 is 0x47EFFFFFE0000000, and the order of finite magnitudes is the order of
their bit patterns; NaN and infinities have larger ones. -/
def inFloat32Range (x : BitVec 64) : Bool := x.toNat % 2 ^ 63 ≤ 0x47EFFFFFE0000000

/-! ### Compatibility -/

/-- `isCompatibleInt` (metrics.go:32-45). -/
def isCompatibleInt (m : MetricType) (v : BitVec 64) : Bool :=
  if m = Int32Type then decide (-(2 ^ 31) ≤ v.toInt) && decide (v.toInt ≤ 2 ^ 31 - 1)
  else if m = Int64Type then true
  else if m = Uint32Type then decide (0 ≤ v.toInt) && decide (v.toInt ≤ 2 ^ 32 - 1)
  else if m = Uint64Type then decide (0 ≤ v.toInt)
  else false

/-- `isCompatibleUint` (metrics.go:47-54). -/
def isCompatibleUint (m : MetricType) (v : BitVec 64) : Bool :=
  if v.toNat ≤ 2 ^ 32 - 1 then m = Uint32Type || m = Uint64Type else m = Uint64Type

/-- `isCompatibleFloat` (metrics.go:56-63). -/
def isCompatibleFloat (m : MetricType) (v : BitVec 64) : Bool :=
  if inFloat32Range v then m = FloatType || m = DoubleType else m = DoubleType

/-- `IsCompatible` (metrics.go:66-88). -/
def isCompatible (m : MetricType) : GoVal → Bool
  | .int v => isCompatibleInt m v
  | .int32 _ => m = Int32Type
  | .int64 _ => m = Int64Type
  | .uint v => isCompatibleUint m v
  | .uint32 _ => m = Uint32Type
  | .uint64 _ => m = Uint64Type
  | .float32 _ => m = FloatType
  | .float64 v => isCompatibleFloat m v
  | .str _ => m = StringType
  | .other => false

/-- `resolveInt` (metrics.go:91-112). -/
def resolveInt (m : MetricType) : GoVal → GoVal
  | .int v =>
    if m = Int64Type then .int64 v
    else if m = Uint32Type then .uint32 (v.setWidth 32)
    else if m = Uint64Type then .uint64 v
    else .int32 (v.setWidth 32)
  | .uint v => if m = Uint64Type then .uint64 v else .uint32 (v.setWidth 32)
  | v => v

/-- `resolveFloat` (metrics.go:115-122). -/
def resolveFloat (m : MetricType) : GoVal → GoVal
  | .float64 v => if m = FloatType then .float32 (cvt32 v) else .float64 v
  | v => v

/-- `resolve` (metrics.go:124-129). -/
def resolve (m : MetricType) (v : GoVal) : GoVal := resolveFloat m (resolveInt m v)

/-- The bit pattern is a NaN. -/
def isNaN64 (x : BitVec 64) : Bool := exp64 x = 2047 && frac64 x ≠ 0
def isNaN32 (x : BitVec 32) : Bool := x.toNat / 2 ^ 23 % 2 ^ 8 = 255 && x.toNat % 2 ^ 23 ≠ 0
/-- `==` on float64. -/
def feq64 (x y : BitVec 64) : Bool :=
  !isNaN64 x && !isNaN64 y && (x = y || (x.toNat % 2 ^ 63 = 0 && y.toNat % 2 ^ 63 = 0))
/-- `==` on float32. -/
def feq32 (x y : BitVec 32) : Bool :=
  !isNaN32 x && !isNaN32 y && (x = y || (x.toNat % 2 ^ 31 = 0 && y.toNat % 2 ^ 31 = 0))

/-- Go interface equality `a == b` (used by `set`, metrics.go:581): dynamic types and values must be equal; floats
compare as IEEE numbers. -/
def goEq : GoVal → GoVal → Bool
  | .float32 x, .float32 y => feq32 x y
  | .float64 x, .float64 y => feq64 x y
  | a, b => a = b

end Speed
