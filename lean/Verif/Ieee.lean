import Verif.ValueModel
import Verif.Float32
/-
IEEE 754 double precision arithmetic, rounding to nearest, ties to even: a value of the parameter `Flops` of
`ValueModel.lean`. Numbers are counted in units of 2^-1074 (`mag64`, `val64`), so every finite float64 is an integer.
There is one NaN; the bits of a NaN are not specified by Go. Also `Seconds`, `Minutes`, `Hours` of `time.Duration`.
-/
namespace Speed

/-- `n / d` to the nearest integer, ties to even. -/
def roundQ (n d : Nat) : Nat :=
  let q := n / d
  let r := n % d
  if 2 * r < d then q
  else if 2 * r > d then q + 1
  else if q % 2 = 0 then q else q + 1

/-- The bit pattern (without sign) of the float64 nearest to `n / d` (in units of 2^-1074), for exponents without upper
bound: `k` is the exponent above the smallest one at which the fraction has 53 bits. -/
def roundMag (n d : Nat) : Nat :=
  let k := Nat.log2 (n / d) - 52
  k * 2 ^ 52 + roundQ n (d * 2 ^ k)

/-- The same with a sign; too large numbers become infinite. -/
def roundSigned (s n d : Nat) : BitVec 64 := BitVec.ofNat 64 (s * 2 ^ 63 + min (roundMag n d) (2047 * 2 ^ 52))

/-- A quiet NaN. -/
def fNaN : BitVec 64 := 0x7FF8000000000000
def isInf64 (x : BitVec 64) : Bool := exp64 x = 2047 && frac64 x = 0
/-- Infinity with sign `s`. -/
def fInf (s : Nat) : BitVec 64 := BitVec.ofNat 64 (s * 2 ^ 63 + 2047 * 2 ^ 52)
/-- Zero with sign `s`. -/
def fZero (s : Nat) : BitVec 64 := BitVec.ofNat 64 (s * 2 ^ 63)

/-- `a + b` -/
def fadd (a b : BitVec 64) : BitVec 64 :=
  if isNaN64 a || isNaN64 b then fNaN
  else if isInf64 a then (if isInf64 b && sign64 a != sign64 b then fNaN else a)
  else if isInf64 b then b
  else
    let v := val64 a + val64 b
    if v = 0 then (if sign64 a = 1 ∧ sign64 b = 1 then fZero 1 else fZero 0)
    else roundSigned (if v < 0 then 1 else 0) v.natAbs 1

/-- `a * b` -/
def fmul (a b : BitVec 64) : BitVec 64 :=
  let s := (sign64 a + sign64 b) % 2
  if isNaN64 a || isNaN64 b then fNaN
  else if isInf64 a then (if mag64 b = 0 then fNaN else fInf s)
  else if isInf64 b then (if mag64 a = 0 then fNaN else fInf s)
  else roundSigned s (mag64 a * mag64 b) (2 ^ 1074)

/-- `a / b` -/
def fdiv (a b : BitVec 64) : BitVec 64 :=
  let s := (sign64 a + sign64 b) % 2
  if isNaN64 a || isNaN64 b then fNaN
  else if isInf64 a then (if isInf64 b then fNaN else fInf s)
  else if isInf64 b then fZero s
  else if mag64 b = 0 then (if mag64 a = 0 then fNaN else fInf s)
  else roundSigned s (mag64 a * 2 ^ 1074) (mag64 b)

/-- `float64(i)` -/
def fofInt (x : BitVec 64) : BitVec 64 :=
  roundSigned (if x.toInt < 0 then 1 else 0) (x.toInt.natAbs * 2 ^ 1074) 1

/-- `int64(x)`: truncation. For numbers out of range Go leaves the result open; this is what amd64 gives. -/
def ftoInt (x : BitVec 64) : BitVec 64 :=
  let v := (val64 x).tdiv (2 ^ 1074)
  if exp64 x = 2047 ∨ v < -2 ^ 63 ∨ 2 ^ 63 ≤ v then 0x8000000000000000 else BitVec.ofInt 64 v

/-- `Duration.Seconds` (time/time.go of the standard library): `float64(d / Second) + float64(d % Second)/1e9`; `Minutes`
and `Hours` likewise. `c` is the constant as a float64. -/
def durIn (per : Int) (c d : BitVec 64) : BitVec 64 :=
  fadd (fofInt (BitVec.ofInt 64 (d.toInt.tdiv per))) (fdiv (fofInt (BitVec.ofInt 64 (d.toInt.tmod per))) c)

/-- The arithmetic of the hardware. -/
def ieee : Flops where
  add := fadd
  mul := fmul
  ofInt := fofInt
  toInt := ftoInt
  seconds := durIn 1000000000 0x41CDCD6500000000
  minutes := durIn 60000000000 0x422BF08EB0000000
  hours := durIn 3600000000000 0x428A3185C5000000

end Speed
