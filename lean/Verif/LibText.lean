import Verif.Print
/-
`String()` methods of the library: the enumerations (the `stringer` files) and composite units.
-/
namespace Speed
namespace LibText

open Dump

/-- `MetricType.String` (metrictype_string.go:7-16). -/
def typeText (t : BitVec 32) : List Byte :=
  if t.toInt < 0 ∨ t.toInt ≥ 7 then b!"MetricType(" ++ decI t ++ b!")"
  else slice b!"Int32TypeUint32TypeInt64TypeUint64TypeFloatTypeDoubleTypeStringType" [0, 9, 19, 28, 38, 47, 57, 67] t.toInt.toNat

/-- `MetricSemantics.String` (metricsemantics_string.go:7-27). -/
def semText (s : BitVec 32) : List Byte :=
  if 0 ≤ s.toInt ∧ s.toInt ≤ 1 then slice b!"NoSemanticsCounterSemantics" [0, 11, 27] s.toInt.toNat
  else if 3 ≤ s.toInt ∧ s.toInt ≤ 4 then slice b!"InstantSemanticsDiscreteSemantics" [0, 16, 33] (s.toInt - 3).toNat
  else b!"MetricSemantics(" ++ decI s ++ b!")"

/-- `MMVFlag.String` (mmvflag_string.go:7-27). -/
def flagText (f : BitVec 64) : List Byte :=
  if 1 ≤ f.toInt ∧ f.toInt ≤ 2 then slice b!"NoPrefixFlagProcessFlag" [0, 12, 23] (f.toInt - 1).toNat
  else if f.toInt = 4 then b!"SentinelFlag"
  else b!"MMVFlag(" ++ decI f ++ b!")"

/-- `SpaceUnit.String` (spaceunit_string.go:27-46). -/
def spaceText (i : BitVec 32) : List Byte :=
  if i = 268435456 then b!"ByteUnit"
  else if i = 268500992 then b!"KilobyteUnit"
  else if i = 268566528 then b!"MegabyteUnit"
  else if i = 268632064 then b!"GigabyteUnit"
  else if i = 268697600 then b!"TerabyteUnit"
  else if i = 268763136 then b!"PetabyteUnit"
  else if i = 268828672 then b!"ExabyteUnit"
  else b!"SpaceUnit(" ++ decU i ++ b!")"

/-- `TimeUnit.String` (timeunit_string.go:25-42). -/
def timeText (i : BitVec 32) : List Byte :=
  if i = 16777216 then b!"NanosecondUnit"
  else if i = 16781312 then b!"MicrosecondUnit"
  else if i = 16785408 then b!"MillisecondUnit"
  else if i = 16789504 then b!"SecondUnit"
  else if i = 16793600 then b!"MinuteUnit"
  else if i = 16797696 then b!"HourUnit"
  else b!"TimeUnit(" ++ decU i ++ b!")"

/-- `CountUnit.String` (countunit_string.go:7-17); the subtraction wraps around. -/
def countText (i : BitVec 32) : List Byte :=
  if (i - 1048576).toNat ≥ 1 then b!"CountUnit(" ++ decU (i - 1048576 + 1048576) ++ b!")"
  else slice b!"OneUnit" [0, 7] (i - 1048576).toNat

/-- One component of `metricUnit.String`: nothing if the dimension is 0, else the name of the scale, "^" and the dimension. `none`:
the scale method panics. -/
def partText (dim : BitVec 8) (scale : Option (BitVec 32)) (name : BitVec 32 → List Byte) : Option (List Byte) :=
  if dim ≠ 0 then scale.map fun s => name s ++ b!"^" ++ decI dim else some []

/-- `metricUnit.String` (metrics.go:244-262). -/
def unitText (w : BitVec 32) : Option (List Byte) :=
  match partText (Units.spaceDim w) (Units.spaceScale w) spaceText with
  | none => none
  | some a =>
    match partText (Units.timeDim w) (Units.timeScale w) timeText with
    | none => none
    | some b =>
      match partText (Units.countDim w) (Units.countScale w) countText with
      | none => none
      | some c => some (a ++ b ++ c)

/-- `String` of a unit (metrics.go:244-262 and the stringer files). -/
def unitStr (h : Units.Heap) : Units.MUnit → Option (List Byte)
  | .space w => some (spaceText w)
  | .time w => some (timeText w)
  | .count w => some (countText w)
  | .ref a => (h[a]?).bind unitText

end LibText
end Speed
