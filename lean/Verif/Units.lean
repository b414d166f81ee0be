import Verif.Bytes
/-
The units of metrics.go: `metricUnit` and the three enumerations.
-/
namespace Speed
namespace Units

/-- `dimension < -8 || dimension > 7` is a panic, here `none` (metrics.go:168-170, 179-181, 190-192). -/
def inRange (d : BitVec 8) : Bool := !(d.slt (-8) || (7 : BitVec 8).slt d)

/-- The two assignments of `metricUnit.Space`, `Time` and `Count`: `repr |= uint32(s)` and
`repr |= (uint32(dimension) & 0xF) << k` (metrics.go:172-173, 183-184, 194-195). -/
def orIn (k : Nat) (w s : BitVec 32) (d : BitVec 8) : Option (BitVec 32) :=
  if inRange d then some ((w ||| s) ||| ((d.signExtend 32 &&& 0xF) <<< k)) else none

/-- `metricUnit.Space` on the word (metrics.go:167-175). -/
def addSpace (w s : BitVec 32) (d : BitVec 8) : Option (BitVec 32) := orIn 28 w s d
/-- `metricUnit.Time` (metrics.go:178-186). -/
def addTime (w s : BitVec 32) (d : BitVec 8) : Option (BitVec 32) := orIn 24 w s d
/-- `metricUnit.Count` (metrics.go:189-197). -/
def addCount (w s : BitVec 32) (d : BitVec 8) : Option (BitVec 32) := orIn 20 w s d

/-- `SpaceDim` (metrics.go:200-202, mmvdump/pcp.go:239-241). -/
def spaceDim (w : BitVec 32) : BitVec 8 := (w.sshiftRight 28).truncate 8
/-- `TimeDim` (metrics.go:215-217, mmvdump/pcp.go:248-250). -/
def timeDim (w : BitVec 32) : BitVec 8 := ((w <<< 4).sshiftRight 28).truncate 8
/-- `CountDim` (metrics.go:230-232, mmvdump/pcp.go:257-259). -/
def countDim (w : BitVec 32) : BitVec 8 := ((w <<< 8).sshiftRight 28).truncate 8

/-- `SpaceScale` of the client; a panic if there is no space component (metrics.go:205-212). -/
def spaceScale (w : BitVec 32) : Option (BitVec 32) :=
  if spaceDim w = 0 then none else some (0x10000000 ||| ((w >>> 16) &&& 0xF) <<< 16)
/-- `TimeScale` (metrics.go:220-227). -/
def timeScale (w : BitVec 32) : Option (BitVec 32) :=
  if timeDim w = 0 then none else some (0x1000000 ||| ((w >>> 12) &&& 0xF) <<< 12)
/-- `CountScale` (metrics.go:235-242). The last shift goes to the right, so that the scale is always that of `OneUnit`. -/
def countScale (w : BitVec 32) : Option (BitVec 32) :=
  if countDim w = 0 then none else some (0x100000 ||| ((w >>> 8) &&& 0xF) >>> 8)

/-- `SpaceScale`, `TimeScale` and `CountScale` of the dump (mmvdump/pcp.go:216-232). -/
def dumpSpaceScale (w : BitVec 32) : BitVec 8 := ((w >>> 16) &&& 0xF).truncate 8
def dumpTimeScale (w : BitVec 32) : BitVec 8 := ((w >>> 12) &&& 0xF).truncate 8
def dumpCountScale (w : BitVec 32) : BitVec 8 := ((w >>> 8) &&& 0xF).truncate 8

/-- `SpaceUnit` with a scale: `1<<28 | k<<16` (metrics.go:269-275). -/
def spaceUnit (k : BitVec 4) : BitVec 32 := 0x10000000 ||| k.setWidth 32 <<< 16
/-- `TimeUnit`: `1<<24 | k<<12` (metrics.go:307-312). -/
def timeUnit (k : BitVec 4) : BitVec 32 := 0x1000000 ||| k.setWidth 32 <<< 12
/-- `OneUnit`, the only `CountUnit` (metrics.go:342). -/
def oneUnit : BitVec 32 := 0x100000

/-- A `MetricUnit`: one of the enumerations, or a pointer to a `metricUnit` (metrics.go:133-158). -/
inductive MUnit where
  | space (w : BitVec 32)
  | time (w : BitVec 32)
  | count (w : BitVec 32)
  | ref (a : Nat)
deriving DecidableEq

/-- The `metricUnit` structures, by address. -/
abbrev Heap := List (BitVec 32)

/-- `PMAPI()` (metrics.go:164, 282-284, 318-320, 347-349). -/
def MUnit.pmapi (h : Heap) : MUnit → Option (BitVec 32)
  | .space w => some w
  | .time w => some w
  | .count w => some w
  | .ref a => h[a]?

/-- `NewMetricUnit` (metrics.go:160-162). -/
def newUnit (h : Heap) : Heap × MUnit := (h ++ [0], .ref h.length)

/-- `(&metricUnit{w}).f(...)`: a new structure, on which the method acts. -/
def alloc (h : Heap) : Option (BitVec 32) → Option (Heap × MUnit)
  | none => none
  | some w => some (h ++ [w], .ref h.length)

/-- The method on an existing structure: it is changed in place, and the receiver is returned. -/
def update (h : Heap) (a : Nat) (f : BitVec 32 → Option (BitVec 32)) : Option (Heap × MUnit) :=
  match h[a]? with
  | none => none
  | some w => match f w with
    | none => none
    | some w' => some (h.set a w', .ref a)

/-- `Space` (metrics.go:167-175, 287-289, 323-325, 352-354). -/
def MUnit.addSpace (h : Heap) (u : MUnit) (s : BitVec 32) (d : BitVec 8) : Option (Heap × MUnit) :=
  match u with
  | .space _ => none
  | .time w => alloc h (Units.addSpace w s d)
  | .count w => alloc h (Units.addSpace w s d)
  | .ref a => update h a fun w => Units.addSpace w s d

/-- `Time` (metrics.go:178-186, 292-294, 328-330, 357-359). -/
def MUnit.addTime (h : Heap) (u : MUnit) (s : BitVec 32) (d : BitVec 8) : Option (Heap × MUnit) :=
  match u with
  | .space w => alloc h (Units.addTime w s d)
  | .time _ => none
  | .count w => alloc h (Units.addTime w s d)
  | .ref a => update h a fun w => Units.addTime w s d

/-- `Count` (metrics.go:189-197, 297-299, 333-335, 362-364). -/
def MUnit.addCount (h : Heap) (u : MUnit) (s : BitVec 32) (d : BitVec 8) : Option (Heap × MUnit) :=
  match u with
  | .space w => alloc h (Units.addCount w s d)
  | .time w => alloc h (Units.addCount w s d)
  | .count _ => none
  | .ref a => update h a fun w => Units.addCount w s d

end Units
end Speed
