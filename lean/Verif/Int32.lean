import Verif.ValueModel
import Verif.Client
/-
The places where the width of Go's `int` and `uint` matters, on a platform where they have 32 bits (386, arm). Elsewhere in the
model they have 64 bits. All numbers in the file have fixed widths; an `int` or `uint` is met in two places only: as a dynamic
type of the values given to the constructors and to `Set` and `SetInstance`, and in the length of the file and the offsets in it.
-/
namespace Speed

/-! ### Values -/

/-- Dynamic values (`GoVal`) where `int` and `uint` have 32 bits. -/
inductive GoVal32 where
  | int (v : BitVec 32)
  | int32 (v : BitVec 32)
  | int64 (v : BitVec 64)
  | uint (v : BitVec 32)
  | uint32 (v : BitVec 32)
  | uint64 (v : BitVec 64)
  | float32 (bits : BitVec 32)
  | float64 (bits : BitVec 64)
  | str (s : Str)
  | other
  deriving DecidableEq

/-- The same number where they have 64 bits. -/
def GoVal32.widen : GoVal32 → GoVal
  | .int v => .int (v.signExtend 64)
  | .int32 v => .int32 v
  | .int64 v => .int64 v
  | .uint v => .uint (v.setWidth 64)
  | .uint32 v => .uint32 v
  | .uint64 v => .uint64 v
  | .float32 v => .float32 v
  | .float64 v => .float64 v
  | .str s => .str s
  | .other => .other

/-- `isCompatibleInt` (metrics.go:32-45): `v := int64(val)`. -/
def isCompatibleInt32 (m : MetricType) (val : BitVec 32) : Bool :=
  let v : BitVec 64 := val.signExtend 64
  if m = Int32Type then decide (-(2 ^ 31) ≤ v.toInt) && decide (v.toInt ≤ 2 ^ 31 - 1)
  else if m = Int64Type then true
  else if m = Uint32Type then decide (0 ≤ v.toInt) && decide (v.toInt ≤ 2 ^ 32 - 1)
  else if m = Uint64Type then decide (0 ≤ v.toInt)
  else false

/-- `isCompatibleUint` (metrics.go:47-54): the first case always applies. -/
def isCompatibleUint32 (m : MetricType) (val : BitVec 32) : Bool :=
  if val.toNat ≤ 2 ^ 32 - 1 then m = Uint32Type || m = Uint64Type else m = Uint64Type

/-- `IsCompatible` (metrics.go:66-88). -/
def isCompatible32 (m : MetricType) : GoVal32 → Bool
  | .int v => isCompatibleInt32 m v
  | .int32 _ => m = Int32Type
  | .int64 _ => m = Int64Type
  | .uint v => isCompatibleUint32 m v
  | .uint32 _ => m = Uint32Type
  | .uint64 _ => m = Uint64Type
  | .float32 _ => m = FloatType
  | .float64 v => isCompatibleFloat m v
  | .str _ => m = StringType
  | .other => false

/-- `resolve` (metrics.go:91-129). The results have fixed widths. -/
def resolve32 (m : MetricType) : GoVal32 → GoVal
  | .int v =>
    if m = Int64Type then .int64 (v.signExtend 64)
    else if m = Uint32Type then .uint32 v
    else if m = Uint64Type then .uint64 (v.signExtend 64)
    else .int32 v
  | .uint v => if m = Uint64Type then .uint64 (v.setWidth 64) else .uint32 v
  | .float64 v => if m = FloatType then .float32 (cvt32 v) else .float64 v
  | .int32 v => .int32 v
  | .int64 v => .int64 v
  | .uint32 v => .uint32 v
  | .uint64 v => .uint64 v
  | .float32 v => .float32 v
  | .str s => .str s
  | .other => .other

/-- `(*pcpSingletonMetric).set` (metrics.go:574-592). -/
def set32 (val : GoVal32) : MOp Unit := fun u st =>
  if isCompatible32 st.m.desc.t val = false then (st, .err)
  else match st.m.cur none with
  | none => (st, .panic)
  | some old => storeVal none old (resolve32 st.m.desc.t val) u st

/-- `setInstance` (metrics.go:1002-1026). -/
def setInstance32 (val : GoVal32) (n : Str) : MOp Unit := fun u st =>
  if isCompatible32 st.m.desc.t val = false then (st, .err)
  else if st.m.hasInst n = false then (st, .err)
  else match st.m.cur (some n) with
  | none => (st, .panic)
  | some old => storeVal (some n) old (resolve32 st.m.desc.t val) u st

/-- `newpcpSingletonMetric` and `NewPCPSingletonMetric` (metrics.go:556-572, 608-620). -/
def newPCPSingletonMetric32 (uid : Nat) (val : GoVal32) (name : Str) (t : MetricType) (s u : BitVec 32) (desc : List Str) :
    Option Metric :=
  (newDesc name t s u desc).bind fun d =>
    if isCompatible32 d.t val then some ⟨uid, .singleton, d, .single (resolve32 d.t val)⟩ else none

/-- The loop of metrics.go:975-987 (`resolveVals`). -/
def resolveVals32 (t : MetricType) (vals : List (Str × GoVal32)) : List Inst → Option (List (Str × GoVal))
  | [] => some []
  | i :: is =>
    match (vals.find? (fun p => p.1 = i.name)).map (·.2) with
    | none => none
    | some v =>
      if isCompatible32 t v then
        match resolveVals32 t vals is with
        | some l => some ((i.name, resolve32 t v) :: l)
        | none => none
      else none

/-- `NewPCPInstanceMetric` (metrics.go:966-1000, 1045-1059). -/
def newPCPInstanceMetric32 (uid : Nat) (vals : List (Str × GoVal32)) (name : Str) (d : Indom) (t : MetricType)
    (s u : BitVec 32) (desc : List Str) : Option Metric :=
  (newDesc name t s u desc).bind fun desc =>
    if vals.length ≠ d.insts.length then none
    else match resolveVals32 desc.t vals d.insts with
    | none => none
    | some vs => some ⟨uid, .instance_, desc, .inst d vs⟩

/-! ### Lengths -/

/-- A count or a constant as an `int`. -/
abbrev i32 (n : Nat) : BitVec 32 := BitVec.ofNat 32 n

/-- `Length` (client.go:174-192): the sum and the products are computed with `int`s, which wrap around. -/
def Reg.Length32 (r : Reg) : BitVec 32 :=
  i32 HeaderLength +
    (i32 r.tocCount * i32 TocLength) +
    (i32 r.InstanceCount * i32 r.InstanceLength) +
    (i32 r.InstanceDomainCount * i32 InstanceDomainLength) +
    (i32 r.MetricCount * i32 r.MetricLength) +
    (i32 r.ValuesCount * i32 ValueLength) +
    (i32 r.StringCount * i32 StringLength)

/-- client.go:223-227 -/
def Reg.indomoffset32 (r : Reg) : BitVec 32 := i32 HeaderLength + i32 TocLength * i32 r.tocCount
def Reg.instanceoffset32 (r : Reg) : BitVec 32 := r.indomoffset32 + i32 InstanceDomainLength * i32 r.InstanceDomainCount
def Reg.metricsoffset32 (r : Reg) : BitVec 32 := r.instanceoffset32 + i32 r.InstanceLength * i32 r.InstanceCount
def Reg.valuesoffset32 (r : Reg) : BitVec 32 := r.metricsoffset32 + i32 r.MetricLength * i32 r.MetricCount
def Reg.stringsoffset32 (r : Reg) : BitVec 32 := r.valuesoffset32 + i32 ValueLength * i32 r.ValuesCount

/-- bytewriter/memorymappedwriter.go:28-60: `make([]byte, size)` panics if `size` is negative, after the file was created. -/
def openMMW32 (fs : FS) (loc : Str) (size : BitVec 32) (os : StartOS) : FS × Ans Nat :=
  if os.mkdirErr then (fs, .err)
  else if os.openErr || (fs.names loc).isSome then (fs, .err)
  else
    let n := fs.next
    let fs := fs.create loc
    if size.toInt < 0 then (fs, .panic)
    else
      let fs := { fs with data := fset fs.data n (zeros (min os.written size.toNat)) }
      if os.writeErr then (fs, .err)
      else if os.written < size.toNat then (fs, .err)
      else if os.mmapErr then (fs, .err)
      else ({ fs with maps := n :: fs.maps }, .ok n)

/-- `NewMemoryMappedWriter` (bytewriter/memorymappedwriter.go:20-60). -/
def newMMW32 (fs : FS) (loc : Str) (size : BitVec 32) (os : StartOS) : FS × Ans Nat :=
  if !os.statErr && (fs.names loc).isSome then
    if os.removeErr then (fs, .err) else openMMW32 (fs.remove loc) loc size os
  else openMMW32 fs loc size os

end Speed
