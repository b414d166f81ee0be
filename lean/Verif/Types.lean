import Verif.Conc
/-
The objects of the library: instance domains, metrics, the registry's state, and the file layout
that `Length` (client.go:174-192) and `start` (client.go:212-227) compute from it.
-/
namespace Speed

/-! ### Byte lengths (client.go:16-33) -/

/-- client.go:17 -/ abbrev HeaderLength : Nat := 40
/-- client.go:18 -/ abbrev TocLength : Nat := 16
/-- client.go:19 -/ abbrev Metric1Length : Nat := 104
/-- client.go:20 -/ abbrev Metric2Length : Nat := 48
/-- client.go:21 -/ abbrev ValueLength : Nat := 32
/-- client.go:22 -/ abbrev Instance1Length : Nat := 80
/-- client.go:23 -/ abbrev Instance2Length : Nat := 24
/-- client.go:24 -/ abbrev InstanceDomainLength : Nat := 32
/-- client.go:25 -/ abbrev StringLength : Nat := 256
/-- client.go:30 -/ abbrev MaxV1NameLength : Nat := 63
/-- client.go:33 -/ abbrev MaxDataValueSize : Nat := 16

/-! ### Metric types (metrics.go:16-28) -/

/-- `MetricType` (metrics.go:17): an `int32`, any bit pattern can occur. -/
abbrev MetricType := BitVec 32
/-- metrics.go:21 -/ abbrev Int32Type : MetricType := 0
/-- metrics.go:22 -/ abbrev Uint32Type : MetricType := 1
/-- metrics.go:23 -/ abbrev Int64Type : MetricType := 2
/-- metrics.go:24 -/ abbrev Uint64Type : MetricType := 3
/-- metrics.go:25 -/ abbrev FloatType : MetricType := 4
/-- metrics.go:26 -/ abbrev DoubleType : MetricType := 5
/-- metrics.go:27 -/ abbrev StringType : MetricType := 6

/-! ### Objects -/

/-- `pcpInstance` (instance.go:16-20) without the mutable `offset` field, which is the heap cell
`Cell.off`. -/
structure Inst where
  name : Str
  id : BitVec 32
  deriving DecidableEq, Repr

/-- `PCPInstanceDomain` (instance_domain.go:25-30). `uid` stands for the object's address; the map
`instances` is the list of its entries (keys are the instance names). -/
structure Indom where
  uid : Nat
  id : BitVec 32
  name : Str
  insts : List Inst
  short : Str
  long : Str
  deriving DecidableEq, Repr

/-- `pcpMetricDesc` (metrics.go:469-476); `unit` is `u.PMAPI()`. -/
structure Desc where
  id : BitVec 32
  name : Str
  t : MetricType
  sem : BitVec 32
  unit : BitVec 32
  short : Str
  long : Str
  deriving DecidableEq, Repr

/-- Dynamic type of a registered metric, as the type switch of `writeMetrics` (client.go:479-496)
distinguishes them; `foreign` is any type not listed there (e.g. a user struct that embeds a
library metric and so implements `PCPMetric`). -/
inductive Kind where
  | singleton | counter | gauge | timer
  | instance_ | counterVector | gaugeVector | histogram
  | foreign
  deriving DecidableEq, Repr

/-- The value part of a metric: `pcpSingletonMetric.val` (metrics.go:557-561) or
`pcpInstanceMetric.indom`, `.vals` (metrics.go:961-965). -/
inductive Body where
  | single (val : GoVal)
  | inst (d : Indom) (vals : List (Str × GoVal))
  deriving DecidableEq, Repr

/-- A metric object; `uid` stands for its address. -/
structure Metric where
  uid : Nat
  kind : Kind
  desc : Desc
  body : Body
  deriving DecidableEq, Repr

/-- `Indom()` (metrics.go:594, 1027): nil for singletons. -/
def Metric.indom (m : Metric) : Option Indom :=
  match m.body with
  | .single _ => none
  | .inst d _ => some d

/-- The number of values of a metric (registry.go:176-179). -/
def Metric.valueCount (m : Metric) : Nat :=
  match m.indom with
  | none => 1
  | some d => d.insts.length

/-! ### Registry state -/

/-- `PCPRegistry` (registry.go:48-70). The maps are keyed by the objects' own names, so they are
lists of objects. The offset fields are the functions `indomoffset` ... below. Counts are Go `int`;
simplification: they do not overflow. -/
structure Reg where
  indoms : List Indom
  metrics : List Metric
  instanceCount : Nat
  valueCount : Nat
  stringcount : Nat
  mapped : Bool
  version2 : Bool
  deriving DecidableEq, Repr

/-- `NewPCPRegistry` (registry.go:73-78). -/
def Reg.empty : Reg := ⟨[], [], 0, 0, 0, false, false⟩

/-- registry.go:81-86 -/
def Reg.InstanceCount (r : Reg) : Nat := r.instanceCount
/-- registry.go:89-94 -/
def Reg.InstanceDomainCount (r : Reg) : Nat := r.indoms.length
/-- registry.go:97-102 -/
def Reg.MetricCount (r : Reg) : Nat := r.metrics.length
/-- registry.go:105 -/
def Reg.ValuesCount (r : Reg) : Nat := r.valueCount
/-- registry.go:108-114 -/
def Reg.StringCount (r : Reg) : Nat :=
  if r.version2 then r.stringcount + r.MetricCount + r.InstanceCount else r.stringcount

/-! ### Layout -/

/-- `tocCount` (client.go:159-171). -/
def Reg.tocCount (r : Reg) : Nat :=
  2 + (if r.InstanceCount > 0 then 2 else 0) + (if r.StringCount > 0 then 1 else 0)

/-- client.go:176, 181, 214, 219 -/
def Reg.InstanceLength (r : Reg) : Nat := if r.version2 then Instance2Length else Instance1Length
/-- client.go:177, 182, 215, 220 -/
def Reg.MetricLength (r : Reg) : Nat := if r.version2 then Metric2Length else Metric1Length

/-- `Length` (client.go:174-192). -/
def Reg.Length (r : Reg) : Nat :=
  HeaderLength +
    (r.tocCount * TocLength) +
    (r.InstanceCount * r.InstanceLength) +
    (r.InstanceDomainCount * InstanceDomainLength) +
    (r.MetricCount * r.MetricLength) +
    (r.ValuesCount * ValueLength) +
    (r.StringCount * StringLength)

/-- client.go:223 -/
def Reg.indomoffset (r : Reg) : Nat := HeaderLength + TocLength * r.tocCount
/-- client.go:224 -/
def Reg.instanceoffset (r : Reg) : Nat := r.indomoffset + InstanceDomainLength * r.InstanceDomainCount
/-- client.go:225 -/
def Reg.metricsoffset (r : Reg) : Nat := r.instanceoffset + r.InstanceLength * r.InstanceCount
/-- client.go:226 -/
def Reg.valuesoffset (r : Reg) : Nat := r.metricsoffset + r.MetricLength * r.MetricCount
/-- client.go:227 -/
def Reg.stringsoffset (r : Reg) : Nat := r.valuesoffset + ValueLength * r.ValuesCount

end Speed
