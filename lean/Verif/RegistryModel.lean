import Verif.Hash
import Verif.Values
/-
Model of object construction (instance_domain.go, metrics.go constructors) and of the registry
operations (registry.go:116-333).
-/
namespace Speed

/-! ### Semantics and units used by the constructors -/

/-- metrics.go:375 -/ abbrev CounterSemantics : BitVec 32 := 1
/-- metrics.go:377 -/ abbrev InstantSemantics : BitVec 32 := 3
/-- metrics.go:378 -/ abbrev DiscreteSemantics : BitVec 32 := 4
/-- metrics.go:342 -/ abbrev OneUnit : BitVec 32 := 1 <<< 20

/-! ### Instance domains (instance_domain.go) -/

/-- `newpcpInstance` (instance.go:27-31); the `offset` field starts as 0. -/
def newInst (name : Str) : Inst := ⟨name, hash name 0⟩

/-- `imap[instance] = newpcpInstance(instance)` (instance_domain.go:62): assigning an existing key
replaces an equal instance. -/
def putInst (l : List Inst) (name : Str) : List Inst :=
  if name ∈ l.map (·.name) then l else l ++ [newInst name]

/-- The two optional description arguments (instance_domain.go:41-53, metrics.go:488-500). -/
def descs : List Str → Option (Str × Str)
  | [] => some ([], [])
  | [a] => some (a, [])
  | [a, b] => some (a, b)
  | _ => none

/-- `NewPCPInstanceDomain` (instance_domain.go:36-72); `uid` is the address of the new object. -/
def newIndom (uid : Nat) (name : Str) (instances : List Str) (desc : List Str) : Option Indom :=
  if name = [] then none
  else match descs desc with
  | none => none
  | some (short, long) =>
    if instances.any (fun i => decide (i.length > StringLength)) then none
    else some ⟨uid, hash name PCPInstanceDomainBitLength, name, instances.foldl putInst [], short, long⟩

/-- `HasInstance` (instance_domain.go:75-78). -/
def Indom.hasInstance (d : Indom) (n : Str) : Bool := d.insts.any (fun i => i.name = n)

/-- `MatchInstances` (instance_domain.go:103-115). -/
def Indom.matchInstances (d : Indom) (ins : List Str) : Bool :=
  ins.length = d.insts.length && ins.all (fun i => d.hasInstance i)

/-! ### Metrics (metrics.go) -/

/-- `newpcpMetricDesc` (metrics.go:479-507). `u` is the unit's `PMAPI()` (simplification: a composite
unit is a mutable object; its value at `Start` time is what is published). -/
def newDesc (name : Str) (t : MetricType) (sem u : BitVec 32) (desc : List Str) : Option Desc :=
  if name = [] then none
  else if name.length > StringLength then none
  else match descs desc with
  | none => none
  | some (short, long) => some ⟨hash name PCPMetricItemBitLength, name, t, sem, u, short, long⟩

/-- `newpcpSingletonMetric` (metrics.go:564-571) inside a metric of kind `k`. -/
def newSingle (uid : Nat) (k : Kind) (val : GoVal) (d : Desc) : Option Metric :=
  if isCompatible d.t val then some ⟨uid, k, d, .single (resolve d.t val)⟩ else none

/-- The loop of metrics.go:975-987 over the instances of the domain. The iteration order only decides
which error is reported, so list order is used. -/
def resolveVals (t : MetricType) (vals : List (Str × GoVal)) : List Inst → Option (List (Str × GoVal))
  | [] => some []
  | i :: is =>
    match (vals.find? (fun p => p.1 = i.name)).map (·.2) with
    | none => none
    | some v =>
      if isCompatible t v then
        match resolveVals t vals is with
        | some l => some ((i.name, resolve t v) :: l)
        | none => none
      else none

/-- `newpcpInstanceMetric` (metrics.go:968-990); `vals` is a Go map, that is its keys are distinct. -/
def newInstMetric (uid : Nat) (k : Kind) (vals : List (Str × GoVal)) (d : Indom) (desc : Desc) :
    Option Metric :=
  if vals.length ≠ d.insts.length then none
  else match resolveVals desc.t vals d.insts with
  | none => none
  | some vs => some ⟨uid, k, desc, .inst d vs⟩

/-- `NewPCPSingletonMetric` (metrics.go:608-620). -/
def newPCPSingletonMetric (uid : Nat) (val : GoVal) (name : Str) (t : MetricType) (s u : BitVec 32)
    (desc : List Str) : Option Metric :=
  (newDesc name t s u desc).bind (newSingle uid .singleton val)

/-- `NewPCPCounter` (metrics.go:678-690). -/
def newPCPCounter (uid : Nat) (val : BitVec 64) (name : Str) (desc : List Str) : Option Metric :=
  (newDesc name Int64Type CounterSemantics OneUnit desc).bind (newSingle uid .counter (.int64 val))

/-- `NewPCPGauge` (metrics.go:775-787). -/
def newPCPGauge (uid : Nat) (val : BitVec 64) (name : Str) (desc : List Str) : Option Metric :=
  (newDesc name DoubleType InstantSemantics OneUnit desc).bind (newSingle uid .gauge (.float64 val))

/-- `NewPCPTimer` (metrics.go:870-882). -/
def newPCPTimer (uid : Nat) (name : Str) (unit : BitVec 32) (desc : List Str) : Option Metric :=
  (newDesc name DoubleType DiscreteSemantics unit desc).bind (newSingle uid .timer (.float64 0))

/-- `NewPCPInstanceMetric` (metrics.go:1045-1057). -/
def newPCPInstanceMetric (uid : Nat) (vals : List (Str × GoVal)) (name : Str) (d : Indom)
    (t : MetricType) (s u : BitVec 32) (desc : List Str) : Option Metric :=
  (newDesc name t s u desc).bind (newInstMetric uid .instance_ vals d)

/-- ".indom" -/
def dotIndom : Str := [0x2E, 0x69, 0x6E, 0x64, 0x6F, 0x6D]

/-- `generateInstanceMetric` (metrics.go:1104-1117) with `instances = vals.Keys()`, in a metric of
kind `k`; `duid` is the address of the domain it creates. -/
def generateInstanceMetric (uid duid : Nat) (k : Kind) (vals : List (Str × GoVal)) (name : Str)
    (t : MetricType) (s u : BitVec 32) (desc : List Str) : Option Metric :=
  (newIndom duid (name ++ dotIndom) (vals.map (·.1)) []).bind fun d =>
  (newDesc name t s u desc).bind (newInstMetric uid k vals d)

/-- `NewPCPCounterVector` (metrics.go:1130-1142). -/
def newPCPCounterVector (uid duid : Nat) (vals : List (Str × BitVec 64)) (name : Str)
    (desc : List Str) : Option Metric :=
  generateInstanceMetric uid duid .counterVector (vals.map (fun p => (p.1, .int64 p.2))) name Int64Type
    CounterSemantics OneUnit desc

/-- `NewPCPGaugeVector` (metrics.go:1262-1274). -/
def newPCPGaugeVector (uid duid : Nat) (vals : List (Str × BitVec 64)) (name : Str)
    (desc : List Str) : Option Metric :=
  generateInstanceMetric uid duid .gaugeVector (vals.map (fun p => (p.1, .float64 p.2))) name DoubleType
    InstantSemantics OneUnit desc

/-! ### Registry operations (registry.go) -/

/-- `HasInstanceDomain` (registry.go:117-123). -/
def Reg.hasIndom (r : Reg) (n : Str) : Bool := r.indoms.any (fun d => d.name = n)

/-- `HasMetric` (registry.go:126-132). -/
def Reg.hasMetric (r : Reg) (n : Str) : Bool := r.metrics.any (fun m => m.desc.name = n)

/-- Number of increments for two optional texts (registry.go:157-163, 185-191). -/
def bump (s : Str) : Nat := if s ≠ [] then 1 else 0

/-- `AddInstanceDomain` (registry.go:135-167): `none` is an error, which changes nothing. -/
def Reg.addIndom (r : Reg) (d : Indom) : Option Reg :=
  if r.hasIndom d.name then none
  else if r.mapped then none
  else some { r with
    indoms := r.indoms ++ [d]
    instanceCount := r.instanceCount + d.insts.length
    version2 := r.version2 || d.insts.any (fun i => decide (i.name.length > MaxV1NameLength))
    stringcount := r.stringcount + bump d.short + bump d.long }

/-- `addMetric` (registry.go:169-193). -/
def Reg.addMetricUnchecked (r : Reg) (m : Metric) : Reg :=
  { r with
    metrics := r.metrics ++ [m]
    version2 := r.version2 || decide (m.desc.name.length > MaxV1NameLength)
    valueCount := r.valueCount + m.valueCount
    stringcount := r.stringcount + (if m.desc.t = StringType then m.valueCount else 0) +
      bump m.desc.short + bump m.desc.long }

/-- Result of a registry call: the registry after it and whether it succeeded. (`AddMetric` can fail
after having changed the registry only if `AddInstanceDomain` did, which then changes nothing.) -/
structure RRes where
  reg : Reg
  ok : Bool
  deriving DecidableEq, Repr

/-- `AddMetric` (registry.go:196-220). -/
def Reg.addMetric (r : Reg) (m : Metric) : RRes :=
  if r.mapped then ⟨r, false⟩
  else if r.hasMetric m.desc.name then ⟨r, false⟩
  else match m.indom with
  | none => ⟨r.addMetricUnchecked m, true⟩
  | some d =>
    if r.hasIndom d.name then ⟨r.addMetricUnchecked m, true⟩
    else match r.addIndom d with
    | none => ⟨r, false⟩
    | some r' => ⟨r'.addMetricUnchecked m, true⟩

/-- `AddInstanceDomainByName` (registry.go:223-239). Also gives the new domain. -/
def Reg.addIndomByName (r : Reg) (uid : Nat) (name : Str) (instances : List Str) : Option (Reg × Indom) :=
  if r.hasIndom name then none
  else match newIndom uid name instances [] with
  | none => none
  | some d =>
    match r.addIndom d with
    | none => none
    | some r' => some (r', d)

/-- The `val interface{}` of `AddMetricByString`: an `Instances` map or something else. -/
inductive ByStrVal where
  | plain (v : GoVal)
  | insts (vals : List (Str × GoVal))
  deriving DecidableEq, Repr

/-- `addSingletonMetricByString` (registry.go:271-283). -/
def Reg.addSingletonByString (r : Reg) (uid : Nat) (name : Str) (val : ByStrVal) (t : MetricType)
    (s u : BitVec 32) : RRes :=
  match newPCPSingletonMetric uid (match val with | .plain v => v | .insts _ => .other) name t s u [] with
  | none => ⟨r, false⟩
  | some m => r.addMetric m

/-- `addInstanceMetricByString` (registry.go:285-319). -/
def Reg.addInstanceByString (r : Reg) (uid duid : Nat) (name : Str) (val : ByStrVal) (indom : Str)
    (instances : List Str) (t : MetricType) (s u : BitVec 32) : RRes :=
  match val with
  | .plain _ => ⟨r, false⟩
  | .insts mp =>
    let fin (r' : Reg) (d : Indom) : RRes :=
      match newPCPInstanceMetric uid mp name d t s u [] with
      | none => ⟨r', false⟩
      | some m => r'.addMetric m
    match r.indoms.find? (fun d => d.name = indom) with
    | none =>
      match r.addIndomByName duid indom instances with
      | none => ⟨r, false⟩
      | some (r', d) => fin r' d
    | some d => if d.matchInstances instances then fin r d else ⟨r, false⟩

/-- `AddMetricByString` (registry.go:322-333) with the result of `parseString` (registry.go:249-269):
`none` for an error, else the metric name, the domain name and the instances (`none` for nil). -/
def Reg.addMetricByString (parse : Str → Option (Str × Str × Option (List Str))) (r : Reg)
    (uid duid : Nat) (str : Str) (val : ByStrVal) (t : MetricType) (s u : BitVec 32) : RRes :=
  match parse str with
  | none => ⟨r, false⟩
  | some (metric, _, none) => r.addSingletonByString uid metric val t s u
  | some (metric, indom, some instances) => r.addInstanceByString uid duid metric val indom instances t s u

end Speed
