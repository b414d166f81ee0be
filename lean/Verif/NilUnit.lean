import Verif.StartProg
import Verif.ValueModel
/-
`start` on a registry with metrics whose unit is nil. `NewPCPSingletonMetric`, `NewPCPInstanceMetric`, `NewPCPHistogram` and
`RegisterString` take a `MetricUnit`, an interface, and store it without looking at it (metrics.go:479-507); the registry does
not look at it either. The first use is `desc.u.PMAPI()` in `writeMetricDesc` (client.go:572), which panics if it is nil.

`StartProg.lean` has the unit as a number. Here a function gives for every metric what `desc.u` is: a unit with its number, or
nil. Where all are units, these are the functions of `StartProg.lean` (`startProgU_eq`).
-/
namespace Speed

/-- `desc.u`: `none` is nil, `some w` an object whose `PMAPI()` is `w`. -/
abbrev UnitOf := Metric → Option (BitVec 32)

/-- The part of `writeMetricDesc` common to both versions (client.go:569-600). The argument `desc.u.PMAPI()` is evaluated
before the write. -/
def writeDescTailU (r : Reg) (m : Desc) (u : Option (BitVec 32)) (indom : Option Indom) (off : Nat) (k : Proc) : Proc :=
  mustWrite r.Length (le 4 m.id.toNat) off fun off =>
  mustWrite r.Length (le 4 m.t.toNat) off fun off =>
  mustWrite r.Length (le 4 m.sem.toNat) off fun off =>
  match u with
  | none => .panic
  | some w =>
    mustWrite r.Length (le 4 w.toNat) off fun off =>
    mustWrite r.Length (indomIdBytes indom) off fun off =>
    mustWrite r.Length (le 4 0) off fun off =>
    writeText r m.short fun so =>
    writeText r m.long fun lo =>
    mustWrite r.Length (le 8 so) off fun off =>
    mustWrite r.Length (le 8 lo) off fun _ => k

/-- `writeMetricDesc` (client.go:554-601). -/
def writeMetricDescU (r : Reg) (m : Desc) (u : Option (BitVec 32)) (indom : Option Indom) (off : Nat) (k : Proc) : Proc :=
  if r.version2 then
    .send .metric (off + Metric2Length) <|
    .recv .str fun noff =>
    .send .str (noff + StringLength) <|
    mustWrite r.Length (le 8 noff) off fun off =>
    mustWrite r.Length m.name noff fun _ =>
    writeDescTailU r m u indom off k
  else
    .send .metric (off + Metric1Length) <|
    mustWrite r.Length m.name off fun _ =>
    writeDescTailU r m u indom (off + (MaxV1NameLength + 1)) k

/-- `writeSingletonMetric` (client.go:502-525). -/
def writeSingletonMetricU (r : Reg) (U : UnitOf) (m : Metric) (val : GoVal) (k : Proc) : Proc :=
  .wgNew 2 fun wg =>
  .recv .metric fun doff =>
  .fork (writeMetricDescU r m.desc (U m) none doff (.wgDone wg .done)) <|
  .recv .value fun off =>
  .send .value (off + ValueLength) <|
  .fork (writeValue r m.desc.t val (.upd m.uid none) off (.wgDone wg .done)) <|
  mustWrite r.Length (le 8 doff) (off + MaxDataValueSize) fun off =>
  mustWrite r.Length (le 8 0) off fun _ =>
  .wgWait wg k

/-- `writeInstanceMetric` (client.go:527-552). -/
def writeInstanceMetricU (r : Reg) (U : UnitOf) (o : Ord) (m : Metric) (d : Indom) (vals : List (Str × GoVal))
    (k : Proc) : Proc :=
  .wgNew (1 + d.insts.length) fun wg =>
  .recv .metric fun doff =>
  .fork (writeMetricDescU r m.desc (U m) (some d) doff (.wgDone wg .done)) <|
  writeInstanceValuesLoop r m d vals wg doff (o.vals m) <|
  .wgWait wg k

/-- The loop of client.go:478-497. -/
def writeMetricsLoopU (r : Reg) (U : UnitOf) (o : Ord) (wg : Nat) : List Metric → Proc → Proc
  | [], k => k
  | m :: ms, k =>
    let rest := writeMetricsLoopU r U o wg ms k
    match m.kind, m.body with
    | .singleton, .single v => .fork (writeSingletonMetricU r U m v (.wgDone wg .done)) rest
    | .counter, .single v => .fork (writeSingletonMetricU r U m v (.wgDone wg .done)) rest
    | .gauge, .single v => .fork (writeSingletonMetricU r U m v (.wgDone wg .done)) rest
    | .timer, .single v => .fork (writeSingletonMetricU r U m v (.wgDone wg .done)) rest
    | .instance_, .inst d vs => .fork (writeInstanceMetricU r U o m d vs (.wgDone wg .done)) rest
    | .counterVector, .inst d vs => .fork (writeInstanceMetricU r U o m d vs (.wgDone wg .done)) rest
    | .gaugeVector, .inst d vs => .fork (writeInstanceMetricU r U o m d vs (.wgDone wg .done)) rest
    | .histogram, .inst d vs => .fork (writeInstanceMetricU r U o m d vs (.wgDone wg .done)) rest
    | _, _ => rest

/-- `writeMetrics` (client.go:460-500). -/
def writeMetricsU (r : Reg) (U : UnitOf) (o : Ord) (k : Proc) : Proc :=
  .wgNew r.MetricCount fun wg =>
  writeMetricsLoopU r U o wg o.metrics (.wgWait wg k)

/-- `start` (client.go:248-273). -/
def startProgU (r : Reg) (U : UnitOf) (e : Env) (o : Ord) : Proc :=
  .fork (writeHeaderBlock r e) <|
  .wgNew 2 fun wg =>
  .fork (writeTocBlock r (.wgDone wg .done)) <|
  .fork (writeInstanceDomains r o (writeMetricsU r U o (.wgDone wg .done))) <|
  .recv .gen fun gen =>
  .recv .g2 fun g2off =>
  .wgWait wg <|
  mustWrite r.Length (le 8 gen) g2off fun _ => .done

/-- The state in which `start` spawns its first goroutine. -/
def initStU (r : Reg) (U : UnitOf) (e : Env) (o : Ord) (cells : Cell → Option Nat) : St :=
  { initSt r e o cells with thr := [startProgU r U e o] }

/-! ### All units present -/

/-- Every unit is there, and `desc.unit` is its number. -/
def UnitOf.Full (U : UnitOf) : Prop := ∀ m, U m = some m.desc.unit

section
variable {r : Reg} {U : UnitOf} (hU : U.Full)
include hU

theorem writeMetricDescU_eq (m : Metric) (d : Option Indom) (off : Nat) (k : Proc) :
    writeMetricDescU r m.desc (U m) d off k = writeMetricDesc r m.desc d off k := by
  rw [hU m]; rfl

theorem writeSingletonMetricU_eq (m : Metric) (v : GoVal) (k : Proc) :
    writeSingletonMetricU r U m v k = writeSingletonMetric r m v k := by
  unfold writeSingletonMetricU writeSingletonMetric
  simp only [writeMetricDescU_eq hU]

theorem writeInstanceMetricU_eq (o : Ord) (m : Metric) (d : Indom) (vs : List (Str × GoVal)) (k : Proc) :
    writeInstanceMetricU r U o m d vs k = writeInstanceMetric r o m d vs k := by
  unfold writeInstanceMetricU writeInstanceMetric
  simp only [writeMetricDescU_eq hU]

theorem writeMetricsLoopU_eq (o : Ord) (wg : Nat) (ms : List Metric) (k : Proc) :
    writeMetricsLoopU r U o wg ms k = writeMetricsLoop r o wg ms k := by
  induction ms with
  | nil => rfl
  | cons m ms ih =>
    unfold writeMetricsLoopU writeMetricsLoop
    simp only [ih, writeSingletonMetricU_eq hU, writeInstanceMetricU_eq hU]
    cases m.kind <;> cases m.body <;> rfl

theorem startProgU_eq (e : Env) (o : Ord) : startProgU r U e o = startProg r e o := by
  unfold startProgU startProg writeMetricsU writeMetrics
  simp only [writeMetricsLoopU_eq hU]

theorem initStU_eq (e : Env) (o : Ord) (cells : Cell → Option Nat) : initStU r U e o cells = initSt r e o cells := by
  unfold initStU
  rw [startProgU_eq hU]
  rfl

end

/-! ### Other nil arguments -/

/-- `AddMetric(nil)` (registry.go:196-203) and so `Register(nil)`: `m.Name()` is called on a nil interface unless the registry
is mapped. -/
def Reg.addMetricNil (r : Reg) : Ans Unit := if r.mapped then .err else .panic

/-- `AddInstanceDomain(nil)` (registry.go:135-136) and so `RegisterIndom(nil)`: `indom.Name()` comes first. -/
def Reg.addIndomNil (_ : Reg) : Ans Unit := .panic

/-- `NewPCPInstanceMetric` with a nil domain (metrics.go:1045-1051, 968-969, instance_domain.go:87-89): the description is checked
first, then the domain is asked for its number of instances. -/
def newPCPInstanceMetricNil (name : Str) (t : MetricType) (s u : BitVec 32) (desc : List Str) : Ans Metric :=
  match newDesc name t s u desc with
  | none => .err
  | some _ => .panic

/-- `Start` of a client whose registry is nil (client.go:198-202, 180-192, 160-163): `Length` asks the registry for its
counts before the file is made. `NewPCPClientWithRegistry` (client.go:127-139) does not look at the registry. -/
def startNilRegistry (fs : α) : α × Ans Unit := (fs, .panic)

/-- `SetFlag` of a client whose registry is nil (client.go:147-153). -/
def setFlagNilRegistry : Ans Unit := .panic

end Speed
