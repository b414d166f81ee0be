import Verif.Types
/-
`(*PCPClient).start` and everything it calls (client.go:212-617) as a program of the goroutine
language of `Conc.lean`, in continuation-passing style: the last argument of each function is what
its caller does next.
-/
namespace Speed

/-- Inputs of `start` besides the registry: `c.flag`, `c.clusterID` (client.go:103-110),
`time.Now().Unix()` (client.go:290) and `os.Getpid()` (client.go:303). -/
structure Env where
  flag : BitVec 64
  clusterID : BitVec 32
  gen : BitVec 64
  pid : BitVec 64

/-- Map iteration orders: of `r.instanceDomains` (client.go:382), of each `indom.instances`
(client.go:412), of `r.metrics` (client.go:478) and of each `m.indom.instances` (client.go:538). -/
structure Ord where
  indoms : List Indom
  insts : Indom → List Inst
  metrics : List Metric
  vals : Metric → List Inst

/-- The loop of bytewriter/bytewriter.go:41-43: one store per byte. -/
def storeAll (off : Nat) : List Byte → Proc → Proc
  | [], k => k
  | b :: bs, k => .store off b (storeAll (off + 1) bs k)

/-- `MustWrite` and the `MustWriteXxx` methods (bytewriter/bytewriter.go:34-55, 58-80, 89-95) on a
buffer of `len` bytes: panic if the data does not fit, else store it and return the offset after
it. -/
def mustWrite (len : Nat) (data : List Byte) (off : Nat) (k : Nat → Proc) : Proc :=
  if off + data.length ≤ len then storeAll off data (k (off + data.length)) else .panic

/-- `WriteVal` whose error is ignored (client.go:614, metrics.go:549). -/
def tryWrite (len : Nat) (data : List Byte) (off : Nat) (k : Proc) : Proc :=
  if off + data.length ≤ len then storeAll off data k else k

/-- "MMV" (client.go:278). -/
def magic : List Byte := [0x4D, 0x4D, 0x56]

/-- `writeHeaderBlock` (client.go:276-312). -/
def writeHeaderBlock (r : Reg) (e : Env) : Proc :=
  mustWrite r.Length magic 0 fun _ =>
  mustWrite r.Length (le 4 (if r.version2 then 2 else 1)) 4 fun pos =>
  mustWrite r.Length (le 8 e.gen.toNat) pos fun g2off =>
  mustWrite r.Length (le 8 0) g2off fun pos =>
  mustWrite r.Length (le 4 r.tocCount) pos fun pos =>
  mustWrite r.Length (le 4 e.flag.toNat) pos fun pos =>
  mustWrite r.Length (le 4 e.pid.toNat) pos fun pos =>
  mustWrite r.Length (le 4 e.clusterID.toNat) pos fun _ =>
  .send .gen e.gen.toNat (.send .g2 g2off .done)

/-- `writeSingleToc` (client.go:372-376). -/
def writeSingleToc (r : Reg) (pos identifier count offset : Nat) (k : Proc) : Proc :=
  mustWrite r.Length (le 4 identifier) pos fun pos =>
  mustWrite r.Length (le 4 count) pos fun pos =>
  mustWrite r.Length (le 8 offset) pos fun _ => k

/-- `if c { go p }; k` -/
def forkIf (c : Prop) [Decidable c] (p k : Proc) : Proc := if c then .fork p k else k

/-- `writeTocBlock` (client.go:314-370). `tocpos` after each conditional entry is written out. -/
def writeTocBlock (r : Reg) (k : Proc) : Proc :=
  .wgNew r.tocCount fun wg =>
  let p0 := HeaderLength
  let p1 := if r.InstanceDomainCount > 0 then p0 + TocLength else p0
  let p2 := if r.InstanceCount > 0 then p1 + TocLength else p1
  let p3 := p2 + TocLength
  let p4 := p3 + TocLength
  let metricsoffset := if r.MetricCount = 0 then 0 else r.metricsoffset
  let valuesoffset := if r.MetricCount = 0 then 0 else r.valuesoffset
  forkIf (r.InstanceDomainCount > 0)
    (writeSingleToc r p0 1 r.InstanceDomainCount r.indomoffset (.wgDone wg .done)) <|
  forkIf (r.InstanceCount > 0)
    (writeSingleToc r p1 2 r.InstanceCount r.instanceoffset (.wgDone wg .done)) <|
  .fork (writeSingleToc r p2 3 r.MetricCount metricsoffset (.wgDone wg .done)) <|
  .fork (writeSingleToc r p3 4 r.ValuesCount valuesoffset (.wgDone wg .done)) <|
  forkIf (r.StringCount > 0)
    (writeSingleToc r p4 5 r.StringCount r.stringsoffset (.wgDone wg .done)) <|
  .wgWait wg k

/-- `writeInstance` (client.go:442-458). -/
def writeInstance (r : Reg) (d : Indom) (i : Inst) (indomoff off : Nat) (k : Proc) : Proc :=
  .setCell (.off d.uid i.name) off <|
  mustWrite r.Length (le 8 indomoff) off fun off =>
  mustWrite r.Length (le 4 0) off fun off =>
  mustWrite r.Length (le 4 i.id.toNat) off fun off =>
  if r.version2 then
    .recv .str fun soff =>
    .send .str (soff + StringLength) <|
    mustWrite r.Length (le 8 soff) off fun _ =>
    mustWrite r.Length i.name soff fun _ => k
  else
    mustWrite r.Length i.name off fun _ => k

/-- The loop of client.go:412-418: one goroutine per instance. -/
def writeInstancesLoop (r : Reg) (d : Indom) (wg inoff : Nat) : List Inst → Nat → Proc → Proc
  | [], _, k => k
  | i :: is, ioff, k =>
    .fork (writeInstance r d i inoff ioff (.wgDone wg .done)) <|
    writeInstancesLoop r d wg inoff is (ioff + r.InstanceLength) k

/-- `if s != "" { so = <-c.stringoffsetc; c.stringoffsetc <- so + StringLength;
MustWriteString(s, so) }` with `so = 0` otherwise (client.go:420-434, 583-597). -/
def writeText (r : Reg) (s : Str) (k : Nat → Proc) : Proc :=
  if s = [] then k 0
  else
    .recv .str fun so =>
    .send .str (so + StringLength) <|
    mustWrite r.Length s so fun _ => k so

/-- `writeInstanceDomain` (client.go:392-440). -/
def writeInstanceDomain (r : Reg) (o : Ord) (d : Indom) (k : Proc) : Proc :=
  .recv .indom fun inoff =>
  .send .indom (inoff + InstanceDomainLength) <|
  .recv .inst fun ioff =>
  .send .inst (ioff + r.InstanceLength * d.insts.length) <|
  .wgNew d.insts.length fun wg =>
  mustWrite r.Length (le 4 d.id.toNat) inoff fun off =>
  mustWrite r.Length (le 4 d.insts.length) off fun off =>
  mustWrite r.Length (le 8 ioff) off fun off =>
  writeInstancesLoop r d wg inoff (o.insts d) ioff <|
  writeText r d.short fun so =>
  writeText r d.long fun lo =>
  mustWrite r.Length (le 8 so) off fun off =>
  mustWrite r.Length (le 8 lo) off fun _ =>
  .wgWait wg k

/-- The loop of client.go:382-387. -/
def writeInstanceDomainsLoop (r : Reg) (o : Ord) (wg : Nat) : List Indom → Proc → Proc
  | [], k => k
  | d :: ds, k =>
    .fork (writeInstanceDomain r o d (.wgDone wg .done)) <|
    writeInstanceDomainsLoop r o wg ds k

/-- `writeInstanceDomains` (client.go:378-390). -/
def writeInstanceDomains (r : Reg) (o : Ord) (k : Proc) : Proc :=
  .wgNew r.InstanceDomainCount fun wg =>
  writeInstanceDomainsLoop r o wg o.indoms (.wgWait wg k)

/-- The instance-domain id of a descriptor, -1 for none (client.go:574-578). -/
def indomIdBytes : Option Indom → List Byte
  | some d => le 4 d.id.toNat
  | none => le 4 (2 ^ 32 - 1)

/-- The part of `writeMetricDesc` common to both versions (client.go:569-600). -/
def writeDescTail (r : Reg) (m : Desc) (indom : Option Indom) (off : Nat) (k : Proc) : Proc :=
  mustWrite r.Length (le 4 m.id.toNat) off fun off =>
  mustWrite r.Length (le 4 m.t.toNat) off fun off =>
  mustWrite r.Length (le 4 m.sem.toNat) off fun off =>
  mustWrite r.Length (le 4 m.unit.toNat) off fun off =>
  mustWrite r.Length (indomIdBytes indom) off fun off =>
  mustWrite r.Length (le 4 0) off fun off =>
  writeText r m.short fun so =>
  writeText r m.long fun lo =>
  mustWrite r.Length (le 8 so) off fun off =>
  mustWrite r.Length (le 8 lo) off fun _ => k

/-- `writeMetricDesc` (client.go:554-601). -/
def writeMetricDesc (r : Reg) (m : Desc) (indom : Option Indom) (off : Nat) (k : Proc) : Proc :=
  if r.version2 then
    .send .metric (off + Metric2Length) <|
    .recv .str fun noff =>
    .send .str (noff + StringLength) <|
    mustWrite r.Length (le 8 noff) off fun off =>
    mustWrite r.Length m.name noff fun _ =>
    writeDescTail r m indom off k
  else
    .send .metric (off + Metric1Length) <|
    mustWrite r.Length m.name off fun _ =>
    writeDescTail r m indom (off + (MaxV1NameLength + 1)) k

/-- The call `update(val)` of a fresh update closure at `offset` (client.go:613-614,
metrics.go:543-552). -/
def callUpdate (r : Reg) (val : GoVal) (offset : Nat) (k : Proc) : Proc :=
  match val with
  | .str s =>
    mustWrite r.Length (List.replicate StringLength 0) offset fun _ =>
    tryWrite r.Length s offset k
  | v =>
    match binaryWrite v with
    | some bytes => tryWrite r.Length bytes offset k
    | none => k

/-- `writeValue` followed by the assignment of the closure to the `update` field of cell `c`
(client.go:603-617, 517, 543). -/
def writeValue (r : Reg) (t : MetricType) (val : GoVal) (c : Cell) (offset : Nat) (k : Proc) : Proc :=
  if t = StringType then
    mustWrite r.Length (le 8 (StringLength - 1)) offset fun pos =>
    .recv .str fun offset =>
    .send .str (offset + StringLength) <|
    mustWrite r.Length (le 8 offset) pos fun _ =>
    callUpdate r val offset (.setCell c offset k)
  else
    callUpdate r val offset (.setCell c offset k)

/-- `writeSingletonMetric` (client.go:502-525). -/
def writeSingletonMetric (r : Reg) (m : Metric) (val : GoVal) (k : Proc) : Proc :=
  .wgNew 2 fun wg =>
  .recv .metric fun doff =>
  .fork (writeMetricDesc r m.desc none doff (.wgDone wg .done)) <|
  .recv .value fun off =>
  .send .value (off + ValueLength) <|
  .fork (writeValue r m.desc.t val (.upd m.uid none) off (.wgDone wg .done)) <|
  mustWrite r.Length (le 8 doff) (off + MaxDataValueSize) fun off =>
  mustWrite r.Length (le 8 0) off fun _ =>
  .wgWait wg k

/-- `m.vals[name]` for a missing key is a nil pointer, dereferenced by `i.val` (client.go:543-545):
a panic in the goroutine. -/
def lookupVal (vals : List (Str × GoVal)) (n : Str) : Option GoVal :=
  (vals.find? (fun p => p.1 = n)).map (·.2)

/-- The loop of client.go:538-549. -/
def writeInstanceValuesLoop (r : Reg) (m : Metric) (d : Indom) (vals : List (Str × GoVal))
    (wg doff : Nat) : List Inst → Proc → Proc
  | [], k => k
  | i :: is, k =>
    .recv .value fun off =>
    .send .value (off + ValueLength) <|
    .fork
      (match lookupVal vals i.name with
       | some v => writeValue r m.desc.t v (.upd m.uid (some i.name)) off (.wgDone wg .done)
       | none => .panic) <|
    mustWrite r.Length (le 8 doff) (off + MaxDataValueSize) fun off =>
    .getCell (.off d.uid i.name) fun ioff =>
    mustWrite r.Length (le 8 ioff) off fun _ =>
    writeInstanceValuesLoop r m d vals wg doff is k

/-- `writeInstanceMetric` (client.go:527-552). -/
def writeInstanceMetric (r : Reg) (o : Ord) (m : Metric) (d : Indom) (vals : List (Str × GoVal))
    (k : Proc) : Proc :=
  .wgNew (1 + d.insts.length) fun wg =>
  .recv .metric fun doff =>
  .fork (writeMetricDesc r m.desc (some d) doff (.wgDone wg .done)) <|
  writeInstanceValuesLoop r m d vals wg doff (o.vals m) <|
  .wgWait wg k

/-- The loop of client.go:478-497: the type switch launches a goroutine for each library metric and
does nothing for other types. (A library kind with the wrong body cannot be built; it is given no
goroutine.) -/
def writeMetricsLoop (r : Reg) (o : Ord) (wg : Nat) : List Metric → Proc → Proc
  | [], k => k
  | m :: ms, k =>
    let rest := writeMetricsLoop r o wg ms k
    match m.kind, m.body with
    | .singleton, .single v => .fork (writeSingletonMetric r m v (.wgDone wg .done)) rest
    | .counter, .single v => .fork (writeSingletonMetric r m v (.wgDone wg .done)) rest
    | .gauge, .single v => .fork (writeSingletonMetric r m v (.wgDone wg .done)) rest
    | .timer, .single v => .fork (writeSingletonMetric r m v (.wgDone wg .done)) rest
    | .instance_, .inst d vs => .fork (writeInstanceMetric r o m d vs (.wgDone wg .done)) rest
    | .counterVector, .inst d vs => .fork (writeInstanceMetric r o m d vs (.wgDone wg .done)) rest
    | .gaugeVector, .inst d vs => .fork (writeInstanceMetric r o m d vs (.wgDone wg .done)) rest
    | .histogram, .inst d vs => .fork (writeInstanceMetric r o m d vs (.wgDone wg .done)) rest
    | _, _ => rest

/-- `writeMetrics` (client.go:460-500). -/
def writeMetrics (r : Reg) (o : Ord) (k : Proc) : Proc :=
  .wgNew r.MetricCount fun wg =>
  writeMetricsLoop r o wg o.metrics (.wgWait wg k)

/-- `start` (client.go:248-273), after the offsets are computed and the channels are filled
(`initSt`). -/
def startProg (r : Reg) (e : Env) (o : Ord) : Proc :=
  .fork (writeHeaderBlock r e) <|
  .wgNew 2 fun wg =>
  .fork (writeTocBlock r (.wgDone wg .done)) <|
  .fork (writeInstanceDomains r o (writeMetrics r o (.wgDone wg .done))) <|
  .recv .gen fun gen =>
  .recv .g2 fun g2off =>
  .wgWait wg <|
  mustWrite r.Length (le 8 gen) g2off fun _ => .done

/-- Channels as made and filled by client.go:229-248 (sequential code before the first `go`). -/
def initCh (r : Reg) : Chan → ChSt
  | .inst => if r.InstanceDomainCount > 0 then .buf (some r.instanceoffset) else .nil
  | .indom => if r.InstanceDomainCount > 0 then .buf (some r.indomoffset) else .nil
  | .metric => if r.MetricCount > 0 then .buf (some r.metricsoffset) else .nil
  | .value => if r.MetricCount > 0 then .buf (some r.valuesoffset) else .nil
  | .str => if r.StringCount > 0 then .buf (some r.stringsoffset) else .nil
  | .gen => .unbuf
  | .g2 => .unbuf

/-- State in which `start` spawns its first goroutine: a zeroed buffer of `Length()` bytes
(bytewriter/memorymappedwriter.go:40), heap cells as earlier runs left them. -/
def initSt (r : Reg) (e : Env) (o : Ord) (cells : Cell → Option Nat) : St :=
  { mem := newByteWriter r.Length
    thr := [startProg r e o]
    ch := initCh r
    wgs := []
    cells := cells
    crashed := false }

end Speed
