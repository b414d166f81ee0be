import Verif.StartProg
/-
`start` (client.go:212-617) on a buffer whose length is not the `Length()` of the registry. `Start` takes the length
first (client.go:199) and reads the registry again in `start`; nothing keeps other goroutines from registering metrics in
between. With the length of the registry itself these are the functions of `StartProg.lean` (`startProg_eq`).
-/
namespace Speed.StartLen

/-- `writeHeaderBlock` (client.go:276-312). -/
def writeHeaderBlock (len : Nat) (r : Reg) (e : Env) : Proc :=
  mustWrite len magic 0 fun _ =>
  mustWrite len (le 4 (if r.version2 then 2 else 1)) 4 fun pos =>
  mustWrite len (le 8 e.gen.toNat) pos fun g2off =>
  mustWrite len (le 8 0) g2off fun pos =>
  mustWrite len (le 4 r.tocCount) pos fun pos =>
  mustWrite len (le 4 e.flag.toNat) pos fun pos =>
  mustWrite len (le 4 e.pid.toNat) pos fun pos =>
  mustWrite len (le 4 e.clusterID.toNat) pos fun _ =>
  .send .gen e.gen.toNat (.send .g2 g2off .done)

/-- `writeSingleToc` (client.go:372-376). -/
def writeSingleToc (len : Nat) (pos identifier count offset : Nat) (k : Proc) : Proc :=
  mustWrite len (le 4 identifier) pos fun pos =>
  mustWrite len (le 4 count) pos fun pos =>
  mustWrite len (le 8 offset) pos fun _ => k

/-- `writeTocBlock` (client.go:314-370). `tocpos` after each conditional entry is written out. -/
def writeTocBlock (len : Nat) (r : Reg) (k : Proc) : Proc :=
  .wgNew r.tocCount fun wg =>
  let p0 := HeaderLength
  let p1 := if r.InstanceDomainCount > 0 then p0 + TocLength else p0
  let p2 := if r.InstanceCount > 0 then p1 + TocLength else p1
  let p3 := p2 + TocLength
  let p4 := p3 + TocLength
  let metricsoffset := if r.MetricCount = 0 then 0 else r.metricsoffset
  let valuesoffset := if r.MetricCount = 0 then 0 else r.valuesoffset
  forkIf (r.InstanceDomainCount > 0)
    (writeSingleToc len p0 1 r.InstanceDomainCount r.indomoffset (.wgDone wg .done)) <|
  forkIf (r.InstanceCount > 0)
    (writeSingleToc len p1 2 r.InstanceCount r.instanceoffset (.wgDone wg .done)) <|
  .fork (writeSingleToc len p2 3 r.MetricCount metricsoffset (.wgDone wg .done)) <|
  .fork (writeSingleToc len p3 4 r.ValuesCount valuesoffset (.wgDone wg .done)) <|
  forkIf (r.StringCount > 0)
    (writeSingleToc len p4 5 r.StringCount r.stringsoffset (.wgDone wg .done)) <|
  .wgWait wg k

/-- `writeInstance` (client.go:442-458). -/
def writeInstance (len : Nat) (r : Reg) (d : Indom) (i : Inst) (indomoff off : Nat) (k : Proc) : Proc :=
  .setCell (.off d.uid i.name) off <|
  mustWrite len (le 8 indomoff) off fun off =>
  mustWrite len (le 4 0) off fun off =>
  mustWrite len (le 4 i.id.toNat) off fun off =>
  if r.version2 then
    .recv .str fun soff =>
    .send .str (soff + StringLength) <|
    mustWrite len (le 8 soff) off fun _ =>
    mustWrite len i.name soff fun _ => k
  else
    mustWrite len i.name off fun _ => k

/-- The loop of client.go:412-418: one goroutine per instance. -/
def writeInstancesLoop (len : Nat) (r : Reg) (d : Indom) (wg inoff : Nat) : List Inst → Nat → Proc → Proc
  | [], _, k => k
  | i :: is, ioff, k =>
    .fork (writeInstance len r d i inoff ioff (.wgDone wg .done)) <|
    writeInstancesLoop len r d wg inoff is (ioff + r.InstanceLength) k

/-- `if s != "" { so = <-c.stringoffsetc; c.stringoffsetc <- so + StringLength;
MustWriteString(s, so) }` with `so = 0` otherwise (client.go:420-434, 583-597). -/
def writeText (len : Nat) (s : Str) (k : Nat → Proc) : Proc :=
  if s = [] then k 0
  else
    .recv .str fun so =>
    .send .str (so + StringLength) <|
    mustWrite len s so fun _ => k so

/-- `writeInstanceDomain` (client.go:392-440). -/
def writeInstanceDomain (len : Nat) (r : Reg) (o : Ord) (d : Indom) (k : Proc) : Proc :=
  .recv .indom fun inoff =>
  .send .indom (inoff + InstanceDomainLength) <|
  .recv .inst fun ioff =>
  .send .inst (ioff + r.InstanceLength * d.insts.length) <|
  .wgNew d.insts.length fun wg =>
  mustWrite len (le 4 d.id.toNat) inoff fun off =>
  mustWrite len (le 4 d.insts.length) off fun off =>
  mustWrite len (le 8 ioff) off fun off =>
  writeInstancesLoop len r d wg inoff (o.insts d) ioff <|
  writeText len d.short fun so =>
  writeText len d.long fun lo =>
  mustWrite len (le 8 so) off fun off =>
  mustWrite len (le 8 lo) off fun _ =>
  .wgWait wg k

/-- The loop of client.go:382-387. -/
def writeInstanceDomainsLoop (len : Nat) (r : Reg) (o : Ord) (wg : Nat) : List Indom → Proc → Proc
  | [], k => k
  | d :: ds, k =>
    .fork (writeInstanceDomain len r o d (.wgDone wg .done)) <|
    writeInstanceDomainsLoop len r o wg ds k

/-- `writeInstanceDomains` (client.go:378-390). -/
def writeInstanceDomains (len : Nat) (r : Reg) (o : Ord) (k : Proc) : Proc :=
  .wgNew r.InstanceDomainCount fun wg =>
  writeInstanceDomainsLoop len r o wg o.indoms (.wgWait wg k)

/-- The part of `writeMetricDesc` common to both versions (client.go:569-600). -/
def writeDescTail (len : Nat) (m : Desc) (indom : Option Indom) (off : Nat) (k : Proc) : Proc :=
  mustWrite len (le 4 m.id.toNat) off fun off =>
  mustWrite len (le 4 m.t.toNat) off fun off =>
  mustWrite len (le 4 m.sem.toNat) off fun off =>
  mustWrite len (le 4 m.unit.toNat) off fun off =>
  mustWrite len (indomIdBytes indom) off fun off =>
  mustWrite len (le 4 0) off fun off =>
  writeText len m.short fun so =>
  writeText len m.long fun lo =>
  mustWrite len (le 8 so) off fun off =>
  mustWrite len (le 8 lo) off fun _ => k

/-- `writeMetricDesc` (client.go:554-601). -/
def writeMetricDesc (len : Nat) (r : Reg) (m : Desc) (indom : Option Indom) (off : Nat) (k : Proc) : Proc :=
  if r.version2 then
    .send .metric (off + Metric2Length) <|
    .recv .str fun noff =>
    .send .str (noff + StringLength) <|
    mustWrite len (le 8 noff) off fun off =>
    mustWrite len m.name noff fun _ =>
    writeDescTail len m indom off k
  else
    .send .metric (off + Metric1Length) <|
    mustWrite len m.name off fun _ =>
    writeDescTail len m indom (off + (MaxV1NameLength + 1)) k

/-- The call `update(val)` of a fresh update closure at `offset` (client.go:613-614,
metrics.go:543-552). -/
def callUpdate (len : Nat) (val : GoVal) (offset : Nat) (k : Proc) : Proc :=
  match val with
  | .str s =>
    mustWrite len (List.replicate StringLength 0) offset fun _ =>
    tryWrite len s offset k
  | v =>
    match binaryWrite v with
    | some bytes => tryWrite len bytes offset k
    | none => k

/-- `writeValue` followed by the assignment of the closure to the `update` field of cell `c`
(client.go:603-617, 517, 543). -/
def writeValue (len : Nat) (t : MetricType) (val : GoVal) (c : Cell) (offset : Nat) (k : Proc) : Proc :=
  if t = StringType then
    mustWrite len (le 8 (StringLength - 1)) offset fun pos =>
    .recv .str fun offset =>
    .send .str (offset + StringLength) <|
    mustWrite len (le 8 offset) pos fun _ =>
    callUpdate len val offset (.setCell c offset k)
  else
    callUpdate len val offset (.setCell c offset k)

/-- `writeSingletonMetric` (client.go:502-525). -/
def writeSingletonMetric (len : Nat) (r : Reg) (m : Metric) (val : GoVal) (k : Proc) : Proc :=
  .wgNew 2 fun wg =>
  .recv .metric fun doff =>
  .fork (writeMetricDesc len r m.desc none doff (.wgDone wg .done)) <|
  .recv .value fun off =>
  .send .value (off + ValueLength) <|
  .fork (writeValue len m.desc.t val (.upd m.uid none) off (.wgDone wg .done)) <|
  mustWrite len (le 8 doff) (off + MaxDataValueSize) fun off =>
  mustWrite len (le 8 0) off fun _ =>
  .wgWait wg k

/-- The loop of client.go:538-549. -/
def writeInstanceValuesLoop (len : Nat) (r : Reg) (m : Metric) (d : Indom) (vals : List (Str × GoVal))
    (wg doff : Nat) : List Inst → Proc → Proc
  | [], k => k
  | i :: is, k =>
    .recv .value fun off =>
    .send .value (off + ValueLength) <|
    .fork
      (match lookupVal vals i.name with
       | some v => writeValue len m.desc.t v (.upd m.uid (some i.name)) off (.wgDone wg .done)
       | none => .panic) <|
    mustWrite len (le 8 doff) (off + MaxDataValueSize) fun off =>
    .getCell (.off d.uid i.name) fun ioff =>
    mustWrite len (le 8 ioff) off fun _ =>
    writeInstanceValuesLoop len r m d vals wg doff is k

/-- `writeInstanceMetric` (client.go:527-552). -/
def writeInstanceMetric (len : Nat) (r : Reg) (o : Ord) (m : Metric) (d : Indom) (vals : List (Str × GoVal))
    (k : Proc) : Proc :=
  .wgNew (1 + d.insts.length) fun wg =>
  .recv .metric fun doff =>
  .fork (writeMetricDesc len r m.desc (some d) doff (.wgDone wg .done)) <|
  writeInstanceValuesLoop len r m d vals wg doff (o.vals m) <|
  .wgWait wg k

/-- The loop of client.go:478-497: the type switch launches a goroutine for each library metric and
does nothing for other types. (A library kind with the wrong body cannot be built; it is given no
goroutine.) -/
def writeMetricsLoop (len : Nat) (r : Reg) (o : Ord) (wg : Nat) : List Metric → Proc → Proc
  | [], k => k
  | m :: ms, k =>
    let rest := writeMetricsLoop len r o wg ms k
    match m.kind, m.body with
    | .singleton, .single v => .fork (writeSingletonMetric len r m v (.wgDone wg .done)) rest
    | .counter, .single v => .fork (writeSingletonMetric len r m v (.wgDone wg .done)) rest
    | .gauge, .single v => .fork (writeSingletonMetric len r m v (.wgDone wg .done)) rest
    | .timer, .single v => .fork (writeSingletonMetric len r m v (.wgDone wg .done)) rest
    | .instance_, .inst d vs => .fork (writeInstanceMetric len r o m d vs (.wgDone wg .done)) rest
    | .counterVector, .inst d vs => .fork (writeInstanceMetric len r o m d vs (.wgDone wg .done)) rest
    | .gaugeVector, .inst d vs => .fork (writeInstanceMetric len r o m d vs (.wgDone wg .done)) rest
    | .histogram, .inst d vs => .fork (writeInstanceMetric len r o m d vs (.wgDone wg .done)) rest
    | _, _ => rest

/-- `writeMetrics` (client.go:460-500). -/
def writeMetrics (len : Nat) (r : Reg) (o : Ord) (k : Proc) : Proc :=
  .wgNew r.MetricCount fun wg =>
  writeMetricsLoop len r o wg o.metrics (.wgWait wg k)

/-- `start` (client.go:248-273), after the offsets are computed and the channels are filled
(`initSt`). -/
def startProg (len : Nat) (r : Reg) (e : Env) (o : Ord) : Proc :=
  .fork (writeHeaderBlock len r e) <|
  .wgNew 2 fun wg =>
  .fork (writeTocBlock len r (.wgDone wg .done)) <|
  .fork (writeInstanceDomains len r o (writeMetrics len r o (.wgDone wg .done))) <|
  .recv .gen fun gen =>
  .recv .g2 fun g2off =>
  .wgWait wg <|
  mustWrite len (le 8 gen) g2off fun _ => .done

/-! ### The same programs as in `StartProg.lean`, when the length is that of the registry -/

section
variable (r : Reg)

theorem writeInstancesLoop_eq (d : Indom) (wg inoff : Nat) (is : List Inst) (ioff : Nat) (k : Proc) :
    writeInstancesLoop r.Length r d wg inoff is ioff k = Speed.writeInstancesLoop r d wg inoff is ioff k := by
  induction is generalizing ioff with
  | nil => rfl
  | cons i is ih => unfold writeInstancesLoop Speed.writeInstancesLoop; rw [ih]; rfl

theorem writeInstanceDomain_eq (o : Ord) (d : Indom) (k : Proc) :
    writeInstanceDomain r.Length r o d k = Speed.writeInstanceDomain r o d k := by
  unfold writeInstanceDomain Speed.writeInstanceDomain
  simp only [writeInstancesLoop_eq]
  rfl

theorem writeInstanceDomainsLoop_eq (o : Ord) (wg : Nat) (ds : List Indom) (k : Proc) :
    writeInstanceDomainsLoop r.Length r o wg ds k = Speed.writeInstanceDomainsLoop r o wg ds k := by
  induction ds with
  | nil => rfl
  | cons d ds ih => unfold writeInstanceDomainsLoop Speed.writeInstanceDomainsLoop; rw [ih, writeInstanceDomain_eq]

theorem writeInstanceValuesLoop_eq (m : Metric) (d : Indom) (vals : List (Str × GoVal)) (wg doff : Nat) (is : List Inst) (k : Proc) :
    writeInstanceValuesLoop r.Length r m d vals wg doff is k = Speed.writeInstanceValuesLoop r m d vals wg doff is k := by
  induction is with
  | nil => rfl
  | cons i is ih => unfold writeInstanceValuesLoop Speed.writeInstanceValuesLoop; rw [ih]; rfl

theorem writeInstanceMetric_eq (o : Ord) (m : Metric) (d : Indom) (vals : List (Str × GoVal)) (k : Proc) :
    writeInstanceMetric r.Length r o m d vals k = Speed.writeInstanceMetric r o m d vals k := by
  unfold writeInstanceMetric Speed.writeInstanceMetric
  simp only [writeInstanceValuesLoop_eq]
  rfl

theorem writeMetricsLoop_eq (o : Ord) (wg : Nat) (ms : List Metric) (k : Proc) :
    writeMetricsLoop r.Length r o wg ms k = Speed.writeMetricsLoop r o wg ms k := by
  induction ms with
  | nil => rfl
  | cons m ms ih =>
    unfold writeMetricsLoop Speed.writeMetricsLoop
    simp only [ih, writeInstanceMetric_eq]
    rfl

theorem startProg_eq (e : Env) (o : Ord) : startProg r.Length r e o = Speed.startProg r e o := by
  unfold startProg Speed.startProg writeInstanceDomains Speed.writeInstanceDomains writeMetrics Speed.writeMetrics
  simp only [writeInstanceDomainsLoop_eq, writeMetricsLoop_eq]
  rfl

end

end Speed.StartLen
