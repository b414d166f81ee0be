import Verif.RegistryModel
import Verif.DumpSpec
import Verif.Sym
/-
Model of the operations on metric values (metrics.go:543-1577): `set`, `setInstance`, and what
counters, gauges, timers, vectors and histograms build on them.

An operation sees the metric object, the update closures of its values and the mapped buffer. Each
exported operation holds the metric's mutex from start to end (locking itself is in `Mutex.lean`), so
here it is one atomic transition.
-/
namespace Speed

/-- How a call ends: result, error, or panic. -/
inductive Ans (α : Type) where
  | ok (a : α)
  | err
  | panic
  deriving DecidableEq, Repr

/-- The metric object and the mapped buffer. -/
structure MSt where
  m : Metric
  mem : Buf
  deriving DecidableEq, Repr

/-- The `update` fields of the metric's values (metrics.go:560, 952): `none` is nil, `some off` is the
closure of `newupdateClosure(off, writer)`. -/
abbrev Upd := Option Str → Option Nat

/-- An operation on a metric. State changes made before an error or a panic stay. -/
def MOp (α : Type) := Upd → MSt → MSt × Ans α

def MOp.pure {α : Type} (a : α) : MOp α := fun _ st => (st, .ok a)
def MOp.err {α : Type} : MOp α := fun _ st => (st, .err)
def MOp.panic {α : Type} : MOp α := fun _ st => (st, .panic)
/-- Go sequencing `x, err := a(); if err != nil { return err }; b(x)`. -/
def MOp.bind {α β : Type} (a : MOp α) (f : α → MOp β) : MOp β := fun u st =>
  match a u st with
  | (st', .ok x) => f x u st'
  | (st', .err) => (st', .err)
  | (st', .panic) => (st', .panic)

/-- `if err := a(); err != nil { panic(err) }`. -/
def MOp.must {α : Type} (a : MOp α) : MOp α := fun u st =>
  match a u st with
  | (st', .err) => (st', .panic)
  | x => x

/-- The metric with value `v` in slot `s`. -/
def Metric.put (m : Metric) (s : Option Str) (v : GoVal) : Metric :=
  { m with body := match m.body, s with
      | .single _, none => .single v
      | .inst d vs, some n => .inst d (vs.map (fun p => if p.1 = n then (p.1, v) else p))
      | b, _ => b }

/-- Statement sequencing: a panic of the first write ends the function. -/
def WRes.andThen (w : WRes) (k : Buf → WRes) : WRes :=
  match w with
  | .ok b _ => k b
  | e => e

/-- The closure made by `newupdateClosure(offset, writer)` (metrics.go:543-552). -/
def updClosure (off : Nat) (v : GoVal) (mem : Buf) : WRes :=
  match v with
  | .str s => (must (bwWrite mem (zeros StringLength) off)).andThen (fun b => bwWriteVal b (.str s) off)
  | v => bwWriteVal mem v off

/-- The tail of `set` (metrics.go:581-589) and of `setInstance` (metrics.go:1012-1023). -/
def storeVal (s : Option Str) (old val : GoVal) : MOp Unit := fun u st =>
  if goEq val old then (st, .ok ())
  else match u s with
  | none => (⟨st.m.put s val, st.mem⟩, .ok ())
  | some off =>
    match updClosure off val st.mem with
    | .ok b _ => (⟨st.m.put s val, b⟩, .ok ())
    | .err b _ => (⟨st.m, b⟩, .err)
    | .panic b => (⟨st.m, b⟩, .panic)

/-- `(*pcpSingletonMetric).set` (metrics.go:574-592). -/
def set (val : GoVal) : MOp Unit := fun u st =>
  if isCompatible st.m.desc.t val = false then (st, .err)
  else match st.m.cur none with
  | none => (st, .panic)
  | some old => storeVal none old (resolve st.m.desc.t val) u st

/-- The singleton's `m.val` as read by `Val` (metrics.go:623-628). -/
def val : MOp GoVal := fun _ st =>
  match st.m.cur none with
  | none => (st, .panic)
  | some v => (st, .ok v)

/-- `HasInstance` on the metric's domain (instance_domain.go:75-78). -/
def Metric.hasInst (m : Metric) (n : Str) : Bool :=
  match m.indom with
  | none => false
  | some d => d.hasInstance n

/-- `valInstance` (metrics.go:992-998): a missing map entry would be a nil dereference. -/
def valInstance (n : Str) : MOp GoVal := fun _ st =>
  if st.m.hasInst n = false then (st, .err)
  else match st.m.cur (some n) with
  | none => (st, .panic)
  | some v => (st, .ok v)

/-- `setInstance` (metrics.go:1001-1024). -/
def setInstance (val : GoVal) (n : Str) : MOp Unit := fun u st =>
  if isCompatible st.m.desc.t val = false then (st, .err)
  else if st.m.hasInst n = false then (st, .err)
  else match st.m.cur (some n) with
  | none => (st, .panic)
  | some old => storeVal (some n) old (resolve st.m.desc.t val) u st

/-! ### Counter (metrics.go:664-740) -/

/-- `x.(int64)`: panics on another dynamic type. -/
def asInt64 : GoVal → MOp (BitVec 64)
  | .int64 v => .pure v
  | _ => .panic

/-- `x.(float64)`. -/
def asFloat64 : GoVal → MOp (BitVec 64)
  | .float64 v => .pure v
  | _ => .panic

/-- `(*PCPCounter).Val` (metrics.go:693-698). -/
def counterVal : MOp (BitVec 64) := val.bind asInt64

/-- `(*PCPCounter).Set` (metrics.go:701-712). -/
def counterSet (x : BitVec 64) : MOp Unit :=
  counterVal.bind fun v => if x.toInt < v.toInt then .err else set (.int64 x)

/-- `(*PCPCounter).Inc` (metrics.go:715-730): Go addition wraps around. -/
def counterInc (x : BitVec 64) : MOp Unit :=
  if x.toInt < 0 then .err
  else if x = 0 then .pure ()
  else counterVal.bind fun v => set (.int64 (v + x))

/-- `(*PCPCounter).Up` (metrics.go:740): `MustInc(1)`. -/
def counterUp : MOp Unit := (counterInc 1).must

/-! ### Gauge (metrics.go:763-840)

Float64 arithmetic is a parameter: `add` is Go's `+`, `neg` its unary `-`. -/

/-- float64 operations of the hardware. -/
structure Flops where
  add : BitVec 64 → BitVec 64 → BitVec 64
  mul : BitVec 64 → BitVec 64 → BitVec 64
  /-- conversion of an int64 -/
  ofInt : BitVec 64 → BitVec 64
  /-- conversion to int64 -/
  toInt : BitVec 64 → BitVec 64
  /-- `Seconds`, `Minutes`, `Hours` of a `time.Duration` (int64 nanoseconds), from the standard library -/
  seconds : BitVec 64 → BitVec 64
  minutes : BitVec 64 → BitVec 64
  hours : BitVec 64 → BitVec 64

/-- metrics.go:307-312 -/ abbrev NanosecondUnit : BitVec 32 := 0x1000000
/-- metrics.go:307-312 -/ abbrev MicrosecondUnit : BitVec 32 := 0x1001000
/-- metrics.go:307-312 -/ abbrev MillisecondUnit : BitVec 32 := 0x1002000
/-- metrics.go:307-312 -/ abbrev SecondUnit : BitVec 32 := 0x1003000
/-- metrics.go:307-312 -/ abbrev MinuteUnit : BitVec 32 := 0x1004000
/-- metrics.go:307-312 -/ abbrev HourUnit : BitVec 32 := 0x1005000

/-- The `switch` in `Stop` (metrics.go:921-935): the duration `d` in the timer's unit. The constants are the
float64 nearest to 1e-3 and 1e-6. `inc` stays 0 for a `TimeUnit` that is none of the six. -/
def Flops.dur (F : Flops) (unit : BitVec 32) (d : BitVec 64) : BitVec 64 :=
  if unit = NanosecondUnit then F.ofInt d
  else if unit = MicrosecondUnit then F.mul (F.ofInt d) 0x3F50624DD2F1A9FC
  else if unit = MillisecondUnit then F.mul (F.ofInt d) 0x3EB0C6F7A0B5ED8D
  else if unit = SecondUnit then F.seconds d
  else if unit = MinuteUnit then F.minutes d
  else if unit = HourUnit then F.hours d
  else 0

/-- Unary minus: flips the sign bit. -/
def fneg (x : BitVec 64) : BitVec 64 := x ^^^ (1 : BitVec 64) <<< 63

/-- `(*PCPGauge).Val` (metrics.go:790-794). -/
def gaugeVal : MOp (BitVec 64) := val.bind asFloat64

/-- `(*PCPGauge).Set` (metrics.go:797-801). -/
def gaugeSet (x : BitVec 64) : MOp Unit := set (.float64 x)

/-- `(*PCPGauge).Inc` (metrics.go:811-821). -/
def gaugeInc (F : Flops) (x : BitVec 64) : MOp Unit :=
  if feq64 x 0 then .pure () else gaugeVal.bind fun v => set (.float64 (F.add v x))

/-- `(*PCPGauge).Dec` (metrics.go:831-833). -/
def gaugeDec (F : Flops) (x : BitVec 64) : MOp Unit := gaugeInc F (fneg x)

/-! ### Counter vector (metrics.go:1142-1227) -/

/-- `(*PCPCounterVector).Val` (metrics.go:1145-1155). -/
def cvVal (n : Str) : MOp (BitVec 64) := (valInstance n).bind asInt64

/-- `(*PCPCounterVector).Set` (metrics.go:1158-1172). -/
def cvSet (x : BitVec 64) (n : Str) : MOp Unit :=
  (valInstance n).bind fun v => (asInt64 v).bind fun v =>
    if x.toInt < v.toInt then .err else setInstance (.int64 x) n

/-- `(*PCPCounterVector).Inc` (metrics.go:1189-1207). -/
def cvInc (x : BitVec 64) (n : Str) : MOp Unit :=
  if x.toInt < 0 then .err
  else if x = 0 then .pure ()
  else (valInstance n).bind fun v => (asInt64 v).bind fun v => setInstance (.int64 (v + x)) n

/-- `for ins := range c.indom.instances { c.MustX(ins) }`, for an iteration order `l`. -/
def forEach (f : Str → MOp Unit) : List Str → MOp Unit
  | [] => .pure ()
  | n :: l => (f n).bind fun _ => forEach f l

/-- `SetAll` (metrics.go:1182-1186). -/
def cvSetAll (x : BitVec 64) (order : List Str) : MOp Unit := forEach (fun n => (cvSet x n).must) order

/-- `IncAll` (metrics.go:1217-1221). -/
def cvIncAll (x : BitVec 64) (order : List Str) : MOp Unit := forEach (fun n => (cvInc x n).must) order

/-- `UpAll` (metrics.go:1227). -/
def cvUpAll (order : List Str) : MOp Unit := cvIncAll 1 order

/-! ### Gauge vector (metrics.go:1275-1344) -/

/-- `(*PCPGaugeVector).Val` (metrics.go:1277-1287). -/
def gvVal (n : Str) : MOp (BitVec 64) := (valInstance n).bind asFloat64

/-- `(*PCPGaugeVector).Set` (metrics.go:1290-1294). -/
def gvSet (x : BitVec 64) (n : Str) : MOp Unit := setInstance (.float64 x) n

/-- `(*PCPGaugeVector).Inc` (metrics.go:1311-1321). -/
def gvInc (F : Flops) (x : BitVec 64) (n : Str) : MOp Unit :=
  (valInstance n).bind fun v => (asFloat64 v).bind fun v => setInstance (.float64 (F.add v x)) n

/-- `Dec` (metrics.go:1338). -/
def gvDec (F : Flops) (x : BitVec 64) (n : Str) : MOp Unit := gvInc F (fneg x) n

/-- `SetAll` (metrics.go:1304-1308). -/
def gvSetAll (x : BitVec 64) (order : List Str) : MOp Unit := forEach (fun n => (gvSet x n).must) order

/-- `IncAll` (metrics.go:1331-1335). -/
def gvIncAll (F : Flops) (x : BitVec 64) (order : List Str) : MOp Unit :=
  forEach (fun n => (gvInc F x n).must) order

/-- `DecAll` (metrics.go:1344). -/
def gvDecAll (F : Flops) (x : BitVec 64) (order : List Str) : MOp Unit := gvIncAll F (fneg x) order

/-! ### Timer (metrics.go:859-947) -/

/-- `PCPTimer` besides the embedded metric: `started`, `since` (metrics.go:862-863). -/
structure TimerSt where
  started : Bool
  since : BitVec 64
  deriving DecidableEq, Repr

/-- `Reset` (metrics.go:885-894). -/
def timerReset (ts : TimerSt) : MOp TimerSt :=
  if ts.started then .err else (set (.float64 0)).bind fun _ => .pure ts

/-- `Start` (metrics.go:897-908) at clock reading `now`. -/
def timerStart (now : BitVec 64) (ts : TimerSt) : MOp TimerSt :=
  if ts.started then .err else .pure ⟨true, now⟩

/-- `Stop` (metrics.go:911-947) at clock reading `now`: gives the new timer state and the total. -/
def timerStop (F : Flops) (now : BitVec 64) (ts : TimerSt) : MOp (TimerSt × BitVec 64) := fun u st =>
  (if ts.started = false then .err
   else (val.bind asFloat64).bind fun v =>
     let inc := F.dur st.m.desc.unit (now - ts.since)
     (set (.float64 (F.add v inc))).bind fun _ => .pure (⟨false, ts.since⟩, F.add v inc)) u st

/-! ### Histogram (metrics.go:1372-1577) -/

/-- The HDR histogram library (`github.com/codahale/hdrhistogram`), not modelled further: any state
type with these operations. -/
structure Hdr where
  H : Type
  new : (low high : BitVec 64) → (sig : BitVec 64) → H
  /-- `RecordValues(v, n)`: error if the value is out of range -/
  record : H → BitVec 64 → BitVec 64 → Option H
  min : H → BitVec 64
  max : H → BitVec 64
  mean : H → BitVec 64
  stddev : H → BitVec 64
  /-- `LowestTrackableValue`, `HighestTrackableValue` -/
  lowest : H → BitVec 64
  highest : H → BitVec 64

/-- "min" -/ def sMin : Str := [0x6D, 0x69, 0x6E]
/-- "max" -/ def sMax : Str := [0x6D, 0x61, 0x78]
/-- "mean" -/ def sMean : Str := [0x6D, 0x65, 0x61, 0x6E]
/-- "variance" -/ def sVariance : Str := [0x76, 0x61, 0x72, 0x69, 0x61, 0x6E, 0x63, 0x65]
/-- "standard_deviation" -/
def sStddev : Str := [0x73, 0x74, 0x61, 0x6E, 0x64, 0x61, 0x72, 0x64, 0x5F, 0x64, 0x65, 0x76, 0x69, 0x61, 0x74, 0x69, 0x6F, 0x6E]

/-- `updateinstance` inside `update` (metrics.go:1468-1473). -/
def histUpd (n : Str) (x : BitVec 64) : MOp Unit := fun u st =>
  match st.m.cur (some n) with
  | none => (st, .panic)
  | some v => if goEq v (.float64 x) then (st, .ok ()) else setInstance (.float64 x) n u st

/-- `(*PCPHistogram).update` (metrics.go:1467-1498). -/
def histUpdate (F : Flops) (L : Hdr) (h : L.H) : MOp Unit :=
  (histUpd sMin (F.ofInt (L.min h))).bind fun _ =>
  (histUpd sMax (F.ofInt (L.max h))).bind fun _ =>
  (histUpd sMean (L.mean h)).bind fun _ =>
  (histUpd sStddev (L.stddev h)).bind fun _ =>
  histUpd sVariance (F.mul (L.stddev h) (L.stddev h))

/-- `RecordN` (metrics.go:1521-1531); `Record(v)` (metrics.go:1501-1511) is `RecordN(v, 1)`, as in the
library. The library's state changes even if `update` fails. -/
def histRecord (F : Flops) (L : Hdr) (h : L.H) (v n : BitVec 64) (u : Upd) (st : MSt) : L.H × MSt × Ans Unit :=
  match L.record h v n with
  | none => (h, st, .err)
  | some h' => (h', histUpdate F L h' u st)

/-- `h.vals[n].val.(float64)`: the field as the accessors read it. -/
def histField (n : Str) : MOp (BitVec 64) := fun u st =>
  match st.m.cur (some n) with
  | none => (st, .panic)
  | some v => asFloat64 v u st

/-- `Max` (metrics.go:1454-1458). -/
def histMax (F : Flops) : MOp (BitVec 64) := (histField sMax).bind fun x => .pure (F.toInt x)
/-- `Min` (metrics.go:1461-1465). -/
def histMin (F : Flops) : MOp (BitVec 64) := (histField sMin).bind fun x => .pure (F.toInt x)
/-- `Mean` (metrics.go:1541-1545). -/
def histMean : MOp (BitVec 64) := histField sMean
/-- `StandardDeviation` (metrics.go:1548-1552). -/
def histStddev : MOp (BitVec 64) := histField sStddev
/-- `Variance` (metrics.go:1555-1559). -/
def histVariance : MOp (BitVec 64) := histField sVariance

/-- `normalize` (metrics.go:1384-1410). -/
def normalize (low high sig : Int) : Int × Int × Int :=
  let low := if low < 0 then 0 else low
  let low := if low > 3600000000 then 3600000000 else low
  let high := if high < 0 then 0 else high
  let high := if high > 3600000000 then 3600000000 else high
  let sig := if sig < 1 then 1 else sig
  let sig := if sig > 5 then 5 else sig
  (low, high, sig)

/-- `histogramInstances` (speed.go:22). -/
def histogramInstances : List Str := [sMin, sMax, sMean, sVariance, sStddev]

/-- "histogram" -/
def sHistogram : Str := [0x68, 0x69, 0x73, 0x74, 0x6F, 0x67, 0x72, 0x61, 0x6D]

/-- `histogramIndom` (speed.go:23, 33): one domain object for all histograms of the process, at address
`duid`. -/
def histogramIndom (duid : Nat) : Option Indom := newIndom duid sHistogram histogramInstances []

/-- `NewPCPHistogram` (metrics.go:1420-1445); bounds are `int64`, given as integers. -/
def newPCPHistogram (L : Hdr) (uid duid : Nat) (name : Str) (low high sig : Int) (unit : BitVec 32)
    (desc : List Str) : Option (Metric × L.H) :=
  if low > high then none
  else
    let (low, high, sig) := normalize low high sig
    let h := L.new (.ofInt 64 low) (.ofInt 64 high) (.ofInt 64 sig)
    (newDesc name DoubleType InstantSemantics unit desc).bind fun d =>
    (histogramIndom duid).bind fun hd =>
    (newInstMetric uid .histogram (histogramInstances.map (fun n => (n, .float64 0))) hd d).map fun m => (m, h)

/-- `High` (metrics.go:1448): it asks the library for the lowest value. -/
def histHigh (L : Hdr) (h : L.H) : BitVec 64 := L.lowest h
/-- `Low` (metrics.go:1451). -/
def histLow (L : Hdr) (h : L.H) : BitVec 64 := L.highest h

end Speed
