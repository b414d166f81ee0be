import Verif.PropsLive
import Verif.Client
/-
Model of the methods that panic instead of returning an error (`Must…`, `Up`): metrics.go and client.go.
Each is `if err := x(); err != nil { panic(err) }`, which is `MOp.must`.
-/
namespace Speed

/-- `(*PCPSingletonMetric).MustSet` (metrics.go:639-643). -/
def mustSet (v : GoVal) : MOp Unit := (set v).must
/-- `(*PCPCounter).MustInc` (metrics.go:733-737). -/
def mustCounterInc (x : BitVec 64) : MOp Unit := (counterInc x).must
/-- `(*PCPGauge).MustSet` (metrics.go:804-808). -/
def mustGaugeSet (x : BitVec 64) : MOp Unit := (gaugeSet x).must
/-- `(*PCPGauge).MustInc` (metrics.go:824-828). -/
def mustGaugeInc (F : Flops) (x : BitVec 64) : MOp Unit := (gaugeInc F x).must
/-- `(*PCPGauge).MustDec` (metrics.go:836-840). -/
def mustGaugeDec (F : Flops) (x : BitVec 64) : MOp Unit := (gaugeDec F x).must
/-- `(*PCPInstanceMetric).MustSetInstance` (metrics.go:1076-1080). -/
def mustSetInstance (v : GoVal) (n : Str) : MOp Unit := (setInstance v n).must
/-- `(*PCPCounterVector).MustSet` (metrics.go:1175-1179). -/
def mustCvSet (x : BitVec 64) (n : Str) : MOp Unit := (cvSet x n).must
/-- `(*PCPCounterVector).MustInc` (metrics.go:1210-1214). -/
def mustCvInc (x : BitVec 64) (n : Str) : MOp Unit := (cvInc x n).must
/-- `(*PCPCounterVector).Up` (metrics.go:1224). -/
def cvUp (n : Str) : MOp Unit := mustCvInc 1 n
/-- `(*PCPGaugeVector).MustSet` (metrics.go:1297-1301). -/
def mustGvSet (x : BitVec 64) (n : Str) : MOp Unit := (gvSet x n).must
/-- `(*PCPGaugeVector).MustInc` (metrics.go:1324-1328). -/
def mustGvInc (F : Flops) (x : BitVec 64) (n : Str) : MOp Unit := (gvInc F x n).must
/-- `(*PCPGaugeVector).MustDec` (metrics.go:1341): through `MustInc`, not through `Dec`. -/
def mustGvDec (F : Flops) (x : BitVec 64) (n : Str) : MOp Unit := mustGvInc F (fneg x) n

/-- `MustRecordN` (metrics.go:1534-1538); `MustRecord(v)` (metrics.go:1514-1518) is `MustRecordN(v, 1)`. -/
def mustRecord (F : Flops) (L : Hdr) (h : L.H) (v n : BitVec 64) (u : Upd) (st : MSt) : L.H × MSt × Ans Unit :=
  match histRecord F L h v n u st with
  | (h', st', .err) => (h', st', .panic)
  | x => x

/-- The `Must…` method that goes with an operation, if there is one: counters have no `MustSet`, timers none at all. -/
def Call.mustOp : Call → Option (MOp Unit)
  | .set v => some (mustSet v)
  | .setInstance v n => some (mustSetInstance v n)
  | .counterInc x => some (mustCounterInc x)
  | .gaugeSet x => some (mustGaugeSet x)
  | .gaugeInc F x => some (mustGaugeInc F x)
  | .gaugeDec F x => some (mustGaugeDec F x)
  | .cvSet x n => some (mustCvSet x n)
  | .cvInc x n => some (mustCvInc x n)
  | .gvSet x n => some (mustGvSet x n)
  | .gvInc F x n => some (mustGvInc F x n)
  | .gvDec F x n => some (mustGvDec F x n)
  | _ => none

/-- How `MustStart`, `MustStop`, `MustRegister`, `MustRegisterIndom` and `MustRegisterString` (client.go:620-624, 655-659,
665-669, 677-681, 689-695) end when the wrapped call ends with `a`. -/
def mustAns : Ans Unit → Ans Unit
  | .err => .panic
  | a => a

/-- The calls on a client that have a `Must…` method. -/
def COp.hasMust : COp → Bool
  | .start .. => true
  | .stop .. => true
  | .reg _ => true
  | _ => false

/-- One call of a `Must…` method of a client. -/
inductive MustStep (cf : Conf) (tmp : Str) (parse : Str → Option (Str × Str × Option (List Str))) :
    Sys → COp → Sys → Ans Unit → Prop
  | mk {w op w' a} : op.hasMust = true → CStep cf tmp parse w op w' a → MustStep cf tmp parse w op w' (mustAns a)

end Speed
