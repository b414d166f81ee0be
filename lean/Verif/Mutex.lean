import Verif.ValueModel
/-
Concurrent calls on metrics: every exported operation takes the mutex of its metric, reads and writes the
fields of the metric and the mapped buffer, and releases the mutex. Here each such access is a step of its
own, and the steps of the goroutines interleave.

* `MProc`: the body of an operation, one access per step;
* `LStep`: goroutines that call operations (`LSt`), with one reader/writer lock per metric
  (metrics.go:602, 669, 766, 861, 1039, 1122, 1255, 1374);
* `AStep`: the same programs in a system where every call is one step (the specification).

Simplifications: memory is sequentially consistent (the accesses are free of data races, which is proved);
a waiting `Lock` does not keep new readers out (Go does; this only removes interleavings); after an uncaught
panic in one goroutine the others may go on (Go ends the process; this only removes states).
-/
namespace Speed

/-- A metric object: the metric, `PCPTimer.started` and `.since` (metrics.go:862-863), and the histogram
`PCPHistogram.h` (metrics.go:1375). -/
structure Obj (H : Type) where
  m : Metric
  ts : TimerSt
  h : H

/-- The body of an operation between `Lock` and `Unlock`. -/
inductive MProc (H α : Type) where
  /-- return with a result or an error, or panic (the deferred `Unlock` runs in all cases) -/
  | ret (a : Ans α)
  /-- read of `m.val` or `m.vals[n].val`; `none`: there is no such value -/
  | load (s : Option Str) (k : Option GoVal → MProc H α)
  /-- assignment to `m.val` or `m.vals[n].val` -/
  | store (s : Option Str) (v : GoVal) (k : MProc H α)
  /-- read of the `update` field of a value -/
  | upd (s : Option Str) (k : Option Nat → MProc H α)
  /-- `buffer[a] = b` -/
  | byte (a : Nat) (b : Byte) (k : MProc H α)
  /-- read of `started` and `since` -/
  | getTs (k : TimerSt → MProc H α)
  /-- assignment to `started` and `since` -/
  | setTs (t : TimerSt) (k : MProc H α)
  /-- a call that reads the HDR histogram -/
  | getH (k : H → MProc H α)
  /-- a call that changes the HDR histogram -/
  | setH (h : H) (k : MProc H α)

section
variable {H α β : Type}

/-- One access. `none`: the body has ended. -/
def MProc.step (u : Upd) (o : Obj H) (mem : Buf) : MProc H α → Option (MProc H α × Obj H × Buf)
  | .ret _ => none
  | .load s k => some (k (o.m.cur s), o, mem)
  | .store s v k => some (k, { o with m := o.m.put s v }, mem)
  | .upd s k => some (k (u s), o, mem)
  | .byte a b k => some (k, o, mem.set a b)
  | .getTs k => some (k o.ts, o, mem)
  | .setTs t k => some (k, { o with ts := t }, mem)
  | .getH k => some (k o.h, o, mem)
  | .setH h k => some (k, { o with h := h }, mem)

/-- The whole body without interruption. -/
def MProc.run (u : Upd) : MProc H α → Obj H → Buf → Obj H × Buf × Ans α
  | .ret a, o, mem => (o, mem, a)
  | .load s k, o, mem => (k (o.m.cur s)).run u o mem
  | .store s v k, o, mem => k.run u { o with m := o.m.put s v } mem
  | .upd s k, o, mem => (k (u s)).run u o mem
  | .byte a b k, o, mem => k.run u o (mem.set a b)
  | .getTs k, o, mem => (k o.ts).run u o mem
  | .setTs t k, o, mem => k.run u { o with ts := t } mem
  | .getH k, o, mem => (k o.h).run u o mem
  | .setH h k, o, mem => k.run u { o with h := h } mem

/-- Sequencing, as `MOp.bind`. -/
def MProc.bind : MProc H α → (α → MProc H β) → MProc H β
  | .ret (.ok a), f => f a
  | .ret .err, _ => .ret .err
  | .ret .panic, _ => .ret .panic
  | .load s k, f => .load s fun v => (k v).bind f
  | .store s v k, f => .store s v (k.bind f)
  | .upd s k, f => .upd s fun v => (k v).bind f
  | .byte a b k, f => .byte a b (k.bind f)
  | .getTs k, f => .getTs fun t => (k t).bind f
  | .setTs t k, f => .setTs t (k.bind f)
  | .getH k, f => .getH fun h => (k h).bind f
  | .setH h k, f => .setH h (k.bind f)

/-- Every byte the body writes satisfies `A`. -/
def MProc.Within (u : Upd) (A : Nat → Prop) : MProc H α → Prop
  | .ret _ => True
  | .load _ k => ∀ v, (k v).Within u A
  | .store _ _ k => k.Within u A
  | .upd s k => (k (u s)).Within u A
  | .byte a _ k => A a ∧ k.Within u A
  | .getTs k => ∀ t, (k t).Within u A
  | .setTs _ k => k.Within u A
  | .getH k => ∀ h, (k h).Within u A
  | .setH _ k => k.Within u A

/-- The body writes nothing. -/
def MProc.ReadOnly : MProc H α → Prop
  | .ret _ => True
  | .load _ k => ∀ v, (k v).ReadOnly
  | .store _ _ _ => False
  | .upd _ k => ∀ v, (k v).ReadOnly
  | .byte _ _ _ => False
  | .getTs k => ∀ t, (k t).ReadOnly
  | .setTs _ _ => False
  | .getH k => ∀ h, (k h).ReadOnly
  | .setH _ _ => False

end

/-! ### Goroutines that call operations -/

/-- A program: what a goroutine does between its calls does not matter here, so it is the tree of its
calls, which may depend on earlier results. -/
inductive Cli (R Me : Type) where
  | done
  /-- an uncaught panic -/
  | panic
  /-- call operation `me` of metric `m` -/
  | call (m : Nat) (me : Me) (k : Ans R → Cli R Me)

/-- All calls the program can make satisfy `P`. -/
def Cli.All {R Me : Type} (P : Nat → Me → Prop) : Cli R Me → Prop
  | .done => True
  | .panic => True
  | .call m me k => P m me ∧ ∀ a, (k a).All P

/-- Operations: their bodies for each metric, and whether they take the lock with `Lock` (`true`) or
`RLock`. -/
structure Meths (H R Me : Type) where
  body : Nat → Me → MProc H R
  wr : Me → Bool

/-- A goroutine: between calls, or inside a call of metric `m` with the lock held. -/
inductive Thr (H R Me : Type) where
  | out (c : Cli R Me)
  | inn (m : Nat) (w : Bool) (p : MProc H R) (k : Ans R → Cli R Me)

/-- A `sync.RWMutex`. (A `sync.Mutex` is one that is never locked for reading.) -/
structure RW where
  writer : Bool
  readers : Nat
  deriving DecidableEq

/-- What happens, for the record: goroutine `i` starts operation `me` of metric `m`; it returns `a`. -/
inductive Ev (R Me : Type) where
  | call (i m : Nat) (me : Me)
  | ret (i : Nat) (a : Ans R)

/-- The mapped buffer, the metrics, their locks, the goroutines, and the history so far. -/
structure LSt (H R Me : Type) where
  mem : Buf
  obj : Nat → Obj H
  lock : Nat → RW
  thr : List (Thr H R Me)
  log : List (Ev R Me)

section
variable {H R Me : Type}

/-- One step of one goroutine. -/
inductive LStep (M : Meths H R Me) (u : Nat → Upd) : LSt H R Me → LSt H R Me → Prop
  /-- `m.mutex.Lock()` -/
  | lock {s i m me k} : s.thr[i]? = some (.out (.call m me k)) → M.wr me = true → s.lock m = ⟨false, 0⟩ →
      LStep M u s { s with lock := fset s.lock m ⟨true, 0⟩, thr := s.thr.set i (.inn m true (M.body m me) k), log := s.log ++ [.call i m me] }
  /-- `m.mutex.RLock()` -/
  | rlock {s i m me k n} : s.thr[i]? = some (.out (.call m me k)) → M.wr me = false → s.lock m = ⟨false, n⟩ →
      LStep M u s { s with lock := fset s.lock m ⟨false, n + 1⟩, thr := s.thr.set i (.inn m false (M.body m me) k), log := s.log ++ [.call i m me] }
  /-- one access -/
  | access {s i m w p k p' o' mem'} : s.thr[i]? = some (.inn m w p k) →
      p.step (u m) (s.obj m) s.mem = some (p', o', mem') →
      LStep M u s { s with mem := mem', obj := fset s.obj m o', thr := s.thr.set i (.inn m w p' k) }
  /-- `m.mutex.Unlock()` and return -/
  | unlock {s i m a k} : s.thr[i]? = some (.inn m true (.ret a) k) →
      LStep M u s { s with lock := fset s.lock m ⟨false, 0⟩, thr := s.thr.set i (.out (k a)), log := s.log ++ [.ret i a] }
  /-- `m.mutex.RUnlock()` and return -/
  | runlock {s i m a k n} : s.thr[i]? = some (.inn m false (.ret a) k) → s.lock m = ⟨false, n + 1⟩ →
      LStep M u s { s with lock := fset s.lock m ⟨false, n⟩, thr := s.thr.set i (.out (k a)), log := s.log ++ [.ret i a] }

/-- Any number of steps. -/
inductive LReach (M : Meths H R Me) (u : Nat → Upd) (s : LSt H R Me) : LSt H R Me → Prop
  | refl : LReach M u s s
  | tail {t t'} : LReach M u s t → LStep M u t t' → LReach M u s t'

/-- The programs `cs` before their first step. -/
def LSt.init (obj : Nat → Obj H) (mem : Buf) (cs : List (Cli R Me)) : LSt H R Me :=
  ⟨mem, obj, fun _ => ⟨false, 0⟩, cs.map .out, []⟩

/-! ### The specification: calls are atomic -/

/-- A goroutine: between calls, or about to return from a call that has taken effect. -/
inductive AThr (R Me : Type) where
  | out (c : Cli R Me)
  | pend (r : Ans R) (k : Ans R → Cli R Me)

structure ASt (H R Me : Type) where
  mem : Buf
  obj : Nat → Obj H
  thr : List (AThr R Me)
  log : List (Ev R Me)

inductive AStep (M : Meths H R Me) (u : Nat → Upd) : ASt H R Me → ASt H R Me → Prop
  /-- a call takes effect -/
  | call {s i m me k} : s.thr[i]? = some (.out (.call m me k)) →
      AStep M u s {
        mem := ((M.body m me).run (u m) (s.obj m) s.mem).2.1
        obj := fset s.obj m ((M.body m me).run (u m) (s.obj m) s.mem).1
        thr := s.thr.set i (.pend ((M.body m me).run (u m) (s.obj m) s.mem).2.2 k)
        log := s.log ++ [.call i m me] }
  /-- and returns -/
  | ret {s i r k} : s.thr[i]? = some (.pend r k) → 
      AStep M u s { s with thr := s.thr.set i (.out (k r)), log := s.log ++ [.ret i r] }

inductive AReach (M : Meths H R Me) (u : Nat → Upd) (s : ASt H R Me) : ASt H R Me → Prop
  | refl : AReach M u s s
  | tail {t t'} : AReach M u s t → AStep M u t t' → AReach M u s t'

def ASt.init (obj : Nat → Obj H) (mem : Buf) (cs : List (Cli R Me)) : ASt H R Me := ⟨mem, obj, cs.map .out, []⟩

end

/-! ### The bodies -/

section
variable {H : Type}

/-- The copy loop (bytewriter/bytewriter.go:41-43). -/
def bytesP (off : Nat) : List Byte → MProc H Unit
  | [] => .ret (.ok ())
  | b :: bs => .byte off b (bytesP (off + 1) bs)

/-- `Write` (bytewriter/bytewriter.go:34-46) on a buffer of `len` bytes (no overflow of `int`). -/
def writeP (len off : Nat) (data : List Byte) : MProc H Unit :=
  if off + data.length ≤ len then bytesP off data else .ret .err

/-- The update closure (metrics.go:543-552). -/
def updP (len off : Nat) (v : GoVal) : MProc H Unit :=
  match v with
  | .str s => if off + StringLength ≤ len then (bytesP off (zeros StringLength)).bind fun _ => writeP len off s else .ret .panic
  | v => match binaryWrite v with
    | none => .ret .err
    | some bytes => writeP len off bytes

/-- The tail of `set` and `setInstance` (metrics.go:581-589, 1012-1023). -/
def storeValP (len : Nat) (s : Option Str) (old val : GoVal) : MProc H Unit :=
  if goEq val old then .ret (.ok ())
  else .upd s fun
    | none => .store s val (.ret (.ok ()))
    | some off => (updP len off val).bind fun _ => .store s val (.ret (.ok ()))

/-- What the bodies use of the metric that never changes: its type, its instances and unit; and the length of
the buffer. -/
structure Fixed where
  t : MetricType
  unit : BitVec 32
  has : Str → Bool
  len : Nat

/-- `set` (metrics.go:574-592). -/
def setP (f : Fixed) (v : GoVal) : MProc H Unit :=
  if isCompatible f.t v = false then .ret .err
  else .load none fun
    | none => .ret .panic
    | some old => storeValP f.len none old (resolve f.t v)

/-- `m.val` (metrics.go:623-628). -/
def valP : MProc H GoVal :=
  .load none fun
    | none => .ret .panic
    | some v => .ret (.ok v)

/-- `valInstance` (metrics.go:992-998). -/
def valInstanceP (f : Fixed) (n : Str) : MProc H GoVal :=
  if f.has n = false then .ret .err
  else .load (some n) fun
    | none => .ret .panic
    | some v => .ret (.ok v)

/-- `setInstance` (metrics.go:1001-1024). -/
def setInstanceP (f : Fixed) (v : GoVal) (n : Str) : MProc H Unit :=
  if isCompatible f.t v = false then .ret .err
  else if f.has n = false then .ret .err
  else .load (some n) fun
    | none => .ret .panic
    | some old => storeValP f.len (some n) old (resolve f.t v)

/-- `x.(int64)` -/
def asInt64P : GoVal → MProc H (BitVec 64)
  | .int64 v => .ret (.ok v)
  | _ => .ret .panic

/-- `x.(float64)` -/
def asFloat64P : GoVal → MProc H (BitVec 64)
  | .float64 v => .ret (.ok v)
  | _ => .ret .panic

/-- metrics.go:693-698 -/
def counterValP : MProc H (BitVec 64) := valP.bind asInt64P
/-- metrics.go:701-712 -/
def counterSetP (f : Fixed) (x : BitVec 64) : MProc H Unit :=
  counterValP.bind fun v => if x.toInt < v.toInt then .ret .err else setP f (.int64 x)
/-- metrics.go:715-730 -/
def counterIncP (f : Fixed) (x : BitVec 64) : MProc H Unit :=
  if x.toInt < 0 then .ret .err
  else if x = 0 then .ret (.ok ())
  else counterValP.bind fun v => setP f (.int64 (v + x))
/-- metrics.go:790-794 -/
def gaugeValP : MProc H (BitVec 64) := valP.bind asFloat64P
/-- metrics.go:811-821 -/
def gaugeIncP (F : Flops) (f : Fixed) (x : BitVec 64) : MProc H Unit :=
  if feq64 x 0 then .ret (.ok ()) else gaugeValP.bind fun v => setP f (.float64 (F.add v x))
/-- metrics.go:885-894 -/
def timerResetP (f : Fixed) : MProc H Unit :=
  .getTs fun ts => if ts.started then .ret .err else setP f (.float64 0)
/-- metrics.go:897-908 -/
def timerStartP (now : BitVec 64) : MProc H Unit :=
  .getTs fun ts => if ts.started then .ret .err else .setTs ⟨true, now⟩ (.ret (.ok ()))
/-- metrics.go:911-947 -/
def timerStopP (F : Flops) (f : Fixed) (now : BitVec 64) : MProc H (BitVec 64) :=
  .getTs fun ts => if ts.started = false then .ret .err
    else ((valP.bind asFloat64P).bind fun v =>
        (setP f (.float64 (F.add v (F.dur f.unit (now - ts.since))))).bind fun _ =>
          .ret (.ok (F.add v (F.dur f.unit (now - ts.since))))).bind fun x =>
      .setTs ⟨false, ts.since⟩ (.ret (.ok x))
/-- metrics.go:1145-1155 -/
def cvValP (f : Fixed) (n : Str) : MProc H (BitVec 64) := (valInstanceP f n).bind asInt64P
/-- metrics.go:1158-1172 -/
def cvSetP (f : Fixed) (x : BitVec 64) (n : Str) : MProc H Unit :=
  (valInstanceP f n).bind fun v => (asInt64P v).bind fun v =>
    if x.toInt < v.toInt then .ret .err else setInstanceP f (.int64 x) n
/-- metrics.go:1189-1207 -/
def cvIncP (f : Fixed) (x : BitVec 64) (n : Str) : MProc H Unit :=
  if x.toInt < 0 then .ret .err
  else if x = 0 then .ret (.ok ())
  else (valInstanceP f n).bind fun v => (asInt64P v).bind fun v => setInstanceP f (.int64 (v + x)) n
/-- metrics.go:1277-1287 -/
def gvValP (f : Fixed) (n : Str) : MProc H (BitVec 64) := (valInstanceP f n).bind asFloat64P
/-- metrics.go:1311-1321 -/
def gvIncP (F : Flops) (f : Fixed) (x : BitVec 64) (n : Str) : MProc H Unit :=
  (valInstanceP f n).bind fun v => (asFloat64P v).bind fun v => setInstanceP f (.float64 (F.add v x)) n
/-- metrics.go:1468-1473 -/
def histUpdP (f : Fixed) (n : Str) (x : BitVec 64) : MProc H Unit :=
  .load (some n) fun
    | none => .ret .panic
    | some v => if goEq v (.float64 x) then .ret (.ok ()) else setInstanceP f (.float64 x) n
/-- metrics.go:1467-1498 -/
def histUpdateP (F : Flops) (L : Hdr) (f : Fixed) (h : L.H) : MProc L.H Unit :=
  (histUpdP f sMin (F.ofInt (L.min h))).bind fun _ =>
  (histUpdP f sMax (F.ofInt (L.max h))).bind fun _ =>
  (histUpdP f sMean (L.mean h)).bind fun _ =>
  (histUpdP f sStddev (L.stddev h)).bind fun _ =>
  histUpdP f sVariance (F.mul (L.stddev h) (L.stddev h))
/-- metrics.go:1501-1511, 1521-1531. (`update` reads the histogram several times; it cannot change in
between, since only `Record` and `RecordN`, which hold the lock, change it.) -/
def histRecordP (F : Flops) (L : Hdr) (f : Fixed) (v n : BitVec 64) : MProc L.H Unit :=
  .getH fun h => match L.record h v n with
    | none => .ret .err
    | some h' => .setH h' (.getH fun h => histUpdateP F L f h)
/-- `h.vals[n].val.(float64)` (metrics.go:1454-1465, 1541-1559) -/
def histFieldP (n : Str) : MProc H (BitVec 64) :=
  .load (some n) fun
    | none => .ret .panic
    | some v => asFloat64P v

end

/-! ### The operations -/

/-- The exported operations. Clock readings are inputs. `MustX` and `Up` call `X` and panic on an error; the
`All` operations call `MustX` for each instance, each with its own lock: they are programs (`Cli`). -/
inductive Meth where
  | set (v : GoVal)
  | val
  | setInstance (v : GoVal) (n : Str)
  | valInstance (n : Str)
  | counterSet (x : BitVec 64)
  | counterInc (x : BitVec 64)
  | counterVal
  | gaugeSet (x : BitVec 64)
  | gaugeInc (x : BitVec 64)
  | gaugeDec (x : BitVec 64)
  | gaugeVal
  | timerReset
  | timerStart (now : BitVec 64)
  | timerStop (now : BitVec 64)
  | cvSet (x : BitVec 64) (n : Str)
  | cvInc (x : BitVec 64) (n : Str)
  | cvVal (n : Str)
  | gvSet (x : BitVec 64) (n : Str)
  | gvInc (x : BitVec 64) (n : Str)
  | gvDec (x : BitVec 64) (n : Str)
  | gvVal (n : Str)
  | histRecord (v n : BitVec 64)
  | histField (n : Str)

/-- What operations return besides an error. -/
inductive Ret where
  | unit
  | val (v : GoVal)
  | num (x : BitVec 64)
  deriving DecidableEq, Repr

def MProc.unit {H : Type} (p : MProc H Unit) : MProc H Ret := p.bind fun _ => .ret (.ok .unit)
def MProc.val {H : Type} (p : MProc H GoVal) : MProc H Ret := p.bind fun v => .ret (.ok (.val v))
def MProc.num {H : Type} (p : MProc H (BitVec 64)) : MProc H Ret := p.bind fun x => .ret (.ok (.num x))

def Meth.body (F : Flops) (L : Hdr) (f : Fixed) : Meth → MProc L.H Ret
  | .set v => (setP f v).unit
  | .val => valP.val
  | .setInstance v n => (setInstanceP f v n).unit
  | .valInstance n => (valInstanceP f n).val
  | .counterSet x => (counterSetP f x).unit
  | .counterInc x => (counterIncP f x).unit
  | .counterVal => counterValP.num
  | .gaugeSet x => (setP f (.float64 x)).unit
  | .gaugeInc x => (gaugeIncP F f x).unit
  | .gaugeDec x => (gaugeIncP F f (fneg x)).unit
  | .gaugeVal => gaugeValP.num
  | .timerReset => (timerResetP f).unit
  | .timerStart now => (timerStartP now).unit
  | .timerStop now => (timerStopP F f now).num
  | .cvSet x n => (cvSetP f x n).unit
  | .cvInc x n => (cvIncP f x n).unit
  | .cvVal n => (cvValP f n).num
  | .gvSet x n => (setInstanceP f (.float64 x) n).unit
  | .gvInc x n => (gvIncP F f x n).unit
  | .gvDec x n => (gvIncP F f (fneg x) n).unit
  | .gvVal n => (gvValP f n).num
  | .histRecord v n => (histRecordP F L f v n).unit
  | .histField n => (histFieldP n).num

/-- `Lock` or `RLock` (the lines cited at `Call.op` and above). -/
def Meth.wr : Meth → Bool
  | .val | .valInstance _ | .counterVal | .gaugeVal | .cvVal _ | .gvVal _ | .histField _ => false
  | _ => true

/-- The operations of metrics with the given fixed parts. -/
def meths (F : Flops) (L : Hdr) (fx : Nat → Fixed) : Meths L.H Ret Meth := ⟨fun m me => me.body F L (fx m), Meth.wr⟩

/-- `MustX`: call and panic on an error. -/
def mustCall (m : Nat) (me : Meth) (k : Cli Ret Meth) : Cli Ret Meth :=
  .call m me fun
    | .ok _ => k
    | _ => .panic

/-- `IncAll`, `SetAll`, ... (metrics.go:1182-1186, 1217-1221, 1304-1308, 1331-1335). -/
def allCalls (m : Nat) (me : Str → Meth) : List Str → Cli Ret Meth → Cli Ret Meth
  | [], k => k
  | n :: l, k => mustCall m (me n) (allCalls m me l k)

end Speed
