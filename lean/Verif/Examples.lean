import Verif.Client
import Verif.Parse
import Verif.Print
import Verif.Units
/-
The example programs (examples/*/main.go, examples/http_counter/server.go) as sequences of library calls.

Waiting, printing and flags are left out; numbers of iterations, what is measured and what the user or the network does
are inputs of a program. `log.Fatal` and a panic both end a program (`Prog.fatal`, or a call that has to succeed and does
not). Goroutines of a program are sequentialised: their library calls are given in the order in which they take effect,
and no call overlaps `Start` or `Stop`.
-/
namespace Speed.Examples
open Dump

/-- A program. `op true`: an error ends it; `op false`: an error is ignored (a panic never is). -/
inductive Prog where
  | done
  | fatal
  | op (must : Bool) (o : Sys → COp) (k : Prog)
  | read (name : Str) (s : Option Str) (k : Option GoVal → Prog)

/-- The metric registered under a name. -/
def _root_.Speed.Reg.get (r : Reg) (name : Str) : Option Metric := r.metrics.find? (fun m => m.desc.name = name)

/-- Runs of a program: the system at its end, and whether it came to its end (`false`: it failed). -/
inductive Exec (cf : Conf) (tmp : Str) (parse : Str → Option (Str × Str × Option (List Str))) :
    Sys → Prog → Sys → Bool → Prop
  | done {w} : Exec cf tmp parse w .done w true
  | fatal {w} : Exec cf tmp parse w .fatal w false
  | op_on {w must o k w1 w2 b} {res : Ans Unit} : CStep cf tmp parse w (o w) w1 res → (res = .ok () ∨ must = false ∧ res = .err) →
      Exec cf tmp parse w1 k w2 b → Exec cf tmp parse w (.op must o k) w2 b
  | op_end {w must o k w1} {res : Ans Unit} : CStep cf tmp parse w (o w) w1 res → ¬ (res = .ok () ∨ must = false ∧ res = .err) →
      Exec cf tmp parse w (.op must o k) w1 false
  | read {w name s k w' b} : Exec cf tmp parse w (k ((w.reg.get name).bind (·.cur s))) w' b →
      Exec cf tmp parse w (.read name s k) w' b

/-! ### Pieces of programs -/

/-- `x, err := New...; if err != nil { log.Fatal }` -/
def orFatal {α : Type} (x : Option α) (k : α → Prog) : Prog :=
  match x with
  | none => .fatal
  | some x => k x

/-- `NewPCPClient(name)` or exit. -/
def newC (name : Str) (k : Prog) : Prog := .op true (fun _ => .new name) k
/-- `client.MustRegister(m)`, or `Register` with an exit. -/
def register (m : Metric) (k : Prog) : Prog := .op true (fun _ => .reg (.addMetric m)) k
/-- `client.MustRegisterIndom(d)` -/
def registerIndom (d : Indom) (k : Prog) : Prog := .op true (fun _ => .reg (.addIndom d)) k
/-- `c.RegisterString` or exit. -/
def registerString (uid duid : Nat) (str : Str) (val : ByStrVal) (t : MetricType) (s u : BitVec 32) (k : Prog) : Prog :=
  .op true (fun _ => .reg (.byString uid duid str val t s u)) k
/-- `client.MustStart()` with system calls that succeed. -/
def start (gen pid : BitVec 64) (k : Prog) : Prog := .op true (fun w => .start 0 gen pid (.fine w.reg.Length)) k
/-- `defer client.MustStop()`, at the end, with system calls that succeed. (`EraseFileOnStop` is false unless a program
sets it, client.go:36; none of the examples does.) -/
def stop (k : Prog) : Prog := .op true (fun _ => .stop 0 false ⟨false, false, false⟩) k
/-- A value operation that has to succeed. -/
def call (name : Str) (c : Call) (k : Prog) : Prog := .op true (fun _ => .call name c) k
/-- A value operation whose error is ignored. -/
def tryCall (name : Str) (c : Call) (k : Prog) : Prog := .op false (fun _ => .call name c) k
/-- `MustSet` or `Set` with an exit. -/
def set (name : Str) (v : GoVal) (k : Prog) : Prog := call name (.set v) k
/-- `MustSetInstance` or `SetInstance` with an exit. -/
def setInst (name inst : Str) (v : GoVal) (k : Prog) : Prog := call name (.setInstance v inst) k

/-- `for i := 0; i < n; i++` -/
def loop (body : Nat → Prog → Prog) : Nat → Nat → Prog → Prog
  | _, 0, k => k
  | i, n + 1, k => body i (loop body (i + 1) n k)

/-- One piece after the other. -/
def each {α : Type} (body : α → Prog → Prog) : List α → Prog → Prog
  | [], k => k
  | a :: l, k => body a (each body l k)

/-! ### The programs

Each takes what follows (`k`): `stop .done` is the program itself, `.done` is the program up to its end, with the client
still active. The numbers 1, 2, … passed to constructors are the addresses of the new objects. -/

/-- examples/simple/main.go:11-37 -/
def simple (gen pid : BitVec 64) (k : Prog) : Prog :=
  orFatal (newPCPSingletonMetric 1 (.int 42) b!"simple.counter" Int32Type CounterSemantics OneUnit
    [b!"A Simple Metric", b!"This is a simple counter metric to demonstrate the speed API"]) fun m =>
  newC b!"simple" <| register m <| start gen pid k

/-- examples/singleton_counter/main.go:14-44 -/
def singletonCounter (gen pid : BitVec 64) (n : Nat) (k : Prog) : Prog :=
  orFatal (newPCPCounter 1 0 b!"counter" [b!"A Simple Metric"]) fun m =>
  newC b!"singletoncounter" <| register m <| start gen pid <|
  loop (fun _ k => call b!"counter" .counterUp k) 0 n k

/-- examples/http_counter/server.go:14-50 with `n` requests. -/
def httpCounter (gen pid : BitVec 64) (n : Nat) (k : Prog) : Prog :=
  orFatal (newPCPCounter 1 0 b!"http.requests" [b!"Number of Requests"]) fun m =>
  newC b!"example" <| register m <| start gen pid <|
  loop (fun _ k => call b!"http.requests" .counterUp k) 0 n k

/-- simple_string_metric/main.go:21-28 -/
def batNames : List Str := [b!"Batman", b!"Robin", b!"Nightwing", b!"Batgirl", b!"Red Robin", b!"Red Hood"]

/-- examples/simple_string_metric/main.go:13-43 -/
def simpleString (gen pid : BitVec 64) (n : Nat) (k : Prog) : Prog :=
  newC b!"stringtest" <|
  registerString 1 2 b!"bat.names" (.plain (.str (batNames.getD 0 []))) StringType InstantSemantics OneUnit <|
  start gen pid <|
  loop (fun i k => set b!"bat.names" (.str (batNames.getD (i % batNames.length) [])) k) 0 n k

/-- singleton_string/main.go:23 -/
def longName : Str := b!"this.is.a.simple.counter.metric.to.demonstrate.the.RegisterString.function"

/-- examples/singleton_string/main.go:14-39. The type assertion panics for another type. -/
def singletonString (gen pid : BitVec 64) (n : Nat) (k : Prog) : Prog :=
  newC b!"strings" <|
  registerString 1 2 longName (.plain (.int 10)) Int32Type CounterSemantics OneUnit <|
  start gen pid <|
  loop (fun _ k => .read longName none fun
    | some (.int32 v) => set longName (.int32 (v + 1)) k
    | _ => .fatal) 0 n k

/-- instance_string/main.go:35-42: read an instance, change it. -/
def bumpInst (inst : Str) (f : BitVec 64 → BitVec 64) (k : Prog) : Prog :=
  .read b!"language.users" (some inst) fun
    | some (.uint64 v) => setInst b!"language.users" inst (.uint64 (f v)) k
    | _ => .fatal

/-- examples/instance_string/main.go:13-46 -/
def instanceString (gen pid : BitVec 64) (n : Nat) (k : Prog) : Prog :=
  newC b!"strings" <|
  registerString 1 2 b!"language[go, javascript, php].users"
    (.insts [(b!"go", .int 1), (b!"javascript", .int 100), (b!"php", .int 10)]) Uint64Type CounterSemantics OneUnit <|
  start gen pid <|
  loop (fun _ k => bumpInst b!"go" (· * 2) <| bumpInst b!"javascript" (· + 10) <| bumpInst b!"php" (· + 1) k) 0 n k

/-- acme/main.go:44 -/
def products : List Str := [b!"Anvils", b!"Rockets", b!"Giant_Rubber_Bands"]

/-- `serial` (examples/acme/main.go:43-110) -/
def acmeSerial (gen pid : BitVec 64) (k : Prog) : Prog :=
  orFatal (newIndom 1 b!"Acme Products" products [b!"Acme products", b!"Most popular products produced by the Acme Corporation"]) fun d =>
  orFatal (newPCPInstanceMetric 2 (products.map fun p => (p, .int 0)) b!"products.count" d Uint64Type CounterSemantics OneUnit
    [b!"Acme factory product throughput",
     b!"Monotonic increasing counter of products produced in the Acme Corporation\n\t\t factory since starting the Acme production application.  Quality guaranteed."]) fun c =>
  orFatal (newPCPInstanceMetric 3 (products.map fun p => (p, .int 0)) b!"products.time" d Uint64Type CounterSemantics (Units.timeUnit 1)
    [b!"Machine time spent producing Acme products"]) fun t =>
  newC b!"acme" <| registerIndom d <| register c <| register t <| start gen pid <|
  setInst b!"products.count" b!"Anvils" (.int 42) k

/-- What a goroutine of `forever` does next: `totalTime.MustInc` or `completed.Up`. -/
inductive Build where
  | time (p : Str) (elapsed : BitVec 64)
  | up (p : Str)

/-- acme/main.go:123, 128: names of the metrics of a product. -/
def countName (p : Str) : Str := b!"products." ++ p ++ b!".count"
def timeName (p : Str) : Str := b!"products." ++ p ++ b!".time"

/-- One half of `Build` (acme/main.go:150-157). -/
def build (F : Flops) (a : Build) (k : Prog) : Prog :=
  match a with
  | .time p x => call (timeName p) (.gaugeInc F x) k
  | .up p => call (countName p) .counterUp k

/-- `NewProductBuilder` (acme/main.go:122-142), registering two metrics with addresses `i` and `i + 1`. -/
def productBuilder (i : Nat) (p : Str) (k : Prog) : Prog :=
  orFatal (newPCPCounter i 0 (countName p) []) fun c =>
  orFatal (newPCPGauge (i + 1) 0 (timeName p) []) fun t => register c <| register t k

/-- `forever` (acme/main.go:167-199): `pre` happens before `MustStart`, `post` after it. -/
def acmeForever (F : Flops) (gen pid : BitVec 64) (pre post : List Build) (k : Prog) : Prog :=
  newC b!"acme" <| productBuilder 1 b!"Rockets" <| productBuilder 3 b!"Anvils" <| productBuilder 5 b!"Giant_Rubber_Bands" <|
  each (build F) pre <| start gen pid <| each (build F) post k

/-- runtime/main.go:17-45 -/
def memInstances : List Str :=
  [b!"Alloc", b!"TotalAlloc", b!"Sys", b!"Lookups", b!"Mallocs", b!"Frees", b!"HeapAlloc", b!"HeapSys", b!"HeapIdle", b!"HeapInuse",
   b!"HeapReleased", b!"HeapObjects", b!"StackInuse", b!"StackSys", b!"MSpanInuse", b!"MSpanSys", b!"MCacheInuse", b!"MCacheSys",
   b!"BuckHashSys", b!"GCSys", b!"OtherSys", b!"NextGC", b!"LastGC", b!"PauseTotalNs", b!"PauseNs", b!"PauseEnd", b!"NumGC"]

/-- The instances that the loop sets, in order (runtime/main.go:111-136): all but "Lookups". -/
def memSet : List Str :=
  [b!"Alloc", b!"TotalAlloc", b!"Sys", b!"Mallocs", b!"Frees", b!"HeapAlloc", b!"HeapSys", b!"HeapIdle", b!"HeapInuse",
   b!"HeapReleased", b!"HeapObjects", b!"StackInuse", b!"StackSys", b!"MSpanInuse", b!"MSpanSys", b!"MCacheInuse", b!"MCacheSys",
   b!"BuckHashSys", b!"GCSys", b!"OtherSys", b!"NextGC", b!"LastGC", b!"PauseTotalNs", b!"PauseNs", b!"PauseEnd", b!"NumGC"]

/-- What the runtime reports at a tick. -/
structure Stats where
  cgo : BitVec 64
  goroutines : BitVec 64
  mem : Str → BitVec 64

/-- runtime/main.go:107-136. `NumCgoCall` is an int64, `NumGoroutine` an int, the others are uint64. -/
def tick (st : Stats) (k : Prog) : Prog :=
  setInst b!"cpu" b!"CGoCalls" (.int64 st.cgo) <| setInst b!"cpu" b!"Goroutines" (.int st.goroutines) <|
  each (fun n k => setInst b!"mem" n (.uint64 (st.mem n)) k) memSet k

/-- examples/runtime/main.go:47-142 -/
def runtime (gen pid : BitVec 64) (ticks : List Stats) (k : Prog) : Prog :=
  orFatal (newIndom 1 b!"CPU Metrics" [b!"CGoCalls", b!"Goroutines"] []) fun cd =>
  orFatal (newPCPInstanceMetric 2 [(b!"CGoCalls", .int 0), (b!"Goroutines", .int 0)] b!"cpu" cd Int64Type CounterSemantics OneUnit []) fun cm =>
  orFatal (newIndom 3 b!"Memory Metrics" memInstances []) fun md =>
  orFatal (newPCPInstanceMetric 4 (memInstances.map fun n => (n, .int 0)) b!"mem" md Uint64Type CounterSemantics OneUnit []) fun mm =>
  newC b!"runtime" <| register cm <| register mm <| start gen pid <| each tick ticks k

/-- `m.MustRecord(v)` for each value (basic_histogram/main.go:30-37), from library state `h`. -/
def records (F : Flops) (L : Hdr) : L.H → List (BitVec 64) → Prog → Prog
  | _, [], k => k
  | h, v :: vs, k => orFatal (L.record h v 1) fun h' => call b!"hist" (.histUpdate F L h') <| records F L h' vs k

/-- examples/basic_histogram/main.go:12-38 -/
def histogram (F : Flops) (L : Hdr) (gen pid : BitVec 64) (vs : List (BitVec 64)) (k : Prog) : Prog :=
  newC b!"histogram_test" <|
  orFatal (newPCPHistogram L 1 2 b!"hist" 0 100 5 OneUnit [b!"a sample histogram"]) fun mh =>
  register mh.1 <| start gen pid <| records F L mh.2 vs k

/-- One download: clock readings at `Start` and `Stop` of the timer, and the number of bytes. -/
structure Download where
  t0 : BitVec 64
  t1 : BitVec 64
  n : Nat

/-- download/main.go:51-54, 57-83, from timer state `ts`. The network does not fail. `speed n x` is
`float64(n) / (1024 * 1024 * x)`. -/
def downloads (F : Flops) (speed : Nat → BitVec 64 → BitVec 64) : TimerSt → List Download → Prog → Prog
  | _, [], k => k
  | ts, d :: ds, k =>
    tryCall b!"download_time" (.timerReset ts) <|
    call b!"download_time" (.timerStart d.t0 ts) <|
    .read b!"download_time" none fun
      | some (.float64 v) =>
        call b!"download_time" (.timerStop F d.t1 ⟨true, d.t0⟩) <|
        tryCall b!"download_speed" (.set (.float64 (speed d.n (F.add v (F.dur (Units.timeUnit 3) (d.t1 - d.t0)))))) <|
        downloads F speed ⟨false, d.t0⟩ ds k
      | _ => .fatal

/-- examples/download/main.go:22-55 -/
def download (F : Flops) (speed : Nat → BitVec 64 → BitVec 64) (gen pid : BitVec 64) (ds : List Download) (k : Prog) : Prog :=
  newC b!"download" <|
  orFatal (Units.addTime (Units.spaceUnit 2) (Units.timeUnit 3) (-1)) fun unit =>
  orFatal (newPCPSingletonMetric 1 (.float64 0) b!"download_speed" DoubleType InstantSemantics unit []) fun sp =>
  orFatal (newPCPTimer 2 b!"download_time" (Units.timeUnit 3) []) fun ti =>
  register ti <| register sp <| start gen pid <| downloads F speed ⟨false, 0⟩ ds k

end Speed.Examples
