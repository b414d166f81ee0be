# Formal model of performancecopilot/speed in Lean 4

## 1. Overview

`lean/Verif/` holds an executable model of the library, function by function, each definition citing
the Go source lines it models, and the theorems about it. The conventions:

| Go | model |
|---|---|
| `string`, `[]byte` | `List (BitVec 8)`: any bytes, also invalid UTF-8 |
| `int32`, `uint64`, … | `BitVec 32`, `BitVec 64`, with Go's wrap-around |
| `int` | 64 bit; an unbounded `Int`/`Nat` only where a theorem has a hypothesis (or proof) that excludes overflow |
| `float32`, `float64` | bit patterns; comparison, equality, negation, range check and `float32(x)` are defined on the bits; addition, multiplication and `float64(int)` are a parameter (`Flops`), with IEEE 754 arithmetic (`ieee`) as an instance |
| map | duplicate-free association list; the order of every iteration is an arbitrary permutation chosen afresh |
| pointer identity | a number `uid` of the object; two objects may have equal contents and different `uid` |
| `error`, panic, blocking | explicit outcomes |
| goroutines | threads of an interleaving semantics whose steps are single loads, stores (one byte for the mapped file), channel operations, WaitGroup operations, lock operations |

The property theorems (`C01_…` to `C97_…`) are in the files `Props*.lean`, apart from most lemmas (C30 is in `Parse.lean`).
Each comes with a short specification in the same file (or `FileSpec.lean`, `DumpSpec.lean`), and most
are followed by an `example` that applies them to a concrete case. A property that does not hold
of the code has a theorem `Cxx_refuted` (the negation of the full statement, or a concrete
counterexample) and a theorem with suffix `_partial` for the part that holds.

## 2. What is modelled, and where

| Go code | Lean module |
|---|---|
| bytewriter/bytewriter.go, `encoding/binary` as used | `Bytes`, `Writers` (all methods, shared slices) |
| bytewriter/memorymappedwriter.go: create, remove, map, unmap | `Client` (OS calls succeed or fail arbitrarily) |
| client.go: lengths, offsets, counts | `Types` |
| client.go: `start` and every `write…` function, with all goroutines, channels and WaitGroups | `StartProg` on the process language of `Conc` |
| client.go: `NewPCPClient…`, `SetFlag`, `Start`, `Stop` | `Client` |
| metrics.go, client.go: the `Must…` methods, `Up` of a counter vector | `Must` |
| registry.go: counting, lookup and registration methods | `RegistryModel` (sequential), `RegConc` (concurrent `AddMetric`, `AddInstanceDomain`), `ByStrConc` (concurrent `AddMetricByString`) |
| registry.go `parseString` and its regular expressions | `Parse` on the leftmost-first matcher of `Regex` |
| instance_domain.go | `RegistryModel` |
| metrics.go: types, compatibility, `resolve` | `Values` |
| metrics.go: constructors | `RegistryModel` |
| metrics.go: `Set`, counters, gauges, timers, vectors, histogram, update closures | `ValueModel` (sequential), `Mutex` (with locks, load by load) |
| metrics.go: units; mmvdump/pcp.go: decoding of units | `Units` |
| metrics.go: unit structures shared between metrics | `UnitShare` |
| metrics.go `metricUnit.String`, the `stringer` files of the library | `LibText` |
| config.go, client.go `mmvFileLocation`, `filepath.Join`/`Clean`, `bufio.Scanner` lines | `Config` |
| float64 `+`, `*`, `/`, conversions; `time.Duration.Seconds`, `Minutes`, `Hours` | `Ieee` |
| speed.go `hash`, `hash/fnv` 32a | `Hash` |
| mmvdump/mmvdump.go, mmvdump/pcp.go: `Dump` with all its goroutines | `DumpModel` |
| mmvdump/writer.go: `Write`, line by line (which lines, in which order) | `DumpWrite` |
| mmvdump/writer.go, mmvdump/pcp.go `Unit.String`, the `stringer` files: the characters that are printed, with an output that can fail | `Print` |
| one `Start` and value operations at once | `SetStart` |
| several `Start`s at once | `Clients`, `ClientsShared` |
| one `Start` and registrations at once | `StartReg`, `StartLen` |
| several programs on one file system | `Machine` |
| one `Stop` and operations at once | `StopRace` |
| methods without lock; a metric in two registries | `PropsReaders`, `PropsTwoClients` |
| data races of registrations | `PropsRegRace` |
| mmvdump/cmd/mmvdump/main.go | `Tool` |
| the file between the stores of running operations | `Moment`, `PropsMoment` |
| instance_domain.go, metrics.go: `String`, `Description` of domains and singleton metrics | `ObjText` |
| examples/*/main.go | `Examples` |
| client.go `start`, constructors and registration, when arguments are nil | `NilUnit` |
| metrics.go `IsCompatible`, `resolve`, client.go `Length`, where `int` has 32 bits | `Int32` |

Supporting modules: `Logic`, `LogicSound`, `Termination` (a separation logic for `Conc`, its soundness
for all interleavings, progress and termination), `Start*` (the proof of `Start` in that logic),
`Dump*` (proofs about the reader), `Registry`, `Publish`, `History`, `Live*` (invariants of histories),
`Mutex*` (linearizability, refinement of the sequential model, progress), `RegConc*`, `Float32`
(rounding of the conversion to float32), `IeeeRound`, `IeeeOps` (rounding of float64 operations), `PrintText`, `PrintWhole`, `UnitText` (proofs about the printer), `Sample` (concrete registries for the examples).

### Not modelled

- Tests.
- Of the examples: waiting, printing, flags and the network; system calls succeed; the goroutines' calls are taken one after
  the other, in any order, and none overlaps `Start` or `Stop`.
- The HDR histogram library: an arbitrary type with arbitrary operations (`Hdr`); what is proved is which of
  its results end up in which instance.
- Which NaN an operation returns, and `int64(x)` for `x` out of range (amd64's result is taken). Otherwise float64
  addition, multiplication, division and conversions are defined bit by bit in `Ieee`. Most theorems hold for
  any `Flops` or any with two laws (`Flops.Lawful`); `ieee_lawful` shows that IEEE arithmetic has them, `ieee_nearest` that
  the definitions round to nearest, ties to even. Fused multiply-add, which Go
  may use on some processors for `v + d*1e-3` in `Stop`, is not modelled (it would leave out one rounding).
- `fmt` on floats (`%v`): a parameter `FloatFmt`.
- The operating system: a file is a byte list, a mapping is a byte list that can disappear, any call can
  fail. Memory pages, partial write-back and crashes of the machine are not modelled.
- Reads by another process: C04 is about a snapshot of all bytes at a moment between two byte stores, C67 about a
  reader that reads every byte at its own time. Both see stores in the order in which they are made (true of the shared
  memory of amd64, not of weaker processors).
- The Go memory model beyond sequential consistency. For the value operations, C20_race_free proves that
  there are no data races, which justifies sequential consistency. For `Start`, C68 proves the same for
  all registries with string values of at most 256 bytes. The counterexamples are sequentially
  consistent runs, so they are also runs under the weaker model.
- `sync.RWMutex` prefers waiting writers; the model lets any reader in while no writer holds the lock. This
  gives more runs, so the safety theorems carry over. No operation takes the read lock of a mutex
  it already holds, hence the deadlock freedom theorems carry over too.
- `Histogram.High`, `Low`, `Percentile` and `Buckets` do not lock; C20 excludes them, C72 is about them.
- `unsafe`, reflection, memory exhaustion, Windows (paths and file names).
- `int` and `uint` have 64 bits; `Int32` has the places where it matters once more with 32 bits (C88).
- `time.Now()`: an arbitrary number per call.
- Unicode tables of `regexp` (`\p{L}`, `\p{N}`): a parameter `WordClass` that is only required to be right on ASCII.
- `filepath.Clean`: modelled on path elements (the documented rules), not as Go's lazy byte buffer.
- `bufio.Scanner`: lines and the 64 KiB limit; read errors of the config file are one outcome.

### Simplifications and assumptions in hypotheses

- Objects have unique `uid`s (`Made`: all were produced by the constructors in the history). No two live objects share an address.
- `Reg.Small`: every count (metrics, instances, domains, values, strings) is below 2^31, so that no
  `int` or `int32` field overflows. Such a registry needs more than 2^31 objects in memory.
- `Reg.Publishable`: string values and names at most 256 bytes, no domain without instances, and the
  domain object of every instance metric is the registered one. C44, C45, C46 and C47 are about what happens without each of these.
- C04 needs a generation number (`time.Now().Unix()`) other than 0.
- C33 and C34 speak of sections whose offsets do not wrap around 2^64; C32 has the counterexample.
- `metrics.go` uses one bit pattern per unit; outside `UnitShare` units are values: unit structures that are shared between metrics and then changed are modelled only there (C64).
- Client life cycle (C14, C37, C38, C53) is about sequential calls; concurrency is C20, C42, C43, C52.
- C42 takes the offsets of the values as given (any layout without overlap; `Active.layout` shows those of `Start` are one).
- C43 models `AddMetric` and `AddInstanceDomain` with both mutexes; each critical section is split into single accesses.
- C62: a registry call is one step, and `start` reads the registry when it begins (in Go also later, while its goroutines run). The runs of the model are runs of the program, so the refutations carry over; the program has more.
- C52: the clients have separate registries and files; they may share domain objects (`histogramIndom` always is shared).

## 3. Disagreements between the code and what a user would expect

Each was found while proving the property and is stated as a theorem.

| | finding | theorem |
|---|---|---|
| C05, C08 | a string longer than 256 bytes is written past its slot, or clears the slot and then fails | `C05_refuted`, `C08_refuted` |
| C10 | an offset close to 2^63 panics instead of giving an error | `C10_refuted` |
| C13, C15 | `RegisterString` that fails after adding its domain leaves the domain behind | `C13_refuted`, `C15_refuted` |
| C18 | metric ids have 10 bits: "c" and "ib" collide, 1025 metrics always do | `C18_refuted`, `C18_refuted_large` |
| C19 | a counter becomes negative on overflow | `C19_refuted` |
| C23 | `CounterVector.SetAll` stops at the first smaller value, after changing some | `C23_refuted` |
| C27 | `Histogram.High` and `Low` are exchanged | `C27_refuted` |
| C28 | the dimension of a unit is or-ed to the one that is there: even dimensions come out odd | `C28_refuted` |
| C31 | `MatchInstances` compares length and membership only: repeated names fool it | `C31_refuted` |
| C32 | `Dump` crashes on a negative count, an unknown section type, an offset that wraps around | `C32_refuted…` |
| C37 | two clients with one registry: `Stop` of the inactive one panics | `C37_refuted_shared` |
| C38 | update closures survive `Stop`: the next `Set` faults | `C38_refuted` |
| C39 | the names "", "." and ".." are accepted | `C39_refuted` |
| C42 | a `Set` while `Start` runs can be missing in the file | `C42_refuted` |
| C43 | two goroutines register the same name, both succeed; lost update of `stringcount` | `C43_refuted…` |
| C44 | a registry whose only domains are empty: `Start` always panics | `C44_refuted` |
| C45 | a long string value spills into the next slot | `C45_refuted` |
| C46 | a metric built on a copy of a registered domain refers to other instances | `C46_refuted` |
| C47 | with a metric type from outside the library `Start` never returns | `C47_refuted` |
| C50 | a line of 64 KiB ends the reading of the configuration | `C50_refuted` |
| C51 | a commented-out assignment counts | `C51_refuted` |
| C52 | two clients with histograms started at once write each other's instance offsets | `C52_refuted` |
| C53 | the file handle leaks when the write or the mapping fails | `C53_refuted` |
| C59 | mmvdump prints "Semantics(1)" for a counter: its constants are all 0 | `C59_refuted` |
| C62 | a metric registered while `Start` runs makes `Start` panic, or is accepted and missing in the file | `C62_refuted_crash`, `C62_refuted_missing` |
| C63 | a second `Start` of an active client, or a failing unmap, leaks mapping and handle for ever | `C63_refuted_twice`, `C63_refuted_stop` |
| C64 | `Space`, `Time`, `Count` change the unit structure in place: deriving a unit changes metrics made before with the same structure | `C64_refuted` |
| C66 | when a section occurs twice in the table of contents, or a record wraps around, `Dump` of the same bytes gives a result, an error or a panic depending on the schedule | `C66_outcomes` |
| C67 | a reader that is not atomic accepts an unfinished file: both generations 0, version 0, or the header read last | `C67_refuted…` |
| C68 | a string value longer than 256 bytes: two goroutines of `Start` write the same byte at the same time | `C68_refuted` |
| C69 | `Dump` of the same bytes has different outcomes when a kind is listed twice or a section reaches over 2^64 | `C69_refuted…` |
| C70 | two clients with the same name: `Start` of one removes the file of the other, `Stop` of the first removes that of the second | `C70_refuted…` |
| C71 | `Stop` in one goroutine while another one sets a value: the write goes to unmapped memory | `C71_refuted` |
| C72 | `String`, `Percentile` and `Buckets` take no lock and race with `Set` and `Record` | `C72_refuted_string`, `C72_refuted_histogram` |
| C73 | a metric registered with two active clients is written to the file of the one started last only | `C73_refuted` |
| C74 | `stringcount` and `version2` are accessed under two different mutexes; `ValuesCount`, `StringCount` and the lookup of a domain in `addInstanceMetricByString` take no lock | `C74_refuted_count`, `C74_refuted_version`, `C74_refuted_readers` |
| C76 | `mmvdump -x` does not read the file `-x`, as `flag.Parse` takes it | `C76_refuted` |
| C77 | an error of the first `Printf` of `mmvdump` is ignored | `C77_refuted` |
| C78 | a string that is being replaced is shown as the empty string for a moment | `C78_refuted` |
| C79 | `String()` of a domain with two instances gives different texts at different calls (map order) | `C79_refuted_order` |
| C80 | examples/runtime: the ticker goroutine sets metrics after `MustStop` and is killed; `Lookups` is never set | `C80_refuted_runtime` |
| C82 | two goroutines that register metrics on the same new domain by string: one call can fail although both would succeed in either order; or both succeed, one metric belongs to a domain object that is not registered, `InstanceCount` is too large, and `Start` writes an empty instance record and a value that refers to no instance. | `C82_refuted_fails`, `C82_refuted_twice`, `C82_refuted_file` |
| C83 | `NewPCPSingletonMetric`, `NewPCPInstanceMetric`, `NewPCPHistogram` and `RegisterString` accept a nil unit, and so does `Register`; `Start` then panics under every schedule, in a goroutine, where the caller cannot recover. `Register(nil)`, `RegisterIndom(nil)`, `NewPCPInstanceMetric` with a nil domain, and `Start` of a client made with a nil registry panic instead of returning their error. | `C83_refuted_unchecked`, `C83_refuted_panic`, `C83_refuted_calls` |
| C84 | Nothing looks for equal ids: the instances "costarring" and "liquid" of one domain, the domains "dsz" and "iaze", and the clients "ng" and "aaa" have the same id. | `C84_refuted_instances`, `C84_refuted_indoms`, `C84_refuted_clients`, `C84_refuted_file` |
| C85 | The generation is the clock in seconds: a restart within one second replaces the contents under the same generation. | `C85_refuted` |
| C87 | `PCPCounterVector.Inc(0, "unknown")` returns nil; the gauge vector's `Inc(0, "unknown")` returns an error. | `C87_refuted` |
| C88 | Where `int` has 32 bits, a registry whose file would have 2^31 bytes or more makes `Length` negative (or wrong), and `Start` panics in `make` with the old file already removed. | `C88_refuted` |

Differences between README.md and the code that are no theorems:

- README.md:165 and 171 give `NewPCPCounterVector`, `Set` and `Inc` values of type `uint64`; they are `int64` (metrics.go:1130).
- README.md calls `NewPCPHistogram` with four arguments; the fifth, the unit, is missing (metrics.go:1420).
- README.md says that the domain of a vector is registered when the vector is made; it is registered with the vector (registry.go:196-220).


## 4. Per property: how it is modelled and proved

- **C01** File layout is exact: no gaps, no overlap, no overflow *(proved)* `PropsStart`. The logic's postcondition for `Start` gives every byte of the file; sections and records are intervals computed by a separate layout specification (`FileSpec`).
  Sections and records tile the file. Registry obtained by any history of constructor/registry/value calls; Publishable (texts within 256 bytes, no empty domain, domain objects registered) and counts below 2^31.
- **C02** Start never deadlocks or panics, under any schedule *(proved)* `Conc` + `StartProg`: `Start` as a pool of threads; `Logic`/`LogicSound`: separation logic with channels and WaitGroups, proved sound for all interleavings; `Termination`: a measure that falls with every step.
  All schedules of all goroutines of Start and all map orders: no panic, no deadlock, no infinite run.
- **C03** Dump(Start(registry)) is the registry *(proved)* `DumpWrite`, `DumpDescribe`: the content theorem of `Start` composed with the model of `Dump`; the specification says which decoded records must be there for each metric, domain, instance, value and text.
  Dump of the written file under every schedule of its goroutines.
- **C04** A reader never accepts a half-written file *(proved)* `PropsStart`. Invariant over all reachable states of `Start`: the second stamp is 0 until everything else is written.
  Reader takes a snapshot of the bytes at any moment; generation number (Unix time) is not 0.
- **C05** The mapped file always shows the last successfully set value *(partial)* `Live`, `LiveOps`, `History`, `PropsLive`, `PropsLastSet`. Induction over histories of value operations on a started client.
  Proved for strings of at most 256 bytes; false for longer ones (C05_refuted).
- **C06** Setting one value does not disturb any other byte *(proved)* `PropsLive`. Frame theorem for the update closures.
  Strings of at most 256 bytes.
- **C07** Accepted values are stored without truncation and with the declared type *(proved)* `Values`, `Float32`, `PropsValues`, `PropsConstruct`. Case analysis over Go types and declared types; float32 rounding is specified by distance.
  Float64 into Float: nearest float32, ties to even, proved from the bit-level conversion.
- **C08** A rejected Set changes nothing *(partial)* `PropsLive`. Case analysis over all exported operations.
  False for strings that do not fit (C08_refuted): the slot is zeroed before the failing write. Proved for everything else.
- **C09** Binary encoding round-trips through the reader *(proved)* `PropsDump`. Encoder and decoder are separate models, inverse to each other.
- **C10** ByteWriter.Write is exact and bounds-checked *(partial)* `PropsWriter`, `PropsExact`. The byte loop of `Write`, characterised byte by byte.
  False for offsets whose sum with the length wraps around 2^63 (C10_refuted: panic instead of error). Proved for all others.
- **C11** Concurrent writes to disjoint ranges do not interfere *(proved)* `PropsWriter`. Arbitrary interleavings of the byte stores of any number of writers.
  Any number of writers with pairwise disjoint ranges, any interleaving of their byte stores.
- **C12** Registry counts match contents after any history *(proved)* `Registry`, `PropsRegistry`. Invariant by induction over histories.
  All histories of registry calls and value updates, successful or failed.
- **C13** Names are unique in a registry; duplicates are rejected without effect *(partial)* `PropsRegistry`. Same invariant.
  Metrics: proved. Domains: false, because a failing RegisterString can leave a new domain behind (C13_refuted); proved for histories in which no RegisterString failed.
- **C14** The registry is frozen while the client is active *(proved)* `Client`, `PropsClient`. Induction over histories of client, registry and value calls.
  All histories of sequential calls, any number of clients of the registry, any failures of system calls.
- **C15** A failed registration leaves the registry unchanged *(partial)* `PropsRegistry`. Case analysis over calls.
  False for RegisterString naming a new domain (C15_refuted). Proved for all other calls, and the exact leftover is proved for RegisterString.
- **C16** MMV version is chosen so that names are never truncated *(proved)* `PropsRegistry`, `PropsFile`.
- **C17** Identifiers fit their bit widths and depend only on the name *(proved)* `Hash`, `PropsValues`, `PropsIdent`. FNV-1a on byte lists against a separate definition.
- **C18** Metric ids are unique within a client *(partial)* `PropsValues`. Concrete collision and pigeonhole.
  False: 'c' and 'ib' collide; every registry with more than 1024 metrics has a collision. Proved: when ids agree; names that differ in one byte never collide.
- **C19** A counter never goes backwards *(partial)* `PropsMetrics`. Integers with wrap-around; the only way down is overflow.
  False on overflow: Up on a counter at 2^63-1 makes it negative (C19_refuted). Proved for every history without overflow; C19_step says that overflow is the only way down.
- **C20** Concurrent counter increments are not lost *(proved)* `Mutex`, `MutexSound`, `MutexOps`, `MutexLive`, `MutexProgress`, `PropsConc`. Each operation is a program of single loads and stores between Lock and Unlock; linearizability for all interleavings, refinement of the sequential model of C05.
  Any number of goroutines, all operations of all metrics, on an active client; steps are single loads and stores. MustX, Up and the All operations are programs that call these. Sequential consistency is justified by C20_race_free.
- **C21** Instance metrics hold exactly one value per instance of their domain *(proved)* `PropsConstruct`.
- **C22** Vector-wide operations hit every instance exactly once *(proved)* `MetricOps`, `PropsMetrics`. Iteration in an arbitrary order.
  Sequential; float64 addition is a parameter. C22_active: the mapped file does not depend on the iteration order either.
- **C23** CounterVector.SetAll is all-or-nothing *(partial)* `PropsMetrics`, `PropsExact`.
  False when some instances are larger and some are not (C23_refuted); proved otherwise.
- **C24** Timers accumulate exactly the started intervals *(proved)* `PropsMetrics`, `Ieee`, `IeeeRound`, `IeeeOps`, `PropsIeee`. The total is specified as a sum over the started and stopped intervals; error bounds over the rationals for IEEE arithmetic.
  Clock readings are inputs. C24_timer and C24_history hold for any arithmetic with two laws; C24_units, C24_value and C24_exact are for IEEE 754 arithmetic, which has them (ieee_lawful), and bound the rounding error of the sum of the intervals in each unit.
- **C25** Gauge arithmetic is exactly the float64 arithmetic of the calls *(proved)* `PropsMetrics`, `PropsIeee`.
  C25_gauge and C25_vector hold for any arithmetic with two laws (Flops.Lawful); IEEE 754 arithmetic is defined, proved to round to nearest and to have the laws, and C25_rounded and C25_exact are for it.
- **C26** Published histogram statistics match the recorded data *(proved)* `PropsMetrics`, `PropsIeee`. The histogram library is a parameter.
  The histogram library is a parameter. The accessors Min and Max are exact for numbers up to 2^53 (C26_exact).
- **C27** Histogram High/Low report the configured bounds *(partial)* `PropsMetrics`.
  False: High and Low are exchanged.
- **C28** Composite units carry the requested dimensions *(partial)* `Units`, `PropsUnits`. Bit vectors of 32 bits, exact characterisation.
  False for every even dimension, and where the component exists already; proved for odd dimensions on a unit without the component.
- **C29** Unit components are independent *(proved)* `PropsUnits`.
- **C30** RegisterString's name grammar *(proved)* `Regex`, `Parse`. Leftmost-first matcher; equivalence with a grammar on byte strings.
  All byte strings, including invalid UTF-8. The Unicode tables for letters and numbers are a parameter that is right on ASCII.
- **C31** RegisterString reuses a domain only for the same instance set *(partial)* `PropsRegistry`, `PropsExact`.
  False for lists that repeat a name, in both directions. Proved for lists without repetition.
- **C32** Dump never crashes *(partial)* `DumpModel`, `PropsDump`.
  False: three concrete crashing inputs. Proved under conditions on the TOC; C66_outcomes gives the exact condition.
- **C33** Dump returns exactly the items described by the TOC *(proved)* `DumpItems`, `DumpSpec`, `PropsDump`.
  Sections without wraparound of offsets.
- **C34** Parallel item reading is schedule-independent *(proved)* `DumpItems`, `PropsDump`. Interleaving model of the goroutines of `readItems`.
- **C35** Dump rejects invalid headers *(proved)* `PropsDump`.
- **C36** References inside a written file always resolve *(proved)* `PropsFile`. From C03.
- **C37** Client lifecycle *(partial)* `Client`, `ClientLemmas`, `PropsClient`. System calls are arbitrary outcomes.
  Proved for one client per registry. False for two clients that share a registry: Stop of the inactive one panics (C37_refuted_shared).
- **C38** Metrics stay usable after Stop *(partial)* `PropsClient`.
  False: the update closures survive Stop, every value change of a published metric faults (C38_refuted). Proved for metrics that were never published and while the client is active.
- **C39** The MMV file lives directly inside the mmv directory *(partial)* `Config`, `PropsConfig`, `PropsIdent`.
  False for the names "", "." and "..", which are accepted; proved for all others and all configurations.
- **C40** All records are 8-byte aligned *(proved)* `PropsFile`.
- **C41** A shorter string fully replaces a longer one *(proved)* `PropsLive`.
- **C42** Values set while Start runs are not lost *(partial)* `SetStart`, `PropsSetStart`.
  False: the value goroutines of Start do not take the mutex of the metric, so a Set between reading the value and assigning the closure is lost (C42_refuted). Proved for every interleaving in which no operation that changes a metric overlaps that window of one of its values. The offsets of the values are inputs of the model (any disjoint layout; Active.layout shows that those Start chooses are one).
- **C43** Concurrent registration is safe *(partial)* `RegConc`, `RegConcInv`, `RegConcLive`, `PropsRegConc`. Both mutexes, each critical section split into single accesses.
  False: the name is looked up and added under separate critical sections, so two registrations of a name both succeed; stringcount is incremented under two different locks; a new domain shared by two goroutines is counted twice or makes one call fail. Proved for every interleaving, any number of goroutines, when names are different and new, goroutines do not share new domains, and new domains have no descriptions.
- **C44** A registry with an empty instance domain can be published *(partial)* `StartDoom`, `PropsEdge`. An invariant of all schedules that excludes normal termination.
  False when no registered domain has an instance: every schedule of Start ends in a panic (C44_refuted, all such registries). Proved for registries in which some other domain has an instance.
- **C45** Texts never spill out of their slot *(partial)* `PropsLive`, `PropsExact`.
  False for string values longer than 256 bytes (C45_refuted). Names cannot spill; shorter string values: C06, C41.
- **C46** A metric's values refer to instances of its own domain *(partial)* `PropsEdge`, `Sample`.
  False when the metric's domain is another object than the registered domain of the same name (C46_refuted); proved otherwise.
- **C47** Any value implementing the metric interface that Register accepts can be published *(partial)* `StartDoom`, `PropsEdge`.
  False: with a metric of a type from outside the library Start never returns, whatever the schedule (C47_refuted, all such registries). Proved for the library's types under the conditions of C02.
- **C48** Constructor validation *(proved)* `PropsConstruct`.
- **C49** Histogram bounds are clamped into the supported range *(proved)* `PropsMetrics`.
- **C50** PCP configuration parsing *(partial)* `Config`, `PropsConfig`, `PropsExact`. Same regular expression matcher as C30.
  Proved for every line and for every file whose lines are shorter than 64 KiB; false for a file with a longer line, after which bufio.Scanner stops.
- **C51** Commented-out configuration lines are ignored *(partial)* `PropsConfig`.
  False: the expression is not anchored, a commented-out assignment counts (C51_refuted); exactly what such a line does is proved.
- **C52** Clients with separate registries do not affect each other *(partial)* `Clients`, `ClientsShared`, `PropsClients`, `PropsShared`. Product of the thread pools; cells and files are tagged by their client.
  False: all histograms share the domain object histogramIndom, so two clients started at the same time overwrite each other's instance offsets; a schedule of 1029 steps ends with a file in which no value record refers to an instance record. Proved for any number of clients that share no domain or metric object, under every interleaving: no panic, no deadlock, and each file is one the client could have written alone. With shared domain objects (but no shared metrics) the same holds for all bytes except the instance fields of the value records, and every schedule ends.
- **C53** A failed Start leaves no trace *(partial)* `Client`, `PropsClient`.
  False when the write or the mapping of the new file fails: the handle stays open (C53_refuted). Proved for all other failures; registry, metrics and client are unchanged in all of them.
- **C54** Header fields *(proved)* `PropsFile`, `PropsIdent`. From the content theorem; the flag and cluster id of a client by induction on the history.
- **C55** TOC entries describe the sections *(proved)* `PropsFile`. From the content theorem.
- **C56** The printed text of a written file *(proved)* `Print`, `PrintText`, `PrintWhole`, `PropsPrint`, `PropsWhole`. The text is compared with the lines of `DumpWrite`, then C36; `C56_exact` gives the whole output as header, section titles and items in the order of their offsets.
  The formatting of floats is a parameter. Strings are printed with the zero bytes that fill their slot; they are compared without them.
- **C57** The printer and a failing output *(proved)* `Print`, `PrintText`, `PropsPrint`. The printer is a list of calls followed by an outcome.
- **C58** Numbers are printed in positional notation *(proved)* `Print`, `PropsPrint`. Value of a numeral by Mathlib's `Nat.ofDigits`.
- **C59** Semantics are printed by name *(partial)* `Print`, `PropsPrint`.
  False: the constants of mmvdump are all 0, so the string table has one name and counter, instant and discrete are printed Semantics(1), Semantics(3), Semantics(4). Proved: different semantics are printed differently.
- **C60** Types are printed by name *(proved)* `Print`, `PropsPrint`.
- **C61** The printed unit identifies the unit *(proved)* `UnitText`, `PropsPrint`. A parser for printed units that inverts the printer.
  For scales that have a name.
- **C62** A metric registered while Start runs is published or refused *(partial)* `StartReg` on `StartLen` (the program of `start` with the buffer length as a parameter). Invariant over the phases of `Start`; a schedule for the crash; the missing metric by counting.
  False of the code. Partial: when no registration changes the registry between the moment Start takes the length and the moment it sets mapped, Start does not crash and the file describes the registry. Refuted: a metric registered after the length was taken makes start write past the end of the file (panic); for any registry, a metric registered after start has read the registry is accepted but is not in the file of the active client.
- **C63** Mappings and file handles are released *(partial)* Invariants of histories: what is held; writers are distinct; a file that no client has as its writer stays held for ever.
  False of the code. Partial: one client, started only when inactive, no failing write, map, unmap or close. Refuted: a second Start of an active client succeeds and the first file's mapping and handle are never released; if munmap fails in Stop the mapping and the handle are never released, as the client has forgotten its writer. Both for all histories before and after.
- **C64** A metric keeps the unit it was made with *(partial)* `UnitShare`, `PropsUnitShare`. A heap of unit structures; one step changes at most the receiver's structure.
  False of the code: Space, Time and Count of a unit structure change it in place (metrics.go:160-197), so deriving a second unit from it changes the metrics made with it before. Partial: constants, and structures that are not extended after the metric was made.
- **C65** The text of an enumeration value or unit identifies it *(proved)* `LibText`, `PropsLibText`. Injectivity part by part, by separators and by the names not being numerals.
  Units that the library can make: the constants and everything that the methods make of them (MadeUnit).
- **C66** Which outcomes Dump can have, exactly *(proved)* `DumpOutcomes`, `PropsAccept`. Each section's outcomes are characterised first, then the choice of one goroutine per kind.
  Slices shorter than 2^63 bytes.
- **C67** A reader that reads the file piece by piece while Start runs *(partial)* `PropsReader`. `Start`'s invariant also says when the version bytes are written and that bytes outside the second generation do not change once it is being written; three concrete schedules.
  False: mmvdump checks only that the two generations are equal, so a reader from front to back that meets both still 0 accepts a file without records (C67_refuted_generation), one that meets the version still 0 decodes it wrongly (C67_refuted_version), and one that reads the header last sees a finished header before old contents (C67_refuted_order). Proved: a reader that reads the second generation first and finds it nonzero and equal to the first has read the final file; one that reads from front to back and finds generation and version nonzero gets a description of the registry. Changes of values during the reading are not considered.
- **C68** The goroutines of Start have no data race *(partial)* `PropsRace`. Two permissions for one place cannot be held at once, by the invariant behind C01; one run of 650 steps for the counterexample.
  False for a string value longer than 256 bytes: two goroutines write the same byte (C68_refuted). Proved for all registries with shorter values. Accesses to the fields of the registry and the metrics are reads only and are not listed.
- **C69** Dump of the same bytes always has the same outcome *(partial)* `PropsDeterm`, `PropsDetermExact`. From `C66_outcomes` and C33; for the equivalence `choose_entry` builds the run in which a given entry finishes last.
  False when a kind of section is listed twice, or a section reaches over 2^64. Proved when no kind is listed twice and no section reaches over 2^64. C69_exact says for which bytes it holds: it is an equivalence. The text of an error is not modelled.
- **C70** Whoever opens the path of an active client finds the description of its registry *(partial)* `Machine`, `PropsMachine`. The invariant of one client is framed by the files it refers to; file numbers are never used twice.
  False for two clients with the same path: Start of the second removes the file of the first, Stop of the first removes that of the second. False also when Start of an active client fails after removing the old file. Proved for any number of programs whose clients have different paths (C70_names: different names). Calls of different programs are interleaved as a whole.
- **C71** Stop while goroutines use values *(partial)* `StopRace`, `PropsStopRace`. The interleaving semantics of `Mutex` with one more step, the unmapping, that can come at any time.
  False: Stop and the operations of metrics have no mutex in common. For every active client, every Set of a fitting compatible value different from the present one has a schedule in which the memory is unmapped before its first write. Proved when no operation that changes values is running at the unmapping or called later.
- **C72** Exported readers never race with operations that change values *(partial)* `PropsReaders`. The unlocked methods as locations that they read; a race is a goroutine of the interleaving semantics of `Mutex` about to write the location.
  False: String, Percentile and Buckets take no lock. Every accepted Record has a schedule in which it is about to write the histogram that Percentile and Buckets read, and every Set to another value one in which it is about to write the value that String reads. Proved for the methods that take the lock (C20_race_free), for High and Low, and for the others while nobody changes the metric.
- **C73** A metric registered with two clients *(partial)* `PropsTwoClients`. Two `Live` worlds whose metrics with the same uid are one object.
  False: a value has one closure, and the second Start replaces it. Every accepted Set of a shared metric to another value leaves the file of the first client with the old value. Proved: the file of the client started last is right, that of the first is right except that shared metrics keep the value of the time of the second Start, and right if no metric is shared.
- **C74** Concurrent registrations have no data race *(partial)* `PropsRegRace`. The next access of each goroutine in the interleaving semantics of `RegConc` to a field of the registry; a race is two goroutines about to access one field, one of them writing. Invariant `KInv`: what is in a critical section are statements of its body, and who holds which lock.
  False: AddInstanceDomain and addMetric hold different mutexes and both access stringcount and version2; ValuesCount, StringCount and the lookup in addInstanceMetricByString take no lock. Proved: these are the only places (every race is on stringcount with a new domain that has a description, or on version2 with a long metric name and a new domain), so there is none if the domains are registered before or have no descriptions and names are short; the readers that lock never race.
- **C75** mmvdump on the file of an active client prints the present contents of its registry *(proved)* `PropsTool`. `Tool` is a relation because `Dump` is; C70 (the file at the path) and the complete text (`text_exact`, from C56) put together, for a file whose values have changed since `Start`.
  The file is read at one moment between calls. The conditions are those of C70.
- **C76** The argument of mmvdump names the file that is read *(partial)* `PropsTool`. Cases of `Tool`.
  False for names of at least two bytes that begin with a minus sign: package flag takes them, nothing is read. Proved for all other names: exact outcomes.
- **C77** mmvdump ends normally only if everything was written *(partial)* `PropsTool`. From C57.
  False: the result of the first Printf is ignored, so the line with the name of the file can be missing. Proved for everything after it.
- **C78** The file can be read at any moment *(partial)* `Moment`, `PropsMoment`. Invariant of the interleaving semantics of `Mutex` over all reachable states: an operation writes to the file only inside an update closure (`MProc.Tidy`), and a value outside of it has its bytes in the file. Any bytes in the slot of a value are those of some value of its type (`decode`), so the file is that of a client with other values (`LiveAt.overlay`) and the theorems about such files apply.
  False for strings: the update closure clears the 256 bytes before it writes, so every Set of a string to another one has a moment at which the file shows the empty string (C78_refuted). Proved: at every moment Dump accepts the file, and it shows the registry, at the same addresses, with the present value of every metric, except for values whose update closure a goroutine is just running; of each metric that is at most one (C78_one). For those nothing is claimed about the value shown: the model writes bytes one by one, while an 8-byte copy is one store on amd64.
- **C79** The texts of domains and metrics identify them *(partial)* `ObjText`, `PropsObjText`. The texts are joined words; the first separator can be found in the text (`sep_inj`), so lists of words can be read back (`joinSp_inj`). Values: C58.
  False: String of a domain with two or more instances depends on the order of the map (C79_refuted_order), names with spaces or brackets make the text ambiguous (C79_refuted_ident), and so do line breaks in descriptions and string values (C79_refuted_desc). Proved: the text identifies name and instances if instance names are words and the name has no bracket; one text for at most one instance; of one metric, different values have different texts unless the type is a float type (the text of floats is a parameter).
- **C80** The example programs run and publish what they measure *(partial)* `Examples`, `ExampleLemmas`, `PropsExamples`. Programs are trees of client calls (`Prog`); `Runs` says that there is a run and that every run ends in a given condition, with one lemma per kind of call, from the client histories of C37. Values are followed by name and slot (`Holds`); what the file shows comes from C03.
  False: the goroutine of examples/runtime goes on after MustStop has unmapped the memory, and its next tick kills the process (C80_refuted_runtime); its instance Lookups is never set. Proved for the other programs, and for runtime up to MustStop, with system calls that succeed and, for basic_histogram, a library that records all values.
- **C81** RegisterString registers exactly the metric it is asked for *(proved)* `PropsByString`, from C30 (the grammar), C48 and C21 (the constructors).
  A map key is unique in Go, so the keys of Instances are assumed distinct.
- **C82** Concurrent RegisterString calls do not disturb each other *(partial)* `ByStrConc` models `AddMetricByString` by any number of goroutines; `ByStrConcInv` and `ByStrConcSim` show that, if no two goroutines use the same new domain, the invariant of `RegConc` holds in every state, where a goroutine that creates a domain counts as being in the `AddMetric` of the metric to come; `ByStrConcLive` shows termination for arbitrary calls; the refutations are schedules.
  False of the code: two goroutines that register "c[a].d" and "c[a].e" both find the domain missing; then either one call fails, or both succeed, the first metric belongs to an unregistered domain, the instances are counted twice and Start writes an empty instance record and a value without instance. Proved: if no two goroutines use the same new domain, and each would succeed alone, all succeed; termination for arbitrary calls.
- **C83** Leaving out an argument is reported *(partial)* `NilUnit` has `start` with units that may be nil; `NilUnitSim` relates two programs one of which panics in some places (`Cut`, a simulation in both directions); `NilUnitStart` shows by counting `Done`s (`StartDoom`) that the WaitGroups of the metric without a unit, of `writeMetrics` and of `start` never get to zero, and that the final phase of the program logic of C02 is never reached; `PropsNil`.
  False of the code: a nil unit is accepted by NewPCPSingletonMetric, NewPCPInstanceMetric, NewPCPHistogram, RegisterString and Register, and then every run of Start panics in a goroutine at desc.u.PMAPI(); the file it leaves is never taken for a complete one. Register(nil), RegisterIndom(nil), a nil domain and a nil registry panic too. Proved: with all units there, Start returns.
- **C84** Identifiers of instances, domains and clients are unique *(partial)* `HashLemmas` shows that a round of FNV-1a is injective on the low k bits (the prime is odd, `fold_inj`), so names differing in one byte keep different low bits; for two neighbouring bytes the prime 2^24 + 403 moves a byte difference out of the lowest byte (`round_apart`); `PropsIds`. The same gives `C18_one_byte_partial`.
  False of the code: instances costarring and liquid of one domain, domains dsz and iaze, clients ng and aaa get the same id; no call reports it, and the published file then has two instance records of one domain with one internal id and two names. Proved: exactly when ids agree; never for names that differ in one byte, or (domains, instances) in two neighbouring bytes.
- **C85** A reader notices every restart by the generation number *(partial)* `GenAt` (what the file of an active client was started with) holds along every history (`GenAt.step`); with C37 for the contents (`PropsRestart`).
  False of the code: after Start, Stop, a registration and Start within one second the file has other contents and the same generation. Proved: the generation of an active client's file is the clock at its last successful Start, the file is the same one iff there was no Start in between, and the generations differ if the clock readings do.
- **C86** Operations on values fail exactly on their stated conditions, and Must variants panic exactly then *(proved)* by cases on the operation, from the equations of `MetricOps` and C22, C23; `takes_iff` for the values; the `Must…` methods are in `Must` (`PropsMust`).
  The conditions are `Call.Accepts`, with `Takes` for values. `C86_active` and `C86_free` hold for every metric a program can have and every operation of its kind (`Call.kind`; that metrics keep the type and instances of their kind is `Built.kindOK`); longer strings are C45.
- **C87** Operations that name an unknown instance are refused *(partial)* from `valInstance_err` (`PropsMust`).
  False of the code: Inc(0, unknown) of a counter vector succeeds. Proved: every other operation is refused and none changes anything.
- **C88** The library does the same where int has 32 bits *(partial)* `Int32` has the functions in which `int` occurs once more with 32 bits; they agree with those of the model on widened values (`C88_values`) and modulo 2^32 (`length32_eq`) (`PropsInt32`).
  False of the code: with eight million instances with long names Length is negative where int has 32 bits, and Start panics, leaving an empty file. Proved: all values are treated alike, and the file is the same if it has less than 2^31 bytes.
- **C89** Every method of ByteWriter writes all its bytes or nothing *(proved)* `Writers` has all methods as one type `WMethod` and slices as windows of an array; from C10_exact (`PropsBytes`).
  At a negative offset, and where the sum of offset and length is no int, the methods panic instead of returning an error (C10_refuted); the buffer is unchanged then too. WriteVal of types that the library never passes (bool, structs, slices) is taken to fail; binary.Write can encode some of them.
- **C90** What is registered stays *(proved)* a step of the client model only appends to the lists of the registry or replaces a metric by one of the same shape (`CStep.keeps`), which is transitive (`PropsKeep`).
  Sequential calls. A unit is a value here; unit structures that are changed after the metric was made are C64.
- **C91** A file cut off anywhere is refused, and bytes after its end are ignored *(proved)* the characterisation C66_outcomes applied to the prefix (its last section is the only one of its kind and does not fit), and congruence of the goroutine machine in the records that it reads (`Cut`).
  The files here are those of clients that run; files that are still being written are the subject of C04. Files of 2^63 bytes or more are left out.
- **C92** Damaged files: what Dump notices *(proved)* every condition in C66_outcomes is a function of those bytes (`SameFrame`); the file of a client has the frame of `tight_file`.
  Damage to the version, to the number of sections and to counts and offsets in the table of contents is covered by C66_outcomes, which says for any bytes what happens.
- **C93** Each kind of metric is in the file what its documentation says *(proved)* `Built.all` carries what the constructors fix through every history; C05 (`DescribesAt`) carries it into the file; `values_of` finds the value records of a metric.
  What each constructor passes on is C48; the timer's and the histogram's unit is the one given to the constructor (C03).
- **C94** The file determines what the registry holds *(proved)* every view of the registry is computed from the result of `Dump` alone (`metricOf`, `valueOf`, `indomOf`, `instOf`), by C05 (`DescribesAt`); `view_perm` compares the records with the objects.
  Names of domains are not in the file, only their numbers, and two names can have the same one (C84). NULs at the end of strings cannot be told from padding.
- **C95** A counter used by several goroutines never goes backwards *(proved)* by linearizability (C20) it is enough to look at executions whose calls are atomic; there each call of the counter leaves it or raises it (`MonoInv.step`), and the poller's answers are bounded by the current value (`PollInv.step`). For calls of several goroutines (`PropsConcOrder`) the counter's value after each event of the history is a monotone function of the event's number, and every Val answers with that value (`OrdInv`).
  `NoOverflow` and `CvNoOverflow` are the conditions on increments; Up and MustInc are Inc up to a panic (C86).
- **C96** Start and Stop of a timer alternate, whichever goroutines call them *(proved)* by linearizability (C20) calls are atomic; `TimInv` follows whether the timer runs after each event of the history: only Start makes it run, only Stop ends it, and both answer by what was the case before.
  Stop can fail on a running timer (then it runs on), so the call of Stop between two Starts need not be the only one.
- **C97** Set writes to the file exactly when the value changes, and always for a NaN *(proved)* `goEq_iff` describes Go's `!=` on the stored interface values by bits; the write is that of C10.
  The value has a place in the file (the client runs) and the file is long enough; strings are in C05 and C08.

## 5. Trusted base

- The kernel of Lean 4.33.0. No `sorry`, no axioms of our own, no `native_decide`, no `bv_decide`. `decide +kernel` is used for concrete runs; it is checked by the kernel alone.
- The axioms of each property theorem, as printed by `#print axioms`, are listed below; none uses more than `propext`, `Classical.choice` and `Quot.sound`.
- The reading of the Go code into the model (section 2), and of the semantics of Go, its standard library and the operating system used there.

Axioms: none

`C10_refuted`, `C27_refuted`, `C27_swapped_partial`, `C59_refuted`

Axioms: propext

`C10_writeVal`, `C22_upAll`, `C26_accessors`, `C39_refuted_dotdot`, `C51_refuted`, `Dump.C32_refuted`, `Dump.C32_refuted_negative_count`, `Dump.C32_refuted_unknown_type`, `Dump.C32_refuted_wraparound`, `Dump.C35_short`, `ObjText.C79_desc`, `ObjText.C79_once`

Axioms: propext, Quot.sound

`C08_unpublished`, `C13_refuted`, `C13_refuted_duplicate`, `C15_refuted`, `C18_refuted`, `C23_refuted`, `C27_refuted_example`, `C31_exact`, `C31_refuted`, `C37_refuted_shared`, `C37_start`, `C37_stop_inactive`, `C39_absolute`, `C39_config`, `C39_dir`, `C39_location_partial`, `C39_refuted`, `C42_race`, `C42_refuted`, `C43_refuted`, `C43_refuted_duplicate`, `C43_refuted_lost_update`, `C43_refuted_shared_counts`, `C43_refuted_shared_fails`, `C49_bounds`, `C53_exists`, `C53_failed_partial`, `C53_refuted`, `C60_lines`, `C61_names`, `C62_refuted_crash`, `C68_refuted`, `C70_names`, `C70_refuted_again`, `C70_refuted_start`, `C70_refuted_stop`, `C71_before_partial`, `C72_refuted_histogram`, `C74_refuted_count`, `C74_refuted_readers`, `C74_refuted_version`, `C76_file_partial`, `C76_refuted`, `C77_refuted`, `C77_refuted_tool`, `C82_refuted`, `C82_refuted_fails`, `C82_refuted_file`, `C82_refuted_twice`, `C83_refuted_calls`, `C83_refuted_unchecked`, `C84_refuted_clients`, `C84_refuted_indoms`, `C84_refuted_instances`, `C86_client`, `C86_client_iff`, `C86_which`, `C87_refuted`, `C87_unknown_partial`, `C88_length_partial`, `C89_must`, `LibText.C65_names`, `ObjText.C79_domain_partial`, `ObjText.C79_refuted_desc`, `Units.C28_refuted_example`, `Units.C29_base`, `Units.C29_methods`, `Units.C29_order`, `Units.C64_refuted_example`, `Units.C64_unchanged_partial`

Axioms: propext, Classical.choice, Quot.sound

`C01_exact`, `C01_records`, `C01_sections`, `C02_terminates`, `C03_dump_describes`, `C04_no_half_written`, `C05_file_follows_partial`, `C05_refuted`, `C05_set`, `C06_one_value`, `C07_accepts_int`, `C07_accepts_uint`, `C07_new`, `C07_set`, `C07_stored`, `C07_typed`, `C08_refuted`, `C08_rejected_partial`, `C10_exact`, `C10_writeString_partial`, `C10_write_partial`, `C11_disjoint_writes`, `C12_counts`, `C13_duplicate`, `C13_hasIndom_partial`, `C13_hasMetric`, `C13_metric_call`, `C14_frozen`, `C15_failed_partial`, `C16_names_stored`, `C16_version_iff`, `C17_cluster`, `C17_hash`, `C17_ids`, `C18_ids_partial`, `C18_one_byte_partial`, `C18_refuted_large`, `C19_counter_partial`, `C19_refuted`, `C19_step`, `C19_vector_partial`, `C20_file`, `C20_inc_sum`, `C20_inc_sum_vector`, `C20_linearizable`, `C20_no_deadlock`, `C20_race_free`, `C21_construct`, `C21_history`, `C21_setInstance`, `C21_valInstance`, `C22_active`, `C22_gauge`, `C22_incAll`, `C23_exact`, `C23_setAll_partial`, `C24_exact`, `C24_history`, `C24_timer`, `C24_units`, `C24_value`, `C25_exact`, `C25_gauge`, `C25_rounded`, `C25_vector`, `C26_exact`, `C26_history`, `C26_record`, `C30_grammar`, `C30_rejected`, `C31_match_partial`, `C31_refuted_repeat`, `C31_reuse`, `C36_references`, `C37_published`, `C37_register`, `C37_stop_partial`, `C38_partial`, `C38_refuted`, `C38_refuted_example`, `C40_aligned`, `C41_string_replaced`, `C42_apart_partial`, `C43_no_deadlock`, `C43_registered_partial`, `C44_mixed_partial`, `C44_refuted`, `C45_exact`, `C45_names_partial`, `C45_refuted`, `C46_own_partial`, `C46_refuted`, `C47_library_partial`, `C47_refuted`, `C48_counter`, `C48_counterVector`, `C48_domain`, `C48_gauge`, `C48_gaugeVector`, `C48_histogram`, `C48_singleton`, `C48_timer`, `C50_exact`, `C50_exact_last`, `C50_file_partial`, `C50_line`, `C50_refuted`, `C51_comment_partial`, `C51_exact`, `C52_refuted`, `C52_separate_partial`, `C52_shared_partial`, `C54_client`, `C54_header`, `C55_toc`, `C56_exact`, `C56_text`, `C57_writer`, `C58_inj`, `C58_numbers`, `C58_printed`, `C58_values`, `C59_number_partial`, `C60_types`, `C61_units`, `C62_apart_partial`, `C62_refuted_missing`, `C63_held_partial`, `C63_refuted_stop`, `C63_refuted_twice`, `C67_front_to_back_partial`, `C67_refuted_generation`, `C67_refuted_order`, `C67_refuted_version`, `C67_stamp_first`, `C68_no_race_partial`, `C70_path_partial`, `C70_refuted`, `C71_readers_partial`, `C71_refuted`, `C72_partial`, `C72_refuted_string`, `C73_apart_partial`, `C73_first_partial`, `C73_last_partial`, `C73_refuted`, `C74_partial`, `C74_readers_partial`, `C74_where_partial`, `C75_tool`, `C77_tool_partial`, `C77_written_partial`, `C78_one`, `C78_partial`, `C78_refuted`, `C81_instance`, `C81_singleton`, `C82_no_deadlock`, `C82_partial`, `C83_file`, `C83_refuted_panic`, `C83_refuted_start`, `C83_units_partial`, `C84_clients_partial`, `C84_file_indoms`, `C84_file_instances`, `C84_ids_partial`, `C84_near_partial`, `C84_refuted_file`, `C84_refuted_large`, `C85_generation`, `C85_notice_partial`, `C85_refuted`, `C86_active`, `C86_ends`, `C86_free`, `C86_must`, `C86_record`, `C86_up`, `C88_numbers`, `C88_ops`, `C88_refuted`, `C88_values`, `C89_all_or_nothing`, `C89_bytes`, `C89_shared`, `C90_counts`, `C90_kept`, `C90_values`, `C91_any`, `C91_any_extra`, `C91_cut`, `C91_extra`, `C92_hang`, `C92_refused`, `C92_unnoticed`, `C93_file`, `C93_instances`, `C94_same_file`, `C95_order`, `C95_poll`, `C95_quiet`, `C95_vector_order`, `C95_vector_poll`, `C95_vector_quiet`, `C96_one`, `C96_start`, `C96_stop`, `C97_equal`, `C97_written`, `Dump.C09_round_trip`, `Dump.C32_no_crash_partial`, `Dump.C33_header`, `Dump.C33_items`, `Dump.C34_schedule_independent`, `Dump.C34_terminates`, `Dump.C35_generation`, `Dump.C35_magic`, `Dump.C35_toc`, `Dump.C66_accepts`, `Dump.C66_outcomes`, `Dump.C69_deterministic_partial`, `Dump.C69_exact`, `Dump.C69_refuted`, `Dump.C69_refuted_wraparound`, `Dump.C92_frame`, `Examples.C80_acme_forever`, `Examples.C80_acme_serial`, `Examples.C80_download`, `Examples.C80_histogram`, `Examples.C80_http_counter`, `Examples.C80_instance_string`, `Examples.C80_refuted_runtime`, `Examples.C80_runtime_partial`, `Examples.C80_simple`, `Examples.C80_simple_string`, `Examples.C80_singleton_counter`, `Examples.C80_singleton_string`, `LibText.C65_enums`, `LibText.C65_made`, `LibText.C65_text`, `ObjText.C79_refuted_ident`, `ObjText.C79_refuted_order`, `ObjText.C79_value`, `Units.C28_exact`, `Units.C28_odd_partial`, `Units.C28_range`, `Units.C28_refuted`, `Units.C29_independent`, `Units.C64_refuted`, `ieee_lawful`, `ieee_nearest`

## 6. How to read seeded/LOG.jsonl

Each line is one wrong edit of the model, made in a copy outside this repository and rebuilt.

- `theorems_failed` lists the declarations whose proofs no longer compiled. The build stopped as soon as every claim named in `claim` was reached.
- `claim_theorems_without_proof` lists the theorems of the claim that failed themselves or that depend on a declaration that failed. A dependency that fails leaves the theorem without a proof; it does not show that the theorem is false of the edited program.
- Of the 504 attempts, in 139 a theorem of the claim itself is among `theorems_failed`. In the other 365 it was not seen to fail itself: for nearly all of these only a lemma it depends on failed, and a lemma can fail because its proof script no longer fits. These lines are weaker evidence that the theorem is tight.
- `theorems_tightened` is filled in for the 17 attempts that led to a stronger or a new theorem.
