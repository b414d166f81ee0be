import Verif.Types
import Mathlib.Data.List.Forall2
/-
Model of the reader `mmvdump.Dump` (mmvdump/mmvdump.go).

The structs the reader casts to (mmvdump/pcp.go:20-164) are decoded field by field; on a
little-endian machine with Go's layout rules all fields are at their natural offsets and there is no
padding, which is what the `unsafe.Pointer` casts see. The real items are pointers into the data; the
model decodes them at once (simplification: the data does not change during a `Dump`).
-/
namespace Speed.Dump

/-! ### Decoded structs (mmvdump/pcp.go) -/

/-- `Header` (mmvdump/pcp.go:20-27) -/
structure Header where
  magic : List Byte
  version : BitVec 32
  g1 : BitVec 64
  g2 : BitVec 64
  toc : BitVec 32
  flag : BitVec 32
  process : BitVec 32
  cluster : BitVec 32
  deriving DecidableEq, Repr

/-- `Toc` (mmvdump/pcp.go:44-48) -/
structure Toc where
  type : BitVec 32
  count : BitVec 32
  offset : BitVec 64
  deriving DecidableEq, Repr

/-- A name field: inline bytes in version 1, the offset of a string in version 2. -/
inductive Name where
  | inl (bs : List Byte)
  | ref (off : BitVec 64)
  deriving DecidableEq, Repr

/-- `InstanceBase`, `Instance1`, `Instance2` (mmvdump/pcp.go:57-84) -/
structure Instance where
  indom : BitVec 64
  padding : BitVec 32
  internal : BitVec 32
  external : Name
  deriving DecidableEq, Repr

/-- `InstanceDomain` (mmvdump/pcp.go:86-89) -/
structure InstanceDomain where
  serial : BitVec 32
  count : BitVec 32
  offset : BitVec 64
  shorttext : BitVec 64
  longtext : BitVec 64
  deriving DecidableEq, Repr

/-- `MetricBase`, `Metric1`, `Metric2` (mmvdump/pcp.go:104-148) -/
structure Metric where
  name : Name
  item : BitVec 32
  typ : BitVec 32
  sem : BitVec 32
  unit : BitVec 32
  indom : BitVec 32
  padding : BitVec 32
  shorttext : BitVec 64
  longtext : BitVec 64
  deriving DecidableEq, Repr

/-- `Value` (mmvdump/pcp.go:151-159) -/
structure Value where
  val : BitVec 64
  extra : BitVec 64
  metric : BitVec 64
  inst : BitVec 64
  deriving DecidableEq, Repr

/-- `String` (mmvdump/pcp.go:162-164) -/
structure Str256 where
  payload : List Byte
  deriving DecidableEq, Repr

/-! ### Raw access -/

/-- `n` bytes at `off`. -/
def bytesAt (data : List Byte) (off n : Nat) : List Byte := (data.drop off).take n

/-- A 32-bit field. -/
def f32 (data : List Byte) (off : Nat) : BitVec 32 := BitVec.ofNat 32 (unLe (bytesAt data off 4))

/-- A 64-bit field. -/
def f64 (data : List Byte) (off : Nat) : BitVec 64 := BitVec.ofNat 64 (unLe (bytesAt data off 8))

/-- Result of a Go function returning `(x, error)`, or a panic. -/
inductive Out (α : Type) where
  | ok (a : α)
  | err
  | panic
  deriving DecidableEq, Repr

/-- The guard and the cast common to all item readers: `uint64(len(data)) < offset+length` (the
addition wraps around at 2^64), then `&data[offset]`, which panics outside the slice. `S` is the size
of the struct cast to. (An index inside the data with a struct reaching outside cannot happen; it is
given a panic.) -/
def guardRead {α : Type} (data : List Byte) (off : Nat) (L S : Nat) (x : α) : Out α :=
  if data.length < (off + L) % 2 ^ 64 then .err
  else if off + S ≤ data.length ∧ off < data.length then .ok x
  else .panic

/-- `readHeader` (mmvdump/mmvdump.go:24-40). -/
def readHeader (data : List Byte) : Out Header :=
  if data.length < 40 then .err
  else
    let h : Header := ⟨bytesAt data 0 4, f32 data 4, f64 data 8, f64 data 16, f32 data 24, f32 data 28,
      f32 data 32, f32 data 36⟩
    if h.magic.take 3 ≠ [0x4D, 0x4D, 0x56] then .err
    else if h.g1 ≠ h.g2 then .err
    else .ok h

/-- `readToc` (mmvdump/mmvdump.go:42-48). -/
def readToc (data : List Byte) (off : Nat) : Out Toc :=
  guardRead data off 16 16 ⟨f32 data off, f32 data (off + 4), f64 data (off + 8)⟩

/-- `readTocs` (mmvdump/mmvdump.go:110-122); `make` panics on a negative count. `uint64(i)*TocLength` cannot
wrap. -/
def readTocs (data : List Byte) (count : BitVec 32) : Out (List Toc) :=
  if count.toInt < 0 then .panic
  else go count.toNat 0
where
  /-- the loop, from index `i`, `n` iterations to go -/
  go : Nat → Nat → Out (List Toc)
  | 0, _ => .ok []
  | n + 1, i =>
    match readToc data (40 + i * 16) with
    | .err => .err
    | .panic => .panic
    | .ok t =>
      match go n (i + 1) with
      | .ok ts => .ok (t :: ts)
      | .err => .err
      | .panic => .panic

/-- mmvdump/mmvdump.go:53-56, 161-164 -/
def instanceLength (version : BitVec 32) : Nat := if version = 2 then 24 else 80
/-- mmvdump/mmvdump.go:78-81, 194-197 -/
def metricLength (version : BitVec 32) : Nat := if version = 2 then 48 else 104

/-- `readInstance` (mmvdump/mmvdump.go:52-67): any version but 1 is cast to `Instance2`. -/
def readInstance (version : BitVec 32) (data : List Byte) (off : Nat) : Out Instance :=
  if version = 1 then
    guardRead data off (instanceLength version) 80
      ⟨f64 data off, f32 data (off + 8), f32 data (off + 12), .inl (bytesAt data (off + 16) 64)⟩
  else
    guardRead data off (instanceLength version) 24
      ⟨f64 data off, f32 data (off + 8), f32 data (off + 12), .ref (f64 data (off + 16))⟩

/-- `readInstanceDomain` (mmvdump/mmvdump.go:69-75). -/
def readInstanceDomain (data : List Byte) (off : Nat) : Out InstanceDomain :=
  guardRead data off 32 32
    ⟨f32 data off, f32 data (off + 4), f64 data (off + 8), f64 data (off + 16), f64 data (off + 24)⟩

/-- The fields of `MetricBase` at `off` (mmvdump/pcp.go:104-112). -/
def metricBase (data : List Byte) (n : Name) (off : Nat) : Metric :=
  ⟨n, f32 data off, f32 data (off + 4), f32 data (off + 8), f32 data (off + 12), f32 data (off + 16),
    f32 data (off + 20), f64 data (off + 24), f64 data (off + 32)⟩

/-- `readMetric` (mmvdump/mmvdump.go:77-92). -/
def readMetric (version : BitVec 32) (data : List Byte) (off : Nat) : Out Metric :=
  if version = 1 then
    guardRead data off (metricLength version) 104
      (metricBase data (.inl (bytesAt data off 64)) (off + 64))
  else
    guardRead data off (metricLength version) 48
      (metricBase data (.ref (f64 data off)) (off + 8))

/-- `readValue` (mmvdump/mmvdump.go:94-100). -/
def readValue (data : List Byte) (off : Nat) : Out Value :=
  guardRead data off 32 32 ⟨f64 data off, f64 data (off + 8), f64 data (off + 16), f64 data (off + 24)⟩

/-- `readString` (mmvdump/mmvdump.go:102-108). -/
def readString (data : List Byte) (off : Nat) : Out Str256 :=
  guardRead data off 256 256 ⟨bytesAt data off 256⟩

/-! ### `readItems` (mmvdump/mmvdump.go:124-158) as a pool of goroutines -/

/-- Program counter of one goroutine of mmvdump/mmvdump.go:136-148. -/
inductive Pc (α : Type) where
  /-- before `if err == nil` -/
  | start
  /-- before `readItem` -/
  | read
  /-- before `m.Lock()` -/
  | lock (x : α)
  /-- holding the mutex, before the map assignment -/
  | put (x : α)
  /-- before `m.Unlock()` -/
  | unlock
  /-- before `err = ierr` -/
  | setErr
  /-- before `wg.Done()` -/
  | fin
  /-- returned -/
  | done
  deriving DecidableEq, Repr

/-- State of a `readItems` call: the goroutines (the `i`-th reads at offset `keys[i]`), the shared
error variable (nil or not), the map, the mutex, the WaitGroup counter and whether the process has
crashed. The unsynchronised reads and writes of `err` are single steps. -/
structure IState (α : Type) where
  pcs : List (Pc α)
  err : Bool
  items : List (Nat × α)
  locked : Bool
  wg : Nat
  crashed : Bool
  deriving Repr

/-- Go map assignment `items[k] = x` on a list of pairs. -/
def mapPut {α : Type} (items : List (Nat × α)) (k : Nat) (x : α) : List (Nat × α) :=
  (k, x) :: items.filter (fun p => p.1 ≠ k)

/-- One step of goroutine `i`, whose offset is `k`. -/
def istep {α : Type} (rd : Nat → Out α) (keys : List Nat) (s : IState α) (i : Nat) : Option (IState α) :=
  if s.crashed then none else
  match s.pcs[i]?, keys[i]? with
  | some pc, some k =>
    match pc with
    | .start => some { s with pcs := s.pcs.set i (if s.err then .fin else .read) }
    | .read =>
      match rd k with
      | .ok x => some { s with pcs := s.pcs.set i (.lock x) }
      | .err => some { s with pcs := s.pcs.set i .setErr }
      | .panic => some { s with crashed := true }
    | .lock x => if s.locked then none else some { s with locked := true, pcs := s.pcs.set i (.put x) }
    | .put x => some { s with items := mapPut s.items k x, pcs := s.pcs.set i .unlock }
    | .unlock => some { s with locked := false, pcs := s.pcs.set i .fin }
    | .setErr => some { s with err := true, pcs := s.pcs.set i .fin }
    | .fin => some { s with wg := s.wg - 1, pcs := s.pcs.set i .done }
    | .done => none
  | _, _ => none

def IStep {α : Type} (rd : Nat → Out α) (keys : List Nat) (s t : IState α) : Prop :=
  ∃ i, istep rd keys s i = some t

inductive IReach {α : Type} (rd : Nat → Out α) (keys : List Nat) (s : IState α) : IState α → Prop where
  | refl : IReach rd keys s s
  | tail {t u : IState α} : IReach rd keys s t → IStep rd keys t u → IReach rd keys s u

/-- The state after the goroutines have been launched (mmvdump/mmvdump.go:125-149). -/
def iinit {α : Type} (keys : List Nat) : IState α :=
  ⟨keys.map (fun _ => .start), false, [], false, keys.length, false⟩

/-- The offsets of the goroutines: `offset`, `offset+itemlength`, ... wrapping around at 2^64
(mmvdump/mmvdump.go:135). -/
def itemKeys (off L n : Nat) : List Nat := (List.range n).map (fun i => (off + i * L) % 2 ^ 64)

/-- Possible results of `readItems`: `wg.Add` panics on a negative count; otherwise `wg.Wait` returns
when the counter is 0, and the error variable decides. -/
def ReadItems {α : Type} (rd : Nat → Out α) (off : BitVec 64) (count : BitVec 32) (L : Nat)
    (out : Out (List (Nat × α))) : Prop :=
  if count.toInt < 0 then out = .panic
  else ∃ s, IReach rd (itemKeys off.toNat L count.toNat) (iinit (itemKeys off.toNat L count.toNat)) s ∧
    ((s.crashed = true ∧ out = .panic) ∨
     (s.crashed = false ∧ s.wg = 0 ∧ out = if s.err then .err else .ok s.items))

/-! ### `readComponents` and `Dump` (mmvdump/mmvdump.go:240-325) -/

/-- What `Dump` returns. -/
structure Result where
  header : Header
  tocs : List Toc
  metrics : List (Nat × Metric)
  values : List (Nat × Value)
  instances : List (Nat × Instance)
  indoms : List (Nat × InstanceDomain)
  strings : List (Nat × Str256)
  deriving DecidableEq, Repr

/-- Outcome of a `Dump` call. -/
inductive DumpOut where
  | ok (d : Result)
  | err
  | panic
  | hang
  deriving DecidableEq, Repr

/-- The section goroutine of one TOC entry (mmvdump/mmvdump.go:252-278), with its result; entries of another
type start no goroutine (`unknown`), so their `wg.Done` is missing. -/
inductive Sec where
  | instances (o : Out (List (Nat × Instance)))
  | indoms (o : Out (List (Nat × InstanceDomain)))
  | metrics (o : Out (List (Nat × Metric)))
  | values (o : Out (List (Nat × Value)))
  | strings (o : Out (List (Nat × Str256)))
  | unknown
  deriving DecidableEq, Repr

/-- `sec` is a possible result of the goroutine for `t`. -/
def SecOf (data : List Byte) (version : BitVec 32) (t : Toc) (sec : Sec) : Prop :=
  if t.type = 2 then ∃ o, sec = .instances o ∧
    ReadItems (readInstance version data) t.offset t.count (instanceLength version) o
  else if t.type = 1 then ∃ o, sec = .indoms o ∧
    ReadItems (readInstanceDomain data) t.offset t.count 32 o
  else if t.type = 3 then ∃ o, sec = .metrics o ∧
    ReadItems (readMetric version data) t.offset t.count (metricLength version) o
  else if t.type = 4 then ∃ o, sec = .values o ∧ ReadItems (readValue data) t.offset t.count 32 o
  else if t.type = 5 then ∃ o, sec = .strings o ∧ ReadItems (readString data) t.offset t.count 256 o
  else sec = .unknown

def Sec.isPanic : Sec → Bool
  | .instances .panic => true
  | .indoms .panic => true
  | .metrics .panic => true
  | .values .panic => true
  | .strings .panic => true
  | _ => false

def Sec.inst? : Sec → Option (Out (List (Nat × Instance)))
  | .instances o => some o
  | _ => none
def Sec.indom? : Sec → Option (Out (List (Nat × InstanceDomain)))
  | .indoms o => some o
  | _ => none
def Sec.metric? : Sec → Option (Out (List (Nat × Metric)))
  | .metrics o => some o
  | _ => none
def Sec.value? : Sec → Option (Out (List (Nat × Value)))
  | .values o => some o
  | _ => none
def Sec.string? : Sec → Option (Out (List (Nat × Str256)))
  | .strings o => some o
  | _ => none

def Out.items {α : Type} : Out (List α) → List α
  | .ok l => l
  | _ => []

def Out.failed {α : Type} : Out α → Bool
  | .ok _ => false
  | _ => true

/-- Final contents of a pair of result variables (map, error) that the goroutines with results `rs`
assign without synchronisation (mmvdump/mmvdump.go:255, 260, ...): of each variable the value assigned last
survives, or the zero value if there is no assignment. -/
def Pick {α : Type} (rs : List (Out (List α))) (m : List α) (e : Bool) : Prop :=
  (rs = [] ∧ m = [] ∧ e = false) ∨ ((∃ o ∈ rs, m = o.items) ∧ ∃ o ∈ rs, e = o.failed)

/-- `readComponents` and the error switch of `Dump`. -/
def Components (data : List Byte) (h : Header) (ts : List Toc) (out : DumpOut) : Prop :=
  ∃ secs : List Sec, List.Forall₂ (SecOf data h.version) ts secs ∧
    if secs.any Sec.isPanic then out = .panic
    else if Sec.unknown ∈ secs then out = .hang
    else ∃ mi ei md ed mm em mv ev ms es,
      Pick (secs.filterMap Sec.inst?) mi ei ∧ Pick (secs.filterMap Sec.indom?) md ed ∧
      Pick (secs.filterMap Sec.metric?) mm em ∧ Pick (secs.filterMap Sec.value?) mv ev ∧
      Pick (secs.filterMap Sec.string?) ms es ∧
      out = if ei || ed || em || ev || es then .err else .ok ⟨h, ts, mm, mv, mi, md, ms⟩

/-- `Dump` (mmvdump/mmvdump.go:287-325): the possible outcomes. -/
def Dumps (data : List Byte) (out : DumpOut) : Prop :=
  match readHeader data with
  | .err => out = .err
  | .panic => out = .panic
  | .ok h =>
    match readTocs data h.toc with
    | .err => out = .err
    | .panic => out = .panic
    | .ok ts => Components data h ts out

/-- `FixedVal` (mmvdump/mmvdump.go:328-345); the types of mmvdump/pcp.go:170-180. -/
def fixedVal (data : BitVec 64) (t : BitVec 32) : Option GoVal :=
  if t = 0 then some (.int32 (data.setWidth 32))
  else if t = 1 then some (.uint32 (data.setWidth 32))
  else if t = 2 then some (.int64 data)
  else if t = 3 then some (.uint64 data)
  else if t = 4 then some (.float32 (data.setWidth 32))
  else if t = 5 then some (.float64 data)
  else none

end Speed.Dump
