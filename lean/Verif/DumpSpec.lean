import Verif.DumpModel
/-
Specification: what it means that a dump describes a registry. Independent of how the file is
produced; addresses are existentially quantified.
-/
namespace Speed

open Dump (Result)

/-- A string without its trailing NUL bytes: what a reader of a NUL-padded field can recover. -/
def trimNul (s : List Byte) : List Byte := (s.reverse.dropWhile (· = 0)).reverse

/-- The value Go map lookup `m[k]` gives. -/
def look {α : Type} (m : List (Nat × α)) (k : Nat) : Option α := (m.find? (fun p => p.1 = k)).map Prod.snd

/-- Resolve a string offset. -/
def strAt (D : Result) (off : BitVec 64) : Option Str := (look D.strings off.toNat).map (fun s => trimNul s.payload)

/-- Resolve a name field. -/
def nameOf (D : Result) : Dump.Name → Option Str
  | .inl bs => some (trimNul bs)
  | .ref off => strAt D off

/-- Resolve a help text offset; 0 means no text. -/
def textOf (D : Result) (off : BitVec 64) : Option Str := if off = 0 then some [] else strAt D off

/-- Where the records of a file are, by object. -/
structure Addrs where
  indom : Nat → Nat
  inst : Nat → Str → Nat
  metric : Nat → Nat
  value : Nat → Option Str → Nat

/-- The names of a metric's values: `none` for a singleton, `some n` for instance `n`. -/
def Metric.slotNames (m : Metric) : List (Option Str) :=
  match m.body with
  | .single _ => [none]
  | .inst d _ => d.insts.map (fun i => some i.name)

/-- The metric's current value in a slot: what `Val()` or `ValInstance` returns. -/
def Metric.cur (m : Metric) (s : Option Str) : Option GoVal :=
  match m.body, s with
  | .single v, none => some v
  | .inst _ vs, some n => (vs.find? (fun p => p.1 = n)).map Prod.snd
  | _, _ => none

/-- `v` is a value of the type that `t` names (metrics.go:20-28). -/
def Typed (t : MetricType) (v : GoVal) : Prop :=
  (t = Int32Type ∧ ∃ x, v = .int32 x) ∨ (t = Uint32Type ∧ ∃ x, v = .uint32 x) ∨
  (t = Int64Type ∧ ∃ x, v = .int64 x) ∨ (t = Uint64Type ∧ ∃ x, v = .uint64 x) ∨
  (t = FloatType ∧ ∃ x, v = .float32 x) ∨ (t = DoubleType ∧ ∃ x, v = .float64 x) ∨
  (t = StringType ∧ ∃ x, v = .str x)

def MetricShows (D : Result) (x : Dump.Metric) (m : Metric) : Prop :=
  nameOf D x.name = some (trimNul m.desc.name) ∧ x.item = m.desc.id ∧ x.typ = m.desc.t ∧
  x.sem = m.desc.sem ∧ x.unit = m.desc.unit ∧
  x.indom = (match m.indom with | some d => d.id | none => -1) ∧ x.padding = 0 ∧
  textOf D x.shorttext = some (trimNul m.desc.short) ∧ textOf D x.longtext = some (trimNul m.desc.long)

def IndomShows (D : Result) (A : Addrs) (instLen : Nat) (x : Dump.InstanceDomain) (d : Indom) : Prop :=
  x.serial = d.id ∧ x.count.toNat = d.insts.length ∧
  ((List.range d.insts.length).map (fun j => x.offset.toNat + j * instLen)).Perm
    (d.insts.map (fun i => A.inst d.uid i.name)) ∧
  textOf D x.shorttext = some (trimNul d.short) ∧ textOf D x.longtext = some (trimNul d.long)

def InstShows (D : Result) (A : Addrs) (x : Dump.Instance) (d : Indom) (i : Inst) : Prop :=
  x.indom.toNat = A.indom d.uid ∧ x.internal = i.id ∧ x.padding = 0 ∧
  nameOf D x.external = some (trimNul i.name)

/-- The value record refers to its metric and instance and decodes to `v`. -/
def ValueShows (D : Result) (A : Addrs) (x : Dump.Value) (m : Metric) (s : Option Str) (v : GoVal) : Prop :=
  x.metric.toNat = A.metric m.uid ∧
  (match s, m.indom with
   | some n, some d => x.inst.toNat = A.inst d.uid n
   | _, _ => x.inst = 0) ∧
  (match v with
   | .str t => x.val = 255 ∧ strAt D x.extra = some (trimNul t)
   | v => Dump.fixedVal x.val m.desc.t = some v ∧ x.extra = 0)

/-- All strings that the file of a registry holds. -/
def Reg.strings (r : Reg) : List Str :=
  r.indoms.flatMap (fun d => [d.short, d.long].filter (· ≠ []) ++
    (if r.version2 then d.insts.map (·.name) else [])) ++
  r.metrics.flatMap (fun m => (if r.version2 then [m.desc.name] else []) ++
    [m.desc.short, m.desc.long].filter (· ≠ []) ++
    m.slotNames.filterMap (fun s => match m.cur s with | some (.str t) => some t | _ => none))

/-- The maps of the dump hold one record for each registered object, under distinct keys, and nothing
else; every record shows its object, and all references between records are right. -/
structure DescribesAt (r : Reg) (D : Result) (A : Addrs) : Prop where
  indomKeys : (D.indoms.map Prod.fst).Perm (r.indoms.map (fun d => A.indom d.uid))
  instKeys : (D.instances.map Prod.fst).Perm
    (r.indoms.flatMap (fun d => d.insts.map (fun i => A.inst d.uid i.name)))
  metricKeys : (D.metrics.map Prod.fst).Perm (r.metrics.map (fun m => A.metric m.uid))
  valueKeys : (D.values.map Prod.fst).Perm
    (r.metrics.flatMap (fun m => m.slotNames.map (fun s => A.value m.uid s)))
  nodup : (D.indoms.map Prod.fst).Nodup ∧ (D.instances.map Prod.fst).Nodup ∧
    (D.metrics.map Prod.fst).Nodup ∧ (D.values.map Prod.fst).Nodup ∧ (D.strings.map Prod.fst).Nodup
  indoms : ∀ d ∈ r.indoms, ∃ x, look D.indoms (A.indom d.uid) = some x ∧ IndomShows D A r.InstanceLength x d
  insts : ∀ d ∈ r.indoms, ∀ i ∈ d.insts, ∃ x, look D.instances (A.inst d.uid i.name) = some x ∧
    InstShows D A x d i
  metrics : ∀ m ∈ r.metrics, ∃ x, look D.metrics (A.metric m.uid) = some x ∧ MetricShows D x m
  values : ∀ m ∈ r.metrics, ∀ s ∈ m.slotNames, ∃ v x, m.cur s = some v ∧
    look D.values (A.value m.uid s) = some x ∧ ValueShows D A x m s v
  strings : (D.strings.map (fun p => trimNul p.2.payload)).Perm (r.strings.map trimNul)

def Describes (r : Reg) (D : Result) : Prop := ∃ A, DescribesAt r D A

end Speed
