import Verif.Sym
/-
What a completely written MMV file contains, record by record. `σ` gives the location of every
record; `At v bs` says that the bytes `bs` are at address `v`.
-/
namespace Speed

/-- Zero-padded field. -/
def pad (n : Nat) (s : List Byte) : List Byte := s ++ zeros (n - s.length)

theorem pad_length {n : Nat} {s : List Byte} (h : s.length ≤ n) : (pad n s).length = n := by
  simp [pad]; omega

/-- The value slots of a metric: one for a singleton, one per instance otherwise. -/
def Metric.slots (m : Metric) : List (Option Str) :=
  match m.body with
  | .single _ => [none]
  | .inst d _ => d.insts.map (fun i => some i.name)

/-- Current value in a slot. -/
def Metric.val (m : Metric) : Option Str → Option GoVal
  | none => match m.body with | .single v => some v | _ => none
  | some n => match m.body with | .inst _ vs => lookupVal vs n | _ => none

/-- The value has the shape that `resolve` (metrics.go:104-129) gives it for the metric's type. -/
def ValOK (t : MetricType) (v : GoVal) : Prop :=
  if t = StringType then ∃ s, v = .str s ∧ s.length ≤ StringLength
  else (∀ s, v ≠ .str s) ∧ ∃ bs, binaryWrite v = some bs

/-- `kind` is one the type switch of `writeMetrics` handles, with the right body. -/
def Metric.Known (m : Metric) : Prop :=
  match m.body with
  | .single _ => m.kind = .singleton ∨ m.kind = .counter ∨ m.kind = .gauge ∨ m.kind = .timer
  | .inst _ _ => m.kind = .instance_ ∨ m.kind = .counterVector ∨ m.kind = .gaugeVector ∨ m.kind = .histogram

/-- Number of non-empty texts among two. -/
def textCount (a b : Str) : Nat := (if a = [] then 0 else 1) + (if b = [] then 0 else 1)

/-- Strings a metric contributes to the string section in either version (registry.go:181-192). -/
def Metric.stringCount (m : Metric) : Nat :=
  textCount m.desc.short m.desc.long + (if m.desc.t = StringType then m.valueCount else 0)

/-- The registry is one for which `Start` is specified. The counting and uniqueness fields hold for
every registry built through the API (proved in `Registry.lean`); the fields marked (C44)-(C47) are
real preconditions: the code misbehaves without them. -/
structure Reg.OK (r : Reg) : Prop where
  indomUid : (r.indoms.map (·.uid)).Nodup
  metricUid : (r.metrics.map (·.uid)).Nodup
  instName : ∀ d ∈ r.indoms, (d.insts.map (·.name)).Nodup
  instanceCount : r.instanceCount = (r.indoms.map (fun d => d.insts.length)).sum
  valueCount : r.valueCount = (r.metrics.map Metric.valueCount).sum
  stringcount : r.stringcount =
    (r.indoms.map (fun d => textCount d.short d.long)).sum + (r.metrics.map Metric.stringCount).sum
  v1metric : r.version2 = false → ∀ m ∈ r.metrics, m.desc.name.length ≤ MaxV1NameLength
  v1inst : r.version2 = false → ∀ d ∈ r.indoms, ∀ i ∈ d.insts, i.name.length ≤ MaxV1NameLength
  metricName : ∀ m ∈ r.metrics, m.desc.name.length ≤ StringLength
  instNameLen : ∀ d ∈ r.indoms, ∀ i ∈ d.insts, i.name.length ≤ StringLength
  nonempty : r.indoms ≠ [] → r.instanceCount ≠ 0                                     -- (C44)
  indomText : ∀ d ∈ r.indoms, d.short.length ≤ StringLength ∧ d.long.length ≤ StringLength -- (C45)
  metricText : ∀ m ∈ r.metrics, m.desc.short.length ≤ StringLength ∧
    m.desc.long.length ≤ StringLength                                                -- (C45)
  vals : ∀ m ∈ r.metrics, ∀ s ∈ m.slots, ∃ v, m.val s = some v ∧ ValOK m.desc.t v    -- (C45)
  registered : ∀ m ∈ r.metrics, ∀ d, m.indom = some d → d ∈ r.indoms                 -- (C46)
  known : ∀ m ∈ r.metrics, m.Known                                                   -- (C47)

/-- The iteration orders are orders of the right maps. -/
structure Ord.OK (o : Ord) (r : Reg) : Prop where
  indoms : o.indoms.Perm r.indoms
  insts : ∀ d ∈ r.indoms, (o.insts d).Perm d.insts
  metrics : o.metrics.Perm r.metrics
  vals : ∀ m ∈ r.metrics, ∀ d vs, m.body = .inst d vs → (o.vals m).Perm d.insts

/-! ### Header and table of contents -/

/-- The 40 bytes of the header (client.go:276-312), with the given second generation number. -/
def hdrBytes (r : Reg) (e : Env) (g2 : Nat) : List Byte :=
  magic ++ [0] ++ le 4 (if r.version2 then 2 else 1) ++ le 8 e.gen.toNat ++ le 8 g2 ++
  le 4 r.tocCount ++ le 4 e.flag.toNat ++ le 4 e.pid.toNat ++ le 4 e.clusterID.toNat

/-- The table of contents: section type, number of entries, offset. -/
def tocEntries (r : Reg) : List (Nat × Nat × Nat) :=
  (if r.InstanceDomainCount > 0 then [(1, r.InstanceDomainCount, r.indomoffset)] else []) ++
  (if r.InstanceCount > 0 then [(2, r.InstanceCount, r.instanceoffset)] else []) ++
  [(3, r.MetricCount, if r.MetricCount = 0 then 0 else r.metricsoffset)] ++
  [(4, r.ValuesCount, if r.MetricCount = 0 then 0 else r.valuesoffset)] ++
  (if r.StringCount > 0 then [(5, r.StringCount, r.stringsoffset)] else [])

def tocBytes (x : Nat × Nat × Nat) : List Byte := le 4 x.1 ++ le 4 x.2.1 ++ le 8 x.2.2

/-! ### Records -/

section
variable (r : Reg) (o : Ord) (At : Nat → List Byte → Prop) (σ : Seal)

/-- The string record `t` is at `x` and holds `s`. -/
def StrAt (t : Tok) (s : Str) (x : Nat) : Prop :=
  σ (.slot t) = some x ∧ At x (pad StringLength s)

/-- An optional description: offset 0 when empty. -/
def TextAt (t : Tok) (s : Str) (x : Nat) : Prop :=
  if s = [] then x = 0 else StrAt At σ t s x

def IndomRec (d : Indom) : Prop :=
  ∃ v ioff so lo, σ (.slot (.indom d.uid)) = some v ∧ σ (.ghost (.dom d.uid)) = some ioff ∧
    (∀ (j : Nat) (i : Inst), (o.insts d)[j]? = some i →
      σ (.slot (.inst d.uid i.name)) = some (ioff + j * r.InstanceLength)) ∧
    TextAt At σ (.indomShort d.uid) d.short so ∧ TextAt At σ (.indomLong d.uid) d.long lo ∧
    At v (le 4 d.id.toNat ++ le 4 d.insts.length ++ le 8 ioff ++ le 8 so ++ le 8 lo)

def InstRec (d : Indom) (i : Inst) : Prop :=
  ∃ v inoff, σ (.slot (.inst d.uid i.name)) = some v ∧ σ (.cell (.off d.uid i.name)) = some v ∧
    σ (.slot (.indom d.uid)) = some inoff ∧
    if r.version2 then
      ∃ so, StrAt At σ (.instName d.uid i.name) i.name so ∧
        At v (le 8 inoff ++ le 4 0 ++ le 4 i.id.toNat ++ le 8 so)
    else At v (le 8 inoff ++ le 4 0 ++ le 4 i.id.toNat ++ pad (MaxV1NameLength + 1) i.name)

/-- The fixed part of a metric descriptor. -/
def descBytes (m : Metric) : List Byte :=
  le 4 m.desc.id.toNat ++ le 4 m.desc.t.toNat ++ le 4 m.desc.sem.toNat ++ le 4 m.desc.unit.toNat ++
  indomIdBytes m.indom ++ le 4 0

def DescRec (m : Metric) : Prop :=
  ∃ v so lo, σ (.slot (.metric m.uid)) = some v ∧
    TextAt At σ (.metShort m.uid) m.desc.short so ∧ TextAt At σ (.metLong m.uid) m.desc.long lo ∧
    if r.version2 then
      ∃ no, StrAt At σ (.metName m.uid) m.desc.name no ∧
        At v (le 8 no ++ descBytes m ++ le 8 so ++ le 8 lo)
    else At v (pad (MaxV1NameLength + 1) m.desc.name ++ descBytes m ++ le 8 so ++ le 8 lo)

/-- The 16 data bytes of a value record at `v`, and the address `u` that updates go to. -/
def ValData (m : Metric) (s : Option Str) (val : GoVal) (v u : Nat) : Prop :=
  if m.desc.t = StringType then
    ∃ str, val = .str str ∧ At v (le 8 (StringLength - 1) ++ le 8 u) ∧
      StrAt At σ (.valStr m.uid s) str u
  else u = v ∧ ∃ bs, binaryWrite val = some bs ∧ At v (pad MaxDataValueSize bs)

/-- First half of a value record. -/
def ValRec1 (m : Metric) (s : Option Str) (val : GoVal) : Prop :=
  ∃ v u, σ (.slot (.value m.uid s)) = some v ∧ σ (.cell (.upd m.uid s)) = some u ∧
    ValData At σ m s val v u

/-- Second half of a value record: back references to the descriptor and the instance. -/
def ValRec2 (m : Metric) (s : Option Str) : Prop :=
  ∃ v doff ioff, σ (.slot (.value m.uid s)) = some v ∧ σ (.slot (.metric m.uid)) = some doff ∧
    (match s, m.indom with
     | some n, some d => σ (.slot (.inst d.uid n)) = some ioff
     | _, _ => ioff = 0) ∧
    At (v + MaxDataValueSize) (le 8 doff ++ le 8 ioff)

/-- All records of an instance domain. -/
def IndomAll (d : Indom) : Prop := IndomRec r o At σ d ∧ ∀ i ∈ d.insts, InstRec r At σ d i

/-- All records of a metric. -/
def MetricAll (m : Metric) : Prop :=
  DescRec r At σ m ∧ ∀ s ∈ m.slots, ∀ val, m.val s = some val →
    ValRec1 At σ m s val ∧ ValRec2 At σ m s

/-- All records. -/
def AllRec : Prop :=
  (∀ d ∈ r.indoms, IndomAll r o At σ d) ∧ ∀ m ∈ r.metrics, MetricAll r At σ m

end

/-! ### Monotonicity -/

section
variable {r : Reg} {o : Ord} {At At' : Nat → List Byte → Prop} {σ τ : Seal}

theorem StrAt.mono {t s x} (hA : ∀ v bs, At v bs → At' v bs) (hs : σ.le τ)
    (h : StrAt At σ t s x) : StrAt At' τ t s x := ⟨hs _ _ h.1, hA _ _ h.2⟩

theorem TextAt.mono {t s x} (hA : ∀ v bs, At v bs → At' v bs) (hs : σ.le τ)
    (h : TextAt At σ t s x) : TextAt At' τ t s x := by
  unfold TextAt at *
  split at h
  · rw [if_pos (by assumption)]; exact h
  · rw [if_neg (by assumption)]; exact h.mono hA hs

theorem IndomRec.mono {d} (hA : ∀ v bs, At v bs → At' v bs) (hs : σ.le τ)
    (h : IndomRec r o At σ d) : IndomRec r o At' τ d := by
  obtain ⟨v, ioff, so, lo, h1, h0, h2, h3, h4, h5⟩ := h
  exact ⟨v, ioff, so, lo, hs _ _ h1, hs _ _ h0, fun j i hj => hs _ _ (h2 j i hj), h3.mono hA hs, h4.mono hA hs, hA _ _ h5⟩

theorem InstRec.mono {d i} (hA : ∀ v bs, At v bs → At' v bs) (hs : σ.le τ)
    (h : InstRec r At σ d i) : InstRec r At' τ d i := by
  obtain ⟨v, inoff, h1, h2, h3, h4⟩ := h
  refine ⟨v, inoff, hs _ _ h1, hs _ _ h2, hs _ _ h3, ?_⟩
  split at h4
  · rw [if_pos (by assumption)]
    obtain ⟨so, h5, h6⟩ := h4
    exact ⟨so, h5.mono hA hs, hA _ _ h6⟩
  · rw [if_neg (by assumption)]; exact hA _ _ h4

theorem DescRec.mono {m} (hA : ∀ v bs, At v bs → At' v bs) (hs : σ.le τ)
    (h : DescRec r At σ m) : DescRec r At' τ m := by
  obtain ⟨v, so, lo, h1, h2, h3, h4⟩ := h
  refine ⟨v, so, lo, hs _ _ h1, h2.mono hA hs, h3.mono hA hs, ?_⟩
  split at h4
  · rw [if_pos (by assumption)]
    obtain ⟨no, h5, h6⟩ := h4
    exact ⟨no, h5.mono hA hs, hA _ _ h6⟩
  · rw [if_neg (by assumption)]; exact hA _ _ h4

theorem ValData.mono {m s val v u} (hA : ∀ v bs, At v bs → At' v bs) (hs : σ.le τ)
    (h : ValData At σ m s val v u) : ValData At' τ m s val v u := by
  unfold ValData at *
  split at h
  · rw [if_pos (by assumption)]
    obtain ⟨str, h1, h2, h3⟩ := h
    exact ⟨str, h1, hA _ _ h2, h3.mono hA hs⟩
  · rw [if_neg (by assumption)]
    obtain ⟨h1, bs, h2, h3⟩ := h
    exact ⟨h1, bs, h2, hA _ _ h3⟩

theorem ValRec1.mono {m s val} (hA : ∀ v bs, At v bs → At' v bs) (hs : σ.le τ)
    (h : ValRec1 At σ m s val) : ValRec1 At' τ m s val := by
  obtain ⟨v, u, h1, h2, h3⟩ := h
  exact ⟨v, u, hs _ _ h1, hs _ _ h2, h3.mono hA hs⟩

theorem ValRec2.mono {m s} (hA : ∀ v bs, At v bs → At' v bs) (hs : σ.le τ)
    (h : ValRec2 At σ m s) : ValRec2 At' τ m s := by
  obtain ⟨v, doff, ioff, h1, h2, h3, h4⟩ := h
  refine ⟨v, doff, ioff, hs _ _ h1, hs _ _ h2, ?_, hA _ _ h4⟩
  split at h3
  · exact hs _ _ h3
  · exact h3

theorem IndomAll.mono {d} (hA : ∀ v bs, At v bs → At' v bs) (hs : σ.le τ)
    (h : IndomAll r o At σ d) : IndomAll r o At' τ d :=
  ⟨h.1.mono hA hs, fun i hi => (h.2 i hi).mono hA hs⟩

theorem MetricAll.mono {m} (hA : ∀ v bs, At v bs → At' v bs) (hs : σ.le τ)
    (h : MetricAll r At σ m) : MetricAll r At' τ m :=
  ⟨h.1.mono hA hs, fun s hs' val hv => ⟨(h.2 s hs' val hv).1.mono hA hs, (h.2 s hs' val hv).2.mono hA hs⟩⟩

theorem AllRec.mono (hA : ∀ v bs, At v bs → At' v bs) (hs : σ.le τ)
    (h : AllRec r o At σ) : AllRec r o At' τ :=
  ⟨fun d hd => (h.1 d hd).mono hA hs, fun m hm => (h.2 m hm).mono hA hs⟩

end

end Speed
