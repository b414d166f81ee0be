import Verif.DumpItems
import Verif.DumpSpec
import Verif.StartBuilder
import Verif.StartSound
/-
`Dump` of a completely written file gives the registry.
-/
namespace Speed
open Dump

/-! ### Reading -/

section
variable {F : Buf}

theorem bytesAt_of {v n : Nat} {bs : List Byte} (h : FileAt F v bs) (hn : bs.length = n) :
    bytesAt F v n = bs := by
  apply List.ext_getElem?
  intro j
  unfold bytesAt
  rw [List.getElem?_take, List.getElem?_drop]
  split
  · rename_i hj
    have hlt : j < bs.length := by omega
    rw [List.getElem?_eq_getElem hlt]
    exact h j _ (List.getElem?_eq_getElem hlt)
  · rw [List.getElem?_eq_none]; omega

theorem f32_of {v x : Nat} (h : FileAt F v (le 4 x)) : f32 F v = BitVec.ofNat 32 x := by
  unfold f32
  rw [bytesAt_of h (le_length _ _), unLe_le]
  apply BitVec.eq_of_toNat_eq
  simp

theorem f64_of {v x : Nat} (h : FileAt F v (le 8 x)) : f64 F v = BitVec.ofNat 64 x := by
  unfold f64
  rw [bytesAt_of h (le_length _ _), unLe_le]
  apply BitVec.eq_of_toNat_eq
  simp

theorem guardRead_ok {α : Type} {off L S : Nat} {x : α} (h1 : off + L ≤ F.length) (hF : F.length < 2 ^ 64)
    (hS : S ≤ L) (hL : 0 < L) : guardRead F off L S x = .ok x := by
  unfold guardRead
  rw [Nat.mod_eq_of_lt (by omega), if_neg (by omega), if_pos (by omega)]

theorem readTocs_go {l : List Dump.Toc} : ∀ {n i : Nat}, l.length = n →
    (∀ (j : Nat) (x : Dump.Toc), l[j]? = some x → readToc F (40 + (i + j) * 16) = .ok x) →
    readTocs.go F n i = .ok l := by
  induction l with
  | nil => intro n i hn _; simp at hn; subst hn; rfl
  | cons t ts ih =>
    intro n i hn h
    simp at hn; subst hn
    rw [readTocs.go]
    have h0 := h 0 t rfl
    simp only [Nat.add_zero] at h0
    rw [h0]
    have := ih (n := ts.length) (i := i + 1) rfl (fun j x hj => by
      have := h (j + 1) x (by simpa using hj)
      rw [show i + (j + 1) = i + 1 + j by omega] at this
      exact this)
    simp only [this]

/-- A section whose items all lie in the data is read completely. -/
theorem readItems_ok {α : Type} {rd : Nat → Out α} {f : Nat → α} {off n L : Nat}
    (hrd : ∀ k, k + L ≤ F.length → rd k = .ok (f k)) (hF : F.length < 2 ^ 64)
    (hn : n < 2 ^ 31) (hL : 0 < L) (hL2 : L ≤ 256) (hin : off + n * L ≤ F.length)
    {out : Out (List (Nat × α))} (h : ReadItems rd (BitVec.ofNat 64 off) (BitVec.ofNat 32 n) L out) :
    ∃ its, out = .ok its ∧ its.Perm ((List.range n).map (fun i => (off + i * L, f (off + i * L)))) := by
  have hoff : (BitVec.ofNat 64 off).toNat = off := by simp; omega
  have hcnt : (BitVec.ofNat 32 n).toNat = n := by simp; omega
  have hkeys : itemKeys off L n = (List.range n).map (fun i => off + i * L) := by
    unfold itemKeys
    apply List.map_congr_left
    intro i hi
    have : i * L ≤ n * L := Nat.mul_le_mul_right _ (by simp at hi; omega)
    exact Nat.mod_eq_of_lt (by omega)
  have hall : ∀ k ∈ itemKeys off L n, rd k = .ok (f k) := by
    intro k hk
    rw [hkeys] at hk
    simp only [List.mem_map, List.mem_range] at hk
    obtain ⟨i, hi, rfl⟩ := hk
    apply hrd
    have : (i + 1) * L ≤ n * L := Nat.mul_le_mul_right _ hi
    rw [Nat.add_mul] at this
    omega
  obtain ⟨_, h2⟩ := readItems_out (by
    have : (BitVec.ofNat 32 n).toInt = n := by
      rw [BitVec.toInt_eq_toNat_of_lt (by rw [hcnt]; omega), hcnt]
    omega) hL hL2 (by
      rw [hoff, hcnt]; intro k hk; rw [hall k hk]; simp) h
  rw [hoff, hcnt] at h2
  obtain ⟨its, h3, h4⟩ := h2 (fun k hk => ⟨_, hall k hk⟩)
  refine ⟨its, h3, h4.trans ?_⟩
  rw [allItems_map hall, hkeys, List.map_map]
  rfl

end

/-! ### Totality of the reader model -/

theorem secOf_exists (data : List Byte) (ver : BitVec 32) (t : Dump.Toc) : ∃ s, SecOf data ver t s := by
  unfold SecOf
  split
  · obtain ⟨o, h⟩ := readItems_exists (readInstance ver data) t.offset t.count (instanceLength ver)
    exact ⟨_, o, rfl, h⟩
  split
  · obtain ⟨o, h⟩ := readItems_exists (readInstanceDomain data) t.offset t.count 32
    exact ⟨_, o, rfl, h⟩
  split
  · obtain ⟨o, h⟩ := readItems_exists (readMetric ver data) t.offset t.count (metricLength ver)
    exact ⟨_, o, rfl, h⟩
  split
  · obtain ⟨o, h⟩ := readItems_exists (readValue data) t.offset t.count 32
    exact ⟨_, o, rfl, h⟩
  split
  · obtain ⟨o, h⟩ := readItems_exists (readString data) t.offset t.count 256
    exact ⟨_, o, rfl, h⟩
  · exact ⟨_, rfl⟩

theorem secsOf_exists (data : List Byte) (ver : BitVec 32) (ts : List Dump.Toc) :
    ∃ ss, List.Forall₂ (SecOf data ver) ts ss := by
  induction ts with
  | nil => exact ⟨[], .nil⟩
  | cons t ts ih =>
    obtain ⟨ss, h⟩ := ih
    obtain ⟨s, hs⟩ := secOf_exists data ver t
    exact ⟨s :: ss, .cons hs h⟩

theorem pick_exists {α : Type} (rs : List (Out (List α))) : ∃ m e, Pick rs m e := by
  cases rs with
  | nil => exact ⟨[], false, .inl ⟨rfl, rfl, rfl⟩⟩
  | cons o rs => exact ⟨o.items, o.failed, .inr ⟨⟨o, by simp, rfl⟩, ⟨o, by simp, rfl⟩⟩⟩

/-- Every call of `Dump` has at least one outcome. -/
theorem dumps_exists (data : List Byte) : ∃ out, Dumps data out := by
  unfold Dumps
  split
  · exact ⟨_, rfl⟩
  · exact ⟨_, rfl⟩
  · rename_i h _
    split
    · exact ⟨_, rfl⟩
    · exact ⟨_, rfl⟩
    · rename_i ts _
      obtain ⟨ss, hss⟩ := secsOf_exists data h.version ts
      unfold Components
      by_cases hp : ss.any Sec.isPanic = true
      · exact ⟨_, ss, hss, by rw [if_pos hp]⟩
      · by_cases hu : Sec.unknown ∈ ss
        · exact ⟨_, ss, hss, by rw [if_neg hp, if_pos hu]⟩
        · obtain ⟨mi, ei, h1⟩ := pick_exists (ss.filterMap Sec.inst?)
          obtain ⟨md, ed, h2⟩ := pick_exists (ss.filterMap Sec.indom?)
          obtain ⟨mm, em, h3⟩ := pick_exists (ss.filterMap Sec.metric?)
          obtain ⟨mv, ev, h4⟩ := pick_exists (ss.filterMap Sec.value?)
          obtain ⟨ms, es, h5⟩ := pick_exists (ss.filterMap Sec.string?)
          refine ⟨if ei || ed || em || ev || es then .err else .ok ⟨h, ts, mm, mv, mi, md, ms⟩, ss, hss, ?_⟩
          rw [if_neg hp, if_neg hu]
          exact ⟨mi, ei, md, ed, mm, em, mv, ev, ms, es, h1, h2, h3, h4, h5, rfl⟩

/-! ### The reader on a complete file -/

/-- Counts fit the 32-bit fields of the file format. -/
structure Reg.Small (r : Reg) : Prop where
  indoms : r.InstanceDomainCount < 2 ^ 31
  insts : r.InstanceCount < 2 ^ 31
  metrics : r.MetricCount < 2 ^ 31
  values : r.ValuesCount < 2 ^ 31
  strings : r.StringCount < 2 ^ 31

theorem Reg.Small.length {r : Reg} (h : r.Small) : r.Length < 2 ^ 48 := by
  obtain ⟨h1, h2, h3, h4, h5⟩ := h
  have ht : r.tocCount ≤ 5 := by unfold Reg.tocCount; split <;> split <;> omega
  have hi : r.InstanceCount * r.InstanceLength ≤ r.InstanceCount * 80 :=
    Nat.mul_le_mul_left _ (by unfold Reg.InstanceLength; split <;> decide)
  have hm : r.MetricCount * r.MetricLength ≤ r.MetricCount * 104 :=
    Nat.mul_le_mul_left _ (by unfold Reg.MetricLength; split <;> decide)
  unfold Reg.Length
  simp only [HeaderLength, TocLength, InstanceDomainLength, ValueLength, StringLength]
  omega

def verOf (r : Reg) : BitVec 32 := if r.version2 then 2 else 1

/-- The header that `start` writes, as the reader decodes it. -/
def hdrOf (r : Reg) (e : Env) : Header :=
  ⟨[0x4D, 0x4D, 0x56, 0], verOf r, e.gen, e.gen, BitVec.ofNat 32 r.tocCount, e.flag.setWidth 32,
    e.pid.setWidth 32, e.clusterID⟩

def tocOf (x : Nat × Nat × Nat) : Dump.Toc := ⟨BitVec.ofNat 32 x.1, BitVec.ofNat 32 x.2.1, BitVec.ofNat 64 x.2.2⟩

section
variable {r : Reg} {e : Env} {o : Ord} {σ : Seal} {F : Buf}

theorem ofNat_toNat32 (x : BitVec 32) : BitVec.ofNat 32 x.toNat = x := by
  apply BitVec.eq_of_toNat_eq; simp
theorem ofNat_toNat64 (x : BitVec 64) : BitVec.ofNat 64 x.toNat = x := by
  apply BitVec.eq_of_toNat_eq; simp
theorem ofNat_trunc (x : BitVec 64) : BitVec.ofNat 32 x.toNat = x.setWidth 32 := by
  apply BitVec.eq_of_toNat_eq; simp

theorem readHeader_file (hF : FileOK r e o σ F) : readHeader F = .ok (hdrOf r e) := by
  have h := hF.hdr
  have hlen := hF.len
  have hL := hdr_le_Length r
  simp only [hdrBytes, FileAt.append] at h
  obtain ⟨⟨⟨⟨⟨⟨⟨⟨a1, a2⟩, a3⟩, a4⟩, a5⟩, a6⟩, a7⟩, a8⟩, a9⟩ := h
  simp only [magic, le_length, List.length_append, List.length_cons, List.length_nil] at *
  have hm : bytesAt F 0 4 = [0x4D, 0x4D, 0x56, 0] :=
    bytesAt_of (FileAt.append (as := [0x4D, 0x4D, 0x56]).2 ⟨a1, a2⟩) rfl
  have hv : f32 F 4 = verOf r := by
    have := f32_of a3
    simp only [Nat.zero_add] at this
    rw [show (4 : Nat) = 3 + 1 from rfl, this]
    unfold verOf; cases r.version2 <;> rfl
  unfold readHeader
  rw [if_neg (by omega)]
  simp only [hm, hv, f64_of a4, f64_of a5, f32_of a6, f32_of a7, f32_of a8, f32_of a9]
  simp [hdrOf]

theorem readTocs_file (hr : r.OK) (hsm : r.Small) (hF : FileOK r e o σ F) :
    readTocs F (BitVec.ofNat 32 r.tocCount) = .ok ((tocEntries r).map tocOf) := by
  have ht : r.tocCount ≤ 5 := by unfold Reg.tocCount; split <;> split <;> omega
  have hlen := hF.len
  have hsl := hsm.length
  obtain ⟨c1, c2, c3, c4, c5, c6⟩ := off_chain r
  have hcnt : (BitVec.ofNat 32 r.tocCount).toNat = r.tocCount := by simp; omega
  unfold readTocs
  rw [if_neg, hcnt]
  · apply readTocs_go
    · simp [tocEntries_length hr]
    · intro j x hx
      simp only [List.getElem?_map, Option.map_eq_some_iff] at hx
      obtain ⟨y, hy, rfl⟩ := hx
      have hj := lt_of_get hy
      rw [tocEntries_length hr] at hj
      have h := hF.toc j y hy
      rw [show 40 + (0 + j) * 16 = HeaderLength + TocLength * j by simp [HeaderLength, TocLength]; omega]
      simp only [tocBytes, FileAt.append, le_length, List.length_append] at h
      obtain ⟨⟨h1, h2⟩, h3⟩ := h
      unfold readToc
      rw [guardRead_ok (by simp only [HeaderLength, TocLength]; omega) (by omega) (by omega) (by omega)]
      rw [f32_of h1, f32_of h2, f64_of h3]
      rfl
  · rw [BitVec.toInt_eq_toNat_of_lt (by rw [hcnt]; omega), hcnt]; omega

/-- The items of a section as the reader sees them. -/
def secItems {α : Type} (f : Nat → α) (off L n : Nat) : List (Nat × α) :=
  (List.range n).map (fun i => (off + i * L, f (off + i * L)))

def decIndom (F : Buf) (off : Nat) : Dump.InstanceDomain :=
  ⟨f32 F off, f32 F (off + 4), f64 F (off + 8), f64 F (off + 16), f64 F (off + 24)⟩

def decInst (v2 : Bool) (F : Buf) (off : Nat) : Dump.Instance :=
  ⟨f64 F off, f32 F (off + 8), f32 F (off + 12),
    if v2 then .ref (f64 F (off + 16)) else .inl (bytesAt F (off + 16) 64)⟩

def decMetric (v2 : Bool) (F : Buf) (off : Nat) : Dump.Metric :=
  if v2 then metricBase F (.ref (f64 F off)) (off + 8) else metricBase F (.inl (bytesAt F off 64)) (off + 64)

def decValue (F : Buf) (off : Nat) : Dump.Value :=
  ⟨f64 F off, f64 F (off + 8), f64 F (off + 16), f64 F (off + 24)⟩

theorem pick_one {α : Type} {l m : List α} {e : Bool} (h : Pick [.ok l] m e) : m = l ∧ e = false := by
  rcases h with ⟨h, _⟩ | ⟨⟨o, h1, h2⟩, o', h3, h4⟩
  · cases h
  · simp at h1 h3; subst h1 h3; exact ⟨h2, h4⟩

theorem pick_nil {α : Type} {m : List α} {e : Bool} (h : Pick [] m e) : m = [] ∧ e = false := by
  rcases h with ⟨_, h2, h3⟩ | ⟨⟨o, h1, h2⟩, _⟩
  · exact ⟨h2, h3⟩
  · simp at h1

theorem verOf_cases (r : Reg) : (r.version2 = true ∧ verOf r = 2) ∨ (r.version2 = false ∧ verOf r = 1) := by
  unfold verOf; cases r.version2 <;> simp

theorem instanceLength_ver (r : Reg) : instanceLength (verOf r) = r.InstanceLength := by
  unfold verOf instanceLength Reg.InstanceLength; cases r.version2 <;> rfl
theorem metricLength_ver (r : Reg) : metricLength (verOf r) = r.MetricLength := by
  unfold verOf metricLength Reg.MetricLength; cases r.version2 <;> rfl

/-- The outcome of `Dump` on a complete file, in terms of its bytes. -/
structure RawDump (r : Reg) (e : Env) (F : Buf) (D : Result) : Prop where
  header : D.header = hdrOf r e
  tocs : D.tocs = (tocEntries r).map tocOf
  indoms : D.indoms.Perm (secItems (decIndom F) r.indomoffset 32 r.InstanceDomainCount)
  insts : D.instances.Perm (secItems (decInst r.version2 F) r.instanceoffset r.InstanceLength r.InstanceCount)
  metrics : D.metrics.Perm (secItems (decMetric r.version2 F) r.metricsoffset r.MetricLength r.MetricCount)
  values : D.values.Perm (secItems (decValue F) r.valuesoffset 32 r.ValuesCount)
  strings : D.strings.Perm (secItems (fun k => ⟨bytesAt F k 256⟩) r.stringsoffset 256 r.StringCount)

section
variable (hr : r.OK) (hsm : r.Small) (hF : F.length = r.Length)
include hr hsm hF

theorem sec_indom {s : Sec} (h : SecOf F (verOf r) (tocOf (1, r.InstanceDomainCount, r.indomoffset)) s) :
    ∃ its, s = .indoms (.ok its) ∧ its.Perm (secItems (decIndom F) r.indomoffset 32 r.InstanceDomainCount) := by
  have hsl := hsm.length
  obtain ⟨c1, c2, c3, c4, c5, c6⟩ := off_chain r
  have he : r.instanceoffset = r.indomoffset + 32 * r.InstanceDomainCount := rfl
  unfold SecOf at h
  rw [if_neg (by simp [tocOf]), if_pos (by simp [tocOf])] at h
  obtain ⟨o, rfl, h⟩ := h
  obtain ⟨its, rfl, hp⟩ := readItems_ok (F := F) (f := decIndom F)
    (fun k hk => guardRead_ok hk (by omega) (by omega) (by omega)) (by omega) hsm.indoms (by omega) (by omega)
    (by dsimp only; omega) h
  exact ⟨its, rfl, hp⟩

theorem sec_inst {s : Sec} (h : SecOf F (verOf r) (tocOf (2, r.InstanceCount, r.instanceoffset)) s) :
    ∃ its, s = .instances (.ok its) ∧
      its.Perm (secItems (decInst r.version2 F) r.instanceoffset r.InstanceLength r.InstanceCount) := by
  have hsl := hsm.length
  obtain ⟨c1, c2, c3, c4, c5, c6⟩ := off_chain r
  have he : r.metricsoffset = r.instanceoffset + r.InstanceLength * r.InstanceCount := rfl
  have hlen : r.InstanceLength = 24 ∨ r.InstanceLength = 80 := by
    unfold Reg.InstanceLength; cases r.version2 <;> simp
  unfold SecOf at h
  rw [if_pos (by simp [tocOf])] at h
  obtain ⟨o, rfl, h⟩ := h
  rw [instanceLength_ver] at h
  obtain ⟨its, rfl, hp⟩ := readItems_ok (F := F) (f := decInst r.version2 F) (rd := readInstance (verOf r) F)
    (fun k hk => by
      unfold readInstance
      rw [instanceLength_ver]
      unfold decInst
      rcases verOf_cases r with ⟨h1, h2⟩ | ⟨h1, h2⟩
      · rw [h1, h2, if_neg (by decide)]
        exact guardRead_ok hk (by omega) (by omega) (by omega)
      · rw [h1, h2, if_pos rfl]
        have : r.InstanceLength = 80 := by unfold Reg.InstanceLength; simp [h1]
        exact guardRead_ok hk (by omega) (by omega) (by omega))
    (by omega) hsm.insts (by omega) (by omega) (by dsimp only; rw [Nat.mul_comm]; omega) h
  exact ⟨its, rfl, hp⟩

theorem sec_metric {s : Sec} (h : SecOf F (verOf r) (tocOf (3, r.MetricCount, if r.MetricCount = 0 then 0 else r.metricsoffset)) s) :
    ∃ its, s = .metrics (.ok its) ∧
      its.Perm (secItems (decMetric r.version2 F) r.metricsoffset r.MetricLength r.MetricCount) := by
  have hsl := hsm.length
  obtain ⟨c1, c2, c3, c4, c5, c6⟩ := off_chain r
  have he : r.valuesoffset = r.metricsoffset + r.MetricLength * r.MetricCount := rfl
  have hlen : r.MetricLength = 48 ∨ r.MetricLength = 104 := by
    unfold Reg.MetricLength; cases r.version2 <;> simp
  unfold SecOf at h
  rw [if_neg (by simp [tocOf]), if_neg (by simp [tocOf]), if_pos (by simp [tocOf])] at h
  obtain ⟨o, rfl, h⟩ := h
  rw [metricLength_ver] at h
  obtain ⟨its, rfl, hp⟩ := readItems_ok (F := F) (f := decMetric r.version2 F) (rd := readMetric (verOf r) F)
    (fun k hk => by
      unfold readMetric
      rw [metricLength_ver]
      unfold decMetric
      rcases verOf_cases r with ⟨h1, h2⟩ | ⟨h1, h2⟩
      · rw [h1, h2, if_neg (by decide)]
        exact guardRead_ok hk (by omega) (by omega) (by omega)
      · rw [h1, h2, if_pos rfl]
        have : r.MetricLength = 104 := by unfold Reg.MetricLength; simp [h1]
        exact guardRead_ok hk (by omega) (by omega) (by omega))
    (by omega) hsm.metrics (by omega) (by omega) (by
      dsimp only
      rw [Nat.mul_comm]
      split
      · rename_i h0; rw [h0]; omega
      · omega) h
  refine ⟨its, rfl, hp.trans ?_⟩
  unfold secItems
  split
  · rename_i h0; rw [h0]; simp
  · exact .refl _

theorem sec_value {s : Sec} (h : SecOf F (verOf r) (tocOf (4, r.ValuesCount, if r.MetricCount = 0 then 0 else r.valuesoffset)) s) :
    ∃ its, s = .values (.ok its) ∧ its.Perm (secItems (decValue F) r.valuesoffset 32 r.ValuesCount) := by
  have hsl := hsm.length
  obtain ⟨c1, c2, c3, c4, c5, c6⟩ := off_chain r
  have he : r.stringsoffset = r.valuesoffset + 32 * r.ValuesCount := rfl
  have h0 : r.MetricCount = 0 → r.ValuesCount = 0 := by
    intro h0
    have : r.metrics = [] := List.length_eq_zero_iff.1 h0
    show r.valueCount = 0
    rw [hr.valueCount, this]; rfl
  unfold SecOf at h
  rw [if_neg (by simp [tocOf]), if_neg (by simp [tocOf]), if_neg (by simp [tocOf]), if_pos (by simp [tocOf])] at h
  obtain ⟨o, rfl, h⟩ := h
  obtain ⟨its, rfl, hp⟩ := readItems_ok (F := F) (f := decValue F)
    (fun k hk => guardRead_ok hk (by omega) (by omega) (by omega)) (by omega) hsm.values (by omega) (by omega)
    (by
      dsimp only
      split
      · rename_i h1; rw [h0 h1]; omega
      · omega) h
  refine ⟨its, rfl, hp.trans ?_⟩
  unfold secItems
  split
  · rename_i h1; rw [h0 h1]; simp
  · exact .refl _

theorem sec_string {s : Sec} (h : SecOf F (verOf r) (tocOf (5, r.StringCount, r.stringsoffset)) s) :
    ∃ its, s = .strings (.ok its) ∧
      its.Perm (secItems (fun k => ⟨bytesAt F k 256⟩) r.stringsoffset 256 r.StringCount) := by
  have hsl := hsm.length
  obtain ⟨c1, c2, c3, c4, c5, c6⟩ := off_chain r
  obtain ⟨_, _, _, _, l5⟩ := lim_eq hr ⟨0, 0, 0, 0⟩ ⟨[], fun _ => [], [], fun _ => []⟩
  have he : r.Length = r.stringsoffset + 256 * r.StringCount := by
    rw [← l5]
    show regBase r .str + regSlot r .str * (regToks r .str).length = _
    rw [(regToks_length hr).2.2.2.2]
    rfl
  unfold SecOf at h
  rw [if_neg (by simp [tocOf]), if_neg (by simp [tocOf]), if_neg (by simp [tocOf]), if_neg (by simp [tocOf]),
    if_pos (by simp [tocOf])] at h
  obtain ⟨o, rfl, h⟩ := h
  obtain ⟨its, rfl, hp⟩ := readItems_ok (F := F) (f := fun k => Dump.Str256.mk (bytesAt F k 256)) (rd := readString F)
    (fun k hk => guardRead_ok hk (by omega) (by omega) (by omega)) (by omega) hsm.strings (by omega) (by omega)
    (by dsimp only; omega) h
  exact ⟨its, rfl, hp⟩

end

theorem dump_raw (hr : r.OK) (hsm : r.Small) (hF : FileOK r e o σ F) {out : DumpOut} (h : Dumps F out) :
    ∃ D, out = .ok D ∧ RawDump r e F D := by
  have hlen := hF.len
  unfold Dumps at h
  rw [readHeader_file hF] at h
  simp only at h
  rw [show (hdrOf r e).toc = BitVec.ofNat 32 r.tocCount from rfl, readTocs_file hr hsm hF] at h
  simp only at h
  obtain ⟨secs, hsecs, h⟩ := h
  have hv : (hdrOf r e).version = verOf r := rfl
  rw [hv] at hsecs
  have hi : r.InstanceDomainCount > 0 ↔ r.InstanceCount > 0 := instanceCount_pos hr
  have hcase : r.InstanceDomainCount > 0 ∧ r.InstanceCount > 0 ∨ r.InstanceDomainCount = 0 ∧ r.InstanceCount = 0 := by
    omega
  have fin : ∀ li ld lm lv ls,
      li.Perm (secItems (decInst r.version2 F) r.instanceoffset r.InstanceLength r.InstanceCount) →
      ld.Perm (secItems (decIndom F) r.indomoffset 32 r.InstanceDomainCount) →
      lm.Perm (secItems (decMetric r.version2 F) r.metricsoffset r.MetricLength r.MetricCount) →
      lv.Perm (secItems (decValue F) r.valuesoffset 32 r.ValuesCount) →
      ls.Perm (secItems (fun k => Dump.Str256.mk (bytesAt F k 256)) r.stringsoffset 256 r.StringCount) →
      ∃ D, DumpOut.ok ⟨hdrOf r e, (tocEntries r).map tocOf, lm, lv, li, ld, ls⟩ = .ok D ∧ RawDump r e F D :=
    fun li ld lm lv ls h1 h2 h3 h4 h5 => ⟨_, rfl, ⟨rfl, rfl, h2, h1, h3, h4, h5⟩⟩
  have hz : ∀ {α : Type} (f : Nat → α) (off L : Nat), secItems f off L 0 = [] := fun _ _ _ => rfl
  rcases hcase with ⟨h1, h2⟩ | ⟨h1, h2⟩ <;> by_cases h3 : r.StringCount > 0
  · simp only [tocEntries, if_pos h1, if_pos h2, if_pos h3, List.cons_append, List.nil_append, List.append_assoc,
      List.map_cons, List.map_nil] at hsecs
    obtain ⟨s1, _, t1, k1, rfl⟩ := List.forall₂_cons_left_iff.1 hsecs
    obtain ⟨s2, _, t2, k2, rfl⟩ := List.forall₂_cons_left_iff.1 k1
    obtain ⟨s3, _, t3, k3, rfl⟩ := List.forall₂_cons_left_iff.1 k2
    obtain ⟨s4, _, t4, k4, rfl⟩ := List.forall₂_cons_left_iff.1 k3
    obtain ⟨s5, _, t5, k5, rfl⟩ := List.forall₂_cons_left_iff.1 k4
    rw [List.forall₂_nil_left_iff] at k5
    subst k5
    obtain ⟨i1, rfl, p1⟩ := sec_indom hr hsm hlen t1
    obtain ⟨i2, rfl, p2⟩ := sec_inst hr hsm hlen t2
    obtain ⟨i3, rfl, p3⟩ := sec_metric hr hsm hlen t3
    obtain ⟨i4, rfl, p4⟩ := sec_value hr hsm hlen t4
    obtain ⟨i5, rfl, p5⟩ := sec_string hr hsm hlen t5
    rw [if_neg (by simp [Sec.isPanic]), if_neg (by simp)] at h
    obtain ⟨mi, ei, md, ed, mm, em, mv, ev, ms, es, q1, q2, q3, q4, q5, rfl⟩ := h
    simp only [List.filterMap_cons, List.filterMap_nil, Sec.inst?, Sec.indom?, Sec.metric?, Sec.value?,
      Sec.string?] at q1 q2 q3 q4 q5
    obtain ⟨rfl, rfl⟩ := pick_one q1
    obtain ⟨rfl, rfl⟩ := pick_one q2
    obtain ⟨rfl, rfl⟩ := pick_one q3
    obtain ⟨rfl, rfl⟩ := pick_one q4
    obtain ⟨rfl, rfl⟩ := pick_one q5
    exact fin _ _ _ _ _ p2 p1 p3 p4 p5
  · have h3' : r.StringCount = 0 := by omega
    simp only [tocEntries, if_pos h1, if_pos h2, if_neg h3, List.cons_append, List.nil_append, List.append_assoc,
      List.map_cons, List.map_nil, List.append_nil] at hsecs
    obtain ⟨s1, _, t1, k1, rfl⟩ := List.forall₂_cons_left_iff.1 hsecs
    obtain ⟨s2, _, t2, k2, rfl⟩ := List.forall₂_cons_left_iff.1 k1
    obtain ⟨s3, _, t3, k3, rfl⟩ := List.forall₂_cons_left_iff.1 k2
    obtain ⟨s4, _, t4, k4, rfl⟩ := List.forall₂_cons_left_iff.1 k3
    rw [List.forall₂_nil_left_iff] at k4
    subst k4
    obtain ⟨i1, rfl, p1⟩ := sec_indom hr hsm hlen t1
    obtain ⟨i2, rfl, p2⟩ := sec_inst hr hsm hlen t2
    obtain ⟨i3, rfl, p3⟩ := sec_metric hr hsm hlen t3
    obtain ⟨i4, rfl, p4⟩ := sec_value hr hsm hlen t4
    rw [if_neg (by simp [Sec.isPanic]), if_neg (by simp)] at h
    obtain ⟨mi, ei, md, ed, mm, em, mv, ev, ms, es, q1, q2, q3, q4, q5, rfl⟩ := h
    simp only [List.filterMap_cons, List.filterMap_nil, Sec.inst?, Sec.indom?, Sec.metric?, Sec.value?,
      Sec.string?] at q1 q2 q3 q4 q5
    obtain ⟨rfl, rfl⟩ := pick_one q1
    obtain ⟨rfl, rfl⟩ := pick_one q2
    obtain ⟨rfl, rfl⟩ := pick_one q3
    obtain ⟨rfl, rfl⟩ := pick_one q4
    obtain ⟨rfl, rfl⟩ := pick_nil q5
    exact fin _ _ _ _ _ p2 p1 p3 p4 (by rw [h3', hz])
  · simp only [tocEntries, if_neg (show ¬ r.InstanceDomainCount > 0 by omega),
      if_neg (show ¬ r.InstanceCount > 0 by omega), if_pos h3, List.cons_append, List.nil_append, List.append_assoc,
      List.map_cons, List.map_nil] at hsecs
    obtain ⟨s3, _, t3, k3, rfl⟩ := List.forall₂_cons_left_iff.1 hsecs
    obtain ⟨s4, _, t4, k4, rfl⟩ := List.forall₂_cons_left_iff.1 k3
    obtain ⟨s5, _, t5, k5, rfl⟩ := List.forall₂_cons_left_iff.1 k4
    rw [List.forall₂_nil_left_iff] at k5
    subst k5
    obtain ⟨i3, rfl, p3⟩ := sec_metric hr hsm hlen t3
    obtain ⟨i4, rfl, p4⟩ := sec_value hr hsm hlen t4
    obtain ⟨i5, rfl, p5⟩ := sec_string hr hsm hlen t5
    rw [if_neg (by simp [Sec.isPanic]), if_neg (by simp)] at h
    obtain ⟨mi, ei, md, ed, mm, em, mv, ev, ms, es, q1, q2, q3, q4, q5, rfl⟩ := h
    simp only [List.filterMap_cons, List.filterMap_nil, Sec.inst?, Sec.indom?, Sec.metric?, Sec.value?,
      Sec.string?] at q1 q2 q3 q4 q5
    obtain ⟨rfl, rfl⟩ := pick_nil q1
    obtain ⟨rfl, rfl⟩ := pick_nil q2
    obtain ⟨rfl, rfl⟩ := pick_one q3
    obtain ⟨rfl, rfl⟩ := pick_one q4
    obtain ⟨rfl, rfl⟩ := pick_one q5
    exact fin _ _ _ _ _ (by rw [h2, hz]) (by rw [h1, hz]) p3 p4 p5
  · have h3' : r.StringCount = 0 := by omega
    simp only [tocEntries, if_neg (show ¬ r.InstanceDomainCount > 0 by omega),
      if_neg (show ¬ r.InstanceCount > 0 by omega), if_neg h3, List.cons_append, List.nil_append, List.append_assoc,
      List.map_cons, List.map_nil, List.append_nil] at hsecs
    obtain ⟨s3, _, t3, k3, rfl⟩ := List.forall₂_cons_left_iff.1 hsecs
    obtain ⟨s4, _, t4, k4, rfl⟩ := List.forall₂_cons_left_iff.1 k3
    rw [List.forall₂_nil_left_iff] at k4
    subst k4
    obtain ⟨i3, rfl, p3⟩ := sec_metric hr hsm hlen t3
    obtain ⟨i4, rfl, p4⟩ := sec_value hr hsm hlen t4
    rw [if_neg (by simp [Sec.isPanic]), if_neg (by simp)] at h
    obtain ⟨mi, ei, md, ed, mm, em, mv, ev, ms, es, q1, q2, q3, q4, q5, rfl⟩ := h
    simp only [List.filterMap_cons, List.filterMap_nil, Sec.inst?, Sec.indom?, Sec.metric?, Sec.value?,
      Sec.string?] at q1 q2 q3 q4 q5
    obtain ⟨rfl, rfl⟩ := pick_nil q1
    obtain ⟨rfl, rfl⟩ := pick_nil q2
    obtain ⟨rfl, rfl⟩ := pick_one q3
    obtain ⟨rfl, rfl⟩ := pick_one q4
    obtain ⟨rfl, rfl⟩ := pick_nil q5
    exact fin _ _ _ _ _ (by rw [h2, hz]) (by rw [h1, hz]) p3 p4 (by rw [h3', hz])

end
end Speed
