import Verif.PropsAccept
import Verif.PropsMachine
/-
Files that are cut off, and bytes after the end of a file (for C91).
-/
namespace Speed.Dump

/-! ### Any bytes -/

/-- `G` begins with the bytes of `F`, up to `n`. -/
def AgreeTo (n : Nat) (F G : List Byte) : Prop := ∀ j, j < n → G[j]? = F[j]?

section
variable {n : Nat} {F G : List Byte}

theorem AgreeTo.bytes (h : AgreeTo n F G) {off m : Nat} (hm : off + m ≤ n) : bytesAt G off m = bytesAt F off m :=
  bytesAt_congr fun j _ h2 => h j (by omega)

theorem AgreeTo.f32 (h : AgreeTo n F G) {off : Nat} (hm : off + 4 ≤ n) : Dump.f32 G off = Dump.f32 F off := by
  unfold Dump.f32; rw [h.bytes hm]

theorem AgreeTo.f64 (h : AgreeTo n F G) {off : Nat} (hm : off + 8 ≤ n) : Dump.f64 G off = Dump.f64 F off := by
  unfold Dump.f64; rw [h.bytes hm]

theorem AgreeTo.toc (h : AgreeTo n F G) {off : Nat} (hm : off + 16 ≤ n) : tocAt G off = tocAt F off := by
  unfold tocAt; rw [h.f32 (by omega), h.f32 (by omega), h.f64 (by omega)]

theorem AgreeTo.recAt (h : AgreeTo n F G) (v : BitVec 32) (k : Kind) {off : Nat} (hm : off + k.size v ≤ n) :
    k.recAt v G off = k.recAt v F off := by
  cases k with
  | indoms =>
    simp only [Kind.size] at hm
    simp only [Kind.recAt, indomAt]
    rw [h.f32 (by omega), h.f32 (by omega), h.f64 (by omega), h.f64 (by omega), h.f64 (by omega)]
  | values =>
    simp only [Kind.size] at hm
    simp only [Kind.recAt, valueAt]
    rw [h.f64 (by omega), h.f64 (by omega), h.f64 (by omega), h.f64 (by omega)]
  | strings =>
    simp only [Kind.size] at hm
    simp only [Kind.recAt, stringAt]
    rw [h.bytes (by omega)]
  | instances =>
    simp only [Kind.size] at hm
    simp only [Kind.recAt, instAt]
    by_cases hv : v = 1
    · subst hv
      rw [if_neg (by decide)] at hm
      rw [h.f32 (by omega), h.f32 (by omega), h.f64 (by omega), h.bytes (by omega)]
      rfl
    · have : off + 24 ≤ n := by split at hm <;> omega
      rw [if_neg hv, if_neg hv, h.f32 (by omega), h.f32 (by omega), h.f64 (by omega), h.f64 (by omega)]
  | metrics =>
    simp only [Kind.size] at hm
    simp only [Kind.recAt, metricAt]
    by_cases hv : v = 1
    · subst hv
      rw [if_neg (by decide)] at hm
      simp only [if_true]
      rw [h.f32 (by omega), h.f32 (by omega), h.f32 (by omega), h.f32 (by omega), h.f32 (by omega), h.f32 (by omega),
        h.f64 (by omega), h.f64 (by omega), h.bytes (by omega)]
    · have : off + 48 ≤ n := by split at hm <;> omega
      simp only [if_neg hv]
      rw [h.f32 (by omega), h.f32 (by omega), h.f32 (by omega), h.f32 (by omega), h.f32 (by omega), h.f32 (by omega),
        h.f64 (by omega), h.f64 (by omega), h.f64 (by omega)]

end

theorem agree_take (data : List Byte) (n : Nat) : AgreeTo n data (data.take n) := by
  intro j hj
  rw [List.getElem?_take, if_pos hj]

theorem agree_append (data x : List Byte) : AgreeTo data.length data (data ++ x) :=
  fun _ hj => List.getElem?_append_left hj

/-- The table of contents is as `C66_accepts` requires. -/
structure Whole (data : List Byte) : Prop where
  small : data.length < 2 ^ 63
  toc : TocOK data
  known : ∀ i < (f32 data 24).toNat, ∃ k : Kind, (entry data i).type = k.code ∧ 0 ≤ (entry data i).count.toInt ∧
    ((entry data i).count.toNat = 0 ∨
      (entry data i).offset.toNat + (entry data i).count.toNat * k.size (f32 data 4) ≤ data.length)

/-- The file has no bytes beyond its last section, and each kind of section is listed once. -/
structure Tight (data : List Byte) : Prop where
  whole : Whole data
  once : ∀ i < (f32 data 24).toNat, ∀ j < (f32 data 24).toNat, (entry data i).type = (entry data j).type → i = j
  full : data.length = 40 + (f32 data 24).toNat * 16 ∨ ∃ i < (f32 data 24).toNat, ∃ k : Kind, (entry data i).type = k.code ∧
    0 < (entry data i).count.toNat ∧
    (entry data i).offset.toNat + (entry data i).count.toNat * k.size (f32 data 4) = data.length

theorem Tight.cut {data : List Byte} (h : Tight data) {n : Nat} (hn : n < data.length) {out : DumpOut}
    (hd : Dumps (data.take n) out) : out = .err := by
  obtain ⟨⟨hsm, ⟨⟨h40, hmag, hgen⟩, hcnt, hfit⟩, hknown⟩, honce, hfull⟩ := h
  have hpl : (data.take n).length = n := by rw [List.length_take]; omega
  have ha := agree_take data n
  by_cases h1 : n < 40
  · exact C35_short _ (by omega) hd
  have e24 : f32 (data.take n) 24 = f32 data 24 := ha.f32 (by omega)
  have e4 : f32 (data.take n) 4 = f32 data 4 := ha.f32 (by omega)
  by_cases h2 : n < 40 + (f32 data 24).toNat * 16
  · exact C35_toc _ (by rw [e24]; exact hcnt) (by rw [e24, hpl]; exact h2) hd
  have een : ∀ i < (f32 data 24).toNat, entry (data.take n) i = entry data i := by
    intro i hi
    unfold entry
    exact ha.toc (by omega)
  obtain ⟨c1, c2, c3, c4⟩ := C66_outcomes (data.take n) (by omega)
  rw [e24] at c1 c2 c4
  cases out with
  | err => rfl
  | panic =>
    exfalso
    rcases c1.1 hd with ⟨_, hlt⟩ | ⟨_, i, hi, k, hk, hp⟩
    · omega
    rw [een i hi] at hk hp
    rw [e4] at hp
    obtain ⟨k', hk', hc, hb⟩ := hknown i hi
    obtain rfl := code_inj (hk.symm.trans hk')
    rcases hp with hp | ⟨j, hj, hp, _⟩
    · omega
    · rcases hb with hb | hb
      · omega
      have := key_bound (L := k.size (f32 data 4)) (off := (entry data i).offset.toNat) hj
      have hlt : recAddr (f32 data 4) k (entry data i) j ≤ (entry data i).offset.toNat + j * k.size (f32 data 4) := Nat.mod_le _ _
      omega
  | hang =>
    exfalso
    obtain ⟨_, _, i, hi, hk⟩ := c2.1 hd
    obtain ⟨k', hk', _⟩ := hknown i hi
    rw [een i hi] at hk
    exact hk k' hk'
  | ok D =>
    exfalso
    obtain ⟨_, _, _, hall⟩ := c4.1 ⟨D, hd⟩
    rcases hfull with hf | ⟨i, hi, k, hk, hpos, hf⟩
    · omega
    obtain ⟨j, hj, hjk, hok⟩ := hall i hi k (by rw [een i hi]; exact hk)
    rw [een j hj] at hjk hok
    obtain rfl := honce i hi j hj (hk.trans hjk.symm)
    rw [e4] at hok
    rcases ((canOk_iff (by omega) _ _ _).1 hok).2 with h | h
    · omega
    · rw [hpl] at h; omega

/-- Reading the same records. -/
theorem istep_congr {α : Type} {rd rd' : Nat → Out α} {keys : List Nat} (h : ∀ k ∈ keys, rd k = rd' k) (s : IState α) (i : Nat) :
    istep rd keys s i = istep rd' keys s i := by
  unfold istep
  cases hp : s.pcs[i]? with
  | none => rfl
  | some pc =>
    cases hk : keys[i]? with
    | none => rfl
    | some k =>
      cases pc with
      | read => simp only [h k (List.mem_of_getElem? hk)]
      | _ => rfl

theorem ireach_congr {α : Type} {rd rd' : Nat → Out α} {keys : List Nat} (h : ∀ k ∈ keys, rd k = rd' k) {s t : IState α}
    (hr : IReach rd keys s t) : IReach rd' keys s t := by
  induction hr with
  | refl => exact .refl
  | tail _ hs ih =>
    obtain ⟨i, hi⟩ := hs
    exact .tail ih ⟨i, by rw [← istep_congr h]; exact hi⟩

theorem readItems_congr {α : Type} {rd rd' : Nat → Out α} {off : BitVec 64} {count : BitVec 32} {L : Nat}
    (h : ∀ k ∈ itemKeys off.toNat L count.toNat, rd k = rd' k) {out : Out (List (Nat × α))} (hr : ReadItems rd off count L out) :
    ReadItems rd' off count L out := by
  unfold ReadItems at hr ⊢
  split
  · rename_i hc; rw [if_pos hc] at hr; exact hr
  · rename_i hc
    rw [if_neg hc] at hr
    obtain ⟨s, h1, h2⟩ := hr
    exact ⟨s, ireach_congr h h1, h2⟩

theorem kind_reads (version : BitVec 32) (data : List Byte) (k : Kind) :
    Reads data (k.size version) (k.read version data) (k.recAt version data) := by
  cases k with
  | indoms => exact reads_indom
  | values => exact reads_value
  | strings => exact reads_string
  | instances => exact reads_instance
  | metrics => exact reads_metric

theorem Whole.read {data x : List Byte} (h : Whole data) {i : Nat} (hi : i < (f32 data 24).toNat) {k : Kind}
    (hk : (entry data i).type = k.code) :
    ∀ a ∈ itemKeys (entry data i).offset.toNat (k.size (f32 data 4)) (entry data i).count.toNat,
      k.read (f32 data 4) data a = k.read (f32 data 4) (data ++ x) a := by
  intro a ha
  obtain ⟨k', hk', _, hb⟩ := h.known i hi
  obtain rfl := code_inj (hk.symm.trans hk')
  have hs := h.small
  rcases hb with hb | hb
  · rw [hb] at ha; simp [itemKeys] at ha
  rw [itemKeys_eq (by omega)] at ha
  simp only [List.mem_map, List.mem_range] at ha
  obtain ⟨j, hj, rfl⟩ := ha
  have hkb := key_bound (L := k.size (f32 data 4)) (off := (entry data i).offset.toNat) hj
  rw [(kind_reads (f32 data 4) data k _ (by omega)).1 (by omega),
    (kind_reads (f32 data 4) (data ++ x) k _ (by omega)).1 (by rw [List.length_append]; omega),
    (agree_append data x).recAt _ _ (by omega)]

theorem secOf_congr {d d' : List Byte} {v : BitVec 32} {t : Toc} {s : Sec} {k : Kind} (hk : t.type = k.code)
    (h : ∀ a ∈ itemKeys t.offset.toNat (k.size v) t.count.toNat, k.read v d a = k.read v d' a) (hs : SecOf d v t s) :
    SecOf d' v t s := by
  cases k <;> simp only [SecOf, hk, Kind.code] at hs ⊢ <;> simp only [if_true, if_false, BitVec.reduceEq] at hs ⊢ <;>
    (obtain ⟨o, h1, h2⟩ := hs; exact ⟨o, h1, readItems_congr h h2⟩)

theorem components_congr {d d' : List Byte} {hd : Header} {ts : List Toc} {out : DumpOut}
    (h : ∀ t ∈ ts, ∀ s, SecOf d hd.version t s → SecOf d' hd.version t s) (hc : Components d hd ts out) : Components d' hd ts out := by
  obtain ⟨secs, h1, h2⟩ := hc
  refine ⟨secs, ?_, h2⟩
  clear h2
  induction h1 with
  | nil => exact .nil
  | cons hs _ ih => exact .cons (h _ (by simp) _ hs) (ih fun t ht => h t (by simp [ht]))

theorem Whole.extra {data : List Byte} (h : Whole data) (x : List Byte) (hx : (data ++ x).length < 2 ^ 63) (out : DumpOut) :
    Dumps (data ++ x) out ↔ Dumps data out := by
  have hsm := h.small
  have ha := agree_append data x
  obtain ⟨⟨h40, hmag, hgen⟩, hcnt, hfit⟩ := h.toc
  have e24 : f32 (data ++ x) 24 = f32 data 24 := ha.f32 (by omega)
  have hh : readHeader (data ++ x) = readHeader data := by
    unfold readHeader
    have l1 : ¬ (data ++ x).length < 40 := by rw [List.length_append]; omega
    have l2 : ¬ data.length < 40 := by omega
    rw [if_neg l1, if_neg l2, ha.bytes (by omega), ha.f32 (by omega), ha.f64 (by omega),
      ha.f64 (by omega), ha.f32 (by omega), ha.f32 (by omega), ha.f32 (by omega), ha.f32 (by omega)]
  obtain ⟨hdr, g1, g2, g3⟩ := (readHeader_iff data).1 h.toc.1
  have t1 := (readTocs_iff hsm h40 (f32 data 24)).2.1 hcnt hfit
  have t2 := (readTocs_iff hx (by rw [List.length_append]; omega) (f32 data 24)).2.1 hcnt (by rw [List.length_append]; omega)
  have tt : (List.range (f32 data 24).toNat).map (fun j => tocAt (data ++ x) (40 + j * 16)) =
      (List.range (f32 data 24).toNat).map (fun j => tocAt data (40 + j * 16)) := by
    apply List.map_congr_left
    intro j hj
    rw [List.mem_range] at hj
    exact ha.toc (by omega)
  unfold Dumps
  rw [hh, g1]
  dsimp only
  rw [g3, t1, t2, tt]
  dsimp only
  have key : ∀ t ∈ (List.range (f32 data 24).toNat).map (fun j => tocAt data (40 + j * 16)), ∃ k : Kind, t.type = k.code ∧
      ∀ a ∈ itemKeys t.offset.toNat (k.size (f32 data 4)) t.count.toNat,
        k.read (f32 data 4) data a = k.read (f32 data 4) (data ++ x) a := by
    intro t ht
    simp only [List.mem_map, List.mem_range] at ht
    obtain ⟨j, hj, rfl⟩ := ht
    obtain ⟨k, hk, _⟩ := h.known j hj
    exact ⟨k, hk, h.read hj hk⟩
  constructor
  · refine components_congr fun t ht s hs => ?_
    obtain ⟨k, hk, he⟩ := key t ht
    rw [g2] at hs ⊢
    exact secOf_congr hk (fun a ha => (he a ha).symm) hs
  · refine components_congr fun t ht s hs => ?_
    obtain ⟨k, hk, he⟩ := key t ht
    rw [g2] at hs ⊢
    exact secOf_congr hk he hs

end Speed.Dump

namespace Speed
open Dump

/-! ### The file of a running client -/

section
variable {r : Reg}

theorem Length_eq (r : Reg) : r.Length = 40 + 16 * r.tocCount + 32 * r.InstanceDomainCount + r.InstanceLength * r.InstanceCount +
    r.MetricLength * r.MetricCount + 32 * r.ValuesCount + 256 * r.StringCount := by
  unfold Reg.Length
  simp only [HeaderLength, TocLength, InstanceDomainLength, ValueLength, StringLength]
  rw [Nat.mul_comm r.InstanceLength, Nat.mul_comm r.MetricLength]
  omega

theorem sizes_ver (r : Reg) : Dump.Kind.size (verOf r) .indoms = 32 ∧ Dump.Kind.size (verOf r) .instances = r.InstanceLength ∧
    Dump.Kind.size (verOf r) .metrics = r.MetricLength ∧ Dump.Kind.size (verOf r) .values = 32 ∧ Dump.Kind.size (verOf r) .strings = 256 := by
  unfold verOf Reg.InstanceLength Reg.MetricLength
  cases r.version2 <;> decide

theorem values_zero (hr : r.OK) (h0 : r.MetricCount = 0) : r.ValuesCount = 0 := by
  have : r.metrics = [] := List.length_eq_zero_iff.1 h0
  show r.valueCount = 0
  rw [hr.valueCount, this]; rfl

theorem tocEntries_in (hr : r.OK) (hs : r.Small) {x : Nat × Nat × Nat} (hx : x ∈ tocEntries r) :
    ∃ k : Dump.Kind, BitVec.ofNat 32 x.1 = k.code ∧ x.2.1 < 2 ^ 31 ∧ x.2.2 < 2 ^ 48 ∧
      (x.2.1 = 0 ∨ x.2.2 + x.2.1 * k.size (verOf r) ≤ r.Length) := by
  obtain ⟨s1, s2, s3, s4, s5⟩ := sizes_ver r
  have hl := hs.length
  have hL := Length_eq r
  obtain ⟨c1, c2, c3, c4, c5, c6⟩ := off_chain r
  have e1 : r.instanceoffset = r.indomoffset + 32 * r.InstanceDomainCount := rfl
  have e2 : r.metricsoffset = r.instanceoffset + r.InstanceLength * r.InstanceCount := rfl
  have e3 : r.valuesoffset = r.metricsoffset + r.MetricLength * r.MetricCount := rfl
  have e4 : r.stringsoffset = r.valuesoffset + 32 * r.ValuesCount := rfl
  simp only [tocEntries, List.mem_append, List.mem_singleton] at hx
  rcases hx with (((hx | hx) | hx) | hx) | hx
  · split at hx
    · rw [List.mem_singleton] at hx; subst hx
      exact ⟨.indoms, rfl, hs.indoms, by dsimp only; omega, .inr (by rw [s1]; dsimp only; omega)⟩
    · simp at hx
  · split at hx
    · rw [List.mem_singleton] at hx; subst hx
      exact ⟨.instances, rfl, hs.insts, by dsimp only; omega, .inr (by rw [s2]; dsimp only; rw [Nat.mul_comm]; omega)⟩
    · simp at hx
  · subst hx
    refine ⟨.metrics, rfl, hs.metrics, by dsimp only; split <;> omega, ?_⟩
    dsimp only
    by_cases h0 : r.MetricCount = 0
    · exact .inl h0
    · rw [if_neg h0, s3, Nat.mul_comm]; right; omega
  · subst hx
    refine ⟨.values, rfl, hs.values, by dsimp only; split <;> omega, ?_⟩
    dsimp only
    by_cases h0 : r.MetricCount = 0
    · exact .inl (values_zero hr h0)
    · rw [if_neg h0, s4]; right; omega
  · split at hx
    · rw [List.mem_singleton] at hx; subst hx
      exact ⟨.strings, rfl, hs.strings, by dsimp only; omega, .inr (by rw [s5]; dsimp only; omega)⟩
    · simp at hx

theorem tocEntries_once {i j : Nat} {x y : Nat × Nat × Nat} (hi : (tocEntries r)[i]? = some x) (hj : (tocEntries r)[j]? = some y)
    (h : BitVec.ofNat 32 x.1 = BitVec.ofNat 32 y.1) : i = j := by
  have hn : ((tocEntries r).map fun x => BitVec.ofNat 32 x.1).Nodup := by
    unfold tocEntries
    by_cases h1 : r.InstanceDomainCount > 0 <;> by_cases h2 : r.InstanceCount > 0 <;> by_cases h3 : r.StringCount > 0 <;>
      simp only [h1, h2, h3, if_true, if_false, List.nil_append, List.cons_append, List.append_nil, List.map_cons, List.map_nil] <;>
      decide
  have hi' : ((tocEntries r).map fun x => BitVec.ofNat 32 x.1)[i]? = some (BitVec.ofNat 32 x.1) := by
    rw [List.getElem?_map, hi]; rfl
  have hj' : ((tocEntries r).map fun x => BitVec.ofNat 32 x.1)[j]? = some (BitVec.ofNat 32 x.1) := by
    rw [List.getElem?_map, hj, h]; rfl
  obtain ⟨a1, a2⟩ := List.getElem?_eq_some_iff.1 hi'
  obtain ⟨b1, b2⟩ := List.getElem?_eq_some_iff.1 hj'
  exact (hn.getElem_inj_iff).1 (a2.trans b2.symm)

theorem tocEntries_full (hr : r.OK) : r.Length = 40 + r.tocCount * 16 ∨ ∃ x ∈ tocEntries r, ∃ k : Dump.Kind,
    BitVec.ofNat 32 x.1 = k.code ∧ 0 < x.2.1 ∧ x.2.2 + x.2.1 * k.size (verOf r) = r.Length := by
  obtain ⟨s1, s2, s3, s4, s5⟩ := sizes_ver r
  have hL := Length_eq r
  obtain ⟨c1, c2, c3, c4, c5, c6⟩ := off_chain r
  have e1 : r.instanceoffset = r.indomoffset + 32 * r.InstanceDomainCount := rfl
  have e2 : r.metricsoffset = r.instanceoffset + r.InstanceLength * r.InstanceCount := rfl
  have e3 : r.valuesoffset = r.metricsoffset + r.MetricLength * r.MetricCount := rfl
  have e4 : r.stringsoffset = r.valuesoffset + 32 * r.ValuesCount := rfl
  by_cases h5 : r.StringCount > 0
  · right
    refine ⟨(5, r.StringCount, r.stringsoffset), ?_, .strings, rfl, h5, by rw [s5]; dsimp only; omega⟩
    unfold tocEntries; rw [if_pos h5]; simp
  by_cases h4 : r.ValuesCount > 0
  · right
    have hm : r.MetricCount ≠ 0 := fun h => by have := values_zero hr h; omega
    refine ⟨(4, r.ValuesCount, r.valuesoffset), ?_, .values, rfl, h4, by rw [s4]; dsimp only; omega⟩
    unfold tocEntries; rw [if_neg hm, if_neg hm]; simp
  have z5 : r.StringCount = 0 := by omega
  have z4 : r.ValuesCount = 0 := by omega
  rw [z4, z5] at hL
  by_cases h3 : r.MetricCount > 0
  · right
    have hm : r.MetricCount ≠ 0 := by omega
    refine ⟨(3, r.MetricCount, r.metricsoffset), ?_, .metrics, rfl, h3, by rw [s3]; dsimp only; rw [Nat.mul_comm]; omega⟩
    unfold tocEntries; rw [if_neg hm, if_neg hm]; simp
  have z3 : r.MetricCount = 0 := by omega
  rw [z3] at hL
  by_cases h2 : r.InstanceCount > 0
  · right
    refine ⟨(2, r.InstanceCount, r.instanceoffset), ?_, .instances, rfl, h2, by rw [s2]; dsimp only; rw [Nat.mul_comm]; omega⟩
    unfold tocEntries; rw [if_pos h2]; simp
  have z2 : r.InstanceCount = 0 := by omega
  rw [z2] at hL
  by_cases h1 : r.InstanceDomainCount > 0
  · right
    refine ⟨(1, r.InstanceDomainCount, r.indomoffset), ?_, .indoms, rfl, h1, by rw [s1]; dsimp only; omega⟩
    unfold tocEntries; rw [if_pos h1]; simp
  · left; omega

end

theorem tight_file {r : Reg} {e : Env} {o : Ord} {σ : Seal} {F : Buf} (hr : r.OK) (hs : r.Small) (hF : FileOK r e o σ F) : Tight F := by
  have hl := hs.length
  have hlen := hF.len
  have hL := Length_eq r
  have htc : r.tocCount ≤ 5 := by unfold Reg.tocCount; split <;> split <;> omega
  have hh := readHeader_file hF
  have ht := readTocs_file hr hs hF
  have hok : HeaderOK F := by
    by_contra hn
    rw [(readHeader_iff F).2 hn] at hh; cases hh
  obtain ⟨hdr, g1, g2, g3⟩ := (readHeader_iff F).1 hok
  rw [hh] at g1
  cases g1
  have e4 : f32 F 4 = verOf r := g2.symm
  have e24 : f32 F 24 = BitVec.ofNat 32 r.tocCount := g3.symm
  have n24 : (f32 F 24).toNat = r.tocCount := by rw [e24]; simp; omega
  obtain ⟨p1, p2, p3⟩ := readTocs_ok ht
  have hent : ∀ i < (f32 F 24).toNat, ∃ x, (tocEntries r)[i]? = some x ∧ entry F i = tocOf x := by
    intro i hi
    have hlt : i < (tocEntries r).length := by rw [tocEntries_length hr]; omega
    refine ⟨_, List.getElem?_eq_getElem hlt, ?_⟩
    have := congrArg (fun l => l[i]?) p2
    simp only [List.getElem?_map, List.getElem?_eq_getElem hlt, Option.map_some] at this
    rw [List.getElem?_range (by rw [← e24]; exact hi)] at this
    simp only [Option.map_some, Option.some.injEq] at this
    exact this.symm
  have ecnt : ∀ x : Nat × Nat × Nat, x.2.1 < 2 ^ 31 → (tocOf x).count.toNat = x.2.1 := by
    intro x hx; simp only [tocOf, BitVec.toNat_ofNat]; omega
  have eoff : ∀ x : Nat × Nat × Nat, x.2.2 < 2 ^ 48 → (tocOf x).offset.toNat = x.2.2 := by
    intro x hx; simp only [tocOf, BitVec.toNat_ofNat]; omega
  refine ⟨⟨by omega, ⟨hok, by rw [e24]; exact p1, by omega⟩, ?_⟩, ?_, ?_⟩
  · intro i hi
    obtain ⟨x, hx, he⟩ := hent i hi
    obtain ⟨k, a1, a2, a3, a4⟩ := tocEntries_in hr hs (List.mem_of_getElem? hx)
    rw [he, e4, ecnt x a2, eoff x a3, hlen]
    refine ⟨k, a1, ?_, a4⟩
    rw [BitVec.toInt_eq_toNat_of_lt (by rw [ecnt x a2]; omega)]
    omega
  · intro i hi j hj h
    obtain ⟨x, hx, hex⟩ := hent i hi
    obtain ⟨y, hy, hey⟩ := hent j hj
    rw [hex, hey] at h
    exact tocEntries_once hx hy h
  · rcases tocEntries_full hr with h | ⟨x, hx, k, a1, a2, a3⟩
    · left; omega
    · right
      obtain ⟨i, hi⟩ := List.getElem?_of_mem hx
      have hil : i < (f32 F 24).toNat := by
        have := (List.getElem?_eq_some_iff.1 hi).1
        rw [tocEntries_length hr] at this; omega
      obtain ⟨y, hy, he⟩ := hent i hil
      obtain rfl := Option.some.inj (hi.symm.trans hy)
      obtain ⟨_, _, b2, b3, _⟩ := tocEntries_in hr hs hx
      refine ⟨i, hil, k, ?_⟩
      rw [he, e4, ecnt x b2, eoff x b3, hlen]
      exact ⟨a1, a2, a3⟩

theorem count_file {r : Reg} {e : Env} {o : Ord} {σ : Seal} {F : Buf} (hr : r.OK) (hs : r.Small) (hF : FileOK r e o σ F) :
    (f32 F 24).toNat = r.tocCount := by
  have htc : r.tocCount ≤ 5 := by unfold Reg.tocCount; split <;> split <;> omega
  obtain ⟨hdr, g1, _, g3⟩ := (readHeader_iff F).1 (tight_file hr hs hF).whole.toc.1
  rw [readHeader_file hF] at g1
  cases g1
  rw [← g3]
  show (BitVec.ofNat 32 r.tocCount).toNat = _
  simp; omega

end Speed
