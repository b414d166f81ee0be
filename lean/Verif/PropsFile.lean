import Verif.PropsStart
/-
Properties of the written file: names (C16), references (C36), alignment (C40), header (C54) and table
of contents (C55).
-/
namespace Speed

open Dump

/-! ### C16 -/

section
variable {r : Reg} {e : Env} {o : Ord} {σ : Seal} {F : Buf} {D : Result}
variable (hr : r.OK) (hsm : r.Small) (hs : SealOK (params r e o) σ) (hF : FileOK r e o σ F) (hD : RawDump r e F D)

include hr hsm hs hF hD in
theorem strSlot_of {t : Tok} {s : Str} {x : Nat} (hc : t.chan = .str) (hl : s.length ≤ StringLength)
    (h : StrAt (FileAt F) σ t s x) : look D.strings (BitVec.ofNat 64 x).toNat = some ⟨s ++ zeros (256 - s.length)⟩ := by
  obtain ⟨h1, h2⟩ := h
  obtain ⟨hlt, _, hm⟩ := slot_lt hr hsm hs h1
  rw [hc] at hm
  have hp := hD.strings.trans (sec_perm hr hs hF .str _ (regToks_length hr).2.2.2.2)
  rw [ofNat64_toNat hlt, look_perm hp (List.mem_map.2 ⟨t, hm, slotOf_eq h1⟩)]
  rw [bytesAt_of h2 (pad_length hl)]
  rfl

/-- How a name is stored: in version 1 in a 64-byte field followed by at least one NUL, in version 2 as
a reference to a 256-byte string slot holding it whole, padded with NULs. -/
def StoresName (r : Reg) (D : Result) (n : Dump.Name) (name : Str) : Prop :=
  if r.version2 then ∃ off, n = .ref off ∧ name.length ≤ 256 ∧
    look D.strings off.toNat = some ⟨name ++ zeros (256 - name.length)⟩
  else n = .inl (name ++ zeros (64 - name.length)) ∧ name.length < 64

include hr hsm hs hF hD in
theorem metric_name {m : Metric} (hm : m ∈ r.metrics) :
    ∃ x, look D.metrics (slotOf σ (.metric m.uid)) = some x ∧ StoresName r D x.name m.desc.name := by
  have hp := hD.metrics.trans (sec_perm hr hs hF .metric _ (regToks_length hr).2.2.1)
  have htok : Tok.metric m.uid ∈ regToks r .metric := List.mem_map.2 ⟨m, hm, rfl⟩
  refine ⟨_, look_perm hp (List.mem_map.2 ⟨_, htok, rfl⟩), ?_⟩
  obtain ⟨v, so, lo, h1, h2, h3, h4⟩ := (hF.recs.2 m hm).1
  rw [slotOf_eq h1]
  unfold decMetric StoresName
  split at h4
  · rename_i hv
    rw [if_pos hv, if_pos hv]
    obtain ⟨no, h5, h6⟩ := h4
    rw [List.append_assoc, List.append_assoc, FileAt.append] at h6
    refine ⟨_, rfl, hr.metricName m hm, ?_⟩
    rw [f64_of h6.1]
    exact strSlot_of hr hsm hs hF hD rfl (hr.metricName m hm) h5
  · rename_i hv
    rw [if_neg hv, if_neg hv]
    have hnl := hr.v1metric (by simpa using hv) m hm
    rw [List.append_assoc, List.append_assoc, FileAt.append] at h4
    have hpl : (pad (MaxV1NameLength + 1) m.desc.name).length = 64 := pad_length (Nat.le_succ_of_le hnl)
    refine ⟨?_, by simp only [MaxV1NameLength] at hnl; omega⟩
    show Dump.Name.inl (bytesAt F v 64) = _
    rw [bytesAt_of h4.1 hpl]
    rfl

include hr hsm hs hF hD in
theorem inst_name {d : Indom} (hd : d ∈ r.indoms) {i : Inst} (hi : i ∈ d.insts) :
    ∃ x, look D.instances (slotOf σ (.inst d.uid i.name)) = some x ∧ StoresName r D x.external i.name := by
  have hp := hD.insts.trans (sec_perm hr hs hF .inst _ (regToks_length hr).2.1)
  have htok : Tok.inst d.uid i.name ∈ regToks r .inst :=
    List.mem_flatMap.2 ⟨d, hd, List.mem_map.2 ⟨i, hi, rfl⟩⟩
  refine ⟨_, look_perm hp (List.mem_map.2 ⟨_, htok, rfl⟩), ?_⟩
  obtain ⟨v, inoff, h1, _, h3, h4⟩ := (hF.recs.1 d hd).2 i hi
  rw [slotOf_eq h1]
  unfold decInst StoresName
  split at h4
  · rename_i hv
    rw [if_pos hv, if_pos hv]
    obtain ⟨so, h5, h6⟩ := h4
    simp only [FileAt.append, le_length, List.length_append] at h6
    refine ⟨_, rfl, hr.instNameLen d hd i hi, ?_⟩
    rw [f64_of h6.2]
    exact strSlot_of hr hsm hs hF hD rfl (hr.instNameLen d hd i hi) h5
  · rename_i hv
    rw [if_neg hv, if_neg hv]
    have hnl := hr.v1inst (by simpa using hv) d hd i hi
    simp only [FileAt.append, le_length, List.length_append] at h4
    refine ⟨?_, by simp only [MaxV1NameLength] at hnl; omega⟩
    show Dump.Name.inl (bytesAt F (v + 16) 64) = _
    rw [bytesAt_of h4.2 (pad_length (Nat.le_succ_of_le hnl))]
    rfl

end

/-- C16: after any history the registry is in version 2 mode iff some registered name is longer than 63
bytes. -/
theorem C16_version_iff {r : Reg} (hb : Built r) : r.version2 = true ↔
    (∃ m ∈ r.metrics, m.desc.name.length > 63) ∨ ∃ d ∈ r.indoms, ∃ i ∈ d.insts, i.name.length > 63 :=
  hb.inv.counts.version

/-- 70 bytes in one name make the difference. -/
example : Built sampleReg2 ∧ sampleReg2.version2 = true ∧ (∃ m ∈ sampleReg2.metrics, m.desc.name.length > 63) ∧
    Built sampleReg ∧ sampleReg.version2 = false ∧ ∀ m ∈ sampleReg.metrics, m.desc.name.length ≤ 63 :=
  ⟨sampleReg2_built, by decide, by decide, sampleReg_built, by decide, by decide⟩

/-- C16: the header of the written file says so, and every metric and instance name is stored whole. -/
theorem C16_names_stored {r e o s} (h : Started r e o s) {D} (hd : Dumps s.mem (.ok D)) :
    (D.header.version = if (∃ m ∈ r.metrics, m.desc.name.length > 63) ∨
        ∃ d ∈ r.indoms, ∃ i ∈ d.insts, i.name.length > 63 then 2 else 1) ∧
    ∃ A : Addrs, DescribesAt r D A ∧
      (∀ m ∈ r.metrics, ∃ x, look D.metrics (A.metric m.uid) = some x ∧ StoresName r D x.name m.desc.name) ∧
      (∀ d ∈ r.indoms, ∀ i ∈ d.insts, ∃ x, look D.instances (A.inst d.uid i.name) = some x ∧
        StoresName r D x.external i.name) := by
  obtain ⟨σ, D', hD', hs, hF, hR, hA⟩ := h.raw hd
  obtain rfl : D = D' := by injection hD'
  refine ⟨?_, addrsOf σ, hA, fun m hm => metric_name h.ok h.small hs hF hR hm,
    fun d hd i hi => inst_name h.ok h.small hs hF hR hd hi⟩
  rw [hR.header]
  show (if r.version2 = true then (2 : BitVec 32) else 1) = _
  by_cases hv : r.version2 = true
  · rw [if_pos hv, if_pos ((C16_version_iff h.built).1 hv)]
  · rw [if_neg hv, if_neg (fun hh => hv ((C16_version_iff h.built).2 hh))]

/-- A file of each version. -/
example : (∃ s D, Started sampleReg ⟨2, 77, 12345, 42⟩ (idOrd sampleReg) s ∧ Dumps s.mem (.ok D) ∧ D.header.version = 1) ∧
    ∃ s D, Started sampleReg2 ⟨3, 78, 999, 43⟩ (revOrd sampleReg2) s ∧ Dumps s.mem (.ok D) ∧ D.header.version = 2 := by
  obtain ⟨s, D, h, hd⟩ := sample_dumped
  obtain ⟨s2, D2, h2, hd2⟩ := sample_dumped2
  exact ⟨⟨s, D, h, hd, (C16_names_stored h hd).1.trans (by decide)⟩,
    ⟨s2, D2, h2, hd2, (C16_names_stored h2 hd2).1.trans (by decide)⟩⟩

/-- Both versions occur. -/
example : sampleReg.version2 = false ∧ sampleReg2.version2 = true := by decide

/-! ### C36 -/

theorem look_of_mem {α : Type} {l : List (Nat × α)} (hnd : (l.map Prod.fst).Nodup) {k : Nat} {x : α}
    (h : (k, x) ∈ l) : look l k = some x := by
  unfold look
  induction l with
  | nil => simp at h
  | cons p l ih =>
    rw [List.map_cons, List.nodup_cons] at hnd
    rcases List.mem_cons.1 h with rfl | h
    · simp
    · rw [List.find?_cons_of_neg]
      · exact ih hnd.2 h
      · simp only [decide_eq_true_eq]
        rintro rfl
        exact hnd.1 (List.mem_map.2 ⟨_, h, rfl⟩)

theorem key_of_look {α : Type} {l : List (Nat × α)} {k : Nat} {x : α} (h : look l k = some x) : k ∈ l.map Prod.fst := by
  unfold look at h
  simp only [Option.map_eq_some_iff] at h
  obtain ⟨p, hp, _⟩ := h
  have := List.find?_some hp
  simp only [decide_eq_true_eq] at this
  exact this ▸ List.mem_map.2 ⟨p, List.mem_of_find?_eq_some hp, rfl⟩

/-- All references of a dump resolve. -/
structure Resolves (D : Result) : Prop where
  /-- a value's metric -/
  valMetric : ∀ p ∈ D.values, p.2.metric.toNat ∈ D.metrics.map Prod.fst
  /-- a value's instance; 0 for singletons -/
  valInst : ∀ p ∈ D.values, p.2.inst = 0 ∨ p.2.inst.toNat ∈ D.instances.map Prod.fst
  /-- the string of a value of a string metric -/
  valStr : ∀ p ∈ D.values, ∀ m, look D.metrics p.2.metric.toNat = some m → m.typ = 6 →
    p.2.extra.toNat ∈ D.strings.map Prod.fst
  /-- an instance's domain -/
  instIndom : ∀ p ∈ D.instances, p.2.indom.toNat ∈ D.indoms.map Prod.fst
  /-- the entries of a domain's instance table, all of them its own -/
  indomInsts : ∀ p ∈ D.indoms, ∀ j < p.2.count.toNat,
    ∃ x, look D.instances (p.2.offset.toNat + j * (if D.header.version = 2 then 24 else 80)) = some x ∧ x.indom.toNat = p.1
  /-- texts -/
  indomText : ∀ p ∈ D.indoms, (p.2.shorttext = 0 ∨ p.2.shorttext.toNat ∈ D.strings.map Prod.fst) ∧
    (p.2.longtext = 0 ∨ p.2.longtext.toNat ∈ D.strings.map Prod.fst)
  metricText : ∀ p ∈ D.metrics, (p.2.shorttext = 0 ∨ p.2.shorttext.toNat ∈ D.strings.map Prod.fst) ∧
    (p.2.longtext = 0 ∨ p.2.longtext.toNat ∈ D.strings.map Prod.fst)
  /-- names in version 2 -/
  metricName : ∀ p ∈ D.metrics, ∀ off, p.2.name = .ref off → off.toNat ∈ D.strings.map Prod.fst
  instName : ∀ p ∈ D.instances, ∀ off, p.2.external = .ref off → off.toNat ∈ D.strings.map Prod.fst

theorem textOf_key {D : Result} {off : BitVec 64} {s : Str} (h : textOf D off = some s) :
    off = 0 ∨ off.toNat ∈ D.strings.map Prod.fst := by
  unfold textOf at h
  split at h
  · exact .inl (by assumption)
  · right
    unfold strAt at h
    simp only [Option.map_eq_some_iff] at h
    obtain ⟨x, hx, _⟩ := h
    exact key_of_look hx

theorem strAt_key {D : Result} {off : BitVec 64} {s : Str} (h : strAt D off = some s) :
    off.toNat ∈ D.strings.map Prod.fst := by
  unfold strAt at h
  simp only [Option.map_eq_some_iff] at h
  obtain ⟨x, hx, _⟩ := h
  exact key_of_look hx

theorem resolves_of {r : Reg} {D : Result} {A : Addrs} (h : DescribesAt r D A) (hr : r.OK) (hty : r.Typed)
    (hil : r.InstanceLength = if D.header.version = 2 then 24 else 80) : Resolves D := by
  obtain ⟨n1, n2, n3, n4, n5⟩ := h.nodup
  have hm : ∀ p ∈ D.metrics, ∃ m ∈ r.metrics, p.1 = A.metric m.uid ∧ MetricShows D p.2 m := by
    intro p hp
    have := h.metricKeys.mem_iff.1 (List.mem_map.2 ⟨p, hp, rfl⟩)
    obtain ⟨m, hm, hk⟩ := List.mem_map.1 this
    obtain ⟨x, hx, hx2⟩ := h.metrics m hm
    rw [hk, look_of_mem n3 hp] at hx
    cases hx
    exact ⟨m, hm, hk.symm, hx2⟩
  have hi : ∀ p ∈ D.instances, ∃ d ∈ r.indoms, ∃ i ∈ d.insts, p.1 = A.inst d.uid i.name ∧ InstShows D A p.2 d i := by
    intro p hp
    have := h.instKeys.mem_iff.1 (List.mem_map.2 ⟨p, hp, rfl⟩)
    obtain ⟨d, hd, hk⟩ := List.mem_flatMap.1 this
    obtain ⟨i, hi, hk⟩ := List.mem_map.1 hk
    obtain ⟨x, hx, hx2⟩ := h.insts d hd i hi
    rw [hk, look_of_mem n2 hp] at hx
    cases hx
    exact ⟨d, hd, i, hi, hk.symm, hx2⟩
  have hd : ∀ p ∈ D.indoms, ∃ d ∈ r.indoms, p.1 = A.indom d.uid ∧ IndomShows D A r.InstanceLength p.2 d := by
    intro p hp
    have := h.indomKeys.mem_iff.1 (List.mem_map.2 ⟨p, hp, rfl⟩)
    obtain ⟨m, hm, hk⟩ := List.mem_map.1 this
    obtain ⟨x, hx, hx2⟩ := h.indoms m hm
    rw [hk, look_of_mem n1 hp] at hx
    cases hx
    exact ⟨m, hm, hk.symm, hx2⟩
  have hv : ∀ p ∈ D.values, ∃ m ∈ r.metrics, ∃ s ∈ m.slotNames, ∃ v, m.cur s = some v ∧ ValueShows D A p.2 m s v := by
    intro p hp
    have := h.valueKeys.mem_iff.1 (List.mem_map.2 ⟨p, hp, rfl⟩)
    obtain ⟨m, hm, hk⟩ := List.mem_flatMap.1 this
    obtain ⟨s, hs, hk⟩ := List.mem_map.1 hk
    obtain ⟨v, x, hv, hx, hx2⟩ := h.values m hm s hs
    rw [hk, look_of_mem n4 hp] at hx
    cases hx
    exact ⟨m, hm, s, hs, v, hv, hx2⟩
  refine ⟨?_, ?_, ?_, ?_, ?_, ?_, ?_, ?_, ?_⟩
  · intro p hp
    obtain ⟨m, hm, s, _, v, _, h1, _⟩ := hv p hp
    obtain ⟨x, hx, _⟩ := h.metrics m hm
    rw [h1]; exact key_of_look hx
  · intro p hp
    obtain ⟨m, hm, s, hs, v, _, _, h2, _⟩ := hv p hp
    cases s with
    | none => exact .inl h2
    | some n =>
    cases hmi : m.indom with
    | none => rw [hmi] at h2; exact .inl h2
    | some d =>
      rw [hmi] at h2
      right
      have hd := hr.registered m hm d hmi
      have : ∃ i ∈ d.insts, i.name = n := by
        unfold Metric.indom at hmi
        unfold Metric.slotNames at hs
        cases hb : m.body with
        | single v => rw [hb] at hmi; cases hmi
        | inst d' vs =>
          rw [hb] at hmi hs
          cases hmi
          obtain ⟨i, hi, hin⟩ := List.mem_map.1 hs
          exact ⟨i, hi, Option.some.inj hin⟩
      obtain ⟨i, hi, rfl⟩ := this
      obtain ⟨x, hx, _⟩ := h.insts d hd i hi
      rw [h2]; exact key_of_look hx
  · intro p hp x hx hxt
    obtain ⟨m, hm, s, _, v, hcur, h1, _, h3⟩ := hv p hp
    obtain ⟨y, hy, hy2⟩ := h.metrics m hm
    rw [h1, hy] at hx
    cases hx
    have ht : m.desc.t = StringType := by rw [← hy2.2.2.1]; exact hxt
    have htyp := hty m hm s v hcur
    rw [ht] at htyp
    rcases htyp with ⟨ht, _⟩ | ⟨ht, _⟩ | ⟨ht, _⟩ | ⟨ht, _⟩ | ⟨ht, _⟩ | ⟨ht, _⟩ | ⟨_, t, rfl⟩
    case inr.inr.inr.inr.inr.inr => exact strAt_key h3.2
    all_goals exact absurd ht (by decide)
  · intro p hp
    obtain ⟨d, hd, i, _, _, h1, _⟩ := hi p hp
    obtain ⟨x, hx, _⟩ := h.indoms d hd
    rw [h1]; exact key_of_look hx
  · intro p hp j hj
    obtain ⟨d, hd, hk, h1, h2, h3, _⟩ := hd p hp
    rw [h2] at hj
    have hmem := h3.mem_iff.1 (List.mem_map.2 ⟨j, List.mem_range.2 hj, rfl⟩)
    obtain ⟨i, hi, hi2⟩ := List.mem_map.1 hmem
    obtain ⟨x, hx, hx2⟩ := h.insts d hd i hi
    rw [← hil, ← hi2]
    exact ⟨x, hx, by rw [hk]; exact hx2.1⟩
  · intro p hp
    obtain ⟨d, hd, _, _, _, _, h4, h5⟩ := hd p hp
    exact ⟨textOf_key h4, textOf_key h5⟩
  · intro p hp
    obtain ⟨m, _, _, _, _, _, _, _, _, _, h4, h5⟩ := hm p hp
    exact ⟨textOf_key h4, textOf_key h5⟩
  · intro p hp off hoff
    obtain ⟨m, _, _, h4, _⟩ := hm p hp
    rw [hoff] at h4
    exact strAt_key h4
  · intro p hp off hoff
    obtain ⟨d, _, i, _, _, _, _, _, h4⟩ := hi p hp
    rw [hoff] at h4
    exact strAt_key h4

/-- C36: in a written file every reference resolves, and `mmvdump.Write` prints all of it without
panicking and without an error. -/
theorem C36_references {r e o s} (h : Started r e o s) {D} (hd : Dumps s.mem (.ok D)) :
    Resolves D ∧ ∃ A, DescribesAt r D A ∧ ∃ ls, write D = .ok ls ∧ PrintsAll r A ls := by
  obtain ⟨σ, D', hD', hs, hF, hR, hA⟩ := h.raw hd
  obtain rfl : D = D' := by injection hD'
  have hil : r.InstanceLength = if D.header.version = 2 then 24 else 80 := by
    rw [hR.header]; unfold hdrOf verOf Reg.InstanceLength; cases r.version2 <;> rfl
  refine ⟨resolves_of hA h.ok h.built.typed hil, _, hA, write_ok h.ok h.small h.built.typed ?_ hR hA⟩
  intro d hd hid
  have h1 := (h.built.inv.indoms d hd).id
  have h2 := hash_lt d.name 22 (by decide) (by decide)
  rw [← h1, hid] at h2
  exact absurd h2 (by decide)

/-- A dump of a file with all kinds of references. -/
example : ∃ s D, Started sampleReg2 ⟨3, 78, 999, 43⟩ (revOrd sampleReg2) s ∧ Dumps s.mem (.ok D) ∧ Resolves D ∧
    ∃ ls, write D = .ok ls := by
  obtain ⟨s, D, h, hd⟩ := sample_dumped2
  obtain ⟨h1, A, _, ls, h2, _⟩ := C36_references h hd
  exact ⟨s, D, h, hd, h1, ls, h2⟩

/-! ### C40 -/

/-- C40: all section and record offsets of a written file are multiples of 8. -/
theorem C40_aligned {r e o s} (h : Started r e o s) {D} (hd : Dumps s.mem (.ok D)) :
    (∀ t ∈ D.tocs, 8 ∣ t.offset.toNat) ∧ (∀ p ∈ extents D, 8 ∣ p.1) := by
  obtain ⟨σ, D', hD', hs, hF, hR, hA⟩ := h.raw hd
  obtain rfl : D = D' := by injection hD'
  have a1 : 8 ∣ r.indomoffset := by unfold Reg.indomoffset; simp only [HeaderLength, TocLength]; omega
  have a2 : 8 ∣ r.instanceoffset := by unfold Reg.instanceoffset; simp only [InstanceDomainLength]; omega
  have a3 : 8 ∣ r.metricsoffset := by
    unfold Reg.metricsoffset Reg.InstanceLength; simp only [Instance1Length, Instance2Length]; split <;> omega
  have a4 : 8 ∣ r.valuesoffset := by
    unfold Reg.valuesoffset Reg.MetricLength; simp only [Metric1Length, Metric2Length]; split <;> omega
  have a5 : 8 ∣ r.stringsoffset := by unfold Reg.stringsoffset; simp only [ValueLength]; omega
  have il : 8 ∣ r.InstanceLength := by unfold Reg.InstanceLength; split <;> decide
  have ml : 8 ∣ r.MetricLength := by unfold Reg.MetricLength; split <;> decide
  have key : ∀ {α : Type} {l : List (Nat × α)} {f : Nat → α} {off L n : Nat}, l.Perm (secItems f off L n) →
      8 ∣ off → 8 ∣ L → ∀ p ∈ l, 8 ∣ p.1 := by
    intro α l f off L n hp h1 h2 p hpl
    obtain ⟨i, _, hk⟩ := idx_of_key hp (List.mem_map.2 ⟨p, hpl, rfl⟩)
    rw [hk]; exact Nat.dvd_add h1 (Dvd.dvd.mul_left h2 i)
  constructor
  · intro t ht
    rw [hR.tocs] at ht
    obtain ⟨x, hx, rfl⟩ := List.mem_map.1 ht
    have hx8 : 8 ∣ x.2.2 := by
      simp only [tocEntries, List.mem_append, List.mem_singleton] at hx
      rcases hx with (((hx | hx) | rfl) | rfl) | hx
      · split at hx <;> simp at hx; subst hx; exact a1
      · split at hx <;> simp at hx; subst hx; exact a2
      · dsimp only; split
        · exact Nat.dvd_zero _
        · exact a3
      · dsimp only; split
        · exact Nat.dvd_zero _
        · exact a4
      · split at hx <;> simp at hx; subst hx; exact a5
    show 8 ∣ (BitVec.ofNat 64 x.2.2).toNat
    rw [BitVec.toNat_ofNat]
    omega
  · intro p hp
    unfold extents at hp
    simp only [List.mem_append, List.mem_map, List.mem_singleton] at hp
    rcases hp with (((((rfl | ⟨i, _, rfl⟩) | ⟨q, hq, rfl⟩) | ⟨q, hq, rfl⟩) | ⟨q, hq, rfl⟩) | ⟨q, hq, rfl⟩) | ⟨q, hq, rfl⟩
    · exact Nat.dvd_zero _
    · dsimp only; omega
    · exact key hR.indoms a1 (by decide) q hq
    · exact key hR.insts a2 il q hq
    · exact key hR.metrics a3 ml q hq
    · exact key hR.values a4 (by decide) q hq
    · exact key hR.strings a5 (by decide) q hq

example : ∃ s D, Started sampleReg2 ⟨3, 78, 999, 43⟩ (revOrd sampleReg2) s ∧ Dumps s.mem (.ok D) ∧
    ∀ p ∈ extents D, 8 ∣ p.1 := by
  obtain ⟨s, D, h, hd⟩ := sample_dumped2
  exact ⟨s, D, h, hd, (C40_aligned h hd).2⟩

/-! ### C54 -/

/-- C54: the header carries the magic, the version, equal generation stamps, the exact number of TOC
entries, the low 32 bits of the given flag and process id (Go `int`s), and the cluster id. -/
theorem C54_header {r e o s} (h : Started r e o s) {D} (hd : Dumps s.mem (.ok D)) :
    D.header.magic = [0x4D, 0x4D, 0x56, 0] ∧ (D.header.version = 1 ∨ D.header.version = 2) ∧
    D.header.g1 = e.gen ∧ D.header.g2 = e.gen ∧ D.header.toc.toNat = D.tocs.length ∧
    D.header.flag = e.flag.setWidth 32 ∧ D.header.process = e.pid.setWidth 32 ∧ D.header.cluster = e.clusterID := by
  obtain ⟨σ, D', hD', hs, hF, hR, hA⟩ := h.raw hd
  obtain rfl : D = D' := by injection hD'
  rw [hR.header, hR.tocs, List.length_map, tocEntries_length h.ok]
  refine ⟨rfl, ?_, rfl, rfl, ?_, rfl, rfl, rfl⟩
  · unfold hdrOf verOf; cases r.version2
    · exact .inl rfl
    · exact .inr rfl
  · show (BitVec.ofNat 32 r.tocCount).toNat = _
    unfold Reg.tocCount
    split <;> split <;> rfl

/-- Flag, process and cluster id of the second sample. -/
example : ∃ s D, Started sampleReg2 ⟨3, 78, 999, 43⟩ (revOrd sampleReg2) s ∧ Dumps s.mem (.ok D) ∧
    (D.header.flag, D.header.process, D.header.cluster, D.header.g1, D.header.g2) = (3, 43, 78, 999, 999) := by
  obtain ⟨s, D, h, hd⟩ := sample_dumped2
  obtain ⟨_, _, h1, h2, _, h3, h4, h5⟩ := C54_header h hd
  exact ⟨s, D, h, hd, by rw [h1, h2, h3, h4, h5]; decide⟩

/-! ### C55 -/

/-- C55: the TOC lists, in this order, domains and instances (iff there are any), metrics, values and
strings (iff any), each with the number of registered objects and the section's offset. -/
theorem C55_toc {r e o s} (h : Started r e o s) {D} (hd : Dumps s.mem (.ok D)) :
    D.tocs.map (fun t => (t.type.toNat, t.count.toNat, t.offset.toNat)) =
      (if r.indoms.length > 0 then [(1, r.indoms.length, r.indomoffset)] else []) ++
      (if (r.indoms.map (fun d => d.insts.length)).sum > 0 then
        [(2, (r.indoms.map (fun d => d.insts.length)).sum, r.instanceoffset)] else []) ++
      [(3, r.metrics.length, if r.metrics.length = 0 then 0 else r.metricsoffset)] ++
      [(4, (r.metrics.map (fun m => m.slotNames.length)).sum, if r.metrics.length = 0 then 0 else r.valuesoffset)] ++
      (if r.strings.length > 0 then [(5, r.strings.length, r.stringsoffset)] else []) := by
  obtain ⟨σ, D', hD', hs, hF, hR, hA⟩ := h.raw hd
  obtain rfl : D = D' := by injection hD'
  have hsc : r.strings.length = r.StringCount := by
    have h1 := hA.strings.length_eq
    have h2 := hR.strings.length_eq
    simp only [List.length_map] at h1
    rw [← h1, h2]
    simp [secItems]
  have hic : r.InstanceCount = (r.indoms.map (fun d => d.insts.length)).sum := h.built.inv.counts.insts
  have hvc : r.ValuesCount = (r.metrics.map (fun m => m.slotNames.length)).sum := h.built.inv.counts.values
  rw [hsc, ← hic, ← hvc, hR.tocs, List.map_map]
  have hlen := h.small.length
  obtain ⟨c1, c2, c3, c4, c5, c6⟩ := off_chain r
  have e5 : ∀ x ∈ tocEntries r, x.1 < 2 ^ 32 ∧ x.2.1 < 2 ^ 32 ∧ x.2.2 < 2 ^ 64 := by
    intro x hx
    have s1 := h.small.indoms
    have s2 := h.small.insts
    have s3 := h.small.metrics
    have s4 := h.small.values
    have s5 := h.small.strings
    simp only [tocEntries, List.mem_append, List.mem_singleton] at hx
    rcases hx with (((hx | hx) | rfl) | rfl) | hx
    · split at hx <;> simp at hx; subst hx; exact ⟨by simp, by dsimp only; omega, by dsimp only; omega⟩
    · split at hx <;> simp at hx; subst hx; exact ⟨by simp, by dsimp only; omega, by dsimp only; omega⟩
    · refine ⟨by simp, by dsimp only; omega, ?_⟩
      dsimp only; split <;> omega
    · refine ⟨by simp, by dsimp only; omega, ?_⟩
      dsimp only; split <;> omega
    · split at hx <;> simp at hx; subst hx; exact ⟨by simp, by dsimp only; omega, by dsimp only; omega⟩
  have : (tocEntries r).map ((fun t : Dump.Toc => (t.type.toNat, t.count.toNat, t.offset.toNat)) ∘ tocOf) = tocEntries r := by
    conv => rhs; rw [← List.map_id (tocEntries r)]
    apply List.map_congr_left
    intro x hx
    obtain ⟨h1, h2, h3⟩ := e5 x hx
    simp only [Function.comp, tocOf, BitVec.toNat_ofNat, id]
    rw [Nat.mod_eq_of_lt h1, Nat.mod_eq_of_lt h2, Nat.mod_eq_of_lt h3]
  rw [this]
  rfl

/-- The five entries of the sample file. -/
example : ∃ s D, Started sampleReg ⟨2, 77, 12345, 42⟩ (idOrd sampleReg) s ∧ Dumps s.mem (.ok D) ∧
    D.tocs.map (fun t => (t.type.toNat, t.count.toNat, t.offset.toNat)) =
      [(1, 1, 120), (2, 2, 152), (3, 3, 312), (4, 4, 624), (5, 4, 752)] := by
  obtain ⟨s, D, h, hd⟩ := sample_dumped
  exact ⟨s, D, h, hd, (C55_toc h hd).trans (by decide)⟩

end Speed
