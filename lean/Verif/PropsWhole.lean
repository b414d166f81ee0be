import Verif.PrintWhole
import Verif.PropsPrint
/-
The complete text that `mmvdump` prints for the file of a started client (C56).
-/
namespace Speed
open Dump

/-- The sections of the file of a registry: kind, word, size of an item, number of items, offset. -/
def regSecs (r : Reg) : List (Nat × List Byte × Nat × Nat × Nat) :=
  let I := r.indoms.length
  let N := (r.indoms.map fun d => d.insts.length).sum
  let M := r.metrics.length
  let V := (r.metrics.map fun m => m.slotNames.length).sum
  let S := r.strings.length
  let il := if r.version2 then 24 else 80
  let ml := if r.version2 then 48 else 104
  let o1 := 40 + 16 * (2 + (if N > 0 then 2 else 0) + (if S > 0 then 1 else 0))
  let o2 := o1 + 32 * I
  let o3 := o2 + il * N
  let o4 := o3 + ml * M
  let o5 := o4 + 32 * V
  (if I > 0 then [(1, b!"indoms", 32, I, o1)] else []) ++
  (if N > 0 then [(2, b!"instances", il, N, o2)] else []) ++
  [(3, b!"metric", ml, M, if M = 0 then 0 else o3)] ++
  [(4, b!"values", 32, V, if M = 0 then 0 else o4)] ++
  (if S > 0 then [(5, b!"strings", 256, S, o5)] else [])

/-- The first lines. -/
def headText (r : Reg) (e : Env) : List Byte :=
  b!"Version   = " ++ (if r.version2 then b!"2" else b!"1") ++ b!"\nGenerated = " ++ numText 10 e.gen.toNat ++
  b!"\nToc Count = " ++ numText 10 (regSecs r).length ++ b!"\nCluster   = " ++ signText 10 e.clusterID.toInt ++
  b!"\nProcess   = " ++ signText 10 (e.pid.setWidth 32).toInt ++ b!"\nFlags     = 0x" ++
  signText 16 (e.flag.setWidth 32).toInt ++ b!"\n\n"

/-- The text of section number `i`, given the text `T` of its items. -/
def secText (T : Nat → Nat → List Byte) (x : Nat × List Byte × Nat × Nat × Nat) (i : Nat) : List Byte :=
  match x with
  | (kind, word, size, count, off) =>
    b!"TOC[" ++ numText 10 i ++ b!"], offset: " ++ numText 10 (40 + 16 * i) ++ b!", " ++ word ++ b!" offset: " ++ numText 10 off ++
    b!" (" ++ numText 10 count ++ b!" entries)\n" ++ ((List.range count).flatMap fun j => T kind (off + j * size)) ++ b!"\n"

/-- The offsets of the items of a section. -/
def secOffs (r : Reg) (kind : Nat) : List Nat :=
  (regSecs r).flatMap fun x => if x.1 = kind then (List.range x.2.2.2.1).map fun j => x.2.2.2.2 + j * x.2.2.1 else []

/-- Name of the semantics as printed: see C59. -/
def semText (s : BitVec 32) : List Byte := if s = 0 then b!"NoSemantics" else b!"Semantics(" ++ signText 10 s.toInt ++ b!")"

/-- `T k x` is the text for the object of kind `k` whose record is at offset `x`. Strings are printed with the zero bytes
that fill up their slots, so they are compared without zero bytes at the end. -/
structure ItemsText (P : FloatFmt) (r : Reg) (A : Addrs) (T : Nat → Nat → List Byte) : Prop where
  indoms : ∀ d ∈ r.indoms, ∃ (off : Nat) (a b : Option (List Byte)), T 1 (A.indom d.uid) =
    b!"\t[" ++ numText 10 d.id.toNat ++ b!"/" ++ numText 10 (A.indom d.uid) ++ b!"] " ++ numText 10 d.insts.length ++
      b!" instances, starting at offset " ++ numText 10 off ++ b!"\n" ++ textLine b!"shorttext" b!"shorttext" a ++
      textLine b!"longtext" b!"longtext" b ∧
    ((List.range d.insts.length).map fun j => off + j * (if r.version2 then 24 else 80)).Perm
      (d.insts.map fun i => A.inst d.uid i.name) ∧
    trimNul (a.getD []) = trimNul d.short ∧ trimNul (b.getD []) = trimNul d.long
  insts : ∀ d ∈ r.indoms, ∀ i ∈ d.insts, ∃ n : List Byte, T 2 (A.inst d.uid i.name) =
    b!"\t[" ++ numText 10 d.id.toNat ++ b!"/" ++ numText 10 (A.inst d.uid i.name) ++ b!"] instance = [" ++ signText 10 i.id.toInt ++
      b!"/" ++ n ++ b!"]\n" ∧ trimNul n = trimNul i.name
  metrics : ∀ m ∈ r.metrics, ∃ (n : List Byte) (a b : Option (List Byte)), T 3 (A.metric m.uid) =
    b!"\t[" ++ numText 10 m.desc.id.toNat ++ b!"/" ++ numText 10 (A.metric m.uid) ++ b!"] " ++ n ++
      b!"\n\t\ttype=" ++ typeString m.desc.t ++ b!" (0x" ++ signText 16 m.desc.t.toInt ++ b!"), sem=" ++ semText m.desc.sem ++
      b!" (0x" ++ signText 16 m.desc.sem.toInt ++ b!"), pad=0x0\n\t\tunits=" ++ unitString m.desc.unit ++
      (match m.indom with
        | none => b!"\n\t\t(no indom)\n"
        | some d => b!"\n\t\tindom=" ++ signText 10 d.id.toInt ++ b!"\n") ++
      textLine b!"shorttext" b!"shorttext" a ++ textLine b!"longtext" b!"longtext" b ∧
    trimNul n = trimNul m.desc.name ∧ trimNul (a.getD []) = trimNul m.desc.short ∧
    trimNul (b.getD []) = trimNul m.desc.long
  values : ∀ m ∈ r.metrics, ∀ s ∈ m.slotNames, ∃ (n inst : List Byte) (a v : GoVal), m.cur s = some v ∧
    T 4 (A.value m.uid s) =
    b!"\t[" ++ numText 10 m.desc.id.toNat ++ b!"/" ++ numText 10 (A.value m.uid s) ++ b!"] " ++ n ++ inst ++ b!" = " ++ shown P a ++
      b!"\n" ∧ trimNul n = trimNul m.desc.name ∧ ShowsVal v a ∧
    (inst = [] ∧ (s = none ∨ ∃ d, m.indom = some d ∧ d.id = 0) ∨
      ∃ d i nm, m.indom = some d ∧ i ∈ d.insts ∧ s = some i.name ∧ trimNul nm = trimNul i.name ∧
        inst = b!"[" ++ signText 10 i.id.toInt ++ b!" or \"" ++ nm ++ b!"\"]")
  strings : ∃ p : Nat → List Byte, (∀ x ∈ secOffs r 5, T 5 x = b!"\t[" ++ numText 10 x ++ b!"] " ++ p x ++ b!"\n") ∧
    ((secOffs r 5).map fun x => trimNul (p x)).Perm (r.strings.map trimNul)

/-- Every item of every section is one registered object, and every registered object is one of them. -/
structure ItemsAre (r : Reg) (A : Addrs) : Prop where
  indoms : (secOffs r 1).Perm (r.indoms.map fun d => A.indom d.uid)
  insts : (secOffs r 2).Perm (r.indoms.flatMap fun d => d.insts.map fun i => A.inst d.uid i.name)
  metrics : (secOffs r 3).Perm (r.metrics.map fun m => A.metric m.uid)
  values : (secOffs r 4).Perm (r.metrics.flatMap fun m => m.slotNames.map fun s => A.value m.uid s)

theorem fmtUint_numText {n : Nat} (h : n < 2 ^ 64) : fmtUint 10 n = numText 10 n := by
  rw [fmtUint_eq (by decide) h, numeral_numText (by decide) (by decide)]

theorem semString_semText (s : BitVec 32) : semString s = semText s := by
  unfold semString semText
  have : s.toInt = 0 ↔ s = 0 := by
    constructor
    · intro h; exact BitVec.eq_of_toInt_eq (by rw [h]; rfl)
    · rintro rfl; rfl
  rw [(C58_printed (by decide) s).2.1]
  by_cases h : s = 0
  · rw [if_pos h, if_neg (by rw [this.2 h]; omega)]
  · rw [if_neg h, if_pos (by have : s.toInt ≠ 0 := fun hh => h (this.1 hh); omega)]

theorem regSecs_eq {r : Reg} (hN : r.InstanceCount = (r.indoms.map fun d => d.insts.length).sum)
    (hV : r.ValuesCount = (r.metrics.map fun m => m.slotNames.length).sum) (hS : r.StringCount = r.strings.length) :
    (regSecs r).map (fun x => (x.1, x.2.2)) = fileSecs r ∧ ∀ x ∈ regSecs r, x.2.1 = kindWord (some x.1) := by
  have hil : r.InstanceLength = if r.version2 then 24 else 80 := rfl
  have hml : r.MetricLength = if r.version2 then 48 else 104 := rfl
  have o1 : r.indomoffset = 40 + 16 * (2 + (if r.InstanceCount > 0 then 2 else 0) + (if r.StringCount > 0 then 1 else 0)) := rfl
  have o2 : r.instanceoffset = r.indomoffset + 32 * r.indoms.length := rfl
  have o3 : r.metricsoffset = r.instanceoffset + r.InstanceLength * r.InstanceCount := rfl
  have o4 : r.valuesoffset = r.metricsoffset + r.MetricLength * r.metrics.length := rfl
  have o5 : r.stringsoffset = r.valuesoffset + 32 * r.ValuesCount := rfl
  constructor
  · unfold regSecs fileSecs
    rw [o5, o4, o3, o2, o1, ← hN, ← hV, ← hS, hil, hml]
    dsimp only [Reg.InstanceDomainCount, Reg.MetricCount]
    simp only [List.map_append, apply_ite (List.map _), List.map_nil, List.map_cons]
    rfl
  · unfold regSecs
    dsimp only
    simp only [List.mem_append, List.mem_ite_nil_right, List.mem_singleton]
    rintro x ((((⟨_, rfl⟩ | ⟨_, rfl⟩) | rfl) | rfl) | ⟨_, rfl⟩) <;> rfl

/-- The offsets of a section, from the model. -/
def secKeys (r : Reg) (kind : Nat) : List Nat :=
  (fileSecs r).flatMap fun x => if x.1 = kind then (List.range x.2.2.1).map fun j => x.2.2.2 + j * x.2.1 else []

theorem secKeys_eq (r : Reg) (hz : r.MetricCount = 0 → r.ValuesCount = 0) :
    secKeys r 1 = (List.range r.InstanceDomainCount).map (fun j => r.indomoffset + j * 32) ∧
    secKeys r 2 = (List.range r.InstanceCount).map (fun j => r.instanceoffset + j * r.InstanceLength) ∧
    secKeys r 3 = (List.range r.MetricCount).map (fun j => r.metricsoffset + j * r.MetricLength) ∧
    secKeys r 4 = (List.range r.ValuesCount).map (fun j => r.valuesoffset + j * 32) ∧
    secKeys r 5 = (List.range r.StringCount).map (fun j => r.stringsoffset + j * 256) := by
  have hif : ∀ (c : Prop) [Decidable c] (x : SecInfo) (k : Nat),
      List.flatMap (fun x : SecInfo => if x.1 = k then (List.range x.2.2.1).map fun j => x.2.2.2 + j * x.2.1 else [])
        (if c then [x] else []) =
      if c then (if x.1 = k then (List.range x.2.2.1).map fun j => x.2.2.2 + j * x.2.1 else []) else [] := by
    intro c _ x k; split <;> simp
  have hpos : ∀ (n : Nat) (f : Nat → Nat), (if n > 0 then (List.range n).map f else []) = (List.range n).map f := by
    intro n f
    split
    · rfl
    · rename_i h
      obtain rfl : n = 0 := by omega
      rfl
  have hm : ∀ (n : Nat) (o L : Nat), (r.MetricCount = 0 → n = 0) → ((List.range n).map fun j => (if r.MetricCount = 0 then 0 else o) + j * L) =
      (List.range n).map fun j => o + j * L := by
    intro n o L h
    split
    · rename_i h0; rw [h h0]; rfl
    · rfl
  unfold secKeys fileSecs
  simp only [List.flatMap_append, hif, List.flatMap_cons, List.flatMap_nil]
  refine ⟨?_, ?_, ?_, ?_, ?_⟩ <;> simp [hpos, hm _ _ _ hz, hm _ _ _ id]

theorem secOffs_eq {r : Reg} (h : (regSecs r).map (fun x => (x.1, x.2.2)) = fileSecs r) (k : Nat) :
    secOffs r k = secKeys r k := by
  unfold secOffs secKeys
  rw [← h, List.flatMap_map]

theorem secLines_text {P : FloatFmt} {g : Nat → Nat → List Line} {x : Nat × List Byte × Nat × Nat × Nat} {i : Nat}
    (hw : x.2.1 = kindWord (some x.1)) (hi : i < 2 ^ 32) (hc : x.2.2.2.1 < 2 ^ 31) (ho : x.2.2.2.2 < 2 ^ 64) :
    (secLines g (x.1, x.2.2) i).flatMap (lineText P) = secText (fun k y => (g k y).flatMap (lineText P)) x i := by
  obtain ⟨k, w, size, c, o⟩ := x
  dsimp only at hw hc ho
  subst hw
  have h1 : decU (BitVec.ofNat 64 o) = numText 10 o := by
    rw [(C58_printed (by decide) _).1, BitVec.toNat_ofNat, Nat.mod_eq_of_lt ho]
  have h2 : decI (BitVec.ofNat 32 c) = numText 10 c := by
    have ht : (BitVec.ofNat 32 c).toNat = c := by rw [BitVec.toNat_ofNat, Nat.mod_eq_of_lt (by omega)]
    have : (BitVec.ofNat 32 c).toInt = c := by rw [BitVec.toInt_eq_toNat_of_lt (by omega), ht]
    rw [(C58_printed (by decide) _).2.1, this]
    unfold signText
    rw [if_neg (by omega)]
    rfl
  unfold secLines secText
  simp only [List.flatMap_append, List.flatMap_cons, List.flatMap_nil, List.append_nil, lineText, h1, h2,
    fmtUint_numText (show i < 2 ^ 64 by omega), fmtUint_numText (show 40 + 16 * i < 2 ^ 64 by omega), List.flatMap_assoc]

theorem text_exact {r e σ D} {mem : Buf} (hr : r.OK) (hsm : r.Small) (hty : r.Typed) (hi : RegInv r) (hR : RawDump r e mem D)
    (hA : DescribesAt r D (addrsOf σ)) (P : FloatFmt) :
    ∃ T, ItemsAre r (addrsOf σ) ∧ ItemsText P r (addrsOf σ) T ∧
      pWrite P D ⟨[], []⟩ = (⟨headText r e ++ (regSecs r).zipIdx.flatMap (fun p => secText T p.1 p.2), []⟩, .ok) := by
  have hids : ∀ d ∈ r.indoms, d.id ≠ -1 := by
    intro d hd' hid
    have h1 := (hi.indoms d hd').id
    have h2 := hash_lt d.name 22 (by decide) (by decide)
    rw [← h1, hid] at h2
    exact absurd h2 (by decide)
  have hfi := fits_inst hR
  have hfm := fits_metric hR
  have hsc : r.StringCount = r.strings.length := by
    have h1 := hA.strings.length_eq
    have h2 := hR.strings.length_eq
    simp only [List.length_map] at h1
    rw [← h1, h2]
    simp [secItems]
  have hic : r.InstanceCount = (r.indoms.map (fun d => d.insts.length)).sum := hi.counts.insts
  have hvc : r.ValuesCount = (r.metrics.map (fun m => m.slotNames.length)).sum := hi.counts.values
  have hz : r.MetricCount = 0 → r.ValuesCount = 0 := by
    intro h0
    have : r.metrics = [] := List.eq_nil_of_length_eq_zero h0
    rw [hvc, this]; rfl
  obtain ⟨hsec, hword⟩ := regSecs_eq hic hvc hsc
  obtain ⟨k1, k2, k3, k4, k5⟩ := secKeys_eq r hz
  have q1 : (secOffs r 1).Perm (D.indoms.map Prod.fst) := by
    rw [secOffs_eq hsec, k1]; exact ((secItems_keys _ _ _ _) ▸ (hR.indoms.map Prod.fst)).symm
  have q2 : (secOffs r 2).Perm (D.instances.map Prod.fst) := by
    rw [secOffs_eq hsec, k2]; exact ((secItems_keys _ _ _ _) ▸ (hR.insts.map Prod.fst)).symm
  have q3 : (secOffs r 3).Perm (D.metrics.map Prod.fst) := by
    rw [secOffs_eq hsec, k3]; exact ((secItems_keys _ _ _ _) ▸ (hR.metrics.map Prod.fst)).symm
  have q4 : (secOffs r 4).Perm (D.values.map Prod.fst) := by
    rw [secOffs_eq hsec, k4]; exact ((secItems_keys _ _ _ _) ▸ (hR.values.map Prod.fst)).symm
  have q5 : (secOffs r 5).Perm (D.strings.map Prod.fst) := by
    rw [secOffs_eq hsec, k5]; exact ((secItems_keys _ _ _ _) ▸ (hR.strings.map Prod.fst)).symm
  have hbd := fileSecs_bound hr hsm
  have hkey : ∀ k, ∀ x ∈ secOffs r k, x < 2 ^ 64 := by
    intro k x hx
    rw [secOffs_eq hsec] at hx
    obtain ⟨y, hy, hx⟩ := List.mem_flatMap.1 hx
    split at hx
    · obtain ⟨j, hj, rfl⟩ := List.mem_map.1 hx
      have hj := List.mem_range.1 hj
      have h1 := (hbd y hy).2
      have h2 : j * y.2.1 ≤ y.2.2.1 * y.2.1 := Nat.mul_le_mul_right _ (by omega)
      omega
    · cases hx
  have p1 := q1.trans hA.indomKeys
  have p2 := q2.trans hA.instKeys
  have p3 := q3.trans hA.metricKeys
  have p4 := q4.trans hA.valueKeys
  have hu : ∀ {n : Nat}, n ≤ 64 → ∀ x : BitVec n, decU x = numText 10 x.toNat := fun hn x => (C58_printed hn x).1
  have hi : ∀ {n : Nat}, n ≤ 64 → ∀ x : BitVec n, decI x = signText 10 x.toInt := fun hn x => (C58_printed hn x).2.1
  have hx : ∀ {n : Nat}, n ≤ 64 → ∀ x : BitVec n, hexI x = signText 16 x.toInt := fun hn x => (C58_printed hn x).2.2.2
  have hshort : ∀ a, lineText P (.short a) = textLine b!"shorttext" b!"shorttext" a := by intro a; cases a <;> rfl
  have hlong : ∀ a, lineText P (.long a) = textLine b!"longtext" b!"longtext" a := by intro a; cases a <;> rfl
  refine ⟨fun k x => (linesAt D k x).flatMap (lineText P), ⟨p1, p2, p3, p4⟩, ?_, ?_⟩
  · constructor
    · intro d hd'
      obtain ⟨off, a, b, h1, h2, h3, h4⟩ := showIndom_off hA hd'
      refine ⟨off.toNat, a, b, ?_, h2, h3, h4⟩
      have hb := hkey 1 _ (p1.mem_iff.2 (List.mem_map_of_mem hd'))
      have hl : d.insts.length < 2 ^ 32 := by
        have h1 := hsm.insts
        have h2 : d.insts.length ≤ (r.indoms.map (fun d => d.insts.length)).sum :=
          List.single_le_sum (by simp) _ (List.mem_map_of_mem hd')
        omega
      have hl' : (BitVec.ofNat 32 d.insts.length).toNat = d.insts.length := by
        rw [BitVec.toNat_ofNat, Nat.mod_eq_of_lt hl]
      simp only [linesAt, if_true, h1, List.flatMap_cons, List.flatMap_nil, hshort, hlong]
      simp only [lineText, fmtUint_numText hb, hu (show 32 ≤ 64 by decide), hu (show 64 ≤ 64 by decide), hl', List.append_nil, List.append_assoc]
    · intro d hd' i hi'
      obtain ⟨n, h1, h2⟩ := showInstance_of hA hfi hd' hi'
      refine ⟨n, ?_, h2⟩
      have hb := hkey 2 _ (p2.mem_iff.2 (List.mem_flatMap.2 ⟨d, hd', List.mem_map_of_mem hi'⟩))
      simp only [linesAt, if_true, show ¬ (2 = 1) by decide, if_false, h1, List.flatMap_cons, List.flatMap_nil, lineText, fmtUint_numText hb,
        hu (show 32 ≤ 64 by decide), hi (show 32 ≤ 64 by decide), List.append_nil]
    · intro m hm
      obtain ⟨n, a, b, h1, h2, h3, h4⟩ := showMetric_of hA hfm hm
      refine ⟨n, a, b, ?_, h2, h3, h4⟩
      have hb := hkey 3 _ (p3.mem_iff.2 (List.mem_map_of_mem hm))
      simp only [linesAt, if_true, show ¬ (3 = 1) by decide, show ¬ (3 = 2) by decide, if_false, h1, List.flatMap_cons, List.flatMap_nil,
        hshort, hlong]
      simp only [lineText, fmtUint_numText hb, semString_semText,
        hu (show 32 ≤ 64 by decide), hi (show 32 ≤ 64 by decide), hx (show 32 ≤ 64 by decide), List.append_nil]
      cases hi' : m.indom with
      | none => simp [show hexU (0#32) = [48#8] from by decide]
      | some d =>
        have hne : d.id ≠ -1 := hids d (hr.registered m hm d hi')
        simp only [if_neg hne]
        simp [show hexU (0#32) = [48#8] from by decide]
    · intro m hm sl hs'
      obtain ⟨n, inst, a, v, h1, h2, h3, h4, h5⟩ := showValue_of hA hfi hfm hty hr.registered hids hm hs'
      have hb := hkey 4 _ (p4.mem_iff.2 (List.mem_flatMap.2 ⟨m, hm, List.mem_map_of_mem hs'⟩))
      have ht : (linesAt D 4 ((addrsOf σ).value m.uid sl)).flatMap (lineText P) = lineText P (.value m.desc.id ((addrsOf σ).value m.uid sl) n inst a) := by
        simp [linesAt, h2]
      rw [ht]
      cases inst with
      | none =>
        refine ⟨n, [], a, v, h1, ?_, h3, h4, .inl ⟨rfl, h5⟩⟩
        simp [lineText, fmtUint_numText hb, hu (show 32 ≤ 64 by decide), C58_values]
      | some x =>
        obtain ⟨id, nm⟩ := x
        obtain ⟨d, i, g1, g2, g3, g4, g5⟩ := h5
        refine ⟨n, _, a, v, h1, ?_, h3, h4, .inr ⟨d, i, nm, g1, g2, g3, g5, rfl⟩⟩
        rw [← g4]
        simp [lineText, fmtUint_numText hb, hu (show 32 ≤ 64 by decide), hi (show 32 ≤ 64 by decide), C58_values]
    · refine ⟨fun x => ((look D.strings x).map (·.payload)).getD [], ?_, ?_⟩
      · intro x hx'
        have hb := hkey 5 _ hx'
        obtain ⟨y, hy, _⟩ := look_of_key (q5.mem_iff.1 hx')
        have h1 : showString D x = .ok [.string x y.payload] := by rw [showString, mget_eq, hy]
        simp [linesAt, h1, hy, lineText, fmtUint_numText hb]
      · refine ((q5.map _).trans ?_).trans hA.strings
        rw [List.map_map]
        refine List.Perm.of_eq (List.map_congr_left ?_)
        intro p hp
        have := look_of_mem hA.nodup.2.2.2.2 hp
        simp [this]
  · have hw := write_exact hr hsm hty hids hR hA
    have hag := agree_write (P := P) D
    rw [hw] at hag
    obtain ⟨cs, hcs, hfl⟩ := hag
    have hn : (regSecs r).length = r.tocCount := by
      rw [← tocEntries_length hr, ← List.length_map (f := tocOf), ← fileSecs_toc, ← hsec]; simp
    have e1 : [Line.header D.header.version D.header.g1 D.header.toc D.header.cluster D.header.process D.header.flag].flatMap (lineText P) = headText r e := by
      rw [hR.header]
      unfold headText
      rw [hn]
      have ht : (BitVec.ofNat 32 r.tocCount).toInt = r.tocCount := by
        unfold Reg.tocCount
        split <;> split <;> rfl
      have hv : decI (verOf r) = if r.version2 then b!"2" else b!"1" := by
        unfold verOf; cases r.version2 <;> decide
      simp only [List.flatMap_cons, List.flatMap_nil, List.append_nil, lineText, hdrOf, hv, hu (show 64 ≤ 64 by decide),
        hi (show 32 ≤ 64 by decide), hx (show 32 ≤ 64 by decide), ht]
      rfl
    have e2 : ((fileSecs r).zipIdx.flatMap fun p => secLines (linesAt D) p.1 p.2).flatMap (lineText P) =
        (regSecs r).zipIdx.flatMap (fun p => secText (fun k x => (linesAt D k x).flatMap (lineText P)) p.1 p.2) := by
      rw [← hsec, List.zipIdx_map, List.flatMap_map, List.flatMap_assoc]
      apply List.flatMap_congr
      intro p hp
      have hp' := List.mem_zipIdx hp
      have hmem : p.1 ∈ regSecs r := by obtain ⟨_, _, h⟩ := hp'; rw [h]; exact List.getElem_mem _
      have hb := hbd (p.1.1, p.1.2.2) (by rw [← hsec]; exact List.mem_map_of_mem hmem)
      have hlen : (regSecs r).length ≤ 5 := by
        rw [hn]; unfold Reg.tocCount; split <;> split <;> omega
      exact secLines_text (x := p.1) (i := p.2) (hword _ hmem) (by omega) hb.1 (by have := hb.2; dsimp only at this; omega)
    rw [hcs, play_all, hfl, List.nil_append, List.flatMap_append, e1, e2]

/-- C56: the complete text. When the file of a started client is dumped and the output accepts everything, `Write` returns
nil and the output is exactly: the header, and for each section of the file its title with number, offset and number of
items, the text of its items in the order of their offsets, and an empty line. The items are exactly the registered objects. -/
theorem C56_exact {r e o s} (h : Started r e o s) {D} (hd : Dumps s.mem (.ok D)) (P : FloatFmt) :
    ∃ A T, DescribesAt r D A ∧ ItemsAre r A ∧ ItemsText P r A T ∧
      pWrite P D ⟨[], []⟩ = (⟨headText r e ++ (regSecs r).zipIdx.flatMap (fun p => secText T p.1 p.2), []⟩, .ok) := by
  obtain ⟨σ, D', hD', hs, hF, hR, hA⟩ := h.raw hd
  obtain rfl : D = D' := by injection hD'
  obtain ⟨T, h1⟩ := text_exact h.ok h.small h.built.typed h.built.inv hR hA P
  exact ⟨_, T, hA, h1⟩

/-- The titles of the sections of the second sample, and its header. -/
example : ∃ s D T, Started sampleReg2 ⟨3, 78, 999, 43⟩ (revOrd sampleReg2) s ∧ Dumps s.mem (.ok D) ∧
    pWrite noFloats D ⟨[], []⟩ = (⟨
      b!"Version   = 2\nGenerated = 999\nToc Count = 5\nCluster   = 78\nProcess   = 43\nFlags     = 0x3\n\n" ++
      (regSecs sampleReg2).zipIdx.flatMap (fun p => secText T p.1 p.2), []⟩, .ok) := by
  obtain ⟨s, D, h, hd⟩ := sample_dumped2
  obtain ⟨A, T, _, _, _, h1⟩ := C56_exact h hd noFloats
  refine ⟨s, D, T, h, hd, h1.trans ?_⟩
  have : headText sampleReg2 ⟨3, 78, 999, 43⟩ =
      b!"Version   = 2\nGenerated = 999\nToc Count = 5\nCluster   = 78\nProcess   = 43\nFlags     = 0x3\n\n" := by decide +kernel
  rw [this]

example : (regSecs sampleReg2).map (fun x => (x.1, x.2.2)) =
    [(1, 32, 1, 120), (2, 24, 2, 152), (3, 48, 4, 200), (4, 32, 5, 392), (5, 256, 10, 552)] := by decide +kernel

/-- The title of a section with two items. -/
example : secText (fun _ x => numText 10 x ++ b!"\n") (2, b!"instances", 24, 2, 152) 1 =
    b!"TOC[1], offset: 56, instances offset: 152 (2 entries)\n152\n176\n\n" := by decide +kernel

end Speed
