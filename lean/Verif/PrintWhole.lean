import Verif.PrintText
/-
The whole output of `mmvdump.Write` for a written file, line by line.
-/
namespace Speed
open Dump

theorem writeItems_exact {f : Nat → WOut} {g : Nat → List Line} {size n off : Nat} (hb : off + n * size < 2 ^ 64)
    (h : ∀ i, i < n → f (off + i * size) = .ok (g (off + i * size))) :
    writeItems f size n off = .ok ((List.range n).flatMap fun i => g (off + i * size)) := by
  induction n generalizing off with
  | zero => rfl
  | succ n ih =>
    rw [Nat.add_mul, Nat.one_mul] at hb
    have hm : (off + size) % 2 ^ 64 = off + size := Nat.mod_eq_of_lt (by omega)
    have h0 := h 0 (by omega)
    rw [Nat.zero_mul, Nat.add_zero] at h0
    have e : ∀ i, off + (i + 1) * size = off + size + i * size := fun i => by rw [Nat.add_mul, Nat.one_mul]; omega
    rw [writeItems, h0, hm, ih (off := off + size) (by omega) (fun i hi => by
      have := h (i + 1) (by omega); rwa [e] at this)]
    show WOut.ok _ = _
    rw [List.range_succ_eq_map, List.flatMap_cons, List.flatMap_map, Nat.zero_mul, Nat.add_zero]
    simp only [Nat.succ_eq_add_one, e]

/-- A section: kind, size of an item, number of items, offset. -/
abbrev SecInfo := Nat × Nat × Nat × Nat

/-- The lines of a section. -/
def secLines (g : Nat → Nat → List Line) (x : SecInfo) (i : Nat) : List Line :=
  [.toc i (40 + 16 * i) (some x.1) (BitVec.ofNat 64 x.2.2.2) (BitVec.ofNat 32 x.2.2.1)] ++
    ((List.range x.2.2.1).flatMap fun j => g x.1 (x.2.2.2 + j * x.2.1)) ++ [.blank]

theorem writeSections_exact {D : Result} {g : Nat → Nat → List Line} (S : List SecInfo) (ti : Nat) (prev)
    (h : ∀ x ∈ S, x.2.2.1 < 2 ^ 31 ∧ x.2.2.2 + x.2.2.1 * x.2.1 < 2 ^ 64 ∧
      ∃ f, (∀ prev, chooseItem D (BitVec.ofNat 32 x.1) prev = some (x.1, x.2.1, f)) ∧
        ∀ i, i < x.2.2.1 → f (x.2.2.2 + i * x.2.1) = .ok (g x.1 (x.2.2.2 + i * x.2.1))) :
    writeSections D (S.map fun x => tocOf (x.1, x.2.2.1, x.2.2.2)) ti (40 + 16 * ti) prev =
      .ok ((S.zipIdx ti).flatMap fun p => secLines g p.1 p.2) := by
  induction S generalizing ti prev with
  | nil => rfl
  | cons x S ih =>
    obtain ⟨h1, h2, f, h3, h4⟩ := h x (by simp)
    have ht : (BitVec.ofNat 32 x.2.2.1).toNat = x.2.2.1 := by
      rw [BitVec.toNat_ofNat]; exact Nat.mod_eq_of_lt (by omega)
    have ho : (BitVec.ofNat 64 x.2.2.2).toNat = x.2.2.2 := by
      rw [BitVec.toNat_ofNat]; exact Nat.mod_eq_of_lt (by omega)
    have hi : (BitVec.ofNat 32 x.2.2.1).toInt = x.2.2.1 := by
      rw [BitVec.toInt_eq_toNat_of_lt (by omega), ht]
    have hw := writeItems_exact h2 h4
    have := ih (ti + 1) (some (x.1, x.2.1, f)) (fun y hy => h y (by simp [hy]))
    rw [List.map_cons, writeSections, show (tocOf (x.1, x.2.2.1, x.2.2.2)).type = BitVec.ofNat 32 x.1 from rfl, h3]
    dsimp only
    rw [show 40 + 16 * ti + 16 = 40 + 16 * (ti + 1) by omega, this]
    dsimp only [tocOf]
    simp only [hi, ht, ho, hw]
    have h0 : (x.2.2.1 : Int) ≤ 0 → x.2.2.1 = 0 := by omega
    split
    · rename_i hz
      simp [WOut.andThen, secLines, List.zipIdx_cons, h0 hz]
    · simp [WOut.andThen, secLines, List.zipIdx_cons]

/-- The lines for the item of kind `k` at offset `x`. -/
def linesAt (D : Result) (k x : Nat) : List Line :=
  match (if k = 1 then showIndom D x else if k = 2 then showInstance D x else if k = 3 then showMetric D x
    else if k = 4 then showValue D x else showString D x) with
  | .ok l => l
  | _ => []

/-- The sections of a written file. -/
def fileSecs (r : Reg) : List SecInfo :=
  (if r.InstanceDomainCount > 0 then [(1, 32, r.InstanceDomainCount, r.indomoffset)] else []) ++
  (if r.InstanceCount > 0 then [(2, r.InstanceLength, r.InstanceCount, r.instanceoffset)] else []) ++
  [(3, r.MetricLength, r.MetricCount, if r.MetricCount = 0 then 0 else r.metricsoffset)] ++
  [(4, 32, r.ValuesCount, if r.MetricCount = 0 then 0 else r.valuesoffset)] ++
  (if r.StringCount > 0 then [(5, 256, r.StringCount, r.stringsoffset)] else [])

theorem fileSecs_toc (r : Reg) : (fileSecs r).map (fun x => tocOf (x.1, x.2.2.1, x.2.2.2)) = (tocEntries r).map tocOf := by
  unfold fileSecs tocEntries
  simp only [List.map_append]
  congr 1
  · congr 1
    congr 1
    congr 1
    · split <;> rfl
    · split <;> rfl
  · split <;> rfl

theorem fileSecs_bound {r : Reg} (hr : r.OK) (hsm : r.Small) : ∀ x ∈ fileSecs r, x.2.2.1 < 2 ^ 31 ∧
    x.2.2.2 + x.2.2.1 * x.2.1 < 2 ^ 64 := by
  have hlen := hsm.length
  obtain ⟨oc1, oc2, oc3, oc4, oc5, oc6⟩ := off_chain r
  have e1 : r.instanceoffset = r.indomoffset + 32 * r.InstanceDomainCount := rfl
  have e2 : r.metricsoffset = r.instanceoffset + r.InstanceLength * r.InstanceCount := rfl
  have e3 : r.valuesoffset = r.metricsoffset + r.MetricLength * r.MetricCount := rfl
  have e4 : r.stringsoffset = r.valuesoffset + 32 * r.ValuesCount := rfl
  have e5 : r.Length = r.stringsoffset + 256 * r.StringCount := by
    have := (lim_eq hr ⟨0, 0, 0, 0⟩ ⟨[], fun _ => [], [], fun _ => []⟩).2.2.2.2
    simp only [Params.lim, params, (regToks_length hr).2.2.2.2, regBase, regSlot] at this
    rw [← this, Nat.mul_comm]
  intro x hx
  unfold fileSecs at hx
  simp only [List.mem_append, List.mem_ite_nil_right, List.mem_singleton] at hx
  rcases hx with (((⟨_, rfl⟩ | ⟨_, rfl⟩) | rfl) | rfl) | ⟨_, rfl⟩
  · exact ⟨hsm.indoms, by dsimp only; rw [Nat.mul_comm]; omega⟩
  · exact ⟨hsm.insts, by dsimp only; rw [Nat.mul_comm]; omega⟩
  · exact ⟨hsm.metrics, by dsimp only; rw [Nat.mul_comm]; split <;> omega⟩
  · exact ⟨hsm.values, by dsimp only; rw [Nat.mul_comm]; split <;> omega⟩
  · exact ⟨hsm.strings, by dsimp only; rw [Nat.mul_comm]; omega⟩

theorem write_exact {r : Reg} {e : Env} {F : Buf} {D : Result} {A : Addrs} (hr : r.OK) (hsm : r.Small) (hty : r.Typed)
    (hids : ∀ d ∈ r.indoms, d.id ≠ -1) (hD : RawDump r e F D) (hA : DescribesAt r D A) :
    write D = .ok ([.header D.header.version D.header.g1 D.header.toc D.header.cluster D.header.process D.header.flag] ++
      (fileSecs r).zipIdx.flatMap fun p => secLines (linesAt D) p.1 p.2) := by
  have hfi := fits_inst hD
  have hfm := fits_metric hD
  have hbd := fileSecs_bound hr hsm
  have hver : D.header.version = verOf r := by rw [hD.header]; rfl
  have hil : (if D.header.version = 1 then 80 else 24) = r.InstanceLength := by
    rw [hver]; unfold verOf Reg.InstanceLength; cases r.version2 <;> rfl
  have hml : (if D.header.version = 1 then 104 else 48) = r.MetricLength := by
    rw [hver]; unfold verOf Reg.MetricLength; cases r.version2 <;> rfl
  have hmpos : 0 < r.ValuesCount → r.MetricCount ≠ 0 := by
    intro hp h0
    have hvc : r.ValuesCount = (r.metrics.map Metric.valueCount).sum := hr.valueCount
    have : r.metrics = [] := List.eq_nil_of_length_eq_zero h0
    rw [this] at hvc; simp at hvc; omega
  have key := writeSections_exact (D := D) (g := linesAt D) (fileSecs r) 0 none (by
    intro x hx
    obtain ⟨hb1, hb2⟩ := hbd x hx
    refine ⟨hb1, hb2, ?_⟩
    unfold fileSecs at hx
    simp only [List.mem_append, List.mem_ite_nil_right, List.mem_singleton] at hx
    rcases hx with (((⟨_, rfl⟩ | ⟨_, rfl⟩) | rfl) | rfl) | ⟨_, rfl⟩
    · refine ⟨showIndom D, fun _ => rfl, fun i hi => ?_⟩
      have := mem_secItems hD.indoms hi
      rw [hA.indomKeys.mem_iff] at this
      obtain ⟨d, hd, hk⟩ := List.mem_map.1 this
      obtain ⟨_, _, _, h, _⟩ := showIndom_of hA hd
      rw [hk] at h
      unfold linesAt
      rw [if_pos rfl, h]
    · refine ⟨showInstance D, fun _ => by rw [← hil]; rfl, fun i hi => ?_⟩
      have := mem_secItems hD.insts hi
      rw [hA.instKeys.mem_iff] at this
      obtain ⟨d, hd, hk⟩ := List.mem_flatMap.1 this
      obtain ⟨j, hj, hk⟩ := List.mem_map.1 hk
      obtain ⟨_, h, _⟩ := showInstance_of hA hfi hd hj
      rw [hk] at h
      unfold linesAt
      rw [if_neg (by simp), if_pos rfl, h]
    · refine ⟨showMetric D, fun _ => by rw [← hml]; rfl, fun i hi => ?_⟩
      dsimp only at hi ⊢
      rw [if_neg (by omega)]
      have := mem_secItems hD.metrics hi
      rw [hA.metricKeys.mem_iff] at this
      obtain ⟨d, hd, hk⟩ := List.mem_map.1 this
      obtain ⟨_, _, _, h, _⟩ := showMetric_of hA hfm hd
      rw [hk] at h
      unfold linesAt
      rw [if_neg (by decide), if_neg (by decide), if_pos rfl, h]
    · refine ⟨showValue D, fun _ => rfl, fun i hi => ?_⟩
      dsimp only at hi ⊢
      rw [if_neg (hmpos (by omega))]
      have := mem_secItems hD.values hi
      rw [hA.valueKeys.mem_iff] at this
      obtain ⟨d, hd, hk⟩ := List.mem_flatMap.1 this
      obtain ⟨j, hj, hk⟩ := List.mem_map.1 hk
      obtain ⟨_, _, _, _, _, h, _⟩ := showValue_of hA hfi hfm hty hr.registered hids hd hj
      rw [hk] at h
      unfold linesAt
      rw [if_neg (by decide), if_neg (by decide), if_neg (by decide), if_pos rfl, h]
    · refine ⟨showString D, fun _ => rfl, fun i hi => ?_⟩
      obtain ⟨y, hy, _⟩ := look_of_key (mem_secItems hD.strings hi)
      have h : showString D (r.stringsoffset + i * 256) = .ok [.string (r.stringsoffset + i * 256) y.payload] := by
        rw [showString, mget_eq, hy]
      unfold linesAt
      rw [if_neg (by simp), if_neg (by simp), if_neg (by simp), if_neg (by simp), h])
  rw [fileSecs_toc, ← hD.tocs] at key
  rw [write, key]
  rfl

/-- `showIndom_of` with the offset of the instances. -/
theorem showIndom_off {r : Reg} {D : Result} {A : Addrs} (hD : DescribesAt r D A) {d : Indom} (hd : d ∈ r.indoms) :
    ∃ off a b, showIndom D (A.indom d.uid) =
      .ok [.indom d.id (A.indom d.uid) (BitVec.ofNat 32 d.insts.length) off, .short a, .long b] ∧
      ((List.range d.insts.length).map (fun j => off.toNat + j * r.InstanceLength)).Perm
        (d.insts.map (fun i => A.inst d.uid i.name)) ∧
      trimNul (a.getD []) = trimNul d.short ∧ trimNul (b.getD []) = trimNul d.long := by
  obtain ⟨x, h1, h2, h3, h3', h4, h5⟩ := hD.indoms d hd
  obtain ⟨a, h6, h7⟩ := printText_of h4
  obtain ⟨b, h8, h9⟩ := printText_of h5
  refine ⟨x.offset, a, b, ?_, h3', h7, h9⟩
  unfold showIndom
  rw [mget_eq, h1]
  dsimp only
  rw [h6, h8]
  dsimp only
  rw [h2, ← h3]
  simp

end Speed
