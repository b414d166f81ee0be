import Verif.PrintText
import Verif.PropsUnits
/-
Reading a printed unit back.
-/
namespace Speed.Dump
open Speed.Units

/-- Reads the exponent; `neg` says on which side of the slash it is. -/
def readDim (neg : Bool) : List Byte → BitVec 8 × List Byte
  | 0x5E :: 0x2D :: d :: r => (-(d - 0x30), r)
  | 0x5E :: d :: r => (d - 0x30, r)
  | r => (if neg then -1 else 1, r)

/-- Reads one of the words of a table, and the exponent. -/
def readSeg (neg : Bool) : List (List Byte × BitVec 8) → List Byte → Option (BitVec 8 × BitVec 8) × List Byte
  | [], r => (none, r)
  | (w, k) :: t, r =>
    if w.isPrefixOf r then
      (some (k, (readDim neg (r.drop w.length)).1), (readDim neg (r.drop w.length)).2)
    else readSeg neg t r

def spaceWords : List (List Byte × BitVec 8) :=
  [(b!"B", 0), (b!"KiB", 1), (b!"MiB", 2), (b!"GiB", 3), (b!"TiB", 4), (b!"PiB", 5), (b!"EiB", 6)]
def timeWords : List (List Byte × BitVec 8) :=
  [(b!"nsec", 0), (b!"usec", 1), (b!"msec", 2), (b!"sec", 3), (b!"min", 4), (b!"hr", 5)]
def countWords : List (List Byte × BitVec 8) := [(b!"count", 0)]

/-- Reads the three components. -/
def readSide (neg : Bool) (s : List Byte) : (Option (BitVec 8 × BitVec 8) × Option (BitVec 8 × BitVec 8) ×
    Option (BitVec 8 × BitVec 8)) × List Byte :=
  let a := readSeg neg spaceWords s
  let b := readSeg neg timeWords a.2
  let c := readSeg neg countWords b.2
  ((a.1, b.1, c.1), c.2)

/-- Reads a unit: the scale and the dimension of each component that is there. -/
def readUnit (s : List Byte) : Option (BitVec 8 × BitVec 8) × Option (BitVec 8 × BitVec 8) × Option (BitVec 8 × BitVec 8) :=
  let p := readSide false s
  let n := (readSide true (p.2.drop 3)).1
  (p.1.1.or n.1, p.1.2.1.or n.2.1, p.1.2.2.or n.2.2)

/-- The rest of the text does not go on with an exponent. -/
def Free (r : List Byte) : Prop := r.head? ≠ some 0x5E

theorem readDim_suffix (f : BitVec 4) (hf : f ≠ 0) {r : List Byte} (hr : Free r) :
    readDim (f.msb) (dimSuffix (f.signExtend 8) ++ r) = (f.signExtend 8, r) := by
  have h1 : ∀ neg : Bool, readDim neg r = (if neg then -1 else 1, r) := by
    intro neg
    unfold readDim
    split
    · exact absurd rfl hr
    · exact absurd rfl hr
    · rfl
  have key : ∀ f : BitVec 4, f ≠ 0 →
      (dimSuffix (f.signExtend 8) = [] ∧ (if f.msb then (-1 : BitVec 8) else 1) = f.signExtend 8) ∨
      (dimSuffix (f.signExtend 8) = [0x5E, 0x2D, 0x30 - f.signExtend 8] ∧
        -((0x30 - f.signExtend 8) - 0x30) = f.signExtend 8) ∨
      (f.signExtend 8 + 0x30 ≠ 0x2D ∧ dimSuffix (f.signExtend 8) = [0x5E, f.signExtend 8 + 0x30] ∧
        f.signExtend 8 + 0x30 - 0x30 = f.signExtend 8) := by
    decide
  rcases key f hf with ⟨h2, h3⟩ | ⟨h2, h3⟩ | ⟨h2, h3, h4⟩
  · rw [h2, List.nil_append, h1, h3]
  · rw [h2]
    show (-((0x30 - f.signExtend 8) - 0x30), r) = _
    rw [h3]
  · rw [h3]
    show readDim f.msb (0x5E :: (f.signExtend 8 + 0x30) :: r) = _
    unfold readDim
    split
    · rename_i heq; injection heq with _ heq; injection heq with heq _; exact absurd heq h2
    · rename_i heq; injection heq with _ heq; injection heq with e1 e2; rw [← e1, ← e2, h4]
    · rename_i h; exact absurd rfl (h _ _)

/-- The text of a component. -/
theorem readSeg_space (k f : BitVec 4) (hk : k.toNat ≤ 6) (hf : f ≠ 0) {r : List Byte} (hr : Free r) :
    readSeg f.msb spaceWords (stringSpaceDim (k.setWidth 8) (f.signExtend 8) ++ r) =
      (some (k.setWidth 8, f.signExtend 8), r) := by
  have h := readDim_suffix f hf hr
  have : k = 0 ∨ k = 1 ∨ k = 2 ∨ k = 3 ∨ k = 4 ∨ k = 5 ∨ k = 6 := by revert k; decide
  generalize hx : f.signExtend 8 = x at h ⊢
  rcases this with rfl | rfl | rfl | rfl | rfl | rfl | rfl <;>
  · unfold stringSpaceDim
    simp [readSeg, spaceWords, List.isPrefixOf, h]

theorem readSeg_time (k f : BitVec 4) (hk : k.toNat ≤ 5) (hf : f ≠ 0) {r : List Byte} (hr : Free r) :
    readSeg f.msb timeWords (stringTimeDim (k.setWidth 8) (f.signExtend 8) ++ r) =
      (some (k.setWidth 8, f.signExtend 8), r) := by
  have h := readDim_suffix f hf hr
  have : k = 0 ∨ k = 1 ∨ k = 2 ∨ k = 3 ∨ k = 4 ∨ k = 5 := by revert k; decide
  generalize hx : f.signExtend 8 = x at h ⊢
  rcases this with rfl | rfl | rfl | rfl | rfl | rfl <;>
  · unfold stringTimeDim
    simp [readSeg, timeWords, List.isPrefixOf, h]

theorem readSeg_count (f : BitVec 4) (hf : f ≠ 0) {r : List Byte} (hr : Free r) :
    readSeg f.msb countWords (stringCountDim 0 (f.signExtend 8) ++ r) = (some (0, f.signExtend 8), r) := by
  have h := readDim_suffix f hf hr
  generalize hx : f.signExtend 8 = x at h ⊢
  unfold stringCountDim
  simp [readSeg, countWords, List.isPrefixOf, h]

/-- The rest of the text does not begin with a word of the table. -/
theorem readSeg_miss (neg : Bool) (t : List (List Byte × BitVec 8)) (r : List Byte)
    (h : ∀ w ∈ t, w.1 ≠ [] ∧ w.1.head? ≠ r.head?) : readSeg neg t r = (none, r) := by
  induction t with
  | nil => rfl
  | cons w t ih =>
    obtain ⟨w, k⟩ := w
    obtain ⟨h1, h2⟩ := h (w, k) (by simp)
    have : w.isPrefixOf r = false := by
      cases w with
      | nil => exact absurd rfl h1
      | cons a w =>
        cases r with
        | nil => rfl
        | cons b r =>
          have : a ≠ b := by rintro rfl; exact h2 rfl
          simp [List.isPrefixOf, this]
    rw [readSeg, this, if_neg (by simp)]
    exact ih fun w hw => h w (List.mem_cons_of_mem _ hw)

theorem timeHead (k f : BitVec 4) (hk : k.toNat ≤ 5) (r : List Byte) :
    (stringTimeDim (k.setWidth 8) (f.signExtend 8) ++ r).head? ∈
      [some 0x6E, some 0x75, some 0x6D, some 0x73, some (0x68 : Byte)] := by
  have : k = 0 ∨ k = 1 ∨ k = 2 ∨ k = 3 ∨ k = 4 ∨ k = 5 := by revert k; decide
  rcases this with rfl | rfl | rfl | rfl | rfl | rfl <;> simp [stringTimeDim]

theorem countHead (f : BitVec 4) (r : List Byte) : (stringCountDim 0 (f.signExtend 8) ++ r).head? = some (0x63 : Byte) := by
  simp [stringCountDim]

/-- A component that is there (`p`) or not. -/
structure Comp where
  p : Bool
  k : BitVec 4
  f : BitVec 4

/-- The component is there, on the given side, and its scale is valid. -/
def Comp.Ok (c : Comp) (neg : Bool) (max : Nat) : Prop := c.p = true → c.k.toNat ≤ max ∧ c.f ≠ 0 ∧ c.f.msb = neg

/-- What is read for it. -/
def Comp.val (c : Comp) : Option (BitVec 8 × BitVec 8) := if c.p then some (c.k.setWidth 8, c.f.signExtend 8) else none

theorem readSide_eq {neg : Bool} {a b c : Comp} (ha : a.Ok neg 6) (hb : b.Ok neg 5) (hc : c.Ok neg 0) {r : List Byte}
    (hr : r.head? ∈ [none, some (0x20 : Byte)]) :
    readSide neg ((if a.p then stringSpaceDim (a.k.setWidth 8) (a.f.signExtend 8) else []) ++
      ((if b.p then stringTimeDim (b.k.setWidth 8) (b.f.signExtend 8) else []) ++
      ((if c.p then stringCountDim (c.k.setWidth 8) (c.f.signExtend 8) else []) ++ r))) = ((a.val, b.val, c.val), r) := by
  have hc3 : readSeg neg countWords ((if c.p then stringCountDim (c.k.setWidth 8) (c.f.signExtend 8) else []) ++ r) =
      (c.val, r) ∧ ((if c.p then stringCountDim (c.k.setWidth 8) (c.f.signExtend 8) else []) ++ r).head? ∈
        [none, some (0x20 : Byte), some 0x63] := by
    cases hp : c.p with
    | false =>
      simp only [Comp.val, hp, Bool.false_eq_true, if_false, List.nil_append]
      refine ⟨readSeg_miss _ _ _ ?_, by simp at hr ⊢; tauto⟩
      revert hr; generalize r.head? = x; revert x
      simp [countWords]
    | true =>
      obtain ⟨h1, h2, h3⟩ := hc hp
      have hk : c.k = 0 := by have := c.k; apply BitVec.eq_of_toNat_eq; simpa using h1
      simp only [Comp.val, hp, if_true]
      rw [hk, show (0 : BitVec 4).setWidth 8 = 0 from rfl, countHead, ← h3]
      refine ⟨readSeg_count _ h2 ?_, by simp⟩
      unfold Free; intro h; rw [h] at hr; simp at hr
  obtain ⟨c1, c2⟩ := hc3
  generalize hC : (if c.p then stringCountDim (c.k.setWidth 8) (c.f.signExtend 8) else []) ++ r = C at c1 c2 ⊢
  have hb3 : readSeg neg timeWords ((if b.p then stringTimeDim (b.k.setWidth 8) (b.f.signExtend 8) else []) ++ C) =
      (b.val, C) ∧ ((if b.p then stringTimeDim (b.k.setWidth 8) (b.f.signExtend 8) else []) ++ C).head? ∈
        [none, some (0x20 : Byte), some 0x63, some 0x6E, some 0x75, some 0x6D, some 0x73, some (0x68 : Byte)] := by
    cases hp : b.p with
    | false =>
      simp only [Comp.val, hp, Bool.false_eq_true, if_false, List.nil_append]
      refine ⟨readSeg_miss _ _ _ ?_, by simp at c2 ⊢; tauto⟩
      revert c2; generalize C.head? = x; revert x
      simp [timeWords]
    | true =>
      obtain ⟨h1, h2, h3⟩ := hb hp
      simp only [Comp.val, hp, if_true]
      rw [← h3]
      refine ⟨readSeg_time _ _ h1 h2 ?_, ?_⟩
      · unfold Free; intro h; rw [h] at c2; simp at c2
      · have := timeHead b.k b.f h1 C
        simp only [List.mem_cons, List.not_mem_nil, or_false] at this ⊢
        tauto
  obtain ⟨b1, b2⟩ := hb3
  generalize hB : (if b.p then stringTimeDim (b.k.setWidth 8) (b.f.signExtend 8) else []) ++ C = B at b1 b2 ⊢
  have ha3 : readSeg neg spaceWords ((if a.p then stringSpaceDim (a.k.setWidth 8) (a.f.signExtend 8) else []) ++ B) =
      (a.val, B) := by
    cases hp : a.p with
    | false =>
      simp only [Comp.val, hp, Bool.false_eq_true, if_false, List.nil_append]
      refine readSeg_miss _ _ _ ?_
      revert b2; generalize B.head? = x; revert x
      simp [spaceWords]
    | true =>
      obtain ⟨h1, h2, h3⟩ := ha hp
      simp only [Comp.val, hp, if_true]
      rw [← h3]
      refine readSeg_space _ _ h1 h2 ?_
      unfold Free; intro h; rw [h] at b2; simp at b2
  unfold readSide
  simp only [ha3, b1, c1]

/-- The scale of each component that is there is one of those with a name. -/
def UnitOk (u : BitVec 32) : Prop :=
  (spaceDim u ≠ 0 → (dumpSpaceScale u).toNat ≤ 6) ∧ (timeDim u ≠ 0 → (dumpTimeScale u).toNat ≤ 5) ∧
  (countDim u ≠ 0 → (dumpCountScale u).toNat = 0)

/-- A component of a unit: its scale and dimension, if it is there. -/
def comp (scale dim : BitVec 8) : Option (BitVec 8 × BitVec 8) := if dim = 0 then none else some (scale, dim)

theorem scale_eq (k : Nat) (u : BitVec 32) (hk : k + 4 ≤ 32) :
    ((u >>> k) &&& 0xF).truncate 8 = (field k u).setWidth 8 := by
  rw [nibble k u hk]
  generalize field k u = f
  revert f; decide

theorem dim_sign : ∀ f : BitVec 4, ((0 : BitVec 8).slt (f.signExtend 8) = (!f.msb && f != 0)) ∧
    ((f.signExtend 8).slt 0 = f.msb) ∧ (f.signExtend 8 = 0 ↔ f = 0) := by decide

theorem readUnit_unitString {u : BitVec 32} (hu : UnitOk u) :
    readUnit (unitString u) = (comp (dumpSpaceScale u) (spaceDim u), comp (dumpTimeScale u) (timeDim u),
      comp (dumpCountScale u) (countDim u)) := by
  unfold UnitOk at hu
  have e1 : dumpSpaceScale u = (field 16 u).setWidth 8 := scale_eq 16 u (by decide)
  have e2 : dumpTimeScale u = (field 12 u).setWidth 8 := scale_eq 12 u (by decide)
  have e3 : dumpCountScale u = (field 8 u).setWidth 8 := scale_eq 8 u (by decide)
  unfold unitString
  simp only [e1, e2, e3, spaceDim_eq, timeDim_eq, countDim_eq] at hu ⊢
  generalize field 16 u = ks at *
  generalize field 12 u = kt at *
  generalize field 8 u = kc at *
  generalize field 28 u = fs at *
  generalize field 24 u = ft at *
  generalize field 20 u = fc at *
  simp only [(dim_sign _).1, (dim_sign _).2.1]
  have hw : ∀ k : BitVec 4, (k.setWidth 8).toNat = k.toNat := by decide
  simp only [hw] at hu
  obtain ⟨hu1, hu2, hu3⟩ := hu
  let P (k f : BitVec 4) : Comp := ⟨!f.msb && f != 0, k, f⟩
  let N (k f : BitVec 4) : Comp := ⟨f.msb, k, f⟩
  have hP : ∀ {k f : BitVec 4} {m : Nat}, (f.signExtend 8 ≠ 0 → k.toNat ≤ m) → (P k f).Ok false m := by
    intro k f m h hp
    simp only [P, Bool.and_eq_true, Bool.not_eq_true', bne_iff_ne] at hp
    exact ⟨h (fun h0 => hp.2 ((dim_sign f).2.2.1 h0)), hp.2, hp.1⟩
  have hN : ∀ {k f : BitVec 4} {m : Nat}, (f.signExtend 8 ≠ 0 → k.toNat ≤ m) → (N k f).Ok true m := by
    intro k f m h hp
    have hp : f.msb = true := hp
    have h0 : f ≠ 0 := by rintro rfl; simp at hp
    exact ⟨h (fun h1 => h0 ((dim_sign f).2.2.1 h1)), h0, hp⟩
  have hcomp : ∀ k f : BitVec 4, (P k f).val.or (N k f).val = comp (k.setWidth 8) (f.signExtend 8) := by
    intro k f
    simp only [P, N, Comp.val, comp, (dim_sign f).2.2]
    by_cases h0 : f = 0
    · subst h0; simp
    · have h1 : ¬ f = 0#4 := h0
      cases f.msb <;> simp [h1]
  have h3 : fc.signExtend 8 ≠ 0 → kc.toNat ≤ 0 := fun h => Nat.le_of_eq (hu3 h)
  have hpos := fun r hr => readSide_eq (hP hu1) (hP hu2) (hP h3) (r := r) hr
  have hneg := readSide_eq (hN hu1) (hN hu2) (hN h3) (r := []) (by simp)
  simp only [P, N] at hpos hneg hcomp
  unfold readUnit
  simp only [List.append_assoc]
  by_cases hn : fs.msb = true ∨ ft.msb = true ∨ fc.msb = true
  · rw [if_pos hn, hpos _ (by simp)]
    simp only [List.append_nil] at hneg
    rw [← hcomp, ← hcomp, ← hcomp]
    simp [hneg]
  · rw [if_neg hn, hpos _ (by simp)]
    simp only [not_or, Bool.not_eq_true] at hn
    obtain ⟨n1, n2, n3⟩ := hn
    rw [← hcomp, ← hcomp, ← hcomp]
    simp [n1, n2, n3, Comp.val, readSide, readSeg, spaceWords, timeWords, countWords, List.isPrefixOf]

end Speed.Dump
