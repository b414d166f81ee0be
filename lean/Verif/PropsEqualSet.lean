import Verif.PropsLastSet
import Verif.PropsWriter
/-
When `Set` writes to the file and when it does not (C97).
-/
namespace Speed

/-- A NaN: all bits of the exponent are set and some bit of the fraction. -/
def NaNVal : GoVal → Prop
  | .float32 x => x.toNat / 2 ^ 23 % 2 ^ 8 = 255 ∧ x.toNat % 2 ^ 23 ≠ 0
  | .float64 x => x.toNat / 2 ^ 52 % 2 ^ 11 = 2047 ∧ x.toNat % 2 ^ 52 ≠ 0
  | _ => False

theorem goEq_iff {a b : GoVal} : goEq a b = true ↔ SameVal a b ∧ ¬ NaNVal a ∧ ¬ NaNVal b := by
  by_cases h32 : ∃ x y, a = .float32 x ∧ b = .float32 y
  · obtain ⟨x, y, rfl, rfl⟩ := h32
    simp only [goEq, feq32, isNaN32, SameVal, NaNVal]
    grind
  by_cases h64 : ∃ x y, a = .float64 x ∧ b = .float64 y
  · obtain ⟨x, y, rfl, rfl⟩ := h64
    simp only [goEq, feq64, isNaN64, exp64, frac64, SameVal, NaNVal]
    grind
  have h1 : goEq a b = decide (a = b) := by
    unfold goEq
    split
    · exact absurd ⟨_, _, rfl, rfl⟩ h32
    · exact absurd ⟨_, _, rfl, rfl⟩ h64
    · rfl
  have h2 : SameVal a b ↔ a = b := by
    unfold SameVal
    split
    · exact absurd ⟨_, _, rfl, rfl⟩ h32
    · exact absurd ⟨_, _, rfl, rfl⟩ h64
    · rfl
  rw [h1, h2, decide_eq_true_iff]
  refine ⟨fun h => ?_, fun h => h.1⟩
  subst h
  refine ⟨rfl, ?_⟩
  cases a with
  | float32 x => exact absurd ⟨x, x, rfl, rfl⟩ h32
  | float64 x => exact absurd ⟨x, x, rfl, rfl⟩ h64
  | _ => exact ⟨id, id⟩

theorem setAt_store {s : Option Str} {u : Upd} {st : MSt} {v old : GoVal} (hs : ∀ n, s = some n → st.m.hasInst n = true)
    (hc : st.m.cur s = some old) (hv : isCompatible st.m.desc.t v = true) :
    setAt s v u st = storeVal s old (resolve st.m.desc.t v) u st := by
  cases s with
  | none =>
    show set v u st = _
    unfold set
    rw [if_neg (by simp [hv]), hc]
  | some n =>
    show setInstance v n u st = _
    unfold setInstance
    rw [if_neg (by simp [hv]), if_neg (by simp [hs n rfl]), hc]

/-- C97: setting the value that is stored already, or a zero where a zero is stored, does nothing, unless it is a NaN. -/
theorem C97_equal {s : Option Str} {u : Upd} {st : MSt} {v old : GoVal} (hs : ∀ n, s = some n → st.m.hasInst n = true)
    (hc : st.m.cur s = some old) (hv : isCompatible st.m.desc.t v = true)
    (he : SameVal (resolve st.m.desc.t v) old) (hn : ¬ NaNVal (resolve st.m.desc.t v)) (ho : ¬ NaNVal old) :
    setAt s v u st = (st, .ok ()) := by
  rw [setAt_store hs hc hv]
  unfold storeVal
  rw [if_pos (goEq_iff.2 ⟨he, hn, ho⟩)]

/-- C97: a number that is a NaN, or differs from the stored value, is written to its place in the file, whatever is there. -/
theorem C97_written {s : Option Str} {u : Upd} {st : MSt} {v old : GoVal} {off : Nat} {bytes : List Byte}
    (hs : ∀ n, s = some n → st.m.hasInst n = true)
    (hc : st.m.cur s = some old) (hv : isCompatible st.m.desc.t v = true)
    (hd : NaNVal (resolve st.m.desc.t v) ∨ ¬ SameVal (resolve st.m.desc.t v) old)
    (hu : u s = some off) (hb : binaryWrite (resolve st.m.desc.t v) = some bytes)
    (hr : off + bytes.length ≤ st.mem.length) (hl : st.mem.length < 2 ^ 63) :
    setAt s v u st = (⟨st.m.put s (resolve st.m.desc.t v), place st.mem off bytes⟩, .ok ()) := by
  rw [setAt_store hs hc hv]
  have hg : ¬ goEq (resolve st.m.desc.t v) old = true := fun h => by
    have := goEq_iff.1 h
    rcases hd with hd | hd
    · exact this.2.1 hd
    · exact hd this.1
  have hw : updClosure off (resolve st.m.desc.t v) st.mem = bwWriteVal st.mem (resolve st.m.desc.t v) off := by
    cases h : resolve st.m.desc.t v with
    | str x => rw [h] at hb; cases hb
    | _ => rfl
  unfold storeVal
  rw [if_neg hg, hu]
  dsimp only
  rw [hw, (C10_writeVal hb st.mem off).1, bwWrite_ok hr hl]

/-- A NaN is not equal to itself, minus zero is equal to zero. -/
example : NaNVal (.float32 0x7FC00000) ∧ goEq (.float32 0x7FC00000) (.float32 0x7FC00000) = false ∧ ¬ NaNVal (.float32 0x7F800000) ∧
    goEq (.float32 0x80000000) (.float32 0) = true := by
  unfold NaNVal; decide

/-- Setting the stored NaN again repairs bytes of the file that were overwritten; setting the stored 1.0 again does not. -/
example {m : Metric} (ht : m.desc.t = FloatType) (hc : m.cur none = some (.float32 0x7FC00000)) :
    (setAt none (.float32 0x7FC00000) (fun _ => some 1) ⟨m, [9, 9, 9, 9, 9, 9]⟩).1.mem = [9, 0, 0, 0xC0, 0x7F, 9] := by
  have hr : resolve m.desc.t (.float32 0x7FC00000) = .float32 0x7FC00000 := by rw [ht]; decide
  rw [C97_written (off := 1) (bytes := [0, 0, 0xC0, 0x7F]) (fun n h => by cases h) hc (by show isCompatible m.desc.t _ = true; rw [ht]; decide)
    (.inl (by show NaNVal (resolve m.desc.t _); rw [hr]; unfold NaNVal; decide)) rfl
    (by show binaryWrite (resolve m.desc.t _) = _; rw [hr]; decide) (by simp) (by simp)]
  show place [9, 9, 9, 9, 9, 9] 1 [0, 0, 0xC0, 0x7F] = _
  decide

example {m : Metric} (ht : m.desc.t = FloatType) (hc : m.cur none = some (.float32 0x3F800000)) :
    (setAt none (.float32 0x3F800000) (fun _ => some 1) ⟨m, [9, 9, 9, 9, 9, 9]⟩).1.mem = [9, 9, 9, 9, 9, 9] := by
  have hr : resolve m.desc.t (.float32 0x3F800000) = .float32 0x3F800000 := by rw [ht]; decide
  rw [C97_equal (fun n h => by cases h) hc (by show isCompatible m.desc.t _ = true; rw [ht]; decide)
    (by show SameVal (resolve m.desc.t _) _; rw [hr]; exact .refl _)
    (by show ¬ NaNVal (resolve m.desc.t _); rw [hr]; unfold NaNVal; decide) (by unfold NaNVal; decide)]

end Speed
