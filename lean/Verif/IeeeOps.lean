import Verif.IeeeRound
import Verif.PropsMetrics
import Mathlib.Data.Rat.Cast.Order
import Mathlib.Tactic.Linarith
import Mathlib.Tactic.NormNum
import Mathlib.Tactic.FieldSimp
import Mathlib.Tactic.Positivity
import Mathlib.Algebra.Order.Field.Rat
import Mathlib.Algebra.Order.AbsoluteValue.Basic
/-
The operations of `Ieee.lean` as operations on rational numbers with a relative error.
-/
namespace Speed

/-- The number that a finite float64 denotes. -/
def ratOf (x : BitVec 64) : ℚ := val64 x / 2 ^ 1074

/-- 2^1074, and a power of two below the largest float64 (in units of 2^-1074); not unfolded in the proofs. -/
@[irreducible] def unitN : Nat := 2 ^ 1074
@[irreducible] def bigN : Nat := 2 ^ 2097

theorem unitN_eq : 2 ^ 1074 = unitN := by with_unfolding_all rfl
theorem unitQ_eq : (2 : ℚ) ^ 1074 = (unitN : ℚ) := by
  have h := congrArg (fun n : Nat => (n : ℚ)) unitN_eq
  simpa only [Nat.cast_pow, Nat.cast_ofNat] using h
theorem unitN_ge : 2 ^ 200 ≤ unitN := by
  rw [← unitN_eq]; exact Nat.pow_le_pow_right (by decide) (by decide)
theorem bigN_ge : unitN * 2 ^ 200 ≤ bigN := by
  rw [← unitN_eq, ← Nat.pow_add]
  unfold bigN
  exact Nat.pow_le_pow_right (by decide) (by decide)
theorem unitN_pos : 0 < unitN := Nat.lt_of_lt_of_le (by decide) unitN_ge
theorem unitQ_pos : (0 : ℚ) < unitN := by exact_mod_cast unitN_pos

/-- -1 or 1. -/
def sgnR (s : Nat) : ℚ := if s = 0 then 1 else -1

theorem sign64_lt (x : BitVec 64) : sign64 x < 2 := by have := x.isLt; unfold sign64; omega

theorem ratOf_val (x : BitVec 64) : ratOf x = val64 x / unitN := by unfold ratOf; rw [unitQ_eq]

theorem ratOf_eq (x : BitVec 64) : ratOf x = sgnR (sign64 x) * (mag64 x / unitN) := by
  rw [ratOf_val]
  unfold val64 sgnR
  split
  · push_cast; rw [one_mul]
  · push_cast; rw [neg_one_mul, neg_div]

/-- Fields of a pattern with sign. -/
theorem fields64 {s t : Nat} (hs : s < 2) (ht : t < 2 ^ 63) :
    sign64 (BitVec.ofNat 64 (s * 2 ^ 63 + t)) = s ∧ (BitVec.ofNat 64 (s * 2 ^ 63 + t)).toNat % 2 ^ 63 = t ∧
    mag64 (BitVec.ofNat 64 (s * 2 ^ 63 + t)) = magT t ∧ exp64 (BitVec.ofNat 64 (s * 2 ^ 63 + t)) = t / 2 ^ 52 ∧
    frac64 (BitVec.ofNat 64 (s * 2 ^ 63 + t)) = t % 2 ^ 52 := by
  have hn : (BitVec.ofNat 64 (s * 2 ^ 63 + t)).toNat = s * 2 ^ 63 + t := by
    rw [BitVec.toNat_ofNat]; omega
  have h2 : (s * 2 ^ 63 + t) % 2 ^ 63 = t := by omega
  refine ⟨by unfold sign64; rw [hn]; omega, by rw [hn]; exact h2, by rw [mag64_eq, hn, h2],
    by unfold exp64; rw [hn]; omega, by unfold frac64; rw [hn]; omega⟩

theorem eq_of_fields {x : BitVec 64} : x = BitVec.ofNat 64 (sign64 x * 2 ^ 63 + x.toNat % 2 ^ 63) := by
  apply BitVec.eq_of_toNat_eq
  have := x.isLt
  rw [BitVec.toNat_ofNat]
  unfold sign64
  omega

theorem pattern_finite {x : BitVec 64} (h : finite64 x) : x.toNat % 2 ^ 63 < 2047 * 2 ^ 52 := by
  unfold finite64 exp64 at h; omega

theorem finite_not {x : BitVec 64} (h : finite64 x) : isNaN64 x = false ∧ isInf64 x = false := by
  unfold isNaN64 isInf64
  unfold finite64 at h
  simp [h]

/-- A magnitude of a float64. -/
def Rep (n : Nat) : Prop := ∃ t, magT t = n

theorem rep_mag (x : BitVec 64) : Rep (mag64 x) := ⟨_, (mag64_eq x).symm⟩

/-- Numbers of at most 53 bits, scaled. -/
theorem rep_of_le {q : Nat} (h : q ≤ 2 ^ 53) (k : Nat) : Rep (q * 2 ^ k) := by
  induction k generalizing q with
  | zero => exact ⟨0 * 2 ^ 52 + q, magT_parts h (fun h => absurd rfl h)⟩
  | succ k ih =>
    by_cases h1 : 2 ^ 52 ≤ q
    · exact ⟨(k + 1) * 2 ^ 52 + q, magT_parts h (fun _ => h1)⟩
    · obtain ⟨t, ht⟩ := ih (q := 2 * q) (by omega)
      exact ⟨t, by rw [ht, Nat.pow_succ]; ring⟩

/-- A bound below the largest finite number. -/
theorem maxFinite_ge : bigN ≤ magT (2047 * 2 ^ 52 - 1) := by
  have key : ∀ X : Nat, 2 ^ 52 * X ≤ (2 ^ 53 - 1) * X := fun X => Nat.mul_le_mul_right X (by decide)
  have hb : bigN = 2 ^ 52 * 2 ^ 2045 := by
    unfold bigN; rw [← Nat.pow_add]
  have hm : magT (2047 * 2 ^ 52 - 1) = (2 ^ 53 - 1) * 2 ^ 2045 := by
    unfold magT
    rw [if_neg (by decide), show (2047 * 2 ^ 52 - 1) / 2 ^ 52 - 1 = 2045 by decide,
      show 2 ^ 52 + (2047 * 2 ^ 52 - 1) % 2 ^ 52 = 2 ^ 53 - 1 by decide]
  rw [hb, hm]
  exact key _

theorem roundSigned_fields {s n d : Nat} (hs : s < 2) (hf : roundMag n d < 2047 * 2 ^ 52) :
    finite64 (roundSigned s n d) ∧ sign64 (roundSigned s n d) = s ∧ mag64 (roundSigned s n d) = magT (roundMag n d) ∧
    (roundSigned s n d).toNat % 2 = roundMag n d % 2 := by
  unfold roundSigned
  rw [Nat.min_eq_left (Nat.le_of_lt hf)]
  obtain ⟨h1, h2, h3, h4, _⟩ := fields64 hs (t := roundMag n d) (by omega)
  exact ⟨by unfold finite64; rw [h4]; omega, h1, h3, by omega⟩

/-- A representable result is exact. -/
theorem roundSigned_exact {s n d : Nat} (hs : s < 2) (hd : 0 < d) {t : Nat} (ht : t < 2047 * 2 ^ 52) (h : n = magT t * d) :
    finite64 (roundSigned s n d) ∧ ratOf (roundSigned s n d) = sgnR s * (n / d / unitN) := by
  have hr : roundMag n d = t := by rw [h]; exact roundMag_magT d t hd
  obtain ⟨h1, h2, h3, _⟩ := roundSigned_fields (s := s) (n := n) (d := d) hs (by rw [hr]; exact ht)
  refine ⟨h1, ?_⟩
  rw [ratOf_eq, h2, h3, hr, h]
  have : (d : ℚ) ≠ 0 := by exact_mod_cast Nat.pos_iff_ne_zero.1 hd
  push_cast
  rw [mul_div_cancel_right₀ _ this]

/-- Otherwise the relative error is at most 2^-53. -/
theorem roundSigned_rel {s n d : Nat} (hs : s < 2) (hd : 0 < d) (h1 : 2 ^ 52 * d ≤ n) (h2 : n ≤ bigN * d) :
    finite64 (roundSigned s n d) ∧
    ∃ ε : ℚ, |ε| ≤ 1 / 2 ^ 53 ∧ ratOf (roundSigned s n d) = sgnR s * (n / d / unitN) * (1 + ε) := by
  have hfin := roundMag_finite hd (Nat.le_trans h2 (Nat.mul_le_mul_right d maxFinite_ge))
  obtain ⟨k1, k2, k3, _⟩ := roundSigned_fields (s := s) hs hfin
  refine ⟨k1, ?_⟩
  have hrel := roundMag_rel n d hd h1
  rw [ratOf_eq, k2, k3]
  generalize magT (roundMag n d) = m at *
  have hdq : (0 : ℚ) < d := by exact_mod_cast hd
  have hn0 : 0 < n := Nat.lt_of_lt_of_le (Nat.mul_pos (by decide) hd) h1
  have hnq : (0 : ℚ) < n := by exact_mod_cast hn0
  have hu := unitQ_pos
  refine ⟨(m * d - n) / n, ?_, ?_⟩
  · rw [abs_div, abs_of_pos hnq, div_le_div_iff₀ hnq (by positivity)]
    rw [one_mul]
    have hd' : |(m : ℚ) * d - n| ≤ (dist (m * d) n : ℕ) := by
      unfold dist
      rcases Nat.le_total (m * d) n with hle | hle
      · rw [Nat.sub_eq_zero_of_le hle, Nat.zero_add, abs_of_nonpos]
        · rw [Nat.cast_sub hle]; push_cast; linarith
        · have : ((m * d : ℕ) : ℚ) ≤ n := by exact_mod_cast hle
          push_cast at this; linarith
      · rw [Nat.sub_eq_zero_of_le hle, Nat.add_zero, abs_of_nonneg]
        · rw [Nat.cast_sub hle]; push_cast; linarith
        · have : (n : ℚ) ≤ ((m * d : ℕ) : ℚ) := by exact_mod_cast hle
          push_cast at this; linarith
    have hq : ((dist (m * d) n : ℕ) : ℚ) * 2 ^ 53 ≤ n := by exact_mod_cast hrel
    have := mul_le_mul_of_nonneg_right hd' (show (0 : ℚ) ≤ 2 ^ 53 by positivity)
    linarith
  · field_simp
    ring

theorem natAbs_cast (v : Int) : ((v.natAbs : ℕ) : ℚ) = |(v : ℚ)| := by
  rw [Nat.cast_natAbs, Int.cast_abs]

theorem sgnR_natAbs (v : Int) : sgnR (if v < 0 then 1 else 0) * (v.natAbs : ℚ) = v := by
  rw [natAbs_cast]
  unfold sgnR
  split
  · rename_i hv
    have : (v : ℚ) < 0 := by exact_mod_cast hv
    rw [if_neg (by decide), abs_of_neg this]; ring
  · rename_i hv
    have : (0 : ℚ) ≤ v := by exact_mod_cast Int.not_lt.1 hv
    rw [if_pos rfl, abs_of_nonneg this]; ring

/-- A pattern of a representable number that is small enough is finite. -/
theorem rep_pattern {n : Nat} (h : Rep n) (hn : n ≤ bigN) : ∃ t, t < 2047 * 2 ^ 52 ∧ n = magT t := by
  obtain ⟨t, rfl⟩ := h
  refine ⟨t, ?_, rfl⟩
  by_contra hge
  have := magT_strict (show 2047 * 2 ^ 52 - 1 < t by omega)
  have := maxFinite_ge
  omega

theorem sgn_lt (v : Int) : (if v < 0 then 1 else 0 : Nat) < 2 := by split <;> decide

/-! ### Integers -/

theorem fofInt_exact {x : BitVec 64} (h : x.toInt.natAbs ≤ 2 ^ 53) : finite64 (fofInt x) ∧ ratOf (fofInt x) = x.toInt := by
  have hr := rep_of_le h 1074
  rw [unitN_eq] at hr
  obtain ⟨t, ht, e⟩ := rep_pattern hr (by
    refine Nat.le_trans ?_ bigN_ge
    rw [Nat.mul_comm]
    exact Nat.mul_le_mul_left _ (by omega))
  unfold fofInt
  rw [unitN_eq]
  obtain ⟨h1, h2⟩ := roundSigned_exact (s := if x.toInt < 0 then 1 else 0) (n := x.toInt.natAbs * unitN)
    (sgn_lt _) Nat.one_pos ht (by rw [Nat.mul_one]; exact e)
  refine ⟨h1, ?_⟩
  have hu := unitQ_pos
  rw [h2]
  push_cast
  rw [div_one, mul_div_cancel_right₀ _ (ne_of_gt hu), sgnR_natAbs]

theorem natAbs_lt (x : BitVec 64) : x.toInt.natAbs ≤ 2 ^ 63 := by
  have h1 := BitVec.toInt_lt (x := x)
  have h2 := BitVec.le_toInt x
  omega

theorem fofInt_rel (x : BitVec 64) : finite64 (fofInt x) ∧
    ∃ ε : ℚ, |ε| ≤ 1 / 2 ^ 53 ∧ ratOf (fofInt x) = x.toInt * (1 + ε) := by
  by_cases h0 : x.toInt.natAbs ≤ 2 ^ 53
  · obtain ⟨h1, h2⟩ := fofInt_exact h0
    exact ⟨h1, 0, by rw [abs_zero]; positivity, by rw [h2]; ring⟩
  · have hx := natAbs_lt x
    unfold fofInt
    rw [unitN_eq]
    obtain ⟨h1, ε, h2, h3⟩ := roundSigned_rel (s := if x.toInt < 0 then 1 else 0) (n := x.toInt.natAbs * unitN) (d := 1)
      (sgn_lt _) Nat.one_pos
      (by rw [Nat.mul_one]
          refine Nat.le_trans (Nat.le_trans ?_ unitN_ge) (Nat.le_mul_of_pos_left _ (by omega))
          decide)
      (by rw [Nat.mul_one]
          refine Nat.le_trans ?_ bigN_ge
          rw [Nat.mul_comm]
          exact Nat.mul_le_mul_left _ (by omega))
    refine ⟨h1, ε, h2, ?_⟩
    have hu := unitQ_pos
    rw [h3]
    push_cast
    rw [div_one, mul_div_cancel_right₀ _ (ne_of_gt hu), sgnR_natAbs]

/-! ### Sums -/

theorem fadd_finite {a b : BitVec 64} (ha : finite64 a) (hb : finite64 b) : fadd a b =
    if val64 a + val64 b = 0 then (if sign64 a = 1 ∧ sign64 b = 1 then fZero 1 else fZero 0)
    else roundSigned (if val64 a + val64 b < 0 then 1 else 0) (val64 a + val64 b).natAbs 1 := by
  unfold fadd
  simp only [(finite_not ha).1, (finite_not hb).1, (finite_not ha).2, (finite_not hb).2, Bool.or_self, Bool.false_eq_true, if_false]

theorem fZero_facts (s : Nat) (hs : s < 2) : finite64 (fZero s) ∧ val64 (fZero s) = 0 ∧ (fZero s).toNat % 2 ^ 63 = 0 ∧
    sign64 (fZero s) = s := by
  have : s = 0 ∨ s = 1 := by omega
  rcases this with rfl | rfl <;> (unfold finite64; decide)

theorem ratOf_fZero (s : Nat) (hs : s < 2) : ratOf (fZero s) = 0 := by
  rw [ratOf_val, (fZero_facts s hs).2.1]; simp

theorem ratOf_add (a b : BitVec 64) : ratOf a + ratOf b = ((val64 a + val64 b : ℤ) : ℚ) / unitN := by
  rw [ratOf_val, ratOf_val]; push_cast; ring

/-- The sum is exact if it is a float64. -/
theorem fadd_exact {a b : BitVec 64} (ha : finite64 a) (hb : finite64 b)
    (h : ∃ y, finite64 y ∧ ratOf y = ratOf a + ratOf b) : finite64 (fadd a b) ∧ ratOf (fadd a b) = ratOf a + ratOf b := by
  obtain ⟨y, hy, e⟩ := h
  have hu := unitQ_pos
  have e' : val64 y = val64 a + val64 b := by
    rw [ratOf_add, ratOf_val, div_left_inj' (ne_of_gt hu)] at e
    exact_mod_cast e
  rw [fadd_finite ha hb, ← e, ← e']
  by_cases h0 : val64 y = 0
  · rw [if_pos h0]
    have : ratOf y = 0 := by rw [ratOf_val, h0]; simp
    rw [this]
    split
    · exact ⟨(fZero_facts 1 (by decide)).1, ratOf_fZero 1 (by decide)⟩
    · exact ⟨(fZero_facts 0 (by decide)).1, ratOf_fZero 0 (by decide)⟩
  · rw [if_neg h0]
    have hm : (val64 y).natAbs = mag64 y := by unfold val64; split <;> omega
    obtain ⟨h1, h2⟩ := roundSigned_exact (s := if val64 y < 0 then 1 else 0) (n := (val64 y).natAbs) (d := 1)
      (sgn_lt _) Nat.one_pos (t := y.toNat % 2 ^ 63) (pattern_finite hy) (by rw [Nat.mul_one, hm, mag64_eq])
    refine ⟨h1, ?_⟩
    rw [h2, ratOf_val, Nat.cast_one, div_one, ← mul_div_assoc, sgnR_natAbs]

/-- Otherwise its relative error is at most 2^-53. -/
theorem fadd_rel {a b : BitVec 64} (ha : finite64 a) (hb : finite64 b) (h : |ratOf a + ratOf b| ≤ 2 ^ 200) :
    finite64 (fadd a b) ∧ ∃ ε : ℚ, |ε| ≤ 1 / 2 ^ 53 ∧ ratOf (fadd a b) = (ratOf a + ratOf b) * (1 + ε) := by
  have hv := ratOf_add a b
  have hu := unitQ_pos
  have hbig : (val64 a + val64 b).natAbs ≤ bigN := by
    refine Nat.le_trans ?_ bigN_ge
    rw [hv, abs_div, abs_of_pos hu, div_le_iff₀ hu, ← natAbs_cast] at h
    have : (((val64 a + val64 b).natAbs : ℕ) : ℚ) ≤ ((unitN * 2 ^ 200 : ℕ) : ℚ) := by push_cast; linarith
    exact_mod_cast this
  by_cases hs : (val64 a + val64 b).natAbs ≤ 2 ^ 53
  · have hr := rep_of_le hs 0
    rw [Nat.pow_zero, Nat.mul_one] at hr
    obtain ⟨t, ht, e⟩ := rep_pattern hr hbig
    obtain ⟨q1, q2, q3, q4, _⟩ := fields64 (sgn_lt (val64 a + val64 b)) (t := t) (by omega)
    obtain ⟨h1, h2⟩ := fadd_exact ha hb ⟨BitVec.ofNat 64 ((if val64 a + val64 b < 0 then 1 else 0) * 2 ^ 63 + t), by
        unfold finite64; rw [q4]; omega, by
        rw [hv, ratOf_eq, q1, q3, ← e, ← mul_div_assoc, sgnR_natAbs]⟩
    exact ⟨h1, 0, by rw [abs_zero]; positivity, by rw [h2]; ring⟩
  · rw [fadd_finite ha hb, if_neg (by omega)]
    obtain ⟨h1, ε, h2, h3⟩ := roundSigned_rel (s := if val64 a + val64 b < 0 then 1 else 0) (n := (val64 a + val64 b).natAbs) (d := 1)
      (sgn_lt _) Nat.one_pos (by omega) (by rw [Nat.mul_one]; exact hbig)
    refine ⟨h1, ε, h2, ?_⟩
    rw [h3, hv, Nat.cast_one, div_one, ← mul_div_assoc, sgnR_natAbs]

/-! ### Products and quotients -/

theorem sgnR_mul (a b : Nat) (ha : a < 2) (hb : b < 2) : sgnR ((a + b) % 2) = sgnR a * sgnR b := by
  have h1 : a = 0 ∨ a = 1 := by omega
  have h2 : b = 0 ∨ b = 1 := by omega
  rcases h1 with rfl | rfl <;> rcases h2 with rfl | rfl <;> norm_num [sgnR]

theorem sgnR_abs (s : Nat) : |sgnR s| = 1 := by unfold sgnR; split <;> simp

theorem abs_ratOf (x : BitVec 64) : |ratOf x| = mag64 x / unitN := by
  rw [ratOf_eq, abs_mul, sgnR_abs, one_mul, abs_of_nonneg (by positivity)]

theorem fmul_eq {a b : BitVec 64} (ha : finite64 a) (hb : finite64 b) :
    fmul a b = roundSigned ((sign64 a + sign64 b) % 2) (mag64 a * mag64 b) unitN := by
  unfold fmul
  rw [unitN_eq]
  simp only [(finite_not ha).1, (finite_not hb).1, (finite_not ha).2, (finite_not hb).2, Bool.or_self, Bool.false_eq_true, if_false]

theorem fdiv_eq {a b : BitVec 64} (ha : finite64 a) (hb : finite64 b) (hb1 : mag64 b ≠ 0) :
    fdiv a b = roundSigned ((sign64 a + sign64 b) % 2) (mag64 a * unitN) (mag64 b) := by
  unfold fdiv
  rw [(finite_not ha).1, (finite_not hb).1, (finite_not ha).2, (finite_not hb).2, unitN_eq]
  simp only [Bool.or_self, Bool.false_eq_true, if_false, if_neg hb1]

theorem fmul_rel {a b : BitVec 64} (ha : finite64 a) (hb : finite64 b) (h1 : 1 ≤ |ratOf a * ratOf b| * 2 ^ 100)
    (h2 : |ratOf a * ratOf b| ≤ 2 ^ 200) :
    finite64 (fmul a b) ∧ ∃ ε : ℚ, |ε| ≤ 1 / 2 ^ 53 ∧ ratOf (fmul a b) = ratOf a * ratOf b * (1 + ε) := by
  have hu := unitQ_pos
  have hge : (2 : ℚ) ^ 200 ≤ unitN := by exact_mod_cast unitN_ge
  rw [abs_mul, abs_ratOf, abs_ratOf, div_mul_div_comm] at h1 h2
  rw [fmul_eq ha hb]
  have hm : (0 : ℚ) ≤ (mag64 a : ℚ) * mag64 b := by positivity
  have h1' : (unitN : ℚ) * unitN ≤ mag64 a * mag64 b * 2 ^ 100 := by
    rw [div_mul_eq_mul_div, le_div_iff₀ (mul_pos hu hu)] at h1
    linarith
  have h2' : (mag64 a : ℚ) * mag64 b ≤ 2 ^ 200 * (unitN * unitN) := by
    rwa [div_le_iff₀ (mul_pos hu hu)] at h2
  obtain ⟨k1, ε, k2, k3⟩ := roundSigned_rel (s := (sign64 a + sign64 b) % 2) (n := mag64 a * mag64 b) (d := unitN)
    (Nat.mod_lt _ (by decide)) unitN_pos (by
      have : ((2 ^ 52 * unitN : ℕ) : ℚ) ≤ ((mag64 a * mag64 b : ℕ) : ℚ) := by
        push_cast
        have h3 := mul_le_mul_of_nonneg_right hge (le_of_lt hu)
        generalize (mag64 a : ℚ) * mag64 b = X at *
        generalize (unitN : ℚ) * unitN = Y at *
        linarith
      exact_mod_cast this) (by
      have : ((mag64 a * mag64 b : ℕ) : ℚ) ≤ ((unitN * 2 ^ 200 * unitN : ℕ) : ℚ) := by
        push_cast
        calc _ ≤ _ := h2'
          _ = _ := by ring
      refine Nat.le_trans ?_ (Nat.mul_le_mul_right _ bigN_ge)
      exact_mod_cast this)
  refine ⟨k1, ε, k2, ?_⟩
  rw [k3, ratOf_eq, ratOf_eq, sgnR_mul _ _ (sign64_lt a) (sign64_lt b)]
  push_cast
  field_simp

theorem fdiv_rel {a b : BitVec 64} (ha : finite64 a) (hb : finite64 b) (hb0 : ratOf b ≠ 0) (h1 : 1 ≤ |ratOf a / ratOf b| * 2 ^ 100)
    (h2 : |ratOf a / ratOf b| ≤ 2 ^ 200) :
    finite64 (fdiv a b) ∧ ∃ ε : ℚ, |ε| ≤ 1 / 2 ^ 53 ∧ ratOf (fdiv a b) = ratOf a / ratOf b * (1 + ε) := by
  have hb1 : mag64 b ≠ 0 := by
    intro h; apply hb0; rw [ratOf_eq, h]; simp
  have hu := unitQ_pos
  have hge : (2 : ℚ) ^ 200 ≤ unitN := by exact_mod_cast unitN_ge
  have hbp : (0 : ℚ) < mag64 b := by exact_mod_cast Nat.pos_of_ne_zero hb1
  rw [abs_div, abs_ratOf, abs_ratOf, div_div_div_cancel_right₀ (ne_of_gt hu)] at h1 h2
  rw [fdiv_eq ha hb hb1]
  have h1' : (mag64 b : ℚ) ≤ mag64 a * 2 ^ 100 := by
    rw [div_mul_eq_mul_div, le_div_iff₀ hbp, one_mul] at h1
    exact h1
  have h2' : (mag64 a : ℚ) ≤ 2 ^ 200 * mag64 b := by
    rwa [div_le_iff₀ hbp] at h2
  obtain ⟨k1, ε, k2, k3⟩ := roundSigned_rel (s := (sign64 a + sign64 b) % 2) (n := mag64 a * unitN) (d := mag64 b)
    (Nat.mod_lt _ (by decide)) (Nat.pos_of_ne_zero hb1) (by
      have : ((2 ^ 52 * mag64 b : ℕ) : ℚ) ≤ ((mag64 a * unitN : ℕ) : ℚ) := by
        push_cast
        have h3 := mul_le_mul_of_nonneg_left hge (show (0 : ℚ) ≤ mag64 a by positivity)
        generalize (mag64 a : ℚ) * unitN = Y at *
        linarith
      exact_mod_cast this) (by
      have : ((mag64 a * unitN : ℕ) : ℚ) ≤ ((unitN * 2 ^ 200 * mag64 b : ℕ) : ℚ) := by
        push_cast
        calc _ ≤ (2 ^ 200 * mag64 b : ℚ) * unitN := mul_le_mul_of_nonneg_right h2' (le_of_lt hu)
          _ = _ := by ring
      refine Nat.le_trans ?_ (Nat.mul_le_mul_right _ bigN_ge)
      exact_mod_cast this)
  refine ⟨k1, ε, k2, ?_⟩
  have hinv : sgnR (sign64 b) = 1 / sgnR (sign64 b) := by unfold sgnR; split <;> norm_num
  have hsb : sgnR (sign64 b) ≠ 0 := by unfold sgnR; split <;> norm_num
  rw [k3, ratOf_eq, ratOf_eq, sgnR_mul _ _ (sign64_lt a) (sign64_lt b),
    show sgnR (sign64 a) * sgnR (sign64 b) = sgnR (sign64 a) * (1 / sgnR (sign64 b)) by rw [← hinv]]
  push_cast
  field_simp

theorem ratOf_zero_iff (x : BitVec 64) : ratOf x = 0 ↔ mag64 x = 0 := by
  have hu := unitQ_pos
  rw [← abs_eq_zero, abs_ratOf, div_eq_zero_iff]
  constructor
  · rintro (h | h)
    · exact_mod_cast h
    · exact absurd h (ne_of_gt hu)
  · intro h; left; exact_mod_cast h

/-- A product or quotient of zero is zero. -/
theorem fmul_zero_left {a b : BitVec 64} (ha : finite64 a) (hb : finite64 b) (h : ratOf a = 0) :
    finite64 (fmul a b) ∧ ratOf (fmul a b) = 0 := by
  rw [fmul_eq ha hb, (ratOf_zero_iff a).1 h, Nat.zero_mul]
  obtain ⟨h1, h2⟩ := roundSigned_exact (s := (sign64 a + sign64 b) % 2) (n := 0) (d := unitN) (Nat.mod_lt _ (by decide))
    unitN_pos (t := 0) (by decide) (by unfold magT; simp)
  exact ⟨h1, by rw [h2]; simp⟩

theorem fdiv_zero_left {a b : BitVec 64} (ha : finite64 a) (hb : finite64 b) (h : ratOf a = 0) (hb0 : ratOf b ≠ 0) :
    finite64 (fdiv a b) ∧ ratOf (fdiv a b) = 0 := by
  have hb1 : mag64 b ≠ 0 := fun h => hb0 ((ratOf_zero_iff b).2 h)
  rw [fdiv_eq ha hb hb1, (ratOf_zero_iff a).1 h, Nat.zero_mul]
  obtain ⟨h1, h2⟩ := roundSigned_exact (s := (sign64 a + sign64 b) % 2) (n := 0) (d := mag64 b) (Nat.mod_lt _ (by decide))
    (Nat.pos_of_ne_zero hb1) (t := 0) (by decide) (by unfold magT; simp)
  exact ⟨h1, by rw [h2]; simp⟩

end Speed
