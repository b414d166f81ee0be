import Verif.Values
import Mathlib.Tactic.ByContra
/-
The conversion `float32(x)` of the model rounds to the nearest float32, ties to even; the range test of
`isCompatibleFloat` is the one on the numbers that the bit patterns denote.
-/
namespace Speed

/-- Magnitude of a finite float64, in units of 2^-1074. -/
def mag64 (x : BitVec 64) : Nat := if exp64 x = 0 then frac64 x else (2 ^ 52 + frac64 x) * 2 ^ (exp64 x - 1)
/-- The number a finite float64 denotes, in units of 2^-1074. -/
def val64 (x : BitVec 64) : Int := if sign64 x = 0 then mag64 x else -mag64 x

def exp32 (y : BitVec 32) : Nat := y.toNat / 2 ^ 23 % 2 ^ 8
def frac32 (y : BitVec 32) : Nat := y.toNat % 2 ^ 23
def sign32 (y : BitVec 32) : Nat := y.toNat / 2 ^ 31
/-- Magnitude of a finite float32, in units of 2^-1074. -/
def mag32 (y : BitVec 32) : Nat :=
  (if exp32 y = 0 then frac32 y else (2 ^ 23 + frac32 y) * 2 ^ (exp32 y - 1)) * 2 ^ 925
def val32 (y : BitVec 32) : Int := if sign32 y = 0 then mag32 y else -mag32 y

/-- Neither infinite nor NaN. -/
def finite64 (x : BitVec 64) : Prop := exp64 x ≠ 2047
def finite32 (y : BitVec 32) : Prop := exp32 y ≠ 255

/-- Distance. -/
def dist (a b : Nat) : Nat := (a - b) + (b - a)

/-- `roundEven m k` is the integer nearest to `m / 2^k`, ties to even. -/
theorem roundEven_near (m k n : Nat) :
    dist (roundEven m k * 2 ^ k) m ≤ dist (n * 2 ^ k) m ∧
    (dist (roundEven m k * 2 ^ k) m = dist (n * 2 ^ k) m → n ≠ roundEven m k → roundEven m k % 2 = 0) := by
  have hM : 0 < 2 ^ k := Nat.two_pow_pos k
  have hdm := Nat.div_add_mod m (2 ^ k)
  have hr := Nat.mod_lt m hM
  unfold roundEven dist
  generalize 2 ^ k = M at *
  generalize hq : m / M = q at *
  generalize m % M = r at *
  rw [Nat.mul_comm] at hdm
  have hs : (q + 1) * M = q * M + M := by rw [Nat.add_mul, Nat.one_mul]
  have hn : n < q ∧ n * M + M ≤ q * M ∨ n = q ∨ n = q + 1 ∨ q + 1 < n ∧ q * M + M + M ≤ n * M := by
    rcases Nat.lt_trichotomy n q with h | h | h
    · refine .inl ⟨h, ?_⟩
      have := Nat.mul_le_mul_right M (show n + 1 ≤ q from h)
      rwa [Nat.add_mul, Nat.one_mul] at this
    · exact .inr (.inl h)
    · rcases Nat.lt_or_ge (q + 1) n with h2 | h2
      · refine .inr (.inr (.inr ⟨h2, ?_⟩))
        have := Nat.mul_le_mul_right M (show q + 2 ≤ n from h2)
        rw [Nat.add_mul] at this; omega
      · exact .inr (.inr (.inl (by omega)))
  dsimp only
  generalize hqm : q * M = qM at *
  rcases hn with ⟨h1, h2⟩ | h1 | h1 | ⟨h1, h2⟩
  · generalize n * M = nM at *
    split
    · rw [hqm]; omega
    · split
      · rw [hs]; omega
      · split
        · rw [hqm]; omega
        · rw [hs]; omega
  · subst h1
    rw [hqm]
    split
    · rw [hqm]; omega
    · split
      · rw [hs]; omega
      · split
        · rw [hqm]; omega
        · rw [hs]; omega
  · subst h1
    rw [hs]
    split
    · rw [hqm]; omega
    · split
      · rw [hs]; omega
      · split
        · rw [hqm]; omega
        · rw [hs]; omega
  · generalize n * M = nM at *
    split
    · rw [hqm]; omega
    · split
      · rw [hs]; omega
      · split
        · rw [hqm]; omega
        · rw [hs]; omega

theorem roundEven_le (m k : Nat) : m / 2 ^ k ≤ roundEven m k ∧ roundEven m k ≤ m / 2 ^ k + 1 := by
  unfold roundEven
  dsimp only
  repeat' split
  all_goals omega

theorem dist_scale (a b c : Nat) : dist (a * c) (b * c) = dist a b * c := by
  unfold dist
  rw [Nat.add_mul, Nat.sub_mul, Nat.sub_mul]

theorem dist_far {R X Y Z : Nat} (h : dist R X ≤ dist Z X) (h1 : Y < Z) (h2 : Z ≤ X) : dist R X < dist Y X := by
  unfold dist at *
  omega

theorem mul_shuffle (a b c : Nat) : a * (b * 2) * c = a * 2 * b * c := by
  rw [Nat.mul_assoc a 2 b, Nat.mul_comm 2 b]

/-- Fields of a float32 pattern put together from a sign and the rest. -/
theorem fields32 {s t : Nat} (hs : s < 2) (ht : t < 2 ^ 31) :
    exp32 (BitVec.ofNat 32 (s * 2 ^ 31 + t)) = t / 2 ^ 23 ∧ frac32 (BitVec.ofNat 32 (s * 2 ^ 31 + t)) = t % 2 ^ 23 ∧
    sign32 (BitVec.ofNat 32 (s * 2 ^ 31 + t)) = s ∧ (BitVec.ofNat 32 (s * 2 ^ 31 + t)).toNat % 2 = t % 2 := by
  unfold exp32 frac32 sign32
  have : (BitVec.ofNat 32 (s * 2 ^ 31 + t)).toNat = s * 2147483648 + t := by
    rw [BitVec.toNat_ofNat]; simp only [Nat.reducePow] at *; omega
  rw [this]
  simp only [Nat.reducePow] at *
  omega

/-- The magnitude of the pattern `(e - 1) * 2^23 + q` with `2^23 ≤ q ≤ 2^24`, `1 ≤ e`. -/
theorem mag32_normal {s d q : Nat} (hs : s < 2) (hq : 2 ^ 23 ≤ q) (hq' : q ≤ 2 ^ 24) (ht : d * 2 ^ 23 + q < 2 ^ 31) :
    mag32 (BitVec.ofNat 32 (s * 2 ^ 31 + (d * 2 ^ 23 + q))) = q * 2 ^ d * 2 ^ 925 := by
  obtain ⟨h1, h2, _⟩ := fields32 hs ht
  unfold mag32
  rw [h1, h2]
  by_cases hlt : q < 2 ^ 24
  · have e1 : (d * 2 ^ 23 + q) / 2 ^ 23 = d + 1 := by omega
    have e2 : 2 ^ 23 + (d * 2 ^ 23 + q) % 2 ^ 23 = q := by omega
    rw [e1, e2, if_neg (by omega), Nat.add_sub_cancel]
  · have e : q = 2 ^ 23 * 2 := by omega
    have e1 : (d * 2 ^ 23 + q) / 2 ^ 23 = d + 2 := by omega
    have e2 : (d * 2 ^ 23 + q) % 2 ^ 23 = 0 := by omega
    rw [e1, e2, if_neg (by omega), Nat.add_zero, show d + 2 - 1 = d + 1 by omega, Nat.pow_succ, e]
    exact mul_shuffle _ _ _

/-- Every float32 magnitude is a multiple of `2^(925+d)` or below `2^(23+925+d)`. -/
theorem mag32_grid (y : BitVec 32) (d : Nat) :
    (∃ n, mag32 y = n * 2 ^ d * 2 ^ 925) ∨ mag32 y < 2 ^ 23 * 2 ^ d * 2 ^ 925 := by
  have hf : frac32 y < 2 ^ 23 := Nat.mod_lt _ (by decide)
  have hp : 0 < 2 ^ 925 := Nat.two_pow_pos _
  have hd : 1 ≤ 2 ^ d := Nat.one_le_two_pow
  unfold mag32
  by_cases h0 : exp32 y = 0
  · rw [if_pos h0]
    right
    apply Nat.mul_lt_mul_of_pos_right _ hp
    exact Nat.lt_of_lt_of_le hf (Nat.le_mul_of_pos_right _ hd)
  · rw [if_neg h0]
    rcases Nat.lt_or_ge (exp32 y - 1) d with h | h
    · right
      apply Nat.mul_lt_mul_of_pos_right _ hp
      have h1 : (2 ^ 23 + frac32 y) * 2 ^ (exp32 y - 1) < 2 ^ 24 * 2 ^ (exp32 y - 1) :=
        Nat.mul_lt_mul_of_pos_right (by omega) (Nat.two_pow_pos _)
      have h2 : 2 ^ (exp32 y - 1 + 1) ≤ 2 ^ d := Nat.pow_le_pow_right (by decide) h
      rw [Nat.pow_succ] at h2
      omega
    · left
      refine ⟨(2 ^ 23 + frac32 y) * 2 ^ (exp32 y - 1 - d), ?_⟩
      rw [Nat.mul_assoc _ _ (2 ^ d), ← Nat.pow_add, Nat.sub_add_cancel h]

/-- The bit pattern without sign determines the magnitude, monotonically. -/
theorem mag64_mono {x y : BitVec 64} (h : x.toNat % 2 ^ 63 ≤ y.toNat % 2 ^ 63) : mag64 x ≤ mag64 y := by
  have hx : x.toNat % 2 ^ 63 = exp64 x * 2 ^ 52 + frac64 x := by
    unfold exp64 frac64; simp only [Nat.reducePow]; omega
  have hy : y.toNat % 2 ^ 63 = exp64 y * 2 ^ 52 + frac64 y := by
    unfold exp64 frac64; simp only [Nat.reducePow]; omega
  have fx : frac64 x < 2 ^ 52 := Nat.mod_lt _ (by decide)
  have fy : frac64 y < 2 ^ 52 := Nat.mod_lt _ (by decide)
  rw [hx, hy] at h
  unfold mag64
  generalize exp64 x = a at *
  generalize exp64 y = b at *
  generalize frac64 x = f at *
  generalize frac64 y = g at *
  have hab : a ≤ b := by omega
  have hb := Nat.two_pow_pos (b - 1)
  split
  · split
    · omega
    · have := Nat.le_mul_of_pos_right (2 ^ 52 + g) hb
      omega
  · rw [if_neg (by omega)]
    rcases Nat.eq_or_lt_of_le hab with e | e
    · subst e
      exact Nat.mul_le_mul_right _ (by omega)
    · have h1 : (2 ^ 52 + f) * 2 ^ (a - 1) ≤ 2 ^ 52 * 2 * 2 ^ (a - 1) := Nat.mul_le_mul_right _ (by omega)
      have h2 : 2 ^ (a - 1 + 1) ≤ 2 ^ (b - 1) := Nat.pow_le_pow_right (by decide) (by omega)
      rw [Nat.pow_succ] at h2
      have h3 : 2 ^ 52 * 2 ^ (b - 1) ≤ (2 ^ 52 + g) * 2 ^ (b - 1) := Nat.mul_le_mul_right _ (by omega)
      have h4 := Nat.mul_le_mul_left (2 ^ 52) h2
      rw [Nat.mul_assoc, Nat.mul_comm 2] at h1
      omega

theorem mag64_strict {x y : BitVec 64} (h : x.toNat % 2 ^ 63 < y.toNat % 2 ^ 63) : mag64 x < mag64 y := by
  have hx : x.toNat % 2 ^ 63 = exp64 x * 2 ^ 52 + frac64 x := by
    unfold exp64 frac64; simp only [Nat.reducePow]; omega
  have hy : y.toNat % 2 ^ 63 = exp64 y * 2 ^ 52 + frac64 y := by
    unfold exp64 frac64; simp only [Nat.reducePow]; omega
  have fx : frac64 x < 2 ^ 52 := Nat.mod_lt _ (by decide)
  have fy : frac64 y < 2 ^ 52 := Nat.mod_lt _ (by decide)
  rw [hx, hy] at h
  unfold mag64
  generalize exp64 x = a at *
  generalize exp64 y = b at *
  generalize frac64 x = f at *
  generalize frac64 y = g at *
  have hab : a ≤ b := by omega
  have hb := Nat.two_pow_pos (b - 1)
  split
  · split
    · omega
    · have := Nat.le_mul_of_pos_right (2 ^ 52 + g) hb
      omega
  · rw [if_neg (by omega)]
    rcases Nat.eq_or_lt_of_le hab with e | e
    · subst e
      exact Nat.mul_lt_mul_of_pos_right (by omega) hb
    · have h1 : (2 ^ 52 + f) * 2 ^ (a - 1) < 2 ^ 52 * 2 * 2 ^ (a - 1) :=
        Nat.mul_lt_mul_of_pos_right (by omega) (Nat.two_pow_pos _)
      have h2 : 2 ^ (a - 1 + 1) ≤ 2 ^ (b - 1) := Nat.pow_le_pow_right (by decide) (by omega)
      rw [Nat.pow_succ] at h2
      have h3 : 2 ^ 52 * 2 ^ (b - 1) ≤ (2 ^ 52 + g) * 2 ^ (b - 1) := Nat.mul_le_mul_right _ (by omega)
      have h4 := Nat.mul_le_mul_left (2 ^ 52) h2
      rw [Nat.mul_assoc, Nat.mul_comm 2] at h1
      omega

/-- `inFloat32Range` is the comparison of the numbers with `±math.MaxFloat32` (and false for infinities and
NaN). -/
theorem inFloat32Range_iff (x : BitVec 64) :
    inFloat32Range x = true ↔ finite64 x ∧ mag64 x ≤ mag64 0x47EFFFFFE0000000 := by
  have hm : (0x47EFFFFFE0000000 : BitVec 64).toNat % 2 ^ 63 = 0x47EFFFFFE0000000 := by decide
  have hx : x.toNat % 2 ^ 63 = exp64 x * 2 ^ 52 + frac64 x := by
    unfold exp64 frac64; simp only [Nat.reducePow]; omega
  unfold inFloat32Range finite64
  rw [decide_eq_true_eq]
  constructor
  · intro h
    refine ⟨by omega, mag64_mono (by rw [hm]; exact h)⟩
  · rintro ⟨_, h⟩
    by_contra hlt
    have := mag64_strict (x := 0x47EFFFFFE0000000) (y := x) (by rw [hm]; omega)
    omega

/-- Magnitudes: the conversion is the nearest one, ties to even. -/
theorem cvt32_mag {x : BitVec 64} (h : inFloat32Range x = true) :
    finite32 (cvt32 x) ∧ sign32 (cvt32 x) = sign64 x ∧
    ∀ y, dist (mag32 (cvt32 x)) (mag64 x) ≤ dist (mag32 y) (mag64 x) ∧
      (dist (mag32 (cvt32 x)) (mag64 x) = dist (mag32 y) (mag64 x) → mag32 y ≠ mag32 (cvt32 x) →
        (cvt32 x).toNat % 2 = 0) := by
  have hx : x.toNat % 2 ^ 63 = exp64 x * 2 ^ 52 + frac64 x := by
    unfold exp64 frac64; simp only [Nat.reducePow]; omega
  have fx : frac64 x < 2 ^ 52 := Nat.mod_lt _ (by decide)
  have hs : sign64 x < 2 := by have := x.isLt; unfold sign64; omega
  unfold inFloat32Range at h
  rw [decide_eq_true_eq, hx] at h
  generalize he : exp64 x = e at *
  generalize hf : frac64 x = f at *
  generalize hsg : sign64 x = s at *
  have he1 : e ≤ 1150 := by omega
  by_cases h1 : 897 ≤ e
  · have hq := roundEven_le (2 ^ 52 + f) 29
    have hn := roundEven_near (2 ^ 52 + f) 29
    have hqm : e = 1150 → roundEven (2 ^ 52 + f) 29 < 2 ^ 24 := by
      intro h2
      have h3 := (hn (2 ^ 24 - 1)).1
      have h4 : 2 ^ 52 + f ≤ (2 ^ 24 - 1) * 2 ^ 29 := by omega
      unfold dist at h3
      omega
    generalize hqq : roundEven (2 ^ 52 + f) 29 = q at *
    have hql : 2 ^ 23 ≤ q := by omega
    have hqu : q ≤ 2 ^ 24 := by omega
    have ht : (e - 897) * 2 ^ 23 + q < 255 * 2 ^ 23 := by omega
    have hc : cvt32 x = BitVec.ofNat 32 (s * 2 ^ 31 + ((e - 897) * 2 ^ 23 + q)) := by
      unfold cvt32
      simp only [he, hf, hsg, hqq]
      rw [if_neg (by omega), if_pos h1, Nat.min_eq_left (Nat.le_of_lt ht)]
    obtain ⟨k1, k2, k3, k4⟩ := fields32 (s := s) (t := (e - 897) * 2 ^ 23 + q) hs (by omega)
    have hne : ¬ e = 0 := by omega
    have hpe : e - 897 + 925 = 29 + (e - 1) := by omega
    have hfin : (((e - 897) * 2 ^ 23 + q) / 2 ^ 23) ≠ 255 := by omega
    have hpar' : ((e - 897) * 2 ^ 23 + q) % 2 = q % 2 := by omega
    have km := mag32_normal (s := s) (d := e - 897) hs hql hqu (by omega)
    rw [← hc] at k1 k3 k4 km
    refine ⟨by unfold finite32; rw [k1]; exact hfin, k3, fun y => ?_⟩
    have hU : (2 : Nat) ^ (e - 897) * 2 ^ 925 = 2 ^ 29 * 2 ^ (e - 1) := by
      rw [← Nat.pow_add, ← Nat.pow_add, hpe]
    have hX : mag64 x = (2 ^ 52 + f) * 2 ^ (e - 1) := by
      unfold mag64; rw [he, hf, if_neg hne]
    have hR : mag32 (cvt32 x) = q * 2 ^ 29 * 2 ^ (e - 1) := by
      rw [km, Nat.mul_assoc, hU, Nat.mul_assoc]
    have hcp := Nat.two_pow_pos (e - 1)
    have key : ∀ n, dist (mag32 (cvt32 x)) (mag64 x) ≤ dist (n * 2 ^ 29 * 2 ^ (e - 1)) (mag64 x) ∧
        (dist (mag32 (cvt32 x)) (mag64 x) = dist (n * 2 ^ 29 * 2 ^ (e - 1)) (mag64 x) → n ≠ q → q % 2 = 0) := by
      intro n
      rw [hR, hX, dist_scale, dist_scale]
      refine ⟨Nat.mul_le_mul_right _ (hn n).1, fun h => (hn n).2 (Nat.eq_of_mul_eq_mul_right hcp h)⟩
    have hpar : (cvt32 x).toNat % 2 = q % 2 := k4.trans hpar'
    rw [hpar]
    rcases mag32_grid y (e - 897) with ⟨n, hy⟩ | hy
    · rw [Nat.mul_assoc, hU, ← Nat.mul_assoc] at hy
      rw [hy]
      refine ⟨(key n).1, fun h1 h2 => (key n).2 h1 ?_⟩
      rintro rfl
      exact h2 hR.symm
    · rw [Nat.mul_assoc, hU, ← Nat.mul_assoc] at hy
      have hk := (key (2 ^ 23)).1
      have hle : 2 ^ 23 * 2 ^ 29 * 2 ^ (e - 1) ≤ mag64 x := by
        rw [hX]; exact Nat.mul_le_mul_right _ (by omega)
      have := dist_far hk hy hle
      exact ⟨Nat.le_of_lt this, fun h => absurd h (Nat.ne_of_lt this)⟩
  · have hmul : ∀ y, ∃ n, mag32 y = n * 2 ^ 925 := fun y => ⟨_, rfl⟩
    by_cases h0 : e = 0
    · have hc : cvt32 x = BitVec.ofNat 32 (s * 2 ^ 31 + 0) := by
        unfold cvt32
        simp only [he, hf, hsg]
        rw [if_neg (by omega), if_neg h1, if_pos h0, Nat.add_zero]
      obtain ⟨k1, k2, k3, k4⟩ := fields32 (s := s) (t := 0) hs (by omega)
      rw [← hc] at k1 k2 k3 k4
      have hR : mag32 (cvt32 x) = 0 := by
        unfold mag32
        rw [k1, k2, if_pos (by rfl), Nat.zero_mod, Nat.zero_mul]
      have hX : mag64 x = f := by
        unfold mag64; rw [he, hf, if_pos h0]
      refine ⟨by unfold finite32; omega, k3, fun y => ?_⟩
      obtain ⟨n, hy⟩ := hmul y
      have hbig : (2 : Nat) ^ 53 ≤ 2 ^ 925 := Nat.pow_le_pow_right (by decide) (by decide)
      rw [hR, hX, hy]
      rcases n with _ | n
      · rw [Nat.zero_mul]
        exact ⟨Nat.le_refl _, fun _ h => absurd rfl h⟩
      · have hge : 2 ^ 925 ≤ (n + 1) * 2 ^ 925 := Nat.le_mul_of_pos_left _ (Nat.succ_pos n)
        generalize (n + 1) * 2 ^ 925 = Z at *
        generalize (2 : Nat) ^ 925 = W at *
        unfold dist
        omega
    · have hq := roundEven_le (2 ^ 52 + f) (29 + (897 - e))
      have hn := roundEven_near (2 ^ 52 + f) (29 + (897 - e))
      have hqu : roundEven (2 ^ 52 + f) (29 + (897 - e)) ≤ 2 ^ 23 := by
        have h2 : (2 ^ 52 + f) / 2 ^ (29 + (897 - e)) < 2 ^ 23 := by
          rw [Nat.div_lt_iff_lt_mul (Nat.two_pow_pos _)]
          have h3 : (2 : Nat) ^ 30 ≤ 2 ^ (29 + (897 - e)) := Nat.pow_le_pow_right (by decide) (by omega)
          omega
        omega
      have hU : (2 : Nat) ^ 925 = 2 ^ (29 + (897 - e)) * 2 ^ (e - 1) := by
        rw [← Nat.pow_add]; congr 1; omega
      generalize hqq : roundEven (2 ^ 52 + f) (29 + (897 - e)) = q at *
      generalize hK : 29 + (897 - e) = K at *
      have hc : cvt32 x = BitVec.ofNat 32 (s * 2 ^ 31 + q) := by
        unfold cvt32
        simp only [he, hf, hsg, hK, hqq]
        rw [if_neg (by omega), if_neg h1, if_neg h0]
      obtain ⟨k1, k2, k3, k4⟩ := fields32 (s := s) (t := q) hs (by omega)
      have hfin : q / 2 ^ 23 ≠ 255 := by omega
      rw [← hc] at k1 k2 k3 k4
      have hR' : mag32 (cvt32 x) = q * 2 ^ 925 := by
        unfold mag32
        rw [k1, k2]
        by_cases hlt : q < 2 ^ 23
        · rw [if_pos (by omega), Nat.mod_eq_of_lt hlt]
        · have e1 : q / 2 ^ 23 = 1 := by omega
          have e2 : (2 ^ 23 + q % 2 ^ 23) * 2 ^ (1 - 1) = q := by omega
          rw [e1, if_neg (by omega), e2]
      have hX : mag64 x = (2 ^ 52 + f) * 2 ^ (e - 1) := by
        unfold mag64; rw [he, hf, if_neg h0]
      refine ⟨by unfold finite32; rw [k1]; exact hfin, k3, fun y => ?_⟩
      obtain ⟨n, hy⟩ := hmul y
      have hcp := Nat.two_pow_pos (e - 1)
      rw [k4, hR', hX, hy, hU, ← Nat.mul_assoc, ← Nat.mul_assoc, dist_scale, dist_scale]
      refine ⟨Nat.mul_le_mul_right _ (hn n).1, fun h h2 => (hn n).2 (Nat.eq_of_mul_eq_mul_right hcp h) ?_⟩
      rintro rfl
      exact h2 rfl

/-- The conversion of a number in the float32 range is the nearest float32, ties to even, with the same sign. -/
theorem cvt32_nearest {x : BitVec 64} (h : inFloat32Range x = true) :
    finite32 (cvt32 x) ∧ sign32 (cvt32 x) = sign64 x ∧
    ∀ y, (val32 (cvt32 x) - val64 x).natAbs ≤ (val32 y - val64 x).natAbs ∧
      ((val32 (cvt32 x) - val64 x).natAbs = (val32 y - val64 x).natAbs → val32 y ≠ val32 (cvt32 x) →
        (cvt32 x).toNat % 2 = 0) := by
  obtain ⟨h1, h2, h3⟩ := cvt32_mag h
  refine ⟨h1, h2, fun y => ?_⟩
  have h4 := h3 y
  have h5 := h3 0
  have h0 : mag32 0 = 0 := by unfold mag32; rw [if_pos (by decide), show frac32 0 = 0 by decide, Nat.zero_mul]
  rw [h0] at h5
  unfold val32 val64
  rw [h2]
  generalize mag32 (cvt32 x) = R at *
  generalize mag64 x = X at *
  generalize mag32 y = Y at *
  unfold dist at *
  split <;> split <;> constructor <;> omega

end Speed
