import Verif.Ieee
import Mathlib.Tactic.Linarith
import Mathlib.Tactic.Ring
/-
`roundMag` gives the nearest float64, ties to even.
-/
namespace Speed

/-- Magnitude of a bit pattern without sign, in units of 2^-1074. -/
def magT (t : Nat) : Nat := if t / 2 ^ 52 = 0 then t else (2 ^ 52 + t % 2 ^ 52) * 2 ^ (t / 2 ^ 52 - 1)

theorem mag64_eq (x : BitVec 64) : mag64 x = magT (x.toNat % 2 ^ 63) := by
  unfold mag64 magT exp64 frac64
  have h1 : x.toNat % 2 ^ 63 / 2 ^ 52 = x.toNat / 2 ^ 52 % 2 ^ 11 := by omega
  have h2 : x.toNat % 2 ^ 63 % 2 ^ 52 = x.toNat % 2 ^ 52 := by omega
  rw [h1, h2]
  split
  · omega
  · rfl

theorem roundQ_near (m M n : Nat) (hM : 0 < M) :
    dist (roundQ m M * M) m ≤ dist (n * M) m ∧
    (dist (roundQ m M * M) m = dist (n * M) m → n ≠ roundQ m M → roundQ m M % 2 = 0) := by
  have hdm := Nat.div_add_mod m M
  have hr := Nat.mod_lt m hM
  unfold roundQ dist
  generalize hq : m / M = q at *
  generalize m % M = r at *
  rw [Nat.mul_comm] at hdm
  have hs : (q + 1) * M = q * M + M := by rw [Nat.add_mul, Nat.one_mul]
  have hn : n < q ∧ n * M + M ≤ q * M ∨ n = q ∨ n = q + 1 ∨ q + 1 < n ∧ q * M + M + M ≤ n * M := by
    rcases Nat.lt_trichotomy n q with h | h | h
    · refine .inl ⟨h, ?_⟩
      have := Nat.mul_le_mul_right M (show n + 1 ≤ q from h)
      rwa [Nat.add_mul, Nat.one_mul] at this
    · exact .inr (.inl h)
    · rcases Nat.lt_or_ge (q + 1) n with h2 | h2
      · refine .inr (.inr (.inr ⟨h2, ?_⟩))
        have := Nat.mul_le_mul_right M (show q + 2 ≤ n from h2)
        rw [Nat.add_mul] at this; omega
      · exact .inr (.inr (.inl (by omega)))
  dsimp only
  generalize hqm : q * M = qM at *
  rcases hn with ⟨h1, h2⟩ | h1 | h1 | ⟨h1, h2⟩
  · generalize n * M = nM at *
    split
    · rw [hqm]; omega
    · split
      · rw [hs]; omega
      · split
        · rw [hqm]; omega
        · rw [hs]; omega
  · subst h1
    rw [hqm]
    split
    · rw [hqm]; omega
    · split
      · rw [hs]; omega
      · split
        · rw [hqm]; omega
        · rw [hs]; omega
  · subst h1
    rw [hs]
    split
    · rw [hqm]; omega
    · split
      · rw [hs]; omega
      · split
        · rw [hqm]; omega
        · rw [hs]; omega
  · generalize n * M = nM at *
    split
    · rw [hqm]; omega
    · split
      · rw [hs]; omega
      · split
        · rw [hqm]; omega
        · rw [hs]; omega

theorem roundQ_le (m d : Nat) : m / d ≤ roundQ m d ∧ roundQ m d ≤ m / d + 1 := by
  unfold roundQ
  dsimp only
  repeat' split
  all_goals omega

/-- At most half a unit away. -/
theorem roundQ_half (m M : Nat) (hM : 0 < M) : 2 * dist (roundQ m M * M) m ≤ M := by
  have hdm := Nat.div_add_mod m M
  have hr := Nat.mod_lt m hM
  unfold roundQ dist
  generalize hq : m / M = q at *
  generalize m % M = r at *
  rw [Nat.mul_comm] at hdm
  have hs : (q + 1) * M = q * M + M := by rw [Nat.add_mul, Nat.one_mul]
  dsimp only
  generalize hqm : q * M = qM at *
  split
  · rw [hqm]; omega
  · split
    · rw [hs]; omega
    · split
      · rw [hqm]; omega
      · rw [hs]; omega

/-- The parts of `roundMag`. -/
theorem roundMag_parts (n d : Nat) (hd : 0 < d) : ∃ k q, roundMag n d = k * 2 ^ 52 + q ∧ q = roundQ n (d * 2 ^ k) ∧ q ≤ 2 ^ 53 ∧
    (k ≠ 0 → 2 ^ 52 ≤ q ∧ 2 ^ 52 * 2 ^ k * d ≤ n) := by
  refine ⟨Nat.log2 (n / d) - 52, _, rfl, rfl, ?_, ?_⟩
  · have h := (roundQ_le n (d * 2 ^ (Nat.log2 (n / d) - 52))).2
    have h1 : n / d < 2 ^ (Nat.log2 (n / d) + 1) := Nat.lt_log2_self
    have h2 : n / (d * 2 ^ (Nat.log2 (n / d) - 52)) < 2 ^ 53 := by
      rw [← Nat.div_div_eq_div_mul, Nat.div_lt_iff_lt_mul (Nat.two_pow_pos _), ← Nat.pow_add]
      exact Nat.lt_of_lt_of_le h1 (Nat.pow_le_pow_right (by decide) (by omega))
    omega
  · intro hk
    have h0 : n / d ≠ 0 := by
      intro h; rw [h] at hk; exact hk (by decide)
    have h1 : 2 ^ Nat.log2 (n / d) ≤ n / d := (Nat.le_log2 h0).1 (Nat.le_refl _)
    have h2 : 2 ^ 52 * 2 ^ (Nat.log2 (n / d) - 52) ≤ n / d := by
      rw [← Nat.pow_add]; rwa [show 52 + (Nat.log2 (n / d) - 52) = Nat.log2 (n / d) by omega]
    refine ⟨?_, (Nat.le_div_iff_mul_le hd).1 h2⟩
    refine Nat.le_trans ?_ (roundQ_le n _).1
    rw [← Nat.div_div_eq_div_mul, Nat.le_div_iff_mul_le (Nat.two_pow_pos _)]
    exact h2

/-- The magnitude of the pattern `k * 2^52 + q`. -/
theorem magT_parts {k q : Nat} (h : q ≤ 2 ^ 53) (hk : k ≠ 0 → 2 ^ 52 ≤ q) : magT (k * 2 ^ 52 + q) = q * 2 ^ k := by
  unfold magT
  by_cases h1 : q < 2 ^ 52
  · have : k = 0 := by by_contra hh; have := hk hh; omega
    subst this
    rw [Nat.zero_mul, Nat.zero_add, if_pos (Nat.div_eq_of_lt h1), Nat.pow_zero, Nat.mul_one]
  · by_cases h2 : q < 2 ^ 53
    · have e1 : (k * 2 ^ 52 + q) / 2 ^ 52 = k + 1 := by omega
      have e2 : 2 ^ 52 + (k * 2 ^ 52 + q) % 2 ^ 52 = q := by omega
      rw [e1, e2, if_neg (by omega), Nat.add_sub_cancel]
    · have e : q = 2 ^ 52 * 2 := by omega
      have e1 : (k * 2 ^ 52 + q) / 2 ^ 52 = k + 2 := by omega
      have e2 : (k * 2 ^ 52 + q) % 2 ^ 52 = 0 := by omega
      rw [e1, e2, if_neg (by omega), Nat.add_zero, show k + 2 - 1 = k + 1 by omega, Nat.pow_succ, e]
      ring

/-- Every magnitude is a multiple of `2^k` or below `2^(52+k)`. -/
theorem magT_grid (t k : Nat) : (∃ n, magT t = n * 2 ^ k) ∨ magT t < 2 ^ 52 * 2 ^ k := by
  have hf : t % 2 ^ 52 < 2 ^ 52 := Nat.mod_lt _ (by decide)
  have hd : 1 ≤ 2 ^ k := Nat.one_le_two_pow
  unfold magT
  by_cases h0 : t / 2 ^ 52 = 0
  · rw [if_pos h0]
    right
    have : t < 2 ^ 52 := by omega
    exact Nat.lt_of_lt_of_le this (Nat.le_mul_of_pos_right _ hd)
  · rw [if_neg h0]
    rcases Nat.lt_or_ge (t / 2 ^ 52 - 1) k with h | h
    · right
      have h1 : (2 ^ 52 + t % 2 ^ 52) * 2 ^ (t / 2 ^ 52 - 1) < 2 ^ 53 * 2 ^ (t / 2 ^ 52 - 1) :=
        Nat.mul_lt_mul_of_pos_right (by omega) (Nat.two_pow_pos _)
      have h2 : 2 ^ (t / 2 ^ 52 - 1 + 1) ≤ 2 ^ k := Nat.pow_le_pow_right (by decide) h
      rw [Nat.pow_succ] at h2
      omega
    · left
      refine ⟨(2 ^ 52 + t % 2 ^ 52) * 2 ^ (t / 2 ^ 52 - 1 - k), ?_⟩
      rw [Nat.mul_assoc _ _ (2 ^ k), ← Nat.pow_add, Nat.sub_add_cancel h]

/-- The pattern is that of the nearest magnitude, ties to even. -/
theorem roundMag_nearest (n d : Nat) (hd : 0 < d) (t : Nat) :
    dist (magT (roundMag n d) * d) n ≤ dist (magT t * d) n ∧
    (dist (magT (roundMag n d) * d) n = dist (magT t * d) n → magT t ≠ magT (roundMag n d) → roundMag n d % 2 = 0) := by
  obtain ⟨k, q, e, hq, h1, h2⟩ := roundMag_parts n d hd
  have hm : magT (roundMag n d) = q * 2 ^ k := by rw [e]; exact magT_parts h1 (fun h => (h2 h).1)
  have hp : roundMag n d % 2 = q % 2 := by rw [e]; omega
  rw [hm, hp]
  have hM : 0 < d * 2 ^ k := Nat.mul_pos hd (Nat.two_pow_pos _)
  have key : ∀ j, dist (q * 2 ^ k * d) n ≤ dist (j * 2 ^ k * d) n ∧
      (dist (q * 2 ^ k * d) n = dist (j * 2 ^ k * d) n → j ≠ q → q % 2 = 0) := by
    intro j
    have := roundQ_near n (d * 2 ^ k) j hM
    rw [← hq] at this
    rwa [Nat.mul_assoc q, Nat.mul_comm (2 ^ k) d, Nat.mul_assoc j, Nat.mul_comm (2 ^ k) d]
  rcases magT_grid t k with ⟨j, hj⟩ | hlt
  · rw [hj]
    refine ⟨(key j).1, fun h h3 => (key j).2 h ?_⟩
    rintro rfl; exact h3 rfl
  · by_cases hk : k = 0
    · subst hk
      have := key (magT t)
      rw [Nat.pow_zero, Nat.mul_one, Nat.mul_one] at this
      rw [Nat.pow_zero, Nat.mul_one]
      exact ⟨this.1, fun h h3 => this.2 h (fun h4 => h3 h4)⟩
    · have hle := (h2 hk).2
      have hlt' : magT t * d < 2 ^ 52 * 2 ^ k * d := Nat.mul_lt_mul_of_pos_right hlt hd
      have := dist_far (key (2 ^ 52)).1 hlt' hle
      exact ⟨Nat.le_of_lt this, fun h => absurd h (Nat.ne_of_lt this)⟩

/-- A representable number is not changed. -/
theorem roundMag_exact (d t : Nat) (hd : 0 < d) : magT (roundMag (magT t * d) d) = magT t := by
  have := (roundMag_nearest (magT t * d) d hd t).1
  have h0 : dist (magT t * d) (magT t * d) = 0 := by unfold dist; omega
  rw [h0, dist_scale] at this
  have h1 : dist (magT (roundMag (magT t * d) d)) (magT t) = 0 := by
    rcases Nat.mul_eq_zero.1 (Nat.le_zero.1 this) with h | h
    · exact h
    · omega
  unfold dist at h1
  omega

/-- Relative error at most 2^-53 for numbers that are not subnormal. -/
theorem roundMag_rel (n d : Nat) (hd : 0 < d) (h : 2 ^ 52 * d ≤ n) : dist (magT (roundMag n d) * d) n * 2 ^ 53 ≤ n := by
  obtain ⟨k, q, e, hq, h1, h2⟩ := roundMag_parts n d hd
  have hm : magT (roundMag n d) = q * 2 ^ k := by rw [e]; exact magT_parts h1 (fun h => (h2 h).1)
  have hM : 0 < d * 2 ^ k := Nat.mul_pos hd (Nat.two_pow_pos _)
  have hh := roundQ_half n (d * 2 ^ k) hM
  rw [← hq] at hh
  have hle : 2 ^ 52 * (d * 2 ^ k) ≤ n := by
    by_cases hk : k = 0
    · subst hk; rw [Nat.pow_zero, Nat.mul_one]; exact h
    · have := (h2 hk).2
      rwa [Nat.mul_assoc, Nat.mul_comm (2 ^ k) d] at this
  rw [hm, Nat.mul_assoc q, Nat.mul_comm (2 ^ k) d]
  generalize d * 2 ^ k = M at *
  generalize dist (q * M) n = D at *
  omega

theorem magT_mono {s t : Nat} (h : s ≤ t) : magT s ≤ magT t := by
  have hs := Nat.div_add_mod s (2 ^ 52)
  have ht := Nat.div_add_mod t (2 ^ 52)
  have fs : s % 2 ^ 52 < 2 ^ 52 := Nat.mod_lt _ (by decide)
  have ft : t % 2 ^ 52 < 2 ^ 52 := Nat.mod_lt _ (by decide)
  unfold magT
  generalize s / 2 ^ 52 = a at *
  generalize t / 2 ^ 52 = b at *
  generalize s % 2 ^ 52 = f at *
  generalize t % 2 ^ 52 = g at *
  have hab : a ≤ b := by omega
  have hb := Nat.two_pow_pos (b - 1)
  split
  · split
    · omega
    · have := Nat.le_mul_of_pos_right (2 ^ 52 + g) hb
      omega
  · rw [if_neg (by omega)]
    rcases Nat.eq_or_lt_of_le hab with e | e
    · subst e
      exact Nat.mul_le_mul_right _ (by omega)
    · have h1 : (2 ^ 52 + f) * 2 ^ (a - 1) ≤ 2 ^ 52 * 2 * 2 ^ (a - 1) := Nat.mul_le_mul_right _ (by omega)
      have h2 : 2 ^ (a - 1 + 1) ≤ 2 ^ (b - 1) := Nat.pow_le_pow_right (by decide) (by omega)
      rw [Nat.pow_succ] at h2
      have h3 : 2 ^ 52 * 2 ^ (b - 1) ≤ (2 ^ 52 + g) * 2 ^ (b - 1) := Nat.mul_le_mul_right _ (by omega)
      have h4 := Nat.mul_le_mul_left (2 ^ 52) h2
      rw [Nat.mul_assoc, Nat.mul_comm 2] at h1
      omega

theorem magT_strict {s t : Nat} (h : s < t) : magT s < magT t := by
  have hs := Nat.div_add_mod s (2 ^ 52)
  have ht := Nat.div_add_mod t (2 ^ 52)
  have fs : s % 2 ^ 52 < 2 ^ 52 := Nat.mod_lt _ (by decide)
  have ft : t % 2 ^ 52 < 2 ^ 52 := Nat.mod_lt _ (by decide)
  unfold magT
  generalize s / 2 ^ 52 = a at *
  generalize t / 2 ^ 52 = b at *
  generalize s % 2 ^ 52 = f at *
  generalize t % 2 ^ 52 = g at *
  have hab : a ≤ b := by omega
  have hb := Nat.two_pow_pos (b - 1)
  split
  · split
    · omega
    · have := Nat.le_mul_of_pos_right (2 ^ 52 + g) hb
      omega
  · rw [if_neg (by omega)]
    rcases Nat.eq_or_lt_of_le hab with e | e
    · subst e
      exact Nat.mul_lt_mul_of_pos_right (by omega) hb
    · have h1 : (2 ^ 52 + f) * 2 ^ (a - 1) < 2 ^ 52 * 2 * 2 ^ (a - 1) :=
        Nat.mul_lt_mul_of_pos_right (by omega) (Nat.two_pow_pos _)
      have h2 : 2 ^ (a - 1 + 1) ≤ 2 ^ (b - 1) := Nat.pow_le_pow_right (by decide) (by omega)
      rw [Nat.pow_succ] at h2
      have h3 : 2 ^ 52 * 2 ^ (b - 1) ≤ (2 ^ 52 + g) * 2 ^ (b - 1) := Nat.mul_le_mul_right _ (by omega)
      have h4 := Nat.mul_le_mul_left (2 ^ 52) h2
      rw [Nat.mul_assoc, Nat.mul_comm 2] at h1
      omega

theorem magT_inj {s t : Nat} (h : magT s = magT t) : s = t := by
  rcases Nat.lt_trichotomy s t with hl | he | hg
  · have := magT_strict hl; omega
  · exact he
  · have := magT_strict hg; omega

/-- The largest finite magnitude, and the one of the pattern of infinity. -/
theorem magT_inf : magT (2047 * 2 ^ 52) = 2 ^ 2098 := by
  unfold magT
  rw [if_neg (by decide), show 2047 * 2 ^ 52 / 2 ^ 52 - 1 = 2046 by decide, show 2 ^ 52 + 2047 * 2 ^ 52 % 2 ^ 52 = 2 ^ 52 by decide,
    ← Nat.pow_add]

/-- No overflow below the largest finite number. -/
theorem roundMag_finite {n d : Nat} (hd : 0 < d) (h : n ≤ magT (2047 * 2 ^ 52 - 1) * d) : roundMag n d < 2047 * 2 ^ 52 := by
  by_contra hge
  have h1 := magT_mono (Nat.le_of_not_lt hge)
  have h2 := (roundMag_nearest n d hd (2047 * 2 ^ 52 - 1)).1
  have h3 : magT (2047 * 2 ^ 52 - 1) < magT (2047 * 2 ^ 52) := magT_strict (by decide)
  have h4 := Nat.mul_lt_mul_of_pos_right (Nat.lt_of_lt_of_le h3 h1) hd
  unfold dist at h2
  omega

/-- Exact on representable numbers, as patterns. -/
theorem roundMag_magT (d t : Nat) (hd : 0 < d) : roundMag (magT t * d) d = t := magT_inj (roundMag_exact d t hd)

end Speed
