import Verif.PropsValues
import Mathlib.Data.Nat.ModEq
import Mathlib.Data.Nat.Bitwise
/-
When FNV-1a hashes, or their low bits, of two names can agree: never if the names differ in one byte; the full hash and its low
22 bits never if they differ in two neighbouring bytes.
-/
namespace Speed

/-- One round on natural numbers, as in `fnvSpec`. -/
def fnvStep (h c : Nat) : Nat := ((h ^^^ c) * 16777619) % 2 ^ 32

theorem fnvSpec_eq (s : Str) : fnvSpec s = s.foldl (fun h c => fnvStep h c.toNat) 2166136261 := rfl

theorem fnvStep_mod {k : Nat} (hk : k ≤ 32) (h c : Nat) : fnvStep h c % 2 ^ k = ((h ^^^ c) * 16777619) % 2 ^ k := by
  unfold fnvStep
  exact Nat.mod_mod_of_dvd _ (Nat.pow_dvd_pow 2 hk)

/-- The prime is odd, so multiplying by it loses nothing. -/
theorem fnvStep_xor {k : Nat} (hk : k ≤ 32) {h h' c c' : Nat} (e : fnvStep h c % 2 ^ k = fnvStep h' c' % 2 ^ k) :
    (h ^^^ c) % 2 ^ k = (h' ^^^ c') % 2 ^ k := by
  rw [fnvStep_mod hk, fnvStep_mod hk] at e
  exact Nat.ModEq.cancel_right_of_coprime (m := 2 ^ k) (c := 16777619)
    (Nat.Coprime.pow_left k (by decide)) e

theorem xor_cancel_right {a b c : Nat} (h : a ^^^ c = b ^^^ c) : a = b := by
  have := congrArg (· ^^^ c) h
  simpa [Nat.xor_assoc] using this

theorem xor_cancel_left {a b c : Nat} (h : a ^^^ b = a ^^^ c) : b = c := by
  rw [Nat.xor_comm a b, Nat.xor_comm a c] at h
  exact xor_cancel_right h

theorem fnvStep_inj {k : Nat} (hk : k ≤ 32) {h h' c : Nat} (e : fnvStep h c % 2 ^ k = fnvStep h' c % 2 ^ k) :
    h % 2 ^ k = h' % 2 ^ k := by
  have := fnvStep_xor hk e
  rw [Nat.xor_mod_two_pow, Nat.xor_mod_two_pow] at this
  exact xor_cancel_right this

theorem fold_inj {k : Nat} (hk : k ≤ 32) (s : Str) {h h' : Nat}
    (e : s.foldl (fun h c => fnvStep h c.toNat) h % 2 ^ k = s.foldl (fun h c => fnvStep h c.toNat) h' % 2 ^ k) :
    h % 2 ^ k = h' % 2 ^ k := by
  induction s generalizing h h' with
  | nil => exact e
  | cons c s ih => exact fnvStep_inj hk (ih e)

theorem fnvStep_byte {k : Nat} (h8 : 8 ≤ k) (hk : k ≤ 32) {h c c' : Nat} (hc : c < 256) (hc' : c' < 256)
    (e : fnvStep h c % 2 ^ k = fnvStep h c' % 2 ^ k) : c = c' := by
  have := fnvStep_xor hk e
  have h2 : 2 ^ 8 ≤ 2 ^ k := Nat.pow_le_pow_right (by decide) h8
  rw [Nat.xor_mod_two_pow, Nat.xor_mod_two_pow, Nat.mod_eq_of_lt (a := c) (by omega),
    Nat.mod_eq_of_lt (a := c') (by omega)] at this
  exact xor_cancel_left this

/-- Names that differ in one byte only. -/
theorem fnv_one {k : Nat} (h8 : 8 ≤ k) (hk : k ≤ 32) (p s : Str) {a b : Byte} (hab : a ≠ b) :
    fnvSpec (p ++ a :: s) % 2 ^ k ≠ fnvSpec (p ++ b :: s) % 2 ^ k := by
  intro e
  rw [fnvSpec_eq, fnvSpec_eq, List.foldl_append, List.foldl_append, List.foldl_cons, List.foldl_cons] at e
  have := fnvStep_byte h8 hk a.isLt b.isLt (fold_inj hk s e)
  exact hab (BitVec.eq_of_toNat_eq this)

theorem xor_byte_div {x c : Nat} (hc : c < 256) : (x ^^^ c) / 256 = x / 256 := by
  have := Nat.xor_div_two_pow (a := x) (b := c) (n := 8)
  have e : (256 : Nat) = 2 ^ 8 := rfl
  rw [e, this, Nat.div_eq_of_lt (a := c) (by omega), Nat.xor_zero]

theorem xor_byte_mod {x c : Nat} (hc : c < 256) : (x ^^^ c) % 256 = x % 256 ^^^ c := by
  have e : (256 : Nat) = 2 ^ 8 := rfl
  rw [e, Nat.xor_mod_two_pow, Nat.mod_eq_of_lt (a := c) (by omega)]

theorem round_apart22_aux {x u u' m m' f g : Nat} (h : u < u') (hu' : u' < 256)
    (h1 : 4194304 * f + m = x + u * 16777619) (h2 : 4194304 * g + m' = x + u' * 16777619)
    (e : m / 256 = m' / 256) : False := by
  obtain ⟨d, hd⟩ : ∃ d : Int, d = u' - u := ⟨_, rfl⟩
  obtain ⟨q, hq⟩ : ∃ q : Int, q = g - f - 4 * d := ⟨_, rfl⟩
  have h3 : (403 : Int) * d - 4194304 * q = m' - m := by omega
  have h4 : -256 < (m' : Int) - m ∧ (m' : Int) - m < 256 := by omega
  have h5 : 1 ≤ d ∧ d ≤ 255 := by omega
  clear h1 h2 hq hd e
  have h6 : q ≤ 0 := by omega
  have h7 : 1 ≤ q := by omega
  omega

theorem round_apart22 {x u u' : Nat} (h : u < u') (hu' : u' < 256)
    (e : (x + u * 16777619) % 2 ^ 22 / 256 = (x + u' * 16777619) % 2 ^ 22 / 256) : False :=
  round_apart22_aux h hu' (Nat.div_add_mod _ (2 ^ 22)) (Nat.div_add_mod _ (2 ^ 22)) e

theorem round_apart32_aux {x u u' m m' f g : Nat} (h : u < u') (hu' : u' < 256)
    (h1 : 4294967296 * f + m = x + u * 16777619) (h2 : 4294967296 * g + m' = x + u' * 16777619)
    (e : m / 256 = m' / 256) : False := by
  obtain ⟨d, hd⟩ : ∃ d : Int, d = u' - u := ⟨_, rfl⟩
  obtain ⟨t, ht⟩ : ∃ t : Int, t = d - 256 * (g - f) := ⟨_, rfl⟩
  have h3 : (16777216 : Int) * t + 403 * d = m' - m := by omega
  have h4 : -256 < (m' : Int) - m ∧ (m' : Int) - m < 256 := by omega
  have h5 : 1 ≤ d ∧ d ≤ 255 := by omega
  clear h1 h2 ht hd e
  have h6 : t ≤ -1 := by omega
  have h7 : 0 ≤ t := by omega
  omega

theorem round_apart32 {x u u' : Nat} (h : u < u') (hu' : u' < 256)
    (e : (x + u * 16777619) % 2 ^ 32 / 256 = (x + u' * 16777619) % 2 ^ 32 / 256) : False :=
  round_apart32_aux h hu' (Nat.div_add_mod _ (2 ^ 32)) (Nat.div_add_mod _ (2 ^ 32)) e

/-- After a round on two different bytes the states differ above the lowest byte. -/
theorem round_apart {k : Nat} (hk : k = 22 ∨ k = 32) {x u u' : Nat} (hu : u < 256) (hu' : u' < 256)
    (e : (x + u * 16777619) % 2 ^ k / 256 = (x + u' * 16777619) % 2 ^ k / 256) : u = u' := by
  rcases Nat.lt_trichotomy u u' with h | h | h
  · rcases hk with rfl | rfl
    · exact (round_apart22 h hu' e).elim
    · exact (round_apart32 h hu' e).elim
  · exact h
  · rcases hk with rfl | rfl
    · exact (round_apart22 h hu e.symm).elim
    · exact (round_apart32 h hu e.symm).elim

/-- The bytes can be read off the state two rounds later. -/
theorem fnvStep_two {k : Nat} (hk : k = 22 ∨ k = 32) {h a b a' b' : Nat} (ha : a < 256) (hb : b < 256) (ha' : a' < 256)
    (hb' : b' < 256) (e : fnvStep (fnvStep h a) b % 2 ^ k = fnvStep (fnvStep h a') b' % 2 ^ k) : a = a' ∧ b = b' := by
  have hk32 : k ≤ 32 := by omega
  have h8 : 8 ≤ k := by omega
  have h256 : (256 : Nat) ∣ 2 ^ k := by
    have : (256 : Nat) = 2 ^ 8 := rfl
    rw [this]
    exact Nat.pow_dvd_pow 2 h8
  have e1 := fnvStep_xor hk32 e
  have e2 : fnvStep h a % 2 ^ k / 256 = fnvStep h a' % 2 ^ k / 256 := by
    have h1 : ∀ {x c : Nat}, c < 256 → (x ^^^ c) % 2 ^ k / 256 = x % 2 ^ k / 256 := by
      intro x c hc
      have hlt : c < 2 ^ k := Nat.lt_of_lt_of_le hc (Nat.le_of_dvd (Nat.two_pow_pos k) h256)
      rw [Nat.xor_mod_two_pow, Nat.mod_eq_of_lt hlt]
      exact xor_byte_div hc
    exact (h1 hb).symm.trans ((congrArg (· / 256) e1).trans (h1 hb'))
  have e3 : (h ^^^ a) % 256 = (h ^^^ a') % 256 := by
    rw [fnvStep_mod hk32, fnvStep_mod hk32] at e2
    have s1 : ∀ {c : Nat}, c < 256 → h ^^^ c = 256 * (h / 256) + (h ^^^ c) % 256 := by
      intro c hc
      have := Nat.div_add_mod (h ^^^ c) 256
      rw [xor_byte_div hc] at this
      exact this.symm
    rw [s1 ha, s1 ha', Nat.add_mul, Nat.add_mul] at e2
    exact round_apart hk (Nat.mod_lt _ (by decide)) (Nat.mod_lt _ (by decide)) e2
  have e4 : a = a' := by
    rw [xor_byte_mod ha, xor_byte_mod ha'] at e3
    exact xor_cancel_left e3
  subst e4
  exact ⟨rfl, fnvStep_byte h8 hk32 hb hb' e⟩

/-- Names that differ in two neighbouring bytes only. -/
theorem fnv_two {k : Nat} (hk : k = 22 ∨ k = 32) (p s : Str) {a b a' b' : Byte} (hab : ¬ (a = a' ∧ b = b')) :
    fnvSpec (p ++ a :: b :: s) % 2 ^ k ≠ fnvSpec (p ++ a' :: b' :: s) % 2 ^ k := by
  intro e
  rw [fnvSpec_eq, fnvSpec_eq, List.foldl_append, List.foldl_append, List.foldl_cons, List.foldl_cons, List.foldl_cons,
    List.foldl_cons] at e
  have := fnvStep_two hk a.isLt b.isLt a'.isLt b'.isLt (fold_inj (by omega) s e)
  exact hab ⟨BitVec.eq_of_toNat_eq this.1, BitVec.eq_of_toNat_eq this.2⟩

theorem fnvSpec_lt (s : Str) : fnvSpec s < 2 ^ 32 := by
  rw [← fnv1a_eq]
  exact (fnv1a s).isLt

end Speed
