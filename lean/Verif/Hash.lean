import Verif.Bytes
/-
Model of `hash` (speed.go:39-57): FNV-1a of `hash/fnv` (32 bit), masked to `b` bits.
-/
namespace Speed

/-- One round of FNV-1a (`hash/fnv`, `sum32a.Write`): xor the byte, multiply by the prime. -/
def fnvRound (h : BitVec 32) (c : Byte) : BitVec 32 := (h ^^^ c.setWidth 32) * 16777619

/-- `fnv.New32a`, `Write`, `Sum32` (speed.go:44-51). -/
def fnv1a (s : Str) : BitVec 32 := s.foldl fnvRound 2166136261

/-- `hash(s, b)` (speed.go:43-57). Shifts by `b ≥ 32` give 0 in Go as in `BitVec`. -/
def hash (s : Str) (b : Nat) : BitVec 32 :=
  if b = 0 then fnv1a s else fnv1a s &&& (((1 : BitVec 32) <<< b) - 1)

/-- instance_domain.go:22 -/ abbrev PCPInstanceDomainBitLength : Nat := 22
/-- metrics.go:462 -/ abbrev PCPMetricItemBitLength : Nat := 10
/-- client.go:88 -/ abbrev PCPClusterIDBitLength : Nat := 12

theorem mask_mod (x : BitVec 32) (b : Nat) (hb : b < 32) :
    (x &&& (((1 : BitVec 32) <<< b) - 1)).toNat = x.toNat % 2 ^ b := by
  have h1 : (((1 : BitVec 32) <<< b) - 1).toNat = 2 ^ b - 1 := by
    have h2 : ((1 : BitVec 32) <<< b).toNat = 2 ^ b := by
      rw [BitVec.toNat_shiftLeft]
      simp only [BitVec.toNat_ofNat, Nat.shiftLeft_eq]
      rw [Nat.mod_eq_of_lt]
      · simp
      · simp; exact Nat.pow_lt_pow_right (by decide) hb
    rw [BitVec.toNat_sub, h2]
    have : 2 ^ b ≤ 2 ^ 31 := Nat.pow_le_pow_right (by decide) (by omega)
    have : 0 < 2 ^ b := Nat.two_pow_pos b
    simp; omega
  rw [BitVec.toNat_and, h1, Nat.and_two_pow_sub_one_eq_mod]

theorem hash_lt (s : Str) (b : Nat) (h0 : b ≠ 0) (hb : b < 32) : (hash s b).toNat < 2 ^ b := by
  unfold hash
  rw [if_neg h0, mask_mod _ _ hb]
  exact Nat.mod_lt _ (Nat.two_pow_pos b)

end Speed
