import Verif.Float32
import Verif.Sample
import Mathlib.Data.Finset.Card
/-
Properties C07, C17, C18: value conversion and identifiers.
-/
namespace Speed

/-! ### C07 -/

/-- The number an integer value denotes. -/
def num : GoVal → Option Int
  | .int v => some v.toInt
  | .int32 v => some v.toInt
  | .int64 v => some v.toInt
  | .uint v => some v.toNat
  | .uint32 v => some v.toNat
  | .uint64 v => some v.toNat
  | _ => none

/-- `y` is the float32 nearest to the finite float64 `x`: finite, with the sign of `x`, no other finite float32 is
nearer, and if another one is as near then the last bit of `y` is 0. -/
def NearestEven (x : BitVec 64) (y : BitVec 32) : Prop :=
  finite32 y ∧ sign32 y = sign64 x ∧
  ∀ z, finite32 z → (val32 y - val64 x).natAbs ≤ (val32 z - val64 x).natAbs ∧
    ((val32 y - val64 x).natAbs = (val32 z - val64 x).natAbs → val32 z ≠ val32 y → y.toNat % 2 = 0)

/-- math.MaxFloat32 = (2^24 - 1) * 2^104, in units of 2^-1074. -/
theorem maxFloat32 : mag64 0x47EFFFFFE0000000 = (2 ^ 24 - 1) * 2 ^ 29 * 2 ^ 1149 := by
  have h1 : exp64 0x47EFFFFFE0000000 = 1150 := by decide
  have h2 : 2 ^ 52 + frac64 0x47EFFFFFE0000000 = (2 ^ 24 - 1) * 2 ^ 29 := by decide
  unfold mag64
  rw [h1, h2, if_neg (by decide)]

theorem toInt_setWidth32 {v : BitVec 64} (h1 : -(2 ^ 31) ≤ v.toInt) (h2 : v.toInt ≤ 2 ^ 31 - 1) :
    (v.setWidth 32).toInt = v.toInt := by
  rw [BitVec.toInt_setWidth, Int.bmod_def]
  have : (v.toInt : Int) = v.toInt := rfl
  rw [BitVec.toInt_eq_toNat_cond] at *
  have := v.isLt
  split at h1 <;> simp_all <;> omega

theorem toNat_of_nonneg {v : BitVec 64} (h : 0 ≤ v.toInt) : (v.toNat : Int) = v.toInt := by
  rw [BitVec.toInt_eq_toNat_cond] at *
  have := v.isLt
  split at h <;> simp_all <;> omega

theorem num_resolve {t : MetricType} {v : GoVal} (h : isCompatible t v = true) {n : Int} (hn : num v = some n) :
    num (resolve t v) = some n := by
  cases v with
  | int v =>
    obtain rfl := Option.some.inj hn
    simp only [isCompatible, isCompatibleInt] at h
    by_cases h0 : t = Int32Type
    · subst h0
      rw [if_pos rfl, Bool.and_eq_true, decide_eq_true_eq, decide_eq_true_eq] at h
      exact congrArg some (toInt_setWidth32 h.1 h.2)
    by_cases h1 : t = Int64Type
    · subst h1; rfl
    by_cases h2 : t = Uint32Type
    · subst h2
      rw [if_neg (by decide), if_neg (by decide), if_pos rfl, Bool.and_eq_true, decide_eq_true_eq,
        decide_eq_true_eq] at h
      have := toNat_of_nonneg h.1
      refine congrArg some ?_
      rw [BitVec.toNat_setWidth, Nat.mod_eq_of_lt (by omega), this]
    by_cases h3 : t = Uint64Type
    · subst h3
      rw [if_neg (by decide), if_neg (by decide), if_neg (by decide), if_pos rfl, decide_eq_true_eq] at h
      exact congrArg some (toNat_of_nonneg h)
    rw [if_neg h0, if_neg h1, if_neg h2, if_neg h3] at h; cases h
  | uint v =>
    obtain rfl := Option.some.inj hn
    simp only [isCompatible, isCompatibleUint] at h
    by_cases h3 : t = Uint64Type
    · subst h3; rfl
    · by_cases h4 : v.toNat ≤ 2 ^ 32 - 1
      · unfold resolve resolveInt
        dsimp only
        rw [if_neg h3]
        refine congrArg some (congrArg Int.ofNat ?_)
        rw [BitVec.toNat_setWidth, Nat.mod_eq_of_lt (by omega)]
      · rw [if_neg h4] at h; simp only [h3, decide_false] at h; cases h
  | int32 v => exact hn
  | int64 v => exact hn
  | uint32 v => exact hn
  | uint64 v => exact hn
  | float32 v => cases hn
  | float64 v => cases hn
  | str s => cases hn
  | other => cases hn

/-- **C07.** An accepted value is converted to the Go type of the metric: integers keep their number, strings and
float32 are unchanged, a float64 stays as it is in a Double metric, and in a Float metric it is within
±math.MaxFloat32 and becomes the nearest float32. -/
theorem C07_stored {t : MetricType} {v : GoVal} (h : isCompatible t v = true) :
    Typed t (resolve t v) ∧
    (∀ n, num v = some n → num (resolve t v) = some n) ∧
    (∀ s, v = .str s → resolve t v = .str s) ∧
    (∀ x, v = .float32 x → resolve t v = .float32 x) ∧
    (∀ x, v = .float64 x → t = DoubleType ∧ resolve t v = .float64 x ∨
      t = FloatType ∧ finite64 x ∧ mag64 x ≤ (2 ^ 24 - 1) * 2 ^ 29 * 2 ^ 1149 ∧
        ∃ y, resolve t v = .float32 y ∧ NearestEven x y) := by
  refine ⟨resolve_typed h, fun n => num_resolve h, ?_, ?_, ?_⟩
  · rintro s rfl; rfl
  · rintro x rfl; rfl
  · rintro x rfl
    unfold isCompatible isCompatibleFloat at h
    by_cases hr : inFloat32Range x = true
    · dsimp only at h
      rw [if_pos hr, Bool.or_eq_true, decide_eq_true_eq, decide_eq_true_eq] at h
      rcases h with rfl | rfl
      · right
        obtain ⟨h1, h2⟩ := (inFloat32Range_iff x).1 hr
        rw [maxFloat32] at h2
        refine ⟨rfl, h1, h2, cvt32 x, rfl, ?_⟩
        obtain ⟨g1, g2, g3⟩ := cvt32_nearest hr
        exact ⟨g1, g2, fun z _ => g3 z⟩
      · exact .inl ⟨rfl, rfl⟩
    · dsimp only at h
      rw [if_neg hr, decide_eq_true_eq] at h
      subst h
      exact .inl ⟨rfl, rfl⟩

/-- A uint keeps its number in a Uint64 metric; 0.1 becomes the nearest float32. -/
example : num (resolve Uint64Type (.uint 0xFFFFFFFFFFFFFFFF)) = some (2 ^ 64 - 1) ∧
    resolve FloatType (.float64 0x3FB999999999999A) = .float32 0x3DCCCCCD ∧
    resolve DoubleType (.float64 0x3FB999999999999A) = .float64 0x3FB999999999999A := by decide

/-- An `int` is accepted exactly if the metric's integer type can hold the number; a `uint` exactly if an unsigned
type can. -/
theorem C07_accepts_int (t : MetricType) (v : BitVec 64) :
    isCompatible t (.int v) = true ↔ ∃ w, Typed t w ∧ num w = some v.toInt := by
  constructor
  · intro h
    exact ⟨_, resolve_typed h, num_resolve h rfl⟩
  · rintro ⟨w, hw, hn⟩
    rcases hw with ⟨rfl, x, rfl⟩ | ⟨rfl, x, rfl⟩ | ⟨rfl, x, rfl⟩ | ⟨rfl, x, rfl⟩ | ⟨rfl, x, rfl⟩ | ⟨rfl, x, rfl⟩ | ⟨rfl, x, rfl⟩
    · have := Option.some.inj hn
      have h1 := BitVec.le_toInt x
      have h2 := @BitVec.toInt_lt 32 x
      simp only [isCompatible, isCompatibleInt]
      rw [if_pos trivial, Bool.and_eq_true, decide_eq_true_eq, decide_eq_true_eq]
      omega
    · have := Option.some.inj hn
      have h1 := x.isLt
      simp only [isCompatible, isCompatibleInt]
      rw [if_neg (by decide), if_neg (by decide), if_pos trivial, Bool.and_eq_true, decide_eq_true_eq, decide_eq_true_eq]
      omega
    · rfl
    · have := Option.some.inj hn
      simp only [isCompatible, isCompatibleInt]
      rw [if_neg (by decide), if_neg (by decide), if_neg (by decide), if_pos trivial, decide_eq_true_eq]
      omega
    all_goals cases hn

/-- -1 is accepted by the signed types only. -/
example : isCompatible Int32Type (.int (-1)) = true ∧ isCompatible Int64Type (.int (-1)) = true ∧
    isCompatible Uint32Type (.int (-1)) = false ∧ isCompatible Uint64Type (.int (-1)) = false ∧
    isCompatible DoubleType (.int (-1)) = false := by decide

theorem C07_accepts_uint (t : MetricType) (v : BitVec 64) :
    isCompatible t (.uint v) = true ↔
      (t = Uint32Type ∨ t = Uint64Type) ∧ ∃ w, Typed t w ∧ num w = some (v.toNat : Int) := by
  constructor
  · intro h
    refine ⟨?_, _, resolve_typed h, num_resolve h rfl⟩
    simp only [isCompatible, isCompatibleUint] at h
    split at h
    · simpa using h
    · simp only [decide_eq_true_eq] at h; exact .inr h
  · rintro ⟨ht, w, hw, hn⟩
    simp only [isCompatible, isCompatibleUint]
    rcases ht with rfl | rfl
    · rcases hw with ⟨h, _⟩ | ⟨_, x, rfl⟩ | ⟨h, _⟩ | ⟨h, _⟩ | ⟨h, _⟩ | ⟨h, _⟩ | ⟨h, _⟩
      · exact absurd h (by decide)
      · have := Option.some.inj hn
        have := x.isLt
        rw [if_pos (by omega)]; rfl
      all_goals exact absurd h (by decide)
    · split <;> rfl

/-- 40000 fits an Int32 metric, 2^31 does not; 0.1 becomes the float32 0x3DCCCCCD; 1e300 is refused by Float. -/
example : resolve Int32Type (.int 40000) = .int32 40000 ∧ isCompatible Int32Type (.int 40000) = true ∧
    isCompatible Int32Type (.int 0x80000000) = false ∧ isCompatible Uint32Type (.int 0x80000000) = true ∧
    isCompatible FloatType (.float64 0x3FB999999999999A) = true ∧
    resolve FloatType (.float64 0x3FB999999999999A) = .float32 0x3DCCCCCD ∧
    isCompatible FloatType (.float64 0x7E37E43C8800759C) = false := by decide

/-! ### C17 -/

/-- FNV-1a on natural numbers, as its authors define it. -/
def fnvSpec (s : Str) : Nat := s.foldl (fun h c => ((h ^^^ c.toNat) * 16777619) % 2 ^ 32) 2166136261

theorem fnv1a_eq (s : Str) : (fnv1a s).toNat = fnvSpec s := by
  unfold fnv1a fnvSpec
  have : ∀ (l : Str) (a : BitVec 32) (b : Nat), a.toNat = b →
      (l.foldl fnvRound a).toNat = l.foldl (fun h c => ((h ^^^ c.toNat) * 16777619) % 2 ^ 32) b := by
    intro l
    induction l with
    | nil => intro a b h; exact h
    | cons c l ih =>
      intro a b h
      rw [List.foldl_cons, List.foldl_cons]
      apply ih
      unfold fnvRound
      rw [BitVec.toNat_mul, BitVec.toNat_xor, BitVec.toNat_setWidth, h]
      have hc : c.toNat % 2 ^ 32 = c.toNat := Nat.mod_eq_of_lt (by have := c.isLt; omega)
      rw [hc]
      rfl
  exact this s _ _ rfl

theorem hash_spec (s : Str) (b : Nat) :
    (hash s b).toNat = if b = 0 then fnvSpec s else fnvSpec s % 2 ^ b := by
  unfold hash
  split
  · exact fnv1a_eq s
  · by_cases hb : b < 32
    · rw [mask_mod _ _ hb, fnv1a_eq]
    · have h1 : (1 : BitVec 32) <<< b = 0 := BitVec.shiftLeft_eq_zero (by omega)
      have h2 : fnv1a s &&& ((0 : BitVec 32) - 1) = fnv1a s := by
        rw [show (0 : BitVec 32) - 1 = BitVec.allOnes 32 by decide, BitVec.and_allOnes]
      have h3 := (fnv1a s).isLt
      have h4 : 2 ^ 32 ≤ 2 ^ b := Nat.pow_le_pow_right (by decide) (by omega)
      rw [h1, h2, fnv1a_eq] at *
      rw [Nat.mod_eq_of_lt (by omega)]

/-- **C17.** The identifier function: FNV-1a for width 0, its low `b` bits for width `b`. -/
theorem C17_hash (s : Str) (b : Nat) :
    (b = 0 → (hash s b).toNat = fnvSpec s) ∧ (b ≠ 0 → (hash s b).toNat = fnvSpec s % 2 ^ b ∧ (hash s b).toNat < 2 ^ b) := by
  have h := hash_spec s b
  refine ⟨fun h0 => by rw [h, if_pos h0], fun h0 => ?_⟩
  rw [if_neg h0] at h
  exact ⟨h, by rw [h]; exact Nat.mod_lt _ (Nat.two_pow_pos b)⟩

/-- "a": all bits, and the low ten. -/
example : (hash [0x61] 0).toNat = 0xe40c292c ∧ (hash [0x61] 10).toNat = 0xe40c292c % 1024 := by decide

/-- Identifiers in any registry a program can have. -/
theorem C17_ids {r : Reg} (hb : Built r) :
    (∀ m ∈ r.metrics, m.desc.id.toNat = fnvSpec m.desc.name % 2 ^ 10 ∧ m.desc.id.toNat < 2 ^ 10) ∧
    (∀ d ∈ r.indoms, d.id.toNat = fnvSpec d.name % 2 ^ 22 ∧ d.id.toNat < 2 ^ 22) ∧
    (∀ d ∈ r.indoms, ∀ i ∈ d.insts, i.id.toNat = fnvSpec i.name ∧ i.id.toNat < 2 ^ 32) := by
  have hi := hb.inv
  refine ⟨fun m hm => ?_, fun d hd => ?_, fun d hd i hi' => ?_⟩
  · rw [(hi.metrics m hm).id]; exact (C17_hash _ _).2 (by decide)
  · rw [(hi.indoms d hd).id]; exact (C17_hash _ _).2 (by decide)
  · refine ⟨?_, i.id.isLt⟩
    rw [(hi.indoms d hd).ids i hi']; exact (C17_hash _ _).1 rfl

/-- Published test vectors of FNV-1a: "", "a", "foobar". -/
example : fnvSpec [] = 0x811c9dc5 ∧ fnvSpec [0x61] = 0xe40c292c ∧
    fnvSpec [0x66, 0x6f, 0x6f, 0x62, 0x61, 0x72] = 0xbf9cf968 := by decide
example : (hash [0x61] 10).toNat = 0x12c ∧ (hash [0x61] 0).toNat = 0xe40c292c := by decide
example : ∀ m ∈ sampleReg.metrics, m.desc.id.toNat < 2 ^ 10 := fun m hm => ((C17_ids sampleReg_built).1 m hm).2

/-! ### C18 -/

/-- "ib": its low ten hash bits are those of "c". -/
def sIb : Str := [0x69, 0x62]
def clashOps : List HOp := opsOf (newPCPCounter 1 0 sC []) ++ opsOf (newPCPCounter 2 0 sIb [])
def clashReg : Reg := runHist (fun _ => none) Reg.empty clashOps

theorem clashReg_built : Built clashReg := by
  refine ⟨_, clashOps, ?_, rfl⟩
  intro op hop
  rcases List.mem_append.1 hop with h | h
  · exact opsOf_made (fun _ h => .counter h) op h
  · exact opsOf_made (fun _ h => .counter h) op h

/-- **C18 is false.** Two counters named "c" and "ib" in one registry have the same metric id (82). -/
theorem C18_refuted : ∃ r, Built r ∧ r.Publishable ∧
    ∃ m1 ∈ r.metrics, ∃ m2 ∈ r.metrics, m1.desc.name ≠ m2.desc.name ∧ m1.desc.id = m2.desc.id := by
  refine ⟨clashReg, clashReg_built, publishable_of (by decide), ?_⟩
  decide

/-- It fails in every registry with more than 1024 metrics. -/
theorem C18_refuted_large {r : Reg} (hb : Built r) (hl : 1024 < r.metrics.length) :
    ∃ m1 ∈ r.metrics, ∃ m2 ∈ r.metrics, m1.desc.name ≠ m2.desc.name ∧ m1.desc.id = m2.desc.id := by
  obtain ⟨hids, _⟩ := C17_ids hb
  let f : Fin r.metrics.length → Nat := fun i => r.metrics[i].desc.id.toNat
  obtain ⟨i, _, j, _, hne, he⟩ := Finset.exists_ne_map_eq_of_card_lt_of_maps_to
    (s := (Finset.univ : Finset (Fin r.metrics.length))) (t := Finset.range 1024) (f := f)
    (by simpa using hl) (by
      intro i _
      simp only [Finset.coe_range, Set.mem_Iio]
      exact (hids _ (List.getElem_mem i.isLt)).2)
  refine ⟨_, List.getElem_mem i.isLt, _, List.getElem_mem j.isLt, ?_, BitVec.eq_of_toNat_eq he⟩
  intro hn
  apply hne
  have hnd := hb.inv.unique.2
  have h1 : (r.metrics.map (fun m => m.desc.name))[i.1]'(by simp) = (r.metrics.map (fun m => m.desc.name))[j.1]'(by simp) := by
    simpa using hn
  exact Fin.ext ((List.Nodup.getElem_inj_iff hnd).1 h1)

/-- What remains: ids of metrics in one registry are equal exactly if the names' hashes agree in their low ten bits.
Missing from C18: that different names never agree there. -/
theorem C18_ids_partial {r : Reg} (hb : Built r) {m1 m2 : Metric} (h1 : m1 ∈ r.metrics) (h2 : m2 ∈ r.metrics) :
    m1.desc.id = m2.desc.id ↔ fnvSpec m1.desc.name % 1024 = fnvSpec m2.desc.name % 1024 := by
  have e1 := ((C17_ids hb).1 m1 h1).1
  have e2 := ((C17_ids hb).1 m2 h2).1
  constructor
  · intro h; rw [h] at e1; exact e1.symm.trans e2
  · intro h; exact BitVec.eq_of_toNat_eq (e1.trans (h.trans e2.symm))

example : ∀ m ∈ sampleReg.metrics, ∀ m' ∈ sampleReg.metrics, m.desc.name ≠ m'.desc.name → m.desc.id ≠ m'.desc.id := by
  decide

end Speed
