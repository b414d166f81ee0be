import Verif.Int32
import Verif.PropsMust
import Verif.DumpFile
/-
Where `int` has 32 bits (C88).
-/
namespace Speed

open Dump

/-! ### Values -/

/-- The number that an integer value stands for, where `int` has 32 bits. -/
def num32 : GoVal32 → Option Int
  | .int v => some v.toInt
  | .int32 v => some v.toInt
  | .int64 v => some v.toInt
  | .uint v => some v.toNat
  | .uint32 v => some v.toNat
  | .uint64 v => some v.toNat
  | _ => none

theorem num_widen (v : GoVal32) : num v.widen = num32 v := by
  cases v <;> simp [GoVal32.widen, num, num32]
  · exact BitVec.toInt_signExtend_of_le (by decide)
  · rename_i v
    have := v.isLt
    omega

/-- **C88, values.** `IsCompatible` and `resolve` treat a value where `int` has 32 bits as they treat the same number where it
has 64 bits. -/
theorem C88_values (t : MetricType) (v : GoVal32) :
    isCompatible32 t v = isCompatible t v.widen ∧ resolve32 t v = resolve t v.widen ∧ num v.widen = num32 v := by
  refine ⟨?_, ?_, num_widen v⟩
  · cases v <;> simp only [isCompatible32, isCompatible, GoVal32.widen]
    · rfl
    · rename_i v
      unfold isCompatibleUint32 isCompatibleUint
      have h : (v.setWidth 64).toNat = v.toNat := by
        rw [BitVec.toNat_setWidth]; have := v.isLt; omega
      rw [h]
  · cases v <;> simp only [resolve32, resolve, resolveInt, resolveFloat, GoVal32.widen]
    · rename_i v
      have h : (v.signExtend 64).setWidth 32 = v := by
        ext i hi
        simp [BitVec.getLsbD_signExtend, hi]
        omega
      rw [h]
      split <;> try rfl
      split <;> try rfl
      split <;> rfl
    · rename_i v
      have h : (v.setWidth 64).setWidth 32 = v := by
        ext i hi
        simp
      rw [h]
      split <;> rfl

/-- **C88, numbers.** An `int` or `uint` is accepted exactly if the type of the metric can hold the number (a `uint` by
unsigned types only), and then that number is stored. -/
theorem C88_numbers (t : MetricType) (x : BitVec 32) :
    (isCompatible32 t (.int x) = true ↔ ∃ w, Typed t w ∧ num w = some x.toInt) ∧
    (isCompatible32 t (.uint x) = true ↔ (t = Uint32Type ∨ t = Uint64Type)) ∧
    ∀ v n, isCompatible32 t v = true → num32 v = some n → Typed t (resolve32 t v) ∧ num (resolve32 t v) = some n := by
  refine ⟨?_, ?_, fun v n hc hn => ?_⟩
  · rw [(C88_values t _).1]
    have h := C07_accepts_int t (x.signExtend 64)
    rw [BitVec.toInt_signExtend_of_le (by decide)] at h
    exact h
  · have hx : x.toNat ≤ 2 ^ 32 - 1 := by have := x.isLt; omega
    show isCompatibleUint32 t x = true ↔ _
    unfold isCompatibleUint32
    rw [if_pos hx]
    simp
  · obtain ⟨h1, h2, h3⟩ := C88_values t v
    rw [h1] at hc
    obtain ⟨a, b, _⟩ := C07_stored hc
    rw [h2]
    exact ⟨a, b n (h3.trans hn)⟩

example : isCompatible32 Uint32Type (.int (-1)) = false ∧ isCompatible32 Int64Type (.int (-1)) = true ∧
    resolve32 Int64Type (.int (-1)) = .int64 (-1) ∧ isCompatible32 Int32Type (.uint 1) = false ∧
    resolve32 Uint64Type (.uint (-1)) = .uint64 0xFFFFFFFF := by decide

/-- **C88, operations.** The constructors, `Set` and `SetInstance` do with a value what they do with the same number where `int`
has 64 bits. -/
theorem C88_ops :
    (∀ v, set32 v = set v.widen) ∧ (∀ v n, setInstance32 v n = setInstance v.widen n) ∧
    (∀ uid v name t s u desc,
      newPCPSingletonMetric32 uid v name t s u desc = newPCPSingletonMetric uid v.widen name t s u desc) ∧
    ∀ uid vals name d t s u desc, newPCPInstanceMetric32 uid vals name d t s u desc =
      newPCPInstanceMetric uid (vals.map fun p => (p.1, p.2.widen)) name d t s u desc := by
  refine ⟨fun v => ?_, fun v n => ?_, ?_, ?_⟩
  · funext u st
    unfold set32 set
    rw [(C88_values _ v).1, (C88_values _ v).2.1]
    rfl
  · funext u st
    unfold setInstance32 setInstance
    rw [(C88_values _ v).1, (C88_values _ v).2.1]
    rfl
  · intro uid v name t s u desc
    unfold newPCPSingletonMetric32 newPCPSingletonMetric newSingle
    congr 1
    funext d
    rw [(C88_values _ v).1, (C88_values _ v).2.1]
  · intro uid vals name d t s u desc
    have hv : ∀ t is, resolveVals32 t vals is = resolveVals t (vals.map fun p => (p.1, p.2.widen)) is := by
      intro t is
      induction is with
      | nil => rfl
      | cons i is ih =>
        unfold resolveVals32 resolveVals
        have hf : ((vals.map fun p => (p.1, p.2.widen)).find? (fun p => p.1 = i.name)).map (·.2) =
            ((vals.find? (fun p => p.1 = i.name)).map (·.2)).map GoVal32.widen := by
          rw [List.find?_map]
          have : ((fun p : Str × GoVal => decide (p.1 = i.name)) ∘ fun p : Str × GoVal32 => (p.1, p.2.widen)) =
              fun p => decide (p.1 = i.name) := rfl
          rw [this]
          cases vals.find? (fun p => p.1 = i.name) <;> rfl
        rw [hf, ih]
        cases (vals.find? (fun p => p.1 = i.name)).map (·.2) with
        | none => rfl
        | some v =>
          simp only [Option.map_some]
          rw [(C88_values _ v).1, (C88_values _ v).2.1]
          rfl
    unfold newPCPInstanceMetric32 newPCPInstanceMetric newInstMetric
    congr 1
    funext desc
    rw [hv, List.length_map]
    rfl

/-! ### Lengths -/

theorem i32_add (a b : Nat) : i32 a + i32 b = i32 (a + b) := (BitVec.ofNat_add a b).symm
theorem i32_mul (a b : Nat) : i32 a * i32 b = i32 (a * b) := (BitVec.ofNat_mul a b).symm

theorem length32_eq (r : Reg) : r.Length32 = i32 r.Length ∧ r.indomoffset32 = i32 r.indomoffset ∧
    r.instanceoffset32 = i32 r.instanceoffset ∧ r.metricsoffset32 = i32 r.metricsoffset ∧
    r.valuesoffset32 = i32 r.valuesoffset ∧ r.stringsoffset32 = i32 r.stringsoffset := by
  unfold Reg.Length32 Reg.stringsoffset32 Reg.valuesoffset32 Reg.metricsoffset32 Reg.instanceoffset32 Reg.indomoffset32
  simp only [i32_add, i32_mul]
  exact ⟨rfl, rfl, rfl, rfl, rfl, rfl⟩

theorem i32_toInt {n : Nat} (h : n < 2 ^ 31) : (i32 n).toInt = n := by
  have e : (i32 n).toNat = n := by rw [BitVec.toNat_ofNat]; omega
  rw [BitVec.toInt_eq_toNat_cond, e, if_pos (by omega)]

theorem offsets_le (r : Reg) : r.indomoffset ≤ r.instanceoffset ∧ r.instanceoffset ≤ r.metricsoffset ∧
    r.metricsoffset ≤ r.valuesoffset ∧ r.valuesoffset ≤ r.stringsoffset ∧ r.stringsoffset ≤ r.Length := by
  refine ⟨Nat.le_add_right .., Nat.le_add_right .., Nat.le_add_right .., Nat.le_add_right .., ?_⟩
  unfold Reg.stringsoffset Reg.valuesoffset Reg.metricsoffset Reg.instanceoffset Reg.indomoffset Reg.Length
  rw [Nat.mul_comm TocLength, Nat.mul_comm InstanceDomainLength, Nat.mul_comm r.InstanceLength, Nat.mul_comm r.MetricLength,
    Nat.mul_comm ValueLength]
  omega

/-- What a call returns that either succeeds or returns an error. -/
def ansOf : Option Nat → Ans Nat
  | some n => .ok n
  | none => .err

/-- **C88, the file.** If the file has less than 2^31 bytes, then `Length` and the offsets at which the sections begin are the
same numbers, and the file is made in the same way. -/
theorem C88_length_partial {r : Reg} (h : r.Length < 2 ^ 31) :
    r.Length32.toInt = r.Length ∧ r.indomoffset32.toInt = r.indomoffset ∧ r.instanceoffset32.toInt = r.instanceoffset ∧
    r.metricsoffset32.toInt = r.metricsoffset ∧ r.valuesoffset32.toInt = r.valuesoffset ∧
    r.stringsoffset32.toInt = r.stringsoffset ∧
    ∀ fs loc os, newMMW32 fs loc r.Length32 os = ((newMMW fs loc r.Length os).1, ansOf (newMMW fs loc r.Length os).2) := by
  obtain ⟨e1, e2, e3, e4, e5, e6⟩ := length32_eq r
  obtain ⟨l1, l2, l3, l4, l5⟩ := offsets_le r
  rw [e1, e2, e3, e4, e5, e6]
  refine ⟨i32_toInt h, i32_toInt (by omega), i32_toInt (by omega), i32_toInt (by omega), i32_toInt (by omega),
    i32_toInt (by omega), fun fs loc os => ?_⟩
  have hn : (i32 r.Length).toNat = r.Length := by
    rw [BitVec.toNat_ofNat]; omega
  have hop : ∀ fs, openMMW32 fs loc (i32 r.Length) os =
      ((openMMW fs loc r.Length os).1, ansOf (openMMW fs loc r.Length os).2) := by
    intro fs
    unfold openMMW32 openMMW
    have h0 : ¬ (i32 r.Length).toInt < 0 := by rw [i32_toInt h]; omega
    simp only [if_neg h0, hn]
    by_cases a1 : os.mkdirErr = true
    · simp only [a1, if_true]; rfl
    simp only [a1]
    by_cases a2 : (os.openErr || (fs.names loc).isSome) = true
    · simp only [a2, if_true]; rfl
    simp only [a2]
    by_cases a3 : os.writeErr = true
    · simp only [a3, if_true]; rfl
    by_cases a4 : os.written < r.Length
    · simp [a3, a4, ansOf]
    by_cases a5 : os.mmapErr = true
    · simp [a3, a4, a5, ansOf]
    · simp [a3, a4, a5, ansOf]
  unfold newMMW32 newMMW
  split
  · split
    · rfl
    · exact hop _
  · exact hop _

/-- The `k`-th of many names of 64 bytes. -/
def longName64 (k : Nat) : Str := List.replicate 56 0x61 ++ le 8 k

theorem longName64_inj {j k : Nat} (hj : j < 2 ^ 64) (hk : k < 2 ^ 64) (h : longName64 j = longName64 k) : j = k := by
  have h := List.append_cancel_left h
  have h2 := congrArg unLe h
  rw [unLe_le, unLe_le] at h2
  have e : (256 : Nat) ^ 8 = 2 ^ 64 := by decide
  rw [e, Nat.mod_eq_of_lt hj, Nat.mod_eq_of_lt hk] at h2
  exact h2

/-- The names of a domain with `n` instances. -/
def manyNames (n : Nat) : List Str := (List.range n).map longName64

theorem manyNames_nodup {n : Nat} (hn : n < 2 ^ 64) : (manyNames n).Nodup := by
  refine List.Nodup.map_on ?_ List.nodup_range
  intro j hj k hk h
  rw [List.mem_range] at hj hk
  exact longName64_inj (by omega) (by omega) h

theorem longName64_length (k : Nat) : (longName64 k).length = 64 := by
  simp [longName64]

theorem manyNames_length {n : Nat} {x : Str} (h : x ∈ manyNames n) : x.length = 64 := by
  obtain ⟨k, _, rfl⟩ := List.mem_map.1 h
  exact longName64_length k

/-- A domain "d" with these instances. -/
def manyIndom (n : Nat) : Indom := ⟨1, hash [0x64] PCPInstanceDomainBitLength, [0x64], (manyNames n).foldl putInst [], [], []⟩

theorem manyIndom_new (n : Nat) : newIndom 1 [0x64] (manyNames n) [] = some (manyIndom n) := by
  unfold newIndom
  rw [if_neg (by decide)]
  simp only [descs]
  rw [if_neg]
  · rfl
  · rw [List.any_eq_true]
    rintro ⟨x, hx, h⟩
    rw [manyNames_length hx] at h
    exact absurd h (by decide)

theorem manyIndom_insts {n : Nat} (hn : n < 2 ^ 64) :
    (manyIndom n).insts.length = n ∧ ∀ i ∈ (manyIndom n).insts, i.name.length = 64 := by
  obtain ⟨h1, h2, _⟩ := foldl_putInst (manyNames n) [] List.nodup_nil
  constructor
  · have hp : (((manyNames n).foldl putInst []).map (·.name)).Perm (manyNames n) :=
      (List.perm_ext_iff_of_nodup h1 (manyNames_nodup hn)).2 fun n => by rw [h2]; simp
    have hl := hp.length_eq
    rw [List.length_map] at hl
    show ((manyNames n).foldl putInst []).length = n
    rw [hl]
    unfold manyNames
    rw [List.length_map, List.length_range]
  · intro i hi
    have : i.name ∈ manyNames n := by
      have := (h2 i.name).1 (List.mem_map_of_mem hi)
      simpa using this
    exact manyNames_length this

/-- The registry with this domain. -/
def manyReg (n : Nat) : Reg := runHist (fun _ => none) Reg.empty [.reg (.addIndom (manyIndom n))]

theorem manyReg_eq {n : Nat} (h0 : 0 < n) (hn : n < 2 ^ 64) :
    manyReg n = { Reg.empty with indoms := [manyIndom n], instanceCount := n, version2 := true } := by
  have h2 : (manyIndom n).insts.any (fun i => decide (i.name.length > MaxV1NameLength)) = true := by
    rw [List.any_eq_true]
    have : 0 < (manyIndom n).insts.length := by rw [(manyIndom_insts hn).1]; exact h0
    refine ⟨_, List.getElem_mem this, ?_⟩
    rw [(manyIndom_insts hn).2 _ (List.getElem_mem this)]
    decide
  have ha : Reg.empty.addIndom (manyIndom n) =
      some { Reg.empty with indoms := [manyIndom n], instanceCount := n, version2 := true } := by
    unfold Reg.addIndom
    rw [h2, (manyIndom_insts hn).1]
    simp [Reg.empty, Reg.hasIndom, manyIndom, bump]
  show ((ROp.addIndom (manyIndom n)).apply (fun _ => none) Reg.empty).reg = _
  simp only [ROp.apply, ha]

theorem manyReg_length {n : Nat} (h0 : 0 < n) (hn : n < 2 ^ 64) : (manyReg n).Length = 152 + 280 * n := by
  rw [manyReg_eq h0 hn]
  simp only [Reg.Length, Reg.tocCount, Reg.InstanceCount, Reg.StringCount, Reg.InstanceLength, Reg.InstanceDomainCount,
    Reg.MetricCount, Reg.MetricLength, Reg.ValuesCount, Reg.empty, if_true]
  have h0' : n > 0 := h0
  simp only [List.length_nil, List.length_singleton, Nat.zero_add, Nat.add_zero, Nat.zero_mul, h0', if_true]
  simp only [HeaderLength, TocLength, InstanceDomainLength, Instance2Length, StringLength]
  omega

theorem manyReg_built (n : Nat) : Built (manyReg n) := by
  refine ⟨_, _, ?_, rfl⟩
  intro op hop
  rw [List.mem_singleton] at hop
  subst hop
  exact ⟨_, _, _, _, manyIndom_new n⟩

theorem manyReg_publishable {n : Nat} (h0 : 0 < n) (hn : n < 2 ^ 64) : (manyReg n).Publishable := by
  rw [manyReg_eq h0 hn]
  have hne : (manyIndom n).insts ≠ [] := by
    intro h
    have := (manyIndom_insts hn).1
    rw [h, List.length_nil] at this
    omega
  refine ⟨fun _ => ⟨manyIndom n, List.mem_singleton.2 rfl, hne⟩, ?_, ?_, ?_, ?_, ?_, ?_, ?_⟩
  · intro d hd
    rw [List.mem_singleton.1 hd]
    exact ⟨Nat.zero_le _, Nat.zero_le _⟩
  · intro m hm; cases hm
  · intro m hm; cases hm
  · intro m hm; cases hm
  · intro m hm; cases hm
  · exact List.nodup_singleton _
  · exact List.nodup_nil

theorem manyReg_small {n : Nat} (h0 : 0 < n) (hn : n < 2 ^ 31) : (manyReg n).Small := by
  rw [manyReg_eq h0 (by omega)]
  constructor
  · exact (by decide : 1 < 2 ^ 31)
  · exact hn
  · exact (by decide : 0 < 2 ^ 31)
  · exact (by decide : 0 < 2 ^ 31)
  · show (if true = true then 0 + 0 + n else 0) < 2 ^ 31
    simpa using hn

/-- **C88 is false of large files.** A client with one domain of eight million instances has a file of 2240000152 bytes. Where `int`
has 64 bits, `Start` can publish it (C02). Where it has 32 bits, `Length` is negative, and whatever was at the path, `Start`
panics (unless the file cannot be made), and an empty file is left at the path. -/
theorem C88_refuted : ∃ r, Built r ∧ r.Publishable ∧ r.Small ∧ r.Length = 2240000152 ∧ r.Length32.toInt = -2054967144 ∧
    ∀ fs loc os, os.mkdirErr = false → os.openErr = false → os.statErr = false → os.removeErr = false →
      (newMMW32 fs loc r.Length32 os).2 = .panic ∧
      ∃ n, (newMMW32 fs loc r.Length32 os).1.names loc = some n ∧ (newMMW32 fs loc r.Length32 os).1.data n = [] := by
  have hl : (manyReg 8000000).Length = 2240000152 := manyReg_length (by omega) (by omega)
  have h32 : (manyReg 8000000).Length32.toInt = -2054967144 := by
    rw [(length32_eq _).1, hl]
    decide
  refine ⟨manyReg 8000000, manyReg_built _, manyReg_publishable (by omega) (by omega), manyReg_small (by omega) (by omega), hl, h32,
    ?_⟩
  generalize manyReg 8000000 = r at h32
  · intro fs loc os h1 h2 h3 h4
    have hop : ∀ fs : FS, (fs.names loc).isSome = false → (openMMW32 fs loc r.Length32 os).2 = .panic ∧
        ∃ n, (openMMW32 fs loc r.Length32 os).1.names loc = some n ∧
          (openMMW32 fs loc r.Length32 os).1.data n = [] := by
      intro fs hf
      have hneg : r.Length32.toInt < 0 := by rw [h32]; decide
      have e : openMMW32 fs loc r.Length32 os = (fs.create loc, .panic) := by
        unfold openMMW32
        rw [h1, h2, hf]
        simp only [Bool.false_eq_true, if_false, Bool.or_self]
        rw [if_pos hneg]
      rw [e]
      refine ⟨rfl, fs.next, ?_, ?_⟩
      · simp [FS.create, fset]
      · simp [FS.create, fset]
    unfold newMMW32
    rw [h3]
    by_cases hs : (fs.names loc).isSome = true
    · rw [if_pos (by simpa using hs), if_neg (by simp [h4])]
      exact hop _ (by simp [FS.remove, fset])
    · rw [if_neg (by simpa using hs)]
      exact hop _ (by simpa using hs)

/-- A registry whose file is small. -/
example : sampleReg.Length < 2 ^ 31 ∧ sampleReg.Length32.toInt = sampleReg.Length := by decide

end Speed
