import Verif.DumpFile
/-
Properties of the reader `mmvdump.Dump` (C09, C32-C35).
-/
namespace Speed.Dump

/-! ### C09 -/

theorem unLe_append (a b : List Byte) : unLe (a ++ b) = unLe a + 256 ^ a.length * unLe b := by
  induction a with
  | nil => simp [unLe]
  | cons x a ih =>
    simp only [List.cons_append, unLe, ih, List.length_cons, Nat.pow_succ]
    rw [Nat.mul_add, ← Nat.mul_assoc, Nat.mul_comm (256 ^ a.length) 256]
    omega

/-- The low half of a 64-bit field is the 32-bit field at its place. -/
theorem f64_low (data : List Byte) (off : Nat) (h : off + 8 ≤ data.length) :
    (f64 data off).setWidth 32 = f32 data off := by
  have h1 : bytesAt data off 8 = bytesAt data off 4 ++ bytesAt data (off + 4) 4 := by
    unfold bytesAt
    rw [show (8 : Nat) = 4 + 4 from rfl, List.take_add, List.drop_drop]
  unfold f64 f32
  rw [h1, unLe_append]
  have hl : (bytesAt data off 4).length = 4 := by simp [bytesAt]; omega
  have hlt := unLe_lt (bytesAt data off 4)
  rw [hl] at hlt
  apply BitVec.eq_of_toNat_eq
  rw [hl]
  simp only [BitVec.toNat_setWidth, BitVec.toNat_ofNat]
  omega

/-- The type code under which mmvdump decodes a Go value of fixed size (mmvdump/pcp.go:170-180). -/
def codeOf : GoVal → Option (BitVec 32)
  | .int32 _ => some 0
  | .uint32 _ => some 1
  | .int64 _ => some 2
  | .uint64 _ => some 3
  | .float32 _ => some 4
  | .float64 _ => some 5
  | _ => none

theorem fileAt_place {b : Buf} {off : Nat} {bs : List Byte} (h : off + bs.length ≤ b.length) :
    FileAt (place b off bs) off bs := by
  intro j x hj
  have hlt : j < bs.length := (List.getElem?_eq_some_iff.1 hj).1
  rw [place_get _ _ _ h, if_pos (by omega)]
  simpa using hj

theorem f64_place {b : Buf} {off x : Nat} (h : off + 8 ≤ b.length) :
    f64 (place b off (le 8 x)) off = BitVec.ofNat 64 x := f64_of (fileAt_place (by simpa using h))

theorem f32_place {b : Buf} {off x : Nat} (h : off + 8 ≤ b.length) :
    f32 (place b off (le 4 x)) off = BitVec.ofNat 32 x := f32_of (fileAt_place (by simp; omega))

/-- C09: a value written at a slot by `WriteVal` is what `FixedVal` decodes from the slot's 8 bytes under
the value's type, bit for bit, whatever the buffer held before. -/
theorem C09_round_trip (b : Buf) (off : Nat) (v : GoVal) (t : BitVec 32) (ht : codeOf v = some t)
    (hoff : off + 8 ≤ b.length) (hb : b.length < 2 ^ 63) :
    ∃ b' n, bwWriteVal b v off = .ok b' n ∧ b'.length = b.length ∧ fixedVal (f64 b' off) t = some v := by
  have w4 : ∀ x : BitVec 32, (f64 (place b off (le 4 x.toNat)) off).setWidth 32 = x := by
    intro x
    rw [f64_low _ _ (by simpa using hoff), f32_place hoff, ofNat_toNat32]
  have w8 : ∀ x : BitVec 64, f64 (place b off (le 8 x.toNat)) off = x := by
    intro x
    rw [f64_place hoff, ofNat_toNat64]
  have b4 : ∀ x, bwWrite b (le 4 x) off = .ok (place b off (le 4 x)) ((off + 4 : Nat) : Int) := by
    intro x
    have := bwWrite_ok (b := b) (data := le 4 x) (off := off) (by simp; omega) hb
    simpa only [le_length] using this
  have b8 : ∀ x, bwWrite b (le 8 x) off = .ok (place b off (le 8 x)) ((off + 8 : Nat) : Int) := by
    intro x
    have := bwWrite_ok (b := b) (data := le 8 x) (off := off) (by simpa using hoff) hb
    simpa only [le_length] using this
  cases v <;> simp only [codeOf, Option.some.injEq, reduceCtorEq] at ht <;> subst ht
  case int32 x => exact ⟨_, _, b4 _, by simp, by simp [fixedVal, w4]⟩
  case uint32 x => exact ⟨_, _, b4 _, by simp, by simp [fixedVal, w4]⟩
  case float32 x => exact ⟨_, _, b4 _, by simp, by simp [fixedVal, w4]⟩
  case int64 x => exact ⟨_, _, b8 _, by simp, by simp [fixedVal, w8]⟩
  case uint64 x => exact ⟨_, _, b8 _, by simp, by simp [fixedVal, w8]⟩
  case float64 x => exact ⟨_, _, b8 _, by simp, by simp [fixedVal, w8]⟩

/-- -5 as an int32, at offset 8 of a buffer full of ones. -/
example : fixedVal (f64 (bwWriteVal (List.replicate 24 0xFF) (.int32 (-5)) 8).buf 8) 0 = some (.int32 (-5)) := by
  decide
/-- A float64 bit pattern (a NaN with payload) in the last slot. -/
example : fixedVal (f64 (bwWriteVal (List.replicate 24 0xAB) (.float64 0x7FF8000000000123) 16).buf 16) 5 =
    some (.float64 0x7FF8000000000123) := by decide

/-! ### Specification of the sections -/

/-- The instance record at `k`. -/
def instAt (version : BitVec 32) (data : List Byte) (k : Nat) : Instance :=
  ⟨f64 data k, f32 data (k + 8), f32 data (k + 12),
    if version = 1 then .inl (bytesAt data (k + 16) 64) else .ref (f64 data (k + 16))⟩

def indomAt (data : List Byte) (k : Nat) : InstanceDomain :=
  ⟨f32 data k, f32 data (k + 4), f64 data (k + 8), f64 data (k + 16), f64 data (k + 24)⟩

/-- The metric record at `k`: the fields follow the name, which takes 64 bytes in version 1 and 8
otherwise. -/
def metricAt (version : BitVec 32) (data : List Byte) (k : Nat) : Metric :=
  let b := if version = 1 then k + 64 else k + 8
  ⟨if version = 1 then .inl (bytesAt data k 64) else .ref (f64 data k),
    f32 data b, f32 data (b + 4), f32 data (b + 8), f32 data (b + 12), f32 data (b + 16), f32 data (b + 20),
    f64 data (b + 24), f64 data (b + 32)⟩

def valueAt (data : List Byte) (k : Nat) : Value :=
  ⟨f64 data k, f64 data (k + 8), f64 data (k + 16), f64 data (k + 24)⟩

def stringAt (data : List Byte) (k : Nat) : Str256 := ⟨bytesAt data k 256⟩

def tocAt (data : List Byte) (k : Nat) : Toc := ⟨f32 data k, f32 data (k + 4), f64 data (k + 8)⟩

/-- The kinds of sections of an MMV file. -/
inductive Kind where
  | indoms
  | instances
  | metrics
  | values
  | strings
  deriving DecidableEq, Repr

/-- The type code of TOC entries of a kind. -/
def Kind.code : Kind → BitVec 32
  | .indoms => 1
  | .instances => 2
  | .metrics => 3
  | .values => 4
  | .strings => 5

/-- The records of a kind. -/
def Kind.Rec : Kind → Type
  | .indoms => InstanceDomain
  | .instances => Instance
  | .metrics => Metric
  | .values => Value
  | .strings => Str256

/-- The size of the records of a kind. -/
def Kind.size (version : BitVec 32) : Kind → Nat
  | .indoms => 32
  | .instances => if version = 2 then 24 else 80
  | .metrics => if version = 2 then 48 else 104
  | .values => 32
  | .strings => 256

/-- The record of a kind at an address. -/
def Kind.recAt (version : BitVec 32) (data : List Byte) : (k : Kind) → Nat → k.Rec
  | .indoms => indomAt data
  | .instances => instAt version data
  | .metrics => metricAt version data
  | .values => valueAt data
  | .strings => stringAt data

/-- The map of a kind in the result of `Dump`. -/
def Kind.items (D : Result) : (k : Kind) → List (Nat × k.Rec)
  | .indoms => D.indoms
  | .instances => D.instances
  | .metrics => D.metrics
  | .values => D.values
  | .strings => D.strings

/-- The item reader that `readComponents` uses for a kind (mmvdump/mmvdump.go:161-238). -/
def Kind.read (version : BitVec 32) (data : List Byte) : (k : Kind) → Nat → Out k.Rec
  | .indoms => readInstanceDomain data
  | .instances => readInstance version data
  | .metrics => readMetric version data
  | .values => readValue data
  | .strings => readString data

/-- `l` is a map with the keys `off`, `off + L`, ..., `n` of them, each with the record at its key, all of
them inside the data. -/
def Holds {α : Type} (data : List Byte) (dec : Nat → α) (off L n : Nat) (l : List (Nat × α)) : Prop :=
  l.Perm ((List.range n).map (fun i => (off + i * L, dec (off + i * L)))) ∧
  ∀ i < n, off + i * L + L ≤ data.length

/-- `rd` reads records of `L` bytes: for an offset without wraparound it succeeds inside the data and
fails with an error outside. -/
def Reads {α : Type} (data : List Byte) (L : Nat) (rd : Nat → Out α) (dec : Nat → α) : Prop :=
  ∀ k, k + L < 2 ^ 64 → (k + L ≤ data.length → rd k = .ok (dec k)) ∧ (data.length < k + L → rd k = .err)

section
variable {α : Type} {data : List Byte} {L : Nat} {rd : Nat → Out α} {dec : Nat → α}

theorem guardRead_reads {S : Nat} {x : α} {k : Nat} (hS : S ≤ L) (hL : 0 < L) (hk : k + L < 2 ^ 64) :
    (k + L ≤ data.length → guardRead data k L S x = .ok x) ∧ (data.length < k + L → guardRead data k L S x = .err) := by
  unfold guardRead
  rw [Nat.mod_eq_of_lt hk]
  constructor
  · intro h
    rw [if_neg (by omega), if_pos (by omega)]
  · intro h
    rw [if_pos h]

theorem reads_indom : Reads data 32 (readInstanceDomain data) (indomAt data) :=
  fun _ hk => guardRead_reads (by omega) (by omega) hk
theorem reads_value : Reads data 32 (readValue data) (valueAt data) :=
  fun _ hk => guardRead_reads (by omega) (by omega) hk
theorem reads_string : Reads data 256 (readString data) (stringAt data) :=
  fun _ hk => guardRead_reads (by omega) (by omega) hk
theorem reads_toc : Reads data 16 (readToc data) (tocAt data) :=
  fun _ hk => guardRead_reads (by omega) (by omega) hk
theorem reads_instance {version : BitVec 32} :
    Reads data (instanceLength version) (readInstance version data) (instAt version data) := by
  intro k hk
  have h0 : 24 ≤ instanceLength version := by unfold instanceLength; split <;> omega
  unfold readInstance instAt
  by_cases h : version = 1
  · subst h
    exact guardRead_reads (by decide) (by omega) hk
  · rw [if_neg h, if_neg h]
    exact guardRead_reads (by omega) (by omega) hk
theorem reads_metric {version : BitVec 32} :
    Reads data (metricLength version) (readMetric version data) (metricAt version data) := by
  intro k hk
  have h0 : 48 ≤ metricLength version := by unfold metricLength; split <;> omega
  unfold readMetric metricAt
  by_cases h : version = 1
  · subst h
    exact guardRead_reads (by decide) (by omega) hk
  · rw [if_neg h, if_neg h, if_neg h]
    exact guardRead_reads (by omega) (by omega) hk

theorem itemKeys_eq {off n : Nat} (h : off + n * L < 2 ^ 64) :
    itemKeys off L n = (List.range n).map (fun i => off + i * L) := by
  unfold itemKeys
  apply List.map_congr_left
  intro i hi
  have : i * L ≤ n * L := Nat.mul_le_mul_right _ (by simp at hi; omega)
  exact Nat.mod_eq_of_lt (by omega)

theorem key_bound {off n i : Nat} (hi : i < n) : off + i * L + L ≤ off + n * L := by
  have : (i + 1) * L ≤ n * L := Nat.mul_le_mul_right _ hi
  rw [Nat.add_mul] at this
  omega

/-- `readItems` without wraparound and with a count that is not negative. -/
theorem readItems_spec (hrd : Reads data L rd dec) (hL : 0 < L) (hL2 : L ≤ 256) {off : BitVec 64}
    {count : BitVec 32} (hc : 0 ≤ count.toInt) (hw : off.toNat + count.toNat * L < 2 ^ 64)
    {out : Out (List (Nat × α))} (h : ReadItems rd off count L out) :
    out ≠ .panic ∧
    (out = .err ↔ ∃ i < count.toNat, data.length < off.toNat + i * L + L) ∧
    ∀ its, out = .ok its → Holds data dec off.toNat L count.toNat its := by
  have hkeys := itemKeys_eq hw
  have hk : ∀ k ∈ itemKeys off.toNat L count.toNat, ∃ i < count.toNat, k = off.toNat + i * L := by
    intro k hk
    rw [hkeys] at hk
    simp only [List.mem_map, List.mem_range] at hk
    obtain ⟨i, hi, rfl⟩ := hk
    exact ⟨i, hi, rfl⟩
  have hb : ∀ i < count.toNat, off.toNat + i * L + L < 2 ^ 64 := fun i hi =>
    Nat.lt_of_le_of_lt (key_bound hi) hw
  obtain ⟨h1, h2⟩ := readItems_out hc hL hL2 (by
    intro k hkm
    obtain ⟨i, hi, rfl⟩ := hk k hkm
    have := hrd _ (hb i hi)
    by_cases hin : off.toNat + i * L + L ≤ data.length
    · rw [this.1 hin]; simp
    · rw [this.2 (by omega)]; simp) h
  by_cases hex : ∃ i < count.toNat, data.length < off.toNat + i * L + L
  · have he : out = .err := by
      obtain ⟨i, hi, hlt⟩ := hex
      apply h1
      refine ⟨off.toNat + i * L, ?_, (hrd _ (hb i hi)).2 hlt⟩
      rw [hkeys]
      exact List.mem_map.2 ⟨i, by simpa using hi, rfl⟩
    subst he
    exact ⟨by simp, by simpa using hex, by intro its h; cases h⟩
  · have hin : ∀ i < count.toNat, off.toNat + i * L + L ≤ data.length := by
      intro i hi
      by_contra hn
      exact hex ⟨i, hi, by omega⟩
    have hall : ∀ k ∈ itemKeys off.toNat L count.toNat, rd k = .ok (dec k) := by
      intro k hkm
      obtain ⟨i, hi, rfl⟩ := hk k hkm
      exact (hrd _ (hb i hi)).1 (hin i hi)
    obtain ⟨its, h3, h4⟩ := h2 (fun k hkm => ⟨_, hall k hkm⟩)
    subst h3
    refine ⟨by simp, by simpa using hin, ?_⟩
    intro its' h5
    cases h5
    refine ⟨h4.trans ?_, hin⟩
    rw [allItems_map hall, hkeys, List.map_map]
    rfl

end

theorem Kind.reads (version : BitVec 32) (data : List Byte) (k : Kind) :
    Reads data (k.size version) (k.read version data) (k.recAt version data) := by
  cases k
  · exact reads_indom
  · exact reads_instance
  · exact reads_metric
  · exact reads_value
  · exact reads_string

theorem Kind.size_pos (version : BitVec 32) (k : Kind) : 0 < k.size version ∧ k.size version ≤ 256 := by
  cases k <;> simp only [Kind.size] <;> (try split) <;> omega

/-! ### C34 -/

/-- C34: `readItems` of any kind of record, for offsets without wraparound: under every interleaving it
fails iff some item lies outside the data, otherwise it returns all items; it never panics. -/
theorem C34_schedule_independent (version : BitVec 32) (data : List Byte) (k : Kind) (off : BitVec 64)
    (count : BitVec 32) (hc : 0 ≤ count.toInt) (hw : off.toNat + count.toNat * k.size version < 2 ^ 64)
    {out : Out (List (Nat × k.Rec))}
    (h : ReadItems (k.read version data) off count (k.size version) out) :
    out ≠ .panic ∧
    (out = .err ↔ ∃ i < count.toNat, data.length < off.toNat + i * k.size version + k.size version) ∧
    ∀ its, out = .ok its → Holds data (k.recAt version data) off.toNat (k.size version) count.toNat its :=
  readItems_spec (k.reads version data) (k.size_pos version).1 (k.size_pos version).2 hc hw h

/-- C34: no interleaving of the goroutines of `readItems` runs forever or deadlocks: every step decreases
a measure, and when no goroutine can step the WaitGroup is at zero (or a reader has panicked). -/
theorem C34_terminates {α : Type} (rd : Nat → Out α) (keys : List Nat) :
    (∀ s t : IState α, IStep rd keys s t → t.measure < s.measure) ∧
    ∀ s, IReach rd keys (iinit keys) s → s.crashed = false → (∀ t, ¬ IStep rd keys s t) → s.wg = 0 := by
  refine ⟨fun s t h => istep_measure h, fun s hs hc hst => ?_⟩
  rcases istuck (iinv_reach iinv_init rfl hs).1 hst with h | h
  · rw [hc] at h; cases h
  · exact h

/-- Two value records at 8 in 72 bytes fit; three do not. -/
example : (∀ its, ReadItems (readValue (List.replicate 72 7)) 8 2 32 (.ok its) →
      Holds (List.replicate 72 7) (valueAt (List.replicate 72 7)) 8 32 2 its) ∧
    ¬ ReadItems (readValue (List.replicate 72 7)) 8 2 32 .err ∧
    (∀ out, ReadItems (readValue (List.replicate 72 7)) 8 3 32 out → out = .err) := by
  refine ⟨fun its h => (C34_schedule_independent 1 _ .values 8 2 (by decide) (by decide) h).2.2 its rfl,
    fun h => ?_, fun out h => ?_⟩
  · have := (C34_schedule_independent 1 _ .values 8 2 (by decide) (by decide) h).2.1.1 rfl
    revert this; decide
  · exact (C34_schedule_independent 1 _ .values 8 3 (by decide) (by decide) h).2.1.2 ⟨2, by decide, by decide⟩

/-! ### C33 -/

theorem readTocs_go_ok {data : List Byte} : ∀ {n i : Nat} {ts : List Toc},
    40 + (i + n) * 16 < 2 ^ 64 → readTocs.go data n i = .ok ts →
    ts = (List.range n).map (fun j => tocAt data (40 + (i + j) * 16)) ∧
    (0 < n → 40 + (i + n) * 16 ≤ data.length) := by
  intro n
  induction n with
  | zero => intro i ts _ h; simp only [readTocs.go, Out.ok.injEq] at h; subst h; simp
  | succ n ih =>
    intro i ts hlt h
    rw [readTocs.go] at h
    have hr := reads_toc (data := data) (40 + i * 16) (by omega)
    by_cases hin : 40 + i * 16 + 16 ≤ data.length
    · rw [hr.1 hin] at h
      dsimp only at h
      cases hg : readTocs.go data n (i + 1) with
      | ok ts' =>
        rw [hg] at h
        simp only [Out.ok.injEq] at h
        subst h
        obtain ⟨h1, h2⟩ := ih (by omega) hg
        subst h1
        constructor
        · rw [List.range_succ_eq_map, List.map_cons, List.map_map]
          congr 1
          apply List.map_congr_left
          intro j _
          show tocAt data _ = tocAt data _
          congr 2
          omega
        · intro _
          by_cases hn : 0 < n
          · have := h2 hn; omega
          · omega
      | err => rw [hg] at h; cases h
      | panic => rw [hg] at h; cases h
    · rw [hr.2 (by omega)] at h; cases h

theorem readTocs_ok {data : List Byte} {count : BitVec 32} {ts : List Toc} (h : readTocs data count = .ok ts) :
    0 ≤ count.toInt ∧ ts = (List.range count.toNat).map (fun j => tocAt data (40 + j * 16)) ∧
    (0 < count.toNat → 40 + count.toNat * 16 ≤ data.length) := by
  unfold readTocs at h
  split at h
  · cases h
  · have := count.isLt
    obtain ⟨h1, h2⟩ := readTocs_go_ok (by omega) h
    refine ⟨by omega, ?_, by simpa using h2⟩
    rw [h1]
    simp

theorem readHeader_ok {data : List Byte} {h : Header} (hh : readHeader data = .ok h) :
    40 ≤ data.length ∧ h = ⟨bytesAt data 0 4, f32 data 4, f64 data 8, f64 data 16, f32 data 24, f32 data 28,
      f32 data 32, f32 data 36⟩ ∧ bytesAt data 0 3 = [0x4D, 0x4D, 0x56] ∧ f64 data 8 = f64 data 16 := by
  unfold readHeader at hh
  split at hh
  · cases hh
  · dsimp only at hh
    split at hh
    · cases hh
    · split at hh
      · cases hh
      · rename_i h1 h2 h3
        cases hh
        refine ⟨by omega, rfl, ?_, by simpa using h3⟩
        simp only [ne_eq, not_not] at h2
        rw [← h2]
        simp [bytesAt, List.take_take]

/-- The results of the goroutines of one kind. -/
def Kind.sec? : (k : Kind) → Sec → Option (Out (List (Nat × k.Rec)))
  | .indoms => Sec.indom?
  | .instances => Sec.inst?
  | .metrics => Sec.metric?
  | .values => Sec.value?
  | .strings => Sec.string?

theorem secOf_code {data : List Byte} {version : BitVec 32} {t : Toc} {sec : Sec} (h : SecOf data version t sec)
    (k : Kind) :
    (t.type = k.code → ∃ o, k.sec? sec = some o ∧ ReadItems (k.read version data) t.offset t.count (k.size version) o) ∧
    (t.type ≠ k.code → k.sec? sec = none) := by
  unfold SecOf at h
  split at h
  · obtain ⟨o, rfl, h⟩ := h
    rename_i ht
    rw [ht]
    cases k <;> refine ⟨fun h1 => ?_, fun h1 => ?_⟩ <;>
      first | rfl | exact absurd h1 (by decide) | exact absurd rfl h1 | exact ⟨o, rfl, h⟩
  · split at h
    · obtain ⟨o, rfl, h⟩ := h
      rename_i ht
      rw [ht]
      cases k <;> refine ⟨fun h1 => ?_, fun h1 => ?_⟩ <;>
        first | rfl | exact absurd h1 (by decide) | exact absurd rfl h1 | exact ⟨o, rfl, h⟩
    · split at h
      · obtain ⟨o, rfl, h⟩ := h
        rename_i ht
        rw [ht]
        cases k <;> refine ⟨fun h1 => ?_, fun h1 => ?_⟩ <;>
          first | rfl | exact absurd h1 (by decide) | exact absurd rfl h1 | exact ⟨o, rfl, h⟩
      · split at h
        · obtain ⟨o, rfl, h⟩ := h
          rename_i ht
          rw [ht]
          cases k <;> refine ⟨fun h1 => ?_, fun h1 => ?_⟩ <;>
            first | rfl | exact absurd h1 (by decide) | exact absurd rfl h1 | exact ⟨o, rfl, h⟩
        · split at h
          · obtain ⟨o, rfl, h⟩ := h
            rename_i ht
            rw [ht]
            cases k <;> refine ⟨fun h1 => ?_, fun h1 => ?_⟩ <;>
              first | rfl | exact absurd h1 (by decide) | exact absurd rfl h1 | exact ⟨o, rfl, h⟩
          · subst h
            cases k <;> refine ⟨fun h1 => ?_, fun h1 => ?_⟩ <;> first | rfl | contradiction

theorem secs_kind {data : List Byte} {version : BitVec 32} (k : Kind) {ts : List Toc} {secs : List Sec}
    (h : List.Forall₂ (SecOf data version) ts secs) :
    List.Forall₂ (fun (t : Toc) o => ReadItems (k.read version data) t.offset t.count (k.size version) o)
      (ts.filter (fun t => t.type = k.code)) (secs.filterMap k.sec?) := by
  induction h with
  | nil => exact .nil
  | @cons t sec ts secs h1 _ ih =>
    obtain ⟨h3, h4⟩ := secOf_code h1 k
    by_cases ht : t.type = k.code
    · obtain ⟨o, h5, h6⟩ := h3 ht
      rw [List.filter_cons_of_pos (by simpa using ht), List.filterMap_cons_some h5]
      exact .cons h6 ih
    · rw [List.filter_cons_of_neg (by simpa using ht), List.filterMap_cons_none (h4 ht)]
      exact ih

/-- What a successful `Dump` consists of. -/
theorem dumps_ok {data : List Byte} {D : Result} (h : Dumps data (.ok D)) :
    readHeader data = .ok D.header ∧ readTocs data D.header.toc = .ok D.tocs ∧
    ∃ secs, List.Forall₂ (SecOf data D.header.version) D.tocs secs ∧
      ∀ k : Kind, Pick (secs.filterMap k.sec?) (k.items D) false := by
  unfold Dumps at h
  split at h
  · cases h
  · cases h
  · rename_i hd hh
    split at h
    · cases h
    · cases h
    · rename_i ts ht
      unfold Components at h
      obtain ⟨secs, h1, h2⟩ := h
      split at h2
      · cases h2
      · split at h2
        · cases h2
        · obtain ⟨mi, ei, md, ed, mm, em, mv, ev, ms, es, p1, p2, p3, p4, p5, he⟩ := h2
          split at he
          · cases he
          · rename_i hne
            simp only [Bool.or_eq_true, not_or, Bool.not_eq_true] at hne
            obtain ⟨⟨⟨⟨rfl, rfl⟩, rfl⟩, rfl⟩, rfl⟩ := hne
            cases he
            refine ⟨hh, ht, secs, h1, ?_⟩
            intro k; cases k
            · exact p2
            · exact p1
            · exact p3
            · exact p4
            · exact p5

/-- C33: the header and the TOC of a successful `Dump` are the decoded bytes at their places. -/
theorem C33_header {data : List Byte} {D : Result} (h : Dumps data (.ok D)) :
    D.header = ⟨bytesAt data 0 4, f32 data 4, f64 data 8, f64 data 16, f32 data 24, f32 data 28,
      f32 data 32, f32 data 36⟩ ∧
    D.tocs = (List.range (f32 data 24).toNat).map (fun j => tocAt data (40 + j * 16)) ∧
    40 + (f32 data 24).toNat * 16 ≤ data.length := by
  obtain ⟨h1, h2, _⟩ := dumps_ok h
  obtain ⟨h3, h4, _, _⟩ := readHeader_ok h1
  obtain ⟨_, h6, h7⟩ := readTocs_ok h2
  rw [h4] at h6 h7
  refine ⟨h4, h6, ?_⟩
  by_cases hz : 0 < (f32 data 24).toNat
  · exact h7 hz
  · omega

/-- C33: when `Dump` succeeds and a kind is listed by exactly one TOC entry, whose items do not wrap around
2^64, then the map of this kind has exactly the items of that entry, each decoded from the bytes at its
key and lying inside the data; a kind that is not listed has an empty map. -/
theorem C33_items {data : List Byte} {D : Result} (h : Dumps data (.ok D)) (k : Kind) :
    (∀ t, D.tocs.filter (fun t => t.type = k.code) = [t] →
      t.offset.toNat + t.count.toNat * k.size D.header.version < 2 ^ 64 →
      0 ≤ t.count.toInt ∧
      Holds data (k.recAt D.header.version data) t.offset.toNat (k.size D.header.version) t.count.toNat (k.items D)) ∧
    (D.tocs.filter (fun t => t.type = k.code) = [] → k.items D = []) := by
  obtain ⟨_, _, secs, h1, h2⟩ := dumps_ok h
  have h3 := secs_kind k h1
  have h4 := h2 k
  constructor
  · intro t ht hw
    rw [ht] at h3
    generalize secs.filterMap k.sec? = l at h3 h4
    cases h3 with
    | cons h5 h6 =>
      cases h6
      rename_i o
      rcases h4 with ⟨h4, _⟩ | ⟨⟨o1, h7, h8⟩, o2, h9, h10⟩
      · cases h4
      · simp only [List.mem_singleton] at h7 h9
        rw [h7] at h8; rw [h9] at h10
        cases o with
        | ok its =>
          simp only [Out.items] at h8
          have hc : 0 ≤ t.count.toInt := by
            by_contra hn
            unfold ReadItems at h5
            rw [if_pos (by omega)] at h5
            cases h5
          exact ⟨hc, h8 ▸ (C34_schedule_independent _ _ k _ _ hc hw h5).2.2 its rfl⟩
        | err => cases h10
        | panic => cases h10
  · intro ht
    rw [ht] at h3
    generalize secs.filterMap k.sec? = l at h3 h4
    cases h3
    exact (pick_nil h4).1

/-! ### C35 -/

theorem readHeader_panic (data : List Byte) : readHeader data ≠ .panic := by
  intro hp
  unfold readHeader at hp
  split at hp
  · cases hp
  · dsimp only at hp
    split at hp
    · cases hp
    · split at hp <;> cases hp

theorem readTocs_panic {data : List Byte} {count : BitVec 32} (hp : readTocs data count = .panic) :
    count.toInt < 0 := by
  by_contra hc
  unfold readTocs at hp
  rw [if_neg hc] at hp
  have key : ∀ n i, 40 + (i + n) * 16 < 2 ^ 64 → readTocs.go data n i ≠ .panic := by
    intro n
    induction n with
    | zero => intro i _ h; cases h
    | succ n ih =>
      intro i hb h
      rw [readTocs.go] at h
      have hr := reads_toc (data := data) (40 + i * 16) (by omega)
      by_cases hin : 40 + i * 16 + 16 ≤ data.length
      · rw [hr.1 hin] at h
        dsimp only at h
        cases hg : readTocs.go data n (i + 1) with
        | ok ts => rw [hg] at h; cases h
        | err => rw [hg] at h; cases h
        | panic => exact ih (i + 1) (by omega) hg
      · rw [hr.2 (by omega)] at h; cases h
  have := count.isLt
  exact key _ 0 (by omega) hp

/-- C35: data shorter than a header is rejected. -/
theorem C35_short (data : List Byte) (hlt : data.length < 40) {out : DumpOut} (h : Dumps data out) : out = .err := by
  unfold Dumps at h
  rw [show readHeader data = .err by unfold readHeader; rw [if_pos hlt]] at h
  exact h

/-- C35: data not starting with "MMV" is rejected. -/
theorem C35_magic (data : List Byte) (hm : data.take 3 ≠ [0x4D, 0x4D, 0x56]) {out : DumpOut} (h : Dumps data out) :
    out = .err := by
  unfold Dumps at h
  split at h
  · exact h
  · rename_i hp
    exact absurd hp (readHeader_panic data)
  · rename_i hd hh
    have := (readHeader_ok hh).2.2.1
    simp [bytesAt] at this
    exact absurd this hm

/-- C35: different generation numbers are rejected. -/
theorem C35_generation (data : List Byte) (hg : bytesAt data 8 8 ≠ bytesAt data 16 8) {out : DumpOut}
    (h : Dumps data out) : out = .err := by
  by_cases hl : data.length < 40
  · exact C35_short data hl h
  unfold Dumps at h
  split at h
  · exact h
  · rename_i hp
    exact absurd hp (readHeader_panic data)
  · rename_i hd hh
    have hgg := (readHeader_ok hh).2.2.2
    exfalso
    apply hg
    have l1 : (bytesAt data 8 8).length = 8 := by simp [bytesAt]; omega
    have l2 : (bytesAt data 16 8).length = 8 := by simp [bytesAt]; omega
    have b1 := unLe_lt (bytesAt data 8 8)
    have b2 := unLe_lt (bytesAt data 16 8)
    rw [l1] at b1; rw [l2] at b2
    unfold f64 at hgg
    have : unLe (bytesAt data 8 8) = unLe (bytesAt data 16 8) := by
      have := congrArg BitVec.toNat hgg
      simp only [BitVec.toNat_ofNat] at this
      omega
    rw [← le_unLe (bytesAt data 8 8), ← le_unLe (bytesAt data 16 8), l1, l2, this]

/-- C35: a TOC (of a count that is not negative) extending past the data is rejected. -/
theorem C35_toc (data : List Byte) (hc : 0 ≤ (f32 data 24).toInt)
    (hlt : data.length < 40 + (f32 data 24).toNat * 16) {out : DumpOut} (h : Dumps data out) : out = .err := by
  unfold Dumps at h
  split at h
  · exact h
  · rename_i hp
    exact absurd hp (readHeader_panic data)
  · rename_i hd hh
    obtain ⟨hl, hd', _, _⟩ := readHeader_ok hh
    rw [hd'] at h
    dsimp only at h
    split at h
    · exact h
    · rename_i hp
      exfalso
      exact absurd (readTocs_panic hp) (by omega)
    · rename_i ts ht
      obtain ⟨_, _, h3⟩ := readTocs_ok ht
      have := h3 (by omega)
      omega

/-- "MMV", version 1, the generations `g1` and `g2`, and `n` TOC entries. -/
def hdrBytes' (m : Byte) (g1 g2 n : Nat) : List Byte :=
  [m, 0x4D, 0x56, 0] ++ le 4 1 ++ le 8 g1 ++ le 8 g2 ++ le 4 n ++ zeros 12

example : ((hdrBytes' 0x4D 1 1 0).take 39).length < 40 := by decide
example : (hdrBytes' 0x4E 1 1 0).take 3 ≠ [0x4D, 0x4D, 0x56] := by decide
example : bytesAt (hdrBytes' 0x4D 1 256 0) 8 8 ≠ bytesAt (hdrBytes' 0x4D 1 256 0) 16 8 := by decide
/-- One TOC entry is announced and 15 bytes follow. -/
example : ∀ out, Dumps (hdrBytes' 0x4D 1 1 1 ++ zeros 15) out → out = .err :=
  fun _ h => C35_toc _ (by decide) (by decide) h

/-! ### C32 -/

/-- C32 is false as stated: a negative TOC count panics. -/
theorem C32_refuted_negative_count : Dumps (hdrBytes' 0x4D 1 1 0xFFFFFFFF) .panic := by
  have h1 : readHeader (hdrBytes' 0x4D 1 1 0xFFFFFFFF) = .ok ⟨[0x4D, 0x4D, 0x56, 0], 1, 1, 1, 0xFFFFFFFF, 0, 0, 0⟩ := by decide
  unfold Dumps
  rw [h1]
  dsimp only
  rw [show readTocs (hdrBytes' 0x4D 1 1 0xFFFFFFFF) 0xFFFFFFFF = .panic by decide]

/-- A file with one TOC entry. -/
def oneToc (ty count off : Nat) : List Byte := hdrBytes' 0x4D 1 1 1 ++ le 4 ty ++ le 4 count ++ le 8 off

/-- C32 is false as stated: a TOC entry of unknown type (6) blocks forever. -/
theorem C32_refuted_unknown_type : Dumps (oneToc 6 0 0) .hang := by
  have h1 : readHeader (oneToc 6 0 0) = .ok ⟨[0x4D, 0x4D, 0x56, 0], 1, 1, 1, 1, 0, 0, 0⟩ := by decide
  unfold Dumps
  rw [h1]
  dsimp only
  rw [show readTocs (oneToc 6 0 0) 1 = .ok [⟨6, 0, 0⟩] by decide]
  dsimp only
  refine ⟨[.unknown], .cons (by unfold SecOf; rfl) .nil, ?_⟩
  rw [if_neg (by decide), if_pos (by decide)]

/-- C32 is false as stated: an offset of 2^64 - 16 wraps around and panics. -/
theorem C32_refuted_wraparound : Dumps (oneToc 4 1 (2 ^ 64 - 16)) .panic := by
  have h1 : readHeader (oneToc 4 1 (2 ^ 64 - 16)) = .ok ⟨[0x4D, 0x4D, 0x56, 0], 1, 1, 1, 1, 0, 0, 0⟩ := by decide
  unfold Dumps
  rw [h1]
  dsimp only
  rw [show readTocs (oneToc 4 1 (2 ^ 64 - 16)) 1 = .ok [⟨4, 1, 0xFFFFFFFFFFFFFFF0⟩] by decide]
  dsimp only
  refine ⟨[.values .panic], .cons ?_ .nil, by rw [if_pos (by decide)]⟩
  unfold SecOf
  rw [if_neg (by decide), if_neg (by decide), if_neg (by decide), if_pos (by decide)]
  refine ⟨.panic, rfl, ?_⟩
  unfold ReadItems
  rw [if_neg (by decide)]
  have hk : itemKeys (0xFFFFFFFFFFFFFFF0 : BitVec 64).toNat 32 (1 : BitVec 32).toNat = [0xFFFFFFFFFFFFFFF0] := by decide
  have hp : readValue (oneToc 4 1 (2 ^ 64 - 16)) 0xFFFFFFFFFFFFFFF0 = .panic := by decide
  rw [hk]
  refine ⟨{ (iinit [0xFFFFFFFFFFFFFFF0] : IState Value) with pcs := [.read], crashed := true },
    .tail (t := { (iinit [0xFFFFFFFFFFFFFFF0] : IState Value) with pcs := [.read] }) (.tail .refl ⟨0, rfl⟩) ⟨0, ?_⟩,
    .inl ⟨rfl, rfl⟩⟩
  rw [show istep (readValue (oneToc 4 1 (2 ^ 64 - 16))) [0xFFFFFFFFFFFFFFF0]
    { (iinit [0xFFFFFFFFFFFFFFF0] : IState Value) with pcs := [.read] } 0 =
      match readValue (oneToc 4 1 (2 ^ 64 - 16)) 0xFFFFFFFFFFFFFFF0 with
      | .ok x => some { (iinit [0xFFFFFFFFFFFFFFF0] : IState Value) with pcs := [.lock x] }
      | .err => some { (iinit [0xFFFFFFFFFFFFFFF0] : IState Value) with pcs := [.setErr] }
      | .panic => some { (iinit [0xFFFFFFFFFFFFFFF0] : IState Value) with pcs := [.read], crashed := true } from rfl, hp]

/-- C32 refuted. -/
theorem C32_refuted : ¬ ∀ data out, Dumps data out → out ≠ .panic ∧ out ≠ .hang :=
  fun h => (h _ _ C32_refuted_negative_count).1 rfl

theorem isPanic_kind {sec : Sec} (h : sec.isPanic = true) : ∃ k : Kind, k.sec? sec = some .panic := by
  rcases sec with (_|_|_)|(_|_|_)|(_|_|_)|(_|_|_)|(_|_|_)|_ <;> first | cases h | skip
  · exact ⟨.instances, rfl⟩
  · exact ⟨.indoms, rfl⟩
  · exact ⟨.metrics, rfl⟩
  · exact ⟨.values, rfl⟩
  · exact ⟨.strings, rfl⟩

theorem secs_mem {data : List Byte} {version : BitVec 32} {ts : List Toc} {secs : List Sec}
    (h : List.Forall₂ (SecOf data version) ts secs) {sec : Sec} (hs : sec ∈ secs) :
    ∃ t ∈ ts, SecOf data version t sec := by
  induction h with
  | nil => cases hs
  | cons h1 _ ih =>
    rcases List.mem_cons.1 hs with rfl | hs
    · exact ⟨_, by simp, h1⟩
    · obtain ⟨t, h2, h3⟩ := ih hs
      exact ⟨t, by simp [h2], h3⟩

/-- C32 (partial): `Dump` always has an outcome; it panics only for a negative TOC count, a negative item
count or a section that wraps around 2^64, and blocks only for a TOC entry of unknown type. In all other
cases it returns a result or an error. Missing: the three excluded inputs, for which the claim is false. -/
theorem C32_no_crash_partial (data : List Byte) :
    (∃ out, Dumps data out) ∧
    (Dumps data .panic → (f32 data 24).toInt < 0 ∨ ∃ i < (f32 data 24).toNat, 40 + i * 16 + 16 ≤ data.length ∧
      ((f32 data (40 + i * 16 + 4)).toInt < 0 ∨ ∃ k : Kind, k.code = f32 data (40 + i * 16) ∧
        2 ^ 64 ≤ (f64 data (40 + i * 16 + 8)).toNat + (f32 data (40 + i * 16 + 4)).toNat * k.size (f32 data 4))) ∧
    (Dumps data .hang → ∃ i < (f32 data 24).toNat, 40 + i * 16 + 16 ≤ data.length ∧
      ∀ k : Kind, k.code ≠ f32 data (40 + i * 16)) := by
  refine ⟨dumps_exists data, fun h => ?_, fun h => ?_⟩
  · unfold Dumps at h
    split at h
    · cases h
    · rename_i hp
      exact absurd hp (readHeader_panic data)
    · rename_i hd hh
      obtain ⟨hl, rfl, _, _⟩ := readHeader_ok hh
      dsimp only at h
      split at h
      · cases h
      · rename_i hp
        exact .inl (readTocs_panic hp)
      · rename_i ts ht
        obtain ⟨h3, h4, h5⟩ := readTocs_ok ht
        right
        unfold Components at h
        obtain ⟨secs, h1, h2⟩ := h
        split at h2
        · rename_i hany
          rw [List.any_eq_true] at hany
          obtain ⟨sec, hsec, hpan⟩ := hany
          obtain ⟨k, hk⟩ := isPanic_kind hpan
          obtain ⟨t, ht1, ht2⟩ := secs_mem h1 hsec
          rw [h4] at ht1
          simp only [List.mem_map, List.mem_range] at ht1
          obtain ⟨i, hi, rfl⟩ := ht1
          refine ⟨i, hi, by have := h5 (by omega); omega, ?_⟩
          have hc := secOf_code ht2 k
          by_cases hty : (tocAt data (40 + i * 16)).type = k.code
          · obtain ⟨o, ho1, ho2⟩ := hc.1 hty
            rw [hk] at ho1
            cases ho1
            by_contra hcon
            simp only [not_or, not_exists, not_and, Nat.not_le, Int.not_lt] at hcon
            exact (C34_schedule_independent _ _ k _ _ hcon.1 (hcon.2 k hty.symm) ho2).1 rfl
          · rw [hc.2 hty] at hk; cases hk
        · split at h2
          · cases h2
          · obtain ⟨_, _, _, _, _, _, _, _, _, _, _, _, _, _, _, he⟩ := h2
            split at he <;> cases he
  · unfold Dumps at h
    split at h
    · cases h
    · cases h
    · rename_i hd hh
      obtain ⟨hl, rfl, _, _⟩ := readHeader_ok hh
      dsimp only at h
      split at h
      · cases h
      · cases h
      · rename_i ts ht
        obtain ⟨h3, h4, h5⟩ := readTocs_ok ht
        unfold Components at h
        obtain ⟨secs, h1, h2⟩ := h
        split at h2
        · cases h2
        · split at h2
          · rename_i hun
            obtain ⟨t, ht1, ht2⟩ := secs_mem h1 hun
            rw [h4] at ht1
            simp only [List.mem_map, List.mem_range] at ht1
            obtain ⟨i, hi, rfl⟩ := ht1
            refine ⟨i, hi, by have := h5 (by omega); omega, ?_⟩
            intro k hk
            obtain ⟨o, ho, _⟩ := (secOf_code ht2 k).1 hk.symm
            cases k <;> cases ho
          · obtain ⟨_, _, _, _, _, _, _, _, _, _, _, _, _, _, _, he⟩ := h2
            split at he <;> cases he

/-- A file with two value records, and the outcomes the theorem leaves for it. -/
example : ∀ out, Dumps (oneToc 4 2 56 ++ zeros 64) out → out ≠ .panic ∧ out ≠ .hang := by
  intro out h
  obtain ⟨_, h1, h2⟩ := C32_no_crash_partial (oneToc 4 2 56 ++ zeros 64)
  constructor <;> rintro rfl
  · rcases h1 h with h | ⟨i, hi, -, h⟩
    · exact absurd h (by decide)
    · obtain rfl : i = 0 := by
        have : (f32 (oneToc 4 2 56 ++ zeros 64) 24).toNat = 1 := by decide
        omega
      rcases h with h | ⟨k, _, h⟩
      · exact absurd h (by decide)
      · revert h; cases k <;> decide
  · obtain ⟨i, hi, -, h⟩ := h2 h
    obtain rfl : i = 0 := by
      have : (f32 (oneToc 4 2 56 ++ zeros 64) 24).toNat = 1 := by decide
      omega
    exact h .values (by decide)

set_option maxRecDepth 4000 in
/-- This file is accepted; by C33 its values are the two zero records at 56 and 88. -/
example : ∃ D, Dumps (oneToc 4 2 56 ++ zeros 64) (.ok D) ∧
    D.values.Perm [(56, ⟨0, 0, 0, 0⟩), (88, ⟨0, 0, 0, 0⟩)] ∧ D.strings = [] := by
  have h1 : readHeader (oneToc 4 2 56 ++ zeros 64) = .ok ⟨[0x4D, 0x4D, 0x56, 0], 1, 1, 1, 1, 0, 0, 0⟩ := by decide
  have h2 : readTocs (oneToc 4 2 56 ++ zeros 64) 1 = .ok [⟨4, 2, 56⟩] := by decide
  obtain ⟨out, ho⟩ := readItems_exists (readValue (oneToc 4 2 56 ++ zeros 64)) 56 2 32
  obtain ⟨h3, h4, h5⟩ := C34_schedule_independent 1 _ .values 56 2 (by decide) (by decide) ho
  cases out with
  | panic => exact absurd rfl h3
  | err => exact absurd (h4.1 rfl) (by decide)
  | ok its =>
    have hd : Dumps (oneToc 4 2 56 ++ zeros 64) (.ok ⟨⟨[0x4D, 0x4D, 0x56, 0], 1, 1, 1, 1, 0, 0, 0⟩, [⟨4, 2, 56⟩],
        [], its, [], [], []⟩) := by
      unfold Dumps
      rw [h1]
      dsimp only
      rw [h2]
      dsimp only
      refine ⟨[.values (.ok its)], .cons ?_ .nil, ?_⟩
      · unfold SecOf
        rw [if_neg (by decide), if_neg (by decide), if_neg (by decide), if_pos (by decide)]
        exact ⟨_, rfl, ho⟩
      · rw [if_neg (by simp [Sec.isPanic]), if_neg (by simp)]
        refine ⟨[], false, [], false, [], false, its, false, [], false, .inl ⟨rfl, rfl, rfl⟩, .inl ⟨rfl, rfl, rfl⟩,
          .inl ⟨rfl, rfl, rfl⟩, .inr ⟨⟨_, List.mem_singleton.2 rfl, rfl⟩, _, List.mem_singleton.2 rfl, rfl⟩,
          .inl ⟨rfl, rfl, rfl⟩, rfl⟩
    refine ⟨_, hd, ?_, (C33_items hd .strings).2 rfl⟩
    have := ((C33_items hd .values).1 ⟨4, 2, 56⟩ rfl (by dsimp only; decide)).2.1
    refine this.trans (.of_eq ?_)
    show (List.range 2).map (fun i => (56 + i * 32, valueAt (oneToc 4 2 56 ++ zeros 64) (56 + i * 32))) = _
    decide

end Speed.Dump
