import Verif.DumpOutcomes
/-
Which outcomes `mmvdump.Dump` can have, for any bytes (C66).
-/
namespace Speed.Dump

/-- The checks of the header: 40 bytes, "MMV", equal generations. -/
def HeaderOK (data : List Byte) : Prop :=
  40 ≤ data.length ∧ data.take 3 = [0x4D, 0x4D, 0x56] ∧ bytesAt data 8 8 = bytesAt data 16 8

/-- Entry `i` of the table of contents. -/
def entry (data : List Byte) (i : Nat) : Toc := tocAt data (40 + i * 16)

/-- The header is valid and the table of contents, of a count that is not negative, lies inside the data. -/
def TocOK (data : List Byte) : Prop :=
  HeaderOK data ∧ 0 ≤ (f32 data 24).toInt ∧ 40 + (f32 data 24).toNat * 16 ≤ data.length

/-- No entry of a known type crashes under every schedule. -/
def NoSureCrash (data : List Byte) : Prop :=
  ∀ i < (f32 data 24).toNat, ∀ k : Kind, (entry data i).type = k.code →
    CanOk data (f32 data 4) k (entry data i) ∨ CanErr data (f32 data 4) k (entry data i)

/-- All entries are of known types. -/
def AllKnown (data : List Byte) : Prop :=
  ∀ i < (f32 data 24).toNat, ∃ k : Kind, (entry data i).type = k.code

theorem header_bytes {data : List Byte} (hl : 40 ≤ data.length) :
    f64 data 8 = f64 data 16 ↔ bytesAt data 8 8 = bytesAt data 16 8 := by
  constructor
  · intro hgg
    have l1 : (bytesAt data 8 8).length = 8 := by simp [bytesAt]; omega
    have l2 : (bytesAt data 16 8).length = 8 := by simp [bytesAt]; omega
    have b1 := unLe_lt (bytesAt data 8 8)
    have b2 := unLe_lt (bytesAt data 16 8)
    rw [l1] at b1; rw [l2] at b2
    unfold f64 at hgg
    have : unLe (bytesAt data 8 8) = unLe (bytesAt data 16 8) := by
      have := congrArg BitVec.toNat hgg
      simp only [BitVec.toNat_ofNat] at this
      omega
    rw [← le_unLe (bytesAt data 8 8), ← le_unLe (bytesAt data 16 8), l1, l2, this]
  · intro h
    unfold f64
    rw [h]

theorem readHeader_iff (data : List Byte) :
    (HeaderOK data → ∃ h, readHeader data = .ok h ∧ h.version = f32 data 4 ∧ h.toc = f32 data 24) ∧
    (¬ HeaderOK data → readHeader data = .err) := by
  constructor
  · rintro ⟨h1, h2, h3⟩
    refine ⟨⟨bytesAt data 0 4, f32 data 4, f64 data 8, f64 data 16, f32 data 24, f32 data 28,
      f32 data 32, f32 data 36⟩, ?_, rfl, rfl⟩
    unfold readHeader
    rw [if_neg (by omega)]
    dsimp only
    rw [if_neg (by simpa [bytesAt, List.take_take] using h2), if_neg (by simpa using (header_bytes h1).2 h3)]
  · intro hn
    cases hr : readHeader data with
    | err => rfl
    | panic => exact absurd hr (readHeader_panic data)
    | ok h =>
      obtain ⟨h1, _, h3, h4⟩ := readHeader_ok hr
      exact absurd ⟨h1, by simpa [bytesAt] using h3, (header_bytes h1).1 h4⟩ hn

theorem readTocs_go_fit {data : List Byte} : ∀ {n i : Nat}, 40 + (i + n) * 16 < 2 ^ 64 → data.length < 2 ^ 63 →
    40 + (i + n) * 16 ≤ data.length ∨ n = 0 → ∃ ts, readTocs.go data n i = .ok ts := by
  intro n
  induction n with
  | zero => intro i _ _ _; exact ⟨[], rfl⟩
  | succ n ih =>
    intro i hlt hlen hf
    rw [readTocs.go]
    have hr := reads_toc (data := data) (40 + i * 16) (by omega)
    rw [hr.1 (by omega)]
    obtain ⟨ts, hts⟩ := ih (i := i + 1) (by omega) hlen (by omega)
    dsimp only
    rw [hts]
    exact ⟨_, rfl⟩

theorem readTocs_iff {data : List Byte} (hlen : data.length < 2 ^ 63) (h40 : 40 ≤ data.length) (c : BitVec 32) :
    (c.toInt < 0 → readTocs data c = .panic) ∧
    (0 ≤ c.toInt → 40 + c.toNat * 16 ≤ data.length →
      readTocs data c = .ok ((List.range c.toNat).map (fun j => tocAt data (40 + j * 16)))) ∧
    (0 ≤ c.toInt → data.length < 40 + c.toNat * 16 → readTocs data c = .err) := by
  have hc := c.isLt
  refine ⟨fun h => ?_, fun h hf => ?_, fun h hf => ?_⟩
  · unfold readTocs; rw [if_pos h]
  · obtain ⟨ts, hts⟩ := readTocs_go_fit (data := data) (n := c.toNat) (i := 0) (by omega) hlen (by omega)
    have h1 : readTocs data c = .ok ts := by unfold readTocs; rw [if_neg (by omega)]; exact hts
    rw [h1, (readTocs_ok h1).2.1]
  · cases hr : readTocs data c with
    | err => rfl
    | panic => exact absurd (readTocs_panic hr) (by omega)
    | ok ts => exact absurd ((readTocs_ok hr).2.2 (by omega)) (by omega)

/-- C66: for every slice of bytes, exactly when `Dump` can panic, block, return an error or return a result:

* it can panic iff the header is valid and the count of the table of contents is negative, or the table is
  inside the data and some entry of a known type has a negative count or a record reaching over 2^64 whose
  end, computed modulo 2^64, is inside the data;
* it can block forever iff the table is valid, some entry is of an unknown type and no entry panics under
  every schedule;
* it can return an error iff the header is invalid, or the table is not inside the data, or all entries are
  of known types, none panics under every schedule, and some record ends behind the data;
* it can return a result iff the table is valid, all entries are of known types, none panics under every
  schedule, and each kind that is listed has an entry with all records inside the data. -/
theorem C66_outcomes (data : List Byte) (hlen : data.length < 2 ^ 63) :
    (Dumps data .panic ↔ HeaderOK data ∧ (f32 data 24).toInt < 0 ∨ TocOK data ∧
      ∃ i < (f32 data 24).toNat, ∃ k : Kind, (entry data i).type = k.code ∧ CanPanic data (f32 data 4) k (entry data i)) ∧
    (Dumps data .hang ↔ TocOK data ∧ NoSureCrash data ∧
      ∃ i < (f32 data 24).toNat, ∀ k : Kind, (entry data i).type ≠ k.code) ∧
    (Dumps data .err ↔ ¬ HeaderOK data ∨ (0 ≤ (f32 data 24).toInt ∧ data.length < 40 + (f32 data 24).toNat * 16) ∨
      TocOK data ∧ AllKnown data ∧ NoSureCrash data ∧
      ∃ i < (f32 data 24).toNat, ∃ k : Kind, (entry data i).type = k.code ∧ CanErr data (f32 data 4) k (entry data i)) ∧
    ((∃ D, Dumps data (.ok D)) ↔ TocOK data ∧ AllKnown data ∧ NoSureCrash data ∧
      ∀ i < (f32 data 24).toNat, ∀ k : Kind, (entry data i).type = k.code →
        ∃ j < (f32 data 24).toNat, (entry data j).type = k.code ∧ CanOk data (f32 data 4) k (entry data j)) := by
  by_cases hh : HeaderOK data
  · obtain ⟨h, h1, h2, h3⟩ := (readHeader_iff data).1 hh
    obtain ⟨t1, t2, t3⟩ := readTocs_iff hlen hh.1 (f32 data 24)
    by_cases hc : (f32 data 24).toInt < 0
    · have hnt : ¬ TocOK data := fun h => absurd h.2.1 (by omega)
      have hD : ∀ out, Dumps data out ↔ out = .panic := by
        intro out
        unfold Dumps
        rw [h1]; dsimp only
        rw [h3, t1 hc]
      simp only [hD]
      refine ⟨by simp [hh, hc], ?_, ?_, ?_⟩
      · simp [hnt]
      · simp [hnt, hh]; omega
      · simp [hnt]
    · by_cases hf : 40 + (f32 data 24).toNat * 16 ≤ data.length
      · have ht : TocOK data := ⟨hh, by omega, hf⟩
        have hD : ∀ out, Dumps data out ↔
            Components data h ((List.range (f32 data 24).toNat).map (fun j => tocAt data (40 + j * 16))) out := by
          intro out
          unfold Dumps
          rw [h1]; dsimp only
          rw [h3, t2 (by omega) hf]
        obtain ⟨c1, c2, c3, c4⟩ := components_can hlen h ((List.range (f32 data 24).toNat).map (fun j => tocAt data (40 + j * 16)))
        have hex : ∀ P : Toc → Prop, (∃ t ∈ (List.range (f32 data 24).toNat).map (fun j => tocAt data (40 + j * 16)), P t) ↔
            ∃ i < (f32 data 24).toNat, P (entry data i) := by
          intro P
          simp only [List.mem_map, List.mem_range, entry]
          constructor
          · rintro ⟨_, ⟨i, hi, rfl⟩, h⟩; exact ⟨i, hi, h⟩
          · rintro ⟨i, hi, h⟩; exact ⟨_, ⟨i, hi, rfl⟩, h⟩
        have hal : ∀ P : Toc → Prop, (∀ t ∈ (List.range (f32 data 24).toNat).map (fun j => tocAt data (40 + j * 16)), P t) ↔
            ∀ i < (f32 data 24).toNat, P (entry data i) := by
          intro P
          simp only [List.mem_map, List.mem_range, entry]
          constructor
          · intro h i hi; exact h _ ⟨i, hi, rfl⟩
          · rintro h _ ⟨i, hi, rfl⟩; exact h i hi
        rw [h2] at c1 c2 c3 c4
        simp only [hD, c1, c2, c3, c4, hex, hal]
        unfold NoSureCrash AllKnown
        refine ⟨?_, ?_, ?_, ?_⟩
        · constructor
          · exact fun h => .inr ⟨ht, h⟩
          · rintro (⟨_, h⟩ | h)
            · exact absurd h hc
            · exact h.2
        · exact ⟨fun h => ⟨ht, h.2, h.1⟩, fun h => ⟨h.2.2, h.2.1⟩⟩
        · constructor
          · exact fun h => .inr (.inr ⟨ht, h⟩)
          · rintro (h | h | h)
            · exact absurd hh h
            · omega
            · exact h.2
        · exact ⟨fun h => ⟨ht, h⟩, fun h => h.2⟩
      · have hnt : ¬ TocOK data := fun h => hf h.2.2
        have hD : ∀ out, Dumps data out ↔ out = .err := by
          intro out
          unfold Dumps
          rw [h1]; dsimp only
          rw [h3, t3 (by omega) (by omega)]
        simp only [hD]
        refine ⟨by simp [hnt]; intro _; omega, by simp [hnt], ?_, by simp [hnt]⟩
        simp only [true_iff]
        exact .inr (.inl ⟨by omega, by omega⟩)
  · have hnt : ¬ TocOK data := fun h => hh h.1
    have hD : ∀ out, Dumps data out ↔ out = .err := by
      intro out
      unfold Dumps
      rw [(readHeader_iff data).2 hh]
    simp only [hD]
    refine ⟨by simp [hh, hnt], by simp [hnt], by simp [hh], by simp [hnt]⟩

/-- The records of an entry with all records inside the data are contiguous. -/
theorem canOk_iff {data : List Byte} (hlen : data.length < 2 ^ 63) (v : BitVec 32) (k : Kind) (t : Toc) :
    CanOk data v k t ↔ 0 ≤ t.count.toInt ∧
      (t.count.toNat = 0 ∨ t.offset.toNat + t.count.toNat * k.size v ≤ data.length) := by
  have hs := k.size_pos v
  unfold CanOk recAddr
  refine and_congr_right fun _ => ⟨fun h => ?_, fun h i hi => ?_⟩
  · by_cases hz : t.count.toNat = 0
    · exact .inl hz
    right
    have : ∀ n, n < t.count.toNat → t.offset.toNat + n * k.size v + k.size v ≤ data.length := by
      intro n
      induction n with
      | zero =>
        intro h0
        have := h 0 h0
        have := t.offset.isLt
        simp only [Nat.zero_mul, Nat.add_zero] at *
        rwa [Nat.mod_eq_of_lt (by omega)] at *
      | succ n ih =>
        intro hn
        have h1 := ih (by omega)
        have h2 := h (n + 1) hn
        rw [Nat.add_mul, Nat.one_mul] at *
        rw [Nat.mod_eq_of_lt (by omega)] at h2
        exact h2
    have h1 := this (t.count.toNat - 1) (by omega)
    have h2 : (t.count.toNat - 1) * k.size v + k.size v = t.count.toNat * k.size v := by
      rw [← Nat.succ_mul]; congr 1; omega
    omega
  · have h1 := key_bound (off := t.offset.toNat) (L := k.size v) hi
    rcases h with h | h
    · omega
    · rw [Nat.mod_eq_of_lt (by omega)]
      omega

theorem can_some {data : List Byte} (hlen : data.length < 2 ^ 63) (v : BitVec 32) (k : Kind) (t : Toc) :
    CanOk data v k t ∨ CanErr data v k t ∨ CanPanic data v k t := by
  obtain ⟨o, ho⟩ := readItems_exists (k.read v data) t.offset t.count (k.size v)
  obtain ⟨h1, h2, h3⟩ := kind_can hlen v k t
  cases o with
  | ok its => exact .inl (h1.1 ⟨its, ho⟩)
  | err => exact .inr (.inl (h2.1 ho))
  | panic => exact .inr (.inr (h3.1 ho))

theorem canOk_not {data : List Byte} (hlen : data.length < 2 ^ 63) {v : BitVec 32} {k : Kind} {t : Toc}
    (h : CanOk data v k t) : ¬ CanErr data v k t ∧ ¬ CanPanic data v k t := by
  have hs := k.size_pos v
  constructor
  · rintro ⟨_, i, hi, h2⟩
    have := h.2 i hi
    rw [Nat.mod_eq_of_lt (by omega)] at h2
    omega
  · rintro (h2 | ⟨i, hi, h2, _⟩)
    · have := h.1; omega
    · have := h.2 i hi
      omega

/-- C66: `Dump` returns a result under every schedule iff the header is valid and the table of contents and
all its entries, which are of known types, lie inside the data. -/
theorem C66_accepts (data : List Byte) (hlen : data.length < 2 ^ 63) :
    (∀ out, Dumps data out → ∃ D, out = .ok D) ↔
    TocOK data ∧ ∀ i < (f32 data 24).toNat, ∃ k : Kind, (entry data i).type = k.code ∧
      0 ≤ (entry data i).count.toInt ∧ ((entry data i).count.toNat = 0 ∨
        (entry data i).offset.toNat + (entry data i).count.toNat * k.size (f32 data 4) ≤ data.length) := by
  obtain ⟨h1, h2, h3, h4⟩ := C66_outcomes data hlen
  constructor
  · intro hall
    obtain ⟨out, ho⟩ := dumps_exists data
    obtain ⟨D, rfl⟩ := hall out ho
    obtain ⟨ht, hk, hn, _⟩ := h4.1 ⟨D, ho⟩
    refine ⟨ht, fun i hi => ?_⟩
    obtain ⟨k, hk1⟩ := hk i hi
    refine ⟨k, hk1, (canOk_iff hlen _ _ _).1 ?_⟩
    rcases can_some hlen (f32 data 4) k (entry data i) with h | h | h
    · exact h
    · obtain ⟨D, hD⟩ := hall .err (h3.2 (.inr (.inr ⟨ht, hk, hn, i, hi, k, hk1, h⟩)))
      cases hD
    · obtain ⟨D, hD⟩ := hall .panic (h1.2 (.inr ⟨ht, i, hi, k, hk1, h⟩))
      cases hD
  · rintro ⟨ht, hall⟩ out ho
    have hok : ∀ i < (f32 data 24).toNat, ∀ k : Kind, (entry data i).type = k.code →
        CanOk data (f32 data 4) k (entry data i) := by
      intro i hi k hk
      obtain ⟨k', hk', h⟩ := hall i hi
      obtain rfl := code_inj (hk.symm.trans hk')
      exact (canOk_iff hlen _ _ _).2 h
    cases out with
    | ok D => exact ⟨D, rfl⟩
    | panic =>
      rcases h1.1 ho with ⟨_, h⟩ | ⟨_, i, hi, k, hk, h⟩
      · have := ht.2.1; omega
      · exact absurd h (canOk_not hlen (hok i hi k hk)).2
    | hang =>
      obtain ⟨_, _, i, hi, h⟩ := h2.1 ho
      obtain ⟨k, hk, _⟩ := hall i hi
      exact absurd hk (h k)
    | err =>
      rcases h3.1 ho with h | h | ⟨_, _, _, i, hi, k, hk, h⟩
      · exact absurd ht.1 h
      · have := ht.2.2; omega
      · exact absurd h (canOk_not hlen (hok i hi k hk)).1

/-- The condition of `C66_accepts` as a computation. -/
def fits (data : List Byte) : Bool :=
  decide (data.length < 2 ^ 63) && decide (40 ≤ data.length) && decide (data.take 3 = [0x4D, 0x4D, 0x56]) &&
  decide (bytesAt data 8 8 = bytesAt data 16 8) && decide (0 ≤ (f32 data 24).toInt) &&
  decide (40 + (f32 data 24).toNat * 16 ≤ data.length) &&
  (List.range (f32 data 24).toNat).all (fun i => [Kind.indoms, .instances, .metrics, .values, .strings].any (fun k =>
    decide ((entry data i).type = k.code) && decide (0 ≤ (entry data i).count.toInt) &&
    decide ((entry data i).count.toNat = 0 ∨
      (entry data i).offset.toNat + (entry data i).count.toNat * k.size (f32 data 4) ≤ data.length)))

theorem fits_accepts {data : List Byte} (h : fits data = true) : ∃ D, Dumps data (.ok D) := by
  simp only [fits, Bool.and_eq_true, decide_eq_true_eq, List.all_eq_true, List.mem_range, List.any_eq_true] at h
  obtain ⟨⟨⟨⟨⟨⟨h0, h1⟩, h2⟩, h3⟩, h4⟩, h5⟩, h6⟩ := h
  obtain ⟨out, ho⟩ := dumps_exists data
  obtain ⟨D, rfl⟩ := (C66_accepts data h0).2 ⟨⟨⟨h1, h2, h3⟩, h4, h5⟩, fun i hi => by
    obtain ⟨k, _, ⟨hk1, hk2⟩, hk3⟩ := h6 i hi
    exact ⟨k, hk1, hk2, hk3⟩⟩ out ho
  exact ⟨D, ho⟩

/-! ### Examples -/

/-- A file with two entries for values: one record at 72, inside the data, and one at 1000. -/
def twoTocs : List Byte :=
  hdrBytes' 0x4D 1 1 2 ++ le 4 4 ++ le 4 1 ++ le 8 72 ++ le 4 4 ++ le 4 1 ++ le 8 1000 ++ zeros 32

theorem twoTocs_toc : TocOK twoTocs ∧ (f32 twoTocs 24).toNat = 2 ∧ f32 twoTocs 4 = 1 ∧ entry twoTocs 0 = ⟨4, 1, 72⟩ ∧
    entry twoTocs 1 = ⟨4, 1, 1000⟩ ∧ twoTocs.length = 104 := by
  refine ⟨⟨⟨by decide, by decide, by decide⟩, by decide, by decide⟩, by decide, by decide, by decide, by decide, by decide⟩

/-- `Dump` of this file returns a result or an error, depending on the schedule. -/
theorem twoTocs_outcomes : (∃ D, Dumps twoTocs (.ok D)) ∧ Dumps twoTocs .err ∧ ¬ Dumps twoTocs .panic ∧ ¬ Dumps twoTocs .hang := by
  obtain ⟨ht, hn, hv, h0, h1, hl⟩ := twoTocs_toc
  obtain ⟨c1, c2, c3, c4⟩ := C66_outcomes twoTocs (by rw [hl]; decide)
  have hi : ∀ i < 2, i = 0 ∨ i = 1 := by omega
  have ok0 : CanOk twoTocs 1 .values ⟨4, 1, 72⟩ :=
    (canOk_iff (by rw [hl]; decide) _ _ _).2 ⟨by decide, .inr (by rw [hl]; decide)⟩
  have err1 : CanErr twoTocs 1 .values ⟨4, 1, 1000⟩ := ⟨by decide, 0, by decide, by rw [hl]; decide⟩
  have hk : ∀ i < 2, ∀ k : Kind, (entry twoTocs i).type = k.code → k = .values := by
    intro i h k
    rcases hi i h with rfl | rfl
    · rw [h0]; cases k <;> decide
    · rw [h1]; cases k <;> decide
  have known : AllKnown twoTocs := by
    intro i h
    rw [hn] at h
    rcases hi i h with rfl | rfl
    · exact ⟨.values, by rw [h0]; rfl⟩
    · exact ⟨.values, by rw [h1]; rfl⟩
  have nsc : NoSureCrash twoTocs := by
    intro i h k hc
    rw [hn] at h
    obtain rfl := hk i h k hc
    rw [hv]
    rcases hi i h with rfl | rfl
    · rw [h0]; exact .inl ok0
    · rw [h1]; exact .inr err1
  refine ⟨c4.2 ⟨ht, known, nsc, ?_⟩, c3.2 (.inr (.inr ⟨ht, known, nsc, 1, by omega, .values, by rw [h1]; rfl, by
    rw [h1, hv]; exact err1⟩)), fun h => ?_, fun h => ?_⟩
  · intro i h k hc
    rw [hn] at h ⊢
    obtain rfl := hk i h k hc
    exact ⟨0, by omega, by rw [h0]; rfl, by rw [h0, hv]; exact ok0⟩
  · rcases c1.1 h with ⟨_, h⟩ | ⟨_, i, h, k, hc, hp⟩
    · exact absurd ht.2.1 (by omega)
    · rw [hn] at h
      obtain rfl := hk i h k hc
      rw [hv] at hp
      rcases hi i h with rfl | rfl
      · rw [h0] at hp
        exact (canOk_not (by rw [hl]; decide) ok0).2 hp
      · rw [h1] at hp
        rcases hp with hp | ⟨j, hj, hp, _⟩
        · exact absurd hp (by decide)
        · obtain rfl : j = 0 := by have : j < 1 := hj; omega
          exact absurd hp (by decide)
  · obtain ⟨_, _, i, h, hu⟩ := c2.1 h
    rw [hn] at h
    obtain ⟨k, hk⟩ := known i (by omega)
    exact hu k hk

/-- Two value records from 2^64 - 48 on: the first ends behind the data, the second reaches over 2^64. `Dump`
crashes or returns an error, depending on the schedule. -/
theorem wrapToc_outcomes : Dumps (oneToc 4 2 (2 ^ 64 - 48)) .panic ∧ Dumps (oneToc 4 2 (2 ^ 64 - 48)) .err := by
  have he : entry (oneToc 4 2 (2 ^ 64 - 48)) 0 = ⟨4, 2, 0xFFFFFFFFFFFFFFD0⟩ := by decide
  have hn : (f32 (oneToc 4 2 (2 ^ 64 - 48)) 24).toNat = 1 := by decide
  have hv : f32 (oneToc 4 2 (2 ^ 64 - 48)) 4 = 1 := by decide
  have ht : TocOK (oneToc 4 2 (2 ^ 64 - 48)) := ⟨⟨by decide, by decide, by decide⟩, by decide, by decide⟩
  obtain ⟨c1, _, c3, _⟩ := C66_outcomes (oneToc 4 2 (2 ^ 64 - 48)) (by decide)
  have herr : CanErr (oneToc 4 2 (2 ^ 64 - 48)) 1 .values ⟨4, 2, 0xFFFFFFFFFFFFFFD0⟩ :=
    ⟨by decide, 0, by decide, by decide⟩
  refine ⟨c1.2 (.inr ⟨ht, 0, by omega, .values, by rw [he]; rfl, .inr ⟨1, by rw [he]; decide, by rw [he, hv]; decide,
    by rw [he, hv]; decide⟩⟩), c3.2 (.inr (.inr ⟨ht, ?_, ?_, 0, by omega, .values, by rw [he]; rfl, by rw [he, hv]; exact herr⟩))⟩
  · intro i hi
    obtain rfl : i = 0 := by omega
    exact ⟨.values, by rw [he]; rfl⟩
  · intro i hi k hk
    obtain rfl : i = 0 := by omega
    rw [he] at hk
    obtain rfl : k = .values := by revert hk; cases k <;> decide
    rw [he, hv]
    exact .inr herr

set_option maxRecDepth 10000 in
/-- This file is accepted under every schedule, and its prefix is not. -/
example : fits (oneToc 4 2 56 ++ zeros 64) = true ∧ fits (oneToc 4 2 56 ++ zeros 63) = false := by decide

end Speed.Dump
