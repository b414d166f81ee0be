import Verif.PropsDeterm
/-
When exactly `Dump` gives the same outcome for the same bytes (C69).
-/
namespace Speed.Dump

section
variable {data : List Byte}

theorem canOk_excl {v : BitVec 32} {k : Kind} {t : Toc} (hlen : data.length < 2 ^ 63) (h : CanOk data v k t) :
    ¬ CanErr data v k t ∧ ¬ CanPanic data v k t := by
  obtain ⟨h1, h2⟩ := h
  refine ⟨?_, ?_⟩
  · rintro ⟨_, i, hi, he⟩
    have := h2 i hi
    rw [Nat.mod_eq_of_lt (by omega)] at he
    omega
  · rintro (hp | ⟨i, hi, hp, _⟩)
    · omega
    · have := h2 i hi; omega

/-- The records of an entry, in a result. -/
def Shows (data : List Byte) (k : Kind) (t : Toc) (its : List (Nat × k.Rec)) : Prop :=
  its.Perm ((List.range t.count.toNat).map fun i =>
    (t.offset.toNat + i * k.size (f32 data 4), k.recAt (f32 data 4) data (t.offset.toNat + i * k.size (f32 data 4))))

theorem shows_of (hlen : data.length < 2 ^ 63) {k : Kind} {t : Toc} (hok : CanOk data (f32 data 4) k t)
    {o : Out (List (Nat × k.Rec))} (h : ReadItems (k.read (f32 data 4) data) t.offset t.count (k.size (f32 data 4)) o) :
    ∃ its, o = .ok its ∧ Shows data k t its := by
  obtain ⟨hc, hb⟩ := (canOk_iff hlen _ _ _).1 hok
  have hw : t.offset.toNat + t.count.toNat * k.size (f32 data 4) < 2 ^ 64 := by
    have := t.offset.isLt
    rcases hb with hb | hb
    · rw [hb]; omega
    · omega
  obtain ⟨h1, h2, h3⟩ := C34_schedule_independent (f32 data 4) data k t.offset t.count hc hw h
  obtain ⟨e1, e2⟩ := canOk_excl hlen hok
  cases o with
  | ok its => exact ⟨its, rfl, (h3 its rfl).1⟩
  | err => exact absurd ((kind_can hlen _ k t).2.1.1 h) e1
  | panic => exact absurd rfl h1

/-- Where the records of a result come from. -/
theorem items_from (hlen : data.length < 2 ^ 63) {D : Result} (h : Dumps data (.ok D)) (k : Kind)
    (hok : ∀ i < (f32 data 24).toNat, (entry data i).type = k.code → CanOk data (f32 data 4) k (entry data i)) :
    (k.items D = [] ∧ ∀ i < (f32 data 24).toNat, (entry data i).type ≠ k.code) ∨
    ∃ i < (f32 data 24).toNat, (entry data i).type = k.code ∧ Shows data k (entry data i) (k.items D) := by
  obtain ⟨a1, a2, _⟩ := C33_header h
  have hv : D.header.version = f32 data 4 := by rw [a1]
  obtain ⟨_, _, secs, h1, h2⟩ := dumps_ok h
  rw [hv] at h1
  rcases h2 k with ⟨h3, h4, _⟩ | ⟨⟨o, ho, hi⟩, _⟩
  · refine .inl ⟨h4, fun i hi hk => ?_⟩
    have hm : entry data i ∈ D.tocs := by
      rw [a2]; exact List.mem_map.2 ⟨i, List.mem_range.2 hi, rfl⟩
    obtain ⟨s, hs1, hs2⟩ := secs_mem' h1 hm
    obtain ⟨o, ho, _⟩ := (secOf_code hs2 k).1 hk
    have := List.mem_filterMap.2 ⟨s, hs1, ho⟩
    rw [h3] at this; cases this
  · obtain ⟨s, hs1, hs2⟩ := List.mem_filterMap.1 ho
    obtain ⟨t, ht, hst⟩ := secs_mem2 h1 hs1
    rw [a2] at ht
    obtain ⟨i, hi', rfl⟩ := List.mem_map.1 ht
    rw [List.mem_range] at hi'
    have hk : (entry data i).type = k.code := by
      by_contra hn
      rw [(secOf_code hst k).2 hn] at hs2; cases hs2
    obtain ⟨o', e1, e2⟩ := (secOf_code hst k).1 hk
    rw [hs2] at e1
    cases e1
    obtain ⟨its, rfl, hs⟩ := shows_of hlen (hok i hi' hk) e2
    refine .inr ⟨i, hi', hk, ?_⟩
    rw [hi]; exact hs

/-- The records of any entry of a kind can be those of the result. -/
theorem choose_entry (hlen : data.length < 2 ^ 63) (ht : TocOK data) (hkn : AllKnown data)
    (hok : ∀ i < (f32 data 24).toNat, ∀ k : Kind, (entry data i).type = k.code → CanOk data (f32 data 4) k (entry data i))
    {i : Nat} (hi : i < (f32 data 24).toNat) {k : Kind} (hk : (entry data i).type = k.code) :
    ∃ D, Dumps data (.ok D) ∧ Shows data k (entry data i) (k.items D) := by
  obtain ⟨hdr, h1, h2, h3⟩ := (readHeader_iff data).1 ht.1
  have t2 := (readTocs_iff hlen ht.1.1 (f32 data 24)).2.1 ht.2.1 ht.2.2
  obtain ⟨ts, hts⟩ : ∃ ts, ts = (List.range (f32 data 24).toNat).map (fun j => tocAt data (40 + j * 16)) := ⟨_, rfl⟩
  have hmem : ∀ t ∈ ts, ∃ i < (f32 data 24).toNat, t = entry data i := by
    intro t h
    rw [hts] at h
    obtain ⟨i, hi, rfl⟩ := List.mem_map.1 h
    exact ⟨i, List.mem_range.1 hi, rfl⟩
  obtain ⟨secs, hs⟩ := forall₂_choose (ts := ts) (P := SecOf data (f32 data 4)) (fun t _ => secOf_exists data _ t)
  have hfrom : ∀ k' : Kind, ∀ o ∈ secs.filterMap k'.sec?, ∃ its, o = .ok its := by
    intro k' o ho
    obtain ⟨s, hs1, hs2⟩ := List.mem_filterMap.1 ho
    obtain ⟨t, ht', hst⟩ := secs_mem2 hs hs1
    obtain ⟨j, hj, rfl⟩ := hmem t ht'
    have hk' : (entry data j).type = k'.code := by
      by_contra hn
      rw [(secOf_code hst k').2 hn] at hs2; cases hs2
    obtain ⟨o', e1, e2⟩ := (secOf_code hst k').1 hk'
    rw [hs2] at e1
    cases e1
    obtain ⟨its, rfl, _⟩ := shows_of hlen (hok j hj k' hk') e2
    exact ⟨its, rfl⟩
  have hem : entry data i ∈ ts := by rw [hts]; exact List.mem_map.2 ⟨i, List.mem_range.2 hi, rfl⟩
  obtain ⟨s0, hs0, hst0⟩ := secs_mem' hs hem
  obtain ⟨o0, ho0, hr0⟩ := (secOf_code hst0 k).1 hk
  obtain ⟨its0, rfl, hsh⟩ := shows_of hlen (hok i hi k hk) hr0
  have hm0 : Out.ok its0 ∈ secs.filterMap k.sec? := List.mem_filterMap.2 ⟨s0, hs0, ho0⟩
  have hex : ∀ k' : Kind, ∃ m, Pick (secs.filterMap k'.sec?) m false ∧ ∀ h : k' = k, h ▸ m = its0 := by
    intro k'
    by_cases hkk : k' = k
    · subst hkk
      exact ⟨its0, pick_of hm0, fun _ => rfl⟩
    · obtain ⟨m, e, hp⟩ := pick_exists (secs.filterMap k'.sec?)
      have he : e = false := by
        rcases hp with ⟨_, _, he⟩ | ⟨_, o, ho, he⟩
        · exact he
        · obtain ⟨its, rfl⟩ := hfrom k' o ho
          exact he
      subst he
      exact ⟨m, hp, fun h => absurd h hkk⟩
  choose m hm using hex
  have hmk : m k = its0 := (hm k).2 rfl
  refine ⟨⟨hdr, ts, m .metrics, m .values, m .instances, m .indoms, m .strings⟩, ?_, ?_⟩
  · unfold Dumps
    rw [h1]; dsimp only
    rw [h3, t2, ← hts]
    refine components_iff.2 ⟨secs, by rw [h2]; exact hs, .inr (.inr ⟨?_, ?_, m, fun _ => false, fun k => (hm k).1,
      .inr ⟨fun _ => rfl, rfl⟩⟩)⟩
    · intro s hs1
      rw [← Bool.not_eq_true, sec_panic_iff]
      rintro ⟨k', h6⟩
      obtain ⟨its, h7⟩ := hfrom k' _ (List.mem_filterMap.2 ⟨s, hs1, h6⟩)
      cases h7
    · intro hu
      obtain ⟨t, ht', hst⟩ := secs_mem2 hs hu
      obtain ⟨j, hj, rfl⟩ := hmem t ht'
      obtain ⟨k', hk'⟩ := hkn j hj
      exact (unknown_iff hst).1 rfl k' hk'
  · have : k.items ⟨hdr, ts, m .metrics, m .values, m .instances, m .indoms, m .strings⟩ = m k := by cases k <;> rfl
    rw [this, hmk]
    exact hsh

/-- Two entries list the same records: none, or the same place and number. -/
def SamePlace (t t' : Toc) : Prop := t.count = t'.count ∧ (t.count.toNat = 0 ∨ t.offset = t'.offset)

theorem shows_same {k : Kind} {t t' : Toc} {a b : List (Nat × k.Rec)} (ha : Shows data k t a) (hb : Shows data k t' b)
    (hab : a.Perm b) : SamePlace t t' := by
  have hp := ha.symm.trans (hab.trans hb)
  have hl := hp.length_eq
  simp only [List.length_map, List.length_range] at hl
  refine ⟨BitVec.eq_of_toNat_eq hl, ?_⟩
  by_cases h0 : t.count.toNat = 0
  · exact .inl h0
  right
  have hk := hp.map Prod.fst
  simp only [List.map_map] at hk
  have m1 : t.offset.toNat ∈ (List.range t'.count.toNat).map (Prod.fst ∘ fun i =>
      (t'.offset.toNat + i * k.size (f32 data 4), k.recAt (f32 data 4) data (t'.offset.toNat + i * k.size (f32 data 4)))) :=
    hk.mem_iff.1 (List.mem_map.2 ⟨0, List.mem_range.2 (by omega), by simp⟩)
  have m2 : t'.offset.toNat ∈ (List.range t.count.toNat).map (Prod.fst ∘ fun i =>
      (t.offset.toNat + i * k.size (f32 data 4), k.recAt (f32 data 4) data (t.offset.toNat + i * k.size (f32 data 4)))) :=
    hk.mem_iff.2 (List.mem_map.2 ⟨0, List.mem_range.2 (by omega), by simp⟩)
  obtain ⟨x, _, hx⟩ := List.mem_map.1 m1
  obtain ⟨y, _, hy⟩ := List.mem_map.1 m2
  simp only [Function.comp] at hx hy
  exact BitVec.eq_of_toNat_eq (by omega)

theorem same_shows {k : Kind} {t t' : Toc} {a b : List (Nat × k.Rec)} (ha : Shows data k t a) (hb : Shows data k t' b)
    (h : SamePlace t t') : a.Perm b := by
  obtain ⟨hc, h⟩ := h
  refine ha.trans (List.Perm.trans ?_ hb.symm)
  rw [← hc]
  rcases h with h | h
  · rw [h]; exact .refl _
  · rw [h]

end

/-- C69, exactly: the outcome is the same under every schedule iff one of these holds: the header or the table of contents is
wrong; some section crashes in any case; no section can crash and one is of an unknown type, or some kind has only sections that
do not fit, or all sections fit and those of one kind are at the same place. -/
theorem C69_exact (data : List Byte) (hlen : data.length < 2 ^ 63) :
    (∀ o o', Dumps data o → Dumps data o' → Same o o') ↔
    ¬ TocOK data ∨ ¬ NoSureCrash data ∨
    (∀ i < (f32 data 24).toNat, ∀ k : Kind, (entry data i).type = k.code → ¬ CanPanic data (f32 data 4) k (entry data i)) ∧
    (¬ AllKnown data ∨
     (∃ i < (f32 data 24).toNat, ∃ k : Kind, (entry data i).type = k.code ∧
        ∀ j < (f32 data 24).toNat, (entry data j).type = k.code → ¬ CanOk data (f32 data 4) k (entry data j)) ∨
     (∀ i < (f32 data 24).toNat, ∀ k : Kind, (entry data i).type = k.code → CanOk data (f32 data 4) k (entry data i)) ∧
      ∀ i < (f32 data 24).toNat, ∀ j < (f32 data 24).toNat, (entry data i).type = (entry data j).type →
        SamePlace (entry data i) (entry data j)) := by
  obtain ⟨c1, c2, c3, c4⟩ := C66_outcomes data hlen
  have hokay : NoSureCrash data → (∀ i < (f32 data 24).toNat, ∀ k : Kind, (entry data i).type = k.code →
      ¬ CanErr data (f32 data 4) k (entry data i)) → ∀ i < (f32 data 24).toNat, ∀ k : Kind, (entry data i).type = k.code →
      CanOk data (f32 data 4) k (entry data i) := fun hn he i hi k hk => (hn i hi k hk).resolve_right (he i hi k hk)
  constructor
  · intro hdet
    by_cases ht : TocOK data
    swap
    · exact .inl ht
    by_cases hn : NoSureCrash data
    swap
    · exact .inr (.inl hn)
    refine .inr (.inr ⟨fun i hi k hk hp => ?_, ?_⟩)
    · have hpan := c1.2 (.inr ⟨ht, i, hi, k, hk, hp⟩)
      by_cases hkn : AllKnown data
      · by_cases he : ∃ i < (f32 data 24).toNat, ∃ k : Kind, (entry data i).type = k.code ∧ CanErr data (f32 data 4) k (entry data i)
        · exact hdet _ _ hpan (c3.2 (.inr (.inr ⟨ht, hkn, hn, he⟩)))
        · have hok := hokay hn fun i hi k hk h => he ⟨i, hi, k, hk, h⟩
          obtain ⟨D, hD⟩ := c4.2 ⟨ht, hkn, hn, fun i hi k hk => ⟨i, hi, hk, hok i hi k hk⟩⟩
          exact hdet _ _ hpan hD
      · have : ∃ i < (f32 data 24).toNat, ∀ k : Kind, (entry data i).type ≠ k.code := by
          unfold AllKnown at hkn
          push Not at hkn
          exact hkn
        exact hdet _ _ hpan (c2.2 ⟨ht, hn, this⟩)
    · by_cases hkn : AllKnown data
      swap
      · exact .inl hkn
      right
      by_cases hno : ∃ i < (f32 data 24).toNat, ∃ k : Kind, (entry data i).type = k.code ∧
          ∀ j < (f32 data 24).toNat, (entry data j).type = k.code → ¬ CanOk data (f32 data 4) k (entry data j)
      · exact .inl hno
      right
      push Not at hno
      obtain ⟨D, hD⟩ := c4.2 ⟨ht, hkn, hn, fun i hi k hk => by
        obtain ⟨j, h1, h2, h3⟩ := hno i hi k hk
        exact ⟨j, h1, h2, h3⟩⟩
      have hok := hokay hn fun i hi k hk h =>
        hdet _ _ hD (c3.2 (.inr (.inr ⟨ht, hkn, hn, i, hi, k, hk, h⟩)))
      refine ⟨hok, fun i hi j hj hij => ?_⟩
      obtain ⟨k, hk⟩ := hkn i hi
      obtain ⟨D1, d1, s1⟩ := choose_entry hlen ht hkn hok hi hk
      obtain ⟨D2, d2, s2⟩ := choose_entry hlen ht hkn hok hj (hij ▸ hk)
      exact shows_same s1 s2 ((hdet _ _ d1 d2).2.2 k)
  · intro hcond
    have hone : ∀ {x : DumpOut}, (∀ o, Dumps data o → o = x) → Same x x → ∀ o o', Dumps data o → Dumps data o' → Same o o' := by
      intro x hx hs o o' h h'
      rw [hx o h, hx o' h']; exact hs
    by_cases ht : TocOK data
    swap
    · by_cases hh : HeaderOK data ∧ (f32 data 24).toInt < 0
      · refine hone (x := .panic) (fun o ho => ?_) trivial
        cases o with
        | panic => rfl
        | hang => exact absurd (c2.1 ho).1 ht
        | ok D => exact absurd (c4.1 ⟨D, ho⟩).1 ht
        | err =>
          rcases c3.1 ho with h | ⟨h, _⟩ | h
          · exact absurd hh.1 h
          · omega
          · exact absurd h.1 ht
      · refine hone (x := .err) (fun o ho => ?_) trivial
        cases o with
        | err => rfl
        | hang => exact absurd (c2.1 ho).1 ht
        | ok D => exact absurd (c4.1 ⟨D, ho⟩).1 ht
        | panic =>
          rcases c1.1 ho with h | h
          · exact absurd h hh
          · exact absurd h.1 ht
    have hnerr : ∀ {P : Prop}, (¬ HeaderOK data ∨ (0 ≤ (f32 data 24).toInt ∧ data.length < 40 + (f32 data 24).toNat * 16) ∨ P) → P := by
      rintro P (h | ⟨_, h⟩ | h)
      · exact absurd ht.1 h
      · have := ht.2.2; omega
      · exact h
    by_cases hn : NoSureCrash data
    swap
    · refine hone (x := .panic) (fun o ho => ?_) trivial
      cases o with
      | panic => rfl
      | hang => exact absurd (c2.1 ho).2.1 hn
      | ok D => exact absurd (c4.1 ⟨D, ho⟩).2.2.1 hn
      | err => exact absurd (hnerr (c3.1 ho)).2.2.1 hn
    obtain ⟨hnp, hrest⟩ := (hcond.resolve_left (not_not.2 ht)).resolve_left (not_not.2 hn)
    have hnopanic : ¬ Dumps data .panic := by
      intro hp
      rcases c1.1 hp with ⟨_, h⟩ | ⟨_, i, hi, k, hk, h⟩
      · have := ht.2.1; omega
      · exact hnp i hi k hk h
    by_cases hkn : AllKnown data
    swap
    · refine hone (x := .hang) (fun o ho => ?_) trivial
      cases o with
      | hang => rfl
      | panic => exact absurd ho hnopanic
      | ok D => exact absurd (c4.1 ⟨D, ho⟩).2.1 hkn
      | err => exact absurd (hnerr (c3.1 ho)).2.1 hkn
    have hnohang : ¬ Dumps data .hang := by
      intro hh
      obtain ⟨_, _, i, hi, hu⟩ := c2.1 hh
      obtain ⟨k, hk⟩ := hkn i hi
      exact hu k hk
    rcases hrest.resolve_left (not_not.2 hkn) with ⟨i, hi, k, hk, hnone⟩ | ⟨hok, hpl⟩
    · refine hone (x := .err) (fun o ho => ?_) trivial
      cases o with
      | err => rfl
      | panic => exact absurd ho hnopanic
      | hang => exact absurd ho hnohang
      | ok D =>
        obtain ⟨j, h1, h2, h3⟩ := (c4.1 ⟨D, ho⟩).2.2.2 i hi k hk
        exact absurd h3 (hnone j h1 h2)
    · have hnoerr : ¬ Dumps data .err := by
        intro he
        obtain ⟨_, _, _, i, hi, k, hk, h⟩ := hnerr (c3.1 he)
        exact (canOk_excl hlen (hok i hi k hk)).1 h
      have hall : ∀ o, Dumps data o → ∃ D, o = .ok D := by
        intro o ho
        cases o with
        | ok D => exact ⟨D, rfl⟩
        | err => exact absurd ho hnoerr
        | panic => exact absurd ho hnopanic
        | hang => exact absurd ho hnohang
      intro o o' ho ho'
      obtain ⟨D, rfl⟩ := hall o ho
      obtain ⟨D', rfl⟩ := hall o' ho'
      obtain ⟨a1, a2, _⟩ := C33_header ho
      obtain ⟨b1, b2, _⟩ := C33_header ho'
      refine ⟨a1.trans b1.symm, a2.trans b2.symm, fun k => ?_⟩
      rcases items_from hlen ho k (fun i hi hk => hok i hi k hk) with ⟨x1, x2⟩ | ⟨i, hi, hik, hsi⟩
      · rcases items_from hlen ho' k (fun i hi hk => hok i hi k hk) with ⟨y1, _⟩ | ⟨j, hj, hjk, _⟩
        · rw [x1, y1]
        · exact absurd hjk (x2 j hj)
      · rcases items_from hlen ho' k (fun i hi hk => hok i hi k hk) with ⟨_, y2⟩ | ⟨j, hj, hjk, hsj⟩
        · exact absurd hik (y2 i hi)
        · exact same_shows hsi hsj (hpl i hi j hj (hik.trans hjk.symm))

/-- Two sections of one value each, at `a` and at `b`. -/
def twice (a b : Nat) : List Byte :=
  hdrBytes' 0x4D 1 1 2 ++ le 4 4 ++ le 4 1 ++ le 8 a ++ le 4 4 ++ le 4 1 ++ le 8 b ++ zeros 64

set_option maxRecDepth 10000 in
/-- Listed twice at one place: one outcome. -/
example {o o' : DumpOut} (h : Dumps (twice 72 72) o) (h' : Dumps (twice 72 72) o') : Same o o' := by
  have hn : (f32 (twice 72 72) 24).toNat = 2 := by decide
  have he : ∀ i < 2, entry (twice 72 72) i = ⟨4, 1, 72⟩ := by decide
  have hv : f32 (twice 72 72) 4 = 1 := by decide
  have hok : ∀ i < (f32 (twice 72 72) 24).toNat, ∀ k : Kind, (entry (twice 72 72) i).type = k.code →
      CanOk (twice 72 72) (f32 (twice 72 72) 4) k (entry (twice 72 72) i) := by
    intro i hi k
    rw [hn] at hi
    rw [he i hi, hv]
    cases k <;> first | (intro hk; exact absurd hk (by decide)) | (intro _; exact ⟨by decide, by decide⟩)
  refine (C69_exact _ (by decide)).2 (.inr (.inr ⟨fun i hi k hk => (canOk_excl (by decide) (hok i hi k hk)).2,
    .inr (.inr ⟨hok, fun i hi j hj _ => ?_⟩)⟩)) o o' h h'
  rw [hn] at hi hj
  rw [he i hi, he j hj]
  exact ⟨rfl, .inr rfl⟩

set_option maxRecDepth 10000 in
/-- Listed twice at two places: two outcomes. -/
example : ¬ ∀ o o', Dumps (twice 72 104) o → Dumps (twice 72 104) o' → Same o o' := by
  have hn : (f32 (twice 72 104) 24).toNat = 2 := by decide
  have he0 : entry (twice 72 104) 0 = ⟨4, 1, 72⟩ := by decide
  have he1 : entry (twice 72 104) 1 = ⟨4, 1, 104⟩ := by decide
  have hv : f32 (twice 72 104) 4 = 1 := by decide
  have hok : ∀ i < (f32 (twice 72 104) 24).toNat, ∀ k : Kind, (entry (twice 72 104) i).type = k.code →
      CanOk (twice 72 104) (f32 (twice 72 104) 4) k (entry (twice 72 104) i) := by
    intro i hi k
    rw [hn] at hi
    obtain rfl | rfl : i = 0 ∨ i = 1 := by omega
    · rw [he0, hv]
      cases k <;> first | (intro hk; exact absurd hk (by decide)) | (intro _; exact ⟨by decide, by decide⟩)
    · rw [he1, hv]
      cases k <;> first | (intro hk; exact absurd hk (by decide)) | (intro _; exact ⟨by decide, by decide⟩)
  have hkn : AllKnown (twice 72 104) := by
    intro i hi
    rw [hn] at hi
    refine ⟨.values, ?_⟩
    obtain rfl | rfl : i = 0 ∨ i = 1 := by omega
    · rw [he0]; rfl
    · rw [he1]; rfl
  intro h
  rcases (C69_exact _ (by decide)).1 h with h | h | ⟨_, h | ⟨i, hi, k, hk, h⟩ | ⟨_, h⟩⟩
  · exact h ⟨⟨by decide, by decide, by decide⟩, by decide, by decide⟩
  · exact h fun i hi k hk => .inl (hok i hi k hk)
  · exact h hkn
  · exact h i hi hk (hok i hi k hk)
  · have := (h 0 (by omega) 1 (by omega) (by rw [he0, he1])).2
    rw [he0, he1] at this
    revert this; decide

end Speed.Dump
