import Verif.PropsDump
/-
Which outcomes `readItems` and `Dump` can have, for any bytes: lemmas for C66.
-/
namespace Speed.Dump

section
variable {α : Type} {rd : Nat → Out α} {keys : List Nat}

theorem IReach.head {s t u : IState α} (h : IStep rd keys s t) (h2 : IReach rd keys t u) : IReach rd keys s u := by
  induction h2 with
  | refl => exact .tail .refl h
  | tail _ h3 ih => exact .tail ih h3

theorem ireach_trans {s t u : IState α} (h : IReach rd keys s t) (h2 : IReach rd keys t u) : IReach rd keys s u := by
  induction h2 with
  | refl => exact h
  | tail _ h3 ih => exact .tail ih h3

theorem iinit_pcs {i : Nat} (hi : i < keys.length) : (iinit keys : IState α).pcs[i]? = some .start := by
  simp [iinit, hi]

/-- A goroutine whose read panics can be the first to run. -/
theorem can_crash {i k : Nat} (hk : keys[i]? = some k) (hp : rd k = .panic) :
    ∃ s, IReach rd keys (iinit keys) s ∧ s.crashed = true := by
  have hi : i < keys.length := (List.getElem?_eq_some_iff.1 hk).1
  have h1 : istep rd keys (iinit keys) i = some { (iinit keys : IState α) with pcs := (iinit keys : IState α).pcs.set i .read } := by
    unfold istep
    rw [if_neg (by simp [iinit]), iinit_pcs hi, hk]
    simp [iinit]
  refine ⟨{ (iinit keys : IState α) with pcs := (iinit keys : IState α).pcs.set i .read, crashed := true }, ?_, rfl⟩
  refine .tail (.tail .refl ⟨i, h1⟩) ⟨i, ?_⟩
  unfold istep
  have h2 : ((iinit keys : IState α).pcs.set i .read)[i]? = some .read := by
    rw [List.getElem?_set_self (by simpa [iinit] using hi)]
  dsimp only
  rw [if_neg (by simp [iinit]), h2, hk]
  dsimp only
  rw [hp]

/-- All goroutines are at the beginning or past the read. -/
def Safe (s : IState α) : Prop :=
  s.err = true ∧ s.crashed = false ∧ ∀ pc ∈ s.pcs, pc = .start ∨ pc = .fin ∨ pc = .done

theorem safe_step {s t : IState α} (h : Safe s) (hs : IStep rd keys s t) : Safe t := by
  obtain ⟨he, hc, hp⟩ := h
  obtain ⟨i, hs⟩ := hs
  unfold istep at hs
  rw [if_neg (by simp [hc])] at hs
  have hset : ∀ (q : Pc α), (q = .start ∨ q = .fin ∨ q = .done) →
      ∀ pc ∈ s.pcs.set i q, pc = .start ∨ pc = .fin ∨ pc = .done := by
    intro q hq pc hpc
    rcases List.mem_or_eq_of_mem_set hpc with h | rfl
    · exact hp pc h
    · exact hq
  cases hpc : s.pcs[i]? with
  | none => rw [hpc] at hs; cases hs
  | some pc =>
    cases hk : keys[i]? with
    | none => rw [hpc, hk] at hs; cases hs
    | some k =>
      rw [hpc, hk] at hs
      rcases hp pc (List.mem_of_getElem? hpc) with rfl | rfl | rfl
      · simp only [he, if_true, Option.some.injEq] at hs
        subst hs
        exact ⟨rfl, hc, hset _ (.inr (.inl rfl))⟩
      · simp only [Option.some.injEq] at hs
        subst hs
        exact ⟨he, hc, hset _ (.inr (.inr rfl))⟩
      · cases hs

theorem safe_reach {s t : IState α} (h : Safe s) (hs : IReach rd keys s t) : Safe t := by
  induction hs with
  | refl => exact h
  | tail _ h2 ih => exact safe_step ih h2

/-- A goroutine whose read fails can be the first to run; the others then read nothing. -/
theorem can_fail {i k : Nat} (hk : keys[i]? = some k) (hp : rd k = .err) :
    ∃ s, IReach rd keys (iinit keys) s ∧ s.crashed = false ∧ s.wg = 0 ∧ s.err = true := by
  have hi : i < keys.length := (List.getElem?_eq_some_iff.1 hk).1
  have hl : (iinit keys : IState α).pcs.length = keys.length := by simp [iinit]
  have h1 : istep rd keys (iinit keys) i = some { (iinit keys : IState α) with pcs := (iinit keys : IState α).pcs.set i .read } := by
    unfold istep
    rw [if_neg (by simp [iinit]), iinit_pcs hi, hk]
    simp [iinit]
  have h2 : istep rd keys { (iinit keys : IState α) with pcs := (iinit keys : IState α).pcs.set i .read } i =
      some { (iinit keys : IState α) with pcs := ((iinit keys : IState α).pcs.set i .read).set i .setErr } := by
    unfold istep
    dsimp only
    rw [if_neg (by simp [iinit]), List.getElem?_set_self (by omega), hk]
    dsimp only
    rw [hp]
  have h3 : istep rd keys { (iinit keys : IState α) with pcs := ((iinit keys : IState α).pcs.set i .read).set i .setErr } i =
      some { (iinit keys : IState α) with err := true, pcs := (((iinit keys : IState α).pcs.set i .read).set i .setErr).set i .fin } := by
    unfold istep
    dsimp only
    rw [if_neg (by simp [iinit]), List.getElem?_set_self (by simp; omega), hk]
  have hr := IReach.tail (.tail (.tail .refl ⟨i, h1⟩) ⟨i, h2⟩) ⟨i, h3⟩
  have hsafe : Safe { (iinit keys : IState α) with err := true, pcs := (((iinit keys : IState α).pcs.set i .read).set i .setErr).set i .fin } := by
    refine ⟨rfl, rfl, fun pc hpc => ?_⟩
    dsimp only at hpc
    rw [List.set_set, List.set_set] at hpc
    rcases List.mem_or_eq_of_mem_set hpc with h | rfl
    · simp only [iinit, List.mem_map] at h
      obtain ⟨_, _, rfl⟩ := h
      exact .inl rfl
    · exact .inr (.inl rfl)
  obtain ⟨t, ht, hf⟩ := ireach_final (iinv_reach iinv_init rfl hr).1 hsafe.2.1
  obtain ⟨h4, h5, _⟩ := safe_reach hsafe ht
  refine ⟨t, ireach_trans hr ht, h5, ?_, h4⟩
  rcases hf with h | h
  · rw [h5] at h; cases h
  · exact h

/-- The possible results of `readItems`. -/
theorem readItems_can {off : BitVec 64} {count : BitVec 32} {L : Nat} (hL : 0 < L) (hL2 : L ≤ 256) :
    (ReadItems rd off count L .panic ↔
      count.toInt < 0 ∨ ∃ k ∈ itemKeys off.toNat L count.toNat, rd k = .panic) ∧
    (ReadItems rd off count L .err ↔
      0 ≤ count.toInt ∧ ∃ k ∈ itemKeys off.toNat L count.toNat, rd k = .err) ∧
    ((∃ its, ReadItems rd off count L (.ok its)) ↔
      0 ≤ count.toInt ∧ ∀ k ∈ itemKeys off.toNat L count.toNat, ∃ x, rd k = .ok x) := by
  have hcnt := count.isLt
  have hnd : (itemKeys off.toNat L count.toNat).Nodup := by
    apply itemKeys_nodup hL
    calc count.toNat * L ≤ 2 ^ 32 * 256 := Nat.mul_le_mul (by omega) hL2
      _ ≤ 2 ^ 64 := by decide
  unfold ReadItems
  by_cases hc : count.toInt < 0
  · simp only [if_pos hc]
    refine ⟨by simp [hc], ?_, ?_⟩
    · constructor
      · intro h; cases h
      · rintro ⟨h, _⟩; omega
    · constructor
      · rintro ⟨_, h⟩; cases h
      · rintro ⟨h, _⟩; omega
  · simp only [if_neg hc]
    refine ⟨⟨?_, ?_⟩, ⟨?_, ?_⟩, ⟨?_, ?_⟩⟩
    · rintro ⟨s, hs, h⟩
      rcases h with ⟨h1, _⟩ | ⟨_, _, h3⟩
      · exact .inr ((iinv_reach iinv_init rfl hs).2 h1)
      · split at h3 <;> cases h3
    · rintro (h | ⟨k, hk, hp⟩)
      · exact absurd h hc
      · obtain ⟨i, hi⟩ := List.getElem?_of_mem hk
        obtain ⟨s, hs, h⟩ := can_crash hi hp
        exact ⟨s, hs, .inl ⟨h, trivial⟩⟩
    · rintro ⟨s, hs, h⟩
      rcases h with ⟨_, h⟩ | ⟨_, h2, h3⟩
      · cases h
      · refine ⟨by omega, ?_⟩
        split at h3
        · rename_i he
          exact (items_final hnd hs h2).1.1 he
        · cases h3
    · rintro ⟨_, k, hk, hp⟩
      obtain ⟨i, hi⟩ := List.getElem?_of_mem hk
      obtain ⟨s, hs, h1, h2, h3⟩ := can_fail hi hp
      exact ⟨s, hs, .inr ⟨h1, h2, by rw [if_pos h3]⟩⟩
    · rintro ⟨its, s, hs, h⟩
      rcases h with ⟨_, h⟩ | ⟨_, h2, h3⟩
      · cases h
      · refine ⟨by omega, ?_⟩
        split at h3
        · cases h3
        · rename_i he
          exact ((items_final hnd hs h2).2 (by simpa using he)).1
    · rintro ⟨_, hall⟩
      obtain ⟨out, ho⟩ := readItems_exists rd off count L
      have ho' := ho
      obtain ⟨its, rfl, _⟩ := (readItems_out (by omega) hL hL2 (fun k hk => by
        obtain ⟨x, hx⟩ := hall k hk
        rw [hx]; simp) ho).2 hall
      unfold ReadItems at ho'
      rw [if_neg hc] at ho'
      exact ⟨its, ho'⟩

end

/-- Reading one record at any offset below 2^64. -/
def Reads3 {α : Type} (data : List Byte) (L : Nat) (rd : Nat → Out α) : Prop :=
  ∀ k, k < 2 ^ 64 → ((∃ x, rd k = .ok x) ↔ k + L ≤ data.length) ∧ (rd k = .err ↔ data.length < (k + L) % 2 ^ 64) ∧
    (rd k = .panic ↔ 2 ^ 64 ≤ k + L ∧ k + L - 2 ^ 64 ≤ data.length)

theorem guardRead_reads3 {α : Type} {data : List Byte} {L S : Nat} {x : α} {k : Nat} (hlen : data.length < 2 ^ 63)
    (hS : S ≤ L) (hL : 0 < L) (hL2 : L ≤ 256) (hk : k < 2 ^ 64) :
    ((∃ y, guardRead data k L S x = .ok y) ↔ k + L ≤ data.length) ∧
    (guardRead data k L S x = .err ↔ data.length < (k + L) % 2 ^ 64) ∧
    (guardRead data k L S x = .panic ↔ 2 ^ 64 ≤ k + L ∧ k + L - 2 ^ 64 ≤ data.length) := by
  unfold guardRead
  by_cases h1 : data.length < (k + L) % 2 ^ 64
  · simp only [if_pos h1]
    refine ⟨⟨?_, ?_⟩, ⟨fun _ => h1, fun _ => trivial⟩, ⟨?_, ?_⟩⟩
    · rintro ⟨_, h⟩; cases h
    · intro h; omega
    · intro h; cases h
    · intro h; omega
  · simp only [if_neg h1]
    by_cases h2 : k + S ≤ data.length ∧ k < data.length
    · simp only [if_pos h2]
      refine ⟨⟨fun _ => by omega, fun _ => ⟨_, rfl⟩⟩, ⟨?_, fun h => absurd h h1⟩, ⟨?_, ?_⟩⟩
      · intro h; cases h
      · intro h; cases h
      · intro h; omega
    · simp only [if_neg h2]
      refine ⟨⟨?_, ?_⟩, ⟨?_, fun h => absurd h h1⟩, ⟨fun _ => by omega, fun _ => trivial⟩⟩
      · rintro ⟨_, h⟩; cases h
      · intro h; omega
      · intro h; cases h

theorem Kind.read_guard (version : BitVec 32) (data : List Byte) (k : Kind) (a : Nat) :
    ∃ S x, S ≤ k.size version ∧ k.read version data a = guardRead data a (k.size version) S x := by
  cases k with
  | indoms => exact ⟨32, _, Nat.le_refl _, rfl⟩
  | values => exact ⟨32, _, Nat.le_refl _, rfl⟩
  | strings => exact ⟨256, _, Nat.le_refl _, rfl⟩
  | instances =>
    have h0 : 24 ≤ Kind.size version .instances := by simp only [Kind.size]; split <;> omega
    by_cases h : version = 1
    · subst h
      exact ⟨80, _, Nat.le_refl _, rfl⟩
    · refine ⟨24, ⟨f64 data a, f32 data (a + 8), f32 data (a + 12), .ref (f64 data (a + 16))⟩, h0, ?_⟩
      show readInstance version data a = _
      unfold readInstance
      rw [if_neg h]
      rfl
  | metrics =>
    have h0 : 48 ≤ Kind.size version .metrics := by simp only [Kind.size]; split <;> omega
    by_cases h : version = 1
    · subst h
      exact ⟨104, _, Nat.le_refl _, rfl⟩
    · refine ⟨48, metricBase data (.ref (f64 data a)) (a + 8), h0, ?_⟩
      show readMetric version data a = _
      unfold readMetric
      rw [if_neg h]
      rfl

theorem Kind.reads3 {data : List Byte} (hlen : data.length < 2 ^ 63) (version : BitVec 32) (k : Kind) :
    Reads3 data (k.size version) (k.read version data) := by
  intro a ha
  have hs := k.size_pos version
  obtain ⟨S, x, h1, h2⟩ := k.read_guard version data a
  rw [h2]
  exact guardRead_reads3 hlen h1 hs.1 hs.2 ha

/-! ### Entries of the table of contents -/

/-- Address of record `i` of an entry (mmvdump/mmvdump.go:135); addresses are computed modulo 2^64. -/
def recAddr (version : BitVec 32) (k : Kind) (t : Toc) (i : Nat) : Nat :=
  (t.offset.toNat + i * k.size version) % 2 ^ 64

/-- All records of the entry lie inside the data. -/
def CanOk (data : List Byte) (version : BitVec 32) (k : Kind) (t : Toc) : Prop :=
  0 ≤ t.count.toInt ∧ ∀ i < t.count.toNat, recAddr version k t i + k.size version ≤ data.length

/-- Some record of the entry ends behind the data; the end is computed modulo 2^64. -/
def CanErr (data : List Byte) (version : BitVec 32) (k : Kind) (t : Toc) : Prop :=
  0 ≤ t.count.toInt ∧ ∃ i < t.count.toNat, data.length < (recAddr version k t i + k.size version) % 2 ^ 64

/-- The count is negative, or some record of the entry reaches over 2^64 and its end, computed modulo 2^64,
is inside the data. -/
def CanPanic (data : List Byte) (version : BitVec 32) (k : Kind) (t : Toc) : Prop :=
  t.count.toInt < 0 ∨ ∃ i < t.count.toNat, 2 ^ 64 ≤ recAddr version k t i + k.size version ∧
    recAddr version k t i + k.size version - 2 ^ 64 ≤ data.length

theorem kind_can {data : List Byte} (hlen : data.length < 2 ^ 63) (version : BitVec 32) (k : Kind) (t : Toc) :
    ((∃ its, ReadItems (k.read version data) t.offset t.count (k.size version) (.ok its)) ↔ CanOk data version k t) ∧
    (ReadItems (k.read version data) t.offset t.count (k.size version) .err ↔ CanErr data version k t) ∧
    (ReadItems (k.read version data) t.offset t.count (k.size version) .panic ↔ CanPanic data version k t) := by
  obtain ⟨h1, h2, h3⟩ := readItems_can (rd := k.read version data) (off := t.offset) (count := t.count)
    (k.size_pos version).1 (k.size_pos version).2
  have hr := k.reads3 hlen version
  have hkey : ∀ P : Nat → Prop, (∃ a ∈ itemKeys t.offset.toNat (k.size version) t.count.toNat, P a) ↔
      ∃ i < t.count.toNat, P (recAddr version k t i) := by
    intro P
    unfold itemKeys recAddr
    simp only [List.mem_map, List.mem_range]
    constructor
    · rintro ⟨_, ⟨i, hi, rfl⟩, h⟩; exact ⟨i, hi, h⟩
    · rintro ⟨i, hi, h⟩; exact ⟨_, ⟨i, hi, rfl⟩, h⟩
  have hkey2 : ∀ P : Nat → Prop, (∀ a ∈ itemKeys t.offset.toNat (k.size version) t.count.toNat, P a) ↔
      ∀ i < t.count.toNat, P (recAddr version k t i) := by
    intro P
    unfold itemKeys recAddr
    simp only [List.mem_map, List.mem_range]
    constructor
    · intro h i hi; exact h _ ⟨i, hi, rfl⟩
    · rintro h _ ⟨i, hi, rfl⟩; exact h i hi
  have hlt : ∀ i, recAddr version k t i < 2 ^ 64 := fun i => Nat.mod_lt _ (by decide)
  refine ⟨h3.trans ?_, h2.trans ?_, h1.trans ?_⟩
  · unfold CanOk
    rw [hkey2]
    exact and_congr_right fun _ => forall₂_congr fun i _ => (hr _ (hlt i)).1
  · unfold CanErr
    rw [hkey]
    exact and_congr_right fun _ => exists_congr fun i => and_congr_right fun _ => (hr _ (hlt i)).2.1
  · unfold CanPanic
    rw [hkey]
    exact or_congr_right (exists_congr fun i => and_congr_right fun _ => (hr _ (hlt i)).2.2)

theorem secOf_mk {data : List Byte} {version : BitVec 32} {t : Toc} {k : Kind} (ht : t.type = k.code)
    {o : Out (List (Nat × k.Rec))} (h : ReadItems (k.read version data) t.offset t.count (k.size version) o) :
    ∃ sec, SecOf data version t sec ∧ k.sec? sec = some o := by
  cases k <;> unfold SecOf <;> rw [ht]
  · exact ⟨.indoms o, ⟨o, rfl, h⟩, rfl⟩
  · exact ⟨.instances o, ⟨o, rfl, h⟩, rfl⟩
  · exact ⟨.metrics o, ⟨o, rfl, h⟩, rfl⟩
  · exact ⟨.values o, ⟨o, rfl, h⟩, rfl⟩
  · exact ⟨.strings o, ⟨o, rfl, h⟩, rfl⟩

theorem sec_inj {k k' : Kind} {sec : Sec} {o : Out (List (Nat × k.Rec))} {o' : Out (List (Nat × k'.Rec))}
    (h : k.sec? sec = some o) (h' : k'.sec? sec = some o') : k = k' := by
  cases k <;> cases k' <;> cases sec <;> first | rfl | (exfalso; cases h; done) | (exfalso; cases h')

theorem code_inj {k k' : Kind} (h : k.code = k'.code) : k = k' := by
  revert h; cases k <;> cases k' <;> decide

theorem sec_panic_iff {sec : Sec} : sec.isPanic = true ↔ ∃ k : Kind, k.sec? sec = some .panic := by
  refine ⟨isPanic_kind, ?_⟩
  rintro ⟨k, h⟩
  cases k <;> cases sec <;> cases h <;> rfl

theorem sec_unknown_iff {sec : Sec} : sec = .unknown ↔ ∀ k : Kind, k.sec? sec = none := by
  constructor
  · rintro rfl k; cases k <;> rfl
  · intro h
    cases sec
    · have := h .instances; cases this
    · have := h .indoms; cases this
    · have := h .metrics; cases this
    · have := h .values; cases this
    · have := h .strings; cases this
    · rfl

theorem secs_mem' {ts : List Toc} {secs : List Sec}
    {P : Toc → Sec → Prop} (h : List.Forall₂ P ts secs) {t : Toc} (ht : t ∈ ts) : ∃ sec ∈ secs, P t sec := by
  induction h with
  | nil => cases ht
  | cons h1 _ ih =>
    rcases List.mem_cons.1 ht with rfl | ht
    · exact ⟨_, by simp, h1⟩
    · obtain ⟨s, h2, h3⟩ := ih ht
      exact ⟨s, by simp [h2], h3⟩

theorem secs_mem2 {ts : List Toc} {secs : List Sec}
    {P : Toc → Sec → Prop} (h : List.Forall₂ P ts secs) {s : Sec} (hs : s ∈ secs) : ∃ t ∈ ts, P t s := by
  induction h with
  | nil => cases hs
  | cons h1 _ ih =>
    rcases List.mem_cons.1 hs with rfl | hs
    · exact ⟨_, by simp, h1⟩
    · obtain ⟨s, h2, h3⟩ := ih hs
      exact ⟨s, by simp [h2], h3⟩

theorem forall₂_choose {ts : List Toc} {P : Toc → Sec → Prop} (h : ∀ t ∈ ts, ∃ s, P t s) :
    ∃ secs, List.Forall₂ P ts secs := by
  induction ts with
  | nil => exact ⟨[], .nil⟩
  | cons t ts ih =>
    obtain ⟨s, hs⟩ := h t (by simp)
    obtain ⟨ss, hss⟩ := ih (fun t ht => h t (by simp [ht]))
    exact ⟨s :: ss, .cons hs hss⟩

/-- The result variables, per kind. -/
theorem components_iff {data : List Byte} {h : Header} {ts : List Toc} {out : DumpOut} :
    Components data h ts out ↔ ∃ secs, List.Forall₂ (SecOf data h.version) ts secs ∧
      (((∃ s ∈ secs, s.isPanic = true) ∧ out = .panic) ∨
       ((∀ s ∈ secs, s.isPanic = false) ∧ Sec.unknown ∈ secs ∧ out = .hang) ∨
       ((∀ s ∈ secs, s.isPanic = false) ∧ Sec.unknown ∉ secs ∧ ∃ (m : (k : Kind) → List (Nat × k.Rec)) (e : Kind → Bool),
         (∀ k : Kind, Pick (secs.filterMap k.sec?) (m k) (e k)) ∧
         (((∃ k, e k = true) ∧ out = .err) ∨ ((∀ k, e k = false) ∧
           out = .ok ⟨h, ts, m .metrics, m .values, m .instances, m .indoms, m .strings⟩)))) := by
  unfold Components
  refine exists_congr fun secs => and_congr_right fun _ => ?_
  by_cases hp : secs.any Sec.isPanic = true
  · rw [if_pos hp]
    rw [List.any_eq_true] at hp
    constructor
    · exact fun h => .inl ⟨hp, h⟩
    · obtain ⟨s, hs, hs'⟩ := hp
      rintro (h | ⟨h, _⟩ | ⟨h, _⟩)
      · exact h.2
      · rw [h s hs] at hs'; cases hs'
      · rw [h s hs] at hs'; cases hs'
  · rw [if_neg hp]
    have hp' : ∀ s ∈ secs, s.isPanic = false := by simpa using hp
    have hp1 : ¬ ∃ s ∈ secs, s.isPanic = true := by
      rintro ⟨s, hs, h⟩
      rw [hp' s hs] at h; cases h
    by_cases hu : Sec.unknown ∈ secs
    · rw [if_pos hu]
      constructor
      · exact fun h => .inr (.inl ⟨hp', hu, h⟩)
      · rintro (h | h | h)
        · exact absurd h.1 hp1
        · exact h.2.2
        · exact absurd hu h.2.1
    · rw [if_neg hu]
      constructor
      · rintro ⟨mi, ei, md, ed, mm, em, mv, ev, ms, es, p1, p2, p3, p4, p5, he⟩
        refine .inr (.inr ⟨hp', hu, fun k => match k with
          | .indoms => md | .instances => mi | .metrics => mm | .values => mv | .strings => ms, fun k => match k with
          | .indoms => ed | .instances => ei | .metrics => em | .values => ev | .strings => es, ?_, ?_⟩)
        · intro k; cases k
          · exact p2
          · exact p1
          · exact p3
          · exact p4
          · exact p5
        · split at he
          · rename_i hh
            simp only [Bool.or_eq_true] at hh
            refine .inl ⟨?_, he⟩
            rcases hh with (((h | h) | h) | h) | h
            · exact ⟨.instances, h⟩
            · exact ⟨.indoms, h⟩
            · exact ⟨.metrics, h⟩
            · exact ⟨.values, h⟩
            · exact ⟨.strings, h⟩
          · rename_i hh
            simp only [Bool.or_eq_true, not_or, Bool.not_eq_true] at hh
            obtain ⟨⟨⟨⟨rfl, rfl⟩, rfl⟩, rfl⟩, rfl⟩ := hh
            refine .inr ⟨?_, he⟩
            intro k; cases k <;> rfl
      · rintro (h | h | ⟨_, _, m, e, hpk, hout⟩)
        · exact absurd h.1 hp1
        · exact absurd h.2.1 hu
        · refine ⟨m .instances, e .instances, m .indoms, e .indoms, m .metrics, e .metrics, m .values, e .values,
            m .strings, e .strings, hpk .instances, hpk .indoms, hpk .metrics, hpk .values, hpk .strings, ?_⟩
          rcases hout with ⟨⟨k, hk⟩, rfl⟩ | ⟨hk, rfl⟩
          · rw [if_pos]
            cases k <;> simp [hk]
          · rw [if_neg]
            simp [hk]

/-- Results can be chosen per entry. -/
theorem secs_choose {data : List Byte} {version : BitVec 32} {ts : List Toc}
    (Q : (k : Kind) → Toc → Out (List (Nat × k.Rec)) → Prop)
    (hc : ∀ t ∈ ts, ∀ k : Kind, t.type = k.code → ∃ o, ReadItems (k.read version data) t.offset t.count (k.size version) o ∧
      o ≠ .panic ∧ Q k t o) :
    ∃ secs, List.Forall₂ (fun t s => SecOf data version t s ∧ s.isPanic = false ∧
      ∀ k : Kind, t.type = k.code → ∃ o, k.sec? s = some o ∧ Q k t o) ts secs := by
  refine forall₂_choose fun t ht => ?_
  by_cases hk : ∃ k : Kind, t.type = k.code
  · obtain ⟨k, hk⟩ := hk
    obtain ⟨o, h1, h2, h3⟩ := hc t ht k hk
    obtain ⟨s, h4, h5⟩ := secOf_mk hk h1
    refine ⟨s, h4, ?_, fun k' hk' => ?_⟩
    · rw [← Bool.not_eq_true, sec_panic_iff]
      rintro ⟨k', h6⟩
      obtain rfl := sec_inj h5 h6
      rw [h5] at h6
      exact h2 (Option.some.inj h6)
    · obtain rfl := code_inj (hk.symm.trans hk')
      exact ⟨o, h5, h3⟩
  · obtain ⟨s, hs⟩ := secOf_exists data version t
    have hn : ∀ k : Kind, k.sec? s = none := fun k => (secOf_code hs k).2 (fun h => hk ⟨k, h⟩)
    refine ⟨s, hs, ?_, fun k h => absurd ⟨k, h⟩ hk⟩
    rw [sec_unknown_iff.2 hn]
    rfl

theorem unknown_iff {data : List Byte} {version : BitVec 32} {t : Toc} {s : Sec} (h : SecOf data version t s) :
    s = .unknown ↔ ∀ k : Kind, t.type ≠ k.code := by
  rw [sec_unknown_iff]
  refine forall_congr' fun k => ?_
  obtain ⟨h1, h2⟩ := secOf_code h k
  constructor
  · intro hn hk
    obtain ⟨o, ho, _⟩ := h1 hk
    rw [hn] at ho; cases ho
  · exact h2

theorem pick_of {α : Type} {rs : List (Out (List α))} {o : Out (List α)} (h : o ∈ rs) : Pick rs o.items o.failed :=
  .inr ⟨⟨o, h, rfl⟩, ⟨o, h, rfl⟩⟩

/-- What `readComponents` can do with the entries `ts`. -/
theorem components_can {data : List Byte} (hlen : data.length < 2 ^ 63) (h : Header) (ts : List Toc) :
    (Components data h ts .panic ↔ ∃ t ∈ ts, ∃ k : Kind, t.type = k.code ∧ CanPanic data h.version k t) ∧
    (Components data h ts .hang ↔ (∃ t ∈ ts, ∀ k : Kind, t.type ≠ k.code) ∧
      ∀ t ∈ ts, ∀ k : Kind, t.type = k.code → CanOk data h.version k t ∨ CanErr data h.version k t) ∧
    (Components data h ts .err ↔ (∀ t ∈ ts, ∃ k : Kind, t.type = k.code) ∧
      (∀ t ∈ ts, ∀ k : Kind, t.type = k.code → CanOk data h.version k t ∨ CanErr data h.version k t) ∧
      ∃ t ∈ ts, ∃ k : Kind, t.type = k.code ∧ CanErr data h.version k t) ∧
    ((∃ D, Components data h ts (.ok D)) ↔ (∀ t ∈ ts, ∃ k : Kind, t.type = k.code) ∧
      (∀ t ∈ ts, ∀ k : Kind, t.type = k.code → CanOk data h.version k t ∨ CanErr data h.version k t) ∧
      ∀ t ∈ ts, ∀ k : Kind, t.type = k.code → ∃ t' ∈ ts, t'.type = k.code ∧ CanOk data h.version k t') := by
  have hcan := fun k t => kind_can hlen h.version k t
  have noPanic : ∀ {secs}, List.Forall₂ (SecOf data h.version) ts secs → (∀ s ∈ secs, s.isPanic = false) →
      ∀ t ∈ ts, ∀ k : Kind, t.type = k.code → CanOk data h.version k t ∨ CanErr data h.version k t := by
    intro secs hs hp t ht k hk
    obtain ⟨s, hs1, hs2⟩ := secs_mem' hs ht
    obtain ⟨o, ho1, ho2⟩ := (secOf_code hs2 k).1 hk
    cases o with
    | ok its => exact .inl ((hcan k t).1.1 ⟨its, ho2⟩)
    | err => exact .inr ((hcan k t).2.1.1 ho2)
    | panic => have := hp s hs1; rw [sec_panic_iff.2 ⟨k, ho1⟩] at this; cases this
  have known : ∀ {secs}, List.Forall₂ (SecOf data h.version) ts secs → Sec.unknown ∉ secs →
      ∀ t ∈ ts, ∃ k : Kind, t.type = k.code := by
    intro secs hs hu t ht
    obtain ⟨s, hs1, hs2⟩ := secs_mem' hs ht
    by_contra hn
    obtain rfl := (unknown_iff hs2).2 (fun k hk => hn ⟨k, hk⟩)
    exact hu hs1
  have ofMem : ∀ {secs}, List.Forall₂ (SecOf data h.version) ts secs → ∀ (k : Kind) o, o ∈ secs.filterMap k.sec? →
      ∃ t ∈ ts, t.type = k.code ∧ ReadItems (k.read h.version data) t.offset t.count (k.size h.version) o := by
    intro secs hs k o ho
    obtain ⟨s, hs1, hs2⟩ := List.mem_filterMap.1 ho
    obtain ⟨t, ht, hst⟩ := secs_mem2 hs hs1
    have hk : t.type = k.code := by
      by_contra hn
      rw [(secOf_code hst k).2 hn] at hs2; cases hs2
    obtain ⟨o', h1, h2⟩ := (secOf_code hst k).1 hk
    rw [hs2] at h1
    cases h1
    exact ⟨t, ht, hk, h2⟩
  have weaken : ∀ {Q : Toc → Sec → Prop} {secs}, List.Forall₂ (fun t s => SecOf data h.version t s ∧ Q t s) ts secs →
      List.Forall₂ (SecOf data h.version) ts secs := fun h1 => h1.imp (fun _ _ h2 => h2.1)
  have choosing : ∀ (okFirst : Prop), (∀ t ∈ ts, ∀ k : Kind, t.type = k.code → CanOk data h.version k t ∨ CanErr data h.version k t) →
      ∃ secs, List.Forall₂ (fun t s => SecOf data h.version t s ∧ s.isPanic = false ∧
        ∀ k : Kind, t.type = k.code → ∃ o, k.sec? s = some o ∧
          ((okFirst → CanOk data h.version k t → o.failed = false) ∧ (¬ okFirst → CanErr data h.version k t → o.failed = true))) ts secs := by
    intro okFirst hall
    refine secs_choose (fun k t o => (okFirst → CanOk data h.version k t → o.failed = false) ∧
      (¬ okFirst → CanErr data h.version k t → o.failed = true)) ?_
    intro t ht k hk
    have ok' : CanOk data h.version k t → ∃ its, ReadItems (k.read h.version data) t.offset t.count (k.size h.version) (.ok its) :=
      (hcan k t).1.2
    have err' : CanErr data h.version k t → ReadItems (k.read h.version data) t.offset t.count (k.size h.version) .err :=
      (hcan k t).2.1.2
    by_cases h1 : CanOk data h.version k t
    · by_cases h2 : CanErr data h.version k t
      · by_cases h3 : okFirst
        · obtain ⟨its, h⟩ := ok' h1
          exact ⟨_, h, by simp, fun _ _ => rfl, fun h => absurd h3 h⟩
        · exact ⟨_, err' h2, by simp, fun h => absurd h h3, fun _ _ => rfl⟩
      · obtain ⟨its, h⟩ := ok' h1
        exact ⟨_, h, by simp, fun _ _ => rfl, fun _ h => absurd h h2⟩
    · have h2 := (hall t ht k hk).resolve_left h1
      exact ⟨_, err' h2, by simp, fun _ h => absurd h h1, fun _ _ => rfl⟩
  refine ⟨⟨?_, ?_⟩, ⟨?_, ?_⟩, ⟨?_, ?_⟩, ⟨?_, ?_⟩⟩
  · intro hc
    obtain ⟨secs, hs, h1 | h1 | ⟨_, _, m, e, _, h1 | h1⟩⟩ := components_iff.1 hc
    · obtain ⟨⟨s, hs1, hs2⟩, _⟩ := h1
      obtain ⟨k, hk⟩ := sec_panic_iff.1 hs2
      obtain ⟨t, ht, h2, h3⟩ := ofMem hs k .panic (List.mem_filterMap.2 ⟨s, hs1, hk⟩)
      exact ⟨t, ht, k, h2, (hcan k t).2.2.1 h3⟩
    · cases h1.2.2
    · cases h1.2
    · cases h1.2
  · rintro ⟨t, ht, k, hk, hp⟩
    refine components_iff.2 ?_
    obtain ⟨s0, h4, h5⟩ := secOf_mk hk ((hcan k t).2.2.2 hp)
    obtain ⟨secs, hs⟩ := forall₂_choose (ts := ts) (P := fun t' s => SecOf data h.version t' s ∧ (t' = t → s = s0)) (by
      intro t' _
      by_cases he : t' = t
      · subst he; exact ⟨s0, h4, fun _ => rfl⟩
      · obtain ⟨s, hs⟩ := secOf_exists data h.version t'
        exact ⟨s, hs, fun h => absurd h he⟩)
    obtain ⟨s, hs1, hs2⟩ := secs_mem' hs ht
    refine ⟨secs, weaken hs, .inl ⟨⟨s, hs1, ?_⟩, rfl⟩⟩
    rw [hs2.2 rfl]
    exact sec_panic_iff.2 ⟨k, h5⟩
  · intro hc
    obtain ⟨secs, hs, h1 | h1 | ⟨_, _, m, e, _, h1 | h1⟩⟩ := components_iff.1 hc
    · cases h1.2
    · obtain ⟨hp, hu, _⟩ := h1
      obtain ⟨t, ht, hst⟩ := secs_mem2 hs hu
      exact ⟨⟨t, ht, (unknown_iff hst).1 rfl⟩, noPanic hs hp⟩
    · cases h1.2
    · cases h1.2
  · rintro ⟨⟨t, ht, hu⟩, hall⟩
    obtain ⟨secs, hs⟩ := choosing True hall
    refine components_iff.2 ⟨secs, weaken hs, .inr (.inl ⟨?_, ?_, rfl⟩)⟩
    · intro s hs1
      obtain ⟨_, _, _, h2, _⟩ := secs_mem2 hs hs1
      exact h2
    · obtain ⟨s, hs1, hs2, _⟩ := secs_mem' hs ht
      rwa [(unknown_iff hs2).2 hu] at hs1
  · intro hc
    obtain ⟨secs, hs, h1 | h1 | ⟨hp, hu, m, e, hpk, h1 | h1⟩⟩ := components_iff.1 hc
    · cases h1.2
    · cases h1.2.2
    · refine ⟨known hs hu, noPanic hs hp, ?_⟩
      obtain ⟨⟨k, hk⟩, _⟩ := h1
      rcases hpk k with ⟨_, _, h2⟩ | ⟨_, o, ho, h2⟩
      · rw [hk] at h2; cases h2
      · obtain ⟨t, ht, htk, hri⟩ := ofMem hs k o ho
        rw [hk] at h2
        cases o with
        | ok _ => cases h2
        | err => exact ⟨t, ht, k, htk, (hcan k t).2.1.1 hri⟩
        | panic =>
          obtain ⟨s, hs1, hs2⟩ := List.mem_filterMap.1 ho
          have := hp s hs1
          rw [sec_panic_iff.2 ⟨k, hs2⟩] at this; cases this
    · cases h1.2
  · rintro ⟨hknown, hall, t, ht, k, hk, herr⟩
    obtain ⟨secs, hs⟩ := choosing False hall
    obtain ⟨s, hs1, hs2, _, hs3⟩ := secs_mem' hs ht
    obtain ⟨o, ho, _, hf⟩ := hs3 k hk
    have hf := hf (by simp) herr
    have hmem : o ∈ secs.filterMap k.sec? := List.mem_filterMap.2 ⟨s, hs1, ho⟩
    refine components_iff.2 ⟨secs, weaken hs, .inr (.inr ⟨?_, ?_, ?_⟩)⟩
    · intro s hs1
      obtain ⟨_, _, _, h2, _⟩ := secs_mem2 hs hs1
      exact h2
    · intro hu
      obtain ⟨t, ht, h2, _⟩ := secs_mem2 hs hu
      obtain ⟨k, hk⟩ := hknown t ht
      exact (unknown_iff h2).1 rfl k hk
    · have hex : ∀ k' : Kind, ∃ m e, Pick (secs.filterMap k'.sec?) m e ∧ (k' = k → e = true) := by
        intro k'
        by_cases hkk : k' = k
        · subst hkk
          exact ⟨_, _, pick_of hmem, fun _ => hf⟩
        · obtain ⟨m, e, h⟩ := pick_exists (secs.filterMap k'.sec?)
          exact ⟨m, e, h, fun h => absurd h hkk⟩
      choose m e hme using hex
      exact ⟨m, e, fun k' => (hme k').1, .inl ⟨⟨k, (hme k).2 rfl⟩, rfl⟩⟩
  · rintro ⟨D, hc⟩
    obtain ⟨secs, hs, h1 | h1 | ⟨hp, hu, m, e, hpk, h1 | h1⟩⟩ := components_iff.1 hc
    · cases h1.2
    · cases h1.2.2
    · cases h1.2
    · refine ⟨known hs hu, noPanic hs hp, fun t ht k hk => ?_⟩
      have he := h1.1 k
      rcases hpk k with ⟨h2, _⟩ | ⟨_, o, ho, h2⟩
      · obtain ⟨s, hs1, hs2⟩ := secs_mem' hs ht
        obtain ⟨o, ho, _⟩ := (secOf_code hs2 k).1 hk
        have := List.mem_filterMap.2 ⟨s, hs1, ho⟩
        rw [h2] at this; cases this
      · obtain ⟨t', ht', htk, hri⟩ := ofMem hs k o ho
        rw [he] at h2
        cases o with
        | ok its => exact ⟨t', ht', htk, (hcan k t').1.1 ⟨its, hri⟩⟩
        | err => cases h2
        | panic => cases h2
  · rintro ⟨hknown, hall, hok⟩
    obtain ⟨secs, hs⟩ := choosing True hall
    have hex : ∀ k : Kind, ∃ m, Pick (secs.filterMap k.sec?) m false := by
      intro k
      by_cases hk : ∃ t ∈ ts, t.type = k.code
      · obtain ⟨t, ht, hk⟩ := hk
        obtain ⟨t', ht', hk', hok'⟩ := hok t ht k hk
        obtain ⟨s, hs1, hs2, _, hs3⟩ := secs_mem' hs ht'
        obtain ⟨o, ho, hf, _⟩ := hs3 k hk'
        have h2 := pick_of (List.mem_filterMap.2 ⟨s, hs1, ho⟩)
        rw [hf trivial hok'] at h2
        exact ⟨_, h2⟩
      · refine ⟨[], .inl ⟨?_, rfl, rfl⟩⟩
        rw [List.filterMap_eq_nil_iff]
        intro s hs1
        obtain ⟨t, ht, h2, _⟩ := secs_mem2 hs hs1
        exact (secOf_code h2 k).2 (fun h => hk ⟨t, ht, h⟩)
    choose m hm using hex
    refine ⟨_, components_iff.2 ⟨secs, weaken hs, .inr (.inr ⟨?_, ?_, m, fun _ => false, hm, .inr ⟨fun _ => rfl, rfl⟩⟩)⟩⟩
    · intro s hs1
      obtain ⟨_, _, _, h2, _⟩ := secs_mem2 hs hs1
      exact h2
    · intro hu
      obtain ⟨t, ht, h2, _⟩ := secs_mem2 hs hu
      obtain ⟨k, hk⟩ := hknown t ht
      exact (unknown_iff h2).1 rfl k hk

end Speed.Dump
