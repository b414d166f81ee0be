import Verif.PropsAccept
/-
Property C69: does `Dump` give the same outcome for the same bytes?
-/
namespace Speed.Dump

/-- Two outcomes of `Dump` are the same: maps have no order. -/
def Same : DumpOut → DumpOut → Prop
  | .ok D, .ok D' => D.header = D'.header ∧ D.tocs = D'.tocs ∧ ∀ k : Kind, (k.items D).Perm (k.items D')
  | .err, .err => True
  | .panic, .panic => True
  | .hang, .hang => True
  | _, _ => False

theorem filter_unique {α : Type} (f : Nat → α) (p : α → Bool) (n : Nat)
    (h : ∀ i < n, ∀ j < n, p (f i) = true → p (f j) = true → i = j) :
    ((List.range n).map f).filter p = [] ∨ ∃ i < n, p (f i) = true ∧ ((List.range n).map f).filter p = [f i] := by
  induction n with
  | zero => exact .inl rfl
  | succ n ih =>
    rw [List.range_succ, List.map_append, List.filter_append]
    rcases ih (fun i hi j hj => h i (by omega) j (by omega)) with e | ⟨i, hi, hp, e⟩
    · rw [e]
      by_cases hn : p (f n) = true
      · exact .inr ⟨n, by omega, hn, by simp [hn]⟩
      · exact .inl (by simp [hn])
    · rw [e]
      have hn : p (f n) = false := by
        by_contra hc
        have := h i (by omega) n (by omega) hp (by simpa using hc)
        omega
      exact .inr ⟨i, by omega, hp, by simp [hn]⟩

/-- C69, partial: if no kind is listed twice in the table of contents and no section reaches over 2^64, then `Dump` has
the same outcome under every schedule: the same result (up to the order of the maps), or always an error, a panic,
or blocking.

Missing: kinds that are listed twice and sections that reach over 2^64 (`C69_refuted`, `C69_refuted_wraparound`). -/
theorem C69_deterministic_partial (data : List Byte) (hlen : data.length < 2 ^ 63)
    (hd : ∀ i < (f32 data 24).toNat, ∀ j < (f32 data 24).toNat, ∀ k : Kind, (entry data i).type = k.code →
      (entry data j).type = k.code → i = j)
    (hw : ∀ i < (f32 data 24).toNat, ∀ k : Kind, (entry data i).type = k.code →
      (entry data i).offset.toNat + (entry data i).count.toNat * k.size (f32 data 4) < 2 ^ 64)
    {o o' : DumpOut} (h : Dumps data o) (h' : Dumps data o') : Same o o' := by
  obtain ⟨c1, c2, c3, c4⟩ := C66_outcomes data hlen
  -- entries that do not wrap have one outcome
  have hrec : ∀ i < (f32 data 24).toNat, ∀ k : Kind, (entry data i).type = k.code → ∀ j < (entry data i).count.toNat,
      recAddr (f32 data 4) k (entry data i) j + k.size (f32 data 4) < 2 ^ 64 := by
    intro i hi k hk j hj
    have h1 := hw i hi k hk
    have h2 : j * k.size (f32 data 4) + k.size (f32 data 4) ≤ (entry data i).count.toNat * k.size (f32 data 4) := by
      rw [← Nat.succ_mul]
      exact Nat.mul_le_mul_right _ hj
    unfold recAddr
    rw [Nat.mod_eq_of_lt (by omega)]
    omega
  have hpan : ∀ i < (f32 data 24).toNat, ∀ k : Kind, (entry data i).type = k.code →
      CanPanic data (f32 data 4) k (entry data i) → (entry data i).count.toInt < 0 := by
    intro i hi k hk hp
    rcases hp with hp | ⟨j, hj, hp, _⟩
    · exact hp
    · have := hrec i hi k hk j hj; omega
  have hboth : ∀ i < (f32 data 24).toNat, ∀ k : Kind, (entry data i).type = k.code →
      CanErr data (f32 data 4) k (entry data i) → ¬ CanOk data (f32 data 4) k (entry data i) := by
    rintro i hi k hk ⟨_, j, hj, he⟩ ⟨_, ho⟩
    have h1 := ho j hj
    have h2 := hrec i hi k hk j hj
    rw [Nat.mod_eq_of_lt h2] at he
    omega
  have key1 : Dumps data .panic → ∀ o, Dumps data o → o = .panic := by
    intro hp o ho
    by_contra hne
    have hcr : (HeaderOK data ∧ (f32 data 24).toInt < 0) ∨ (TocOK data ∧ ¬ NoSureCrash data) := by
      rcases c1.1 hp with h | ⟨ht, i, hi, k, hk, hp⟩
      · exact .inl h
      · refine .inr ⟨ht, fun hn => ?_⟩
        have := hpan i hi k hk hp
        rcases hn i hi k hk with ⟨h, _⟩ | ⟨h, _⟩ <;> omega
    have hno : ¬ (TocOK data ∧ NoSureCrash data) := by
      rintro ⟨ht, hn⟩
      rcases hcr with ⟨_, h⟩ | ⟨_, h⟩
      · have := ht.2.1; omega
      · exact h hn
    cases o with
    | panic => exact hne rfl
    | hang => obtain ⟨ht, hn, _⟩ := c2.1 ho; exact hno ⟨ht, hn⟩
    | err =>
      rcases c3.1 ho with h | ⟨h, h2⟩ | ⟨ht, _, hn, _⟩
      · rcases hcr with ⟨h', _⟩ | ⟨h', _⟩
        · exact h h'
        · exact h h'.1
      · rcases hcr with ⟨_, h'⟩ | ⟨h', _⟩
        · omega
        · have := h'.2.2; omega
      · exact hno ⟨ht, hn⟩
    | ok D => obtain ⟨ht, _, hn, _⟩ := c4.1 ⟨D, ho⟩; exact hno ⟨ht, hn⟩
  have key2 : Dumps data .hang → ∀ D, ¬ Dumps data (.ok D) := by
    intro hh D hD
    obtain ⟨_, _, i, hi, hu⟩ := c2.1 hh
    obtain ⟨_, hk, _⟩ := c4.1 ⟨D, hD⟩
    obtain ⟨k, hk⟩ := hk i hi
    exact hu k hk
  have key3 : Dumps data .hang → ¬ Dumps data .err := by
    intro hh he
    obtain ⟨ht, _, i, hi, hu⟩ := c2.1 hh
    rcases c3.1 he with h | ⟨_, h2⟩ | ⟨_, hk, _⟩
    · exact h ht.1
    · have := ht.2.2; omega
    · obtain ⟨k, hk⟩ := hk i hi
      exact hu k hk
  have key4 : Dumps data .err → ∀ D, ¬ Dumps data (.ok D) := by
    intro he D hD
    obtain ⟨ht, _, _, hok⟩ := c4.1 ⟨D, hD⟩
    rcases c3.1 he with h | ⟨_, h2⟩ | ⟨_, _, _, i, hi, k, hk, hce⟩
    · exact h ht.1
    · have := ht.2.2; omega
    · obtain ⟨j, hj, hjk, hco⟩ := hok i hi k hk
      obtain rfl := hd i hi j hj k hk hjk
      exact hboth i hi k hk hce hco
  have key5 : ∀ D D', Dumps data (.ok D) → Dumps data (.ok D') → Same (.ok D) (.ok D') := by
    intro D D' hD hD'
    obtain ⟨a1, a2, _⟩ := C33_header hD
    obtain ⟨b1, b2, _⟩ := C33_header hD'
    refine ⟨a1.trans b1.symm, a2.trans b2.symm, fun k => ?_⟩
    have hv : D.header.version = f32 data 4 := by rw [a1]
    have hv' : D'.header.version = f32 data 4 := by rw [b1]
    rcases filter_unique (fun j => tocAt data (40 + j * 16)) (fun t => t.type = k.code) (f32 data 24).toNat
      (fun i hi j hj h1 h2 => hd i hi j hj k (of_decide_eq_true h1) (of_decide_eq_true h2)) with e | ⟨i, hi, hp, e⟩
    · rw [(C33_items hD k).2 (by rw [a2]; exact e), (C33_items hD' k).2 (by rw [b2]; exact e)]
    · have hwi := hw i hi k (of_decide_eq_true hp)
      have p1 := ((C33_items hD k).1 _ (by rw [a2]; exact e) (by rw [hv]; exact hwi)).2.1
      have p2 := ((C33_items hD' k).1 _ (by rw [b2]; exact e) (by rw [hv']; exact hwi)).2.1
      rw [hv] at p1
      rw [hv'] at p2
      exact p1.trans p2.symm
  cases o with
  | panic => rw [key1 h o' h']; trivial
  | hang =>
    cases o' with
    | panic => cases key1 h' _ h
    | hang => trivial
    | err => exact key3 h h'
    | ok D => exact key2 h D h'
  | err =>
    cases o' with
    | panic => cases key1 h' _ h
    | hang => exact key3 h' h
    | err => trivial
    | ok D => exact key4 h D h'
  | ok D =>
    cases o' with
    | panic => cases key1 h' _ h
    | hang => exact key2 h' D h
    | err => exact key4 h' D h
    | ok D' => exact key5 D D' h h'

/-- C69 is false when a kind is listed twice: `Dump` keeps what the reader that finishes last stores, its list as well as
its error, so that the same bytes are accepted or rejected. -/
theorem C69_refuted : ∃ data o o', data.length < 2 ^ 63 ∧ Dumps data o ∧ Dumps data o' ∧ ¬ Same o o' := by
  obtain ⟨⟨D, h1⟩, h2, _⟩ := twoTocs_outcomes
  exact ⟨twoTocs, .ok D, .err, by decide, h1, h2, id⟩

/-- C69 is false for a section that reaches over 2^64, even if it is the only one: one reader reports an error and the
other panics, unless it sees the error first and stops. -/
theorem C69_refuted_wraparound : ∃ data o o', data.length < 2 ^ 63 ∧ (f32 data 24).toNat = 1 ∧ Dumps data o ∧
    Dumps data o' ∧ ¬ Same o o' :=
  ⟨_, _, _, by decide, by decide, wrapToc_outcomes.1, wrapToc_outcomes.2, id⟩

set_option maxRecDepth 10000 in
/-- One section of two values satisfies the conditions: `Dump` gives one outcome. -/
example {o o' : DumpOut} (h : Dumps (oneToc 4 2 56 ++ zeros 64) o) (h' : Dumps (oneToc 4 2 56 ++ zeros 64) o') : Same o o' := by
  have hn : (f32 (oneToc 4 2 56 ++ zeros 64) 24).toNat = 1 := by decide
  have he : entry (oneToc 4 2 56 ++ zeros 64) 0 = ⟨4, 2, 56⟩ := by decide
  have hv : f32 (oneToc 4 2 56 ++ zeros 64) 4 = 1 := by decide
  refine C69_deterministic_partial _ (by decide) (fun i hi j hj _ _ _ => by omega) (fun i hi k hk => ?_) h h'
  obtain rfl : i = 0 := by omega
  rw [he] at hk ⊢
  rw [hv]
  revert hk
  cases k <;> decide

/-- Twenty zero bytes: always rejected. -/
example {o o' : DumpOut} (h : Dumps (List.replicate 20 0) o) (h' : Dumps (List.replicate 20 0) o') : Same o o' := by
  have hn : (f32 (List.replicate 20 0) 24).toNat = 0 := by decide
  exact C69_deterministic_partial _ (by decide) (fun i hi => by omega) (fun i hi => by omega) h h'

end Speed.Dump
