import Verif.Cut
/-
Damaged files: which bytes `Dump` checks (C92).
-/
namespace Speed.Dump

/-- The bytes of `F` and `G` from `a` up to `b` are equal. -/
def EqOn (a b : Nat) (F G : List Byte) : Prop := ∀ j, a ≤ j → j < b → G[j]? = F[j]?

section
variable {a b : Nat} {F G : List Byte}

theorem EqOn.bytes (h : EqOn a b F G) {off m : Nat} (h1 : a ≤ off) (hm : off + m ≤ b) : bytesAt G off m = bytesAt F off m :=
  bytesAt_congr fun j _ h2 => h j (by omega) (by omega)

theorem EqOn.f32 (h : EqOn a b F G) {off : Nat} (h1 : a ≤ off) (hm : off + 4 ≤ b) : Dump.f32 G off = Dump.f32 F off := by
  unfold Dump.f32; rw [h.bytes h1 hm]

theorem EqOn.f64 (h : EqOn a b F G) {off : Nat} (h1 : a ≤ off) (hm : off + 8 ≤ b) : Dump.f64 G off = Dump.f64 F off := by
  unfold Dump.f64; rw [h.bytes h1 hm]

theorem EqOn.take3 (h : EqOn 0 3 F G) : G.take 3 = F.take 3 := h.bytes (Nat.le_refl _) (Nat.le_refl _)

end

/-- What `Dump` looks at before it decides: the length, "MMV", the version, whether the generations are equal, the number
of sections and the table of contents. -/
structure SameFrame (F G : List Byte) : Prop where
  len : G.length = F.length
  magic : EqOn 0 3 F G
  version : EqOn 4 8 F G
  gens : bytesAt G 8 8 = bytesAt G 16 8 ↔ bytesAt F 8 8 = bytesAt F 16 8
  count : EqOn 24 28 F G
  toc : EqOn 40 (40 + (f32 F 24).toNat * 16) F G

section
variable {F G : List Byte}

theorem SameFrame.f4 (h : SameFrame F G) : f32 G 4 = f32 F 4 := h.version.f32 (Nat.le_refl _) (Nat.le_refl _)
theorem SameFrame.f24 (h : SameFrame F G) : f32 G 24 = f32 F 24 := h.count.f32 (Nat.le_refl _) (Nat.le_refl _)
theorem SameFrame.entry (h : SameFrame F G) {i : Nat} (hi : i < (f32 F 24).toNat) : entry G i = entry F i := by
  unfold Dump.entry tocAt
  rw [h.toc.f32 (by omega) (by omega), h.toc.f32 (by omega) (by omega), h.toc.f64 (by omega) (by omega)]
theorem SameFrame.header (h : SameFrame F G) : HeaderOK G ↔ HeaderOK F := by
  unfold HeaderOK; rw [h.len, h.magic.take3, h.gens]
theorem SameFrame.tocOK (h : SameFrame F G) : TocOK G ↔ TocOK F := by
  unfold TocOK; rw [h.header, h.f24, h.len]

end

/-- C92: the possible outcomes of `Dump` (an error, a crash, waiting for ever, a result) depend on nothing but the
length, the first three bytes, the version, whether the generations are equal, the number of sections and the table of
contents. -/
theorem C92_frame {F G : List Byte} (h : SameFrame F G) (hl : F.length < 2 ^ 63) :
    (Dumps G .panic ↔ Dumps F .panic) ∧ (Dumps G .hang ↔ Dumps F .hang) ∧ (Dumps G .err ↔ Dumps F .err) ∧
    ((∃ D, Dumps G (.ok D)) ↔ ∃ D, Dumps F (.ok D)) := by
  obtain ⟨a1, a2, a3, a4⟩ := C66_outcomes F hl
  obtain ⟨b1, b2, b3, b4⟩ := C66_outcomes G (by rw [h.len]; exact hl)
  have hall : ∀ P : Toc → Prop, (∀ i < (f32 G 24).toNat, P (entry G i)) ↔ ∀ i < (f32 F 24).toNat, P (entry F i) := by
    intro P
    rw [h.f24]
    exact forall_congr' fun i => forall_congr' fun hi => by rw [h.entry hi]
  have hex : ∀ P : Toc → Prop, (∃ i < (f32 G 24).toNat, P (entry G i)) ↔ ∃ i < (f32 F 24).toNat, P (entry F i) := by
    intro P
    rw [h.f24]
    exact exists_congr fun i => and_congr_right fun hi => by rw [h.entry hi]
  have hok : ∀ k t, CanOk G (f32 G 4) k t ↔ CanOk F (f32 F 4) k t := fun k t => by unfold CanOk; rw [h.f4, h.len]
  have herr : ∀ k t, CanErr G (f32 G 4) k t ↔ CanErr F (f32 F 4) k t := fun k t => by unfold CanErr; rw [h.f4, h.len]
  have hpan : ∀ k t, CanPanic G (f32 G 4) k t ↔ CanPanic F (f32 F 4) k t := fun k t => by unfold CanPanic; rw [h.f4, h.len]
  have hkn : AllKnown G ↔ AllKnown F := hall fun t => ∃ k : Kind, t.type = k.code
  have hns : NoSureCrash G ↔ NoSureCrash F := by
    unfold NoSureCrash
    simp only [hok, herr]
    exact hall fun t => ∀ k : Kind, t.type = k.code → CanOk F (f32 F 4) k t ∨ CanErr F (f32 F 4) k t
  have i1 := hex fun t => ∃ k : Kind, t.type = k.code ∧ CanPanic F (f32 F 4) k t
  have i2 := hex fun t => ∀ k : Kind, t.type ≠ k.code
  have i3 := hex fun t => ∃ k : Kind, t.type = k.code ∧ CanErr F (f32 F 4) k t
  have i4 := fun k : Kind => hex fun t => t.type = k.code ∧ CanOk F (f32 F 4) k t
  refine ⟨?_, ?_, ?_, ?_⟩
  · rw [a1, b1]; simp only [hpan]; rw [i1, h.header, h.tocOK, h.f24]
  · rw [a2, b2, i2, h.tocOK, hns]
  · rw [a3, b3]; simp only [herr]; rw [i3, h.header, h.tocOK, hkn, hns, h.f24, h.len]
  · rw [a4, b4]; simp only [hok, i4]
    rw [h.tocOK, hkn, hns, hall fun t => ∀ k : Kind, t.type = k.code → ∃ j < (f32 F 24).toNat, (entry F j).type = k.code ∧
      CanOk F (f32 F 4) k (entry F j)]

end Speed.Dump

namespace Speed
open Dump

/-- C92: a running client's file in which one byte of "MMV" or of one of the generations is different is refused. -/
theorem C92_refused {e o w} (h : Active e o w) {j : Nat} {x y : Byte} (hj : j < 3 ∨ 8 ≤ j ∧ j < 24) (hx : w.mem[j]? = some x)
    (hy : y ≠ x) {out : DumpOut} (hd : Dumps (w.mem.set j y) out) : out = .err := by
  obtain ⟨σ, hl, _⟩ := h.liveAt
  obtain ⟨⟨_, ⟨⟨h40, hm, hg⟩, _⟩, _⟩, _⟩ := tight_file hl.ok hl.small hl.file
  have hjl : j < w.mem.length := (List.getElem?_eq_some_iff.1 hx).1
  have hset : ∀ i, (w.mem.set j y)[i]? = if j = i then some y else w.mem[i]? := by
    intro i
    rw [List.getElem?_set]
    by_cases hi : j = i
    · rw [if_pos hi, if_pos (by omega), if_pos hi]
    · rw [if_neg hi, if_neg hi]
  have hb : ∀ (G : List Byte) (off m i : Nat), i < m → (bytesAt G off m)[i]? = G[off + i]? := by
    intro G off m i hi
    unfold bytesAt
    rw [List.getElem?_take, if_pos hi, List.getElem?_drop]
  rcases hj with hj | ⟨hj1, hj2⟩
  · refine C35_magic _ (fun hc => hy ?_) hd
    have h1 := congrArg (·[j]?) (hc.trans hm.symm)
    simp only [List.getElem?_take, hj, if_true, hset] at h1
    rw [hx] at h1
    exact Option.some.inj h1
  · refine C35_generation _ (fun hc => hy ?_) hd
    by_cases hj3 : j < 16
    · have h1 := congrArg (·[j - 8]?) hc
      have h2 := congrArg (·[j - 8]?) hg
      simp only [hb _ _ _ _ (show j - 8 < 8 by omega), hset] at h1 h2
      rw [if_pos (by omega), if_neg (by omega)] at h1
      rw [show 8 + (j - 8) = j by omega, hx] at h2
      exact Option.some.inj (h1.trans h2.symm)
    · have h1 := congrArg (·[j - 16]?) hc
      have h2 := congrArg (·[j - 16]?) hg
      simp only [hb _ _ _ _ (show j - 16 < 8 by omega), hset] at h1 h2
      rw [if_neg (by omega), if_pos (by omega)] at h1
      rw [show 16 + (j - 16) = j by omega, hx] at h2
      exact Option.some.inj (h1.symm.trans h2)

/-- C92: whatever the other bytes of the header and the bytes of the sections are changed to, `Dump` returns a result. -/
theorem C92_unnoticed {e o w} (h : Active e o w) {G : List Byte} (hlen : G.length = w.mem.length) (h1 : EqOn 0 3 w.mem G)
    (h2 : EqOn 4 28 w.mem G) (h3 : EqOn 40 (40 + w.reg.tocCount * 16) w.mem G) {out : DumpOut} (hd : Dumps G out) :
    ∃ D, out = .ok D := by
  obtain ⟨σ, hl, _⟩ := h.liveAt
  have ht := tight_file hl.ok hl.small hl.file
  have h24 := count_file hl.ok hl.small hl.file
  have hf : SameFrame w.mem G := by
    refine ⟨hlen, h1, fun j a b => h2 j a (by omega), ?_, fun j a b => h2 j (by omega) b, by rw [h24]; exact h3⟩
    rw [h2.bytes (by omega) (by omega), h2.bytes (by omega) (by omega)]
  refine (C66_accepts G (by rw [hlen]; exact ht.whole.small)).2 ⟨hf.tocOK.2 ht.whole.toc, fun i hi => ?_⟩ out hd
  rw [hf.f24] at hi
  rw [hf.entry hi, hf.f4, hlen]
  exact ht.whole.known i hi

/-- C92: if the type of an entry of the table of contents is changed to one that `Dump` does not know, it waits for
ever. -/
theorem C92_hang {e o w} (h : Active e o w) {G : List Byte} (hlen : G.length = w.mem.length) {i : Nat} (hi : i < w.reg.tocCount)
    (h1 : EqOn 0 (40 + i * 16) w.mem G) (h2 : EqOn (44 + i * 16) w.mem.length w.mem G)
    (hu : ∀ c ∈ [1, 2, 3, 4, 5], f32 G (40 + i * 16) ≠ c) {out : DumpOut} (hd : Dumps G out) : out = .hang := by
  obtain ⟨σ, hl, _⟩ := h.liveAt
  have ht := tight_file hl.ok hl.small hl.file
  have h24 := count_file hl.ok hl.small hl.file
  have hs := ht.whole.small
  obtain ⟨⟨h40, hmag, hgen⟩, hcnt, hfit⟩ := ht.whole.toc
  have e24 : f32 G 24 = f32 w.mem 24 := h1.f32 (by omega) (by omega)
  have e4 : f32 G 4 = f32 w.mem 4 := h1.f32 (by omega) (by omega)
  have htoc : TocOK G := by
    refine ⟨⟨by omega, ?_, ?_⟩, by rw [e24]; exact hcnt, by rw [e24]; omega⟩
    · rw [← hmag]; exact h1.bytes (Nat.le_refl _) (by omega)
    · rw [h1.bytes (by omega) (by omega), h1.bytes (by omega) (by omega)]; exact hgen
  have hent : ∀ j < (f32 w.mem 24).toNat, j ≠ i → entry G j = entry w.mem j := by
    intro j hj hne
    unfold entry tocAt
    rcases Nat.lt_or_gt_of_ne hne with hlt | hgt
    · rw [h1.f32 (by omega) (by omega), h1.f32 (by omega) (by omega), h1.f64 (by omega) (by omega)]
    · rw [h2.f32 (by omega) (by omega), h2.f32 (by omega) (by omega), h2.f64 (by omega) (by omega)]
  have hun : ∀ k : Dump.Kind, (entry G i).type ≠ k.code := by
    intro k
    show f32 G (40 + i * 16) ≠ k.code
    cases k <;> exact hu _ (by decide)
  have hok : ∀ j < (f32 w.mem 24).toNat, ∀ k : Dump.Kind, (entry G j).type = k.code → CanOk G (f32 w.mem 4) k (entry G j) := by
    intro j hj k hk
    have hne : j ≠ i := fun he => hun k (he ▸ hk)
    rw [hent j hj hne] at hk ⊢
    obtain ⟨k', hk', a, b⟩ := ht.whole.known j hj
    obtain rfl := code_inj (hk.symm.trans hk')
    exact (canOk_iff (by omega) _ _ _).2 ⟨a, by rw [hlen]; exact b⟩
  obtain ⟨c1, c2, c3, c4⟩ := C66_outcomes G (by omega)
  rw [e24, e4] at c1
  have hnk : ¬ AllKnown G := fun hk => by
    obtain ⟨k, hk⟩ := hk i (by rw [e24, h24]; exact hi)
    exact hun k hk
  cases out with
  | hang => rfl
  | err =>
    exfalso
    rcases c3.1 hd with h | ⟨_, h⟩ | ⟨_, h, _⟩
    · exact h htoc.1
    · rw [e24] at h; omega
    · exact hnk h
  | ok D => exact absurd (c4.1 ⟨D, hd⟩).2.1 hnk
  | panic =>
    exfalso
    rcases c1.1 hd with ⟨_, h⟩ | ⟨_, j, hj, k, hk, hp⟩
    · omega
    · obtain ⟨a, b⟩ := hok j hj k hk
      rcases hp with hp | ⟨q, hq, hp, _⟩
      · omega
      · have := b q hq; omega

theorem eqOn_set {F : List Byte} {a b j : Nat} {y : Byte} (h : j < a ∨ b ≤ j) : EqOn a b F (F.set j y) := by
  intro i h1 h2
  rw [List.getElem?_set_ne (by omega)]

/-- The file of a client with a counter and a string metric, with one byte changed: the first byte (refused), the last byte
(not noticed), and the type of the first section (the reader waits for ever). -/
example : ∃ e o w, Active e o w ∧ Dumps (w.mem.set 0 0) .err ∧ (∃ D, Dumps (w.mem.set (w.mem.length - 1) 7) (.ok D)) ∧
    Dumps (w.mem.set 40 9) .hang := by
  obtain ⟨e, o, w, m, m2, D, h, hm, hm2, hs, hs2, _, _, hd⟩ := active_cases
  obtain ⟨σ, hl, _⟩ := h.liveAt
  obtain ⟨hwhole, _⟩ := tight_file hl.ok hl.small hl.file
  obtain ⟨⟨h40, hmag, _⟩, _, hfit⟩ := hwhole.toc
  have hc := count_file hl.ok hl.small hl.file
  have h1 := hl.file.len
  have hL := Length_eq w.reg
  have ht2 : 2 ≤ w.reg.tocCount := by unfold Reg.tocCount; omega
  have hmc : 0 < w.reg.MetricCount := List.length_pos_of_mem hm
  have hml : 48 ≤ w.reg.MetricLength := by unfold Reg.MetricLength; split <;> decide
  have hmm : 48 * 1 ≤ w.reg.MetricLength * w.reg.MetricCount := Nat.mul_le_mul hml hmc
  refine ⟨e, o, w, h, ?_, ?_, ?_⟩
  · obtain ⟨out, ho⟩ := dumps_exists (w.mem.set 0 0)
    have hx : w.mem[0]? = some 0x4D := by
      have := congrArg (·[0]?) hmag
      simpa [List.getElem?_take] using this
    obtain rfl := C92_refused h (.inl (by omega)) hx (by decide) ho
    exact ho
  · obtain ⟨out, ho⟩ := dumps_exists (w.mem.set (w.mem.length - 1) 7)
    obtain ⟨D, rfl⟩ := C92_unnoticed h (by simp) (eqOn_set (by omega)) (eqOn_set (by omega)) (eqOn_set (by omega)) ho
    exact ⟨D, ho⟩
  · obtain ⟨out, ho⟩ := dumps_exists (w.mem.set 40 9)
    have h9 : (f32 (w.mem.set 40 9) 40).toNat % 256 = 9 := by
      have : ∃ l, bytesAt (w.mem.set 40 9) 40 4 = 9 :: l := by
        have hlt : 40 < (w.mem.set 40 9).length := by simp; omega
        unfold bytesAt
        rw [List.drop_eq_getElem_cons hlt]
        simp
      obtain ⟨l, hl⟩ := this
      unfold f32
      rw [hl]
      simp only [unLe, BitVec.toNat_ofNat]
      have h9 : (9 : Byte).toNat = 9 := rfl
      rw [h9]
      omega
    obtain rfl := C92_hang h (by simp) (i := 0) (by omega) (eqOn_set (by omega)) (eqOn_set (by omega)) (fun c hc he => by
      rw [show (40 + 0 * 16) = 40 from rfl] at he
      rw [he] at h9
      simp only [List.mem_cons, List.not_mem_nil, or_false] at hc
      rcases hc with rfl | rfl | rfl | rfl | rfl <;> simp at h9) ho
    exact ho

end Speed
