import Verif.StartBuilder
import Verif.LogicSound
/-
The header goroutine and the body of `start` itself.
-/
namespace Speed

section
variable {r : Reg} {e : Env} {o : Ord}

/-! ### Header -/

theorem wp_storeAllG {P : Params} {W : World} {k : Proc} (bs : List Byte) :
    ∀ (R : Res) (off : Nat), off + bs.length ≤ P.len →
      (∀ j, j < bs.length → R (.mem (off + j)) ≠ none) →
      (∀ (m : Buf) (j : Nat) (b : Byte), bs[j]? = some b → m.length = P.len →
        (∀ a v, ¬ (off ≤ a ∧ a < off + bs.length) → R (.mem a) = some v →
          ∃ b, m[a]? = some b ∧ b.toNat = v) → P.IA m → P.IA (m.set (off + j) b)) →
      WP P k W (R.write off bs) → WP P (storeAll off bs k) W R := by
  induction bs with
  | nil =>
    intro R off _ _ _ h
    have : R.write off [] = R := by
      funext k; cases k <;> simp [Res.write]
    rwa [this] at h
  | cons b bs ih =>
    intro R off hlen ho hIA h
    simp only [List.length_cons] at hlen ho hIA
    refine ⟨by omega, by simpa using ho 0 (by omega), fun m hm hag hm2 => ?_, ?_⟩
    · exact hIA m 0 b rfl hm (fun a v _ hv => hag a v hv) hm2
    refine ih _ _ (by omega) ?_ ?_ ?_
    · intro j hj
      have := ho (j + 1) (by omega)
      simp only [fset]
      split
      · simp
      · rwa [show off + 1 + j = off + (j + 1) by omega]
    · intro m j b' hj hm hag hm2
      have := hIA m (j + 1) b' (by simpa using hj) hm ?_ hm2
      · rwa [show off + 1 + j = off + (j + 1) by omega]
      · intro a v ha hv
        refine hag a v (by omega) ?_
        simp only [fset, Key.mem.injEq]
        rw [if_neg (by omega)]; exact hv
    · rw [← write_cons]; exact h

/-- State of the header goroutine: it owns the header bytes. -/
structure HS (R : Res) (bs : List Byte) : Prop where
  snd : R .snd = some 0
  rcv : R .rcv = none
  fin : R .fin = none
  tok : R.NoTok
  obl : R.NoObl
  own : Owns R.m 0 bs

theorem hs_app {W : World} {R : Res} {pre bs : List Byte} {n off : Nat} {k : Nat → Proc}
    (h : HS R (pre ++ zeros n)) (hl : bs.length ≤ n) (hpre : pre.length + n ≤ r.Length)
    (ho : off = pre.length)
    (hIA : ∀ (m : Buf) (j : Nat) (b : Byte), bs[j]? = some b →
      FileAt m 0 pre → FileAt m (pre.length + bs.length) (zeros (n - bs.length)) →
      Early m → e.gen ≠ 0 → Early (m.set (pre.length + j) b))
    (hIV : ∀ (j : Nat) (b : Byte), bs[j]? = some b → 3 ≤ pre.length + j → pre.length + j < 8 →
      b = 0 ∨ (0 :: le 4 (if r.version2 then 2 else 1))[pre.length + j - 3]? = some b)
    (hk : ∀ R', HS R' ((pre ++ bs) ++ zeros (n - bs.length)) →
      WP (params r e o) (k (off + bs.length)) W R') :
    WP (params r e o) (mustWrite r.Length bs off k) W R := by
  subst ho
  unfold mustWrite
  rw [if_pos (by omega)]
  have hz : zeros n = zeros bs.length ++ zeros (n - bs.length) := by
    rw [← zeros_add]; congr 1; omega
  have hown := h.own
  rw [hz, Owns.append, Owns.append] at hown
  simp only [Nat.zero_add, zeros_length] at hown
  have hbit : ∀ {m : Buf} {v : Nat} {xs : List Byte}, Owns R.m v xs →
      (∀ x, x < xs.length → ¬ (pre.length ≤ v + x ∧ v + x < pre.length + bs.length)) →
      (∀ a v, ¬ (pre.length ≤ a ∧ a < pre.length + bs.length) → R (.mem a) = some v →
          ∃ b, m[a]? = some b ∧ b.toNat = v) → FileAt m v xs := by
    intro m v xs hx hr hag j b hj
    obtain ⟨b', h1, h2⟩ := hag (v + j) b.toNat (hr j (lt_of_get hj)) (hx j b hj)
    rw [h1, BitVec.eq_of_toNat_eq h2]
  apply wp_storeAllG bs R pre.length (by simp only [params]; omega)
  · intro j hj
    exact h.own.some (by omega) (by simp; omega)
  · intro m j b hj hm hag hia
    refine ⟨fun hg => ?_, hia.2.set (hIV j b hj)⟩
    refine hIA m j b hj (hbit hown.1 (by omega) hag) (hbit hown.2.2 (by omega) hag) (hia.1 hg) hg
  apply hk
  refine ⟨h.snd, h.rcv, h.fin, h.tok, h.obl, ?_⟩
  have hout : ∀ {y : Nat} {u : List Byte}, Owns R.m y u →
      (∀ z, y ≤ z → z < y + u.length → ¬ (pre.length ≤ z ∧ z < pre.length + bs.length)) →
      Owns (R.write pre.length bs).m y u := by
    intro y u hu hz j b hj
    show (R.write pre.length bs) (.mem _) = _
    rw [write_out]
    · exact hu j b hj
    · exact hz _ (by omega) (by have := lt_of_get hj; omega)
  rw [Owns.append, Owns.append]
  simp only [Nat.zero_add, List.length_append]
  exact ⟨⟨hout hown.1 (by omega), write_in⟩, hout hown.2.2 (by omega)⟩

/-- A store outside both generation numbers and the TOC count. -/
theorem early_out {m : Buf} {a : Nat} {b : Byte} (h : Early m) (ha : a < 8 ∨ 28 ≤ a) : Early (m.set a b) := by
  have key : ∀ x, 8 ≤ x → x < 28 → (m.set a b)[x]? = m[x]? := by
    intro x h1 h2; rw [List.getElem?_set_ne (by omega)]
  refine ⟨fun x h1 h2 => ?_, fun hz x h1 h2 => ?_⟩
  · rw [key x (by omega) (by omega)]; exact h.1 x h1 h2
  · rw [key x (by omega) (by omega)]
    refine h.2 (fun y h3 h4 => ?_) x h1 h2
    rw [← key y (by omega) (by omega)]; exact hz y h3 h4

theorem early_gen {m : Buf} {a : Nat} {b : Byte} (h : Early m) (ha : 8 ≤ a ∧ a < 16)
    (hz : FileAt m 16 (zeros 24)) : Early (m.set a b) := by
  refine ⟨fun x h1 h2 => ?_, fun _ x h1 h2 => ?_⟩
  · rw [List.getElem?_set_ne (by omega)]; exact h.1 x h1 h2
  · rw [List.getElem?_set_ne (by omega)]
    have := hz (x - 16) 0 (by unfold zeros; rw [List.getElem?_replicate_of_lt (by omega)])
    rwa [show 16 + (x - 16) = x by omega] at this

theorem early_g2 {m : Buf} {a : Nat} (h : Early m) (ha : 16 ≤ a ∧ a < 24) : Early (m.set a 0) := by
  refine ⟨fun x h1 h2 => ?_, fun hz x h1 h2 => ?_⟩
  · rw [List.getElem?_set]
    split
    · rename_i hax
      have := h.1 x h1 h2
      rw [if_pos (hax ▸ lt_of_get this)]
    · exact h.1 x h1 h2
  · rw [List.getElem?_set_ne (by omega)]
    refine h.2 (fun y h3 h4 => ?_) x h1 h2
    have := hz y h3 h4
    rwa [List.getElem?_set_ne (by omega)] at this

theorem early_cnt {m : Buf} {a : Nat} {b : Byte} {g : BitVec 64} (h : Early m) (ha : 24 ≤ a ∧ a < 28)
    (hg : FileAt m 8 (le 8 g.toNat)) (hg0 : g ≠ 0) : Early (m.set a b) := by
  refine ⟨fun x h1 h2 => ?_, fun hz => ?_⟩
  · rw [List.getElem?_set_ne (by omega)]; exact h.1 x h1 h2
  · exfalso
    have hzero : le 8 g.toNat = zeros 8 := by
      apply List.ext_getElem
      · simp
      · intro j h1 h2
        simp at h1
        have h3 := hz (8 + j) (by omega) (by omega)
        rw [List.getElem?_set_ne (by omega)] at h3
        have h4 := hg j _ (List.getElem?_eq_getElem (by simpa using h1))
        rw [h3] at h4
        rw [← Option.some.inj h4]; exact (List.getElem_replicate (n := 8) (a := (0 : Byte)) _).symm
    have h5 := unLe_le 8 g.toNat
    rw [hzero] at h5
    have h6 : unLe (zeros 8) = 0 := by decide
    rw [h6] at h5
    apply hg0
    apply BitVec.eq_of_toNat_eq
    have := g.isLt
    simp; omega

theorem FileAt.append {F : Buf} {v : Nat} {as bs : List Byte} :
    FileAt F v (as ++ bs) ↔ FileAt F v as ∧ FileAt F (v + as.length) bs := by
  constructor
  · intro h
    refine ⟨fun j b hj => h j b ?_, fun j b hj => ?_⟩
    · rw [List.getElem?_append_left (List.getElem?_eq_some_iff.1 hj).1]; exact hj
    · rw [Nat.add_assoc]
      apply h
      rw [List.getElem?_append_right (by omega)]
      simpa using hj
  · rintro ⟨h1, h2⟩ j b hj
    by_cases hlt : j < as.length
    · rw [List.getElem?_append_left hlt] at hj; exact h1 j b hj
    · rw [List.getElem?_append_right (by omega)] at hj
      have := h2 _ _ hj
      rw [show v + as.length + (j - as.length) = v + j by omega] at this
      exact this

theorem hdr_le_Length (r : Reg) : 40 ≤ r.Length := by
  obtain ⟨c1, c2, c3, c4, c5, c6⟩ := off_chain r
  omega

/-- Goroutine of `writeHeaderBlock`. -/
theorem wp_header {W : World} {R : Res} (h : HS R (zeros 40)) :
    WP (params r e o) (writeHeaderBlock r e) W R := by
  have hL := hdr_le_Length r
  have hml : magic.length = 3 := rfl
  unfold writeHeaderBlock
  refine hs_app (pre := []) (n := 40) h (by simp [hml]) (by simpa using hL) rfl ?_ ?_ ?_
  · intro m j b hj _ _ hE _
    have := lt_of_get hj
    exact early_out hE (by simp [hml] at this ⊢; omega)
  · intro j b hj h1 h2
    have := lt_of_get hj
    exfalso
    simp [hml] at this h1 h2
    try omega
  intro R1 h1
  rw [List.nil_append, hml, show zeros (40 - 3) = [0] ++ zeros 36 from rfl, ← List.append_assoc] at h1
  refine hs_app h1 (by ar) (by ar) rfl ?_ ?_ ?_
  · intro m j b hj _ _ hE _
    have := lt_of_get hj
    exact early_out hE (by simp [hml] at this ⊢; omega)
  · intro j b hj h1 h2
    right
    rw [show (magic ++ [0] : List Byte).length + j - 3 = j + 1 by simp [hml]; omega, List.getElem?_cons_succ]
    exact hj
  intro R2 h2
  refine hs_app h2 (by ar) (by ar) (by ar) ?_ ?_ ?_
  · intro m j b hj _ hz hE _
    have := lt_of_get hj
    refine early_gen hE ?_ ?_
    · simp [hml] at this ⊢; omega
    · simpa [hml] using hz
  · intro j b hj h1 h2
    have := lt_of_get hj
    exfalso
    simp [hml] at this h1 h2
    try omega
  intro R3 h3
  refine hs_app h3 (by ar) (by ar) (by ar) ?_ ?_ ?_
  · intro m j b hj _ _ hE _
    have hlt := lt_of_get hj
    have hb : b = 0 := by
      simp only [le_length] at hlt
      have : le 8 0 = List.replicate 8 0 := by decide
      rw [this, List.getElem?_replicate_of_lt hlt] at hj
      exact (Option.some.inj hj).symm
    subst hb
    refine early_g2 hE ?_
    simp [hml] at hlt ⊢; omega
  · intro j b hj h1 h2
    have := lt_of_get hj
    exfalso
    simp [hml] at this h1 h2
    try omega
  intro R4 h4
  refine hs_app h4 (by ar) (by ar) (by ar) ?_ ?_ ?_
  · intro m j b hj hpre _ hE hg
    have hlt := lt_of_get hj
    refine early_cnt hE ?_ ?_ hg
    · simp [hml] at hlt ⊢; omega
    · simp only [FileAt.append] at hpre
      have := hpre.1.2
      simpa [hml] using this
  · intro j b hj h1 h2
    have := lt_of_get hj
    exfalso
    simp [hml] at this h1 h2
    try omega
  intro R5 h5
  refine hs_app h5 (by ar) (by ar) (by ar) ?_ ?_ ?_
  · intro m j b hj _ _ hE _
    exact early_out hE (by simp [hml])
  · intro j b hj h1 h2
    have := lt_of_get hj
    exfalso
    simp [hml] at this h1 h2
    try omega
  intro R6 h6
  refine hs_app h6 (by ar) (by ar) (by ar) ?_ ?_ ?_
  · intro m j b hj _ _ hE _
    exact early_out hE (by simp [hml]; omega)
  · intro j b hj h1 h2
    have := lt_of_get hj
    exfalso
    simp [hml] at this h1 h2
    try omega
  intro R7 h7
  refine hs_app h7 (by ar) (by ar) (by ar) ?_ ?_ ?_
  · intro m j b hj _ _ hE _
    exact early_out hE (by simp [hml]; omega)
  · intro j b hj h1 h2
    have := lt_of_get hj
    exfalso
    simp [hml] at this h1 h2
    try omega
  intro R8 h8
  have hown : Owns R8.m 0 (hdrBytes r e 0) := by
    have := h8.own
    simp only [le_length] at this
    rw [show zeros (36 - 4 - 8 - 8 - 4 - 4 - 4 - 4) = [] from rfl, List.append_nil] at this
    exact this
  unfold WP
  rw [if_neg (by decide)]
  refine ⟨h8.tok, 0, h8.snd, h8.rcv, by omega, rfl, h8.obl, fun _ => false, ?_, ?_, ?_⟩
  · intro k hk; simp [Res.restr] at hk
  · intro σ _; simp [params]
  unfold WP
  rw [if_neg (by decide)]
  refine ⟨?_, 1, by simp [fset], ?_, by omega, rfl, ?_, fun k => match k with | .mem _ => true | _ => false, ?_, ?_, ?_⟩
  · intro c; simpa [fset, Res.restr] using h8.tok c
  · simpa [fset, Res.restr] using h8.rcv
  · intro w i; simpa [fset, Res.restr] using h8.obl w i
  · intro k hk
    cases k <;> simp_all [Res.restr, Key.plain]
  · intro σ _
    simp only [params]
    refine ⟨by simp, ?_⟩
    intro j b hj
    have := hown j b hj
    simpa [Res.m, Res.restr, fset] using this
  · unfold WP
    refine ⟨?_, ?_, ?_, ?_, ?_⟩
    · simpa [fset, Res.restr] using h8.fin
    · intro c; simpa [fset, Res.restr] using h8.tok c
    · intro w i; simpa [fset, Res.restr] using h8.obl w i
    · right; simp [fset]
    · left; simpa [fset, Res.restr] using h8.rcv

end
end Speed
