import Verif.StartSound
import Verif.Termination
/-
`start` as a whole: safety, the complete file, progress and termination, for every interleaving.
-/
namespace Speed

section
variable {r : Reg} {e : Env} {o : Ord}

theorem final_storeAll {P : Params} {σ : Seal} (bs : List Byte) :
    ∀ (off : Nat) (m : Buf), off + bs.length ≤ P.len →
      (∀ a, off ≤ a → a < off + bs.length → P.late a) →
      (∀ j, j ≤ bs.length → P.IB σ (place m off (bs.take j))) → P.post σ (place m off bs) →
      FinalOK P σ (storeAll off bs .done) m := by
  induction bs with
  | nil => intro off m _ _ h1 h2; exact ⟨h1 0 (by simp), h2⟩
  | cons b bs ih =>
    intro off m hl hw h1 h2
    simp only [List.length_cons] at hl h1 hw
    refine ⟨h1 0 (by omega), ⟨by omega, hw _ (by omega) (by omega)⟩,
      ih (off + 1) _ (by omega) (fun a h3 h4 => hw a (by omega) (by omega)) ?_ h2⟩
    intro j hj
    exact h1 (j + 1) (by omega)

/-- What the caller of `start` owns at the beginning. -/
def initRes (r : Reg) : Res
  | .mem a => if a < r.indomoffset then some 0 else none
  | .perm _ => some 0
  | .snd => some 0
  | .rcv => some 0
  | .fin => some 0
  | _ => none

/-- What the caller owns after starting its goroutines and receiving `n` messages (besides memory). -/
def callerRes (wg n : Nat) : Res
  | .rcv => some n
  | .fin => some 0
  | .wait w => if w = wg then some 0 else none
  | _ => none

theorem wp_start (hr : r.OK) (ho : o.OK r) :
    WP (params r e o) (startProg r e o) ⟨[], fun _ => none⟩ (initRes r) := by
  obtain ⟨c1, c2, c3, c4, c5, c6⟩ := off_chain r
  unfold startProg
  refine ⟨fun k => match k with | .mem a => decide (a < 40) | .snd => true | _ => false, rfl, ?_, ?_⟩
  · apply wp_header
    refine ⟨by simp [Res.restr, initRes], by simp [Res.restr], by simp [Res.restr],
      fun c => by simp [Res.restr], fun w i => by simp [Res.restr], ?_⟩
    intro j b hj
    have hlt := lt_of_get hj
    simp only [zeros_length] at hlt
    have hb : b = 0 := by
      unfold zeros at hj; rw [List.getElem?_replicate_of_lt hlt] at hj; exact (Option.some.inj hj).symm
    subst hb
    simp only [Res.m, Res.restr, initRes, Nat.zero_add]
    simp [hlt]; omega
  refine ⟨[(TocA r).lift, MAsrt.lift (fun σ M => AllRec r o (Owns M) σ)], rfl, ?_⟩
  intro W1 hle1
  generalize hwg : W1.wgs.length = wg
  have hW2 : (W1.wgs ++ [[(TocA r).lift, MAsrt.lift (fun σ M => AllRec r o (Owns M) σ)]])[wg]? =
      some ([TocA r, fun σ M => AllRec r o (Owns M) σ].map MAsrt.lift) := by
    rw [← hwg]; simp
  generalize hW : (⟨W1.wgs ++ [[(TocA r).lift, MAsrt.lift (fun σ M => AllRec r o (Owns M) σ)]], W1.sl⟩ : World) = W2
  have hW2' : W2.wgs[wg]? = some ([TocA r, fun σ M => AllRec r o (Owns M) σ].map MAsrt.lift) := by
    rw [← hW]; exact hW2
  refine ⟨fun k => match k with
      | .mem a => decide (40 ≤ a) | .obl w i => decide (w = wg ∧ i = 0) | _ => false, rfl, ?_, ?_⟩
  · refine wp_toc (n := 0) (w := wg) (os := fun w' i' => w' = wg ∧ i' = 0) (ws := fun _ => False)
      (p := fun _ => False) (K := fun _ => none) hr ?_ (fun _ _ => Iff.rfl) hW2' rfl
    refine ⟨?_, ?_, ?_, ?_, ?_, ?_, ?_, ?_, ?_, ?_, ?_⟩
    · intro w i
      simp only [Res.restr, Res.addWg, initRes]
      by_cases h : w = wg ∧ i = 0
      · simp [h]
      · simp [h]
    · intro w; simp [Res.restr]
    · intro c; simp [Res.restr]
    · simp [Res.restr]
    · simp [Res.restr]
    · simp [Res.restr]
    · simp
    · intro a v hv; simp at hv
    · intro c hc
      simp only [List.mem_singleton] at hc
      subst hc
      intro j b hj
      have hlt := lt_of_get hj
      simp only [zeros_length] at hlt
      have hb : b = 0 := by
        simp only [zeros] at hj; rw [List.getElem?_replicate_of_lt hlt] at hj; exact (Option.some.inj hj).symm
      subst hb
      simp only [Res.m, Res.restr, Res.addWg, initRes]
      simp; omega
    · simp
    · simp
  refine ⟨fun k => match k with
      | .perm _ => true | .obl w i => decide (w = wg ∧ i = 1) | _ => false, rfl, ?_, ?_⟩
  · refine wp_builder (n := 1) (w := wg) (os := fun w' i' => w' = wg ∧ i' = 1) (ws := fun _ => False)
      (p := fun _ => True) (K := fun _ => none) hr ho ?_ (fun _ => trivial) (fun _ _ => Iff.rfl) hW2' rfl
    refine ⟨?_, ?_, ?_, ?_, ?_, ?_, ?_, ?_, ?_, ?_, ?_⟩
    · intro w i
      simp only [Res.restr, Res.addWg, initRes]
      by_cases h : w = wg ∧ i = 1
      · simp [h]
      · simp [h]
    · intro w; simp [Res.restr]
    · intro c; simp [Res.restr]
    · simp [Res.restr]
    · simp [Res.restr]
    · simp [Res.restr]
    · intro k _; simp [Res.restr, Res.addWg, initRes]
    · intro a v hv; simp at hv
    · simp
    · simp
    · simp
  -- what remains with the caller
  generalize hR : Res.restr (Res.restr (Res.addWg (Res.restr (initRes r) _) wg 2) _) _ = R
  have hRk : ∀ k : Key, R k = callerRes wg 0 k := by
    intro k
    rw [← hR]
    cases k with
    | mem a =>
      simp only [Res.restr, Res.addWg, initRes]
      by_cases h : a < 40
      · simp [h, callerRes]
      · simp [callerRes]; omega
    | obl w i =>
      simp only [Res.restr, Res.addWg, initRes]
      simp [callerRes]; omega
    | _ => simp [Res.restr, Res.addWg, initRes, callerRes]
  clear hR
  have hnp : ∀ {D : Res}, D.Plain → ∀ {k : Key}, k.plain = false → D k = none := by
    intro D hD k hk
    by_contra hn
    have := hD k hn
    rw [hk] at this; cases this
  unfold WP
  refine ⟨fun c => by simp [callerRes, hRk], ?_⟩
  rw [if_neg (by decide)]
  refine ⟨0, by simp [callerRes, hRk], by simp [callerRes, hRk], by omega, rfl, fun w i => by simp [callerRes, hRk], ?_⟩
  intro W3 gen D3 hle3 hD3 hdj3 hphi3
  have hgen : gen = e.gen.toNat := hphi3
  subst hgen
  unfold WP
  refine ⟨fun c => by simp [callerRes, hRk, fset, Res.union, hnp hD3 (k := .tok c) rfl], ?_⟩
  rw [if_neg (by decide)]
  refine ⟨1, by simp [fset], by simp [callerRes, hRk, fset, Res.union, hnp hD3 (k := .snd) rfl], by omega, rfl,
    fun w i => by simp [callerRes, hRk, fset, Res.union, hnp hD3 (k := .obl w i) rfl], ?_⟩
  intro W4 g2 D4 hle4 hD4 hdj4 hphi4
  obtain ⟨hg2, hown⟩ : g2 = 16 ∧ Owns D4.m 0 (hdrBytes r e 0) := by simpa [params] using hphi4
  subst hg2
  obtain ⟨R5, hR5⟩ : ∃ R5 : Res, fset (Res.union (fset (R.union D3) .rcv (some (0 + 1))) D4) .rcv (some (1 + 1)) = R5 := ⟨_, rfl⟩
  rw [hR5]
  have hR5k : ∀ k, k.plain = false → R5 k = callerRes wg 2 k := by
    intro k hk
    rw [← hR5]
    cases k <;> simp_all [fset, Res.union, Key.plain, callerRes]
  have hown5 : Owns (Res.m R5) 0 (hdrBytes r e 0) := by
    refine hown.mono ?_
    intro a v hv
    have h4 : fset (R.union D3) .rcv (some (0 + 1)) (.mem a) = none := by
      by_contra hne
      have := hdj4 _ hne
      simp only [Res.m] at hv
      rw [this] at hv; cases hv
    rw [← hR5]
    simp only [Res.m, fset] at hv h4 ⊢
    simp only [Res.union] at h4 ⊢
    simp at h4 ⊢
    simp [fset, Res.union, h4, hv]
  clear hR5
  unfold WP
  refine ⟨by simp [callerRes, hR5k _ (rfl : (Key.wait wg).plain = false)], fun c => hR5k _ rfl,
    fun w i h => absurd (hR5k (.obl w i) rfl) h, _, le_wg2 hle4 (le_wg2 hle3 hW2'), ?_⟩
  intro W6 D hle6 hsok hD hdj hdep
  left
  obtain ⟨Dt, hDt, htoc⟩ := hdep 0 _ rfl
  obtain ⟨Dr, hDr, hrec⟩ := hdep 1 _ rfl
  have htoc' : TocA r W6.sl D.m := fun j x hx => (htoc j x hx).mono (fun a v h => hDt _ _ h)
  have hrec' : AllRec r o (Owns D.m) W6.sl := AllRec.mono (At.mono (fun a v h => hDr _ _ h)) (Seal.le_refl _) hrec
  obtain ⟨R7, hR7⟩ : ∃ R7 : Res, fset (R5.union D) (.wait wg) none = R7 := ⟨_, rfl⟩
  rw [hR7]
  have hhl : (hdrBytes r e 0).length = 40 := by simp [hdrBytes, magic]
  have hDR : (Res.m D).Sub (Res.m R7) := by
    intro a v hv
    have hn : R5 (.mem a) = none := by
      by_contra hne
      have := hdj _ hne
      simp only [Res.m] at hv
      rw [this] at hv; cases hv
    rw [← hR7]
    simp only [Res.m] at hv
    simp [Res.m, fset, Res.union, hn, hv]
  have hR5R : (Res.m R5).Sub (Res.m R7) := by
    intro a v hv
    rw [← hR7]
    simp only [Res.m] at hv
    simp [Res.m, fset, Res.union, hv]
  have hD40 : ∀ a v, D.m a = some v → 40 ≤ a := by
    intro a v hv
    by_contra hlt
    have := hown5.some (a := a) (by omega) (by omega)
    have := hdj _ this
    simp only [Res.m] at hv
    rw [this] at hv; cases hv
  have hlin : ∀ k, k.plain = false → k ≠ .wait wg → R7 k = R5 k := by
    intro k hk hne
    rw [← hR7]
    simp [fset, hne, Res.union, hnp hD hk]
  refine ⟨?_, ?_, ?_, ?_, ?_, ?_⟩
  · intro a ha
    refine full_of hr hsok (M := R7.m) ((hown5.mono hR5R).has hhl) ?_ (hrec'.mono (At.mono hDR) (Seal.le_refl _)) ha
    intro a h1 h2
    have hj : (a - 40) / 16 < (tocEntries r).length := by
      rw [tocEntries_length hr]; omega
    have hx := htoc' ((a - 40) / 16) _ (List.getElem?_eq_getElem hj)
    refine (hx.mono hDR).some ?_ ?_
    · have := Nat.mul_div_le (a - 40) 16; omega
    · have := Nat.lt_mul_div_succ (a - 40) (show 0 < 16 by omega)
      simp [tocBytes]; omega
  · intro c
    rw [hlin _ rfl (by simp)]; exact hR5k _ rfl
  · intro w i
    rw [hlin _ rfl (by simp)]; exact hR5k _ rfl
  · left; rw [hlin _ rfl (by simp)]; exact hR5k _ rfl
  · right; rw [hlin _ rfl (by simp)]; exact hR5k _ rfl
  · intro m hm hag
    have hat : ∀ v bs, Owns R7.m v bs → FileAt m v bs := by
      intro v bs h j b hj
      obtain ⟨b', h1, h2⟩ := hag _ _ (h j b hj)
      rw [h1, BitVec.eq_of_toNat_eq h2]
    have hmL : m.length = r.Length := hm
    unfold mustWrite
    simp only [le_length]
    rw [if_pos (by omega)]
    have hpl : 16 + (le 8 e.gen.toNat).length ≤ m.length := by rw [le_length]; omega
    have hF : FileOK r e o W6.sl (place m 16 (le 8 e.gen.toNat)) := by
      have hget := place_get m 16 (le 8 e.gen.toNat) hpl
      simp only [le_length] at hget
      have hsame : ∀ v bs, Owns D.m v bs → FileAt (place m 16 (le 8 e.gen.toNat)) v bs := by
        intro v bs h j b hj
        have := hD40 _ _ (h j b hj)
        rw [hget, if_neg (by omega)]
        exact hat v bs (h.mono hDR) j b hj
      refine ⟨by simpa using hmL, ?_, ?_, AllRec.mono hsame (Seal.le_refl _) hrec'⟩
      · have h0 := hat _ _ (hown5.mono hR5R)
        have h1 : FileAt (place m 16 (le 8 e.gen.toNat)) 16 (le 8 e.gen.toNat) := by
          intro j b hj
          have := lt_of_get hj
          simp only [le_length] at this
          rw [hget, if_pos (by omega), show 16 + j - 16 = j by omega]; exact hj
        have h2 : ∀ {v bs}, FileAt m v bs → (v + bs.length ≤ 16 ∨ 24 ≤ v) →
            FileAt (place m 16 (le 8 e.gen.toNat)) v bs := by
          intro v bs h hv j b hj
          have := lt_of_get hj
          rw [hget, if_neg (by omega)]; exact h j b hj
        simp only [hdrBytes, FileAt.append] at h0 ⊢
        obtain ⟨⟨⟨⟨⟨⟨⟨⟨a1, a2⟩, a3⟩, a4⟩, a5⟩, a6⟩, a7⟩, a8⟩, a9⟩ := h0
        simp only [magic, le_length, List.length_append, List.length_cons, List.length_nil] at *
        refine ⟨⟨⟨⟨⟨⟨⟨⟨h2 a1 ?_, h2 a2 ?_⟩, h2 a3 ?_⟩, h2 a4 ?_⟩, h1⟩, h2 a6 ?_⟩, h2 a7 ?_⟩, h2 a8 ?_⟩, h2 a9 ?_⟩ <;>
          simp
      · intro j x hx
        exact hsame _ _ (htoc' j x hx)
    apply final_storeAll
    · show 16 + (le 8 e.gen.toNat).length ≤ r.Length; omega
    · intro a h3 h4
      rw [le_length] at h4
      exact ⟨h3, h4⟩
    · intro j hj
      refine ⟨_, hF, by simp, ?_⟩
      intro a ha
      rw [place_get _ _ _ hpl, place_get _ _ _ (by rw [List.length_take]; omega)]
      simp only [le_length, List.length_take]
      rw [if_neg (by omega), if_neg (by omega)]
    · exact hF

end
end Speed
