import Verif.DumpDescribe
import Verif.StartAdequacy
/-
The record locations determine the whole file: two complete files with the same locations are equal
byte for byte.
-/
namespace Speed

section
variable {r : Reg} {o : Ord} {A B : Nat → List Byte → Prop} {τ : Seal}

theorem StrAt.and {t s x y} (h1 : StrAt A τ t s x) (h2 : StrAt B τ t s y) :
    x = y ∧ StrAt (fun v bs => A v bs ∧ B v bs) τ t s x := by
  obtain ⟨a1, a2⟩ := h1
  obtain ⟨b1, b2⟩ := h2
  obtain rfl : x = y := Option.some.inj (a1.symm.trans b1)
  exact ⟨rfl, a1, a2, b2⟩

theorem TextAt.and {t s x y} (h1 : TextAt A τ t s x) (h2 : TextAt B τ t s y) :
    x = y ∧ TextAt (fun v bs => A v bs ∧ B v bs) τ t s x := by
  unfold TextAt at *
  split at h1
  · rename_i h
    rw [if_pos h] at h2 ⊢
    exact ⟨by rw [h1, h2], h1⟩
  · rename_i h
    rw [if_neg h] at h2 ⊢
    exact h1.and h2

theorem IndomRec.and {d : Indom} (h1 : IndomRec r o A τ d) (h2 : IndomRec r o B τ d) :
    IndomRec r o (fun v bs => A v bs ∧ B v bs) τ d := by
  obtain ⟨v, ioff, so, lo, a1, a0, a2, a3, a4, a5⟩ := h1
  obtain ⟨v', ioff', so', lo', b1, b0, b2, b3, b4, b5⟩ := h2
  obtain rfl : v = v' := Option.some.inj (a1.symm.trans b1)
  obtain rfl : ioff = ioff' := Option.some.inj (a0.symm.trans b0)
  obtain ⟨rfl, c3⟩ := a3.and b3
  obtain ⟨rfl, c4⟩ := a4.and b4
  exact ⟨v, ioff, so, lo, a1, a0, a2, c3, c4, a5, b5⟩

theorem InstRec.and {d : Indom} {i : Inst} (h1 : InstRec r A τ d i) (h2 : InstRec r B τ d i) :
    InstRec r (fun v bs => A v bs ∧ B v bs) τ d i := by
  obtain ⟨v, inoff, a1, a2, a3, a4⟩ := h1
  obtain ⟨v', inoff', b1, b2, b3, b4⟩ := h2
  obtain rfl : v = v' := Option.some.inj (a1.symm.trans b1)
  obtain rfl : inoff = inoff' := Option.some.inj (a3.symm.trans b3)
  refine ⟨v, inoff, a1, a2, a3, ?_⟩
  split at a4
  · rename_i h
    rw [if_pos h] at b4 ⊢
    obtain ⟨so, a5, a6⟩ := a4
    obtain ⟨so', b5, b6⟩ := b4
    obtain ⟨rfl, c5⟩ := a5.and b5
    exact ⟨so, c5, a6, b6⟩
  · rename_i h
    rw [if_neg h] at b4 ⊢
    exact ⟨a4, b4⟩

theorem DescRec.and {m : Metric} (h1 : DescRec r A τ m) (h2 : DescRec r B τ m) :
    DescRec r (fun v bs => A v bs ∧ B v bs) τ m := by
  obtain ⟨v, so, lo, a1, a2, a3, a4⟩ := h1
  obtain ⟨v', so', lo', b1, b2, b3, b4⟩ := h2
  obtain rfl : v = v' := Option.some.inj (a1.symm.trans b1)
  obtain ⟨rfl, c2⟩ := a2.and b2
  obtain ⟨rfl, c3⟩ := a3.and b3
  refine ⟨v, so, lo, a1, c2, c3, ?_⟩
  split at a4
  · rename_i h
    rw [if_pos h] at b4 ⊢
    obtain ⟨no, a5, a6⟩ := a4
    obtain ⟨no', b5, b6⟩ := b4
    obtain ⟨rfl, c5⟩ := a5.and b5
    exact ⟨no, c5, a6, b6⟩
  · rename_i h
    rw [if_neg h] at b4 ⊢
    exact ⟨a4, b4⟩

theorem ValRec1.and {m s val} (h1 : ValRec1 A τ m s val) (h2 : ValRec1 B τ m s val) :
    ValRec1 (fun v bs => A v bs ∧ B v bs) τ m s val := by
  obtain ⟨v, u, a1, a2, a3⟩ := h1
  obtain ⟨v', u', b1, b2, b3⟩ := h2
  obtain rfl : v = v' := Option.some.inj (a1.symm.trans b1)
  obtain rfl : u = u' := Option.some.inj (a2.symm.trans b2)
  refine ⟨v, u, a1, a2, ?_⟩
  unfold ValData at *
  split at a3
  · rename_i h
    rw [if_pos h] at b3 ⊢
    obtain ⟨str, rfl, a5, a6⟩ := a3
    obtain ⟨str', hh, b5, b6⟩ := b3
    obtain rfl : str = str' := by injection hh
    exact ⟨str, rfl, ⟨a5, b5⟩, (a6.and b6).2⟩
  · rename_i h
    rw [if_neg h] at b3 ⊢
    obtain ⟨a5, bs, a6, a7⟩ := a3
    obtain ⟨_, bs', b6, b7⟩ := b3
    obtain rfl : bs = bs' := Option.some.inj (a6.symm.trans b6)
    exact ⟨a5, bs, a6, a7, b7⟩

theorem ValRec2.and {m s} (h1 : ValRec2 A τ m s) (h2 : ValRec2 B τ m s) :
    ValRec2 (fun v bs => A v bs ∧ B v bs) τ m s := by
  obtain ⟨v, doff, ioff, a1, a2, a3, a4⟩ := h1
  obtain ⟨v', doff', ioff', b1, b2, b3, b4⟩ := h2
  obtain rfl : v = v' := Option.some.inj (a1.symm.trans b1)
  obtain rfl : doff = doff' := Option.some.inj (a2.symm.trans b2)
  have : ioff = ioff' := by
    clear a4 b4
    generalize m.indom = x at a3 b3
    cases s <;> cases x <;> simp_all
  subst this
  exact ⟨v, doff, ioff, a1, a2, a3, a4, b4⟩

theorem AllRec.and (h1 : AllRec r o A τ) (h2 : AllRec r o B τ) : AllRec r o (fun v bs => A v bs ∧ B v bs) τ :=
  ⟨fun d hd => ⟨(h1.1 d hd).1.and (h2.1 d hd).1, fun i hi => ((h1.1 d hd).2 i hi).and ((h2.1 d hd).2 i hi)⟩,
   fun m hm => ⟨(h1.2 m hm).1.and (h2.2 m hm).1, fun s hs val hval =>
    ⟨((h1.2 m hm).2 s hs val hval).1.and ((h2.2 m hm).2 s hs val hval).1,
     ((h1.2 m hm).2 s hs val hval).2.and ((h2.2 m hm).2 s hs val hval).2⟩⟩⟩

end

section
variable {r : Reg} {e : Env} {o : Ord}

/-- Where two files agree. -/
def agreeMem (F G : Buf) : Mem := fun a => if F[a]? = G[a]? then (F[a]?).map BitVec.toNat else none

theorem owns_agree {F G : Buf} {v : Nat} {bs : List Byte} (h1 : FileAt F v bs) (h2 : FileAt G v bs) :
    Owns (agreeMem F G) v bs := by
  intro j b hj
  simp [agreeMem, h1 j b hj, h2 j b hj]

/-- The locations determine the file. -/
theorem FileOK.unique (hr : r.OK) {τ : Seal} {F G : Buf} (hs : SealOK (params r e o) τ)
    (hF : FileOK r e o τ F) (hG : FileOK r e o τ G) : F = G := by
  have hrec := (hF.recs.and hG.recs).mono
      (At' := Owns (agreeMem F G)) (fun v bs h => owns_agree h.1 h.2) (Seal.le_refl _)
  have h0 : Has (agreeMem F G) 0 40 := (owns_agree hF.hdr hG.hdr).has (by simp [hdrBytes, magic])
  have h1 : Has (agreeMem F G) 40 (16 * r.tocCount) := by
    intro a ha1 ha2
    have hlt : (a - 40) / 16 < (tocEntries r).length := by
      rw [tocEntries_length hr]; omega
    have hx := List.getElem?_eq_getElem hlt
    have := (owns_agree (hF.toc _ _ hx) (hG.toc _ _ hx)).has (n := 16) (by simp [tocBytes])
    exact this a (by simp only [HeaderLength, TocLength]; omega) (by simp only [HeaderLength, TocLength]; omega)
  apply List.ext_getElem?
  intro a
  by_cases ha : a < r.Length
  · have := full_of hr hs h0 h1 hrec ha
    unfold agreeMem at this
    split at this
    · assumption
    · exact absurd rfl this
  · rw [List.getElem?_eq_none (by rw [hF.len]; omega), List.getElem?_eq_none (by rw [hG.len]; omega)]

theorem FileOK.mono {σ τ : Seal} {F : Buf} (h : FileOK r e o σ F) (hle : σ.le τ) : FileOK r e o τ F :=
  ⟨h.len, h.hdr, h.toc, h.recs.mono (fun _ _ h => h) hle⟩

end
end Speed
