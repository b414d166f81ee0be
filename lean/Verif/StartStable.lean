import Verif.DumpDescribe
import Verif.StartAdequacy
/-
From the moment the final phase of `start` begins, every byte outside the second generation number
already has the value it has when `start` returns.
-/
namespace Speed

/-- The same parameters for an execution that has reached its final phase. -/
def Params.noIA (P : Params) : Params := { P with IA := fun _ => False }

theorem finalOK_noIA {P : Params} {σ : Seal} {p : Proc} {m : Buf} : FinalOK P σ p m → FinalOK P.noIA σ p m := by
  induction p generalizing m with
  | store a b k ih => exact fun h => ⟨h.1, h.2.1, ih h.2.2⟩
  | done => exact id
  | _ => exact id

theorem wp_noIA {P : Params} {p : Proc} {W : World} {R : Res} (h : WP P p W R) : WP P.noIA p W R := by
  induction p generalizing W R with
  | done => exact h
  | panic => exact h
  | store a b k ih => exact ⟨h.1, h.2.1, fun _ _ _ h => h.elim, ih h.2.2.2⟩
  | recv c k ih =>
    unfold WP at h ⊢
    refine ⟨h.1, ?_⟩
    have h2 := h.2
    split
    · rename_i hc
      rw [if_pos hc] at h2
      obtain ⟨h3, gs, h4, h5⟩ := h2
      exact ⟨h3, gs, h4, fun v W2 hw hg => ih v (h5 v W2 hw hg)⟩
    · rename_i hc
      rw [if_neg hc] at h2
      obtain ⟨n, h1, h0, h3, h4, h5, h6⟩ := h2
      exact ⟨n, h1, h0, h3, h4, h5, fun W2 v D hw a b c => ih v (h6 W2 v D hw a b c)⟩
  | send c v k ih =>
    unfold WP at h ⊢
    split
    · rename_i hc
      rw [if_pos hc] at h
      obtain ⟨v0, ts, h1, h2, h3, h4, h5, h6⟩ := h
      exact ⟨v0, ts, h1, h2, h3, h4, h5, fun W2 hw a b c d => ih (h6 W2 hw a b c d)⟩
    · rename_i hc
      rw [if_neg hc] at h
      obtain ⟨h0, n, h1, h1', h2, h3, h4, S, h5, h6, h7⟩ := h
      exact ⟨h0, n, h1, h1', h2, h3, h4, S, h5, h6, ih h7⟩
  | fork p k ihp ihk =>
    obtain ⟨S, h0, h1, h2⟩ := h
    exact ⟨S, h0, ihp h1, ihk h2⟩
  | wgNew n k ih =>
    obtain ⟨Qs, h1, h2⟩ := h
    exact ⟨Qs, h1, fun W2 hw => ih _ (h2 W2 hw)⟩
  | wgDone w k ih =>
    obtain ⟨i, S, Qs, Q, h1, h2, h3, h4, h5, h6⟩ := h
    exact ⟨i, S, Qs, Q, h1, h2, h3, h4, h5, ih h6⟩
  | wgWait w k ih =>
    obtain ⟨h1, h2, h3, Qs, h4, h5⟩ := h
    refine ⟨h1, h2, h3, Qs, h4, fun W2 D hw a b c d => ?_⟩
    rcases h5 W2 D hw a b c d with ⟨e1, e2, e3, e4, e5, e6⟩ | h
    · exact .inl ⟨e1, e2, e3, e4, e5, fun m hm hR => finalOK_noIA (e6 m hm hR)⟩
    · exact .inr (ih h)
  | setCell c v k ih =>
    exact ⟨h.1, fun W2 hw hc => ih (h.2 W2 hw hc)⟩
  | getCell c k ih =>
    obtain ⟨v, h1, h2⟩ := h
    exact ⟨v, h1, ih v h2⟩

theorem finalAt_noIA {P : Params} {p : Proc} {W : World} {R : Res} {m : Buf} (h : FinalAt P p W R m) :
    FinalAt P.noIA p W R m := by
  obtain ⟨h1, h2, h3, h4, h5, σ, h6, h7, h8⟩ := h
  exact ⟨h1, h2, h3, h4, h5, σ, h6, h7, finalOK_noIA h8⟩

theorem inv_noIA {P : Params} {s : St} {W : World} {g : Gl} (h : Inv P s W g)
    (hf : ∃ (i : Nat) (p : Proc), s.thr[i]? = some p ∧ FinalAt P p W (g.res (.thr i)) s.mem) :
    Inv P.noIA s W g where
  nocrash := h.nocrash
  len := h.len
  agr := h.agr
  rng := h.rng
  lin := h.lin
  thr := fun i p hi => (h.thr i p hi).imp wp_noIA finalAt_noIA
  phase := by
    obtain ⟨i, p, hi, hf⟩ := hf
    exact .inr ⟨i, p, hi, finalAt_noIA hf⟩
  chan := h.chan
  rv := h.rv
  wlen := h.wlen
  wg := h.wg
  obl := h.obl
  waitIn := h.waitIn
  depIn := h.depIn
  sess := h.sess
  fin := h.fin
  cells := h.cells
  seals := h.seals
  sok := h.sok

/-- While some goroutine is in the final phase, only the addresses set aside for it are written. -/
theorem final_step {P : Params} {s t : St} {W : World} {g : Gl} (h : Inv P s W g) {i : Nat} {p : Proc}
    (hi : s.thr[i]? = some p) (hf : FinalAt P p W (g.res (.thr i)) s.mem) (hs : Step s t) :
    ∀ a, ¬ P.late a → t.mem[a]? = s.mem[a]? := by
  obtain ⟨j, l, hs⟩ := hs
  unfold step at hs
  rw [if_neg (by simp [h.nocrash])] at hs
  have hstore : ∀ {a b k}, s.thr[j]? = some (.store a b k) → P.late a := by
    intro a b k hj
    have hlate : ∀ {R}, FinalAt P (.store a b k) W R s.mem → P.late a := by
      rintro R ⟨_, _, _, _, _, σ, _, _, hw⟩
      exact hw.2.1.2
    rcases h.thr j _ hj with hw | hw
    · have h1 := Gl.res_some.1 (hf.1 a hw.1)
      have h2 := Gl.res_some.1 hw.2.1
      rw [h1] at h2
      injection h2 with h2
      injection h2 with h2
      subst h2
      rw [hi] at hj
      injection hj with hj
      subst hj
      exact hlate hf
    · exact hlate hw
  intro x hx
  split at hs
  · cases hs
  · cases hs
  · cases hs; rfl
  · rename_i a b k hj
    split at hs
    · cases hs
      show (s.mem.set a b)[x]? = _
      rw [List.getElem?_set_ne]
      rintro rfl
      exact hx (hstore hj)
    · cases hs; rfl
  · split at hs <;> cases hs; rfl
  · split at hs
    · cases hs; rfl
    · split at hs
      · split at hs <;> cases hs; rfl
      · cases hs
    · cases hs
  · cases hs; rfl
  · cases hs; rfl
  · split at hs <;> cases hs <;> rfl
  · split at hs <;> cases hs; rfl
  · cases hs; rfl
  · cases hs; rfl

theorem final_reach {P : Params} (hwf : P.WF) {s t : St} {W : World} {g : Gl} (h : Inv P s W g)
    (hf : ∃ (i : Nat) (p : Proc), s.thr[i]? = some p ∧ FinalAt P p W (g.res (.thr i)) s.mem)
    (hst : Reach s t) : ∀ a, ¬ P.late a → t.mem[a]? = s.mem[a]? := by
  have h0 := inv_noIA h hf
  intro a ha
  induction hst with
  | refl => rfl
  | tail h1 h2 ih =>
    obtain ⟨W1, g1, _, hi1⟩ := inv_reach (P := P.noIA) ⟨hwf.nodup, hwf.chan, hwf.pos⟩ h0 h1
    rcases hi1.phase with h3 | ⟨i, p, h3, h4⟩
    · exact h3.elim
    · rw [final_step hi1 h3 h4 h2 a ha, ih]

section
variable {r : Reg} {e : Env} {o : Ord}

/-- The header is the same in every complete file. -/
theorem FileOK.hdr_get {σ τ : Seal} {F G : Buf} (hF : FileOK r e o σ F) (hG : FileOK r e o τ G) {a : Nat}
    (ha : a < 40) : F[a]? = G[a]? := by
  have hl : (hdrBytes r e e.gen.toNat).length = 40 := by simp [hdrBytes, magic]
  obtain ⟨b, hb⟩ : ∃ b, (hdrBytes r e e.gen.toNat)[a]? = some b := ⟨_, List.getElem?_eq_getElem (by omega)⟩
  have h1 := hF.hdr a b hb
  have h2 := hG.hdr a b hb
  rw [Nat.zero_add] at h1 h2
  rw [h1, h2]

/-- At every moment the buffer is visibly unfinished, or it agrees outside the second generation
number with the file `F` that is there whenever `start` returns later on. -/
theorem start_final (hr : r.OK) (ho : o.OK r) {cells s} (h : Reach (initSt r e o cells) s) :
    ((e.gen ≠ 0 → Early s.mem) ∧ VerAt r s.mem) ∨ ∃ σ F, SealOK (params r e o) σ ∧ FileOK r e o σ F ∧
      s.mem.length = F.length ∧ (∀ t, Reach s t → ∀ a, ¬ (16 ≤ a ∧ a < 24) → t.mem[a]? = F[a]?) ∧
      ∀ t, Reach s t → Returned t → t.mem = F := by
  obtain ⟨W, g, _, hi⟩ := inv_reach (params_wf hr) (init_inv hr ho cells) h
  rcases hi.phase with h1 | ⟨i, p, hip, hfin⟩
  · exact .inl h1
  · right
    have hstable := fun t (ht : Reach s t) => final_reach (params_wf hr) hi ⟨i, p, hip, hfin⟩ ht
    obtain ⟨_, _, _, _, _, σ, hσ, hs, hf⟩ := hfin
    have hL : Late r e o σ s.mem := by
      cases p <;> simp only [FinalOK] at hf
      · exact hf.1
      · exact hf.1
    obtain ⟨F, hF, hlen, hF2⟩ := hL
    refine ⟨σ, F, hs, hF, hlen, fun t ht a ha => (hstable t ht a ha).trans (hF2 a ha), fun t ht hret => ?_⟩
    obtain ⟨σ', _, hG, _⟩ := start_returned hr ho (h.trans ht) hret
    apply List.ext_getElem?
    intro a
    by_cases ha : 16 ≤ a ∧ a < 24
    · exact hG.hdr_get hF (by omega)
    · rw [hstable t ht a ha, hF2 a ha]

end

end Speed
