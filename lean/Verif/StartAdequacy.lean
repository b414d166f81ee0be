import Verif.StartFinal
/-
The invariant holds in the initial state of `start`; consequences for every execution.
-/
namespace Speed

section
variable {r : Reg} {e : Env} {o : Ord}

/-- Section that the byte at `a` belongs to. -/
def secOf (r : Reg) (a : Nat) : Option Loc :=
  if a < r.indomoffset then some (.thr 0)
  else if a < r.instanceoffset then some (.ch .indom)
  else if a < r.metricsoffset then some (.ch .inst)
  else if a < r.valuesoffset then some (.ch .metric)
  else if a < r.stringsoffset then some (.ch .value)
  else if a < r.Length then some (.ch .str)
  else none

def initGl (r : Reg) : Gl where
  own := fun k => match k with
    | .mem a => secOf r a
    | .perm _ => some (.thr 0)
    | .snd => some (.thr 0)
    | .rcv => some (.thr 0)
    | .fin => some (.thr 0)
    | _ => none
  val := fun _ => 0

theorem initGl_res (r : Reg) : (initGl r).res (.thr 0) = initRes r := by
  funext k
  unfold Gl.res initGl initRes
  cases k <;> simp
  rename_i a
  unfold secOf
  by_cases h : a < r.indomoffset
  · simp [h]
  · simp only [h, if_false]
    rw [if_neg]
    repeat (split <;> [simp; skip])
    simp

theorem init_inv (hr : r.OK) (ho : o.OK r) (cells : Cell → Option Nat) :
    Inv (params r e o) (initSt r e o cells) ⟨[], fun _ => none⟩ (initGl r) := by
  obtain ⟨c1, c2, c3, c4, c5, c6⟩ := off_chain r
  obtain ⟨l1, l2, l3, l4, l5⟩ := lim_eq hr e o
  have hz : ∀ a, a < r.Length → (initSt r e o cells).mem[a]? = some 0 := by
    intro a ha
    simp [initSt, newByteWriter, ha]
  refine ⟨rfl, by simp [initSt, newByteWriter, params], ?_, ?_, ?_, ?_, ?_, ?_, ?_, rfl, ?_, ?_, ?_, ?_,
    ?_, rfl, ?_, ?_, ?_⟩
  · intro a ha
    refine ⟨0, hz a ?_, rfl⟩
    simp only [initGl, secOf] at ha
    by_contra hge
    apply ha
    simp only [show ¬ a < r.indomoffset by omega, show ¬ a < r.instanceoffset by omega,
      show ¬ a < r.metricsoffset by omega, show ¬ a < r.valuesoffset by omega,
      show ¬ a < r.stringsoffset by omega, hge, if_false]
  · intro k i h
    have : i = 0 := by
      cases k <;> simp [initGl] at h <;> try omega
      simp only [secOf] at h
      split at h <;> [(cases h; rfl); skip]
      repeat (split at h <;> [cases h; skip])
      cases h
    simp [this, initSt]
  · intro k l h hp
    cases k <;> simp [initGl, Key.plain] at h hp <;> exact ⟨0, h.symm⟩
  · intro i p hi
    left
    simp only [initSt] at hi
    have : i = 0 := by have := lt_of_get hi; simp at this; exact this
    subst this
    simp at hi; subst hi
    rw [initGl_res]
    exact wp_start hr ho
  · left
    have hlen : 28 ≤ r.Length := by omega
    refine ⟨fun _ => ⟨fun a _ _ => hz a (by omega), fun _ a _ _ => hz a (by omega)⟩, ?_⟩
    intro a b h1 h2 h3
    rw [hz a (by omega)] at h3
    exact .inl (Option.some.inj h3).symm
  · intro c hc hm
    refine ⟨(params r e o).base c, .inl ⟨?_, rfl⟩, ?_, ?_, ?_⟩
    · cases c <;> simp [params, regMade, Chan.isAlloc] at hc hm <;>
        simp [initSt, initCh, params, regBase, hm]
    · simp
    · intro a h1 h2
      refine ⟨?_, rfl⟩
      simp only [initGl, secOf]
      cases c with
      | indom => rw [l1] at h2; have h1 : r.indomoffset ≤ a := h1; rw [if_neg (by omega), if_pos (by omega)]
      | inst =>
        rw [l2] at h2; have h1 : r.instanceoffset ≤ a := h1
        rw [if_neg (by omega), if_neg (by omega), if_pos (by omega)]
      | metric =>
        rw [l3] at h2; have h1 : r.metricsoffset ≤ a := h1
        rw [if_neg (by omega), if_neg (by omega), if_neg (by omega), if_pos (by omega)]
      | value =>
        rw [l4] at h2; have h1 : r.valuesoffset ≤ a := h1
        rw [if_neg (by omega), if_neg (by omega), if_neg (by omega), if_neg (by omega), if_pos (by omega)]
      | str =>
        rw [l5] at h2; have h1 : r.stringsoffset ≤ a := h1
        rw [if_neg (by omega), if_neg (by omega), if_neg (by omega), if_neg (by omega), if_neg (by omega),
          if_pos (by omega)]
      | gen => cases hc
      | g2 => cases hc
    · intro t x _ h; cases h
  · intro c hc
    cases c <;> simp [Chan.isAlloc] at hc <;> rfl
  · intro w Qs h; simp at h
  · intro w i h; simp [initGl] at h
  · intro w h; simp [initGl] at h
  · intro k w i h
    cases k <;> simp [initGl] at h
    simp only [secOf] at h
    repeat (split at h <;> [cases h; skip])
    cases h
  · simp [initGl]
  · intro c v h; cases h
  · intro k h; exact absurd rfl h
  · refine ⟨fun t v h => ?_, fun t t' v _ h => ?_⟩
    · cases h
    · cases h

/-- No schedule makes any goroutine of `start` panic. -/
theorem start_safe (hr : r.OK) (ho : o.OK r) {cells s} (h : Reach (initSt r e o cells) s) :
    s.crashed = false := by
  obtain ⟨W, g, _, hi⟩ := inv_reach (params_wf hr) (init_inv hr ho cells) h
  exact hi.nocrash

theorem start_len (hr : r.OK) (ho : o.OK r) {cells s} (h : Reach (initSt r e o cells) s) :
    s.mem.length = r.Length := by
  obtain ⟨W, g, _, hi⟩ := inv_reach (params_wf hr) (init_inv hr ho cells) h
  exact hi.len

/-- At every moment the buffer is either visibly unfinished or finished up to the second generation
number. -/
theorem start_phase (hr : r.OK) (ho : o.OK r) {cells s} (h : Reach (initSt r e o cells) s) :
    ((e.gen ≠ 0 → Early s.mem) ∧ VerAt r s.mem) ∨ ∃ σ, SealOK (params r e o) σ ∧ Late r e o σ s.mem := by
  obtain ⟨W, g, _, hi⟩ := inv_reach (params_wf hr) (init_inv hr ho cells) h
  rcases hi.phase with h1 | ⟨i, p, _, _, _, _, _, _, σ, _, hs, hf⟩
  · exact .inl h1
  · right
    refine ⟨σ, hs, ?_⟩
    cases p <;> simp only [FinalOK] at hf
    · exact hf.1
    · exact hf.1

/-- Whenever the caller of `start` has returned, the buffer is a complete file and stays one. -/
theorem start_returned (hr : r.OK) (ho : o.OK r) {cells s} (h : Reach (initSt r e o cells) s)
    (hret : Returned s) :
    ∃ σ, SealOK (params r e o) σ ∧ FileOK r e o σ s.mem ∧
      ∀ c v, σ (.cell c) = some v → s.cells c = some v := by
  obtain ⟨W, g, _, hi⟩ := inv_reach (params_wf hr) (init_inv hr ho cells) h
  rcases hi.thr 0 _ hret with hw | ⟨_, _, _, _, _, σ, hle, hs, hf⟩
  · exfalso
    have h1 : (g.res (.thr 0)) .fin = none := by
      unfold WP at hw; simp_all
    rw [Gl.res_none] at h1
    exact h1 hi.fin
  · exact ⟨σ, hs, hf.2, fun c v hc => hi.cells c v (hle _ _ hc)⟩

/-- No deadlock: when nobody can step, everybody has returned. -/
theorem start_progress (hr : r.OK) (ho : o.OK r) {cells s} (h : Reach (initSt r e o cells) s)
    (hst : Stuck s) : AllDone s := by
  obtain ⟨W, g, _, hi⟩ := inv_reach (params_wf hr) (init_inv hr ho cells) h
  exact progress hi hst

end
end Speed
