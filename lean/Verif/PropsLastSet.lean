import Verif.PropsLive
/-
The file shows the value that was set last (C05).
-/
namespace Speed
open Dump

/-- Identical, or two zeros of the same float type. -/
def SameVal : GoVal → GoVal → Prop
  | .float32 a, .float32 b => a = b ∨ (a.toNat % 2 ^ 31 = 0 ∧ b.toNat % 2 ^ 31 = 0)
  | .float64 a, .float64 b => a = b ∨ (a.toNat % 2 ^ 63 = 0 ∧ b.toNat % 2 ^ 63 = 0)
  | a, b => a = b

theorem SameVal.refl (a : GoVal) : SameVal a a := by
  cases a <;> first | exact .inl rfl | rfl

theorem sameVal_of_goEq {a b : GoVal} (h : goEq a b = true) : SameVal b a := by
  unfold goEq at h
  split at h
  · unfold feq32 at h
    simp only [Bool.and_eq_true, Bool.or_eq_true, decide_eq_true_eq] at h
    show _ ∨ _
    grind
  · unfold feq64 at h
    simp only [Bool.and_eq_true, Bool.or_eq_true, decide_eq_true_eq] at h
    show _ ∨ _
    grind
  · rw [show a = b by simpa using h]; exact .refl _

/-- C05: after a `Set` or `SetInstance` with a compatible value, which succeeds, the dump of the mapped file shows that value
for this metric and instance. -/
theorem C05_set {e o w} (h : Active e o w) {m : Metric} (hm : m ∈ w.reg.metrics) {s : Option Str} (hs : s ∈ m.slots) {v : GoVal}
    (hf : Fits v) (hc : isCompatible m.desc.t v = true) :
    (w.call m (setAt s v)).2 = .ok () ∧
    ∃ m' ∈ (w.call m (setAt s v)).1.reg.metrics, m'.uid = m.uid ∧ m'.desc = m.desc ∧ (∃ out, Dumps (w.call m (setAt s v)).1.mem out) ∧
      ∀ out, Dumps (w.call m (setAt s v)).1.mem out → ∃ D A v' x, out = .ok D ∧ DescribesAt (w.call m (setAt s v)).1.reg D A ∧
        look D.values (A.value m.uid s) = some x ∧ ValueShows D A x m' s v' ∧ SameVal v' (resolve m.desc.t v) := by
  obtain ⟨σ, hl, _⟩ := h.liveAt
  obtain ⟨old, u, hold, _, _, heq⟩ := hl.setAt_spec hm hs hf hc
  have ha := h.setAt hm s hf
  obtain ⟨h1, h2⟩ := C05_file_follows_partial ha
  refine ⟨by unfold Live.call; rw [heq], ?_⟩
  have key : ∃ m' ∈ (w.call m (setAt s v)).1.reg.metrics, ∃ v', m'.uid = m.uid ∧ m'.desc = m.desc ∧ s ∈ m'.slots ∧ m'.cur s = some v' ∧
      SameVal v' (resolve m.desc.t v) := by
    by_cases hg : goEq (resolve m.desc.t v) old = true
    · have hr : (w.call m (setAt s v)).1.reg = w.reg.setMetric m := by unfold Live.call; rw [heq, if_pos hg]; rfl
      refine ⟨m, ?_, old, rfl, rfl, hs, hold, sameVal_of_goEq hg⟩
      rw [hr]
      unfold Reg.setMetric
      exact List.mem_map.2 ⟨m, hm, by simp⟩
    · have hr : (w.call m (setAt s v)).1.reg = w.reg.setMetric (m.put s (resolve m.desc.t v)) := by unfold Live.call; rw [heq, if_neg hg]; rfl
      refine ⟨m.put s (resolve m.desc.t v), by rw [hr]; exact mem_setMetric_self hm, resolve m.desc.t v, put_uid .., put_desc .., ?_, ?_, .refl _⟩
      · show s ∈ (m.put s (resolve m.desc.t v)).slotNames
        rw [put_slotNames]; exact hs
      · rw [put_cur, if_pos rfl, hold]; rfl
  obtain ⟨m', g1, v', g2, g3, g4, g5, g6⟩ := key
  refine ⟨m', g1, g2, g3, h1, fun out hd => ?_⟩
  obtain ⟨D, A, k1, k2, k3⟩ := h2 out hd
  obtain ⟨v'', x, j1, j2, j3⟩ := k3 m' g1 s g4
  rw [reads_cur g4 g5] at j1
  obtain rfl : v' = v'' := by simpa using j1
  exact ⟨D, A, v', x, k1, k2, by rw [← g2]; exact j2, j3, g6⟩

/-- 1.0 is replaced by -1.0, -0.0 is not replaced by 0.0. -/
example : goEq (.float64 0xBFF0000000000000) (.float64 0x3FF0000000000000) = false ∧ ¬ SameVal (.float64 0xBFF0000000000000) (.float64 0x3FF0000000000000) ∧
    SameVal (.float64 0x8000000000000000) (.float64 0) := by
  unfold SameVal; decide

end Speed
