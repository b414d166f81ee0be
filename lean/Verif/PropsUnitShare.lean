import Verif.UnitShare
import Verif.PropsUnits
/-
C64: a metric keeps the unit it was made with.
-/
namespace Speed
namespace Units

/-- No operation extends the structure `a`. -/
def Quiet (a : Nat) (s : UState) : List UOp → Prop
  | [] => True
  | op :: ops => (∀ i, op.extends = some i → s.vars[i]? ≠ some (.ref a)) ∧ ∀ s1, s.step op = some s1 → Quiet a s1 ops

/-- Pointers point to structures. -/
def UState.Wf (s : UState) : Prop := (∀ u ∈ s.vars, ∀ a, u = .ref a → a < s.heap.length) ∧ ∀ u ∈ s.metrics, ∀ a, u = .ref a → a < s.heap.length

/-- What a method does: a new structure, or a change of that of the receiver. -/
theorem method_spec {h h' : Heap} {u u' : MUnit} {f : BitVec 32 → Option (BitVec 32)}
    (he : (∃ w, alloc h (f w) = some (h', u') ∧ ∀ a, u ≠ .ref a) ∨ ∃ a, u = .ref a ∧ update h a f = some (h', u')) :
    h.length ≤ h'.length ∧ (∀ a, u' = .ref a → a < h'.length) ∧ ∀ b, b < h.length → u ≠ .ref b → h'[b]? = h[b]? := by
  rcases he with ⟨w, h1, h2⟩ | ⟨a, rfl, h1⟩
  · unfold alloc at h1
    split at h1
    · cases h1
    · cases h1
      refine ⟨by simp, fun a ha => ?_, fun b hb _ => ?_⟩
      · cases ha; simp
      · rw [List.getElem?_append_left hb]
  · unfold update at h1
    split at h1
    · cases h1
    · rename_i w hw
      split at h1
      · cases h1
      · cases h1
        have hl : a < h.length := by
          rcases Nat.lt_or_ge a h.length with hl | hl
          · exact hl
          · rw [List.getElem?_eq_none hl] at hw; cases hw
        refine ⟨by simp, fun b hb => ?_, fun b _ hb => ?_⟩
        · cases hb; simpa using hl
        · rw [List.getElem?_set_ne]
          rintro rfl
          exact hb rfl

theorem step_spec {s s' : UState} {op : UOp} (hs : s.step op = some s') :
    s.heap.length ≤ s'.heap.length ∧
    (∃ l, s'.metrics = s.metrics ++ l ∧ ∀ u ∈ l, u ∈ s.vars) ∧
    (∃ l, s'.vars = s.vars ++ l ∧ ∀ u ∈ l, ∀ a, u = .ref a → a < s'.heap.length) ∧
    ∀ b, b < s.heap.length → (∀ i, op.extends = some i → s.vars[i]? ≠ some (.ref b)) → s'.heap[b]? = s.heap[b]? := by
  have meth : ∀ (i : Nat) (g : MUnit → Option (Heap × MUnit)) (f : BitVec 32 → Option (BitVec 32)),
      (∀ u h' u', g u = some (h', u') → (∃ w, alloc s.heap (f w) = some (h', u') ∧ ∀ a, u ≠ .ref a) ∨ ∃ a, u = .ref a ∧ update s.heap a f = some (h', u')) →
      op.extends = some i → ((s.vars[i]?).bind fun u => s.keep (g u)) = some s' →
      s.heap.length ≤ s'.heap.length ∧ (∃ l, s'.metrics = s.metrics ++ l ∧ ∀ u ∈ l, u ∈ s.vars) ∧
      (∃ l, s'.vars = s.vars ++ l ∧ ∀ u ∈ l, ∀ a, u = .ref a → a < s'.heap.length) ∧
      ∀ b, b < s.heap.length → (∀ i, op.extends = some i → s.vars[i]? ≠ some (.ref b)) → s'.heap[b]? = s.heap[b]? := by
    intro i g f hg hi hs
    obtain ⟨u, hu, hs⟩ := Option.bind_eq_some_iff.1 hs
    unfold UState.keep at hs
    split at hs
    · cases hs
    · rename_i h' u' he
      cases hs
      obtain ⟨k1, k2, k3⟩ := method_spec (hg u h' u' he)
      refine ⟨k1, ⟨[], by simp⟩, ⟨[u'], rfl, fun v hv => ?_⟩, fun b hb hq => k3 b hb ?_⟩
      · obtain rfl := List.mem_singleton.1 hv; exact k2
      · rintro rfl; exact hq i hi hu
  cases op with
  | new =>
    cases hs
    refine ⟨by simp, ⟨[], by simp⟩, ⟨[_], rfl, fun v hv => ?_⟩, fun b hb _ => ?_⟩
    · obtain rfl := List.mem_singleton.1 hv
      intro a ha; cases ha; simp
    · show (s.heap ++ [0])[b]? = _
      rw [List.getElem?_append_left hb]
  | const u =>
    have key : (∀ a, u ≠ .ref a) → s.keep (some (s.heap, u)) = some s' → s.heap.length ≤ s'.heap.length ∧
        (∃ l, s'.metrics = s.metrics ++ l ∧ ∀ u ∈ l, u ∈ s.vars) ∧
        (∃ l, s'.vars = s.vars ++ l ∧ ∀ u ∈ l, ∀ a, u = .ref a → a < s'.heap.length) ∧
        ∀ b, b < s.heap.length → (∀ i, UOp.extends (.const u) = some i → s.vars[i]? ≠ some (.ref b)) → s'.heap[b]? = s.heap[b]? := by
      intro hu hs
      cases hs
      refine ⟨Nat.le_refl _, ⟨[], by simp⟩, ⟨[u], rfl, fun v hv => ?_⟩, fun b _ _ => rfl⟩
      obtain rfl := List.mem_singleton.1 hv
      exact fun a ha => absurd ha (hu a)
    cases u with
    | ref a => cases hs
    | space w => exact key (by simp) hs
    | time w => exact key (by simp) hs
    | count w => exact key (by simp) hs
  | space i c d =>
    refine meth i _ (fun w => addSpace w c d) ?_ rfl hs
    intro u h' u' he
    cases u with
    | space w => cases he
    | time w => exact .inl ⟨w, he, by simp⟩
    | count w => exact .inl ⟨w, he, by simp⟩
    | ref a => exact .inr ⟨a, rfl, he⟩
  | time i c d =>
    refine meth i _ (fun w => addTime w c d) ?_ rfl hs
    intro u h' u' he
    cases u with
    | space w => exact .inl ⟨w, he, by simp⟩
    | time w => cases he
    | count w => exact .inl ⟨w, he, by simp⟩
    | ref a => exact .inr ⟨a, rfl, he⟩
  | count i c d =>
    refine meth i _ (fun w => addCount w c d) ?_ rfl hs
    intro u h' u' he
    cases u with
    | space w => exact .inl ⟨w, he, by simp⟩
    | time w => exact .inl ⟨w, he, by simp⟩
    | count w => cases he
    | ref a => exact .inr ⟨a, rfl, he⟩
  | metric i =>
    obtain ⟨u, hu, hs⟩ := Option.map_eq_some_iff.1 hs
    cases hs
    refine ⟨Nat.le_refl _, ⟨[u], rfl, fun v hv => ?_⟩, ⟨[], by simp⟩, fun _ _ _ => rfl⟩
    obtain rfl := List.mem_singleton.1 hv
    exact List.mem_of_getElem? hu

theorem UState.Wf.step {s s' : UState} {op : UOp} (h : s.Wf) (hs : s.step op = some s') : s'.Wf := by
  obtain ⟨h1, ⟨l, h2, h3⟩, ⟨l', h4, h5⟩, _⟩ := step_spec hs
  constructor
  · intro u hu a ha
    rw [h4] at hu
    rcases List.mem_append.1 hu with hu | hu
    · exact Nat.lt_of_lt_of_le (h.1 u hu a ha) h1
    · exact h5 u hu a ha
  · intro u hu a ha
    rw [h2] at hu
    rcases List.mem_append.1 hu with hu | hu
    · exact Nat.lt_of_lt_of_le (h.2 u hu a ha) h1
    · exact Nat.lt_of_lt_of_le (h.1 u (h3 u hu) a ha) h1

theorem UState.Wf.run {ops : List UOp} {s s' : UState} (h : s.Wf) (hs : s.run ops = some s') : s'.Wf := by
  induction ops generalizing s with
  | nil => cases hs; exact h
  | cons op ops ih =>
    obtain ⟨s1, h1, h2⟩ := Option.bind_eq_some_iff.1 hs
    exact ih (h.step h1) h2

theorem wf_init : UState.init.Wf := ⟨fun u hu => (by cases hu), fun u hu => (by cases hu)⟩

/-- C64, the part that holds: a metric that was made with one of the constants, or with a unit structure that is not extended later,
is published with the unit it was made with. Missing: structures that are extended later (`C64_refuted`). -/
theorem C64_unchanged_partial {pre ops : List UOp} {s s' : UState} (h0 : UState.init.run pre = some s) (hs : s.run ops = some s') {m : Nat}
    {u : MUnit} (hm : s.metrics[m]? = some u) (hq : ∀ a, u = .ref a → Quiet a s ops) : s'.published m = s.published m := by
  have hw := wf_init.run h0
  clear h0
  induction ops generalizing s with
  | nil => cases hs; rfl
  | cons op ops ih =>
    obtain ⟨s1, h1, h2⟩ := Option.bind_eq_some_iff.1 hs
    obtain ⟨k1, ⟨l, k2, _⟩, _, k4⟩ := step_spec h1
    have hm1 : s1.metrics[m]? = some u := by
      have hl : m < s.metrics.length := by
        rcases Nat.lt_or_ge m s.metrics.length with hl | hl
        · exact hl
        · rw [List.getElem?_eq_none hl] at hm; cases hm
      rw [k2, List.getElem?_append_left hl]; exact hm
    rw [ih h2 hm1 (fun a ha => (hq a ha).2 s1 h1) (hw.step h1)]
    unfold UState.published
    rw [hm1, hm]
    cases u with
    | space w => rfl
    | time w => rfl
    | count w => rfl
    | ref a => exact k4 a (hw.2 _ (List.mem_of_getElem? hm) a rfl) (hq a rfl).1

/-- A metric with a structure of its own; another structure is extended later. -/
example : ∃ s s', UState.init.run [.new, .space 0 (spaceUnit 0) 1, .metric 1] = some s ∧
    s.run [.new, .time 2 (timeUnit 3) (-1), .metric 3] = some s' ∧ s'.published 0 = some 0x10000000 ∧ s'.published 1 = some 0x0F003000 :=
  ⟨_, _, rfl, rfl, by decide, by decide⟩

/-- C64 does not hold: when a program derives a unit from a structure without a time component by adding one, the metrics that were
made with the structure before are published with the new unit: the method changes the structure in place. -/
theorem C64_refuted {s : UState} {m i a : Nat} {w : BitVec 32} (hm : s.metrics[m]? = some (.ref a))
    (hi : s.vars[i]? = some (.ref a)) (hw : s.published m = some w) (ht : timeDim w = 0) (k : BitVec 4) {d : BitVec 8} (hd : -8 ≤ d.toInt ∧ d.toInt ≤ 7) :
    ∃ s' w', s.step (.time i (timeUnit k) d) = some s' ∧ s'.published m = some w' ∧ timeDim w' ≠ 0 ∧ w' ≠ w := by
  have hr : inRange d = true := (inRange_iff d).2 hd
  have ha : s.heap[a]? = some w := by
    unfold UState.published at hw; rw [hm] at hw; exact hw
  obtain ⟨w', hw'⟩ : ∃ w', addTime w (timeUnit k) d = some w' := ⟨_, by unfold addTime orIn; rw [if_pos hr]⟩
  have h1 := ((C28_exact w w' k d).2.1 hw').1
  have key : ∀ x y : BitVec 4, (x ||| 1 ||| y).signExtend 8 ≠ 0 := by decide
  have hne : timeDim w' ≠ 0 := by rw [h1]; exact key _ _
  have hl : a < s.heap.length := by
    rcases Nat.lt_or_ge a s.heap.length with hl | hl
    · exact hl
    · rw [List.getElem?_eq_none hl] at ha; cases ha
  refine ⟨⟨s.heap.set a w', s.vars ++ [.ref a], s.metrics⟩, w', ?_, ?_, hne, ?_⟩
  · simp [UState.step, hi, MUnit.addTime, update, ha, hw', UState.keep]
  · simp [UState.published, hm, MUnit.pmapi, hl]
  · rintro rfl; exact hne ht

/-- Bytes for the first metric, bytes per second for the second: both are published as bytes per second. -/
theorem C64_refuted_example : ((UState.init.run [.new, .space 0 (spaceUnit 0) 1, .metric 1]).map (fun s => s.published 0) = some (some 0x10000000)) ∧
    ((UState.init.run [.new, .space 0 (spaceUnit 0) 1, .metric 1, .time 1 (timeUnit 3) (-1), .metric 2]).map
      (fun s => (s.published 0, s.published 1)) = some (some 0x1F003000, some 0x1F003000)) := by decide

end Units
end Speed
