import Mathlib.Tactic.ByContra
import Verif.Units
/-
Properties of units (C28, C29).

The specification reads a unit word as six four bit fields: `field 28`, `field 24`, `field 20` are the dimensions of
space, time and count as signed numbers, `field 16`, `field 12`, `field 8` their scales.
-/
namespace Speed
namespace Units

def field (k : Nat) (w : BitVec 32) : BitVec 4 := w.extractLsb' k 4

theorem field_or (k : Nat) (a b : BitVec 32) : field k (a ||| b) = field k a ||| field k b := by
  unfold field
  ext i hi
  simp

theorem lt8 {i : Nat} (h : i < 8) : i = 0 ∨ i = 1 ∨ i = 2 ∨ i = 3 ∨ i = 4 ∨ i = 5 ∨ i = 6 ∨ i = 7 := by omega
theorem lt4 {i : Nat} (h : i < 4) : i = 0 ∨ i = 1 ∨ i = 2 ∨ i = 3 := by omega

theorem spaceDim_eq (w : BitVec 32) : spaceDim w = (field 28 w).signExtend 8 := by
  unfold spaceDim field
  ext i hi
  rcases lt8 hi with rfl | rfl | rfl | rfl | rfl | rfl | rfl | rfl <;>
    simp [BitVec.getElem_signExtend, BitVec.getElem_sshiftRight, BitVec.msb_eq_getLsbD_last]

theorem timeDim_eq (w : BitVec 32) : timeDim w = (field 24 w).signExtend 8 := by
  unfold timeDim field
  ext i hi
  rcases lt8 hi with rfl | rfl | rfl | rfl | rfl | rfl | rfl | rfl <;>
    simp [BitVec.getElem_signExtend, BitVec.getElem_sshiftRight, BitVec.msb_eq_getLsbD_last]

theorem countDim_eq (w : BitVec 32) : countDim w = (field 20 w).signExtend 8 := by
  unfold countDim field
  ext i hi
  rcases lt8 hi with rfl | rfl | rfl | rfl | rfl | rfl | rfl | rfl <;>
    simp [BitVec.getElem_signExtend, BitVec.getElem_sshiftRight, BitVec.msb_eq_getLsbD_last]

theorem nibble (k : Nat) (w : BitVec 32) (hk : k + 4 ≤ 32) : (w >>> k) &&& 0xF = (field k w).setWidth 32 := by
  unfold field
  ext i hi
  have h15 : ∀ i, i < 32 → (0xF : BitVec 32).getLsbD i = decide (i < 4) := by decide
  simp only [BitVec.getElem_and, BitVec.getElem_ushiftRight, BitVec.getElem_setWidth, BitVec.getLsbD_extractLsb']
  rw [← BitVec.getLsbD_eq_getElem (x := (0xF : BitVec 32)), h15 i hi, Bool.and_comm]

theorem signExtend_eq {a : BitVec 4} {d : BitVec 8} (hd : inRange d = true) :
    a.signExtend 8 = d ↔ a = d.setWidth 4 := by
  revert a d; decide

theorem inRange_iff (d : BitVec 8) : inRange d = true ↔ -8 ≤ d.toInt ∧ d.toInt ≤ 7 := by
  revert d; decide

/-- The contribution of the dimension: only to its own field. -/
theorem field_dim (d : BitVec 8) : ∀ j ∈ [8, 12, 16, 20, 24, 28], ∀ k ∈ [20, 24, 28],
    field j ((d.signExtend 32 &&& 0xF) <<< k) = if j = k then d.setWidth 4 else 0 := by
  revert d; decide

theorem field_space (k : BitVec 4) : ∀ j ∈ [8, 12, 16, 20, 24, 28],
    field j (spaceUnit k) = if j = 28 then 1 else if j = 16 then k else 0 := by
  revert k; decide

theorem field_time (k : BitVec 4) : ∀ j ∈ [8, 12, 16, 20, 24, 28],
    field j (timeUnit k) = if j = 24 then 1 else if j = 12 then k else 0 := by
  revert k; decide

theorem field_one : ∀ j ∈ [8, 12, 16, 20, 24, 28], field j oneUnit = if j = 20 then 1 else 0 := by decide

theorem orIn_some {k : Nat} {w s w' : BitVec 32} {d : BitVec 8} (h : orIn k w s d = some w') :
    inRange d = true ∧ w' = (w ||| s) ||| ((d.signExtend 32 &&& 0xF) <<< k) := by
  unfold orIn at h
  split at h
  · rename_i hr; exact ⟨hr, (Option.some.inj h).symm⟩
  · cases h

/-- **C28**, the range: the call panics exactly when the dimension is outside -8..7. -/
theorem C28_range (w s : BitVec 32) (d : BitVec 8) :
    (addSpace w s d = none ↔ d.toInt < -8 ∨ 7 < d.toInt) ∧ (addTime w s d = none ↔ d.toInt < -8 ∨ 7 < d.toInt) ∧
    (addCount w s d = none ↔ d.toInt < -8 ∨ 7 < d.toInt) := by
  have key : ∀ k, orIn k w s d = none ↔ d.toInt < -8 ∨ 7 < d.toInt := by
    intro k
    have h := inRange_iff d
    unfold orIn
    cases hd : inRange d with
    | true =>
      have := h.1 hd
      simp only [if_true]
      constructor
      · intro h; cases h
      · intro h; omega
    | false =>
      simp only [Bool.false_eq_true, if_false, true_iff]
      by_contra hc
      have := h.2 (by omega)
      rw [hd] at this; cases this
  exact ⟨key _, key _, key _⟩

/-- 7 and -8 are the ends of the range. -/
example : addTime 0 (timeUnit 3) 7 ≠ none ∧ addTime 0 (timeUnit 3) 8 = none ∧ addSpace oneUnit (spaceUnit 2) (-8) ≠ none ∧
    addSpace oneUnit (spaceUnit 2) (-9) = none := by decide

/-- What the call leaves in the two fields of the component: bitwise or with what was there, with 1 and with `d`. -/
theorem C28_exact (w w' : BitVec 32) (k : BitVec 4) (d : BitVec 8) :
    (addSpace w (spaceUnit k) d = some w' →
      spaceDim w' = (field 28 w ||| 1 ||| d.setWidth 4).signExtend 8 ∧ field 16 w' = field 16 w ||| k) ∧
    (addTime w (timeUnit k) d = some w' →
      timeDim w' = (field 24 w ||| 1 ||| d.setWidth 4).signExtend 8 ∧ field 12 w' = field 12 w ||| k) ∧
    (addCount w oneUnit d = some w' →
      countDim w' = (field 20 w ||| 1 ||| d.setWidth 4).signExtend 8 ∧ field 8 w' = field 8 w) := by
  refine ⟨fun h => ?_, fun h => ?_, fun h => ?_⟩ <;> obtain ⟨_, rfl⟩ := orIn_some h
  · rw [spaceDim_eq]
    simp only [field_or]
    rw [field_space k 28 (by decide), field_dim d 28 (by decide) 28 (by decide), field_space k 16 (by decide),
      field_dim d 16 (by decide) 28 (by decide)]
    simp
  · rw [timeDim_eq]
    simp only [field_or]
    rw [field_time k 24 (by decide), field_dim d 24 (by decide) 24 (by decide), field_time k 12 (by decide),
      field_dim d 12 (by decide) 24 (by decide)]
    simp
  · rw [countDim_eq]
    simp only [field_or]
    rw [field_one 20 (by decide), field_dim d 20 (by decide) 20 (by decide), field_one 8 (by decide),
      field_dim d 8 (by decide) 20 (by decide)]
    simp

/-- Bytes with the dimension 2 become bytes with the dimension 3; a second call with kilobytes (1) after megabytes (2) leaves the
scale 3, gigabytes. -/
example : (addSpace 0 (spaceUnit 0) 2).map spaceDim = some 3 ∧
    ((addSpace 0 (spaceUnit 2) 1).bind fun w => addSpace w (spaceUnit 1) 1).map (field 16) = some 3 := by decide

/-- **C28 is false for every even dimension**, whatever the unit was before: the unit constants have the dimension 1
themselves. -/
theorem C28_refuted {w w' : BitVec 32} {k : BitVec 4} {d : BitVec 8} (hd : d.toInt % 2 = 0) :
    (addSpace w (spaceUnit k) d = some w' → spaceDim w' ≠ d) ∧ (addTime w (timeUnit k) d = some w' → timeDim w' ≠ d) ∧
    (addCount w oneUnit d = some w' → countDim w' ≠ d) := by
  have key : ∀ (a : BitVec 4) (d : BitVec 8), d.toInt % 2 = 0 → (a ||| 1 ||| d.setWidth 4).signExtend 8 ≠ d := by decide
  refine ⟨fun h => ?_, fun h => ?_, fun h => ?_⟩
  · rw [((C28_exact w w' k d).1 h).1]; exact key _ _ hd
  · rw [((C28_exact w w' k d).2.1 h).1]; exact key _ _ hd
  · rw [((C28_exact w w' k d).2.2 h).1]; exact key _ _ hd

/-- For example bytes squared are bytes cubed; on an existing structure a component cannot be replaced either. -/
theorem C28_refuted_example : (addSpace 0 (spaceUnit 0) 2).map spaceDim = some 3 ∧
    ((addSpace 0 (spaceUnit 2) (-1)).bind fun w => addSpace w (spaceUnit 1) 1).map spaceDim = some (-1) ∧
    ((addSpace 0 (spaceUnit 2) 1).bind fun w => addSpace w (spaceUnit 1) 1).bind spaceScale = some (spaceUnit 3) := by decide

/-- **C28 (partial).** On a unit without the component and for an odd dimension in range the component is what was asked
for, for the client's decoders and for those of the dump. Missing: even dimensions (`C28_refuted`), and units that
have the component already. -/
theorem C28_odd_partial {w : BitVec 32} {k : BitVec 4} {d : BitVec 8} (hd : -8 ≤ d.toInt ∧ d.toInt ≤ 7) (hodd : d.toInt % 2 = 1) :
    (field 28 w = 0 → field 16 w = 0 → ∃ w', addSpace w (spaceUnit k) d = some w' ∧ spaceDim w' = d ∧
      spaceScale w' = some (spaceUnit k) ∧ dumpSpaceScale w' = k.setWidth 8) ∧
    (field 24 w = 0 → field 12 w = 0 → ∃ w', addTime w (timeUnit k) d = some w' ∧ timeDim w' = d ∧
      timeScale w' = some (timeUnit k) ∧ dumpTimeScale w' = k.setWidth 8) ∧
    (field 20 w = 0 → field 8 w = 0 → ∃ w', addCount w oneUnit d = some w' ∧ countDim w' = d ∧
      countScale w' = some oneUnit ∧ dumpCountScale w' = 0) := by
  have hr : inRange d = true := (inRange_iff d).2 hd
  have key : ∀ d : BitVec 8, inRange d = true → d.toInt % 2 = 1 → (0 ||| 1 ||| d.setWidth 4).signExtend 8 = d ∧ d ≠ 0 := by decide
  obtain ⟨k1, k2⟩ := key d hr hodd
  have hsome : ∀ j s, ∃ w', orIn j w s d = some w' := fun j s => ⟨_, by unfold orIn; rw [if_pos hr]⟩
  refine ⟨fun h1 h2 => ?_, fun h1 h2 => ?_, fun h1 h2 => ?_⟩
  · obtain ⟨w', hw⟩ := hsome 28 (spaceUnit k)
    obtain ⟨e1, e2⟩ := (C28_exact w w' k d).1 hw
    rw [h1, k1] at e1
    rw [h2] at e2
    refine ⟨w', hw, e1, ?_, ?_⟩
    · unfold spaceScale
      rw [if_neg (by rw [e1]; exact k2), nibble 16 w' (by decide), e2]
      unfold spaceUnit; simp
    · unfold dumpSpaceScale
      rw [nibble 16 w' (by decide), e2]; simp
  · obtain ⟨w', hw⟩ := hsome 24 (timeUnit k)
    obtain ⟨e1, e2⟩ := (C28_exact w w' k d).2.1 hw
    rw [h1, k1] at e1
    rw [h2] at e2
    refine ⟨w', hw, e1, ?_, ?_⟩
    · unfold timeScale
      rw [if_neg (by rw [e1]; exact k2), nibble 12 w' (by decide), e2]
      unfold timeUnit; simp
    · unfold dumpTimeScale
      rw [nibble 12 w' (by decide), e2]; simp
  · obtain ⟨w', hw⟩ := hsome 20 oneUnit
    obtain ⟨e1, e2⟩ := (C28_exact w w' k d).2.2 hw
    rw [h1, k1] at e1
    rw [h2] at e2
    refine ⟨w', hw, e1, ?_, ?_⟩
    · unfold countScale
      rw [if_neg (by rw [e1]; exact k2), nibble 8 w' (by decide), e2]
      rfl
    · unfold dumpCountScale
      rw [nibble 8 w' (by decide), e2]; simp

/-- Seconds to the power -3 per megabyte, on top of a count. -/
example : ((addTime oneUnit (timeUnit 3) (-3)).bind fun w => addSpace w (spaceUnit 2) (-1)).map
    (fun w => (timeDim w, timeScale w, spaceDim w, spaceScale w, countDim w)) =
    some (-3, some (timeUnit 3), -1, some (spaceUnit 2), 1) := by decide

/-- **C29.** A component does not change the fields of the other two. -/
theorem C29_independent {w w' : BitVec 32} {k : BitVec 4} {d : BitVec 8} :
    (addSpace w (spaceUnit k) d = some w' → timeDim w' = timeDim w ∧ timeScale w' = timeScale w ∧
      dumpTimeScale w' = dumpTimeScale w ∧ countDim w' = countDim w ∧ countScale w' = countScale w ∧
      dumpCountScale w' = dumpCountScale w) ∧
    (addTime w (timeUnit k) d = some w' → spaceDim w' = spaceDim w ∧ spaceScale w' = spaceScale w ∧
      dumpSpaceScale w' = dumpSpaceScale w ∧ countDim w' = countDim w ∧ countScale w' = countScale w ∧
      dumpCountScale w' = dumpCountScale w) ∧
    (addCount w oneUnit d = some w' → spaceDim w' = spaceDim w ∧ spaceScale w' = spaceScale w ∧
      dumpSpaceScale w' = dumpSpaceScale w ∧ timeDim w' = timeDim w ∧ timeScale w' = timeScale w ∧
      dumpTimeScale w' = dumpTimeScale w) := by
  have rd : ∀ w' : BitVec 32, (field 28 w' = field 28 w → field 16 w' = field 16 w → spaceDim w' = spaceDim w ∧
        spaceScale w' = spaceScale w ∧ dumpSpaceScale w' = dumpSpaceScale w) ∧
      (field 24 w' = field 24 w → field 12 w' = field 12 w → timeDim w' = timeDim w ∧
        timeScale w' = timeScale w ∧ dumpTimeScale w' = dumpTimeScale w) ∧
      (field 20 w' = field 20 w → field 8 w' = field 8 w → countDim w' = countDim w ∧
        countScale w' = countScale w ∧ dumpCountScale w' = dumpCountScale w) := by
    intro w'
    refine ⟨fun h1 h2 => ?_, fun h1 h2 => ?_, fun h1 h2 => ?_⟩
    · unfold spaceScale dumpSpaceScale
      rw [spaceDim_eq, spaceDim_eq, h1, nibble 16 w' (by decide), nibble 16 w (by decide), h2]
      exact ⟨rfl, rfl, rfl⟩
    · unfold timeScale dumpTimeScale
      rw [timeDim_eq, timeDim_eq, h1, nibble 12 w' (by decide), nibble 12 w (by decide), h2]
      exact ⟨rfl, rfl, rfl⟩
    · unfold countScale dumpCountScale
      rw [countDim_eq, countDim_eq, h1, nibble 8 w' (by decide), nibble 8 w (by decide), h2]
      exact ⟨rfl, rfl, rfl⟩
  refine ⟨fun h => ?_, fun h => ?_, fun h => ?_⟩ <;> obtain ⟨_, e⟩ := orIn_some h <;> obtain ⟨r1, r2, r3⟩ := rd w'
  · have hf : ∀ j ∈ [8, 12, 20, 24], field j w' = field j w := by
      intro j hj
      have hj' : j ∈ [8, 12, 16, 20, 24, 28] := by revert j; decide
      rw [e, field_or, field_or, field_space k j hj', field_dim d j hj' 28 (by decide)]
      have : j ≠ 28 ∧ j ≠ 16 := by revert j; decide
      simp [this.1, this.2]
    obtain ⟨a1, a2, a3⟩ := r2 (hf 24 (by decide)) (hf 12 (by decide))
    obtain ⟨b1, b2, b3⟩ := r3 (hf 20 (by decide)) (hf 8 (by decide))
    exact ⟨a1, a2, a3, b1, b2, b3⟩
  · have hf : ∀ j ∈ [8, 16, 20, 28], field j w' = field j w := by
      intro j hj
      have hj' : j ∈ [8, 12, 16, 20, 24, 28] := by revert j; decide
      rw [e, field_or, field_or, field_time k j hj', field_dim d j hj' 24 (by decide)]
      have : j ≠ 24 ∧ j ≠ 12 := by revert j; decide
      simp [this.1, this.2]
    obtain ⟨a1, a2, a3⟩ := r1 (hf 28 (by decide)) (hf 16 (by decide))
    obtain ⟨b1, b2, b3⟩ := r3 (hf 20 (by decide)) (hf 8 (by decide))
    exact ⟨a1, a2, a3, b1, b2, b3⟩
  · have hf : ∀ j ∈ [12, 16, 24, 28], field j w' = field j w := by
      intro j hj
      have hj' : j ∈ [8, 12, 16, 20, 24, 28] := by revert j; decide
      rw [e, field_or, field_or, field_one j hj', field_dim d j hj' 20 (by decide)]
      have : j ≠ 20 := by revert j; decide
      simp [this]
    obtain ⟨a1, a2, a3⟩ := r1 (hf 28 (by decide)) (hf 16 (by decide))
    obtain ⟨b1, b2, b3⟩ := r2 (hf 24 (by decide)) (hf 12 (by decide))
    exact ⟨a1, a2, a3, b1, b2, b3⟩

/-- Adding seconds to a count of megabytes leaves both as they are. -/
example : ((addCount 0 oneUnit 1).bind fun w => (addSpace w (spaceUnit 2) 1).bind fun w => addTime w (timeUnit 3) (-1)).map
    (fun w => (countDim w, spaceDim w, spaceScale w)) = some (1, 1, some (spaceUnit 2)) := by decide

theorem orIn_comm (j k : Nat) (w s t : BitVec 32) (d e : BitVec 8) :
    ((orIn j w s d).bind fun w => orIn k w t e) = ((orIn k w t e).bind fun w => orIn j w s d) := by
  unfold orIn
  cases hd : inRange d <;> cases he : inRange e <;> simp
  ac_rfl

/-- **C29**, order: two components may be added in either order, with the same result or the same panic. -/
theorem C29_order (w s t c : BitVec 32) (d e : BitVec 8) :
    (((addSpace w s d).bind fun w => addTime w t e) = ((addTime w t e).bind fun w => addSpace w s d)) ∧
    (((addSpace w s d).bind fun w => addCount w c e) = ((addCount w c e).bind fun w => addSpace w s d)) ∧
    (((addTime w t d).bind fun w => addCount w c e) = ((addCount w c e).bind fun w => addTime w t d)) :=
  ⟨orIn_comm _ _ _ _ _ _ _, orIn_comm _ _ _ _ _ _ _, orIn_comm _ _ _ _ _ _ _⟩

/-- Either order; with a dimension out of range both panic. -/
example : ((addSpace 0 (spaceUnit 2) 1).bind fun w => addTime w (timeUnit 3) (-1)) = some 0x1F023000 ∧
    ((addTime 0 (timeUnit 3) (-1)).bind fun w => addSpace w (spaceUnit 2) 1) = some 0x1F023000 ∧
    ((addTime 0 (timeUnit 3) (-9)).bind fun w => addSpace w (spaceUnit 2) 1) = none := by decide

/-- Starting from a plain unit is the same as adding it, with dimension 1, to an empty one. -/
theorem C29_base (k : BitVec 4) : addSpace 0 (spaceUnit k) 1 = some (spaceUnit k) ∧
    addTime 0 (timeUnit k) 1 = some (timeUnit k) ∧ addCount 0 oneUnit 1 = some oneUnit := by
  revert k; decide

example : addSpace 0 (spaceUnit 6) 1 = some 0x10060000 ∧ spaceUnit 6 = 0x10060000 := by decide

/-- The interface methods do to the value of the receiver what the word functions say, or panic. -/
theorem C29_methods (h : Heap) (u : MUnit) (s : BitVec 32) (d : BitVec 8) {w : BitVec 32} (hw : u.pmapi h = some w) :
    (∀ h' u', u.addSpace h s d = some (h', u') → u'.pmapi h' = addSpace w s d) ∧
    (∀ h' u', u.addTime h s d = some (h', u') → u'.pmapi h' = addTime w s d) ∧
    (∀ h' u', u.addCount h s d = some (h', u') → u'.pmapi h' = addCount w s d) := by
  have ha : ∀ (o : Option (BitVec 32)) h' u', alloc h o = some (h', u') → u'.pmapi h' = o := by
    intro o h' u' he
    unfold alloc at he
    split at he
    · cases he
    · cases he; simp [MUnit.pmapi]
  have hu : ∀ (a : Nat) (f : BitVec 32 → Option (BitVec 32)) h' u', h[a]? = some w → update h a f = some (h', u') →
      u'.pmapi h' = f w := by
    intro a f h' u' hwa he
    unfold update at he
    rw [hwa] at he
    dsimp only at he
    split at he
    · cases he
    · rename_i w' hf
      cases he
      have hlt : a < h.length := by
        rcases Nat.lt_or_ge a h.length with hl | hl
        · exact hl
        · rw [List.getElem?_eq_none hl] at hwa; cases hwa
      simp [MUnit.pmapi, hf, hlt]
  refine ⟨fun h' u' he => ?_, fun h' u' he => ?_, fun h' u' he => ?_⟩ <;> cases u with
  | space x => first | (cases he) | (cases hw; exact ha _ _ _ he)
  | time x => first | (cases he) | (cases hw; exact ha _ _ _ he)
  | count x => first | (cases he) | (cases hw; exact ha _ _ _ he)
  | ref a => exact hu a _ _ _ hw he

/-- Not a separate value: two units derived from one `metricUnit` are the same structure, and end up equal. -/
example : let (h0, u) := newUnit []
    ((u.addSpace h0 (spaceUnit 0) 1).bind fun (h1, a) => (u.addTime h1 (timeUnit 0) 1).map fun (h2, b) =>
      (a.pmapi h1, a.pmapi h2, b.pmapi h2)) =
    some (some (spaceUnit 0), some (spaceUnit 0 ||| timeUnit 0), some (spaceUnit 0 ||| timeUnit 0)) := by decide

end Units
end Speed
