import Verif.StartProg
/-
Properties of the byte writer (C10, C11).
-/
namespace Speed

/-! ### C10 -/

/-- C10 is false at the end of the `int` range: `offset+l` wraps around to a negative number, the bounds
check passes, and the copy loop panics instead of returning an error. -/
theorem C10_refuted : bwWrite [0] [7] (2 ^ 63 - 1) = .panic [0] := by decide

/-- What a successful write of `data` at `off` has to make of `b`. -/
def Written (b b' : Buf) (off : Nat) (data : List Byte) : Prop :=
  b'.length = b.length ∧
  (∀ i, i < data.length → b'[off + i]? = data[i]?) ∧
  ∀ j, j < off ∨ off + data.length ≤ j → b'[j]? = b[j]?

theorem place_written {b : Buf} {off : Nat} {data : List Byte} (h : off + data.length ≤ b.length) :
    Written b (place b off data) off data := by
  refine ⟨place_length _ _ _, fun i hi => ?_, fun j hj => ?_⟩
  · rw [place_get _ _ _ h, if_pos (by omega), Nat.add_sub_cancel_left]
  · rw [place_get _ _ _ h, if_neg (by omega)]

theorem Written.unique {b b' b'' : Buf} {off : Nat} {data : List Byte} (h : Written b b' off data)
    (h' : Written b b'' off data) : b' = b'' := by
  apply List.ext_getElem?
  intro j
  by_cases hj : off ≤ j ∧ j < off + data.length
  · have h1 := h.2.1 (j - off) (by omega)
    have h2 := h'.2.1 (j - off) (by omega)
    rw [show off + (j - off) = j by omega] at h1 h2
    rw [h1, h2]
  · rw [h.2.2 j (by omega), h'.2.2 j (by omega)]

/-- C10 (partial): `Write` at an offset such that `off + len(data)` is an `int` succeeds iff the data ends
within the buffer; then it returns `off + len(data)`, stores the data and changes nothing else;
otherwise it returns an error and changes nothing. (Missing: sums beyond 2^63-1, see `C10_refuted`.) -/
theorem C10_write_partial (b data : List Byte) (off : Nat) (hb : b.length < 2 ^ 63) (ho : off + data.length < 2 ^ 63) :
    (off + data.length ≤ b.length → ∃ b', bwWrite b data off = .ok b' ((off + data.length : Nat) : Int) ∧
      Written b b' off data) ∧
    (b.length < off + data.length → bwWrite b data off = .err b (-1)) := by
  refine ⟨fun h => ⟨_, bwWrite_ok h hb, place_written h⟩, fun h => ?_⟩
  have hw : wrap64 ((off : Int) + (data.length : Int)) = ((off + data.length : Nat) : Int) := by
    rw [wrap64_of_range] <;> omega
  have h' : wrap64 ((off : Int) + (data.length : Int)) > b.length := by rw [hw]; exact Int.ofNat_lt.2 h
  unfold bwWrite
  exact if_pos h'

/-- Two bytes fit at 1, not at 3. -/
example : bwWrite [1, 2, 3, 4] [9, 8] 1 = .ok [1, 9, 8, 4] 3 ∧ bwWrite [1, 2, 3, 4] [9, 8] 3 = .err [1, 2, 3, 4] (-1) := by
  decide

theorem bwWriteString_of_err {b b' : Buf} {off : Int} {s : Str} {n : Int} (h : bwWrite b s off = .err b' n) :
    bwWriteString b s off = .err b' (wrap64 (off + s.length)) := by
  unfold bwWriteString
  rw [h]

/-- C10, for `WriteString`, and for the `Must` variants, which turn the error into a panic. -/
theorem C10_writeString_partial (b : Buf) (s : Str) (off : Nat) (hb : b.length < 2 ^ 63) (ho : off + s.length < 2 ^ 63) :
    (off + s.length ≤ b.length → ∃ b', Written b b' off s ∧
      bwWriteString b s off = .ok b' ((off + s.length : Nat) : Int) ∧
      must (bwWriteString b s off) = .ok b' ((off + s.length : Nat) : Int) ∧
      must (bwWrite b s off) = .ok b' ((off + s.length : Nat) : Int)) ∧
    (b.length < off + s.length → (∃ n, bwWriteString b s off = .err b n) ∧ must (bwWriteString b s off) = .panic b ∧
      must (bwWrite b s off) = .panic b) := by
  obtain ⟨h1, h2⟩ := C10_write_partial b s off hb ho
  have hw : wrap64 ((off : Int) + (s.length : Int)) = ((off + s.length : Nat) : Int) := by
    rw [wrap64_of_range] <;> omega
  constructor
  · intro h
    obtain ⟨b', h3, h4⟩ := h1 h
    have h5 := bwWriteString_of h3
    rw [hw] at h5
    exact ⟨b', h4, h5, congrArg must h5, congrArg must h3⟩
  · intro h
    have h3 := h2 h
    have h5 := bwWriteString_of_err h3
    exact ⟨⟨_, h5⟩, congrArg must h5, congrArg must h3⟩

/-- "hi" at 2 fits and at 3 does not; `MustWriteString` panics. -/
example : bwWriteString [1, 2, 3, 4] [0x68, 0x69] 2 = .ok [1, 2, 0x68, 0x69] 4 ∧
    must (bwWriteString [1, 2, 3, 4] [0x68, 0x69] 3) = .panic [1, 2, 3, 4] := by decide

/-- C10: `WriteVal` of a number is `Write` of its little-endian bytes. -/
theorem C10_writeVal {v : GoVal} {bytes : List Byte} (h : binaryWrite v = some bytes) (b : Buf) (off : Int) :
    bwWriteVal b v off = bwWrite b bytes off ∧ (bytes.length = 4 ∨ bytes.length = 8) := by
  cases v <;> simp only [binaryWrite, Option.some.injEq, reduceCtorEq] at h <;> subst h <;>
    exact ⟨rfl, by simp⟩

example : bwWrite [1, 2, 3, 4] [9, 8] 1 = .ok [1, 9, 8, 4] 3 ∧ bwWrite [1, 2, 3, 4] [9, 8] 3 = .err [1, 2, 3, 4] (-1) := by
  decide
example : bwWriteVal [1, 2, 3, 4, 5] (.uint32 0x01020304) 1 = .ok [1, 4, 3, 2, 1] 5 := by decide

/-! ### C11 -/

/-- A `Write(data, off)` call in progress: after the bounds check, one store per byte. -/
abbrev Writer := Nat × List Byte

/-- Goroutines performing one write each on a shared buffer. -/
def writersSt (b : Buf) (ws : List Writer) : St where
  mem := b
  thr := ws.map (fun w => if w.1 + w.2.length ≤ b.length then storeAll w.1 w.2 .done else .done)
  ch := fun _ => .nil
  wgs := []
  cells := fun _ => none
  crashed := false

/-- The calls one after another; a call that does not fit returns an error and changes nothing. -/
def writeSeq (b : Buf) (ws : List Writer) : Buf := ws.foldl (fun b w => (bwWrite b w.2 w.1).buf) b

/-- Pairwise disjoint ranges. -/
def DisjWriters (ws : List Writer) : Prop :=
  ws.Pairwise (fun w v => w.1 + w.2.length ≤ v.1 ∨ v.1 + v.2.length ≤ w.1)

/-- `mem` is `b` with, for each writer, its first `k` bytes written. -/
structure Partly (b : Buf) (ws : List Writer) (k : Nat → Nat) (mem : Buf) : Prop where
  len : mem.length = b.length
  hit : ∀ i w j, ws[i]? = some w → w.1 + w.2.length ≤ b.length → w.1 ≤ j → j < w.1 + k i → mem[j]? = w.2[j - w.1]?
  miss : ∀ j, (∀ i w, ws[i]? = some w → w.1 + w.2.length ≤ b.length → ¬ (w.1 ≤ j ∧ j < w.1 + k i)) → mem[j]? = b[j]?

theorem Partly.unique {b : Buf} {ws : List Writer} {k : Nat → Nat} {m m' : Buf} (h : Partly b ws k m)
    (h' : Partly b ws k m') : m = m' := by
  apply List.ext_getElem?
  intro j
  by_cases hj : ∃ i w, ws[i]? = some w ∧ w.1 + w.2.length ≤ b.length ∧ w.1 ≤ j ∧ j < w.1 + k i
  · obtain ⟨i, w, h1, h2, h3, h4⟩ := hj
    rw [h.hit i w j h1 h2 h3 h4, h'.hit i w j h1 h2 h3 h4]
  · have : ∀ i w, ws[i]? = some w → w.1 + w.2.length ≤ b.length → ¬ (w.1 ≤ j ∧ j < w.1 + k i) :=
      fun i w h1 h2 h3 => hj ⟨i, w, h1, h2, h3⟩
    rw [h.miss j this, h'.miss j this]

theorem disj_get {ws : List Writer} (h : DisjWriters ws) {i j : Nat} {w v : Writer} (hi : ws[i]? = some w)
    (hj : ws[j]? = some v) (hne : i ≠ j) : w.1 + w.2.length ≤ v.1 ∨ v.1 + v.2.length ≤ w.1 := by
  obtain ⟨hi', rfl⟩ := List.getElem?_eq_some_iff.1 hi
  obtain ⟨hj', rfl⟩ := List.getElem?_eq_some_iff.1 hj
  have := List.pairwise_iff_getElem.1 h
  rcases Nat.lt_or_gt_of_ne hne with hlt | hlt
  · exact this i j hi' hj' hlt
  · exact (this j i hj' hi' hlt).symm

/-- The state of the pool. -/
structure WInv (b : Buf) (ws : List Writer) (k : Nat → Nat) (s : St) : Prop where
  nocrash : s.crashed = false
  len : s.thr.length = ws.length
  thr : ∀ i w, ws[i]? = some w → k i ≤ w.2.length ∧
    s.thr[i]? = some (if w.1 + w.2.length ≤ b.length then storeAll (w.1 + k i) (w.2.drop (k i)) .done else .done)
  part : Partly b ws k s.mem

theorem winv_init (b : Buf) (ws : List Writer) : WInv b ws (fun _ => 0) (writersSt b ws) := by
  refine ⟨rfl, by simp [writersSt], fun i w hw => ⟨Nat.zero_le _, ?_⟩, ⟨rfl, ?_, ?_⟩⟩
  · simp [writersSt, hw]
  · intro i w j _ _ h1 h2; omega
  · intro j _; rfl

theorem winv_step {b : Buf} {ws : List Writer} (hd : DisjWriters ws) {k : Nat → Nat} {s t : St} (h : WInv b ws k s)
    (hs : Step s t) : ∃ k', WInv b ws k' t := by
  obtain ⟨i, j, hs⟩ := hs
  unfold step at hs
  rw [h.nocrash] at hs
  simp only [Bool.false_eq_true, if_false] at hs
  by_cases hi : i < ws.length
  · obtain ⟨w, hw⟩ : ∃ w, ws[i]? = some w := ⟨_, List.getElem?_eq_getElem hi⟩
    obtain ⟨hk, hth⟩ := h.thr i w hw
    rw [hth] at hs
    by_cases hfit : w.1 + w.2.length ≤ b.length
    · rw [if_pos hfit] at hs hth
      cases hdr : w.2.drop (k i) with
      | nil => rw [hdr] at hs; cases hs
      | cons x xs =>
        rw [hdr] at hs
        simp only [storeAll] at hs
        have hlt : k i < w.2.length := by
          rcases Nat.lt_or_ge (k i) w.2.length with h1 | h1
          · exact h1
          · rw [List.drop_eq_nil_of_le h1] at hdr; cases hdr
        rw [if_pos (by rw [h.part.len]; omega)] at hs
        obtain rfl := Option.some.inj hs
        have hx : w.2[k i]? = some x := by
          have := congrArg (·[0]?) hdr
          simpa using this
        have hxs : w.2.drop (k i + 1) = xs := by
          rw [← List.drop_drop, hdr]; rfl
        refine ⟨fun a => if a = i then k i + 1 else k a, rfl, by simpa using h.len, fun a v hv => ?_, ⟨by simpa using h.part.len, ?_, ?_⟩⟩
        · dsimp only
          by_cases ha : a = i
          · subst ha
            rw [hw] at hv
            obtain rfl := Option.some.inj hv
            rw [if_pos rfl, if_pos hfit]
            refine ⟨hlt, ?_⟩
            rw [List.getElem?_set_self (by rw [h.len]; exact hi), hxs, Nat.add_assoc]
          · rw [if_neg ha]
            refine ⟨(h.thr a v hv).1, ?_⟩
            rw [List.getElem?_set_ne (Ne.symm ha)]
            exact (h.thr a v hv).2
        · intro a v y hv hvf h1 h2
          dsimp only at h2 ⊢
          by_cases ha : a = i
          · subst ha
            rw [hw] at hv
            obtain rfl := Option.some.inj hv
            rw [if_pos rfl] at h2
            by_cases hy : y = w.1 + k a
            · subst hy
              rw [List.getElem?_set_self (by rw [h.part.len]; omega), Nat.add_sub_cancel_left, hx]
            · rw [List.getElem?_set_ne (Ne.symm hy)]
              exact h.part.hit a w y hw hfit h1 (by omega)
          · rw [if_neg ha] at h2
            have hy : w.1 + k i ≠ y := by
              have := disj_get hd hv hw ha
              have := (h.thr a v hv).1
              omega
            rw [List.getElem?_set_ne hy]
            exact h.part.hit a v y hv hvf h1 h2
        · intro y hy
          dsimp only at hy ⊢
          have hne : w.1 + k i ≠ y := by
            rintro rfl
            have := hy i w hw hfit
            rw [if_pos rfl] at this
            omega
          rw [List.getElem?_set_ne hne]
          refine h.part.miss y fun a v hv hvf => ?_
          have := hy a v hv hvf
          by_cases ha : a = i
          · subst ha; rw [if_pos rfl] at this; omega
          · rw [if_neg ha] at this; exact this
    · rw [if_neg hfit] at hs; cases hs
  · rw [List.getElem?_eq_none (by rw [h.len]; omega)] at hs
    cases hs

/-- The buffer when every writer has finished. -/
theorem partly_done {b : Buf} {ws : List Writer} {k : Nat → Nat} {s : St} (h : WInv b ws k s) (hdone : AllDone s) :
    Partly b ws (fun i => (ws[i]?.map (fun w => w.2.length)).getD 0) s.mem := by
  have hk : ∀ i w, ws[i]? = some w → w.1 + w.2.length ≤ b.length → k i = w.2.length := by
    intro i w hw hf
    obtain ⟨h1, h2⟩ := h.thr i w hw
    rw [if_pos hf] at h2
    have h3 := hdone _ (List.mem_of_getElem? h2)
    rcases Nat.lt_or_ge (k i) w.2.length with h4 | h4
    · rw [List.drop_eq_getElem_cons h4] at h3; cases h3
    · omega
  refine ⟨h.part.len, fun i w j hw hf h1 h2 => ?_, fun j hj => ?_⟩
  · rw [hw] at h2
    exact h.part.hit i w j hw hf h1 (by rw [hk i w hw hf]; exact h2)
  · refine h.part.miss j fun i w hw hf => ?_
    have := hj i w hw hf
    rw [hw] at this
    rw [hk i w hw hf]
    exact this

/-- Performing the calls one after another gives that buffer. -/
theorem writeSeq_spec {b : Buf} {ws : List Writer} (hd : DisjWriters ws) (hb : b.length < 2 ^ 63)
    (hr : ∀ w ∈ ws, w.1 + w.2.length < 2 ^ 63) :
    (writeSeq b ws).length = b.length ∧
    (∀ w ∈ ws, ∀ j, w.1 + w.2.length ≤ b.length → w.1 ≤ j → j < w.1 + w.2.length → (writeSeq b ws)[j]? = w.2[j - w.1]?) ∧
    ∀ j, (∀ w ∈ ws, w.1 + w.2.length ≤ b.length → ¬ (w.1 ≤ j ∧ j < w.1 + w.2.length)) → (writeSeq b ws)[j]? = b[j]? := by
  induction ws generalizing b with
  | nil => exact ⟨rfl, fun w hw => (by cases hw), fun j _ => rfl⟩
  | cons w ws ih =>
    obtain ⟨hd1, hd2⟩ := List.pairwise_cons.1 hd
    have hr0 := hr w (List.mem_cons_self ..)
    obtain ⟨c1, c2⟩ := C10_write_partial b w.2 w.1 hb hr0
    have hw : writeSeq b (w :: ws) = writeSeq (bwWrite b w.2 w.1).buf ws := by
      unfold writeSeq; rw [List.foldl_cons]
    rw [hw]
    have hcase : ∃ b1, (bwWrite b w.2 w.1).buf = b1 ∧ b1.length = b.length ∧
        (w.1 + w.2.length ≤ b.length → Written b b1 w.1 w.2) ∧ (b.length < w.1 + w.2.length → b1 = b) := by
      rcases Nat.lt_or_ge b.length (w.1 + w.2.length) with h | h
      · exact ⟨b, congrArg WRes.buf (c2 h), rfl, fun h' => by omega, fun _ => rfl⟩
      · obtain ⟨b', h1, h2⟩ := c1 h
        exact ⟨b', congrArg WRes.buf h1, h2.1, fun _ => h2, fun h' => by omega⟩
    obtain ⟨b1, e1, e2, e3, e4⟩ := hcase
    rw [e1]
    obtain ⟨i1, i2, i3⟩ := ih (b := b1) hd2 (by omega) (fun v hv => hr v (List.mem_cons_of_mem _ hv))
    rw [e2] at i1 i2 i3
    refine ⟨i1, ?_, ?_⟩
    · intro v hv j hf h1 h2
      rcases List.mem_cons.1 hv with rfl | hv
      · rw [i3 j fun x hx hxf => by have := hd1 x hx; omega]
        have := (e3 hf).2.1 (j - v.1) (by omega)
        rw [show v.1 + (j - v.1) = j by omega] at this
        exact this
      · exact i2 v hv j hf h1 h2
    · intro j hj
      rw [i3 j fun x hx => hj x (List.mem_cons_of_mem _ hx)]
      rcases Nat.lt_or_ge b.length (w.1 + w.2.length) with h | h
      · rw [e4 h]
      · exact (e3 h).2.2 j (by have := hj w (List.mem_cons_self ..) h; omega)

/-- C11: every interleaving, byte by byte, of concurrent `Write` calls to pairwise disjoint ranges never
panics, ends, and ends in the buffer that the calls give when performed one after another, in any
order. (Calls that do not fit return an error.) -/
theorem C11_disjoint_writes {b : Buf} {ws : List Writer} (hd : DisjWriters ws) (hb : b.length < 2 ^ 63)
    (hr : ∀ w ∈ ws, w.1 + w.2.length < 2 ^ 63) {s : St} (hs : Reach (writersSt b ws) s) :
    s.crashed = false ∧ (Stuck s → AllDone s) ∧
    (AllDone s → ∀ ws' : List Writer, ws'.Perm ws → s.mem = writeSeq b ws') := by
  have hinv : ∃ k, WInv b ws k s := by
    induction hs with
    | refl => exact ⟨_, winv_init b ws⟩
    | tail _ hst ih => obtain ⟨k, hk⟩ := ih; exact winv_step hd hk hst
  obtain ⟨k, hk⟩ := hinv
  refine ⟨hk.nocrash, fun hst p hp => ?_, fun hdone ws' hp => ?_⟩
  · obtain ⟨i, hi⟩ := List.mem_iff_getElem?.1 hp
    have hil : i < ws.length := by
      rw [← hk.len]; exact (List.getElem?_eq_some_iff.1 hi).1
    obtain ⟨w, hw⟩ : ∃ w, ws[i]? = some w := ⟨_, List.getElem?_eq_getElem hil⟩
    obtain ⟨h1, h2⟩ := hk.thr i w hw
    rw [hi] at h2
    obtain rfl := Option.some.inj h2
    split
    · rename_i hf
      cases hdr : w.2.drop (k i) with
      | nil => rfl
      | cons x xs =>
        exfalso
        rw [if_pos hf, hdr] at hi
        have hlt : k i < w.2.length := by
          rcases Nat.lt_or_ge (k i) w.2.length with h3 | h3
          · exact h3
          · rw [List.drop_eq_nil_of_le h3] at hdr; cases hdr
        refine hst { s with mem := s.mem.set (w.1 + k i) x, thr := s.thr.set i (storeAll (w.1 + k i + 1) xs .done) } ⟨i, 0, ?_⟩
        unfold step
        rw [hk.nocrash, hi]
        simp only [Bool.false_eq_true, if_false, storeAll]
        rw [if_pos (by rw [hk.part.len]; omega)]
    · rfl
  · have hpd := partly_done hk hdone
    have hd' : DisjWriters ws' := (hp.pairwise_iff fun h => h.symm).2 hd
    obtain ⟨s1, s2, s3⟩ := writeSeq_spec (b := b) hd' hb (fun w hw => hr w (hp.mem_iff.1 hw))
    refine hpd.unique ⟨s1, ?_, ?_⟩
    · intro i w j hw hf h1 h2
      rw [hw] at h2
      exact s2 w (hp.mem_iff.2 (List.mem_of_getElem? hw)) j hf h1 h2
    · intro j hj
      refine s3 j fun w hw hf => ?_
      obtain ⟨i, hi⟩ := List.mem_iff_getElem?.1 (hp.mem_iff.1 hw)
      have := hj i w hi hf
      rw [hi] at this
      exact this

/-- Three writers, one of which does not fit. -/
example : DisjWriters [(0, [1, 2]), (2, [3]), (7, [4, 5])] ∧
    writeSeq [0, 0, 0, 0, 0, 0, 0, 0] [(0, [1, 2]), (2, [3]), (7, [4, 5])] = [1, 2, 3, 0, 0, 0, 0, 0] := by
  unfold DisjWriters; decide
/-- A schedule with which the first two interleave. -/
example : ∃ s, run (writersSt [0, 0, 0, 0, 0, 0, 0, 0] [(0, [1, 2]), (2, [3]), (7, [4, 5])]) [(0, 0), (1, 0), (0, 0)] = some s ∧
    s.mem = [1, 2, 3, 0, 0, 0, 0, 0] ∧ s.thr = [.done, .done, .done] := ⟨_, rfl, rfl, rfl⟩

end Speed
