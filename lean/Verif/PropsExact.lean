import Verif.PropsLive
import Verif.PropsMetrics
import Verif.PropsConfig
import Verif.PropsWriter
import Verif.PropsRegistry
/-
What exactly happens where a property is false: C10, C23, C31, C45 and C50 for all inputs.
-/
namespace Speed

/-! ### C10 -/

/-- **C10**, all offsets that an `int` can be: `Write` stores the data if they fit behind a nonnegative offset, does nothing
for no data at an offset not behind the end, returns an error if the sum of offset and length is an `int` and behind the
end, and panics otherwise: for data at a negative offset, and for sums beyond 2^63-1. It never changes
the buffer unless it succeeds. -/
theorem C10_exact (b data : List Byte) (off : Int) (h1 : -2 ^ 63 ≤ off) (h2 : off < 2 ^ 63)
    (hl : b.length + data.length < 2 ^ 63) :
    (0 ≤ off → off + data.length ≤ b.length → ∃ b', bwWrite b data off = .ok b' (off + data.length) ∧
      Written b b' off.toNat data) ∧
    (data = [] → off ≤ b.length → bwWrite b data off = .ok b off) ∧
    (b.length < off + data.length → off + data.length < 2 ^ 63 → bwWrite b data off = .err b (-1)) ∧
    (data ≠ [] → off < 0 → off + data.length ≤ b.length → bwWrite b data off = .panic b) ∧
    (data ≠ [] → 2 ^ 63 ≤ off + data.length → bwWrite b data off = .panic b) := by
  have hw : off + data.length < 2 ^ 63 → wrap64 (off + data.length) = off + data.length := fun h => by
    rw [wrap64_of_range] <;> omega
  have hloop : data ≠ [] → ¬ (0 ≤ off ∧ off < b.length) → writeLoop b off data = (b, false) := by
    intro hne ho
    cases data with
    | nil => exact absurd rfl hne
    | cons d ds => unfold writeLoop; rw [if_neg ho]
  refine ⟨fun h0 h => ?_, fun h0 h => ?_, fun h h' => ?_, fun hne h0 h => ?_, fun hne h => ?_⟩
  · obtain ⟨n, rfl⟩ := Int.eq_ofNat_of_zero_le h0
    obtain ⟨b', e, hwr⟩ := (C10_write_partial b data n (by omega) (by omega)).1 (by omega)
    exact ⟨b', by rw [e]; simp, hwr⟩
  · subst h0
    unfold bwWrite
    rw [hw (by simpa using h2)]
    simp only [List.length_nil, Int.natCast_zero, Int.add_zero] at *
    rw [if_neg (by omega)]
    rfl
  · unfold bwWrite
    rw [hw h', if_pos h]
  · unfold bwWrite
    rw [hw (by omega), if_neg (by omega), hloop hne (by omega)]
  · have : wrap64 (off + data.length) = off + data.length - 2 ^ 64 := by
      unfold wrap64
      rw [Int.bmod_def]
      simp only [Nat.reducePow, Int.reducePow, Nat.cast_ofNat] at *
      omega
    unfold bwWrite
    rw [this, if_neg (by omega), hloop hne (by omega)]

/-- A byte at offset -1, no byte at offset -1, a byte at the last offset. -/
example : bwWrite [1, 2] [7] (-1) = .panic [1, 2] ∧ bwWrite [1, 2] [] (-1) = .ok [1, 2] (-1) ∧
    bwWrite [1, 2] [7] 1 = .ok [1, 7] 2 ∧ bwWrite [1, 2] [7] 2 = .err [1, 2] (-1) := by decide

/-! ### C23 -/

/-- **C23**, the case that is missing in `C23_setAll_partial`: the instances before the first larger one in the order of
the map iteration are set, that one and those after it keep their values. -/
theorem C23_exact {u : Upd} {st : MSt} (h : Good u st) {f : Str → Option (BitVec 64)} (hc : IsCV st f) (x : BitVec 64)
    {pre post : List Str} {n : Str} {v : BitVec 64} (hnd : (pre ++ n :: post).Nodup)
    (hpre : ∀ k ∈ pre, ∃ w, f k = some w ∧ w.toInt ≤ x.toInt) (hn : f n = some v) (hv : x.toInt < v.toInt) :
    (cvSetAll x (pre ++ n :: post) u st).2 = .panic ∧
    IsCV (cvSetAll x (pre ++ n :: post) u st).1 (fun k => if k ∈ pre then some x else f k) := by
  induction pre generalizing st f with
  | nil =>
    obtain ⟨h1, _⟩ := cvSet_eq h hc.t (n := n) (v := v) (by rw [hc.cur, hn]; rfl) x
    have e : cvSetAll x (n :: post) u st = (st, .panic) := by
      unfold cvSetAll forEach
      exact bind_panic (must_err (h1 hv))
    rw [List.nil_append, e]
    exact ⟨rfl, by simpa using hc⟩
  | cons k pre ih =>
    rw [List.cons_append, List.nodup_cons] at hnd
    obtain ⟨w, hw, hle⟩ := hpre k (by simp)
    obtain ⟨_, h2⟩ := cvSet_eq h hc.t (n := k) (v := w) (by rw [hc.cur, hw]; rfl) x
    obtain ⟨b, e, g⟩ := h2 hle
    have e' : cvSetAll x (k :: (pre ++ n :: post)) u st = cvSetAll x (pre ++ n :: post) u ⟨st.m.put (some k) (.int64 x), b⟩ := by
      unfold cvSetAll
      rw [forEach]
      exact bind_ok (must_ok e)
    rw [List.cons_append, e']
    have hne : ∀ j ∈ pre ++ n :: post, j ≠ k := fun j hj hk => hnd.1 (hk ▸ hj)
    obtain ⟨i1, i2⟩ := ih g (put_cv hc hw x b) hnd.2 (fun j hj => by
      rw [if_neg (hne j (by simp [hj]))]; exact hpre j (by simp [hj])) (by rw [if_neg (hne n (by simp))]; exact hn)
    refine ⟨i1, ?_⟩
    have : (fun j => if j ∈ pre then some x else if j = k then some x else f j) =
        fun j => if j ∈ k :: pre then some x else f j := by
      funext j
      by_cases hj : j ∈ pre
      · simp [hj]
      · by_cases hk : j = k <;> simp [hj, hk]
    rw [← this]
    exact i2

/-! ### C31 -/

/-- **C31**, all lists: `MatchInstances` compares the lengths and whether every listed name is an instance. -/
theorem C31_exact (d : Indom) (ins : List Str) :
    d.matchInstances ins = true ↔ ins.length = d.insts.length ∧ ∀ n ∈ ins, ∃ i ∈ d.insts, i.name = n := by
  unfold Indom.matchInstances Indom.hasInstance
  simp only [Bool.and_eq_true, decide_eq_true_eq, List.all_eq_true, List.any_eq_true]

/-- Repeated names. -/
example : ∃ d ∈ abReg.indoms, d.matchInstances [sA, sA] = true ∧ d.matchInstances [sA, sB, sB] = false := by decide

/-! ### C45 -/

/-- **C45**, string values longer than 256 bytes: the value's slot is at some offset `u` of the file; `Set` (for
instance metrics `SetInstance`) clears the slot, and then, if the string ends within the file, writes
all of it over what follows and returns nil, otherwise returns an error and keeps the old value. -/
theorem C45_exact {e : Env} {o : Ord} {w : Live} (h : Active e o w) {m : Metric} (hm : m ∈ w.reg.metrics) {s : Option Str}
    (hs : s ∈ m.slots) (hty : m.desc.t = StringType) :
    ∃ u t0, m.cur s = some (.str t0) ∧ w.reg.stringsoffset ≤ u ∧ u + 256 ≤ w.mem.length ∧ FileAt w.mem u (pad 256 t0) ∧
      ∀ t : Str, 256 < t.length → u + t.length < 2 ^ 63 →
        (u + t.length ≤ w.mem.length → ∃ b, setAt s (.str t) (w.upd m.uid) ⟨m, w.mem⟩ = (⟨m.put s (.str t), b⟩, .ok ()) ∧
          Written w.mem b u t) ∧
        (w.mem.length < u + t.length → ∃ b, setAt s (.str t) (w.upd m.uid) ⟨m, w.mem⟩ = (⟨m, b⟩, .err) ∧
          Written w.mem b u (zeros 256)) := by
  obtain ⟨σ, hl, _⟩ := h.liveAt
  obtain ⟨u, hu, _⟩ := hl.updAt hm hs
  obtain ⟨_, _, _, hstr⟩ := hl.slotAt hm hs hu
  obtain ⟨h1, _, t0, h3, h4⟩ := hstr hty
  obtain ⟨_, h5, h6, _⟩ := slot_range hl.ok hl.sealed h1
  have h5 : u + 256 ≤ w.reg.Length := h5
  have hlen : w.mem.length = w.reg.Length := hl.file.len
  refine ⟨u, t0, h3, h6, by omega, h4, fun t ht ht' => ?_⟩
  obtain ⟨k1, k2⟩ := hl.setLong hm hs hty ht hu
  have hz : (zeros StringLength).length = 256 := by unfold zeros; exact List.length_replicate
  refine ⟨fun hin => ⟨_, k1 hin, ?_⟩, fun hout => ⟨_, k2 hout (by simpa using ht'), ?_⟩⟩
  · have hw := place_written (b := place w.mem u (zeros StringLength)) (off := u) (data := t) (by rw [place_length]; exact hin)
    have hw0 := place_written (b := w.mem) (off := u) (data := zeros StringLength) (by rw [hz]; omega)
    refine ⟨by rw [hw.1, hw0.1], hw.2.1, fun j hj => ?_⟩
    rw [hw.2.2 j hj, hw0.2.2 j (by rw [hz]; omega)]
  · exact place_written (by rw [hz]; omega)

/-! ### C50 -/

/-- **C50**, a file with a line of 64 KiB or more: the configuration is that of the lines before the first such line. -/
theorem C50_exact (pre : List Str) (l : Str) (post : List Str) (last : Str) (h : ∀ x ∈ pre ++ l :: post, 0x0A ∉ x)
    (hlast : 0x0A ∉ last) (hpre : ∀ x ∈ pre, x.length < 65536) (hl : 65536 ≤ l.length) (k v : Str) :
    (parseConfig (fileOf (pre ++ l :: post) last)).get k = some v ↔ LastAssign (pre.map dropCR) k v := by
  unfold parseConfig scanLines
  rw [rawLines_file _ last h hlast]
  have htake : (pre ++ l :: post ++ if last = [] then [] else [last]).takeWhile (fun l => decide (l.length < maxToken)) = pre := by
    rw [List.append_assoc, List.takeWhile_append_of_pos (p := fun l : Str => decide (l.length < maxToken)) (fun x hx => decide_eq_true (hpre x hx)), List.cons_append,
      List.takeWhile_cons_of_neg (p := fun l : Str => decide (l.length < maxToken)) (fun hd => absurd (of_decide_eq_true hd) (Nat.not_lt.2 hl)), List.append_nil]
  rw [htake]
  refine cfg_fold (fun x hx hm => ?_) k v
  obtain ⟨y, hy, rfl⟩ := List.mem_map.1 hx
  exact h y (by simp [hy]) (mem_dropCR hm)

/-- The same for a last line that is too long. -/
theorem C50_exact_last (pre : List Str) (last : Str) (h : ∀ x ∈ pre, 0x0A ∉ x) (hlast : 0x0A ∉ last)
    (hpre : ∀ x ∈ pre, x.length < 65536) (hl : 65536 ≤ last.length) (k v : Str) :
    (parseConfig (fileOf pre last)).get k = some v ↔ LastAssign (pre.map dropCR) k v := by
  unfold parseConfig scanLines
  rw [rawLines_file _ last h hlast]
  have hne : last ≠ [] := by rintro rfl; simp at hl
  rw [if_neg hne]
  have htake : (pre ++ [last]).takeWhile (fun l => decide (l.length < maxToken)) = pre := by
    rw [List.takeWhile_append_of_pos (p := fun l : Str => decide (l.length < maxToken)) (fun x hx => decide_eq_true (hpre x hx)),
      List.takeWhile_cons_of_neg (p := fun l : Str => decide (l.length < maxToken)) (fun hd => absurd (of_decide_eq_true hd) (Nat.not_lt.2 hl)), List.append_nil]
  rw [htake]
  refine cfg_fold (fun x hx hm => ?_) k v
  obtain ⟨y, hy, rfl⟩ := List.mem_map.1 hx
  exact h y hy (mem_dropCR hm)

end Speed
