import Verif.Writers
import Verif.PropsExact
/-
All methods of the byte writer (C89).
-/
namespace Speed

/-- The bytes that a call is meant to write: a number is written in little-endian order in 4 or 8 bytes, a string and a
byte slice as they are. `int`, `uint` and values of other types have none. -/
def WMethod.Means : WMethod → List Byte → Prop
  | .write x, d => d = x
  | .writeString s, d => d = s
  | .writeInt32 v, d | .writeUint32 v, d | .writeFloat32 v, d => d.length = 4 ∧ unLe d = v.toNat
  | .writeInt64 v, d | .writeUint64 v, d | .writeFloat64 v, d => d.length = 8 ∧ unLe d = v.toNat
  | .writeVal (.str s), d => d = s
  | .writeVal (.int32 v), d | .writeVal (.uint32 v), d | .writeVal (.float32 v), d => d.length = 4 ∧ unLe d = v.toNat
  | .writeVal (.int64 v), d | .writeVal (.uint64 v), d | .writeVal (.float64 v), d => d.length = 8 ∧ unLe d = v.toNat
  | .writeVal (.int _), _ | .writeVal (.uint _), _ | .writeVal .other, _ => False

theorem le_of_unLe {d : List Byte} {n x : Nat} (h : d.length = n ∧ unLe d = x) : d = le n x := by
  rw [← h.1, ← h.2, le_unLe]

/-- Up to the number returned with an error, a call is `Write` of its bytes. -/
theorem WMethod.run_eq {m : WMethod} {d : List Byte} (h : m.Means d) (b : Buf) (off : Int) :
    m.run b off = bwWrite b d off ∨ m.run b off = bwWriteString b d off := by
  cases m with
  | write x => cases h; exact .inl rfl
  | writeString s => cases h; exact .inr rfl
  | writeVal v => cases v <;> first | exact h.elim | (cases h; exact .inr rfl) | (cases le_of_unLe h; exact .inl rfl)
  | _ => cases le_of_unLe h; exact .inl rfl

/-- There is room for `n` bytes at `off`; no bytes need none, even before the beginning. -/
def Room (b : Buf) (off : Int) (n : Nat) : Prop := off + n ≤ b.length ∧ (0 ≤ off ∨ n = 0)

theorem bwWriteString_of_panic {b b' : Buf} {off : Int} {s : Str} (h : bwWrite b s off = .panic b') :
    bwWriteString b s off = .panic b' := by
  unfold bwWriteString
  rw [h]

/-- C89: every writing method, at every offset that is an `int`, either finds room, and then returns the offset after its
last byte, having written its bytes and nothing else; or there is no room, and then it fails or panics and
nothing has changed. -/
theorem C89_all_or_nothing {m : WMethod} {d : List Byte} (hm : m.Means d) (b : Buf) (off : Int) (h1 : -2 ^ 63 ≤ off)
    (h2 : off < 2 ^ 63) (hl : b.length + d.length < 2 ^ 63) :
    (Room b off d.length → ∃ b', m.run b off = .ok b' (off + d.length) ∧ Written b b' off.toNat d) ∧
    (¬ Room b off d.length → (∃ n, m.run b off = .err b n) ∨ m.run b off = .panic b) := by
  obtain ⟨e1, e2, e3, e4, e5⟩ := C10_exact b d off h1 h2 hl
  constructor
  · rintro ⟨hr, ho⟩
    obtain ⟨b', hb, hw⟩ : ∃ b', bwWrite b d off = .ok b' (off + d.length) ∧ Written b b' off.toNat d := by
      rcases ho with ho | ho
      · exact e1 ho hr
      · have hd := List.eq_nil_of_length_eq_zero ho
        subst hd
        refine ⟨b, by simpa using e2 rfl (by simpa using hr), rfl, fun i hi => by simp at hi, fun _ _ => rfl⟩
    refine ⟨b', ?_, hw⟩
    rcases WMethod.run_eq hm b off with e | e
    · rw [e, hb]
    · rw [e, bwWriteString_of hb, wrap64_of_range (by omega) (by omega)]
  · intro hr
    have : (∃ n, bwWrite b d off = .err b n) ∨ bwWrite b d off = .panic b := by
      by_cases hd : d = []
      · left
        subst hd
        refine ⟨_, e3 ?_ (by simpa using h2)⟩
        apply Int.not_le.1
        exact fun h => hr ⟨h, .inr rfl⟩
      · by_cases h3 : 2 ^ 63 ≤ off + d.length
        · exact .inr (e5 hd h3)
        · by_cases h4 : off + d.length ≤ b.length
          · exact .inr (e4 hd (by
              apply Int.not_le.1
              exact fun h => hr ⟨h4, .inl h⟩) h4)
          · exact .inl ⟨_, e3 (by omega) (by omega)⟩
    rcases WMethod.run_eq hm b off with e | e
    · rw [e]; exact this
    · rcases this with ⟨n, h⟩ | h
      · exact .inl ⟨_, e.trans (bwWriteString_of_err h)⟩
      · exact .inr (e.trans (bwWriteString_of_panic h))

/-- A float at 1 in 5 bytes, at 2 in 5 bytes, at -1. -/
example : (WMethod.writeFloat32 0x3F800000).run [9, 9, 9, 9, 9] 1 = .ok [9, 0, 0, 0x80, 0x3F] 5 ∧
    (WMethod.writeFloat32 0x3F800000).run [9, 9, 9, 9, 9] 2 = .err [9, 9, 9, 9, 9] (-1) ∧
    (WMethod.writeFloat32 0x3F800000).run [9, 9, 9, 9, 9] (-1) = .panic [9, 9, 9, 9, 9] ∧
    (WMethod.writeFloat32 0x3F800000).Means [0, 0, 0x80, 0x3F] :=
  ⟨by decide, by decide, by decide, rfl, by decide⟩

/-- C89: every method but `WriteVal` has bytes to write, and only one list of them; `WriteVal` has them for numbers of
fixed size and strings. `WriteVal` of an `int` or a `uint` fails at every offset and changes nothing. -/
theorem C89_bytes (m : WMethod) :
    (∀ d d', m.Means d → m.Means d' → d = d') ∧
    ((∃ d, m.Means d) ↔ ∀ v, m = .writeVal v → (∀ x, v ≠ .int x) ∧ (∀ x, v ≠ .uint x) ∧ v ≠ .other) ∧
    ((¬ ∃ d, m.Means d) → ∀ b off, m.run b off = .err b 0) := by
  have key : ∀ (n : Nat) (x : Nat), x < 256 ^ n → (le n x).length = n ∧ unLe (le n x) = x := fun n x h =>
    ⟨le_length n x, by rw [unLe_le, Nat.mod_eq_of_lt h]⟩
  have k4 : ∀ v : BitVec 32, (le 4 v.toNat).length = 4 ∧ unLe (le 4 v.toNat) = v.toNat := fun v => key 4 _ v.isLt
  have k8 : ∀ v : BitVec 64, (le 8 v.toNat).length = 8 ∧ unLe (le 8 v.toNat) = v.toNat := fun v => key 8 _ v.isLt
  have inj : ∀ {n x : Nat} {d d' : List Byte}, (d.length = n ∧ unLe d = x) → (d'.length = n ∧ unLe d' = x) → d = d' :=
    fun h h' => (le_of_unLe h).trans (le_of_unLe h').symm
  cases m with
  | write x => exact ⟨fun _ _ h h' => h.trans h'.symm, ⟨fun _ _ h => by simp at h, fun _ => ⟨_, rfl⟩⟩, fun h => (h ⟨_, rfl⟩).elim⟩
  | writeString x =>
    exact ⟨fun _ _ h h' => h.trans h'.symm, ⟨fun _ _ h => by simp at h, fun _ => ⟨_, rfl⟩⟩, fun h => (h ⟨_, rfl⟩).elim⟩
  | writeVal v =>
    cases v with
    | str s =>
      exact ⟨fun _ _ h h' => h.trans h'.symm, ⟨fun _ w h => by cases h; simp, fun _ => ⟨_, rfl⟩⟩, fun h => (h ⟨_, rfl⟩).elim⟩
    | int x => exact ⟨fun _ _ h => h.elim, ⟨fun ⟨_, h⟩ => h.elim, fun h => ((h _ rfl).1 x rfl).elim⟩, fun _ _ _ => rfl⟩
    | uint x => exact ⟨fun _ _ h => h.elim, ⟨fun ⟨_, h⟩ => h.elim, fun h => ((h _ rfl).2.1 x rfl).elim⟩, fun _ _ _ => rfl⟩
    | other => exact ⟨fun _ _ h => h.elim, ⟨fun ⟨_, h⟩ => h.elim, fun h => ((h _ rfl).2.2 rfl).elim⟩, fun _ _ _ => rfl⟩
    | int32 v | uint32 v | float32 v =>
      exact ⟨fun _ _ => inj, ⟨fun _ w h => by cases h; simp, fun _ => ⟨_, k4 v⟩⟩, fun h => (h ⟨_, k4 v⟩).elim⟩
    | int64 v | uint64 v | float64 v =>
      exact ⟨fun _ _ => inj, ⟨fun _ w h => by cases h; simp, fun _ => ⟨_, k8 v⟩⟩, fun h => (h ⟨_, k8 v⟩).elim⟩
  | writeInt32 v | writeUint32 v | writeFloat32 v =>
    exact ⟨fun _ _ => inj, ⟨fun _ w h => by simp at h, fun _ => ⟨_, k4 v⟩⟩, fun h => (h ⟨_, k4 v⟩).elim⟩
  | writeInt64 v | writeUint64 v | writeFloat64 v =>
    exact ⟨fun _ _ => inj, ⟨fun _ w h => by simp at h, fun _ => ⟨_, k8 v⟩⟩, fun h => (h ⟨_, k8 v⟩).elim⟩

/-- An `int` cannot be written, an `int64` can. -/
example : (WMethod.writeVal (.int 5)).run (newByteWriter 8) 0 = .err (newByteWriter 8) 0 ∧
    (WMethod.writeVal (.int64 5)).run (newByteWriter 8) 0 = .ok [5, 0, 0, 0, 0, 0, 0, 0] 8 := by decide

/-- C89: the `Must` method of the same name does the same when the method succeeds, and panics exactly when it does not;
then nothing has changed. -/
theorem C89_must (m : WMethod) (b : Buf) (off : Int) :
    (∀ b' n, m.mustRun b off = .ok b' n ↔ m.run b off = .ok b' n) ∧
    (m.mustRun b off = .panic (m.run b off).buf ↔ ∀ b' n, m.run b off ≠ .ok b' n) ∧
    ∀ b' n, m.mustRun b off ≠ .err b' n := by
  have h : m.mustRun b off = must (m.run b off) := by cases m <;> rfl
  rw [h]
  cases m.run b off <;> simp [must, WRes.buf]

example : (WMethod.writeUint64 1).mustRun (newByteWriter 7) 0 = .panic (newByteWriter 7) ∧
    (WMethod.writeUint64 1).mustRun (newByteWriter 8) 0 = .ok [1, 0, 0, 0, 0, 0, 0, 0] 8 := by decide

/-- C89: `NewByteWriterSlice` copies nothing. A call through a writer on a slice that finds room changes exactly its bytes of
the array, and every writer on a slice of the same array shows them where the slices overlap and nothing else; a
call that finds no room changes nothing for anyone. -/
theorem C89_shared {m : WMethod} {d : List Byte} (hm : m.Means d) {a : Buf} {lo hi lo' hi' : Nat} {w w' : SliceWriter}
    (hw : newSliceWriter a lo hi = some w) (hw' : newSliceWriter a lo' hi' = some w') (off : Int) (h1 : -2 ^ 63 ≤ off)
    (h2 : off < 2 ^ 63) (hl : a.length + d.length < 2 ^ 63) :
    w.Len = hi - lo ∧ (w.Bytes a).length = hi - lo ∧ (w.call a m off).length = a.length ∧
    (Room (w.Bytes a) off d.length → Written a (w.call a m off) (lo + off.toNat) d ∧
      ∀ k, k < hi' - lo' → (w'.Bytes (w.call a m off))[k]? =
        if lo + off.toNat ≤ lo' + k ∧ lo' + k < lo + off.toNat + d.length then d[lo' + k - (lo + off.toNat)]?
        else (w'.Bytes a)[k]?) ∧
    (¬ Room (w.Bytes a) off d.length → w.call a m off = a) := by
  unfold newSliceWriter at hw hw'
  split at hw <;> rename_i hc <;> simp only [Option.some.injEq, reduceCtorEq] at hw
  split at hw' <;> rename_i hc' <;> simp only [Option.some.injEq, reduceCtorEq] at hw'
  subst hw hw'
  have hlen : ((SliceWriter.mk lo (hi - lo)).Bytes a).length = hi - lo := by
    simp only [SliceWriter.Bytes, List.length_take, List.length_drop]; omega
  have hget : ∀ (x : Buf) (k : Nat), k < hi' - lo' → ((SliceWriter.mk lo' (hi' - lo')).Bytes x)[k]? = x[lo' + k]? := by
    intro x k hk
    simp only [SliceWriter.Bytes, List.getElem?_take, List.getElem?_drop, if_pos hk]
  have hget2 : ∀ (k : Nat), ((SliceWriter.mk lo (hi - lo)).Bytes a)[k]? = if k < hi - lo then a[lo + k]? else none := by
    intro k
    simp only [SliceWriter.Bytes, List.getElem?_take, List.getElem?_drop]
  have hall := C89_all_or_nothing hm ((SliceWriter.mk lo (hi - lo)).Bytes a) off h1 h2 (by omega)
  have hcall : ∀ x : Buf, x.length = hi - lo → ∀ j, (a.take lo ++ x ++ a.drop (lo + (hi - lo)))[j]? =
      if lo ≤ j ∧ j < hi then x[j - lo]? else a[j]? := by
    intro x hx j
    rw [List.append_assoc]
    by_cases hj : j < lo
    · rw [List.getElem?_append_left (by simp; omega), if_neg (by omega), List.getElem?_take, if_pos hj]
    · rw [List.getElem?_append_right (by simp; omega)]
      have : (a.take lo).length = lo := by simp; omega
      rw [this]
      by_cases hj' : j < hi
      · rw [List.getElem?_append_left (by omega), if_pos (by omega)]
      · rw [List.getElem?_append_right (by omega), if_neg (by omega), List.getElem?_drop, hx]
        congr 1; omega
  have hbl : (m.run ((SliceWriter.mk lo (hi - lo)).Bytes a) off).buf.length = hi - lo := by
    by_cases hr : Room ((SliceWriter.mk lo (hi - lo)).Bytes a) off d.length
    · obtain ⟨b', e, hwr⟩ := hall.1 hr
      rw [e]; exact hwr.1.trans hlen
    · rcases hall.2 hr with ⟨n, e⟩ | e <;> rw [e] <;> exact hlen
  have hcl : ((SliceWriter.mk lo (hi - lo)).call a m off).length = a.length := by
    simp only [SliceWriter.call, List.length_append, List.length_take, List.length_drop, hbl]; omega
  refine ⟨rfl, hlen, hcl, fun hr => ?_, fun hr => ?_⟩
  · obtain ⟨b', e, hwr⟩ := hall.1 hr
    have hwa : Written a ((SliceWriter.mk lo (hi - lo)).call a m off) (lo + off.toNat) d := by
      have hb' : b'.length = hi - lo := hwr.1.trans hlen
      obtain ⟨hr1, hr2⟩ := hr
      rw [hlen] at hr1
      refine ⟨hcl, fun i hi' => ?_, fun j hj => ?_⟩
      · simp only [SliceWriter.call, e, WRes.buf]
        rw [hcall b' hb', if_pos (by omega), show lo + off.toNat + i - lo = off.toNat + i by omega]
        exact hwr.2.1 i hi'
      · simp only [SliceWriter.call, e, WRes.buf]
        rw [hcall b' hb']
        split
        · rename_i hin
          rw [hwr.2.2 (j - lo) (by omega), hget2, if_pos (by omega)]
          congr 1; omega
        · rfl
    refine ⟨hwa, fun k hk => ?_⟩
    rw [hget _ _ hk, hget _ _ hk]
    split
    · rename_i hin
      have := hwa.2.1 (lo' + k - (lo + off.toNat)) (by omega)
      rw [show lo + off.toNat + (lo' + k - (lo + off.toNat)) = lo' + k by omega] at this
      exact this
    · exact hwa.2.2 _ (by omega)
  · have e : (m.run ((SliceWriter.mk lo (hi - lo)).Bytes a) off).buf = (SliceWriter.mk lo (hi - lo)).Bytes a := by
      rcases hall.2 hr with ⟨n, e⟩ | e <;> rw [e] <;> rfl
    apply List.ext_getElem?
    intro j
    simp only [SliceWriter.call, e]
    rw [hcall _ hlen]
    split
    · rw [hget2, if_pos (by omega)]
      congr 1; omega
    · rfl

/-- Two writers on bytes 0-3 and 2-5 of an array: a number written through the first shows in the second. -/
example : (newSliceWriter (newByteWriter 6) 0 4).map (fun w => w.call (newByteWriter 6) (.writeUint32 0x04030201) 0) =
      some [1, 2, 3, 4, 0, 0] ∧
    (newSliceWriter (newByteWriter 6) 2 6).map (fun w => w.Bytes [1, 2, 3, 4, 0, 0]) = some [3, 4, 0, 0] := by decide

end Speed
