import Mathlib.Data.Nat.Digits.Lemmas
import Verif.UnitText
import Verif.PropsFile
/-
Properties of the text that `mmvdump` prints (C56 to C61).
-/
namespace Speed
open Dump

/-! ### C58: numbers -/

/-- The value of a digit, `none` for another byte. -/
def digitVal (c : Byte) : Option Nat :=
  if 0x30 ≤ c.toNat ∧ c.toNat ≤ 0x39 then some (c.toNat - 0x30)
  else if 0x61 ≤ c.toNat ∧ c.toNat ≤ 0x66 then some (c.toNat - 0x61 + 10) else none

/-- Reading a number, most significant digit first; `none` if there is a byte that is no digit of the base. -/
def readNat (b : Nat) : Nat → List Byte → Option Nat
  | acc, [] => some acc
  | acc, c :: s =>
    match digitVal c with
    | some d => if d < b then readNat b (b * acc + d) s else none
    | none => none

/-- `s` is the number `n` in base `b`: at least one digit, and no zero in front unless it is the only digit. -/
def IsNumeral (b : Nat) (s : List Byte) (n : Nat) : Prop :=
  s ≠ [] ∧ readNat b 0 s = some n ∧ (s.head? = some 0x30 → s = [0x30])

/-- The same with a minus sign for negative numbers. -/
def IsSigned (b : Nat) (s : List Byte) (i : Int) : Prop :=
  if i < 0 then ∃ t, s = 0x2D :: t ∧ IsNumeral b t i.natAbs else IsNumeral b s i.natAbs

theorem digitVal_digit : ∀ d, d < 16 → digitVal (digit d) = some d := by decide

theorem readNat_append {b : Nat} (s t : List Byte) : ∀ acc, readNat b acc (s ++ t) = (readNat b acc s).bind (fun a => readNat b a t) := by
  induction s with
  | nil => intro acc; rfl
  | cons c s ih =>
    intro acc
    rw [List.cons_append, readNat, readNat]
    cases digitVal c with
    | none => rfl
    | some d =>
      dsimp only
      split
      · exact ih _
      · rfl

theorem isNumeral_numeral {b : Nat} (hb : 1 < b) (hb' : b ≤ 16) (n : Nat) : IsNumeral b (numeral b n) n := by
  have hread : ∀ n, readNat b 0 ((Nat.digits b n).reverse.map digit) = some n := by
    intro n
    induction n using Nat.strongRecOn with
    | ind n ih =>
      by_cases h0 : n = 0
      · subst h0; simp [readNat]
      · rw [Nat.digits_def' hb (by omega), List.reverse_cons, List.map_append, readNat_append,
          ih (n / b) (Nat.div_lt_self (by omega) hb)]
        have hlt : n % b < b := Nat.mod_lt _ (by omega)
        show readNat b (n / b) [digit (n % b)] = _
        rw [readNat, digitVal_digit _ (by omega)]
        dsimp only
        rw [if_pos hlt, readNat, Nat.div_add_mod]
  unfold numeral
  split
  · rename_i h; subst h; exact ⟨by simp, by simp [readNat, digitVal_digit 0 (by decide)]; omega, fun _ => rfl⟩
  · rename_i h
    refine ⟨by simp [Nat.digits_ne_nil_iff_ne_zero, h], hread n, ?_⟩
    intro hh
    exfalso
    have hl := Nat.getLast_digit_ne_zero b h
    rw [List.head?_map, List.head?_reverse, List.getLast?_eq_getLast_of_ne_nil (Nat.digits_ne_nil_iff_ne_zero.2 h)] at hh
    have hlt := Nat.digits_lt_base hb (List.getLast_mem (Nat.digits_ne_nil_iff_ne_zero.2 h))
    generalize (Nat.digits b n).getLast (Nat.digits_ne_nil_iff_ne_zero.2 h) = d at hl hlt hh
    have hd : ∀ d, d < 16 → d ≠ 0 → digit d ≠ 0x30 := by decide
    exact hd d (by omega) hl (by simpa using hh)

/-- C58: integers of 32 and 64 bits, and offsets, are printed exactly: the printed digits, read as a number of the base (10
or 16), give the number, there are no superfluous zeros, and negative numbers have a minus sign. -/
theorem C58_numbers (b : Nat) (hb : b = 10 ∨ b = 16) :
    (∀ n, n < 2 ^ 64 → IsNumeral b (fmtUint b n) n) ∧ (∀ i : Int, i.natAbs < 2 ^ 64 → IsSigned b (fmtInt b i) i) := by
  have h1 : 1 < b := by omega
  have h2 : b ≤ 16 := by omega
  have hu : ∀ n, n < 2 ^ 64 → IsNumeral b (fmtUint b n) n := by
    intro n hn; rw [fmtUint_eq h1 hn]; exact isNumeral_numeral h1 h2 n
  refine ⟨hu, ?_⟩
  intro i hi
  unfold IsSigned fmtInt
  split
  · exact ⟨_, rfl, hu _ hi⟩
  · exact hu _ hi

/-- -123 and 0xff. -/
example : fmtInt 10 (-123) = b!"-123" ∧ fmtUint 16 255 = b!"ff" ∧ fmtUint 10 0 = b!"0" := by decide

theorem isNumeral_inj {b : Nat} {s : List Byte} {m n : Nat} (h1 : IsNumeral b s m) (h2 : IsNumeral b s n) : m = n :=
  Option.some.inj (h1.2.1.symm.trans h2.2.1)

theorem isSigned_inj {b : Nat} {s : List Byte} {i j : Int} (h1 : IsSigned b s i) (h2 : IsSigned b s j) : i = j := by
  have no : ∀ t n, ¬ IsNumeral b (0x2D :: t) n := by
    intro t n h
    have := h.2.1
    rw [readNat, show digitVal 0x2D = none by decide] at this
    cases this
  unfold IsSigned at h1 h2
  split at h1 <;> split at h2
  · obtain ⟨t, rfl, h1⟩ := h1
    obtain ⟨t', e, h2⟩ := h2
    obtain rfl := (List.cons.inj e).2
    have := isNumeral_inj h1 h2
    omega
  · obtain ⟨t, rfl, h1⟩ := h1
    exact absurd h2 (no _ _)
  · obtain ⟨t, rfl, h2⟩ := h2
    exact absurd h1 (no _ _)
  · have := isNumeral_inj h1 h2
    omega

/-- A number in base `b`, by the library of Lean. -/
def numText (b n : Nat) : List Byte := (Nat.toDigits b n).map fun c => BitVec.ofNat 8 c.toNat

/-- A number with its sign. -/
def signText (b : Nat) (i : Int) : List Byte := if i < 0 then 0x2D :: numText b i.natAbs else numText b i.natAbs

theorem numeral_numText {b : Nat} (hb : 1 < b) (hb' : b ≤ 16) (n : Nat) : numeral b n = numText b n := by
  have hc : ∀ d, d < 16 → BitVec.ofNat 8 (Nat.digitChar d).toNat = digit d := by decide
  induction n using Nat.strongRecOn with
  | ind n ih =>
    by_cases hn : n < b
    · unfold numText
      rw [Nat.toDigits_of_lt_base hn, List.map_singleton, hc n (by omega)]
      unfold numeral
      split
      · rename_i h; rw [h]
      · rename_i h; rw [Nat.digits_of_lt b n h hn]; rfl
    · have h1 : n / b < n := Nat.div_lt_self (by omega) hb
      have h2 : n / b ≠ 0 := by
        have := Nat.div_pos (show b ≤ n by omega) (by omega)
        omega
      have h3 := ih _ h1
      unfold numText at h3 ⊢
      rw [Nat.toDigits_of_base_le hb (by omega), List.map_append, ← h3, List.map_singleton, hc _ (by have := Nat.mod_lt n (show b > 0 by omega); omega)]
      unfold numeral
      rw [if_neg (by omega), if_neg h2, Nat.digits_def' hb (by omega), List.reverse_cons, List.map_append]
      rfl

/-- C58: what is printed is the number in decimal or hexadecimal notation. -/
theorem C58_printed {n : Nat} (hn : n ≤ 64) (x : BitVec n) : decU x = numText 10 x.toNat ∧ decI x = signText 10 x.toInt ∧
    hexU x = numText 16 x.toNat ∧ hexI x = signText 16 x.toInt := by
  have hp : 2 ^ n ≤ 2 ^ 64 := Nat.pow_le_pow_right (by decide) hn
  have hu : x.toNat < 2 ^ 64 := Nat.lt_of_lt_of_le x.isLt hp
  have hi : x.toInt.natAbs < 2 ^ 64 := by
    have h1 := BitVec.toInt_lt (x := x)
    have h2 := BitVec.le_toInt x
    have h3 : 2 ^ (n - 1) ≤ 2 ^ 63 := Nat.pow_le_pow_right (by decide) (by omega)
    have h4 : (2 : Int) ^ (n - 1) ≤ 2 ^ 63 := by exact_mod_cast h3
    omega
  have e1 : ∀ b m, 1 < b → b ≤ 16 → m < 2 ^ 64 → fmtUint b m = numText b m := by
    intro b m h1 h2 h3
    rw [fmtUint_eq h1 h3, numeral_numText h1 h2]
  refine ⟨e1 10 _ (by decide) (by decide) hu, ?_, e1 16 _ (by decide) (by decide) hu, ?_⟩ <;>
  · show fmtInt _ _ = _
    unfold fmtInt signText
    rw [e1 _ _ (by decide) (by decide) hi]

/-- `numText` and `signText` are the usual notation. -/
example : numText 10 1234567890 = b!"1234567890" ∧ numText 16 0xdeadbeef = b!"deadbeef" ∧ signText 10 (-45) = b!"-45" ∧ numText 10 0 = b!"0" := by decide +kernel

/-- %v of a value: integers in decimal notation, signed or unsigned as their type is. -/
def shown (P : FloatFmt) : GoVal → List Byte
  | .int32 v => signText 10 v.toInt
  | .int64 v => signText 10 v.toInt
  | .int v => signText 10 v.toInt
  | .uint32 v => numText 10 v.toNat
  | .uint64 v => numText 10 v.toNat
  | .uint v => numText 10 v.toNat
  | .float32 v => P.f32 v
  | .float64 v => P.f64 v
  | .str s => s
  | .other => []

/-- C58: values are printed according to their type. -/
theorem C58_values (P : FloatFmt) (v : GoVal) : fmtVal P v = shown P v := by
  cases v <;> first | rfl | exact (C58_printed (by decide) _).1 | exact (C58_printed (by decide) _).2.1

/-- The same bits as int64 and as uint64. -/
example : fmtVal ⟨fun _ => [], fun _ => []⟩ (.int64 (-1)) = b!"-1" ∧
    fmtVal ⟨fun _ => [], fun _ => []⟩ (.uint64 (-1)) = b!"18446744073709551615" := by decide +kernel

/-- C58: different numbers are printed differently. -/
theorem C58_inj {n : Nat} (hn : n ≤ 64) (x y : BitVec n) : (decU x = decU y → x = y) ∧ (decI x = decI y → x = y) ∧
    (hexU x = hexU y → x = y) ∧ (hexI x = hexI y → x = y) := by
  have hp : 2 ^ n ≤ 2 ^ 64 := Nat.pow_le_pow_right (by decide) hn
  have hu : ∀ x : BitVec n, x.toNat < 2 ^ 64 := fun x => Nat.lt_of_lt_of_le x.isLt hp
  have hi : ∀ x : BitVec n, x.toInt.natAbs < 2 ^ 64 := by
    intro x
    have h1 := BitVec.toInt_lt (x := x)
    have h2 := BitVec.le_toInt x
    have h3 : 2 ^ (n - 1) ≤ 2 ^ 63 := Nat.pow_le_pow_right (by decide) (by omega)
    have h4 : (2 : Int) ^ (n - 1) ≤ 2 ^ 63 := by exact_mod_cast h3
    omega
  have ku : ∀ b, b = 10 ∨ b = 16 → fmtUint b x.toNat = fmtUint b y.toNat → x = y := by
    intro b hb h
    have h1 := (C58_numbers b hb).1 _ (hu x)
    rw [h] at h1
    exact BitVec.eq_of_toNat_eq (isNumeral_inj h1 ((C58_numbers b hb).1 _ (hu y)))
  have ki : ∀ b, b = 10 ∨ b = 16 → fmtInt b x.toInt = fmtInt b y.toInt → x = y := by
    intro b hb h
    have h1 := (C58_numbers b hb).2 _ (hi x)
    rw [h] at h1
    exact BitVec.eq_of_toInt_eq (isSigned_inj h1 ((C58_numbers b hb).2 _ (hi y)))
  exact ⟨ku 10 (.inl rfl), ki 10 (.inl rfl), ku 16 (.inr rfl), ki 16 (.inr rfl)⟩

/-- -1 and 2^64-1 are the same 64 bits, printed with and without sign. -/
example : decI (-1 : BitVec 64) = b!"-1" ∧ decU (-1 : BitVec 64) = b!"18446744073709551615" ∧ hexU (255 : BitVec 32) = b!"ff" := by decide

/-! ### C57: errors of the output -/

/-- C57: `Write` makes the same calls of the output writer whatever the writer does, up to the first one that fails. If
none fails, all of the text is written and the result is that of `Write` itself. If one fails, everything before it is written,
then the bytes that the failing call accepted and nothing else, and the error of the writer is returned. -/
theorem C57_writer (P : FloatFmt) (D : Result) : ∃ (cs : List (List Byte)) (e : PEnd), e ≠ .werr ∧ ∀ k : Sink,
    ((∀ i, i < cs.length → k.script[i]?.join = none) ∧ (pWrite P D k).1.out = k.out ++ cs.flatten ∧ (pWrite P D k).2 = e) ∨
    (∃ i n, ∃ c : List Byte, cs[i]? = some c ∧ k.script[i]? = some (some n) ∧ (∀ j, j < i → k.script[j]?.join = none) ∧
      (pWrite P D k).1.out = k.out ++ (cs.take i).flatten ++ c.take n ∧ (pWrite P D k).2 = .werr) := by
  obtain ⟨cs, e, he, h⟩ := isCalls_write P D
  refine ⟨cs, e, he, fun k => ?_⟩
  rw [h]
  rcases play_spec cs e k with ⟨h1, h2⟩ | ⟨i, n, c, h1, h2, h3, h4⟩
  · left; rw [h2]; exact ⟨h1, rfl, rfl⟩
  · right; exact ⟨i, n, c, h1, h2, h3, by rw [h4], by rw [h4]⟩

/-- For examples without floating point values. -/
def noFloats : FloatFmt := ⟨fun _ => [], fun _ => []⟩

/-- A dump with one string. -/
def oneString : Result :=
  { header := ⟨[0x4D, 0x4D, 0x56, 0], 2, 7, 7, 1, 2, 9, 3⟩, tocs := [⟨5, 1, 56⟩], indoms := [], instances := [],
    metrics := [], values := [], strings := [(56, ⟨b!"abc"⟩)] }

/-- The whole text. -/
example : pWrite noFloats oneString ⟨[], []⟩ =
    (⟨b!"Version   = 2\nGenerated = 7\nToc Count = 1\nCluster   = 3\nProcess   = 9\nFlags     = 0x2\n\n" ++
      b!"TOC[0], offset: 40, strings offset: 56 (1 entries)\n\t[56] abc\n\n", []⟩, .ok) := by decide +kernel

/-- The second call accepts three bytes and fails. -/
example : pWrite noFloats oneString ⟨[], [none, some 3]⟩ =
    (⟨b!"Version   = 2\nGenerated = 7\nToc Count = 1\nCluster   = 3\nProcess   = 9\nFlags     = 0x2\n\nTOC", []⟩, .werr) := by
  decide +kernel

/-! ### C56: the text for a written file -/

theorem flatMap_infix {α β : Type} (f : α → List β) {l ls : List α} (h : l <:+: ls) : l.flatMap f <:+: ls.flatMap f := by
  obtain ⟨a, b, rfl⟩ := h
  exact ⟨a.flatMap f, b.flatMap f, by simp⟩

theorem mem_infix {α : Type} {x : α} {l : List α} (h : x ∈ l) : [x] <:+: l := by
  obtain ⟨a, b, rfl⟩ := List.append_of_mem h
  exact ⟨a, b, by simp⟩

/-- The line for an optional text. -/
def textLine (missing word : List Byte) (s : Option (List Byte)) : List Byte :=
  match s with
  | none => b!"\t\t(no " ++ missing ++ b!")\n"
  | some s => b!"\t\t" ++ word ++ b!"=" ++ s ++ b!"\n"

/-- The text `out` contains everything that is registered. Strings are printed with the zero bytes that fill up their
slots, so they are compared without zero bytes at the end. -/
structure TextOf (P : FloatFmt) (r : Reg) (A : Addrs) (out : List Byte) : Prop where
  indoms : ∀ d ∈ r.indoms, ∃ (off : BitVec 64) (a b : Option (List Byte)),
    b!"\t[" ++ decU d.id ++ b!"/" ++ fmtUint 10 (A.indom d.uid) ++ b!"] " ++ decU (BitVec.ofNat 32 d.insts.length) ++
      b!" instances, starting at offset " ++ decU off ++ b!"\n" ++ textLine b!"shorttext" b!"shorttext" a ++
      textLine b!"longtext" b!"longtext" b <:+: out ∧
    trimNul (a.getD []) = trimNul d.short ∧ trimNul (b.getD []) = trimNul d.long
  insts : ∀ d ∈ r.indoms, ∀ i ∈ d.insts, ∃ n : List Byte,
    b!"\t[" ++ decU d.id ++ b!"/" ++ fmtUint 10 (A.inst d.uid i.name) ++ b!"] instance = [" ++ decI i.id ++ b!"/" ++ n ++
      b!"]\n" <:+: out ∧ trimNul n = trimNul i.name
  metrics : ∀ m ∈ r.metrics, ∃ (n : List Byte) (a b : Option (List Byte)),
    b!"\t[" ++ decU m.desc.id ++ b!"/" ++ fmtUint 10 (A.metric m.uid) ++ b!"] " ++ n ++
      b!"\n\t\ttype=" ++ typeString m.desc.t ++ b!" (0x" ++ hexI m.desc.t ++ b!"), sem=" ++ semString m.desc.sem ++
      b!" (0x" ++ hexI m.desc.sem ++ b!"), pad=0x0\n\t\tunits=" ++ unitString m.desc.unit ++
      (match m.indom with
        | none => b!"\n\t\t(no indom)\n"
        | some d => b!"\n\t\tindom=" ++ decI d.id ++ b!"\n") ++
      textLine b!"shorttext" b!"shorttext" a ++ textLine b!"longtext" b!"longtext" b <:+: out ∧
    trimNul n = trimNul m.desc.name ∧ trimNul (a.getD []) = trimNul m.desc.short ∧
    trimNul (b.getD []) = trimNul m.desc.long
  values : ∀ m ∈ r.metrics, ∀ s ∈ m.slotNames, ∃ (n inst : List Byte) (a v : GoVal), m.cur s = some v ∧
    b!"\t[" ++ decU m.desc.id ++ b!"/" ++ fmtUint 10 (A.value m.uid s) ++ b!"] " ++ n ++ inst ++ b!" = " ++ fmtVal P a ++
      b!"\n" <:+: out ∧ trimNul n = trimNul m.desc.name ∧ ShowsVal v a ∧
    (inst = [] ∧ (s = none ∨ ∃ d, m.indom = some d ∧ d.id = 0) ∨
      ∃ d i nm, m.indom = some d ∧ i ∈ d.insts ∧ s = some i.name ∧ trimNul nm = trimNul i.name ∧
        inst = b!"[" ++ decI i.id ++ b!" or \"" ++ nm ++ b!"\"]")
  strings : ∀ s ∈ r.strings, ∃ (off : Nat) (p : List Byte), b!"\t[" ++ fmtUint 10 off ++ b!"] " ++ p ++ b!"\n" <:+: out ∧
    trimNul p = trimNul s

/-- C56: when the file of a started client is dumped and the output accepts everything, `Write` returns nil, and the
text contains every registered domain, instance, metric, value and string, with identifiers, offsets, names,
help texts, types, units and values. -/
theorem C56_text {r e o s} (h : Started r e o s) {D} (hd : Dumps s.mem (.ok D)) (P : FloatFmt) :
    ∃ A out, DescribesAt r D A ∧ pWrite P D ⟨[], []⟩ = (⟨out, []⟩, .ok) ∧ TextOf P r A out := by
  obtain ⟨_, A, hA, ls, hw, hp⟩ := C36_references h hd
  have hag := agree_write (P := P) D
  rw [hw] at hag
  obtain ⟨cs, hcs, hfl⟩ := hag
  refine ⟨A, ls.flatMap (lineText P), hA, by rw [hcs, play_all, hfl, List.nil_append], ?_⟩
  have sub : ∀ {l : List Line}, l <:+: ls → l.flatMap (lineText P) <:+: ls.flatMap (lineText P) := flatMap_infix _
  have one : ∀ {l : Line}, l ∈ ls → lineText P l <:+: ls.flatMap (lineText P) := by
    intro l hl; have := sub (mem_infix hl); simpa using this
  have hshort : ∀ a, lineText P (.short a) = textLine b!"shorttext" b!"shorttext" a := by intro a; cases a <;> rfl
  have hlong : ∀ a, lineText P (.long a) = textLine b!"longtext" b!"longtext" a := by intro a; cases a <;> rfl
  constructor
  · intro d hd'
    obtain ⟨off, a, b, h1, h2, h3⟩ := hp.indoms d hd'
    refine ⟨off, a, b, ?_, h2, h3⟩
    have := sub h1
    simp only [List.flatMap_cons, List.flatMap_nil, hshort, hlong, List.append_nil] at this
    simpa [lineText] using this
  · intro d hd' i hi
    obtain ⟨n, h1, h2⟩ := hp.insts d hd' i hi
    exact ⟨n, one h1, h2⟩
  · intro m hm
    obtain ⟨n, a, b, h1, h2, h3, h4⟩ := hp.metrics m hm
    refine ⟨n, a, b, ?_, h2, h3, h4⟩
    have := sub h1
    simp only [List.flatMap_cons, List.flatMap_nil, hshort, hlong, List.append_nil] at this
    cases hi : m.indom with
    | none => rw [hi] at this; simpa [lineText, show hexU (0#32) = [48#8] from by decide] using this
    | some d =>
      rw [hi] at this
      have hne : d.id ≠ -1 := by
        intro hid
        have h1 := (h.built.inv.indoms d (h.ok.registered m hm d hi)).id
        have h2 := hash_lt d.name 22 (by decide) (by decide)
        rw [← h1, hid] at h2
        exact absurd h2 (by decide)
      simp only [lineText, if_neg hne] at this
      simpa [show hexU (0#32) = [48#8] from by decide] using this
  · intro m hm sl hs
    obtain ⟨n, inst, a, v, h1, h2, h3, h4, h5⟩ := hp.values m hm sl hs
    have := one h2
    cases inst with
    | none => exact ⟨n, [], a, v, h1, by simpa [lineText] using this, h3, h4, .inl ⟨rfl, h5⟩⟩
    | some x =>
      obtain ⟨id, nm⟩ := x
      obtain ⟨d, i, g1, g2, g3, g4, g5⟩ := h5
      refine ⟨n, _, a, v, h1, ?_, h3, h4, .inr ⟨d, i, nm, g1, g2, g3, g5, rfl⟩⟩
      rw [← g4]
      simpa [lineText] using this
  · intro x hx
    obtain ⟨off, p, h1, h2⟩ := hp.strings x hx
    exact ⟨off, p, one h1, h2⟩

/-- The counter "c" with value 5 of the sample registry: its line, and its description with a type, a semantics and
a unit. -/
example : ∃ s D out, Started sampleReg2 ⟨3, 78, 999, 43⟩ (revOrd sampleReg2) s ∧ Dumps s.mem (.ok D) ∧
    pWrite noFloats D ⟨[], []⟩ = (⟨out, []⟩, .ok) ∧
    (∃ head n : List Byte, trimNul n = sC ∧ head ++ n ++ b!" = 5\n" <:+: out) ∧
    ∃ head n tail : List Byte, trimNul n = sC ∧ head ++ n ++
      b!"\n\t\ttype=Int64Type (0x2), sem=Semantics(1) (0x1), pad=0x0\n\t\tunits=count\n\t\t(no indom)\n" ++ tail <:+: out := by
  obtain ⟨s, hs⟩ := sample_started2
  obtain ⟨⟨x, hx⟩, h2⟩ := C03_dump_describes hs
  obtain ⟨D, rfl, _⟩ := h2 x hx
  obtain ⟨A, out, hA, hw, ht⟩ := C56_text hs hx noFloats
  refine ⟨s, D, out, hs, hx, hw, ?_, ?_⟩
  · have hm : ∀ m ∈ sampleReg2.metrics.head?, m.desc.name = sC ∧ m.slotNames = [none] ∧ m.cur none = some (.int64 5) := by
      decide
    cases hh : sampleReg2.metrics.head? with
    | none => exact absurd hh (by decide)
    | some m =>
      obtain ⟨k1, k2, k3⟩ := hm m hh
      obtain ⟨n, inst, a, v, h1, h2, h3, h4, h5⟩ := ht.values m (List.mem_of_head? hh) none (by rw [k2]; simp)
      rw [k3] at h1
      obtain rfl := Option.some.inj h1
      obtain rfl : a = .int64 5 := h4
      rcases h5 with ⟨rfl, _⟩ | ⟨_, i, _, _, _, h, _⟩
      · refine ⟨b!"\t[" ++ decU m.desc.id ++ b!"/" ++ fmtUint 10 (A.value m.uid none) ++ b!"] ", n, by rw [h3, k1]; decide, ?_⟩
        have e1 : fmtVal noFloats (.int64 5) = b!"5" := by decide
        rw [e1] at h2
        simpa using h2
      · cases h
  · have hm : ∀ m ∈ sampleReg2.metrics.head?, m.desc.name = sC ∧ m.desc.t = 2 ∧ m.desc.sem = 1 ∧ m.desc.unit = 0x100000 ∧
        m.indom = none := by
      decide
    cases hh : sampleReg2.metrics.head? with
    | none => exact absurd hh (by decide)
    | some m =>
      obtain ⟨k1, k2, k3, k4, k5⟩ := hm m hh
      obtain ⟨n, a, b, h1, h2, -, -⟩ := ht.metrics m (List.mem_of_head? hh)
      rw [k2, k3, k4, k5] at h1
      refine ⟨b!"\t[" ++ decU m.desc.id ++ b!"/" ++ fmtUint 10 (A.metric m.uid) ++ b!"] ", n,
        textLine b!"shorttext" b!"shorttext" a ++ textLine b!"longtext" b!"longtext" b, by rw [h2, k1]; decide, ?_⟩
      have e1 : typeString 2 = b!"Int64Type" := by decide
      have e2 : hexI (2 : BitVec 32) = b!"2" := by decide
      have e3 : semString 1 = b!"Semantics(1)" := by decide
      have e4 : hexI (1 : BitVec 32) = b!"1" := by decide
      have e5 : unitString 0x100000 = b!"count" := by decide
      rw [e1, e2, e3, e4, e5] at h1
      simpa using h1

/-! ### C59: semantics -/

/-- The names of the semantics (metrics.go:373-379, and the intention of mmvdump/pcp.go:374-380). -/
def semNames : List (BitVec 32 × List Byte) :=
  [(0, b!"NoSemantics"), (1, b!"CounterSemantics"), (3, b!"InstantSemantics"), (4, b!"DiscreteSemantics")]

/-- C59 does not hold: counter, instant and discrete semantics are printed as numbers. All four constants of the package are 0, the
one value that is printed as a name. -/
theorem C59_refuted : semConsts.map semString = List.replicate 4 b!"NoSemantics" ∧
    semString 1 = b!"Semantics(1)" ∧ semString 3 = b!"Semantics(3)" ∧ semString 4 = b!"Semantics(4)" ∧
    ¬ ∀ p ∈ semNames, semString p.1 = p.2 := by decide +kernel

/-- C59, the part that holds: different semantics (all 2^32 of them) are printed differently, and 0 by its name. Missing: the names of
the others (`C59_refuted`). -/
theorem C59_number_partial : semString 0 = b!"NoSemantics" ∧ ∀ s t, semString s = semString t → s = t := by
  refine ⟨by decide, fun s t h => ?_⟩
  unfold semString at h
  split at h <;> split at h
  · exact ((C58_inj (by decide) s t).2.1 (List.append_cancel_left (List.append_cancel_right h)))
  · exact absurd (congrArg List.head? h) (by simp)
  · exact absurd (congrArg List.head? h) (by simp)
  · exact BitVec.eq_of_toInt_eq (by omega)

example : ([0, 1, 3, 4, 7].map semString) =
    [b!"NoSemantics", b!"Semantics(1)", b!"Semantics(3)", b!"Semantics(4)", b!"Semantics(7)"] := by decide

/-! ### C60: types -/

/-- The names of the types (mmvdump/pcp.go:170-180). -/
def typeNames : List (BitVec 32 × List Byte) :=
  [(0, b!"Int32Type"), (1, b!"Uint32Type"), (2, b!"Int64Type"), (3, b!"Uint64Type"), (4, b!"FloatType"), (5, b!"DoubleType"),
    (6, b!"StringType"), (-1, b!"NoSupportType"), (255, b!"UnknownType")]

/-- C60: the types are printed by their names, and any other number as `Type(n)`. -/
theorem C60_types : (∀ p ∈ typeNames, typeString p.1 = p.2) ∧
    ∀ t, t ∉ typeNames.map Prod.fst → typeString t = b!"Type(" ++ decI t ++ b!")" := by
  refine ⟨by decide, ?_⟩
  intro t ht
  have h1 : ¬ (-1 ≤ t.toInt ∧ t.toInt ≤ 6) := by
    intro ⟨h1, h2⟩
    have h3 : BitVec.ofInt 32 t.toInt = t := BitVec.ofInt_toInt
    generalize t.toInt = i at h1 h2 h3
    have : i = -1 ∨ i = 0 ∨ i = 1 ∨ i = 2 ∨ i = 3 ∨ i = 4 ∨ i = 5 ∨ i = 6 := by omega
    apply ht
    rcases this with rfl | rfl | rfl | rfl | rfl | rfl | rfl | rfl <;> rw [← h3] <;> decide
  have h2 : ¬ t.toInt = 255 := by
    intro h
    have h3 : BitVec.ofInt 32 t.toInt = t := BitVec.ofInt_toInt
    rw [h] at h3
    apply ht
    rw [← h3]; decide
  unfold typeString
  rw [if_neg h1, if_neg h2]

example : typeString 7 = b!"Type(7)" ∧ typeString (-5) = b!"Type(-5)" ∧ typeString 3 = b!"Uint64Type" := by decide

/-! ### C61: units -/

/-- C61: the printed text identifies the unit: if two units with valid scales are printed alike, they have the same
dimensions, and the same scale in each component whose dimension is not 0. -/
theorem C61_units {u v : BitVec 32} (hu : UnitOk u) (hv : UnitOk v) (h : unitString u = unitString v) :
    Units.spaceDim u = Units.spaceDim v ∧ Units.timeDim u = Units.timeDim v ∧ Units.countDim u = Units.countDim v ∧
    (Units.spaceDim u ≠ 0 → Units.dumpSpaceScale u = Units.dumpSpaceScale v) ∧
    (Units.timeDim u ≠ 0 → Units.dumpTimeScale u = Units.dumpTimeScale v) ∧
    (Units.countDim u ≠ 0 → Units.dumpCountScale u = Units.dumpCountScale v) := by
  have h1 := readUnit_unitString hu
  rw [h, readUnit_unitString hv] at h1
  have key : ∀ {s d s' d' : BitVec 8}, comp s' d' = comp s d → d = d' ∧ (d ≠ 0 → s = s') := by
    intro s d s' d' h
    unfold comp at h
    split at h <;> split at h
    · rename_i a b; exact ⟨by rw [a, b], fun h => absurd b h⟩
    · simp at h
    · simp at h
    · injection h with h; injection h with h2 h3; exact ⟨h3.symm, fun _ => h2.symm⟩
  injection h1 with a b
  injection b with b c
  exact ⟨(key a).1, (key b).1, (key c).1, (key a).2, (key b).2, (key c).2⟩

/-- KiB per second and KiB times seconds are printed differently. -/
example : unitString 0x1F013000 = b!"KiB / sec" ∧ unitString 0x11013000 = b!"KiBsec" := by decide
example : UnitOk 0x1F013000 ∧ UnitOk 0x11013000 := by unfold UnitOk; decide

/-- The text of the units of the library (metrics.go:268-276, 306-313, 341-343). -/
theorem C61_names : ([0, 1, 2, 3, 4, 5, 6].map fun k => unitString (Units.spaceUnit k)) =
      [b!"B", b!"KiB", b!"MiB", b!"GiB", b!"TiB", b!"PiB", b!"EiB"] ∧
    ([0, 1, 2, 3, 4, 5].map fun k => unitString (Units.timeUnit k)) =
      [b!"nsec", b!"usec", b!"msec", b!"sec", b!"min", b!"hr"] ∧
    unitString Units.oneUnit = b!"count" ∧ unitString 0 = [] := by decide

/-- Megabytes per second, and kilobytes per square second times count: a component under the slash keeps the sign of
its exponent. -/
example : unitString 0x1F023000 = b!"MiB / sec" ∧ unitString 0x1E113000 = b!"KiBcount / sec^-2" ∧ UnitOk 0x1E113000 := by
  refine ⟨by decide, by decide, ?_⟩
  unfold UnitOk
  decide

/-- C59 to C61: the first lines of the printed block of a metric show number, offset and name, then its type, semantics
and unit, by the functions of these properties. -/
theorem C60_lines {D : Result} {off : Nat} {m : Dump.Metric} {out : List Byte} (hm : mget D.metrics off = some m)
    (hok : (pMetric D off ⟨out, []⟩).2 = .ok) : ∃ n rest, printName D m.name = some n ∧ (pMetric D off ⟨out, []⟩).1.out = out ++
      (b!"\t[" ++ decU m.item ++ b!"/" ++ fmtUint 10 off ++ b!"] " ++ n ++ b!"\n") ++
      (b!"\t\ttype=" ++ typeString m.typ ++ b!" (0x" ++ hexI m.typ ++ b!"), sem=" ++ semString m.sem ++ b!" (0x" ++ hexI m.sem ++
        b!"), pad=0x" ++ hexU m.padding ++ b!"\n") ++
      (b!"\t\tunits=" ++ unitString m.unit ++ b!"\n") ++ rest := by
  unfold pMetric at hok ⊢
  rw [hm] at hok ⊢
  dsimp only at hok ⊢
  cases hn : printName D m.name with
  | none => rw [hn] at hok; cases hok
  | some n =>
    have hr : IsCalls ((if m.indom = -1 then fprintf b!"\t\t(no indom)\n" else fprintf (b!"\t\tindom=" ++ decI m.indom ++ b!"\n")) ;;
        pShort D m.shorttext ;; pLong D m.longtext ;; pDone) := by
      refine .seq ?_ (.seq (isCalls_short ..) (.seq (isCalls_long ..) isCalls_done))
      split <;> exact isCalls_fprintf _
    obtain ⟨cs, e, _, he⟩ := hr
    dsimp only
    rw [he, fprintf_play, fprintf_play, fprintf_play, play_append, play_append, play_append, play_all]
    exact ⟨n, cs.flatten, rfl, by simp⟩

/-- A metric `a`: a 64 bit counter of requests per second. -/
example : (pMetric ⟨⟨[], 1, 0, 0, 0, 0, 0, 0⟩, [], [(120, ⟨.inl [0x61], 5, 3, 1, 0x0F103000, -1, 0, 0, 0⟩)], [], [], [], []⟩ 120 ⟨[], []⟩).1.out =
    b!"\t[5/120] a\n\t\ttype=Uint64Type (0x3), sem=Semantics(1) (0x1), pad=0x0\n\t\tunits=count / sec\n\t\t(no indom)\n\t\t(no shorttext)\n\t\t(no longtext)\n" := by
  decide

end Speed
