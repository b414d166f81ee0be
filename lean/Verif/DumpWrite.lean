import Verif.DumpDescribe
/-
Model of `mmvdump.Write` (mmvdump/writer.go). Output is a list of structured lines; the text
formatting of the fields (`fmt.Fprintf`) and errors of the output writer are in `Print.lean`.
-/
namespace Speed.Dump

/-- One printed item. -/
inductive Line where
  /-- mmvdump/writer.go:262-269 -/
  | header (version : BitVec 32) (g1 : BitVec 64) (toc cluster process flag : BitVec 32)
  /-- mmvdump/writer.go:230; `k` is the section kind named in the line -/
  | toc (ti : Nat) (toff : Nat) (k : Option Nat) (off : BitVec 64) (count : BitVec 32)
  /-- mmvdump/writer.go:28 -/
  | inst (serial : BitVec 32) (off : Nat) (internal : BitVec 32) (name : List Byte)
  /-- mmvdump/writer.go:39 -/
  | indom (serial : BitVec 32) (off : Nat) (count : BitVec 32) (offset : BitVec 64)
  /-- mmvdump/writer.go:45, 49, 108, 112: `none` for "(no shorttext)" -/
  | short (s : Option (List Byte))
  /-- mmvdump/writer.go:55, 59, 118, 122 -/
  | long (s : Option (List Byte))
  /-- mmvdump/writer.go:84-105 -/
  | metric (item : BitVec 32) (off : Nat) (name : List Byte) (typ sem pad unit indom : BitVec 32)
  /-- mmvdump/writer.go:142, 166, 171 -/
  | value (item : BitVec 32) (off : Nat) (name : List Byte) (inst : Option (BitVec 32 × List Byte)) (v : GoVal)
  /-- mmvdump/writer.go:176 -/
  | string (off : Nat) (s : List Byte)
  /-- mmvdump/writer.go:240 -/
  | blank
  deriving DecidableEq, Repr

/-- Go map lookup `m[k]`; `none` is the zero value (a nil pointer or interface). -/
def mget {α : Type} (m : List (Nat × α)) (k : Nat) : Option α := (m.find? (fun p => p.1 = k)).map Prod.snd

/-- Outcome: the lines written, an error, or a panic (nil dereference). -/
inductive WOut where
  | ok (ls : List Line)
  | err
  | panic
  deriving DecidableEq, Repr

/-- Sequencing. -/
def WOut.andThen : WOut → (Unit → WOut) → WOut
  | .ok a, f => match f () with | .ok b => .ok (a ++ b) | .err => .err | .panic => .panic
  | .err, _ => .err
  | .panic, _ => .panic

/-- `string(strings[off].Payload[:])`: a missing string is a nil dereference. -/
def payload (D : Result) (off : BitVec 64) : Option (List Byte) := (mget D.strings off.toNat).map (·.payload)

/-- `instanceName`, `metricName` (mmvdump/writer.go:10-15, 67-72): `none` is a panic. A name of the wrong
version (failed type assertion) panics as well. -/
def printName (D : Result) : Name → Option (List Byte)
  | .inl bs => if D.header.version = 1 then some bs else none
  | .ref off => if D.header.version = 1 then none else payload D off

/-- The optional texts (mmvdump/writer.go:44-62, 107-125): outer `none` is a panic. -/
def printText (D : Result) (off : BitVec 64) : Option (Option (List Byte)) :=
  if off = 0 then some none else (payload D off).map some

/-- `writeInstance` (mmvdump/writer.go:17-30). -/
def showInstance (D : Result) (off : Nat) : WOut :=
  match mget D.instances off with
  | none => .panic
  | some i =>
    match printName D i.external, mget D.indoms i.indom.toNat with
    | some n, some d => .ok [.inst d.serial off i.internal n]
    | _, _ => .panic

/-- `writeInstanceDomain` (mmvdump/writer.go:32-65). -/
def showIndom (D : Result) (off : Nat) : WOut :=
  match mget D.indoms off with
  | none => .panic
  | some d =>
    match printText D d.shorttext, printText D d.longtext with
    | some a, some b => .ok [.indom d.serial off d.count d.offset, .short a, .long b]
    | _, _ => .panic

/-- `writeMetric` (mmvdump/writer.go:74-128). -/
def showMetric (D : Result) (off : Nat) : WOut :=
  match mget D.metrics off with
  | none => .panic
  | some m =>
    match printName D m.name, printText D m.shorttext, printText D m.longtext with
    | some n, some a, some b => .ok [.metric m.item off n m.typ m.sem m.padding m.unit m.indom, .short a, .long b]
    | _, _, _ => .panic

/-- `writeValue` (mmvdump/writer.go:130-173). -/
def showValue (D : Result) (off : Nat) : WOut :=
  match mget D.values off with
  | none => .panic
  | some v =>
    match mget D.metrics v.metric.toNat with
    | none => .panic
    | some m =>
      match printName D m.name with
      | none => .panic
      | some n =>
        let a : Option GoVal :=
          if m.typ ≠ 6 then fixedVal v.val m.typ else (payload D v.extra).map GoVal.str
        match a with
        | none => .err
        | some a =>
          if m.indom ≠ -1 ∧ m.indom ≠ 0 then
            match mget D.instances v.inst.toNat with
            | none => .panic
            | some i =>
              match printName D i.external with
              | none => .panic
              | some iname => .ok [.value m.item off n (some (i.internal, iname)) a]
          else .ok [.value m.item off n none a]

/-- `writeString` (mmvdump/writer.go:175-178). -/
def showString (D : Result) (off : Nat) : WOut :=
  match mget D.strings off with
  | none => .panic
  | some s => .ok [.string off s.payload]

/-- The closure and item size chosen by the switch (mmvdump/writer.go:207-228); for an unknown type the ones
of the previous entry stay in place (`prev`), initially none (a nil function, which panics). -/
def chooseItem (D : Result) (t : BitVec 32) (prev : Option (Nat × Nat × (Nat → WOut))) :
    Option (Nat × Nat × (Nat → WOut)) :=
  if t = 2 then some (2, if D.header.version = 1 then 80 else 24, showInstance D)
  else if t = 1 then some (1, 32, showIndom D)
  else if t = 3 then some (3, if D.header.version = 1 then 104 else 48, showMetric D)
  else if t = 4 then some (4, 32, showValue D)
  else if t = 5 then some (5, 256, showString D)
  else prev

/-- The item loop (mmvdump/writer.go:234-238): `n` items from `off`, addition wraps at 2^64. -/
def writeItems (f : Nat → WOut) (size : Nat) : Nat → Nat → WOut
  | 0, _ => .ok []
  | n + 1, off => (f off).andThen fun _ => writeItems f size n ((off + size) % 2 ^ 64)

/-- The section loop (mmvdump/writer.go:206-245). -/
def writeSections (D : Result) : List Toc → Nat → Nat → Option (Nat × Nat × (Nat → WOut)) → WOut
  | [], _, _, _ => .ok []
  | t :: ts, ti, toff, prev =>
    let c := chooseItem D t.type prev
    WOut.andThen (.ok [.toc ti toff (c.map (·.1)) t.offset t.count]) fun _ =>
    WOut.andThen
      (if t.count.toInt ≤ 0 then .ok []
       else match c with
         | none => .panic
         | some (_, size, f) => writeItems f size t.count.toNat t.offset.toNat) fun _ =>
    WOut.andThen (.ok [.blank]) fun _ =>
    writeSections D ts (ti + 1) (toff + 16) c

/-- `Write` (mmvdump/writer.go:252-274). -/
def write (D : Result) : WOut :=
  WOut.andThen (.ok [.header D.header.version D.header.g1 D.header.toc D.header.cluster D.header.process
    D.header.flag]) fun _ =>
  writeSections D D.tocs 0 40 none

end Speed.Dump

namespace Speed
open Dump

/-! ### A dump that describes a registry can be printed -/

theorem mget_eq {α : Type} (m : List (Nat × α)) (k : Nat) : mget m k = look m k := rfl

theorem payload_of {D : Result} {off : BitVec 64} {s : Str} (h : strAt D off = some s) :
    ∃ p, payload D off = some p ∧ trimNul p = s := by
  unfold strAt at h
  unfold payload
  rw [mget_eq]
  cases hl : look D.strings off.toNat with
  | none => rw [hl] at h; cases h
  | some x => rw [hl] at h; exact ⟨x.payload, rfl, Option.some.inj h⟩

/-- Names of the version announced in the header. -/
def Dump.Name.fits (D : Result) : Name → Prop
  | .inl _ => D.header.version = 1
  | .ref _ => D.header.version ≠ 1

theorem printName_of {D : Result} {n : Name} {s : Str} (hf : n.fits D) (h : nameOf D n = some s) :
    ∃ p, printName D n = some p ∧ trimNul p = s := by
  cases n with
  | inl bs =>
    simp only [nameOf, Option.some.injEq] at h
    simp only [Dump.Name.fits] at hf
    exact ⟨bs, by simp [printName, hf], h⟩
  | ref off =>
    obtain ⟨p, h1, h2⟩ := payload_of h
    simp only [Dump.Name.fits] at hf
    exact ⟨p, by rw [printName, if_neg hf, h1], h2⟩

theorem printText_of {D : Result} {off : BitVec 64} {s : Str} (h : textOf D off = some s) :
    ∃ p, printText D off = some p ∧ trimNul (p.getD []) = s := by
  unfold textOf at h
  unfold printText
  split at h
  · rename_i h0
    rw [if_pos h0]
    exact ⟨none, rfl, Option.some.inj h⟩
  · rename_i h0
    rw [if_neg h0]
    obtain ⟨p, h1, h2⟩ := payload_of h
    exact ⟨some p, by rw [h1]; rfl, h2⟩

theorem look_of_key {α : Type} {m : List (Nat × α)} {k : Nat} (h : k ∈ m.map Prod.fst) :
    ∃ x, look m k = some x ∧ (k, x) ∈ m := by
  unfold look
  cases hf : m.find? (fun p => p.1 = k) with
  | none =>
    rw [List.find?_eq_none] at hf
    obtain ⟨p, hp, rfl⟩ := List.mem_map.1 h
    exact absurd (by simp) (hf p hp)
  | some p =>
    have h1 := List.find?_some hf
    simp only [decide_eq_true_eq] at h1
    exact ⟨p.2, rfl, by rw [← h1]; exact List.mem_of_find?_eq_some hf⟩

section
variable {r : Reg} {D : Result} {A : Addrs} (hD : DescribesAt r D A)
  (hfi : ∀ p ∈ D.instances, p.2.external.fits D) (hfm : ∀ p ∈ D.metrics, p.2.name.fits D)

theorem mem_of_look {α : Type} {m : List (Nat × α)} {k : Nat} {x : α} (h : look m k = some x) : (k, x) ∈ m := by
  unfold look at h
  cases hf : m.find? (fun p => p.1 = k) with
  | none => rw [hf] at h; cases h
  | some p =>
    rw [hf] at h
    have h1 := List.find?_some hf
    simp only [decide_eq_true_eq] at h1
    simp only [Option.map_some, Option.some.injEq] at h
    rw [← h1, ← h]; exact List.mem_of_find?_eq_some hf

include hD hfi in
/-- The line printed for an instance. -/
theorem showInstance_of {d : Indom} (hd : d ∈ r.indoms) {i : Inst} (hi : i ∈ d.insts) :
    ∃ n, showInstance D (A.inst d.uid i.name) = .ok [.inst d.id (A.inst d.uid i.name) i.id n] ∧
      trimNul n = trimNul i.name := by
  obtain ⟨x, h1, h2, h3, h4, h5⟩ := hD.insts d hd i hi
  obtain ⟨n, h6, h7⟩ := printName_of (hfi _ (mem_of_look h1)) h5
  obtain ⟨y, h8, h9, _⟩ := hD.indoms d hd
  refine ⟨n, ?_, h7⟩
  unfold showInstance
  rw [mget_eq, h1]
  dsimp only
  rw [h6, mget_eq, h2, h8]
  dsimp only
  rw [h3, h9]

include hD in
theorem showIndom_of {d : Indom} (hd : d ∈ r.indoms) :
    ∃ off a b, showIndom D (A.indom d.uid) =
      .ok [.indom d.id (A.indom d.uid) (BitVec.ofNat 32 d.insts.length) off, .short a, .long b] ∧
      trimNul (a.getD []) = trimNul d.short ∧ trimNul (b.getD []) = trimNul d.long := by
  obtain ⟨x, h1, h2, h3, _, h4, h5⟩ := hD.indoms d hd
  obtain ⟨a, h6, h7⟩ := printText_of h4
  obtain ⟨b, h8, h9⟩ := printText_of h5
  refine ⟨x.offset, a, b, ?_, h7, h9⟩
  unfold showIndom
  rw [mget_eq, h1]
  dsimp only
  rw [h6, h8]
  dsimp only
  rw [h2, ← h3]
  simp

include hD hfm in
theorem showMetric_of {m : Metric} (hm : m ∈ r.metrics) :
    ∃ n a b, showMetric D (A.metric m.uid) =
      .ok [.metric m.desc.id (A.metric m.uid) n m.desc.t m.desc.sem 0 m.desc.unit
        (match m.indom with | some d => d.id | none => -1), .short a, .long b] ∧
      trimNul n = trimNul m.desc.name ∧ trimNul (a.getD []) = trimNul m.desc.short ∧
      trimNul (b.getD []) = trimNul m.desc.long := by
  obtain ⟨x, h1, h2, h3, h4, h5, h6, h7, h8, h9, h10⟩ := hD.metrics m hm
  obtain ⟨n, g1, g2⟩ := printName_of (hfm _ (mem_of_look h1)) h2
  obtain ⟨a, g3, g4⟩ := printText_of h9
  obtain ⟨b, g5, g6⟩ := printText_of h10
  refine ⟨n, a, b, ?_, g2, g4, g6⟩
  unfold showMetric
  rw [mget_eq, h1]
  dsimp only
  rw [g1, g3, g5]
  dsimp only
  rw [h3, h4, h5, h6, h7, h8]
  cases m.indom <;> rfl

/-- The printed form of a value: strings come with their padding. -/
def ShowsVal (v a : GoVal) : Prop :=
  match v with
  | .str s => ∃ p, a = .str p ∧ trimNul p = trimNul s
  | v => a = v

include hD hfi hfm in
theorem showValue_of (hty : r.Typed) (hreg : ∀ m ∈ r.metrics, ∀ d, m.indom = some d → d ∈ r.indoms)
    (hwf : ∀ d ∈ r.indoms, d.id ≠ -1) {m : Metric} (hm : m ∈ r.metrics) {s : Option Str} (hs : s ∈ m.slotNames) :
    ∃ n inst a v, m.cur s = some v ∧
      showValue D (A.value m.uid s) = .ok [.value m.desc.id (A.value m.uid s) n inst a] ∧
      trimNul n = trimNul m.desc.name ∧ ShowsVal v a ∧
      (match inst with
       | none => s = none ∨ ∃ d, m.indom = some d ∧ d.id = 0
       | some (id, nm) => ∃ d i, m.indom = some d ∧ i ∈ d.insts ∧ s = some i.name ∧ id = i.id ∧
           trimNul nm = trimNul i.name) := by
  obtain ⟨v, x, hv, h1, h2, h3, h4⟩ := hD.values m hm s hs
  obtain ⟨y, k1, k2, k3, k4, k5, k6, k7, k8, k9, k10⟩ := hD.metrics m hm
  obtain ⟨n, g1, g2⟩ := printName_of (hfm _ (mem_of_look k1)) k2
  have hval : ∃ a, (if y.typ ≠ 6 then fixedVal x.val y.typ else (payload D x.extra).map GoVal.str) = some a ∧
      ShowsVal v a := by
    rw [k4]
    rcases hty m hm s v hv with ⟨ht, w, rfl⟩ | ⟨ht, w, rfl⟩ | ⟨ht, w, rfl⟩ | ⟨ht, w, rfl⟩ | ⟨ht, w, rfl⟩ |
      ⟨ht, w, rfl⟩ | ⟨ht, w, rfl⟩
    case inr.inr.inr.inr.inr.inr =>
      obtain ⟨p, q1, q2⟩ := payload_of h4.2
      refine ⟨.str p, ?_, p, rfl, q2⟩
      rw [if_neg (by rw [ht]; decide), q1]; rfl
    all_goals
      refine ⟨_, ?_, rfl⟩
      rw [if_pos (by rw [ht]; decide)]
      exact h4.1
  obtain ⟨a, ha, hsv⟩ := hval
  unfold showValue
  rw [mget_eq, h1]
  dsimp only
  rw [mget_eq, h2, k1]
  dsimp only
  rw [g1]
  dsimp only
  rw [ha]
  dsimp only
  rw [k3, k7]
  cases hb : m.indom with
  | none =>
    dsimp only
    rw [if_neg (by decide)]
    refine ⟨n, none, a, v, hv, rfl, g2, hsv, ?_⟩
    left
    unfold Metric.slotNames at hs
    unfold Metric.indom at hb
    split at hb
    · rename_i w hw; rw [hw] at hs; simpa using hs
    · cases hb
  | some d =>
    dsimp only
    by_cases h0 : d.id = 0
    · rw [if_neg (by simp [h0])]
      exact ⟨n, none, a, v, hv, rfl, g2, hsv, .inr ⟨d, rfl, h0⟩⟩
    · have hdr := hreg m hm d hb
      rw [if_pos ⟨hwf d hdr, h0⟩]
      have hsn : ∃ i ∈ d.insts, s = some i.name := by
        unfold Metric.slotNames at hs
        unfold Metric.indom at hb
        split at hb
        · cases hb
        · rename_i d' vs hw
          obtain rfl := Option.some.inj hb
          rw [hw] at hs
          obtain ⟨i, hi, rfl⟩ := List.mem_map.1 hs
          exact ⟨i, hi, rfl⟩
      obtain ⟨i, hi, rfl⟩ := hsn
      rw [hb] at h3
      have h3 : x.inst.toNat = A.inst d.uid i.name := h3
      obtain ⟨z, j1, j2, j3, j4, j5⟩ := hD.insts d hdr i hi
      obtain ⟨iname, j6, j7⟩ := printName_of (hfi _ (mem_of_look j1)) j5
      rw [mget_eq, h3, j1]
      dsimp only
      rw [j6]
      exact ⟨n, _, a, v, hv, rfl, g2, hsv, d, i, rfl, hi, rfl, j3, j7⟩

end

/-! ### The whole output -/

theorem writeItems_ok {f : Nat → WOut} {size n off : Nat} (hb : off + n * size < 2 ^ 64)
    (h : ∀ i, i < n → ∃ ls, f (off + i * size) = .ok ls) :
    ∃ ls, writeItems f size n off = .ok ls ∧
      ∀ i, i < n → ∀ l, f (off + i * size) = .ok l → l <:+: ls := by
  induction n generalizing off with
  | zero => exact ⟨[], rfl, by intro i hi; omega⟩
  | succ n ih =>
    obtain ⟨a, ha⟩ := h 0 (by omega)
    rw [Nat.zero_mul, Nat.add_zero] at ha
    rw [Nat.add_mul, Nat.one_mul] at hb
    have hm : (off + size) % 2 ^ 64 = off + size := Nat.mod_eq_of_lt (by omega)
    obtain ⟨b, hb', hbm⟩ := ih (off := off + size) (by omega) (fun i hi => by
      obtain ⟨ls, hls⟩ := h (i + 1) (by omega)
      refine ⟨ls, ?_⟩
      rw [← hls, Nat.add_mul, Nat.one_mul]; congr 1; omega)
    refine ⟨a ++ b, ?_, ?_⟩
    · rw [writeItems, ha, hm]
      simp only [WOut.andThen, hb']
    · intro i hi l hl
      cases i with
      | zero =>
        rw [Nat.zero_mul, Nat.add_zero, ha] at hl
        injection hl with hl; subst hl
        exact (List.prefix_append _ _).isInfix
      | succ i =>
        refine List.IsInfix.trans ?_ (List.suffix_append _ _).isInfix
        apply hbm i (by omega) l
        rw [← hl, Nat.add_mul, Nat.one_mul]; congr 1; omega

theorem mem_secItems {α : Type} {l : List (Nat × α)} {f : Nat → α} {off L n i : Nat}
    (h : l.Perm (secItems f off L n)) (hi : i < n) : off + i * L ∈ l.map Prod.fst := by
  rw [(h.map Prod.fst).mem_iff, secItems_keys]
  exact List.mem_map.2 ⟨i, List.mem_range.2 hi, rfl⟩

theorem secItems_val {α : Type} {l : List (Nat × α)} {f : Nat → α} {off L n : Nat}
    (h : l.Perm (secItems f off L n)) {p} (hp : p ∈ l) : p.2 = f p.1 := by
  rw [h.mem_iff] at hp
  unfold secItems at hp
  obtain ⟨i, _, rfl⟩ := List.mem_map.1 hp
  rfl


/-- What the section loop prints for one entry. -/
def SecPrints (D : Result) (t : Toc) (k size : Nat) (f : Nat → WOut) : Prop :=
  (∀ prev, chooseItem D t.type prev = some (k, size, f)) ∧
  ∃ ls, writeItems f size t.count.toNat t.offset.toNat = .ok ls

theorem writeSections_ok {D : Result} (ts : List Toc) (ti toff : Nat) (prev)
    (h : ∀ t ∈ ts, 0 ≤ t.count.toInt ∧ ∃ k size f, SecPrints D t k size f) :
    ∃ ls, writeSections D ts ti toff prev = .ok ls ∧
      ∀ t ∈ ts, (∃ i off, Line.toc i off (some t.type.toNat) t.offset t.count ∈ ls) ∧
        ∀ k size f l, SecPrints D t k size f → writeItems f size t.count.toNat t.offset.toNat = .ok l →
          l <:+: ls := by
  induction ts generalizing ti toff prev with
  | nil => exact ⟨[], rfl, by simp⟩
  | cons t ts ih =>
    obtain ⟨h0, k, size, f, h1, l, hl⟩ := h t (by simp)
    obtain ⟨ls, hls, hmem⟩ := ih (ti + 1) (toff + 16) (some (k, size, f)) (fun t ht => h t (by simp [ht]))
    have hitems : (if t.count.toInt ≤ 0 then WOut.ok [] else writeItems f size t.count.toNat t.offset.toNat) =
        WOut.ok l := by
      split
      · rename_i hle
        have hz : t.count = 0 := BitVec.eq_of_toInt_eq (by simpa using Int.le_antisymm hle h0)
        rw [hz] at hl
        simpa [writeItems] using hl
      · exact hl
    refine ⟨[.toc ti toff (some k) t.offset t.count] ++ (l ++ ([.blank] ++ ls)), ?_, ?_⟩
    · rw [writeSections]
      simp only [h1, hitems, Option.map_some, WOut.andThen, hls]
    · have hk : k = t.type.toNat := by
        have := h1 none
        unfold chooseItem at this
        split at this
        · rename_i h; rw [h]; simp at this; simp; omega
        · split at this
          · rename_i h; rw [h]; simp at this; simp; omega
          · split at this
            · rename_i h; rw [h]; simp at this; simp; omega
            · split at this
              · rename_i h; rw [h]; simp at this; simp; omega
              · split at this
                · rename_i h; rw [h]; simp at this; simp; omega
                · cases this
      intro t' ht'
      rcases List.mem_cons.1 ht' with rfl | ht'
      · refine ⟨⟨ti, toff, by simp [hk]⟩, ?_⟩
        intro k' size' f' l' hp hl'
        have := hp.1 none
        rw [h1 none] at this
        simp only [Option.some.injEq, Prod.mk.injEq] at this
        obtain ⟨rfl, rfl, rfl⟩ := this
        rw [hl] at hl'
        injection hl' with hl'
        subst hl'
        exact ⟨[.toc ti toff (some k) t'.offset t'.count], [.blank] ++ ls, by simp⟩
      · obtain ⟨⟨i, off, hm⟩, hm2⟩ := hmem t' ht'
        refine ⟨⟨i, off, by simp [hm]⟩, ?_⟩
        intro k' size' f' l' hp hl'
        refine (hm2 k' size' f' l' hp hl').trans ⟨[.toc ti toff (some k) t.offset t.count] ++ l ++ [.blank], [], by simp⟩


theorem secPrints {D : Result} {k size cnt off : Nat} {f : Nat → WOut}
    (hc : ∀ prev, chooseItem D (BitVec.ofNat 32 k) prev = some (k, size, f))
    (hcnt : cnt < 2 ^ 31) (hb : off + cnt * size < 2 ^ 64) (hok : ∀ i, i < cnt → ∃ ls, f (off + i * size) = .ok ls) :
    0 ≤ (tocOf (k, cnt, off)).count.toInt ∧ SecPrints D (tocOf (k, cnt, off)) k size f ∧
    ∃ l, writeItems f size (tocOf (k, cnt, off)).count.toNat (tocOf (k, cnt, off)).offset.toNat = .ok l ∧
      ∀ i, i < cnt → ∀ li, f (off + i * size) = .ok li → li <:+: l := by
  have h1 : (tocOf (k, cnt, off)).count.toNat = cnt := by
    simp only [tocOf, BitVec.toNat_ofNat]; exact Nat.mod_eq_of_lt (by omega)
  have h2 : (tocOf (k, cnt, off)).offset.toNat = off := by
    simp only [tocOf, BitVec.toNat_ofNat]; exact Nat.mod_eq_of_lt (by omega)
  obtain ⟨l, hl, hm⟩ := writeItems_ok hb hok
  refine ⟨?_, ⟨hc, l, ?_⟩, l, ?_, hm⟩
  · rw [BitVec.toInt_eq_toNat_of_lt (by omega)]; omega
  · rw [h1, h2]; exact hl
  · rw [h1, h2]; exact hl

/-- Every registered object is printed with its identifiers, names, texts, types and values. -/
structure PrintsAll (r : Reg) (A : Addrs) (ls : List Line) : Prop where
  indoms : ∀ d ∈ r.indoms, ∃ off a b,
    [Line.indom d.id (A.indom d.uid) (BitVec.ofNat 32 d.insts.length) off, .short a, .long b] <:+: ls ∧
    trimNul (a.getD []) = trimNul d.short ∧ trimNul (b.getD []) = trimNul d.long
  insts : ∀ d ∈ r.indoms, ∀ i ∈ d.insts, ∃ n, Line.inst d.id (A.inst d.uid i.name) i.id n ∈ ls ∧
    trimNul n = trimNul i.name
  metrics : ∀ m ∈ r.metrics, ∃ n a b,
    [Line.metric m.desc.id (A.metric m.uid) n m.desc.t m.desc.sem 0 m.desc.unit
        (match m.indom with | some d => d.id | none => -1), .short a, .long b] <:+: ls ∧
      trimNul n = trimNul m.desc.name ∧ trimNul (a.getD []) = trimNul m.desc.short ∧
      trimNul (b.getD []) = trimNul m.desc.long
  values : ∀ m ∈ r.metrics, ∀ s ∈ m.slotNames, ∃ n inst a v, m.cur s = some v ∧
    Line.value m.desc.id (A.value m.uid s) n inst a ∈ ls ∧ trimNul n = trimNul m.desc.name ∧ ShowsVal v a ∧
    (match inst with
     | none => s = none ∨ ∃ d, m.indom = some d ∧ d.id = 0
     | some (id, nm) => ∃ d i, m.indom = some d ∧ i ∈ d.insts ∧ s = some i.name ∧ id = i.id ∧
         trimNul nm = trimNul i.name)
  strings : ∀ s ∈ r.strings, ∃ off p, Line.string off p ∈ ls ∧ trimNul p = trimNul s

section
variable {r : Reg} {e : Env} {F : Buf} {D : Result} {A : Addrs}

theorem fits_inst (hD : RawDump r e F D) : ∀ p ∈ D.instances, p.2.external.fits D := by
  intro p hp
  rw [secItems_val hD.insts hp]
  unfold decInst
  cases hv : r.version2
  · simp [Dump.Name.fits, hD.header, hdrOf, verOf, hv]
  · simp [Dump.Name.fits, hD.header, hdrOf, verOf, hv]

theorem fits_metric (hD : RawDump r e F D) : ∀ p ∈ D.metrics, p.2.name.fits D := by
  intro p hp
  rw [secItems_val hD.metrics hp]
  unfold decMetric
  cases hv : r.version2
  · simp [Dump.Name.fits, metricBase, hD.header, hdrOf, verOf, hv]
  · simp [Dump.Name.fits, metricBase, hD.header, hdrOf, verOf, hv]

theorem idx_of_key {α : Type} {l : List (Nat × α)} {f : Nat → α} {off L n k : Nat}
    (h : l.Perm (secItems f off L n)) (hk : k ∈ l.map Prod.fst) : ∃ i, i < n ∧ k = off + i * L := by
  rw [(h.map Prod.fst).mem_iff, secItems_keys] at hk
  obtain ⟨i, hi, rfl⟩ := List.mem_map.1 hk
  exact ⟨i, List.mem_range.1 hi, rfl⟩

theorem write_ok (hr : r.OK) (hsm : r.Small) (hty : r.Typed) (hids : ∀ d ∈ r.indoms, d.id ≠ -1)
    (hD : RawDump r e F D) (hA : DescribesAt r D A) :
    ∃ ls, write D = .ok ls ∧ PrintsAll r A ls := by
  have hfi := fits_inst hD
  have hfm := fits_metric hD
  have hlen := hsm.length
  obtain ⟨oc1, oc2, oc3, oc4, oc5, oc6⟩ := off_chain r
  have e1 : r.instanceoffset = r.indomoffset + 32 * r.InstanceDomainCount := rfl
  have e2 : r.metricsoffset = r.instanceoffset + r.InstanceLength * r.InstanceCount := rfl
  have e3 : r.valuesoffset = r.metricsoffset + r.MetricLength * r.MetricCount := rfl
  have e4 : r.stringsoffset = r.valuesoffset + 32 * r.ValuesCount := rfl
  have e5 : r.Length = r.stringsoffset + 256 * r.StringCount := by
    have := (lim_eq hr e ⟨[], fun _ => [], [], fun _ => []⟩).2.2.2.2
    simp only [Params.lim, params, (regToks_length hr).2.2.2.2, regBase, regSlot] at this
    rw [← this, Nat.mul_comm]
  have hver : D.header.version = verOf r := by rw [hD.header]; rfl
  have hil : (if D.header.version = 1 then 80 else 24) = r.InstanceLength := by
    rw [hver]; unfold verOf Reg.InstanceLength; cases r.version2 <;> rfl
  have hml : (if D.header.version = 1 then 104 else 48) = r.MetricLength := by
    rw [hver]; unfold verOf Reg.MetricLength; cases r.version2 <;> rfl
  -- the five sections
  have s1 := secPrints (D := D) (k := 1) (size := 32) (cnt := r.InstanceDomainCount) (off := r.indomoffset)
    (f := showIndom D) (fun _ => rfl) hsm.indoms (by rw [Nat.mul_comm]; omega) (by
      intro i hi
      have := mem_secItems hD.indoms hi
      rw [hA.indomKeys.mem_iff] at this
      obtain ⟨d, hd, hk⟩ := List.mem_map.1 this
      obtain ⟨_, _, _, h, _⟩ := showIndom_of hA hd
      rw [← hk]; exact ⟨_, h⟩)
  have s2 := secPrints (D := D) (k := 2) (size := r.InstanceLength) (cnt := r.InstanceCount)
    (off := r.instanceoffset) (f := showInstance D) (fun _ => by rw [← hil]; rfl) hsm.insts
    (by rw [Nat.mul_comm]; omega) (by
      intro i hi
      have := mem_secItems hD.insts hi
      rw [hA.instKeys.mem_iff] at this
      obtain ⟨d, hd, hk⟩ := List.mem_flatMap.1 this
      obtain ⟨j, hj, hk⟩ := List.mem_map.1 hk
      obtain ⟨_, h, _⟩ := showInstance_of hA hfi hd hj
      rw [← hk]; exact ⟨_, h⟩)
  have s3 := secPrints (D := D) (k := 3) (size := r.MetricLength) (cnt := r.MetricCount)
    (off := if r.MetricCount = 0 then 0 else r.metricsoffset) (f := showMetric D) (fun _ => by rw [← hml]; rfl)
    hsm.metrics (by rw [Nat.mul_comm]; split <;> omega) (by
      intro i hi
      rw [if_neg (by omega)]
      have := mem_secItems hD.metrics hi
      rw [hA.metricKeys.mem_iff] at this
      obtain ⟨d, hd, hk⟩ := List.mem_map.1 this
      obtain ⟨_, _, _, h, _⟩ := showMetric_of hA hfm hd
      rw [← hk]; exact ⟨_, h⟩)
  have hmpos : 0 < r.ValuesCount → r.MetricCount ≠ 0 := by
    intro hp h0
    have hvc : r.ValuesCount = (r.metrics.map Metric.valueCount).sum := hr.valueCount
    have : r.metrics = [] := List.eq_nil_of_length_eq_zero h0
    rw [this] at hvc; simp at hvc; omega
  have s4 := secPrints (D := D) (k := 4) (size := 32) (cnt := r.ValuesCount)
    (off := if r.MetricCount = 0 then 0 else r.valuesoffset) (f := showValue D) (fun _ => rfl)
    hsm.values (by rw [Nat.mul_comm]; split <;> omega) (by
      intro i hi
      rw [if_neg (hmpos (by omega))]
      have := mem_secItems hD.values hi
      rw [hA.valueKeys.mem_iff] at this
      obtain ⟨d, hd, hk⟩ := List.mem_flatMap.1 this
      obtain ⟨j, hj, hk⟩ := List.mem_map.1 hk
      obtain ⟨_, _, _, _, _, h, _⟩ := showValue_of hA hfi hfm hty hr.registered hids hd hj
      rw [← hk]; exact ⟨_, h⟩)
  have s5 := secPrints (D := D) (k := 5) (size := 256) (cnt := r.StringCount)
    (off := r.stringsoffset) (f := showString D) (fun _ => rfl)
    hsm.strings (by rw [Nat.mul_comm]; omega) (by
      intro i hi
      obtain ⟨x, hx, _⟩ := look_of_key (mem_secItems hD.strings hi)
      exact ⟨_, by rw [showString, mget_eq, hx]⟩)
  obtain ⟨n1, p1, l1, w1, m1⟩ := s1
  obtain ⟨n2, p2, l2, w2, m2⟩ := s2
  obtain ⟨n3, p3, l3, w3, m3⟩ := s3
  obtain ⟨n4, p4, l4, w4, m4⟩ := s4
  obtain ⟨n5, p5, l5, w5, m5⟩ := s5
  obtain ⟨ls, hls, hmem⟩ := writeSections_ok (D := D) D.tocs 0 40 none (by
    rw [hD.tocs]
    intro t ht
    obtain ⟨x, hx, rfl⟩ := List.mem_map.1 ht
    unfold tocEntries at hx
    simp only [List.mem_append, List.mem_ite_nil_right, List.mem_singleton] at hx
    rcases hx with (((⟨_, rfl⟩ | ⟨_, rfl⟩) | rfl) | rfl) | ⟨_, rfl⟩
    · exact ⟨n1, _, _, _, p1⟩
    · exact ⟨n2, _, _, _, p2⟩
    · exact ⟨n3, _, _, _, p3⟩
    · exact ⟨n4, _, _, _, p4⟩
    · exact ⟨n5, _, _, _, p5⟩)
  have sub : ∀ {x}, x <:+: ls → x <:+: [Line.header D.header.version D.header.g1 D.header.toc D.header.cluster
      D.header.process D.header.flag] ++ ls := fun h => h.trans (List.suffix_append _ _).isInfix
  have mem : ∀ {x : Line} {l : List Line}, [x] <:+: l → x ∈ l := fun h => h.subset (by simp)
  refine ⟨_ ++ ls, by rw [write, hls]; rfl, ?_, ?_, ?_, ?_, ?_⟩
  · intro d hd
    obtain ⟨off, a, b, h1, h2, h3⟩ := showIndom_of hA hd
    have hk : A.indom d.uid ∈ D.indoms.map Prod.fst := by
      rw [hA.indomKeys.mem_iff]; exact List.mem_map.2 ⟨d, hd, rfl⟩
    obtain ⟨i, hi, hk⟩ := idx_of_key hD.indoms hk
    have hpos : r.InstanceDomainCount > 0 := by omega
    rw [hk] at h1
    refine ⟨off, a, b, sub ?_, h2, h3⟩
    have ht : tocOf (1, r.InstanceDomainCount, r.indomoffset) ∈ D.tocs := by
      rw [hD.tocs]; exact List.mem_map.2 ⟨_, by simp [tocEntries, hpos], rfl⟩
    rw [hk]
    exact (m1 i hi _ h1).trans ((hmem _ ht).2 _ _ _ _ p1 w1)
  · intro d hd i hi
    obtain ⟨n, h1, h2⟩ := showInstance_of hA hfi hd hi
    have hk : A.inst d.uid i.name ∈ D.instances.map Prod.fst := by
      rw [hA.instKeys.mem_iff]; exact List.mem_flatMap.2 ⟨d, hd, List.mem_map.2 ⟨i, hi, rfl⟩⟩
    obtain ⟨j, hj, hk⟩ := idx_of_key hD.insts hk
    have hpos : r.InstanceCount > 0 := by omega
    rw [hk] at h1
    refine ⟨n, mem (sub ?_), h2⟩
    have ht : tocOf (2, r.InstanceCount, r.instanceoffset) ∈ D.tocs := by
      rw [hD.tocs]; exact List.mem_map.2 ⟨_, by simp [tocEntries, hpos], rfl⟩
    rw [hk]
    exact (m2 j hj _ h1).trans ((hmem _ ht).2 _ _ _ _ p2 w2)
  · intro m hm
    obtain ⟨n, a, b, h1, h2, h3, h4⟩ := showMetric_of hA hfm hm
    have hk : A.metric m.uid ∈ D.metrics.map Prod.fst := by
      rw [hA.metricKeys.mem_iff]; exact List.mem_map.2 ⟨m, hm, rfl⟩
    obtain ⟨j, hj, hk⟩ := idx_of_key hD.metrics hk
    rw [hk] at h1
    refine ⟨n, a, b, sub ?_, h2, h3, h4⟩
    have ht : tocOf (3, r.MetricCount, if r.MetricCount = 0 then 0 else r.metricsoffset) ∈ D.tocs := by
      rw [hD.tocs]; exact List.mem_map.2 ⟨_, by simp [tocEntries], rfl⟩
    refine List.IsInfix.trans ?_ ((hmem _ ht).2 _ _ _ _ p3 w3)
    refine m3 j hj _ ?_
    rw [if_neg (by omega), hk]; exact h1
  · intro m hm s hs
    obtain ⟨n, inst, a, v, h0, h1, h2, h3, h4⟩ := showValue_of hA hfi hfm hty hr.registered hids hm hs
    have hk : A.value m.uid s ∈ D.values.map Prod.fst := by
      rw [hA.valueKeys.mem_iff]; exact List.mem_flatMap.2 ⟨m, hm, List.mem_map.2 ⟨s, hs, rfl⟩⟩
    obtain ⟨j, hj, hk⟩ := idx_of_key hD.values hk
    rw [hk] at h1
    refine ⟨n, inst, a, v, h0, mem (sub ?_), h2, h3, h4⟩
    have ht : tocOf (4, r.ValuesCount, if r.MetricCount = 0 then 0 else r.valuesoffset) ∈ D.tocs := by
      rw [hD.tocs]; exact List.mem_map.2 ⟨_, by simp [tocEntries], rfl⟩
    rw [hk]
    exact (m4 j hj _ (by rw [if_neg (hmpos (by omega))]; exact h1)).trans ((hmem _ ht).2 _ _ _ _ p4 w4)
  · intro s hs
    have : trimNul s ∈ D.strings.map (fun p => trimNul p.2.payload) := by
      rw [hA.strings.mem_iff]; exact List.mem_map.2 ⟨s, hs, rfl⟩
    obtain ⟨⟨k, x⟩, hp, hx⟩ := List.mem_map.1 this
    have hkm : k ∈ D.strings.map Prod.fst := List.mem_map.2 ⟨_, hp, rfl⟩
    obtain ⟨y, hy, hym⟩ := look_of_key hkm
    have hxy : y = x := by
      have h1 := secItems_val hD.strings hym
      have h2 := secItems_val hD.strings hp
      dsimp only at h1 h2
      rw [h1, h2]
    obtain ⟨j, hj, hk⟩ := idx_of_key hD.strings hkm
    have hpos : r.StringCount > 0 := by omega
    have ht : tocOf (5, r.StringCount, r.stringsoffset) ∈ D.tocs := by
      rw [hD.tocs]; exact List.mem_map.2 ⟨_, by simp [tocEntries, hpos], rfl⟩
    refine ⟨k, x.payload, mem (sub ?_), hx⟩
    exact (m5 j hj [.string k x.payload] (by rw [← hk, showString, mget_eq, hy, hxy])).trans
      ((hmem _ ht).2 _ _ _ _ p5 w5)

end

end Speed
