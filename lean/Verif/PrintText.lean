import Verif.Print
import Mathlib.Data.Nat.Digits.Defs
/-
Lemmas about the text output of `mmvdump`: numbers, the list of calls of the output writer, and the
agreement of the text with the printed lines of `DumpWrite.lean`.
-/
namespace Speed.Dump

/-! ### Numbers -/

/-- The numeral of `n` in base `b`: its digits, most significant first. -/
def numeral (b n : Nat) : List Byte := if n = 0 then [digit 0] else (Nat.digits b n).reverse.map digit

theorem fmtLoop_eq {b : Nat} (hb : 1 < b) : ∀ (f u : Nat) (acc : List Byte), u < b ^ (f + 1) →
    fmtLoop b (f + 1) u acc = numeral b u ++ acc := by
  intro f
  induction f with
  | zero =>
    intro u acc hu
    rw [Nat.zero_add, Nat.pow_one] at hu
    rw [fmtLoop, if_pos hu]
    unfold numeral
    split
    · rename_i h; rw [h]; rfl
    · rename_i h; rw [Nat.digits_of_lt b u h hu]; rfl
  | succ f ih =>
    intro u acc hu
    rw [fmtLoop]
    split
    · rename_i hlt
      unfold numeral
      split
      · rename_i h; rw [h]; rfl
      · rename_i h; rw [Nat.digits_of_lt b u h hlt]; rfl
    · rename_i hge
      have hdiv : u / b < b ^ (f + 1) := by
        rw [Nat.div_lt_iff_lt_mul (by omega)]; rw [Nat.pow_succ] at hu; exact hu
      rw [ih _ _ hdiv]
      have h0 : u / b ≠ 0 := by
        have := Nat.div_pos (Nat.le_of_not_lt hge) (by omega); omega
      unfold numeral
      rw [if_neg h0, if_neg (by omega), Nat.digits_def' hb (by omega : 0 < u)]
      simp

theorem fmtUint_eq {b u : Nat} (hb : 1 < b) (h : u < 2 ^ 64) : fmtUint b u = numeral b u := by
  have h2 : u < b ^ 68 := by
    have : 2 ^ 64 ≤ b ^ 68 := Nat.le_trans (Nat.pow_le_pow_right (by omega) (by omega : 64 ≤ 68)) (Nat.pow_le_pow_left hb 68)
    omega
  have := fmtLoop_eq hb 67 u [] h2
  rw [List.append_nil] at this
  exact this

/-! ### Calls of the output writer -/

/-- The function that makes the calls `cs` of the output writer, stops at the first error, and ends with `e`. -/
def play : List (List Byte) → PEnd → Pr
  | [], e => fun k => (k, e)
  | c :: cs, e => fprintf c ;; play cs e

theorem fprintf_play (s : List Byte) : fprintf s = play [s] .ok := by
  funext k
  show _ = (fprintf s ;; play [] .ok) k
  unfold Pr.seq
  cases h : fprintf s k with
  | mk k' e => cases e <;> rfl

theorem seq_assoc (p q r : Pr) : (p ;; q) ;; r = p ;; (q ;; r) := by
  funext k
  unfold Pr.seq
  cases h : p k with
  | mk k' e => cases e <;> rfl

theorem done_seq (q : Pr) : (play [] .ok) ;; q = q := by funext k; rfl

theorem play_append (cs ds : List (List Byte)) (e : PEnd) : play cs .ok ;; play ds e = play (cs ++ ds) e := by
  induction cs with
  | nil => rw [done_seq]; rfl
  | cons c cs ih =>
    show (fprintf c ;; play cs .ok) ;; play ds e = fprintf c ;; play (cs ++ ds) e
    rw [seq_assoc, ih]

theorem play_stop (cs : List (List Byte)) {e : PEnd} (h : e ≠ .ok) (q : Pr) : play cs e ;; q = play cs e := by
  induction cs with
  | nil =>
    funext k
    unfold Pr.seq play
    cases e <;> first | rfl | exact absurd rfl h
  | cons c cs ih =>
    show (fprintf c ;; play cs e) ;; q = fprintf c ;; play cs e
    rw [seq_assoc, ih]

/-- All calls succeed. -/
theorem play_all (cs : List (List Byte)) (e : PEnd) (out : List Byte) :
    play cs e ⟨out, []⟩ = (⟨out ++ cs.flatten, []⟩, e) := by
  induction cs generalizing out with
  | nil => simp [play]
  | cons c cs ih =>
    show (fprintf c ;; play cs e) ⟨out, []⟩ = _
    unfold Pr.seq fprintf
    dsimp only
    rw [ih]
    simp

/-- With any writer: all calls succeed, or some call fails; then the calls before it were made completely and the
error of the writer is returned. -/
theorem play_spec (cs : List (List Byte)) (e : PEnd) (k : Sink) :
    ((∀ i, i < cs.length → k.script[i]?.join = none) ∧
      play cs e k = (⟨k.out ++ cs.flatten, k.script.drop cs.length⟩, e)) ∨
    ∃ i n c, cs[i]? = some c ∧ k.script[i]? = some (some n) ∧ (∀ j, j < i → k.script[j]?.join = none) ∧
      play cs e k = (⟨k.out ++ (cs.take i).flatten ++ c.take n, k.script.drop (i + 1)⟩, .werr) := by
  induction cs generalizing k with
  | nil => left; exact ⟨by simp, by simp [play]⟩
  | cons c cs ih =>
    obtain ⟨out, script⟩ := k
    cases script with
    | nil =>
      left
      refine ⟨by simp, ?_⟩
      have := play_all (c :: cs) e out
      rw [this]; simp
    | cons x l =>
      cases x with
      | some n =>
        right
        refine ⟨0, n, c, rfl, rfl, by intro j hj; omega, ?_⟩
        show (fprintf c ;; play cs e) _ = _
        unfold Pr.seq fprintf
        simp
      | none =>
        have hstep : play (c :: cs) e ⟨out, none :: l⟩ = play cs e ⟨out ++ c, l⟩ := by
          show (fprintf c ;; play cs e) _ = _
          unfold Pr.seq fprintf
          rfl
        rw [hstep]
        rcases ih ⟨out ++ c, l⟩ with ⟨h1, h2⟩ | ⟨i, n, d, h1, h2, h3, h4⟩
        · left
          refine ⟨?_, by rw [h2]; simp⟩
          intro i hi
          cases i with
          | zero => rfl
          | succ i => exact h1 i (by simp at hi; omega)
        · right
          refine ⟨i + 1, n, d, by simpa using h1, by simpa using h2, ?_, by rw [h4]; simp⟩
          intro j hj
          cases j with
          | zero => rfl
          | succ j => exact h3 j (by omega)

/-! ### Every function is a list of calls -/

/-- The function makes a fixed list of calls. -/
def IsCalls (p : Pr) : Prop := ∃ cs e, e ≠ .werr ∧ p = play cs e

theorem isCalls_fprintf (s : List Byte) : IsCalls (fprintf s) := ⟨[s], .ok, by simp, fprintf_play s⟩
theorem isCalls_panic : IsCalls pPanic := ⟨[], .panic, by simp, rfl⟩
theorem isCalls_done : IsCalls pDone := ⟨[], .ok, by simp, rfl⟩
theorem isCalls_err : IsCalls pErr := ⟨[], .err, by simp, rfl⟩

theorem IsCalls.seq {p q : Pr} (hp : IsCalls p) (hq : IsCalls q) : IsCalls (p ;; q) := by
  obtain ⟨cs, e, he, rfl⟩ := hp
  obtain ⟨ds, e', he', rfl⟩ := hq
  by_cases h : e = .ok
  · subst h; exact ⟨cs ++ ds, e', he', play_append cs ds e'⟩
  · exact ⟨cs, e, he, play_stop cs h _⟩

theorem isCalls_instance (D : Result) (off : Nat) : IsCalls (pInstance D off) := by
  unfold pInstance
  repeat' split
  all_goals first | exact isCalls_fprintf _ | exact isCalls_panic

theorem isCalls_short (D : Result) (off : BitVec 64) : IsCalls (pShort D off) := by
  unfold pShort
  repeat' split
  all_goals first | exact isCalls_fprintf _ | exact isCalls_panic

theorem isCalls_long (D : Result) (off : BitVec 64) : IsCalls (pLong D off) := by
  unfold pLong
  repeat' split
  all_goals first | exact isCalls_fprintf _ | exact isCalls_panic

theorem isCalls_indom (D : Result) (off : Nat) : IsCalls (pIndom D off) := by
  unfold pIndom
  split
  · exact isCalls_panic
  · exact (isCalls_fprintf _).seq ((isCalls_short _ _).seq ((isCalls_long _ _).seq isCalls_done))

theorem isCalls_metric (D : Result) (off : Nat) : IsCalls (pMetric D off) := by
  unfold pMetric
  split
  · exact isCalls_panic
  split
  · exact isCalls_panic
  refine (isCalls_fprintf _).seq ((isCalls_fprintf _).seq ((isCalls_fprintf _).seq (IsCalls.seq ?_
    ((isCalls_short _ _).seq ((isCalls_long _ _).seq isCalls_done)))))
  split <;> exact isCalls_fprintf _

theorem isCalls_value (P : FloatFmt) (D : Result) (off : Nat) : IsCalls (pValue P D off) := by
  unfold pValue
  split
  · exact isCalls_panic
  split
  · exact isCalls_panic
  split
  · exact isCalls_panic
  refine (isCalls_fprintf _).seq ?_
  split
  · exact isCalls_err
  refine IsCalls.seq ?_ (isCalls_fprintf _)
  split
  · split
    · exact isCalls_panic
    split
    · exact isCalls_panic
    · exact isCalls_fprintf _
  · exact isCalls_done

theorem isCalls_string (D : Result) (off : Nat) : IsCalls (pString D off) := by
  unfold pString
  split
  · exact isCalls_panic
  · exact isCalls_fprintf _

theorem isCalls_choose (P : FloatFmt) (D : Result) (t : BitVec 32) {prev : List Byte × Nat × (Nat → Pr)}
    (h : ∀ o, IsCalls (prev.2.2 o)) (o : Nat) : IsCalls ((pChoose P D t prev).2.2 o) := by
  unfold pChoose
  split
  · exact isCalls_instance _ _
  split
  · exact isCalls_indom _ _
  split
  · exact isCalls_metric _ _
  split
  · exact isCalls_value _ _ _
  split
  · exact isCalls_string _ _
  · exact h o

theorem isCalls_items {f : Nat → Pr} (h : ∀ o, IsCalls (f o)) (size n off : Nat) : IsCalls (pItems f size n off) := by
  induction n generalizing off with
  | zero => exact isCalls_done
  | succ n ih => exact (h off).seq (ih _)

theorem isCalls_sections (P : FloatFmt) (D : Result) (ts : List Toc) (ti toff : Nat)
    {prev : List Byte × Nat × (Nat → Pr)} (h : ∀ o, IsCalls (prev.2.2 o)) : IsCalls (pSections P D ts ti toff prev) := by
  induction ts generalizing ti toff prev with
  | nil => exact isCalls_done
  | cons t ts ih =>
    have hc := isCalls_choose P D t.type h
    exact (isCalls_fprintf _).seq ((isCalls_items hc _ _ _).seq ((isCalls_fprintf _).seq (ih _ _ hc)))

theorem isCalls_write (P : FloatFmt) (D : Result) : IsCalls (pWrite P D) :=
  (isCalls_fprintf _).seq (isCalls_sections P D _ _ _ (fun _ => isCalls_panic))

/-! ### The text of a printed line -/

/-- The word for a kind of section. -/
def kindWord : Option Nat → List Byte
  | some 1 => b!"indoms"
  | some 2 => b!"instances"
  | some 3 => b!"metric"
  | some 4 => b!"values"
  | some 5 => b!"strings"
  | _ => []

/-- The text of a printed line. -/
def lineText (P : FloatFmt) : Line → List Byte
  | .header v g toc cluster process flag =>
    b!"Version   = " ++ decI v ++ b!"\nGenerated = " ++ decU g ++ b!"\nToc Count = " ++ decI toc ++ b!"\nCluster   = " ++
      decI cluster ++ b!"\nProcess   = " ++ decI process ++ b!"\nFlags     = 0x" ++ hexI flag ++ b!"\n\n"
  | .toc ti toff k off count =>
    b!"TOC[" ++ fmtUint 10 ti ++ b!"], offset: " ++ fmtUint 10 toff ++ b!", " ++ kindWord k ++ b!" offset: " ++
      decU off ++ b!" (" ++ decI count ++ b!" entries)\n"
  | .inst serial off internal name =>
    b!"\t[" ++ decU serial ++ b!"/" ++ fmtUint 10 off ++ b!"] instance = [" ++ decI internal ++ b!"/" ++ name ++ b!"]\n"
  | .indom serial off count offset =>
    b!"\t[" ++ decU serial ++ b!"/" ++ fmtUint 10 off ++ b!"] " ++ decU count ++ b!" instances, starting at offset " ++
      decU offset ++ b!"\n"
  | .short none => b!"\t\t(no shorttext)\n"
  | .short (some s) => b!"\t\tshorttext=" ++ s ++ b!"\n"
  | .long none => b!"\t\t(no longtext)\n"
  | .long (some s) => b!"\t\tlongtext=" ++ s ++ b!"\n"
  | .metric item off name typ sem pad unit indom =>
    b!"\t[" ++ decU item ++ b!"/" ++ fmtUint 10 off ++ b!"] " ++ name ++ b!"\n" ++
    (b!"\t\ttype=" ++ typeString typ ++ b!" (0x" ++ hexI typ ++ b!"), sem=" ++ semString sem ++ b!" (0x" ++ hexI sem ++
      b!"), pad=0x" ++ hexU pad ++ b!"\n") ++
    (b!"\t\tunits=" ++ unitString unit ++ b!"\n") ++
    (if indom = -1 then b!"\t\t(no indom)\n" else b!"\t\tindom=" ++ decI indom ++ b!"\n")
  | .value item off name inst v =>
    b!"\t[" ++ decU item ++ b!"/" ++ fmtUint 10 off ++ b!"] " ++ name ++
    (match inst with | none => [] | some (id, n) => b!"[" ++ decI id ++ b!" or \"" ++ n ++ b!"\"]") ++
    (b!" = " ++ fmtVal P v ++ b!"\n")
  | .string off s => b!"\t[" ++ fmtUint 10 off ++ b!"] " ++ s ++ b!"\n"
  | .blank => b!"\n"

/-- The text function does what the line function does. -/
def Agree (P : FloatFmt) (w : WOut) (p : Pr) : Prop :=
  match w with
  | .ok ls => ∃ cs, p = play cs .ok ∧ cs.flatten = ls.flatMap (lineText P)
  | .err => ∃ cs, p = play cs .err
  | .panic => ∃ cs, p = play cs .panic

section
variable {P : FloatFmt}

theorem Agree.seq {w : WOut} {f : Unit → WOut} {p q : Pr} (hw : Agree P w p) (hf : Agree P (f ()) q) :
    Agree P (w.andThen f) (p ;; q) := by
  cases w with
  | ok a =>
    obtain ⟨cs, rfl, hcs⟩ := hw
    unfold WOut.andThen
    dsimp only
    cases hb : f () with
    | ok b =>
      rw [hb] at hf
      obtain ⟨ds, rfl, hds⟩ := hf
      exact ⟨cs ++ ds, play_append _ _ _, by rw [List.flatten_append, hcs, hds, List.flatMap_append]⟩
    | err => rw [hb] at hf; obtain ⟨ds, rfl⟩ := hf; exact ⟨cs ++ ds, play_append _ _ _⟩
    | panic => rw [hb] at hf; obtain ⟨ds, rfl⟩ := hf; exact ⟨cs ++ ds, play_append _ _ _⟩
  | err => obtain ⟨cs, rfl⟩ := hw; exact ⟨cs, play_stop cs (by simp) _⟩
  | panic => obtain ⟨cs, rfl⟩ := hw; exact ⟨cs, play_stop cs (by simp) _⟩

theorem agree_one {l : Line} {s : List Byte} (h : s = lineText P l) : Agree P (.ok [l]) (fprintf s) :=
  ⟨[s], fprintf_play s, by simp [h]⟩

theorem agree_done : Agree P (.ok []) pDone := ⟨[], rfl, rfl⟩
theorem agree_panic : Agree P .panic pPanic := ⟨[], rfl⟩

theorem Agree.after_panic {s : List Byte} {p : Pr} (h : Agree P .panic p) : Agree P .panic (fprintf s ;; p) := by
  obtain ⟨cs, rfl⟩ := h
  exact ⟨_, by rw [fprintf_play, play_append]⟩

theorem Agree.after_err {s : List Byte} {p : Pr} (h : Agree P .err p) : Agree P .err (fprintf s ;; p) := by
  obtain ⟨cs, rfl⟩ := h
  exact ⟨_, by rw [fprintf_play, play_append]⟩

theorem Agree.panic_then {p q : Pr} (h : Agree P .panic p) : Agree P .panic (p ;; q) := by
  obtain ⟨cs, rfl⟩ := h
  exact ⟨cs, play_stop cs (by simp) q⟩

theorem agree_instance (D : Result) (off : Nat) : Agree P (showInstance D off) (pInstance D off) := by
  unfold showInstance pInstance
  cases mget D.instances off with
  | none => exact agree_panic
  | some i =>
    dsimp only
    cases printName D i.external with
    | none => exact agree_panic
    | some n =>
      cases mget D.indoms i.indom.toNat with
      | none => exact agree_panic
      | some d => exact agree_one rfl

theorem short_cases (D : Result) (off : BitVec 64) :
    (∃ a s, printText D off = some a ∧ pShort D off = play [s] .ok ∧ s = lineText P (.short a)) ∨
    (printText D off = none ∧ pShort D off = play [] .panic) := by
  unfold printText pShort
  split
  · exact .inl ⟨none, _, rfl, fprintf_play _, rfl⟩
  · cases payload D off with
    | none => exact .inr ⟨rfl, rfl⟩
    | some p => exact .inl ⟨some p, _, rfl, fprintf_play _, rfl⟩

theorem long_cases (D : Result) (off : BitVec 64) :
    (∃ a s, printText D off = some a ∧ pLong D off = play [s] .ok ∧ s = lineText P (.long a)) ∨
    (printText D off = none ∧ pLong D off = play [] .panic) := by
  unfold printText pLong
  split
  · exact .inl ⟨none, _, rfl, fprintf_play _, rfl⟩
  · cases payload D off with
    | none => exact .inr ⟨rfl, rfl⟩
    | some p => exact .inl ⟨some p, _, rfl, fprintf_play _, rfl⟩

theorem texts_cases (D : Result) (o1 o2 : BitVec 64) :
    (∃ a b s t, printText D o1 = some a ∧ printText D o2 = some b ∧
      pShort D o1 ;; pLong D o2 ;; pDone = play [s, t] .ok ∧ s = lineText P (.short a) ∧ t = lineText P (.long b)) ∨
    ((printText D o1 = none ∨ printText D o2 = none) ∧ ∃ cs, pShort D o1 ;; pLong D o2 ;; pDone = play cs .panic) := by
  have hd : pDone = play [] .ok := rfl
  rcases short_cases (P := P) D o1 with ⟨a, s, h1, h2, h3⟩ | ⟨h1, h2⟩
  · rcases long_cases (P := P) D o2 with ⟨b, t, g1, g2, g3⟩ | ⟨g1, g2⟩
    · left
      exact ⟨a, b, s, t, h1, g1, by rw [h2, g2, hd, play_append, play_append]; rfl, h3, g3⟩
    · right
      exact ⟨.inr g1, [s], by rw [h2, g2, play_stop [] (e := .panic) (by simp) pDone, play_append]; rfl⟩
  · right
    exact ⟨.inl h1, [], by rw [h2, play_stop [] (e := .panic) (by simp) _]⟩

theorem agree_indom (D : Result) (off : Nat) : Agree P (showIndom D off) (pIndom D off) := by
  unfold showIndom pIndom
  cases mget D.indoms off with
  | none => exact agree_panic
  | some d =>
    dsimp only
    rcases texts_cases (P := P) D d.shorttext d.longtext with ⟨a, b, s, t, h1, h2, h3, h4, h5⟩ | ⟨h1, cs, h2⟩
    · rw [h1, h2, h3]
      refine ⟨_, by rw [fprintf_play, play_append], ?_⟩
      rw [h4, h5]
      simp [lineText]
    · have hp : Agree P .panic (pShort D d.shorttext ;; pLong D d.longtext ;; pDone) := ⟨cs, h2⟩
      rcases h1 with h1 | h1
      · rw [h1]; exact hp.after_panic
      · rw [h1]; cases printText D d.shorttext <;> exact hp.after_panic

theorem agree_metric (D : Result) (off : Nat) : Agree P (showMetric D off) (pMetric D off) := by
  unfold showMetric pMetric
  cases mget D.metrics off with
  | none => exact agree_panic
  | some m =>
    dsimp only
    cases printName D m.name with
    | none => exact agree_panic
    | some n =>
      dsimp only
      have hif : (if m.indom = -1 then fprintf b!"\t\t(no indom)\n" else fprintf (b!"\t\tindom=" ++ decI m.indom ++ b!"\n"))
        = fprintf (if m.indom = -1 then b!"\t\t(no indom)\n" else b!"\t\tindom=" ++ decI m.indom ++ b!"\n") := by
        split <;> rfl
      rw [hif]
      rcases texts_cases (P := P) D m.shorttext m.longtext with ⟨a, b, s, t, h1, h2, h3, h4, h5⟩ | ⟨h1, cs, h2⟩
      · rw [h1, h2, h3]
        refine ⟨_, by rw [fprintf_play, fprintf_play, fprintf_play, fprintf_play, play_append, play_append, play_append,
          play_append], ?_⟩
        rw [h4, h5]
        simp [lineText]
      · have hp : Agree P .panic (pShort D m.shorttext ;; pLong D m.longtext ;; pDone) := ⟨cs, h2⟩
        rcases h1 with h1 | h1
        · rw [h1]; exact hp.after_panic.after_panic.after_panic.after_panic
        · rw [h1]; cases printText D m.shorttext <;> exact hp.after_panic.after_panic.after_panic.after_panic

theorem agree_value (D : Result) (off : Nat) : Agree P (showValue D off) (pValue P D off) := by
  unfold showValue pValue
  cases mget D.values off with
  | none => exact agree_panic
  | some v =>
    dsimp only
    cases mget D.metrics v.metric.toNat with
    | none => exact agree_panic
    | some m =>
      dsimp only
      cases printName D m.name with
      | none => exact agree_panic
      | some n =>
        dsimp only
        cases (if m.typ ≠ 6 then fixedVal v.val m.typ else (payload D v.extra).map GoVal.str) with
        | none => exact ⟨_, by rw [fprintf_play, show pErr = play [] .err from rfl, play_append]⟩
        | some a =>
          dsimp only
          split
          · cases mget D.instances v.inst.toNat with
            | none =>
              exact agree_panic.panic_then.after_panic
            | some i =>
              dsimp only
              cases printName D i.external with
              | none =>
                exact agree_panic.panic_then.after_panic
              | some iname =>
                dsimp only
                refine ⟨_, by rw [fprintf_play, fprintf_play, fprintf_play, play_append, play_append], ?_⟩
                simp [lineText]
          · refine ⟨_, by rw [fprintf_play, fprintf_play, show pDone = play [] .ok from rfl, play_append, play_append], ?_⟩
            simp [lineText]

theorem agree_string (D : Result) (off : Nat) : Agree P (showString D off) (pString D off) := by
  unfold showString pString
  cases mget D.strings off with
  | none => exact agree_panic
  | some s => exact agree_one rfl

/-- The choices of the switch agree. -/
structure AgreeC (P : FloatFmt) (c : Option (Nat × Nat × (Nat → WOut))) (d : List Byte × Nat × (Nat → Pr)) : Prop where
  word : d.1 = kindWord (c.map (·.1))
  some : ∀ k size f, c = some (k, size, f) → d.2.1 = size ∧ ∀ o, Agree P (f o) (d.2.2 o)
  none : c = none → d.2.2 = fun _ => pPanic

theorem agree_choose (D : Result) (t : BitVec 32) {prev prev'} (h : AgreeC P prev prev') :
    AgreeC P (chooseItem D t prev) (pChoose P D t prev') := by
  unfold chooseItem pChoose
  split
  · exact ⟨rfl, by rintro _ _ _ ⟨rfl, rfl, rfl⟩; exact ⟨rfl, agree_instance D⟩, by simp⟩
  split
  · exact ⟨rfl, by rintro _ _ _ ⟨rfl, rfl, rfl⟩; exact ⟨rfl, agree_indom D⟩, by simp⟩
  split
  · exact ⟨rfl, by rintro _ _ _ ⟨rfl, rfl, rfl⟩; exact ⟨rfl, agree_metric D⟩, by simp⟩
  split
  · exact ⟨rfl, by rintro _ _ _ ⟨rfl, rfl, rfl⟩; exact ⟨rfl, agree_value D⟩, by simp⟩
  split
  · exact ⟨rfl, by rintro _ _ _ ⟨rfl, rfl, rfl⟩; exact ⟨rfl, agree_string D⟩, by simp⟩
  · exact h

theorem agree_items {f : Nat → WOut} {g : Nat → Pr} (h : ∀ o, Agree P (f o) (g o)) (size n off : Nat) :
    Agree P (writeItems f size n off) (pItems g size n off) := by
  induction n generalizing off with
  | zero => exact agree_done
  | succ n ih => exact (h off).seq (ih _)

theorem agree_sections (D : Result) (ts : List Toc) (ti toff : Nat) {prev prev'} (h : AgreeC P prev prev') :
    Agree P (writeSections D ts ti toff prev) (pSections P D ts ti toff prev') := by
  induction ts generalizing ti toff prev prev' with
  | nil => exact agree_done
  | cons t ts ih =>
    have hc := agree_choose D t.type h
    unfold writeSections pSections
    dsimp only
    refine Agree.seq (agree_one (by rw [lineText, hc.word])) (Agree.seq ?_ (Agree.seq (agree_one rfl) (ih _ _ hc)))
    split
    · rename_i hle
      have : t.count.toInt.toNat = 0 := by omega
      rw [this]
      exact agree_done
    · rename_i hgt
      have hn : t.count.toInt.toNat = t.count.toNat := by
        rw [BitVec.toInt_eq_toNat_cond] at hgt ⊢
        split at hgt <;> split <;> omega
      rw [hn]
      cases hcc : chooseItem D t.type prev with
      | none =>
        dsimp only
        rw [hc.none hcc]
        obtain ⟨n, hn'⟩ : ∃ n, t.count.toNat = n + 1 := ⟨t.count.toNat - 1, by omega⟩
        rw [hn']
        exact ⟨[], by
          show pPanic ;; _ = _
          rw [show pPanic = play [] .panic from rfl, play_stop _ (by simp)]⟩
      | some c =>
        obtain ⟨k, size, f⟩ := c
        dsimp only
        obtain ⟨h1, h2⟩ := hc.some k size f hcc
        rw [h1]
        exact agree_items h2 _ _ _

/-- `Write` on text agrees with `Write` on lines. -/
theorem agree_write (D : Result) : Agree P (write D) (pWrite P D) :=
  Agree.seq (agree_one rfl) (agree_sections D _ _ _ ⟨rfl, by simp, fun _ => rfl⟩)

end

end Speed.Dump
