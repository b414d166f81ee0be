import Verif.Bytes
import Mathlib.Tactic.ByContra
/-
A backtracking matcher for the part of Go's `regexp` that the library uses: classes, concatenation, optional parts,
repetition (greedy and lazy) and groups. `regexp` promises the match that a backtracking matcher finds first.
-/
namespace Speed.Re

/-! ### Decoding a string into runes, as `for range` and `regexp` do (unicode/utf8, `DecodeRuneInString`) -/

/-- A rune and the bytes it was decoded from. -/
abbrev Tok := Nat × Str

/-- `lo <= c && c <= hi` -/
def between (lo hi : Nat) (c : Byte) : Bool := decide (lo ≤ c.toNat) && decide (c.toNat ≤ hi)

/-- The rune at the start of `b :: r` and the number of bytes of `r` it takes. An invalid encoding is U+FFFD, one
byte. -/
def decode1 (b : Byte) (r : Str) : Nat × Nat :=
  if b.toNat < 0x80 then (b.toNat, 0)
  else if between 0xC2 0xDF b then
    match r with
    | c1 :: _ => if between 0x80 0xBF c1 then (b.toNat % 32 * 64 + c1.toNat % 64, 1) else (0xFFFD, 0)
    | _ => (0xFFFD, 0)
  else if between 0xE0 0xEF b then
    match r with
    | c1 :: c2 :: _ =>
      if between (if b.toNat = 0xE0 then 0xA0 else 0x80) (if b.toNat = 0xED then 0x9F else 0xBF) c1 &&
        between 0x80 0xBF c2
      then (b.toNat % 16 * 4096 + c1.toNat % 64 * 64 + c2.toNat % 64, 2) else (0xFFFD, 0)
    | _ => (0xFFFD, 0)
  else if between 0xF0 0xF4 b then
    match r with
    | c1 :: c2 :: c3 :: _ =>
      if between (if b.toNat = 0xF0 then 0x90 else 0x80) (if b.toNat = 0xF4 then 0x8F else 0xBF) c1 &&
        between 0x80 0xBF c2 && between 0x80 0xBF c3
      then (b.toNat % 8 * 262144 + c1.toNat % 64 * 4096 + c2.toNat % 64 * 64 + c3.toNat % 64, 3) else (0xFFFD, 0)
    | _ => (0xFFFD, 0)
  else (0xFFFD, 0)

def decodeN : Nat → Str → List Tok
  | 0, _ => []
  | _, [] => []
  | n + 1, b :: r => ((decode1 b r).1, b :: r.take (decode1 b r).2) :: decodeN n (r.drop (decode1 b r).2)

/-- The runes of a string with their bytes. -/
def decode (s : Str) : List Tok := decodeN s.length s

/-- The bytes of a list of runes. -/
def text (ts : List Tok) : Str := ts.flatMap (·.2)

/-! ### Expressions and matching -/

inductive Rx where
  | eps
  | chr (p : Nat → Bool)
  | cat (a b : Rx)
  | opt (a : Rx)
  | star (greedy : Bool) (a : Rx)
  | cap (n : Nat) (a : Rx)

/-- Groups set so far, the latest first. -/
abbrev Caps := List (Nat × Str)

/-- Text of group `n`; unset groups are "". -/
def get (c : Caps) (n : Nat) : Str := ((c.find? (fun p => p.1 = n)).map (·.2)).getD []

/-- Repetition of `f`; every round consumes something. -/
def starRun (f : List Tok → Caps → List (List Tok × Caps)) (greedy : Bool) : Nat → List Tok → Caps → List (List Tok × Caps)
  | 0, inp, c => [(inp, c)]
  | k + 1, inp, c =>
    let more := (f inp c).flatMap fun p => if p.1.length < inp.length then starRun f greedy k p.1 p.2 else []
    if greedy then more ++ [(inp, c)] else (inp, c) :: more

/-- All ways to match a prefix of the input, best first: what is left and the groups. -/
def run : Rx → List Tok → Caps → List (List Tok × Caps)
  | .eps, inp, c => [(inp, c)]
  | .chr _, [], _ => []
  | .chr p, t :: ts, c => if p t.1 then [(ts, c)] else []
  | .cat a b, inp, c => (run a inp c).flatMap fun p => run b p.1 p.2
  | .opt a, inp, c => run a inp c ++ [(inp, c)]
  | .star g a, inp, c => starRun (run a) g inp.length inp c
  | .cap n a, inp, c => (run a inp c).map fun p => (p.1, (n, text (inp.take (inp.length - p.1.length))) :: p.2)

def plus (a : Rx) : Rx := .cat a (.star true a)

/-- `\A(?:a)\z`: the groups of the first match that uses all the input. -/
def matchAll (a : Rx) (s : Str) : Option Caps := ((run a (decode s) []).find? (fun p => p.1.isEmpty)).map (·.2)

/-- Leftmost match: what is matched, what is left, and the groups. -/
def find (a : Rx) : List Tok → Option (List Tok × List Tok × Caps)
  | [] => ((run a [] []).head?).map fun p => ([], p.1, p.2)
  | t :: ts =>
    match (run a (t :: ts) []).head? with
    | some p => some ((t :: ts).take ((t :: ts).length - p.1.length), p.1, p.2)
    | none => find a ts

/-- `FindAllString(s, -1)` for expressions that match no empty string. -/
def findAllN (a : Rx) : Nat → List Tok → List Str
  | 0, _ => []
  | n + 1, ts =>
    match find a ts with
    | none => []
    | some (m, rest, _) => text m :: findAllN a n rest

def findAll (a : Rx) (s : Str) : List Str := findAllN a (decode s).length (decode s)

/-! ### Decoding -/

theorem decodeN_fuel : ∀ (n : Nat) (s : Str), s.length ≤ n → decodeN n s = decode s := by
  have key : ∀ (n m : Nat) (s : Str), s.length ≤ n → s.length ≤ m → decodeN n s = decodeN m s := by
    intro n
    induction n with
    | zero =>
      intro m s h _
      have : s = [] := List.length_eq_zero_iff.1 (by omega)
      subst this
      cases m <;> rfl
    | succ n ih =>
      intro m s h hm
      cases s with
      | nil => cases m <;> rfl
      | cons b r =>
        cases m with
        | zero => simp at hm
        | succ m =>
          simp only [List.length_cons] at h hm
          simp only [decodeN]
          rw [ih m _ (by rw [List.length_drop]; omega) (by rw [List.length_drop]; omega)]
  intro n s h
  exact key n _ s h (Nat.le_refl _)

theorem decode_nil : decode [] = [] := rfl

theorem decode_cons (b : Byte) (r : Str) :
    decode (b :: r) = ((decode1 b r).1, b :: r.take (decode1 b r).2) :: decode (r.drop (decode1 b r).2) := by
  have h : decode (b :: r) = ((decode1 b r).1, b :: r.take (decode1 b r).2) ::
      decodeN r.length (r.drop (decode1 b r).2) := rfl
  rw [h, decodeN_fuel _ _ (by rw [List.length_drop]; omega)]

theorem decode_ascii {b : Byte} (h : b.toNat < 0x80) (r : Str) : decode (b :: r) = (b.toNat, [b]) :: decode r := by
  have h1 : decode1 b r = (b.toNat, 0) := by unfold decode1; rw [if_pos h]
  rw [decode_cons, h1]; rfl

theorem text_append (a b : List Tok) : text (a ++ b) = text a ++ text b := List.flatMap_append
theorem text_cons (t : Tok) (b : List Tok) : text (t :: b) = t.2 ++ text b := List.flatMap_cons ..

theorem text_decode (s : Str) : text (decode s) = s := by
  induction hn : s.length using Nat.strongRecOn generalizing s with
  | _ n ih =>
    cases s with
    | nil => rfl
    | cons b r =>
      subst hn
      rw [decode_cons, text_cons, ih _ (by rw [List.length_drop, List.length_cons]; omega) _ rfl]
      simp

theorem between_ascii {lo hi : Nat} {c : Byte} (h : c.toNat < 0x80) (hlo : 0x80 ≤ lo) : between lo hi c = false := by
  unfold between
  rw [decide_eq_false (by omega)]; rfl

theorem ite_snd {p : Prop} [Decidable p] {n m : Nat} (h : n ≤ m) (x : Nat) :
    (if p then (x, n) else (0xFFFD, 0)).2 ≤ m := by
  split
  · exact h
  · exact Nat.zero_le _

/-- Only ASCII bytes decode to ASCII runes. -/
theorem decode1_high {b : Byte} (h : ¬ b.toNat < 0x80) (r : Str) : 0x80 ≤ (decode1 b r).1 := by
  have hite : ∀ {p : Prop} [Decidable p] {x n : Nat}, (p → 0x80 ≤ x) → 0x80 ≤ (if p then (x, n) else (0xFFFD, 0)).1 := by
    intro p _ x n hx
    split
    · exact hx ‹_›
    · decide
  unfold decode1
  rw [if_neg h]
  by_cases h2 : between 0xC2 0xDF b = true
  · rw [if_pos h2]
    simp only [between, Bool.and_eq_true, decide_eq_true_eq] at h2
    split
    · exact hite fun _ => by omega
    · decide
  rw [if_neg h2]
  by_cases h3 : between 0xE0 0xEF b = true
  · rw [if_pos h3]
    simp only [between, Bool.and_eq_true, decide_eq_true_eq] at h3
    split
    · refine hite fun h => ?_
      simp only [between, Bool.and_eq_true, decide_eq_true_eq] at h
      by_cases he : b.toNat = 0xE0
      · rw [if_pos he, if_neg (by omega)] at h; omega
      · omega
    · decide
  rw [if_neg h3]
  by_cases h4 : between 0xF0 0xF4 b = true
  · rw [if_pos h4]
    simp only [between, Bool.and_eq_true, decide_eq_true_eq] at h4
    split
    · refine hite fun h => ?_
      simp only [between, Bool.and_eq_true, decide_eq_true_eq] at h
      by_cases he : b.toNat = 0xF0
      · rw [if_pos he, if_neg (by omega)] at h; omega
      · omega
    · decide
  rw [if_neg h4]
  decide

/-- Decoding looks ahead only over bytes ≥ 0x80. -/
theorem decode1_append (x : Byte) (a : Str) {c : Byte} (b : Str) (hc : c.toNat < 0x80) :
    decode1 x (a ++ c :: b) = decode1 x a ∧ (decode1 x a).2 ≤ a.length := by
  have hlo1 : 0x80 ≤ (if x.toNat = 0xE0 then 0xA0 else 0x80) := by split <;> omega
  have hlo2 : 0x80 ≤ (if x.toNat = 0xF0 then 0x90 else 0x80) := by split <;> omega
  have hb := fun lo hi => @between_ascii lo hi c hc
  unfold decode1
  by_cases h1 : x.toNat < 0x80
  · rw [if_pos h1, if_pos h1]; exact ⟨rfl, Nat.zero_le _⟩
  rw [if_neg h1, if_neg h1]
  by_cases h2 : between 0xC2 0xDF x = true
  · rw [if_pos h2, if_pos h2]
    match a with
    | [] => simp [hb]
    | c1 :: a => simp; split <;> simp
  rw [if_neg h2, if_neg h2]
  by_cases h3 : between 0xE0 0xEF x = true
  · rw [if_pos h3, if_pos h3]
    match a with
    | [] => cases b <;> simp [hb _ _ hlo1]
    | [c1] => simp [hb]
    | c1 :: c2 :: a => exact ⟨rfl, ite_snd (by simp) _⟩
  rw [if_neg h3, if_neg h3]
  by_cases h4 : between 0xF0 0xF4 x = true
  · rw [if_pos h4, if_pos h4]
    match a with
    | [] => rcases b with _ | ⟨_, _ | ⟨_, _⟩⟩ <;> simp [hb _ _ hlo2]
    | [c1] => cases b <;> simp [hb]
    | [c1, c2] => simp [hb]
    | c1 :: c2 :: c3 :: a => exact ⟨rfl, ite_snd (by simp) _⟩
  rw [if_neg h4, if_neg h4]
  exact ⟨rfl, Nat.zero_le _⟩

theorem decode_append (a : Str) {c : Byte} (b : Str) (hc : c.toNat < 0x80) :
    decode (a ++ c :: b) = decode a ++ decode (c :: b) := by
  induction hn : a.length using Nat.strongRecOn generalizing a with
  | _ n ih =>
    cases a with
    | nil => rfl
    | cons x a =>
      subst hn
      obtain ⟨h1, h2⟩ := decode1_append x a b hc
      rw [List.cons_append, decode_cons, decode_cons, h1, List.drop_append_of_le_length h2,
        List.take_append_of_le_length h2, ih _ (by rw [List.length_drop, List.length_cons]; omega) _ rfl]
      rfl

/-- A list of tokens that some string decodes to, cut at an ASCII token, consists of two such lists. -/
theorem decode_split {s : Str} {x y : List Tok} {t : Tok} (h : decode s = x ++ t :: y) (ht : t.1 < 0x80) :
    decode (text x) = x ∧ decode (text y) = y ∧ ∃ c, t = (c.toNat, [c]) ∧ c.toNat < 0x80 := by
  induction x generalizing s with
  | nil =>
    cases s with
    | nil => cases h
    | cons b r =>
      rw [decode_cons, List.nil_append, List.cons.injEq] at h
      obtain ⟨h1, h2⟩ := h
      have hb : b.toNat < 0x80 := by
        subst h1
        by_contra hb
        have := decode1_high hb r
        dsimp only at ht
        omega
      have hd : decode1 b r = (b.toNat, 0) := by unfold decode1; rw [if_pos hb]
      rw [hd] at h1 h2
      subst h1
      refine ⟨rfl, ?_, b, rfl, hb⟩
      rw [← h2, text_decode]
  | cons u x ih =>
    cases s with
    | nil => cases h
    | cons b r =>
      rw [decode_cons, List.cons_append, List.cons.injEq] at h
      obtain ⟨h1, h2⟩ := h
      obtain ⟨g1, g2, c, rfl, hc⟩ := ih h2
      refine ⟨?_, g2, c, rfl, hc⟩
      -- `r` is the text of its tokens, which contain the ASCII byte `c`
      have hr : r.drop (decode1 b r).2 = text x ++ c :: text y := by
        have := congrArg text h2
        rw [text_decode, text_append, text_cons] at this
        exact this
      have hr2 : r = (r.take (decode1 b r).2 ++ text x) ++ c :: text y := by
        rw [List.append_assoc, ← hr, List.take_append_drop]
      have hd := (decode1_append b (r.take (decode1 b r).2 ++ text x) (text y) hc).1
      rw [← hr2] at hd
      have hle : (decode1 b r).2 ≤ (r.take (decode1 b r).2).length := by
        rw [List.length_take, Nat.le_min]
        refine ⟨Nat.le_refl _, ?_⟩
        rcases Nat.lt_or_ge r.length (decode1 b r).2 with hlt | hge
        · rw [List.drop_eq_nil_of_le (Nat.le_of_lt hlt)] at hr
          simp at hr
        · exact hge
      subst h1
      rw [text_cons, List.cons_append, decode_cons, ← hd, List.take_append_of_le_length hle,
        List.drop_append_of_le_length hle]
      rw [List.take_take, Nat.min_self, List.drop_take, Nat.sub_self, List.take_zero, List.nil_append, g1]

/-! ### What `run` computes -/

/-- `x` matches the expression, changing the groups from `c` to `c'`. -/
inductive M : Rx → List Tok → Caps → Caps → Prop
  | eps {c} : M .eps [] c c
  | chr {p t c} : p t.1 = true → M (.chr p) [t] c c
  | cat {a b x y c c1 c2} : M a x c c1 → M b y c1 c2 → M (.cat a b) (x ++ y) c c2
  | none {a c} : M (.opt a) [] c c
  | some {a x c c'} : M a x c c' → M (.opt a) x c c'
  | nil {g a c} : M (.star g a) [] c c
  | cons {g a x y c c1 c2} : M a x c c1 → x ≠ [] → M (.star g a) y c1 c2 → M (.star g a) (x ++ y) c c2
  | cap {n a x c c'} : M a x c c' → M (.cap n a) x c ((n, text x) :: c')

/-- `f` computes the matches of `a`. -/
def Computes (a : Rx) (f : List Tok → Caps → List (List Tok × Caps)) : Prop :=
  ∀ inp c p, p ∈ f inp c ↔ ∃ x, inp = x ++ p.1 ∧ M a x c p.2

theorem starRun_computes {a f} (h : Computes a f) (g : Bool) (k : Nat) (inp : List Tok) (c : Caps) (hk : inp.length ≤ k)
    (p : List Tok × Caps) : p ∈ starRun f g k inp c ↔ ∃ x, inp = x ++ p.1 ∧ M (.star g a) x c p.2 := by
  induction k generalizing inp c with
  | zero =>
    have : inp = [] := List.length_eq_zero_iff.1 (by omega)
    subst this
    rw [starRun, List.mem_singleton]
    constructor
    · rintro rfl; exact ⟨[], rfl, .nil⟩
    · rintro ⟨x, h1, h2⟩
      obtain ⟨h4, h3⟩ := List.append_eq_nil_iff.1 h1.symm
      generalize hp : p.2 = c2 at h2
      cases h2 with
      | nil => exact Prod.ext h3 hp
      | cons _ hne _ => exact absurd (List.append_eq_nil_iff.1 h4).1 hne
  | succ k ih =>
    have hm : ∀ q, q ∈ starRun f g (k + 1) inp c ↔
        (q = (inp, c) ∨ ∃ r ∈ f inp c, r.1.length < inp.length ∧ q ∈ starRun f g k r.1 r.2) := by
      intro q
      rw [starRun]
      have h1 : ∀ q, (q ∈ (f inp c).flatMap fun p => if p.1.length < inp.length then starRun f g k p.1 p.2 else []) ↔
          ∃ r ∈ f inp c, r.1.length < inp.length ∧ q ∈ starRun f g k r.1 r.2 := by
        intro q
        rw [List.mem_flatMap]
        refine exists_congr fun r => and_congr_right fun _ => ?_
        by_cases hlt : r.1.length < inp.length
        · rw [if_pos hlt]; exact ⟨fun h => ⟨hlt, h⟩, fun h => h.2⟩
        · rw [if_neg hlt]; exact ⟨(fun h => absurd h List.not_mem_nil), fun h => absurd h.1 hlt⟩
      split
      · rw [List.mem_append, List.mem_singleton, h1, or_comm]
      · rw [List.mem_cons, h1]
    rw [hm]
    constructor
    · rintro (rfl | ⟨r, hr, hlt, hq⟩)
      · exact ⟨[], rfl, .nil⟩
      · obtain ⟨x, h1, h2⟩ := (h _ _ _).1 hr
        obtain ⟨y, h3, h4⟩ := (ih r.1 r.2 (by omega)).1 hq
        refine ⟨x ++ y, by rw [h1, h3, List.append_assoc], .cons h2 ?_ h4⟩
        rintro rfl
        rw [List.nil_append] at h1
        rw [h1] at hlt; omega
    · rintro ⟨x, h1, h2⟩
      generalize hp : p.2 = c2 at h2
      cases h2 with
      | nil => left; exact Prod.ext h1.symm hp
      | cons ha hne hs =>
        rename_i x y c1
        right
        refine ⟨(y ++ p.1, c1), (h _ _ _).2 ⟨x, by rw [h1, List.append_assoc], ha⟩, ?_, ?_⟩
        · rw [h1, List.append_assoc, List.length_append (as := x)]
          have := List.length_pos_iff.2 hne
          dsimp only
          omega
        · refine (ih _ _ ?_).2 ⟨y, rfl, by rw [hp]; exact hs⟩
          rw [h1, List.append_assoc, List.length_append (as := x)] at hk
          have := List.length_pos_iff.2 hne
          dsimp only
          omega

theorem run_computes (a : Rx) : Computes a (run a) := by
  induction a with
  | eps =>
    intro inp c p
    rw [run, List.mem_singleton]
    constructor
    · rintro rfl; exact ⟨[], rfl, .eps⟩
    · rintro ⟨x, h1, h2⟩
      generalize hp : p.2 = c2 at h2
      cases h2
      exact Prod.ext h1.symm hp
  | chr q =>
    intro inp c p
    cases inp with
    | nil =>
      rw [run]
      constructor
      · intro h; cases h
      · rintro ⟨x, h1, h2⟩
        obtain ⟨rfl, _⟩ := List.append_eq_nil_iff.1 h1.symm
        cases h2
    | cons t ts =>
      rw [run]
      constructor
      · intro h
        split at h
        · rename_i hq
          rw [List.mem_singleton] at h
          subst h
          exact ⟨[t], rfl, .chr hq⟩
        · cases h
      · rintro ⟨x, h1, h2⟩
        generalize hp : p.2 = c2 at h2
        cases h2 with
        | chr hq =>
          rw [List.singleton_append, List.cons.injEq] at h1
          obtain ⟨rfl, h1⟩ := h1
          rw [if_pos hq, List.mem_singleton]
          exact Prod.ext h1.symm hp
  | cat a b iha ihb =>
    intro inp c p
    rw [run, List.mem_flatMap]
    constructor
    · rintro ⟨q, hq, hp⟩
      obtain ⟨x, h1, h2⟩ := (iha _ _ _).1 hq
      obtain ⟨y, h3, h4⟩ := (ihb _ _ _).1 hp
      exact ⟨x ++ y, by rw [h1, h3, List.append_assoc], .cat h2 h4⟩
    · rintro ⟨x, h1, h2⟩
      generalize hp : p.2 = c2 at h2
      cases h2 with
      | cat h3 h4 =>
        rename_i x y c1
        exact ⟨(y ++ p.1, c1), (iha _ _ _).2 ⟨x, by rw [h1, List.append_assoc], h3⟩,
          (ihb _ _ _).2 ⟨y, rfl, by rw [hp]; exact h4⟩⟩
  | opt a ih =>
    intro inp c p
    rw [run, List.mem_append, List.mem_singleton, ih]
    constructor
    · rintro (⟨x, h1, h2⟩ | rfl)
      · exact ⟨x, h1, .some h2⟩
      · exact ⟨[], rfl, .none⟩
    · rintro ⟨x, h1, h2⟩
      generalize hp : p.2 = c2 at h2
      cases h2 with
      | none => exact .inr (Prod.ext h1.symm hp)
      | some h => exact .inl ⟨x, h1, h⟩
  | star g a ih =>
    intro inp c p
    rw [run]
    exact starRun_computes ih g _ inp c (Nat.le_refl _) p
  | cap n a ih =>
    intro inp c p
    rw [run, List.mem_map]
    have htake : ∀ (x r : List Tok), (x ++ r).take ((x ++ r).length - r.length) = x := by
      intro x r
      rw [List.length_append, Nat.add_sub_cancel, List.take_left']
      rfl
    constructor
    · rintro ⟨q, hq, rfl⟩
      obtain ⟨x, h1, h2⟩ := (ih _ _ _).1 hq
      refine ⟨x, h1, ?_⟩
      rw [h1, htake]
      exact .cap h2
    · rintro ⟨x, h1, h2⟩
      generalize hp : p.2 = c2 at h2
      cases h2 with
      | cap h =>
        rename_i c'
        refine ⟨(p.1, c'), (ih _ _ _).2 ⟨x, h1, h⟩, ?_⟩
        rw [h1, htake]
        exact Prod.ext rfl hp.symm

/-- The groups that an expression sets. -/
def groups : Rx → List Nat
  | .eps | .chr _ => []
  | .cat a b => groups a ++ groups b
  | .opt a | .star _ a => groups a
  | .cap n a => n :: groups a

theorem M.keeps {a x c c'} (h : M a x c c') {n : Nat} (hn : n ∉ groups a) : get c' n = get c n := by
  induction h with
  | eps | none | nil | chr _ => rfl
  | cat _ _ ih1 ih2 =>
    simp only [groups, List.mem_append, not_or] at hn
    rw [ih2 hn.2, ih1 hn.1]
  | some _ ih => exact ih hn
  | cons _ _ _ ih1 ih2 => rw [ih2 hn, ih1 hn]
  | cap _ ih =>
    simp only [groups, List.mem_cons, not_or] at hn
    rw [← ih hn.2]
    unfold get
    rw [List.find?_cons_of_neg]
    simpa using fun h => hn.1 h.symm

theorem get_cap (n : Nat) (s : Str) (c : Caps) : get ((n, s) :: c) n = s := by
  unfold get; rw [List.find?_cons_of_pos (by simp)]; rfl

/-- Every match of the whole string gives the same answer: so does `matchAll`. -/
theorem matchAll_some {a : Rx} {s : Str} {c : Caps} (h : matchAll a s = some c) : M a (decode s) [] c := by
  unfold matchAll at h
  rw [Option.map_eq_some_iff] at h
  obtain ⟨p, hp, rfl⟩ := h
  have h1 := List.find?_some hp
  obtain ⟨x, h2, h3⟩ := (run_computes a _ _ _).1 (List.mem_of_find?_eq_some hp)
  rw [List.isEmpty_iff] at h1
  rw [h1, List.append_nil] at h2
  rw [h2]; exact h3

theorem matchAll_none {a : Rx} {s : Str} (h : matchAll a s = none) (c : Caps) : ¬ M a (decode s) [] c := by
  intro hm
  unfold matchAll at h
  rw [Option.map_eq_none_iff, List.find?_eq_none] at h
  exact h ([], c) ((run_computes a _ _ _).2 ⟨_, (List.append_nil _).symm, hm⟩) rfl

end Speed.Re
