import Verif.Regex
import Mathlib.Tactic.Common
/-
Model of `parseString` (registry.go:241-269) and its grammar (property C30).
-/
namespace Speed
open Re

/-! ### The model -/

/-- ASCII letters, digits and the underscore. -/
def asciiWord (c : Nat) : Bool :=
  (decide (0x30 ≤ c) && decide (c ≤ 0x39)) || (decide (0x41 ≤ c) && decide (c ≤ 0x5A)) ||
  (decide (0x61 ≤ c) && decide (c ≤ 0x7A)) || decide (c = 0x5F)

/-- The class `[\p{L}\p{N}_]`. The Unicode tables are not modelled: any table that is right on ASCII and does not
contain U+FFFD. -/
structure WordClass where
  has : Nat → Bool
  ascii : ∀ c, c < 0x80 → has c = asciiWord c
  bad : has 0xFFFD = false

/-- The class without non-ASCII letters, for examples. -/
def asciiClass : WordClass := ⟨asciiWord, fun _ _ => rfl, rfl⟩

def lit (c : Nat) : Rx := .chr (fun x => decide (x = c))

/-- `id` (registry.go:241) -/
def idRx (W : WordClass) : Rx := plus (.chr W.has)
/-- `\.` followed by `id` -/
def dotId (W : WordClass) : Rx := .cat (lit 0x2E) (idRx W)
/-- `\s`: tab, newline, form feed, carriage return, space -/
def isSpace (c : Nat) : Bool :=
  decide (c = 9) || decide (c = 10) || decide (c = 12) || decide (c = 13) || decide (c = 32)

/-- `instancesPattern` (registry.go:243) with the group numbers it has inside `pattern` -/
def instancesRx (W : WordClass) : Rx :=
  .cat (.cap 6 (idRx W))
    (.cap 7 (.star true (.cap 8 (.cat (lit 0x2C) (.cat (.opt (.chr isSpace)) (.cap 9 (idRx W)))))))

/-- `\[(%v)\]` with its group -/
def bracketRx (W : WordClass) : Rx := .cap 4 (.cat (lit 0x5B) (.cat (.cap 5 (instancesRx W)) (lit 0x5D)))

/-- `pattern` (registry.go:244) between `\A` and `\z` -/
def patternRx (W : WordClass) : Rx :=
  .cat (.cap 1 (.cat (.cap 2 (idRx W)) (.star false (.cap 3 (dotId W)))))
    (.cat (.opt (bracketRx W)) (.cap 10 (.star true (.cap 11 (dotId W)))))

/-- `parseString` (registry.go:249-269): `none` is the error; else metric, domain and instances (`none` for nil).
`matches` has 12 entries, so `matches[n-2]` is group 10. -/
def parseString (W : WordClass) (s : Str) : Option (Str × Str × Option (List Str)) :=
  match matchAll (patternRx W) s with
  | none => none
  | some c =>
    if get c 5 ≠ [] then
      some (get c 1 ++ get c 10, get c 1, match findAll (idRx W) (get c 5) with | [] => none | l => some l)
    else some (get c 1 ++ get c 10, [], none)

/-! ### The grammar, on strings -/

/-- An identifier: one or more letters, digits and underscores. -/
def IsId (W : WordClass) (s : Str) : Prop := s ≠ [] ∧ ∀ t ∈ decode s, W.has t.1 = true

/-- Each one preceded by a dot. -/
def dots (ids : List Str) : Str := ids.flatMap fun i => 0x2E :: i

/-- A space character, or nothing. -/
def IsGap (s : Str) : Prop := s = [] ∨ ∃ c : Byte, s = [c] ∧ isSpace c.toNat = true

/-- A registration string: identifiers, optionally a bracket with instances (each but the first with the gap
after its comma), more identifiers. -/
structure RegString where
  first : Str
  pre : List Str
  insts : Option (Str × List (Str × Str))
  post : List Str

namespace RegString

def name (g : RegString) : Str := g.first ++ dots g.pre

def render (g : RegString) : Str :=
  g.name ++
  (match g.insts with
   | none => []
   | some (i, more) => 0x5B :: (i ++ more.flatMap (fun p => 0x2C :: (p.1 ++ p.2)) ++ [0x5D])) ++
  dots g.post

def OK (W : WordClass) (g : RegString) : Prop :=
  IsId W g.first ∧ (∀ i ∈ g.pre, IsId W i) ∧ (∀ i ∈ g.post, IsId W i) ∧
  ∀ i more, g.insts = some (i, more) → IsId W i ∧ ∀ p ∈ more, IsGap p.1 ∧ IsId W p.2

/-- Metric name, domain name, instances. -/
def result (g : RegString) : Str × Str × Option (List Str) :=
  (g.name ++ dots g.post, (match g.insts with | none => [] | some _ => g.name),
   g.insts.map fun p => p.1 :: p.2.map (·.2))

end RegString

/-! ### The grammar, on runes -/

section
variable {W : WordClass}

def TId (W : WordClass) (x : List Tok) : Prop := x ≠ [] ∧ ∀ t ∈ x, W.has t.1 = true

inductive TDots (W : WordClass) : List Tok → List (List Tok) → Prop
  | nil : TDots W [] []
  | cons {t i r l} : t.1 = 0x2E → TId W i → TDots W r l → TDots W (t :: (i ++ r)) (i :: l)

inductive TMore (W : WordClass) : List Tok → List (List Tok × List Tok) → Prop
  | nil : TMore W [] []
  | cons {t w i r l} : t.1 = 0x2C → (w = [] ∨ ∃ u, w = [u] ∧ isSpace u.1 = true) → TId W i → TMore W r l →
      TMore W (t :: (w ++ (i ++ r))) ((w, i) :: l)

theorem M_star_chr {p : Nat → Bool} {g x c c'} : M (.star g (.chr p)) x c c' ↔ (∀ t ∈ x, p t.1 = true) ∧ c' = c := by
  constructor
  · intro h
    generalize ha : Rx.star g (.chr p) = a at h
    induction h with
    | eps | none | chr _ | cat _ _ | some _ | cap _ => cases ha
    | nil => exact ⟨by simp, rfl⟩
    | cons h1 _ _ _ ih =>
      cases ha
      obtain ⟨h2, rfl⟩ := ih rfl
      cases h1 with
      | chr hp =>
        refine ⟨?_, rfl⟩
        intro t ht
        rcases List.mem_append.1 ht with ht | ht
        · rw [List.mem_singleton] at ht; subst ht; exact hp
        · exact h2 t ht
  · rintro ⟨h, rfl⟩
    induction x with
    | nil => exact .nil
    | cons t x ih =>
      exact .cons (x := [t]) (.chr (h t (by simp))) (by simp) (ih fun u hu => h u (by simp [hu]))

theorem M_id {x c c'} : M (idRx W) x c c' ↔ TId W x ∧ c' = c := by
  constructor
  · intro h
    cases h with
    | cat h1 h2 =>
      obtain ⟨h3, rfl⟩ := M_star_chr.1 h2
      cases h1 with
      | chr hp =>
        refine ⟨⟨by simp, ?_⟩, rfl⟩
        intro t ht
        rcases List.mem_append.1 ht with ht | ht
        · rw [List.mem_singleton] at ht; subst ht; exact hp
        · exact h3 t ht
  · rintro ⟨⟨h1, h2⟩, rfl⟩
    cases x with
    | nil => exact absurd rfl h1
    | cons t x =>
      exact .cat (x := [t]) (.chr (h2 t (by simp))) (M_star_chr.2 ⟨fun u hu => h2 u (by simp [hu]), rfl⟩)

theorem M_cat {a b x c c'} (h : M (.cat a b) x c c') : ∃ y z c1, x = y ++ z ∧ M a y c c1 ∧ M b z c1 c' := by
  cases h with
  | cat h1 h2 => exact ⟨_, _, _, rfl, h1, h2⟩

theorem M_cap {n a x c c'} (h : M (.cap n a) x c c') : ∃ c1, M a x c c1 ∧ c' = (n, text x) :: c1 := by
  cases h with
  | cap h => exact ⟨_, h, rfl⟩

theorem M_lit {n x c c'} (h : M (lit n) x c c') : ∃ t : Tok, x = [t] ∧ t.1 = n ∧ c' = c := by
  cases h with
  | chr h => exact ⟨_, rfl, by simpa using h, rfl⟩

theorem M_opt {a x c c'} (h : M (.opt a) x c c') : (x = [] ∧ c' = c) ∨ M a x c c' := by
  cases h with
  | none => exact .inl ⟨rfl, rfl⟩
  | some h => exact .inr h

theorem M_dots {g n x c c'} (h : M (.star g (.cap n (dotId W))) x c c') : ∃ l, TDots W x l := by
  generalize ha : Rx.star g (.cap n (dotId W)) = a at h
  induction h with
  | eps | none | chr _ | cat _ _ | some _ | cap _ => cases ha
  | nil => exact ⟨[], .nil⟩
  | cons h1 _ _ _ ih =>
    cases ha
    obtain ⟨l, hl⟩ := ih rfl
    obtain ⟨_, h2, _⟩ := M_cap h1
    obtain ⟨y, z, _, rfl, h3, h4⟩ := M_cat h2
    obtain ⟨t, rfl, ht, _⟩ := M_lit h3
    rw [List.append_assoc]
    show ∃ l, TDots W (t :: (z ++ _)) l
    exact ⟨_, .cons ht (M_id.1 h4).1 hl⟩

theorem M_dots_of {g n x l} (h : TDots W x l) (c : Caps) : ∃ c', M (.star g (.cap n (dotId W))) x c c' := by
  induction h generalizing c with
  | nil => exact ⟨c, .nil⟩
  | @cons t i r l ht hi _ ih =>
    obtain ⟨c', h⟩ := ih ((n, text ([t] ++ i)) :: c)
    refine ⟨c', ?_⟩
    have : t :: (i ++ r) = ([t] ++ i) ++ r := by simp
    rw [this]
    refine .cons (.cap (.cat (.chr (by simpa using ht)) (M_id.2 ⟨hi, rfl⟩))) (by simp) h

theorem M_more {x c c'} (h : M (.star true (.cap 8 (.cat (lit 0x2C) (.cat (.opt (.chr isSpace)) (.cap 9 (idRx W)))))) x c c') :
    ∃ l, TMore W x l := by
  generalize ha : Rx.star true (.cap 8 (.cat (lit 0x2C) (.cat (.opt (.chr isSpace)) (.cap 9 (idRx W))))) = a at h
  induction h with
  | eps | none | chr _ | cat _ _ | some _ | cap _ => cases ha
  | nil => exact ⟨[], .nil⟩
  | cons h1 _ _ _ ih =>
    cases ha
    obtain ⟨l, hl⟩ := ih rfl
    obtain ⟨_, h2, _⟩ := M_cap h1
    obtain ⟨y, z, _, rfl, h3, h4⟩ := M_cat h2
    obtain ⟨t, rfl, ht, _⟩ := M_lit h3
    obtain ⟨w, i, _, rfl, h5, h6⟩ := M_cat h4
    obtain ⟨_, h7, _⟩ := M_cap h6
    rw [List.append_assoc, List.append_assoc]
    show ∃ l, TMore W (t :: (w ++ (i ++ _))) l
    refine ⟨_, .cons ht ?_ (M_id.1 h7).1 hl⟩
    rcases M_opt h5 with ⟨rfl, _⟩ | h
    · exact .inl rfl
    · cases h with
      | chr hq => exact .inr ⟨_, rfl, hq⟩

theorem M_insts {x c c'} (h : M (instancesRx W) x c c') : ∃ i r l, TId W i ∧ TMore W r l ∧ x = i ++ r := by
  obtain ⟨i, r, _, rfl, h1, h2⟩ := M_cat h
  obtain ⟨_, h3, _⟩ := M_cap h1
  obtain ⟨_, h4, _⟩ := M_cap h2
  obtain ⟨l, hl⟩ := M_more h4
  exact ⟨i, r, l, (M_id.1 h3).1, hl, rfl⟩

theorem M_insts_of {i r l} (hi : TId W i) (hr : TMore W r l) (c : Caps) : ∃ c', M (instancesRx W) (i ++ r) c c' := by
  have key : ∀ {r l} (_ : TMore W r l) (c : Caps), ∃ c', M (.star true (.cap 8 (.cat (lit 0x2C)
      (.cat (.opt (.chr isSpace)) (.cap 9 (idRx W)))))) r c c' := by
    intro r l h
    induction h with
    | nil => exact fun c => ⟨c, .nil⟩
    | @cons t w i r l ht hw hi _ ih =>
      intro c
      have hw' : M (.opt (.chr isSpace)) w c c := by
        rcases hw with rfl | ⟨u, rfl, hu⟩
        · exact .none
        · exact .some (.chr hu)
      obtain ⟨c', h⟩ := ih ((8, text ([t] ++ (w ++ i))) :: (9, text i) :: c)
      refine ⟨c', ?_⟩
      have : t :: (w ++ (i ++ r)) = ([t] ++ (w ++ i)) ++ r := by simp
      rw [this]
      refine .cons (.cap (.cat (.chr (by simpa using ht)) (.cat hw' (.cap (M_id.2 ⟨hi, rfl⟩))))) (by simp) h
  obtain ⟨c', h⟩ := key hr ((6, text i) :: c)
  exact ⟨_, .cat (.cap (M_id.2 ⟨hi, rfl⟩)) (.cap h)⟩

def ShapeEq (ts A B : List Tok) : Option (List Tok) → Prop
  | none => ts = A ++ B
  | some x => ∃ lb rb : Tok, lb.1 = 0x5B ∧ rb.1 = 0x5D ∧ ts = A ++ lb :: (x ++ rb :: B)

/-- What a match of the pattern looks like. -/
structure Shape (W : WordClass) (ts : List Tok) (A : List Tok) (I : Option (List Tok)) (B : List Tok) : Prop where
  a : ∃ i d l, TId W i ∧ TDots W d l ∧ A = i ++ d
  b : ∃ l, TDots W B l
  i : ∀ x, I = some x → ∃ i r l, TId W i ∧ TMore W r l ∧ x = i ++ r
  eq : ShapeEq ts A B I

theorem shape_of_M {ts c} (h : M (patternRx W) ts [] c) : ∃ A I B, Shape W ts A I B ∧ get c 1 = text A ∧
    get c 10 = text B ∧ get c 5 = (match I with | none => [] | some x => text x) := by
  obtain ⟨A, z, c1, rfl, h1, h2⟩ := M_cat h
  obtain ⟨X, B, c2, rfl, h3, h4⟩ := M_cat h2
  obtain ⟨c0, h5, rfl⟩ := M_cap h1
  obtain ⟨c3, h6, rfl⟩ := M_cap h4
  obtain ⟨i, d, c4, rfl, h7, h8⟩ := M_cat h5
  obtain ⟨c5, h9, rfl⟩ := M_cap h7
  obtain ⟨hi, rfl⟩ := M_id.1 h9
  obtain ⟨l, hl⟩ := M_dots h8
  obtain ⟨l', hB⟩ := M_dots h6
  have k10 : Re.get ((10, text B) :: c3) 10 = text B := get_cap _ _ _
  have k3 : ∀ n, n ≠ 10 → n ≠ 11 → Re.get ((10, text B) :: c3) n = Re.get c2 n := by
    intro n h1 h2
    exact h4.keeps (by simp [groups, dotId, idRx, plus, lit, h1, h2])
  have kA5 : Re.get ((1, text (i ++ d)) :: c0) 5 = [] := by
    rw [h1.keeps (by simp [groups, dotId, idRx, plus, lit])]; rfl
  rcases M_opt h3 with ⟨rfl, rfl⟩ | hb
  · refine ⟨i ++ d, none, B, ⟨⟨i, d, l, hi, hl, rfl⟩, ⟨_, hB⟩, by simp, rfl⟩, ?_, k10, ?_⟩
    · rw [k3 1 (by decide) (by decide)]; exact get_cap _ _ _
    · rw [k3 5 (by decide) (by decide)]; exact kA5
  · obtain ⟨c6, g1, rfl⟩ := M_cap hb
    obtain ⟨y, z, c7, rfl, g2, g3⟩ := M_cat g1
    obtain ⟨lb, rfl, hlb, rfl⟩ := M_lit g2
    obtain ⟨x, y, c8, rfl, g4, g5⟩ := M_cat g3
    obtain ⟨c9, g6, rfl⟩ := M_cap g4
    obtain ⟨rb, rfl, hrb, rfl⟩ := M_lit g5
    refine ⟨i ++ d, some x, B, ⟨⟨i, d, l, hi, hl, rfl⟩, ⟨_, hB⟩, ?_, lb, rb, hlb, hrb, by simp⟩, ?_, k10, ?_⟩
    · intro y hy
      obtain rfl := Option.some.inj hy
      obtain ⟨i1, r1, l1, m1, m2, rfl⟩ := M_insts g6
      exact ⟨i1, r1, l1, m1, m2, rfl⟩
    · rw [k3 1 (by decide) (by decide), hb.keeps (by simp [groups, bracketRx, instancesRx, idRx, plus, lit])]
      exact get_cap _ _ _
    · rw [k3 5 (by decide) (by decide)]
      unfold Re.get
      rw [List.find?_cons_of_neg (by simp), List.find?_cons_of_pos (by simp)]
      rfl

theorem M_of_shape {ts A I B} (h : Shape W ts A I B) : ∃ c, M (patternRx W) ts [] c := by
  obtain ⟨⟨i, d, l, hi, hd, rfl⟩, ⟨lB, hB⟩, hI, he⟩ := h
  obtain ⟨c1, h1⟩ := M_dots_of (g := false) (n := 3) hd ((2, text i) :: [])
  have hA : M (.cap 1 (.cat (.cap 2 (idRx W)) (.star false (.cap 3 (dotId W))))) (i ++ d) [] ((1, text (i ++ d)) :: c1) :=
    .cap (.cat (.cap (M_id.2 ⟨hi, rfl⟩)) h1)
  cases I with
  | none =>
    obtain ⟨c2, h2⟩ := M_dots_of (g := true) (n := 11) hB ((1, text (i ++ d)) :: c1)
    unfold ShapeEq at he
    subst he
    exact ⟨_, .cat hA (.cat (x := []) .none (.cap h2))⟩
  | some x =>
    obtain ⟨lb, rb, h3, h4, rfl⟩ := he
    obtain ⟨i1, r1, l1, m1, m2, rfl⟩ := hI x rfl
    obtain ⟨c3, h5⟩ := M_insts_of m1 m2 ((1, text (i ++ d)) :: c1)
    obtain ⟨c2, h2⟩ := M_dots_of (g := true) (n := 11) hB
      ((4, text ([lb] ++ ((i1 ++ r1) ++ [rb]))) :: (5, text (i1 ++ r1)) :: c3)
    have hb : M (bracketRx W) ([lb] ++ ((i1 ++ r1) ++ [rb])) ((1, text (i ++ d)) :: c1)
        ((4, text ([lb] ++ ((i1 ++ r1) ++ [rb]))) :: (5, text (i1 ++ r1)) :: c3) :=
      .cap (.cat (.chr (by simpa using h3)) (.cat (.cap h5) (.chr (by simpa using h4))))
    have : (i ++ d) ++ lb :: ((i1 ++ r1) ++ rb :: B) = (i ++ d) ++ (([lb] ++ ((i1 ++ r1) ++ [rb])) ++ B) := by simp
    rw [this]
    exact ⟨_, .cat hA (.cat (.some hb) (.cap h2))⟩

/-! ### Uniqueness -/

theorem TId.no {x : List Tok} (h : TId W x) {n : Nat} (hn : n < 0x80) (hw : asciiWord n = false) : ∀ t ∈ x, t.1 ≠ n := by
  rintro t ht rfl
  have := h.2 t ht
  rw [W.ascii _ hn, hw] at this
  cases this

theorem TDots.no {x l} (h : TDots W x l) {n : Nat} (hn : n < 0x80) (hw : asciiWord n = false) (hd : n ≠ 0x2E) :
    ∀ t ∈ x, t.1 ≠ n := by
  induction h with
  | nil => simp
  | cons ht hi _ ih =>
    intro t h
    rcases List.mem_cons.1 h with rfl | h
    · omega
    · rcases List.mem_append.1 h with h | h
      · exact hi.no hn hw t h
      · exact ih t h

theorem TMore.no {x l} (h : TMore W x l) {n : Nat} (hn : n < 0x80) (hw : asciiWord n = false) (hc : n ≠ 0x2C)
    (hs : isSpace n = false) : ∀ t ∈ x, t.1 ≠ n := by
  induction h with
  | nil => simp
  | cons ht hw' hi _ ih =>
    intro t h
    rcases List.mem_cons.1 h with rfl | h
    · omega
    · rcases List.mem_append.1 h with h | h
      · rcases hw' with rfl | ⟨u, rfl, hu⟩
        · cases h
        · rw [List.mem_singleton] at h; subst h
          rintro rfl
          rw [hu] at hs; cases hs
      · rcases List.mem_append.1 h with h | h
        · exact hi.no hn hw t h
        · exact ih t h

theorem split_unique {n : Nat} {a a' b b' : List Tok} {t t' : Tok} (h : a ++ t :: b = a' ++ t' :: b')
    (ht : t.1 = n) (ht' : t'.1 = n) (ha : ∀ u ∈ a, u.1 ≠ n) (ha' : ∀ u ∈ a', u.1 ≠ n) : a = a' ∧ b = b' := by
  induction a generalizing a' with
  | nil =>
    cases a' with
    | nil => simp at h; exact ⟨rfl, h.2⟩
    | cons x a' =>
      simp at h
      exact absurd (by rw [← h.1]; exact ht) (ha' x (by simp))
  | cons x a ih =>
    cases a' with
    | nil =>
      simp at h
      exact absurd (by rw [h.1]; exact ht') (ha x (by simp))
    | cons y a' =>
      simp at h
      obtain ⟨rfl, h⟩ := h
      obtain ⟨rfl, rfl⟩ := ih h (fun u hu => ha u (by simp [hu])) (fun u hu => ha' u (by simp [hu]))
      exact ⟨rfl, rfl⟩

theorem Shape.noA {ts A I B} (h : Shape W ts A I B) : ∀ t ∈ A, t.1 ≠ 0x5B := by
  obtain ⟨i, d, l, hi, hd, rfl⟩ := h.a
  intro t ht
  rcases List.mem_append.1 ht with h | h
  · exact hi.no (by decide) (by decide) t h
  · exact hd.no (by decide) (by decide) (by decide) t h

theorem Shape.noB {ts A I B} (h : Shape W ts A I B) : ∀ t ∈ B, t.1 ≠ 0x5B := by
  obtain ⟨l, hl⟩ := h.b
  exact hl.no (by decide) (by decide) (by decide)

theorem Shape.noI {ts A x B} (h : Shape W ts A (some x) B) : ∀ t ∈ x, t.1 ≠ 0x5D := by
  obtain ⟨i, r, l, hi, hr, rfl⟩ := h.i x rfl
  intro t ht
  rcases List.mem_append.1 ht with h | h
  · exact hi.no (by decide) (by decide) t h
  · exact hr.no (by decide) (by decide) (by decide) (by decide) t h

theorem Shape.unique {ts A I B A' I' B'} (h : Shape W ts A I B) (h' : Shape W ts A' I' B') :
    I = I' ∧ A ++ B = A' ++ B' ∧ (I ≠ none → A = A' ∧ B = B') := by
  have e := h.eq
  have e' := h'.eq
  cases I with
  | none =>
    cases I' with
    | none =>
      unfold ShapeEq at e e'
      exact ⟨rfl, e.symm.trans e', fun h => absurd rfl h⟩
    | some x =>
      obtain ⟨lb, rb, h1, h2, h3⟩ := e'
      unfold ShapeEq at e
      have : lb ∈ A ++ B := by rw [← e, h3]; simp
      rcases List.mem_append.1 this with hh | hh
      · exact absurd h1 (h.noA _ hh)
      · exact absurd h1 (h.noB _ hh)
  | some x =>
    obtain ⟨lb, rb, h1, h2, h3⟩ := e
    cases I' with
    | none =>
      unfold ShapeEq at e'
      have : lb ∈ A' ++ B' := by rw [← e', h3]; simp
      rcases List.mem_append.1 this with hh | hh
      · exact absurd h1 (h'.noA _ hh)
      · exact absurd h1 (h'.noB _ hh)
    | some x' =>
      obtain ⟨lb', rb', h1', h2', h3'⟩ := e'
      obtain ⟨rfl, h4⟩ := split_unique (h3.symm.trans h3') h1 h1' h.noA h'.noA
      obtain ⟨rfl, rfl⟩ := split_unique h4 h2 h2' h.noI h'.noI
      exact ⟨rfl, rfl, fun _ => ⟨rfl, rfl⟩⟩

/-! ### Instances -/

theorem starRun_chr_head (p : Nat → Bool) (k : Nat) (ts : List Tok) (c : Caps) (hk : ts.length ≤ k) :
    (starRun (run (.chr p)) true k ts c).head? = some (ts.dropWhile (fun t => p t.1), c) := by
  induction k generalizing ts with
  | zero =>
    have : ts = [] := List.length_eq_zero_iff.1 (by omega)
    subst this; rfl
  | succ k ih =>
    cases ts with
    | nil => rfl
    | cons t ts =>
      rw [starRun, if_pos rfl]
      by_cases hp : p t.1 = true
      · have h1 : run (.chr p) (t :: ts) c = [(ts, c)] := by rw [run, if_pos hp]
        rw [h1, List.flatMap_cons, List.flatMap_nil, List.append_nil, if_pos (by simp)]
        rw [List.head?_append, ih ts (by simp at hk; omega), List.dropWhile_cons_of_pos (p := fun t : Tok => p t.1) hp]
        rfl
      · have h1 : run (.chr p) (t :: ts) c = [] := by rw [run, if_neg hp]
        rw [h1, List.flatMap_nil, List.nil_append, List.dropWhile_cons_of_neg (p := fun t : Tok => p t.1) hp]
        rfl

theorem find_id {i r : List Tok} (hi : TId W i) (hr : ∀ t r', r = t :: r' → W.has t.1 = false) :
    find (idRx W) (i ++ r) = some (i, r, []) := by
  obtain ⟨hne, hall⟩ := hi
  cases i with
  | nil => exact absurd rfl hne
  | cons t i =>
    have hdrop : (i ++ r).dropWhile (fun t => W.has t.1) = r := by
      rw [List.dropWhile_append_of_pos (fun u hu => hall u (by simp [hu]))]
      cases r with
      | nil => rfl
      | cons u r => rw [List.dropWhile_cons_of_neg (by rw [hr u r rfl]; simp)]
    have h1 : (run (idRx W) (t :: (i ++ r)) []).head? = some (r, []) := by
      unfold idRx plus
      rw [run]
      have h2 : run (.chr W.has) (t :: (i ++ r)) [] = [(i ++ r, [])] := by rw [run, if_pos (hall t (by simp))]
      rw [h2, List.flatMap_cons, List.flatMap_nil, List.append_nil]
      dsimp only
      rw [run, starRun_chr_head _ _ _ _ (Nat.le_refl _), hdrop]
    rw [List.cons_append, find, h1]
    dsimp only
    have h3 : (t :: (i ++ r)).length - r.length = (t :: i).length := by simp; omega
    rw [h3, ← List.cons_append, List.take_left' rfl]

theorem find_skip {t : Tok} (ts : List Tok) (h : W.has t.1 = false) : find (idRx W) (t :: ts) = find (idRx W) ts := by
  have h1 : (run (idRx W) (t :: ts) []).head? = none := by
    unfold idRx plus
    rw [run]
    have h2 : run (.chr W.has) (t :: ts) [] = [] := by rw [run, if_neg (by rw [h]; simp)]
    rw [h2]; rfl
  rw [find, h1]

theorem notWord {n : Nat} (hn : n < 0x80) (h : asciiWord n = false) : W.has n = false := by rw [W.ascii n hn, h]

theorem space_notWord {n : Nat} (h : isSpace n = true) : W.has n = false := by
  simp only [isSpace, Bool.or_eq_true, decide_eq_true_eq] at h
  rcases h with (((rfl | rfl) | rfl) | rfl) | rfl <;> exact notWord (by decide) (by decide)

theorem find_none : find (idRx W) [] = none := rfl

theorem TMore.head {r l} (h : TMore W r l) : ∀ t r', r = t :: r' → W.has t.1 = false := by
  rintro t r' rfl
  cases h with
  | cons ht _ _ _ => rw [ht]; exact notWord (by decide) (by decide)

theorem TDots.head {r l} (h : TDots W r l) : ∀ t r', r = t :: r' → t.1 < 0x80 := by
  rintro t r' rfl
  cases h with
  | cons ht _ _ => rw [ht]; decide

theorem TMore.headA {r l} (h : TMore W r l) : ∀ t r', r = t :: r' → t.1 < 0x80 := by
  rintro t r' rfl
  cases h with
  | cons ht _ _ _ => rw [ht]; decide

theorem findAllN_more {r l} (h : TMore W r l) (n : Nat) (hn : r.length ≤ n) :
    findAllN (idRx W) n r = l.map (fun p => text p.2) := by
  induction h generalizing n with
  | nil => cases n <;> rfl
  | @cons t w i r l ht hw hi hr ih =>
    cases n with
    | zero => simp at hn
    | succ n =>
      have hf : find (idRx W) (t :: (w ++ (i ++ r))) = some (i, r, []) := by
        rw [find_skip _ (by rw [ht]; exact notWord (by decide) (by decide))]
        rcases hw with rfl | ⟨u, rfl, hu⟩
        · exact find_id hi hr.head
        · rw [List.singleton_append, find_skip _ (space_notWord hu)]
          exact find_id hi hr.head
      rw [findAllN, hf]
      dsimp only
      rw [ih n (by simp at hn; omega)]
      rfl

theorem findAllN_insts {i r l} (hi : TId W i) (h : TMore W r l) (n : Nat) (hn : (i ++ r).length ≤ n) :
    findAllN (idRx W) n (i ++ r) = text i :: l.map (fun p => text p.2) := by
  cases n with
  | zero => have := List.length_pos_iff.2 hi.1; rw [List.length_append] at hn; omega
  | succ n =>
    rw [findAllN, find_id hi h.head]
    dsimp only
    have := List.length_pos_iff.2 hi.1
    rw [findAllN_more h n (by rw [List.length_append] at hn; omega)]

/-! ### Between runes and bytes -/

/-- The runes are those of a string. -/
def Clean (x : List Tok) : Prop := decode (text x) = x

theorem clean_decode (s : Str) : Clean (decode s) := by unfold Clean; rw [text_decode]

theorem Clean.append {x y : List Tok} (h : Clean (x ++ y)) (hy : ∀ t r, y = t :: r → t.1 < 0x80) : Clean x ∧ Clean y := by
  cases y with
  | nil => rw [List.append_nil] at h; exact ⟨h, rfl⟩
  | cons t r =>
    obtain ⟨h1, h2, c, rfl, hc⟩ := decode_split h (hy t r rfl)
    refine ⟨h1, ?_⟩
    show decode (text ((c.toNat, [c]) :: r)) = _
    rw [text_cons, List.singleton_append, decode_ascii hc, h2]

theorem Clean.tail {t : Tok} {y : List Tok} (h : Clean (t :: y)) (ht : t.1 < 0x80) :
    Clean y ∧ ∃ c : Byte, t = (c.toNat, [c]) ∧ c.toNat = t.1 := by
  obtain ⟨_, h2, c, rfl, hc⟩ := decode_split (x := []) h ht
  exact ⟨h2, c, rfl, rfl⟩

theorem byte_of {c : Byte} {n : Nat} (h : c.toNat = n) : c = BitVec.ofNat 8 n := by subst h; simp

theorem TId.str {x} (h : TId W x) (hc : Clean x) : IsId W (text x) := by
  refine ⟨?_, by rw [hc]; exact h.2⟩
  intro h0
  unfold Clean at hc
  rw [h0] at hc
  exact h.1 hc.symm

theorem TDots.str {x l} (h : TDots W x l) (hc : Clean x) :
    (∀ i ∈ l.map text, IsId W i) ∧ text x = dots (l.map text) := by
  induction h with
  | nil => simp [dots, text]
  | @cons t i r l ht hi hr ih =>
    obtain ⟨h1, c, rfl, hcc⟩ := hc.tail (by rw [ht]; decide)
    obtain ⟨h2, h3⟩ := h1.append hr.head
    obtain ⟨h4, h5⟩ := ih h3
    obtain rfl := byte_of (hcc.trans ht)
    refine ⟨?_, ?_⟩
    · intro j hj
      simp only [List.map_cons, List.mem_cons] at hj
      rcases hj with rfl | hj
      · exact hi.str h2
      · exact h4 j hj
    · rw [text_cons, text_append, h5]
      simp [dots]

theorem TMore.str {x l} (h : TMore W x l) (hc : Clean x) :
    (∀ p ∈ l, IsGap (text p.1) ∧ IsId W (text p.2)) ∧
      text x = (l.map fun p => (text p.1, text p.2)).flatMap (fun p => 0x2C :: (p.1 ++ p.2)) := by
  induction h with
  | nil => simp [text]
  | @cons t w i r l ht hw hi hr ih =>
    obtain ⟨h1, c, rfl, hcc⟩ := hc.tail (by rw [ht]; decide)
    obtain rfl := byte_of (hcc.trans ht)
    have hg : IsGap (text w) ∧ Clean (i ++ r) := by
      rcases hw with rfl | ⟨u, rfl, hu⟩
      · exact ⟨.inl rfl, h1⟩
      · have hua : u.1 < 0x80 := by
          simp only [isSpace, Bool.or_eq_true, decide_eq_true_eq] at hu
          omega
        obtain ⟨h2, c, rfl, _⟩ := Clean.tail (t := u) (y := i ++ r) h1 hua
        exact ⟨.inr ⟨c, by simp [text], hu⟩, h2⟩
    obtain ⟨h2, h3⟩ := hg.2.append hr.headA
    obtain ⟨h4, h5⟩ := ih h3
    refine ⟨?_, ?_⟩
    · intro j hj
      rcases List.mem_cons.1 hj with rfl | hj
      · exact ⟨hg.1, hi.str h2⟩
      · exact h4 j hj
    · rw [text_cons, text_append, text_append, h5]
      simp

/-- A string starts with an ASCII byte or is empty. -/
def AsciiHead (s : Str) : Prop := ∀ c r, s = c :: r → c.toNat < 0x80

theorem decode_append' (a : Str) {b : Str} (h : AsciiHead b) : decode (a ++ b) = decode a ++ decode b := by
  cases b with
  | nil => rw [List.append_nil, decode_nil, List.append_nil]
  | cons c r => exact decode_append a r (h c r rfl)

theorem dots_head (l : List Str) : AsciiHead (dots l) := by
  rintro c r h
  cases l with
  | nil => cases h
  | cons i l => simp [dots] at h; rw [← h.1]; decide

theorem IsId.tid {s} (h : IsId W s) : TId W (decode s) := by
  refine ⟨?_, h.2⟩
  intro h0
  have := text_decode s
  rw [h0] at this
  exact h.1 this.symm

theorem dots_tok {l : List Str} (h : ∀ i ∈ l, IsId W i) : TDots W (decode (dots l)) (l.map decode) := by
  induction l with
  | nil => exact .nil
  | cons i l ih =>
    have e : dots (i :: l) = 0x2E :: (i ++ dots l) := by simp [dots]
    rw [e, decode_ascii (by decide), decode_append' i (dots_head l)]
    exact .cons (by decide) (h i (by simp)).tid (ih fun j hj => h j (by simp [hj]))

def more (l : List (Str × Str)) : Str := l.flatMap (fun p => 0x2C :: (p.1 ++ p.2))

theorem more_head (l : List (Str × Str)) : AsciiHead (more l) := by
  rintro c r h
  cases l with
  | nil => cases h
  | cons i l => simp [more] at h; rw [← h.1]; decide

theorem gap_decode {w : Str} (h : IsGap w) (s : Str) : decode (w ++ s) = decode w ++ decode s ∧
    (decode w = [] ∨ ∃ u, decode w = [u] ∧ isSpace u.1 = true) := by
  rcases h with rfl | ⟨c, rfl, hc⟩
  · exact ⟨rfl, .inl rfl⟩
  · have hca : c.toNat < 0x80 := by
      simp only [isSpace, Bool.or_eq_true, decide_eq_true_eq] at hc
      omega
    refine ⟨?_, .inr ⟨(c.toNat, [c]), ?_, hc⟩⟩
    · rw [List.singleton_append, decode_ascii hca, decode_ascii hca]; rfl
    · rw [decode_ascii hca]; rfl

theorem more_tok {l : List (Str × Str)} (h : ∀ p ∈ l, IsGap p.1 ∧ IsId W p.2) :
    TMore W (decode (more l)) (l.map fun p => (decode p.1, decode p.2)) := by
  induction l with
  | nil => exact .nil
  | cons p l ih =>
    have e : more (p :: l) = 0x2C :: (p.1 ++ (p.2 ++ more l)) := by simp [more]
    obtain ⟨h1, h2⟩ := h p (by simp)
    obtain ⟨h3, h4⟩ := gap_decode h1 (p.2 ++ more l)
    rw [e, decode_ascii (by decide), h3, decode_append' p.2 (more_head l)]
    exact .cons (by decide) h4 h2.tid (ih fun j hj => h j (by simp [hj]))

/-- The runes of a registration string. -/
theorem RegString.shape {g : RegString} (h : g.OK W) :
    Shape W (decode g.render) (decode g.name) (g.insts.map fun p => decode (p.1 ++ more p.2)) (decode (dots g.post)) := by
  obtain ⟨h1, h2, h3, h4⟩ := h
  have hname : decode g.name = decode g.first ++ decode (dots g.pre) := decode_append' _ (dots_head _)
  refine ⟨⟨_, _, _, h1.tid, dots_tok h2, hname⟩, ⟨_, dots_tok h3⟩, ?_, ?_⟩
  · intro x hx
    rw [Option.map_eq_some_iff] at hx
    obtain ⟨p, hp, rfl⟩ := hx
    obtain ⟨h5, h6⟩ := h4 p.1 p.2 hp
    exact ⟨_, _, _, h5.tid, more_tok h6, decode_append' _ (more_head _)⟩
  · unfold RegString.render
    cases hg : g.insts with
    | none =>
      simp only [Option.map_none, List.append_nil]
      exact decode_append' _ (dots_head _)
    | some p =>
      obtain ⟨i, m⟩ := p
      simp only [Option.map_some]
      refine ⟨(0x5B, [0x5B]), (0x5D, [0x5D]), rfl, rfl, ?_⟩
      have e : g.name ++ 0x5B :: (i ++ m.flatMap (fun p => 0x2C :: (p.1 ++ p.2)) ++ [0x5D]) ++ dots g.post =
          g.name ++ 0x5B :: ((i ++ more m) ++ 0x5D :: dots g.post) := by simp [more]
      rw [e, decode_append _ _ (by decide), decode_ascii (by decide), decode_append _ _ (by decide),
        decode_ascii (by decide)]
      rfl

/-- Every match of the pattern on a string comes from a registration string. -/
theorem RegString.of_shape {s : Str} {A I B} (h : Shape W (decode s) A I B) :
    ∃ g : RegString, g.OK W ∧ g.render = s ∧ g.name = text A ∧ dots g.post = text B ∧
      g.insts.map (fun p => p.1 ++ more p.2) = I.map text := by
  obtain ⟨⟨i, d, l, hi, hd, rfl⟩, ⟨lB, hB⟩, hI, he⟩ := h
  have hs := text_decode s
  have hcl := clean_decode s
  have hAB : ∀ {A : List Tok}, Clean (i ++ d) → Clean A → TDots W A lB →
      (IsId W (text i) ∧ (∀ j ∈ l.map text, IsId W j) ∧ (∀ j ∈ lB.map text, IsId W j)) ∧
      text i ++ dots (l.map text) = text (i ++ d) ∧ dots (lB.map text) = text A := by
    intro A hA hB' hd'
    obtain ⟨k1, k2⟩ := hA.append hd.head
    obtain ⟨k3, k4⟩ := hd.str k2
    obtain ⟨k5, k6⟩ := hd'.str hB'
    exact ⟨⟨hi.str k1, k3, k5⟩, by rw [text_append, k4], k6.symm⟩
  cases I with
  | none =>
    unfold ShapeEq at he
    rw [he] at hs hcl
    obtain ⟨c1, c2⟩ := hcl.append hB.head
    obtain ⟨⟨k1, k2, k3⟩, k4, k5⟩ := hAB c1 c2 hB
    refine ⟨⟨text i, l.map text, none, lB.map text⟩, ⟨k1, k2, k3, by intro _ _ h; cases h⟩, ?_, k4, k5, rfl⟩
    unfold RegString.render RegString.name
    dsimp only
    rw [List.append_nil, k4, k5, ← hs, text_append (i ++ d)]
  | some x =>
    obtain ⟨lb, rb, h1, h2, h3⟩ := he
    obtain ⟨i1, r1, l1, m1, m2, rfl⟩ := hI x rfl
    rw [h3] at hs hcl
    obtain ⟨c1, c2⟩ := hcl.append (by rintro t r h; cases h; rw [h1]; decide)
    obtain ⟨c3, cb, rfl, hcb⟩ := c2.tail (by rw [h1]; decide)
    obtain ⟨c4, c5⟩ := c3.append (by rintro t r h; cases h; rw [h2]; decide)
    obtain ⟨c6, cc, rfl, hcc⟩ := c5.tail (by rw [h2]; decide)
    obtain rfl := byte_of (hcb.trans h1)
    obtain rfl := byte_of (hcc.trans h2)
    obtain ⟨c7, c8⟩ := c4.append m2.headA
    obtain ⟨⟨k1, k2, k3⟩, k4, k5⟩ := hAB c1 c6 hB
    obtain ⟨n1, n2⟩ := m2.str c8
    refine ⟨⟨text i, l.map text, some (text i1, l1.map fun p => (text p.1, text p.2)), lB.map text⟩,
      ⟨k1, k2, k3, ?_⟩, ?_, k4, k5, ?_⟩
    · intro a b hab
      obtain ⟨rfl, rfl⟩ := Prod.mk.inj (Option.some.inj hab)
      refine ⟨m1.str c7, ?_⟩
      intro p hp
      obtain ⟨q, hq, rfl⟩ := List.mem_map.1 hp
      exact n1 q hq
    · unfold RegString.render RegString.name
      dsimp only
      rw [← n2, k4, k5, ← hs, text_append (i ++ d), text_cons, text_append (i1 ++ r1), text_append i1, text_cons]
      simp
    · simp only [Option.map_some]
      rw [text_append, n2]; rfl

theorem more_texts (l : List (Str × Str)) :
    ((l.map fun p => (decode p.1, decode p.2)).map fun p => text p.2) = l.map (·.2) := by
  rw [List.map_map]
  apply List.map_congr_left
  intro p _
  exact text_decode p.2

theorem parse_of_render {g : RegString} (h : g.OK W) : parseString W g.render = some g.result := by
  have hsh := RegString.shape h
  obtain ⟨c0, h0⟩ := M_of_shape hsh
  unfold parseString
  cases hm : matchAll (patternRx W) g.render with
  | none => exact absurd h0 (matchAll_none hm c0)
  | some c =>
    obtain ⟨A, I, B, h1, h2, h3, h4⟩ := shape_of_M (matchAll_some hm)
    obtain ⟨e1, e2, e3⟩ := hsh.unique h1
    dsimp only
    have hmetric : get c 1 ++ get c 10 = g.name ++ dots g.post := by
      rw [h2, h3, ← text_append, ← e2, text_append, text_decode, text_decode]
    rw [hmetric]
    unfold RegString.result
    cases hg : g.insts with
    | none =>
      rw [hg] at e1
      obtain rfl : I = none := e1.symm
      rw [if_neg (fun h => h h4)]
      rfl
    | some p =>
      obtain ⟨i, m⟩ := p
      rw [hg] at e1
      obtain rfl : I = some (decode (i ++ more m)) := e1.symm
      have h4' : Re.get c 5 = i ++ more m := h4.trans (text_decode _)
      obtain ⟨k1, k2⟩ := h.2.2.2 i m hg
      obtain ⟨e4, e5⟩ := e3 (by rw [hg]; simp)
      have hne : i ++ more m ≠ [] := by simp [k1.1]
      rw [h4', if_pos hne, h2, ← e4, text_decode]
      have hf : findAll (idRx W) (i ++ more m) = i :: m.map (·.2) := by
        unfold findAll
        have := findAllN_insts k1.tid (more_tok k2) (decode (i ++ more m)).length
          (by rw [decode_append' _ (more_head _)]; exact Nat.le_refl _)
        rw [← decode_append' _ (more_head _)] at this
        rw [this, text_decode, more_texts]
      rw [hf]
      rfl

end

/-- **C30.** A string is accepted exactly if it is a registration string, and then metric name, domain name and
instances are the ones written in it. -/
theorem C30_grammar (W : WordClass) (s : Str) (res : Str × Str × Option (List Str)) :
    parseString W s = some res ↔ ∃ g : RegString, g.OK W ∧ g.render = s ∧ g.result = res := by
  constructor
  · intro h
    cases hm : matchAll (patternRx W) s with
    | none =>
      unfold parseString at h
      rw [hm] at h; cases h
    | some c =>
      obtain ⟨A, I, B, h1, _⟩ := shape_of_M (matchAll_some hm)
      obtain ⟨g, h2, h3, _⟩ := RegString.of_shape h1
      refine ⟨g, h2, h3, ?_⟩
      have := parse_of_render h2
      rw [h3, h] at this
      exact (Option.some.inj this).symm
  · rintro ⟨g, h1, rfl, rfl⟩
    exact parse_of_render h1

/-- "a[b]": the metric a, the domain a with the instance b. -/
example : parseString asciiClass [0x61, 0x5B, 0x62, 0x5D] = some ([0x61], [0x61], some [[0x62]]) := by decide

/-- Anything else is an error. -/
theorem C30_rejected (W : WordClass) (s : Str) (h : ∀ g : RegString, g.OK W → g.render ≠ s) : parseString W s = none := by
  cases hp : parseString W s with
  | none => rfl
  | some r =>
    obtain ⟨g, h1, h2, _⟩ := (C30_grammar W s r).1 hp
    exact absurd h2 (h g h1)

/-- "a.b[c, d].e" -/
example : parseString asciiClass [0x61, 0x2E, 0x62, 0x5B, 0x63, 0x2C, 0x20, 0x64, 0x5D, 0x2E, 0x65] =
    some ([0x61, 0x2E, 0x62, 0x2E, 0x65], [0x61, 0x2E, 0x62], some [[0x63], [0x64]]) := by decide
/-- "a.b", "a..b", "a[]", "a[b][c]", "[b]", "a\xff" -/
example : parseString asciiClass [0x61, 0x2E, 0x62] = some ([0x61, 0x2E, 0x62], [], none) ∧
    parseString asciiClass [0x61, 0x2E, 0x2E, 0x62] = none ∧ parseString asciiClass [0x61, 0x5B, 0x5D] = none ∧
    parseString asciiClass [0x61, 0x5B, 0x62, 0x5D, 0x5B, 0x63, 0x5D] = none ∧
    parseString asciiClass [0x5B, 0x62, 0x5D] = none ∧ parseString asciiClass [0x61, 0xFF] = none := by decide
/-- A registration string that meets the hypotheses. -/
example : (RegString.mk [0x61] [[0x62]] (some ([0x63], [([0x20], [0x64])])) [[0x65]]).OK asciiClass := by
  refine ⟨⟨by decide, by decide⟩, ?_, ?_, ?_⟩
  · intro i hi; rw [List.mem_singleton] at hi; subst hi; exact ⟨by decide, by decide⟩
  · intro i hi; rw [List.mem_singleton] at hi; subst hi; exact ⟨by decide, by decide⟩
  · intro i m h
    obtain ⟨rfl, rfl⟩ := Prod.mk.inj (Option.some.inj h)
    refine ⟨⟨by decide, by decide⟩, ?_⟩
    intro p hp; rw [List.mem_singleton] at hp; subst hp
    exact ⟨.inr ⟨0x20, rfl, by decide⟩, by decide, by decide⟩

end Speed
