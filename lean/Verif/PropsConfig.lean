import Mathlib.Data.List.TakeWhile
import Mathlib.Data.List.Infix
import Mathlib.Data.List.Induction
import Verif.Config
/-
Properties of the configuration (C50, C51) and of the file location (C39).
-/
namespace Speed
open Re

/-! ### C50 -/

/-- A byte of a key: `A`-`Z`, `0`-`9` or `_`. -/
def KeyByte (b : Byte) : Prop := (0x41 ≤ b.toNat ∧ b.toNat ≤ 0x5A) ∨ (0x30 ≤ b.toNat ∧ b.toNat ≤ 0x39) ∨ b.toNat = 0x5F

/-- The line assigns `val` to `key`: the leftmost maximal run of key bytes that is directly followed by '='. -/
def Assign (line key val : Str) : Prop :=
  ∃ pre, line = pre ++ key ++ 0x3D :: val ∧ key ≠ [] ∧ (∀ b ∈ key, KeyByte b) ∧
    (∀ a b, pre = a ++ [b] → ¬ KeyByte b) ∧
    (∀ a b c, pre ++ key = a ++ b :: 0x3D :: c → ¬ KeyByte b)

/-- Some key byte is directly followed by '='. -/
def HasKey (line : Str) : Prop := ∃ a b c, line = a ++ b :: 0x3D :: c ∧ KeyByte b

theorem keyChar_iff (b : Byte) : keyChar b.toNat = true ↔ KeyByte b := by
  unfold keyChar KeyByte
  simp only [Bool.or_eq_true, Bool.and_eq_true, decide_eq_true_eq]
  omega

theorem keyChar_ascii {n : Nat} (h : keyChar n = true) : n < 0x80 := by
  unfold keyChar at h
  simp only [Bool.or_eq_true, Bool.and_eq_true, decide_eq_true_eq] at h
  omega

/-- A match of the expression at the start of `ts`. -/
def At (ts : List Tok) : Prop := ∃ k t r, ts = k ++ t :: r ∧ k ≠ [] ∧ (∀ u ∈ k, keyChar u.1 = true) ∧ t.1 = 0x3D

theorem head_flatMap {α β : Type} (l : List α) (f : α → List β) (e : α) (he : e ∈ l) (h : ∀ x ∈ l, x ≠ e → f x = []) :
    (l.flatMap f).head? = (f e).head? := by
  induction l with
  | nil => cases he
  | cons x l ih =>
    rw [List.flatMap_cons]
    by_cases hx : x = e
    · subst hx
      cases hf : f x with
      | nil =>
        rw [List.nil_append]
        rcases List.mem_cons.1 he with _ | he'
        · by_cases hm : x ∈ l
          · rw [ih hm (fun y hy => h y (by simp [hy])), hf]
          · have : l.flatMap f = [] := by
              rw [List.flatMap_eq_nil_iff]
              intro y hy
              exact h y (by simp [hy]) (by rintro rfl; exact hm hy)
            rw [this]
        · rw [ih he' (fun y hy => h y (by simp [hy])), hf]
      | cons a b => rfl
    · rw [h x (by simp) hx, List.nil_append]
      rcases List.mem_cons.1 he with rfl | he'
      · exact absurd rfl hx
      · exact ih he' (fun y hy => h y (by simp [hy]))

theorem M_plus {p : Nat → Bool} {x c c'} : M (plus (.chr p)) x c c' ↔ (x ≠ [] ∧ ∀ t ∈ x, p t.1 = true) ∧ c' = c := by
  constructor
  · intro h
    obtain ⟨y, z, c1, rfl, h1, h2⟩ := M_cat h
    cases h1 with
    | chr hp =>
      obtain ⟨h3, rfl⟩ := M_star_chr.1 h2
      refine ⟨⟨by simp, ?_⟩, rfl⟩
      intro t ht
      simp only [List.cons_append, List.nil_append, List.mem_cons] at ht
      rcases ht with rfl | ht
      · exact hp
      · exact h3 t ht
  · rintro ⟨⟨hne, hall⟩, rfl⟩
    cases x with
    | nil => exact absurd rfl hne
    | cons t x => exact .cat (x := [t]) (.chr (hall t (by simp))) (M_star_chr.2 ⟨fun u hu => hall u (by simp [hu]), rfl⟩)

theorem run_eq (inp : List Tok) (c : Caps) :
    run (.chr fun c => decide (c = 0x3D)) inp c = match inp with
      | [] => []
      | t :: r => if t.1 = 0x3D then [(r, c)] else [] := by
  cases inp with
  | nil => rfl
  | cons t r => simp [run]

theorem run_at {k r : List Tok} {t : Tok} (hne : k ≠ []) (hk : ∀ u ∈ k, keyChar u.1 = true) (ht : t.1 = 0x3D)
    (hr : ∀ u ∈ r, u.1 ≠ 0x0A) : (run confRx (k ++ t :: r) []).head? = some ([], [(2, text r), (1, text k)]) := by
  unfold confRx
  rw [run]
  have h0 : keyChar 0x3D = false := by decide
  rw [head_flatMap _ _ (t :: r, [(1, text k)])]
  · dsimp only
    rw [run, run_eq]
    dsimp only
    rw [if_pos ht, List.flatMap_cons, List.flatMap_nil, List.append_nil]
    dsimp only
    rw [run, List.head?_map, run, starRun_chr_head _ _ _ _ (Nat.le_refl _)]
    have : r.dropWhile (fun t => decide (t.1 ≠ 0x0A)) = [] := by
      rw [List.dropWhile_eq_nil_iff]
      intro u hu; simpa using hr u hu
    rw [this]
    simp
  · rw [run_computes]
    exact ⟨k, rfl, .cap (M_plus.2 ⟨⟨hne, hk⟩, rfl⟩)⟩
  · intro p hp hpne
    rw [run_computes] at hp
    obtain ⟨x, hx, hm⟩ := hp
    obtain ⟨c1, hm1, hc⟩ := M_cap hm
    obtain ⟨⟨hxne, hxk⟩, rfl⟩ := M_plus.1 hm1
    rw [run, run_eq]
    cases hp1 : p.1 with
    | nil => rfl
    | cons u q =>
      dsimp only
      by_cases hu : u.1 = 0x3D
      · -- then it is the same match
        exfalso
        apply hpne
        rw [hp1] at hx
        obtain ⟨e1, e2⟩ := split_unique (n := 0x3D) hx ht hu (fun v hv => by
          intro e; have := hk v hv; rw [e, h0] at this; cases this) (fun v hv => by
          intro e; have := hxk v hv; rw [e, h0] at this; cases this)
        subst e1 e2
        have e3 : t = u := by simpa using hx
        have : p = (p.1, p.2) := rfl
        rw [this, hp1, hc, e3]
      · rw [if_neg hu]; rfl

theorem run_not {ts : List Tok} (h : ¬ At ts) : run confRx ts [] = [] := by
  rcases hl : run confRx ts [] with _ | ⟨p, l⟩
  · rfl
  · exfalso
    apply h
    have hp : p ∈ run confRx ts [] := by rw [hl]; simp
    rw [run_computes] at hp
    obtain ⟨x, hx, hm⟩ := hp
    obtain ⟨y, z, c1, rfl, h1, h2⟩ := M_cat hm
    obtain ⟨c2, h3, rfl⟩ := M_cap h1
    obtain ⟨⟨h4, h5⟩, _⟩ := M_plus.1 h3
    obtain ⟨y', z', c3, rfl, h6, h7⟩ := M_cat h2
    cases h6 with
    | @chr _ t _ ht =>
      exact ⟨y, t, z' ++ p.1, by rw [hx]; simp, h4, h5, by simpa using ht⟩

/-- What `find` finds: the first place where the expression matches. -/
theorem find_conf (ts : List Tok) (hnl : ∀ u ∈ ts, u.1 ≠ 0x0A) :
    (∃ pre k t r, ts = pre ++ k ++ t :: r ∧ k ≠ [] ∧ (∀ u ∈ k, keyChar u.1 = true) ∧ t.1 = 0x3D ∧
      (∀ y z, pre = y ++ z → z ≠ [] → ¬ At (z ++ k ++ t :: r)) ∧
      (find confRx ts).map (fun m => (get m.2.2 1, get m.2.2 2)) = some (text k, text r)) ∨
    ((∀ y z, ts = y ++ z → ¬ At z) ∧ find confRx ts = none) := by
  induction ts with
  | nil =>
    right
    have hn : ∀ z : List Tok, [] = z → ¬ At z := by
      rintro z rfl ⟨k, t, r, h, _⟩
      simp at h
    refine ⟨fun y z h => hn z ?_, ?_⟩
    · have := congrArg List.length h
      simp only [List.length_nil, List.length_append] at this
      exact (List.length_eq_zero_iff.1 (by omega)).symm
    · unfold find; rw [run_not (hn [] rfl)]; rfl
  | cons a ts ih =>
    by_cases hat : At (a :: ts)
    · left
      obtain ⟨k, t, r, h1, h2, h3, h4⟩ := hat
      refine ⟨[], k, t, r, by simpa using h1, h2, h3, h4, ?_, ?_⟩
      · intro y z h hz
        have := congrArg List.length h
        simp only [List.length_nil, List.length_append] at this
        exact absurd (List.length_eq_zero_iff.1 (by omega)) hz
      · unfold find
        rw [h1, run_at h2 h3 h4 (fun u hu => hnl u (by rw [h1]; simp [hu]))]
        rfl
    · have hf : find confRx (a :: ts) = find confRx ts := by
        rw [find, run_not hat]; rfl
      rw [hf]
      rcases ih (fun u hu => hnl u (by simp [hu])) with ⟨pre, k, t, r, h1, h2, h3, h4, h5, h6⟩ | ⟨h1, h2⟩
      · left
        refine ⟨a :: pre, k, t, r, by rw [h1]; simp, h2, h3, h4, ?_, h6⟩
        intro y z h hz
        cases y with
        | nil =>
          rw [List.nil_append] at h
          subst h
          have : a :: pre ++ k ++ t :: r = a :: ts := by rw [h1]; simp
          rw [this]; exact hat
        | cons b y =>
          simp only [List.cons_append, List.cons.injEq] at h
          exact h5 y z h.2 hz
      · right
        refine ⟨?_, h2⟩
        intro y z h
        cases y with
        | nil => rw [List.nil_append] at h; rw [← h]; exact hat
        | cons b y =>
          simp only [List.cons_append, List.cons.injEq] at h
          exact h1 y z h.2

theorem decode_key {k : Str} (h : ∀ b ∈ k, KeyByte b) : ∀ u ∈ decode k, keyChar u.1 = true := by
  induction k with
  | nil => intro u hu; cases hu
  | cons b k ih =>
    intro u hu
    have hb := (keyChar_iff b).2 (h b (by simp))
    rw [decode_ascii (keyChar_ascii hb)] at hu
    rcases List.mem_cons.1 hu with rfl | hu
    · exact hb
    · exact ih (fun b hb => h b (by simp [hb])) u hu

theorem decode_nl {s : Str} (h : 0x0A ∉ s) : ∀ u ∈ decode s, u.1 ≠ 0x0A := by
  intro u hu he
  obtain ⟨x, y, hxy⟩ := List.append_of_mem hu
  obtain ⟨_, _, c, hc, _⟩ := decode_split hxy (by omega)
  apply h
  rw [← text_decode s, hxy, text_append, text_cons, hc]
  have : c = 0x0A := by
    rw [hc] at he
    exact byte_of he
  simp [this]

theorem text_ne {x : List Tok} (h : Clean x) (hne : x ≠ []) : text x ≠ [] := by
  intro h0
  unfold Clean at h
  rw [h0] at h
  exact hne h.symm

theorem Assign.unique {l k v k' v' : Str} (h : Assign l k v) (h' : Assign l k' v') : k = k' ∧ v = v' := by
  -- the two matches
  have key : ∀ {l k v k' v' pre pre' : Str}, l = pre ++ k ++ 0x3D :: v → l = pre' ++ k' ++ 0x3D :: v' → k ≠ [] → k' ≠ [] →
      (∀ b ∈ k, KeyByte b) → (∀ b ∈ k', KeyByte b) →
      (∀ a b c, pre ++ k = a ++ b :: 0x3D :: c → ¬ KeyByte b) → (pre' ++ k').length ≥ (pre ++ k).length → 
      (∀ a b c, pre' ++ k' = a ++ b :: 0x3D :: c → ¬ KeyByte b) → pre ++ k = pre' ++ k' ∧ v = v' := by
    intro l k v k' v' pre pre' e e' hne hne' hk hk' h1 hlen h2
    by_cases hlt : (pre ++ k).length < (pre' ++ k').length
    · exfalso
      -- the first '=' lies inside pre' ++ k'
      obtain ⟨k0, b, rfl⟩ : ∃ k0 b, k = k0 ++ [b] := by
        rcases List.eq_nil_or_concat k with h | ⟨k0, b, h⟩
        · exact absurd h hne
        · exact ⟨k0, b, by rw [h, List.concat_eq_append]⟩
      have hpre : pre ++ (k0 ++ [b]) ++ [0x3D] <+: pre' ++ k' := by
        have p1 : pre ++ (k0 ++ [b]) ++ [0x3D] <+: l := ⟨v, by rw [e]; simp⟩
        have p2 : pre' ++ k' <+: l := ⟨0x3D :: v', by rw [e']⟩
        exact List.prefix_of_prefix_length_le p1 p2 (by simp at hlt ⊢; omega)
      obtain ⟨c, hc⟩ := hpre
      exact h2 (pre ++ k0) b c (by rw [← hc]; simp) (hk b (by simp))
    · have hl : (pre ++ k).length = (pre' ++ k').length := by omega
      obtain ⟨e1, e2⟩ := List.append_inj (e.symm.trans e') hl
      exact ⟨e1, by simpa using e2⟩
  obtain ⟨p, e, hne, hk, hmax, hfst⟩ := h
  obtain ⟨p', e', hne', hk', hmax', hfst'⟩ := h'
  have hb : p ++ k = p' ++ k' ∧ v = v' := by
    by_cases hle : (p' ++ k').length ≥ (p ++ k).length
    · exact key e e' hne hne' hk hk' hfst hle hfst'
    · obtain ⟨e1, e2⟩ := key e' e hne' hne hk' hk hfst' (by omega) hfst
      exact ⟨e1.symm, e2.symm⟩
  refine ⟨?_, hb.2⟩
  -- maximality
  have go : ∀ {p k p' k' : Str}, p ++ k = p' ++ k' → (∀ b ∈ k, KeyByte b) → (∀ a b, p' = a ++ [b] → ¬ KeyByte b) →
      ¬ p.length < p'.length := by
    intro p k p' k' e hk hmax hlt
    obtain ⟨a, b, rfl⟩ : ∃ a b, p' = a ++ [b] := by
      rcases List.eq_nil_or_concat p' with h | ⟨a, b, h⟩
      · rw [h] at hlt; simp at hlt
      · exact ⟨a, b, by rw [h, List.concat_eq_append]⟩
    refine hmax a b rfl (hk b ?_)
    have hp : p <+: a := by
      have p1 : p <+: p ++ k := ⟨k, rfl⟩
      have p2 : a <+: p ++ k := ⟨[b] ++ k', by rw [e]; simp⟩
      exact List.prefix_of_prefix_length_le p1 p2 (by simp at hlt; omega)
    obtain ⟨c, rfl⟩ := hp
    simp only [List.append_assoc, List.append_cancel_left_eq] at e
    rw [e]; simp
  have hl : p.length = p'.length := by
    have h1 := go hb.1 hk hmax'
    have h2 := go hb.1.symm hk' hmax
    omega
  exact (List.append_inj hb.1 hl).2

theorem matchLine_sound {l k v : Str} (hnl : 0x0A ∉ l) (h : matchLine l = some (k, v)) : Assign l k v := by
  rcases find_conf (decode l) (decode_nl hnl) with ⟨pre, K, t, r, h1, h2, h3, h4, h5, h6⟩ | ⟨_, h2⟩
  · unfold matchLine at h
    rw [h6] at h
    simp only [Option.some.injEq, Prod.mk.injEq] at h
    obtain ⟨rfl, rfl⟩ := h
    obtain ⟨c1, c2, b, hb, hb'⟩ := decode_split h1 (by omega)
    have hKh : ∀ u q, K = u :: q → u.1 < 0x80 := fun u q e => keyChar_ascii (h3 u (by rw [e]; simp))
    obtain ⟨cp, cK⟩ := Clean.append (x := pre) (y := K) c1 hKh
    have hb3 : b = 0x3D := by rw [hb] at h4; exact byte_of h4
    subst hb3
    have hline : l = text pre ++ text K ++ 0x3D :: text r := by
      rw [← text_decode l, h1, text_append, text_append, text_cons, hb]; rfl
    have hKb : ∀ b ∈ text K, KeyByte b := by
      intro b hb
      unfold text at hb
      rw [List.mem_flatMap] at hb
      obtain ⟨u, hu, hbu⟩ := hb
      obtain ⟨x, y, hxy⟩ := List.append_of_mem hu
      have huk := h3 u hu
      obtain ⟨_, _, c, hc, _⟩ := decode_split (s := text K) (by rw [cK]; exact hxy) (keyChar_ascii huk)
      rw [hc] at hbu huk
      simp only [List.mem_singleton] at hbu
      subst hbu
      exact (keyChar_iff b).1 huk
    refine ⟨text pre, hline, text_ne cK h2, hKb, ?_, ?_⟩
    · intro a b hab hkb
      have hkc := (keyChar_iff b).2 hkb
      have : pre = decode a ++ [(b.toNat, [b])] := by
        rw [← show decode (text pre) = pre from cp, hab, decode_append a [] (keyChar_ascii hkc),
          decode_ascii (keyChar_ascii hkc)]
        rfl
      refine h5 _ _ this (by simp) ⟨(b.toNat, [b]) :: K, t, r, by simp, by simp, ?_, h4⟩
      intro u hu
      rcases List.mem_cons.1 hu with rfl | hu
      · exact hkc
      · exact h3 u hu
    · intro a b c hab hkb
      have hkc := (keyChar_iff b).2 hkb
      have hdec : pre ++ K = (decode a ++ [(b.toNat, [b])]) ++ (0x3D, [0x3D]) :: decode c := by
        have e0 : decode (text (pre ++ K)) = pre ++ K := c1
        rw [text_append, hab, decode_append a _ (keyChar_ascii hkc), decode_ascii (keyChar_ascii hkc),
          decode_ascii (by decide)] at e0
        rw [← e0]; simp
      -- the '=' is in `pre`
      have hlen : (decode a ++ [(b.toNat, [b])]).length < pre.length := by
        by_contra hge
        have : (0x3D, [0x3D]) ∈ K := by
          have hp : pre <+: decode a ++ [(b.toNat, [b])] :=
            List.prefix_of_prefix_length_le (l₃ := pre ++ K) ⟨K, rfl⟩ ⟨_, hdec.symm⟩ (by omega)
          obtain ⟨w, hw⟩ := hp
          rw [← hw, List.append_assoc, List.append_cancel_left_eq] at hdec
          rw [hdec]; simp
        have := h3 _ this
        revert this; decide
      have hp : decode a ++ [(b.toNat, [b])] ++ [(0x3D, [0x3D])] <+: pre :=
        List.prefix_of_prefix_length_le (l₃ := pre ++ K) ⟨decode c, by rw [hdec]; simp⟩ ⟨K, rfl⟩ (by simp at hlen ⊢; omega)
      obtain ⟨w, hw⟩ := hp
      refine h5 (decode a) ((b.toNat, [b]) :: (0x3D, [0x3D]) :: w) (by rw [← hw]; simp) (by simp)
        ⟨[(b.toNat, [b])], (0x3D, [0x3D]), w ++ K ++ t :: r, by simp, by simp, by simpa using hkc, rfl⟩
  · unfold matchLine at h
    rw [h2] at h; cases h

theorem matchLine_none {l : Str} (hnl : 0x0A ∉ l) (h : matchLine l = none) : ¬ HasKey l := by
  rcases find_conf (decode l) (decode_nl hnl) with ⟨pre, K, t, r, h1, h2, h3, h4, h5, h6⟩ | ⟨h1, h2⟩
  · unfold matchLine at h; rw [h6] at h; cases h
  · rintro ⟨a, b, c, rfl, hb⟩
    have hkc := (keyChar_iff b).2 hb
    refine h1 (decode a) ((b.toNat, [b]) :: (0x3D, [0x3D]) :: decode c) ?_
      ⟨[(b.toNat, [b])], (0x3D, [0x3D]), decode c, rfl, by simp, by simpa using hkc, rfl⟩
    rw [decode_append a _ (keyChar_ascii hkc), decode_ascii (keyChar_ascii hkc), decode_ascii (by decide)]
    rfl

theorem Assign.hasKey {l k v} (h : Assign l k v) : HasKey l := by
  obtain ⟨p, e, hne, hk, _, _⟩ := h
  rcases List.eq_nil_or_concat k with h | ⟨k0, b, h⟩
  · exact absurd h hne
  · rw [List.concat_eq_append] at h
    subst h
    exact ⟨p ++ k0, b, v, by rw [e]; simp, hk b (by simp)⟩

/-- **C50**, one line: the assignment of the specification, or none if no key byte is followed by '='. -/
theorem C50_line {l : Str} (hnl : 0x0A ∉ l) :
    (∀ k v, matchLine l = some (k, v) ↔ Assign l k v) ∧ (matchLine l = none ↔ ¬ HasKey l) := by
  have h1 : ∀ k v, matchLine l = some (k, v) ↔ Assign l k v := by
    intro k v
    refine ⟨matchLine_sound hnl, fun h => ?_⟩
    cases hm : matchLine l with
    | none => exact absurd h.hasKey (matchLine_none hnl hm)
    | some p =>
      obtain ⟨e1, e2⟩ := h.unique (matchLine_sound hnl (k := p.1) (v := p.2) hm)
      rw [e1, e2]
  refine ⟨h1, matchLine_none hnl, fun h => ?_⟩
  cases hm : matchLine l with
  | none => rfl
  | some p => exact absurd ((h1 p.1 p.2).1 hm).hasKey h

/-- `x PCP_A=1=2`: the key PCP_A, the value 1=2; `A = b`: nothing. -/
example : matchLine [0x78, 0x20, 0x50, 0x43, 0x50, 0x5F, 0x41, 0x3D, 0x31, 0x3D, 0x32] =
    some ([0x50, 0x43, 0x50, 0x5F, 0x41], [0x31, 0x3D, 0x32]) ∧ matchLine [0x41, 0x20, 0x3D, 0x20, 0x62] = none := by decide

/-- A file: lines, each with its newline, and something after the last newline (perhaps nothing). -/
def fileOf (ls : List Str) (last : Str) : Str := ls.flatMap (fun l => l ++ [0x0A]) ++ last

theorem rawLines_line (l s : Str) (h : 0x0A ∉ l) : rawLines (l ++ 0x0A :: s) = l :: rawLines s := by
  induction l with
  | nil => simp [rawLines]
  | cons c l ih =>
    simp only [List.mem_cons, not_or] at h
    rw [List.cons_append, rawLines, if_neg (fun e => h.1 e.symm), ih h.2]

theorem rawLines_last (l : Str) (h : 0x0A ∉ l) : rawLines l = if l = [] then [] else [l] := by
  induction l with
  | nil => rfl
  | cons c l ih =>
    simp only [List.mem_cons, not_or] at h
    rw [rawLines, if_neg (fun e => h.1 e.symm), ih h.2]
    by_cases hl : l = []
    · simp [hl]
    · simp [hl]

theorem rawLines_file (ls : List Str) (last : Str) (h : ∀ l ∈ ls, 0x0A ∉ l) (hl : 0x0A ∉ last) :
    rawLines (fileOf ls last) = ls ++ if last = [] then [] else [last] := by
  unfold fileOf
  induction ls with
  | nil => exact rawLines_last last hl
  | cons l ls ih =>
    rw [List.flatMap_cons, List.append_assoc, List.append_assoc, List.singleton_append,
      rawLines_line _ _ (h l (by simp)), ih (fun l hl => h l (by simp [hl]))]
    rfl

/-- Every file is of this form. -/
theorem fileOf_all (s : Str) : ∃ ls last, s = fileOf ls last ∧ (∀ l ∈ ls, 0x0A ∉ l) ∧ 0x0A ∉ last := by
  induction s with
  | nil => exact ⟨[], [], rfl, by simp, by simp⟩
  | cons c s ih =>
    obtain ⟨ls, last, h1, h2, h3⟩ := ih
    by_cases hc : c = 0x0A
    · exact ⟨[] :: ls, last, by rw [h1, hc]; simp [fileOf], by simpa using h2, h3⟩
    · cases ls with
      | nil => exact ⟨[], c :: last, by rw [h1]; simp [fileOf], by simp, by simpa using ⟨fun e => hc e.symm, h3⟩⟩
      | cons l ls =>
        refine ⟨(c :: l) :: ls, last, by rw [h1]; simp [fileOf], ?_, h3⟩
        intro x hx
        rcases List.mem_cons.1 hx with rfl | hx
        · simpa using ⟨fun e => hc e.symm, h2 l (by simp)⟩
        · exact h2 x (by simp [hx])

/-- `k` has value `v` after the lines: some line assigns it and no later line assigns `k`. -/
def LastAssign (lines : List Str) (k v : Str) : Prop :=
  ∃ l1 l l2, lines = l1 ++ l :: l2 ∧ Assign l k v ∧ ∀ l' ∈ l2, ∀ v', ¬ Assign l' k v'

theorem cfg_fold {lines : List Str} (h : ∀ l ∈ lines, 0x0A ∉ l) (k v : Str) :
    (lines.foldl Cfg.line []).get k = some v ↔ LastAssign lines k v := by
  induction lines using List.reverseRecOn generalizing v with
  | nil =>
    constructor
    · intro h; cases h
    · rintro ⟨l1, l, l2, e, _⟩; simp at e
  | append_singleton lines l ih =>
    rw [List.foldl_append]
    have hl := C50_line (h l (by simp))
    have ih' := fun v => ih (fun l hl => h l (by simp [hl])) (v := v)
    show (Cfg.line _ l).get k = some v ↔ _
    have split : LastAssign (lines ++ [l]) k v ↔ Assign l k v ∨ ((∀ v', ¬ Assign l k v') ∧ LastAssign lines k v) := by
      constructor
      · rintro ⟨l1, x, l2, e, ha, hn⟩
        rcases List.eq_nil_or_concat l2 with rfl | ⟨l3, y, rfl⟩
        · obtain ⟨_, e2⟩ := List.append_inj' e rfl
          simp only [List.cons.injEq, and_true] at e2
          subst e2
          exact .inl ha
        · rw [List.concat_eq_append, ← List.cons_append, ← List.append_assoc] at e
          obtain ⟨e1, e2⟩ := List.append_inj' e rfl
          simp only [List.cons.injEq, and_true] at e2
          subst e2
          exact .inr ⟨hn l (by simp), l1, x, l3, e1, ha, fun l' hl' => hn l' (by simp [hl'])⟩
      · rintro (ha | ⟨hn, l1, x, l2, e, ha, hn'⟩)
        · exact ⟨lines, l, [], rfl, ha, by simp⟩
        · refine ⟨l1, x, l2 ++ [l], by rw [e]; simp, ha, ?_⟩
          intro l' hl'
          rcases List.mem_append.1 hl' with hl' | hl'
          · exact hn' l' hl'
          · simp only [List.mem_singleton] at hl'
            subst hl'; exact hn
    rw [split]
    generalize lines.foldl Cfg.line [] = cf at ih'
    unfold Cfg.line
    cases hm : matchLine l with
    | none =>
      dsimp only
      rw [ih' v]
      have hno : ∀ k v', ¬ Assign l k v' := fun k v' ha => hl.2.1 hm ha.hasKey
      constructor
      · exact fun hf => .inr ⟨hno k, hf⟩
      · rintro (ha | ⟨_, hf⟩)
        · exact absurd ha (hno k v)
        · exact hf
    | some p =>
      dsimp only
      have hp := (hl.1 p.1 p.2).1 hm
      by_cases hk : p.1 = k
      · subst hk
        have : Cfg.get (p :: cf) p.1 = some p.2 := by simp [Cfg.get]
        rw [this]
        constructor
        · intro e; cases e; exact .inl hp
        · rintro (ha | ⟨hn, _⟩)
          · rw [(hp.unique ha).2]
          · exact absurd hp (hn p.2)
      · have : Cfg.get (p :: cf) k = Cfg.get cf k := by
          unfold Cfg.get; rw [List.find?_cons_of_neg (by simpa using hk)]
        rw [this, ih' v]
        constructor
        · exact fun hf => .inr ⟨fun v' ha => hk (hp.unique ha).1, hf⟩
        · rintro (ha | ⟨_, hf⟩)
          · exact absurd (hp.unique ha).1 hk
          · exact hf

theorem mem_dropCR {l : Str} {b : Byte} (h : b ∈ dropCR l) : b ∈ l := by
  unfold dropCR at h
  split at h
  · exact List.mem_of_mem_dropLast h
  · exact h

/-- **C50 (partial).** If every line is shorter than 64 KiB, the configuration is that of the lines (a carriage return at
the end of a line is not part of it): a key has the value of the last line that assigns it. Missing: longer lines,
see `C50_refuted`. -/
theorem C50_file_partial (ls : List Str) (last : Str) (h : ∀ l ∈ ls, 0x0A ∉ l) (hl : 0x0A ∉ last)
    (hlen : ∀ l ∈ ls ++ [last], l.length < 65536) (k v : Str) :
    (parseConfig (fileOf ls last)).get k = some v ↔ LastAssign ((ls ++ [last]).map dropCR) k v := by
  unfold parseConfig scanLines
  rw [rawLines_file ls last h hl]
  have htake : (ls ++ if last = [] then [] else [last]).takeWhile (fun l => decide (l.length < maxToken)) =
      ls ++ if last = [] then [] else [last] := by
    rw [List.takeWhile_eq_self_iff]
    intro l hl
    have : l ∈ ls ++ [last] := by
      rcases List.mem_append.1 hl with hl | hl
      · simp [hl]
      · split at hl
        · cases hl
        · simp only [List.mem_singleton] at hl; simp [hl]
    exact decide_eq_true (hlen l this)
  rw [htake]
  have hnl : ∀ l ∈ (ls ++ if last = [] then [] else [last]).map dropCR, 0x0A ∉ l := by
    intro l hl' hm
    obtain ⟨x, hx, rfl⟩ := List.mem_map.1 hl'
    have hx' := mem_dropCR hm
    rcases List.mem_append.1 hx with hx | hx
    · exact h x hx hx'
    · split at hx
      · cases hx
      · simp only [List.mem_singleton] at hx
        subst hx; exact hl hx'
  rw [cfg_fold hnl]
  by_cases hlast : last = []
  · subst hlast
    rw [if_pos rfl, List.append_nil, List.map_append]
    have hno : ∀ v', ¬ Assign (dropCR []) k v' := by
      rintro v' ⟨p, e, _⟩
      have : dropCR [] = [] := rfl
      rw [this] at e; simp at e
    constructor
    · rintro ⟨l1, x, l2, e, ha, hn⟩
      refine ⟨l1, x, l2 ++ [dropCR []], by rw [e]; simp, ha, ?_⟩
      intro l' hl'
      rcases List.mem_append.1 hl' with hl' | hl'
      · exact hn l' hl'
      · simp only [List.mem_singleton] at hl'
        subst hl'; exact hno
    · rintro ⟨l1, x, l2, e, ha, hn⟩
      rcases List.eq_nil_or_concat l2 with rfl | ⟨l3, y, rfl⟩
      · obtain ⟨_, e2⟩ := List.append_inj' e rfl
        simp only [List.map_cons, List.map_nil, List.cons.injEq, and_true] at e2
        subst e2
        exact absurd ha (hno v)
      · rw [List.concat_eq_append, ← List.cons_append, ← List.append_assoc] at e
        obtain ⟨e1, _⟩ := List.append_inj' e rfl
        exact ⟨l1, x, l3, e1, ha, fun l' hl' => hn l' (by simp [hl'])⟩
  · rw [if_neg hlast]

/-- A file with two lines for one key. -/
example : (parseConfig (fileOf [[0x41, 0x3D, 0x31, 0x0D], [0x23]] [0x41, 0x3D, 0x32])).get [0x41] = some [0x32] ∧
    (parseConfig (fileOf [[0x41, 0x3D, 0x31, 0x0D], [0x23]] [])).get [0x41] = some [0x31] := by decide

/-- **C50 is false** for a file with a line of 64 KiB: the lines after it are not read. -/
theorem C50_refuted : ∃ ls last k v, (∀ l ∈ ls, 0x0A ∉ l) ∧ 0x0A ∉ last ∧ LastAssign ((ls ++ [last]).map dropCR) k v ∧
    (parseConfig (fileOf ls last)).get k = none := by
  refine ⟨[List.replicate 65536 0x23], [0x41, 0x3D, 0x62], [0x41], [0x62], ?_, by decide, ?_, ?_⟩
  · intro l hl hm
    simp only [List.mem_singleton] at hl
    subst hl
    have := List.eq_of_mem_replicate hm
    exact absurd this (by decide)
  · refine ⟨[dropCR (List.replicate 65536 0x23)], [0x41, 0x3D, 0x62], [], rfl, ?_, by simp⟩
    exact (C50_line (by decide)).1 _ _ |>.1 (by decide)
  · unfold parseConfig scanLines
    rw [rawLines_file _ _ ?_ (by decide)]
    · rw [List.cons_append, List.takeWhile_cons_of_neg (by rw [List.length_replicate]; decide)]
      rfl
    · intro l hl hm
      simp only [List.mem_singleton] at hl
      subst hl
      have := List.eq_of_mem_replicate hm
      exact absurd this (by decide)

/-- `x PCP_A=1=2`: the key PCP_A, the value 1=2. -/
example : matchLine [0x78, 0x20, 0x50, 0x43, 0x50, 0x5F, 0x41, 0x3D, 0x31, 0x3D, 0x32] =
    some ([0x50, 0x43, 0x50, 0x5F, 0x41], [0x31, 0x3D, 0x32]) := by decide

/-- A file with two lines for one key. -/
example : (parseConfig (fileOf [[0x41, 0x3D, 0x31, 0x0D], [0x23]] [0x41, 0x3D, 0x32])).get [0x41] = some [0x32] := by decide

/-! ### C51 -/

/-- **C51 is false**: the line `#FOO=bar` sets FOO. -/
theorem C51_refuted : (parseConfig [0x23, 0x46, 0x4F, 0x4F, 0x3D, 0x62, 0x61, 0x72]).get [0x46, 0x4F, 0x4F] =
    some [0x62, 0x61, 0x72] := by decide

/-- **C51 (partial).** A comment line is ignored if no key byte in it is directly followed by '='. Missing: the others,
which count like any other line (`C51_refuted`). -/
theorem C51_comment_partial (c : Cfg) (l : Str) (hnl : 0x0A ∉ l) (h : ¬ HasKey (0x23 :: l)) : c.line (0x23 :: l) = c := by
  unfold Cfg.line
  rw [((C50_line (l := 0x23 :: l) (by simpa using hnl)).2).2 h]

/-- `# a comment`, between two assignments. -/
example : parseConfig (fileOf [[0x41, 0x3D, 0x31], [0x23, 0x20, 0x61, 0x20, 0x3D]] [0x42, 0x3D, 0x32]) =
    parseConfig (fileOf [[0x41, 0x3D, 0x31]] [0x42, 0x3D, 0x32]) := by decide

/-- What a comment line does in general: the same as without the '#'. -/
theorem C51_exact (c : Cfg) (l : Str) (hnl : 0x0A ∉ l) : c.line (0x23 :: l) = c.line l := by
  have h1 := C50_line (l := 0x23 :: l) (by simpa using hnl)
  have h2 := C50_line hnl
  have hk : ¬ KeyByte (0x23 : Byte) := by unfold KeyByte; decide
  unfold Cfg.line
  cases hm : matchLine l with
  | none =>
    have : ¬ HasKey (0x23 :: l) := by
      rintro ⟨a, b, d, e, hb⟩
      cases a with
      | nil =>
        simp only [List.nil_append, List.cons.injEq] at e
        rw [← e.1] at hb; exact hk hb
      | cons x a =>
        simp only [List.cons_append, List.cons.injEq] at e
        exact h2.2.1 hm ⟨a, b, d, e.2, hb⟩
    rw [h1.2.2 this]
  | some p =>
    obtain ⟨pre, e, hne, hkb, hmax, hfst⟩ := (h2.1 p.1 p.2).1 hm
    have : Assign (0x23 :: l) p.1 p.2 := by
      refine ⟨0x23 :: pre, by rw [e]; simp, hne, hkb, ?_, ?_⟩
      · intro a b hab
        cases a with
        | nil =>
          simp only [List.nil_append, List.cons.injEq] at hab
          rw [← hab.1]; exact hk
        | cons x a =>
          simp only [List.cons_append, List.cons.injEq] at hab
          exact hmax a b hab.2
      · intro a b d hab
        cases a with
        | nil =>
          simp only [List.nil_append, List.cons_append, List.cons.injEq] at hab
          rw [← hab.1]; exact hk
        | cons x a =>
          simp only [List.cons_append, List.cons.injEq] at hab
          exact hfst a b d hab.2
    rw [(h1.1 p.1 p.2).2 this]

/-- `#A=2` after `A=1`. -/
example : (parseConfig (fileOf [[0x41, 0x3D, 0x31]] [0x23, 0x41, 0x3D, 0x32])).get [0x41] = some [0x32] := by decide

/-! ### C39 -/

theorem splitSlash_ne (s : Str) : splitSlash s ≠ [] := by
  cases s with
  | nil => simp [splitSlash]
  | cons c s =>
    rw [splitSlash]
    split
    · simp
    · split <;> simp

theorem splitSlash_append (a b : Str) : splitSlash (a ++ 0x2F :: b) = splitSlash a ++ splitSlash b := by
  induction a with
  | nil => simp [splitSlash]
  | cons c a ih =>
    rw [List.cons_append, splitSlash, splitSlash, ih]
    split
    · rfl
    · cases h : splitSlash a with
      | nil => exact absurd h (splitSlash_ne a)
      | cons e es => rfl

theorem splitSlash_name {n : Str} (h : 0x2F ∉ n) : splitSlash n = [n] := by
  induction n with
  | nil => rfl
  | cons c n ih =>
    simp only [List.mem_cons, not_or] at h
    rw [splitSlash, if_neg (fun e => h.1 e.symm), ih h.2]

theorem joinSlash_snoc {es : List Str} (h : es ≠ []) (e : Str) : joinSlash (es ++ [e]) = joinSlash es ++ 0x2F :: e := by
  induction es with
  | nil => exact absurd rfl h
  | cons x es ih =>
    cases es with
    | nil => rfl
    | cons y es =>
      have h1 : joinSlash (x :: (y :: es ++ [e])) = x ++ 0x2F :: joinSlash (y :: es ++ [e]) := rfl
      have h2 : joinSlash (x :: y :: es) = x ++ 0x2F :: joinSlash (y :: es) := rfl
      rw [List.cons_append, h1, ih (by simp), h2, List.append_assoc, List.cons_append]

/-- A name that is an ordinary file name. -/
def Ordinary (n : Str) : Prop := 0x2F ∉ n ∧ n ≠ [] ∧ n ≠ [0x2E] ∧ n ≠ [0x2E, 0x2E]

/-- The elements of a path that are left after cleaning, the last first. -/
def stackOf (p : Str) : List Str := (splitSlash p).foldl (cleanStep (p.head? = some 0x2F)) []

theorem cleanPath_eq {p : Str} (h : p ≠ []) : cleanPath p = if p.head? = some 0x2F then 0x2F :: joinSlash (stackOf p).reverse
    else if stackOf p = [] then [0x2E] else joinSlash (stackOf p).reverse := by
  cases p with
  | nil => exact absurd rfl h
  | cons c p =>
    unfold cleanPath stackOf
    simp only [List.head?_cons, Option.some.injEq]

theorem stackOf_snoc {p n : Str} (hp : p ≠ []) (hn : 0x2F ∉ n) :
    stackOf (p ++ 0x2F :: n) = cleanStep (p.head? = some 0x2F) (stackOf p) n := by
  unfold stackOf
  have : (p ++ 0x2F :: n).head? = p.head? := by
    cases p with
    | nil => exact absurd rfl hp
    | cons c p => rfl
  rw [this, splitSlash_append, splitSlash_name hn, List.foldl_append]
  rfl

theorem cleanStep_ordinary {r : Bool} {st : List Str} {n : Str} (hn : Ordinary n) : cleanStep r st n = n :: st := by
  unfold cleanStep
  rw [if_neg (by rintro (h | h); exacts [hn.2.1 h, hn.2.2.1 h]), if_neg hn.2.2.2]

/-- An ordinary name at the end of a path that is not empty after cleaning. -/
theorem clean_snoc {p n : Str} (hn : Ordinary n) (hp : p ≠ []) (hs : stackOf p ≠ []) :
    cleanPath (p ++ 0x2F :: n) = cleanPath p ++ 0x2F :: n := by
  have hst := stackOf_snoc hp hn.1
  rw [cleanStep_ordinary hn] at hst
  have hh : (p ++ 0x2F :: n).head? = p.head? := by
    cases p with
    | nil => exact absurd rfl hp
    | cons c p => rfl
  rw [cleanPath_eq (by simp), cleanPath_eq hp, hst, hh, List.reverse_cons, joinSlash_snoc (by simpa using hs),
    if_neg (List.cons_ne_nil _ _), if_neg hs]
  split <;> simp

/-- The directory: `loc` and `mmv`. -/
theorem join_dir (loc : Str) : ∃ p, p ≠ [] ∧ joinPath [loc, sMmv] = cleanPath p ∧ (∃ st, stackOf p = sMmv :: st) ∧
    ∀ n, joinPath [loc, sMmv, n] = cleanPath (p ++ 0x2F :: n) := by
  have hm : Ordinary sMmv := by unfold Ordinary; decide
  by_cases hl : loc = []
  · subst hl
    exact ⟨sMmv, by decide, rfl, ⟨[], by decide⟩, fun n => rfl⟩
  · have hd : ∀ l : List Str, (loc :: l).dropWhile (· = []) = loc :: l := by
      intro l
      rw [List.dropWhile_cons_of_neg (by simpa using hl)]
    refine ⟨loc ++ 0x2F :: sMmv, by simp, ?_, ⟨stackOf loc, ?_⟩, fun n => ?_⟩
    · unfold joinPath; rw [hd]; rfl
    · rw [stackOf_snoc hl hm.1, cleanStep_ordinary hm]
    · unfold joinPath
      rw [hd]
      show cleanPath (loc ++ 0x2F :: (sMmv ++ 0x2F :: n)) = _
      rw [List.append_assoc, List.cons_append]

/-- The directory in which the file should be: `mmv` in `loc`. -/
def mmvDir (cf : Conf) (tmp : Str) : Str := joinPath [baseDir cf tmp, sMmv]

/-- **C39 (partial).** A name with a path separator is rejected. For every other name that is not "", "." or "..", the
location is the entry with that name in the directory. Missing: these three names (`C39_refuted`). -/
theorem C39_location_partial (cf : Conf) (tmp name : Str) :
    (0x2F ∈ name → mmvFileLocation cf tmp name = none) ∧
    (Ordinary name → mmvFileLocation cf tmp name = some (mmvDir cf tmp ++ 0x2F :: name)) := by
  refine ⟨fun h => by unfold mmvFileLocation; rw [if_pos h], fun h => ?_⟩
  unfold mmvFileLocation mmvDir
  rw [if_neg h.1]
  generalize baseDir cf tmp = loc
  obtain ⟨p, h1, h2, ⟨st, h3⟩, h4⟩ := join_dir loc
  rw [h2, h4, clean_snoc h h1 (by rw [h3]; simp)]

/-- The client "a.b" without configuration: /tmp/mmv/a.b; "a/b" is rejected. -/
example : mmvFileLocation ⟨[0x2F], [], none⟩ [0x2F, 0x74, 0x6D, 0x70] [0x61, 0x2E, 0x62] =
      some ([0x2F, 0x74, 0x6D, 0x70, 0x2F] ++ sMmv ++ [0x2F, 0x61, 0x2E, 0x62]) ∧
    mmvFileLocation ⟨[0x2F], [], none⟩ [0x2F, 0x74, 0x6D, 0x70] [0x61, 0x2F, 0x62] = none := by decide

/-- The directory is called mmv. -/
theorem C39_dir (cf : Conf) (tmp : Str) : ∃ d, mmvDir cf tmp = d ++ sMmv ∧ (d = [] ∨ ∃ d', d = d' ++ [0x2F]) := by
  unfold mmvDir
  generalize baseDir cf tmp = loc
  obtain ⟨p, h1, h2, ⟨st, h3⟩, h4⟩ := join_dir loc
  rw [h2, cleanPath_eq h1, h3, List.reverse_cons, if_neg (List.cons_ne_nil _ _)]
  have key : ∃ d, joinSlash (st.reverse ++ [sMmv]) = d ++ sMmv ∧ (d = [] ∨ ∃ d', d = d' ++ [0x2F]) := by
    by_cases hs : st.reverse = []
    · rw [hs]; exact ⟨[], rfl, .inl rfl⟩
    · rw [joinSlash_snoc hs]
      exact ⟨joinSlash st.reverse ++ [0x2F], by simp, .inr ⟨_, rfl⟩⟩
  obtain ⟨d, e, hd⟩ := key
  rw [e]
  split
  · refine ⟨0x2F :: d, rfl, .inr ?_⟩
    rcases hd with rfl | ⟨d', rfl⟩
    · exact ⟨[], rfl⟩
    · exact ⟨0x2F :: d', rfl⟩
  · exact ⟨d, rfl, hd⟩

example : mmvDir ⟨[0x2F], [], none⟩ [0x2F, 0x74, 0x6D, 0x70] = [0x2F, 0x74, 0x6D, 0x70, 0x2F] ++ sMmv := by decide

/-- **C39 is false** for "" and ".", which give the directory itself, whatever the configuration. -/
theorem C39_refuted (cf : Conf) (tmp : Str) : ∀ n ∈ [([] : Str), [0x2E]], mmvFileLocation cf tmp n = some (mmvDir cf tmp) := by
  intro n hn
  have hs : 0x2F ∉ n := by
    simp only [List.mem_cons, List.not_mem_nil, or_false] at hn
    rcases hn with rfl | rfl <;> decide
  unfold mmvFileLocation mmvDir
  rw [if_neg hs]
  generalize baseDir cf tmp = loc
  obtain ⟨p, h1, h2, ⟨st, h3⟩, h4⟩ := join_dir loc
  have hst : stackOf (p ++ 0x2F :: n) = stackOf p := by
    rw [stackOf_snoc h1 hs]
    unfold cleanStep
    rw [if_pos (by simpa using hn)]
  have hh : (p ++ 0x2F :: n).head? = p.head? := by
    cases p with
    | nil => exact absurd rfl h1
    | cons c p => rfl
  rw [h4, h2, cleanPath_eq (by simp), cleanPath_eq h1, hst, hh]

/-- **C39 is false** for "..", which leaves the directory. -/
theorem C39_refuted_dotdot : mmvFileLocation ⟨[0x2F], [], none⟩ [0x2F, 0x74, 0x6D, 0x70] [0x2E, 0x2E] =
    some [0x2F, 0x74, 0x6D, 0x70] := by decide

/-- The client "a.b" without configuration: /tmp/mmv/a.b. -/
example : mmvFileLocation ⟨[0x2F], [], none⟩ [0x2F, 0x74, 0x6D, 0x70] [0x61, 0x2E, 0x62] =
    some ([0x2F, 0x74, 0x6D, 0x70, 0x2F] ++ sMmv ++ [0x2F, 0x61, 0x2E, 0x62]) := by decide

/-- And with a configured directory "//var/./x/../pcp/". -/
example : mmvFileLocation ⟨[0x2F], [], some [(sPcpTmpDir, [0x2F, 0x2F, 0x76, 0x61, 0x72, 0x2F, 0x2E, 0x2F, 0x78, 0x2F, 0x2E, 0x2E, 0x2F,
      0x70, 0x63, 0x70, 0x2F])]⟩ [] [0x61] =
    some ([0x2F, 0x76, 0x61, 0x72, 0x2F, 0x70, 0x63, 0x70, 0x2F] ++ sMmv ++ [0x2F, 0x61]) := by decide

/-- Walking along a path from the directory `cur` (its elements from the root): nothing and "." stay, ".." goes to the parent
(the root is its own parent), any other element goes down. -/
def walk (cur : List Str) : List Str → List Str
  | [] => cur
  | e :: es => walk (if e = [] ∨ e = [0x2E] then cur else if e = [0x2E, 0x2E] then cur.dropLast else cur ++ [e]) es

theorem splitSlash_noslash (p : Str) : ∀ e ∈ splitSlash p, 0x2F ∉ e := by
  induction p with
  | nil => simp [splitSlash]
  | cons c p ih =>
    rw [splitSlash]
    split
    · intro e he
      rcases List.mem_cons.1 he with rfl | he
      · simp
      · exact ih e he
    · rename_i hc
      cases h : splitSlash p with
      | nil => exact absurd h (splitSlash_ne p)
      | cons x xs =>
        rw [h] at ih
        intro e he
        rcases List.mem_cons.1 he with rfl | he
        · simp only [List.mem_cons, not_or]
          exact ⟨fun h => hc h.symm, ih x List.mem_cons_self⟩
        · exact ih e (List.mem_cons_of_mem _ he)

theorem cleanStep_walk (es : List Str) (hes : ∀ e ∈ es, 0x2F ∉ e) (st : List Str) (hst : ∀ e ∈ st, Ordinary e) :
    (es.foldl (cleanStep true) st).reverse = walk st.reverse es ∧ ∀ e ∈ es.foldl (cleanStep true) st, Ordinary e := by
  induction es generalizing st with
  | nil => exact ⟨rfl, hst⟩
  | cons e es ih =>
    have hes' : ∀ x ∈ es, 0x2F ∉ x := fun x hx => hes x (List.mem_cons_of_mem _ hx)
    rw [List.foldl_cons]
    unfold walk
    have h1 : cleanStep true st e = if e = [] ∨ e = [0x2E] then st else if e = [0x2E, 0x2E] then st.tail else e :: st := by
      unfold cleanStep
      split
      · rfl
      · split
        · cases st with
          | nil => rfl
          | cons x r =>
            dsimp only
            rw [if_neg (hst x List.mem_cons_self).2.2.2]; rfl
        · rfl
    rw [h1]
    split
    · exact ih hes' st hst
    · rename_i hn
      split
      · have := ih hes' st.tail (fun x hx => hst x (List.mem_of_mem_tail hx))
        rwa [show st.tail.reverse = st.reverse.dropLast by cases st <;> simp] at this
      · rename_i hd
        have ho : Ordinary e := ⟨hes e List.mem_cons_self, fun h => hn (.inl h), fun h => hn (.inr h), hd⟩
        have := ih hes' (e :: st) (by
          intro x hx
          rcases List.mem_cons.1 hx with rfl | hx
          · exact ho
          · exact hst x hx)
        rwa [List.reverse_cons] at this

theorem joinSlash_flat {es : List Str} (h : es ≠ []) : 0x2F :: joinSlash es = es.flatMap (fun e => 0x2F :: e) := by
  induction es with
  | nil => exact absurd rfl h
  | cons e es ih =>
    cases es with
    | nil => simp [joinSlash]
    | cons x es =>
      show 0x2F :: (e ++ 0x2F :: joinSlash (x :: es)) = _
      rw [ih (by simp)]
      simp

/-- C39, with the whole path: if `loc` is an absolute path, the location is absolute too: the elements to which `loc` leads,
then "mmv" and the name. No element is empty, "." or "..". -/
theorem C39_absolute (cf : Conf) (tmp name : Str) (hn : Ordinary name) (habs : (baseDir cf tmp).head? = some 0x2F) :
    ∃ es, mmvFileLocation cf tmp name = some (es.flatMap (fun e => 0x2F :: e)) ∧
      es = walk [] (splitSlash (baseDir cf tmp)) ++ [sMmv, name] ∧ ∀ e ∈ es, Ordinary e := by
  have hm : Ordinary sMmv := by unfold Ordinary; decide
  unfold mmvFileLocation
  rw [if_neg hn.1]
  generalize baseDir cf tmp = loc at habs
  have hl : loc ≠ [] := by rintro rfl; cases habs
  obtain ⟨h1, h2⟩ := cleanStep_walk (splitSlash loc) (splitSlash_noslash loc) [] (by simp)
  have hs : stackOf loc = (splitSlash loc).foldl (cleanStep true) [] := by
    unfold stackOf; rw [habs]; simp
  rw [← hs] at h1 h2
  have hp : joinPath [loc, sMmv, name] = cleanPath ((loc ++ 0x2F :: sMmv) ++ 0x2F :: name) := by
    unfold joinPath
    rw [List.dropWhile_cons_of_neg (by simpa using hl)]
    show cleanPath (loc ++ 0x2F :: (sMmv ++ 0x2F :: name)) = _
    rw [List.append_assoc, List.cons_append]
  have hh : ((loc ++ 0x2F :: sMmv) ++ 0x2F :: name).head? = some 0x2F := by
    cases loc with
    | nil => exact absurd rfl hl
    | cons c l => exact habs
  refine ⟨_, ?_, rfl, ?_⟩
  · rw [hp, cleanPath_eq (by simp), if_pos hh, stackOf_snoc (by simp) hn.1, stackOf_snoc hl hm.1, cleanStep_ordinary hn,
      cleanStep_ordinary hm, joinSlash_flat (by simp), List.reverse_cons, List.reverse_cons, h1]
    simp
  · intro e he
    rcases List.mem_append.1 he with he | he
    · have : e ∈ (stackOf loc).reverse := by rw [h1]; exact he
      exact h2 e (List.mem_reverse.1 this)
    · simp only [List.mem_cons, List.not_mem_nil, or_false] at he
      rcases he with rfl | rfl
      · exact hm
      · exact hn

/-- "/../tmp" is "/tmp". -/
example : mmvFileLocation ⟨[0x2F], [], none⟩ [0x2F, 0x2E, 0x2E, 0x2F, 0x74, 0x6D, 0x70] [0x61] =
    some ([0x2F, 0x74, 0x6D, 0x70, 0x2F] ++ sMmv ++ [0x2F, 0x61]) := by decide

end Speed
