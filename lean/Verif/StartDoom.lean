import Verif.StartProg
/-
Two arguments about the WaitGroups of `start` that need no assumption on the registry:

* `Scoped`, `Bound`, `Stops`: counting how often `Done` can still be called on a WaitGroup. If fewer
  calls are possible than its counter demands, whoever waits for it waits for ever.
* `Owes`, `Falls`: counting how often `Done` will be called whatever the scheduler does. If that is
  more than the counter, the process panics.
-/
namespace Speed

/-! ### Programs and the WaitGroups they may touch -/

/-- Every `Done` in the program is on a WaitGroup in `A` or on one the program makes itself. -/
def Scoped : (Nat → Prop) → Proc → Prop
  | _, .done => True
  | _, .panic => True
  | A, .store _ _ k => Scoped A k
  | A, .recv _ k => ∀ v, Scoped A (k v)
  | A, .send _ _ k => Scoped A k
  | A, .fork p k => Scoped A p ∧ Scoped A k
  | A, .wgNew _ k => ∀ w, Scoped (fun x => A x ∨ x = w) (k w)
  | A, .wgDone w k => A w ∧ Scoped A k
  | A, .wgWait _ k => Scoped A k
  | A, .setCell _ _ k => Scoped A k
  | A, .getCell _ k => ∀ v, Scoped A (k v)

theorem Scoped.mono {A B : Nat → Prop} {p : Proc} (h : Scoped A p) (hAB : ∀ x, A x → B x) : Scoped B p := by
  induction p generalizing A B with
  | done => trivial
  | panic => trivial
  | store a b k ih => exact ih h hAB
  | recv c k ih => exact fun v => ih v (h v) hAB
  | send c v k ih => exact ih h hAB
  | fork p k ih1 ih2 => exact ⟨ih1 h.1 hAB, ih2 h.2 hAB⟩
  | wgNew n k ih => exact fun w => ih w (h w) (fun x hx => hx.imp (hAB x) id)
  | wgDone w k ih => exact ⟨hAB _ h.1, ih h.2 hAB⟩
  | wgWait w k ih => exact ih h hAB
  | setCell c v k ih => exact ih h hAB
  | getCell c k ih => exact fun v => ih v (h v) hAB

/-- The program calls `Done` on `w` at most `n` times, given that no `Wait` on a WaitGroup in `D` ever
returns. A WaitGroup the program makes joins `D` if fewer than its count of `Done`s are possible. -/
def Bound : Nat → List Nat → Proc → Nat → Prop
  | _, _, .done, _ => True
  | _, _, .panic, _ => True
  | w, D, .store _ _ k, n => Bound w D k n
  | w, D, .recv _ k, n => ∀ v, Bound w D (k v) n
  | w, D, .send _ _ k, n => Bound w D k n
  | w, D, .fork p k, n => ∃ a b, a + b ≤ n ∧ Bound w D p a ∧ Bound w D k b
  | w, D, .wgNew m k, n =>
      (∀ w', w < w' → Bound w D (k w') n) ∨
      (∃ b, b < m ∧ ∀ w', w < w' → Bound w' D (k w') b ∧ Bound w (w' :: D) (k w') n)
  | w, D, .wgDone w' k, n => if w' = w then ∃ n', n = n' + 1 ∧ Bound w D k n' else Bound w D k n
  | w, D, .wgWait w' k, n => w' ∈ D ∨ Bound w D k n
  | w, D, .setCell _ _ k, n => Bound w D k n
  | w, D, .getCell _ k, n => ∀ v, Bound w D (k v) n

theorem Bound.mono {w : Nat} {D D' : List Nat} {p : Proc} {n n' : Nat} (h : Bound w D p n)
    (hD : ∀ x ∈ D, x ∈ D') (hn : n ≤ n') : Bound w D' p n' := by
  induction p generalizing w D D' n n' with
  | done => trivial
  | panic => trivial
  | store a b k ih => exact ih h hD hn
  | recv c k ih => exact fun v => ih v (h v) hD hn
  | send c v k ih => exact ih h hD hn
  | fork p k ih1 ih2 =>
    obtain ⟨a, b, hab, h1, h2⟩ := h
    exact ⟨a, b, by omega, ih1 h1 hD (Nat.le_refl _), ih2 h2 hD (Nat.le_refl _)⟩
  | wgNew m k ih =>
    rcases h with h | ⟨b, hb, h⟩
    · exact .inl fun w' hw => ih w' (h w' hw) hD hn
    · refine .inr ⟨b, hb, fun w' hw => ⟨ih w' (h w' hw).1 hD (Nat.le_refl _), ih w' (h w' hw).2 ?_ hn⟩⟩
      intro x hx
      rcases List.mem_cons.1 hx with rfl | hx
      · exact List.mem_cons_self
      · exact List.mem_cons_of_mem _ (hD x hx)
  | wgDone w' k ih =>
    unfold Bound at h ⊢
    split at h
    · rename_i e
      obtain ⟨m, rfl, h⟩ := h
      rw [if_pos e]
      exact ⟨n' - 1, by omega, ih h hD (by omega)⟩
    · rename_i e
      rw [if_neg e]
      exact ih h hD hn
  | wgWait w' k ih =>
    rcases h with h | h
    · exact .inl (hD _ h)
    · exact .inr (ih h hD hn)
  | setCell c v k ih => exact ih h hD hn
  | getCell c k ih => exact fun v => ih v (h v) hD hn

/-- A program that cannot name `w` never calls `Done` on it. -/
theorem Scoped.bound {A : Nat → Prop} {p : Proc} (h : Scoped A p) {w : Nat} (hw : ¬ A w) (D : List Nat)
    (n : Nat) : Bound w D p n := by
  induction p generalizing A D n with
  | done => trivial
  | panic => trivial
  | store a b k ih => exact ih h hw D n
  | recv c k ih => exact fun v => ih v (h v) hw D n
  | send c v k ih => exact ih h hw D n
  | fork p k ih1 ih2 => exact ⟨0, 0, by omega, ih1 h.1 hw D 0, ih2 h.2 hw D 0⟩
  | wgNew m k ih =>
    refine .inl fun w' hw' => ih w' (h w') ?_ D n
    rintro (h | h)
    · exact hw h
    · omega
  | wgDone w' k ih =>
    have : w' ≠ w := fun e => hw (e ▸ h.1)
    unfold Bound
    rw [if_neg this]
    exact ih h.2 hw D n
  | wgWait w' k ih => exact .inr (ih h hw D n)
  | setCell c v k ih => exact ih h hw D n
  | getCell c k ih => exact fun v => ih v (h v) hw D n

/-- The goroutine never gets to the end of its function, given that no `Wait` on a WaitGroup in `D`
ever returns. -/
def Stops : List Nat → Proc → Prop
  | _, .done => False
  | _, .panic => True
  | D, .store _ _ k => Stops D k
  | D, .recv _ k => ∀ v, Stops D (k v)
  | D, .send _ _ k => Stops D k
  | D, .fork _ k => Stops D k
  | D, .wgNew m k =>
      (∀ w', Stops D (k w')) ∨ (∃ b, b < m ∧ ∀ w', Bound w' D (k w') b ∧ Stops (w' :: D) (k w'))
  | D, .wgDone _ k => Stops D k
  | D, .wgWait w' k => w' ∈ D ∨ Stops D k
  | D, .setCell _ _ k => Stops D k
  | D, .getCell _ k => ∀ v, Stops D (k v)

theorem Stops.mono {D D' : List Nat} {p : Proc} (h : Stops D p) (hD : ∀ x ∈ D, x ∈ D') : Stops D' p := by
  induction p generalizing D D' with
  | done => exact h
  | panic => trivial
  | store a b k ih => exact ih h hD
  | recv c k ih => exact fun v => ih v (h v) hD
  | send c v k ih => exact ih h hD
  | fork p k _ ih2 => exact ih2 h hD
  | wgNew m k ih =>
    rcases h with h | ⟨b, hb, h⟩
    · exact .inl fun w' => ih w' (h w') hD
    · refine .inr ⟨b, hb, fun w' => ⟨(h w').1.mono hD (Nat.le_refl _), ih w' (h w').2 ?_⟩⟩
      intro x hx
      rcases List.mem_cons.1 hx with rfl | hx
      · exact List.mem_cons_self
      · exact List.mem_cons_of_mem _ (hD x hx)
  | wgDone w' k ih => exact ih h hD
  | wgWait w' k ih =>
    rcases h with h | h
    · exact .inl (hD _ h)
    · exact .inr (ih h hD)
  | setCell c v k ih => exact ih h hD
  | getCell c k ih => exact fun v => ih v (h v) hD

/-! ### Sums over the goroutines -/

/-- The goroutines can be given numbers related to them by `P` that add up to `n`. -/
def Total (P : Proc → Nat → Prop) : List Proc → Nat → Prop
  | [], n => n = 0
  | p :: ps, n => ∃ a b, n = a + b ∧ P p a ∧ Total P ps b

theorem Total.mono {P Q : Proc → Nat → Prop} (h : ∀ p a, P p a → Q p a) {l : List Proc} {n : Nat}
    (ht : Total P l n) : Total Q l n := by
  induction l generalizing n with
  | nil => exact ht
  | cons p ps ih =>
    obtain ⟨a, b, e, h1, h2⟩ := ht
    exact ⟨a, b, e, h _ _ h1, ih h2⟩

theorem Total.at {P Q : Proc → Nat → Prop} (hPQ : ∀ p a, P p a → Q p a) {l : List Proc} {n i : Nat}
    {p : Proc} (ht : Total P l n) (hi : l[i]? = some p) :
    ∃ a b, n = a + b ∧ P p a ∧ ∀ p' a', Q p' a' → Total Q (l.set i p') (a' + b) := by
  induction l generalizing n i with
  | nil => simp at hi
  | cons q ps ih =>
    obtain ⟨a, b, e, h1, h2⟩ := ht
    cases i with
    | zero =>
      simp only [List.getElem?_cons_zero, Option.some.injEq] at hi
      subst hi
      exact ⟨a, b, e, h1, fun p' a' h => ⟨a', b, rfl, h, h2.mono hPQ⟩⟩
    | succ i =>
      simp only [List.getElem?_cons_succ] at hi
      obtain ⟨c, d, e', h3, h4⟩ := ih h2 hi
      refine ⟨c, a + d, by omega, h3, fun p' a' h => ?_⟩
      exact ⟨a, a' + d, by omega, hPQ _ _ h1, h4 p' a' h⟩

theorem Total.snoc {P : Proc → Nat → Prop} {l : List Proc} {n : Nat} {p : Proc} {a : Nat}
    (ht : Total P l n) (h : P p a) : Total P (l ++ [p]) (n + a) := by
  induction l generalizing n with
  | nil =>
    have : n = 0 := ht
    subst this
    exact ⟨a, 0, by omega, h, rfl⟩
  | cons q ps ih =>
    obtain ⟨c, d, e, h1, h2⟩ := ht
    exact ⟨c, d + a, by omega, h1, ih h2⟩

theorem Total.zero {P : Proc → Nat → Prop} {l : List Proc} (h : ∀ p ∈ l, P p 0) : Total P l 0 := by
  induction l with
  | nil => rfl
  | cons q ps ih =>
    exact ⟨0, 0, rfl, h q List.mem_cons_self, ih fun p hp => h p (List.mem_cons_of_mem _ hp)⟩

/-- One goroutine moves on to a program with at most the same bound. -/
theorem Total.set {P : Proc → Nat → Prop} {l : List Proc} {n i : Nat} {p p' : Proc} (ht : Total P l n)
    (hi : l[i]? = some p) (h : ∀ a, P p a → P p' a) : Total P (l.set i p') n := by
  obtain ⟨a, b, rfl, h1, h2⟩ := ht.at (fun _ _ h => h) hi
  exact h2 _ _ (h _ h1)

/-! ### The invariant -/

/-- The WaitGroup `w` has counter `c`, and fewer than `c` calls of `Done` on it are possible. -/
def Short (s : St) (D : List Nat) (w : Nat) : Prop :=
  ∃ c n, s.wgs[w]? = some c ∧ Total (Bound w D) s.thr n ∧ n < c

/-- Goroutine 0 will never return: `D` are the WaitGroups that never get to zero. -/
structure Doomed (s : St) (D : List Nat) : Prop where
  scope : ∀ p ∈ s.thr, Scoped (· < s.wgs.length) p
  short : ∀ w ∈ D, Short s D w
  main : ∃ p, s.thr[0]? = some p ∧ Stops D p

/-- A goroutine moves from `p` to `p'` and nothing else that matters changes. -/
theorem Doomed.move {s t : St} {D : List Nat} (h : Doomed s D) {i : Nat} {p p' : Proc}
    (hi : s.thr[i]? = some p) (hthr : t.thr = s.thr.set i p') (hwgs : t.wgs = s.wgs)
    (h1 : Scoped (· < s.wgs.length) p → Scoped (· < s.wgs.length) p')
    (h2 : ∀ w ∈ D, ∀ a, Bound w D p a → Bound w D p' a)
    (h3 : Stops D p → Stops D p') : Doomed t D := by
  refine ⟨?_, ?_, ?_⟩
  · intro q hq
    rw [hwgs]
    rw [hthr] at hq
    rcases List.mem_or_eq_of_mem_set hq with hq | rfl
    · exact h.scope q hq
    · exact h1 (h.scope p (List.mem_of_getElem? hi))
  · intro w hw
    obtain ⟨c, n, e1, e2, e3⟩ := h.short w hw
    exact ⟨c, n, by rw [hwgs]; exact e1, by rw [hthr]; exact e2.set hi (h2 w hw), e3⟩
  · obtain ⟨q, e1, e2⟩ := h.main
    rw [hthr]
    by_cases hi0 : i = 0
    · subst hi0
      rw [hi] at e1
      injection e1 with e1
      subst e1
      have : 0 < s.thr.length := (List.getElem?_eq_some_iff.1 hi).1
      exact ⟨p', by simp [this], h3 e2⟩
    · exact ⟨q, by rw [List.getElem?_set_ne (by omega)]; exact e1, e2⟩

theorem Doomed.step {s t : St} {D : List Nat} (h : Doomed s D) (hst : Step s t) : ∃ D', Doomed t D' := by
  obtain ⟨i, j, hs⟩ := hst
  unfold Speed.step at hs
  split at hs
  · cases hs
  split at hs
  · cases hs
  · cases hs
  · -- panic
    injection hs with hs; subst hs
    exact ⟨D, h.scope, h.short, h.main⟩
  · -- store
    rename_i a b k hi
    split at hs
    · injection hs with hs; subst hs
      exact ⟨D, h.move hi rfl rfl id (fun _ _ _ => id) id⟩
    · injection hs with hs; subst hs
      exact ⟨D, h.scope, h.short, h.main⟩
  · -- recv
    rename_i c k hi
    split at hs
    · injection hs with hs; subst hs
      exact ⟨D, h.move hi rfl rfl (fun h => h _) (fun _ _ _ h => h _) (fun h => h _)⟩
    · cases hs
  · -- send
    rename_i c v k hi
    split at hs
    · injection hs with hs; subst hs
      exact ⟨D, h.move hi rfl rfl id (fun _ _ _ => id) id⟩
    · split at hs
      · rename_i c' k' hj
        split at hs
        · rename_i hc
          injection hs with hs; subst hs
          have h1 : Doomed { s with thr := s.thr.set i k } D := h.move hi rfl rfl id (fun _ _ _ => id) id
          refine ⟨D, h1.move (i := j) (p := .recv c' k') ?_ rfl rfl (fun h => h _) (fun _ _ _ h => h _) (fun h => h _)⟩
          show (s.thr.set i k)[j]? = _
          rw [List.getElem?_set_ne (fun e => hc.2 e.symm)]
          exact hj
        · cases hs
      · cases hs
    · cases hs
  · -- fork
    rename_i p k hi
    injection hs with hs; subst hs
    have hi0 : i < s.thr.length := (List.getElem?_eq_some_iff.1 hi).1
    refine ⟨D, ?_, ?_, ?_⟩
    · intro q hq
      have hp := h.scope _ (List.mem_of_getElem? hi)
      rcases List.mem_append.1 hq with hq | hq
      · rcases List.mem_or_eq_of_mem_set hq with hq | rfl
        · exact h.scope q hq
        · exact hp.2
      · rw [List.mem_singleton.1 hq]
        exact hp.1
    · intro w hw
      obtain ⟨c, n, e1, e2, e3⟩ := h.short w hw
      obtain ⟨a, b, rfl, ⟨a1, a2, ha, f1, f2⟩, e5⟩ := e2.at (fun _ _ h => h) hi
      exact ⟨c, _, e1, (e5 _ _ f2).snoc f1, by omega⟩
    · obtain ⟨q, e1, e2⟩ := h.main
      by_cases hz : i = 0
      · subst hz
        rw [hi] at e1
        injection e1 with e1
        subst e1
        exact ⟨k, by simp [hi0], e2⟩
      · have h0 : 0 < s.thr.length := (List.getElem?_eq_some_iff.1 e1).1
        refine ⟨q, ?_, e2⟩
        show (s.thr.set i k ++ [p])[0]? = _
        rw [List.getElem?_append_left (by simpa using h0), List.getElem?_set_ne (by omega)]
        exact e1
  · -- wgNew
    rename_i m k hi
    injection hs with hs; subst hs
    have hi0 : i < s.thr.length := (List.getElem?_eq_some_iff.1 hi).1
    have hp := h.scope _ (List.mem_of_getElem? hi)
    have hlt : ∀ w ∈ D, w < s.wgs.length := by
      intro w hw
      obtain ⟨c, n, e1, _⟩ := h.short w hw
      exact (List.getElem?_eq_some_iff.1 e1).1
    -- the new WaitGroup joins `D` if it is short
    have key : ∃ D' : List Nat, (∀ x ∈ D, x ∈ D') ∧
        (∀ x ∈ D', x ∈ D ∨ (x = s.wgs.length ∧ ∃ b, b < m ∧ Bound x D (k x) b)) ∧
        ((∃ b, b < m ∧ Bound s.wgs.length D (k s.wgs.length) b) → s.wgs.length ∈ D') := by
      by_cases hb : ∃ b, b < m ∧ Bound s.wgs.length D (k s.wgs.length) b
      · refine ⟨s.wgs.length :: D, fun x hx => List.mem_cons_of_mem _ hx, ?_, fun _ => List.mem_cons_self⟩
        intro x hx
        rcases List.mem_cons.1 hx with rfl | hx
        · exact .inr ⟨rfl, hb⟩
        · exact .inl hx
      · exact ⟨D, fun x hx => hx, fun x hx => .inl hx, fun h => absurd h hb⟩
    obtain ⟨D', hD, hD', hnew⟩ := key
    have hcons : (∃ b, b < m ∧ Bound s.wgs.length D (k s.wgs.length) b) →
        ∀ x ∈ s.wgs.length :: D, x ∈ D' := by
      intro hb x hx
      rcases List.mem_cons.1 hx with rfl | hx
      · exact hnew hb
      · exact hD x hx
    refine ⟨D', ?_, ?_, ?_⟩
    · intro q hq
      have hle : ∀ x, x < s.wgs.length → x < (s.wgs ++ [m]).length := by
        intro x hx; simp; omega
      rcases List.mem_or_eq_of_mem_set hq with hq | rfl
      · exact (h.scope q hq).mono hle
      · refine (hp s.wgs.length).mono ?_
        rintro x (hx | rfl)
        · exact hle x hx
        · simp
    · intro w hw
      rcases hD' w hw with hw | ⟨rfl, b, hbm, hb⟩
      · obtain ⟨c, n, e1, e2, e3⟩ := h.short w hw
        refine ⟨c, n, ?_, ?_, e3⟩
        · show (s.wgs ++ [m])[w]? = _
          rw [List.getElem?_append_left (hlt w hw)]; exact e1
        · obtain ⟨a, b, rfl, f1, f2⟩ := e2.at (Q := Bound w D') (fun p a ha => ha.mono hD (Nat.le_refl _)) hi
          refine f2 _ _ ?_
          rcases f1 with f1 | ⟨b', hb', f1⟩
          · exact (f1 _ (hlt w hw)).mono hD (Nat.le_refl _)
          · have := f1 _ (hlt w hw)
            exact this.2.mono (hcons ⟨b', hb', this.1⟩) (Nat.le_refl _)
      · refine ⟨m, b, by simp, ?_, hbm⟩
        have h0 : Total (Bound s.wgs.length D) s.thr 0 :=
          Total.zero fun q hq => (h.scope q hq).bound (Nat.lt_irrefl _) D 0
        obtain ⟨a', b', e, _, f2⟩ := h0.at (Q := Bound s.wgs.length D') (fun p a ha => ha.mono hD (Nat.le_refl _)) hi
        obtain rfl : b' = 0 := by omega
        exact f2 _ _ (hb.mono hD (Nat.le_refl _))
    · obtain ⟨q, e1, e2⟩ := h.main
      by_cases hz : i = 0
      · subst hz
        rw [hi] at e1
        injection e1 with e1
        subst e1
        refine ⟨k s.wgs.length, by simp [hi0], ?_⟩
        rcases e2 with e2 | ⟨b, hb, e2⟩
        · exact (e2 _).mono hD
        · exact (e2 _).2.mono (hcons ⟨b, hb, (e2 _).1⟩)
      · refine ⟨q, ?_, e2.mono hD⟩
        show (s.thr.set i (k s.wgs.length))[0]? = _
        rw [List.getElem?_set_ne (by omega)]
        exact e1
  · -- wgDone
    rename_i w k hi
    split at hs
    · rename_i n hw
      injection hs with hs; subst hs
      refine ⟨D, ?_, ?_, ?_⟩
      · intro q hq
        show Scoped (· < (s.wgs.set w n).length) q
        rw [List.length_set]
        rcases List.mem_or_eq_of_mem_set hq with hq | rfl
        · exact h.scope q hq
        · exact (h.scope _ (List.mem_of_getElem? hi)).2
      · intro w' hw'
        obtain ⟨c, n', e1, e2, e3⟩ := h.short w' hw'
        obtain ⟨a, b, rfl, f1, f2⟩ := e2.at (fun _ _ h => h) hi
        have hlt := (List.getElem?_eq_some_iff.1 e1).1
        unfold Bound at f1
        by_cases e : w = w'
        · subst e
          rw [if_pos rfl] at f1
          obtain ⟨a', rfl, f1⟩ := f1
          rw [hw] at e1
          injection e1 with e1
          exact ⟨n, _, by simp [hlt], f2 _ _ f1, by omega⟩
        · rw [if_neg e] at f1
          refine ⟨c, _, ?_, f2 _ _ f1, e3⟩
          show (s.wgs.set w n)[w']? = _
          rw [List.getElem?_set_ne e]
          exact e1
      · obtain ⟨q, e1, e2⟩ := h.main
        have hi0 : i < s.thr.length := (List.getElem?_eq_some_iff.1 hi).1
        by_cases hz : i = 0
        · subst hz
          rw [hi] at e1
          injection e1 with e1
          subst e1
          exact ⟨k, by simp [hi0], e2⟩
        · refine ⟨q, ?_, e2⟩
          show (s.thr.set i k)[0]? = _
          rw [List.getElem?_set_ne (by omega)]
          exact e1
    · injection hs with hs; subst hs
      exact ⟨D, h.scope, h.short, h.main⟩
    · cases hs
  · -- wgWait
    rename_i w k hi
    split at hs
    · rename_i hw
      injection hs with hs; subst hs
      have hwD : w ∉ D := by
        intro hwD
        obtain ⟨c, n, e1, _, e3⟩ := h.short w hwD
        rw [hw] at e1
        injection e1 with e1
        omega
      exact ⟨D, h.move hi rfl rfl id (fun _ _ _ h => h.resolve_left hwD) (fun h => h.resolve_left hwD)⟩
    · cases hs
  · -- setCell
    rename_i c v k hi
    injection hs with hs; subst hs
    exact ⟨D, h.move hi rfl rfl id (fun _ _ _ => id) id⟩
  · -- getCell
    rename_i c k hi
    injection hs with hs; subst hs
    exact ⟨D, h.move hi rfl rfl (fun h => h _) (fun _ _ _ h => h _) (fun h => h _)⟩

theorem Doomed.reach {s t : St} {D : List Nat} (h : Doomed s D) (hst : Reach s t) : ∃ D', Doomed t D' := by
  induction hst with
  | refl => exact ⟨D, h⟩
  | tail _ hs ih =>
    obtain ⟨D', h'⟩ := ih
    exact h'.step hs

theorem Doomed.not_returned {s : St} {D : List Nat} (h : Doomed s D) : ¬ Returned s := by
  intro hr
  obtain ⟨p, e1, e2⟩ := h.main
  unfold Returned at hr
  rw [hr] at e1
  injection e1 with e1
  subst e1
  exact e2

/-- A program that stops never returns, under any schedule. -/
theorem never_returns {s : St} {p : Proc} (hthr : s.thr = [p]) (hsc : Scoped (fun _ => False) p)
    (hst : Stops [] p) {t : St} (h : Reach s t) : ¬ Returned t := by
  have h0 : Doomed s [] := by
    refine ⟨?_, by simp, ⟨p, by rw [hthr]; rfl, hst⟩⟩
    intro q hq
    rw [hthr] at hq
    rw [List.mem_singleton.1 hq]
    exact hsc.mono fun _ h => h.elim
  obtain ⟨D, h1⟩ := h0.reach h
  exact h1.not_returned

/-! ### Too many calls of `Done` -/

/-- The program will call `Done` on `w` at least `n` times (or panic), without waiting for anything. -/
def Owes : Nat → Proc → Nat → Prop
  | _, .done, n => n = 0
  | _, .panic, _ => True
  | w, .store _ _ k, n => Owes w k n
  | _, .recv _ _, n => n = 0
  | _, .send _ _ _, n => n = 0
  | w, .fork p k, n => ∃ a b, n ≤ a + b ∧ Owes w p a ∧ Owes w k b
  | w, .wgNew _ k, n => ∀ w', Owes w (k w') n
  | w, .wgDone w' k, n => n = 0 ∨ (w' = w ∧ ∃ n', n ≤ n' + 1 ∧ Owes w k n')
  | _, .wgWait _ _, n => n = 0
  | w, .setCell _ _ k, n => Owes w k n
  | w, .getCell _ k, n => ∀ v, Owes w (k v) n

theorem owes_zero (w : Nat) (p : Proc) : Owes w p 0 := by
  induction p with
  | done => rfl
  | panic => trivial
  | store a b k ih => exact ih
  | recv c k ih => rfl
  | send c v k ih => rfl
  | fork p k ih1 ih2 => exact ⟨0, 0, Nat.le_refl _, ih1, ih2⟩
  | wgNew m k ih => exact fun w' => ih w'
  | wgDone w' k ih => exact .inl rfl
  | wgWait w' k ih => rfl
  | setCell c v k ih => exact ih
  | getCell c k ih => exact fun v => ih v

/-- The program will make a WaitGroup and then call `Done` on it more often than its count (or panic),
without waiting for anything. -/
def Falls : Proc → Prop
  | .done => False
  | .panic => True
  | .store _ _ k => Falls k
  | .recv _ _ => False
  | .send _ _ _ => False
  | .fork p k => Falls p ∨ Falls k
  | .wgNew m k => (∀ w', Falls (k w')) ∨ (∃ b, m < b ∧ ∀ w', Owes w' (k w') b)
  | .wgDone _ _ => False
  | .wgWait _ _ => False
  | .setCell _ _ k => Falls k
  | .getCell _ k => ∀ v, Falls (k v)

/-- The process is going to panic. -/
def Falling (s : St) : Prop :=
  (∃ p ∈ s.thr, Falls p) ∨ (∃ w c n, s.wgs[w]? = some c ∧ Total (Owes w) s.thr n ∧ c < n)

theorem mem_set_keep {l : List Proc} {i : Nat} {p p' q : Proc} (hi : l[i]? = some p) (hq : q ∈ l) :
    q = p ∨ q ∈ l.set i p' := by
  obtain ⟨j, hj⟩ := List.mem_iff_getElem?.1 hq
  by_cases e : i = j
  · subst e
    rw [hi] at hj
    injection hj with hj
    exact .inl hj.symm
  · refine .inr (List.mem_iff_getElem?.2 ⟨j, ?_⟩)
    rw [List.getElem?_set_ne e]
    exact hj

theorem mem_set_self' {l : List Proc} {i : Nat} {p p' : Proc} (hi : l[i]? = some p) : p' ∈ l.set i p' :=
  List.mem_iff_getElem?.2 ⟨i, by simp [(List.getElem?_eq_some_iff.1 hi).1]⟩

theorem Falling.move {s t : St} (h : Falling s) {i : Nat} {p p' : Proc}
    (hi : s.thr[i]? = some p) (hthr : t.thr = s.thr.set i p') (hwgs : t.wgs = s.wgs)
    (h1 : Falls p → Falls p') (h2 : ∀ w a, Owes w p a → Owes w p' a) : Falling t := by
  rcases h with ⟨q, hq, hf⟩ | ⟨w, c, n, e1, e2, e3⟩
  · refine .inl ?_
    rw [hthr]
    rcases mem_set_keep (p' := p') hi hq with rfl | hq
    · exact ⟨p', mem_set_self' hi, h1 hf⟩
    · exact ⟨q, hq, hf⟩
  · exact .inr ⟨w, c, n, by rw [hwgs]; exact e1, by rw [hthr]; exact e2.set hi (h2 w), e3⟩

/-- The goroutine leaves an operation it could have waited at. -/
theorem owes_past {w a : Nat} {p : Proc} (h : a = 0) : Owes w p a := h ▸ owes_zero w p

theorem Falling.step {s t : St} (h : Falling s) (hst : Step s t) : Falling t ∨ t.crashed = true := by
  obtain ⟨i, j, hs⟩ := hst
  unfold Speed.step at hs
  split at hs
  · cases hs
  split at hs
  · cases hs
  · cases hs
  · injection hs with hs; subst hs; exact .inr rfl
  · -- store
    rename_i a b k hi
    split at hs
    · injection hs with hs; subst hs
      exact .inl (h.move hi rfl rfl id (fun _ _ => id))
    · injection hs with hs; subst hs; exact .inr rfl
  · -- recv
    rename_i c k hi
    split at hs
    · injection hs with hs; subst hs
      exact .inl (h.move hi rfl rfl (fun h => h.elim) (fun _ _ h => owes_past h))
    · cases hs
  · -- send
    rename_i c v k hi
    split at hs
    · injection hs with hs; subst hs
      exact .inl (h.move hi rfl rfl (fun h => h.elim) (fun _ _ h => owes_past h))
    · split at hs
      · rename_i c' k' hj
        split at hs
        · rename_i hc
          injection hs with hs; subst hs
          have h1 : Falling { s with thr := s.thr.set i k } :=
            h.move hi rfl rfl (fun h => h.elim) (fun _ _ h => owes_past h)
          refine .inl (h1.move (i := j) (p := .recv c' k') ?_ rfl rfl (fun h => h.elim)
            (fun _ _ h => owes_past h))
          show (s.thr.set i k)[j]? = _
          rw [List.getElem?_set_ne (fun e => hc.2 e.symm)]
          exact hj
        · cases hs
      · cases hs
    · cases hs
  · -- fork
    rename_i p k hi
    injection hs with hs; subst hs
    refine .inl ?_
    rcases h with ⟨q, hq, hf⟩ | ⟨w, c, n, e1, e2, e3⟩
    · refine .inl ?_
      rcases mem_set_keep (p' := k) hi hq with rfl | hq
      · rcases hf with hf | hf
        · exact ⟨p, by simp, hf⟩
        · exact ⟨k, List.mem_append_left _ (mem_set_self' hi), hf⟩
      · exact ⟨q, List.mem_append_left _ hq, hf⟩
    · obtain ⟨a, b, rfl, ⟨a1, a2, ha, f1, f2⟩, e5⟩ := e2.at (fun _ _ h => h) hi
      exact .inr ⟨w, c, _, e1, (e5 _ _ f2).snoc f1, by omega⟩
  · -- wgNew
    rename_i m k hi
    injection hs with hs; subst hs
    refine .inl ?_
    rcases h with ⟨q, hq, hf⟩ | ⟨w, c, n, e1, e2, e3⟩
    · rcases mem_set_keep (p' := k s.wgs.length) hi hq with rfl | hq
      · rcases hf with hf | ⟨b, hb, hf⟩
        · exact .inl ⟨_, mem_set_self' hi, hf _⟩
        · refine .inr ⟨s.wgs.length, m, b, by simp, ?_, hb⟩
          have h0 : Total (Owes s.wgs.length) s.thr 0 := Total.zero fun q _ => owes_zero _ q
          obtain ⟨a', b', e, _, f2⟩ := h0.at (fun _ _ h => h) hi
          obtain rfl : b' = 0 := by omega
          exact f2 _ _ (hf _)
      · exact .inl ⟨q, hq, hf⟩
    · have hlt := (List.getElem?_eq_some_iff.1 e1).1
      refine .inr ⟨w, c, n, ?_, e2.set hi (fun a h => h _), e3⟩
      show (s.wgs ++ [m])[w]? = _
      rw [List.getElem?_append_left hlt]; exact e1
  · -- wgDone
    rename_i w k hi
    split at hs
    · rename_i n hw
      injection hs with hs; subst hs
      refine .inl ?_
      rcases h with ⟨q, hq, hf⟩ | ⟨w', c, n', e1, e2, e3⟩
      · rcases mem_set_keep (p' := k) hi hq with rfl | hq
        · exact hf.elim
        · exact .inl ⟨q, hq, hf⟩
      · have hlt := (List.getElem?_eq_some_iff.1 e1).1
        obtain ⟨a, b, rfl, f1, f2⟩ := e2.at (fun _ _ h => h) hi
        refine .inr ?_
        by_cases e : w = w'
        · subst e
          rw [hw] at e1
          injection e1 with e1
          rcases f1 with rfl | ⟨_, a', ha, f1⟩
          · exact ⟨w, n, _, by simp [hlt], f2 _ _ (owes_zero _ _), by omega⟩
          · exact ⟨w, n, _, by simp [hlt], f2 _ _ f1, by omega⟩
        · rcases f1 with rfl | ⟨e', _⟩
          · refine ⟨w', c, _, ?_, f2 _ _ (owes_zero _ _), e3⟩
            show (s.wgs.set w n)[w']? = _
            rw [List.getElem?_set_ne e]
            exact e1
          · exact absurd e' e
    · injection hs with hs; subst hs; exact .inr rfl
    · cases hs
  · -- wgWait
    rename_i w k hi
    split at hs
    · injection hs with hs; subst hs
      exact .inl (h.move hi rfl rfl (fun h => h.elim) (fun _ _ h => owes_past h))
    · cases hs
  · -- setCell
    rename_i c v k hi
    injection hs with hs; subst hs
    exact .inl (h.move hi rfl rfl id (fun _ _ => id))
  · -- getCell
    rename_i c k hi
    injection hs with hs; subst hs
    exact .inl (h.move hi rfl rfl (fun h => h _) (fun _ _ h => h _))

theorem Total.pos {P : Proc → Nat → Prop} {l : List Proc} {n : Nat} (ht : Total P l n) (hn : 0 < n) :
    ∃ (i : Nat) (p : Proc) (a : Nat), l[i]? = some p ∧ P p a ∧ 0 < a := by
  induction l generalizing n with
  | nil => have : n = 0 := ht; omega
  | cons q ps ih =>
    obtain ⟨a, b, e, h1, h2⟩ := ht
    by_cases ha : 0 < a
    · exact ⟨0, q, a, rfl, h1, ha⟩
    · obtain ⟨i, p, c, h3, h4, h5⟩ := ih h2 (by omega)
      exact ⟨i + 1, p, c, h3, h4, h5⟩

theorem Falling.can_step {s : St} (h : Falling s) (hc : s.crashed = false) : ∃ t, Step s t := by
  have key : ∀ (i : Nat) (p : Proc), s.thr[i]? = some p →
      (Falls p ∨ ∃ w c a, s.wgs[w]? = some c ∧ Owes w p a ∧ 0 < a) → ∃ t, Speed.step s i 0 = some t := by
    intro i p hi hp
    unfold Speed.step
    rw [if_neg (by simp [hc]), hi]
    cases p with
    | done =>
      rcases hp with hp | ⟨w, c, a, _, hp, ha⟩
      · exact hp.elim
      · have : a = 0 := hp
        omega
    | panic => exact ⟨_, rfl⟩
    | store a b k =>
      dsimp only
      split
      · exact ⟨_, rfl⟩
      · exact ⟨_, rfl⟩
    | recv c k =>
      rcases hp with hp | ⟨w, c, a, _, hp, ha⟩
      · exact hp.elim
      · have : a = 0 := hp
        omega
    | send c v k =>
      rcases hp with hp | ⟨w, c, a, _, hp, ha⟩
      · exact hp.elim
      · have : a = 0 := hp
        omega
    | fork p k => exact ⟨_, rfl⟩
    | wgNew m k => exact ⟨_, rfl⟩
    | wgDone w' k =>
      rcases hp with hp | ⟨w, c, a, hw, hp, ha⟩
      · exact hp.elim
      · rcases hp with hp | ⟨rfl, _⟩
        · omega
        · cases c with
          | zero => exact ⟨s.crash, by simp only [hw]⟩
          | succ n => exact ⟨_, by simp only [hw]; rfl⟩
    | wgWait w' k =>
      rcases hp with hp | ⟨w, c, a, _, hp, ha⟩
      · exact hp.elim
      · have : a = 0 := hp
        omega
    | setCell c v k => exact ⟨_, rfl⟩
    | getCell c k => exact ⟨_, rfl⟩
  rcases h with ⟨q, hq, hf⟩ | ⟨w, c, n, e1, e2, e3⟩
  · obtain ⟨i, hi⟩ := List.mem_iff_getElem?.1 hq
    obtain ⟨t, ht⟩ := key i q hi (.inl hf)
    exact ⟨t, i, 0, ht⟩
  · obtain ⟨i, p, a, h3, h4, h5⟩ := e2.pos (by omega)
    obtain ⟨t, ht⟩ := key i p h3 (.inr ⟨w, c, a, e1, h4, h5⟩)
    exact ⟨t, i, 0, ht⟩

/-- However the goroutines are scheduled, the process ends with a panic. -/
theorem Falling.crashes {s t : St} (h : Falling s) (hr : Reach s t) (hst : Stuck t) : t.crashed = true := by
  have hinv : Falling t ∨ t.crashed = true := by
    clear hst
    induction hr with
    | refl => exact .inl h
    | tail _ hs ih =>
      rcases ih with ih | ih
      · exact ih.step hs
      · obtain ⟨i, j, hs⟩ := hs
        unfold Speed.step at hs
        rw [if_pos ih] at hs
        cases hs
  rcases hinv with hinv | hinv
  · by_cases hc : t.crashed = true
    · exact hc
    · obtain ⟨u, hu⟩ := hinv.can_step (by simpa using hc)
      exact absurd hu (hst u)
  · exact hinv

/-! ### The programs of `start` -/

section
variable {A : Nat → Prop} (r : Reg) (e : Env) (o : Ord)

theorem scoped_storeAll {bs : List Byte} {off : Nat} {k : Proc} (h : Scoped A k) :
    Scoped A (storeAll off bs k) := by
  induction bs generalizing off with
  | nil => exact h
  | cons b bs ih => exact ih

theorem scoped_mustWrite {len : Nat} {bs : List Byte} {off : Nat} {k : Nat → Proc}
    (h : ∀ v, Scoped A (k v)) : Scoped A (mustWrite len bs off k) := by
  unfold mustWrite
  split
  · exact scoped_storeAll (h _)
  · trivial

theorem scoped_tryWrite {len : Nat} {bs : List Byte} {off : Nat} {k : Proc} (h : Scoped A k) :
    Scoped A (tryWrite len bs off k) := by
  unfold tryWrite
  split
  · exact scoped_storeAll h
  · exact h

theorem scoped_header : Scoped A (writeHeaderBlock r e) := by
  unfold writeHeaderBlock
  iterate 8 refine scoped_mustWrite fun _ => ?_
  trivial

theorem scoped_singleToc {pos a b c : Nat} {k : Proc} (h : Scoped A k) :
    Scoped A (writeSingleToc r pos a b c k) := by
  unfold writeSingleToc
  iterate 3 refine scoped_mustWrite fun _ => ?_
  exact h

theorem scoped_forkIf {c : Prop} [Decidable c] {p k : Proc} (hp : Scoped A p) (hk : Scoped A k) :
    Scoped A (forkIf c p k) := by
  unfold forkIf
  split
  · exact ⟨hp, hk⟩
  · exact hk

theorem scoped_toc {k : Proc} (h : Scoped A k) : Scoped A (writeTocBlock r k) := by
  intro w
  have hd : Scoped (fun x => A x ∨ x = w) (.wgDone w .done) := ⟨.inr rfl, trivial⟩
  refine scoped_forkIf (scoped_singleToc r hd) ?_
  refine scoped_forkIf (scoped_singleToc r hd) ?_
  refine ⟨scoped_singleToc r hd, scoped_singleToc r hd, ?_⟩
  refine scoped_forkIf (scoped_singleToc r hd) ?_
  exact h.mono fun x hx => .inl hx

theorem scoped_instance {d : Indom} {i : Inst} {a b : Nat} {k : Proc} (h : Scoped A k) :
    Scoped A (writeInstance r d i a b k) := by
  unfold writeInstance
  show Scoped A (mustWrite _ _ _ _)
  iterate 3 refine scoped_mustWrite fun _ => ?_
  split
  · intro v
    show Scoped A (mustWrite _ _ _ _)
    iterate 2 refine scoped_mustWrite fun _ => ?_
    exact h
  · exact scoped_mustWrite fun _ => h

theorem scoped_instancesLoop {d : Indom} {wg a b : Nat} {is : List Inst} {k : Proc} (hw : A wg)
    (h : Scoped A k) : Scoped A (writeInstancesLoop r d wg a is b k) := by
  induction is generalizing b with
  | nil => exact h
  | cons i is ih => exact ⟨scoped_instance r ⟨hw, trivial⟩, ih⟩

theorem scoped_text {s : Str} {k : Nat → Proc} (h : ∀ v, Scoped A (k v)) : Scoped A (writeText r s k) := by
  unfold writeText
  split
  · exact h _
  · intro v
    exact scoped_mustWrite fun _ => h _

theorem scoped_indom {d : Indom} {k : Proc} (h : Scoped A k) : Scoped A (writeInstanceDomain r o d k) := by
  intro _ _ w
  iterate 3 refine scoped_mustWrite fun _ => ?_
  refine scoped_instancesLoop r (.inr rfl) ?_
  iterate 2 refine scoped_text r fun _ => ?_
  iterate 2 refine scoped_mustWrite fun _ => ?_
  exact h.mono fun x hx => .inl hx

theorem scoped_indomsLoop {wg : Nat} {ds : List Indom} {k : Proc} (hw : A wg) (h : Scoped A k) :
    Scoped A (writeInstanceDomainsLoop r o wg ds k) := by
  induction ds with
  | nil => exact h
  | cons d ds ih => exact ⟨scoped_indom r o ⟨hw, trivial⟩, ih⟩

theorem scoped_descTail {m : Desc} {d : Option Indom} {off : Nat} {k : Proc} (h : Scoped A k) :
    Scoped A (writeDescTail r m d off k) := by
  unfold writeDescTail
  iterate 6 refine scoped_mustWrite fun _ => ?_
  iterate 2 refine scoped_text r fun _ => ?_
  iterate 2 refine scoped_mustWrite fun _ => ?_
  exact h

theorem scoped_desc {m : Desc} {d : Option Indom} {off : Nat} {k : Proc} (h : Scoped A k) :
    Scoped A (writeMetricDesc r m d off k) := by
  unfold writeMetricDesc
  split
  · intro v
    show Scoped A (mustWrite _ _ _ _)
    iterate 2 refine scoped_mustWrite fun _ => ?_
    exact scoped_descTail r h
  · show Scoped A (mustWrite _ _ _ _)
    refine scoped_mustWrite fun _ => ?_
    exact scoped_descTail r h

theorem scoped_callUpdate {v : GoVal} {off : Nat} {k : Proc} (h : Scoped A k) :
    Scoped A (callUpdate r v off k) := by
  unfold callUpdate
  generalize List.replicate StringLength (0 : Byte) = z
  split
  · refine scoped_mustWrite fun _ => ?_
    exact scoped_tryWrite h
  · split
    · exact scoped_tryWrite h
    · exact h

theorem scoped_value {t : MetricType} {v : GoVal} {c : Cell} {off : Nat} {k : Proc} (h : Scoped A k) :
    Scoped A (writeValue r t v c off k) := by
  unfold writeValue
  split
  · refine scoped_mustWrite fun _ => ?_
    intro _
    show Scoped A (mustWrite _ _ _ _)
    refine scoped_mustWrite fun _ => ?_
    exact scoped_callUpdate r h
  · exact scoped_callUpdate r h

theorem scoped_singleton {m : Metric} {v : GoVal} {k : Proc} (h : Scoped A k) :
    Scoped A (writeSingletonMetric r m v k) := by
  intro w _
  refine ⟨scoped_desc r ⟨.inr rfl, trivial⟩, ?_⟩
  intro _
  refine ⟨scoped_value r ⟨.inr rfl, trivial⟩, ?_⟩
  iterate 2 refine scoped_mustWrite fun _ => ?_
  exact h.mono fun x hx => .inl hx

theorem scoped_valuesLoop {m : Metric} {d : Indom} {vs : List (Str × GoVal)} {wg doff : Nat}
    {is : List Inst} {k : Proc} (hw : A wg) (h : Scoped A k) :
    Scoped A (writeInstanceValuesLoop r m d vs wg doff is k) := by
  induction is with
  | nil => exact h
  | cons i is ih =>
    intro _
    refine ⟨?_, ?_⟩
    · split
      · exact scoped_value r ⟨hw, trivial⟩
      · trivial
    · refine scoped_mustWrite fun _ => ?_
      intro _
      refine scoped_mustWrite fun _ => ?_
      exact ih

theorem scoped_instanceMetric {m : Metric} {d : Indom} {vs : List (Str × GoVal)} {k : Proc}
    (h : Scoped A k) : Scoped A (writeInstanceMetric r o m d vs k) := by
  intro w _
  refine ⟨scoped_desc r ⟨.inr rfl, trivial⟩, ?_⟩
  refine scoped_valuesLoop r (.inr rfl) ?_
  exact h.mono fun x hx => .inl hx

/-- The goroutine of one metric, if its type has one (client.go:479-496). -/
def metricProc (wg : Nat) (m : Metric) : Option Proc :=
  match m.kind, m.body with
  | .singleton, .single v => some (writeSingletonMetric r m v (.wgDone wg .done))
  | .counter, .single v => some (writeSingletonMetric r m v (.wgDone wg .done))
  | .gauge, .single v => some (writeSingletonMetric r m v (.wgDone wg .done))
  | .timer, .single v => some (writeSingletonMetric r m v (.wgDone wg .done))
  | .instance_, .inst d vs => some (writeInstanceMetric r o m d vs (.wgDone wg .done))
  | .counterVector, .inst d vs => some (writeInstanceMetric r o m d vs (.wgDone wg .done))
  | .gaugeVector, .inst d vs => some (writeInstanceMetric r o m d vs (.wgDone wg .done))
  | .histogram, .inst d vs => some (writeInstanceMetric r o m d vs (.wgDone wg .done))
  | _, _ => none

theorem metricsLoop_cons (wg : Nat) (m : Metric) (ms : List Metric) (k : Proc) :
    writeMetricsLoop r o wg (m :: ms) k =
      match metricProc r o wg m with
      | some p => .fork p (writeMetricsLoop r o wg ms k)
      | none => writeMetricsLoop r o wg ms k := by
  conv => lhs; unfold writeMetricsLoop
  unfold metricProc
  cases m.kind <;> cases m.body <;> rfl

theorem metricProc_foreign {wg : Nat} {m : Metric} (h : m.kind = .foreign) : metricProc r o wg m = none := by
  unfold metricProc
  rw [h]

theorem metricProc_some {wg : Nat} {m : Metric} {p : Proc} (h : metricProc r o wg m = some p) :
    (∃ v, p = writeSingletonMetric r m v (.wgDone wg .done)) ∨
    (∃ d vs, p = writeInstanceMetric r o m d vs (.wgDone wg .done)) := by
  unfold metricProc at h
  split at h <;> first | (injection h with h; subst h; first | exact .inl ⟨_, rfl⟩ | exact .inr ⟨_, _, rfl⟩) | cases h

theorem scoped_metricProc {wg : Nat} {m : Metric} {p : Proc} (h : metricProc r o wg m = some p) (hw : A wg) :
    Scoped A p := by
  rcases metricProc_some r o h with ⟨v, rfl⟩ | ⟨d, vs, rfl⟩
  · exact scoped_singleton r ⟨hw, trivial⟩
  · exact scoped_instanceMetric r o ⟨hw, trivial⟩

theorem scoped_metricsLoop {wg : Nat} {ms : List Metric} {k : Proc} (hw : A wg) (h : Scoped A k) :
    Scoped A (writeMetricsLoop r o wg ms k) := by
  induction ms with
  | nil => exact h
  | cons m ms ih =>
    rw [metricsLoop_cons]
    split
    · rename_i p hp
      exact ⟨scoped_metricProc r o hp hw, ih⟩
    · exact ih

theorem scoped_start : Scoped A (startProg r e o) := by
  refine ⟨scoped_header r e, ?_⟩
  intro w
  refine ⟨scoped_toc r ⟨.inr rfl, trivial⟩, ?_, ?_⟩
  · intro w1
    refine scoped_indomsLoop r o (.inr rfl) ?_
    intro w2
    refine scoped_metricsLoop r o (.inr rfl) ?_
    exact ⟨.inl (.inl (.inr rfl)), trivial⟩
  · intro _ _
    exact scoped_mustWrite fun _ => trivial

/-! ### A metric without a goroutine -/

theorem bound_storeAll {w : Nat} {D : List Nat} {n : Nat} {bs : List Byte} {off : Nat} {k : Proc}
    (h : Bound w D k n) : Bound w D (storeAll off bs k) n := by
  induction bs generalizing off with
  | nil => exact h
  | cons b bs ih => exact ih

theorem bound_mustWrite {w : Nat} {D : List Nat} {n : Nat} {len : Nat} {bs : List Byte} {off : Nat}
    {k : Nat → Proc} (h : ∀ v, Bound w D (k v) n) : Bound w D (mustWrite len bs off k) n := by
  unfold mustWrite
  split
  · exact bound_storeAll (h _)
  · trivial

theorem bound_done {w : Nat} {D : List Nat} {n : Nat} (h : 0 < n) : Bound w D (.wgDone w .done) n := by
  unfold Bound
  rw [if_pos rfl]
  exact ⟨n - 1, by omega, trivial⟩

theorem scoped_done {w : Nat} : Scoped (· = w) (.wgDone w .done) := ⟨rfl, trivial⟩

/-- The only `Done` on the WaitGroup of its caller is at the end of `writeSingletonMetric`. -/
theorem bound_singleton {w : Nat} {m : Metric} {v : GoVal} :
    Bound w [] (writeSingletonMetric r m v (.wgDone w .done)) 1 := by
  refine .inl fun w' hw => ?_
  have hne : ¬ (w = w') := by omega
  intro _
  refine ⟨0, 1, by omega, (scoped_desc r (A := (· = w')) scoped_done).bound hne _ _, ?_⟩
  intro _
  refine ⟨0, 1, by omega, (scoped_value r (A := (· = w')) scoped_done).bound hne _ _, ?_⟩
  iterate 2 refine bound_mustWrite fun _ => ?_
  exact .inr (bound_done (by omega))

theorem bound_valuesLoop {w w' : Nat} {m : Metric} {d : Indom} {vs : List (Str × GoVal)} {doff : Nat}
    {is : List Inst} {k : Proc} {n : Nat} (hne : ¬ (w = w')) (h : Bound w [] k n) :
    Bound w [] (writeInstanceValuesLoop r m d vs w' doff is k) n := by
  induction is with
  | nil => exact h
  | cons i is ih =>
    intro _
    refine ⟨0, n, by omega, ?_, ?_⟩
    · split
      · exact (scoped_value r (A := (· = w')) scoped_done).bound hne _ _
      · trivial
    · refine bound_mustWrite fun _ => ?_
      intro _
      refine bound_mustWrite fun _ => ?_
      exact ih

theorem bound_instanceMetric {w : Nat} {m : Metric} {d : Indom} {vs : List (Str × GoVal)} :
    Bound w [] (writeInstanceMetric r o m d vs (.wgDone w .done)) 1 := by
  refine .inl fun w' hw => ?_
  have hne : ¬ (w = w') := by omega
  intro _
  refine ⟨0, 1, by omega, (scoped_desc r (A := (· = w')) scoped_done).bound hne _ _, ?_⟩
  refine bound_valuesLoop r hne ?_
  exact .inr (bound_done (by omega))

/-- At most one `Done` per metric that has a goroutine. -/
theorem bound_metricsLoop {w : Nat} {ms : List Metric} {k : Proc} (hk : Bound w [] k 0) :
    Bound w [] (writeMetricsLoop r o w ms k) ((ms.filter (fun m => m.kind ≠ .foreign)).length) := by
  induction ms with
  | nil => exact hk
  | cons m ms ih =>
    rw [metricsLoop_cons]
    by_cases hm : m.kind = .foreign
    · rw [metricProc_foreign r o hm]
      simpa [hm] using ih
    · split
      · rename_i p hp
        refine ⟨1, (ms.filter (fun m => m.kind ≠ .foreign)).length, by simp [hm]; omega, ?_, ih⟩
        rcases metricProc_some r o hp with ⟨v, rfl⟩ | ⟨d, vs, rfl⟩
        · exact bound_singleton r
        · exact bound_instanceMetric r o
      · exact ih.mono (fun x hx => hx) (by simp [hm])

/-- The metrics loop, seen from an older WaitGroup. -/
theorem bound_metricsLoop_other {w w' : Nat} {D : List Nat} {ms : List Metric} {k : Proc} {n : Nat}
    (hne : ¬ (w = w')) (hk : Bound w D k n) : Bound w D (writeMetricsLoop r o w' ms k) n := by
  induction ms with
  | nil => exact hk
  | cons m ms ih =>
    rw [metricsLoop_cons]
    split
    · rename_i p hp
      exact ⟨0, n, by omega, (scoped_metricProc r o (A := (· = w')) hp rfl).bound hne _ _, ih⟩
    · exact ih

theorem bound_indomsLoop_other {w w' : Nat} {D : List Nat} {ds : List Indom} {k : Proc} {n : Nat}
    (hne : ¬ (w = w')) (hk : Bound w D k n) : Bound w D (writeInstanceDomainsLoop r o w' ds k) n := by
  induction ds with
  | nil => exact hk
  | cons d ds ih =>
    exact ⟨0, n, by omega, (scoped_indom r o (A := (· = w')) scoped_done).bound hne _ _, ih⟩

/-- `writeMetrics` never gets past its `Wait` if a metric has no goroutine. -/
theorem bound_metrics {w : Nat} (ho : o.metrics.length = r.MetricCount)
    (hf : ∃ m ∈ o.metrics, m.kind = .foreign) :
    Bound w [] (writeMetrics r o (.wgDone w .done)) 0 := by
  refine .inr ⟨(o.metrics.filter (fun m => m.kind ≠ .foreign)).length, ?_, fun w' hw => ⟨?_, ?_⟩⟩
  · rw [← ho]
    obtain ⟨m, hm, hk⟩ := hf
    exact List.length_filter_lt_length_iff_exists.2 ⟨m, hm, by simp [hk]⟩
  · refine bound_metricsLoop r o (.inr ?_)
    exact (scoped_done (w := w)).bound (by omega) _ _
  · refine bound_metricsLoop_other r o (by omega) (.inl List.mem_cons_self)

theorem stops_start (ho : o.metrics.length = r.MetricCount) (hf : ∃ m ∈ o.metrics, m.kind = .foreign) :
    Stops [] (startProg r e o) := by
  refine .inr ⟨1, by omega, fun w => ⟨?_, ?_⟩⟩
  · refine ⟨1, 0, by omega, ?_, 0, 0, by omega, ?_, ?_⟩
    · refine .inl fun w' hw => ?_
      have hne : ¬ (w = w') := by omega
      have hsc : ∀ {p a b c}, Bound w [] (writeSingleToc r p a b c (.wgDone w' .done)) 0 := fun {p a b c} =>
        (scoped_singleToc r (A := (· = w')) scoped_done).bound hne _ _
      have hfi : ∀ {c : Prop} [Decidable c] {p k : Proc}, Bound w [] p 0 → Bound w [] k 1 →
          Bound w [] (forkIf c p k) 1 := by
        intro c _ p k h1 h2
        unfold forkIf
        split
        · exact ⟨0, 1, by omega, h1, h2⟩
        · exact h2
      refine hfi hsc (hfi hsc ?_)
      refine ⟨0, 1, by omega, hsc, 0, 1, by omega, hsc, ?_⟩
      exact hfi hsc (.inr (bound_done (by omega)))
    · refine .inl fun w' hw => ?_
      refine bound_indomsLoop_other r o (by omega) (.inr ?_)
      exact bound_metrics r o ho hf
    · intro _ _
      refine .inr ?_
      exact bound_mustWrite fun _ => trivial
  · intro _ _
    exact .inl List.mem_cons_self

/-! ### A domain without instances -/

theorem owes_storeAll {w n : Nat} {bs : List Byte} {off : Nat} {k : Proc} (h : Owes w k n) :
    Owes w (storeAll off bs k) n := by
  induction bs generalizing off with
  | nil => exact h
  | cons b bs ih => exact ih

theorem owes_mustWrite {w n : Nat} {len : Nat} {bs : List Byte} {off : Nat} {k : Nat → Proc}
    (h : ∀ v, Owes w (k v) n) : Owes w (mustWrite len bs off k) n := by
  unfold mustWrite
  split
  · exact owes_storeAll (h _)
  · trivial

theorem owes_singleToc {w : Nat} {pos a b c : Nat} :
    Owes w (writeSingleToc r pos a b c (.wgDone w .done)) 1 := by
  unfold writeSingleToc
  iterate 3 refine owes_mustWrite fun _ => ?_
  exact .inr ⟨rfl, 0, Nat.le_refl _, rfl⟩

theorem owes_forkIf {w : Nat} {c : Prop} [Decidable c] {p k : Proc} {n : Nat} (hp : Owes w p 1)
    (hk : Owes w k n) : Owes w (forkIf c p k) ((if c then 1 else 0) + n) := by
  unfold forkIf
  split
  · exact ⟨1, n, Nat.le_refl _, hp, hk⟩
  · rw [Nat.zero_add]; exact hk

/-- With an instance domain and no instance there are more entries than `tocCount` says. -/
theorem falls_toc (h1 : r.InstanceDomainCount > 0) (h2 : ¬ r.InstanceCount > 0) (k : Proc) :
    Falls (writeTocBlock r k) := by
  refine .inr ⟨(if r.InstanceDomainCount > 0 then 1 else 0) + ((if r.InstanceCount > 0 then 1 else 0) +
    (1 + (1 + ((if r.StringCount > 0 then 1 else 0) + 0)))), ?_, fun w => ?_⟩
  · unfold Reg.tocCount
    rw [if_pos h1, if_neg h2, if_neg h2]
    split <;> omega
  · refine owes_forkIf (owes_singleToc r) ?_
    refine owes_forkIf (owes_singleToc r) ?_
    refine ⟨1, _, Nat.le_refl _, owes_singleToc r, ?_⟩
    refine ⟨1, _, Nat.le_refl _, owes_singleToc r, ?_⟩
    refine owes_forkIf (owes_singleToc r) ?_
    rfl

theorem falls_start (h1 : r.InstanceDomainCount > 0) (h2 : ¬ r.InstanceCount > 0) :
    Falls (startProg r e o) := by
  refine .inr (.inl fun w => ?_)
  exact .inl (falls_toc r h1 h2 _)

end

end Speed
