import Verif.RegConcInv
/-
Concurrent registration, for arbitrary programs: no deadlock, every schedule is finite.
-/
namespace Speed

/-- Both locks are held by whom they should. -/
def LInv (s : RSt) : Prop := RLockOK s.lm s.thr RTh.wM RTh.rM ∧ RLockOK s.li s.thr RTh.wI RTh.rI

theorem linv_init (r : Reg) (progs : List (List Metric)) : LInv (rinit r progs) := by
  have h1 : ∀ f : RTh → Bool, (∀ ms, f (.idle ms) = false) → (progs.map RTh.idle).countP f = 0 := by
    intro f hf
    rw [List.countP_eq_zero]
    intro t ht
    obtain ⟨ms, _, rfl⟩ := List.mem_map.1 ht
    rw [hf]; decide
  exact ⟨⟨(h1 _ fun _ => rfl).symm, (h1 _ fun _ => rfl).symm⟩, ⟨(h1 _ fun _ => rfl).symm, (h1 _ fun _ => rfl).symm⟩⟩

theorem LInv.move {s s' : RSt} (h : LInv s) {i : Nat} {t t' : RTh} (hi : s.thr[i]? = some t)
    (he : s'.thr = s.thr.set i t')
    (hwM : s'.lm.writer.toNat + t.wM.toNat = s.lm.writer.toNat + t'.wM.toNat)
    (hrM : s'.lm.readers + t.rM.toNat = s.lm.readers + t'.rM.toNat)
    (hwI : s'.li.writer.toNat + t.wI.toNat = s.li.writer.toNat + t'.wI.toNat)
    (hrI : s'.li.readers + t.rI.toNat = s.li.readers + t'.rI.toNat) : LInv s' := by
  obtain ⟨n1, a1, a2⟩ := countP_split hi RTh.wM
  obtain ⟨n2, b1, b2⟩ := countP_split hi RTh.rM
  obtain ⟨n3, d1, d2⟩ := countP_split hi RTh.wI
  obtain ⟨n4, e1, e2⟩ := countP_split hi RTh.rI
  have g1 := h.1.writer
  have g2 := h.1.readers
  have g3 := h.2.writer
  have g4 := h.2.readers
  refine ⟨⟨?_, ?_⟩, ⟨?_, ?_⟩⟩
  · rw [he, a2]; omega
  · rw [he, b2]; omega
  · rw [he, d2]; omega
  · rw [he, e2]; omega

/-- Steps left in a call, at most. -/
def RPc.rank : RPc → Nat
  | .start => 61
  | .hasM0 => 60
  | .hasM1 => 59
  | .hasM2 _ => 58
  | .hasI0 _ false => 57
  | .hasI1 _ false => 56
  | .hasI2 _ false _ => 55
  | .hasI0 _ true => 54
  | .hasI1 _ true => 53
  | .hasI2 _ true _ => 52
  | .lockI _ => 51
  | .mappedI _ => 50
  | .csI _ ops x => 25 + 2 * ops.length - x.isSome.toNat
  | .failI => 1
  | .lockM => 19
  | .csM ops x => 2 + 2 * ops.length - x.isSome.toNat

def RTh.rank : RTh → Nat
  | .idle ms => 100 * ms.length
  | .busy _ pc ms => 100 * ms.length + pc.rank

def RSt.rank (s : RSt) : Nat := (s.thr.map RTh.rank).sum

theorem rank_set {l : List RTh} {i : Nat} {t : RTh} (hi : l[i]? = some t) (t' : RTh) (h : t'.rank < t.rank) :
    ((l.set i t').map RTh.rank).sum < (l.map RTh.rank).sum := by
  induction l generalizing i with
  | nil => simp at hi
  | cons x l ih =>
    cases i with
    | zero =>
      simp only [List.getElem?_cons_zero, Option.some.injEq] at hi
      subst hi
      simp; omega
    | succ i =>
      have := ih (i := i) (by simpa using hi)
      simp only [List.set_cons_succ, List.map_cons, List.sum_cons]; omega

theorem csStep_rank {r r' : Reg} {ops ops' : List Mic} {x x' : Option Nat}
    (h : csStep r ops x = some (r', ops', x')) :
    2 * ops'.length + x.isSome.toNat < 2 * ops.length + x'.isSome.toNat ∧ x'.isSome.toNat ≤ 2 * ops'.length ∧
    x.isSome.toNat ≤ 2 * ops.length := by
  unfold csStep at h
  split at h
  · cases h
  all_goals
    obtain ⟨rfl, rfl, rfl⟩ : _ ∧ _ ∧ _ := by simpa using h
    simp
    try omega
  all_goals
    cases x <;> simp <;> omega

theorem bodyM_length (m : Metric) : (bodyM m).length ≤ 6 := by
  unfold bodyM textMic
  simp only [List.length_append, List.length_singleton]
  have h1 : ∀ (c : Prop) [Decidable c] (o : Mic), (if c then [o] else []).length ≤ 1 := by
    intro c _ o; split <;> simp
  have a := h1 (m.desc.name.length > MaxV1NameLength) (.flag true)
  have b := h1 (m.desc.t = StringType) (.add .str m.valueCount)
  have c := h1 (m.desc.short ≠ []) (.add .str 1)
  have d := h1 (m.desc.long ≠ []) (.add .str 1)
  omega

theorem bodyI_length (d : Indom) : (bodyI d).length ≤ 5 := by
  unfold bodyI textMic
  simp only [List.length_append, List.length_cons, List.length_nil]
  have h1 : ∀ (c : Prop) [Decidable c] (o : Mic), (if c then [o] else []).length ≤ 1 := by
    intro c _ o; split <;> simp
  have c := h1 (d.short ≠ []) (.add .str 1)
  have e := h1 (d.long ≠ []) (.add .str 1)
  omega

/-- A step, with what the proofs below need. -/
theorem rstep_facts {s s' : RSt} {i : Nat} (hl : LInv s) (hs : rstep s i = some s') :
    LInv s' ∧ s'.rank < s.rank := by
  unfold rstep at hs
  split at hs
  · cases hs
  · cases hs
  · rename_i m ms hi
    obtain rfl := Option.some.inj hs
    refine ⟨hl.move hi rfl rfl rfl rfl rfl, rank_set hi _ ?_⟩
    simp [RTh.rank, RPc.rank]; omega
  · rename_i m pc ms hi
    have hfin : ∀ ms : List Metric, 0 < pc.rank → (RTh.idle ms).rank < (RTh.busy m pc ms).rank := by
      intro ms hp; simp only [RTh.rank]; omega
    have hgo : ∀ pc' : RPc, pc'.rank < pc.rank → (RTh.busy m pc' ms).rank < (RTh.busy m pc ms).rank := by
      intro pc' hp; simp only [RTh.rank]; omega
    split at hs
    · -- start
      obtain rfl := Option.some.inj hs
      split
      · exact ⟨hl.move hi rfl rfl rfl rfl rfl, rank_set hi _ (hfin ms (by decide))⟩
      · exact ⟨hl.move hi rfl rfl rfl rfl rfl, rank_set hi _ (hgo _ (by decide))⟩
    · split at hs
      · cases hs
      obtain rfl := Option.some.inj hs
      exact ⟨hl.move hi rfl rfl rfl rfl rfl, rank_set hi _ (hgo _ (by decide))⟩
    · obtain rfl := Option.some.inj hs
      exact ⟨hl.move hi rfl rfl rfl rfl rfl, rank_set hi _ (hgo _ (by simp [RPc.rank]))⟩
    · rename_i b
      obtain rfl := Option.some.inj hs
      have hr : s.lm.readers ≠ 0 := by
        rw [hl.1.readers]
        have : 0 < s.thr.countP RTh.rM := List.countP_pos_iff.2 ⟨_, List.mem_of_getElem? hi, rfl⟩
        omega
      have hr' : s.lm.readers - 1 + 1 = s.lm.readers := by omega
      cases b with
      | true => exact ⟨hl.move hi rfl rfl hr' rfl rfl, rank_set hi _ (hfin ms (by simp [RPc.rank]))⟩
      | false =>
        rw [if_neg (by decide)]
        cases hd : m.indom with
        | none => exact ⟨hl.move hi rfl rfl hr' rfl rfl, rank_set hi _ (hgo _ (by simp [RPc.rank]))⟩
        | some d => exact ⟨hl.move hi rfl rfl hr' rfl rfl, rank_set hi _ (hgo _ (by simp [RPc.rank]))⟩
    · rename_i d again
      split at hs
      · cases hs
      obtain rfl := Option.some.inj hs
      exact ⟨hl.move hi rfl rfl rfl rfl rfl, rank_set hi _ (hgo _ (by cases again <;> simp [RPc.rank]))⟩
    · rename_i d again
      obtain rfl := Option.some.inj hs
      exact ⟨hl.move hi rfl rfl rfl rfl rfl, rank_set hi _ (hgo _ (by cases again <;> simp [RPc.rank]))⟩
    · rename_i d again b
      obtain rfl := Option.some.inj hs
      have hr : s.li.readers ≠ 0 := by
        rw [hl.2.readers]
        have : 0 < s.thr.countP RTh.rI := List.countP_pos_iff.2 ⟨_, List.mem_of_getElem? hi, rfl⟩
        omega
      have hr' : s.li.readers - 1 + 1 = s.li.readers := by omega
      cases again <;> cases b
      · exact ⟨hl.move hi rfl rfl rfl rfl hr', rank_set hi _ (hgo _ (by simp [RPc.rank]))⟩
      · exact ⟨hl.move hi rfl rfl rfl rfl hr', rank_set hi _ (hgo _ (by simp [RPc.rank]))⟩
      · exact ⟨hl.move hi rfl rfl rfl rfl hr', rank_set hi _ (hgo _ (by simp [RPc.rank]))⟩
      · exact ⟨hl.move hi rfl rfl rfl rfl hr', rank_set hi _ (hfin ms (by simp [RPc.rank]))⟩
    · rename_i d
      split at hs
      · cases hs
      rename_i hc
      simp only [Bool.or_eq_true, decide_eq_true_eq, not_or, Bool.not_eq_true, ne_eq, not_not] at hc
      obtain rfl := Option.some.inj hs
      exact ⟨hl.move hi rfl rfl rfl (by rw [hc.1]; rfl) (by rw [hc.2]; rfl), rank_set hi _ (hgo _ (by simp [RPc.rank]))⟩
    · rename_i d
      obtain rfl := Option.some.inj hs
      have := bodyI_length d
      split
      · exact ⟨hl.move hi rfl rfl rfl rfl rfl, rank_set hi _ (hgo _ (by simp [RPc.rank]))⟩
      · exact ⟨hl.move hi rfl rfl rfl rfl rfl, rank_set hi _ (hgo _ (by simp [RPc.rank]; omega))⟩
    · obtain rfl := Option.some.inj hs
      have hw : s.li.writer = true := by
        have h1 := hl.2.writer
        have : 0 < s.thr.countP RTh.wI := List.countP_pos_iff.2 ⟨_, List.mem_of_getElem? hi, rfl⟩
        cases hh : s.li.writer with
        | true => rfl
        | false => rw [hh] at h1; simp at h1; omega
      exact ⟨hl.move hi rfl rfl rfl (by rw [hw]; rfl) rfl, rank_set hi _ (hfin ms (by decide))⟩
    · rename_i d ops x
      split at hs
      · rename_i r' ops' x' hcs
        obtain rfl := Option.some.inj hs
        obtain ⟨c1, c2, c3⟩ := csStep_rank hcs
        refine ⟨hl.move hi rfl rfl rfl rfl rfl, rank_set hi _ (hgo _ ?_)⟩
        simp only [RPc.rank]; omega
      · rename_i hcs
        obtain rfl := Option.some.inj hs
        have hw : s.li.writer = true := by
          have h1 := hl.2.writer
          have : 0 < s.thr.countP RTh.wI := List.countP_pos_iff.2 ⟨_, List.mem_of_getElem? hi, rfl⟩
          cases hh : s.li.writer with
          | true => rfl
          | false => rw [hh] at h1; simp at h1; omega
        have hops : ops = [] := by
          unfold csStep at hcs
          split at hcs <;> first | rfl | cases hcs
        subst hops
        refine ⟨hl.move hi rfl rfl rfl (by rw [hw]; rfl) rfl, rank_set hi _ (hgo _ ?_)⟩
        simp only [RPc.rank]
        cases x <;> simp
    · split at hs
      · cases hs
      rename_i hc
      simp only [Bool.or_eq_true, decide_eq_true_eq, not_or, Bool.not_eq_true, ne_eq, not_not] at hc
      obtain rfl := Option.some.inj hs
      have := bodyM_length m
      exact ⟨hl.move hi rfl (by rw [hc.1]; rfl) (by rw [hc.2]; rfl) rfl rfl,
        rank_set hi _ (hgo _ (by simp [RPc.rank]; omega))⟩
    · rename_i ops x
      split at hs
      · rename_i r' ops' x' hcs
        obtain rfl := Option.some.inj hs
        obtain ⟨c1, c2, c3⟩ := csStep_rank hcs
        refine ⟨hl.move hi rfl rfl rfl rfl rfl, rank_set hi _ (hgo _ ?_)⟩
        simp only [RPc.rank]; omega
      · rename_i hcs
        obtain rfl := Option.some.inj hs
        have hw : s.lm.writer = true := by
          have h1 := hl.1.writer
          have : 0 < s.thr.countP RTh.wM := List.countP_pos_iff.2 ⟨_, List.mem_of_getElem? hi, rfl⟩
          cases hh : s.lm.writer with
          | true => rfl
          | false => rw [hh] at h1; simp at h1; omega
        refine ⟨hl.move hi rfl (by rw [hw]; rfl) rfl rfl rfl, rank_set hi _ (hfin ms ?_)⟩
        simp only [RPc.rank]
        cases x <;> simp

theorem LInv.reach {s s' : RSt} (h : LInv s) (hr : RReach s s') : LInv s' := by
  induction hr with
  | refl => exact h
  | tail _ hs ih =>
    obtain ⟨i, hs⟩ := hs
    exact (rstep_facts ih hs).1

/-- Whoever holds a lock can go on. -/
theorem holder_steps {s : RSt} {i : Nat} {t : RTh} (hi : s.thr[i]? = some t)
    (h : t.wM = true ∨ t.rM = true ∨ t.wI = true ∨ t.rI = true) : ∃ s', rstep s i = some s' := by
  unfold rstep
  rw [hi]
  cases t with
  | idle ms => rcases h with h | h | h | h <;> cases h
  | busy m pc ms =>
    cases pc with
    | start => rcases h with h | h | h | h <;> cases h
    | hasM0 => rcases h with h | h | h | h <;> cases h
    | hasM1 => exact ⟨_, rfl⟩
    | hasM2 b => exact ⟨_, rfl⟩
    | hasI0 d a => rcases h with h | h | h | h <;> cases h
    | hasI1 d a => exact ⟨_, rfl⟩
    | hasI2 d a b => exact ⟨_, rfl⟩
    | lockI d => rcases h with h | h | h | h <;> cases h
    | mappedI d => exact ⟨_, rfl⟩
    | csI d ops x => dsimp only; split <;> exact ⟨_, rfl⟩
    | failI => exact ⟨_, rfl⟩
    | lockM => rcases h with h | h | h | h <;> cases h
    | csM ops x => dsimp only; split <;> exact ⟨_, rfl⟩

theorem mem_steps {s : RSt} {f : RTh → Bool} (h : 0 < s.thr.countP f)
    (hf : ∀ t, f t = true → t.wM = true ∨ t.rM = true ∨ t.wI = true ∨ t.rI = true) : ∃ s', RStep s s' := by
  obtain ⟨t, ht, hft⟩ := List.countP_pos_iff.1 h
  obtain ⟨i, hi⟩ := List.mem_iff_getElem?.1 ht
  obtain ⟨s', hs⟩ := holder_steps hi (hf t hft)
  exact ⟨s', i, hs⟩

theorem no_deadlock {s : RSt} (hl : LInv s) (hst : ∀ s', ¬ RStep s s') : s.finished := by
  have hwM : s.lm.writer = false := by
    cases hh : s.lm.writer with
    | false => rfl
    | true =>
      have h1 := hl.1.writer
      rw [hh] at h1
      obtain ⟨s', hs⟩ := mem_steps (s := s) (f := RTh.wM) (by rw [← h1]; decide) (fun _ h => .inl h)
      exact absurd hs (hst s')
  have hrM : s.lm.readers = 0 := by
    by_contra hh
    obtain ⟨s', hs⟩ := mem_steps (s := s) (f := RTh.rM) (by rw [← hl.1.readers]; omega) (fun _ h => .inr (.inl h))
    exact absurd hs (hst s')
  have hwI : s.li.writer = false := by
    cases hh : s.li.writer with
    | false => rfl
    | true =>
      have h1 := hl.2.writer
      rw [hh] at h1
      obtain ⟨s', hs⟩ := mem_steps (s := s) (f := RTh.wI) (by rw [← h1]; decide) (fun _ h => .inr (.inr (.inl h)))
      exact absurd hs (hst s')
  have hrI : s.li.readers = 0 := by
    by_contra hh
    obtain ⟨s', hs⟩ := mem_steps (s := s) (f := RTh.rI) (by rw [← hl.2.readers]; omega)
      (fun _ h => .inr (.inr (.inr h)))
    exact absurd hs (hst s')
  intro t ht
  obtain ⟨i, hi⟩ := List.mem_iff_getElem?.1 ht
  have hno : rstep s i = none := by
    cases hh : rstep s i with
    | none => rfl
    | some s' => exact absurd ⟨i, hh⟩ (hst s')
  unfold rstep at hno
  rw [hi] at hno
  cases t with
  | idle ms =>
    cases ms with
    | nil => rfl
    | cons m ms => cases hno
  | busy m pc ms =>
    exfalso
    cases pc <;> simp only [hwM, hrM, hwI, hrI] at hno <;> first | cases hno | (split at hno <;> cases hno)

theorem rreach_finite (s : RSt) (hl : LInv s) : ¬ ∃ f : Nat → RSt, f 0 = s ∧ ∀ n, RStep (f n) (f (n + 1)) := by
  rintro ⟨f, h0, hf⟩
  have h1 : ∀ n, RReach s (f n) := by
    intro n
    induction n with
    | zero => rw [h0]; exact .refl
    | succ n ih => exact ih.tail (hf n)
  have h2 : ∀ n, (f n).rank + n ≤ s.rank := by
    intro n
    induction n with
    | zero => rw [h0]; exact Nat.le_refl _
    | succ n ih =>
      obtain ⟨i, hi⟩ := hf n
      have := (rstep_facts (hl.reach (h1 n)) hi).2
      omega
  have := h2 (s.rank + 1)
  omega

end Speed
