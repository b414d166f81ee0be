import Verif.NilUnit
import Verif.StartDoom
import Verif.Sample
/-
`startProgU` runs like `startProg` until a goroutine comes to a nil unit (`Cut`, `CutSt`), and with a nil unit it never returns
(the counting argument of `StartDoom`).
-/
namespace Speed

/-! ### Programs cut off by a panic -/

/-- The program stores bytes and is then done. -/
def OnlyStores : Proc → Prop
  | .done => True
  | .store _ _ k => OnlyStores k
  | _ => False

/-- A place in which the cut program may panic: the other one is about to store a byte, and has more to do than storing. -/
def MayPanic (p : Proc) : Prop := ¬ OnlyStores p ∧ ((∃ a b k, p = .store a b k) ∨ p = .panic)

/-- The first program is the second one, except that it panics in some places. -/
inductive Cut : Proc → Proc → Prop
  | panic {p} : MayPanic p → Cut .panic p
  | done : Cut .done .done
  | store {a b k k'} : Cut k' k → Cut (.store a b k') (.store a b k)
  | recv {c k k'} : (∀ v, Cut (k' v) (k v)) → Cut (.recv c k') (.recv c k)
  | send {c v k k'} : Cut k' k → Cut (.send c v k') (.send c v k)
  | fork {p p' k k'} : Cut p' p → Cut k' k → Cut (.fork p' k') (.fork p k)
  | wgNew {n k k'} : (∀ w, Cut (k' w) (k w)) → Cut (.wgNew n k') (.wgNew n k)
  | wgDone {w k k'} : Cut k' k → Cut (.wgDone w k') (.wgDone w k)
  | wgWait {w k k'} : Cut k' k → Cut (.wgWait w k') (.wgWait w k)
  | setCell {c v k k'} : Cut k' k → Cut (.setCell c v k') (.setCell c v k)
  | getCell {c k k'} : (∀ v, Cut (k' v) (k v)) → Cut (.getCell c k') (.getCell c k)

theorem Cut.refl (p : Proc) : Cut p p := by
  induction p with
  | done => exact .done
  | panic => exact .panic ⟨id, .inr rfl⟩
  | store a b k ih => exact .store ih
  | recv c k ih => exact .recv ih
  | send c v k ih => exact .send ih
  | fork p k ih1 ih2 => exact .fork ih1 ih2
  | wgNew n k ih => exact .wgNew ih
  | wgDone w k ih => exact .wgDone ih
  | wgWait w k ih => exact .wgWait ih
  | setCell c v k ih => exact .setCell ih
  | getCell c k ih => exact .getCell ih

theorem cut_storeAll {off : Nat} {bs : List Byte} {k k' : Proc} (h : Cut k' k) :
    Cut (storeAll off bs k') (storeAll off bs k) := by
  induction bs generalizing off with
  | nil => exact h
  | cons b bs ih => exact .store ih

theorem cut_mustWrite {len : Nat} {bs : List Byte} {off : Nat} {k k' : Nat → Proc} (h : ∀ v, Cut (k' v) (k v)) :
    Cut (mustWrite len bs off k') (mustWrite len bs off k) := by
  unfold mustWrite
  split
  · exact cut_storeAll (h _)
  · exact .panic ⟨id, .inr rfl⟩

/-- The states agree except that goroutines of the first are cut off. -/
structure CutSt (s' s : St) : Prop where
  mem : s'.mem = s.mem
  ch : s'.ch = s.ch
  wgs : s'.wgs = s.wgs
  cells : s'.cells = s.cells
  crashed : s'.crashed = s.crashed
  thr : List.Forall₂ Cut s'.thr s.thr

theorem forall₂_set {R : Proc → Proc → Prop} {l' l : List Proc} (h : List.Forall₂ R l' l) {p' p : Proc} (hp : R p' p)
    (i : Nat) : List.Forall₂ R (l'.set i p') (l.set i p) := by
  induction h generalizing i with
  | nil => exact .nil
  | cons h1 h2 ih =>
    cases i with
    | zero => exact .cons hp h2
    | succ i => exact .cons h1 (ih i)

theorem forall₂_get {R : Proc → Proc → Prop} {l' l : List Proc} (h : List.Forall₂ R l' l) {i : Nat} {p' : Proc}
    (hi : l'[i]? = some p') : ∃ p, l[i]? = some p ∧ R p' p := by
  induction h generalizing i with
  | nil => simp at hi
  | cons h1 _ ih =>
    cases i with
    | zero => simp only [List.getElem?_cons_zero, Option.some.injEq] at hi; subst hi; exact ⟨_, rfl, h1⟩
    | succ i => simp only [List.getElem?_cons_succ] at hi ⊢; exact ih hi

theorem forall₂_get' {R : Proc → Proc → Prop} {l' l : List Proc} (h : List.Forall₂ R l' l) {i : Nat} {p : Proc}
    (hi : l[i]? = some p) : ∃ p', l'[i]? = some p' ∧ R p' p := by
  induction h generalizing i with
  | nil => simp at hi
  | cons h1 _ ih =>
    cases i with
    | zero => simp only [List.getElem?_cons_zero, Option.some.injEq] at hi; subst hi; exact ⟨_, rfl, h1⟩
    | succ i => simp only [List.getElem?_cons_succ] at hi ⊢; exact ih hi

theorem forall₂_snoc {R : Proc → Proc → Prop} {l' l : List Proc} (h : List.Forall₂ R l' l) {p' p : Proc} (hp : R p' p) :
    List.Forall₂ R (l' ++ [p']) (l ++ [p]) := by
  induction h with
  | nil => exact .cons hp .nil
  | cons h1 _ ih => exact .cons h1 ih

/-- Every step of the cut state is a panic of its own or a step of the other one. -/
theorem CutSt.step {s' s t' : St} (h : CutSt s' s) (hs : Step s' t') :
    (t' = s'.crash ∧ Proc.panic ∈ s'.thr) ∨ ∃ t, Step s t ∧ CutSt t' t := by
  obtain ⟨i, j, hs⟩ := hs
  obtain ⟨mem', thr', ch', wgs', cells', crashed'⟩ := s'
  obtain ⟨mem, thr, ch, wgs, cells, crashed⟩ := s
  obtain ⟨h1, h2, h3, h4, h5, h6⟩ := h
  dsimp only at h1 h2 h3 h4 h5 h6
  subst h1 h2 h3 h4 h5
  have hs0 := hs
  unfold Speed.step at hs
  dsimp only at hs
  split at hs
  · cases hs
  · rename_i hc
    have hc : crashed' = false := by simpa using hc
    subst hc
    cases hi' : thr'[i]? with
    | none => rw [hi'] at hs; cases hs
    | some p' =>
      rw [hi'] at hs
      obtain ⟨p, hi, hcut⟩ := forall₂_get h6 hi'
      have key : ∀ l, Speed.step ⟨mem', thr, ch', wgs', cells', false⟩ i j = some { t' with thr := l } →
          List.Forall₂ Cut t'.thr l →
          (t' = St.crash ⟨mem', thr', ch', wgs', cells', false⟩ ∧ Proc.panic ∈ thr') ∨
            ∃ t, Step ⟨mem', thr, ch', wgs', cells', false⟩ t ∧ CutSt t' t :=
        fun l h1 h2 => .inr ⟨_, ⟨i, j, h1⟩, ⟨rfl, rfl, rfl, rfl, rfl, h2⟩⟩
      cases hcut with
      | panic => injection hs with hs; exact .inl ⟨hs.symm, List.mem_of_getElem? hi'⟩
      | done => cases hs
      | store hk =>
        dsimp only at hs
        split at hs
        · rename_i ha
          injection hs with hs; subst hs
          refine key _ ?_ (forall₂_set h6 hk i)
          unfold Speed.step
          simp [hi, ha]
        · rename_i ha
          injection hs with hs; subst hs
          refine .inr ⟨St.crash ⟨mem', thr, ch', wgs', cells', false⟩, ⟨i, j, ?_⟩, ⟨rfl, rfl, rfl, rfl, rfl, h6⟩⟩
          unfold Speed.step
          simp [hi, ha]
      | recv hk =>
        rename_i c k k'
        dsimp only at hs
        split at hs
        · rename_i v hv
          injection hs with hs; subst hs
          refine key _ ?_ (forall₂_set h6 (hk _) i)
          unfold Speed.step
          simp [hi, hv]
        · cases hs
      | send hk =>
        rename_i c v k k'
        dsimp only at hs
        split at hs
        · rename_i hv
          injection hs with hs; subst hs
          refine key _ ?_ (forall₂_set h6 hk i)
          unfold Speed.step
          simp [hi, hv]
        · rename_i hv
          split at hs
          · rename_i c' q' hj'
            split at hs
            · rename_i hcj
              injection hs with hs; subst hs
              obtain ⟨q, hj, hq⟩ := forall₂_get h6 hj'
              cases hq with
              | recv hq =>
                refine key _ ?_ (forall₂_set (forall₂_set h6 hk i) (hq _) j)
                unfold Speed.step
                simp [hi, hv, hj, hcj]
            · cases hs
          · cases hs
        · cases hs
      | fork hp hk =>
        injection hs with hs; subst hs
        refine key _ ?_ (forall₂_snoc (forall₂_set h6 hk i) hp)
        unfold Speed.step
        simp [hi]
      | wgNew hk =>
        injection hs with hs; subst hs
        refine key _ ?_ (forall₂_set h6 (hk _) i)
        unfold Speed.step
        simp [hi]
      | wgDone hk =>
        dsimp only at hs
        split at hs
        · rename_i n hv
          injection hs with hs; subst hs
          refine key _ ?_ (forall₂_set h6 hk i)
          unfold Speed.step
          simp [hi, hv]
        · rename_i hv
          injection hs with hs; subst hs
          refine .inr ⟨St.crash ⟨mem', thr, ch', wgs', cells', false⟩, ⟨i, j, ?_⟩, ⟨rfl, rfl, rfl, rfl, rfl, h6⟩⟩
          unfold Speed.step
          simp [hi, hv]
        · cases hs
      | wgWait hk =>
        dsimp only at hs
        split at hs
        · rename_i hv
          injection hs with hs; subst hs
          refine key _ ?_ (forall₂_set h6 hk i)
          unfold Speed.step
          simp [hi, hv]
        · cases hs
      | setCell hk =>
        injection hs with hs; subst hs
        refine key _ ?_ (forall₂_set h6 hk i)
        unfold Speed.step
        simp [hi]
      | getCell hk =>
        injection hs with hs; subst hs
        refine key _ ?_ (forall₂_set h6 (hk _) i)
        unfold Speed.step
        simp [hi]

/-- Where the other state can step, so can the cut one. -/
theorem CutSt.canStep {s' s t : St} (h : CutSt s' s) (hs : Step s t) : ∃ t', Step s' t' := by
  obtain ⟨i, j, hs⟩ := hs
  obtain ⟨mem', thr', ch', wgs', cells', crashed'⟩ := s'
  obtain ⟨mem, thr, ch, wgs, cells, crashed⟩ := s
  obtain ⟨h1, h2, h3, h4, h5, h6⟩ := h
  dsimp only at h1 h2 h3 h4 h5 h6
  subst h1 h2 h3 h4 h5
  unfold Speed.step at hs
  dsimp only at hs
  split at hs
  · cases hs
  · rename_i hc
    have hc : crashed' = false := by simpa using hc
    subst hc
    have key : ∀ (i j : Nat) (t' : St), Speed.step ⟨mem', thr', ch', wgs', cells', false⟩ i j = some t' →
        ∃ t', Step ⟨mem', thr', ch', wgs', cells', false⟩ t' := fun i j t' h => ⟨t', i, j, h⟩
    have hpan : ∀ (i : Nat), thr'[i]? = some Proc.panic → ∃ t', Step ⟨mem', thr', ch', wgs', cells', false⟩ t' := by
      intro i hi
      refine key i 0 (St.crash ⟨mem', thr', ch', wgs', cells', false⟩) ?_
      unfold Speed.step
      simp [hi]
    cases hi : thr[i]? with
    | none => rw [hi] at hs; cases hs
    | some p =>
      rw [hi] at hs
      obtain ⟨p', hi', hcut⟩ := forall₂_get' h6 hi
      cases hcut with
      | panic => exact hpan i hi'
      | done => cases hs
      | store hk =>
        dsimp only at hs
        split at hs
        · rename_i ha
          refine key i j _ (by unfold Speed.step; simp [hi', ha]; rfl)
        · rename_i ha
          refine key i j _ (by unfold Speed.step; simp [hi', ha]; rfl)
      | recv hk =>
        dsimp only at hs
        split at hs
        · rename_i v hv
          refine key i j _ (by unfold Speed.step; simp [hi', hv]; rfl)
        · cases hs
      | send hk =>
        dsimp only at hs
        split at hs
        · rename_i hv
          refine key i j _ (by unfold Speed.step; simp [hi', hv]; rfl)
        · rename_i hv
          split at hs
          · rename_i c' q hj
            split at hs
            · rename_i hcj
              obtain ⟨q', hj', hq⟩ := forall₂_get' h6 hj
              cases hq with
              | panic => exact hpan j hj'
              | recv hq => exact key i j _ (by unfold Speed.step; simp [hi', hv, hj', hcj]; rfl)
            · cases hs
          · cases hs
        · cases hs
      | fork hp hk => exact key i j _ (by unfold Speed.step; simp [hi']; rfl)
      | wgNew hk => exact key i j _ (by unfold Speed.step; simp [hi']; rfl)
      | wgDone hk =>
        dsimp only at hs
        split at hs
        · rename_i n hv
          refine key i j _ (by unfold Speed.step; simp [hi', hv]; rfl)
        · rename_i hv
          refine key i j _ (by unfold Speed.step; simp [hi', hv]; rfl)
        · cases hs
      | wgWait hk =>
        dsimp only at hs
        split at hs
        · rename_i hv
          refine key i j _ (by unfold Speed.step; simp [hi', hv]; rfl)
        · cases hs
      | setCell hk => exact key i j _ (by unfold Speed.step; simp [hi']; rfl)
      | getCell hk => exact key i j _ (by unfold Speed.step; simp [hi']; rfl)

/-- A state of the cut program that has been reached is matched by one of the other program, or is the crash of one that is. -/
theorem CutSt.reach {s' s t' : St} (h : CutSt s' s) (hr : Reach s' t') :
    (∃ t, Reach s t ∧ CutSt t' t) ∨
    ∃ u' u, Reach s' u' ∧ Reach s u ∧ CutSt u' u ∧ Proc.panic ∈ u'.thr ∧ t' = u'.crash := by
  induction hr with
  | refl => exact .inl ⟨s, .refl, h⟩
  | tail h1 h2 ih =>
    rename_i u' t'
    rcases ih with ⟨u, e1, e2⟩ | ⟨v', v, _, _, _, _, rfl⟩
    · rcases e2.step h2 with ⟨rfl, hp⟩ | ⟨t, e3, e4⟩
      · exact .inr ⟨u', u, h1, e1, e2, hp, rfl⟩
      · exact .inl ⟨t, .tail e1 e3, e4⟩
    · obtain ⟨i, j, hs⟩ := h2
      unfold Speed.step at hs
      simp [St.crash] at hs

/-! ### Cutting keeps the counting arguments -/

theorem Cut.scoped {p' p : Proc} (h : Cut p' p) {A : Nat → Prop} (hs : Scoped A p) : Scoped A p' := by
  induction h generalizing A with
  | panic => trivial
  | done => trivial
  | store _ ih => exact ih hs
  | recv _ ih => exact fun v => ih v (hs v)
  | send _ ih => exact ih hs
  | fork _ _ ih1 ih2 => exact ⟨ih1 hs.1, ih2 hs.2⟩
  | wgNew _ ih => exact fun w => ih w (hs w)
  | wgDone _ ih => exact ⟨hs.1, ih hs.2⟩
  | wgWait _ ih => exact ih hs
  | setCell _ ih => exact ih hs
  | getCell _ ih => exact fun v => ih v (hs v)

theorem Cut.bound {p' p : Proc} (h : Cut p' p) {w : Nat} {D : List Nat} {n : Nat} (hs : Bound w D p n) :
    Bound w D p' n := by
  induction h generalizing w D n with
  | panic => trivial
  | done => trivial
  | store _ ih => exact ih hs
  | recv _ ih => exact fun v => ih v (hs v)
  | send _ ih => exact ih hs
  | fork _ _ ih1 ih2 =>
    obtain ⟨a, b, hab, h1, h2⟩ := hs
    exact ⟨a, b, hab, ih1 h1, ih2 h2⟩
  | wgNew _ ih =>
    rcases hs with hs | ⟨b, hb, hs⟩
    · exact .inl fun w' hw => ih w' (hs w' hw)
    · exact .inr ⟨b, hb, fun w' hw => ⟨ih w' (hs w' hw).1, ih w' (hs w' hw).2⟩⟩
  | wgDone _ ih =>
    unfold Bound at hs ⊢
    split at hs
    · rename_i e
      obtain ⟨m, rfl, hs⟩ := hs
      rw [if_pos e]
      exact ⟨m, rfl, ih hs⟩
    · rename_i e
      rw [if_neg e]
      exact ih hs
  | wgWait _ ih => exact hs.imp id ih
  | setCell _ ih => exact ih hs
  | getCell _ ih => exact fun v => ih v (hs v)

/-- A program that only stores is not cut. -/
theorem Cut.stores {p' p : Proc} (h : Cut p' p) (he : OnlyStores p) : p' = p := by
  induction h with
  | panic h => exact absurd he h.1
  | done => rfl
  | store _ ih => rw [ih he]
  | recv => exact he.elim
  | send => exact he.elim
  | fork => exact he.elim
  | wgNew => exact he.elim
  | wgDone => exact he.elim
  | wgWait => exact he.elim
  | setCell => exact he.elim
  | getCell => exact he.elim

end Speed
