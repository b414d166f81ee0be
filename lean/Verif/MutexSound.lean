import Mathlib.Tactic.ByContra
import Verif.Mutex
/-
Every interleaving of the goroutines of `Mutex.lean` has the effect of an interleaving of atomic calls.
-/
namespace Speed

section
variable {H α β : Type}

/-! ### Bodies -/

theorem MProc.run_step {u : Upd} {o : Obj H} {mem : Buf} {p p' : MProc H α} {o' mem'}
    (h : p.step u o mem = some (p', o', mem')) : p.run u o mem = p'.run u o' mem' := by
  cases p <;> simp only [MProc.step, Option.some.injEq, Prod.mk.injEq, reduceCtorEq] at h <;>
    obtain ⟨rfl, rfl, rfl⟩ := h <;> rfl

theorem MProc.step_none {u : Upd} {o : Obj H} {mem : Buf} {p : MProc H α} (h : p.step u o mem = none) : ∃ a, p = .ret a := by
  cases p <;> simp only [MProc.step, reduceCtorEq] at h
  exact ⟨_, rfl⟩

/-- Metric and result do not depend on the buffer, and each byte of the buffer only on the same byte. -/
theorem MProc.run_local (u : Upd) (p : MProc H α) (o : Obj H) (b b' : Buf) :
    (p.run u o b).1 = (p.run u o b').1 ∧ (p.run u o b).2.2 = (p.run u o b').2.2 ∧
    ∀ a : Nat, b[a]? = b'[a]? → (p.run u o b).2.1[a]? = (p.run u o b').2.1[a]? := by
  induction p generalizing o b b' with
  | ret a => exact ⟨rfl, rfl, fun _ h => h⟩
  | load s k ih => exact ih _ o b b'
  | store s v k ih => exact ih _ b b'
  | upd s k ih => exact ih _ o b b'
  | byte x c k ih =>
    obtain ⟨h1, h2, h3⟩ := ih o (b.set x c) (b'.set x c)
    refine ⟨h1, h2, fun a h => h3 a ?_⟩
    by_cases hx : x = a
    · subst hx
      have hl : x < b.length ↔ x < b'.length := by
        have h1 : b[x]? = none ↔ b'[x]? = none := by rw [h]
        rw [List.getElem?_eq_none_iff, List.getElem?_eq_none_iff] at h1
        omega
      by_cases hb : x < b.length
      · rw [List.getElem?_set_self hb, List.getElem?_set_self (hl.1 hb)]
      · rw [List.getElem?_eq_none (by rw [List.length_set]; omega), List.getElem?_eq_none (by rw [List.length_set]; omega)]
    · rw [List.getElem?_set_ne hx, List.getElem?_set_ne hx, h]
  | getTs k ih => exact ih _ o b b'
  | setTs t k ih => exact ih _ b b'
  | getH k ih => exact ih _ o b b'
  | setH t k ih => exact ih _ b b'

theorem MProc.run_len (u : Upd) (p : MProc H α) (o : Obj H) (b : Buf) : (p.run u o b).2.1.length = b.length := by
  induction p generalizing o b with
  | ret a => rfl
  | load s k ih => exact ih _ o b
  | store s v k ih => exact ih _ b
  | upd s k ih => exact ih _ o b
  | byte x c k ih => exact (ih o (b.set x c)).trans List.length_set
  | getTs k ih => exact ih _ o b
  | setTs t k ih => exact ih _ b
  | getH k ih => exact ih _ o b
  | setH t k ih => exact ih _ b

/-- Bytes outside `A` are not changed. -/
theorem MProc.run_within {u : Upd} {A : Nat → Prop} {p : MProc H α} (h : p.Within u A) (o : Obj H) (b : Buf) {a : Nat} (ha : ¬ A a) :
    (p.run u o b).2.1[a]? = b[a]? := by
  induction p generalizing o b with
  | ret _ => rfl
  | load s k ih => exact ih _ (h _) o b
  | store s v k ih => exact ih h _ b
  | upd s k ih => exact ih _ h o b
  | byte x c k ih =>
    have := ih h.2 o (b.set x c)
    refine this.trans (List.getElem?_set_ne ?_)
    rintro rfl
    exact ha h.1
  | getTs k ih => exact ih _ (h _) o b
  | setTs t k ih => exact ih h _ b
  | getH k ih => exact ih _ (h _) o b
  | setH t k ih => exact ih h _ b

theorem MProc.run_readOnly (u : Upd) {p : MProc H α} (h : p.ReadOnly) (o : Obj H) (b : Buf) :
    (p.run u o b).1 = o ∧ (p.run u o b).2.1 = b := by
  induction p with
  | ret _ => exact ⟨rfl, rfl⟩
  | load s k ih => exact ih _ (h _)
  | store => exact h.elim
  | upd s k ih => exact ih _ (h _)
  | byte => exact h.elim
  | getTs k ih => exact ih _ (h _)
  | setTs => exact h.elim
  | getH k ih => exact ih _ (h _)
  | setH => exact h.elim

theorem MProc.step_within {u : Upd} {A : Nat → Prop} {p p' : MProc H α} {o o' : Obj H} {b b' : Buf} (h : p.Within u A)
    (hs : p.step u o b = some (p', o', b')) : p'.Within u A ∧ b'.length = b.length ∧ ∀ a, ¬ A a → b'[a]? = b[a]? := by
  cases p <;> simp only [MProc.step, Option.some.injEq, Prod.mk.injEq, reduceCtorEq] at hs <;>
    obtain ⟨rfl, rfl, rfl⟩ := hs
  case byte x c k =>
    refine ⟨h.2, List.length_set, fun a ha => List.getElem?_set_ne ?_⟩
    rintro rfl
    exact ha h.1
  all_goals first
    | exact ⟨h, rfl, fun _ _ => rfl⟩
    | exact ⟨h _, rfl, fun _ _ => rfl⟩

theorem MProc.step_readOnly {u : Upd} {p p' : MProc H α} {o o' : Obj H} {b b' : Buf} (h : p.ReadOnly)
    (hs : p.step u o b = some (p', o', b')) : p'.ReadOnly ∧ o' = o ∧ b' = b := by
  cases p <;> simp only [MProc.step, Option.some.injEq, Prod.mk.injEq, reduceCtorEq] at hs
  case store => exact h.elim
  case byte => exact h.elim
  case setTs => exact h.elim
  case setH => exact h.elim
  all_goals
    obtain ⟨rfl, rfl, rfl⟩ := hs
    exact ⟨h _, rfl, rfl⟩

end

/-! ### Counting -/

section
variable {T : Type}

theorem countP_zero_get {p : T → Bool} {l : List T} (h : l.countP p = 0) {i : Nat} {x : T} (hx : l[i]? = some x) : p x = false := by
  rw [List.countP_eq_zero] at h
  have := h x (List.mem_of_getElem? hx)
  simpa using this

theorem countP_set' {p : T → Bool} {l : List T} {i : Nat} {x y : T} (hx : l[i]? = some x) :
    (l.set i y).countP p + (p x).toNat = l.countP p + (p y).toNat := by
  induction l generalizing i with
  | nil => cases hx
  | cons z l ih =>
    cases i with
    | zero =>
      obtain rfl := Option.some.inj hx
      simp only [List.set_cons_zero, List.countP_cons]
      cases p z <;> cases p y <;> simp
    | succ i =>
      have := ih (i := i) hx
      simp only [List.set_cons_succ, List.countP_cons]
      omega

theorem countP_one_get {p : T → Bool} {l : List T} (h : l.countP p = 1) {i j : Nat} {x y : T} (hx : l[i]? = some x) (hy : l[j]? = some y)
    (px : p x = true) (py : p y = true) : i = j := by
  induction l generalizing i j with
  | nil => cases hx
  | cons z l ih =>
    rw [List.countP_cons] at h
    cases i with
    | zero =>
      cases j with
      | zero => rfl
      | succ j =>
        obtain rfl := Option.some.inj hx
        rw [if_pos px] at h
        have := countP_zero_get (p := p) (l := l) (by omega) (i := j) hy
        rw [py] at this; cases this
    | succ i =>
      cases j with
      | zero =>
        obtain rfl := Option.some.inj hy
        rw [if_pos py] at h
        have := countP_zero_get (p := p) (l := l) (by omega) (i := i) hx
        rw [px] at this; cases this
      | succ j =>
        have : l.countP p = 1 := by
          have := List.countP_pos_iff (p := p) (l := l) |>.2 ⟨x, List.mem_of_getElem? (i := i) hx, px⟩
          omega
        rw [ih this (i := i) (j := j) hx hy]

theorem countP_pos_get {p : T → Bool} {l : List T} {i : Nat} {x : T} (hx : l[i]? = some x) (px : p x = true) : 0 < l.countP p :=
  List.countP_pos_iff.2 ⟨x, List.mem_of_getElem? hx, px⟩

end

/-! ### The simulation -/

section
variable {H R Me : Type}

def Thr.isW (m : Nat) : Thr H R Me → Bool
  | .inn m' true _ _ => m' = m
  | _ => false

def Thr.isR (m : Nat) : Thr H R Me → Bool
  | .inn m' false _ _ => m' = m
  | _ => false

/-- What a call has to satisfy: an operation that takes `RLock` writes nothing, the others write only bytes
of the metric's own values. -/
def Meths.Safe (M : Meths H R Me) (u : Nat → Upd) (Rg : Nat → Nat → Prop) (m : Nat) (me : Me) : Prop :=
  (M.wr me = true → (M.body m me).Within (u m) (Rg m)) ∧ (M.wr me = false → (M.body m me).ReadOnly)

/-- The locks are held by the goroutines that are inside. -/
def LockOK (S : LSt H R Me) : Prop := ∀ m, (S.lock m).readers = S.thr.countP (Thr.isR m) ∧
    (if (S.lock m).writer then S.thr.countP (Thr.isW m) = 1 ∧ (S.lock m).readers = 0 else S.thr.countP (Thr.isW m) = 0)

structure Sim (M : Meths H R Me) (u : Nat → Upd) (Rg : Nat → Nat → Prop) (S : LSt H R Me) (T : ASt H R Me) : Prop where
  count : S.thr.length = T.thr.length
  len : S.mem.length = T.mem.length
  outs : ∀ (i : Nat) c, S.thr[i]? = some (.out c) → T.thr[i]? = some (.out c) ∧ c.All (M.Safe u Rg)
  inns : ∀ (i : Nat) m w p k, S.thr[i]? = some (.inn m w p k) → T.thr[i]? = some (.pend (p.run (u m) (S.obj m) S.mem).2.2 k) ∧
    (∀ a, (k a).All (M.Safe u Rg)) ∧
    (w = true → p.Within (u m) (Rg m) ∧ (p.run (u m) (S.obj m) S.mem).1 = T.obj m ∧
      ∀ a, Rg m a → (p.run (u m) (S.obj m) S.mem).2.1[a]? = T.mem[a]?) ∧
    (w = false → p.ReadOnly)
  free : ∀ m, (S.lock m).writer = false → S.obj m = T.obj m ∧ ∀ a, Rg m a → S.mem[a]? = T.mem[a]?
  rest : ∀ a, (∀ m, ¬ Rg m a) → S.mem[a]? = T.mem[a]?
  locks : LockOK S
  log : S.log = T.log

variable {M : Meths H R Me} {u : Nat → Upd} {Rg : Nat → Nat → Prop} {S S' : LSt H R Me} {T : ASt H R Me}

theorem LockOK.noW (h : LockOK S) {m : Nat} (hw : (S.lock m).writer = false) {i : Nat} {p k} : S.thr[i]? ≠ some (.inn m true p k) := by
  intro hi
  obtain ⟨_, h2⟩ := h m
  rw [hw, if_neg (by simp)] at h2
  have := countP_zero_get h2 hi
  simp [Thr.isW] at this

theorem LockOK.noR (h : LockOK S) {m : Nat} (hr : (S.lock m).readers = 0) {i : Nat} {p k} : S.thr[i]? ≠ some (.inn m false p k) := by
  intro hi
  obtain ⟨h1, _⟩ := h m
  have := countP_zero_get (h1.symm.trans hr) hi
  simp [Thr.isR] at this

/-- A writer is alone. -/
theorem LockOK.alone (h : LockOK S) {m : Nat} {i : Nat} {p k} {j : Nat} {w p' k'} (hi : S.thr[i]? = some (.inn m true p k)) (hj : S.thr[j]? = some (.inn m w p' k')) :
    j = i ∧ (S.lock m).writer = true := by
  have hw : (S.lock m).writer = true := by
    cases hw : (S.lock m).writer with
    | true => rfl
    | false => exact absurd hi (h.noW hw)
  refine ⟨?_, hw⟩
  obtain ⟨h1, h2⟩ := h m
  rw [hw, if_pos rfl] at h2
  cases w with
  | true => exact countP_one_get h2.1 hj hi (by simp [Thr.isW]) (by simp [Thr.isW])
  | false => exact absurd hj (h.noR h2.2)

theorem LockOK.reader (h : LockOK S) {m : Nat} {i : Nat} {p k} (hi : S.thr[i]? = some (.inn m false p k)) : (S.lock m).writer = false := by
  cases hw : (S.lock m).writer with
  | false => rfl
  | true =>
    obtain ⟨h1, h2⟩ := h m
    rw [hw, if_pos rfl] at h2
    exact absurd hi (h.noR h2.2)

theorem lock_upd (h : LockOK S) {i : Nat} {x y : Thr H R Me} (hx : S.thr[i]? = some x) {lk : Nat → RW} {mem obj log}
    (hl : ∀ m, (lk m).readers + (x.isR m).toNat = (S.lock m).readers + (y.isR m).toNat ∧
      (lk m).writer.toNat + (x.isW m).toNat = (S.lock m).writer.toNat + (y.isW m).toNat ∧
      ((lk m).writer = true → (lk m).readers = 0)) :
    LockOK { S with mem := mem, obj := obj, lock := lk, thr := S.thr.set i y, log := log } := by
  intro m
  obtain ⟨h1, h2⟩ := h m
  obtain ⟨l1, l2, l3⟩ := hl m
  have c1 := countP_set' (p := Thr.isR m) (y := y) hx
  have c2 := countP_set' (p := Thr.isW m) (y := y) hx
  dsimp only
  refine ⟨by omega, ?_⟩
  cases hw : (S.lock m).writer <;> rw [hw] at h2 l2 <;> cases hk : (lk m).writer <;> rw [hk] at l2 <;>
    simp only [if_true, Bool.false_eq_true, if_false, Bool.toNat_true, Bool.toNat_false] at h2 l2 ⊢ <;>
    first
      | omega
      | exact ⟨by omega, l3 hk⟩

theorem get_set {X : Type} {l : List X} {i : Nat} {x : X} (hx : l[i]? = some x) (y : X) (j : Nat) :
    (l.set i y)[j]? = if j = i then some y else l[j]? := by
  by_cases h : j = i
  · subst h
    rw [if_pos rfl, List.getElem?_set_self (List.getElem?_eq_some_iff.1 hx).1]
  · rw [if_neg h, List.getElem?_set_ne (fun e => h e.symm)]

/-- One step keeps the simulation. -/
theorem Sim.step (hd : ∀ m m' a, Rg m a → Rg m' a → m = m') (h : Sim M u Rg S T) (hs : LStep M u S S') :
    ∃ T', AReach M u T T' ∧ Sim M u Rg S' T' := by
  cases hs with
  | @lock i m me k hi hwr hl =>
    obtain ⟨hT, hP, hk⟩ := h.outs i _ hi
    have hw := hP.1 hwr
    obtain ⟨ho, hm⟩ := h.free m (by rw [hl])
    obtain ⟨l1, l2, l3⟩ := (M.body m me).run_local (u m) (S.obj m) S.mem T.mem
    refine ⟨_, .tail .refl (.call hT), ?_⟩
    have no : ∀ (j : Nat) w p k, S.thr[j]? ≠ some (.inn m w p k) := by
      intro j w p k
      cases w with
      | true => exact h.locks.noW (by rw [hl])
      | false => exact h.locks.noR (by rw [hl])
    constructor
    · simp [h.count]
    · dsimp only; rw [MProc.run_len]; exact h.len
    · intro j c hj
      dsimp only at hj ⊢
      rw [get_set hi] at hj
      rw [get_set hT]
      split at hj
      · cases hj
      · rw [if_neg (by assumption)]; exact h.outs j c hj
    · intro j m' w p k' hj
      dsimp only at hj ⊢
      rw [get_set hi] at hj
      rw [get_set hT]
      split at hj
      · obtain ⟨rfl, rfl, rfl, rfl⟩ := Thr.inn.inj (Option.some.inj hj)
        rw [if_pos (by assumption)]
        rw [← ho, l2]
        refine ⟨rfl, hk, fun _ => ⟨hw, ?_, fun a ha => ?_⟩, fun e => by cases e⟩
        · rw [l1]; simp [fset]
        · exact l3 a (hm a ha)
      · rw [if_neg (by assumption)]
        have hne : m' ≠ m := by rintro rfl; exact no j w p k' hj
        obtain ⟨g1, g2, g3, g4⟩ := h.inns j m' w p k' hj
        refine ⟨g1, g2, fun e => ?_, g4⟩
        obtain ⟨q1, q2, q3⟩ := g3 e
        refine ⟨q1, by simp only [fset, if_neg hne]; exact q2, fun a ha => ?_⟩
        rw [q3 a ha]
        exact (MProc.run_within hw _ _ (fun hb => hne (hd _ _ _ ha hb))).symm
    · intro m' hf
      dsimp only at hf ⊢
      by_cases hne : m' = m
      · subst hne; simp [fset] at hf
      · simp only [fset, if_neg hne] at hf ⊢
        obtain ⟨g1, g2⟩ := h.free m' hf
        refine ⟨g1, fun a ha => ?_⟩
        rw [g2 a ha]
        exact (MProc.run_within hw _ _ (fun hb => hne (hd _ _ _ ha hb))).symm
    · intro a ha
      dsimp only
      rw [MProc.run_within hw _ _ (ha m)]
      exact h.rest a ha
    · refine lock_upd h.locks hi fun m' => ?_
      by_cases hne : m' = m
      · subst hne
        simp [fset, hl, Thr.isW, Thr.isR]
      · have hne' : ¬ m = m' := fun e => hne e.symm
        simp only [fset, if_neg hne, Thr.isW, Thr.isR, hne', decide_false, Bool.toNat_false, Nat.add_zero, true_and]
        intro hw'
        have := (h.locks m').2
        rw [hw', if_pos rfl] at this
        exact this.2
    · dsimp only; rw [h.log]
  | @rlock i m me k n hi hwr hl =>
    obtain ⟨hT, hP, hk⟩ := h.outs i _ hi
    have hro := hP.2 hwr
    obtain ⟨ho, hm⟩ := h.free m (by rw [hl])
    obtain ⟨l1, l2, l3⟩ := (M.body m me).run_local (u m) (S.obj m) S.mem T.mem
    obtain ⟨r1, r2⟩ := MProc.run_readOnly (u m) hro (T.obj m) T.mem
    refine ⟨_, .tail .refl (.call hT), ?_⟩
    have hobj : fset T.obj m ((M.body m me).run (u m) (T.obj m) T.mem).1 = T.obj := by
      rw [r1]; funext x; simp only [fset]; split <;> simp_all
    rw [hobj, r2]
    constructor
    · simp [h.count]
    · exact h.len
    · intro j c hj
      dsimp only at hj ⊢
      rw [get_set hi] at hj
      rw [get_set hT]
      split at hj
      · cases hj
      · rw [if_neg (by assumption)]; exact h.outs j c hj
    · intro j m' w p k' hj
      dsimp only at hj ⊢
      rw [get_set hi] at hj
      rw [get_set hT]
      split at hj
      · obtain ⟨rfl, rfl, rfl, rfl⟩ := Thr.inn.inj (Option.some.inj hj)
        rw [if_pos (by assumption)]
        rw [← ho, l2]
        exact ⟨rfl, hk, (fun e => by cases e), fun _ => hro⟩
      · rw [if_neg (by assumption)]
        exact h.inns j m' w p k' hj
    · intro m' hf
      refine h.free m' ?_
      by_cases hne : m' = m
      · subst hne; rw [hl]
      · simpa [fset, hne] using hf
    · exact h.rest
    · refine lock_upd h.locks hi fun m' => ?_
      by_cases hne : m' = m
      · subst hne
        simp [fset, hl, Thr.isW, Thr.isR]
      · have hne' : ¬ m = m' := fun e => hne e.symm
        simp only [fset, if_neg hne, Thr.isW, Thr.isR, hne', decide_false, Bool.toNat_false, Nat.add_zero, true_and]
        intro hw'
        have := (h.locks m').2
        rw [hw', if_pos rfl] at this
        exact this.2
    · dsimp only; rw [h.log]
  | @access i m w p k p' o' mem' hi hp =>
    refine ⟨T, .refl, ?_⟩
    obtain ⟨hT, hk, hW, hR⟩ := h.inns i m w p k hi
    have hrun := MProc.run_step hp
    have hlk : LockOK { S with mem := mem', obj := fset S.obj m o', thr := S.thr.set i (.inn m w p' k) } := by
      refine lock_upd (lk := S.lock) h.locks hi fun m' => ?_
      refine ⟨by cases w <;> rfl, by cases w <;> rfl, fun hw' => ?_⟩
      have := (h.locks m').2
      rw [hw', if_pos rfl] at this
      exact this.2
    cases w with
    | false =>
      obtain ⟨q1, q2, q3⟩ := MProc.step_readOnly (hR rfl) hp
      subst q2 q3
      have hobj : fset S.obj m (S.obj m) = S.obj := by
        funext x; simp only [fset]; split <;> simp_all
      rw [hobj] at hlk ⊢
      constructor
      · simp [h.count]
      · exact h.len
      · intro j c hj
        dsimp only at hj
        rw [get_set hi] at hj
        split at hj
        · cases hj
        · exact h.outs j c hj
      · intro j m' w' p2 k' hj
        dsimp only at hj ⊢
        rw [get_set hi] at hj
        split at hj
        · obtain ⟨rfl, rfl, rfl, rfl⟩ := Thr.inn.inj (Option.some.inj hj)
          have hji : j = i := by assumption
          subst hji
          rw [← hrun]
          exact ⟨hT, hk, (fun e => by cases e), fun _ => q1⟩
        · exact h.inns j m' w' p2 k' hj
      · exact h.free
      · exact h.rest
      · exact hlk
      · exact h.log
    | true =>
      obtain ⟨w1, w2, w3⟩ := hW rfl
      obtain ⟨q1, q2, q3⟩ := MProc.step_within w1 hp
      obtain ⟨_, hwm⟩ := h.locks.alone hi hi
      constructor
      · simp [h.count]
      · exact q2.trans h.len
      · intro j c hj
        dsimp only at hj
        rw [get_set hi] at hj
        split at hj
        · cases hj
        · exact h.outs j c hj
      · intro j m' w' p2 k' hj
        dsimp only at hj ⊢
        rw [get_set hi] at hj
        split at hj
        · obtain ⟨rfl, rfl, rfl, rfl⟩ := Thr.inn.inj (Option.some.inj hj)
          have hji : j = i := by assumption
          subst hji
          have hf : fset S.obj m o' m = o' := by simp [fset]
          rw [hf, ← hrun]
          exact ⟨hT, hk, fun _ => ⟨q1, w2, w3⟩, fun e => by cases e⟩
        · have hne : m' ≠ m := by
            rintro rfl
            have : j = i := (h.locks.alone hi hj).1
            contradiction
          obtain ⟨g1, g2, g3, g4⟩ := h.inns j m' w' p2 k' hj
          have hf : fset S.obj m o' m' = S.obj m' := by simp [fset, hne]
          rw [hf]
          obtain ⟨l1, l2, l3⟩ := p2.run_local (u m') (S.obj m') mem' S.mem
          rw [l2]
          refine ⟨g1, g2, fun e => ?_, g4⟩
          obtain ⟨e1, e2, e3⟩ := g3 e
          refine ⟨e1, by rw [l1]; exact e2, fun a ha => ?_⟩
          rw [l3 a (q3 a (fun hb => hne (hd _ _ _ ha hb)))]
          exact e3 a ha
      · intro m' hf
        dsimp only at hf ⊢
        have hne : m' ≠ m := by rintro rfl; rw [hwm] at hf; cases hf
        simp only [fset, if_neg hne]
        obtain ⟨g1, g2⟩ := h.free m' hf
        refine ⟨g1, fun a ha => ?_⟩
        rw [q3 a (fun hb => hne (hd _ _ _ ha hb))]
        exact g2 a ha
      · intro a ha
        rw [q3 a (ha m)]
        exact h.rest a ha
      · exact hlk
      · exact h.log
  | @unlock i m a k hi =>
    obtain ⟨hT, hk, hW, _⟩ := h.inns i m true _ k hi
    obtain ⟨_, w2, w3⟩ := hW rfl
    obtain ⟨_, hwm⟩ := h.locks.alone hi hi
    have hrd : (S.lock m).readers = 0 := by
      have := (h.locks m).2
      rw [hwm, if_pos rfl] at this
      exact this.2
    refine ⟨_, .tail .refl (.ret hT), ?_⟩
    constructor
    · simp [h.count]
    · exact h.len
    · intro j c hj
      dsimp only at hj ⊢
      rw [get_set hi] at hj
      rw [get_set hT]
      split at hj
      · obtain rfl := Thr.out.inj (Option.some.inj hj)
        rw [if_pos (by assumption)]
        exact ⟨rfl, hk _⟩
      · rw [if_neg (by assumption)]; exact h.outs j c hj
    · intro j m' w p k' hj
      dsimp only at hj ⊢
      rw [get_set hi] at hj
      rw [get_set hT]
      split at hj
      · cases hj
      · rw [if_neg (by assumption)]
        exact h.inns j m' w p k' hj
    · intro m' hf
      by_cases hne : m' = m
      · subst hne; exact ⟨w2, w3⟩
      · exact h.free m' (by simpa [fset, hne] using hf)
    · exact h.rest
    · refine lock_upd h.locks hi fun m' => ?_
      by_cases hne : m' = m
      · subst hne
        simp [fset, hwm, hrd, Thr.isW, Thr.isR]
      · have hne' : ¬ m = m' := fun e => hne e.symm
        simp only [fset, if_neg hne, Thr.isW, Thr.isR, hne', decide_false, Bool.toNat_false, Nat.add_zero, true_and]
        intro hw'
        have := (h.locks m').2
        rw [hw', if_pos rfl] at this
        exact this.2
    · show S.log ++ [.ret i a] = T.log ++ [.ret i a]; rw [h.log]
  | @runlock i m a k n hi hl =>
    obtain ⟨hT, hk, _, _⟩ := h.inns i m false _ k hi
    refine ⟨_, .tail .refl (.ret hT), ?_⟩
    constructor
    · simp [h.count]
    · exact h.len
    · intro j c hj
      dsimp only at hj ⊢
      rw [get_set hi] at hj
      rw [get_set hT]
      split at hj
      · obtain rfl := Thr.out.inj (Option.some.inj hj)
        rw [if_pos (by assumption)]
        exact ⟨rfl, hk _⟩
      · rw [if_neg (by assumption)]; exact h.outs j c hj
    · intro j m' w p k' hj
      dsimp only at hj ⊢
      rw [get_set hi] at hj
      rw [get_set hT]
      split at hj
      · cases hj
      · rw [if_neg (by assumption)]
        exact h.inns j m' w p k' hj
    · intro m' hf
      refine h.free m' ?_
      by_cases hne : m' = m
      · subst hne; rw [hl]
      · simpa [fset, hne] using hf
    · exact h.rest
    · refine lock_upd h.locks hi fun m' => ?_
      by_cases hne : m' = m
      · subst hne
        simp [fset, hl, Thr.isW, Thr.isR]
      · have hne' : ¬ m = m' := fun e => hne e.symm
        simp only [fset, if_neg hne, Thr.isW, Thr.isR, hne', decide_false, Bool.toNat_false, Nat.add_zero, true_and]
        intro hw'
        have := (h.locks m').2
        rw [hw', if_pos rfl] at this
        exact this.2
    · show S.log ++ [.ret i a] = T.log ++ [.ret i a]; rw [h.log]

theorem AReach.trans {T1 T2 T3 : ASt H R Me} (h1 : AReach M u T1 T2) (h2 : AReach M u T2 T3) : AReach M u T1 T3 := by
  induction h2 with
  | refl => exact h1
  | tail _ h ih => exact ih.tail h

theorem Sim.init (obj : Nat → Obj H) (mem : Buf) (cs : List (Cli R Me)) (hc : ∀ c ∈ cs, c.All (M.Safe u Rg)) :
    Sim M u Rg (LSt.init obj mem cs) (ASt.init obj mem cs) := by
  have hout : ∀ {i : Nat} {t : Thr H R Me}, (cs.map Thr.out)[i]? = some t → ∃ c, cs[i]? = some c ∧ t = .out c := by
    intro i t hi
    rw [List.getElem?_map] at hi
    cases hc : cs[i]? with
    | none => rw [hc] at hi; cases hi
    | some c => rw [hc] at hi; exact ⟨c, rfl, (Option.some.inj hi).symm⟩
  have hz : ∀ p : Thr H R Me → Bool, (∀ c, p (.out c) = false) → (cs.map Thr.out).countP p = 0 := by
    intro p hp
    rw [List.countP_eq_zero]
    intro t ht
    obtain ⟨c, _, rfl⟩ := List.mem_map.1 ht
    simp [hp]
  constructor
  · simp [LSt.init, ASt.init]
  · rfl
  · intro i c hi
    obtain ⟨c', h1, h2⟩ := hout hi
    obtain rfl := Thr.out.inj h2
    exact ⟨by simp [ASt.init, h1], hc c (List.mem_of_getElem? h1)⟩
  · intro i m w p k hi
    obtain ⟨c', _, h2⟩ := hout hi
    cases h2
  · exact fun m _ => ⟨rfl, fun _ _ => rfl⟩
  · exact fun _ _ => rfl
  · intro m
    refine ⟨(hz _ fun c => rfl).symm, ?_⟩
    show if false = true then _ else _
    rw [if_neg (by simp)]
    exact hz _ fun c => rfl
  · rfl

/-- Every reachable state is simulated. -/
theorem LReach.sim (hd : ∀ m m' a, Rg m a → Rg m' a → m = m') {obj mem} {cs : List (Cli R Me)} (hc : ∀ c ∈ cs, c.All (M.Safe u Rg))
    (h : LReach M u (LSt.init obj mem cs) S) : ∃ T, AReach M u (ASt.init obj mem cs) T ∧ Sim M u Rg S T := by
  induction h with
  | refl => exact ⟨_, .refl, Sim.init obj mem cs hc⟩
  | tail _ hs ih =>
    obtain ⟨T, h1, h2⟩ := ih
    obtain ⟨T', h3, h4⟩ := h2.step hd hs
    exact ⟨T', h1.trans h3, h4⟩

/-- No goroutine is inside a call. -/
def LSt.Quiet (S : LSt H R Me) : Prop := ∀ t ∈ S.thr, ∃ c, t = .out c

/-- Between calls the states agree. -/
theorem Sim.quiet (hsim : Sim M u Rg S T) (hq : S.Quiet) :
    S.mem = T.mem ∧ S.obj = T.obj ∧ T.thr = S.thr.map (fun | .out c => .out c | .inn _ _ _ _ => .out .done) := by
  have hw : ∀ m, (S.lock m).writer = false := by
    intro m
    cases hw : (S.lock m).writer with
    | false => rfl
    | true =>
      have := (hsim.locks m).2
      rw [hw, if_pos rfl] at this
      have h1 := this.1
      have : 0 < S.thr.countP (Thr.isW m) := by omega
      obtain ⟨t, ht, hp⟩ := List.countP_pos_iff.1 this
      obtain ⟨c, rfl⟩ := hq t ht
      cases hp
  refine ⟨?_, funext fun m => (hsim.free m (hw m)).1, ?_⟩
  · refine List.ext_getElem? fun a => ?_
    by_cases ha : ∀ m, ¬ Rg m a
    · exact hsim.rest a ha
    · have : ∃ m, Rg m a := by
        by_contra hne
        exact ha fun m hm => hne ⟨m, hm⟩
      obtain ⟨m, hm⟩ := this
      exact (hsim.free m (hw m)).2 a hm
  · refine List.ext_getElem? fun i => ?_
    rw [List.getElem?_map]
    cases hi : S.thr[i]? with
    | none =>
      rw [List.getElem?_eq_none_iff] at hi
      rw [Option.map_none, List.getElem?_eq_none_iff]
      have := hsim.count
      omega
    | some t =>
      obtain ⟨c, rfl⟩ := hq t (List.mem_of_getElem? hi)
      exact (hsim.outs i c hi).1

end

end Speed
