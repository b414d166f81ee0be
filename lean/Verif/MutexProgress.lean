import Verif.MutexSound
/-
No deadlock, and no data race.
-/
namespace Speed

section
variable {H R Me : Type} {M : Meths H R Me} {u : Nat → Upd} {S S' : LSt H R Me}

theorem LReach.trans {S1 S2 S3 : LSt H R Me} (h1 : LReach M u S1 S2) (h2 : LReach M u S2 S3) : LReach M u S1 S3 := by
  induction h2 with
  | refl => exact h1
  | tail _ h ih => exact ih.tail h

theorem set_id {X : Type} {l : List X} {i : Nat} {x : X} (h : l[i]? = some x) : l.set i x = l := by
  refine List.ext_getElem? fun j => ?_
  rw [get_set h]
  split
  · rename_i hj; rw [hj, h]
  · rfl

/-- From here goroutine `i` reaches the end of the body it is in. -/
def Ends (M : Meths H R Me) (u : Nat → Upd) (i m : Nat) (w : Bool) (k : Ans R → Cli R Me) (S : LSt H R Me) : Prop :=
  ∃ mem obj a, LReach M u S { S with mem := mem, obj := obj, thr := S.thr.set i (.inn m w (.ret a) k) }

theorem ends_step {p p' : MProc H R} {i m : Nat} {w : Bool} {k : Ans R → Cli R Me} (hi : S.thr[i]? = some (.inn m w p k)) {o' mem'}
    (hstep : p.step (u m) (S.obj m) S.mem = some (p', o', mem'))
    (ih : ∀ S' : LSt H R Me, S'.thr[i]? = some (.inn m w p' k) → Ends M u i m w k S') : Ends M u i m w k S := by
  obtain ⟨mem, obj, a, hr⟩ := ih { S with mem := mem', obj := fset S.obj m o', thr := S.thr.set i (.inn m w p' k) } (by
    dsimp only; rw [get_set hi, if_pos rfl])
  refine ⟨mem, obj, a, LReach.trans (.tail .refl (.access hi hstep)) ?_⟩
  dsimp only at hr
  rw [List.set_set] at hr
  exact hr

/-- A goroutine inside a call runs to the end of the body. -/
theorem run_inn (p : MProc H R) {i m : Nat} {w : Bool} {k : Ans R → Cli R Me} : ∀ {S : LSt H R Me},
    S.thr[i]? = some (.inn m w p k) → Ends M u i m w k S := by
  induction p with
  | ret a =>
    intro S hi
    refine ⟨S.mem, S.obj, a, ?_⟩
    rw [set_id hi]
    exact .refl
  | load s q ih => exact fun hi => ends_step hi rfl fun _ h => ih _ h
  | store s v q ih => exact fun hi => ends_step hi rfl fun _ h => ih h
  | upd s q ih => exact fun hi => ends_step hi rfl fun _ h => ih _ h
  | byte x c q ih => exact fun hi => ends_step hi rfl fun _ h => ih h
  | getTs q ih => exact fun hi => ends_step hi rfl fun _ h => ih _ h
  | setTs t q ih => exact fun hi => ends_step hi rfl fun _ h => ih h
  | getH q ih => exact fun hi => ends_step hi rfl fun _ h => ih _ h
  | setH t q ih => exact fun hi => ends_step hi rfl fun _ h => ih h

/-- The locks stay consistent. -/
theorem LockOK.step (h : LockOK S) (hs : LStep M u S S') : LockOK S' := by
  have hr : ∀ m, (S.lock m).writer = true → (S.lock m).readers = 0 := by
    intro m hw
    have := (h m).2
    rw [hw, if_pos rfl] at this
    exact this.2
  cases hs with
  | @lock i m me k hi hwr hl =>
    refine lock_upd h hi fun m' => ?_
    by_cases hne : m' = m
    · subst hne; simp [fset, hl, Thr.isW, Thr.isR]
    · have hne' : ¬ m = m' := fun e => hne e.symm
      simp only [fset, if_neg hne, Thr.isW, Thr.isR, hne', decide_false, Bool.toNat_false, Nat.add_zero, true_and]
      exact hr m'
  | @rlock i m me k n hi hwr hl =>
    refine lock_upd h hi fun m' => ?_
    by_cases hne : m' = m
    · subst hne; simp [fset, hl, Thr.isW, Thr.isR]
    · have hne' : ¬ m = m' := fun e => hne e.symm
      simp only [fset, if_neg hne, Thr.isW, Thr.isR, hne', decide_false, Bool.toNat_false, Nat.add_zero, true_and]
      exact hr m'
  | @access i m w p k p' o' mem' hi hp =>
    refine lock_upd (lk := S.lock) h hi fun m' => ?_
    exact ⟨by cases w <;> rfl, by cases w <;> rfl, hr m'⟩
  | @unlock i m a k hi =>
    obtain ⟨_, hwm⟩ := h.alone hi hi
    have hrd := hr m hwm
    refine lock_upd h hi fun m' => ?_
    by_cases hne : m' = m
    · subst hne; simp [fset, hwm, hrd, Thr.isW, Thr.isR]
    · have hne' : ¬ m = m' := fun e => hne e.symm
      simp only [fset, if_neg hne, Thr.isW, Thr.isR, hne', decide_false, Bool.toNat_false, Nat.add_zero, true_and]
      exact hr m'
  | @runlock i m a k n hi hl =>
    refine lock_upd h hi fun m' => ?_
    by_cases hne : m' = m
    · subst hne; simp [fset, hl, Thr.isW, Thr.isR]
    · have hne' : ¬ m = m' := fun e => hne e.symm
      simp only [fset, if_neg hne, Thr.isW, Thr.isR, hne', decide_false, Bool.toNat_false, Nat.add_zero, true_and]
      exact hr m'

theorem LockOK.reach (h : LockOK S) (hs : LReach M u S S') : LockOK S' := by
  induction hs with
  | refl => exact h
  | tail _ hs ih => exact ih.step hs

theorem LockOK.init (obj : Nat → Obj H) (mem : Buf) (cs : List (Cli R Me)) : LockOK (LSt.init obj mem cs) := by
  have hz : ∀ p : Thr H R Me → Bool, (∀ c, p (.out c) = false) → (cs.map Thr.out).countP p = 0 := by
    intro p hp
    rw [List.countP_eq_zero]
    intro t ht
    obtain ⟨c, _, rfl⟩ := List.mem_map.1 ht
    simp [hp]
  intro m
  refine ⟨(hz _ fun c => rfl).symm, ?_⟩
  show if false = true then _ else _
  rw [if_neg (by simp)]
  exact hz _ fun c => rfl

/-- A goroutine at the end of a body can leave it. -/
theorem LockOK.leave (h : LockOK S) {i m : Nat} {w : Bool} {a : Ans R} {k : Ans R → Cli R Me} (hi : S.thr[i]? = some (.inn m w (.ret a) k)) :
    ∃ S', LStep M u S S' ∧ S'.thr = S.thr.set i (.out (k a)) := by
  cases w with
  | true => exact ⟨_, .unlock hi, rfl⟩
  | false =>
    have hw := h.reader hi
    have h1 := (h m).1
    have h2 : 0 < S.thr.countP (Thr.isR m) := countP_pos_get hi (by simp [Thr.isR])
    refine ⟨_, .runlock (n := (S.lock m).readers - 1) hi ?_, rfl⟩
    cases hl : S.lock m with
    | mk wr rd =>
      rw [hl] at hw h1
      simp only at hw h1 ⊢
      rw [hw]
      congr 1
      omega

/-- A goroutine inside a call returns from it, whatever the others do. -/
theorem LockOK.finish (h : LockOK S) {i m : Nat} {w : Bool} {p : MProc H R} {k : Ans R → Cli R Me} (hi : S.thr[i]? = some (.inn m w p k)) :
    ∃ S' a, LReach M u S S' ∧ S'.thr = S.thr.set i (.out (k a)) := by
  obtain ⟨mem, obj, a, hr⟩ := run_inn (M := M) (u := u) p hi
  have h' := h.reach hr
  obtain ⟨S', h1, h2⟩ := h'.leave (M := M) (u := u) (i := i) (m := m) (w := w) (a := a) (k := k) (by
    dsimp only; rw [get_set hi, if_pos rfl])
  refine ⟨S', a, hr.tail h1, ?_⟩
  rw [h2]
  dsimp only
  rw [List.set_set]

/-- No lock is held when no goroutine is inside a call. -/
theorem LockOK.quiet (h : LockOK S) (hq : S.Quiet) (m : Nat) : S.lock m = ⟨false, 0⟩ := by
  have hz : ∀ p : Thr H R Me → Bool, (∀ c, p (.out c) = false) → S.thr.countP p = 0 := by
    intro p hp
    rw [List.countP_eq_zero]
    intro t ht
    obtain ⟨c, rfl⟩ := hq t ht
    simp [hp]
  obtain ⟨h1, h2⟩ := h m
  rw [hz _ fun c => rfl] at h1
  rw [hz (Thr.isW m) fun c => rfl] at h2
  cases hl : S.lock m with
  | mk w r =>
    rw [hl] at h1 h2
    simp only at h1 h2
    subst h1
    cases w with
    | false => rfl
    | true => simp at h2

/-- The program has ended. -/
def Cli.Ended : Cli R Me → Prop
  | .call _ _ _ => False
  | _ => True

/-- A goroutine runs to its end while the others are between calls. -/
theorem run_thread (c : Cli R Me) {i : Nat} : ∀ {S : LSt H R Me}, LockOK S → S.Quiet → S.thr[i]? = some (.out c) →
    ∃ S' c', LReach M u S S' ∧ S'.thr = S.thr.set i (.out c') ∧ c'.Ended := by
  induction c with
  | done => intro S _ _ hi; exact ⟨S, .done, .refl, (set_id hi).symm, trivial⟩
  | panic => intro S _ _ hi; exact ⟨S, .panic, .refl, (set_id hi).symm, trivial⟩
  | call m me k ih =>
    intro S h hq hi
    have hl := h.quiet hq m
    have : ∃ S1 w, LStep M u S S1 ∧ S1.thr = S.thr.set i (.inn m w (M.body m me) k) := by
      cases hw : M.wr me with
      | true => exact ⟨_, true, .lock hi hw hl, rfl⟩
      | false => exact ⟨_, false, .rlock hi hw hl, rfl⟩
    obtain ⟨S1, w, h1, h2⟩ := this
    have hi1 : S1.thr[i]? = some (.inn m w (M.body m me) k) := by rw [h2, get_set hi, if_pos rfl]
    obtain ⟨S2, a, h3, h4⟩ := (h.step h1).finish (M := M) (u := u) hi1
    rw [h2, List.set_set] at h4
    have hi2 : S2.thr[i]? = some (.out (k a)) := by rw [h4, get_set hi, if_pos rfl]
    have hq2 : S2.Quiet := by
      intro t ht
      rw [h4] at ht
      rcases List.mem_or_eq_of_mem_set ht with h5 | rfl
      · exact hq t h5
      · exact ⟨_, rfl⟩
    obtain ⟨S3, c', h5, h6, h7⟩ := ih a ((h.step h1).reach h3) hq2 hi2
    refine ⟨S3, c', ((LReach.refl.tail h1).trans h3).trans h5, ?_, h7⟩
    rw [h6, h4, List.set_set]

/-- From every state with consistent locks the goroutines can leave the calls they are in. -/
theorem LockOK.toQuiet (h : LockOK S) : ∃ S', LReach M u S S' ∧ S'.Quiet := by
  have key : ∀ n (S : LSt H R Me), LockOK S → (∀ (j : Nat) t, S.thr[j]? = some t → n ≤ j → ∃ c, t = .out c) → ∃ S', LReach M u S S' ∧ S'.Quiet := by
    intro n
    induction n with
    | zero =>
      intro S _ hj
      refine ⟨S, .refl, fun t ht => ?_⟩
      obtain ⟨j, hjt⟩ := List.getElem?_of_mem ht
      exact hj j t hjt (Nat.zero_le _)
    | succ n ih =>
      intro S h hj
      cases hn : S.thr[n]? with
      | none =>
        refine ih S h fun j t ht hle => ?_
        by_cases e : j = n
        · subst e; rw [hn] at ht; cases ht
        · exact hj j t ht (by omega)
      | some t =>
        cases t with
        | out c =>
          refine ih S h fun j t ht hle => ?_
          by_cases e : j = n
          · subst e; rw [hn] at ht; exact ⟨c, (Option.some.inj ht).symm⟩
          · exact hj j t ht (by omega)
        | inn m w p k =>
          obtain ⟨S1, a, h1, h2⟩ := h.finish (M := M) (u := u) hn
          obtain ⟨S', h3, h4⟩ := ih S1 (h.reach h1) (by
            intro j t ht hle
            rw [h2, get_set hn] at ht
            split at ht
            · exact ⟨_, (Option.some.inj ht).symm⟩
            · exact hj j t ht (by omega))
          exact ⟨S', h1.trans h3, h4⟩
  exact key S.thr.length S h fun j t ht hle => by
    rw [List.getElem?_eq_none hle] at ht; cases ht

/-- From every state with consistent locks all goroutines can end. -/
theorem LockOK.toEnd (h : LockOK S) : ∃ S', LReach M u S S' ∧ ∀ t ∈ S'.thr, ∃ c, t = .out c ∧ c.Ended := by
  obtain ⟨S1, h1, hq⟩ := h.toQuiet (M := M) (u := u)
  have key : ∀ n (S : LSt H R Me), LockOK S → S.Quiet → (∀ (j : Nat) t, S.thr[j]? = some t → n ≤ j → ∃ c, t = .out c ∧ c.Ended) →
      ∃ S', LReach M u S S' ∧ ∀ t ∈ S'.thr, ∃ c, t = .out c ∧ c.Ended := by
    intro n
    induction n with
    | zero =>
      intro S _ _ hj
      refine ⟨S, .refl, fun t ht => ?_⟩
      obtain ⟨j, hjt⟩ := List.getElem?_of_mem ht
      exact hj j t hjt (Nat.zero_le _)
    | succ n ih =>
      intro S h hq hj
      cases hn : S.thr[n]? with
      | none =>
        refine ih S h hq fun j t ht hle => ?_
        by_cases e : j = n
        · subst e; rw [hn] at ht; cases ht
        · exact hj j t ht (by omega)
      | some t =>
        obtain ⟨c, rfl⟩ := hq t (List.mem_of_getElem? hn)
        obtain ⟨S2, c', h3, h4, h5⟩ := run_thread (M := M) (u := u) c h hq hn
        obtain ⟨S', h6, h7⟩ := ih S2 (h.reach h3) (by
          intro t ht
          rw [h4] at ht
          rcases List.mem_or_eq_of_mem_set ht with h8 | rfl
          · exact hq t h8
          · exact ⟨_, rfl⟩) (by
          intro j t ht hle
          rw [h4, get_set hn] at ht
          split at ht
          · exact ⟨_, (Option.some.inj ht).symm, h5⟩
          · exact hj j t ht (by omega))
        exact ⟨S', h3.trans h6, h7⟩
  obtain ⟨S', h2, h3⟩ := key S1.thr.length S1 (h.reach h1) hq fun j t ht hle => by
    rw [List.getElem?_eq_none hle] at ht; cases ht
  exact ⟨S', h1.trans h2, h3⟩

end

/-! ### Accesses -/

/-- A memory location: a value of a metric, the closure of a value, timer and histogram state, a byte of the
mapped file. -/
inductive MLoc where
  | val (m : Nat) (s : Option Str)
  | upd (m : Nat) (s : Option Str)
  | ts (m : Nat)
  | h (m : Nat)
  | byte (a : Nat)
  deriving DecidableEq

/-- The next access of a body on metric `m`, and whether it is a write. -/
def MProc.acc {H α : Type} (m : Nat) : MProc H α → Option (MLoc × Bool)
  | .ret _ => none
  | .load s _ => some (.val m s, false)
  | .store s _ _ => some (.val m s, true)
  | .upd s _ => some (.upd m s, false)
  | .byte a _ _ => some (.byte a, true)
  | .getTs _ => some (.ts m, false)
  | .setTs _ _ => some (.ts m, true)
  | .getH _ => some (.h m, false)
  | .setH _ _ => some (.h m, true)

section
variable {H R Me : Type} {M : Meths H R Me} {u : Nat → Upd} {Rg : Nat → Nat → Prop} {S : LSt H R Me} {T : ASt H R Me}

/-- Two goroutines never are about to access the same location when one of them writes it. -/
theorem Sim.race_free (hd : ∀ m m' a, Rg m a → Rg m' a → m = m') (h : Sim M u Rg S T) {i j : Nat} (hij : i ≠ j)
    {m m' : Nat} {w w' : Bool} {p p' : MProc H R} {k k'} (hi : S.thr[i]? = some (.inn m w p k)) (hj : S.thr[j]? = some (.inn m' w' p' k'))
    {l : MLoc} {x x' : Bool} (ha : p.acc m = some (l, x)) (ha' : p'.acc m' = some (l, x')) : x = false ∧ x' = false := by
  have ro : ∀ {m : Nat} {p : MProc H R} {l x}, p.ReadOnly → p.acc m = some (l, x) → x = false := by
    intro m p l x hr ha
    cases p <;> first | exact hr.elim | (cases ha; rfl) | cases ha
  obtain ⟨_, _, i3, i4⟩ := h.inns i m w p k hi
  obtain ⟨_, _, j3, j4⟩ := h.inns j m' w' p' k' hj
  by_cases hm : m = m'
  · subst hm
    cases w with
    | true => exact absurd (h.locks.alone hi hj).1.symm hij
    | false =>
      cases w' with
      | true => exact absurd (h.locks.alone hj hi).1 hij
      | false => exact ⟨ro (i4 rfl) ha, ro (j4 rfl) ha'⟩
  · -- different metrics: only bytes can coincide
    have byte : ∃ a, l = .byte a := by
      cases p <;> cases ha <;> cases p' <;> cases ha' <;> first | exact absurd rfl hm | exact ⟨_, rfl⟩
    obtain ⟨a, rfl⟩ := byte
    have own : ∀ {m : Nat} {w : Bool} {p : MProc H R} {x}, (w = true → p.Within (u m) (Rg m)) → (w = false → p.ReadOnly) →
        p.acc m = some (.byte a, x) → Rg m a := by
      intro m w p x h1 h2 ha
      cases p <;> cases ha
      cases w with
      | true => exact (h1 rfl).1
      | false => exact (h2 rfl).elim
    exact absurd (hd _ _ _ (own (fun e => (i3 e).1) i4 ha) (own (fun e => (j3 e).1) j4 ha')) hm

end
end Speed
