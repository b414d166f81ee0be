import Verif.PropsEdge
/-
Property C68: the goroutines of `Start` have no data race.
-/
namespace Speed

/-- What a goroutine can share with another: a byte of the file, or one of the fields that `start` assigns. -/
inductive Place where
  | byte (a : Nat)
  | field (c : Cell)
  deriving DecidableEq

/-- The place that the next step of a goroutine accesses, and whether it writes it. -/
def Proc.touches : Proc → Option (Place × Bool)
  | .store a _ _ => some (.byte a, true)
  | .setCell c _ _ => some (.field c, true)
  | .getCell c _ => some (.field c, false)
  | _ => none

/-- A data race: two goroutines are about to access the same place, one of them to write it; nothing orders the
two accesses. -/
def Races (s : St) : Prop := ∃ (i j : Nat) (p q : Proc) (l : Place) (w w' : Bool), i ≠ j ∧ s.thr[i]? = some p ∧ s.thr[j]? = some q ∧
  p.touches = some (l, w) ∧ q.touches = some (l, w') ∧ (w = true ∨ w' = true)

/-- The permission that a writer needs. -/
def Place.key : Place → Key
  | .byte a => .mem a
  | .field c => .perm (.cell c)

/-- A writer owns what it writes. -/
theorem Inv.writes {P : Params} {s : St} {W : World} {g : Gl} (h : Inv P s W g) {i : Nat} {p : Proc} {l : Place}
    (hp : s.thr[i]? = some p) (ht : p.touches = some (l, true)) :
    g.own l.key = some (.thr i) := by
  rcases h.thr i p hp with hw | hf
  · cases p with
    | store a b k =>
      cases ht
      unfold WP at hw
      exact Gl.res_some.1 hw.2.1
    | setCell c v k =>
      cases ht
      unfold WP at hw
      exact Gl.res_some.1 hw.1
    | _ => cases ht
  · obtain ⟨hfull, _, _, _, _, σ, _, _, hok⟩ := hf
    cases p with
    | store a b k =>
      cases ht
      unfold FinalOK at hok
      exact Gl.res_some.1 (hfull a hok.2.1.1)
    | setCell c v k => unfold FinalOK at hok; exact hok.elim
    | _ => cases ht

/-- What is read has its final value. -/
theorem Inv.reads {P : Params} {s : St} {W : World} {g : Gl} (h : Inv P s W g) {i : Nat} {p : Proc} {l : Place}
    (hp : s.thr[i]? = some p) (ht : p.touches = some (l, false)) :
    g.own l.key = none := by
  rcases h.thr i p hp with hw | hf
  · cases p with
    | getCell c k =>
      cases ht
      unfold WP at hw
      obtain ⟨v, h1, _⟩ := hw
      exact h.seals _ (by rw [h1]; simp)
    | _ => cases ht
  · obtain ⟨_, _, _, _, _, σ, _, _, hok⟩ := hf
    cases p with
    | getCell c k => unfold FinalOK at hok; exact hok.elim
    | _ => cases ht

theorem Inv.no_race {P : Params} {s : St} {W : World} {g : Gl} (h : Inv P s W g) : ¬ Races s := by
  rintro ⟨i, j, p, q, l, w, w', hij, hp, hq, h1, h2, hw⟩
  cases w with
  | true =>
    have a := h.writes hp h1
    cases w' with
    | true =>
      rw [h.writes hq h2] at a
      exact hij (by injection a with a; injection a with a; exact a.symm)
    | false => rw [h.reads hq h2] at a; cases a
  | false =>
    obtain rfl : w' = true := by simpa using hw
    have a := h.writes hq h2
    rw [h.reads hp h1] at a
    cases a

/-- C68, partial: in no execution of `Start` is there a moment at which two goroutines are about to access the
same byte of the file or the same field while one of them is about to write it.

Missing: registries that are not publishable, for which this is false (`C68_refuted`). -/
theorem C68_no_race_partial {r : Reg} (hb : Built r) (hp : r.Publishable) {o : Ord} (ho : o.OK r) {e : Env} {cells s}
    (h : Reach (initSt r e o cells) s) : ¬ Races s := by
  obtain ⟨W, g, _, hi⟩ := inv_reach (params_wf (hb.ok hp)) (init_inv (hb.ok hp) ho cells) h
  exact hi.no_race

/-! ### Overlong strings -/

/-- Is the goroutine about to store at `a`? -/
def Proc.storesAt (a : Nat) : Proc → Bool
  | .store b _ _ => a = b
  | _ => false

/-- The same up to the contents of the file. -/
structure SameBut (s t : St) : Prop where
  mem : s.mem.length = t.mem.length
  thr : s.thr = t.thr
  ch : s.ch = t.ch
  wgs : s.wgs = t.wgs
  cells : s.cells = t.cells
  crashed : s.crashed = t.crashed

theorem SameBut.step {s s' t : St} (h : SameBut s s') {i j : Nat} (hs : Speed.step s i j = some t) :
    ∃ t', Speed.step s' i j = some t' ∧ SameBut t t' := by
  obtain ⟨mem, thr, ch, wgs, cells, crashed⟩ := s
  obtain ⟨mem', thr', ch', wgs', cells', crashed'⟩ := s'
  obtain ⟨h1, rfl, rfl, rfl, rfl, rfl⟩ := h
  unfold Speed.step at hs ⊢
  dsimp only at *
  split
  · rename_i hc; rw [if_pos hc] at hs; cases hs
  · rename_i hc
    rw [if_neg hc] at hs
    rw [← h1]
    cases hp : thr[i]? with
    | none => rw [hp] at hs; cases hs
    | some p =>
      rw [hp] at hs
      cases p with
      | done => cases hs
      | panic => cases hs; exact ⟨_, rfl, h1, rfl, rfl, rfl, rfl, rfl⟩
      | store a b k =>
        dsimp only at hs ⊢
        split at hs
        · rename_i ha
          cases hs
          rw [if_pos ha]
          exact ⟨_, rfl, by simpa using h1, rfl, rfl, rfl, rfl, rfl⟩
        · rename_i ha
          cases hs
          rw [if_neg ha]
          exact ⟨_, rfl, h1, rfl, rfl, rfl, rfl, rfl⟩
      | recv c k =>
        dsimp only at hs ⊢
        split at hs
        · cases hs; exact ⟨_, rfl, h1, rfl, rfl, rfl, rfl, rfl⟩
        · cases hs
      | send c v k =>
        dsimp only at hs ⊢
        split at hs
        · cases hs; exact ⟨_, rfl, h1, rfl, rfl, rfl, rfl, rfl⟩
        · split at hs
          · split at hs
            · rename_i hc
              cases hs
              exact ⟨⟨mem', _, _, _, _, _⟩, if_pos hc, h1, rfl, rfl, rfl, rfl, rfl⟩
            · cases hs
          · cases hs
        · cases hs
      | fork p k => cases hs; exact ⟨_, rfl, h1, rfl, rfl, rfl, rfl, rfl⟩
      | wgNew n k => cases hs; exact ⟨_, rfl, h1, rfl, rfl, rfl, rfl, rfl⟩
      | wgDone w k =>
        dsimp only at hs ⊢
        split at hs
        · cases hs; exact ⟨_, rfl, h1, rfl, rfl, rfl, rfl, rfl⟩
        · cases hs; exact ⟨_, rfl, h1, rfl, rfl, rfl, rfl, rfl⟩
        · cases hs
      | wgWait w k =>
        dsimp only at hs ⊢
        split at hs
        · cases hs; exact ⟨_, rfl, h1, rfl, rfl, rfl, rfl, rfl⟩
        · cases hs
      | setCell c v k => cases hs; exact ⟨_, rfl, h1, rfl, rfl, rfl, rfl, rfl⟩
      | getCell c k => cases hs; exact ⟨_, rfl, h1, rfl, rfl, rfl, rfl, rfl⟩

theorem step_length {s t : St} {i j : Nat} (h : step s i j = some t) : t.mem.length = s.mem.length := by
  unfold step at h
  repeat' split at h
  all_goals first | (cases h; done) | (cases h; rfl) | (cases h; simp)

/-- Run goroutine `i` for `n` steps, then the others of the list; the contents of the file are forgotten. -/
def burst (m : Buf) (s : St) : List (Nat × Nat) → Option St
  | [] => some s
  | (i, n) :: l => match go i n s with
    | some t => burst m t l
    | none => none
where
  go (i : Nat) : Nat → St → Option St
    | 0, s => some s
    | n + 1, s => match step s i 0 with
      | some t => go i n { t with mem := m }
      | none => none

theorem go_reach {m : Buf} {i n : Nat} {s s' t : St} (hm : s.mem.length = m.length) (h : SameBut s s')
    (hs : burst.go m i n s = some t) : ∃ t', Reach s' t' ∧ SameBut t t' ∧ t.mem.length = m.length := by
  induction n generalizing s s' with
  | zero => cases hs; exact ⟨s', .refl, h, hm⟩
  | succ n ih =>
    unfold burst.go at hs
    cases h1 : step s i 0 with
    | none => rw [h1] at hs; cases hs
    | some u =>
      rw [h1] at hs
      obtain ⟨u', h2, h3⟩ := h.step h1
      have hl : u.mem.length = m.length := by rw [← hm]; exact step_length h1
      obtain ⟨t', h4, h5, h6⟩ := ih (s := { u with mem := m }) (s' := u') rfl
        ⟨by rw [← h3.mem]; exact hl.symm, h3.thr, h3.ch, h3.wgs, h3.cells, h3.crashed⟩ hs
      exact ⟨t', Reach.trans (.tail .refl ⟨i, 0, h2⟩) h4, h5, h6⟩

theorem burst_reach {m : Buf} {l : List (Nat × Nat)} {s s' t : St} (hm : s.mem.length = m.length) (h : SameBut s s')
    (hs : burst m s l = some t) : ∃ t', Reach s' t' ∧ SameBut t t' := by
  induction l generalizing s s' with
  | nil => cases hs; exact ⟨s', .refl, h⟩
  | cons x l ih =>
    obtain ⟨i, n⟩ := x
    unfold burst at hs
    cases h1 : burst.go m i n s with
    | none => rw [h1] at hs; cases hs
    | some u =>
      rw [h1] at hs
      obtain ⟨u', h2, h3, h4⟩ := go_reach hm h h1
      obtain ⟨t', h5, h6⟩ := ih h4 h3 hs
      exact ⟨t', h2.trans h5, h6⟩

/-- Two string metrics, the value of one is 257 bytes long. -/
def longOps : List HOp :=
  opsOf (newPCPSingletonMetric 1 (.str (List.replicate 257 0x78)) sA StringType InstantSemantics OneUnit []) ++
  opsOf (newPCPSingletonMetric 2 (.str sB) sB StringType InstantSemantics OneUnit [])
def longReg : Reg := regOf longOps

def longAt : Nat := longReg.stringsoffset + 256
def longInit : St := initSt longReg ⟨0, 0, 5, 6⟩ (idOrd longReg) (fun _ => none)

/-- Which goroutine runs for how many steps. -/
def longSched : List (Nat × Nat) :=
  [(0, 4), (2, 4), (3, 5), (4, 17), (5, 17), (6, 17), (7, 22), (9, 1), (8, 21), (10, 530), (12, 18)]

theorem longReg_built : Built longReg := by
  refine ⟨_, longOps, fun op hop => ?_, rfl⟩
  rcases List.mem_append.1 hop with h | h
  · exact opsOf_made (fun _ h => .singleton h) op h
  · exact opsOf_made (fun _ h => .singleton h) op h

theorem storesAt_touches {q : Option Proc} {a : Nat} (h : q.any (Proc.storesAt a) = true) :
    ∃ p, q = some p ∧ p.touches = some (.byte a, true) := by
  cases q with
  | none => cases h
  | some p =>
    refine ⟨p, rfl, ?_⟩
    cases p with
    | store b c k =>
      have h : decide (a = b) = true := h
      rw [of_decide_eq_true h]; rfl
    | _ => cases h

theorem storesAt_two {s : St} {i j a : Nat}
    (h : ((s.thr[i]?).any (Proc.storesAt a) && (s.thr[j]?).any (Proc.storesAt a)) = true) (hij : i ≠ j) : Races s := by
  rw [Bool.and_eq_true] at h
  obtain ⟨p, hp, tp⟩ := storesAt_touches h.1
  obtain ⟨q, hq, tq⟩ := storesAt_touches h.2
  exact ⟨i, j, p, q, _, _, _, hij, hp, hq, tp, tq, .inl rfl⟩

set_option maxRecDepth 100000 in
theorem long_run : (burst (List.replicate 872 0) longInit longSched).any (fun s =>
    (s.thr[10]?).any (Proc.storesAt longAt) && (s.thr[12]?).any (Proc.storesAt longAt)) = true := by
  decide +kernel

set_option maxRecDepth 100000 in
theorem long_length : longInit.mem.length = (List.replicate 872 (0 : Byte)).length := by decide +kernel

/-- C68 is false for overlong strings: with a string value of 257 bytes and another string, two goroutines of
`Start` write the first byte behind the slot of the long one, and nothing orders them. -/
theorem C68_refuted : ∃ r e o cells s, Built r ∧ o.OK r ∧ Reach (initSt r e o cells) s ∧ Races s := by
  have h := long_run
  cases hb : burst (List.replicate 872 0) longInit longSched with
  | none => rw [hb] at h; cases h
  | some s =>
    rw [hb] at h
    obtain ⟨t, ht, hsb⟩ := burst_reach (s' := longInit) long_length ⟨rfl, rfl, rfl, rfl, rfl, rfl⟩ hb
    have h : ((s.thr[10]?).any (Proc.storesAt longAt) && (s.thr[12]?).any (Proc.storesAt longAt)) = true := h
    rw [hsb.thr] at h
    exact ⟨longReg, _, _, _, t, longReg_built, idOrd_ok _, ht, storesAt_two h (by decide)⟩

/-- Two goroutines that write the same byte race, two that write different bytes do not. -/
example : Races ⟨[0, 0], [.store 1 5 .done, .store 1 6 .done], fun _ => .nil, [], fun _ => none, false⟩ ∧
    ¬ Races ⟨[0, 0], [.store 1 5 .done, .store 0 6 .done], fun _ => .nil, [], fun _ => none, false⟩ := by
  refine ⟨⟨0, 1, _, _, _, _, _, by decide, rfl, rfl, rfl, rfl, .inl rfl⟩, ?_⟩
  rintro ⟨i, j, p, q, l, w, w', hij, hp, hq, h1, h2, _⟩
  match i, j with
  | 0, 0 => exact hij rfl
  | 1, 1 => exact hij rfl
  | 0, 1 => cases hp; cases hq; cases h1; cases h2
  | 1, 0 => cases hp; cases hq; cases h1; cases h2
  | i + 2, _ => cases hp
  | 0, j + 2 => cases hq
  | 1, j + 2 => cases hq

end Speed
