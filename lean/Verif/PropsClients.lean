import Verif.Clients
/-
C52: clients with separate registries that start at the same time.
-/
namespace Speed

open Dump

/-! ### It is false for clients that share a domain object -/

/-- Run a schedule: client, goroutine, partner, number of steps. -/
def stepN (n i j : Nat) : Nat → List St → Option (List St)
  | 0, cs => some cs
  | k + 1, cs => match stepOf cs n i j with
    | none => none
    | some cs' => stepN n i j k cs'

def runMany : List (Nat × Nat × Nat × Nat) → List St → Option (List St)
  | [], cs => some cs
  | (n, i, j, k) :: l, cs => match stepN n i j k cs with
    | none => none
    | some cs' => runMany l cs'

theorem stepN_reach {cs0 : List St} {n i j : Nat} : ∀ {k : Nat} {cs cs' : List St}, ManyReach cs0 cs → stepN n i j k cs = some cs' →
    ManyReach cs0 cs'
  | 0, _, _, h0, h => by cases h; exact h0
  | k + 1, cs, cs', h0, h => by
    unfold stepN at h
    split at h
    · cases h
    · rename_i c hc
      exact stepN_reach (h0.tail ⟨n, i, j, hc⟩) h

theorem runMany_reach {cs0 : List St} : ∀ {l : List (Nat × Nat × Nat × Nat)} {cs cs' : List St}, ManyReach cs0 cs → runMany l cs = some cs' →
    ManyReach cs0 cs'
  | [], _, _, h0, h => by cases h; exact h0
  | (n, i, j, k) :: l, cs, cs', h0, h => by
    unfold runMany at h
    split at h
    · cases h
    · rename_i c hc
      exact runMany_reach (stepN_reach h0 hc) h

/-- Any histogram library will do. -/
def noHdr : Hdr := ⟨Unit, fun _ _ _ => (), fun _ _ _ => none, fun _ => 0, fun _ => 0, fun _ => 0, fun _ => 0, fun _ => 0, fun _ => 0⟩
/-- Two registries with one histogram each; the second has a description. Both use `histogramIndom` (object 0). -/
def histA : Option Metric := (newPCPHistogram noHdr 1 0 sA 0 1000 3 OneUnit []).map (·.1)
def histB : Option Metric := (newPCPHistogram noHdr 2 0 sA 0 1000 3 OneUnit [sD]).map (·.1)
def histRegA : Reg := regOf (opsOf histA)
def histRegB : Reg := regOf (opsOf histB)

def histInit : List St :=
  manyInit [(histRegA, ⟨0, 0, 5, 6⟩, idOrd histRegA), (histRegB, ⟨0, 0, 5, 6⟩, idOrd histRegB)] (fun _ => none)

/-- The first client until its instance records are written; the second client; the rest of the first. -/
def histSched : List (Nat × Nat × Nat × Nat) :=
  [(0, 0, 0, 4), (0, 1, 0, 41), (0, 2, 0, 5), (0, 3, 0, 2), (0, 4, 0, 17), (0, 5, 0, 17), (0, 6, 0, 17), (0, 7, 0, 17),
   (0, 2, 0, 2), (0, 8, 0, 42), (0, 9, 0, 21), (0, 10, 0, 21), (0, 11, 0, 22), (0, 12, 0, 26), (0, 13, 0, 36), (0, 8, 0, 2),
   (0, 3, 0, 3), (0, 14, 0, 5),
   (1, 0, 0, 4), (1, 1, 0, 41), (1, 2, 0, 6), (1, 3, 0, 2), (1, 4, 0, 17), (1, 5, 0, 17), (1, 6, 0, 17), (1, 7, 0, 17),
   (1, 8, 0, 17), (1, 2, 0, 2), (1, 9, 0, 42), (1, 10, 0, 21), (1, 11, 0, 21), (1, 12, 0, 22), (1, 13, 0, 26), (1, 14, 0, 36),
   (1, 9, 0, 2), (1, 3, 0, 3), (1, 15, 0, 103), (1, 16, 0, 46), (1, 17, 0, 10), (1, 18, 0, 10), (1, 19, 0, 10), (1, 20, 0, 10),
   (1, 21, 0, 10), (1, 15, 0, 2), (1, 3, 0, 2), (1, 0, 0, 9),
   (0, 14, 0, 98), (0, 15, 0, 43), (0, 16, 0, 10), (0, 17, 0, 10), (0, 18, 0, 10), (0, 19, 0, 10), (0, 20, 0, 10), (0, 14, 0, 2),
   (0, 3, 0, 2), (0, 0, 0, 9)]

/-- What the check looks at in the file of the first client. -/
def histObs (F : Buf) : List Toc × BitVec 32 × BitVec 32 × List (BitVec 64) :=
  ((List.range 4).map (fun j => tocAt F (40 + j * 16)), f32 F 24, f32 F 4, (List.range 5).map fun i => (valueAt F (640 + i * 32)).inst)

def endObs (cs : List St) : Option (List Bool × List Toc × BitVec 32 × BitVec 32 × List (BitVec 64)) :=
  cs[0]?.map fun s => (cs.map (fun s => (s.thr[0]?).any Proc.isDone), histObs s.mem)

set_option maxRecDepth 100000 in
theorem hist_facts : (runMany histSched histInit).bind endObs =
    some ([true, true], [⟨1, 1, 104⟩, ⟨2, 5, 136⟩, ⟨3, 1, 536⟩, ⟨4, 5, 640⟩], 4, 1, [152, 232, 312, 392, 472]) := by
  decide +kernel

theorem returned_of_isDone {s : St} (h : (s.thr[0]?).any Proc.isDone = true) : Returned s := by
  unfold Returned
  generalize s.thr[0]? = q at h
  cases q with
  | none => cases h
  | some q => cases q <;> first | rfl | (simp [Proc.isDone] at h)

theorem hist_dump {F : Buf} (h : histObs F = ([⟨1, 1, 104⟩, ⟨2, 5, 136⟩, ⟨3, 1, 536⟩, ⟨4, 5, 640⟩], 4, 1, [152, 232, 312, 392, 472]))
    {D : Result} (hD : Dumps F (.ok D)) :
    (∀ v ∈ D.values, v.2.inst ∈ [152#64, 232, 312, 392, 472]) ∧ ∀ n ∈ D.instances, n.1 ∈ [136, 216, 296, 376, 456] := by
  unfold histObs at h
  simp only [Prod.mk.injEq] at h
  obtain ⟨h3, h4, h5, h6⟩ := h
  obtain ⟨e1, e2, _⟩ := C33_header hD
  rw [h4] at e2
  have e2 := e2.trans h3
  have hver : D.header.version = 1 := by rw [e1]; exact h5
  have hv := ((C33_items hD .values).1 ⟨4, 5, 640⟩ (by rw [e2]; decide) (by
    show 640 + 5 * 32 < 2 ^ 64; decide)).2.1
  have hn := ((C33_items hD .instances).1 ⟨2, 5, 136⟩ (by rw [e2]; decide) (by
    show 136 + 5 * _ < 2 ^ 64
    have := (Dump.Kind.size_pos D.header.version .instances).2
    omega)).2.1
  constructor
  · intro v hvm
    have := hv.mem_iff.1 hvm
    obtain ⟨i, hi, rfl⟩ := List.mem_map.1 this
    have hmem : (valueAt F (640 + i * 32)).inst ∈ (List.range 5).map fun i => (valueAt F (640 + i * 32)).inst :=
      List.mem_map.2 ⟨i, hi, rfl⟩
    rw [h6] at hmem
    exact hmem
  · intro n hnm
    have := hn.mem_iff.1 hnm
    rw [hver] at this
    obtain ⟨i, hi, rfl⟩ := List.mem_map.1 this
    have hi : i < 5 := List.mem_range.1 hi
    have key : ∀ i, i < 5 → 136 + i * 80 ∈ [136, 216, 296, 376, 456] := by decide
    exact key i hi

theorem hist_made {m : Metric} (h : histA = some m ∨ histB = some m) : MadeMetric m := by
  rcases h with h | h
  all_goals
    obtain ⟨⟨m', x⟩, h1, rfl⟩ := Option.map_eq_some_iff.1 h
    exact .histogram h1

/-- **C52** is false: two clients with a histogram each, started at the same time. Both `Start`s return, and in the
file of the first no value record refers to an instance record of that file (they refer to the offsets of the
instance records of the second). -/
theorem C52_refuted : ∃ (r r' : Reg) (e e' : Env) (o o' : Ord) (s s' : St), Built r ∧ Built r' ∧ r.Publishable ∧ r'.Publishable ∧
    o.OK r ∧ o'.OK r' ∧ (∀ u i, ¬ (r.Uses (.upd u i) ∧ r'.Uses (.upd u i))) ∧
    ManyReach (manyInit [(r, e, o), (r', e', o')] fun _ => none) [s, s'] ∧ Returned s ∧ Returned s' ∧
    ∀ D, Dumps s.mem (.ok D) → (∀ v ∈ D.values, ∀ n ∈ D.instances, v.2.inst.toNat ≠ n.1) ∧ ¬ RefersOwn r D := by
  have hf := hist_facts
  cases hr : runMany histSched histInit with
  | none => rw [hr] at hf; cases hf
  | some cs =>
    rw [hr] at hf
    have hf : endObs cs = _ := hf
    obtain ⟨h1, h2⟩ : cs.map (fun s => (s.thr[0]?).any Proc.isDone) = [true, true] ∧ cs[0]?.map (fun s => histObs s.mem) =
        some ([⟨1, 1, 104⟩, ⟨2, 5, 136⟩, ⟨3, 1, 536⟩, ⟨4, 5, 640⟩], 4, 1, [152, 232, 312, 392, 472]) := by
      unfold endObs at hf
      obtain ⟨s, hs, he⟩ := Option.map_eq_some_iff.1 hf
      rw [hs]
      have h1 := congrArg Prod.fst he
      have h2 := congrArg Prod.snd he
      exact ⟨h1, congrArg some h2⟩
    obtain ⟨s, s', rfl⟩ : ∃ s s', cs = [s, s'] := by
      match cs, h1 with
      | [s, s'], _ => exact ⟨s, s', rfl⟩
      | [], h => simp at h
      | [_], h => simp at h
      | _ :: _ :: _ :: _, h => simp at h
    simp only [List.map_cons, List.map_nil, List.cons.injEq, and_true] at h1
    simp only [List.getElem?_cons_zero, Option.map_some, Option.some.injEq] at h2
    have hbuilt : ∀ m : Option Metric, (∀ x, m = some x → MadeMetric x) → Built (regOf (opsOf m)) :=
      fun m hm => ⟨_, opsOf m, opsOf_made hm, rfl⟩
    refine ⟨histRegA, histRegB, _, _, _, _, s, s', hbuilt _ fun _ h => hist_made (.inl h), hbuilt _ fun _ h => hist_made (.inr h),
      publishable_of (by decide), publishable_of (by decide), idOrd_ok _, idOrd_ok _, ?_, runMany_reach .refl hr,
      returned_of_isDone h1.1, returned_of_isDone h1.2, fun D hD => ?_⟩
    · rintro u i ⟨⟨m, hm, rfl⟩, m', hm', he⟩
      have h1 : ∀ x ∈ histRegA.metrics, ∀ y ∈ histRegB.metrics, y.uid ≠ x.uid := by decide
      exact h1 m hm m' hm' he
    · obtain ⟨h3, h4⟩ := hist_dump h2 hD
      have hne : ∀ v ∈ D.values, ∀ n ∈ D.instances, v.2.inst.toNat ≠ n.1 := by
        intro v hv n hn
        have h5 := h3 v hv
        have h6 := h4 n hn
        revert h5 h6
        generalize v.2.inst = a
        generalize n.1 = b
        intro h5 h6
        simp only [List.mem_cons, List.not_mem_nil, or_false] at h5 h6
        rcases h5 with rfl | rfl | rfl | rfl | rfl <;> rcases h6 with rfl | rfl | rfl | rfl | rfl <;> decide
      refine ⟨hne, fun hown => ?_⟩
      obtain ⟨m, hm, d, hmd, i, hi⟩ : ∃ m ∈ histRegA.metrics, ∃ d, m.indom = some d ∧ ∃ i, i ∈ d.insts := by
        have h : ∃ m ∈ histRegA.metrics, (m.indom.any (fun d => d.insts ≠ [])) = true := by decide
        obtain ⟨m, hm, h⟩ := h
        cases hd : m.indom with
        | none => rw [hd] at h; cases h
        | some d =>
          rw [hd] at h
          exact ⟨m, hm, d, hd, List.exists_mem_of_ne_nil _ (by simpa using h)⟩
      obtain ⟨v, hv, x, _, n, hn, g, _, _, _, h8, _⟩ := hown m hm d hmd i hi
      exact hne v hv n hn h8

/-! ### What does hold -/

theorem manyInit_inv {l : List ClientOf} (ho : ∀ x ∈ l, x.2.2.OK x.1) (cells : Cell → Option Nat) :
    ManyInv (manyInit l cells) (fun n c => ∃ x, l[n]? = some x ∧ x.1.Uses c) (manyInit l cells) where
  len := rfl
  heap := by
    intro s hs s' hs'
    obtain ⟨x, _, rfl⟩ := List.mem_map.1 hs
    obtain ⟨y, _, rfl⟩ := List.mem_map.1 hs'
    exact ⟨rfl, rfl⟩
  alone := by
    intro n s0 s h0 h
    obtain rfl := Option.some.inj (h0.symm.trans h)
    refine ⟨s0, ⟨.refl, ⟨rfl, rfl, rfl, rfl, fun _ _ => rfl⟩, fun p hp => ?_⟩, fun h => h⟩
    unfold manyInit at h
    rw [List.getElem?_map] at h
    obtain ⟨x, hx, rfl⟩ := Option.map_eq_some_iff.1 h
    obtain rfl := List.mem_singleton.1 hp
    exact (startProg_in (ho x (List.mem_of_getElem? hx))).mono fun c hc => ⟨x, hx, hc⟩
  crash := by
    intro s hs hc
    obtain ⟨x, _, rfl⟩ := List.mem_map.1 hs
    cases hc

/-- C52, as far as it holds. Any number of clients, of which no two use the same domain or metric object, start at
the same time. Under every interleaving: the process does not panic; if nothing can step any more, all `Start`s
have returned; and the file of a client whose `Start` has returned is one it could have written alone, so that
all that is proved of single clients is true of it.

Not covered (and false, `C52_refuted`): clients that share a domain object. -/
theorem C52_separate_partial {l : List ClientOf} (hb : ∀ x ∈ l, Built x.1 ∧ x.1.Publishable ∧ x.1.Small ∧ x.2.2.OK x.1)
    (hd : ∀ (n m : Nat) (x y : ClientOf), n ≠ m → l[n]? = some x → l[m]? = some y → ∀ c, x.1.Uses c → ¬ y.1.Uses c)
    {cells : Cell → Option Nat} {cs : List St} (hr : ManyReach (manyInit l cells) cs) :
    cs.length = l.length ∧ (∀ s ∈ cs, s.crashed = false) ∧ (ManyStuck cs → ∀ s ∈ cs, AllDone s ∧ Returned s) ∧
    ∀ (n : Nat) x s, l[n]? = some x → cs[n]? = some s → Returned s →
      ∃ t, Started x.1 x.2.1 x.2.2 t ∧ t.mem = s.mem ∧ ∀ c, x.1.Uses c → t.cells c = s.cells c := by
  have hinv := (manyInit_inv (fun x hx => (hb x hx).2.2.2) cells).reach (by
    rintro n m hnm c ⟨x, hx, hxc⟩ ⟨y, hy, hyc⟩
    exact hd n m x y hnm hx hy c hxc hyc) hr
  have hini : ∀ {n : Nat} {s0}, (manyInit l cells)[n]? = some s0 → ∃ x, l[n]? = some x ∧ s0 = initSt x.1 x.2.1 x.2.2 cells := by
    intro n s0 h
    unfold manyInit at h
    rw [List.getElem?_map] at h
    obtain ⟨x, hx, rfl⟩ := Option.map_eq_some_iff.1 h
    exact ⟨x, hx, rfl⟩
  have hsafe : ∀ s ∈ cs, s.crashed = false := by
    intro s hs
    cases hc : s.crashed with
    | false => rfl
    | true =>
      obtain ⟨n, s0, t, h0, ht, htc⟩ := hinv.crash s hs hc
      obtain ⟨x, hx, rfl⟩ := hini h0
      obtain ⟨b1, b2, _, b4⟩ := hb x (List.mem_of_getElem? hx)
      rw [start_safe (b1.ok b2) b4 ht] at htc
      cases htc
  refine ⟨by rw [hinv.len]; simp [manyInit], hsafe, fun hst s hs => ?_, fun n x s hx hs hret => ?_⟩
  · obtain ⟨n, hn⟩ := List.getElem?_of_mem hs
    have hlt : n < (manyInit l cells).length := by rw [← hinv.len]; exact (List.getElem?_eq_some_iff.1 hn).1
    obtain ⟨s0, h0⟩ : ∃ s0, (manyInit l cells)[n]? = some s0 := ⟨_, List.getElem?_eq_getElem hlt⟩
    obtain ⟨t, hal, htc⟩ := hinv.alone n s0 s h0 hn
    obtain ⟨x, hx, rfl⟩ := hini h0
    obtain ⟨b1, b2, _, b4⟩ := hb x (List.mem_of_getElem? hx)
    have hstuck : Stuck t := by
      rintro t' ⟨i, j, hstep⟩
      obtain ⟨s', h1, _⟩ := hal.same.symm.step (hsafe s hs) (by rw [hal.same.thr]; exact hal.ins) hstep
      exact hst _ ⟨n, i, j, by unfold stepOf; rw [hn]; dsimp only; rw [h1]; rfl⟩
    obtain ⟨h1, h2⟩ := ((C02_terminates b1 b2 b4 x.2.1 cells).1 t hal.reach).2 hstuck
    unfold AllDone at h1 ⊢
    unfold Returned at h2 ⊢
    rw [hal.same.thr] at h1 h2
    exact ⟨h1, h2⟩
  · have h0 : (manyInit l cells)[n]? = some (initSt x.1 x.2.1 x.2.2 cells) := by
      unfold manyInit
      rw [List.getElem?_map, hx]
      rfl
    obtain ⟨t, hal, _⟩ := hinv.alone n _ s h0 hs
    obtain ⟨b1, b2, b3, b4⟩ := hb x (List.mem_of_getElem? hx)
    refine ⟨t, ⟨b1, b2, b3, b4, ⟨cells, hal.reach⟩, ?_⟩, hal.same.mem, fun c hc => hal.same.cells c ⟨x, hx, hc⟩⟩
    unfold Returned at hret ⊢
    rw [hal.same.thr]
    exact hret

/-- A registry whose objects are not those of `sampleReg`. -/
def otherOps : List HOp := opsOf (newPCPCounter 21 7 sC [sD]) ++ opsOf (newPCPGaugeVector 22 30 [(sA, 0), (sB, 0)] sD [])
def otherReg : Reg := regOf otherOps

theorem otherReg_built : Built otherReg := by
  refine ⟨_, otherOps, fun op hop => ?_, rfl⟩
  rcases List.mem_append.1 hop with h | h
  · exact opsOf_made (fun _ h => .counter h) op h
  · exact opsOf_made (fun _ h => .gaugeVector h) op h

theorem other_apart : ∀ c, sampleReg.Uses c → ¬ otherReg.Uses c := by
  have h1 : ∀ x ∈ sampleReg.indoms, x.uid < 20 := by decide
  have h2 : ∀ m ∈ sampleReg.metrics, m.uid < 20 ∧ (m.indom.all fun d => decide (d.uid < 20)) = true := by decide
  have h3 : ∀ x ∈ otherReg.indoms, 20 ≤ x.uid := by decide
  have h4 : ∀ m ∈ otherReg.metrics, 20 ≤ m.uid ∧ (m.indom.all fun d => decide (20 ≤ d.uid)) = true := by decide
  intro c hc hc'
  cases c with
  | off d i =>
    have ha : d < 20 := by
      rcases hc with ⟨x, hx, rfl⟩ | ⟨m, hm, x, hx, rfl⟩
      · exact h1 x hx
      · have := (h2 m hm).2
        rw [hx] at this
        simpa using this
    have hb : 20 ≤ d := by
      rcases hc' with ⟨x, hx, rfl⟩ | ⟨m, hm, x, hx, rfl⟩
      · exact h3 x hx
      · have := (h4 m hm).2
        rw [hx] at this
        simpa using this
    omega
  | upd u i =>
    obtain ⟨m, hm, rfl⟩ := hc
    obtain ⟨m', hm', he⟩ := hc'
    have := (h2 m hm).1
    have := (h4 m' hm').1
    omega

/-- Two clients with registries of three and two metrics, one of them iterating backwards. -/
example {cs : List St} (hr : ManyReach (manyInit [(sampleReg, ⟨0, 0, 5, 6⟩, revOrd sampleReg), (otherReg, ⟨2, 1, 5, 6⟩, idOrd otherReg)]
    fun _ => none) cs) : cs.length = 2 ∧ (∀ s ∈ cs, s.crashed = false) ∧ (ManyStuck cs → ∀ s ∈ cs, AllDone s ∧ Returned s) := by
  have h := C52_separate_partial (by
    intro x hx
    simp only [List.mem_cons, List.not_mem_nil, or_false] at hx
    rcases hx with rfl | rfl
    · exact ⟨sampleReg_built, sampleReg_pub, sampleReg_small, revOrd_ok _⟩
    · exact ⟨otherReg_built, publishable_of (by decide), by constructor <;> decide, idOrd_ok _⟩) (by
    intro n m x y hnm hx hy c hc hc'
    match n, m, hnm, hx, hy with
    | 0, 1, _, hx, hy => cases hx; cases hy; exact other_apart c hc hc'
    | 1, 0, _, hx, hy => cases hx; cases hy; exact other_apart c hc' hc
    | n + 2, _, _, hx, _ => simp at hx
    | _, m + 2, _, _, hy => simp at hy) hr
  exact ⟨h.1, h.2.1, h.2.2.1⟩

end Speed
