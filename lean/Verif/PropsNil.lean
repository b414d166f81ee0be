import Verif.NilUnitStart
import Verif.PropsStart
/-
C83: arguments that are nil.
-/
namespace Speed
open Dump

/-- The metric with another unit. -/
def Metric.withUnit (m : Metric) (u : BitVec 32) : Metric := { m with desc := { m.desc with unit := u } }

theorem newDesc_unit (name : Str) (t : MetricType) (s u u' : BitVec 32) (desc : List Str) :
    newDesc name t s u' desc = (newDesc name t s u desc).map (fun d => { d with unit := u' }) := by
  unfold newDesc
  split
  · rfl
  · split
    · rfl
    · split <;> rfl

theorem newSingle_unit (uid : Nat) (k : Kind) (val : GoVal) (d : Desc) (u : BitVec 32) :
    newSingle uid k val { d with unit := u } = (newSingle uid k val d).map (·.withUnit u) := by
  unfold newSingle
  dsimp only
  split <;> rfl

theorem newInstMetric_unit (uid : Nat) (k : Kind) (vals : List (Str × GoVal)) (i : Indom) (d : Desc) (u : BitVec 32) :
    newInstMetric uid k vals i { d with unit := u } = (newInstMetric uid k vals i d).map (·.withUnit u) := by
  unfold newInstMetric
  dsimp only
  split
  · rfl
  · split <;> rfl

theorem newPCPSingletonMetric_unit (uid : Nat) (val : GoVal) (name : Str) (t : MetricType) (s u u' : BitVec 32)
    (desc : List Str) :
    newPCPSingletonMetric uid val name t s u' desc = (newPCPSingletonMetric uid val name t s u desc).map (·.withUnit u') := by
  unfold newPCPSingletonMetric
  rw [newDesc_unit name t s u u']
  cases newDesc name t s u desc with
  | none => rfl
  | some d => exact newSingle_unit ..

theorem newPCPInstanceMetric_unit (uid : Nat) (vals : List (Str × GoVal)) (name : Str) (d : Indom) (t : MetricType)
    (s u u' : BitVec 32) (desc : List Str) :
    newPCPInstanceMetric uid vals name d t s u' desc =
      (newPCPInstanceMetric uid vals name d t s u desc).map (·.withUnit u') := by
  unfold newPCPInstanceMetric
  rw [newDesc_unit name t s u u']
  cases newDesc name t s u desc with
  | none => rfl
  | some d => exact newInstMetric_unit ..

theorem newPCPHistogram_unit (L : Hdr) (uid duid : Nat) (name : Str) (low high sig : Int) (u u' : BitVec 32)
    (desc : List Str) :
    newPCPHistogram L uid duid name low high sig u' desc =
      (newPCPHistogram L uid duid name low high sig u desc).map (fun p => (p.1.withUnit u', p.2)) := by
  unfold newPCPHistogram
  split
  · rfl
  · dsimp only
    rw [newDesc_unit name _ _ u u']
    cases newDesc name DoubleType InstantSemantics u desc with
    | none => rfl
    | some d =>
      simp only [Option.map_some, Option.bind_some]
      cases histogramIndom duid with
      | none => rfl
      | some hd =>
        simp only [Option.bind_some]
        rw [newInstMetric_unit]
        cases newInstMetric uid .histogram (histogramInstances.map (fun n => (n, GoVal.float64 0))) hd d <;> rfl

theorem addMetric_unit (r : Reg) (m : Metric) (u : BitVec 32) : (r.addMetric (m.withUnit u)).ok = (r.addMetric m).ok := by
  have hi : (m.withUnit u).indom = m.indom := rfl
  have hn : (m.withUnit u).desc.name = m.desc.name := rfl
  unfold Reg.addMetric
  rw [hi, hn]
  split
  · rfl
  · split
    · rfl
    · split
      · rfl
      · split
        · rfl
        · split <;> rfl

theorem addMetricByString_unit (parse : Str → Option (Str × Str × Option (List Str))) (r : Reg) (uid duid : Nat) (str : Str)
    (val : ByStrVal) (t : MetricType) (s u u' : BitVec 32) :
    (r.addMetricByString parse uid duid str val t s u').ok = (r.addMetricByString parse uid duid str val t s u).ok := by
  have hfin : ∀ (r : Reg) (mp : List (Str × GoVal)) (name : Str) (d : Indom),
      (match newPCPInstanceMetric uid mp name d t s u' [] with | none => (⟨r, false⟩ : RRes) | some m => r.addMetric m).ok =
      (match newPCPInstanceMetric uid mp name d t s u [] with | none => (⟨r, false⟩ : RRes) | some m => r.addMetric m).ok := by
    intro r mp name d
    rw [newPCPInstanceMetric_unit uid mp name d t s u u']
    cases newPCPInstanceMetric uid mp name d t s u [] with
    | none => rfl
    | some m => exact addMetric_unit r m u'
  unfold Reg.addMetricByString
  split
  · rfl
  · unfold Reg.addSingletonByString
    rw [newPCPSingletonMetric_unit _ _ _ t s u u']
    cases newPCPSingletonMetric uid (match val with | .plain v => v | .insts _ => .other) _ t s u [] with
    | none => rfl
    | some m => exact addMetric_unit r m u'
  · unfold Reg.addInstanceByString
    cases val with
    | plain v => rfl
    | insts mp =>
      dsimp only
      split
      · split
        · rfl
        · exact hfin _ mp _ _
      · split
        · exact hfin _ mp _ _
        · rfl

/-! ### C83 -/

/-- C83 is false: no constructor and no way of registering a metric looks at the unit, so whether they succeed does not depend
on what it is, or whether there is one. -/
theorem C83_refuted_unchecked (u u' : BitVec 32) :
    (∀ uid val name t s desc,
      (newPCPSingletonMetric uid val name t s u' desc).isSome = (newPCPSingletonMetric uid val name t s u desc).isSome) ∧
    (∀ uid vals name d t s desc,
      (newPCPInstanceMetric uid vals name d t s u' desc).isSome = (newPCPInstanceMetric uid vals name d t s u desc).isSome) ∧
    (∀ L uid duid name low high sig desc,
      (newPCPHistogram L uid duid name low high sig u' desc).isSome =
        (newPCPHistogram L uid duid name low high sig u desc).isSome) ∧
    (∀ (r : Reg) (m : Metric), (r.addMetric (m.withUnit u')).ok = (r.addMetric (m.withUnit u)).ok) ∧
    (∀ parse r uid duid str val t s,
      (Reg.addMetricByString parse r uid duid str val t s u').ok = (Reg.addMetricByString parse r uid duid str val t s u).ok) := by
  refine ⟨?_, ?_, ?_, ?_, ?_⟩
  · intro uid val name t s desc
    rw [newPCPSingletonMetric_unit uid val name t s u u']
    exact Option.isSome_map
  · intro uid vals name d t s desc
    rw [newPCPInstanceMetric_unit uid vals name d t s u u']
    exact Option.isSome_map
  · intro L uid duid name low high sig desc
    rw [newPCPHistogram_unit L uid duid name low high sig u u']
    exact Option.isSome_map
  · intro r m
    exact (addMetric_unit r m u').trans (addMetric_unit r m u).symm
  · intro parse r uid duid str val t s
    exact addMetricByString_unit parse r uid duid str val t s u u'

/-- C83 is false: if any registered metric has no unit then `Start`, which has an error to return, does not return at all, under
no schedule. -/
theorem C83_refuted_start {r : Reg} {U : UnitOf} (hU : U.Partial) (hf : ∃ m ∈ r.metrics, U m = none) (e : Env) {o : Ord}
    (ho : o.OK r) (cells : Cell → Option Nat) {t : St} (h : Reach (initStU r U e o cells) t) : ¬ Returned t :=
  startU_never hU ho hf h

/-- It panics: every run comes to an end, and it ends in the crash of the process. (Nothing else is wrong with the registry: with
the units, `Start` would return.) -/
theorem C83_refuted_panic {r : Reg} (hb : Built r) (hp : r.Publishable) {U : UnitOf} (hU : U.Partial)
    (hf : ∃ m ∈ r.metrics, U m = none) (e : Env) {o : Ord} (ho : o.OK r) (cells : Cell → Option Nat) :
    (∀ t, Reach (initStU r U e o cells) t → Stuck t → t.crashed = true) ∧
    (∀ t, Reach (initStU r U e o cells) t → ∃ u, Reach t u ∧ u.crashed = true) ∧
    ¬ ∃ f : Nat → St, f 0 = initStU r U e o cells ∧ ∀ n, Step (f n) (f (n + 1)) := by
  have hr := hb.ok hp
  have key : ∀ t, Reach (initStU r U e o cells) t → Stuck t → t.crashed = true := by
    intro t h hst
    rcases (cutSt_init hU (e := e) (cells := cells)).reach h with ⟨s, e1, e2⟩ | ⟨u', u, e1, e2, e3, _, rfl⟩
    · exact absurd hst (startU_matched hr hU ho hf h e1 e2)
    · rfl
  refine ⟨key, ?_, ?_⟩
  · intro t h
    obtain ⟨u, h1, h2⟩ := exists_stuck t
    exact ⟨u, h1, key u (h.trans h1) h2⟩
  · rintro ⟨f, _, hf⟩
    have : ∀ x : St, ∀ n, f n = x → False := fun x => step_wf.induction (C := fun x => ∀ n, f n = x → False) x
      (fun y ih n hn => ih (f (n + 1)) (by subst hn; exact hf n) (n + 1) rfl)
    exact this _ 0 rfl

/-- The file it leaves behind: whatever byte has been written last, a reader gets an error or a header with no TOC entries, never
a metric. -/
theorem C83_file {r : Reg} (hb : Built r) (hp : r.Publishable) {U : UnitOf} (hU : U.Partial)
    (hf : ∃ m ∈ r.metrics, U m = none) {e : Env} (hg : e.gen ≠ 0) {o : Ord} (ho : o.OK r) {cells : Cell → Option Nat} {t : St}
    (h : Reach (initStU r U e o cells) t) {out : DumpOut} (hd : Dumps t.mem out) :
    out = .err ∨ ∃ H, out = .ok ⟨H, [], [], [], [], [], []⟩ ∧ H.toc = 0 := by
  obtain ⟨e1, e2⟩ := (startU_early (hb.ok hp) hU ho hf h).1 hg
  cases hh : readHeader t.mem with
  | err => unfold Dumps at hd; rw [hh] at hd; exact .inl hd
  | panic =>
    exfalso
    unfold readHeader at hh
    split at hh
    · cases hh
    · dsimp only at hh
      split at hh
      · cases hh
      · split at hh <;> cases hh
  | ok H =>
    right
    have hH := hh
    unfold readHeader at hH
    split at hH
    · cases hH
    · rename_i hlen
      dsimp only at hH
      split at hH
      · cases hH
      · split at hH
        · cases hH
        · rename_i hgen
          injection hH with hH
          have hgen : f64 t.mem 8 = f64 t.mem 16 := by simpa using hgen
          have hz : f64 t.mem 8 = 0 := by rw [hgen]; exact f64_zero e1
          have htoc : H.toc = 0 := by rw [← hH]; exact f32_zero (e2 (zero_of_f64 (by omega) hz))
          exact ⟨H, dump_empty hh htoc hd, htoc⟩

/-- C83 is false of the other arguments as well: `Register(nil)` panics unless the registry is mapped, `RegisterIndom(nil)`
always, `NewPCPInstanceMetric` with a nil domain whenever the name and the descriptions are in order, and so do `Start` and
`SetFlag` of a client made with a nil registry (before any file is touched). -/
theorem C83_refuted_calls (r : Reg) (hm : r.mapped = false) {name : Str} (hn : name ≠ []) (hl : name.length ≤ 256)
    {desc : List Str} (hd : desc.length ≤ 2) (t : MetricType) (s u : BitVec 32) (fs : FS) :
    r.addMetricNil = .panic ∧ r.addIndomNil = .panic ∧ newPCPInstanceMetricNil name t s u desc = .panic ∧
    startNilRegistry fs = (fs, .panic) ∧ setFlagNilRegistry = .panic := by
  refine ⟨by simp [Reg.addMetricNil, hm], rfl, ?_, rfl, rfl⟩
  have : ∃ d, newDesc name t s u desc = some d := by
    unfold newDesc
    rw [if_neg hn, if_neg (by have : StringLength = 256 := rfl; omega)]
    match desc, hd with
    | [], _ => exact ⟨_, rfl⟩
    | [_], _ => exact ⟨_, rfl⟩
    | [_, _], _ => exact ⟨_, rfl⟩
    | _ :: _ :: _ :: _, h => simp at h
  obtain ⟨d, hd⟩ := this
  unfold newPCPInstanceMetricNil
  rw [hd]

/-- C83, partial: with all units there, a publishable registry is published: `Start` returns, under every schedule, and nothing
panics.

Missing: a missing unit, and the other nil arguments, for which the statement is false (above). -/
theorem C83_units_partial {r : Reg} (hb : Built r) (hp : r.Publishable) {U : UnitOf} (hU : ∀ m, U m = some m.desc.unit) {o : Ord}
    (ho : o.OK r) (e : Env) (cells : Cell → Option Nat) :
    (∀ s, Reach (initStU r U e o cells) s → s.crashed = false ∧ (Stuck s → AllDone s ∧ Returned s)) ∧
    ¬ ∃ f : Nat → St, f 0 = initStU r U e o cells ∧ ∀ n, Step (f n) (f (n + 1)) := by
  rw [initStU_eq hU]
  exact C02_terminates hb hp ho e cells

/-! ### An example: three metrics, the second one without a unit -/

/-- `d` has no unit. -/
def nilUnits : UnitOf := fun m => if m.desc.name = sD then none else some m.desc.unit

example : nilUnits.Partial ∧ (∃ m ∈ sampleReg.metrics, nilUnits m = none) ∧ (∃ m ∈ sampleReg.metrics, nilUnits m ≠ none) ∧
    Built sampleReg ∧ sampleReg.Publishable := by
  refine ⟨?_, by decide, by decide, sampleReg_built, sampleReg_pub⟩
  intro m
  unfold nilUnits
  split
  · exact .inl rfl
  · exact .inr rfl

end Speed
