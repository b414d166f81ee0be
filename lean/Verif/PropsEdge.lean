import Verif.PropsConc
import Verif.StartDoom
import Verif.PropsDump
import Verif.PropsStart
/-
Registries outside the conditions of C02: no instances at all (C44), domain objects that are not the
registered ones (C46), metrics of other types (C47).
-/
namespace Speed

open Dump

/-- Register these metrics, in this order, in a new registry. -/
def regOf (ops : List HOp) : Reg := runHist (fun _ => none) Reg.empty ops

/-! ### C44 -/

/-- C44: if the registry has an instance domain but no instance at all, then `Start` panics: under every
schedule the execution ends and it ends with a crash. -/
theorem C44_refuted (r : Reg) (hd : r.indoms ≠ []) (hi : r.InstanceCount = 0) (e : Env) (o : Ord) (cells : Cell → Option Nat) :
    (∃ t, Reach (initSt r e o cells) t ∧ Stuck t) ∧
    ∀ t, Reach (initSt r e o cells) t → Stuck t → t.crashed = true := by
  refine ⟨exists_stuck _, fun t ht hst => ?_⟩
  have h1 : r.InstanceDomainCount > 0 := List.length_pos_iff.2 hd
  exact Falling.crashes (.inl ⟨_, List.mem_singleton.2 rfl, falls_start r e o h1 (by omega)⟩) ht hst

/-- `AddInstanceDomain` of a domain without instances. -/
def emptyDomOps : List HOp := (newIndom 10 sD [] []).toList.map (fun d => .reg (.addIndom d))

/-- Such a registry, and with a counter as well. -/
def emptyDomReg : Reg := regOf emptyDomOps
def emptyDomReg2 : Reg := regOf (emptyDomOps ++ opsOf (newPCPCounter 1 5 sC []))

theorem emptyDomOps_made : ∀ op ∈ emptyDomOps, HOp.Made op := by
  intro op hop
  unfold emptyDomOps at hop
  simp only [List.mem_map, Option.mem_toList] at hop
  obtain ⟨d, h1, rfl⟩ := hop
  exact ⟨_, _, _, _, h1⟩

example : Built emptyDomReg ∧ emptyDomReg.indoms.map (·.name) = [sD] ∧ emptyDomReg.InstanceCount = 0 :=
  ⟨⟨_, _, emptyDomOps_made, rfl⟩, by decide, by decide⟩

example : Built emptyDomReg2 ∧ emptyDomReg2.indoms.map (·.name) = [sD] ∧ emptyDomReg2.InstanceCount = 0 ∧
    emptyDomReg2.metrics.map (·.desc.name) = [sC] := by
  refine ⟨⟨_, emptyDomOps ++ opsOf (newPCPCounter 1 5 sC []), ?_, rfl⟩, by decide, by decide, by decide⟩
  intro op hop
  rcases List.mem_append.1 hop with h | h
  · exact emptyDomOps_made op h
  · exact opsOf_made (fun _ h => .counter h) op h

/-- C44, partial: with an empty domain and at least one instance in some other domain, `Start` terminates
under every schedule, and the file it leaves is read by `Dump`, which finds the empty domain with a record
of its own and count 0.

Missing: registries with an instance domain in which no domain has an instance; for them the statement is
false (`C44_refuted`). -/
theorem C44_mixed_partial {r : Reg} (hb : Built r) (hp : r.Publishable) (hsm : r.Small) {o : Ord} (ho : o.OK r)
    (e : Env) (cells : Cell → Option Nat) {d : Indom} (hd : d ∈ r.indoms) (hempty : d.insts = []) :
    (∀ s, Reach (initSt r e o cells) s → s.crashed = false ∧ (Stuck s → Returned s)) ∧
    ∀ s, Reach (initSt r e o cells) s → Returned s → ∀ out, Dumps s.mem out →
      ∃ D, out = .ok D ∧ Describes r D ∧ ∃ p ∈ D.indoms, p.2.serial = d.id ∧ p.2.count = 0 := by
  refine ⟨fun s hs => ⟨((C02_terminates hb hp ho e cells).1 s hs).1,
    fun hst => (((C02_terminates hb hp ho e cells).1 s hs).2 hst).2⟩, ?_⟩
  intro s hs hret out hout
  obtain ⟨D, h1, A, h2⟩ := (C03_dump_describes ⟨hb, hp, hsm, ho, ⟨cells, hs⟩, hret⟩).2 out hout
  refine ⟨D, h1, ⟨A, h2⟩, ?_⟩
  obtain ⟨x, h3, h4⟩ := h2.indoms d hd
  refine ⟨_, mem_of_look h3, h4.1, ?_⟩
  have h5 := h4.2.1
  rw [hempty] at h5
  exact BitVec.eq_of_toNat_eq h5

/-- An empty domain beside a gauge vector. -/
def mixedOps : List HOp := emptyDomOps ++ opsOf (newPCPGaugeVector 2 11 [(sA, 0)] sS [])

example : ∃ r : Reg, Built r ∧ r.Publishable ∧ r.Small ∧ ∃ d ∈ r.indoms, d.insts = [] := by
  refine ⟨regOf mixedOps, ⟨_, mixedOps, ?_, rfl⟩, publishable_of (by decide), by constructor <;> decide, ?_⟩
  · intro op hop
    rcases List.mem_append.1 hop with h | h
    · exact emptyDomOps_made op h
    · exact opsOf_made (fun _ h => .gaugeVector h) op h
  · decide

/-! ### C46 -/

/-- In the dump `D`, every instance metric has for each instance of its own domain a value record that
names the metric and refers to a record of that instance, which in turn belongs to that domain. -/
def RefersOwn (r : Reg) (D : Result) : Prop :=
  ∀ m ∈ r.metrics, ∀ d, m.indom = some d → ∀ i ∈ d.insts,
    ∃ v ∈ D.values, ∃ x ∈ D.metrics, ∃ n ∈ D.instances, ∃ g ∈ D.indoms,
      v.2.metric.toNat = x.1 ∧ nameOf D x.2.name = some (trimNul m.desc.name) ∧
      v.2.inst.toNat = n.1 ∧ nameOf D n.2.external = some (trimNul i.name) ∧ n.2.internal = i.id ∧
      n.2.indom.toNat = g.1 ∧ g.2.serial = d.id

/-- C46, partial: if every metric's domain object is the registered one (part of `Publishable`), the value
records refer to the records of the metric's own instances.

Missing: metrics whose domain is another object than the registered domain of the same name; for them the
statement is false (`C46_refuted`). -/
theorem C46_own_partial {r e o s} (h : Started r e o s) {D} (hd : Dumps s.mem (.ok D)) : RefersOwn r D := by
  obtain ⟨D', h1, A, h2⟩ := (C03_dump_describes h).2 _ hd
  injection h1 with h1
  subst h1
  intro m hm d hmd i hi
  have hslot : some i.name ∈ m.slotNames := by
    unfold Metric.indom at hmd
    unfold Metric.slotNames
    cases hb : m.body with
    | single v => rw [hb] at hmd; cases hmd
    | inst d' vs => rw [hb] at hmd; cases hmd; exact List.mem_map.2 ⟨i, hi, rfl⟩
  have hdr := h.pub.registered m hm d hmd
  obtain ⟨v, x, _, e1, e2, e3, _⟩ := h2.values m hm _ hslot
  rw [hmd] at e3
  obtain ⟨y, e4, e5⟩ := h2.metrics m hm
  obtain ⟨n, e6, e7⟩ := h2.insts d hdr i hi
  obtain ⟨g, e8, e9⟩ := h2.indoms d hdr
  exact ⟨_, mem_of_look e1, _, mem_of_look e4, _, mem_of_look e6, _, mem_of_look e8,
    e2, e5.1, e3, e7.2.2.2, e7.2.1, e7.1, e9.1⟩

example : ∃ e o s, Started sampleReg e o s ∧ ∃ m ∈ sampleReg.metrics, ∃ d, m.indom = some d ∧ d.insts ≠ [] := by
  obtain ⟨s, hs⟩ := sample_started
  exact ⟨_, _, s, hs, by decide⟩

/-- Two domains with the same name and the same instance; one is registered, the other is the domain of a
registered metric. -/
def aliasDom (uid : Nat) : Option Indom := newIndom uid sD [sA] []
def aliasMetric : Option Metric :=
  (aliasDom 2).bind fun d => newPCPInstanceMetric 3 [(sA, .int32 77)] sC d Int32Type InstantSemantics OneUnit []
def aliasOps : List HOp := (aliasDom 1).toList.map (fun d => .reg (.addIndom d)) ++ opsOf aliasMetric
def aliasReg : Reg := regOf aliasOps

theorem aliasReg_built : Built aliasReg := by
  refine ⟨_, aliasOps, ?_, rfl⟩
  intro op hop
  rcases List.mem_append.1 hop with h | h
  · simp only [List.mem_map, Option.mem_toList] at h
    obtain ⟨d, h1, rfl⟩ := h
    exact ⟨_, _, _, _, h1⟩
  · refine opsOf_made (fun m h => ?_) op h
    unfold aliasMetric at h
    cases hd : aliasDom 2 with
    | none => rw [hd] at h; cases h
    | some d => rw [hd] at h; exact .instance_ ⟨_, _, _, _, hd⟩ (show newPCPInstanceMetric 3 [(sA, .int32 77)] sC d Int32Type InstantSemantics OneUnit [] = some m from h)

/-- The first step that is possible. -/
def firstStep (s : St) : Option St :=
  (List.range s.thr.length).findSome? fun i => (List.range s.thr.length).findSome? fun j => step s i j

/-- Run for `n` steps, always taking the first possible step. -/
def auto : Nat → St → St
  | 0, s => s
  | n + 1, s => match firstStep s with
    | some t => auto n t
    | none => s

theorem firstStep_step {s t : St} (h : firstStep s = some t) : Step s t := by
  obtain ⟨i, _, h⟩ := List.exists_of_findSome?_eq_some h
  obtain ⟨j, _, h⟩ := List.exists_of_findSome?_eq_some h
  exact ⟨i, j, h⟩

theorem reach_auto (n : Nat) (s : St) : Reach s (auto n s) := by
  induction n generalizing s with
  | zero => exact .refl
  | succ n ih =>
    unfold auto
    split
    · rename_i t h
      exact Reach.trans (.tail .refl (firstStep_step h)) (ih t)
    · exact .refl

def aliasEnd : St := auto 400 (initSt aliasReg ⟨0, 0, 5, 6⟩ (idOrd aliasReg) (fun _ => none))

def Proc.isDone : Proc → Bool
  | .done => true
  | _ => false

set_option maxRecDepth 100000 in
theorem aliasEnd_facts : (aliasEnd.thr[0]?.map Proc.isDone) = some true ∧ aliasEnd.mem.length = 352 ∧
    (List.range 4).map (fun j => tocAt aliasEnd.mem (40 + j * 16)) =
      [⟨1, 1, 104⟩, ⟨2, 1, 136⟩, ⟨3, 1, 216⟩, ⟨4, 1, 320⟩] ∧ f32 aliasEnd.mem 24 = 4 ∧
    (valueAt aliasEnd.mem 320).inst = 0 ∧ readHeader aliasEnd.mem ≠ .err ∧
    aliasReg.metrics.map (fun m => (m.desc.name, m.indom.map (·.insts.map (·.name)))) = [(sC, some [sA])] := by
  decide +kernel

theorem alias_run : ∃ s, Reach (initSt aliasReg ⟨0, 0, 5, 6⟩ (idOrd aliasReg) (fun _ => none)) s ∧ Returned s ∧
    (List.range 4).map (fun j => tocAt s.mem (40 + j * 16)) =
      [⟨1, 1, 104⟩, ⟨2, 1, 136⟩, ⟨3, 1, 216⟩, ⟨4, 1, 320⟩] ∧ f32 s.mem 24 = 4 ∧ (valueAt s.mem 320).inst = 0 ∧
    aliasReg.metrics.map (fun m => (m.desc.name, m.indom.map (·.insts.map (·.name)))) = [(sC, some [sA])] := by
  obtain ⟨h1, _, h3, h4, h5, _, h7⟩ := aliasEnd_facts
  refine ⟨aliasEnd, reach_auto _ _, ?_, h3, h4, h5, h7⟩
  unfold Returned
  generalize aliasEnd.thr[0]? = q at h1
  cases q with
  | none => cases h1
  | some q => cases q <;> first | rfl | (simp [Proc.isDone] at h1)

theorem alias_dump {F : Buf} (h3 : (List.range 4).map (fun j => tocAt F (40 + j * 16)) =
      [⟨1, 1, 104⟩, ⟨2, 1, 136⟩, ⟨3, 1, 216⟩, ⟨4, 1, 320⟩]) (h4 : f32 F 24 = 4) {D : Result} (hD : Dumps F (.ok D)) :
    D.values = [(320, valueAt F 320)] ∧ D.instances.map Prod.fst = [136] := by
  obtain ⟨_, e2, _⟩ := C33_header hD
  rw [h4] at e2
  have e2 := e2.trans h3
  have hv := ((C33_items hD .values).1 ⟨4, 1, 320⟩ (by rw [e2]; decide) (by
    show 320 + 1 * 32 < 2 ^ 64; decide)).2.1
  have hn := ((C33_items hD .instances).1 ⟨2, 1, 136⟩ (by rw [e2]; decide) (by
    show 136 + 1 * _ < 2 ^ 64
    have := (Dump.Kind.size_pos D.header.version .instances).2
    omega)).2.1
  refine ⟨List.perm_singleton.1 hv, ?_⟩
  have h6 := List.perm_singleton.1 hn
  show (Dump.Kind.items D .instances).map Prod.fst = [136]
  rw [h6]
  simp

/-- C46 is false: `Register` accepts a metric whose domain is another object than the registered domain of
the same name, `Start` returns, and the metric's value does not refer to a record of its instance: the
instance field of the only value record is 0. -/
theorem C46_refuted : ∃ r e o cells s, Built r ∧ o.OK r ∧ Reach (initSt r e o cells) s ∧ Returned s ∧
    r.metrics.map (fun m => (m.desc.name, m.indom.map (·.insts.map (·.name)))) = [(sC, some [sA])] ∧
    ∀ D, Dumps s.mem (.ok D) → (∃ x, D.values = [x] ∧ x.2.inst = 0) ∧ ¬ RefersOwn r D := by
  obtain ⟨s, hr, hret, h3, h4, h5, h7⟩ := alias_run
  refine ⟨aliasReg, _, _, _, s, aliasReg_built, idOrd_ok _, hr, hret, h7, ?_⟩
  · intro D hD
    obtain ⟨hv', hn'⟩ := alias_dump h3 h4 hD
    refine ⟨⟨_, hv', h5⟩, fun hown => ?_⟩
    obtain ⟨m, hm, d, hmd, i, hi⟩ : ∃ m ∈ aliasReg.metrics, ∃ d, m.indom = some d ∧ ∃ i, i ∈ d.insts := by
      have h : ∃ m ∈ aliasReg.metrics, (m.indom.any (fun d => d.insts ≠ [])) = true := by decide
      obtain ⟨m, hm, h⟩ := h
      cases hd : m.indom with
      | none => rw [hd] at h; cases h
      | some d =>
        rw [hd] at h
        exact ⟨m, hm, d, hd, List.exists_mem_of_ne_nil _ (by simpa using h)⟩
    obtain ⟨v, hv, x, _, n, hn, g, _, _, _, h8, _⟩ := hown m hm d hmd i hi
    rw [hv'] at hv
    obtain rfl := List.mem_singleton.1 hv
    have h9 : n.1 ∈ D.instances.map Prod.fst := List.mem_map.2 ⟨n, hn, rfl⟩
    rw [hn', List.mem_singleton] at h9
    rw [h9] at h8
    have h10 := congrArg BitVec.toNat h5
    exact absurd (h8.symm.trans h10) (by decide)

/-! ### C47 -/

/-- C47 is false: whatever else is registered, with a metric that is not of one of the library's types
`Start` never returns, under no schedule. `Register` accepts such a metric (below). -/
theorem C47_refuted (r : Reg) (hf : ∃ m ∈ r.metrics, m.kind = .foreign) (e : Env) (o : Ord) (ho : o.OK r)
    (cells : Cell → Option Nat) {t : St} (h : Reach (initSt r e o cells) t) : ¬ Returned t := by
  obtain ⟨m, hm, hk⟩ := hf
  exact never_returns rfl (scoped_start r e o)
    (stops_start r e o (ho.metrics.length_eq) ⟨m, ho.metrics.mem_iff.2 hm, hk⟩) h

/-- A struct embedding a counter, and another counter. -/
def foreignOps : List HOp :=
  opsOf ((newPCPCounter 1 5 sC []).map (fun m => { m with kind := .foreign })) ++ opsOf (newPCPCounter 2 6 sD [])

theorem foreignOps_made : ∀ op ∈ foreignOps, HOp.Made op := by
  intro op hop
  rcases List.mem_append.1 hop with h | h
  · refine opsOf_made (fun m h => ?_) op h
    obtain ⟨m', h1, rfl⟩ := Option.map_eq_some_iff.1 h
    exact .embed (.counter h1)
  · exact opsOf_made (fun _ h => .counter h) op h

/-- Both were accepted. -/
example : Built (regOf foreignOps) ∧ (regOf foreignOps).metrics.map (fun m => (m.desc.name, decide (m.kind = .foreign))) =
    [(sC, true), (sD, false)] := ⟨⟨_, _, foreignOps_made, rfl⟩, by decide⟩

/-- C47, partial: with metrics of the library's types only, and descriptions and string values of at most
256 bytes, the registered domains being the metrics' own and not all empty, `Start` terminates under every
schedule.

Missing: metrics of other types, for which the statement is false (`C47_refuted`), and registries violating
another condition of C02. -/
theorem C47_library_partial {r : Reg} (hb : Built r) (hp : r.Publishable) {o : Ord} (ho : o.OK r) (e : Env)
    (cells : Cell → Option Nat) :
    (∀ s, Reach (initSt r e o cells) s → s.crashed = false ∧ (Stuck s → AllDone s ∧ Returned s)) ∧
    ¬ ∃ f : Nat → St, f 0 = initSt r e o cells ∧ ∀ n, Step (f n) (f (n + 1)) :=
  C02_terminates hb hp ho e cells

example : Built sampleReg2 ∧ sampleReg2.Publishable ∧ (revOrd sampleReg2).OK sampleReg2 :=
  ⟨sampleReg2_built, sampleReg2_pub, revOrd_ok _⟩

end Speed
