import Verif.PropsMust
import Verif.Print
/-
The kinds of metric are in the file what the documentation (README.md, "Walkthrough") says (C93).
-/
namespace Speed
open Dump

/-! ### What holds for all metrics a program can register -/

theorem addMetric_all {P : Metric → Prop} {r : Reg} {m : Metric} (hm : P m) (hr : ∀ x ∈ r.metrics, P x) :
    ∀ x ∈ (r.addMetric m).reg.metrics, P x := by
  have hun : ∀ {r' : Reg}, r'.metrics = r.metrics → ∀ x ∈ (r'.addMetricUnchecked m).metrics, P x := by
    intro r' he x hx
    rcases List.mem_append.1 hx with hx | hx
    · exact hr x (he ▸ hx)
    · rw [List.mem_singleton.1 hx]; exact hm
  unfold Reg.addMetric
  split
  · exact hr
  · split
    · exact hr
    · split
      · exact hun rfl
      · split
        · exact hun rfl
        · split
          · exact hr
          · rename_i h; exact hun (addIndom_keeps h)

/-- What holds for the metrics that constructors make, and does not depend on values, holds for all registered metrics. -/
theorem Built.all {P : Metric → Prop} (hmade : ∀ m, MadeMetric m → P m)
    (hinst : ∀ uid vals name d t s u m, newPCPInstanceMetric uid vals name d t s u [] = some m → P m)
    (hshape : ∀ a b : Metric, a.shape = b.shape → P b → P a) {r : Reg} (h : Built r) : ∀ m ∈ r.metrics, P m := by
  obtain ⟨parse, ops, h1, rfl⟩ := h
  have key : ∀ (ops : List HOp) (r : Reg), (∀ op ∈ ops, op.Made) → (∀ m ∈ r.metrics, P m) →
      ∀ m ∈ (runHist parse r ops).metrics, P m := by
    intro ops
    induction ops with
    | nil => exact fun r _ hr => hr
    | cons op ops ih =>
      intro r hops hr
      refine ih _ (fun o ho => hops o (by simp [ho])) ?_
      have hop := hops op (by simp)
      cases op with
      | reg op =>
        cases op with
        | addMetric m => exact addMetric_all (hmade m hop) hr
        | addIndom d =>
          show ∀ m ∈ (ROp.apply parse r (.addIndom d)).reg.metrics, P m
          unfold ROp.apply
          dsimp only
          split
          · rename_i h; rw [addIndom_keeps h]; exact hr
          · exact hr
        | byName uid name l =>
          show ∀ m ∈ (ROp.apply parse r (.byName uid name l)).reg.metrics, P m
          unfold ROp.apply
          dsimp only
          split
          · rename_i h; rw [byName_keeps h]; exact hr
          · exact hr
        | mapped b => exact hr
        | byString uid duid str val t s u =>
          show ∀ m ∈ (r.addMetricByString parse uid duid str val t s u).reg.metrics, P m
          have hfin : ∀ {r' : Reg} {mp name d}, r'.metrics = r.metrics → ∀ x ∈ (match newPCPInstanceMetric uid mp name d t s u [] with
              | none => (⟨r', false⟩ : RRes)
              | some m => r'.addMetric m).reg.metrics, P x := by
            intro r' mp name d he
            split
            · rw [he]; exact hr
            · rename_i m hm
              exact addMetric_all (hinst _ _ _ _ _ _ _ _ hm) (by rw [he]; exact hr)
          unfold Reg.addMetricByString
          split
          · exact hr
          · unfold Reg.addSingletonByString
            split
            · exact hr
            · rename_i m hm
              exact addMetric_all (hmade m (.singleton hm)) hr
          · unfold Reg.addInstanceByString
            split
            · exact hr
            · split
              · split
                · exact hr
                · rename_i h; exact hfin (byName_keeps h)
              · split
                · exact hfin rfl
                · exact hr
      | set name s val =>
        intro x hx
        obtain ⟨y, hy, rfl⟩ := List.mem_map.1 hx
        split
        · exact hshape _ _ (update_shape ..) (hr y hy)
        · exact hr y hy
  exact key ops _ h1 (by intro m hm; cases hm)

theorem Active.all {P : Metric → Prop} (hmade : ∀ m, MadeMetric m → P m)
    (hinst : ∀ uid vals name d t s u m, newPCPInstanceMetric uid vals name d t s u [] = some m → P m)
    (hshape : ∀ a b : Metric, a.shape = b.shape → P b → P a) {e o w} (h : Active e o w) : ∀ m ∈ w.reg.metrics, P m := by
  induction h with
  | start h => exact h.built.all hmade hinst hshape
  | call c _ hm hf ih =>
    intro x hx
    rcases mem_setMetric hx with rfl | ⟨hx, _⟩
    · exact hshape _ _ (c.shape ..) (ih _ hm)
    · exact ih x hx

/-! ### What the constructors fix -/

def DocOK (m : Metric) : Prop :=
  match m.kind with
  | .singleton => m.indom = none
  | .counter => m.desc.t = 2 ∧ m.desc.sem = 1 ∧ m.desc.unit = 0x00100000 ∧ m.indom = none
  | .gauge => m.desc.t = 5 ∧ m.desc.sem = 3 ∧ m.desc.unit = 0x00100000 ∧ m.indom = none
  | .timer => m.desc.t = 5 ∧ m.desc.sem = 4 ∧ m.indom = none
  | .instance_ => m.indom.isSome
  | .counterVector => m.desc.t = 2 ∧ m.desc.sem = 1 ∧ m.desc.unit = 0x00100000 ∧
      ∃ d, m.indom = some d ∧ d.id = hash (m.desc.name ++ b!".indom") 22
  | .gaugeVector => m.desc.t = 5 ∧ m.desc.sem = 3 ∧ m.desc.unit = 0x00100000 ∧
      ∃ d, m.indom = some d ∧ d.id = hash (m.desc.name ++ b!".indom") 22
  | .histogram => m.desc.t = 5 ∧ m.desc.sem = 3 ∧ ∃ d, m.indom = some d ∧ d.id = hash b!"histogram" 22 ∧
      ∀ n, n ∈ d.insts.map (·.name) ↔ n ∈ [b!"min", b!"max", b!"mean", b!"variance", b!"standard_deviation"]
  | .foreign => True

theorem docOK_shape (a b : Metric) (h : a.shape = b.shape) (hb : DocOK b) : DocOK a := by
  have h1 : a.kind = b.kind := congrArg (fun x => x.2.1) h
  have h2 : a.desc = b.desc := shape_desc h
  have h3 : a.indom = b.indom := congrArg (fun x => x.2.2.2.1) h
  unfold DocOK
  rw [h1, h2, h3]
  exact hb

theorem newSingle_doc {uid k val name t s u desc m} (h : (newDesc name t s u desc).bind (newSingle uid k val) = some m) :
    m.kind = k ∧ m.desc.name = name ∧ m.desc.t = t ∧ m.desc.sem = s ∧ m.desc.unit = u ∧ m.indom = none := by
  obtain ⟨h1, h2⟩ := newSingle_carries h
  exact ⟨h1.kind, h1.name, h1.t, h1.sem, h1.unit, (newSingle_kind h).2.2⟩

theorem newInst_doc {uid k vals name t s u desc d m} (h : (newDesc name t s u desc).bind (newInstMetric uid k vals d) = some m) :
    m.kind = k ∧ m.desc.name = name ∧ m.desc.t = t ∧ m.desc.sem = s ∧ m.desc.unit = u ∧ m.indom = some d := by
  refine ⟨(newInst_kind h).1, ?_, (newInst_kind h).2.1, ?_, ?_, (newInst_kind h).2.2⟩
  all_goals
    cases hd : newDesc name t s u desc with
    | none => rw [hd] at h; cases h
    | some dd =>
      rw [hd] at h
      have hdd : dd.name = name ∧ dd.sem = s ∧ dd.unit = u := by
        unfold newDesc at hd
        split at hd
        · cases hd
        · split at hd
          · cases hd
          · split at hd
            · cases hd
            · obtain rfl := Option.some.inj hd
              exact ⟨rfl, rfl, rfl⟩
      simp only [Option.bind_some, newInstMetric] at h
      split at h
      · cases h
      · split at h
        · cases h
        · obtain rfl := Option.some.inj h
          first | exact hdd.1 | exact hdd.2.1 | exact hdd.2.2

theorem generate_doc {uid duid k vals name t s u desc m} (h : generateInstanceMetric uid duid k vals name t s u desc = some m) :
    m.kind = k ∧ m.desc.t = t ∧ m.desc.sem = s ∧ m.desc.unit = u ∧
      ∃ d, m.indom = some d ∧ d.id = hash (m.desc.name ++ b!".indom") 22 := by
  unfold generateInstanceMetric at h
  cases hd : newIndom duid (name ++ dotIndom) (vals.map (·.1)) [] with
  | none => rw [hd] at h; cases h
  | some d =>
    rw [hd] at h
    obtain ⟨h1, h2, h3, h4, h5, h6⟩ := newInst_doc h
    obtain ⟨w1, _, w2, _⟩ := newIndom_wf hd
    refine ⟨h1, h3, h4, h5, d, h6, ?_⟩
    rw [w1.id, w2, h2]; rfl

theorem MadeMetric.docOK (m : Metric) (h : MadeMetric m) : DocOK m := by
  induction h with
  | singleton h => obtain ⟨h1, _, _, _, _, h6⟩ := newSingle_doc h; unfold DocOK; rw [h1]; exact h6
  | counter h => obtain ⟨h1, _, h3, h4, h5, h6⟩ := newSingle_doc h; unfold DocOK; rw [h1]; exact ⟨h3, h4, h5, h6⟩
  | gauge h => obtain ⟨h1, _, h3, h4, h5, h6⟩ := newSingle_doc h; unfold DocOK; rw [h1]; exact ⟨h3, h4, h5, h6⟩
  | timer h => obtain ⟨h1, _, h3, h4, h5, h6⟩ := newSingle_doc h; unfold DocOK; rw [h1]; exact ⟨h3, h4, h6⟩
  | instance_ hd h => obtain ⟨h1, _, _, _, _, h6⟩ := newInst_doc h; unfold DocOK; rw [h1]; show _ = _; rw [h6]; rfl
  | counterVector h => obtain ⟨h1, h2, h3, h4, h5⟩ := generate_doc h; unfold DocOK; rw [h1]; exact ⟨h2, h3, h4, h5⟩
  | gaugeVector h => obtain ⟨h1, h2, h3, h4, h5⟩ := generate_doc h; unfold DocOK; rw [h1]; exact ⟨h2, h3, h4, h5⟩
  | @histogram L uid duid name low high sig unit desc m h0 h =>
    obtain ⟨h1, ⟨d, h2, _, _, h3⟩, _⟩ := (C48_histogram L uid duid name low high sig unit desc).2 m h0 h
    unfold DocOK
    rw [h1.kind]
    refine ⟨h1.t, h1.sem, d, h2, ?_, h3⟩
    unfold newPCPHistogram at h
    split at h
    · cases h
    · dsimp only at h
      cases hd : newDesc name DoubleType InstantSemantics unit desc with
      | none => rw [hd] at h; cases h
      | some dd =>
        rw [hd, Option.bind_some] at h
        cases hi : histogramIndom duid with
        | none => rw [hi] at h; cases h
        | some hd' =>
          rw [hi, Option.bind_some, Option.map_eq_some_iff] at h
          obtain ⟨m', hm', he⟩ := h
          obtain ⟨rfl, _⟩ := Prod.mk.inj he
          have : m'.indom = some hd' := by
            unfold newInstMetric at hm'
            split at hm'
            · cases hm'
            · split at hm'
              · cases hm'
              · obtain rfl := Option.some.inj hm'; rfl
          obtain rfl := Option.some.inj (h2.symm.trans this)
          obtain ⟨w1, _, w2, _⟩ := newIndom_wf hi
          rw [w1.id, w2]; rfl
  | update s val _ ih => exact docOK_shape _ _ (update_shape ..) ih
  | embed _ _ => trivial

theorem inst_docOK (uid vals name d t s u m) (h : newPCPInstanceMetric uid vals name d t s u [] = some m) : DocOK m := by
  obtain ⟨h1, _, _, _, _, h6⟩ := newInst_doc h
  unfold DocOK
  rw [h1]
  show _ = _
  rw [h6]; rfl

/-! ### In the file -/

/-- The metric at `a` has one value, of no instance. -/
def OneValue (D : Result) (a : Nat) : Prop :=
  ∃ k v, (k, v) ∈ D.values ∧ v.metric.toNat = a ∧ v.inst = 0 ∧ ∀ p ∈ D.values, p.2.metric.toNat = a → p = (k, v)

/-- `n` is the name of an instance for which the metric at `a` has a value. -/
def HasInst (D : Result) (a : Nat) (n : Str) : Prop :=
  ∃ p ∈ D.values, p.2.metric.toNat = a ∧ ∃ i, look D.instances p.2.inst.toNat = some i ∧ nameOf D i.external = some n

/-- The documentation of the kinds, as a reader of the file sees it: types 2 and 5 are 64-bit integers and doubles, semantics
1, 3 and 4 are counter, instantaneous and discrete, 0x00100000 is the unit one, and the domain -1 is none. -/
def Documented (D : Result) (name : Str) (a : Nat) (x : Dump.Metric) : Kind → Prop
  | .singleton => x.indom = -1 ∧ OneValue D a
  | .counter => x.typ = 2 ∧ x.sem = 1 ∧ x.unit = 0x00100000 ∧ x.indom = -1 ∧ OneValue D a
  | .gauge => x.typ = 5 ∧ x.sem = 3 ∧ x.unit = 0x00100000 ∧ x.indom = -1 ∧ OneValue D a
  | .timer => x.typ = 5 ∧ x.sem = 4 ∧ x.indom = -1 ∧ OneValue D a
  | .counterVector => x.typ = 2 ∧ x.sem = 1 ∧ x.unit = 0x00100000 ∧ x.indom = hash (name ++ b!".indom") 22
  | .gaugeVector => x.typ = 5 ∧ x.sem = 3 ∧ x.unit = 0x00100000 ∧ x.indom = hash (name ++ b!".indom") 22
  | .histogram => x.typ = 5 ∧ x.sem = 3 ∧ x.indom = hash b!"histogram" 22 ∧
      ∀ n, HasInst D a n ↔ n ∈ [b!"min", b!"max", b!"mean", b!"variance", b!"standard_deviation"]
  | .instance_ => True
  | .foreign => True

section
variable {r : Reg} {D : Result} {A : Addrs}

theorem metric_addr (hD : DescribesAt r D A) {m m' : Metric} (hm : m ∈ r.metrics) (hm' : m' ∈ r.metrics)
    (h : A.metric m.uid = A.metric m'.uid) : m = m' := by
  have hn : (r.metrics.map (fun m => A.metric m.uid)).Nodup := hD.metricKeys.nodup_iff.1 hD.nodup.2.2.1
  exact List.inj_on_of_nodup_map hn hm hm' h

/-- The value records of a metric are those of its slots. -/
theorem values_of (hD : DescribesAt r D A) {m : Metric} (hm : m ∈ r.metrics) (p : Nat × Dump.Value) :
    (p ∈ D.values ∧ p.2.metric.toNat = A.metric m.uid) ↔
    ∃ s ∈ m.slotNames, p.1 = A.value m.uid s ∧ look D.values (A.value m.uid s) = some p.2 := by
  have hnd := hD.nodup.2.2.2.1
  constructor
  · rintro ⟨hp, ha⟩
    have hk : p.1 ∈ D.values.map Prod.fst := List.mem_map_of_mem hp
    obtain ⟨m', hm', hs⟩ := List.mem_flatMap.1 (hD.valueKeys.mem_iff.1 hk)
    obtain ⟨s, hs, he⟩ := List.mem_map.1 hs
    obtain ⟨v, x, _, hl, hx⟩ := hD.values m' hm' s hs
    have hlp : look D.values p.1 = some p.2 := look_of_mem hnd hp
    rw [← he, hl] at hlp
    obtain rfl := Option.some.inj hlp
    have := metric_addr hD hm hm' (ha.symm.trans hx.1)
    subst this
    exact ⟨s, hs, he.symm, hl⟩
  · rintro ⟨s, hs, he, hl⟩
    obtain ⟨v, x, _, hl', hx⟩ := hD.values m hm s hs
    rw [hl] at hl'
    obtain rfl := Option.some.inj hl'
    refine ⟨?_, hx.1⟩
    have hk : p.1 ∈ D.values.map Prod.fst :=
      hD.valueKeys.mem_iff.2 (List.mem_flatMap.2 ⟨m, hm, List.mem_map.2 ⟨s, hs, he.symm⟩⟩)
    obtain ⟨y, hy1, hy2⟩ := look_of_key hk
    rw [he, hl] at hy1
    obtain rfl := Option.some.inj hy1
    exact hy2

theorem one_value (hD : DescribesAt r D A) {m : Metric} (hm : m ∈ r.metrics) (hi : m.indom = none) : OneValue D (A.metric m.uid) := by
  have hs : m.slotNames = [none] := by
    unfold Metric.indom at hi
    unfold Metric.slotNames
    split at hi
    · rename_i hb; rw [hb]
    · cases hi
  obtain ⟨v, x, _, hl, hx⟩ := hD.values m hm none (by rw [hs]; simp)
  obtain ⟨h1, h2⟩ := (values_of hD hm (A.value m.uid none, x)).2 ⟨none, by rw [hs]; simp, rfl, hl⟩
  refine ⟨_, x, h1, h2, hx.2.1, fun p hp ha => ?_⟩
  obtain ⟨s, h3, h4, h5⟩ := (values_of hD hm p).1 ⟨hp, ha⟩
  rw [hs, List.mem_singleton] at h3
  subst h3
  rw [hl] at h5
  exact Prod.ext h4 (Option.some.inj h5).symm

theorem has_inst (hD : DescribesAt r D A) {m : Metric} (hm : m ∈ r.metrics) {d : Indom} (hi : m.indom = some d) (hd : d ∈ r.indoms) (n : Str) :
    HasInst D (A.metric m.uid) n ↔ n ∈ (d.insts.map (·.name)).map trimNul := by
  have hs : m.slotNames = d.insts.map (fun i => some i.name) := by
    unfold Metric.indom at hi
    unfold Metric.slotNames
    split at hi
    · cases hi
    · rename_i hb; obtain rfl := Option.some.inj hi; rw [hb]
  have key : ∀ i ∈ d.insts, ∃ x y, look D.values (A.value m.uid (some i.name)) = some x ∧ look D.instances x.inst.toNat = some y ∧
      nameOf D y.external = some (trimNul i.name) := by
    intro i hin
    obtain ⟨v, x, _, hl, hx⟩ := hD.values m hm (some i.name) (by rw [hs]; exact List.mem_map.2 ⟨i, hin, rfl⟩)
    obtain ⟨y, hy1, hy2⟩ := hD.insts d hd i hin
    have h2 := hx.2.1
    rw [hi] at h2
    exact ⟨x, y, hl, by rw [h2]; exact hy1, hy2.2.2.2⟩
  constructor
  · rintro ⟨p, hp, ha, y, hy, hn⟩
    obtain ⟨s, h3, h4, h5⟩ := (values_of hD hm p).1 ⟨hp, ha⟩
    rw [hs] at h3
    obtain ⟨i, hin, rfl⟩ := List.mem_map.1 h3
    obtain ⟨x, y', e1, e2, e3⟩ := key i hin
    rw [e1] at h5
    obtain rfl := Option.some.inj h5
    rw [e2] at hy
    obtain rfl := Option.some.inj hy
    rw [e3] at hn
    rw [← Option.some.inj hn]
    exact List.mem_map_of_mem (List.mem_map_of_mem hin)
  · intro hn
    obtain ⟨n', hn', rfl⟩ := List.mem_map.1 hn
    obtain ⟨i, hin, rfl⟩ := List.mem_map.1 hn'
    obtain ⟨x, y, e1, e2, e3⟩ := key i hin
    obtain ⟨h1, h2⟩ := (values_of hD hm (A.value m.uid (some i.name), x)).2
      ⟨some i.name, by rw [hs]; exact List.mem_map.2 ⟨i, hin, rfl⟩, rfl, e1⟩
    exact ⟨_, h1, h2, y, e2, e3⟩

end

/-- **C93**: in the file of a running client every metric has a record under its name with the type, the semantics, the unit
and the domain that the documentation gives for its kind, with one value if it has no domain, and for a histogram with a
value for each of the five statistics. -/
theorem C93_file {e o w} (h : Active e o w) {m : Metric} (hm : m ∈ w.reg.metrics) {D : Result} (hd : Dumps w.mem (.ok D)) :
    ∃ a x, look D.metrics a = some x ∧ nameOf D x.name = some (trimNul m.desc.name) ∧ Documented D m.desc.name a x m.kind := by
  obtain ⟨D', A, he, hD, _⟩ := (C05_file_follows_partial h).2 _ hd
  cases he
  obtain ⟨σ, hl, _⟩ := h.liveAt
  obtain ⟨x, hx, hs⟩ := hD.metrics m hm
  have hdoc := h.all MadeMetric.docOK inst_docOK docOK_shape m hm
  obtain ⟨s1, s2, s3, s4, s5, s6, _⟩ := hs
  refine ⟨_, x, hx, s1, ?_⟩
  unfold DocOK at hdoc
  cases hk : m.kind <;> rw [hk] at hdoc <;> dsimp only at hdoc <;> unfold Documented <;> dsimp only
  · exact ⟨by rw [s6, hdoc], one_value hD hm hdoc⟩
  · obtain ⟨a1, a2, a3, a4⟩ := hdoc
    exact ⟨s3.trans a1, s4.trans a2, s5.trans a3, by rw [s6, a4], one_value hD hm a4⟩
  · obtain ⟨a1, a2, a3, a4⟩ := hdoc
    exact ⟨s3.trans a1, s4.trans a2, s5.trans a3, by rw [s6, a4], one_value hD hm a4⟩
  · obtain ⟨a1, a2, a4⟩ := hdoc
    exact ⟨s3.trans a1, s4.trans a2, by rw [s6, a4], one_value hD hm a4⟩
  · obtain ⟨a1, a2, a3, d, a4, a5⟩ := hdoc
    exact ⟨s3.trans a1, s4.trans a2, s5.trans a3, by rw [s6, a4]; exact a5⟩
  · obtain ⟨a1, a2, a3, d, a4, a5⟩ := hdoc
    exact ⟨s3.trans a1, s4.trans a2, s5.trans a3, by rw [s6, a4]; exact a5⟩
  · obtain ⟨a1, a2, d, a4, a5, a6⟩ := hdoc
    refine ⟨s3.trans a1, s4.trans a2, by rw [s6, a4]; exact a5, fun n => ?_⟩
    rw [has_inst hD hm a4 (hl.ok.registered m hm d a4)]
    constructor
    · intro hn
      obtain ⟨n', hn', rfl⟩ := List.mem_map.1 hn
      have h5 := (a6 n').1 hn'
      have ht : ∀ y ∈ [b!"min", b!"max", b!"mean", b!"variance", b!"standard_deviation"], trimNul y = y := by decide
      rw [ht _ h5]; exact h5
    · intro hn
      have ht : ∀ y ∈ [b!"min", b!"max", b!"mean", b!"variance", b!"standard_deviation"], trimNul y = y := by decide
      exact List.mem_map.2 ⟨n, (a6 n).2 hn, ht n hn⟩

/-- **C93**, instance metrics: the metric has values for exactly the instances of its domain. -/
theorem C93_instances {e o w} (h : Active e o w) {m : Metric} (hm : m ∈ w.reg.metrics) {d : Indom} (hi : m.indom = some d)
    {D : Result} (hd : Dumps w.mem (.ok D)) :
    ∃ a x, look D.metrics a = some x ∧ nameOf D x.name = some (trimNul m.desc.name) ∧ x.indom = d.id ∧
      ∀ n, HasInst D a n ↔ ∃ i ∈ d.insts, trimNul i.name = n := by
  obtain ⟨D', A, he, hD, _⟩ := (C05_file_follows_partial h).2 _ hd
  cases he
  obtain ⟨σ, hl, _⟩ := h.liveAt
  obtain ⟨x, hx, s1, _, _, _, _, s6, _⟩ := hD.metrics m hm
  refine ⟨_, x, hx, s1, by rw [s6, hi], fun n => ?_⟩
  rw [has_inst hD hm hi (hl.ok.registered m hm d hi)]
  simp only [List.map_map, List.mem_map, Function.comp]

/-- The gauge vector "d" of the sample has values for "a" and "b" and no others. -/
example : ∃ s D, Started sampleReg ⟨2, 77, 12345, 42⟩ (idOrd sampleReg) s ∧ Dumps s.mem (.ok D) ∧
    ∃ a x, look D.metrics a = some x ∧ nameOf D x.name = some sD ∧ HasInst D a sA ∧ HasInst D a sB ∧ ¬ HasInst D a sC := by
  obtain ⟨s, D, hs, hd⟩ := sample_dumped
  obtain ⟨m, hm, hn, d, hi, hall⟩ : ∃ m ∈ sampleReg.metrics, m.desc.name = sD ∧ ∃ d, m.indom = some d ∧
      d.insts.map (fun i => trimNul i.name) = [sA, sB] := by
    obtain ⟨m, hm, hn, hi⟩ : ∃ m ∈ sampleReg.metrics, m.desc.name = sD ∧
        m.indom.map (fun d => d.insts.map (fun i => trimNul i.name)) = some [sA, sB] := by decide
    obtain ⟨d, h1, h2⟩ := Option.map_eq_some_iff.1 hi
    exact ⟨m, hm, hn, d, h1, h2⟩
  obtain ⟨a, x, h1, h2, _, h4⟩ := C93_instances (.start hs) hm hi hd
  have h5 : ∀ n, HasInst D a n ↔ n ∈ [sA, sB] := by
    intro n
    rw [h4 n, ← hall, List.mem_map]
  rw [hn] at h2
  exact ⟨s, D, hs, hd, a, x, h1, h2, (h5 _).2 (by decide), (h5 _).2 (by decide), fun h => absurd ((h5 _).1 h) (by decide)⟩

/-- Any library state will do for the examples. -/
def docHdr : Hdr := ⟨Unit, fun _ _ _ => (), fun _ _ _ => none, fun _ => 0, fun _ => 0, fun _ => 0, fun _ => 0, fun _ => 0, fun _ => 0⟩

/-- A histogram, a counter vector and a timer. -/
def docOps : List HOp :=
  opsOf ((newPCPHistogram docHdr 1 11 sC 0 1000 5 OneUnit []).map (·.1)) ++
  opsOf (newPCPCounterVector 2 12 [(sA, 0), (sB, 1)] sD []) ++
  opsOf (newPCPTimer 3 sS 0 [])

def docReg : Reg := runHist (fun _ => none) Reg.empty docOps

theorem docReg_built : Built docReg := by
  refine ⟨_, docOps, ?_, rfl⟩
  intro op hop
  simp only [docOps, List.mem_append, or_assoc] at hop
  rcases hop with h | h | h
  · refine opsOf_made (fun x h => ?_) op h
    obtain ⟨⟨m, l⟩, h1, rfl⟩ := Option.map_eq_some_iff.1 h
    exact .histogram h1
  · exact opsOf_made (fun _ h => .counterVector h) op h
  · exact opsOf_made (fun _ h => .timer h) op h

/-- The file of a client with a histogram: one metric of doubles under the name "c", with the values of the five statistics;
and its counter vector "d" has the domain of "d.indom". -/
example : ∃ e o w D, Active e o w ∧ Dumps w.mem (.ok D) ∧
    (∃ a x, look D.metrics a = some x ∧ nameOf D x.name = some sC ∧ x.typ = 5 ∧ HasInst D a b!"mean" ∧ ¬ HasInst D a b!"median") ∧
    (∃ a x, look D.metrics a = some x ∧ nameOf D x.name = some sD ∧ x.typ = 2 ∧ x.indom = hash b!"d.indom" 22) ∧
    ∃ a x, look D.metrics a = some x ∧ nameOf D x.name = some sS ∧ x.sem = 4 ∧ OneValue D a := by
  obtain ⟨s, hs⟩ := started_exists docReg_built (publishable_of (by decide)) (by constructor <;> decide) (idOrd_ok _) ⟨2, 77, 12345, 42⟩
  have ha := Active.start hs
  obtain ⟨⟨out, hd⟩, hall⟩ := C05_file_follows_partial ha
  obtain ⟨D, A, rfl, _⟩ := hall out hd
  obtain ⟨m1, h1, k1, n1⟩ : ∃ m ∈ docReg.metrics, m.kind = .histogram ∧ m.desc.name = sC := by decide
  obtain ⟨m2, h2, k2, n2⟩ : ∃ m ∈ docReg.metrics, m.kind = .counterVector ∧ m.desc.name = sD := by decide
  obtain ⟨m3, h3, k3, n3⟩ : ∃ m ∈ docReg.metrics, m.kind = .timer ∧ m.desc.name = sS := by decide
  obtain ⟨a1, x1, l1, t1, d1⟩ := C93_file ha h1 hd
  obtain ⟨a2, x2, l2, t2, d2⟩ := C93_file ha h2 hd
  obtain ⟨a3, x3, l3, t3, d3⟩ := C93_file ha h3 hd
  rw [k1] at d1
  rw [k2] at d2
  rw [k3] at d3
  rw [n1] at t1
  rw [n2] at t2 d2
  rw [n3] at t3
  exact ⟨_, _, _, D, ha, hd, ⟨a1, x1, l1, t1, d1.1, (d1.2.2.2 _).2 (by decide), fun h => absurd ((d1.2.2.2 _).1 h) (by decide)⟩,
    ⟨a2, x2, l2, t2, d2.1, d2.2.2.2⟩, a3, x3, l3, t3, d3.2.1, d3.2.2.2⟩

/-- What a "c" made by each of four constructors is. -/
example : ((newPCPCounter 1 5 sC []).map fun m => (m.desc.t, m.desc.sem, m.desc.unit)) = some (2, 1, 0x00100000) ∧
    ((newPCPGauge 1 0 sC []).map fun m => (m.desc.t, m.desc.sem, m.desc.unit)) = some (5, 3, 0x00100000) ∧
    ((newPCPTimer 1 sC 7 []).map fun m => (m.desc.t, m.desc.sem, m.desc.unit)) = some (5, 4, 7) ∧
    ((newPCPGaugeVector 1 2 [(sA, 0)] sC []).map fun m => (m.desc.sem, m.indom.map (·.name))) = some (3, some b!"c.indom") := by decide

end Speed
