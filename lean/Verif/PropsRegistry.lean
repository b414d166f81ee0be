import Verif.Sample
import Verif.Parse
/-
Properties C12, C13, C15, C31: the registry.
-/
namespace Speed

/-! ### C12 -/

/-- Values of a metric: one, or one per instance. -/
def valuesOf (m : Metric) : Nat := match m.body with | .single _ => 1 | .inst d _ => d.insts.length

/-- Some name in the registry is longer than 63 bytes. -/
def LongName (r : Reg) : Prop :=
  (∃ m ∈ r.metrics, m.desc.name.length > 63) ∨ ∃ d ∈ r.indoms, ∃ i ∈ d.insts, i.name.length > 63

/-- Strings of the registry besides names: descriptions and string values. -/
def textsOf (r : Reg) : Nat :=
  ((r.indoms.flatMap fun d => [d.short, d.long]).filter (· ≠ [])).length +
  ((r.metrics.flatMap fun m => [m.desc.short, m.desc.long]).filter (· ≠ [])).length +
  ((r.metrics.filter fun m => m.desc.t = StringType).map valuesOf).sum

theorem slotNames_valuesOf (m : Metric) : m.slotNames.length = valuesOf m := by
  unfold Metric.slotNames valuesOf; cases m.body <;> simp

/-- **C12.** After any history of calls the counts are those of the contents. -/
theorem C12_counts {r : Reg} (hb : Built r) :
    r.MetricCount = r.metrics.length ∧ r.InstanceDomainCount = r.indoms.length ∧
    r.ValuesCount = (r.metrics.map valuesOf).sum ∧
    r.InstanceCount = (r.indoms.map fun d => d.insts.length).sum ∧
    (LongName r → r.StringCount = textsOf r + r.metrics.length + (r.indoms.map fun d => d.insts.length).sum) ∧
    (¬ LongName r → r.StringCount = textsOf r) := by
  have h := hb.inv.counts
  have hf : (fun m : Metric => m.slotNames.length) = valuesOf := funext slotNames_valuesOf
  have hs : r.stringcount = textsOf r := by
    rw [h.strings, hf]; rfl
  refine ⟨rfl, rfl, by rw [← hf]; exact h.values, h.insts, fun hl => ?_, fun hl => ?_⟩
  · have := h.version.2 hl
    unfold Reg.StringCount
    rw [if_pos this, hs]
    show textsOf r + r.metrics.length + r.instanceCount = _
    rw [h.insts]
  · have : ¬ r.version2 = true := fun hv => hl (h.version.1 hv)
    unfold Reg.StringCount
    rw [if_neg this, hs]

example : sampleReg2.ValuesCount = 5 ∧ textsOf sampleReg2 = 4 ∧ sampleReg2.StringCount = 10 := by decide
example : LongName sampleReg2 := .inl (by decide)

/-! ### C13 -/

abbrev Parser := Str → Option (Str × Str × Option (List Str))

/-- The metric name a call tries to register. -/
def ROp.metricName (parse : Parser) : ROp → Option Str
  | .addMetric m => some m.desc.name
  | .byString _ _ str _ _ _ _ => (parse str).map (·.1)
  | _ => none

/-- The domain name a call tries to register or to use. -/
def ROp.indomName (parse : Parser) : ROp → Option Str
  | .addIndom d => some d.name
  | .byName _ n _ => some n
  | .addMetric m => m.indom.map (·.name)
  | .byString _ _ str _ _ _ _ => (parse str).bind fun p => p.2.2.map fun _ => p.2.1
  | .mapped _ => none

/-- Effect of one registry call on metrics and domains. -/
structure Effect (r : Reg) (res : RRes) (mn dn : Option Str) : Prop where
  okM : res.ok = true → ∀ n, mn = some n →
    (∀ m ∈ r.metrics, m.desc.name ≠ n) ∧ ∃ m, m.desc.name = n ∧ res.reg.metrics = r.metrics ++ [m]
  noM : res.ok = false ∨ mn = none → res.reg.metrics = r.metrics
  okD : res.ok = true → ∀ n, dn = some n → ∃ d ∈ res.reg.indoms, d.name = n
  addD : res.reg.indoms = r.indoms ∨ ∃ d, dn = some d.name ∧ (∀ d' ∈ r.indoms, d'.name ≠ d.name) ∧
    res.reg.indoms = r.indoms ++ [d]

theorem addIndom_some {r r' : Reg} {d : Indom} (h : r.addIndom d = some r') :
    r.hasIndom d.name = false ∧ r.mapped = false ∧ r'.indoms = r.indoms ++ [d] ∧ r'.metrics = r.metrics ∧
      r'.mapped = r.mapped := by
  unfold Reg.addIndom at h
  split at h
  · cases h
  · split at h
    · cases h
    · obtain rfl := Option.some.inj h
      rename_i h1 h2
      exact ⟨by simpa using h1, by simpa using h2, rfl, rfl, rfl⟩

theorem not_hasIndom {r : Reg} {n : Str} (h : r.hasIndom n = false) : ∀ d ∈ r.indoms, d.name ≠ n := by
  intro d hd he
  have : r.hasIndom n = true := hasIndom_iff.2 ⟨d, hd, he⟩
  rw [h] at this; cases this

theorem not_hasMetric {r : Reg} {n : Str} (h : r.hasMetric n = false) : ∀ m ∈ r.metrics, m.desc.name ≠ n := by
  intro m hm he
  have : r.hasMetric n = true := hasMetric_iff.2 ⟨m, hm, he⟩
  rw [h] at this; cases this

theorem addMetric_effect (r : Reg) (m : Metric) :
    Effect r (r.addMetric m) (some m.desc.name) (m.indom.map (·.name)) ∧
    ((r.addMetric m).ok = false → (r.addMetric m).reg = r) := by
  unfold Reg.addMetric
  split
  · exact ⟨⟨(by intro h; cases h), fun _ => rfl, (by intro h; cases h), .inl rfl⟩, fun _ => rfl⟩
  split
  · exact ⟨⟨(by intro h; cases h), fun _ => rfl, (by intro h; cases h), .inl rfl⟩, fun _ => rfl⟩
  rename_i hm
  have hm' := not_hasMetric (by simpa using hm)
  cases hd : m.indom with
  | none =>
    refine ⟨⟨?_, ?_, ?_, .inl rfl⟩, by intro h; cases h⟩
    · rintro _ n ⟨⟩; exact ⟨hm', m, rfl, rfl⟩
    · rintro (h | h) <;> cases h
    · rintro _ n ⟨⟩
  | some d =>
    dsimp only
    split
    · rename_i hi
      refine ⟨⟨?_, ?_, ?_, .inl rfl⟩, by intro h; cases h⟩
      · rintro _ n ⟨⟩; exact ⟨hm', m, rfl, rfl⟩
      · rintro (h | h) <;> cases h
      · rintro _ n ⟨⟩; exact hasIndom_iff.1 hi
    · cases ha : r.addIndom d with
      | none => exact ⟨⟨(by intro h; cases h), fun _ => rfl, (by intro h; cases h), .inl rfl⟩, fun _ => rfl⟩
      | some r' =>
        obtain ⟨h1, h2, h3, h4, h5⟩ := addIndom_some ha
        refine ⟨⟨?_, ?_, ?_, .inr ⟨d, rfl, not_hasIndom h1, h3⟩⟩, by intro h; cases h⟩
        · rintro _ n ⟨⟩
          exact ⟨hm', m, rfl, by show r'.metrics ++ [m] = _; rw [h4]⟩
        · rintro (h | h) <;> cases h
        · rintro _ n ⟨⟩
          exact ⟨d, by show d ∈ r'.indoms; rw [h3]; simp, rfl⟩

theorem addIndomByName_some {r r' : Reg} {uid name insts d} (h : r.addIndomByName uid name insts = some (r', d)) :
    d.name = name ∧ newIndom uid name insts [] = some d ∧ r.addIndom d = some r' := by
  unfold Reg.addIndomByName at h
  split at h
  · cases h
  · split at h
    · cases h
    · rename_i d' hd
      split at h
      · cases h
      · rename_i r'' hr
        obtain ⟨rfl, rfl⟩ := Prod.mk.inj (Option.some.inj h)
        exact ⟨(newIndom_wf hd).2.2.1, hd, hr⟩

theorem singleMetric_name {uid v name t s u m} (h : newPCPSingletonMetric uid v name t s u [] = some m) :
    m.desc.name = name ∧ m.indom = none := by
  obtain ⟨_, _, _, h1, _, _, _, _, h2, _⟩ := newSingle_wf (.inl rfl) h
  exact ⟨h1, by unfold Metric.indom; rw [h2]⟩

theorem instMetric_name {uid vals name d t s u m} (h : newPCPInstanceMetric uid vals name d t s u [] = some m) :
    m.desc.name = name ∧ m.indom = some d := by
  unfold newPCPInstanceMetric at h
  cases hd : newDesc name t s u [] with
  | none => rw [hd] at h; cases h
  | some dd =>
    rw [hd] at h
    have := newDesc_some hd
    simp only [Option.bind_some, newInstMetric] at h
    split at h
    · cases h
    · split at h
      · cases h
      · obtain rfl := Option.some.inj h
        exact ⟨this.1, rfl⟩

/-- The domain that `RegisterString` adds when it names a new one. -/
def NewDomain (r r' : Reg) (name : Str) (d : Indom) : Prop :=
  d.name = name ∧ (∀ d' ∈ r.indoms, d'.name ≠ name) ∧ r.addIndom d = some r'

theorem Effect.fail {r : Reg} {mn dn} : Effect r ⟨r, false⟩ mn dn :=
  ⟨(by intro h; cases h), fun _ => rfl, (by intro h; cases h), .inl rfl⟩

theorem byString_inst_effect (r : Reg) (uid duid name val indom instances t s u) :
    Effect r (r.addInstanceByString uid duid name val indom instances t s u) (some name) (some indom) ∧
    ((r.addInstanceByString uid duid name val indom instances t s u).ok = false →
      (r.addInstanceByString uid duid name val indom instances t s u).reg = r ∨
      ∃ d, NewDomain r (r.addInstanceByString uid duid name val indom instances t s u).reg indom d) := by
  unfold Reg.addInstanceByString
  cases val with
  | plain v => exact ⟨.fail, fun _ => .inl rfl⟩
  | insts mp =>
    dsimp only
    cases hf : r.indoms.find? (fun d => d.name = indom) with
    | none =>
      dsimp only
      cases ha : r.addIndomByName duid indom instances with
      | none => exact ⟨.fail, fun _ => .inl rfl⟩
      | some p =>
        obtain ⟨r', d⟩ := p
        obtain ⟨h1, h2, h3⟩ := addIndomByName_some ha
        obtain ⟨k1, k2, k3, k4, k5⟩ := addIndom_some h3
        rw [h1] at k1
        have hnew : NewDomain r r' indom d := ⟨h1, not_hasIndom k1, h3⟩
        dsimp only
        cases hm : newPCPInstanceMetric uid mp name d t s u [] with
        | none =>
          refine ⟨⟨(by intro h; cases h), fun _ => k4, (by intro h; cases h), .inr ⟨d, by rw [h1], ?_, k3⟩⟩,
            fun _ => .inr ⟨d, hnew⟩⟩
          rw [h1]; exact hnew.2.1
        | some m =>
          obtain ⟨e1, e2⟩ := instMetric_name hm
          obtain ⟨g, gf⟩ := addMetric_effect r' m
          have hd' : r'.hasIndom d.name = true := hasIndom_iff.2 ⟨d, by rw [k3]; simp, rfl⟩
          have hsame : (r'.addMetric m).reg.indoms = r'.indoms := by
            rcases g.addD with h | ⟨d2, h4, h5, _⟩
            · exact h
            · rw [e2] at h4
              have : d.name = d2.name := Option.some.inj h4
              rw [← this] at h5
              exact absurd rfl (h5 d (by rw [k3]; simp))
          dsimp only
          refine ⟨⟨?_, ?_, ?_, .inr ⟨d, by rw [h1], ?_, by rw [hsame, k3]⟩⟩, ?_⟩
          · rintro hok n ⟨⟩
            obtain ⟨h4, m', h5, h6⟩ := g.okM hok name (by rw [e1])
            rw [k4] at h4 h6
            exact ⟨h4, m', h5, h6⟩
          · rintro (h | h)
            · rw [gf h]; exact k4
            · cases h
          · rintro hok n ⟨⟩
            exact ⟨d, by rw [hsame, k3]; simp, h1⟩
          · rw [h1]; exact hnew.2.1
          · intro h
            rw [gf h]
            exact .inr ⟨d, hnew⟩
    | some d =>
      have hdn : d.name = indom := by simpa using List.find?_some hf
      have hdm : d ∈ r.indoms := List.mem_of_find?_eq_some hf
      dsimp only
      split
      · cases hm : newPCPInstanceMetric uid mp name d t s u [] with
        | none => exact ⟨.fail, fun _ => .inl rfl⟩
        | some m =>
          obtain ⟨e1, e2⟩ := instMetric_name hm
          obtain ⟨g, gf⟩ := addMetric_effect r m
          rw [e1, e2] at g
          have hdn' : (some d).map (·.name) = some indom := by rw [← hdn]; rfl
          rw [hdn'] at g
          exact ⟨g, fun h => .inl (gf h)⟩
      · exact ⟨.fail, fun _ => .inl rfl⟩

theorem byString_effect (parse : Parser) (r : Reg) (uid duid str val t s u) :
    Effect r (r.addMetricByString parse uid duid str val t s u)
      (ROp.metricName parse (.byString uid duid str val t s u)) (ROp.indomName parse (.byString uid duid str val t s u)) ∧
    ((r.addMetricByString parse uid duid str val t s u).ok = false →
      (r.addMetricByString parse uid duid str val t s u).reg = r ∨
      ∃ n d, ROp.indomName parse (.byString uid duid str val t s u) = some n ∧
        NewDomain r (r.addMetricByString parse uid duid str val t s u).reg n d) := by
  unfold Reg.addMetricByString ROp.metricName ROp.indomName
  dsimp only
  cases hp : parse str with
  | none => exact ⟨.fail, fun _ => .inl rfl⟩
  | some p =>
    obtain ⟨metric, indom, insts⟩ := p
    cases insts with
    | none =>
      simp only [Option.map_some, Option.bind_some, Option.map_none]
      unfold Reg.addSingletonByString
      cases hm : newPCPSingletonMetric uid (match val with | .plain v => v | .insts _ => .other) metric t s u [] with
      | none => exact ⟨.fail, fun _ => .inl rfl⟩
      | some m =>
        obtain ⟨e1, e2⟩ := singleMetric_name hm
        obtain ⟨g, gf⟩ := addMetric_effect r m
        rw [e1, e2] at g
        exact ⟨g, fun h => .inl (gf h)⟩
    | some l =>
      simp only [Option.map_some, Option.bind_some]
      obtain ⟨g, gf⟩ := byString_inst_effect r uid duid metric val indom l t s u
      refine ⟨g, fun h => ?_⟩
      rcases gf h with h | ⟨d, h⟩
      · exact .inl h
      · exact .inr ⟨indom, d, rfl, h⟩

/-- Every call's effect. -/
theorem effect (parse : Parser) (r : Reg) (op : ROp) :
    Effect r (op.apply parse r) (op.metricName parse) (op.indomName parse) := by
  cases op with
  | addIndom d =>
    unfold ROp.apply
    dsimp only
    cases ha : r.addIndom d with
    | none => exact .fail
    | some r' =>
      obtain ⟨h1, h2, h3, h4, h5⟩ := addIndom_some ha
      refine ⟨?_, fun _ => h4, ?_, .inr ⟨d, rfl, not_hasIndom h1, h3⟩⟩
      · rintro _ n ⟨⟩
      · rintro _ n ⟨⟩; exact ⟨d, by rw [h3]; simp, rfl⟩
  | addMetric m => exact (addMetric_effect r m).1
  | byName uid name insts =>
    unfold ROp.apply
    dsimp only
    cases ha : r.addIndomByName uid name insts with
    | none => exact .fail
    | some p =>
      obtain ⟨r', d⟩ := p
      obtain ⟨e1, _, e3⟩ := addIndomByName_some ha
      obtain ⟨h1, h2, h3, h4, h5⟩ := addIndom_some e3
      refine ⟨?_, fun _ => h4, ?_, .inr ⟨d, by rw [e1]; rfl, not_hasIndom h1, h3⟩⟩
      · rintro _ n ⟨⟩
      · rintro _ n ⟨⟩; exact ⟨d, by rw [h3]; simp, e1⟩
  | byString uid duid str val t s u => exact (byString_effect parse r uid duid str val t s u).1
  | mapped b =>
    refine ⟨?_, fun _ => rfl, ?_, .inl rfl⟩
    · rintro _ n ⟨⟩
    · rintro _ n ⟨⟩

/-- **C13**, one call: a successful call adds exactly one metric, of the given name, which was not there; any other
call leaves the metrics alone. -/
theorem C13_metric_call (parse : Parser) (r : Reg) (op : ROp) :
    ((op.apply parse r).ok = true → ∀ n, op.metricName parse = some n →
      r.hasMetric n = false ∧ ∃ m, m.desc.name = n ∧ (op.apply parse r).reg.metrics = r.metrics ++ [m]) ∧
    ((op.apply parse r).ok = false ∨ op.metricName parse = none → (op.apply parse r).reg.metrics = r.metrics) := by
  have h := effect parse r op
  refine ⟨fun hok n hn => ?_, h.noM⟩
  obtain ⟨h1, h2⟩ := h.okM hok n hn
  refine ⟨?_, h2⟩
  rw [Bool.eq_false_iff]
  intro ht
  obtain ⟨m, hm, he⟩ := hasMetric_iff.1 ht
  exact h1 m hm he

/-- A counter "c" into the empty registry; the same again fails. -/
example : ((newPCPCounter 1 5 sC []).map fun m =>
    let res := (ROp.addMetric m).apply (fun _ => none) Reg.empty
    (res.ok, res.reg.metrics.map (·.desc.name), ((ROp.addMetric m).apply (fun _ => none) res.reg).ok,
      ((ROp.addMetric m).apply (fun _ => none) res.reg).reg.metrics.map (·.desc.name))) =
    some (true, [sC], false, [sC]) := by decide

/-- A registered name: the call fails; `AddMetric`, `AddInstanceDomain` and `AddInstanceDomainByName` change nothing. -/
theorem C13_duplicate (parse : Parser) (r : Reg) (op : ROp) :
    (∀ n, op.metricName parse = some n → r.hasMetric n = true → (op.apply parse r).ok = false) ∧
    (∀ m, op = .addMetric m → r.hasMetric m.desc.name = true → (op.apply parse r).reg = r) ∧
    (∀ d, op = .addIndom d → r.hasIndom d.name = true → op.apply parse r = ⟨r, false⟩) ∧
    (∀ uid n l, op = .byName uid n l → r.hasIndom n = true → op.apply parse r = ⟨r, false⟩) := by
  refine ⟨?_, ?_, ?_, ?_⟩
  · intro n hn hm
    cases hok : (op.apply parse r).ok with
    | false => rfl
    | true =>
      have := ((C13_metric_call parse r op).1 hok n hn).1
      rw [hm] at this; cases this
  · rintro m rfl hm
    refine (addMetric_effect r m).2 ?_
    cases hok : (r.addMetric m).ok with
    | false => rfl
    | true =>
      have := ((C13_metric_call parse r (.addMetric m)).1 hok _ rfl).1
      rw [hm] at this; cases this
  · rintro d rfl hd
    have : r.addIndom d = none := if_pos hd
    unfold ROp.apply
    dsimp only
    rw [this]
  · rintro uid n l rfl hd
    have : r.addIndomByName uid n l = none := if_pos hd
    unfold ROp.apply
    dsimp only
    rw [this]

/-- "c" is a metric of the sample registry: another metric, a counter "c", is refused; so is a second domain "d.indom". -/
example : ((newPCPCounter 9 6 sC []).map fun m =>
      (((ROp.addMetric m).apply (fun _ => none) sampleReg).ok,
        ((ROp.addMetric m).apply (fun _ => none) sampleReg).reg.metrics.map (·.uid))) = some (false, [1, 2, 3]) ∧
    ((ROp.byName 9 (sD ++ dotIndom) [sA]).apply (fun _ => none) sampleReg).ok = false ∧
    ((ROp.byName 9 sD [sA]).apply (fun _ => none) sampleReg).ok = true := by decide

/-- A history step registered metric `n`. -/
def RegisteredMetric (parse : Parser) (ops : List HOp) (n : Str) : Prop :=
  ∃ pre op post, ops = pre ++ .reg op :: post ∧ op.metricName parse = some n ∧
    (op.apply parse (runHist parse Reg.empty pre)).ok = true

/-- A history step registered domain `n` (by itself or with a metric). -/
def RegisteredIndom (parse : Parser) (ops : List HOp) (n : Str) : Prop :=
  ∃ pre op post, ops = pre ++ .reg op :: post ∧ op.indomName parse = some n ∧
    (op.apply parse (runHist parse Reg.empty pre)).ok = true

theorem runHist_snoc (parse : Parser) (r : Reg) (ops : List HOp) (op : HOp) :
    runHist parse r (ops ++ [op]) = op.apply parse (runHist parse r ops) := by
  unfold runHist; rw [List.foldl_append]; rfl

theorem registeredMetric_snoc {parse : Parser} {ops : List HOp} {op : HOp} {n : Str} :
    RegisteredMetric parse (ops ++ [op]) n ↔ RegisteredMetric parse ops n ∨
      ∃ o, op = .reg o ∧ o.metricName parse = some n ∧ (o.apply parse (runHist parse Reg.empty ops)).ok = true := by
  constructor
  · rintro ⟨pre, o, post, h1, h2, h3⟩
    rcases List.eq_nil_or_concat post with rfl | ⟨post', x, rfl⟩
    · have := List.append_inj' h1 rfl
      obtain ⟨rfl, h4⟩ := this
      simp at h4
      exact .inr ⟨o, h4, h2, h3⟩
    · rw [List.concat_eq_append, ← List.cons_append, ← List.append_assoc] at h1
      obtain ⟨h4, _⟩ := List.append_inj' h1 rfl
      exact .inl ⟨pre, o, post', h4, h2, h3⟩
  · rintro (⟨pre, o, post, h1, h2, h3⟩ | ⟨o, rfl, h2, h3⟩)
    · exact ⟨pre, o, post ++ [op], by rw [h1]; simp, h2, h3⟩
    · exact ⟨ops, o, [], rfl, h2, h3⟩

theorem registeredIndom_snoc {parse : Parser} {ops : List HOp} {op : HOp} {n : Str} :
    RegisteredIndom parse (ops ++ [op]) n ↔ RegisteredIndom parse ops n ∨
      ∃ o, op = .reg o ∧ o.indomName parse = some n ∧ (o.apply parse (runHist parse Reg.empty ops)).ok = true := by
  constructor
  · rintro ⟨pre, o, post, h1, h2, h3⟩
    rcases List.eq_nil_or_concat post with rfl | ⟨post', x, rfl⟩
    · have := List.append_inj' h1 rfl
      obtain ⟨rfl, h4⟩ := this
      simp at h4
      exact .inr ⟨o, h4, h2, h3⟩
    · rw [List.concat_eq_append, ← List.cons_append, ← List.append_assoc] at h1
      obtain ⟨h4, _⟩ := List.append_inj' h1 rfl
      exact .inl ⟨pre, o, post', h4, h2, h3⟩
  · rintro (⟨pre, o, post, h1, h2, h3⟩ | ⟨o, rfl, h2, h3⟩)
    · exact ⟨pre, o, post ++ [op], by rw [h1]; simp, h2, h3⟩
    · exact ⟨ops, o, [], rfl, h2, h3⟩

/-- **C13**, histories: `HasMetric` tells exactly whether a call registered the name. -/
theorem C13_hasMetric (parse : Parser) (ops : List HOp) (n : Str) :
    (runHist parse Reg.empty ops).hasMetric n = true ↔ RegisteredMetric parse ops n := by
  induction ops using List.reverseRecOn with
  | nil =>
    constructor
    · intro h; obtain ⟨m, hm, _⟩ := hasMetric_iff.1 h; cases hm
    · rintro ⟨pre, o, post, h, _⟩; simp at h
  | append_singleton ops op ih =>
    rw [registeredMetric_snoc, ← ih, runHist_snoc]
    generalize runHist parse Reg.empty ops = r
    cases op with
    | set name s v =>
      constructor
      · intro h
        left
        rw [hasMetric_iff] at *
        obtain ⟨m, hm, he⟩ := h
        unfold HOp.apply Reg.update at hm
        obtain ⟨m', h1, rfl⟩ := List.mem_map.1 hm
        refine ⟨m', h1, ?_⟩
        rw [← he]
        split
        · rw [update_desc]
        · rfl
      · rintro (h | ⟨o, h, _⟩)
        · rw [hasMetric_iff] at *
          obtain ⟨m, hm, he⟩ := h
          refine ⟨_, List.mem_map.2 ⟨m, hm, rfl⟩, ?_⟩
          split
          · rw [update_desc]; exact he
          · exact he
        · cases h
    | reg o =>
      have he := effect parse r o
      show (o.apply parse r).reg.hasMetric n = true ↔ _
      by_cases hreg : ∃ k, o.metricName parse = some k ∧ (o.apply parse r).ok = true
      · obtain ⟨k, hk, hok⟩ := hreg
        obtain ⟨h1, m, h2, h3⟩ := he.okM hok k hk
        rw [hasMetric_iff, hasMetric_iff, h3]
        constructor
        · rintro ⟨m', hm', e⟩
          rcases List.mem_append.1 hm' with h | h
          · exact .inl ⟨m', h, e⟩
          · rw [List.mem_singleton] at h; subst h
            exact .inr ⟨o, rfl, by rw [hk, ← h2, e], hok⟩
        · rintro (⟨m', h, e⟩ | ⟨o', h, hn, _⟩)
          · exact ⟨m', by simp [h], e⟩
          · cases h
            rw [hk] at hn
            exact ⟨m, by simp, by rw [h2]; exact Option.some.inj hn⟩
      · have hno : (o.apply parse r).ok = false ∨ o.metricName parse = none := by
          cases hok : (o.apply parse r).ok with
          | false => exact .inl rfl
          | true =>
            right
            cases hk : o.metricName parse with
            | none => rfl
            | some k => exact absurd ⟨k, hk, hok⟩ hreg
        rw [hasMetric_iff, he.noM hno, ← hasMetric_iff]
        constructor
        · exact .inl
        · rintro (h | ⟨o', h, hn, hok⟩)
          · exact h
          · cases h; exact absurd ⟨n, hn, hok⟩ hreg

/-- The sample history registered "c", "d" and "s". -/
example : ([sA, sB, sC, sD, sS].map (runHist (fun _ => none) Reg.empty sampleOps).hasMetric) =
    [false, false, true, true, true] := by decide

/-- A failed `RegisterString`. -/
def FailedByString (parse : Parser) (ops : List HOp) : Prop :=
  ∃ pre uid duid str val t s u post, ops = pre ++ .reg (.byString uid duid str val t s u) :: post ∧
    ((ROp.byString uid duid str val t s u).apply parse (runHist parse Reg.empty pre)).ok = false

theorem failed_keeps (parse : Parser) (r : Reg) (o : ROp) (hb : ∀ uid duid str val t s u, o ≠ .byString uid duid str val t s u)
    (h : (o.apply parse r).ok = false) : (o.apply parse r).reg = r := by
  cases o with
  | addIndom d =>
    unfold ROp.apply at *
    dsimp only at *
    cases ha : r.addIndom d with
    | none => rfl
    | some r' => rw [ha] at h; cases h
  | addMetric m => exact (addMetric_effect r m).2 h
  | byName uid name insts =>
    unfold ROp.apply at *
    dsimp only at *
    cases ha : r.addIndomByName uid name insts with
    | none => rfl
    | some p => rw [ha] at h; cases h
  | byString uid duid str val t s u => exact absurd rfl (hb uid duid str val t s u)
  | mapped b => cases h

/-- **C13**, histories without a failed `RegisterString`: `HasInstanceDomain` tells exactly whether a call registered
the name. Missing: `RegisterString` calls that fail, which can leave a domain behind (see `C15_refuted`). -/
theorem C13_hasIndom_partial (parse : Parser) (ops : List HOp) (hf : ¬ FailedByString parse ops) (n : Str) :
    (runHist parse Reg.empty ops).hasIndom n = true ↔ RegisteredIndom parse ops n := by
  induction ops using List.reverseRecOn with
  | nil =>
    constructor
    · intro h; obtain ⟨m, hm, _⟩ := hasIndom_iff.1 h; cases hm
    · rintro ⟨pre, o, post, h, _⟩; simp at h
  | append_singleton ops op ih =>
    have hf' : ¬ FailedByString parse ops := by
      rintro ⟨pre, uid, duid, str, val, t, s, u, post, rfl, h⟩
      exact hf ⟨pre, uid, duid, str, val, t, s, u, post ++ [op], by simp, h⟩
    have hlast : ∀ uid duid str val t s u, op = .reg (.byString uid duid str val t s u) →
        ((ROp.byString uid duid str val t s u).apply parse (runHist parse Reg.empty ops)).ok = true := by
      rintro uid duid str val t s u rfl
      cases hok : ((ROp.byString uid duid str val t s u).apply parse (runHist parse Reg.empty ops)).ok with
      | true => rfl
      | false => exact absurd ⟨ops, uid, duid, str, val, t, s, u, [], rfl, hok⟩ hf
    rw [registeredIndom_snoc, ← ih hf', runHist_snoc]
    generalize runHist parse Reg.empty ops = r at *
    cases op with
    | set name s v =>
      constructor
      · exact .inl
      · rintro (h | ⟨o, h, _⟩)
        · exact h
        · cases h
    | reg o =>
      have he := effect parse r o
      show (o.apply parse r).reg.hasIndom n = true ↔ _
      cases hok : (o.apply parse r).ok with
      | true =>
        constructor
        · intro h
          rcases he.addD with h1 | ⟨d, h1, h2, h3⟩
          · rw [hasIndom_iff, h1, ← hasIndom_iff] at h; exact .inl h
          · rw [hasIndom_iff, h3] at h
            obtain ⟨d', hd', e⟩ := h
            rcases List.mem_append.1 hd' with h | h
            · exact .inl (hasIndom_iff.2 ⟨d', h, e⟩)
            · rw [List.mem_singleton] at h; subst h
              exact .inr ⟨o, rfl, by rw [h1, e], hok⟩
        · rintro (h | ⟨o', h, hn, _⟩)
          · rw [hasIndom_iff] at *
            obtain ⟨d, hd, e⟩ := h
            refine ⟨d, ?_, e⟩
            rcases he.addD with h1 | ⟨_, _, _, h3⟩
            · rw [h1]; exact hd
            · rw [h3]; simp [hd]
          · cases h
            exact hasIndom_iff.2 (he.okD hok n hn)
      | false =>
        have hnb : ∀ uid duid str val t s u, o ≠ .byString uid duid str val t s u := by
          rintro uid duid str val t s u rfl
          have := hlast uid duid str val t s u rfl
          rw [hok] at this; cases this
        rw [failed_keeps parse r o hnb hok]
        constructor
        · exact .inl
        · rintro (h | ⟨o', h, _, h'⟩)
          · exact h
          · cases h; rw [hok] at h'; cases h'

/-- The sample history has no `RegisterString`; it registered the domain of the vector "d". -/
example : ¬ FailedByString (fun _ => none) sampleOps ∧
    (runHist (fun _ => none) Reg.empty sampleOps).hasIndom (sD ++ dotIndom) = true ∧
    (runHist (fun _ => none) Reg.empty sampleOps).hasIndom sD = false := by
  refine ⟨?_, by decide, by decide⟩
  rintro ⟨pre, uid, duid, str, val, t, s, u, post, h, _⟩
  have : HOp.reg (.byString uid duid str val t s u) ∈ sampleOps := by rw [h]; simp
  simp [sampleOps, opsOf] at this

/-! ### C15 -/

/-- **C15**, everything except `RegisterString`: a failed call changes nothing. For `RegisterString` what is missing is
the case that it names a domain the registry does not have: the domain may stay registered. -/
theorem C15_failed_partial (parse : Parser) (r : Reg) (o : ROp) (h : (o.apply parse r).ok = false) :
    ((∀ uid duid str val t s u, o ≠ .byString uid duid str val t s u) → (o.apply parse r).reg = r) ∧
    ((∀ n, o.indomName parse = some n → r.hasIndom n = true) → (o.apply parse r).reg = r) ∧
    ((o.apply parse r).reg = r ∨ ∃ n d, o.indomName parse = some n ∧ r.hasIndom n = false ∧ d.name = n ∧
      r.addIndom d = some (o.apply parse r).reg) := by
  have key : (o.apply parse r).reg = r ∨ ∃ n d, o.indomName parse = some n ∧ r.hasIndom n = false ∧ d.name = n ∧
      r.addIndom d = some (o.apply parse r).reg := by
    by_cases hb : ∀ uid duid str val t s u, o ≠ .byString uid duid str val t s u
    · exact .inl (failed_keeps parse r o hb h)
    · simp only [not_forall, not_not] at hb
      obtain ⟨uid, duid, str, val, t, s, u, rfl⟩ := hb
      rcases (byString_effect parse r uid duid str val t s u).2 h with h | ⟨n, d, h1, h2, h3, h4⟩
      · exact .inl h
      · have := (addIndom_some h4).1
        rw [h2] at this
        exact .inr ⟨n, d, h1, this, h2, h4⟩
  refine ⟨fun hb => failed_keeps parse r o hb h, fun hi => ?_, key⟩
  rcases key with h | ⟨n, d, h1, h2, _⟩
  · exact h
  · rw [hi n h1] at h2; cases h2

/-- `AddInstanceDomainByName` with a name that is too long fails and leaves the registry. -/
example : ((ROp.byName 9 sA [List.replicate 300 0x61]).apply (fun _ => none) sampleReg).ok = false ∧
    ((ROp.byName 9 sA [List.replicate 300 0x61]).apply (fun _ => none) sampleReg).reg.indoms.map (·.name) =
      [sD ++ dotIndom] := by decide +kernel

/-- "c[a]" -/
def strCA : Str := [0x63, 0x5B, 0x61, 0x5D]
/-- `RegisterString("c[a]", Instances{"b": int64(0)}, Int64Type, ...)` -/
def badByString : ROp := .byString 1 2 strCA (.insts [(sB, .int64 0)]) Int64Type CounterSemantics OneUnit

/-- **C15 is false** for `RegisterString`: `RegisterString("c[a]", Instances{"b": 0}, ...)` fails because the values
are for another instance, but the domain "c" stays registered. -/
theorem C15_refuted : (badByString.apply (parseString asciiClass) Reg.empty).ok = false ∧
    (badByString.apply (parseString asciiClass) Reg.empty).reg.hasIndom sC = true ∧
    Reg.empty.hasIndom sC = false := by decide

/-- **C13 is false** in the same place: `HasInstanceDomain("c")` is true though no call succeeded; and registering "c"
again as a domain fails. -/
theorem C13_refuted : (runHist (parseString asciiClass) Reg.empty [.reg badByString]).hasIndom sC = true ∧
    ¬ RegisteredIndom (parseString asciiClass) [.reg badByString] sC := by
  refine ⟨by decide, ?_⟩
  rintro ⟨pre, op, post, h1, h2, h3⟩
  rw [List.singleton_eq_append_iff] at h1
  rcases h1 with ⟨rfl, h⟩ | ⟨_, h⟩
  · obtain ⟨h, _⟩ := List.cons.inj h
    injection h with h
    subst h
    revert h3
    decide
  · cases h

/-- Also for a duplicate metric: with a counter "c" registered, `RegisterString("c[a]", Instances{"a": 0}, ...)` fails
and adds a domain. -/
theorem C13_refuted_duplicate : ∃ r, Built r ∧ r.hasMetric sC = true ∧
    (Reg.addMetricByString (parseString asciiClass) r 7 8 strCA (.insts [(sA, .int64 0)]) Int64Type CounterSemantics
      OneUnit).ok = false ∧
    (Reg.addMetricByString (parseString asciiClass) r 7 8 strCA (.insts [(sA, .int64 0)]) Int64Type CounterSemantics
      OneUnit).reg ≠ r := by
  refine ⟨sampleReg, sampleReg_built, by decide, by decide, ?_⟩
  intro h
  have := congrArg (fun r => r.indoms.length) h
  revert this
  decide

/-- The hypotheses are met by real histories: the sample history has no failed `RegisterString`. -/
example : RegisteredMetric (fun _ => none) sampleOps sC := (C13_hasMetric _ _ _).1 (by decide)

/-! ### C31 -/

/-- **C31**, for lists without repetition: `MatchInstances` is true exactly for the domain's set of instances.
Missing: lists that repeat an instance. -/
theorem C31_match_partial {r : Reg} (hb : Built r) {d : Indom} (hd : d ∈ r.indoms) {ins : List Str} (hn : ins.Nodup) :
    d.matchInstances ins = true ↔ ∀ n, n ∈ ins ↔ ∃ i ∈ d.insts, i.name = n := by
  have hnd := (hb.inv.indoms d hd).nodup
  have hmem : ∀ n, (∃ i ∈ d.insts, i.name = n) ↔ n ∈ d.insts.map (·.name) := by intro n; simp
  simp only [hmem]
  unfold Indom.matchInstances Indom.hasInstance
  simp only [Bool.and_eq_true, decide_eq_true_eq, List.all_eq_true, List.any_eq_true]
  constructor
  · rintro ⟨hl, h⟩ n
    have hsub : ins ⊆ d.insts.map (·.name) := by
      intro n hn'
      obtain ⟨i, hi, he⟩ := h n hn'
      exact List.mem_map.2 ⟨i, hi, he⟩
    have hp : ins.Perm (d.insts.map (·.name)) :=
      (List.subperm_of_subset hn hsub).perm_of_length_le (by rw [List.length_map, hl])
    exact hp.mem_iff
  · intro h
    have hp : ins.Perm (d.insts.map (·.name)) := (List.perm_ext_iff_of_nodup hn hnd).2 h
    refine ⟨by rw [hp.length_eq, List.length_map], fun n hn' => ?_⟩
    obtain ⟨i, hi, he⟩ := List.mem_map.1 ((h n).1 hn')
    exact ⟨i, hi, he⟩

/-- `RegisterString` on an existing domain succeeds only if `MatchInstances` does, and does not add a domain. -/
theorem C31_reuse (parse : Parser) {r : Reg} {uid duid str val t s u metric indom ins}
    (hp : parse str = some (metric, indom, some ins)) {d : Indom} (hd : r.indoms.find? (fun d => d.name = indom) = some d)
    (hok : (r.addMetricByString parse uid duid str val t s u).ok = true) :
    d.matchInstances ins = true ∧ (r.addMetricByString parse uid duid str val t s u).reg.indoms = r.indoms := by
  have hname : d.name = indom := by simpa using List.find?_some hd
  have he := (byString_effect parse r uid duid str val t s u).1
  constructor
  · unfold Reg.addMetricByString Reg.addInstanceByString at hok
    rw [hp] at hok
    dsimp only at hok
    cases val with
    | plain v => cases hok
    | insts mp =>
      rw [hd] at hok
      dsimp only at hok
      cases hm : d.matchInstances ins with
      | true => rfl
      | false => rw [hm] at hok; cases hok
  · rcases he.addD with h | ⟨d', h1, h2, _⟩
    · exact h
    · unfold ROp.indomName at h1
      simp only [hp, Option.bind_some, Option.map_some, Option.some.injEq] at h1
      exact absurd (hname.trans h1) (h2 d (List.mem_of_find?_eq_some hd))

/-- Domain "c" with instances "a" and "b". -/
def abOps : List HOp := (newIndom 1 sC [sA, sB] []).toList.map (fun d => .reg (.addIndom d))
def abReg : Reg := runHist (fun _ => none) Reg.empty abOps

theorem abReg_built : Built abReg := by
  refine ⟨_, abOps, ?_, rfl⟩
  intro op hop
  unfold abOps at hop
  cases h : newIndom 1 sC [sA, sB] [] with
  | none => rw [h] at hop; cases hop
  | some d =>
    rw [h] at hop
    simp at hop
    subst hop
    exact ⟨_, _, _, _, h⟩

/-- `C31_match_partial`: the domain's instances in another order, one of them, and another name. -/
example : (abReg.indoms.map fun d => (d.matchInstances [sB, sA], d.matchInstances [sA], d.matchInstances [sA, sD])) =
    [(true, false, false)] := by decide

/-- `C31_reuse`: "c[b, a].d" uses the domain "c"; "c[a].d" is refused. -/
example : (parseString asciiClass [0x63, 0x5B, 0x62, 0x2C, 0x20, 0x61, 0x5D, 0x2E, 0x64]).bind (·.2.2) = some [sB, sA] ∧
    (abReg.addMetricByString (parseString asciiClass) 7 8 [0x63, 0x5B, 0x62, 0x2C, 0x20, 0x61, 0x5D, 0x2E, 0x64]
      (.insts [(sA, .int64 0), (sB, .int64 0)]) Int64Type CounterSemantics OneUnit).ok = true ∧
    (abReg.addMetricByString (parseString asciiClass) 7 8 [0x63, 0x5B, 0x62, 0x2C, 0x20, 0x61, 0x5D, 0x2E, 0x64]
      (.insts [(sA, .int64 0), (sB, .int64 0)]) Int64Type CounterSemantics OneUnit).reg.indoms.map (·.uid) = [1] ∧
    (abReg.addMetricByString (parseString asciiClass) 7 8 [0x63, 0x5B, 0x61, 0x5D, 0x2E, 0x64]
      (.insts [(sA, .int64 0), (sB, .int64 0)]) Int64Type CounterSemantics OneUnit).ok = false := by decide

/-- "c[a, a].d" -/
def strCAA : Str := [0x63, 0x5B, 0x61, 0x2C, 0x20, 0x61, 0x5D, 0x2E, 0x64]

/-- **C31 is false.** With the domain "c" = {a, b}, `RegisterString("c[a, a].d", Instances{"a": 0, "b": 0}, ...)`
succeeds though the listed instances are not the domain's. -/
theorem C31_refuted : Built abReg ∧
    (parseString asciiClass strCAA).bind (·.2.2) = some [sA, sA] ∧
    (∃ d ∈ abReg.indoms, d.name = sC ∧ d.insts.map (·.name) = [sA, sB] ∧ d.matchInstances [sA, sA] = true) ∧
    (abReg.addMetricByString (parseString asciiClass) 7 8 strCAA (.insts [(sA, .int64 0), (sB, .int64 0)]) Int64Type
      CounterSemantics OneUnit).ok = true := by
  refine ⟨abReg_built, by decide, ?_, by decide⟩
  decide

/-- And it refuses the domain's own set when a name is listed twice. -/
theorem C31_refuted_repeat : ∃ d : Indom, MadeIndom d ∧ (∀ n, n ∈ [sA, sA] ↔ ∃ i ∈ d.insts, i.name = n) ∧
    d.matchInstances [sA, sA] = false := by
  cases h : newIndom 1 sC [sA] [] with
  | none => exact absurd h (by decide)
  | some d =>
    refine ⟨d, ⟨_, _, _, _, h⟩, ?_, ?_⟩
    · obtain ⟨_, _, _, h1, _⟩ := newIndom_wf h
      intro n
      have := h1 n
      simp only [List.mem_map] at this
      rw [this]
      simp
    · have : (newIndom 1 sC [sA] []).map (fun d => d.matchInstances [sA, sA]) = some false := by decide
      rw [h] at this
      exact Option.some.inj this

end Speed
