import Verif.PropsConstruct
import Verif.Parse
/-
Property C81: when `RegisterString` succeeds, and which metric it then registers.
-/
namespace Speed

/-- The names of the domain that a registration string names: the listed instances if the registry has no domain of that
name (each at most 256 bytes), otherwise the instances of the one it has, if there are as many listed and all
listed ones are among them. -/
def UsesDomain (r : Reg) (dom : Str) (ins names : List Str) : Prop :=
  ((∀ d ∈ r.indoms, d.name ≠ dom) ∧ (∀ i ∈ ins, i.length ≤ 256) ∧ names = ins) ∨
  ∃ d ∈ r.indoms, d.name = dom ∧ names = d.insts.map (·.name) ∧ ins.length = names.length ∧ ∀ n ∈ ins, n ∈ names

theorem addMetric_ok (r : Reg) (m : Metric) (hd : ∀ d, m.indom = some d → r.hasIndom d.name = true) :
    ((r.addMetric m).ok = true ↔ r.mapped = false ∧ ∀ x ∈ r.metrics, x.desc.name ≠ m.desc.name) ∧
    ((r.addMetric m).ok = true → (r.addMetric m).reg.metrics = r.metrics ++ [m] ∧ (r.addMetric m).reg.indoms = r.indoms) ∧
    ((r.addMetric m).ok = false → (r.addMetric m).reg = r) := by
  refine ⟨?_, ?_, (addMetric_effect r m).2⟩
  · unfold Reg.addMetric
    split
    · rename_i h; simp [h]
    split
    · rename_i h1 h
      obtain ⟨x, hx, he⟩ := hasMetric_iff.1 h
      simp only [Bool.false_eq_true, false_iff]
      rintro ⟨_, h2⟩
      exact h2 x hx he
    · rename_i h1 h
      have h2 := not_hasMetric (by simpa using h)
      have h3 : r.mapped = false := by simpa using h1
      cases hi : m.indom with
      | none => exact ⟨fun _ => ⟨h3, h2⟩, fun _ => rfl⟩
      | some d => dsimp only; rw [if_pos (hd d hi)]; exact ⟨fun _ => ⟨h3, h2⟩, fun _ => rfl⟩
  · unfold Reg.addMetric
    split
    · intro h; cases h
    split
    · intro h; cases h
    cases hi : m.indom with
    | none => exact fun _ => ⟨rfl, rfl⟩
    | some d => dsimp only; rw [if_pos (hd d hi)]; exact fun _ => ⟨rfl, rfl⟩

theorem addIndom_ok {r : Reg} {d : Indom} (h1 : ∀ x ∈ r.indoms, x.name ≠ d.name) (h2 : r.mapped = false) :
    ∃ r', r.addIndom d = some r' := by
  unfold Reg.addIndom
  rw [if_neg, if_neg (by simp [h2])]
  · exact ⟨_, rfl⟩
  · intro h
    obtain ⟨x, hx, he⟩ := hasIndom_iff.1 h
    exact h1 x hx he

/-- **C81**, strings without a bracket: `RegisterString` succeeds exactly if the string has at most 256 bytes, the
value is compatible with the type, the registry is not mapped and has no metric of that name. Then it adds one
metric, with the string as name, the given type, semantics and unit, no descriptions, and the value; no
domain. Otherwise nothing changes; so also for an `Instances` value. -/
theorem C81_singleton (W : WordClass) (r : Reg) (g : RegString) (hg : g.OK W) (hi : g.insts = none) (uid duid : Nat)
    (t : MetricType) (s u : BitVec 32) :
    (∀ v res, res = r.addMetricByString (parseString W) uid duid g.render (.plain v) t s u →
      (res.ok = true ↔ g.render.length ≤ 256 ∧ isCompatible t v = true ∧ r.mapped = false ∧
        ∀ m ∈ r.metrics, m.desc.name ≠ g.render) ∧
      (res.ok = true → ∃ m w, res.reg.metrics = r.metrics ++ [m] ∧ res.reg.indoms = r.indoms ∧
        Carries m uid .singleton g.render t s u [] ∧ m.indom = none ∧ m.cur none = some w ∧ StoredAs t v w) ∧
      (res.ok = false → res.reg = r)) ∧
    ∀ mp, r.addMetricByString (parseString W) uid duid g.render (.insts mp) t s u = ⟨r, false⟩ := by
  have hp : parseString W g.render = some (g.render, [], none) := by
    rw [C30_grammar]
    refine ⟨g, hg, rfl, ?_⟩
    unfold RegString.result RegString.render
    simp [hi]
  have hne : g.render ≠ [] := by
    unfold RegString.render RegString.name
    simp [hg.1.1]
  have hgood : GoodName g.render [] ↔ g.render.length ≤ 256 := by
    unfold GoodName
    have := List.length_pos_of_ne_nil hne
    simp; omega
  refine ⟨?_, ?_⟩
  · rintro v res rfl
    unfold Reg.addMetricByString Reg.addSingletonByString
    rw [hp]
    dsimp only
    obtain ⟨h1, h2⟩ := C48_singleton uid v g.render t s u []
    rw [hgood] at h1
    cases hm : newPCPSingletonMetric uid v g.render t s u [] with
    | none =>
      rw [hm] at h1
      simp only [Option.isSome_none, Bool.false_eq_true, false_iff] at h1
      dsimp only
      exact ⟨⟨fun h => (by cases h), fun h => absurd ⟨h.1, h.2.1⟩ h1⟩, fun h => (by cases h), fun _ => rfl⟩
    | some m =>
      rw [hm] at h1
      obtain ⟨k1, k2⟩ := h1.1 rfl
      obtain ⟨c1, c2⟩ := h2 m hm
      have c3 : m.indom = none := by unfold Metric.indom; rw [c2]
      obtain ⟨a1, a2, a3⟩ := addMetric_ok r m (fun d hd => by rw [c3] at hd; cases hd)
      dsimp only
      rw [c1.name] at a1
      refine ⟨?_, fun h => ⟨m, _, (a2 h).1, (a2 h).2, c1, c3, ?_, storedAs k2⟩, a3⟩
      · rw [a1]; exact ⟨fun h => ⟨k1, k2, h⟩, fun h => h.2.2⟩
      · unfold Metric.cur; rw [c2]
  · intro mp
    unfold Reg.addMetricByString Reg.addSingletonByString
    rw [hp]
    dsimp only
    obtain ⟨h1, h2⟩ := C48_singleton uid .other g.render t s u []
    cases hm : newPCPSingletonMetric uid .other g.render t s u [] with
    | none => rfl
    | some m =>
      rw [hm] at h1
      have := (h1.1 rfl).2
      exact absurd this (by simp [isCompatible])

/-- "a.b" -/
def strAB : Str := [0x61, 0x2E, 0x62]
def abRes : RRes :=
  Reg.empty.addMetricByString (parseString asciiClass) 1 2 strAB (.plain (.int 7)) Uint32Type InstantSemantics OneUnit

/-- An unsigned metric from an int; the same again, a negative value, and a map are errors. -/
example : abRes.ok = true ∧ abRes.reg.metrics.map (fun m => (m.desc.name, m.desc.t)) = [(strAB, Uint32Type)] ∧
    abRes.reg.metrics.map (fun m => (m.desc.sem, m.desc.unit)) = [(InstantSemantics, OneUnit)] ∧
    abRes.reg.metrics.map (fun m => m.cur none) = [some (.uint32 7)] ∧
    (abRes.reg.addMetricByString (parseString asciiClass) 3 4 strAB (.plain (.int 7)) Uint32Type InstantSemantics
      OneUnit).ok = false ∧
    (Reg.empty.addMetricByString (parseString asciiClass) 1 2 sA (.plain (.int (-7))) Uint32Type InstantSemantics
      OneUnit).ok = false ∧
    (Reg.empty.addMetricByString (parseString asciiClass) 1 2 sA (.insts [(sA, .int 7)]) Uint32Type InstantSemantics
      OneUnit).ok = false := by decide +kernel

/-- **C81**, strings with a bracket: `RegisterString` succeeds exactly if the value is an `Instances` map with one
compatible value for each name of the domain and no others, the metric name has at most 256 bytes, the
registry is not mapped and has no metric of that name, and the listed instances go with the domain. Then it adds one
metric with the name, type, semantics, unit and values given, on the domain of the given name: the registered one,
or a new one with the listed instances. (For what a failed call leaves see C15.) -/
theorem C81_instance (W : WordClass) {r : Reg} (hb : Built r) (g : RegString) (hg : g.OK W) {i0 : Str} {more : List (Str × Str)}
    (hi : g.insts = some (i0, more)) (uid duid : Nat) (t : MetricType) (s u : BitVec 32) :
    (∀ mp, (mp.map (·.1)).Nodup → ∀ res,
      res = r.addMetricByString (parseString W) uid duid g.render (.insts mp) t s u →
      (res.ok = true ↔ (g.name ++ dots g.post).length ≤ 256 ∧ r.mapped = false ∧
        (∀ m ∈ r.metrics, m.desc.name ≠ g.name ++ dots g.post) ∧
        ∃ names, UsesDomain r g.name (i0 :: more.map (·.2)) names ∧ FitsDomain t mp names) ∧
      (res.ok = true → ∃ m d, res.reg.metrics = r.metrics ++ [m] ∧ Carries m uid .instance_ (g.name ++ dots g.post) t s u [] ∧
        m.indom = some d ∧ d.name = g.name ∧
        (d ∈ r.indoms ∧ res.reg.indoms = r.indoms ∨
          (∀ x ∈ r.indoms, x.name ≠ g.name) ∧ res.reg.indoms = r.indoms ++ [d] ∧ d.short = [] ∧ d.long = [] ∧
          (d.insts.map (·.name)).Nodup ∧ ∀ n, n ∈ d.insts.map (·.name) ↔ n ∈ i0 :: more.map (·.2)) ∧
        ∀ p ∈ mp, ∃ w, m.cur (some p.1) = some w ∧ StoredAs t p.2 w)) ∧
    ∀ v, r.addMetricByString (parseString W) uid duid g.render (.plain v) t s u = ⟨r, false⟩ := by
  have hp : parseString W g.render = some (g.name ++ dots g.post, g.name, some (i0 :: more.map (·.2))) := by
    rw [C30_grammar]
    refine ⟨g, hg, rfl, ?_⟩
    unfold RegString.result
    rw [hi]; rfl
  have hne : g.name ≠ [] := by
    unfold RegString.name
    simp [hg.1.1]
  have hgood : GoodName (g.name ++ dots g.post) [] ↔ (g.name ++ dots g.post).length ≤ 256 := by
    unfold GoodName
    have := List.length_pos_of_ne_nil hne
    simp; omega
  generalize g.name ++ dots g.post = name at hp hgood ⊢
  generalize g.name = dom at hp hne ⊢
  generalize i0 :: more.map (·.2) = ins at hp ⊢
  refine ⟨?_, ?_⟩
  · rintro mp hk res rfl
    unfold Reg.addMetricByString Reg.addInstanceByString
    rw [hp]
    dsimp only
    -- the metric on a domain that the registry has
    have fin : ∀ (r' : Reg) (d : Indom), d.WF → d ∈ r'.indoms → r'.metrics = r.metrics → r'.mapped = r.mapped →
        ∀ res, res = (match newPCPInstanceMetric uid mp name d t s u [] with
          | none => (⟨r', false⟩ : RRes) | some m => r'.addMetric m) →
        (res.ok = true ↔ name.length ≤ 256 ∧ r.mapped = false ∧ (∀ m ∈ r.metrics, m.desc.name ≠ name) ∧
          FitsDomain t mp (d.insts.map (·.name))) ∧
        (res.ok = true → ∃ m, res.reg.metrics = r.metrics ++ [m] ∧ Carries m uid .instance_ name t s u [] ∧
          m.indom = some d ∧ res.reg.indoms = r'.indoms ∧ ∀ p ∈ mp, ∃ w, m.cur (some p.1) = some w ∧ StoredAs t p.2 w) := by
      rintro r' d hwf hd hm' hmp res rfl
      have h1 := newInst_iff (uid := uid) (k := .instance_) (name := name) (t := t) (s := s) (u := u) (desc := []) hwf hk
      rw [hgood] at h1
      cases hm : newPCPInstanceMetric uid mp name d t s u [] with
      | none =>
        unfold newPCPInstanceMetric at hm
        rw [hm] at h1
        simp only [Option.isSome_none, Bool.false_eq_true, false_iff] at h1
        dsimp only
        exact ⟨⟨fun h => (by cases h), fun h => absurd ⟨h.1, h.2.2.2⟩ h1⟩, fun h => by cases h⟩
      | some m =>
        unfold newPCPInstanceMetric at hm
        obtain ⟨c1, c2, c3⟩ := newInst_carries hk hm
        rw [hm] at h1
        obtain ⟨k1, k2⟩ := h1.1 rfl
        obtain ⟨a1, a2, a3⟩ := addMetric_ok r' m (fun d' hd' => by
          rw [c2] at hd'; cases hd'; exact hasIndom_iff.2 ⟨d, hd, rfl⟩)
        dsimp only
        rw [c1.name, hm', hmp] at a1
        rw [hm'] at a2
        refine ⟨?_, fun h => ⟨m, (a2 h).1, c1, c2, (a2 h).2, fun p hp => ⟨_, c3 hwf p hp, storedAs (k2.2 p hp)⟩⟩⟩
        rw [a1]; exact ⟨fun h => ⟨k1, h.1, h.2, k2⟩, fun h => ⟨h.2.1, h.2.2.1⟩⟩
    cases hf : r.indoms.find? (fun d => d.name = dom) with
    | none =>
      have hno : ∀ x ∈ r.indoms, x.name ≠ dom := by simpa using hf
      have hh : r.hasIndom dom = false := by
        rw [Bool.eq_false_iff]; intro h
        obtain ⟨x, hx, he⟩ := hasIndom_iff.1 h
        exact hno x hx he
      have huse : ∀ names, UsesDomain r dom ins names ↔ (∀ i ∈ ins, i.length ≤ 256) ∧ names = ins := by
        intro names
        unfold UsesDomain
        constructor
        · rintro (h | ⟨d, hd, he, _⟩)
          · exact h.2
          · exact absurd he (hno d hd)
        · exact fun h => .inl ⟨hno, h⟩
      simp only [huse]
      obtain ⟨n1, n2⟩ := C48_domain duid dom ins []
      cases hn : r.addIndomByName duid dom ins with
      | none =>
        dsimp only
        refine ⟨⟨fun h => (by cases h), ?_⟩, fun h => by cases h⟩
        rintro ⟨_, q2, _, names, ⟨q4, _⟩, _⟩
        exfalso
        have := n1.2 ⟨hne, q4, by simp⟩
        obtain ⟨d, hd⟩ := Option.isSome_iff_exists.1 this
        obtain ⟨r', hr'⟩ := @addIndom_ok r d (by rw [(n2 d hd).2.1]; exact hno) q2
        unfold Reg.addIndomByName at hn
        rw [hh, hd] at hn
        simp [hr'] at hn
      | some p =>
        obtain ⟨r', d⟩ := p
        obtain ⟨e1, e2, e3⟩ := addIndomByName_some hn
        obtain ⟨_, b2, b3, b4, b5⟩ := addIndom_some e3
        obtain ⟨_, f2, f3, f4, f5, f6⟩ := n2 d e2
        have hl := (n1.1 (by rw [e2]; rfl)).2.1
        obtain ⟨g1, g2⟩ := fin r' d (newIndom_wf e2).1 (by rw [b3]; simp) b4 b5 _ rfl
        dsimp only
        refine ⟨?_, ?_⟩
        · refine g1.trans ?_
          have hfit : FitsDomain t mp (d.insts.map (·.name)) ↔ FitsDomain t mp ins := by
            unfold FitsDomain; simp only [f6]
          rw [hfit]
          exact ⟨fun ⟨x1, x2, x3, x4⟩ => ⟨x1, x2, x3, ins, ⟨hl, rfl⟩, x4⟩,
            fun ⟨x1, x2, x3, names, ⟨_, x5⟩, x6⟩ => ⟨x1, x2, x3, x5 ▸ x6⟩⟩
        · intro h
          obtain ⟨m, y1, y2, y3, y4, y5⟩ := g2 h
          exact ⟨m, d, y1, y2, y3, f2, .inr ⟨hno, y4.trans b3, by simpa using f3, by simpa using f4, f5, f6⟩, y5⟩
    | some d =>
      have hdn : d.name = dom := by simpa using List.find?_some hf
      have hdm : d ∈ r.indoms := List.mem_of_find?_eq_some hf
      have huniq : ∀ x ∈ r.indoms, x.name = dom → x = d := by
        intro x hx he
        have := hb.inv.unique.1
        exact List.inj_on_of_nodup_map this hx hdm (by rw [he, hdn])
      have huse : ∀ names, UsesDomain r dom ins names ↔ names = d.insts.map (·.name) ∧ d.matchInstances ins = true := by
        intro names
        have hmi : d.matchInstances ins = true ↔ ins.length = (d.insts.map (·.name)).length ∧ ∀ n ∈ ins, n ∈ d.insts.map (·.name) := by
          unfold Indom.matchInstances Indom.hasInstance
          simp
        unfold UsesDomain
        rw [hmi]
        constructor
        · rintro (h | ⟨x, hx, he, h1, h2⟩)
          · exact absurd hdn (h.1 d hdm)
          · obtain rfl := huniq x hx he
            rw [← h1]; exact ⟨rfl, h2⟩
        · rintro ⟨rfl, h⟩
          exact .inr ⟨d, hdm, hdn, rfl, h⟩
      simp only [huse]
      obtain ⟨g1, g2⟩ := fin r d (hb.inv.indoms d hdm) hdm rfl rfl _ rfl
      split
      · rename_i hmi
        refine ⟨?_, ?_⟩
        · refine g1.trans ?_
          exact ⟨fun ⟨x1, x2, x3, x4⟩ => ⟨x1, x2, x3, _, ⟨rfl, hmi⟩, x4⟩,
            fun ⟨x1, x2, x3, names, ⟨x5, _⟩, x6⟩ => ⟨x1, x2, x3, x5 ▸ x6⟩⟩
        · intro h
          obtain ⟨m, y1, y2, y3, y4, y5⟩ := g2 h
          exact ⟨m, d, y1, y2, y3, hdn, .inl ⟨hdm, y4⟩, y5⟩
      · rename_i hmi
        exact ⟨⟨fun h => (by cases h), fun ⟨_, _, _, names, ⟨_, x⟩, _⟩ => absurd x hmi⟩, fun h => by cases h⟩
  · intro v
    unfold Reg.addMetricByString Reg.addInstanceByString
    rw [hp]

/-- "c[a,b].d" -/
def strCABD : Str := [0x63, 0x5B, 0x61, 0x2C, 0x62, 0x5D, 0x2E, 0x64]
def cabRes : RRes :=
  Reg.empty.addMetricByString (parseString asciiClass) 1 2 strCABD (.insts [(sB, .int 2), (sA, .int 1)]) Int64Type
    CounterSemantics OneUnit

/-- The metric "c.d" on a new domain "c". "c[a,b]" then uses the domain; "c[a].e", a missing value and a value that is
not a map are errors. -/
example : cabRes.ok = true ∧ cabRes.reg.metrics.map (fun m => (m.desc.name, m.desc.t)) = [([0x63, 0x2E, 0x64], Int64Type)] ∧
    cabRes.reg.metrics.map (fun m => (m.cur (some sA), m.cur (some sB))) = [(some (.int64 1), some (.int64 2))] ∧
    cabRes.reg.indoms.map (fun d => (d.name, d.insts.map (·.name))) = [([0x63], [sA, sB])] ∧
    (cabRes.reg.addMetricByString (parseString asciiClass) 3 4 [0x63, 0x5B, 0x61, 0x2C, 0x62, 0x5D]
      (.insts [(sA, .int 1), (sB, .int 2)]) Int64Type CounterSemantics OneUnit).ok = true ∧
    (cabRes.reg.addMetricByString (parseString asciiClass) 3 4 [0x63, 0x5B, 0x61, 0x5D, 0x2E, 0x65]
      (.insts [(sA, .int 1)]) Int64Type CounterSemantics OneUnit).ok = false ∧
    (cabRes.reg.addMetricByString (parseString asciiClass) 3 4 [0x63, 0x5B, 0x61, 0x2C, 0x62, 0x5D]
      (.insts [(sA, .int 1)]) Int64Type CounterSemantics OneUnit).ok = false ∧
    (cabRes.reg.addMetricByString (parseString asciiClass) 3 4 [0x63, 0x5B, 0x61, 0x2C, 0x62, 0x5D]
      (.plain (.int 1)) Int64Type CounterSemantics OneUnit).ok = false := by decide +kernel

end Speed
