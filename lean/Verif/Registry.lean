import Verif.RegistryModel
import Verif.DumpDescribe
/-
Invariants of the registry over histories of calls.
-/
namespace Speed

/-! ### Well-formed objects: what the constructors produce -/

/-- An instance domain as `NewPCPInstanceDomain` builds it. -/
structure Indom.WF (d : Indom) : Prop where
  name : d.name ≠ []
  id : d.id = hash d.name PCPInstanceDomainBitLength
  nodup : (d.insts.map (·.name)).Nodup
  ids : ∀ i ∈ d.insts, i.id = hash i.name 0
  len : ∀ i ∈ d.insts, i.name.length ≤ StringLength

/-- A metric as the constructors build it and value operations leave it. -/
structure Metric.WF (m : Metric) : Prop where
  name : m.desc.name ≠ []
  len : m.desc.name.length ≤ StringLength
  id : m.desc.id = hash m.desc.name PCPMetricItemBitLength
  kind : m.Known ∨ m.kind = .foreign
  single : ∀ v, m.body = .single v → Typed m.desc.t v
  inst : ∀ d vs, m.body = .inst d vs → d.WF ∧ vs.map (·.1) = d.insts.map (·.name) ∧
    ∀ p ∈ vs, Typed m.desc.t p.2

/-! ### Constructors -/

theorem foldl_putInst (l : List Str) (acc : List Inst) (h0 : (acc.map (·.name)).Nodup) :
    ((l.foldl putInst acc).map (·.name)).Nodup ∧
    (∀ n, n ∈ (l.foldl putInst acc).map (·.name) ↔ n ∈ acc.map (·.name) ∨ n ∈ l) ∧
    (∀ i ∈ l.foldl putInst acc, i ∈ acc ∨ ∃ n ∈ l, i = newInst n) := by
  induction l generalizing acc with
  | nil => simp [h0]
  | cons a l ih =>
    rw [List.foldl_cons]
    by_cases ha : a ∈ acc.map (·.name)
    · have hp : putInst acc a = acc := by unfold putInst; rw [if_pos ha]
      rw [hp]
      obtain ⟨h1, h2, h3⟩ := ih acc h0
      refine ⟨h1, fun n => ?_, fun i hi => ?_⟩
      · rw [h2]; simp only [List.mem_cons]
        constructor
        · rintro (h | h) <;> simp [h]
        · rintro (h | rfl | h)
          · exact .inl h
          · exact .inl ha
          · exact .inr h
      · rcases h3 i hi with h | ⟨n, hn, h⟩
        · exact .inl h
        · exact .inr ⟨n, by simp [hn], h⟩
    · have hp : putInst acc a = acc ++ [newInst a] := by unfold putInst; rw [if_neg ha]
      rw [hp]
      have hnd : ((acc ++ [newInst a]).map (·.name)).Nodup := by
        rw [List.map_append, List.nodup_append]
        refine ⟨h0, by simp, ?_⟩
        intro x hx y hy
        simp [newInst] at hy
        subst hy
        rintro rfl; exact ha hx
      obtain ⟨h1, h2, h3⟩ := ih _ hnd
      refine ⟨h1, fun n => ?_, fun i hi => ?_⟩
      · rw [h2]
        simp only [List.map_append, List.map_cons, List.map_nil, List.mem_append, List.mem_cons,
          List.not_mem_nil, or_false, newInst]
        tauto
      · rcases h3 i hi with h | ⟨n, hn, h⟩
        · rcases List.mem_append.1 h with h | h
          · exact .inl h
          · exact .inr ⟨a, by simp, by simpa using h⟩
        · exact .inr ⟨n, by simp [hn], h⟩

theorem newIndom_wf {uid name insts desc d} (h : newIndom uid name insts desc = some d) :
    d.WF ∧ d.uid = uid ∧ d.name = name ∧ (∀ n, n ∈ d.insts.map (·.name) ↔ n ∈ insts) ∧
      descs desc = some (d.short, d.long) := by
  unfold newIndom at h
  split at h
  · cases h
  · rename_i hn
    split at h
    · cases h
    · rename_i short long hd
      split at h
      · cases h
      · rename_i hl
        obtain rfl := Option.some.inj h
        obtain ⟨h1, h2, h3⟩ := foldl_putInst insts [] (by simp)
        have hl' : ∀ i ∈ insts, i.length ≤ StringLength := by
          intro i hi
          by_contra hlt
          apply hl
          rw [List.any_eq_true]
          exact ⟨i, hi, by simpa using Nat.lt_of_not_le hlt⟩
        refine ⟨⟨hn, rfl, h1, ?_, ?_⟩, rfl, rfl, ?_, hd⟩
        · intro i hi
          rcases h3 i hi with h | ⟨n, _, rfl⟩
          · simp at h
          · rfl
        · intro i hi
          rcases h3 i hi with h | ⟨n, hn, rfl⟩
          · simp at h
          · exact hl' n hn
        · intro n; rw [h2]; simp

theorem newDesc_some {name t s u desc dd} (h : newDesc name t s u desc = some dd) :
    dd.name = name ∧ name ≠ [] ∧ name.length ≤ StringLength ∧ dd.id = hash name PCPMetricItemBitLength ∧
    dd.t = t ∧ dd.sem = s ∧ dd.unit = u ∧ descs desc = some (dd.short, dd.long) := by
  unfold newDesc at h
  split at h
  · cases h
  · rename_i hn
    split at h
    · cases h
    · rename_i hl
      split at h
      · cases h
      · rename_i short long hd
        obtain rfl := Option.some.inj h
        exact ⟨rfl, hn, Nat.le_of_not_gt hl, rfl, rfl, rfl, rfl, hd⟩

/-- `resolve` gives an accepted value the type of the metric. -/
theorem resolve_typed {t : MetricType} {v : GoVal} (h : isCompatible t v = true) : Typed t (resolve t v) := by
  unfold Typed
  cases v with
  | int v =>
    simp only [isCompatible, isCompatibleInt] at h
    by_cases h0 : t = Int32Type
    · subst h0; exact .inl ⟨rfl, _, rfl⟩
    by_cases h1 : t = Int64Type
    · subst h1; exact .inr (.inr (.inl ⟨rfl, _, rfl⟩))
    by_cases h2 : t = Uint32Type
    · subst h2; exact .inr (.inl ⟨rfl, _, rfl⟩)
    by_cases h3 : t = Uint64Type
    · subst h3; exact .inr (.inr (.inr (.inl ⟨rfl, _, rfl⟩)))
    rw [if_neg h0, if_neg h1, if_neg h2, if_neg h3] at h; cases h
  | int32 v => simp only [isCompatible, decide_eq_true_eq] at h; subst h; exact .inl ⟨rfl, _, rfl⟩
  | int64 v =>
    simp only [isCompatible, decide_eq_true_eq] at h; subst h; exact .inr (.inr (.inl ⟨rfl, _, rfl⟩))
  | uint v =>
    simp only [isCompatible, isCompatibleUint] at h
    by_cases h2 : t = Uint32Type
    · subst h2; exact .inr (.inl ⟨rfl, _, rfl⟩)
    by_cases h3 : t = Uint64Type
    · subst h3; exact .inr (.inr (.inr (.inl ⟨rfl, _, rfl⟩)))
    split at h <;> simp only [h2, h3, decide_false, Bool.or_self, Bool.false_eq_true] at h
  | uint32 v => simp only [isCompatible, decide_eq_true_eq] at h; subst h; exact .inr (.inl ⟨rfl, _, rfl⟩)
  | uint64 v =>
    simp only [isCompatible, decide_eq_true_eq] at h; subst h
    exact .inr (.inr (.inr (.inl ⟨rfl, _, rfl⟩)))
  | float32 v =>
    simp only [isCompatible, decide_eq_true_eq] at h; subst h
    exact .inr (.inr (.inr (.inr (.inl ⟨rfl, _, rfl⟩))))
  | float64 v =>
    simp only [isCompatible, isCompatibleFloat] at h
    by_cases h2 : t = FloatType
    · subst h2; exact .inr (.inr (.inr (.inr (.inl ⟨rfl, _, rfl⟩))))
    by_cases h3 : t = DoubleType
    · subst h3; exact .inr (.inr (.inr (.inr (.inr (.inl ⟨rfl, _, rfl⟩)))))
    split at h <;> simp only [h2, h3, decide_false, Bool.or_self, Bool.false_eq_true] at h
  | str s =>
    simp only [isCompatible, decide_eq_true_eq] at h; subst h
    exact .inr (.inr (.inr (.inr (.inr (.inr ⟨rfl, _, rfl⟩)))))
  | other => simp [isCompatible] at h

theorem newSingle_wf {uid k val name t s u desc m}
    (hk : k = .singleton ∨ k = .counter ∨ k = .gauge ∨ k = .timer)
    (h : (newDesc name t s u desc).bind (newSingle uid k val) = some m) :
    m.WF ∧ m.uid = uid ∧ m.kind = k ∧ m.desc.name = name ∧ m.desc.t = t ∧ m.desc.sem = s ∧ m.desc.unit = u ∧
    descs desc = some (m.desc.short, m.desc.long) ∧
    m.body = .single (resolve t val) ∧ isCompatible t val = true := by
  cases hd : newDesc name t s u desc with
  | none => rw [hd] at h; cases h
  | some dd =>
    rw [hd] at h
    obtain ⟨h1, h2, h3, h4, h5, h6, h7, h8⟩ := newDesc_some hd
    simp only [Option.bind_some, newSingle] at h
    split at h
    · rename_i hc
      obtain rfl := Option.some.inj h
      subst h5
      refine ⟨⟨by rw [h1]; exact h2, by rw [h1]; exact h3, by rw [h1]; exact h4, .inl ?_, ?_, ?_⟩, rfl, rfl, h1, rfl,
        h6, h7, h8, rfl, hc⟩
      · exact hk
      · intro v hv; injection hv with hv; subst hv; exact resolve_typed hc
      · intro d vs hv; cases hv
    · cases h

theorem resolveVals_some {t vals l vs} (h : resolveVals t vals l = some vs) :
    vs.map (·.1) = l.map (·.name) ∧ (∀ p ∈ vs, ∃ v, vals.find? (fun q => q.1 = p.1) = some (p.1, v) ∧
      isCompatible t v = true ∧ p.2 = resolve t v) := by
  induction l generalizing vs with
  | nil => cases h; simp
  | cons i is ih =>
    simp only [resolveVals] at h
    split at h
    · cases h
    · rename_i v hf
      split at h
      · rename_i hc
        split at h
        · rename_i l hl
          obtain rfl := Option.some.inj h
          obtain ⟨h1, h2⟩ := ih hl
          refine ⟨by simp [h1], ?_⟩
          intro p hp
          rcases List.mem_cons.1 hp with rfl | hp
          · refine ⟨v, ?_, hc, rfl⟩
            cases hq : vals.find? (fun p => p.1 = i.name) with
            | none => rw [hq] at hf; cases hf
            | some q =>
              rw [hq] at hf
              have hq1 := List.find?_some hq
              simp only [decide_eq_true_eq] at hq1
              simp only [Option.map_some, Option.some.injEq] at hf
              subst hf; rw [← hq1]
          · exact h2 p hp
        · cases h
      · cases h

theorem newInst_wf {uid k vals name t s u desc d m}
    (hk : k = .instance_ ∨ k = .counterVector ∨ k = .gaugeVector ∨ k = .histogram) (hd0 : d.WF)
    (h : (newDesc name t s u desc).bind (newInstMetric uid k vals d) = some m) :
    m.WF ∧ m.uid = uid ∧ m.kind = k ∧ m.desc.name = name ∧ m.desc.t = t ∧ m.desc.sem = s ∧ m.desc.unit = u ∧
    descs desc = some (m.desc.short, m.desc.long) ∧ vals.length = d.insts.length ∧
    ∃ vs, m.body = .inst d vs ∧ resolveVals t vals d.insts = some vs := by
  cases hd : newDesc name t s u desc with
  | none => rw [hd] at h; cases h
  | some dd =>
    rw [hd] at h
    obtain ⟨h1, h2, h3, h4, h5, h6, h7, h8⟩ := newDesc_some hd
    simp only [Option.bind_some, newInstMetric] at h
    split at h
    · cases h
    · rename_i hlen
      split at h
      · cases h
      · rename_i vs hvs
        obtain rfl := Option.some.inj h
        subst h5
        obtain ⟨g1, g2⟩ := resolveVals_some hvs
        refine ⟨⟨by rw [h1]; exact h2, by rw [h1]; exact h3, by rw [h1]; exact h4, .inl hk, ?_, ?_⟩, rfl, rfl, h1,
          rfl, h6, h7, h8, by simpa using hlen, vs, rfl, hvs⟩
        · intro v hv; cases hv
        · intro d' vs' hv
          injection hv with e1 e2
          subst e1; subst e2
          refine ⟨hd0, g1, fun p hp => ?_⟩
          obtain ⟨v, _, hc, hr⟩ := g2 p hp
          show Typed dd.t p.2
          rw [hr]; exact resolve_typed hc

/-! ### Counting specification -/

/-- Number of non-empty strings in a list. -/
def nonEmpty (l : List Str) : Nat := (l.filter (· ≠ [])).length

/-- The counts and the version flag are what the contents say. -/
structure Reg.Counts (r : Reg) : Prop where
  insts : r.instanceCount = (r.indoms.map (fun d => d.insts.length)).sum
  values : r.valueCount = (r.metrics.map (fun m => m.slotNames.length)).sum
  strings : r.stringcount = nonEmpty (r.indoms.flatMap (fun d => [d.short, d.long])) +
    nonEmpty (r.metrics.flatMap (fun m => [m.desc.short, m.desc.long])) +
    ((r.metrics.filter (fun m => m.desc.t = StringType)).map (fun m => m.slotNames.length)).sum
  version : r.version2 = true ↔ (∃ m ∈ r.metrics, m.desc.name.length > 63) ∨
    ∃ d ∈ r.indoms, ∃ i ∈ d.insts, i.name.length > 63

/-- Names are unique. -/
def Reg.UniqueNames (r : Reg) : Prop :=
  (r.indoms.map (·.name)).Nodup ∧ (r.metrics.map (fun m => m.desc.name)).Nodup

structure RegInv (r : Reg) : Prop where
  counts : r.Counts
  unique : r.UniqueNames
  indoms : ∀ d ∈ r.indoms, d.WF
  metrics : ∀ m ∈ r.metrics, m.WF
  /-- the domain of every metric is registered, at least by name -/
  named : ∀ m ∈ r.metrics, ∀ d, m.indom = some d → ∃ d' ∈ r.indoms, d'.name = d.name

theorem regInv_empty : RegInv Reg.empty := by
  refine ⟨⟨rfl, rfl, rfl, ?_⟩, ⟨.nil, .nil⟩, ?_, ?_, ?_⟩ <;> simp [Reg.empty]

theorem RegInv.mapped {r : Reg} (h : RegInv r) (b : Bool) : RegInv { r with mapped := b } :=
  ⟨⟨h.counts.insts, h.counts.values, h.counts.strings, h.counts.version⟩, h.unique, h.indoms, h.metrics, h.named⟩

theorem hasIndom_iff {r : Reg} {n : Str} : r.hasIndom n = true ↔ ∃ d ∈ r.indoms, d.name = n := by
  simp [Reg.hasIndom]

theorem hasMetric_iff {r : Reg} {n : Str} : r.hasMetric n = true ↔ ∃ m ∈ r.metrics, m.desc.name = n := by
  simp [Reg.hasMetric]

theorem nonEmpty_append (a b : List Str) : nonEmpty (a ++ b) = nonEmpty a + nonEmpty b := by
  simp [nonEmpty]

theorem nonEmpty_two (a b : Str) : nonEmpty [a, b] = bump a + bump b := by
  unfold nonEmpty bump
  by_cases ha : a = [] <;> by_cases hb : b = [] <;> simp [ha, hb]

theorem nodup_snoc {α β : Type} {l : List α} {f : α → β} {a : α} (h : (l.map f).Nodup)
    (ha : ∀ x ∈ l, f x ≠ f a) : ((l ++ [a]).map f).Nodup := by
  rw [List.map_append, List.nodup_append]
  refine ⟨h, by simp, ?_⟩
  intro x hx y hy
  simp only [List.map_cons, List.map_nil, List.mem_singleton] at hy
  subst hy
  obtain ⟨z, hz, rfl⟩ := List.mem_map.1 hx
  exact ha z hz

theorem RegInv.addIndom {r r' : Reg} {d : Indom} (h : RegInv r) (hd : d.WF) (he : r.addIndom d = some r') :
    RegInv r' ∧ r'.indoms = r.indoms ++ [d] ∧ r'.metrics = r.metrics ∧ r'.mapped = r.mapped ∧
      r.mapped = false ∧ r.hasIndom d.name = false := by
  unfold Reg.addIndom at he
  split at he
  · cases he
  · rename_i h1
    split at he
    · cases he
    · rename_i h2
      obtain rfl := Option.some.inj he
      simp only [Bool.not_eq_true] at h1 h2
      refine ⟨⟨⟨?_, h.counts.values, ?_, ?_⟩, ⟨?_, h.unique.2⟩, ?_, h.metrics, ?_⟩, rfl, rfl, rfl, h2, h1⟩
      · simp [h.counts.insts]
      · simp only [List.flatMap_append, List.flatMap_cons, List.flatMap_nil, List.append_nil, nonEmpty_append,
          nonEmpty_two, h.counts.strings]
        omega
      · simp only [Bool.or_eq_true, h.counts.version, List.mem_append, List.mem_singleton, List.any_eq_true,
          decide_eq_true_eq]
        constructor
        · rintro ((h | ⟨d, hd, hi⟩) | ⟨i, hi, hl⟩)
          · exact .inl h
          · exact .inr ⟨d, .inl hd, hi⟩
          · exact .inr ⟨d, .inr rfl, i, hi, hl⟩
        · rintro (h | ⟨d', hd | rfl, i, hi, hl⟩)
          · exact .inl (.inl h)
          · exact .inl (.inr ⟨d', hd, i, hi, hl⟩)
          · exact .inr ⟨i, hi, hl⟩
      · apply nodup_snoc h.unique.1
        intro x hx hn
        have : r.hasIndom d.name = true := hasIndom_iff.2 ⟨x, hx, hn⟩
        rw [h1] at this; cases this
      · intro x hx
        rcases List.mem_append.1 hx with hx | hx
        · exact h.indoms x hx
        · rw [List.mem_singleton.1 hx]; exact hd
      · intro m hm d' hd'
        obtain ⟨x, hx, hn⟩ := h.named m hm d' hd'
        exact ⟨x, List.mem_append_left _ hx, hn⟩

theorem slotNames_length (m : Metric) : m.slotNames.length = m.valueCount := slots_length m

theorem RegInv.addMetricUnchecked {r : Reg} {m : Metric} (h : RegInv r) (hm : m.WF)
    (hn : r.hasMetric m.desc.name = false)
    (hi : ∀ d, m.indom = some d → ∃ d' ∈ r.indoms, d'.name = d.name) : RegInv (r.addMetricUnchecked m) := by
  refine ⟨⟨h.counts.insts, ?_, ?_, ?_⟩, ⟨h.unique.1, ?_⟩, h.indoms, ?_, ?_⟩
  · simp [Reg.addMetricUnchecked, h.counts.values, slotNames_length]
  · simp only [Reg.addMetricUnchecked, List.flatMap_append, List.flatMap_cons, List.flatMap_nil, List.append_nil,
      nonEmpty_append, nonEmpty_two, h.counts.strings, List.filter_append, List.map_append, List.sum_append]
    by_cases ht : m.desc.t = StringType
    · rw [if_pos ht, List.filter_cons_of_pos (by simpa using ht)]
      simp [slotNames_length]; omega
    · rw [if_neg ht, List.filter_cons_of_neg (by simpa using ht)]
      simp; omega
  · simp only [Reg.addMetricUnchecked, Bool.or_eq_true, h.counts.version, List.mem_append, List.mem_singleton,
      decide_eq_true_eq]
    constructor
    · rintro ((⟨x, hx, hl⟩ | h) | hl)
      · exact .inl ⟨x, .inl hx, hl⟩
      · exact .inr h
      · exact .inl ⟨m, .inr rfl, hl⟩
    · rintro (⟨x, hx | rfl, hl⟩ | h)
      · exact .inl (.inl ⟨x, hx, hl⟩)
      · exact .inr hl
      · exact .inl (.inr h)
  · apply nodup_snoc h.unique.2
    intro x hx hxn
    have : r.hasMetric m.desc.name = true := hasMetric_iff.2 ⟨x, hx, hxn⟩
    rw [hn] at this; cases this
  · intro x hx
    rcases List.mem_append.1 hx with hx | hx
    · exact h.metrics x hx
    · rw [List.mem_singleton.1 hx]; exact hm
  · intro x hx
    rcases List.mem_append.1 hx with hx | hx
    · exact h.named x hx
    · rw [List.mem_singleton.1 hx]; exact hi

theorem Metric.WF.indom {m : Metric} (h : m.WF) {d : Indom} (hd : m.indom = some d) : d.WF := by
  unfold Metric.indom at hd
  split at hd
  · cases hd
  · rename_i d' vs hb
    obtain rfl := Option.some.inj hd
    exact (h.inst _ _ hb).1

/-- What a successful `AddMetric` does. -/
theorem RegInv.addMetric {r : Reg} {m : Metric} (h : RegInv r) (hm : m.WF) :
    RegInv (r.addMetric m).reg ∧
    ((r.addMetric m).ok = false → (r.addMetric m).reg = r ∧ (r.mapped = true ∨ r.hasMetric m.desc.name = true)) ∧
    ((r.addMetric m).ok = true → r.mapped = false ∧ r.hasMetric m.desc.name = false ∧
      (r.addMetric m).reg.mapped = false ∧
      (r.addMetric m).reg.metrics = r.metrics ++ [m] ∧
      (r.addMetric m).reg.indoms = r.indoms ++
        (match m.indom with | some d => if r.hasIndom d.name then [] else [d] | none => [])) := by
  unfold Reg.addMetric
  by_cases h1 : r.mapped = true
  · rw [if_pos h1]; exact ⟨h, fun _ => ⟨rfl, .inl h1⟩, fun h => by cases h⟩
  rw [if_neg h1]
  by_cases h2 : r.hasMetric m.desc.name = true
  · rw [if_pos h2]; exact ⟨h, fun _ => ⟨rfl, .inr h2⟩, fun h => by cases h⟩
  rw [if_neg h2]
  simp only [Bool.not_eq_true] at h1 h2
  cases hmi : m.indom with
  | none =>
    dsimp only
    refine ⟨h.addMetricUnchecked hm h2 (by rw [hmi]; intro d hd; cases hd), fun h => (by cases h), fun _ => ?_⟩
    exact ⟨h1, h2, h1, rfl, by simp [Reg.addMetricUnchecked]⟩
  | some d =>
    dsimp only
    by_cases h3 : r.hasIndom d.name = true
    · rw [if_pos h3, if_pos h3]
      refine ⟨h.addMetricUnchecked hm h2 ?_, fun h => (by cases h), fun _ => ?_⟩
      · rw [hmi]; intro d' hd'; obtain rfl := Option.some.inj hd'
        exact hasIndom_iff.1 h3
      · exact ⟨h1, h2, h1, rfl, by simp [Reg.addMetricUnchecked]⟩
    · rw [if_neg h3, if_neg h3]
      cases ha : r.addIndom d with
      | none =>
        exfalso
        unfold Reg.addIndom at ha
        rw [if_neg h3, if_neg (by simp [h1])] at ha
        cases ha
      | some r' =>
        obtain ⟨g1, g2, g3, g4, _, _⟩ := h.addIndom (hm.indom hmi) ha
        dsimp only
        refine ⟨g1.addMetricUnchecked hm (by unfold Reg.hasMetric at *; rw [g3]; exact h2) ?_, fun h => (by cases h),
          fun _ => ⟨h1, h2, by rw [← h1, ← g4]; rfl, by simp [Reg.addMetricUnchecked, g3],
            by simp [Reg.addMetricUnchecked, g2]⟩⟩
        rw [hmi]; intro d' hd'; obtain rfl := Option.some.inj hd'
        exact ⟨d, by rw [g2]; simp, rfl⟩

theorem RegInv.addIndomByName {r r' : Reg} {uid name insts d} (h : RegInv r)
    (he : r.addIndomByName uid name insts = some (r', d)) :
    RegInv r' ∧ d.WF ∧ newIndom uid name insts [] = some d ∧ r.addIndom d = some r' := by
  unfold Reg.addIndomByName at he
  split at he
  · cases he
  · split at he
    · cases he
    · rename_i d' hd
      split at he
      · cases he
      · rename_i r'' ha
        simp only [Option.some.injEq, Prod.mk.injEq] at he
        obtain ⟨rfl, rfl⟩ := he
        have hwf := (newIndom_wf hd).1
        exact ⟨(h.addIndom hwf ha).1, hwf, hd, ha⟩

/-! ### Histories -/

/-- A registry call. The objects passed are those the constructors built; `mapped` is the client
setting the flag in `Start` and `Stop` (client.go:208, 637). -/
inductive ROp where
  | addIndom (d : Indom)
  | addMetric (m : Metric)
  | byName (uid : Nat) (name : Str) (insts : List Str)
  | byString (uid duid : Nat) (str : Str) (val : ByStrVal) (t : MetricType) (s u : BitVec 32)
  | mapped (b : Bool)

/-- The registry after a call, and whether it succeeded. -/
def ROp.apply (parse : Str → Option (Str × Str × Option (List Str))) (r : Reg) : ROp → RRes
  | .addIndom d => match r.addIndom d with | some r' => ⟨r', true⟩ | none => ⟨r, false⟩
  | .addMetric m => r.addMetric m
  | .byName uid name insts => match r.addIndomByName uid name insts with | some (r', _) => ⟨r', true⟩ | none => ⟨r, false⟩
  | .byString uid duid str val t s u => r.addMetricByString parse uid duid str val t s u
  | .mapped b => ⟨{ r with mapped := b }, true⟩

/-- The call's arguments are objects that the constructors built (or value operations changed). -/
def ROp.WF : ROp → Prop
  | .addIndom d => d.WF
  | .addMetric m => m.WF
  | _ => True

theorem RegInv.addSingletonByString {r : Reg} (h : RegInv r) (uid name val t s u) :
    RegInv (r.addSingletonByString uid name val t s u).reg := by
  unfold Reg.addSingletonByString
  split
  · exact h
  · rename_i m hm
    exact (h.addMetric (newSingle_wf (.inl rfl) hm).1).1

theorem RegInv.addInstanceByString {r : Reg} (h : RegInv r) (uid duid name val indom instances t s u) :
    RegInv (r.addInstanceByString uid duid name val indom instances t s u).reg := by
  unfold Reg.addInstanceByString
  have fin : ∀ (r' : Reg) (d : Indom) (mp), RegInv r' → d.WF →
      RegInv (match newPCPInstanceMetric uid mp name d t s u [] with
        | none => (⟨r', false⟩ : RRes)
        | some m => r'.addMetric m).reg := by
    intro r' d mp hr' hd
    split
    · exact hr'
    · rename_i m hm
      exact (hr'.addMetric (newInst_wf (.inl rfl) hd hm).1).1
  split
  · exact h
  · dsimp only
    split
    · split
      · exact h
      · rename_i r' d hb
        obtain ⟨g1, g2, _⟩ := h.addIndomByName hb
        exact fin r' d _ g1 g2
    · rename_i d hf
      split
      · exact fin r d _ h (h.indoms d (List.mem_of_find?_eq_some hf))
      · exact h

theorem RegInv.apply {parse} {r : Reg} (h : RegInv r) (op : ROp) (hop : op.WF) : RegInv (op.apply parse r).reg := by
  cases op with
  | addIndom d =>
    simp only [ROp.apply]
    split
    · rename_i r' hr'; exact (h.addIndom hop hr').1
    · exact h
  | addMetric m => exact (h.addMetric hop).1
  | byName uid name insts =>
    simp only [ROp.apply]
    split
    · rename_i r' d hr'; exact (h.addIndomByName hr').1
    · exact h
  | byString uid duid str val t s u =>
    simp only [ROp.apply, Reg.addMetricByString]
    split
    · exact h
    · exact h.addSingletonByString ..
    · exact h.addInstanceByString ..
  | mapped b => exact h.mapped b

/-- Running a history of calls. -/
def runOps (parse : Str → Option (Str × Str × Option (List Str))) (r : Reg) (ops : List ROp) : Reg := ops.foldl (fun r op => (op.apply parse r).reg) r

theorem RegInv.runOps {parse} {r : Reg} (h : RegInv r) (ops : List ROp) (hops : ∀ op ∈ ops, op.WF) :
    RegInv (runOps parse r ops) := by
  induction ops generalizing r with
  | nil => exact h
  | cons op ops ih =>
    exact ih (h.apply op (hops op (by simp))) (fun o ho => hops o (by simp [ho]))

end Speed
