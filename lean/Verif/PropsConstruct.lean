import Verif.PropsRegistry
import Verif.PropsValues
/-
Properties C48 and C21: the constructors; one value per instance. C07: the values that metrics hold.
-/
namespace Speed

/-! ### C48 -/

/-- Name and descriptions that a metric constructor takes. -/
def GoodName (name : Str) (desc : List Str) : Prop := 1 ≤ name.length ∧ name.length ≤ 256 ∧ desc.length ≤ 2

instance (name desc) : Decidable (GoodName name desc) := by unfold GoodName; infer_instance

theorem descs_iff (desc : List Str) : (descs desc).isSome ↔ desc.length ≤ 2 := by
  match desc with
  | [] => simp [descs]
  | [a] => simp [descs]
  | [a, b] => simp [descs]
  | a :: b :: c :: l => simp [descs]

theorem descs_get {desc : List Str} {a b : Str} (h : descs desc = some (a, b)) : a = desc.getD 0 [] ∧ b = desc.getD 1 [] := by
  match desc, h with
  | [], h => cases h; exact ⟨rfl, rfl⟩
  | [x], h => cases h; exact ⟨rfl, rfl⟩
  | [x, y], h => cases h; exact ⟨rfl, rfl⟩

theorem newDesc_iff {name t s u desc} : (newDesc name t s u desc).isSome ↔ GoodName name desc := by
  unfold newDesc GoodName
  rw [← descs_iff]
  cases name with
  | nil => simp
  | cons a l =>
    rw [if_neg (by simp)]
    split
    · rename_i h
      simp only [Option.isSome_none, Bool.false_eq_true, false_iff]
      rintro ⟨_, h2, _⟩
      exact absurd h2 (by unfold StringLength at h; omega)
    · rename_i h
      have h1 : 1 ≤ (a :: l).length := by simp
      have h2 : (a :: l).length ≤ 256 := by unfold StringLength at h; omega
      cases hd : descs desc with
      | none => simp
      | some p => simp only [Option.isSome_some, and_true, true_iff]; exact ⟨h1, h2⟩

/-- What a metric's description carries. -/
structure Carries (m : Metric) (uid : Nat) (k : Kind) (name : Str) (t : MetricType) (s u : BitVec 32) (desc : List Str) :
    Prop where
  uid : m.uid = uid
  kind : m.kind = k
  name : m.desc.name = name
  t : m.desc.t = t
  sem : m.desc.sem = s
  unit : m.desc.unit = u
  short : m.desc.short = desc.getD 0 []
  long : m.desc.long = desc.getD 1 []

theorem newSingle_iff {uid k val name t s u desc} :
    ((newDesc name t s u desc).bind (newSingle uid k val)).isSome ↔ GoodName name desc ∧ isCompatible t val = true := by
  rw [← @newDesc_iff name t s u desc]
  cases hd : newDesc name t s u desc with
  | none => simp
  | some dd =>
    have := (newDesc_some hd).2.2.2.2.1
    simp only [Option.bind_some, newSingle, this, Option.isSome_some, true_and]
    cases isCompatible t val <;> simp

theorem newSingle_carries {uid k val name t s u desc m}
    (h : (newDesc name t s u desc).bind (newSingle uid k val) = some m) :
    Carries m uid k name t s u desc ∧ m.body = .single (resolve t val) := by
  cases hd : newDesc name t s u desc with
  | none => rw [hd] at h; cases h
  | some dd =>
    rw [hd] at h
    obtain ⟨h1, h2, h3, h4, h5, h6, h7, h8⟩ := newDesc_some hd
    simp only [Option.bind_some, newSingle] at h
    split at h
    · obtain rfl := Option.some.inj h
      have := descs_get h8
      exact ⟨⟨rfl, rfl, h1, h5, h6, h7, this.1, this.2⟩, by show Body.single (resolve dd.t val) = _; rw [h5]⟩
    · cases h

/-- **C48**, `NewPCPSingletonMetric`. -/
theorem C48_singleton (uid : Nat) (val : GoVal) (name : Str) (t : MetricType) (s u : BitVec 32) (desc : List Str) :
    ((newPCPSingletonMetric uid val name t s u desc).isSome ↔ GoodName name desc ∧ isCompatible t val = true) ∧
    ∀ m, newPCPSingletonMetric uid val name t s u desc = some m →
      Carries m uid .singleton name t s u desc ∧ m.body = .single (resolve t val) :=
  ⟨newSingle_iff, fun _ h => newSingle_carries h⟩

/-- A Uint32 metric from an `int`; a negative one is refused. -/
example : ((newPCPSingletonMetric 3 (.int 7) sA Uint32Type InstantSemantics OneUnit [sB]).map fun m =>
      (m.body, m.desc.name, m.desc.short, m.desc.long)) = some (.single (.uint32 7), sA, sB, []) ∧
    newPCPSingletonMetric 3 (.int (-7)) sA Uint32Type InstantSemantics OneUnit [sB] = none := by decide

theorem compat_int64 (x : BitVec 64) : isCompatible Int64Type (.int64 x) = true ∧ resolve Int64Type (.int64 x) = .int64 x :=
  ⟨rfl, rfl⟩
theorem compat_float64 (x : BitVec 64) :
    isCompatible DoubleType (.float64 x) = true ∧ resolve DoubleType (.float64 x) = .float64 x := by
  simp [isCompatible, resolve, resolveFloat, resolveInt, isCompatibleFloat]

/-- **C48**, `NewPCPCounter`. -/
theorem C48_counter (uid : Nat) (val : BitVec 64) (name : Str) (desc : List Str) :
    ((newPCPCounter uid val name desc).isSome ↔ GoodName name desc) ∧
    ∀ m, newPCPCounter uid val name desc = some m →
      Carries m uid .counter name Int64Type CounterSemantics OneUnit desc ∧ m.body = .single (.int64 val) := by
  refine ⟨?_, fun m h => newSingle_carries h⟩
  unfold newPCPCounter
  rw [newSingle_iff]
  exact and_iff_left rfl

example : ((newPCPCounter 1 5 sC [sA, sB]).map fun m => (m.body, m.desc.t, m.desc.sem)) =
      some (.single (.int64 5), Int64Type, CounterSemantics) ∧
    newPCPCounter 1 5 [] [] = none ∧ newPCPCounter 1 5 sC [sA, sB, sD] = none := by decide

/-- **C48**, `NewPCPGauge`. -/
theorem C48_gauge (uid : Nat) (val : BitVec 64) (name : Str) (desc : List Str) :
    ((newPCPGauge uid val name desc).isSome ↔ GoodName name desc) ∧
    ∀ m, newPCPGauge uid val name desc = some m →
      Carries m uid .gauge name DoubleType InstantSemantics OneUnit desc ∧ m.body = .single (.float64 val) := by
  refine ⟨?_, fun m h => newSingle_carries h⟩
  unfold newPCPGauge
  rw [newSingle_iff]
  exact and_iff_left (compat_float64 val).1

example : ((newPCPGauge 1 0x3FF0000000000000 sC [sA]).map fun m => (m.body, m.desc.short, m.desc.t)) =
    some (.single (.float64 0x3FF0000000000000), sA, DoubleType) := by decide

/-- **C48**, `NewPCPTimer`. -/
theorem C48_timer (uid : Nat) (name : Str) (unit : BitVec 32) (desc : List Str) :
    ((newPCPTimer uid name unit desc).isSome ↔ GoodName name desc) ∧
    ∀ m, newPCPTimer uid name unit desc = some m →
      Carries m uid .timer name DoubleType DiscreteSemantics unit desc ∧ m.body = .single (.float64 0) := by
  refine ⟨?_, fun m h => newSingle_carries h⟩
  unfold newPCPTimer
  rw [newSingle_iff]
  exact and_iff_left rfl

example : ((newPCPTimer 1 sLong 7 [sA]).map fun m => (m.body, m.desc.unit, m.desc.sem)) =
    some (.single (.float64 0), 7, DiscreteSemantics) := by decide

/-- **C48**, `NewPCPInstanceDomain`: the instances are the listed names, each once. -/
theorem C48_domain (uid : Nat) (name : Str) (insts desc : List Str) :
    ((newIndom uid name insts desc).isSome ↔ name ≠ [] ∧ (∀ i ∈ insts, i.length ≤ 256) ∧ desc.length ≤ 2) ∧
    ∀ d, newIndom uid name insts desc = some d → d.uid = uid ∧ d.name = name ∧
      d.short = desc.getD 0 [] ∧ d.long = desc.getD 1 [] ∧
      (d.insts.map (·.name)).Nodup ∧ ∀ n, n ∈ d.insts.map (·.name) ↔ n ∈ insts := by
  constructor
  · unfold newIndom
    rw [← descs_iff]
    by_cases hn : name = []
    · simp [hn]
    · rw [if_neg hn]
      cases hd : descs desc with
      | none => simp
      | some p =>
        obtain ⟨a, b⟩ := p
        dsimp only
        split
        · rename_i h
          simp only [Option.isSome_none, Bool.false_eq_true, false_iff]
          rintro ⟨_, h2, _⟩
          obtain ⟨i, hi, hl⟩ := List.any_eq_true.1 h
          have := h2 i hi
          simp only [decide_eq_true_eq, StringLength] at hl
          omega
        · rename_i h
          simp only [Option.isSome_some, true_iff, and_true]
          refine ⟨hn, fun i hi => ?_⟩
          simp only [List.any_eq_true, not_exists, not_and, decide_eq_true_eq, StringLength] at h
          have := h i hi
          omega
  · intro d h
    obtain ⟨h1, h2, h3, h4, h5⟩ := newIndom_wf h
    have := descs_get h5
    exact ⟨h2, h3, this.1, this.2, h1.nodup, h4⟩

/-- A name that is listed twice is one instance; a name of 257 bytes is refused. -/
example : ((newIndom 1 sC [sA, sB, sA] []).map fun d => d.insts.map (·.name)) = some [sA, sB] ∧
    newIndom 1 sC [sA, List.replicate 257 0x61] [] = none := by decide +kernel

/-! ### C21, construction -/

/-- The values passed for the instances: one for each name of the domain, none for other names, all compatible.
`vals` is a Go map. -/
def FitsDomain (t : MetricType) (vals : List (Str × GoVal)) (names : List Str) : Prop :=
  (∀ n, n ∈ vals.map (·.1) ↔ n ∈ names) ∧ ∀ p ∈ vals, isCompatible t p.2 = true

theorem find_of_mem {vals : List (Str × GoVal)} (hk : (vals.map (·.1)).Nodup) {n : Str} {v : GoVal} (h : (n, v) ∈ vals) :
    vals.find? (fun q => q.1 = n) = some (n, v) := by
  induction vals with
  | nil => cases h
  | cons p l ih =>
    rw [List.map_cons, List.nodup_cons] at hk
    rcases List.mem_cons.1 h with rfl | h
    · simp
    · have : p.1 ≠ n := by
        intro he
        exact hk.1 (List.mem_map.2 ⟨(n, v), h, he.symm⟩)
      rw [List.find?_cons_of_neg (by simpa using this)]
      exact ih hk.2 h

theorem resolveVals_iff {t vals} (hk : (vals.map (·.1)).Nodup) (l : List Inst) :
    (resolveVals t vals l).isSome ↔ ∀ i ∈ l, ∃ v, (i.name, v) ∈ vals ∧ isCompatible t v = true := by
  induction l with
  | nil => simp [resolveVals]
  | cons i l ih =>
    simp only [resolveVals, List.forall_mem_cons]
    cases hf : vals.find? (fun p => p.1 = i.name) with
    | none =>
      simp only [Option.map_none, Option.isSome_none, Bool.false_eq_true, false_iff]
      rintro ⟨⟨v, hv, _⟩, _⟩
      rw [find_of_mem hk hv] at hf
      cases hf
    | some p =>
      obtain ⟨n, v⟩ := p
      have hn : n = i.name := by simpa using List.find?_some hf
      subst hn
      have hm := List.mem_of_find?_eq_some hf
      simp only [Option.map_some]
      rw [← ih]
      constructor
      · intro h
        split at h
        · rename_i hc
          refine ⟨⟨v, hm, hc⟩, ?_⟩
          cases hr : resolveVals t vals l with
          | none => rw [hr] at h; cases h
          | some _ => rfl
        · cases h
      · rintro ⟨⟨v', hv', hc⟩, hr⟩
        have : v' = v := by
          have := find_of_mem hk hv'
          rw [hf] at this
          simpa using this.symm
        subst this
        rw [if_pos hc]
        obtain ⟨w, hw⟩ := Option.isSome_iff_exists.1 hr
        rw [hw]
        rfl

theorem newInst_iff {uid k vals name t s u desc} {d : Indom} (hd0 : d.WF) (hk : (vals.map (·.1)).Nodup) :
    ((newDesc name t s u desc).bind (newInstMetric uid k vals d)).isSome ↔
      GoodName name desc ∧ FitsDomain t vals (d.insts.map (·.name)) := by
  rw [← @newDesc_iff name t s u desc]
  cases hd : newDesc name t s u desc with
  | none => simp
  | some dd =>
    have ht := (newDesc_some hd).2.2.2.2.1
    simp only [Option.bind_some, newInstMetric, ht, Option.isSome_some, true_and]
    have key : (vals.length = d.insts.length ∧ (resolveVals t vals d.insts).isSome) ↔
        FitsDomain t vals (d.insts.map (·.name)) := by
      rw [resolveVals_iff hk]
      constructor
      · rintro ⟨hl, h⟩
        have hsub : d.insts.map (·.name) ⊆ vals.map (·.1) := by
          intro n hn
          obtain ⟨i, hi, rfl⟩ := List.mem_map.1 hn
          obtain ⟨v, hv, _⟩ := h i hi
          exact List.mem_map.2 ⟨_, hv, rfl⟩
        have hp : (d.insts.map (·.name)).Perm (vals.map (·.1)) :=
          (List.subperm_of_subset hd0.nodup hsub).perm_of_length_le (by simp [hl])
        refine ⟨fun n => hp.symm.mem_iff, fun p hp' => ?_⟩
        have : p.1 ∈ d.insts.map (·.name) := hp.symm.mem_iff.1 (List.mem_map.2 ⟨p, hp', rfl⟩)
        obtain ⟨i, hi, he⟩ := List.mem_map.1 this
        obtain ⟨v, hv, hc⟩ := h i hi
        have h1 := find_of_mem hk hv
        have h2 := find_of_mem hk (n := p.1) (v := p.2) hp'
        rw [he, h2] at h1
        have : p.2 = v := congrArg Prod.snd (Option.some.inj h1)
        rw [this]; exact hc
      · rintro ⟨h1, h2⟩
        have hp : (vals.map (·.1)).Perm (d.insts.map (·.name)) := (List.perm_ext_iff_of_nodup hk hd0.nodup).2 h1
        refine ⟨by simpa using hp.length_eq, fun i hi => ?_⟩
        obtain ⟨p, hp', he⟩ := List.mem_map.1 ((h1 i.name).2 (List.mem_map.2 ⟨i, hi, rfl⟩))
        exact ⟨p.2, by rw [← he]; exact hp', h2 p hp'⟩
    rw [← key]
    by_cases hl : vals.length = d.insts.length
    · rw [if_neg (by simpa using hl)]
      cases resolveVals t vals d.insts <;> simp [hl]
    · rw [if_pos hl]
      simp [hl]

theorem newInst_carries {uid k vals name t s u desc m} {d : Indom} (hk : (vals.map (·.1)).Nodup)
    (h : (newDesc name t s u desc).bind (newInstMetric uid k vals d) = some m) :
    Carries m uid k name t s u desc ∧ m.indom = some d ∧
      (d.WF → ∀ p ∈ vals, m.cur (some p.1) = some (resolve t p.2)) := by
  cases hd : newDesc name t s u desc with
  | none => rw [hd] at h; cases h
  | some dd =>
    have hiff := @newInst_iff uid k vals name t s u desc d
    rw [h] at hiff
    rw [hd] at h
    obtain ⟨h1, h2, h3, h4, h5, h6, h7, h8⟩ := newDesc_some hd
    simp only [Option.bind_some, newInstMetric] at h
    split at h
    · cases h
    · split at h
      · cases h
      · rename_i vs hvs
        obtain rfl := Option.some.inj h
        have := descs_get h8
        refine ⟨⟨rfl, rfl, h1, h5, h6, h7, this.1, this.2⟩, rfl, fun hwf p hp => ?_⟩
        obtain ⟨g1, g2⟩ := resolveVals_some hvs
        obtain ⟨_, f1, _⟩ := (hiff hwf hk).1 rfl
        have hin : p.1 ∈ vs.map (·.1) := by rw [g1]; exact (f1 p.1).1 (List.mem_map.2 ⟨p, hp, rfl⟩)
        obtain ⟨q, hq, he⟩ := List.mem_map.1 hin
        obtain ⟨v, hv, _, hr⟩ := g2 q hq
        have hkv : (vs.map (·.1)).Nodup := by rw [g1]; exact hwf.nodup
        have hfind := find_of_mem hkv (n := q.1) (v := q.2) hq
        show (vs.find? (fun x => x.1 = p.1)).map Prod.snd = _
        rw [← he, hfind]
        have hp2 := find_of_mem hk (n := p.1) (v := p.2) hp
        rw [he, hp2] at hv
        have : p.2 = v := congrArg Prod.snd (Option.some.inj hv)
        show some q.2 = _
        rw [hr, this, h5]

/-- **C21**, `NewPCPInstanceMetric` succeeds iff the description is valid and the values are exactly for the domain's
instances and compatible; the metric holds them. -/
theorem C21_construct (uid : Nat) (vals : List (Str × GoVal)) (hk : (vals.map (·.1)).Nodup) (name : Str) {d : Indom}
    (hd : MadeIndom d) (t : MetricType) (s u : BitVec 32) (desc : List Str) :
    ((newPCPInstanceMetric uid vals name d t s u desc).isSome ↔
      GoodName name desc ∧ FitsDomain t vals (d.insts.map (·.name))) ∧
    ∀ m, newPCPInstanceMetric uid vals name d t s u desc = some m →
      Carries m uid .instance_ name t s u desc ∧ m.indom = some d ∧
      ∀ p ∈ vals, m.cur (some p.1) = some (resolve t p.2) := by
  refine ⟨newInst_iff hd.wf hk, fun m h => ?_⟩
  obtain ⟨h1, h2, h3⟩ := newInst_carries hk h
  exact ⟨h1, h2, h3 hd.wf⟩

/-- Both instances, in another order; one missing; one too many. -/
example : ((newIndom 1 sC [sA, sB] []).bind fun d =>
    (newPCPInstanceMetric 2 [(sB, .int 2), (sA, .int 1)] sD d Int64Type InstantSemantics OneUnit []).map fun m =>
      (m.cur (some sA), m.cur (some sB))) = some (some (.int64 1), some (.int64 2)) ∧
    ((newIndom 1 sC [sA, sB] []).bind fun d =>
      newPCPInstanceMetric 2 [(sB, .int 2)] sD d Int64Type InstantSemantics OneUnit []) = none ∧
    ((newIndom 1 sC [sA, sB] []).bind fun d =>
      newPCPInstanceMetric 2 [(sB, .int 2), (sA, .int 1), (sD, .int 3)] sD d Int64Type InstantSemantics OneUnit []) = none := by
  decide

/-- **C48**, the vectors: they make their own domain, named after the metric. -/
theorem C48_vector {uid duid : Nat} {k : Kind} {vals : List (Str × GoVal)} (hk : (vals.map (·.1)).Nodup)
    {name : Str} {t : MetricType} {s u : BitVec 32} {desc : List Str} (hc : ∀ p ∈ vals, isCompatible t p.2 = true) :
    ((generateInstanceMetric uid duid k vals name t s u desc).isSome ↔
      GoodName name desc ∧ ∀ p ∈ vals, p.1.length ≤ 256) ∧
    ∀ m, generateInstanceMetric uid duid k vals name t s u desc = some m →
      Carries m uid k name t s u desc ∧
      (∃ d, m.indom = some d ∧ d.uid = duid ∧ d.name = name ++ dotIndom ∧
        ∀ n, n ∈ d.insts.map (·.name) ↔ n ∈ vals.map (·.1)) ∧
      ∀ p ∈ vals, m.cur (some p.1) = some (resolve t p.2) := by
  obtain ⟨k1, k2⟩ := C48_domain duid (name ++ dotIndom) (vals.map (·.1)) []
  have hne : name ++ dotIndom ≠ [] := by simp [dotIndom]
  unfold generateInstanceMetric
  cases hd : newIndom duid (name ++ dotIndom) (vals.map (·.1)) [] with
  | none =>
    refine ⟨?_, fun m h => by cases h⟩
    rw [hd] at k1
    simp only [Option.bind_none, Option.isSome_none, Bool.false_eq_true, false_iff] at *
    rintro ⟨_, h2⟩
    refine k1 ⟨hne, ?_, by simp⟩
    intro i hi
    obtain ⟨p, hp, rfl⟩ := List.mem_map.1 hi
    exact h2 p hp
  | some d =>
    have hwf := (newIndom_wf hd).1
    obtain ⟨g1, g2, _, _, g5, g6⟩ := k2 d hd
    rw [hd] at k1
    have hlen := (k1.1 rfl).2.1
    simp only [Option.bind_some]
    constructor
    · rw [newInst_iff hwf hk]
      refine and_congr_right fun _ => ⟨fun _ p hp => hlen _ (List.mem_map.2 ⟨p, hp, rfl⟩), fun _ => ⟨?_, hc⟩⟩
      intro n; exact (g6 n).symm
    · intro m h
      obtain ⟨h1, h2, h3⟩ := newInst_carries hk h
      exact ⟨h1, ⟨d, h2, g1, g2, g6⟩, h3 hwf⟩

/-- **C48**, `NewPCPCounterVector`. -/
theorem C48_counterVector (uid duid : Nat) (vals : List (Str × BitVec 64)) (hk : (vals.map (·.1)).Nodup) (name : Str)
    (desc : List Str) :
    ((newPCPCounterVector uid duid vals name desc).isSome ↔ GoodName name desc ∧ ∀ p ∈ vals, p.1.length ≤ 256) ∧
    ∀ m, newPCPCounterVector uid duid vals name desc = some m →
      Carries m uid .counterVector name Int64Type CounterSemantics OneUnit desc ∧
      (∃ d, m.indom = some d ∧ d.uid = duid ∧ d.name = name ++ dotIndom ∧
        ∀ n, n ∈ d.insts.map (·.name) ↔ n ∈ vals.map (·.1)) ∧
      ∀ p ∈ vals, m.cur (some p.1) = some (.int64 p.2) := by
  have := @C48_vector uid duid .counterVector (vals.map (fun p => (p.1, .int64 p.2)))
    (by rw [List.map_map]; exact hk) name Int64Type CounterSemantics OneUnit desc
    (by intro p hp; obtain ⟨q, _, rfl⟩ := List.mem_map.1 hp; rfl)
  simp only [List.map_map, Function.comp_def, List.mem_map, forall_exists_index, and_imp, forall_apply_eq_imp_iff₂] at this
  obtain ⟨h1, h2⟩ := this
  refine ⟨h1, fun m hm => ?_⟩
  obtain ⟨h3, h4, h5⟩ := h2 m hm
  refine ⟨h3, ?_, fun p hp => h5 p hp⟩
  simpa [List.mem_map] using h4

example : ((newPCPCounterVector 2 10 [(sA, 3), (sB, 4)] sD [sC]).map fun m =>
    (m.cur (some sA), m.cur (some sB), m.indom.map (·.name), m.desc.short)) =
    some (some (.int64 3), some (.int64 4), some (sD ++ dotIndom), sC) := by decide

/-- **C48**, `NewPCPGaugeVector`. -/
theorem C48_gaugeVector (uid duid : Nat) (vals : List (Str × BitVec 64)) (hk : (vals.map (·.1)).Nodup) (name : Str)
    (desc : List Str) :
    ((newPCPGaugeVector uid duid vals name desc).isSome ↔ GoodName name desc ∧ ∀ p ∈ vals, p.1.length ≤ 256) ∧
    ∀ m, newPCPGaugeVector uid duid vals name desc = some m →
      Carries m uid .gaugeVector name DoubleType InstantSemantics OneUnit desc ∧
      (∃ d, m.indom = some d ∧ d.uid = duid ∧ d.name = name ++ dotIndom ∧
        ∀ n, n ∈ d.insts.map (·.name) ↔ n ∈ vals.map (·.1)) ∧
      ∀ p ∈ vals, m.cur (some p.1) = some (.float64 p.2) := by
  have := @C48_vector uid duid .gaugeVector (vals.map (fun p => (p.1, .float64 p.2)))
    (by rw [List.map_map]; exact hk) name DoubleType InstantSemantics OneUnit desc
    (by intro p hp; obtain ⟨q, _, rfl⟩ := List.mem_map.1 hp; exact (compat_float64 q.2).1)
  simp only [List.map_map, Function.comp_def, List.mem_map, forall_exists_index, and_imp, forall_apply_eq_imp_iff₂] at this
  obtain ⟨h1, h2⟩ := this
  refine ⟨h1, fun m hm => ?_⟩
  obtain ⟨h3, h4, h5⟩ := h2 m hm
  refine ⟨h3, ?_, fun p hp => h5 p hp⟩
  simpa [List.mem_map] using h4

example : ((newPCPGaugeVector 2 10 [(sA, 0), (sB, 0x3FF0000000000000)] sD []).map fun m =>
    (m.cur (some sB), m.cur (some sC), m.indom.map (·.uid))) =
    some (some (.float64 0x3FF0000000000000), none, some 10) := by decide

/-- **C48**, `NewPCPHistogram`. -/
theorem C48_histogram (L : Hdr) (uid duid : Nat) (name : Str) (low high sig : Int) (unit : BitVec 32) (desc : List Str) :
    ((newPCPHistogram L uid duid name low high sig unit desc).isSome ↔ low ≤ high ∧ GoodName name desc) ∧
    ∀ m h, newPCPHistogram L uid duid name low high sig unit desc = some (m, h) →
      Carries m uid .histogram name DoubleType InstantSemantics unit desc ∧
      (∃ d, m.indom = some d ∧ d.uid = duid ∧ d.name = sHistogram ∧
        ∀ n, n ∈ d.insts.map (·.name) ↔ n ∈ [sMin, sMax, sMean, sVariance, sStddev]) ∧
      ∀ n ∈ [sMin, sMax, sMean, sVariance, sStddev], m.cur (some n) = some (.float64 0) := by
  have hnd : ((histogramInstances.map (fun n => (n, GoVal.float64 0))).map (·.1)).Nodup := by decide
  constructor
  · unfold newPCPHistogram
    by_cases hlh : low > high
    · rw [if_pos hlh]
      simp only [Option.isSome_none, Bool.false_eq_true, false_iff]
      rintro ⟨h, _⟩; omega
    · rw [if_neg hlh]
      have : low ≤ high := by omega
      simp only [this, true_and]
      obtain ⟨hd, hhd⟩ : ∃ hd, histogramIndom duid = some hd := ⟨_, rfl⟩
      rw [hhd]
      have hwf := (newIndom_wf hhd).1
      have hmem := (newIndom_wf hhd).2.2.2.1
      have := @newInst_iff uid .histogram _ name DoubleType InstantSemantics unit desc hd hwf hnd
      have hfit : FitsDomain DoubleType (histogramInstances.map (fun n => (n, GoVal.float64 0))) (hd.insts.map (·.name)) := by
        refine ⟨fun n => ?_, ?_⟩
        · rw [hmem n]; simp
        · intro p hp; obtain ⟨q, _, rfl⟩ := List.mem_map.1 hp; rfl
      simp only [hfit, and_true] at this
      rw [← this]
      cases newDesc name DoubleType InstantSemantics unit desc with
      | none => simp
      | some dd => simp
  · intro m h hm
    obtain ⟨hd, h1, _, _, h2⟩ := newPCPHistogram_eq hm
    obtain ⟨g1, g2, g3⟩ := newInst_carries hnd h2
    obtain ⟨f1, f2, f3, f4, _⟩ := newIndom_wf h1
    refine ⟨g1, ⟨hd, g2, f2, f3, f4⟩, fun n hn => ?_⟩
    exact g3 f1 (n, .float64 0) (List.mem_map.2 ⟨n, hn, rfl⟩)

set_option maxRecDepth 4000 in
/-- Concrete cases: a valid counter; a name of 257 bytes; three descriptions; a value for a missing instance. -/
example : (newPCPCounter 1 5 sC [sA, sB]).isSome ∧ (newPCPCounter 1 5 (List.replicate 257 0x61) []) = none ∧
    newPCPCounter 1 5 [] [] = none ∧ newPCPCounter 1 5 sC [sA, sA, sA] = none := by decide
example : ((newIndom 1 sC [sA, sB, sA] []).map fun d => d.insts.map (·.name)) = some [sA, sB] := by decide
example : ((newIndom 1 sC [sA, sB] []).bind fun d =>
    newPCPInstanceMetric 2 [(sA, .int64 1), (sC, .int64 2)] sD d Int64Type CounterSemantics OneUnit []) = none ∧
    ((newIndom 1 sC [sA, sB] []).bind fun d =>
      newPCPInstanceMetric 2 [(sB, .int64 1), (sA, .int64 2)] sD d Int64Type CounterSemantics OneUnit []).isSome := by
  decide

/-! ### C21, afterwards -/

/-- The metric has a value for each instance of its domain and no others. -/
theorem WF.cur_iff {m : Metric} (h : m.WF) (n : Str) : (m.cur (some n)).isSome = m.hasInst n := by
  unfold Metric.hasInst Metric.indom Metric.cur
  cases hb : m.body with
  | single v => rfl
  | inst d vs =>
    obtain ⟨h1, h2, _⟩ := h.inst d vs hb
    unfold Indom.hasInstance
    dsimp only
    rw [Bool.eq_iff_iff]
    simp only [Option.isSome_map, List.find?_isSome, decide_eq_true_eq, List.any_eq_true]
    constructor
    · rintro ⟨p, hp, rfl⟩
      have : p.1 ∈ d.insts.map (·.name) := by rw [← h2]; exact List.mem_map.2 ⟨p, hp, rfl⟩
      obtain ⟨i, hi, he⟩ := List.mem_map.1 this
      exact ⟨i, hi, he⟩
    · rintro ⟨i, hi, rfl⟩
      have : i.name ∈ vs.map (·.1) := by rw [h2]; exact List.mem_map.2 ⟨i, hi, rfl⟩
      obtain ⟨p, hp, he⟩ := List.mem_map.1 this
      exact ⟨p, hp, he⟩

/-- **C21**, reading: for every metric a program can have, `ValInstance` gives a value for the domain's instances and an
error for other names; it never panics. -/
theorem C21_valInstance {m : Metric} (hm : MadeMetric m) {d : Indom} (hd : m.indom = some d) (n : Str) (u : Upd) (mem : Buf) :
    (n ∈ d.insts.map (·.name) → ∃ v, valInstance n u ⟨m, mem⟩ = (⟨m, mem⟩, .ok v)) ∧
    (n ∉ d.insts.map (·.name) → valInstance n u ⟨m, mem⟩ = (⟨m, mem⟩, .err)) := by
  have hi : m.hasInst n = true ↔ n ∈ d.insts.map (·.name) := by
    unfold Metric.hasInst Indom.hasInstance
    rw [hd]; simp
  have hc := WF.cur_iff hm.wf n
  unfold valInstance
  dsimp only
  constructor
  · intro h
    have := hi.2 h
    rw [this] at hc
    obtain ⟨v, hv⟩ := Option.isSome_iff_exists.1 hc
    exact ⟨v, by rw [if_neg (by simp [this]), hv]⟩
  · intro h
    have : m.hasInst n = false := by
      rw [Bool.eq_false_iff]; exact fun h' => h (hi.1 h')
    rw [if_pos this]

example : ((newPCPGaugeVector 2 10 [(sA, 0), (sB, 0x3FF0000000000000)] sD []).map fun m =>
    ((valInstance sB (fun _ => none) ⟨m, []⟩).2, (valInstance sC (fun _ => none) ⟨m, []⟩).2)) =
    some (.ok (.float64 0x3FF0000000000000), .err) := by decide

/-- **C21**, writing: on another name, or with an incompatible value, `SetInstance` is an error that changes nothing.
On an instance, with a compatible value and no file attached, it succeeds, and the instance then has the converted value (or a
value equal to it by Go's `==`, if it had that before). The values of the other instances never change. -/
theorem C21_setInstance {m : Metric} (hm : MadeMetric m) {d : Indom} (hd : m.indom = some d) (n : Str) (v : GoVal)
    (u : Upd) (mem : Buf) :
    (n ∉ d.insts.map (·.name) ∨ isCompatible m.desc.t v = false → setInstance v n u ⟨m, mem⟩ = (⟨m, mem⟩, .err)) ∧
    (n ∈ d.insts.map (·.name) → isCompatible m.desc.t v = true → u (some n) = none →
      (setInstance v n u ⟨m, mem⟩).2 = .ok () ∧ ∃ w, (setInstance v n u ⟨m, mem⟩).1.m.cur (some n) = some w ∧
        (w = resolve m.desc.t v ∨ m.cur (some n) = some w ∧ goEq (resolve m.desc.t v) w = true)) ∧
    (∀ n', n' ≠ n → (setInstance v n u ⟨m, mem⟩).1.m.cur (some n') = m.cur (some n')) ∧
    (setInstance v n u ⟨m, mem⟩).1.m.indom = some d := by
  have hi : m.hasInst n = true ↔ n ∈ d.insts.map (·.name) := by
    unfold Metric.hasInst Indom.hasInstance
    rw [hd]; simp
  have hc := WF.cur_iff hm.wf n
  have hst : ∀ old val, (∀ n', n' ≠ n → (storeVal (some n) old val u ⟨m, mem⟩).1.m.cur (some n') = m.cur (some n')) ∧
      (storeVal (some n) old val u ⟨m, mem⟩).1.m.indom = some d := by
    intro old val
    have hp : ∀ n', n' ≠ n → (m.put (some n) val).cur (some n') = m.cur (some n') := by
      intro n' hne; rw [put_cur, if_neg (by simpa using hne)]
    have hp2 : (m.put (some n) val).indom = some d := by rw [put_indom, hd]
    unfold storeVal
    dsimp only
    repeat' split
    all_goals first
      | exact ⟨fun _ _ => rfl, hd⟩
      | exact ⟨hp, hp2⟩
  unfold setInstance
  dsimp only
  refine ⟨?_, ?_, ?_, ?_⟩
  · rintro (h | h)
    · have : m.hasInst n = false := by
        rw [Bool.eq_false_iff]; exact fun h' => h (hi.1 h')
      rw [if_pos this, ite_self]
    · rw [if_pos h]
  · intro h1 h2 h3
    have := hi.2 h1
    rw [this] at hc
    obtain ⟨old, hv⟩ := Option.isSome_iff_exists.1 hc
    rw [if_neg (by simp [h2]), if_neg (by simp [this]), hv]
    dsimp only
    unfold storeVal
    split
    · rename_i hg
      exact ⟨rfl, old, hv, .inr ⟨rfl, hg⟩⟩
    · rw [h3]
      refine ⟨rfl, _, ?_, .inl rfl⟩
      show (m.put (some n) (resolve m.desc.t v)).cur (some n) = _
      rw [put_cur, if_pos rfl, hv]; rfl
  · intro n' hne
    repeat' split
    all_goals first
      | rfl
      | exact (hst _ _).1 n' hne
  · repeat' split
    all_goals first
      | exact hd
      | exact (hst _ _).2

/-- 2.0 in instance b; another instance; another type. -/
example : ((newPCPGaugeVector 2 10 [(sA, 0), (sB, 0x3FF0000000000000)] sD []).map fun m =>
    ((setInstance (.float64 0x4000000000000000) sB (fun _ => none) ⟨m, []⟩).1.m.cur (some sB),
      (setInstance (.float64 0x4000000000000000) sB (fun _ => none) ⟨m, []⟩).1.m.cur (some sA),
      (setInstance (.float64 0x4000000000000000) sC (fun _ => none) ⟨m, []⟩).2,
      (setInstance (.str sA) sB (fun _ => none) ⟨m, []⟩).2)) =
    some (some (.float64 0x4000000000000000), some (.float64 0), .err, .err) := by decide

/-- A call of `SetInstance`. -/
structure SetCall where
  name : Str
  val : GoVal

def runSets (m : Metric) (calls : List SetCall) : Metric :=
  calls.foldl (fun m c => (setInstance c.val c.name (fun _ => none) ⟨m, []⟩).1.m) m

theorem setInstance_made {m : Metric} (hm : MadeMetric m) (v : GoVal) (n : Str) :
    MadeMetric (setInstance v n (fun _ => none) ⟨m, []⟩).1.m := by
  have hput : isCompatible m.desc.t v = true → MadeMetric (m.put (some n) (resolve m.desc.t v)) := by
    intro h
    have := hm.update (some n) v
    unfold Metric.update at this
    rw [if_pos h] at this
    exact this
  unfold setInstance storeVal
  dsimp only
  split
  · exact hm
  · rename_i h
    have h' : isCompatible m.desc.t v = true := by simpa using h
    repeat' split
    all_goals first
      | exact hm
      | exact hput h'

/-- **C21**, histories: after any calls the set of instances is the same, and the value of instance `n` depends only on
the calls for `n`. -/
theorem C21_history {m : Metric} (hm : MadeMetric m) {d : Indom} (hd : m.indom = some d) (calls : List SetCall) (n : Str) :
    MadeMetric (runSets m calls) ∧ (runSets m calls).indom = some d ∧
    (runSets m calls).cur (some n) = (runSets m (calls.filter (fun c => c.name = n))).cur (some n) := by
  have key : ∀ (calls : List SetCall) (m m' : Metric), MadeMetric m → MadeMetric m' → m.indom = some d → m'.indom = some d →
      m.desc = m'.desc → m.cur (some n) = m'.cur (some n) →
      MadeMetric (runSets m calls) ∧ (runSets m calls).indom = some d ∧
      (runSets m calls).cur (some n) = (runSets m' (calls.filter (fun c => c.name = n))).cur (some n) := by
    intro calls
    induction calls with
    | nil => intro m m' h1 _ h2 _ _ h3; exact ⟨h1, h2, h3⟩
    | cons c l ih =>
      intro m m' h1 h1' h2 h2' hds h3
      have hm1 := setInstance_made h1 c.val c.name
      have hi1 := (C21_setInstance h1 h2 c.name c.val (fun _ => none) []).2.2.2
      have hdesc : ∀ m : Metric, (setInstance c.val c.name (fun _ => none) ⟨m, []⟩).1.m.desc = m.desc := by
        intro m
        unfold setInstance storeVal
        dsimp only
        repeat' split
        all_goals rfl
      by_cases hc : c.name = n
      · rw [List.filter_cons_of_pos (by simpa using hc)]
        have hm2 := setInstance_made h1' c.val c.name
        have hi2 := (C21_setInstance h1' h2' c.name c.val (fun _ => none) []).2.2.2
        refine ih _ _ hm1 hm2 hi1 hi2 (by rw [hdesc, hdesc, hds]) ?_
        have hhas : m.hasInst c.name = m'.hasInst c.name := by unfold Metric.hasInst; rw [h2, h2']
        rw [← hc] at h3 ⊢
        unfold setInstance
        dsimp only
        rw [← hds, ← hhas, ← h3]
        split
        · exact h3
        · split
          · exact h3
          · cases hcu : m.cur (some c.name) with
            | none => dsimp only; rw [← h3, hcu]
            | some old =>
              dsimp only
              unfold storeVal
              split
              · rw [← h3, hcu]
              · dsimp only
                rw [put_cur, put_cur, if_pos rfl, if_pos rfl, h3]
      · rw [List.filter_cons_of_neg (by simpa using hc)]
        refine ih _ m' hm1 h1' hi1 h2' (by rw [hdesc, hds]) ?_
        rw [← h3]
        exact (C21_setInstance h1 h2 c.name c.val (fun _ => none) []).2.2.1 n (fun h => hc h.symm)
  exact key calls m m hm hm hd hd rfl rfl

/-- Two instances; three calls, one of them incompatible. -/
example : ((newIndom 1 sC [sA, sB] []).bind fun d =>
    (newPCPInstanceMetric 2 [(sA, .int64 1), (sB, .int64 2)] sD d Int64Type InstantSemantics OneUnit []).map fun m =>
      let m' := runSets m [⟨sA, .int64 9⟩, ⟨sB, .str sA⟩, ⟨sC, .int64 4⟩]
      (m'.cur (some sA), m'.cur (some sB), m'.cur (some sC))) =
    some (some (.int64 9), some (.int64 2), none) := by decide

/-! ### C07: the values that metrics hold -/

/-- What C07 says about a value `w` stored for the argument `v`. -/
structure StoredAs (t : MetricType) (v w : GoVal) : Prop where
  typed : Typed t w
  num : ∀ n, Speed.num v = some n → Speed.num w = some n
  str : ∀ s, v = .str s → w = .str s
  f32 : ∀ x, v = .float32 x → w = .float32 x
  f64 : ∀ x, v = .float64 x → t = DoubleType ∧ w = .float64 x ∨
    t = FloatType ∧ finite64 x ∧ mag64 x ≤ (2 ^ 24 - 1) * 2 ^ 29 * 2 ^ 1149 ∧ ∃ y, w = .float32 y ∧ NearestEven x y

theorem storedAs {t : MetricType} {v : GoVal} (h : isCompatible t v = true) : StoredAs t v (resolve t v) :=
  let ⟨a, b, c, d, e⟩ := C07_stored h
  ⟨a, b, c, d, e⟩

/-- **C07**, constructors: the new metric holds the values it was given. -/
theorem C07_new (uid : Nat) (name : Str) (t : MetricType) (s u : BitVec 32) (desc : List Str) {m : Metric} :
    (∀ val, newPCPSingletonMetric uid val name t s u desc = some m → ∃ w, m.cur none = some w ∧ StoredAs t val w) ∧
    ∀ vals d, (vals.map (·.1)).Nodup → MadeIndom d → newPCPInstanceMetric uid vals name d t s u desc = some m →
      ∀ p ∈ vals, ∃ w, m.cur (some p.1) = some w ∧ StoredAs t p.2 w := by
  constructor
  · intro val h
    obtain ⟨h1, h2⟩ := C48_singleton uid val name t s u desc
    refine ⟨_, ?_, storedAs (h1.1 (by rw [h]; rfl)).2⟩
    unfold Metric.cur
    rw [(h2 m h).2]
  · intro vals d hk hd h p hp
    obtain ⟨h1, h2⟩ := C21_construct uid vals hk name hd t s u desc
    have hf := (h1.1 (by rw [h]; rfl)).2
    exact ⟨_, (h2 m h).2.2 p hp, storedAs (hf.2 p hp)⟩

example : ((newPCPSingletonMetric 3 (.int 7) sA Uint32Type InstantSemantics OneUnit []).bind fun m => m.cur none) =
      some (.uint32 7) ∧
    ((newIndom 1 sC [sA, sB] []).bind fun d =>
      (newPCPInstanceMetric 2 [(sB, .float64 0x3FB999999999999A), (sA, .float32 1)] sD d FloatType InstantSemantics OneUnit []).map
        fun m => (m.cur (some sA), m.cur (some sB))) = some (some (.float32 1), some (.float32 0x3DCCCCCD)) := by decide

/-- **C07**, `Set` and `SetInstance`, mapped or not: after a successful call the metric holds the value, or its old value
if that is equal (as Go compares). -/
theorem C07_set (m : Metric) (v : GoVal) (mem : Buf) (u : Upd) {st : MSt} :
    (set v u ⟨m, mem⟩ = (st, .ok ()) → ∃ w w', StoredAs m.desc.t v w ∧ st.m.cur none = some w' ∧
      (w' = w ∨ m.cur none = some w' ∧ goEq w w' = true)) ∧
    ∀ n, setInstance v n u ⟨m, mem⟩ = (st, .ok ()) → ∃ w w', StoredAs m.desc.t v w ∧
      st.m.cur (some n) = some w' ∧ (w' = w ∨ m.cur (some n) = some w' ∧ goEq w w' = true) := by
  have key : ∀ s old w, m.cur s = some old → storeVal s old w u ⟨m, mem⟩ = (st, .ok ()) →
      ∃ w', st.m.cur s = some w' ∧ (w' = w ∨ m.cur s = some w' ∧ goEq w w' = true) := by
    intro s old w hc h
    unfold storeVal at h
    split at h
    · obtain rfl := (Prod.mk.inj h).1
      exact ⟨old, hc, .inr ⟨hc, by assumption⟩⟩
    · have hp : (m.put s w).cur s = some w := by rw [put_cur, if_pos rfl, hc]; rfl
      split at h
      · obtain rfl := (Prod.mk.inj h).1
        exact ⟨w, hp, .inl rfl⟩
      · split at h
        · obtain rfl := (Prod.mk.inj h).1
          exact ⟨w, hp, .inl rfl⟩
        · cases (Prod.mk.inj h).2
        · cases (Prod.mk.inj h).2
  constructor
  · intro h
    unfold set at h
    dsimp only at h
    split at h
    · cases (Prod.mk.inj h).2
    · rename_i hc
      split at h
      · cases (Prod.mk.inj h).2
      · obtain ⟨w', h1⟩ := key _ _ _ (by assumption) h
        exact ⟨_, w', storedAs (by simpa using hc), h1⟩
  · intro n h
    unfold setInstance at h
    dsimp only at h
    split at h
    · cases (Prod.mk.inj h).2
    · rename_i hc
      split at h
      · cases (Prod.mk.inj h).2
      split at h
      · cases (Prod.mk.inj h).2
      · obtain ⟨w', h1⟩ := key _ _ _ (by assumption) h
        exact ⟨_, w', storedAs (by simpa using hc), h1⟩

/-- 7 into an unsigned metric, 1.0 into a Float metric, -1 refused. -/
example : ((newPCPSingletonMetric 3 (.int 7) sA Uint32Type InstantSemantics OneUnit []).map fun m =>
      (((set (.int 9) (fun _ => none) ⟨m, []⟩).1.m.cur none), (set (.int (-1)) (fun _ => none) ⟨m, []⟩).2)) =
      some (some (.uint32 9), .err) ∧
    ((newPCPSingletonMetric 3 (.float32 0) sA FloatType InstantSemantics OneUnit []).map fun m =>
      (set (.float64 0x3FF0000000000000) (fun _ => none) ⟨m, []⟩).1.m.cur none) = some (some (.float32 0x3F800000)) := by decide

/-- **C07**, histories: every value in a registry has the type of its metric. -/
theorem C07_typed {r : Reg} (hb : Built r) : ∀ m ∈ r.metrics, ∀ s v, m.cur s = some v → Typed m.desc.t v :=
  hb.inv.typed

example : (sampleReg.metrics.map fun m => (m.desc.t, m.slotNames.map m.cur)) =
    [(Int64Type, [some (.int64 5)]), (DoubleType, [some (.float64 0), some (.float64 0x3FF0000000000000)]),
      (StringType, [some (.str sD)])] := by decide

end Speed
