import Verif.LiveOps
/-
Histories: which metrics, domains and registries a program can get from the exported functions.
-/
namespace Speed

/-- A domain built by `NewPCPInstanceDomain`. -/
def MadeIndom (d : Indom) : Prop := ∃ uid name insts desc, newIndom uid name insts desc = some d

/-- A value update of a metric: the effect of `set` and `setInstance` on the object. -/
def Metric.update (m : Metric) (s : Option Str) (val : GoVal) : Metric :=
  if isCompatible m.desc.t val then m.put s (resolve m.desc.t val) else m

/-- A metric that a program can have: built by an exported constructor, then changed by any number of
value updates. A user struct embedding a library metric also implements the metric interface. -/
inductive MadeMetric : Metric → Prop
  | singleton {uid val name t s u desc m} : newPCPSingletonMetric uid val name t s u desc = some m → MadeMetric m
  | counter {uid val name desc m} : newPCPCounter uid val name desc = some m → MadeMetric m
  | gauge {uid val name desc m} : newPCPGauge uid val name desc = some m → MadeMetric m
  | timer {uid name unit desc m} : newPCPTimer uid name unit desc = some m → MadeMetric m
  | instance_ {uid vals name d t s u desc m} : MadeIndom d → newPCPInstanceMetric uid vals name d t s u desc = some m →
      MadeMetric m
  | counterVector {uid duid vals name desc m} : newPCPCounterVector uid duid vals name desc = some m → MadeMetric m
  | gaugeVector {uid duid vals name desc m} : newPCPGaugeVector uid duid vals name desc = some m → MadeMetric m
  | histogram {L : Hdr} {uid duid name low high sig unit desc m h} :
      newPCPHistogram L uid duid name low high sig unit desc = some (m, h) → MadeMetric m
  | update {m} (s val) : MadeMetric m → MadeMetric (m.update s val)
  | embed {m} : MadeMetric m → MadeMetric { m with kind := .foreign }

theorem MadeIndom.wf {d : Indom} (h : MadeIndom d) : d.WF := by
  obtain ⟨_, _, _, _, h⟩ := h
  exact (newIndom_wf h).1

theorem Metric.WF.update {m : Metric} (h : m.WF) (s val) : (m.update s val).WF := by
  unfold Metric.update
  split
  · exact put_WF h (resolve_typed (by assumption))
  · exact h

theorem generate_wf {uid duid k vals name t s u desc m}
    (hk : k = .instance_ ∨ k = .counterVector ∨ k = .gaugeVector ∨ k = .histogram)
    (h : generateInstanceMetric uid duid k vals name t s u desc = some m) : m.WF := by
  unfold generateInstanceMetric at h
  cases hd : newIndom duid (name ++ dotIndom) (vals.map (·.1)) [] with
  | none => rw [hd] at h; cases h
  | some d =>
    rw [hd] at h
    exact (newInst_wf hk (newIndom_wf hd).1 h).1

theorem newPCPHistogram_eq {L : Hdr} {uid duid name low high sig unit desc m h}
    (he : newPCPHistogram L uid duid name low high sig unit desc = some (m, h)) :
    ∃ hd, histogramIndom duid = some hd ∧ low ≤ high ∧
      h = L.new (.ofInt 64 (normalize low high sig).1) (.ofInt 64 (normalize low high sig).2.1)
        (.ofInt 64 (normalize low high sig).2.2) ∧
      (newDesc name DoubleType InstantSemantics unit desc).bind
        (newInstMetric uid .histogram (histogramInstances.map (fun n => (n, .float64 0))) hd) = some m := by
  unfold newPCPHistogram at he
  split at he
  · cases he
  · rename_i hlh
    dsimp only at he
    cases hn : newDesc name DoubleType InstantSemantics unit desc with
    | none => rw [hn] at he; cases he
    | some d =>
      rw [hn] at he
      cases hi : histogramIndom duid with
      | none => rw [hi] at he; cases he
      | some hd =>
        rw [hi] at he
        simp only [Option.bind_some, Option.map_eq_some_iff, Prod.mk.injEq] at he
        obtain ⟨m', h1, h2, h3⟩ := he
        exact ⟨hd, rfl, by omega, h3.symm, by rw [← h2]; exact h1⟩

theorem MadeMetric.wf {m : Metric} (h : MadeMetric m) : m.WF := by
  induction h with
  | singleton h => exact (newSingle_wf (.inl rfl) h).1
  | counter h => exact (newSingle_wf (.inr (.inl rfl)) h).1
  | gauge h => exact (newSingle_wf (.inr (.inr (.inl rfl))) h).1
  | timer h => exact (newSingle_wf (.inr (.inr (.inr rfl))) h).1
  | instance_ hd h => exact (newInst_wf (.inl rfl) hd.wf h).1
  | counterVector h => exact generate_wf (.inr (.inl rfl)) h
  | gaugeVector h => exact generate_wf (.inr (.inr (.inl rfl))) h
  | histogram h =>
    obtain ⟨hd, h1, _, _, h2⟩ := newPCPHistogram_eq h
    exact (newInst_wf (.inr (.inr (.inr rfl))) (newIndom_wf h1).1 h2).1
  | update s val _ ih => exact ih.update s val
  | embed _ ih => exact ⟨ih.name, ih.len, ih.id, .inr rfl, ih.single, ih.inst⟩

/-! ### Registry histories -/

/-- One step of a program that uses a registry: a registry call or a value update of a registered
metric. -/
inductive HOp where
  | reg (op : ROp)
  | set (name : Str) (s : Option Str) (val : GoVal)

/-- A value update of the metric registered as `name`. -/
def Reg.update (r : Reg) (name : Str) (s : Option Str) (val : GoVal) : Reg :=
  { r with metrics := r.metrics.map (fun m => if m.desc.name = name then m.update s val else m) }

def HOp.apply (parse : Str → Option (Str × Str × Option (List Str))) (r : Reg) : HOp → Reg
  | .reg op => (op.apply parse r).reg
  | .set name s val => r.update name s val

/-- The objects passed to the registry are ones a program can have. -/
def HOp.Made : HOp → Prop
  | .reg (.addIndom d) => MadeIndom d
  | .reg (.addMetric m) => MadeMetric m
  | _ => True

/-- The registry after a history. -/
def runHist (parse : Str → Option (Str × Str × Option (List Str))) (r : Reg) (ops : List HOp) : Reg :=
  ops.foldl (fun r op => op.apply parse r) r

/-- A registry that a program can have: any history of calls starting with `NewPCPRegistry`. -/
def Built (r : Reg) : Prop :=
  ∃ parse ops, (∀ op ∈ ops, HOp.Made op) ∧ r = runHist parse Reg.empty ops

theorem update_desc (m : Metric) (s val) : (m.update s val).desc = m.desc := by
  unfold Metric.update; split <;> rfl
theorem update_uid (m : Metric) (s val) : (m.update s val).uid = m.uid := by
  unfold Metric.update; split <;> rfl
theorem update_indom (m : Metric) (s val) : (m.update s val).indom = m.indom := by
  unfold Metric.update; split
  · exact put_indom ..
  · rfl
theorem update_slotNames (m : Metric) (s val) : (m.update s val).slotNames = m.slotNames := by
  unfold Metric.update; split
  · exact put_slotNames ..
  · rfl

theorem update_map {β : Type} (r : Reg) (name s val) (f : Metric → β) (hf : ∀ m, f (m.update s val) = f m) :
    (r.update name s val).metrics.map f = r.metrics.map f := by
  unfold Reg.update
  rw [List.map_map]
  apply List.map_congr_left
  intro m _
  dsimp only [Function.comp]
  split
  · exact hf m
  · rfl

theorem RegInv.update {r : Reg} (h : RegInv r) (name s val) : RegInv (r.update name s val) := by
  have hmem : ∀ m ∈ (r.update name s val).metrics, ∃ m' ∈ r.metrics, m = m' ∨ m = m'.update s val := by
    intro m hm
    unfold Reg.update at hm
    obtain ⟨m', h1, h2⟩ := List.mem_map.1 hm
    refine ⟨m', h1, ?_⟩
    split at h2
    · exact .inr h2.symm
    · exact .inl h2.symm
  refine ⟨⟨h.counts.insts, ?_, ?_, ?_⟩, ⟨h.unique.1, ?_⟩, h.indoms, ?_, ?_⟩
  · rw [update_map _ _ _ _ _ (fun m => by rw [update_slotNames])]; exact h.counts.values
  · have h1 : (r.update name s val).metrics.flatMap (fun m => [m.desc.short, m.desc.long]) =
        r.metrics.flatMap (fun m => [m.desc.short, m.desc.long]) := by
      rw [List.flatMap_def, List.flatMap_def, update_map _ _ _ _ _ (fun m => by rw [update_desc])]
    have h2 : ((r.update name s val).metrics.filter (fun m => m.desc.t = StringType)).map (fun m => m.slotNames.length) =
        (r.metrics.filter (fun m => m.desc.t = StringType)).map (fun m => m.slotNames.length) := by
      unfold Reg.update
      dsimp only
      induction r.metrics with
      | nil => rfl
      | cons m l ih =>
        have e1 : (if m.desc.name = name then m.update s val else m).desc = m.desc := by
          split
          · exact update_desc ..
          · rfl
        have e2 : (if m.desc.name = name then m.update s val else m).slotNames = m.slotNames := by
          split
          · exact update_slotNames ..
          · rfl
        rw [List.map_cons]
        by_cases ht : m.desc.t = StringType
        · rw [List.filter_cons_of_pos (by rw [e1]; simpa using ht), List.filter_cons_of_pos (by simpa using ht),
            List.map_cons, List.map_cons, ih, e2]
        · rw [List.filter_cons_of_neg (by rw [e1]; simpa using ht), List.filter_cons_of_neg (by simpa using ht), ih]
    rw [h1, h2]
    exact h.counts.strings
  · rw [show (r.update name s val).version2 = r.version2 from rfl, h.counts.version]
    have : (∃ m ∈ (r.update name s val).metrics, m.desc.name.length > 63) ↔ ∃ m ∈ r.metrics, m.desc.name.length > 63 := by
      have h1 := update_map r name s val (fun m => m.desc.name) (fun m => by rw [update_desc])
      have : ∀ (l : List Metric), (∃ m ∈ l, m.desc.name.length > 63) ↔ ∃ n ∈ l.map (fun m => m.desc.name), n.length > 63 := by
        simp
      rw [this, this, h1]
    rw [this]
    exact Iff.rfl
  · rw [update_map _ _ _ _ _ (fun m => by rw [update_desc])]; exact h.unique.2
  · intro m hm
    obtain ⟨m', h1, rfl | rfl⟩ := hmem m hm
    · exact h.metrics _ h1
    · exact (h.metrics _ h1).update s val
  · intro m hm d hd
    obtain ⟨m', h1, rfl | rfl⟩ := hmem m hm
    · exact h.named _ h1 d hd
    · rw [update_indom] at hd; exact h.named _ h1 d hd

theorem RegInv.hist {parse} {r : Reg} (h : RegInv r) (ops : List HOp) (hops : ∀ op ∈ ops, op.Made) :
    RegInv (runHist parse r ops) := by
  induction ops generalizing r with
  | nil => exact h
  | cons op ops ih =>
    refine ih ?_ (fun o ho => hops o (by simp [ho]))
    have hop := hops op (by simp)
    cases op with
    | reg op =>
      refine h.apply op ?_
      cases op <;> first | trivial | exact MadeIndom.wf hop | exact MadeMetric.wf hop
    | set name s val => exact h.update name s val

theorem Built.inv {r : Reg} (h : Built r) : RegInv r := by
  obtain ⟨parse, ops, h1, rfl⟩ := h
  exact regInv_empty.hist ops h1

end Speed
