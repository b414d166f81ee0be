import Verif.PropsClient
/-
What is registered stays (C90).
-/
namespace Speed

/-- `r'` has what `r` has, in the same places, and possibly more. -/
structure Grows (r r' : Reg) : Prop where
  indoms : ∃ ds, r'.indoms = r.indoms ++ ds
  metrics : ∃ ms, r'.metrics = r.metrics ++ ms
  instanceCount : r.instanceCount ≤ r'.instanceCount
  valueCount : r.valueCount ≤ r'.valueCount
  stringcount : r.stringcount ≤ r'.stringcount
  version2 : r.version2 = true → r'.version2 = true

theorem Grows.refl (r : Reg) : Grows r r := ⟨⟨[], by simp⟩, ⟨[], by simp⟩, Nat.le_refl _, Nat.le_refl _, Nat.le_refl _, id⟩

theorem Grows.trans {a b c : Reg} (h : Grows a b) (h' : Grows b c) : Grows a c := by
  obtain ⟨⟨d1, e1⟩, ⟨m1, f1⟩, g1, g2, g3, g4⟩ := h
  obtain ⟨⟨d2, e2⟩, ⟨m2, f2⟩, k1, k2, k3, k4⟩ := h'
  exact ⟨⟨d1 ++ d2, by rw [e2, e1, List.append_assoc]⟩, ⟨m1 ++ m2, by rw [f2, f1, List.append_assoc]⟩,
    Nat.le_trans g1 k1, Nat.le_trans g2 k2, Nat.le_trans g3 k3, k4 ∘ g4⟩

theorem grows_addIndom {r r' : Reg} {d : Indom} (h : r.addIndom d = some r') : Grows r r' := by
  unfold Reg.addIndom at h
  split at h
  · cases h
  split at h
  · cases h
  cases h
  exact ⟨⟨_, rfl⟩, ⟨[], by simp⟩, by simp, Nat.le_refl _, by simp only; omega, fun h => by simp [h]⟩

theorem grows_unchecked (r : Reg) (m : Metric) : Grows r (r.addMetricUnchecked m) :=
  ⟨⟨[], by simp [Reg.addMetricUnchecked]⟩, ⟨_, rfl⟩, Nat.le_refl _, by simp [Reg.addMetricUnchecked],
    by simp only [Reg.addMetricUnchecked]; omega, fun h => by simp [Reg.addMetricUnchecked, h]⟩

theorem grows_addMetric (r : Reg) (m : Metric) : Grows r (r.addMetric m).reg := by
  unfold Reg.addMetric
  split
  · exact .refl r
  split
  · exact .refl r
  split
  · exact grows_unchecked r m
  split
  · exact grows_unchecked r m
  split
  · exact .refl r
  · rename_i h
    exact (grows_addIndom h).trans (grows_unchecked _ _)

theorem grows_byName {r r' : Reg} {uid name insts d} (h : r.addIndomByName uid name insts = some (r', d)) : Grows r r' := by
  unfold Reg.addIndomByName at h
  split at h
  · cases h
  split at h
  · cases h
  split at h
  · cases h
  · rename_i h'
    cases h
    exact grows_addIndom h'

theorem grows_byString (parse : Str → Option (Str × Str × Option (List Str))) (r : Reg) (uid duid str val t s u) :
    Grows r (r.addMetricByString parse uid duid str val t s u).reg := by
  unfold Reg.addMetricByString
  split
  · exact .refl r
  · unfold Reg.addSingletonByString
    split
    · exact .refl r
    · exact grows_addMetric _ _
  · unfold Reg.addInstanceByString
    split
    · exact .refl r
    · dsimp only
      split
      · split
        · exact .refl r
        · rename_i h
          split
          · exact grows_byName h
          · exact (grows_byName h).trans (grows_addMetric _ _)
      · split
        · split
          · exact .refl r
          · exact grows_addMetric _ _
        · exact .refl r

theorem grows_apply (parse : Str → Option (Str × Str × Option (List Str))) (r : Reg) (op : ROp) :
    Grows r (op.apply parse r).reg := by
  cases op with
  | addIndom d =>
    simp only [ROp.apply]
    split
    · rename_i h; exact grows_addIndom h
    · exact .refl r
  | addMetric m => exact grows_addMetric r m
  | byName uid name insts =>
    simp only [ROp.apply]
    split
    · rename_i h; exact grows_byName h
    · exact .refl r
  | byString => exact grows_byString _ _ _ _ _ _ _ _ _
  | mapped b => exact ⟨⟨[], by simp [ROp.apply]⟩, ⟨[], by simp [ROp.apply]⟩, Nat.le_refl _, Nat.le_refl _, Nat.le_refl _, id⟩

/-- `r'` has what `r` has, in the same places, with possibly other values, and possibly more. -/
structure Keeps (r r' : Reg) : Prop where
  indoms : ∃ ds, r'.indoms = r.indoms ++ ds
  metrics : ∀ (i : Nat) (m : Metric), r.metrics[i]? = some m → ∃ m', r'.metrics[i]? = some m' ∧ m'.shape = m.shape
  instanceCount : r.instanceCount ≤ r'.instanceCount
  valueCount : r.valueCount ≤ r'.valueCount
  stringcount : r.stringcount ≤ r'.stringcount
  version2 : r.version2 = true → r'.version2 = true

theorem Grows.keeps {r r' : Reg} (h : Grows r r') : Keeps r r' := by
  obtain ⟨hd, ⟨ms, hm⟩, h1, h2, h3, h4⟩ := h
  refine ⟨hd, fun i m hi => ⟨m, ?_, rfl⟩, h1, h2, h3, h4⟩
  rw [hm, List.getElem?_append_left (List.getElem?_eq_some_iff.1 hi).1, hi]

theorem Frozen.keeps {r r' : Reg} (h : Frozen r r') : Keeps r r' := by
  refine ⟨⟨[], by simp [h.indoms]⟩, fun i m hi => ?_, Nat.le_of_eq h.instanceCount.symm, Nat.le_of_eq h.valueCount.symm,
    Nat.le_of_eq h.stringcount.symm, fun hv => h.version2.trans hv⟩
  have := congrArg (·[i]?) h.metrics
  simp only [List.getElem?_map, hi, Option.map_some] at this
  cases hx : r'.metrics[i]? with
  | none => rw [hx] at this; cases this
  | some m' => rw [hx] at this; exact ⟨m', rfl, Option.some.inj this⟩

theorem Keeps.refl (r : Reg) : Keeps r r := (Grows.refl r).keeps

theorem Keeps.trans {a b c : Reg} (h : Keeps a b) (h' : Keeps b c) : Keeps a c := by
  obtain ⟨⟨d1, e1⟩, f1, g1, g2, g3, g4⟩ := h
  obtain ⟨⟨d2, e2⟩, f2, k1, k2, k3, k4⟩ := h'
  refine ⟨⟨d1 ++ d2, by rw [e2, e1, List.append_assoc]⟩, fun i m hi => ?_,
    Nat.le_trans g1 k1, Nat.le_trans g2 k2, Nat.le_trans g3 k3, k4 ∘ g4⟩
  obtain ⟨m1, hm1, hs1⟩ := f1 i m hi
  obtain ⟨m2, hm2, hs2⟩ := f2 i m1 hm1
  exact ⟨m2, hm2, hs2.trans hs1⟩

/-- Only the mapped flag differs. -/
theorem keeps_mapped (r : Reg) (b : Bool) : Keeps r { r with mapped := b } :=
  Frozen.keeps ⟨rfl, rfl, rfl, rfl, rfl, rfl⟩

section
variable {cf : Conf} {tmp : Str} {parse : Str → Option (Str × Str × Option (List Str))}

theorem CStep.keeps {w op w' res} (h : CStep cf tmp parse w op w' res) (hb : BuiltBy parse w.reg) : Keeps w.reg w'.reg := by
  have hcall : ∀ {m : Metric} {name : Str} {m' : Metric}, m ∈ w.reg.metrics → m.desc.name = name → m'.shape = m.shape →
      Keeps w.reg (w.reg.replace name m') := by
    intro m name m' hm hn hs
    subst hn
    exact (frozen_replace hb.nodup hm hs).keeps
  cases h with
  | new_err => exact .refl _
  | new_ok => exact .refl _
  | setFlag => unfold Sys.setFlag; split <;> exact .refl _
  | reg => exact (grows_apply parse _ _).keeps
  | call_free _ hm hn => exact hcall hm hn (Call.shape _ _ _)
  | call_live _ hm hn => exact hcall hm hn (Call.shape _ _ _)
  | @call_dead name m c n u m' a _ hm hn _ _ ht =>
    have := Call.shape c u ⟨m, []⟩
    rw [ht []] at this
    exact hcall hm hn this
  | call_crash => exact .refl _
  | start_err => exact .refl _
  | start_ok => exact keeps_mapped _ _
  | start_crash => exact .refl _
  | stop =>
    unfold Sys.stop
    split
    · exact .refl _
    · dsimp only
      split <;> exact keeps_mapped _ _

theorem CSteps.keeps {w ops w'} (h : CSteps cf tmp parse w ops w') (hb : BuiltBy parse w.reg) : Keeps w.reg w'.reg := by
  induction h with
  | nil => exact .refl _
  | cons h _ ih => exact (h.keeps hb).trans (ih (h.built hb))

/-- C90: whatever a program does next (registrations that succeed or fail, value operations, `Start`, `Stop`, with any results of
system calls), every registered metric stays registered, in its place, as the same object with the same kind, name,
id, type, semantics, unit and descriptions, with a value for the same instances of the same domain; every registered
domain stays as it is. -/
theorem C90_kept {fs pre w ops w'} (h0 : CSteps cf tmp parse (Sys.init fs) pre w) (h : CSteps cf tmp parse w ops w') :
    (∀ (i : Nat) (m : Metric), w.reg.metrics[i]? = some m → ∃ m', w'.reg.metrics[i]? = some m' ∧ m'.uid = m.uid ∧
      m'.kind = m.kind ∧ m'.desc = m.desc ∧ m'.indom = m.indom ∧ m'.slots = m.slots) ∧
    (∀ (i : Nat) (d : Indom), w.reg.indoms[i]? = some d → w'.reg.indoms[i]? = some d) ∧
    (∀ n, w.reg.hasMetric n = true → w'.reg.hasMetric n = true) ∧
    (∀ n, w.reg.hasIndom n = true → w'.reg.hasIndom n = true) := by
  have hk := h.keeps (h0.built builtBy_empty)
  obtain ⟨ds, hds⟩ := hk.indoms
  refine ⟨fun i m hi => ?_, fun i d hi => ?_, fun n hn => ?_, fun n hn => ?_⟩
  · obtain ⟨m', hm', hs⟩ := hk.metrics i m hi
    exact ⟨m', hm', shape_uid hs, congrArg (fun x => x.2.1) hs, shape_desc hs, congrArg (fun x => x.2.2.2.1) hs,
      congrArg (fun x => x.2.2.2.2) hs⟩
  · rw [hds, List.getElem?_append_left (List.getElem?_eq_some_iff.1 hi).1, hi]
  · unfold Reg.hasMetric at hn ⊢
    obtain ⟨m, hm, he⟩ := List.any_eq_true.1 hn
    obtain ⟨i, hi⟩ := List.getElem?_of_mem hm
    obtain ⟨m', hm', hs⟩ := hk.metrics i m hi
    exact List.any_eq_true.2 ⟨m', List.mem_of_getElem? hm', by rw [shape_desc hs]; exact he⟩
  · unfold Reg.hasIndom at hn ⊢
    rw [hds, List.any_append, hn, Bool.true_or]

theorem length_mono {r r' : Reg} (h : Keeps r r') : r.Length ≤ r'.Length := by
  obtain ⟨ds, hds⟩ := h.indoms
  have h1 : r.indoms.length ≤ r'.indoms.length := by rw [hds]; simp
  have h2 : r.metrics.length ≤ r'.metrics.length := by
    cases hl : r.metrics.length with
    | zero => omega
    | succ k =>
      obtain ⟨m', hm', _⟩ := h.metrics k _ (List.getElem?_eq_getElem (by omega))
      have := (List.getElem?_eq_some_iff.1 hm').1
      omega
  have h3 := h.instanceCount
  have h4 := h.valueCount
  have h5 := h.stringcount
  have h6 := h.version2
  unfold Reg.Length Reg.tocCount Reg.InstanceLength Reg.MetricLength Reg.StringCount Reg.InstanceCount Reg.InstanceDomainCount
    Reg.MetricCount Reg.ValuesCount HeaderLength TocLength InstanceDomainLength ValueLength StringLength Instance1Length
    Instance2Length Metric1Length Metric2Length
  by_cases v : r.version2 = true
  · simp only [v, h6 v, if_true]
    repeat' split
    all_goals omega
  · by_cases v' : r'.version2 = true
    · simp only [v, v', if_true, if_false, Bool.false_eq_true]
      repeat' split
      all_goals omega
    · simp only [v, v', if_false, Bool.false_eq_true]
      repeat' split
      all_goals omega

/-- C90: the counts and the length of the file never get smaller, and the file format never goes back from version 2 to
version 1. -/
theorem C90_counts {fs pre w ops w'} (h0 : CSteps cf tmp parse (Sys.init fs) pre w) (h : CSteps cf tmp parse w ops w') :
    w.reg.MetricCount ≤ w'.reg.MetricCount ∧ w.reg.InstanceDomainCount ≤ w'.reg.InstanceDomainCount ∧
    w.reg.InstanceCount ≤ w'.reg.InstanceCount ∧ w.reg.ValuesCount ≤ w'.reg.ValuesCount ∧
    w.reg.StringCount ≤ w'.reg.StringCount ∧ w.reg.Length ≤ w'.reg.Length ∧
    (w.reg.version2 = true → w'.reg.version2 = true) := by
  have hk := h.keeps (h0.built builtBy_empty)
  obtain ⟨ds, hds⟩ := hk.indoms
  have h2 : w.reg.metrics.length ≤ w'.reg.metrics.length := by
    cases hl : w.reg.metrics.length with
    | zero => omega
    | succ k =>
      obtain ⟨m', hm', _⟩ := hk.metrics k _ (List.getElem?_eq_getElem (by omega))
      have := (List.getElem?_eq_some_iff.1 hm').1
      omega
  refine ⟨h2, ?_, hk.instanceCount, hk.valueCount, ?_, length_mono hk, hk.version2⟩
  · unfold Reg.InstanceDomainCount; rw [hds]; simp
  · have h3 := hk.instanceCount
    have h5 := hk.stringcount
    unfold Reg.StringCount Reg.MetricCount Reg.InstanceCount
    by_cases v : w.reg.version2 = true
    · simp only [v, hk.version2 v, if_true]; omega
    · simp only [v, if_false, Bool.false_eq_true]; split <;> omega

/-- C90: the values of a metric change only by operations on it: if no operation on the metric registered under the name is
among the calls, the object is the same at the end. -/
theorem C90_values {fs pre w ops w'} (h0 : CSteps cf tmp parse (Sys.init fs) pre w) (h : CSteps cf tmp parse w ops w')
    {i : Nat} {m : Metric} (hi : w.reg.metrics[i]? = some m) (hno : ∀ c, COp.call m.desc.name c ∉ ops) :
    w'.reg.metrics[i]? = some m := by
  have hb := h0.built (parse := parse) builtBy_empty
  clear h0
  induction h with
  | nil => exact hi
  | @cons w op w1 res ops w2 hs _ ih =>
    have hrep : ∀ {name : Str} {m' : Metric}, name ≠ m.desc.name → (w.reg.replace name m').metrics[i]? = some m := by
      intro name m' hn
      unfold Reg.replace
      dsimp only
      rw [List.getElem?_map, hi, Option.map_some, if_neg (fun h => hn h.symm)]
    have hne : ∀ {name : Str} {c : Call}, op = .call name c → name ≠ m.desc.name := by
      intro name c ho hn
      subst hn
      exact hno c (by rw [ho]; simp)
    have h1 : w1.reg.metrics[i]? = some m := by
      cases hs with
      | new_err => exact hi
      | new_ok => exact hi
      | setFlag => unfold Sys.setFlag; split <;> exact hi
      | reg =>
        obtain ⟨ms, hm⟩ := (grows_apply parse w.reg _).metrics
        dsimp only
        rw [hm, List.getElem?_append_left (List.getElem?_eq_some_iff.1 hi).1, hi]
      | call_free => exact hrep (hne rfl)
      | call_live => exact hrep (hne rfl)
      | call_dead => exact hrep (hne rfl)
      | call_crash => exact hi
      | start_err => exact hi
      | start_ok => exact hi
      | start_crash => exact hi
      | stop =>
        unfold Sys.stop
        split
        · exact hi
        · dsimp only
          split <;> exact hi
    exact ih h1 (fun c hc => hno c (by simp [hc])) (hs.built hb)

/-- A counter with a long name. -/
def keepLong : Metric := (newPCPCounter 9 0 (List.replicate 64 0x61) []).get (by decide)
/-- The counter of the sample registry. -/
def keepCounter : Metric := (baseReg.metrics[0]?).get (by decide)

/-- The sample registry, an increment of its counter and a counter with a long name: the first counter has another value, the
second metric is the same, the format changes to version 2 and the file gets longer. -/
example (cf : Conf) (tmp : Str) : ∃ pre w ops w' m m' g, CSteps cf tmp (fun _ => none) (Sys.init emptyFS) pre w ∧
    CSteps cf tmp (fun _ => none) w ops w' ∧ w.reg.metrics[0]? = some m ∧ w'.reg.metrics[0]? = some m' ∧
    m.cur none = some (.int64 5) ∧ m'.cur none = some (.int64 6) ∧ m'.desc = m.desc ∧
    w.reg.metrics[1]? = some g ∧ w'.reg.metrics[1]? = some g ∧ w.reg.version2 = false ∧ w'.reg.version2 = true ∧
    w.reg.MetricCount = 3 ∧ w'.reg.MetricCount = 4 ∧ w.reg.Length < w'.reg.Length := by
  obtain ⟨w2, _, h2, rfl⟩ := (CHist.init (cf := cf) (tmp := tmp) (parse := fun _ => none) emptyFS_ok).regs rfl sampleROps sampleROps_ok
  have h3 : CStep cf tmp (fun _ => none) ⟨emptyFS, baseReg, [], fun _ => none, false⟩ (.call keepCounter.desc.name .counterUp)
      ⟨emptyFS, baseReg.replace keepCounter.desc.name (Call.op .counterUp (fun _ => none) ⟨keepCounter, []⟩).1.m, [], fun _ => none, false⟩ _ :=
    .call_free rfl (List.mem_of_getElem? (i := 0) (by decide)) rfl rfl
  have h4 : CStep cf tmp (fun _ => none)
      ⟨emptyFS, baseReg.replace keepCounter.desc.name (Call.op .counterUp (fun _ => none) ⟨keepCounter, []⟩).1.m, [], fun _ => none, false⟩
      (.reg (.addMetric keepLong)) _ _ := .reg rfl (by simp) (MadeMetric.counter (Option.some_get _).symm)
  exact ⟨_, _, _, _, keepCounter, (Call.op .counterUp (fun _ => none) ⟨keepCounter, []⟩).1.m, (baseReg.metrics[1]?).get (by decide), h2,
    .cons h3 (.cons h4 .nil), by decide +kernel, by decide +kernel, by decide +kernel, by decide +kernel, by decide +kernel,
    by decide +kernel, by decide +kernel, by decide +kernel, by decide +kernel, by decide +kernel, by decide +kernel, by decide +kernel⟩

end

end Speed
