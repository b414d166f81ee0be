import Verif.PropsEdge
import Verif.PropsRegistry
import Verif.RegConcLive
/-
C43: concurrent registration.

`RReach (rinit r progs) s`: goroutine `i` calls `AddMetric` for the metrics `progs[i]`, one after the other;
some interleaving of single accesses to the registry leads to `s`. `s.log` has the results of the calls
that have returned.
-/
namespace Speed

/-! ### Specification -/

/-- The counts match the contents: the statement of C12. -/
def CountsMatch (r : Reg) : Prop :=
  r.MetricCount = r.metrics.length ∧ r.InstanceDomainCount = r.indoms.length ∧
  r.ValuesCount = (r.metrics.map valuesOf).sum ∧
  r.InstanceCount = (r.indoms.map fun d => d.insts.length).sum ∧
  (LongName r → r.StringCount = textsOf r + r.metrics.length + (r.indoms.map fun d => d.insts.length).sum) ∧
  (¬ LongName r → r.StringCount = textsOf r)

/-- C43: all calls have returned; for each name exactly one registration succeeded; the counts match. -/
def RegisteredWell (r : Reg) (progs : List (List Metric)) (s : RSt) : Prop :=
  s.finished ∧
  (∀ m ∈ progs.flatten, r.hasMetric m.desc.name = false →
    (s.log.filter (fun x => x.1.desc.name = m.desc.name ∧ x.2)).length = 1) ∧
  CountsMatch s.reg

/-! ### It is false -/

/-- Two metrics with the same name. -/
def dupProgs : List (List Metric) := [(newPCPCounter 1 5 sC []).toList, (newPCPCounter 2 6 sC []).toList]

/-- Both goroutines look for the name before one of them adds it. -/
theorem C43_refuted_duplicate : ∃ s, RReach (rinit Reg.empty dupProgs) s ∧ s.finished ∧
    s.log.map (fun x => (x.1.uid, x.1.desc.name, x.2)) = [(1, sC, true), (2, sC, true)] ∧
    s.reg.metrics.map (·.uid) = [2] ∧ s.reg.ValuesCount = 2 ∧ ¬ CountsMatch s.reg := by
  obtain ⟨s, hs⟩ : ∃ s, rrun (rinit Reg.empty dupProgs) (List.replicate 5 0 ++ List.replicate 5 1 ++
      List.replicate 5 0 ++ List.replicate 5 1) = some s := Option.isSome_iff_exists.1 (by decide)
  have h : some s = _ := hs.symm
  refine ⟨s, reach_rrun hs, ?_⟩
  obtain rfl := Option.some.inj h
  refine ⟨by unfold RSt.finished; decide, by decide, by decide, by decide, fun h => ?_⟩
  exact absurd h.2.2.1 (by decide)

/-- A counter with a description and a counter vector whose domain has one, built with
`NewPCPInstanceMetric`. The names are different, and so are the domains. -/
def lostDom : Option Indom := newIndom 10 sD [sA] [sB]
def lostProgs : List (List Metric) :=
  [(newPCPCounter 1 5 sC [sA]).toList,
   (lostDom.bind fun d => newPCPInstanceMetric 2 [(sA, .int32 7)] sS d Int32Type InstantSemantics OneUnit []).toList]

/-- `stringcount` is incremented under two different locks: one of two increments gets lost. -/
theorem C43_refuted_lost_update : ∃ s, RReach (rinit Reg.empty lostProgs) s ∧ s.finished ∧
    s.log.map (fun x => (x.1.desc.name, x.2)) = [(sC, true), (sS, true)] ∧
    s.reg.StringCount = 1 ∧ textsOf s.reg = 2 ∧ ¬ CountsMatch s.reg := by
  obtain ⟨s, hs⟩ : ∃ s, rrun (rinit Reg.empty lostProgs) (List.replicate 19 1 ++ List.replicate 12 0 ++
      List.replicate 7 1) = some s := Option.isSome_iff_exists.1 (by decide)
  have h : some s = _ := hs.symm
  refine ⟨s, reach_rrun hs, ?_⟩
  obtain rfl := Option.some.inj h
  refine ⟨by unfold RSt.finished; decide, by decide, by decide, by decide, fun h => ?_⟩
  exact absurd (h.2.2.2.2.2 (by unfold LongName; decide)) (by decide)

/-- Two metrics with different names over the same domain. -/
def sharedDom : Option Indom := newIndom 10 sD [sA] []
def sharedMetric (uid : Nat) (name : Str) : List Metric :=
  (sharedDom.bind fun d => newPCPInstanceMetric uid [(sA, .int32 7)] name d Int32Type InstantSemantics OneUnit []).toList
def sharedProgs : List (List Metric) := [sharedMetric 1 sC, sharedMetric 2 sS]

/-- Both find the domain missing; the second one then fails to add it, and its metric is not registered. -/
theorem C43_refuted_shared_fails : ∃ s, RReach (rinit Reg.empty sharedProgs) s ∧ s.finished ∧
    s.log.map (fun x => (x.1.desc.name, x.2)) = [(sC, true), (sS, false)] ∧
    s.reg.metrics.map (·.desc.name) = [sC] := by
  obtain ⟨s, hs⟩ : ∃ s, rrun (rinit Reg.empty sharedProgs) (List.replicate 8 0 ++ List.replicate 8 1 ++
      List.replicate 16 0 ++ List.replicate 3 1) = some s := Option.isSome_iff_exists.1 (by decide)
  have h : some s = _ := hs.symm
  refine ⟨s, reach_rrun hs, ?_⟩
  obtain rfl := Option.some.inj h
  exact ⟨by unfold RSt.finished; decide, by decide, by decide⟩

/-- Or both add it, and its instances are counted twice. -/
theorem C43_refuted_shared_counts : ∃ s, RReach (rinit Reg.empty sharedProgs) s ∧ s.finished ∧
    s.log.map (fun x => (x.1.desc.name, x.2)) = [(sC, true), (sS, true)] ∧
    s.reg.indoms.map (·.insts.length) = [1] ∧ s.reg.InstanceCount = 2 := by
  obtain ⟨s, hs⟩ : ∃ s, rrun (rinit Reg.empty sharedProgs) (List.replicate 11 0 ++ List.replicate 11 1 ++
      List.replicate 13 0 ++ List.replicate 13 1) = some s := Option.isSome_iff_exists.1 (by decide)
  have h : some s = _ := hs.symm
  refine ⟨s, reach_rrun hs, ?_⟩
  obtain rfl := Option.some.inj h
  exact ⟨by unfold RSt.finished; decide, by decide, by decide, by decide⟩

/-- **C43** is false. -/
theorem C43_refuted : ¬ ∀ r progs s, Built r → r.mapped = false → (∀ P ∈ progs, ∀ m ∈ P, MadeMetric m) →
    RReach (rinit r progs) s → s.finished → RegisteredWell r progs s := by
  intro h
  obtain ⟨s, h1, h2, _, _, _, h3⟩ := C43_refuted_duplicate
  refine h3 (h Reg.empty dupProgs s ⟨fun _ => none, [], by simp, rfl⟩ rfl ?_ h1 h2).2.2
  intro P hP m hm
  unfold dupProgs at hP
  simp only [List.mem_cons, List.not_mem_nil, or_false] at hP
  rcases hP with rfl | rfl
  · exact .counter (Option.mem_toList.1 hm)
  · exact .counter (Option.mem_toList.1 hm)

/-! ### What holds -/

/-- C43: whatever is registered concurrently, there is no deadlock and every schedule ends. -/
theorem C43_no_deadlock (r : Reg) (progs : List (List Metric)) :
    (∀ s, RReach (rinit r progs) s → (∀ t, ¬ RStep s t) → s.finished) ∧
    ¬ ∃ f : Nat → RSt, f 0 = rinit r progs ∧ ∀ n, RStep (f n) (f (n + 1)) :=
  ⟨fun _ hs hst => no_deadlock ((linv_init r progs).reach hs) hst, rreach_finite _ (linv_init r progs)⟩

theorem countsMatch_of {r R : Reg} (h : Acc r [] R) (hR : RegInv R) : CountsMatch r := by
  have hm : r.metrics.Perm R.metrics := by simpa using h.metrics
  have hi : r.indoms.Perm R.indoms := by simpa using h.indoms
  have hc := hR.counts
  have hf : (fun m : Metric => m.slotNames.length) = valuesOf := funext slotNames_valuesOf
  have e1 : r.instanceCount = (r.indoms.map fun d => d.insts.length).sum := by
    have := h.ctr .inst
    simp only [Reg.ctr, List.map_nil, List.sum_nil, Nat.add_zero] at this
    rw [this, hc.insts, (hi.map _).sum_eq]
  have e2 : r.valueCount = (r.metrics.map valuesOf).sum := by
    have := h.ctr .val
    simp only [Reg.ctr, List.map_nil, List.sum_nil, Nat.add_zero] at this
    rw [this, hc.values, hf, (hm.map _).sum_eq]
  have e3 : r.stringcount = textsOf r := by
    have := h.ctr .str
    simp only [Reg.ctr, List.map_nil, List.sum_nil, Nat.add_zero] at this
    rw [this, hc.strings, hf]
    unfold textsOf nonEmpty
    rw [((hi.flatMap_right fun d => [d.short, d.long]).filter _).length_eq,
      ((hm.flatMap_right fun m => [m.desc.short, m.desc.long]).filter _).length_eq,
      ((hm.filter fun m => m.desc.t = StringType).map valuesOf).sum_eq]
  have e4 : r.version2 = true ↔ LongName r := by
    have := h.v2
    simp only [List.any_nil, Bool.or_false] at this
    rw [this, hc.version]
    unfold LongName
    simp only [hm.mem_iff, hi.mem_iff]
  refine ⟨rfl, rfl, e2, e1, fun hl => ?_, fun hl => ?_⟩
  · unfold Reg.StringCount Reg.MetricCount Reg.InstanceCount
    rw [if_pos (e4.2 hl), e3, e1]
  · unfold Reg.StringCount
    rw [if_neg (fun h => hl (e4.1 h)), e3]

theorem registered_of_inv {r R : Reg} {progs : List (List Metric)} (hy : RHyp r progs) {s : RSt}
    (h : RCInv r progs R s) :
    (∀ x ∈ s.log, x.2 = true) ∧
    (s.finished → RegisteredWell r progs s ∧ (s.log.map (·.1)).Perm progs.flatten ∧
      s.reg.metrics.Perm (r.metrics ++ progs.flatten) ∧ (s.reg.indoms.map (·.name)).Nodup ∧
      (∀ d ∈ r.indoms, d ∈ s.reg.indoms) ∧
      (∀ d ∈ s.reg.indoms, d ∈ r.indoms ∨ ∃ m ∈ progs.flatten, m.indom = some d) ∧
      ∀ m ∈ s.reg.metrics, ∀ d, m.indom = some d → ∃ d' ∈ s.reg.indoms, d'.name = d.name) := by
  refine ⟨h.ok, fun hfin => ?_⟩
  have hidle : ∀ {α : Type} (f : RTh → List α), f (.idle []) = [] → s.thr.flatMap f = [] := by
    intro α f hf
    rw [List.flatMap_eq_nil_iff]
    intro t ht
    rw [hfin t ht]; exact hf
  have hacc := h.acc
  rw [hidle _ rfl] at hacc
  have hlog := h.log
  rw [hidle _ rfl, List.append_nil] at hlog
  have htodo := h.todo
  rw [hidle _ rfl, List.append_nil] at htodo
  have hm : s.reg.metrics.Perm R.metrics := by simpa using hacc.metrics
  have hi : s.reg.indoms.Perm R.indoms := by simpa using hacc.indoms
  refine ⟨⟨hfin, ?_, countsMatch_of hacc h.inv⟩, hlog, hm.trans htodo, (hi.map _).nodup_iff.2 h.inv.unique.1,
    h.old, fun d hd => h.src d (hi.mem_iff.1 hd), ?_⟩
  · intro m hmf _
    have h1 : (s.log.filter (fun x => x.1.desc.name = m.desc.name ∧ x.2)).length =
        ((s.log.map (·.1)).filter (fun x => x.desc.name = m.desc.name)).length := by
      rw [List.filter_map, List.length_map]
      congr 1
      apply List.filter_congr
      intro x hx
      simp [h.ok x hx]
    rw [h1, (hlog.filter _).length_eq]
    have h2 : ((progs.flatten).map (fun m => m.desc.name)).Nodup := by
      have hnames := hy.names
      rw [List.map_append] at hnames
      exact (List.nodup_append.1 hnames).2.1
    have h3 : (progs.flatten.filter (fun x => x.desc.name = m.desc.name)).length =
        (progs.flatten.map (fun x => x.desc.name)).count m.desc.name := by
      rw [List.count, List.countP_map, List.countP_eq_length_filter]
      congr 1
      apply List.filter_congr
      intro x _
      exact Bool.eq_iff_iff.2 (by simp)
    rw [h3]
    exact List.count_eq_one_of_mem h2 (List.mem_map.2 ⟨m, hmf, rfl⟩)
  · intro m hmr d hd
    obtain ⟨d', h1, h2⟩ := h.inv.named m (hm.mem_iff.1 hmr) d hd
    exact ⟨d', hi.mem_iff.2 h1, h2⟩

/-- C43, partial: if the names are new and all different, two goroutines never use the same new domain name,
and the new domains have no descriptions (the domains of counter and gauge vectors have none), then under
every interleaving no call fails, and when all have returned each metric has been registered exactly once,
nothing else is registered, and the counts match.

Missing: the same name twice (`C43_refuted_duplicate`), domains with descriptions
(`C43_refuted_lost_update`), and new domains shared by goroutines (`C43_refuted_shared_fails`,
`C43_refuted_shared_counts`), for which the statement is false. -/
theorem C43_registered_partial {r : Reg} (hb : Built r) (hmp : r.mapped = false) {progs : List (List Metric)}
    (hmade : ∀ P ∈ progs, ∀ m ∈ P, MadeMetric m)
    (hnames : ((r.metrics ++ progs.flatten).map (fun m => m.desc.name)).Nodup)
    (hown : ∀ (i j : Nat) P Q, progs[i]? = some P → progs[j]? = some Q → i ≠ j → ∀ m ∈ P, ∀ m' ∈ Q, ∀ d d',
      m.indom = some d → m'.indom = some d' → d.name = d'.name → r.hasIndom d.name = true)
    (hplain : ∀ m ∈ progs.flatten, ∀ d, m.indom = some d →
      r.hasIndom d.name = true ∨ (d.short = [] ∧ d.long = []))
    {s : RSt} (hs : RReach (rinit r progs) s) :
    (∀ x ∈ s.log, x.2 = true) ∧
    (s.finished → RegisteredWell r progs s ∧ (s.log.map (·.1)).Perm progs.flatten ∧
      s.reg.metrics.Perm (r.metrics ++ progs.flatten) ∧ (s.reg.indoms.map (·.name)).Nodup ∧
      (∀ d ∈ r.indoms, d ∈ s.reg.indoms) ∧
      (∀ d ∈ s.reg.indoms, d ∈ r.indoms ∨ ∃ m ∈ progs.flatten, m.indom = some d) ∧
      ∀ m ∈ s.reg.metrics, ∀ d, m.indom = some d → ∃ d' ∈ s.reg.indoms, d'.name = d.name) := by
  have hy : RHyp r progs := by
    refine ⟨hb.inv, hmp, ?_, hnames, hown, hplain⟩
    intro m hm
    obtain ⟨P, hP, hm⟩ := List.mem_flatten.1 hm
    exact (hmade P hP m hm).wf
  obtain ⟨R, h⟩ := (rcinv_init hy).reach hy hs
  exact registered_of_inv hy h

/-- A registry with an instance domain, and three goroutines: two of them register a metric with that domain;
two register vectors. -/
def fineReg : Reg := regOf (sharedDom.toList.map fun d => .reg (.addIndom d))
def fineProgs : List (List Metric) :=
  [(newPCPCounter 1 5 sC [sA]).toList ++ sharedMetric 2 sS,
   (newPCPGaugeVector 3 20 [(sA, 0)] sB []).toList ++ (newPCPCounterVector 4 21 [(sA, 0), (sB, 1)] sA []).toList,
   (newPCPTimer 5 sLong 0 []).toList ++ sharedMetric 6 sD]

/-- A computable form of the hypothesis on the domains. -/
def ownCheck (r : Reg) (progs : List (List Metric)) : Bool :=
  (List.range progs.length).all fun i => (List.range progs.length).all fun j => i == j ||
    (progs.getD i []).all fun m => (progs.getD j []).all fun m' =>
      m.indom.all fun d => m'.indom.all fun d' => d.name != d'.name || r.hasIndom d.name

theorem ownCheck_spec {r : Reg} {progs : List (List Metric)} (h : ownCheck r progs = true) :
    ∀ (i j : Nat) P Q, progs[i]? = some P → progs[j]? = some Q → i ≠ j → ∀ m ∈ P, ∀ m' ∈ Q, ∀ d d',
      m.indom = some d → m'.indom = some d' → d.name = d'.name → r.hasIndom d.name = true := by
  intro i j P Q hP hQ hij m hm m' hm' d d' hd hd' hn
  unfold ownCheck at h
  have hi := (List.getElem?_eq_some_iff.1 hP).1
  have hj := (List.getElem?_eq_some_iff.1 hQ).1
  have h := List.all_eq_true.1 (List.all_eq_true.1 h i (List.mem_range.2 hi)) j (List.mem_range.2 hj)
  rw [beq_eq_false_iff_ne.2 hij, Bool.false_or, List.getD_eq_getElem?_getD, hP, List.getD_eq_getElem?_getD, hQ] at h
  have h := List.all_eq_true.1 (List.all_eq_true.1 h m hm) m' hm'
  rw [hd, hd'] at h
  simpa [hn] using h

theorem sharedMetric_made (uid : Nat) (name : Str) : ∀ m ∈ sharedMetric uid name, MadeMetric m := by
  intro m hm
  have hm := Option.mem_toList.1 hm
  obtain ⟨d, hd, hm⟩ := Option.bind_eq_some_iff.1 hm
  exact .instance_ ⟨_, _, _, _, hd⟩ hm

example : ∃ s, RReach (rinit fineReg fineProgs) s ∧ s.finished ∧ s.log.length = 6 ∧ Built fineReg ∧
    RegisteredWell fineReg fineProgs s := by
  obtain ⟨s, hs⟩ : ∃ s, rrun (rinit fineReg fineProgs)
      [0, 0, 0, 0, 0, 1, 1, 1, 1, 1, 2, 2, 2, 2, 2, 0, 0, 0, 0, 0, 1, 1, 1, 1, 1, 0, 0, 0, 0, 0, 1, 1, 1, 1, 1, 0,
      0, 1, 1, 1, 2, 2, 2, 2, 2, 1, 2, 2, 2, 2, 0, 0, 0, 0, 0, 0, 0, 0, 1, 1, 1, 1, 1, 1, 1, 2, 2, 2, 2, 2, 1, 1,
      1, 1, 1, 2, 2, 2, 2, 2, 1, 1, 1, 1, 1, 2, 1, 1, 1, 1, 1, 1, 1, 1, 1, 1, 1, 1] = some s := Option.isSome_iff_exists.1 (by decide)
  have h : some s = _ := hs.symm
  have hb : Built fineReg := by
    refine ⟨_, _, ?_, rfl⟩
    intro op hop
    obtain ⟨d, hd, rfl⟩ := List.mem_map.1 hop
    exact ⟨_, _, _, _, Option.mem_toList.1 hd⟩
  have hf : s.finished ∧ s.log.length = 6 := by
    obtain rfl := Option.some.inj h
    exact ⟨by unfold RSt.finished; decide, by decide⟩
  have hmade : ∀ P ∈ fineProgs, ∀ m ∈ P, MadeMetric m := by
    intro P hP m hm
    unfold fineProgs at hP
    simp only [List.mem_cons, List.not_mem_nil, or_false] at hP
    rcases hP with rfl | rfl | rfl <;> rcases List.mem_append.1 hm with hm | hm
    · exact .counter (Option.mem_toList.1 hm)
    · exact sharedMetric_made _ _ m hm
    · exact .gaugeVector (Option.mem_toList.1 hm)
    · exact .counterVector (Option.mem_toList.1 hm)
    · exact .timer (Option.mem_toList.1 hm)
    · exact sharedMetric_made _ _ m hm
  have hpl : ∀ m ∈ fineProgs.flatten, (m.indom.all fun d => fineReg.hasIndom d.name || (d.short == [] && d.long == [])) = true := by
    decide
  refine ⟨s, reach_rrun hs, hf.1, hf.2, hb, ((C43_registered_partial hb (by decide) hmade (by decide)
    (ownCheck_spec (by decide)) ?_ (reach_rrun hs)).2 hf.1).1⟩
  intro m hm d hd
  have := hpl m hm
  rw [hd] at this
  simpa using this

end Speed
