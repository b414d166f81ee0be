import Verif.NilUnitSim
import Verif.Sample
/-
`start` with nil units: it is `start` with all units, cut off in the goroutines of the nil ones; it never returns; and the
buffer never gets to the final phase.
-/
namespace Speed

/-! ### Where it is cut -/

theorem not_stores_storeAll {off : Nat} {bs : List Byte} {k : Proc} (h : ¬ OnlyStores k) : ¬ OnlyStores (storeAll off bs k) := by
  induction bs generalizing off with
  | nil => exact h
  | cons b bs ih => exact ih

theorem not_stores_mustWrite {len : Nat} {bs : List Byte} {off : Nat} {k : Nat → Proc} (h : ∀ v, ¬ OnlyStores (k v)) :
    ¬ OnlyStores (mustWrite len bs off k) := by
  unfold mustWrite
  split
  · exact not_stores_storeAll (h _)
  · exact id

theorem mayPanic_mustWrite {len : Nat} {b : Byte} {bs : List Byte} {off : Nat} {k : Nat → Proc} (h : ∀ v, ¬ OnlyStores (k v)) :
    MayPanic (mustWrite len (b :: bs) off k) := by
  refine ⟨not_stores_mustWrite h, ?_⟩
  unfold mustWrite
  split
  · exact .inl ⟨_, _, _, rfl⟩
  · exact .inr rfl

/-- Every unit that is there has the number `desc.unit`. -/
def UnitOf.Partial (U : UnitOf) : Prop := ∀ m, U m = none ∨ U m = some m.desc.unit

section
variable {r : Reg} {U : UnitOf} (hU : U.Partial) {o : Ord}
include hU

theorem cut_descTail {m : Metric} {d : Option Indom} {off : Nat} {k : Proc} (hk : ¬ OnlyStores k) :
    Cut (writeDescTailU r m.desc (U m) d off k) (writeDescTail r m.desc d off k) := by
  unfold writeDescTailU writeDescTail
  iterate 3 refine cut_mustWrite fun _ => ?_
  rcases hU m with h | h
  · rw [h]
    refine .panic ?_
    have hle : ∃ b bs, le 4 m.desc.unit.toNat = b :: bs := ⟨_, _, rfl⟩
    obtain ⟨b, bs, hle⟩ := hle
    rw [hle]
    refine mayPanic_mustWrite fun _ => ?_
    iterate 2 refine not_stores_mustWrite fun _ => ?_
    have hlast : ∀ so lo off, ¬ OnlyStores (mustWrite r.Length (le 8 so) off fun off => mustWrite r.Length (le 8 lo) off fun _ => k) :=
      fun so lo off => not_stores_mustWrite fun _ => not_stores_mustWrite fun _ => hk
    unfold writeText
    split
    · split
      · exact hlast _ _ _
      · exact id
    · exact id
  · rw [h]
    exact .refl _

theorem cut_desc {m : Metric} {d : Option Indom} {off : Nat} {k : Proc} (hk : ¬ OnlyStores k) :
    Cut (writeMetricDescU r m.desc (U m) d off k) (writeMetricDesc r m.desc d off k) := by
  unfold writeMetricDescU writeMetricDesc
  split
  · refine .send (.recv fun _ => .send ?_)
    iterate 2 refine cut_mustWrite fun _ => ?_
    exact cut_descTail hU hk
  · refine .send ?_
    refine cut_mustWrite fun _ => ?_
    exact cut_descTail hU hk

theorem cut_singleton {m : Metric} {v : GoVal} {k : Proc} :
    Cut (writeSingletonMetricU r U m v k) (writeSingletonMetric r m v k) :=
  .wgNew fun _ => .recv fun _ => .fork (cut_desc hU id) (.refl _)

theorem cut_instanceMetric {m : Metric} {d : Indom} {vs : List (Str × GoVal)} {k : Proc} :
    Cut (writeInstanceMetricU r U o m d vs k) (writeInstanceMetric r o m d vs k) :=
  .wgNew fun _ => .recv fun _ => .fork (cut_desc hU id) (.refl _)

theorem cut_metricsLoop {wg : Nat} {ms : List Metric} {k : Proc} :
    Cut (writeMetricsLoopU r U o wg ms k) (writeMetricsLoop r o wg ms k) := by
  induction ms with
  | nil => exact .refl _
  | cons m ms ih =>
    unfold writeMetricsLoopU writeMetricsLoop
    cases m.kind <;> cases m.body <;>
      first | exact ih | exact .fork (cut_singleton hU) ih | exact .fork (cut_instanceMetric hU) ih

theorem cut_indomsLoop {wg : Nat} {ds : List Indom} {k' k : Proc} (h : Cut k' k) :
    Cut (writeInstanceDomainsLoop r o wg ds k') (writeInstanceDomainsLoop r o wg ds k) := by
  induction ds with
  | nil => exact h
  | cons d ds ih => exact .fork (.refl _) ih

theorem cut_start {e : Env} : Cut (startProgU r U e o) (startProg r e o) :=
  .fork (.refl _) <| .wgNew fun _ => .fork (.refl _) <|
    .fork (.wgNew fun _ => cut_indomsLoop hU (.wgWait (.wgNew fun _ => cut_metricsLoop hU))) (.refl _)

theorem cutSt_init {e : Env} {cells : Cell → Option Nat} : CutSt (initStU r U e o cells) (initSt r e o cells) :=
  ⟨rfl, rfl, rfl, rfl, rfl, .cons (cut_start hU) .nil⟩

end

/-! ### It never returns -/

section
variable (r : Reg) (U : UnitOf) (o : Ord)

theorem bound_descTailU {m : Desc} {d : Option Indom} {off : Nat} {k : Proc} {w : Nat} {D : List Nat} :
    Bound w D (writeDescTailU r m none d off k) 0 := by
  unfold writeDescTailU
  iterate 3 refine bound_mustWrite fun _ => ?_
  trivial

/-- The goroutine that comes to a nil unit calls no `Done`. -/
theorem bound_descU {m : Desc} {d : Option Indom} {off : Nat} {k : Proc} {w : Nat} {D : List Nat} :
    Bound w D (writeMetricDescU r m none d off k) 0 := by
  unfold writeMetricDescU
  split
  · intro _
    iterate 2 refine bound_mustWrite fun _ => ?_
    exact bound_descTailU r
  · refine bound_mustWrite fun _ => ?_
    exact bound_descTailU r

theorem bound_tryWrite {w : Nat} {D : List Nat} {n : Nat} {len : Nat} {bs : List Byte} {off : Nat} {k : Proc}
    (h : Bound w D k n) : Bound w D (tryWrite len bs off k) n := by
  unfold tryWrite
  split
  · exact bound_storeAll h
  · exact h

theorem bound_callUpdate {w : Nat} {D : List Nat} {n : Nat} {v : GoVal} {off : Nat} {k : Proc} (h : Bound w D k n) :
    Bound w D (callUpdate r v off k) n := by
  unfold callUpdate
  generalize List.replicate StringLength (0 : Byte) = z
  split
  · refine bound_mustWrite fun _ => ?_
    exact bound_tryWrite h
  · split
    · exact bound_tryWrite h
    · exact h

theorem bound_value {w : Nat} {D : List Nat} {t : MetricType} {v : GoVal} {c : Cell} {off : Nat} :
    Bound w D (writeValue r t v c off (.wgDone w .done)) 1 := by
  unfold writeValue
  split
  · refine bound_mustWrite fun _ => ?_
    intro _
    show Bound w D (mustWrite _ _ _ _) 1
    refine bound_mustWrite fun _ => ?_
    exact bound_callUpdate r (bound_done (by omega))
  · exact bound_callUpdate r (bound_done (by omega))

/-- One `Done` for every value. -/
theorem bound_valuesLoop_own {w : Nat} {D : List Nat} {m : Metric} {d : Indom} {vs : List (Str × GoVal)} {doff : Nat}
    {is : List Inst} {k : Proc} (h : Bound w D k 0) :
    Bound w D (writeInstanceValuesLoop r m d vs w doff is k) is.length := by
  induction is with
  | nil => exact h
  | cons i is ih =>
    intro _
    refine ⟨1, is.length, by simp; omega, ?_, ?_⟩
    · split
      · exact bound_value r
      · trivial
    · refine bound_mustWrite fun _ => ?_
      intro _
      refine bound_mustWrite fun _ => ?_
      exact ih

/-- The loop, seen from another WaitGroup. -/
theorem bound_valuesLoop_other {w w' : Nat} {D : List Nat} {m : Metric} {d : Indom} {vs : List (Str × GoVal)} {doff : Nat}
    {is : List Inst} {k : Proc} {n : Nat} (hne : ¬ (w = w')) (h : Bound w D k n) :
    Bound w D (writeInstanceValuesLoop r m d vs w' doff is k) n := by
  induction is with
  | nil => exact h
  | cons i is ih =>
    intro _
    refine ⟨0, n, by omega, ?_, ?_⟩
    · split
      · exact (scoped_value r (A := (· = w')) scoped_done).bound hne _ _
      · trivial
    · refine bound_mustWrite fun _ => ?_
      intro _
      refine bound_mustWrite fun _ => ?_
      exact ih

/-- A singleton metric with a nil unit is never finished. -/
theorem bound_singletonU {w : Nat} {m : Metric} {v : GoVal} (hm : U m = none) :
    Bound w [] (writeSingletonMetricU r U m v (.wgDone w .done)) 0 := by
  refine .inr ⟨1, by omega, fun w' hw => ⟨?_, ?_⟩⟩
  · intro _
    rw [hm]
    refine ⟨0, 1, by omega, bound_descU r, ?_⟩
    intro _
    refine ⟨1, 0, by omega, bound_value r, ?_⟩
    iterate 2 refine bound_mustWrite fun _ => ?_
    exact .inr ((scoped_done (w := w)).bound (by omega) _ _)
  · intro _
    rw [hm]
    refine ⟨0, 0, by omega, bound_descU r, ?_⟩
    intro _
    refine ⟨0, 0, by omega, (scoped_value r (A := (· = w')) scoped_done).bound (by omega) _ _, ?_⟩
    iterate 2 refine bound_mustWrite fun _ => ?_
    exact .inl List.mem_cons_self

/-- An instance metric with a nil unit is never finished. -/
theorem bound_instanceMetricU {w : Nat} {m : Metric} {d : Indom} {vs : List (Str × GoVal)} (hm : U m = none)
    (hl : (o.vals m).length ≤ d.insts.length) :
    Bound w [] (writeInstanceMetricU r U o m d vs (.wgDone w .done)) 0 := by
  refine .inr ⟨(o.vals m).length, by omega, fun w' hw => ⟨?_, ?_⟩⟩
  · intro _
    rw [hm]
    refine ⟨0, (o.vals m).length, by omega, bound_descU r, ?_⟩
    refine bound_valuesLoop_own r ?_
    exact .inr ((scoped_done (w := w)).bound (by omega) _ _)
  · intro _
    rw [hm]
    refine ⟨0, 0, by omega, bound_descU r, ?_⟩
    refine bound_valuesLoop_other r (by omega) ?_
    exact .inl List.mem_cons_self

/-- The goroutine of one metric. -/
def metricProcU (wg : Nat) (m : Metric) : Option Proc :=
  match m.kind, m.body with
  | .singleton, .single v => some (writeSingletonMetricU r U m v (.wgDone wg .done))
  | .counter, .single v => some (writeSingletonMetricU r U m v (.wgDone wg .done))
  | .gauge, .single v => some (writeSingletonMetricU r U m v (.wgDone wg .done))
  | .timer, .single v => some (writeSingletonMetricU r U m v (.wgDone wg .done))
  | .instance_, .inst d vs => some (writeInstanceMetricU r U o m d vs (.wgDone wg .done))
  | .counterVector, .inst d vs => some (writeInstanceMetricU r U o m d vs (.wgDone wg .done))
  | .gaugeVector, .inst d vs => some (writeInstanceMetricU r U o m d vs (.wgDone wg .done))
  | .histogram, .inst d vs => some (writeInstanceMetricU r U o m d vs (.wgDone wg .done))
  | _, _ => none

theorem metricsLoopU_cons (wg : Nat) (m : Metric) (ms : List Metric) (k : Proc) :
    writeMetricsLoopU r U o wg (m :: ms) k =
      match metricProcU r U o wg m with
      | some p => .fork p (writeMetricsLoopU r U o wg ms k)
      | none => writeMetricsLoopU r U o wg ms k := by
  conv => lhs; unfold writeMetricsLoopU
  unfold metricProcU
  cases m.kind <;> cases m.body <;> rfl

theorem metricProcU_some {wg : Nat} {m : Metric} {p : Proc} (h : metricProcU r U o wg m = some p) :
    (∃ v, m.body = .single v ∧ p = writeSingletonMetricU r U m v (.wgDone wg .done)) ∨
    (∃ d vs, m.body = .inst d vs ∧ p = writeInstanceMetricU r U o m d vs (.wgDone wg .done)) := by
  unfold metricProcU at h
  split at h <;> first
    | (injection h with h; subst h; first | exact .inl ⟨_, by assumption, rfl⟩ | exact .inr ⟨_, _, by assumption, rfl⟩)
    | cases h

variable {r U o} in
theorem scoped_startU (hU : U.Partial) {A : Nat → Prop} {e : Env} : Scoped A (startProgU r U e o) :=
  (cut_start hU).scoped (scoped_start r e o)

/-- At most one `Done` per metric that has a unit. -/
theorem bound_metricsLoopU (hU : U.Partial) {w : Nat} {ms : List Metric} {k : Proc} (hk : Bound w [] k 0)
    (hl : ∀ m ∈ ms, ∀ d vs, m.body = .inst d vs → (o.vals m).length ≤ d.insts.length) :
    Bound w [] (writeMetricsLoopU r U o w ms k) ((ms.filter (fun m => (U m).isSome)).length) := by
  induction ms with
  | nil => exact hk
  | cons m ms ih =>
    have ih := ih (fun m hm => hl m (List.mem_cons_of_mem _ hm))
    rw [metricsLoopU_cons]
    cases hm : U m with
    | none =>
      simp only [List.filter_cons, hm, Option.isSome_none, Bool.false_eq_true, if_false]
      split
      · rename_i p hp
        refine ⟨0, _, by omega, ?_, ih⟩
        rcases metricProcU_some r U o hp with ⟨v, _, rfl⟩ | ⟨d, vs, hb, rfl⟩
        · exact bound_singletonU r U hm
        · exact bound_instanceMetricU r U o hm (hl m List.mem_cons_self d vs hb)
      · exact ih
    | some u =>
      simp only [List.filter_cons, hm, Option.isSome_some, if_true, List.length_cons]
      split
      · rename_i p hp
        refine ⟨1, _, by omega, ?_, ih⟩
        rcases metricProcU_some r U o hp with ⟨v, _, rfl⟩ | ⟨d, vs, hb, rfl⟩
        · exact (cut_singleton hU).bound (bound_singleton r)
        · exact (cut_instanceMetric hU).bound (bound_instanceMetric r o)
      · exact ih.mono (fun x hx => hx) (by omega)

theorem bound_metricsU (hU : U.Partial) {w : Nat} (hlen : o.metrics.length = r.MetricCount)
    (hl : ∀ m ∈ o.metrics, ∀ d vs, m.body = .inst d vs → (o.vals m).length ≤ d.insts.length)
    (hf : ∃ m ∈ o.metrics, U m = none) : Bound w [] (writeMetricsU r U o (.wgDone w .done)) 0 := by
  refine .inr ⟨(o.metrics.filter (fun m => (U m).isSome)).length, ?_, fun w' hw => ⟨?_, ?_⟩⟩
  · rw [← hlen]
    obtain ⟨m, hm, hk⟩ := hf
    exact List.length_filter_lt_length_iff_exists.2 ⟨m, hm, by simp [hk]⟩
  · refine bound_metricsLoopU r U o hU (.inr ?_) hl
    exact (scoped_done (w := w)).bound (by omega) _ _
  · refine (cut_metricsLoop hU).bound ?_
    exact bound_metricsLoop_other r o (by omega) (.inl List.mem_cons_self)

theorem stops_startU (hU : U.Partial) {e : Env} (hlen : o.metrics.length = r.MetricCount)
    (hl : ∀ m ∈ o.metrics, ∀ d vs, m.body = .inst d vs → (o.vals m).length ≤ d.insts.length)
    (hf : ∃ m ∈ o.metrics, U m = none) : Stops [] (startProgU r U e o) := by
  refine .inr ⟨1, by omega, fun w => ⟨?_, ?_⟩⟩
  · refine ⟨1, 0, by omega, ?_, 0, 0, by omega, ?_, ?_⟩
    · refine .inl fun w' hw => ?_
      have hne : ¬ (w = w') := by omega
      have hsc : ∀ {p a b c}, Bound w [] (writeSingleToc r p a b c (.wgDone w' .done)) 0 := fun {p a b c} =>
        (scoped_singleToc r (A := (· = w')) scoped_done).bound hne _ _
      have hfi : ∀ {c : Prop} [Decidable c] {p k : Proc}, Bound w [] p 0 → Bound w [] k 1 →
          Bound w [] (forkIf c p k) 1 := by
        intro c _ p k h1 h2
        unfold forkIf
        split
        · exact ⟨0, 1, by omega, h1, h2⟩
        · exact h2
      refine hfi hsc (hfi hsc ?_)
      refine ⟨0, 1, by omega, hsc, 0, 1, by omega, hsc, ?_⟩
      exact hfi hsc (.inr (bound_done (by omega)))
    · refine .inl fun w' hw => ?_
      refine bound_indomsLoop_other r o (by omega) (.inr ?_)
      exact bound_metricsU r U o hU hlen hl hf
    · intro _ _
      refine .inr ?_
      exact bound_mustWrite fun _ => trivial
  · intro _ _
    exact .inl List.mem_cons_self

end

/-! ### The final phase is never reached -/

theorem stores_of_finalOK {P : Params} {σ : Seal} {p : Proc} {m : Buf} (h : FinalOK P σ p m) : OnlyStores p := by
  induction p generalizing m with
  | done => trivial
  | store a b k ih => exact ih h.2.2
  | _ => exact h.elim

/-- In the final phase no other goroutine is about to store anything. -/
theorem final_noPanic {P : Params} {s : St} {W : World} {g : Gl} (h : Inv P s W g)
    (hf : ∃ (i : Nat) (p : Proc), s.thr[i]? = some p ∧ FinalAt P p W (g.res (.thr i)) s.mem) {q : Proc} (hq : q ∈ s.thr) :
    ¬ MayPanic q := by
  rintro ⟨h1, h2⟩
  obtain ⟨j, hj⟩ := List.getElem?_of_mem hq
  have hends : ∀ {p R}, FinalAt P p W R s.mem → OnlyStores p := by
    rintro p R ⟨_, _, _, _, _, σ, _, _, hw⟩
    exact stores_of_finalOK hw
  rcases h.thr j q hj with hw | hw
  · rcases h2 with ⟨a, b, k, rfl⟩ | rfl
    · obtain ⟨i, p, hi, hf⟩ := hf
      have e1 := Gl.res_some.1 (hf.1 a hw.1)
      have e2 := Gl.res_some.1 hw.2.1
      rw [e1] at e2
      injection e2 with e2
      injection e2 with e2
      subst e2
      rw [hi] at hj
      injection hj with hj
      subst hj
      exact h1 (hends hf)
    · exact hw
  · exact h1 (hends hw)

section
variable {r : Reg} {U : UnitOf} {o : Ord} {e : Env} {cells : Cell → Option Nat}

/-- A nil unit, and `start` never returns. -/
theorem startU_never (hU : U.Partial) (ho : o.OK r) (hf : ∃ m ∈ r.metrics, U m = none) {t : St}
    (h : Reach (initStU r U e o cells) t) : ¬ Returned t := by
  obtain ⟨m, hm, hk⟩ := hf
  refine never_returns rfl (scoped_startU hU) (stops_startU r U o hU ho.metrics.length_eq ?_ ⟨m, ho.metrics.mem_iff.2 hm, hk⟩) h
  intro m hm d vs hb
  exact Nat.le_of_eq (ho.vals m (ho.metrics.mem_iff.1 hm) d vs hb).length_eq

/-- A state that has not crashed can be continued. -/
theorem startU_matched (hr : r.OK) (hU : U.Partial) (ho : o.OK r) (hf : ∃ m ∈ r.metrics, U m = none) {s' s : St}
    (h' : Reach (initStU r U e o cells) s') (h : Reach (initSt r e o cells) s) (hc : CutSt s' s) : ¬ Stuck s' := by
  intro hst
  have hs : Stuck s := fun t ht => by
    obtain ⟨t', ht'⟩ := hc.canStep ht
    exact hst t' ht'
  have had := start_progress hr ho h hs
  obtain ⟨t, h1, h2⟩ := reach_returned hr ho h
  have h0 : s.thr[0]? = some .done := by
    cases h1 with
    | refl => exact h2
    | tail a b =>
      exfalso
      have : ∀ {u}, Reach s u → u = s := by
        intro u hu
        induction hu with
        | refl => rfl
        | tail _ hb ih => rw [ih] at hb; exact absurd hb (hs _)
      rw [this a] at b
      exact hs _ b
  obtain ⟨p', e1, e2⟩ := forall₂_get' hc.thr h0
  have := e2.stores trivial
  rw [this] at e1
  exact startU_never hU ho hf h' e1

/-- Whatever byte has been written last, before or after the panic, the buffer is visibly unfinished. -/
theorem startU_early (hr : r.OK) (hU : U.Partial) (ho : o.OK r) (hf : ∃ m ∈ r.metrics, U m = none) {t' : St}
    (h : Reach (initStU r U e o cells) t') : (e.gen ≠ 0 → Early t'.mem) ∧ VerAt r t'.mem := by
  obtain ⟨u', u, h1, h2, h3, hm⟩ : ∃ u' u, Reach (initStU r U e o cells) u' ∧ Reach (initSt r e o cells) u ∧ CutSt u' u ∧
      t'.mem = u.mem := by
    rcases (cutSt_init hU (e := e) (cells := cells)).reach h with ⟨t, e1, e2⟩ | ⟨u', u, e1, e2, e3, _, rfl⟩
    · exact ⟨t', t, h, e1, e2, e2.mem⟩
    · exact ⟨u', u, e1, e2, e3, e3.mem⟩
  rw [hm]
  obtain ⟨W, g, _, hi⟩ := inv_reach (params_wf hr) (init_inv hr ho cells) h2
  rcases hi.phase with hp | hp
  · exact hp
  · exfalso
    have h0 := inv_noIA hi hp
    have hwf : (params r e o).WF := params_wf hr
    obtain ⟨v', h4, h5⟩ := exists_stuck u'
    rcases h3.reach h4 with ⟨v, e1, e2⟩ | ⟨w', w, e1, e2, e3, e4, rfl⟩
    · exact startU_matched hr hU ho hf (h1.trans h4) (h2.trans e1) e2 h5
    · obtain ⟨W1, g1, _, hi1⟩ := inv_reach (P := (params r e o).noIA)
        ⟨hwf.nodup, hwf.chan, hwf.pos⟩ h0 e2
      obtain ⟨j, hj⟩ := List.getElem?_of_mem e4
      obtain ⟨q, e5, e6⟩ := forall₂_get e3.thr hj
      have hmp : MayPanic q := by
        cases e6 with
        | panic h => exact h
      rcases hi1.phase with h6 | h6
      · exact h6.elim
      · exact final_noPanic hi1 h6 (List.mem_of_getElem? e5) hmp

end

end Speed
