import Verif.PropsReaders
/-
C73: one metric registered with the registries of two active clients.

`Start` of a client stores a closure in every value of its registry, in the field `update` of the value itself
(client.go:517, 543; `Cell.upd` in `StartProg`). A second client whose registry has the same metric replaces the closure by one for its own
file; `Set` calls the one closure there is (metrics.go:582-587, 1013-1018).

Simplification: the calls after the second `Start` (the first client may have been used before, `Active`), each as a whole.
-/
namespace Speed

open Dump

/-- Two active clients, in the order of their `Start`s. Metrics of the two registries with the same `uid` are one object. -/
structure Pair where
  first : Live
  last : Live

/-- A call on a metric. The closures of the metrics of the second registry are those that the last `Start` has set; the object
is seen through both registries. -/
inductive Pair.Step : Pair → Metric → Call → Pair → Ans Unit → Prop
  | last {P : Pair} {m c} : m ∈ P.last.reg.metrics → Pair.Step P m c
      ⟨{ P.first with reg := P.first.reg.setMetric (c.op (P.last.upd m.uid) ⟨m, P.last.mem⟩).1.m }, (P.last.call m c.op).1⟩
      (P.last.call m c.op).2
  | first {P : Pair} {m c} : m ∈ P.first.reg.metrics → (∀ x ∈ P.last.reg.metrics, x.uid ≠ m.uid) →
      Pair.Step P m c ⟨(P.first.call m c.op).1, P.last⟩ (P.first.call m c.op).2

/-- The first client has been started and used, to `a`; then the second is started; then metrics of both are used. -/
inductive PairHist (e : Env) (o : Ord) (e' : Env) (o' : Ord) (a : Live) : Pair → Prop
  | start {r s} : Active e o a → Started r e' o' s → (∀ x ∈ a.reg.metrics, ∀ y ∈ r.metrics, x.uid = y.uid → x = y) →
      PairHist e o e' o' a ⟨a, ⟨r, s.mem, s.cells⟩⟩
  | step {P m c P' res} : PairHist e o e' o' a P → c.Fits → Pair.Step P m c P' res → PairHist e o e' o' a P'

/-- Registry `r`, with the metrics that are also in `b` in the state that they have there. -/
def Reg.sees (r b : Reg) : Reg :=
  { r with metrics := r.metrics.map fun x => (b.metrics.find? fun y => y.uid = x.uid).getD x }

theorem find_uid {l : List Metric} {uid : Nat} {y : Metric} (h : l.find? (fun y => y.uid = uid) = some y) : y ∈ l ∧ y.uid = uid :=
  ⟨List.mem_of_find?_eq_some h, by simpa using List.find?_some h⟩

theorem getD_uid (l : List Metric) (x : Metric) : ((l.find? fun y => y.uid = x.uid).getD x).uid = x.uid := by
  cases h : l.find? fun y => y.uid = x.uid with
  | none => rfl
  | some y => exact (find_uid h).2

theorem sees_self {r b : Reg} (h : ∀ x ∈ r.metrics, ∀ y ∈ b.metrics, x.uid = y.uid → x = y) : r = r.sees b := by
  unfold Reg.sees
  have : r.metrics.map (fun x => (b.metrics.find? fun y => y.uid = x.uid).getD x) = r.metrics := by
    conv => rhs; rw [← List.map_id r.metrics]
    refine List.map_congr_left fun x hx => ?_
    cases hf : b.metrics.find? fun y => y.uid = x.uid with
    | none => rfl
    | some y => exact (h x hx y (find_uid hf).1 (find_uid hf).2.symm).symm
  rw [this]

theorem find_setMetric {b : Reg} {m m' : Metric} (hm : m ∈ b.metrics) (hu : m'.uid = m.uid) (uid : Nat) :
    (b.setMetric m').metrics.find? (fun y => y.uid = uid) = if uid = m.uid then some m' else b.metrics.find? fun y => y.uid = uid := by
  unfold Reg.setMetric
  dsimp only
  generalize b.metrics = l at hm ⊢
  induction l with
  | nil => cases hm
  | cons z l ih =>
    rw [List.map_cons, List.find?_cons, List.find?_cons]
    by_cases hz : z.uid = m'.uid
    · rw [if_pos hz]
      by_cases h : uid = m.uid
      · subst h; simp [hu]
      · have h1 : ¬ m'.uid = uid := by rw [hu]; exact fun e => h e.symm
        have h2 : ¬ z.uid = uid := by rw [hz]; exact h1
        simp only [h1, h2, decide_false, if_neg h]
        by_cases hml : m ∈ l
        · rw [ih hml, if_neg h]
        · clear ih hm hml
          induction l with
          | nil => rfl
          | cons y l ih =>
            rw [List.map_cons, List.find?_cons, List.find?_cons]
            by_cases hy : y.uid = m'.uid
            · rw [if_pos hy]
              have h3 : ¬ y.uid = uid := by rw [hy]; exact h1
              simp only [h1, h3, decide_false]
              exact ih
            · rw [if_neg hy]
              by_cases h3 : y.uid = uid
              · simp [h3]
              · simp only [h3, decide_false]
                exact ih
    · rw [if_neg hz]
      have hml : m ∈ l := by
        rcases List.mem_cons.1 hm with rfl | h
        · exact absurd hu.symm hz
        · exact h
      by_cases h3 : z.uid = uid
      · have h : ¬ uid = m.uid := by rw [← h3, ← hu]; exact hz
        simp [h3, h]
      · simp only [h3, decide_false]
        exact ih hml

theorem sees_last {r b : Reg} {m m' : Metric} (hm : m ∈ b.metrics) (hu : m'.uid = m.uid) :
    (r.sees b).setMetric m' = r.sees (b.setMetric m') := by
  unfold Reg.sees
  conv => lhs; unfold Reg.setMetric
  simp only [List.map_map]
  congr 1
  refine List.map_congr_left fun x _ => ?_
  simp only [Function.comp_apply]
  rw [getD_uid, find_setMetric hm hu, hu]
  split <;> rfl

theorem sees_first {r b : Reg} {m' : Metric} (hb : ∀ y ∈ b.metrics, y.uid ≠ m'.uid) :
    (r.sees b).setMetric m' = (r.setMetric m').sees b := by
  unfold Reg.sees Reg.setMetric
  simp only [List.map_map]
  congr 1
  refine List.map_congr_left fun x _ => ?_
  simp only [Function.comp_apply]
  rw [getD_uid]
  by_cases h : x.uid = m'.uid
  · rw [if_pos h, if_pos h]
    cases hf : b.metrics.find? fun y => y.uid = m'.uid with
    | none => rfl
    | some y => exact absurd (find_uid hf).2 (hb y (find_uid hf).1)
  · rw [if_neg h, if_neg h]

theorem mem_sees {r b : Reg} {m : Metric} (h : m ∈ (r.sees b).metrics) (hb : ∀ y ∈ b.metrics, y.uid ≠ m.uid) : m ∈ r.metrics := by
  unfold Reg.sees at h
  obtain ⟨x, hx, he⟩ := List.mem_map.1 h
  cases hf : b.metrics.find? fun y => y.uid = x.uid with
  | none => rw [hf] at he; rw [← show x = m from he]; exact hx
  | some y =>
    rw [hf] at he
    obtain rfl : y = m := he
    exact absurd rfl (hb y (find_uid hf).1)

theorem Active.call_uid {e o w} (h : Active e o w) {m : Metric} (hm : m ∈ w.reg.metrics) {c : Call} (hf : c.Fits) :
    (c.op (w.upd m.uid) ⟨m, w.mem⟩).1.m.uid = m.uid := by
  obtain ⟨σ, hl, _⟩ := h.liveAt
  have h0 := put_self hm hl.ok.metricUid
  exact (c.pres hf _ _ (fun _ h => h) (hl.storeInv hm) ⟨m, w.mem⟩ ⟨rfl, by rw [h0]; exact hm, by rw [h0]; exact hl⟩).1

/-- What the first client would be if the shared metrics had not been used after the second `Start`. -/
theorem PairHist.inv {e o e' o' a P} (h : PairHist e o e' o' a P) : Active e' o' P.last ∧
    ∃ w, Active e o w ∧ w.mem = P.first.mem ∧ w.cells = P.first.cells ∧ P.first.reg = w.reg.sees P.last.reg ∧
      ∀ x ∈ w.reg.metrics, (∃ y ∈ P.last.reg.metrics, y.uid = x.uid) → x ∈ a.reg.metrics := by
  induction h with
  | start ha hs heq => exact ⟨.start hs, a, ha, rfl, rfl, sees_self heq, fun _ h _ => h⟩
  | step _ hf hs ih =>
    obtain ⟨hb, w, hw, h1, h2, h3, h4⟩ := ih
    cases hs with
    | last hm =>
      have hu := hb.call_uid hm hf
      refine ⟨.call _ hb hm hf, w, hw, h1, h2, ?_, fun x hx => ?_⟩
      · show Reg.setMetric _ _ = _
        rw [h3, sees_last hm hu]; rfl
      · rintro ⟨y, hy, hxy⟩
        refine h4 x hx ?_
        rcases mem_setMetric (show y ∈ (Reg.setMetric _ _).metrics from hy) with rfl | ⟨hy, _⟩
        · exact ⟨_, hm, hu.symm.trans hxy⟩
        · exact ⟨y, hy, hxy⟩
    | first hm hne =>
      rename_i P m c _
      have hmw : m ∈ w.reg.metrics := mem_sees (h3 ▸ hm) hne
      have hu := hw.call_uid hmw hf
      have e1 : w.call m c.op = ({ (P.first.call m c.op).1 with reg := w.reg.setMetric (c.op (w.upd m.uid) ⟨m, w.mem⟩).1.m }, (P.first.call m c.op).2) := by
        unfold Live.call Live.put Live.upd
        rw [h1, h2]
      have e2 : (P.first.call m c.op).1.reg = P.first.reg.setMetric (c.op (w.upd m.uid) ⟨m, w.mem⟩).1.m := by
        unfold Live.call Live.put Live.upd
        rw [h1, h2]
      refine ⟨hb, _, .call _ hw hmw hf, by rw [e1], by rw [e1], ?_, fun x hx => ?_⟩
      · dsimp only
        rw [e1, e2, h3, sees_first (by rw [hu]; exact hne)]
      · rw [e1] at hx
        rintro ⟨y, hy, hxy⟩
        rcases mem_setMetric (show x ∈ (Reg.setMetric _ _).metrics from hx) with rfl | ⟨hx, _⟩
        · exact absurd (hxy.trans hu) (hne y hy)
        · exact h4 x hx ⟨y, hy, hxy⟩

/-- C73, the part that holds for the client started last: its file shows the present values of all its metrics. -/
theorem C73_last_partial {e o e' o' a P} (h : PairHist e o e' o' a P) : (∃ out, Dumps P.last.mem out) ∧
    ∀ out, Dumps P.last.mem out → ∃ D A, out = .ok D ∧ DescribesAt P.last.reg D A := by
  obtain ⟨σ, hl, hi⟩ := h.inv.1.liveAt
  refine ⟨dumps_exists _, fun out hd => ?_⟩
  obtain ⟨D, h1, _, h2⟩ := hl.dump hi hd
  exact ⟨D, _, h1, h2⟩

/-- C73, exactly what the file of the client started first shows: the present values of the metrics that only it has, and for
the shared metrics the values at the time of the second `Start`. -/
theorem C73_first_partial {e o e' o' a P} (h : PairHist e o e' o' a P) : (∃ out, Dumps P.first.mem out) ∧
    ∀ out, Dumps P.first.mem out → ∃ D A R, out = .ok D ∧ DescribesAt R D A ∧ P.first.reg = R.sees P.last.reg ∧
      ∀ x ∈ R.metrics, (∃ y ∈ P.last.reg.metrics, y.uid = x.uid) → x ∈ a.reg.metrics := by
  obtain ⟨_, w, hw, h1, _, h3, h4⟩ := h.inv
  obtain ⟨σ, hl, hi⟩ := hw.liveAt
  refine ⟨dumps_exists _, fun out hd => ?_⟩
  rw [← h1] at hd
  obtain ⟨D, g1, _, g2⟩ := hl.dump hi hd
  exact ⟨D, _, w.reg, g1, g2, h3, h4⟩

/-- C73, the part that holds for clients without common metrics: the file of the first one is right too. -/
theorem C73_apart_partial {e o e' o' a P} (h : PairHist e o e' o' a P)
    (hne : ∀ x ∈ P.first.reg.metrics, ∀ y ∈ P.last.reg.metrics, x.uid ≠ y.uid) {out} (hd : Dumps P.first.mem out) :
    ∃ D A, out = .ok D ∧ DescribesAt P.first.reg D A := by
  obtain ⟨D, A, R, h1, h2, h3, _⟩ := (C73_first_partial h).2 out hd
  have : R = R.sees P.last.reg := by
    refine sees_self fun x hx y hy hxy => ?_
    refine absurd ?_ (hne ((P.last.reg.metrics.find? fun y => y.uid = x.uid).getD x) (by
      rw [h3]; exact List.mem_map.2 ⟨x, hx, rfl⟩) y hy)
    rw [getD_uid]; exact hxy
  rw [← this] at h3
  exact ⟨D, A, h1, h3 ▸ h2⟩

/-- C73 is false: after the second `Start`, every accepted `Set` of a shared metric to another value leaves the file of the first client
as it is; the file shows the old value, and the metric has the new one. -/
theorem C73_refuted {e o e' o' a r s} (ha : Active e o a) (hs : Started r e' o' s)
    (heq : ∀ x ∈ a.reg.metrics, ∀ y ∈ r.metrics, x.uid = y.uid → x = y) {m : Metric} (hm : m ∈ a.reg.metrics) (hm' : m ∈ r.metrics)
    {v old : GoVal} (hsl : none ∈ m.slots) (hf : Fits v) (hc : isCompatible m.desc.t v = true) (hold : m.cur none = some old)
    (hne : resolve m.desc.t v ≠ old) (hg : goEq (resolve m.desc.t v) old = false) (hstr : m.desc.t ≠ StringType) :
    ∃ P, PairHist e o e' o' a P ∧ Pair.Step ⟨a, ⟨r, s.mem, s.cells⟩⟩ m (.set v) P (.ok ()) ∧
      m.put none (resolve m.desc.t v) ∈ P.first.reg.metrics ∧ P.first.mem = a.mem ∧
      ∀ out, Dumps P.first.mem out → ∃ D A, out = .ok D ∧ DescribesAt a.reg D A ∧ ¬ DescribesAt P.first.reg D A := by
  have h0 : PairHist e o e' o' a ⟨a, ⟨r, s.mem, s.cells⟩⟩ := .start ha hs heq
  obtain ⟨σ, hl, _⟩ := hs.liveAt
  obtain ⟨old', u, ho, _, _, he⟩ := hl.setAt_spec (w := ⟨r, s.mem, s.cells⟩) hm' hsl hf hc
  rw [hold] at ho
  obtain rfl := Option.some.inj ho
  rw [if_neg (by simp [hg])] at he
  have hstep := Pair.Step.last (P := ⟨a, ⟨r, s.mem, s.cells⟩⟩) (c := .set v) hm'
  have e1 : ((Call.set v).op (Live.upd ⟨r, s.mem, s.cells⟩ m.uid) ⟨m, s.mem⟩) =
    (⟨m.put none (resolve m.desc.t v), place s.mem u (newBytes (resolve m.desc.t v))⟩, .ok ()) := he
  have e2 : (Live.call ⟨r, s.mem, s.cells⟩ m (Call.set v).op).2 = .ok () := by unfold Live.call; rw [e1]
  dsimp only at hstep
  rw [e2, e1] at hstep
  refine ⟨_, h0.step (c := .set v) hf hstep, hstep, mem_setMetric_self hm, rfl, fun out hd => ?_⟩
  obtain ⟨σ', hl', hi'⟩ := ha.liveAt
  obtain ⟨D, g1, _, g2⟩ := hl'.dump hi' hd
  refine ⟨D, _, g1, g2, fun g3 => hne ?_⟩
  have hsn : none ∈ m.slotNames := by
    unfold Metric.cur at hold
    unfold Metric.slotNames
    cases hb : m.body with
    | single v => simp
    | inst d vs => rw [hb] at hold; cases hold
  obtain ⟨v1, x, k1, k2, k3⟩ := g2.values m hm none hsn
  obtain ⟨v2, y, l1, l2, l3⟩ := g3.values (m.put none (resolve m.desc.t v)) (mem_setMetric_self hm) none (by rw [put_slotNames]; exact hsn)
  rw [hold] at k1
  obtain rfl := Option.some.inj k1
  have ht1 := hl'.typed m hm none _ hold
  have ht2 := resolve_typed hc
  rw [put_cur, if_pos rfl, hold] at l1
  obtain rfl := Option.some.inj l1
  rw [put_uid, k2] at l2
  obtain rfl := Option.some.inj l2
  have q1 : Dump.fixedVal x.val m.desc.t = some old := by
    have := k3.2.2
    cases old with
    | str t =>
      rcases ht1 with ⟨_, x, hx⟩ | ⟨_, x, hx⟩ | ⟨_, x, hx⟩ | ⟨_, x, hx⟩ | ⟨_, x, hx⟩ | ⟨_, x, hx⟩ | ⟨hx, _⟩
      all_goals first | exact absurd hx hstr | cases hx
    | _ => exact this.1
  have q2 : Dump.fixedVal x.val m.desc.t = some (resolve m.desc.t v) := by
    have := l3.2.2
    rw [put_desc] at this
    generalize resolve m.desc.t v = z at this ht2
    cases z with
    | str t =>
      rcases ht2 with ⟨_, x, hx⟩ | ⟨_, x, hx⟩ | ⟨_, x, hx⟩ | ⟨_, x, hx⟩ | ⟨_, x, hx⟩ | ⟨_, x, hx⟩ | ⟨hx, _⟩
      all_goals first | exact absurd hx hstr | cases hx
    | _ => exact this.1
  exact Option.some.inj (q2.symm.trans q1)

/-- The statement is not empty: the sample registry started twice (two registries with the same metrics), counter 5 set to 12. -/
example : ∃ (e : Env) (o : Ord) (a : Live) (P : Pair) (m : Metric) (D : Dump.Result) (A : Addrs), PairHist e o e o a P ∧
    m.desc.name = sC ∧ m ∈ P.first.reg.metrics ∧ m.cur none = some (.int64 12) ∧ Dumps P.first.mem (.ok D) ∧
    ∃ x, look D.values (A.value m.uid none) = some x ∧ Dump.fixedVal x.val m.desc.t = some (.int64 5) := by
  obtain ⟨s, hs⟩ := sample_started
  obtain ⟨m, hm, hn, hsl, hc, hold, hr, ht, hsn⟩ : ∃ m ∈ sampleReg.metrics, m.desc.name = sC ∧ none ∈ m.slots ∧
      isCompatible m.desc.t (.int64 12) = true ∧ m.cur none = some (.int64 5) ∧ resolve m.desc.t (.int64 12) = .int64 12 ∧
      m.desc.t ≠ StringType ∧ none ∈ m.slotNames := by decide
  obtain ⟨σ, hl, _⟩ := hs.liveAt
  obtain ⟨P, h1, _, h2, h3, h4⟩ := C73_refuted (.start hs) hs (fun x hx y hy h => eq_of_uid hl.ok.metricUid hx hy h) hm hm hsl (v := .int64 12)
    trivial hc hold (by rw [hr]; decide) (by rw [hr]; decide) ht
  obtain ⟨out, hd⟩ := dumps_exists P.first.mem
  obtain ⟨D, A, rfl, h5, _⟩ := h4 out hd
  obtain ⟨v, x, k1, k2, k3⟩ := h5.values m hm none hsn
  rw [hold] at k1
  obtain rfl := Option.some.inj k1
  refine ⟨_, _, _, P, _, D, A, h1, ?_, h2, ?_, hd, x, ?_, ?_⟩
  · rw [put_desc]; exact hn
  · rw [put_cur, if_pos rfl, hold, hr]; rfl
  · rw [put_uid]; exact k2
  · rw [put_desc]; exact k3.2.2.1

end Speed
