import Verif.Must
import Verif.PropsMetrics
import Verif.PropsConstruct
import Verif.ClientLemmas
/-
Which value operations succeed (C86), and operations on an instance that does not exist (C87).
-/
namespace Speed

open Dump

/-! ### C86: when the operations succeed -/

/-- The values that may be passed for a metric of type `t`: those of that type, an `int` the type can hold, a `uint` an
unsigned type can hold, and for `FloatType` a finite float64 not larger than the largest float32. -/
def Takes (t : MetricType) (v : GoVal) : Prop :=
  Typed t v ∨ (∃ x, v = .int x ∧ ∃ w, Typed t w ∧ num w = some x.toInt) ∨
  (∃ x, v = .uint x ∧ (t = Uint32Type ∨ t = Uint64Type) ∧ ∃ w, Typed t w ∧ num w = some (x.toNat : Int)) ∨
  ∃ x, v = .float64 x ∧ t = FloatType ∧ finite64 x ∧ mag64 x ≤ (2 ^ 24 - 1) * 2 ^ 29 * 2 ^ 1149

theorem takes_iff (t : MetricType) (v : GoVal) : isCompatible t v = true ↔ Takes t v := by
  have hd : ∀ x y : MetricType, x ≠ y → ∀ p : Prop, t = x → t = y → p := fun x y h p h1 h2 => absurd (h1.symm.trans h2) h
  cases v with
  | int x =>
    rw [C07_accepts_int]
    constructor
    · intro h; exact .inr (.inl ⟨x, rfl, h⟩)
    · rintro (h | ⟨_, ⟨⟩, h⟩ | ⟨_, ⟨⟩, _⟩ | ⟨_, ⟨⟩, _⟩)
      · rcases h with ⟨_, _, ⟨⟩⟩ | ⟨_, _, ⟨⟩⟩ | ⟨_, _, ⟨⟩⟩ | ⟨_, _, ⟨⟩⟩ | ⟨_, _, ⟨⟩⟩ | ⟨_, _, ⟨⟩⟩ | ⟨_, _, ⟨⟩⟩
      · exact h
  | uint x =>
    rw [C07_accepts_uint]
    constructor
    · intro h; exact .inr (.inr (.inl ⟨x, rfl, h⟩))
    · rintro (h | ⟨_, ⟨⟩, _⟩ | ⟨_, ⟨⟩, h⟩ | ⟨_, ⟨⟩, _⟩)
      · rcases h with ⟨_, _, ⟨⟩⟩ | ⟨_, _, ⟨⟩⟩ | ⟨_, _, ⟨⟩⟩ | ⟨_, _, ⟨⟩⟩ | ⟨_, _, ⟨⟩⟩ | ⟨_, _, ⟨⟩⟩ | ⟨_, _, ⟨⟩⟩
      · exact h
  | float64 x =>
    constructor
    · intro h
      rcases (storedAs h).f64 x rfl with ⟨rfl, _⟩ | ⟨rfl, h1, h2, _⟩
      · exact .inl (.inr (.inr (.inr (.inr (.inr (.inl ⟨rfl, x, rfl⟩))))))
      · exact .inr (.inr (.inr ⟨x, rfl, rfl, h1, h2⟩))
    · rintro (h | ⟨_, ⟨⟩, _⟩ | ⟨_, ⟨⟩, _⟩ | ⟨_, ⟨⟩, rfl, h1, h2⟩)
      · rcases h with ⟨_, _, ⟨⟩⟩ | ⟨_, _, ⟨⟩⟩ | ⟨_, _, ⟨⟩⟩ | ⟨_, _, ⟨⟩⟩ | ⟨_, _, ⟨⟩⟩ | ⟨rfl, _, _⟩ | ⟨_, _, ⟨⟩⟩
        exact (compat_float64 x).1
      · unfold isCompatible isCompatibleFloat
        dsimp only
        rw [if_pos ((inFloat32Range_iff x).2 ⟨h1, by rw [maxFloat32]; exact h2⟩)]
        rfl
  | _ =>
    constructor
    · intro h
      exact .inl (resolve_typed h)
    · rintro (h | ⟨_, ⟨⟩, _⟩ | ⟨_, ⟨⟩, _⟩ | ⟨_, ⟨⟩, _⟩)
      rcases h with ⟨h, _, h'⟩ | ⟨h, _, h'⟩ | ⟨h, _, h'⟩ | ⟨h, _, h'⟩ | ⟨h, _, h'⟩ | ⟨h, _, h'⟩ | ⟨h, _, h'⟩ <;> cases h' <;>
        (unfold isCompatible; rw [h]; rfl)

/-- The number that the singleton, or the instance, holds. -/
def Metric.numAt (m : Metric) (s : Option Str) : Option Int := (m.cur s).bind num

/-- What an operation needs to succeed. -/
def Call.Accepts (m : Metric) : Call → Prop
  | .set v => Takes m.desc.t v
  | .setInstance v n => Takes m.desc.t v ∧ m.hasInst n = true
  | .counterSet x => ∀ k, m.numAt none = some k → k ≤ x.toInt
  | .counterInc x => 0 ≤ x.toInt
  | .timerReset ts => ts.started = false
  | .timerStart _ ts => ts.started = false
  | .timerStop _ _ ts => ts.started = true
  | .cvSet x n => m.hasInst n = true ∧ ∀ k, m.numAt (some n) = some k → k ≤ x.toInt
  | .cvInc x n => 0 ≤ x.toInt ∧ (x ≠ 0 → m.hasInst n = true)
  | .cvSetAll x _ => ∀ n k, m.numAt (some n) = some k → k ≤ x.toInt
  | .cvIncAll x l => l ≠ [] → 0 ≤ x.toInt
  | .gvSet _ n => m.hasInst n = true
  | .gvInc _ _ n => m.hasInst n = true
  | .gvDec _ _ n => m.hasInst n = true
  | _ => True

/-- The operation is one of the metric's: single values or instances, of the type that the metric's kind has; the
operations on all instances visit each once. -/
def Call.On (m : Metric) : Call → Prop
  | .set _ => m.indom = none
  | .setInstance _ _ => m.indom.isSome
  | .counterSet _ | .counterInc _ | .counterUp => m.indom = none ∧ m.desc.t = Int64Type
  | .gaugeSet _ | .gaugeInc _ _ | .gaugeDec _ _ | .timerReset _ | .timerStart _ _ | .timerStop _ _ _ =>
    m.indom = none ∧ m.desc.t = DoubleType
  | .cvSet _ _ | .cvInc _ _ => m.indom.isSome ∧ m.desc.t = Int64Type
  | .cvSetAll _ l | .cvIncAll _ l => m.desc.t = Int64Type ∧ ∃ d, m.indom = some d ∧ l.Perm (d.insts.map (·.name))
  | .gvSet _ _ | .gvInc _ _ _ | .gvDec _ _ _ => m.indom.isSome ∧ m.desc.t = DoubleType
  | .gvSetAll _ l | .gvIncAll _ _ l | .gvDecAll _ _ l =>
    m.desc.t = DoubleType ∧ ∃ d, m.indom = some d ∧ l.Perm (d.insts.map (·.name))
  | .histUpdate _ _ _ => m.desc.t = DoubleType ∧ ∃ d, m.indom = some d ∧ ∀ n ∈ histogramInstances, n ∈ d.insts.map (·.name)

/-- The operations that have no error result: they panic. -/
def Call.noErr : Call → Bool
  | .counterUp | .cvSetAll _ _ | .cvIncAll _ _ | .gvSetAll _ _ | .gvIncAll _ _ _ | .gvDecAll _ _ _ => true
  | _ => false

theorem single_cur {m : Metric} (h : m.indom = none) : ∃ v, m.cur none = some v := by
  unfold Metric.indom at h
  unfold Metric.cur
  cases hb : m.body with
  | single v => exact ⟨v, rfl⟩
  | inst d vs => rw [hb] at h; cases h

theorem hasInst_cur {m : Metric} (h : m.WF) {n : Str} (hn : m.hasInst n = false) : m.cur (some n) = none := by
  rw [← WF.cur_iff h] at hn
  simpa using hn

theorem numAt_int {m : Metric} {s : Option Str} {v : BitVec 64} (h : m.cur s = some (.int64 v)) : m.numAt s = some v.toInt := by
  unfold Metric.numAt; rw [h]; rfl

theorem cvInc_none' {u : Upd} {st : MSt} (h : Good u st) {n : Str} (hn : st.m.hasInst n = false) {x : BitVec 64}
    (h0 : x ≠ 0) : cvInc x n u st = (st, .err) := by
  unfold cvInc
  by_cases hx : x.toInt < 0
  · rw [if_pos hx]; rfl
  · rw [if_neg hx, if_neg h0, bind_err (valInstance_err h.wf (hasInst_cur h.wf hn))]

theorem bind_unit_ok {α : Type} {a : MOp α} {u : Upd} {st st' : MSt} {x : α} (h : a u st = (st', .ok x)) :
    (a.bind fun _ => .pure ()) u st = (st', .ok ()) := by rw [bind_ok h]; rfl

/-- How a call with answer `r` in state `st` must end. -/
structure CallEnds (c : Call) (st : MSt) (r : MSt × Ans Unit) : Prop where
  ok : c.Accepts st.m → r.2 = .ok ()
  refused : ¬ c.Accepts st.m → r.2 = if c.noErr then .panic else .err
  same : ¬ c.Accepts st.m → (∀ x l, c ≠ .cvSetAll x l) → r.1 = st

theorem CallEnds.of_ok {c : Call} {st st' : MSt} {r} (h : r = (st', .ok ())) (ha : c.Accepts st.m) : CallEnds c st r :=
  ⟨fun _ => by rw [h], fun hn => absurd ha hn, fun hn => absurd ha hn⟩

theorem CallEnds.of_err {c : Call} {st : MSt} {r} (hc : c.noErr = false) (h : r = (st, .err)) (ha : ¬ c.Accepts st.m) : CallEnds c st r :=
  ⟨fun hn => absurd hn ha, fun _ => by rw [h, hc]; rfl, fun _ _ => by rw [h]⟩

/-- **C86.** An operation succeeds exactly if `Accepts` holds. If not, it returns an error, or panics if it has no error
result, and nothing has changed (except by a `SetAll` of a counter vector, C23). -/
theorem C86_ends {u : Upd} {st : MSt} (h : Good u st) (c : Call) (hon : c.On st.m) (hf : c.Fits) : CallEnds c st (c.op u st) := by
  cases c with
  | set v =>
    obtain ⟨old, ho⟩ := single_cur hon
    by_cases hc : isCompatible st.m.desc.t v = true
    · obtain ⟨b, e, _⟩ := h.setAt ho hc hf
      exact .of_ok e ((takes_iff _ _).1 hc)
    · refine .of_err rfl (setAt_incompatible none (by simpa using hc)) fun ha => hc ((takes_iff _ _).2 ha)
  | setInstance v n =>
    by_cases hc : isCompatible st.m.desc.t v = true
    · by_cases hi : st.m.hasInst n = true
      · obtain ⟨old, ho⟩ := WF.cur_none h.wf hi
        obtain ⟨b, e, _⟩ := h.setAt ho hc hf
        exact .of_ok e ⟨(takes_iff _ _).1 hc, hi⟩
      · exact .of_err rfl (setInstance_none h.wf (hasInst_cur h.wf (by simpa using hi))) fun ha => hi ha.2
    · exact .of_err rfl (setAt_incompatible (some n) (by simpa using hc)) fun ha => hc ((takes_iff _ _).2 ha.1)
  | counterSet x =>
    obtain ⟨w, hw⟩ := single_cur hon.1
    obtain ⟨v, rfl⟩ := WF.cur_int h.wf hon.2 hw
    by_cases hx : x.toInt < v.toInt
    · refine .of_err rfl ((counterSet_eq h hon.2 hw x).1 hx) fun ha => ?_
      have := ha _ (numAt_int hw)
      omega
    · obtain ⟨b, e, _⟩ := (counterSet_eq h hon.2 hw x).2 (by omega)
      refine .of_ok e fun k hk => ?_
      rw [numAt_int hw] at hk
      obtain rfl := Option.some.inj hk
      omega
  | counterInc x =>
    obtain ⟨w, hw⟩ := single_cur hon.1
    obtain ⟨v, rfl⟩ := WF.cur_int h.wf hon.2 hw
    by_cases hx : x.toInt < 0
    · refine .of_err rfl ((counterInc_eq h hon.2 hw x).1 hx) fun ha => ?_
      have : 0 ≤ x.toInt := ha
      omega
    · obtain ⟨b, e, _⟩ := (counterInc_eq h hon.2 hw x).2 (by omega)
      exact .of_ok e (show 0 ≤ x.toInt by omega)
  | counterUp =>
    obtain ⟨w, hw⟩ := single_cur hon.1
    obtain ⟨v, rfl⟩ := WF.cur_int h.wf hon.2 hw
    obtain ⟨b, e, _⟩ := counterUp_eq h hon.2 hw
    exact .of_ok e trivial
  | gaugeSet x =>
    obtain ⟨w, hw⟩ := single_cur hon.1
    obtain ⟨v, rfl⟩ := WF.cur_float h.wf hon.2 hw
    obtain ⟨b, e, _⟩ := gaugeSet_eq h hon.2 hw x
    exact .of_ok e trivial
  | gaugeInc F x =>
    obtain ⟨w, hw⟩ := single_cur hon.1
    obtain ⟨v, rfl⟩ := WF.cur_float h.wf hon.2 hw
    obtain ⟨b, e, _⟩ := gaugeInc_eq h hon.2 F hw x
    exact .of_ok e trivial
  | gaugeDec F x =>
    obtain ⟨w, hw⟩ := single_cur hon.1
    obtain ⟨v, rfl⟩ := WF.cur_float h.wf hon.2 hw
    obtain ⟨b, e, _⟩ := gaugeInc_eq h hon.2 F hw (fneg x)
    exact .of_ok e trivial
  | timerReset ts =>
    obtain ⟨w, hw⟩ := single_cur hon.1
    obtain ⟨v, rfl⟩ := WF.cur_float h.wf hon.2 hw
    by_cases hs : ts.started = true
    · refine .of_err rfl ?_ fun ha => by rw [show ts.started = false from ha] at hs; cases hs
      refine bind_err ?_
      unfold timerReset; rw [if_pos hs]; rfl
    · obtain ⟨b, e, _⟩ := h.setFloat hon.2 hw 0
      refine .of_ok (bind_unit_ok (x := ts) (st' := ⟨st.m.put none (.float64 (fstore v 0)), b⟩) ?_)
        (show ts.started = false by simpa using hs)
      unfold timerReset; rw [if_neg hs]; exact bind_ok e
  | timerStart now ts =>
    by_cases hs : ts.started = true
    · refine .of_err rfl ?_ fun ha => by rw [show ts.started = false from ha] at hs; cases hs
      refine bind_err ?_
      unfold timerStart; rw [if_pos hs]; rfl
    · refine .of_ok (bind_unit_ok (x := ⟨true, now⟩) (st' := st) ?_) (show ts.started = false by simpa using hs)
      unfold timerStart; rw [if_neg hs]; rfl
  | timerStop F now ts =>
    obtain ⟨w, hw⟩ := single_cur hon.1
    obtain ⟨v, rfl⟩ := WF.cur_float h.wf hon.2 hw
    by_cases hs : ts.started = false
    · refine .of_err rfl ?_ fun ha => by rw [show ts.started = true from ha] at hs; cases hs
      refine bind_err ?_
      unfold timerStop; rw [if_pos hs]; rfl
    · have h1 : (val.bind asFloat64) u st = (st, .ok v) := by rw [bind_ok (val_ok hw)]; rfl
      obtain ⟨b, e, _⟩ := h.setFloat hon.2 hw (F.add v (F.dur st.m.desc.unit (now - ts.since)))
      refine .of_ok (bind_unit_ok (x := (⟨false, ts.since⟩, F.add v (F.dur st.m.desc.unit (now - ts.since))))
        (st' := ⟨st.m.put none (.float64 (fstore v (F.add v (F.dur st.m.desc.unit (now - ts.since))))), b⟩) ?_)
        (show ts.started = true by simpa using hs)
      unfold timerStop; rw [if_neg hs, bind_ok h1]; exact bind_ok e
  | cvSet x n =>
    by_cases hi : st.m.hasInst n = true
    · obtain ⟨w, hw⟩ := WF.cur_none h.wf hi
      obtain ⟨v, rfl⟩ := WF.cur_int h.wf hon.2 hw
      by_cases hx : x.toInt < v.toInt
      · refine .of_err rfl ((cvSet_eq h hon.2 hw x).1 hx) fun ha => ?_
        have := ha.2 _ (numAt_int hw)
        omega
      · obtain ⟨b, e, _⟩ := (cvSet_eq h hon.2 hw x).2 (by omega)
        refine .of_ok e ⟨hi, fun k hk => ?_⟩
        rw [numAt_int hw] at hk
        obtain rfl := Option.some.inj hk
        omega
    · exact .of_err rfl (cvSet_none h (hasInst_cur h.wf (by simpa using hi)) x) fun ha => hi ha.1
  | cvInc x n =>
    by_cases hi : st.m.hasInst n = true
    · obtain ⟨w, hw⟩ := WF.cur_none h.wf hi
      obtain ⟨v, rfl⟩ := WF.cur_int h.wf hon.2 hw
      by_cases hx : x.toInt < 0
      · refine .of_err rfl ((cvInc_eq h hon.2 hw x).1 hx) fun ha => ?_
        have : 0 ≤ x.toInt := ha.1
        omega
      · obtain ⟨b, e, _⟩ := (cvInc_eq h hon.2 hw x).2 (by omega)
        exact .of_ok e ⟨by omega, fun _ => hi⟩
    · by_cases h0 : x = 0
      · subst h0
        exact .of_ok (st' := st) rfl ⟨by decide, fun hn => absurd rfl hn⟩
      · exact .of_err rfl (cvInc_none' h (by simpa using hi) h0) fun ha => hi (ha.2 h0)
  | cvSetAll x l =>
    obtain ⟨ht, d, hd, hp⟩ := hon
    have hcv : IsCV st (fun n => (st.m.cur (some n)).bind fun | .int64 v => some v | _ => none) := by
      refine ⟨ht, fun n => ?_⟩
      cases hw : st.m.cur (some n) with
      | none => rfl
      | some w => obtain ⟨v, rfl⟩ := WF.cur_int h.wf ht hw; rfl
    have hval : ∀ n v, ((st.m.cur (some n)).bind fun | .int64 v => some v | _ => none) = some v ↔
        st.m.cur (some n) = some (.int64 v) := by
      intro n v
      cases hw : st.m.cur (some n) with
      | none => simp
      | some w => obtain ⟨v', rfl⟩ := WF.cur_int h.wf ht hw; simp
    obtain ⟨h1, h2, _⟩ := C23_setAll_partial h hcv hd x hp
    refine ⟨fun ha => (h1 fun n v hv => ha n _ (numAt_int ((hval n v).1 hv))).1, fun hn => ?_, fun _ hne => absurd rfl (hne x l)⟩
    refine h2 ?_
    by_contra hno
    refine hn fun n k hk => ?_
    unfold Metric.numAt at hk
    cases hw : st.m.cur (some n) with
    | none => rw [hw] at hk; cases hk
    | some w =>
      obtain ⟨v, rfl⟩ := WF.cur_int h.wf ht hw
      rw [hw] at hk
      obtain rfl := Option.some.inj hk
      by_contra hlt
      exact hno ⟨n, v, (hval n v).2 hw, by omega⟩
  | cvIncAll x l =>
    obtain ⟨ht, d, hd, hp⟩ := hon
    by_cases hx : x.toInt < 0
    · cases l with
      | nil => exact .of_ok (st' := st) rfl (fun hn => absurd rfl hn)
      | cons n l =>
        have e : cvIncAll x (n :: l) u st = (st, .panic) := by
          unfold cvIncAll forEach
          refine bind_panic (must_err ?_)
          unfold cvInc; rw [if_pos hx]; rfl
        have hno : ¬ (Call.cvIncAll x (n :: l)).Accepts st.m := fun ha => by
          have : 0 ≤ x.toInt := ha (by simp)
          omega
        exact ⟨fun ha => absurd ha hno, fun _ => by show (cvIncAll x (n :: l) u st).2 = _; rw [e]; rfl,
          fun _ _ => by show (cvIncAll x (n :: l) u st).1 = _; rw [e]⟩
    · obtain ⟨m', _, _, h3⟩ := C22_incAll h ht hd (x := x) (by omega)
      obtain ⟨b, e, _⟩ := h3 l hp
      exact .of_ok e (fun _ => by omega)
  | gvSet x n =>
    by_cases hi : st.m.hasInst n = true
    · obtain ⟨w, hw⟩ := WF.cur_none h.wf hi
      obtain ⟨v, rfl⟩ := WF.cur_float h.wf hon.2 hw
      obtain ⟨b, e, _⟩ := gvSet_eq h hon.2 hw x
      exact .of_ok e hi
    · exact .of_err rfl (gvSet_none h (hasInst_cur h.wf (by simpa using hi)) x) hi
  | gvInc F x n =>
    by_cases hi : st.m.hasInst n = true
    · obtain ⟨w, hw⟩ := WF.cur_none h.wf hi
      obtain ⟨v, rfl⟩ := WF.cur_float h.wf hon.2 hw
      obtain ⟨b, e, _⟩ := gvInc_eq h hon.2 F hw x
      exact .of_ok e hi
    · exact .of_err rfl (gvInc_none h F (hasInst_cur h.wf (by simpa using hi)) x) hi
  | gvDec F x n =>
    by_cases hi : st.m.hasInst n = true
    · obtain ⟨w, hw⟩ := WF.cur_none h.wf hi
      obtain ⟨v, rfl⟩ := WF.cur_float h.wf hon.2 hw
      obtain ⟨b, e, _⟩ := gvInc_eq h hon.2 F hw (fneg x)
      exact .of_ok e hi
    · exact .of_err rfl (gvInc_none h F (hasInst_cur h.wf (by simpa using hi)) (fneg x)) hi
  | gvSetAll x l =>
    obtain ⟨ht, d, hd, hp⟩ := hon
    obtain ⟨⟨m', _, _, h3⟩, _⟩ := C22_gauge h ht hd ⟨fun a _ => a, fun a _ => a, id, id, id, id, id⟩ x
    obtain ⟨b, e, _⟩ := h3 l hp
    exact .of_ok e trivial
  | gvIncAll F x l =>
    obtain ⟨ht, d, hd, hp⟩ := hon
    obtain ⟨_, ⟨m', _, _, h3⟩, _⟩ := C22_gauge h ht hd F x
    obtain ⟨b, e, _⟩ := h3 l hp
    exact .of_ok e trivial
  | gvDecAll F x l =>
    obtain ⟨ht, d, hd, hp⟩ := hon
    obtain ⟨_, ⟨m', _, _, h3⟩, _⟩ := C22_gauge h ht hd F (fneg x)
    obtain ⟨b, e, _⟩ := h3 l hp
    exact .of_ok e trivial
  | histUpdate F L hh =>
    obtain ⟨ht, d, hd, hn⟩ := hon
    obtain ⟨st', e, _⟩ := histUpdate_eq F L hh ⟨h, ht, fun n hm => by
      rw [WF.cur_iff h.wf]
      unfold Metric.hasInst Indom.hasInstance
      rw [hd]
      simpa using hn n hm⟩
    exact .of_ok e trivial

/-- **C86**: the operations that have a `Must…` variant. -/
theorem C86_which (c : Call) : (∃ op, c.mustOp = some op) ↔
    (∃ v, c = .set v) ∨ (∃ v n, c = .setInstance v n) ∨ (∃ x, c = .counterInc x) ∨ (∃ x, c = .gaugeSet x) ∨
    (∃ F x, c = .gaugeInc F x) ∨ (∃ F x, c = .gaugeDec F x) ∨ (∃ x n, c = .cvSet x n) ∨ (∃ x n, c = .cvInc x n) ∨
    (∃ x n, c = .gvSet x n) ∨ (∃ F x n, c = .gvInc F x n) ∨ (∃ F x n, c = .gvDec F x n) := by
  cases c <;> simp [Call.mustOp]

/-- **C86**, `Must…`: the same effect as the operation without `Must`; it returns exactly if that succeeds, and otherwise
panics and has changed nothing. -/
theorem C86_must {u : Upd} {st : MSt} (h : Good u st) (c : Call) (hon : c.On st.m) (hf : c.Fits) {op : MOp Unit}
    (hop : c.mustOp = some op) :
    (c.Accepts st.m → op u st = ((c.op u st).1, .ok ())) ∧ (¬ c.Accepts st.m → op u st = (st, .panic)) := by
  obtain ⟨h1, h2, h3⟩ := C86_ends h c hon hf
  have hm : op = c.op.must ∧ c.noErr = false ∧ ∀ x l, c ≠ .cvSetAll x l := by
    cases c <;> cases hop
    all_goals exact ⟨rfl, rfl, fun _ _ h => by cases h⟩
  obtain ⟨rfl, hne, hns⟩ := hm
  constructor
  · intro ha
    refine must_ok ?_
    rw [← h1 ha]
  · intro ha
    have e : c.op u st = (st, .err) := by
      have := h2 ha
      rw [hne] at this
      exact Prod.ext (h3 ha hns) this
    exact must_err e

/-- **C86**, `Up` of a counter vector: it panics exactly if there is no such instance, and otherwise adds 1. -/
theorem C86_up {u : Upd} {st : MSt} (h : Good u st) (ht : st.m.desc.t = Int64Type) (n : Str) :
    (st.m.hasInst n = false → cvUp n u st = (st, .panic)) ∧
    (st.m.hasInst n = true → ∃ v b, st.m.cur (some n) = some (.int64 v) ∧
      cvUp n u st = (⟨st.m.put (some n) (.int64 (v + 1)), b⟩, .ok ())) := by
  constructor
  · intro hn
    exact must_err (cvInc_none' h hn (by decide))
  · intro hn
    obtain ⟨w, hw⟩ := WF.cur_none h.wf hn
    obtain ⟨v, rfl⟩ := WF.cur_int h.wf ht hw
    obtain ⟨b, e, _⟩ := (cvInc_eq h ht hw 1).2 (by decide)
    exact ⟨v, b, hw, must_ok e⟩

/-- **C86**, `MustRecord` and `MustRecordN`: they return exactly if the library takes the value. -/
theorem C86_record (F : Flops) (L : Hdr) (h : L.H) {u : Upd} {st : MSt} (hi : IsHist u st) (v n : BitVec 64) :
    (L.record h v n = none → mustRecord F L h v n u st = (h, st, .panic)) ∧
    (∀ h', L.record h v n = some h' → ∃ st', mustRecord F L h v n u st = (h', st', .ok ()) ∧
      histRecord F L h v n u st = (h', st', .ok ())) := by
  obtain ⟨h1, h2⟩ := C26_record F L h hi v n
  refine ⟨fun hr => ?_, fun h' hr => ?_⟩
  · unfold mustRecord; rw [h1 hr]
  · obtain ⟨st', e, _⟩ := h2 h' hr
    exact ⟨st', by unfold mustRecord; rw [e], e⟩

/-- **C86**, `MustStart`, `MustStop`, `MustRegister…`: the same effect as the call without `Must`; a panic for its error,
success for its success, and never an error. -/
theorem C86_client {cf : Conf} {tmp : Str} {parse : Str → Option (Str × Str × Option (List Str))} {w w' : Sys} {op : COp}
    {a : Ans Unit} (h : MustStep cf tmp parse w op w' a) :
    a ≠ .err ∧ (a = .ok () → CStep cf tmp parse w op w' (.ok ())) ∧
    (a = .panic → CStep cf tmp parse w op w' .err ∨ CStep cf tmp parse w op w' .panic) := by
  cases h with
  | @mk b _ hs =>
    cases b with
    | ok x => cases x; exact ⟨by rintro ⟨⟩, fun _ => hs, by rintro ⟨⟩⟩
    | err => exact ⟨by rintro ⟨⟩, by rintro ⟨⟩, fun _ => .inl hs⟩
    | panic => exact ⟨by rintro ⟨⟩, by rintro ⟨⟩, fun _ => .inr hs⟩

/-- Conversely every call of `Start`, `Stop` and the methods that register has that step. -/
theorem C86_client_iff {cf : Conf} {tmp : Str} {parse : Str → Option (Str × Str × Option (List Str))} {w w' : Sys} {op : COp}
    (ho : (∃ i gen pid os, op = .start i gen pid os) ∨ (∃ i erase os, op = .stop i erase os) ∨ ∃ r, op = .reg r) :
    (MustStep cf tmp parse w op w' (.ok ()) ↔ CStep cf tmp parse w op w' (.ok ())) ∧
    (MustStep cf tmp parse w op w' .panic ↔ CStep cf tmp parse w op w' .err ∨ CStep cf tmp parse w op w' .panic) := by
  have ho : op.hasMust = true := by
    rcases ho with ⟨_, _, _, _, rfl⟩ | ⟨_, _, _, rfl⟩ | ⟨_, rfl⟩ <;> rfl
  exact ⟨⟨fun h => (C86_client h).2.1 rfl, fun h => .mk (a := .ok ()) ho h⟩,
    ⟨fun h => (C86_client h).2.2 rfl, fun h => h.elim (fun h => .mk (a := .err) ho h) (fun h => .mk (a := .panic) ho h)⟩⟩

/-! The metrics that programs have: what their kind says about them. -/

/-- What the constructor of the kind fixes. -/
def KindOK (m : Metric) : Prop :=
  match m.kind with
  | .singleton => m.indom = none
  | .counter => m.indom = none ∧ m.desc.t = Int64Type
  | .gauge => m.indom = none ∧ m.desc.t = DoubleType
  | .timer => m.indom = none ∧ m.desc.t = DoubleType
  | .instance_ => m.indom.isSome
  | .counterVector => m.indom.isSome ∧ m.desc.t = Int64Type
  | .gaugeVector => m.indom.isSome ∧ m.desc.t = DoubleType
  | .histogram => m.desc.t = DoubleType ∧ ∃ d, m.indom = some d ∧ ∀ n ∈ histogramInstances, n ∈ d.insts.map (·.name)
  | .foreign => True

theorem kindOK_shape {a b : Metric} (h : a.shape = b.shape) (hb : KindOK b) : KindOK a := by
  have h1 : a.kind = b.kind := congrArg (fun x => x.2.1) h
  have h2 : a.desc = b.desc := shape_desc h
  have h3 : a.indom = b.indom := congrArg (fun x => x.2.2.2.1) h
  unfold KindOK
  rw [h1, h2, h3]
  exact hb

theorem newSingle_kind {uid k val name t s u desc m} (h : (newDesc name t s u desc).bind (newSingle uid k val) = some m) :
    m.kind = k ∧ m.desc.t = t ∧ m.indom = none := by
  cases hd : newDesc name t s u desc with
  | none => rw [hd] at h; cases h
  | some dd =>
    rw [hd] at h
    obtain ⟨_, _, _, _, h5, _⟩ := newDesc_some hd
    simp only [Option.bind_some, newSingle] at h
    split at h
    · obtain rfl := Option.some.inj h
      exact ⟨rfl, h5, rfl⟩
    · cases h

theorem newInst_kind {uid k vals name t s u desc d m} (h : (newDesc name t s u desc).bind (newInstMetric uid k vals d) = some m) :
    m.kind = k ∧ m.desc.t = t ∧ m.indom = some d := by
  cases hd : newDesc name t s u desc with
  | none => rw [hd] at h; cases h
  | some dd =>
    rw [hd] at h
    obtain ⟨_, _, _, _, h5, _⟩ := newDesc_some hd
    simp only [Option.bind_some, newInstMetric] at h
    split at h
    · cases h
    · split at h
      · cases h
      · obtain rfl := Option.some.inj h
        exact ⟨rfl, h5, rfl⟩

theorem generate_kind {uid duid k vals name t s u desc m} (h : generateInstanceMetric uid duid k vals name t s u desc = some m) :
    m.kind = k ∧ m.desc.t = t ∧ m.indom.isSome := by
  unfold generateInstanceMetric at h
  cases hd : newIndom duid (name ++ dotIndom) (vals.map (·.1)) [] with
  | none => rw [hd] at h; cases h
  | some d =>
    rw [hd] at h
    obtain ⟨h1, h2, h3⟩ := newInst_kind h
    exact ⟨h1, h2, by rw [h3]; rfl⟩

theorem MadeMetric.kindOK {m : Metric} (h : MadeMetric m) : KindOK m := by
  induction h with
  | singleton h => obtain ⟨h1, h2, h3⟩ := newSingle_kind h; unfold KindOK; rw [h1]; exact h3
  | counter h => obtain ⟨h1, h2, h3⟩ := newSingle_kind h; unfold KindOK; rw [h1]; exact ⟨h3, h2⟩
  | gauge h => obtain ⟨h1, h2, h3⟩ := newSingle_kind h; unfold KindOK; rw [h1]; exact ⟨h3, h2⟩
  | timer h => obtain ⟨h1, h2, h3⟩ := newSingle_kind h; unfold KindOK; rw [h1]; exact ⟨h3, h2⟩
  | instance_ hd h => obtain ⟨h1, h2, h3⟩ := newInst_kind h; unfold KindOK; rw [h1]; exact by rw [h3]; rfl
  | counterVector h => obtain ⟨h1, h2, h3⟩ := generate_kind h; unfold KindOK; rw [h1]; exact ⟨h3, h2⟩
  | gaugeVector h => obtain ⟨h1, h2, h3⟩ := generate_kind h; unfold KindOK; rw [h1]; exact ⟨h3, h2⟩
  | @histogram L uid duid name low high sig unit desc m h0 h =>
    obtain ⟨h1, ⟨d, h2, _, _, h3⟩, _⟩ := (C48_histogram L uid duid name low high sig unit desc).2 m h0 h
    unfold KindOK
    rw [h1.kind]
    exact ⟨h1.t, d, h2, fun n hn => (h3 n).2 hn⟩
  | update s val _ ih => exact kindOK_shape (update_shape ..) ih
  | embed _ _ => trivial

theorem addIndom_keeps {r r' : Reg} {d : Indom} (h : r.addIndom d = some r') : r'.metrics = r.metrics := by
  unfold Reg.addIndom at h
  split at h
  · cases h
  · split at h
    · cases h
    · rw [← Option.some.inj h]

theorem byName_keeps {r r' : Reg} {uid : Nat} {name : Str} {l : List Str} {d : Indom} (h : r.addIndomByName uid name l = some (r', d)) :
    r'.metrics = r.metrics := by
  unfold Reg.addIndomByName at h
  split at h
  · cases h
  · split at h
    · cases h
    · split at h
      · cases h
      · rename_i h'
        obtain ⟨rfl, rfl⟩ := Prod.mk.inj (Option.some.inj h)
        exact addIndom_keeps h'

theorem addMetric_kinds {r : Reg} {m : Metric} (hm : KindOK m) (hr : ∀ x ∈ r.metrics, KindOK x) :
    ∀ x ∈ (r.addMetric m).reg.metrics, KindOK x := by
  have hun : ∀ {r' : Reg}, r'.metrics = r.metrics → ∀ x ∈ (r'.addMetricUnchecked m).metrics, KindOK x := by
    intro r' he x hx
    rcases List.mem_append.1 hx with hx | hx
    · exact hr x (he ▸ hx)
    · rw [List.mem_singleton.1 hx]; exact hm
  unfold Reg.addMetric
  split
  · exact hr
  · split
    · exact hr
    · split
      · exact hun rfl
      · split
        · exact hun rfl
        · split
          · exact hr
          · rename_i h; exact hun (addIndom_keeps h)

theorem Built.kindOK {r : Reg} (h : Built r) : ∀ m ∈ r.metrics, KindOK m := by
  obtain ⟨parse, ops, h1, rfl⟩ := h
  have key : ∀ (ops : List HOp) (r : Reg), (∀ op ∈ ops, op.Made) → (∀ m ∈ r.metrics, KindOK m) →
      ∀ m ∈ (runHist parse r ops).metrics, KindOK m := by
    intro ops
    induction ops with
    | nil => exact fun r _ hr => hr
    | cons op ops ih =>
      intro r hops hr
      refine ih _ (fun o ho => hops o (by simp [ho])) ?_
      have hop := hops op (by simp)
      cases op with
      | reg op =>
        cases op with
        | addMetric m => exact addMetric_kinds (MadeMetric.kindOK hop) hr
        | addIndom d =>
          show ∀ m ∈ (ROp.apply parse r (.addIndom d)).reg.metrics, KindOK m
          unfold ROp.apply
          dsimp only
          split
          · rename_i h; rw [addIndom_keeps h]; exact hr
          · exact hr
        | byName uid name l =>
          show ∀ m ∈ (ROp.apply parse r (.byName uid name l)).reg.metrics, KindOK m
          unfold ROp.apply
          dsimp only
          split
          · rename_i h; rw [byName_keeps h]; exact hr
          · exact hr
        | mapped b => exact hr
        | byString uid duid str val t s u =>
          show ∀ m ∈ (r.addMetricByString parse uid duid str val t s u).reg.metrics, KindOK m
          have hfin : ∀ {r' : Reg} {mp name d}, r'.metrics = r.metrics → ∀ x ∈ (match newPCPInstanceMetric uid mp name d t s u [] with
              | none => (⟨r', false⟩ : RRes)
              | some m => r'.addMetric m).reg.metrics, KindOK x := by
            intro r' mp name d he
            split
            · rw [he]; exact hr
            · rename_i m hm
              obtain ⟨h1, _, h3⟩ := newInst_kind hm
              refine addMetric_kinds ?_ (by rw [he]; exact hr)
              unfold KindOK; rw [h1]; show m.indom.isSome; rw [h3]; rfl
          unfold Reg.addMetricByString
          split
          · exact hr
          · unfold Reg.addSingletonByString
            split
            · exact hr
            · rename_i m hm
              obtain ⟨h1, _, h3⟩ := newSingle_kind hm
              refine addMetric_kinds ?_ hr
              unfold KindOK; rw [h1]; exact h3
          · unfold Reg.addInstanceByString
            split
            · exact hr
            · split
              · split
                · exact hr
                · rename_i h; exact hfin (byName_keeps h)
              · split
                · exact hfin rfl
                · exact hr
      | set name s val =>
        intro x hx
        obtain ⟨y, hy, rfl⟩ := List.mem_map.1 hx
        split
        · exact kindOK_shape (update_shape ..) (hr y hy)
        · exact hr y hy
  exact key ops _ h1 (by intro m hm; cases hm)

theorem Active.kindOK {e o w} (h : Active e o w) : ∀ m ∈ w.reg.metrics, KindOK m := by
  induction h with
  | start h => exact h.built.kindOK
  | call c _ hm hf ih =>
    intro x hx
    rcases mem_setMetric hx with rfl | ⟨hx, _⟩
    · exact kindOK_shape (c.shape ..) (ih _ hm)
    · exact ih x hx

/-- The kind of metric that has the operation. -/
def Call.kind : Call → Kind
  | .set _ => .singleton
  | .setInstance _ _ => .instance_
  | .counterSet _ | .counterInc _ | .counterUp => .counter
  | .gaugeSet _ | .gaugeInc _ _ | .gaugeDec _ _ => .gauge
  | .timerReset _ | .timerStart _ _ | .timerStop _ _ _ => .timer
  | .cvSet _ _ | .cvInc _ _ | .cvSetAll _ _ | .cvIncAll _ _ => .counterVector
  | .gvSet _ _ | .gvInc _ _ _ | .gvDec _ _ _ | .gvSetAll _ _ | .gvIncAll _ _ _ | .gvDecAll _ _ _ => .gaugeVector
  | .histUpdate _ _ _ => .histogram

/-- The order in which an operation on all instances visits them: each once. -/
def Call.visits : Call → Option (List Str)
  | .cvSetAll _ l | .cvIncAll _ l | .gvSetAll _ l | .gvIncAll _ _ l | .gvDecAll _ _ l => some l
  | _ => none

theorem on_of_kind {m : Metric} (h : KindOK m) {c : Call} (hk : c.kind = m.kind)
    (hv : ∀ l, c.visits = some l → ∀ d, m.indom = some d → l.Perm (d.insts.map (·.name))) : c.On m := by
  unfold KindOK at h
  cases c <;> rw [← hk] at h <;> first | exact h | skip
  all_goals
    obtain ⟨h1, h2⟩ := h
    obtain ⟨d, hd⟩ := Option.isSome_iff_exists.1 h1
    exact ⟨h2, d, hd, hv _ rfl d hd⟩

/-- **C86**, on the metrics of an active client, after any history. -/
theorem C86_active {e o w} (h : Active e o w) {m : Metric} (hm : m ∈ w.reg.metrics) (c : Call) (hk : c.kind = m.kind)
    (hv : ∀ l, c.visits = some l → ∀ d, m.indom = some d → l.Perm (d.insts.map (·.name))) (hf : c.Fits) :
    CallEnds c ⟨m, w.mem⟩ (c.op (w.upd m.uid) ⟨m, w.mem⟩) ∧ ∀ op, c.mustOp = some op →
      (c.Accepts m → op (w.upd m.uid) ⟨m, w.mem⟩ = ((c.op (w.upd m.uid) ⟨m, w.mem⟩).1, .ok ())) ∧
      (¬ c.Accepts m → op (w.upd m.uid) ⟨m, w.mem⟩ = (⟨m, w.mem⟩, .panic)) :=
  have hon := on_of_kind (h.kindOK m hm) hk hv
  ⟨C86_ends (h.good hm) c hon hf, fun _ ho => C86_must (h.good hm) c hon hf ho⟩

/-- **C86**, on metrics that are not published, after any history. -/
theorem C86_free {m : Metric} (hm : MadeMetric m) (c : Call) (hk : c.kind = m.kind)
    (hv : ∀ l, c.visits = some l → ∀ d, m.indom = some d → l.Perm (d.insts.map (·.name))) (hf : c.Fits) :
    CallEnds c ⟨m, []⟩ (c.op (fun _ => none) ⟨m, []⟩) ∧ ∀ op, c.mustOp = some op →
      (c.Accepts m → op (fun _ => none) ⟨m, []⟩ = ((c.op (fun _ => none) ⟨m, []⟩).1, .ok ())) ∧
      (¬ c.Accepts m → op (fun _ => none) ⟨m, []⟩ = (⟨m, []⟩, .panic)) :=
  have hon := on_of_kind hm.kindOK hk hv
  ⟨C86_ends (.free hm) c hon hf, fun _ ho => C86_must (.free hm) c hon hf ho⟩

/-- A counter at 5: 7 is accepted, 3 and an increment of -1 are not; `MustInc(-1)` panics. A Uint32 metric takes the int
7, not -1. A vector without "c" panics on `Up("c")`. -/
example :
    ((newPCPCounter 1 5 sC []).map fun m => ((counterSet 7 (fun _ => none) ⟨m, []⟩).2, (counterSet 3 (fun _ => none) ⟨m, []⟩).2,
      (counterInc (-1) (fun _ => none) ⟨m, []⟩).2, (mustCounterInc (-1) (fun _ => none) ⟨m, []⟩).2)) =
        some (.ok (), .err, .err, .panic) ∧
    ((newPCPSingletonMetric 1 (.int 1) sA Uint32Type InstantSemantics OneUnit []).map fun m =>
      ((mustSet (.int 7) (fun _ => none) ⟨m, []⟩).2, (mustSet (.int (-1)) (fun _ => none) ⟨m, []⟩).2)) = some (.ok (), .panic) ∧
    (exVec.map fun m => ((cvUp sA (fun _ => none) ⟨m, []⟩).2, (cvUp sC (fun _ => none) ⟨m, []⟩).2)) = some (.ok (), .panic) := by
  decide

/-! ### C87: instances that do not exist -/

/-- The instance that an operation names. -/
def Call.names : Call → Option Str
  | .setInstance _ n | .cvSet _ n | .cvInc _ n | .gvSet _ n | .gvInc _ _ n | .gvDec _ _ n => some n
  | _ => none

/-- The full property: an operation on an instance that the metric does not have is refused. -/
def RefusesUnknown (u : Upd) (st : MSt) : Prop :=
  ∀ c : Call, ∀ n, c.names = some n → st.m.hasInst n = false → c.On st.m → (c.op u st).2 = .err

/-- **C87 is false**: `Inc(0, "c")` of a counter vector {a: 1, b: 5} succeeds, and so does `MustInc(0, "c")`. -/
theorem C87_refuted : ∃ m, exVec = some m ∧ m.hasInst sC = false ∧ (cvInc 0 sC (fun _ => none) ⟨m, []⟩).2 = .ok () ∧
    (mustCvInc 0 sC (fun _ => none) ⟨m, []⟩).2 = .ok () ∧ ¬ RefusesUnknown (fun _ => none) ⟨m, []⟩ := by
  refine ⟨_, rfl, by decide, by decide, by decide, fun h => ?_⟩
  have := h (.cvInc 0 sC) sC rfl (by decide) ⟨rfl, rfl⟩
  revert this
  decide

/-- **C87 (partial).** All others are refused and change nothing; that one changes nothing either. Reading an instance that
does not exist is an error as well. Missing: `Inc` of a counter vector by 0, which succeeds. -/
theorem C87_unknown_partial {u : Upd} {st : MSt} (h : Good u st) {n : Str} (hn : st.m.hasInst n = false) :
    (∀ c : Call, c.names = some n → (c ≠ .cvInc 0 n → c.op u st = (st, .err)) ∧ (c = .cvInc 0 n → c.op u st = (st, .ok ()))) ∧
    valInstance n u st = (st, .err) ∧ cvVal n u st = (st, .err) ∧ gvVal n u st = (st, .err) := by
  have hc := hasInst_cur h.wf hn
  have hv := valInstance_err (u := u) h.wf hc
  refine ⟨fun c hcn => ⟨fun hne => ?_, fun he => by subst he; rfl⟩, hv, bind_err hv, bind_err hv⟩
  cases c <;> cases hcn
  · exact setInstance_none h.wf hc
  · exact cvSet_none h hc _
  · rename_i x
    exact cvInc_none' h hn (fun h0 => hne (by rw [h0]))
  · exact gvSet_none h hc _
  · exact gvInc_none h _ hc _
  · exact gvInc_none h _ hc _

/-- On {a: 1, b: 5}: `Set`, `Inc(1)` and `Val` of "c" are errors. -/
example : (exVec.map fun m => ((cvSet 7 sC (fun _ => none) ⟨m, []⟩).2, (cvInc 1 sC (fun _ => none) ⟨m, []⟩).2,
    (cvVal sC (fun _ => none) ⟨m, []⟩).2, (cvVal sB (fun _ => none) ⟨m, []⟩).2)) = some (.err, .err, .err, .ok 5) := by decide

end Speed
