import Verif.PropsLive
import Verif.PropsConstruct
/-
Helper lemmas for the operations on counters, gauges, timers, vectors and histograms: what one operation does
to a metric whose update closures, if any, point into the buffer.
-/
namespace Speed

/-! ### Metrics with usable closures -/

/-- The metric is one a program can have, and its update closures (if any) point at enough room in the buffer. This
holds before `Start` (no closures) and in every active world. -/
structure Good (u : Upd) (st : MSt) : Prop where
  wf : st.m.WF
  len : st.mem.length < 9223372036854775808
  room : ∀ s ∈ st.m.slots, ∀ off, u s = some off → ∀ v, Typed st.m.desc.t v → Fits v →
    off + (newBytes v).length ≤ st.mem.length

/-- No closures: before the first `Start`. -/
theorem Good.free {m : Metric} (h : MadeMetric m) : Good (fun _ => none) ⟨m, []⟩ :=
  ⟨h.wf, by simp, fun _ _ _ h => by cases h⟩

theorem storeInv_wf {fit : GoVal → Prop} (u : Upd) : StoreInv fit u (fun st => st.m.WF) := by
  intro st s old v h _ _ hv _
  unfold storeVal
  repeat' split
  all_goals first
    | exact h
    | exact put_WF h (resolve_typed hv)

theorem Active.wf {e o w} (h : Active e o w) : ∀ m ∈ w.reg.metrics, m.WF := by
  induction h with
  | start h => exact h.built.inv.metrics
  | call c _ hm hf ih =>
    intro x hx
    rcases mem_setMetric hx with rfl | ⟨hx, _⟩
    · exact c.pres hf _ _ (fun _ h => h) (storeInv_wf _) _ (ih _ hm)
    · exact ih x hx

/-- Metrics of an active client. -/
theorem Active.good {e o w} (h : Active e o w) {m : Metric} (hm : m ∈ w.reg.metrics) : Good (w.upd m.uid) ⟨m, w.mem⟩ := by
  obtain ⟨σ, hl, _⟩ := h.liveAt
  refine ⟨h.wf m hm, hl.len, fun s hs off ho v hv hf => ?_⟩
  obtain ⟨u, h1, h2, _⟩ := hl.store (old := v) hm hs hv hf
  obtain ⟨u', h3, h4⟩ := hl.updAt hm hs
  have : u' = u := Option.some.inj (h3.symm.trans h1)
  subst this
  have : off = u' := Option.some.inj (ho.symm.trans h4)
  subst this
  exact h2

theorem assoc_ext {α : Type} {l1 l2 : List (Str × α)} (hk : l1.map (·.1) = l2.map (·.1)) (hn : (l1.map (·.1)).Nodup)
    (h : ∀ n, (l1.find? (fun p => p.1 = n)).map Prod.snd = (l2.find? (fun p => p.1 = n)).map Prod.snd) : l1 = l2 := by
  induction l1 generalizing l2 with
  | nil => cases l2 with
    | nil => rfl
    | cons _ _ => simp at hk
  | cons p l ih =>
    cases l2 with
    | nil => simp at hk
    | cons q l2 =>
      simp only [List.map_cons, List.cons.injEq] at hk
      rw [List.map_cons, List.nodup_cons] at hn
      have h0 := h p.1
      simp only [List.find?_cons_of_pos, decide_true, hk.1, Option.map_some, Option.some.injEq] at h0
      have hpq : p = q := Prod.ext hk.1 h0
      subst hpq
      congr 1
      refine ih hk.2 hn.2 fun n => ?_
      by_cases hpn : p.1 = n
      · have e1 : l.find? (fun p => p.1 = n) = none := by
          rw [List.find?_eq_none]; intro x hx hxn
          exact hn.1 (List.mem_map.2 ⟨x, hx, by rw [hpn]; simpa using hxn⟩)
        have e2 : l2.find? (fun p => p.1 = n) = none := by
          rw [List.find?_eq_none]; intro x hx hxn
          exact hn.1 (by rw [hk.2]; exact List.mem_map.2 ⟨x, hx, by rw [hpn]; simpa using hxn⟩)
        rw [e1, e2]
      · have := h n
        rw [List.find?_cons_of_neg (by simpa using hpn), List.find?_cons_of_neg (by simpa using hpn)] at this
        exact this

/-- Two metrics with the same description and domain and the same values are the same. -/
theorem metric_ext {m m' : Metric} (h : m.WF) (h' : m'.WF) (hu : m.uid = m'.uid) (hk : m.kind = m'.kind) (hd : m.desc = m'.desc)
    (hi : m.indom = m'.indom) (hc : ∀ s, m.cur s = m'.cur s) : m = m' := by
  obtain ⟨uid, kind, desc, body⟩ := m
  obtain ⟨uid', kind', desc', body'⟩ := m'
  dsimp only at hu hk hd
  subst hu; subst hk; subst hd
  congr 1
  cases body with
  | single v =>
    cases body' with
    | single v' => have := hc none; simp only [Metric.cur, Option.some.injEq] at this; rw [this]
    | inst d vs => cases hi
  | inst d vs =>
    cases body' with
    | single v' => cases hi
    | inst d' vs' =>
      have hdd : d = d' := Option.some.inj hi
      subst hdd
      obtain ⟨w1, k1, _⟩ := h.inst d vs rfl
      obtain ⟨_, k2, _⟩ := h'.inst d vs' rfl
      rw [assoc_ext (k1.trans k2.symm) (by rw [k1]; exact w1.nodup) (fun n => hc (some n))]

theorem put_same {m : Metric} (h : m.WF) {s : Option Str} {v : GoVal} (hv : m.cur s = some v) (ht : Typed m.desc.t v) :
    m.put s v = m := by
  refine metric_ext (put_WF h ht) h rfl rfl rfl (put_indom ..) fun s' => ?_
  rw [put_cur]
  split
  · rename_i he; rw [he, hv]; rfl
  · rfl

theorem Good.put {u : Upd} {st : MSt} (h : Good u st) {s : Option Str} {v : GoVal} (hv : Typed st.m.desc.t v) {b : Buf}
    (hb : b.length = st.mem.length) : Good u ⟨st.m.put s v, b⟩ :=
  ⟨put_WF h.wf hv, by show b.length < _; rw [hb]; exact h.len, fun s' hs' off ho w hw hf => by
    show off + _ ≤ b.length
    rw [hb]
    exact h.room s' (by rw [← put_slots st.m s v]; exact hs') off ho w hw hf⟩

/-- A store succeeds. -/
theorem Good.store {u : Upd} {st : MSt} (h : Good u st) {s : Option Str} (hs : s ∈ st.m.slots) {old v : GoVal}
    (hold : st.m.cur s = some old) (hto : Typed st.m.desc.t old) (hv : Typed st.m.desc.t v) (hf : Fits v) :
    ∃ b, storeVal s old v u st = (⟨st.m.put s (if goEq v old then old else v), b⟩, .ok ()) ∧
      Good u ⟨st.m.put s (if goEq v old then old else v), b⟩ := by
  unfold storeVal
  by_cases he : goEq v old = true
  · rw [if_pos he, if_pos he, put_same h.wf hold hto]
    exact ⟨st.mem, rfl, h⟩
  · rw [if_neg he, if_neg he]
    cases hu : u s with
    | none => exact ⟨st.mem, rfl, h.put hv rfl⟩
    | some off =>
      obtain ⟨n, hn⟩ := updClosure_ok (fits_valOK hv hf) (h.room s hs off hu v hv hf) h.len
      dsimp only
      rw [hn]
      exact ⟨_, rfl, h.put hv (place_length ..)⟩

theorem WF.cur_typed {m : Metric} (h : m.WF) {s : Option Str} {v : GoVal} (hv : m.cur s = some v) : Typed m.desc.t v := by
  unfold Metric.cur at hv
  split at hv
  · rename_i v' hb; obtain rfl := Option.some.inj hv; exact h.single _ hb
  · rename_i d vs n hb
    obtain ⟨p, hp, rfl⟩ := Option.map_eq_some_iff.1 hv
    exact (h.inst _ _ hb).2.2 p (List.mem_of_find?_eq_some hp)
  · cases hv

theorem WF.slot_iff {m : Metric} (h : m.WF) (s : Option Str) : s ∈ m.slots ↔ (m.cur s).isSome := by
  cases s with
  | none =>
    unfold Metric.slots Metric.cur
    cases m.body <;> simp
  | some n =>
    rw [WF.cur_iff h]
    unfold Metric.slots Metric.hasInst Metric.indom Indom.hasInstance
    cases m.body <;> simp

theorem WF.cur_none {m : Metric} (h : m.WF) {n : Str} (hn : m.hasInst n = true) : ∃ v, m.cur (some n) = some v := by
  rw [← WF.cur_iff h] at hn
  exact Option.isSome_iff_exists.1 hn

/-- `set`/`setInstance` with a compatible value that fits succeeds. -/
theorem Good.setAt {u : Upd} {st : MSt} (h : Good u st) {s : Option Str} {old v : GoVal}
    (hold : st.m.cur s = some old) (hc : isCompatible st.m.desc.t v = true) (hf : Fits v) :
    ∃ b, Speed.setAt s v u st =
        (⟨st.m.put s (if goEq (resolve st.m.desc.t v) old then old else resolve st.m.desc.t v), b⟩, .ok ()) ∧
      Good u ⟨st.m.put s (if goEq (resolve st.m.desc.t v) old then old else resolve st.m.desc.t v), b⟩ := by
  have hs : s ∈ st.m.slots := (WF.slot_iff h.wf s).2 (by rw [hold]; rfl)
  rw [setAt_compatible hc hs hold]
  exact h.store hs hold (WF.cur_typed h.wf hold) (resolve_typed hc) (resolve_fits hf)

/-! ### int64 and float64 slots -/

theorem Good.setInt {u : Upd} {st : MSt} (h : Good u st) (ht : st.m.desc.t = Int64Type) {s : Option Str} {old : GoVal}
    (hold : st.m.cur s = some old) (y : BitVec 64) :
    ∃ b, Speed.setAt s (.int64 y) u st = (⟨st.m.put s (.int64 y), b⟩, .ok ()) ∧ Good u ⟨st.m.put s (.int64 y), b⟩ := by
  have hr : resolve st.m.desc.t (.int64 y) = .int64 y := by rw [ht]; rfl
  have hv : (if goEq (resolve st.m.desc.t (.int64 y)) old then old else resolve st.m.desc.t (.int64 y)) = .int64 y := by
    rw [hr]
    split
    · rename_i he
      cases old <;> simp only [goEq, decide_eq_true_eq] at he
      all_goals first
        | exact he.symm
        | cases he
    · rfl
  have := h.setAt (v := .int64 y) hold (by rw [ht]; rfl) trivial
  rw [hv] at this
  exact this

/-- Go's assignment to the field, which `set` leaves out when old and new compare equal. -/
def fstore (old y : BitVec 64) : BitVec 64 := if feq64 y old then old else y

theorem Good.setFloat {u : Upd} {st : MSt} (h : Good u st) (ht : st.m.desc.t = DoubleType) {s : Option Str} {old : BitVec 64}
    (hold : st.m.cur s = some (.float64 old)) (y : BitVec 64) :
    ∃ b, Speed.setAt s (.float64 y) u st = (⟨st.m.put s (.float64 (fstore old y)), b⟩, .ok ()) ∧
      Good u ⟨st.m.put s (.float64 (fstore old y)), b⟩ := by
  have hr : resolve st.m.desc.t (.float64 y) = .float64 y := by rw [ht]; exact (compat_float64 y).2
  have := h.setAt (v := .float64 y) hold (by rw [ht]; exact (compat_float64 y).1) trivial
  rw [hr] at this
  have hv : (if goEq (.float64 y) (.float64 old) then GoVal.float64 old else .float64 y) = .float64 (fstore old y) := by
    unfold fstore
    show (if feq64 y old = true then _ else _) = _
    split <;> rfl
  rw [hv] at this
  exact this

theorem WF.cur_int {m : Metric} (h : m.WF) (ht : m.desc.t = Int64Type) {s : Option Str} {v : GoVal} (hv : m.cur s = some v) :
    ∃ x, v = .int64 x := by
  have := WF.cur_typed h hv
  rw [ht] at this
  rcases this with ⟨h, _⟩ | ⟨h, _⟩ | ⟨_, h⟩ | ⟨h, _⟩ | ⟨h, _⟩ | ⟨h, _⟩ | ⟨h, _⟩
  all_goals first
    | exact h
    | exact absurd h (by decide)

theorem WF.cur_float {m : Metric} (h : m.WF) (ht : m.desc.t = DoubleType) {s : Option Str} {v : GoVal} (hv : m.cur s = some v) :
    ∃ x, v = .float64 x := by
  have := WF.cur_typed h hv
  rw [ht] at this
  rcases this with ⟨h, _⟩ | ⟨h, _⟩ | ⟨h, _⟩ | ⟨h, _⟩ | ⟨h, _⟩ | ⟨_, h⟩ | ⟨h, _⟩
  all_goals first
    | exact h
    | exact absurd h (by decide)

theorem bind_ok {α β : Type} {a : MOp α} {f : α → MOp β} {u : Upd} {st st' : MSt} {x : α} (h : a u st = (st', .ok x)) :
    a.bind f u st = f x u st' := by unfold MOp.bind; rw [h]
theorem bind_err {α β : Type} {a : MOp α} {f : α → MOp β} {u : Upd} {st st' : MSt} (h : a u st = (st', .err)) :
    a.bind f u st = (st', .err) := by unfold MOp.bind; rw [h]
theorem bind_panic {α β : Type} {a : MOp α} {f : α → MOp β} {u : Upd} {st st' : MSt} (h : a u st = (st', .panic)) :
    a.bind f u st = (st', .panic) := by unfold MOp.bind; rw [h]
theorem must_ok {α : Type} {a : MOp α} {u : Upd} {st st' : MSt} {x : α} (h : a u st = (st', .ok x)) :
    a.must u st = (st', .ok x) := by unfold MOp.must; rw [h]
theorem must_err {α : Type} {a : MOp α} {u : Upd} {st st' : MSt} (h : a u st = (st', .err)) :
    a.must u st = (st', .panic) := by unfold MOp.must; rw [h]

theorem val_ok {u : Upd} {st : MSt} {v : GoVal} (h : st.m.cur none = some v) : Speed.val u st = (st, .ok v) := by
  unfold Speed.val; rw [h]

theorem valInstance_ok {u : Upd} {st : MSt} {n : Str} {v : GoVal} (hw : st.m.WF) (h : st.m.cur (some n) = some v) :
    valInstance n u st = (st, .ok v) := by
  have : st.m.hasInst n = true := by rw [← WF.cur_iff hw, h]; rfl
  unfold valInstance; rw [if_neg (by simp [this]), h]

theorem valInstance_err {u : Upd} {st : MSt} {n : Str} (hw : st.m.WF) (h : st.m.cur (some n) = none) :
    valInstance n u st = (st, .err) := by
  have : st.m.hasInst n = false := by rw [← WF.cur_iff hw, h]; rfl
  unfold valInstance; rw [if_pos this]

theorem setInstance_none {u : Upd} {st : MSt} {n : Str} {v : GoVal} (hw : st.m.WF) (h : st.m.cur (some n) = none) :
    setInstance v n u st = (st, .err) := by
  have : st.m.hasInst n = false := by rw [← WF.cur_iff hw, h]; rfl
  unfold setInstance; rw [if_pos this, ite_self]

/-! ### Counters -/

section
variable {u : Upd} {st : MSt} (h : Good u st) (ht : st.m.desc.t = Int64Type) {v : BitVec 64}

include h ht in
theorem counterSet_eq (hv : st.m.cur none = some (.int64 v)) (x : BitVec 64) :
    (x.toInt < v.toInt → counterSet x u st = (st, .err)) ∧
    (v.toInt ≤ x.toInt → ∃ b, counterSet x u st = (⟨st.m.put none (.int64 x), b⟩, .ok ()) ∧
      Good u ⟨st.m.put none (.int64 x), b⟩) := by
  have h1 : counterVal u st = (st, .ok v) := by
    unfold counterVal; rw [bind_ok (val_ok hv)]; rfl
  unfold counterSet
  rw [bind_ok h1]
  refine ⟨fun hx => by rw [if_pos hx]; rfl, fun hx => ?_⟩
  rw [if_neg (by omega)]
  exact h.setInt ht hv x

include h ht in
theorem counterInc_eq (hv : st.m.cur none = some (.int64 v)) (x : BitVec 64) :
    (x.toInt < 0 → counterInc x u st = (st, .err)) ∧
    (0 ≤ x.toInt → ∃ b, counterInc x u st = (⟨st.m.put none (.int64 (v + x)), b⟩, .ok ()) ∧
      Good u ⟨st.m.put none (.int64 (v + x)), b⟩) := by
  have h1 : counterVal u st = (st, .ok v) := by
    unfold counterVal; rw [bind_ok (val_ok hv)]; rfl
  unfold counterInc
  refine ⟨fun hx => by rw [if_pos hx]; rfl, fun hx => ?_⟩
  rw [if_neg (by omega)]
  by_cases h0 : x = 0
  · subst h0
    have e0 : v + 0 = v := by simp
    rw [if_pos rfl, e0, put_same h.wf hv (WF.cur_typed h.wf hv)]
    exact ⟨st.mem, rfl, h⟩
  · rw [if_neg h0, bind_ok h1]
    exact h.setInt ht hv _

include h ht in
theorem counterUp_eq (hv : st.m.cur none = some (.int64 v)) :
    ∃ b, counterUp u st = (⟨st.m.put none (.int64 (v + 1)), b⟩, .ok ()) ∧ Good u ⟨st.m.put none (.int64 (v + 1)), b⟩ := by
  obtain ⟨b, h1, h2⟩ := (counterInc_eq h ht hv 1).2 (by decide)
  exact ⟨b, must_ok h1, h2⟩

include h ht in
theorem cvSet_eq {n : Str} (hv : st.m.cur (some n) = some (.int64 v)) (x : BitVec 64) :
    (x.toInt < v.toInt → cvSet x n u st = (st, .err)) ∧
    (v.toInt ≤ x.toInt → ∃ b, cvSet x n u st = (⟨st.m.put (some n) (.int64 x), b⟩, .ok ()) ∧
      Good u ⟨st.m.put (some n) (.int64 x), b⟩) := by
  have h2 : asInt64 (.int64 v) u st = (st, .ok v) := rfl
  unfold cvSet
  rw [bind_ok (valInstance_ok h.wf hv), bind_ok h2]
  refine ⟨fun hx => by rw [if_pos hx]; rfl, fun hx => ?_⟩
  rw [if_neg (by omega)]
  exact h.setInt ht hv x

include h in
theorem cvSet_none {n : Str} (hv : st.m.cur (some n) = none) (x : BitVec 64) : cvSet x n u st = (st, .err) := by
  unfold cvSet
  rw [bind_err (valInstance_err h.wf hv)]

include h ht in
theorem cvInc_eq {n : Str} (hv : st.m.cur (some n) = some (.int64 v)) (x : BitVec 64) :
    (x.toInt < 0 → cvInc x n u st = (st, .err)) ∧
    (0 ≤ x.toInt → ∃ b, cvInc x n u st = (⟨st.m.put (some n) (.int64 (v + x)), b⟩, .ok ()) ∧
      Good u ⟨st.m.put (some n) (.int64 (v + x)), b⟩) := by
  have h2 : asInt64 (.int64 v) u st = (st, .ok v) := rfl
  unfold cvInc
  refine ⟨fun hx => by rw [if_pos hx]; rfl, fun hx => ?_⟩
  rw [if_neg (by omega)]
  by_cases h0 : x = 0
  · subst h0
    have e0 : v + 0 = v := by simp
    rw [if_pos rfl, e0, put_same h.wf hv (WF.cur_typed h.wf hv)]
    exact ⟨st.mem, rfl, h⟩
  · rw [if_neg h0, bind_ok (valInstance_ok h.wf hv), bind_ok h2]
    exact h.setInt ht hv _

include h in
theorem cvInc_none {n : Str} (hv : st.m.cur (some n) = none) (x : BitVec 64) :
    cvInc x n u st = (st, .err) ∨ cvInc x n u st = (st, .ok ()) := by
  unfold cvInc
  by_cases hx : x.toInt < 0
  · rw [if_pos hx]; exact .inl rfl
  · rw [if_neg hx]
    by_cases h0 : x = 0
    · rw [if_pos h0]; exact .inr rfl
    · rw [if_neg h0, bind_err (valInstance_err h.wf hv)]; exact .inl rfl

end

/-! ### Gauges -/

section
variable {u : Upd} {st : MSt} (h : Good u st) (ht : st.m.desc.t = DoubleType) {v : BitVec 64}

include h ht in
theorem gaugeSet_eq (hv : st.m.cur none = some (.float64 v)) (x : BitVec 64) :
    ∃ b, gaugeSet x u st = (⟨st.m.put none (.float64 (fstore v x)), b⟩, .ok ()) ∧
      Good u ⟨st.m.put none (.float64 (fstore v x)), b⟩ := h.setFloat ht hv x

/-- What `Inc(x)` stores in a gauge with value `v`. -/
def gaugeNext (F : Flops) (v x : BitVec 64) : BitVec 64 := if feq64 x 0 then v else fstore v (F.add v x)

include h ht in
theorem gaugeInc_eq (F : Flops) (hv : st.m.cur none = some (.float64 v)) (x : BitVec 64) :
    ∃ b, gaugeInc F x u st = (⟨st.m.put none (.float64 (gaugeNext F v x)), b⟩, .ok ()) ∧
      Good u ⟨st.m.put none (.float64 (gaugeNext F v x)), b⟩ := by
  have h1 : gaugeVal u st = (st, .ok v) := by
    unfold gaugeVal; rw [bind_ok (val_ok hv)]; rfl
  unfold gaugeInc gaugeNext
  split
  · rw [put_same h.wf hv (WF.cur_typed h.wf hv)]
    exact ⟨st.mem, rfl, h⟩
  · rw [bind_ok h1]
    exact h.setFloat ht hv _

include h ht in
theorem gvSet_eq {n : Str} (hv : st.m.cur (some n) = some (.float64 v)) (x : BitVec 64) :
    ∃ b, gvSet x n u st = (⟨st.m.put (some n) (.float64 (fstore v x)), b⟩, .ok ()) ∧
      Good u ⟨st.m.put (some n) (.float64 (fstore v x)), b⟩ := h.setFloat ht hv x

include h ht in
theorem gvInc_eq (F : Flops) {n : Str} (hv : st.m.cur (some n) = some (.float64 v)) (x : BitVec 64) :
    ∃ b, gvInc F x n u st = (⟨st.m.put (some n) (.float64 (fstore v (F.add v x))), b⟩, .ok ()) ∧
      Good u ⟨st.m.put (some n) (.float64 (fstore v (F.add v x))), b⟩ := by
  have h2 : asFloat64 (.float64 v) u st = (st, .ok v) := rfl
  unfold gvInc
  rw [bind_ok (valInstance_ok h.wf hv), bind_ok h2]
  exact h.setFloat ht hv _

include h in
theorem gvSet_none {n : Str} (hv : st.m.cur (some n) = none) (x : BitVec 64) : gvSet x n u st = (st, .err) :=
  setInstance_none h.wf hv

include h in
theorem gvInc_none (F : Flops) {n : Str} (hv : st.m.cur (some n) = none) (x : BitVec 64) : gvInc F x n u st = (st, .err) := by
  unfold gvInc
  rw [bind_err (valInstance_err h.wf hv)]

end

/-! ### Operations on all instances -/

/-- The metric with `g` applied to every instance's value. -/
def Metric.mapVals (m : Metric) (g : GoVal → GoVal) : Metric :=
  { m with body := match m.body with
      | .inst d vs => .inst d (vs.map (fun p => (p.1, g p.2)))
      | b => b }

theorem mapVals_cur (m : Metric) (g : GoVal → GoVal) (n : Str) : (m.mapVals g).cur (some n) = (m.cur (some n)).map g := by
  unfold Metric.mapVals Metric.cur
  cases m.body with
  | single v => rfl
  | inst d vs =>
    dsimp only
    induction vs with
    | nil => rfl
    | cons p l ih =>
      by_cases hp : p.1 = n
      · simp [hp]
      · rw [List.map_cons, List.find?_cons_of_neg (by simpa using hp), List.find?_cons_of_neg (by simpa using hp)]
        exact ih

/-- Running `f` on each instance in turn, when `f` changes the instance's value by `g`. -/
theorem forEach_ok {u : Upd} {f : Str → MOp Unit} {g : GoVal → GoVal} {t : MetricType}
    (hf : ∀ st n v, Good u st → st.m.desc.t = t → st.m.cur (some n) = some v →
      ∃ b, f n u st = (⟨st.m.put (some n) (g v), b⟩, .ok ()) ∧ Good u ⟨st.m.put (some n) (g v), b⟩)
    (order : List Str) (hn : order.Nodup) (st : MSt) (h : Good u st) (ht : st.m.desc.t = t)
    (ho : ∀ n ∈ order, (st.m.cur (some n)).isSome) :
    ∃ st', forEach f order u st = (st', .ok ()) ∧ Good u st' ∧ st'.m.uid = st.m.uid ∧ st'.m.kind = st.m.kind ∧
      st'.m.desc = st.m.desc ∧ st'.m.indom = st.m.indom ∧
      ∀ s, st'.m.cur s = if (∃ n ∈ order, s = some n) then (st.m.cur s).map g else st.m.cur s := by
  induction order generalizing st with
  | nil => exact ⟨st, rfl, h, rfl, rfl, rfl, rfl, fun s => by simp⟩
  | cons n l ih =>
    rw [List.nodup_cons] at hn
    obtain ⟨v, hv⟩ := Option.isSome_iff_exists.1 (ho n (by simp))
    obtain ⟨b, h1, h2⟩ := hf st n v h ht hv
    have hcur : ∀ s, s ≠ some n → (st.m.put (some n) (g v)).cur s = st.m.cur s := by
      intro s hs; rw [put_cur, if_neg hs]
    obtain ⟨st', g1, g2, g3, g4, g5, g6, g7⟩ := ih hn.2 ⟨st.m.put (some n) (g v), b⟩ h2 ht (by
      intro k hk
      rw [hcur _ (by intro he; exact hn.1 (by rw [← Option.some.inj he]; exact hk))]
      exact ho k (by simp [hk]))
    refine ⟨st', ?_, g2, g3, g4, g5, by rw [g6]; exact put_indom .., fun s => ?_⟩
    · unfold forEach; rw [bind_ok h1]; exact g1
    · rw [g7 s]
      by_cases hs : s = some n
      · subst hs
        rw [if_neg (by rintro ⟨k, hk, he⟩; exact hn.1 (by rw [Option.some.inj he]; exact hk)),
          if_pos ⟨n, by simp, rfl⟩, put_cur, if_pos rfl, hv]
        rfl
      · have : (∃ k ∈ n :: l, s = some k) ↔ ∃ k ∈ l, s = some k := by
          simp only [List.mem_cons, exists_eq_or_imp, hs, false_or]
        rw [hcur s hs]
        simp only [this]

/-- On all instances, in any order: the same metric results. -/
theorem forEach_all {u : Upd} {f : Str → MOp Unit} {g : GoVal → GoVal} {t : MetricType}
    (hf : ∀ st n v, Good u st → st.m.desc.t = t → st.m.cur (some n) = some v →
      ∃ b, f n u st = (⟨st.m.put (some n) (g v), b⟩, .ok ()) ∧ Good u ⟨st.m.put (some n) (g v), b⟩)
    {st : MSt} (h : Good u st) (ht : st.m.desc.t = t) {d : Indom} (hd : st.m.indom = some d)
    {order : List Str} (ho : order.Perm (d.insts.map (·.name))) :
    ∃ b, forEach f order u st = (⟨st.m.mapVals g, b⟩, .ok ()) ∧ Good u ⟨st.m.mapVals g, b⟩ := by
  have hdw : d.WF := h.wf.indom hd
  have hin : ∀ n, n ∈ order ↔ (st.m.cur (some n)).isSome := by
    intro n
    rw [WF.cur_iff h.wf, ho.mem_iff]
    unfold Metric.hasInst Indom.hasInstance
    rw [hd]; simp
  obtain ⟨st', g1, g2, g3, g4, g5, g6, g7⟩ :=
    forEach_ok hf order (ho.nodup_iff.2 hdw.nodup) st h ht (fun n hn => (hin n).1 hn)
  have hcur : ∀ s, st'.m.cur s = (st.m.mapVals g).cur s := by
    intro s
    rw [g7 s]
    cases s with
    | none =>
      rw [if_neg (by simp)]
      unfold Metric.mapVals Metric.cur
      cases st.m.body <;> rfl
    | some n =>
      rw [mapVals_cur]
      by_cases hn : n ∈ order
      · rw [if_pos ⟨n, hn, rfl⟩]
      · rw [if_neg (by rintro ⟨k, hk, he⟩; exact hn (by rw [Option.some.inj he]; exact hk))]
        have : st.m.cur (some n) = none := by
          rw [hin n] at hn
          simpa using hn
        rw [this]; rfl
  have hwf : (st.m.mapVals g).WF := by
    refine ⟨h.wf.name, h.wf.len, h.wf.id, ?_, ?_, ?_⟩
    · refine h.wf.kind.imp (fun hk => ?_) id
      unfold Metric.Known Metric.mapVals at *
      dsimp only
      cases hbd : st.m.body <;> rw [hbd] at hk <;> exact hk
    · intro v hv
      unfold Metric.mapVals at hv
      dsimp only at hv
      cases hbd : st.m.body with
      | single w => rw [hbd] at hv; cases hv; exact h.wf.single _ hbd
      | inst d vs => rw [hbd] at hv; cases hv
    · intro d' vs' hv
      cases hbd : st.m.body with
      | single w => unfold Metric.mapVals at hv; dsimp only at hv; rw [hbd] at hv; cases hv
      | inst d0 vs =>
        have hv' : Body.inst d0 (vs.map (fun p => (p.1, g p.2))) = Body.inst d' vs' := by
          unfold Metric.mapVals at hv; dsimp only at hv; rw [hbd] at hv; exact hv
        injection hv' with e1 e2
        subst e1; subst e2
        obtain ⟨w1, w2, _⟩ := h.wf.inst _ _ hbd
        refine ⟨w1, by rw [List.map_map]; exact w2, fun p hp => ?_⟩
        have hkn : ((vs.map (fun p => (p.1, g p.2))).map (·.1)).Nodup := by rw [List.map_map]; exact w2 ▸ w1.nodup
        have hc : (st.m.mapVals g).cur (some p.1) = some p.2 := by
          unfold Metric.cur
          rw [hv]
          dsimp only
          rw [find_of_mem hkn (n := p.1) (v := p.2) hp]; rfl
        rw [← hcur] at hc
        have := WF.cur_typed g2.wf hc
        rw [g5] at this
        exact this
  have hm : st'.m = st.m.mapVals g := by
    refine metric_ext g2.wf hwf g3 g4 g5 ?_ hcur
    rw [g6]
    unfold Metric.mapVals Metric.indom
    cases st.m.body <;> rfl
  obtain ⟨m', b⟩ := st'
  dsimp only at hm
  subst hm
  exact ⟨b, g1, g2⟩

end Speed
