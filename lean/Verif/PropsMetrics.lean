import Verif.MetricOps
/-
Properties of counters, vectors, timers, gauges and histograms (C19, C22-C27, C49). The theorems are about a metric
object that is `Good`: before `Start` every metric is (`Good.free`), and on an active client every registered
metric is (`Active.good`).
-/
namespace Speed

/-! ### C19: counters -/

/-- A counter holding `v`. -/
structure IsCounter (st : MSt) (v : BitVec 64) : Prop where
  t : st.m.desc.t = Int64Type
  cur : st.m.cur none = some (.int64 v)

inductive CtrOp where
  | set (x : BitVec 64)
  | inc (x : BitVec 64)
  | up

def CtrOp.run : CtrOp → MOp Unit
  | .set x => counterSet x
  | .inc x => counterInc x
  | .up => counterUp

/-- What the call adds, as an integer. -/
def CtrOp.amount : CtrOp → Int
  | .set _ => 0
  | .inc x => x.toInt
  | .up => 1

def ctrRun (u : Upd) (st : MSt) (ops : List CtrOp) : MSt := ops.foldl (fun st op => (op.run u st).1) st

theorem put_counter {st : MSt} {v : BitVec 64} (h : IsCounter st v) (y : BitVec 64) (b : Buf) :
    IsCounter ⟨st.m.put none (.int64 y), b⟩ y :=
  ⟨h.t, by show (st.m.put none (.int64 y)).cur none = _; rw [put_cur, if_pos rfl, h.cur]; rfl⟩

/-- What a counter operation does: the value is assigned, wrapped addition is made, or nothing. -/
theorem ctr_step {u : Upd} {st : MSt} {v : BitVec 64} (h : Good u st) (hc : IsCounter st v) (op : CtrOp) :
    ∃ v', Good u (op.run u st).1 ∧ IsCounter (op.run u st).1 v' ∧
      match op with
      | .set x => (x.toInt < v.toInt ∧ v' = v ∧ (op.run u st).2 = .err) ∨
          (v.toInt ≤ x.toInt ∧ v' = x ∧ (op.run u st).2 = .ok ())
      | .inc x => (x.toInt < 0 ∧ v' = v ∧ (op.run u st).2 = .err) ∨
          (0 ≤ x.toInt ∧ v' = v + x ∧ (op.run u st).2 = .ok ())
      | .up => v' = v + 1 ∧ (op.run u st).2 = .ok () := by
  cases op with
  | set x =>
    obtain ⟨h1, h2⟩ := counterSet_eq h hc.t hc.cur x
    unfold CtrOp.run
    dsimp only
    by_cases hx : x.toInt < v.toInt
    · rw [h1 hx]; exact ⟨v, h, hc, .inl ⟨hx, rfl, rfl⟩⟩
    · obtain ⟨b, e, g⟩ := h2 (by omega)
      rw [e]; exact ⟨x, g, put_counter hc x b, .inr ⟨by omega, rfl, rfl⟩⟩
  | inc x =>
    obtain ⟨h1, h2⟩ := counterInc_eq h hc.t hc.cur x
    unfold CtrOp.run
    dsimp only
    by_cases hx : x.toInt < 0
    · rw [h1 hx]; exact ⟨v, h, hc, .inl ⟨hx, rfl, rfl⟩⟩
    · obtain ⟨b, e, g⟩ := h2 (by omega)
      rw [e]; exact ⟨_, g, put_counter hc _ b, .inr ⟨by omega, rfl, rfl⟩⟩
  | up =>
    obtain ⟨b, e, g⟩ := counterUp_eq h hc.t hc.cur
    unfold CtrOp.run
    dsimp only
    rw [e]; exact ⟨_, g, put_counter hc _ b, rfl, rfl⟩

theorem toInt_add_nowrap {a b : BitVec 64} (h0 : 0 ≤ b.toInt) (h : a.toInt + b.toInt < 2 ^ 63) :
    (a + b).toInt = a.toInt + b.toInt := by
  have := BitVec.toInt_add a b
  rw [this, Int.bmod_def]
  have h1 := BitVec.le_toInt a
  simp only [Nat.reducePow, Int.reducePow] at *
  omega

theorem toInt_add_wrap {a b : BitVec 64} (h0 : 0 ≤ b.toInt) (h : 2 ^ 63 ≤ a.toInt + b.toInt) : (a + b).toInt < a.toInt := by
  have := BitVec.toInt_add a b
  rw [this, Int.bmod_def]
  have h1 := @BitVec.toInt_lt 64 a
  have h2 := @BitVec.toInt_lt 64 b
  simp only [Nat.reducePow, Int.reducePow] at *
  omega

/-- **C19**, one call: the value goes backwards exactly when an increment overflows. -/
theorem C19_step {u : Upd} {st : MSt} {v v' : BitVec 64} (h : Good u st) (hc : IsCounter st v) (op : CtrOp)
    (hc' : IsCounter (op.run u st).1 v') : v'.toInt < v.toInt ↔ 0 ≤ op.amount ∧ 2 ^ 63 ≤ v.toInt + op.amount := by
  obtain ⟨w, _, hw, hs⟩ := ctr_step h hc op
  have e : w = v' := by
    have := hw.cur.symm.trans hc'.cur
    simpa using this
  subst e
  have hv := @BitVec.toInt_lt 64 v
  cases op with
  | set x =>
    simp only [CtrOp.amount]
    rcases hs with ⟨_, rfl, _⟩ | ⟨hx, rfl, _⟩ <;> simp only [Nat.reducePow, Int.reducePow] at * <;> omega
  | inc x =>
    simp only [CtrOp.amount]
    rcases hs with ⟨hx, rfl, _⟩ | ⟨hx, rfl, _⟩
    · omega
    · by_cases hwr : 2 ^ 63 ≤ v.toInt + x.toInt
      · exact ⟨fun _ => ⟨hx, hwr⟩, fun _ => toInt_add_wrap hx hwr⟩
      · rw [toInt_add_nowrap hx (by omega)]
        simp only [Nat.reducePow, Int.reducePow] at *
        omega
  | up =>
    obtain ⟨rfl, _⟩ := hs
    simp only [CtrOp.amount]
    have h1 : (1 : BitVec 64).toInt = 1 := by decide
    by_cases hwr : 2 ^ 63 ≤ v.toInt + 1
    · exact ⟨fun _ => ⟨by omega, hwr⟩, fun _ => toInt_add_wrap (by decide) (by rw [h1]; exact hwr)⟩
    · rw [toInt_add_nowrap (by decide) (by rw [h1]; omega), h1]
      simp only [Nat.reducePow, Int.reducePow] at *
      omega

/-- `Inc(2)` at 2^63-2 goes backwards, at 2^63-3 it does not. -/
example : ((newPCPCounter 1 0x7FFFFFFFFFFFFFFE sC []).map fun m => (ctrRun (fun _ => none) ⟨m, []⟩ [.inc 2]).m.cur none) =
      some (some (.int64 0x8000000000000000)) ∧
    ((newPCPCounter 1 0x7FFFFFFFFFFFFFFD sC []).map fun m => (ctrRun (fun _ => none) ⟨m, []⟩ [.inc 2]).m.cur none) =
      some (some (.int64 0x7FFFFFFFFFFFFFFF)) := by decide

/-- **C19 (partial).** In any history in which no increment overflows a counter never goes backwards. Missing: the
histories with an overflowing increment, where it does (`C19_refuted`). -/
theorem C19_counter_partial {u : Upd} {st : MSt} {v : BitVec 64} (h : Good u st) (hc : IsCounter st v) (ops : List CtrOp)
    (hno : ∀ pre op post, ops = pre ++ op :: post → ∀ w, IsCounter (ctrRun u st pre) w → w.toInt + op.amount < 2 ^ 63) :
    ∃ v', Good u (ctrRun u st ops) ∧ IsCounter (ctrRun u st ops) v' ∧ v.toInt ≤ v'.toInt := by
  induction ops using List.reverseRecOn with
  | nil => exact ⟨v, h, hc, Int.le_refl _⟩
  | append_singleton ops op ih =>
    obtain ⟨w, g1, g2, g3⟩ := ih (fun pre o post he => hno pre o (post ++ [op]) (by rw [he]; simp))
    have hst : ctrRun u st (ops ++ [op]) = (op.run u (ctrRun u st ops)).1 := by
      unfold ctrRun; rw [List.foldl_append]; rfl
    rw [hst]
    obtain ⟨v', k1, k2, _⟩ := ctr_step g1 g2 op
    refine ⟨v', k1, k2, ?_⟩
    have h1 := C19_step g1 g2 op k2
    have h2 := hno ops op [] rfl w g2
    by_contra hcon
    have := h1.1 (by omega)
    omega

theorem isCounter_new {uid v name desc m} (h : newPCPCounter uid v name desc = some m) : IsCounter ⟨m, []⟩ v := by
  obtain ⟨h1, h2⟩ := (C48_counter uid v name desc).2 m h
  exact ⟨h1.t, by show m.cur none = _; unfold Metric.cur; rw [h2]⟩

/-- **C19 is false**: a counter at 2^63-1 goes to -2^63 with `Up()`, or with `Inc(1)`, without an error. -/
theorem C19_refuted : ∃ m, newPCPCounter 1 0x7FFFFFFFFFFFFFFF sC [] = some m ∧
    IsCounter ⟨m, []⟩ 0x7FFFFFFFFFFFFFFF ∧
    IsCounter (ctrRun (fun _ => none) ⟨m, []⟩ [.up]) 0x8000000000000000 ∧
    ((CtrOp.inc 1).run (fun _ => none) ⟨m, []⟩).2 = .ok () := by
  obtain ⟨m, hm⟩ : ∃ m, newPCPCounter 1 0x7FFFFFFFFFFFFFFF sC [] = some m := ⟨_, rfl⟩
  have hg := Good.free (.counter hm)
  have hc := isCounter_new hm
  obtain ⟨v1, _, h1, h2⟩ := ctr_step hg hc .up
  obtain ⟨v2, _, _, h4⟩ := ctr_step hg hc (.inc 1)
  refine ⟨m, hm, hc, ?_, ?_⟩
  · obtain ⟨rfl, _⟩ := h2; exact h1
  · rcases h4 with ⟨hx, _⟩ | ⟨_, _, h⟩
    · exact absurd hx (by decide)
    · exact h

/-- The hypotheses of `C19_counter_partial` are met by a history with a rejected call. -/
example : ∃ m, newPCPCounter 1 5 sC [] = some m ∧
    (ctrRun (fun _ => none) ⟨m, []⟩ [.inc 3, .set 2, .up]).m.cur none = some (.int64 9) := ⟨_, rfl, by decide⟩

/-! ### C19: counter vectors -/

/-- A counter vector in which instance `n` has value `f n`. -/
structure IsCV (st : MSt) (f : Str → Option (BitVec 64)) : Prop where
  t : st.m.desc.t = Int64Type
  cur : ∀ n, st.m.cur (some n) = (f n).map .int64

inductive CvOp where
  | set (x : BitVec 64) (n : Str)
  | inc (x : BitVec 64) (n : Str)

def CvOp.run : CvOp → MOp Unit
  | .set x n => cvSet x n
  | .inc x n => cvInc x n

def CvOp.amount : CvOp → Int
  | .set _ _ => 0
  | .inc x _ => x.toInt

def CvOp.name : CvOp → Str
  | .set _ n => n
  | .inc _ n => n

def cvRun (u : Upd) (st : MSt) (ops : List CvOp) : MSt := ops.foldl (fun st op => (op.run u st).1) st

theorem put_cv {st : MSt} {f : Str → Option (BitVec 64)} (h : IsCV st f) {n : Str} {v : BitVec 64} (hn : f n = some v)
    (y : BitVec 64) (b : Buf) : IsCV ⟨st.m.put (some n) (.int64 y), b⟩ (fun k => if k = n then some y else f k) := by
  refine ⟨h.t, fun k => ?_⟩
  show (st.m.put (some n) (.int64 y)).cur (some k) = _
  rw [put_cur]
  by_cases hk : k = n
  · subst hk; rw [if_pos rfl, if_pos rfl, h.cur, hn]; rfl
  · rw [if_neg (by simpa using hk), if_neg hk, h.cur]

/-- What one operation on a counter vector does. -/
theorem cv_step {u : Upd} {st : MSt} {f : Str → Option (BitVec 64)} (h : Good u st) (hc : IsCV st f) (op : CvOp) :
    Good u (op.run u st).1 ∧ ∃ f', IsCV (op.run u st).1 f' ∧ (∀ k, k ≠ op.name → f' k = f k) ∧
      match f op.name with
      | none => f' op.name = none
      | some v => match op with
        | .set x _ => (x.toInt < v.toInt ∧ f' op.name = some v) ∨ (v.toInt ≤ x.toInt ∧ f' op.name = some x)
        | .inc x _ => (x.toInt < 0 ∧ f' op.name = some v) ∨ (0 ≤ x.toInt ∧ f' op.name = some (v + x)) := by
  cases op with
  | set x n =>
    unfold CvOp.run CvOp.name
    dsimp only
    cases hf : f n with
    | none =>
      rw [cvSet_none h (by rw [hc.cur, hf]; rfl)]
      exact ⟨h, f, hc, fun _ _ => rfl, hf⟩
    | some v =>
      obtain ⟨h1, h2⟩ := cvSet_eq h hc.t (n := n) (v := v) (by rw [hc.cur, hf]; rfl) x
      dsimp only
      by_cases hx : x.toInt < v.toInt
      · rw [h1 hx]; exact ⟨h, f, hc, fun _ _ => rfl, .inl ⟨hx, hf⟩⟩
      · obtain ⟨b, e, g⟩ := h2 (by omega)
        rw [e]
        exact ⟨g, _, put_cv hc hf x b, fun k hk => if_neg hk, .inr ⟨by omega, if_pos rfl⟩⟩
  | inc x n =>
    unfold CvOp.run CvOp.name
    dsimp only
    cases hf : f n with
    | none =>
      have : (cvInc x n u st).1 = st := by
        rcases cvInc_none h (n := n) (by rw [hc.cur, hf]; rfl) x with h | h <;> rw [h]
      rw [this]
      exact ⟨h, f, hc, fun _ _ => rfl, hf⟩
    | some v =>
      obtain ⟨h1, h2⟩ := cvInc_eq h hc.t (n := n) (v := v) (by rw [hc.cur, hf]; rfl) x
      dsimp only
      by_cases hx : x.toInt < 0
      · rw [h1 hx]; exact ⟨h, f, hc, fun _ _ => rfl, .inl ⟨hx, hf⟩⟩
      · obtain ⟨b, e, g⟩ := h2 (by omega)
        rw [e]
        exact ⟨g, _, put_cv hc hf _ b, fun k hk => if_neg hk, .inr ⟨by omega, if_pos rfl⟩⟩

/-- **C19 (partial)**, counter vectors: in any history of `Set`, `Inc` and `Up` in which no increment overflows, no
instance goes backwards. (`SetAll`, `IncAll`, `UpAll`: `C23_setAll_partial`, `C22_incAll`.) -/
theorem C19_vector_partial {u : Upd} {st : MSt} {f : Str → Option (BitVec 64)} (h : Good u st) (hc : IsCV st f) (ops : List CvOp)
    (hno : ∀ pre op post, ops = pre ++ op :: post → ∀ g w, IsCV (cvRun u st pre) g → g op.name = some w →
      w.toInt + op.amount < 2 ^ 63) :
    Good u (cvRun u st ops) ∧ ∃ f', IsCV (cvRun u st ops) f' ∧
      ∀ n v, f n = some v → ∃ v', f' n = some v' ∧ v.toInt ≤ v'.toInt := by
  induction ops using List.reverseRecOn with
  | nil => exact ⟨h, f, hc, fun n v hv => ⟨v, hv, Int.le_refl _⟩⟩
  | append_singleton ops op ih =>
    obtain ⟨g1, f1, g2, g3⟩ := ih (fun pre o post he => hno pre o (post ++ [op]) (by rw [he]; simp))
    have hst : cvRun u st (ops ++ [op]) = (op.run u (cvRun u st ops)).1 := by
      unfold cvRun; rw [List.foldl_append]; rfl
    rw [hst]
    obtain ⟨k1, f2, k2, k3, k4⟩ := cv_step g1 g2 op
    refine ⟨k1, f2, k2, fun n v hv => ?_⟩
    obtain ⟨w, hw, hle⟩ := g3 n v hv
    by_cases hn : n = op.name
    · subst hn
      rw [hw] at k4
      have h2 := hno ops op [] rfl f1 w g2 hw
      cases op with
      | set x k =>
        rcases k4 with ⟨_, he⟩ | ⟨hx, he⟩
        · exact ⟨w, he, hle⟩
        · exact ⟨x, he, by omega⟩
      | inc x k =>
        rcases k4 with ⟨_, he⟩ | ⟨hx, he⟩
        · exact ⟨w, he, hle⟩
        · exact ⟨w + x, he, by rw [toInt_add_nowrap hx h2]; omega⟩
    · exact ⟨w, by rw [k3 n hn]; exact hw, hle⟩

/-- {a: 1, b: 5}: a smaller value for b and a negative increment of a are rejected. -/
example : ((newPCPCounterVector 1 2 [(sA, 1), (sB, 5)] sC []).map fun m =>
    let st := cvRun (fun _ => none) ⟨m, []⟩ [.inc 3 sA, .set 2 sB, .inc (-1) sA, .set 7 sB]
    (st.m.cur (some sA), st.m.cur (some sB))) = some (some (.int64 4), some (.int64 7)) := by decide

/-! ### C22 -/

def addTo (x : BitVec 64) : GoVal → GoVal
  | .int64 v => .int64 (v + x)
  | w => w

/-- **C22**, `IncAll(x)` with `x ≥ 0` and `UpAll`: whatever the iteration order, every instance is incremented once, and
the same metric object results. -/
theorem C22_incAll {u : Upd} {st : MSt} (h : Good u st) (ht : st.m.desc.t = Int64Type) {d : Indom} (hd : st.m.indom = some d)
    {x : BitVec 64} (hx : 0 ≤ x.toInt) :
    ∃ m', m'.indom = some d ∧ (∀ n ∈ d.insts.map (·.name), ∃ v, st.m.cur (some n) = some (.int64 v) ∧
        m'.cur (some n) = some (.int64 (v + x))) ∧
      ∀ order : List Str, order.Perm (d.insts.map (·.name)) →
        ∃ b, cvIncAll x order u st = (⟨m', b⟩, .ok ()) ∧ Good u ⟨m', b⟩ := by
  refine ⟨st.m.mapVals (addTo x), ?_, ?_, ?_⟩
  · rw [← hd]; unfold Metric.mapVals Metric.indom; cases st.m.body <;> rfl
  · intro n hn
    have hh : st.m.hasInst n = true := by
      unfold Metric.hasInst Indom.hasInstance; rw [hd]; simpa using hn
    obtain ⟨w, hw⟩ := WF.cur_none h.wf hh
    obtain ⟨v, rfl⟩ := WF.cur_int h.wf ht hw
    exact ⟨v, hw, by rw [mapVals_cur, hw]; rfl⟩
  · intro order ho
    refine forEach_all (t := Int64Type) ?_ h ht hd ho
    intro st n v hg ht hv
    obtain ⟨y, rfl⟩ := WF.cur_int hg.wf ht hv
    obtain ⟨b, h1, h2⟩ := (cvInc_eq hg ht hv x).2 hx
    exact ⟨b, must_ok h1, h2⟩

/-- {a: 1, b: 5} and `IncAll(3)` in both orders. -/
example : ((newPCPCounterVector 1 2 [(sA, 1), (sB, 5)] sC []).map fun m =>
      (cvIncAll 3 [sA, sB] (fun _ => none) ⟨m, []⟩).1.m) =
      ((newPCPCounterVector 1 2 [(sA, 1), (sB, 5)] sC []).map fun m => (cvIncAll 3 [sB, sA] (fun _ => none) ⟨m, []⟩).1.m) ∧
    ((newPCPCounterVector 1 2 [(sA, 1), (sB, 5)] sC []).map fun m =>
      let st := (cvIncAll 3 [sB, sA] (fun _ => none) ⟨m, []⟩).1
      (st.m.cur (some sA), st.m.cur (some sB))) = some (some (.int64 4), some (.int64 8)) := by decide

/-- `UpAll` is `IncAll(1)`. -/
theorem C22_upAll (order : List Str) : cvUpAll order = cvIncAll 1 order ∧ (0 : Int) ≤ (1 : BitVec 64).toInt :=
  ⟨rfl, by decide⟩

example : ((newPCPCounterVector 1 2 [(sA, 1), (sB, 5)] sC []).map fun m =>
    (cvUpAll [sB, sA] (fun _ => none) ⟨m, []⟩).1.m.cur (some sB)) = some (some (.int64 6)) := by decide

/-- Equal as float64 values: `==`, or both NaN. -/
def sameF (a b : BitVec 64) : Prop := feq64 a b = true ∨ (isNaN64 a = true ∧ isNaN64 b = true)

theorem sameF.refl (a : BitVec 64) : sameF a a := by
  unfold sameF feq64
  cases h : isNaN64 a <;> simp

theorem feq64_symm {a b : BitVec 64} (h : feq64 a b = true) : feq64 b a = true := by
  unfold feq64 at *
  simp only [Bool.and_eq_true, Bool.not_eq_true', Bool.or_eq_true, decide_eq_true_eq] at *
  obtain ⟨⟨h1, h2⟩, h3⟩ := h
  exact ⟨⟨h2, h1⟩, h3.imp Eq.symm fun h => ⟨h.2, h.1⟩⟩

theorem sameF.symm {a b : BitVec 64} (h : sameF a b) : sameF b a :=
  h.imp feq64_symm fun h => ⟨h.2, h.1⟩

theorem feq64_trans {a b c : BitVec 64} (h : feq64 a b = true) (h' : feq64 b c = true) : feq64 a c = true := by
  unfold feq64 at *
  simp only [Bool.and_eq_true, Bool.not_eq_true', Bool.or_eq_true, decide_eq_true_eq] at *
  obtain ⟨⟨h1, h2⟩, h3⟩ := h
  obtain ⟨⟨h4, h5⟩, h6⟩ := h'
  refine ⟨⟨h1, h5⟩, ?_⟩
  rcases h3 with rfl | h3
  · exact h6
  · rcases h6 with rfl | h6
    · exact .inr h3
    · exact .inr ⟨h3.1, h6.2⟩

theorem feq64_notnan {a b : BitVec 64} (h : feq64 a b = true) : isNaN64 a = false ∧ isNaN64 b = false := by
  unfold feq64 at h
  simp only [Bool.and_eq_true, Bool.not_eq_true'] at h
  exact h.1

theorem sameF.trans {a b c : BitVec 64} (h : sameF a b) (h' : sameF b c) : sameF a c := by
  rcases h with h | ⟨h1, h2⟩
  · rcases h' with h' | ⟨h3, _⟩
    · exact .inl (feq64_trans h h')
    · rw [(feq64_notnan h).2] at h3; cases h3
  · rcases h' with h' | ⟨_, h4⟩
    · rw [(feq64_notnan h').1] at h2; cases h2
    · exact .inr ⟨h1, h4⟩

theorem sameF_fstore (old y : BitVec 64) : sameF (fstore old y) y := by
  unfold fstore
  split
  · rename_i h; exact .inl (feq64_symm h)
  · exact .refl y

def fmapVal (g : BitVec 64 → BitVec 64) : GoVal → GoVal
  | .float64 v => .float64 (g v)
  | w => w

/-- **C22**, gauge vectors: `SetAll`, `IncAll` and `DecAll` assign, or add, exactly once to every instance in whatever
order; the same metric object results. -/
theorem C22_gauge {u : Upd} {st : MSt} (h : Good u st) (ht : st.m.desc.t = DoubleType) {d : Indom} (hd : st.m.indom = some d)
    (F : Flops) (x : BitVec 64) :
    (∃ m', m'.indom = some d ∧ (∀ n ∈ d.insts.map (·.name), ∃ v, m'.cur (some n) = some (.float64 v) ∧ sameF v x) ∧
      ∀ order : List Str, order.Perm (d.insts.map (·.name)) →
        ∃ b, gvSetAll x order u st = (⟨m', b⟩, .ok ()) ∧ Good u ⟨m', b⟩) ∧
    (∃ m', m'.indom = some d ∧ (∀ n ∈ d.insts.map (·.name), ∃ v v', st.m.cur (some n) = some (.float64 v) ∧
        m'.cur (some n) = some (.float64 v') ∧ sameF v' (F.add v x)) ∧
      ∀ order : List Str, order.Perm (d.insts.map (·.name)) →
        ∃ b, gvIncAll F x order u st = (⟨m', b⟩, .ok ()) ∧ Good u ⟨m', b⟩) ∧
    (∀ order, gvDecAll F x order = gvIncAll F (fneg x) order) := by
  have hcur : ∀ n ∈ d.insts.map (·.name), ∃ v, st.m.cur (some n) = some (.float64 v) := by
    intro n hn
    have hh : st.m.hasInst n = true := by
      unfold Metric.hasInst Indom.hasInstance; rw [hd]; simpa using hn
    obtain ⟨w, hw⟩ := WF.cur_none h.wf hh
    obtain ⟨v, rfl⟩ := WF.cur_float h.wf ht hw
    exact ⟨v, hw⟩
  have hind : ∀ g, (st.m.mapVals g).indom = some d := by
    intro g; rw [← hd]; unfold Metric.mapVals Metric.indom; cases st.m.body <;> rfl
  refine ⟨⟨st.m.mapVals (fmapVal fun v => fstore v x), hind _, ?_, ?_⟩,
    ⟨st.m.mapVals (fmapVal fun v => fstore v (F.add v x)), hind _, ?_, ?_⟩, fun _ => rfl⟩
  · intro n hn
    obtain ⟨v, hv⟩ := hcur n hn
    exact ⟨_, by rw [mapVals_cur, hv]; rfl, sameF_fstore v x⟩
  · intro order ho
    refine forEach_all (t := DoubleType) ?_ h ht hd ho
    intro st n v hg ht hv
    obtain ⟨y, rfl⟩ := WF.cur_float hg.wf ht hv
    obtain ⟨b, h1, h2⟩ := gvSet_eq hg ht hv x
    exact ⟨b, must_ok h1, h2⟩
  · intro n hn
    obtain ⟨v, hv⟩ := hcur n hn
    exact ⟨v, _, hv, by rw [mapVals_cur, hv]; rfl, sameF_fstore v _⟩
  · intro order ho
    refine forEach_all (t := DoubleType) ?_ h ht hd ho
    intro st n v hg ht hv
    obtain ⟨y, rfl⟩ := WF.cur_float hg.wf ht hv
    obtain ⟨b, h1, h2⟩ := gvInc_eq hg ht F hv x
    exact ⟨b, must_ok h1, h2⟩

/-- `SetAll(2.0)` in both orders. -/
example : ((newPCPGaugeVector 1 2 [(sA, 0), (sB, 0x3FF0000000000000)] sC []).map fun m =>
      (gvSetAll 0x4000000000000000 [sA, sB] (fun _ => none) ⟨m, []⟩).1.m) =
      ((newPCPGaugeVector 1 2 [(sA, 0), (sB, 0x3FF0000000000000)] sC []).map fun m =>
      (gvSetAll 0x4000000000000000 [sB, sA] (fun _ => none) ⟨m, []⟩).1.m) ∧
    ((newPCPGaugeVector 1 2 [(sA, 0), (sB, 0x3FF0000000000000)] sC []).map fun m =>
      (gvSetAll 0x4000000000000000 [sB, sA] (fun _ => none) ⟨m, []⟩).1.m.cur (some sA)) =
      some (some (.float64 0x4000000000000000)) := by decide

/-- The file of an active client is determined by the registry. -/
theorem LiveAt.mem_eq {e o σ w w'} (h : LiveAt e o σ w) (h' : LiveAt e o σ w') (hr : w.reg = w'.reg) :
    w.mem = w'.mem := by
  have hF : FileOK w.reg e (natOrd o w.reg) σ w.mem := h.file.ord rfl
  have hF' : FileOK w.reg e (natOrd o w.reg) σ w'.mem := by rw [hr]; exact h'.file.ord rfl
  exact FileOK.unique (o := natOrd o w.reg) h.ok h.sealed hF hF'

/-- Two calls that leave the same metric object leave the same world, file included. -/
theorem Active.call_eq {e o w} (h : Active e o w) {m : Metric} (hm : m ∈ w.reg.metrics) {c c' : Call} (hf : c.Fits) (hf' : c'.Fits)
    (heq : (c.op (w.upd m.uid) ⟨m, w.mem⟩).1.m = (c'.op (w.upd m.uid) ⟨m, w.mem⟩).1.m)
    (hans : (c.op (w.upd m.uid) ⟨m, w.mem⟩).2 = (c'.op (w.upd m.uid) ⟨m, w.mem⟩).2) :
    w.call m c.op = w.call m c'.op := by
  obtain ⟨σ, hl, hi⟩ := h.liveAt
  have h1 := hl.call (c.pres hf) hm
  have h2 := hl.call (c'.pres hf') hm
  have hr : (w.call m c.op).1.reg = (w.call m c'.op).1.reg := by
    show w.reg.setMetric _ = w.reg.setMetric _; rw [heq]
  have hm' := h1.mem_eq h2 hr
  have hw : (w.call m c.op).1 = (w.call m c'.op).1 := by
    cases ha : (w.call m c.op).1 with
    | mk r b cs =>
      cases hb : (w.call m c'.op).1 with
      | mk r' b' cs' =>
        rw [ha, hb] at hr hm'
        have e1 : cs = w.cells := by
          have := congrArg Live.cells ha; exact this.symm
        have e2 : cs' = w.cells := by
          have := congrArg Live.cells hb; exact this.symm
        dsimp only at hr hm'
        rw [hr, hm', e1, e2]
  exact Prod.ext hw hans

/-- **C22** on an active client: the whole world after the call, mapped file included, does not depend on the order. -/
theorem C22_active {e o w} (h : Active e o w) {m : Metric} (hm : m ∈ w.reg.metrics) {d : Indom} (hd : m.indom = some d)
    {l l' : List Str} (hl : l.Perm (d.insts.map (·.name))) (hl' : l'.Perm (d.insts.map (·.name))) :
    (m.desc.t = Int64Type → ∀ x : BitVec 64, 0 ≤ x.toInt → w.call m (cvIncAll x l) = w.call m (cvIncAll x l')) ∧
    (m.desc.t = DoubleType → ∀ x : BitVec 64, w.call m (gvSetAll x l) = w.call m (gvSetAll x l')) ∧
    (m.desc.t = DoubleType → ∀ (F : Flops) (x : BitVec 64), w.call m (gvIncAll F x l) = w.call m (gvIncAll F x l')) := by
  have hg := h.good hm
  refine ⟨fun ht x hx => ?_, fun ht x => ?_, fun ht F x => ?_⟩
  · obtain ⟨m', _, _, h3⟩ := C22_incAll hg ht hd hx
    obtain ⟨b, e1, _⟩ := h3 l hl
    obtain ⟨b', e2, _⟩ := h3 l' hl'
    refine h.call_eq hm (c := .cvIncAll x l) (c' := .cvIncAll x l') trivial trivial ?_ ?_
    · show (cvIncAll x l _ _).1.m = (cvIncAll x l' _ _).1.m; rw [e1, e2]
    · show (cvIncAll x l _ _).2 = (cvIncAll x l' _ _).2; rw [e1, e2]
  · obtain ⟨⟨m', _, _, h3⟩, _⟩ := C22_gauge hg ht hd ⟨fun a _ => a, fun a _ => a, id, id, id, id, id⟩ x
    obtain ⟨b, e1, _⟩ := h3 l hl
    obtain ⟨b', e2, _⟩ := h3 l' hl'
    refine h.call_eq hm (c := .gvSetAll x l) (c' := .gvSetAll x l') trivial trivial ?_ ?_
    · show (gvSetAll x l _ _).1.m = (gvSetAll x l' _ _).1.m; rw [e1, e2]
    · show (gvSetAll x l _ _).2 = (gvSetAll x l' _ _).2; rw [e1, e2]
  · obtain ⟨_, ⟨m', _, _, h3⟩, _⟩ := C22_gauge hg ht hd F x
    obtain ⟨b, e1, _⟩ := h3 l hl
    obtain ⟨b', e2, _⟩ := h3 l' hl'
    refine h.call_eq hm (c := .gvIncAll F x l) (c' := .gvIncAll F x l') trivial trivial ?_ ?_
    · show (gvIncAll F x l _ _).1.m = (gvIncAll F x l' _ _).1.m; rw [e1, e2]
    · show (gvIncAll F x l _ _).2 = (gvIncAll F x l' _ _).2; rw [e1, e2]

/-- A vector {a: 1, b: 5}. -/
def exVec : Option Metric := newPCPCounterVector 1 2 [(sA, 1), (sB, 5)] sC []

/-- `IncAll(3)` in both orders. -/
example : (exVec.map fun m => (cvIncAll 3 [sA, sB] (fun _ => none) ⟨m, []⟩).1.m) =
    (exVec.map fun m => (cvIncAll 3 [sB, sA] (fun _ => none) ⟨m, []⟩).1.m) ∧
    (exVec.map fun m => (cvIncAll 3 [sA, sB] (fun _ => none) ⟨m, []⟩).1.m.cur (some sB)) = some (some (.int64 8)) := by decide

/-! ### C23 -/

/-- **C23 is false.** On the vector {a: 1, b: 5}, `SetAll(3)` panics; if the map iteration starts with "a", then "a" has
been set to 3 before. -/
theorem C23_refuted : ∃ m, exVec = some m ∧
    (cvSetAll 3 [sA, sB] (fun _ => none) ⟨m, []⟩).2 = .panic ∧
    (cvSetAll 3 [sA, sB] (fun _ => none) ⟨m, []⟩).1.m.cur (some sA) = some (.int64 3) ∧
    m.cur (some sA) = some (.int64 1) ∧ (cvSetAll 3 [sB, sA] (fun _ => none) ⟨m, []⟩).1.m = m := ⟨_, rfl, by decide⟩

/-- **C23 (partial).** If no instance is larger, `SetAll(x)` sets all of them to `x`. Otherwise it panics, and every
instance has its old value or `x`, and is not smaller than before; if all are larger nothing changes. Missing: the
mixed case, in which the instances visited before the panic have changed. -/
theorem C23_setAll_partial {u : Upd} {st : MSt} (h : Good u st) {f : Str → Option (BitVec 64)} (hc : IsCV st f) {d : Indom}
    (hd : st.m.indom = some d) (x : BitVec 64) {order : List Str} (ho : order.Perm (d.insts.map (·.name))) :
    ((∀ n v, f n = some v → v.toInt ≤ x.toInt) →
      (cvSetAll x order u st).2 = .ok () ∧ ∀ n ∈ d.insts.map (·.name), (cvSetAll x order u st).1.m.cur (some n) = some (.int64 x)) ∧
    ((∃ n v, f n = some v ∧ x.toInt < v.toInt) → (cvSetAll x order u st).2 = .panic) ∧
    ((∀ n v, f n = some v → x.toInt < v.toInt) → (cvSetAll x order u st).1 = st) ∧
    ∃ f', IsCV (cvSetAll x order u st).1 f' ∧ ∀ n, f' n = f n ∨ ∃ v, f n = some v ∧ v.toInt ≤ x.toInt ∧ f' n = some x := by
  have hin : ∀ n, n ∈ d.insts.map (·.name) ↔ (f n).isSome := by
    intro n
    have h1 := WF.cur_iff h.wf n
    rw [hc.cur n] at h1
    have h2 : st.m.hasInst n = true ↔ n ∈ d.insts.map (·.name) := by
      unfold Metric.hasInst Indom.hasInstance; rw [hd]; simp
    rw [← h2, ← h1]; simp
  have hnd : order.Nodup := ho.nodup_iff.2 (h.wf.indom hd).nodup
  have hin' : ∀ n, n ∈ order ↔ (f n).isSome := fun n => (ho.mem_iff).trans (hin n)
  -- general statement about the loop
  have key : ∀ (l : List Str) (st : MSt) (f : Str → Option (BitVec 64)), Good u st → IsCV st f → l.Nodup →
      (∀ n ∈ l, (f n).isSome) →
      ((∀ n ∈ l, ∀ v, f n = some v → v.toInt ≤ x.toInt) → (cvSetAll x l u st).2 = .ok () ∧
        ∀ n ∈ l, (cvSetAll x l u st).1.m.cur (some n) = some (.int64 x)) ∧
      ((∃ n ∈ l, ∃ v, f n = some v ∧ x.toInt < v.toInt) → (cvSetAll x l u st).2 = .panic) ∧
      ((∀ n ∈ l, ∀ v, f n = some v → x.toInt < v.toInt) → (cvSetAll x l u st).1 = st) ∧
      ∃ f', IsCV (cvSetAll x l u st).1 f' ∧ ∀ n, f' n = f n ∨ n ∈ l ∧ ∃ v, f n = some v ∧ v.toInt ≤ x.toInt ∧ f' n = some x := by
    intro l
    induction l with
    | nil =>
      intro st f hg hc _ _
      exact ⟨fun _ => ⟨rfl, fun n hn => (by cases hn)⟩, fun ⟨n, hn, _⟩ => (by cases hn), fun _ => rfl, f, hc, fun n => .inl rfl⟩
    | cons n l ih =>
      intro st f hg hc hnd hall
      rw [List.nodup_cons] at hnd
      obtain ⟨v, hv⟩ := Option.isSome_iff_exists.1 (hall n (by simp))
      obtain ⟨h1, h2⟩ := cvSet_eq hg hc.t (n := n) (v := v) (by rw [hc.cur, hv]; rfl) x
      by_cases hx : x.toInt < v.toInt
      · have e : cvSetAll x (n :: l) u st = (st, .panic) := by
          unfold cvSetAll forEach
          exact bind_panic (must_err (h1 hx))
        rw [e]
        refine ⟨fun hle => ?_, fun _ => rfl, fun _ => rfl, f, hc, fun n => .inl rfl⟩
        have := hle n (by simp) v hv
        omega
      · obtain ⟨b, e, g⟩ := h2 (by omega)
        have e' : cvSetAll x (n :: l) u st = cvSetAll x l u ⟨st.m.put (some n) (.int64 x), b⟩ := by
          unfold cvSetAll
          rw [forEach]
          exact bind_ok (must_ok e)
        rw [e']
        have hf' := put_cv hc hv x b
        have hsame : ∀ k ∈ l, (if k = n then some x else f k) = f k := by
          intro k hk
          rw [if_neg (by rintro rfl; exact hnd.1 hk)]
        obtain ⟨i1, i2, i3, f2, i4, i5⟩ := ih _ _ g hf' hnd.2 (fun k hk => by
          rw [hsame k hk]; exact hall k (by simp [hk]))
        refine ⟨fun hle => ?_, fun hex => ?_, fun hgt => ?_, f2, i4, fun k => ?_⟩
        · obtain ⟨j1, j2⟩ := i1 (fun k hk w hw => hle k (by simp [hk]) w (by rw [← hsame k hk]; exact hw))
          refine ⟨j1, fun k hk => ?_⟩
          rcases List.mem_cons.1 hk with rfl | hk
          · rw [i4.cur k]
            rcases i5 k with h | ⟨h, _⟩
            · rw [h, if_pos rfl]; rfl
            · exact absurd h hnd.1
          · exact j2 k hk
        · obtain ⟨k, hk, w, hw, hlt⟩ := hex
          refine i2 ⟨k, ?_, w, ?_, hlt⟩
          · rcases List.mem_cons.1 hk with rfl | hk
            · rw [hv] at hw; cases hw; omega
            · exact hk
          · rcases List.mem_cons.1 hk with rfl | hk
            · rw [hv] at hw; cases hw; omega
            · rw [hsame k hk]; exact hw
        · exact absurd (hgt n (by simp) v hv) hx
        · rcases i5 k with h | ⟨h1, w, h2, h3, h4⟩
          · by_cases hk : k = n
            · subst hk
              rw [if_pos rfl] at h
              exact .inr ⟨by simp, v, hv, by omega, h⟩
            · rw [if_neg hk] at h; exact .inl h
          · refine .inr ⟨by simp [h1], w, ?_, h3, h4⟩
            rw [hsame k h1] at h2; exact h2
  obtain ⟨k1, k2, k3, f', k4, k5⟩ := key order st f h hc hnd (fun n hn => (hin' n).1 hn)
  refine ⟨fun hle => ?_, fun ⟨n, v, hv, hx⟩ => ?_, fun hgt => ?_, f', k4, fun n => ?_⟩
  · obtain ⟨j1, j2⟩ := k1 (fun n _ v hv => hle n v hv)
    exact ⟨j1, fun n hn => j2 n (ho.mem_iff.2 hn)⟩
  · exact k2 ⟨n, (hin' n).2 (by rw [hv]; rfl), v, hv, hx⟩
  · exact k3 (fun n _ v hv => hgt n v hv)
  · rcases k5 n with h | ⟨_, h⟩
    · exact .inl h
    · exact .inr h

/-- `SetAll` on {a: 1, b: 5} with 7, 3 and 0. -/
example : (exVec.map fun m => ((cvSetAll 7 [sB, sA] (fun _ => none) ⟨m, []⟩).2,
      (cvSetAll 7 [sB, sA] (fun _ => none) ⟨m, []⟩).1.m.cur (some sA), (cvSetAll 3 [sB, sA] (fun _ => none) ⟨m, []⟩).2,
      (cvSetAll 0 [sB, sA] (fun _ => none) ⟨m, []⟩).1.m == m)) = some (.ok (), some (.int64 7), .panic, true) := by decide

/-! ### C25 -/

/-- The facts about float64 arithmetic that are used: addition respects equality of values, and adding a zero changes
nothing (IEEE 754). -/
structure Flops.Lawful (F : Flops) : Prop where
  congr : ∀ a b x, sameF a b → sameF (F.add a x) (F.add b x)
  zero : ∀ a x, feq64 x 0 = true → sameF (F.add a x) a

inductive GOp where
  | set (x : BitVec 64)
  | inc (x : BitVec 64)
  | dec (x : BitVec 64)

def GOp.run (F : Flops) : GOp → MOp Unit
  | .set x => gaugeSet x
  | .inc x => gaugeInc F x
  | .dec x => gaugeDec F x

def gRun (F : Flops) (u : Upd) (st : MSt) (ops : List GOp) : MSt := ops.foldl (fun st op => (op.run F u st).1) st

/-- The float64 arithmetic of a call; subtraction adds the negated number. -/
def GOp.arith (F : Flops) (v : BitVec 64) : GOp → BitVec 64
  | .set x => x
  | .inc x => F.add v x
  | .dec x => F.add v (fneg x)

/-- A gauge (or timer) holding `v`. -/
structure IsGauge (st : MSt) (v : BitVec 64) : Prop where
  t : st.m.desc.t = DoubleType
  cur : st.m.cur none = some (.float64 v)

theorem put_gauge {st : MSt} {v : BitVec 64} (h : IsGauge st v) (y : BitVec 64) (b : Buf) :
    IsGauge ⟨st.m.put none (.float64 y), b⟩ y :=
  ⟨h.t, by show (st.m.put none (.float64 y)).cur none = _; rw [put_cur, if_pos rfl, h.cur]; rfl⟩

theorem g_step {F : Flops} (hF : F.Lawful) {u : Upd} {st : MSt} {v : BitVec 64} (h : Good u st) (hg : IsGauge st v) (op : GOp) :
    ∃ v', Good u (op.run F u st).1 ∧ IsGauge (op.run F u st).1 v' ∧ (op.run F u st).2 = .ok () ∧ sameF v' (op.arith F v) := by
  have hinc : ∀ x, ∃ v', Good u (gaugeInc F x u st).1 ∧ IsGauge (gaugeInc F x u st).1 v' ∧
      (gaugeInc F x u st).2 = .ok () ∧ sameF v' (F.add v x) := by
    intro x
    obtain ⟨b, e, g⟩ := gaugeInc_eq h hg.t F hg.cur x
    rw [e]
    refine ⟨_, g, put_gauge hg _ b, rfl, ?_⟩
    unfold gaugeNext
    split
    · rename_i hx; exact (hF.zero v x hx).symm
    · exact sameF_fstore _ _
  cases op with
  | set x =>
    obtain ⟨b, e, g⟩ := gaugeSet_eq h hg.t hg.cur x
    show ∃ v', Good u (gaugeSet x u st).1 ∧ _
    unfold GOp.run
    dsimp only
    rw [e]
    exact ⟨_, g, put_gauge hg _ b, rfl, sameF_fstore _ _⟩
  | inc x => exact hinc x
  | dec x => exact hinc (fneg x)

theorem arith_congr {F : Flops} (hF : F.Lawful) {a b : BitVec 64} (h : sameF a b) (op : GOp) :
    sameF (op.arith F a) (op.arith F b) := by
  cases op with
  | set x => exact .refl x
  | inc x => exact hF.congr _ _ _ h
  | dec x => exact hF.congr _ _ _ h

/-- **C25.** After any history of `Set`, `Inc` and `Dec`, all of which succeed, the gauge has the value of the float64
arithmetic of the calls; `Dec(x)` is `Inc(-x)`. -/
theorem C25_gauge {F : Flops} (hF : F.Lawful) {u : Upd} {st : MSt} {v : BitVec 64} (h : Good u st) (hg : IsGauge st v)
    (ops : List GOp) :
    (∃ v', Good u (gRun F u st ops) ∧ IsGauge (gRun F u st ops) v' ∧ sameF v' (ops.foldl (GOp.arith F) v)) ∧
    (∀ x, gaugeDec F x = gaugeInc F (fneg x)) := by
  refine ⟨?_, fun _ => rfl⟩
  have key : ∀ (ops : List GOp) (st : MSt) (v w : BitVec 64), Good u st → IsGauge st v → sameF v w →
      ∃ v', Good u (gRun F u st ops) ∧ IsGauge (gRun F u st ops) v' ∧ sameF v' (ops.foldl (GOp.arith F) w) := by
    intro ops
    induction ops with
    | nil => intro st v w h hg hs; exact ⟨v, h, hg, hs⟩
    | cons op l ih =>
      intro st v w h hg hs
      obtain ⟨v', g1, g2, _, g3⟩ := g_step hF h hg op
      exact ih _ v' _ g1 g2 (g3.trans (arith_congr hF hs op))
  exact key ops st v v h hg (.refl v)

/-- Operations on a gauge vector. -/
inductive GvOp where
  | set (x : BitVec 64) (n : Str)
  | inc (x : BitVec 64) (n : Str)
  | dec (x : BitVec 64) (n : Str)

def GvOp.run (F : Flops) : GvOp → MOp Unit
  | .set x n => gvSet x n
  | .inc x n => gvInc F x n
  | .dec x n => gvDec F x n

/-- The call as a gauge operation, if it is for instance `n`. -/
def GvOp.at (n : Str) : GvOp → Option GOp
  | .set x k => if k = n then some (.set x) else none
  | .inc x k => if k = n then some (.inc x) else none
  | .dec x k => if k = n then some (.dec x) else none

def GvOp.name : GvOp → Str
  | .set _ n => n
  | .inc _ n => n
  | .dec _ n => n

def gvRun (F : Flops) (u : Upd) (st : MSt) (ops : List GvOp) : MSt := ops.foldl (fun st op => (op.run F u st).1) st

theorem gv_step {F : Flops} {u : Upd} {st : MSt} (h : Good u st) (ht : st.m.desc.t = DoubleType) (op : GvOp) :
    Good u (op.run F u st).1 ∧ (op.run F u st).1.m.desc.t = DoubleType ∧
    (∀ k, k ≠ op.name → (op.run F u st).1.m.cur (some k) = st.m.cur (some k)) ∧
    (st.m.cur (some op.name) = none → (op.run F u st) = (st, .err)) ∧
    ∀ v, st.m.cur (some op.name) = some (.float64 v) → (op.run F u st).2 = .ok () ∧ ∀ g, op.at op.name = some g →
      ∃ v', (op.run F u st).1.m.cur (some op.name) = some (.float64 v') ∧ sameF v' (g.arith F v) := by
  -- both operations store one value
  have store : ∀ (n : Str) (f : MOp Unit) (y : BitVec 64 → BitVec 64),
      (st.m.cur (some n) = none → f u st = (st, .err)) →
      (∀ v, st.m.cur (some n) = some (.float64 v) → ∃ b, f u st = (⟨st.m.put (some n) (.float64 (fstore v (y v))), b⟩, .ok ()) ∧
        Good u ⟨st.m.put (some n) (.float64 (fstore v (y v))), b⟩) →
      Good u (f u st).1 ∧ (f u st).1.m.desc.t = DoubleType ∧
      (∀ k, k ≠ n → (f u st).1.m.cur (some k) = st.m.cur (some k)) ∧
      (st.m.cur (some n) = none → (f u st) = (st, .err)) ∧
      ∀ v, st.m.cur (some n) = some (.float64 v) → (f u st).2 = .ok () ∧
        ∃ v', (f u st).1.m.cur (some n) = some (.float64 v') ∧ sameF v' (y v) := by
    intro n f y h1 h2
    cases hc : st.m.cur (some n) with
    | none =>
      rw [h1 hc]
      exact ⟨h, ht, fun _ _ => rfl, fun _ => rfl, fun v hv => by cases hv⟩
    | some w =>
      obtain ⟨v, rfl⟩ := WF.cur_float h.wf ht hc
      obtain ⟨b, e, g⟩ := h2 v hc
      rw [e]
      refine ⟨g, ht, fun k hk => ?_, fun he => (by cases he), fun v' hv' => ⟨rfl, _, ?_, sameF_fstore v' (y v')⟩⟩
      · show (st.m.put _ _).cur _ = _
        rw [put_cur, if_neg (by simpa using hk)]
      · have : v' = v := by simpa using hv'.symm
        subst this
        show (st.m.put _ _).cur _ = _
        rw [put_cur, if_pos rfl, hc]; rfl
  cases op with
  | set x n =>
    obtain ⟨g1, g2, g3, g4, g5⟩ := store n (gvSet x n) (fun _ => x) (fun hc => gvSet_none h hc x) (fun v hv => gvSet_eq h ht hv x)
    refine ⟨g1, g2, g3, g4, fun v hv => ⟨(g5 v hv).1, fun g hg => ?_⟩⟩
    simp only [GvOp.at, GvOp.name, if_true, Option.some.injEq] at hg
    subst hg; exact (g5 v hv).2
  | inc x n =>
    obtain ⟨g1, g2, g3, g4, g5⟩ := store n (gvInc F x n) (fun v => F.add v x) (fun hc => gvInc_none h F hc x)
      (fun v hv => gvInc_eq h ht F hv x)
    refine ⟨g1, g2, g3, g4, fun v hv => ⟨(g5 v hv).1, fun g hg => ?_⟩⟩
    simp only [GvOp.at, GvOp.name, if_true, Option.some.injEq] at hg
    subst hg; exact (g5 v hv).2
  | dec x n =>
    obtain ⟨g1, g2, g3, g4, g5⟩ := store n (gvInc F (fneg x) n) (fun v => F.add v (fneg x))
      (fun hc => gvInc_none h F hc _) (fun v hv => gvInc_eq h ht F hv _)
    refine ⟨g1, g2, g3, g4, fun v hv => ⟨(g5 v hv).1, fun g hg => ?_⟩⟩
    simp only [GvOp.at, GvOp.name, if_true, Option.some.injEq] at hg
    subst hg; exact (g5 v hv).2

/-- **C25**, gauge vectors: each instance has the value of the float64 arithmetic of the calls for it. -/
theorem C25_vector {F : Flops} (hF : F.Lawful) {u : Upd} {st : MSt} (h : Good u st) (ht : st.m.desc.t = DoubleType)
    (ops : List GvOp) {n : Str} {v : BitVec 64} (hv : st.m.cur (some n) = some (.float64 v)) :
    Good u (gvRun F u st ops) ∧ ∃ v', (gvRun F u st ops).m.cur (some n) = some (.float64 v') ∧
      sameF v' ((ops.filterMap (GvOp.at n)).foldl (GOp.arith F) v) := by
  have key : ∀ (ops : List GvOp) (st : MSt) (v w : BitVec 64), Good u st → st.m.desc.t = DoubleType →
      st.m.cur (some n) = some (.float64 v) → sameF v w →
      Good u (gvRun F u st ops) ∧ ∃ v', (gvRun F u st ops).m.cur (some n) = some (.float64 v') ∧
        sameF v' ((ops.filterMap (GvOp.at n)).foldl (GOp.arith F) w) := by
    intro ops
    induction ops with
    | nil => intro st v w h _ hv hs; exact ⟨h, v, hv, hs⟩
    | cons op l ih =>
      intro st v w h ht hv hs
      obtain ⟨g1, g2, g3, g4, g5⟩ := gv_step (F := F) h ht op
      by_cases hn : op.name = n
      · subst hn
        obtain ⟨g, hg⟩ : ∃ g, op.at op.name = some g := by cases op <;> simp [GvOp.at, GvOp.name]
        obtain ⟨v', k1, k2⟩ := (g5 v hv).2 g hg
        rw [List.filterMap_cons_some hg]
        exact ih _ v' _ g1 g2 k1 (k2.trans (arith_congr hF hs g))
      · have hat : op.at n = none := by cases op <;> simp_all [GvOp.at, GvOp.name]
        rw [List.filterMap_cons_none hat]
        exact ih _ v w g1 g2 (by rw [g3 n (fun h => hn h.symm)]; exact hv) hs
  exact key ops st v v h ht hv (.refl v)

/-- Some lawful arithmetic, to show that the hypothesis can be met. -/
def exFlops : Flops where
  add a x := if feq64 x 0 then a else 0x7FF8000000000000
  mul a _ := a
  ofInt a := a
  toInt a := a
  seconds a := a
  minutes a := a
  hours a := a

theorem exFlops_lawful : exFlops.Lawful := by
  constructor
  · intro a b x h
    show sameF (if _ then _ else _) (if _ then _ else _)
    split
    · exact h
    · exact .refl _
  · intro a x h
    show sameF (if _ then _ else _) _
    rw [if_pos h]
    exact .refl a

example : ∃ m, newPCPGauge 1 0x3FF0000000000000 sC [] = some m ∧ IsGauge ⟨m, []⟩ 0x3FF0000000000000 ∧
    (gRun exFlops (fun _ => none) ⟨m, []⟩ [.inc 0, .set 0x4000000000000000, .dec 0]).m.cur none =
      some (.float64 0x4000000000000000) := ⟨_, rfl, ⟨rfl, rfl⟩, by decide⟩

/-! ### C24 -/

inductive TOp where
  | start (now : BitVec 64)
  | stop (now : BitVec 64)
  | reset

/-- A call on a timer. A failing call leaves `started` and `since`. `Stop` gives the total. -/
def TOp.run (F : Flops) (u : Upd) (ts : TimerSt) (st : MSt) : TOp → TimerSt × MSt × Ans (Option (BitVec 64))
  | .start now => match timerStart now ts u st with
    | (st', .ok ts') => (ts', st', .ok none)
    | (st', .err) => (ts, st', .err)
    | (st', .panic) => (ts, st', .panic)
  | .stop now => match timerStop F now ts u st with
    | (st', .ok (ts', x)) => (ts', st', .ok (some x))
    | (st', .err) => (ts, st', .err)
    | (st', .panic) => (ts, st', .panic)
  | .reset => match timerReset ts u st with
    | (st', .ok ts') => (ts', st', .ok none)
    | (st', .err) => (ts, st', .err)
    | (st', .panic) => (ts, st', .panic)

/-- What a timer should be: when the running interval started, and the completed intervals since the last reset. -/
structure TSpec where
  running : Option (BitVec 64)
  done : List (BitVec 64)

/-- Their sum in the timer's unit. -/
def TSpec.total (F : Flops) (unit : BitVec 32) (s : TSpec) : BitVec 64 :=
  s.done.foldl (fun a d => F.add a (F.dur unit d)) 0

/-- One call; `none` is an error. -/
def TSpec.step (s : TSpec) : TOp → Option TSpec
  | .start now => match s.running with
    | none => some { s with running := some now }
    | some _ => none
  | .stop now => match s.running with
    | none => none
    | some since => some { running := none, done := s.done ++ [now - since] }
  | .reset => match s.running with
    | none => some { s with done := [] }
    | some _ => none

/-- The timer is in the state that the specification says. -/
structure TimerIs (F : Flops) (u : Upd) (ts : TimerSt) (st : MSt) (unit : BitVec 32) (s : TSpec) : Prop where
  good : Good u st
  hunit : st.m.desc.unit = unit
  t : st.m.desc.t = DoubleType
  started : ts.started = s.running.isSome
  since : ∀ x, s.running = some x → ts.since = x
  val : ∃ v, st.m.cur none = some (.float64 v) ∧ sameF v (s.total F unit)

/-- **C24.** Each call does what the specification says: a call out of turn is an error that changes nothing, and `Stop`
returns the total. -/
theorem C24_timer {F : Flops} (hF : F.Lawful) {u : Upd} {ts : TimerSt} {st : MSt} {unit : BitVec 32} {s : TSpec}
    (h : TimerIs F u ts st unit s) (op : TOp) :
    match s.step op with
    | none => op.run F u ts st = (ts, st, .err)
    | some s' => ∃ ts' st' a, op.run F u ts st = (ts', st', .ok a) ∧ TimerIs F u ts' st' unit s' ∧
        ∀ now, op = .stop now → ∃ x, a = some x ∧ sameF x (s'.total F unit) := by
  obtain ⟨v, hv, hs⟩ := h.val
  have hgs : IsGauge st v := ⟨h.t, hv⟩
  cases op with
  | start now =>
    unfold TSpec.step TOp.run timerStart
    cases hr : s.running with
    | none =>
      have : ts.started = false := by rw [h.started, hr]; rfl
      dsimp only
      rw [this]
      refine ⟨_, _, _, rfl, ⟨h.good, h.hunit, h.t, rfl, fun x hx => Option.some.inj hx, v, hv, hs⟩, fun _ h => by cases h⟩
    | some x =>
      have : ts.started = true := by rw [h.started, hr]; rfl
      dsimp only
      rw [this]
      rfl
  | stop now =>
    unfold TSpec.step TOp.run timerStop
    cases hr : s.running with
    | none =>
      have : ts.started = false := by rw [h.started, hr]; rfl
      dsimp only
      rw [if_pos this]
      rfl
    | some since =>
      have hst : ts.started = true := by rw [h.started, hr]; rfl
      have hsi := h.since since hr
      have h1 : (Speed.val.bind asFloat64) u st = (st, .ok v) := by rw [bind_ok (val_ok hv)]; rfl
      obtain ⟨b, e, g⟩ := gaugeSet_eq h.good h.t hv (F.add v (F.dur st.m.desc.unit (now - ts.since)))
      have e' : Speed.set (.float64 (F.add v (F.dur st.m.desc.unit (now - ts.since)))) u st = _ := e
      dsimp only
      rw [if_neg (by simp [hst]), bind_ok h1, bind_ok e']
      have htot : sameF (F.add v (F.dur st.m.desc.unit (now - ts.since)))
          (TSpec.total F unit { running := none, done := s.done ++ [now - since] }) := by
        unfold TSpec.total
        rw [List.foldl_append, h.hunit, hsi]
        exact hF.congr _ _ _ hs
      refine ⟨_, _, _, rfl, ⟨g, h.hunit, h.t, rfl, fun x hx => (by cases hx), _, (put_gauge hgs _ b).cur, ?_⟩, ?_⟩
      · exact (sameF_fstore _ _).trans htot
      · rintro _ _
        exact ⟨_, rfl, htot⟩
  | reset =>
    unfold TSpec.step TOp.run timerReset
    cases hr : s.running with
    | none =>
      have : ts.started = false := by rw [h.started, hr]; rfl
      obtain ⟨b, e, g⟩ := gaugeSet_eq h.good h.t hv 0
      have e' : Speed.set (.float64 0) u st = _ := e
      dsimp only
      rw [if_neg (by simp [this]), bind_ok e']
      refine ⟨_, _, _, rfl, ⟨g, h.hunit, h.t, this, fun x hx => (by cases hx), _,
        (put_gauge hgs _ b).cur, sameF_fstore _ _⟩, fun _ h => by cases h⟩
    | some x =>
      have : ts.started = true := by rw [h.started, hr]; rfl
      dsimp only
      rw [if_pos this]
      rfl

/-- A call out of turn, in both states. -/
example : ((newPCPTimer 1 sC 0 []).map fun m => ((TOp.stop 5).run exFlops (fun _ => none) ⟨false, 0⟩ ⟨m, []⟩).2.2) = some .err ∧
    ((newPCPTimer 1 sC 0 []).map fun m => ((TOp.start 5).run exFlops (fun _ => none) ⟨true, 2⟩ ⟨m, []⟩).2.2) = some .err ∧
    ((newPCPTimer 1 sC 0 []).map fun m => ((TOp.start 5).run exFlops (fun _ => none) ⟨false, 2⟩ ⟨m, []⟩).1) = some ⟨true, 5⟩ := by
  decide

/-- Any history of calls. -/
def tRun (F : Flops) (u : Upd) (ts : TimerSt) (st : MSt) (ops : List TOp) : TimerSt × MSt :=
  ops.foldl (fun p op => let x := op.run F u p.1 p.2; (x.1, x.2.1)) (ts, st)

def TSpec.run (s : TSpec) (ops : List TOp) : TSpec := ops.foldl (fun s op => (s.step op).getD s) s

/-- **C24**, histories: the value is the sum of the completed intervals since the last successful `Reset`. -/
theorem C24_history {F : Flops} (hF : F.Lawful) {u : Upd} {ts : TimerSt} {st : MSt} {unit : BitVec 32} {s : TSpec}
    (h : TimerIs F u ts st unit s) (ops : List TOp) :
    TimerIs F u (tRun F u ts st ops).1 (tRun F u ts st ops).2 unit (s.run ops) := by
  induction ops generalizing ts st s with
  | nil => exact h
  | cons op l ih =>
    have h1 := C24_timer hF h op
    unfold tRun TSpec.run
    rw [List.foldl_cons, List.foldl_cons]
    cases hs : s.step op with
    | none =>
      rw [hs] at h1
      dsimp only at h1
      rw [h1]
      exact ih h
    | some s' =>
      rw [hs] at h1
      obtain ⟨ts', st', a, e, h2, _⟩ := h1
      rw [e]
      exact ih h2

/-- A new timer meets the hypothesis: stopped, no intervals. -/
theorem timerIs_new (F : Flops) {uid name unit desc m} (h : newPCPTimer uid name unit desc = some m) :
    TimerIs F (fun _ => none) ⟨false, 0⟩ ⟨m, []⟩ unit ⟨none, []⟩ := by
  obtain ⟨h1, h2⟩ := (C48_timer uid name unit desc).2 m h
  exact ⟨.free (.timer h), h1.unit, h1.t, rfl, fun _ h => (by cases h), 0, (by
    show m.cur none = _
    unfold Metric.cur
    rw [h2]), .refl _⟩

/-- On an active client the hypothesis is met in the same way. -/
theorem timerIs_active {F : Flops} {e o w} (h : Active e o w) {m : Metric} (hm : m ∈ w.reg.metrics) (ht : m.desc.t = DoubleType)
    {v : BitVec 64} (hv : m.cur none = some (.float64 v)) {ts : TimerSt} {s : TSpec} (h1 : ts.started = s.running.isSome)
    (h2 : ∀ x, s.running = some x → ts.since = x) (h3 : sameF v (s.total F m.desc.unit)) :
    TimerIs F (w.upd m.uid) ts ⟨m, w.mem⟩ m.desc.unit s :=
  ⟨h.good hm, rfl, ht, h1, h2, v, hv, h3⟩

/-- Start at 5, Start again (error), Stop at 9, Stop again (error): one interval of 4. -/
example : (TSpec.run ⟨none, []⟩ [.start 5, .start 6, .stop 9, .stop 10]).done = [4] ∧
    (TSpec.run ⟨none, []⟩ [.start 5, .stop 9, .reset, .start 1, .stop 3]).done = [2] := by decide

/-! ### C26 -/

/-- Statistic `n` of the histogram's library state, as a float64. -/
def statOf (F : Flops) (L : Hdr) (h : L.H) (n : Str) : BitVec 64 :=
  if n = sMin then F.ofInt (L.min h) else if n = sMax then F.ofInt (L.max h) else if n = sMean then L.mean h
  else if n = sStddev then L.stddev h else F.mul (L.stddev h) (L.stddev h)

/-- A histogram metric. -/
structure IsHist (u : Upd) (st : MSt) : Prop where
  good : Good u st
  t : st.m.desc.t = DoubleType
  cur : ∀ n ∈ histogramInstances, (st.m.cur (some n)).isSome

theorem histUpd_eq {u : Upd} {st : MSt} (h : IsHist u st) {n : Str} (hn : n ∈ histogramInstances) (x : BitVec 64) :
    ∃ b c, histUpd n x u st = (⟨st.m.put (some n) (.float64 c), b⟩, .ok ()) ∧ sameF c x ∧
      IsHist u ⟨st.m.put (some n) (.float64 c), b⟩ := by
  obtain ⟨w, hw⟩ := Option.isSome_iff_exists.1 (h.cur n hn)
  obtain ⟨v, rfl⟩ := WF.cur_float h.good.wf h.t hw
  have fin : ∀ c b, Good u ⟨st.m.put (some n) (.float64 c), b⟩ → IsHist u ⟨st.m.put (some n) (.float64 c), b⟩ := by
    intro c b g
    refine ⟨g, h.t, fun k hk => ?_⟩
    show ((st.m.put _ _).cur _).isSome
    rw [put_cur]
    split
    · rename_i he; rw [hw]; rfl
    · exact h.cur k hk
  unfold histUpd
  rw [hw]
  dsimp only
  split
  · rename_i he
    have hp := put_same h.good.wf hw (WF.cur_typed h.good.wf hw)
    refine ⟨st.mem, v, by rw [hp], .inl he, ?_⟩
    rw [hp]; exact h
  · obtain ⟨b, e, g⟩ := h.good.setFloat h.t hw x
    exact ⟨b, _, e, sameF_fstore v x, fin _ _ g⟩

/-- `update` publishes all five statistics. -/
theorem histUpdate_eq (F : Flops) (L : Hdr) (h : L.H) {u : Upd} {st : MSt} (hi : IsHist u st) :
    ∃ st', histUpdate F L h u st = (st', .ok ()) ∧ IsHist u st' ∧
      ∀ n ∈ histogramInstances, ∃ c, st'.m.cur (some n) = some (.float64 c) ∧ sameF c (statOf F L h n) := by
  obtain ⟨b1, c1, e1, s1, h1⟩ := histUpd_eq hi (n := sMin) (by decide) (F.ofInt (L.min h))
  obtain ⟨b2, c2, e2, s2, h2⟩ := histUpd_eq h1 (n := sMax) (by decide) (F.ofInt (L.max h))
  obtain ⟨b3, c3, e3, s3, h3⟩ := histUpd_eq h2 (n := sMean) (by decide) (L.mean h)
  obtain ⟨b4, c4, e4, s4, h4⟩ := histUpd_eq h3 (n := sStddev) (by decide) (L.stddev h)
  obtain ⟨b5, c5, e5, s5, h5⟩ := histUpd_eq h4 (n := sVariance) (by decide) (F.mul (L.stddev h) (L.stddev h))
  refine ⟨_, ?_, h5, ?_⟩
  · unfold histUpdate
    rw [bind_ok e1, bind_ok e2, bind_ok e3, bind_ok e4]
    exact e5
  · have hcur : ∀ n ∈ histogramInstances, ∃ w, st.m.cur (some n) = some w := fun n hn =>
      Option.isSome_iff_exists.1 (hi.cur n hn)
    intro n hn
    obtain ⟨w, hw⟩ := hcur n hn
    have d1 : sMax ≠ sMin := by decide
    have d2 : sMean ≠ sMin := by decide
    have d3 : sMean ≠ sMax := by decide
    have d4 : sStddev ≠ sMin := by decide
    have d5 : sStddev ≠ sMax := by decide
    have d6 : sStddev ≠ sMean := by decide
    have d7 : sVariance ≠ sMin := by decide
    have d8 : sVariance ≠ sMax := by decide
    have d9 : sVariance ≠ sMean := by decide
    have d10 : sVariance ≠ sStddev := by decide
    simp only [histogramInstances, List.mem_cons, List.not_mem_nil, or_false] at hn
    dsimp only
    simp only [put_cur, Option.some.injEq]
    rcases hn with rfl | rfl | rfl | rfl | rfl
    · exact ⟨c1, by simp [d1.symm, d2.symm, d4.symm, d7.symm, hw], by simpa [statOf] using s1⟩
    · exact ⟨c2, by simp [d1, d3.symm, d5.symm, d8.symm, hw], by simpa [statOf, d1] using s2⟩
    · exact ⟨c3, by simp [d2, d3, d6.symm, d9.symm, hw], by simpa [statOf, d2, d3] using s3⟩
    · exact ⟨c5, by simp [d7, d8, d9, d10, hw], by simpa [statOf, d7, d8, d9, d10] using s5⟩
    · exact ⟨c4, by simp [d4, d5, d6, d10.symm, hw], by simpa [statOf, d4, d5, d6] using s4⟩

/-- The records of a histogram, as `RecordN` calls. -/
def histRun (F : Flops) (L : Hdr) (u : Upd) (h : L.H) (st : MSt) (recs : List (BitVec 64 × BitVec 64)) : L.H × MSt :=
  recs.foldl (fun p r => let x := histRecord F L p.1 r.1 r.2 u p.2; (x.1, x.2.1)) (h, st)

/-- The library alone: the state after the records it accepts. -/
def libRun (L : Hdr) (h : L.H) (recs : List (BitVec 64 × BitVec 64)) : L.H :=
  recs.foldl (fun h r => (L.record h r.1 r.2).getD h) h

/-- Some record of the history was accepted. -/
def Accepted (L : Hdr) (h : L.H) (recs : List (BitVec 64 × BitVec 64)) : Prop :=
  ∃ pre r post, recs = pre ++ r :: post ∧ (L.record (libRun L h pre) r.1 r.2).isSome

/-- **C26**, one record: a rejected record is an error and changes nothing, an accepted one succeeds and publishes the
statistics. -/
theorem C26_record (F : Flops) (L : Hdr) (h : L.H) {u : Upd} {st : MSt} (hi : IsHist u st) (v n : BitVec 64) :
    (L.record h v n = none → histRecord F L h v n u st = (h, st, .err)) ∧
    (∀ h', L.record h v n = some h' → ∃ st', histRecord F L h v n u st = (h', st', .ok ()) ∧ IsHist u st' ∧
      ∀ k ∈ histogramInstances, ∃ c, st'.m.cur (some k) = some (.float64 c) ∧ sameF c (statOf F L h' k)) := by
  unfold histRecord
  constructor
  · intro hr; rw [hr]
  · intro h' hr
    rw [hr]
    obtain ⟨st', e, h1, h2⟩ := histUpdate_eq F L h' hi
    exact ⟨st', by dsimp only; rw [e], h1, h2⟩

/-- **C26.** After any history the five instances equal the library's statistics, as of the last accepted record; if
none was accepted they have not changed. -/
theorem C26_history (F : Flops) (L : Hdr) (h : L.H) {u : Upd} {st : MSt} (hi : IsHist u st)
    (recs : List (BitVec 64 × BitVec 64)) :
    (histRun F L u h st recs).1 = libRun L h recs ∧ IsHist u (histRun F L u h st recs).2 ∧
    (Accepted L h recs → ∀ k ∈ histogramInstances, ∃ c, (histRun F L u h st recs).2.m.cur (some k) = some (.float64 c) ∧
      sameF c (statOf F L (libRun L h recs) k)) ∧
    (¬ Accepted L h recs → (histRun F L u h st recs).2 = st) := by
  induction recs using List.reverseRecOn with
  | nil =>
    refine ⟨rfl, hi, ?_, fun _ => rfl⟩
    rintro ⟨pre, r, post, he, _⟩; simp at he
  | append_singleton l r ih =>
    obtain ⟨i1, i2, i3, i4⟩ := ih
    have hst : histRun F L u h st (l ++ [r]) =
        (let x := histRecord F L (libRun L h l) r.1 r.2 u (histRun F L u h st l).2; (x.1, x.2.1)) := by
      unfold histRun at i1 ⊢
      rw [List.foldl_append, ← i1]; rfl
    have hlib : libRun L h (l ++ [r]) = (L.record (libRun L h l) r.1 r.2).getD (libRun L h l) := by
      unfold libRun; rw [List.foldl_append]; rfl
    have hacc : Accepted L h (l ++ [r]) ↔ Accepted L h l ∨ (L.record (libRun L h l) r.1 r.2).isSome := by
      constructor
      · rintro ⟨pre, r', post, he, ha⟩
        rcases List.eq_nil_or_concat post with rfl | ⟨post', x, rfl⟩
        · obtain ⟨rfl, h4⟩ := List.append_inj' he rfl
          simp at h4
          subst h4
          exact .inr ha
        · rw [List.concat_eq_append, ← List.cons_append, ← List.append_assoc] at he
          obtain ⟨h4, _⟩ := List.append_inj' he rfl
          exact .inl ⟨pre, r', post', h4, ha⟩
      · rintro (⟨pre, r', post, he, ha⟩ | ha)
        · exact ⟨pre, r', post ++ [r], by rw [he]; simp, ha⟩
        · exact ⟨l, r, [], rfl, ha⟩
    obtain ⟨k1, k2⟩ := C26_record F L (libRun L h l) i2 r.1 r.2
    rw [hst, hlib]
    cases hr : L.record (libRun L h l) r.1 r.2 with
    | none =>
      rw [k1 hr]
      simp only [hr, Option.isSome_none, Bool.false_eq_true, or_false] at hacc
      rw [hacc]
      exact ⟨rfl, i2, i3, i4⟩
    | some h' =>
      obtain ⟨st', e, j1, j2⟩ := k2 h' hr
      rw [e]
      refine ⟨rfl, j1, fun _ => j2, fun hn => absurd (hacc.2 (.inr (by rw [hr]; rfl))) hn⟩

theorem isHist_new {L : Hdr} {uid duid name low high sig unit desc m h}
    (he : newPCPHistogram L uid duid name low high sig unit desc = some (m, h)) : IsHist (fun _ => none) ⟨m, []⟩ := by
  obtain ⟨h1, _, h3⟩ := (C48_histogram L uid duid name low high sig unit desc).2 m h he
  exact ⟨.free (.histogram he), h1.t, fun n hn => by rw [h3 n hn]; rfl⟩

/-- The accessors return the published values; `Min` and `Max` convert them back to int64, which gives the library's
numbers when the conversion of these integers is exact. -/
theorem C26_accessors (F : Flops) (L : Hdr) (h : L.H) {u : Upd} {st : MSt}
    (hs : ∀ k ∈ histogramInstances, ∃ c, st.m.cur (some k) = some (.float64 c) ∧ sameF c (statOf F L h k))
    (hconv : ∀ x ∈ [L.min h, L.max h], ∀ c, sameF c (F.ofInt x) → F.toInt c = x) :
    histMin F u st = (st, .ok (L.min h)) ∧ histMax F u st = (st, .ok (L.max h)) ∧
    (∃ c, histMean u st = (st, .ok c) ∧ sameF c (L.mean h)) ∧
    (∃ c, histStddev u st = (st, .ok c) ∧ sameF c (L.stddev h)) ∧
    (∃ c, histVariance u st = (st, .ok c) ∧ sameF c (F.mul (L.stddev h) (L.stddev h))) := by
  have hf : ∀ k ∈ histogramInstances, ∃ c, histField k u st = (st, .ok c) ∧ sameF c (statOf F L h k) := by
    intro k hk
    obtain ⟨c, h1, h2⟩ := hs k hk
    exact ⟨c, by unfold histField; rw [h1]; rfl, h2⟩
  obtain ⟨c1, e1, s1⟩ := hf sMin (by decide)
  obtain ⟨c2, e2, s2⟩ := hf sMax (by decide)
  obtain ⟨c3, e3, s3⟩ := hf sMean (by decide)
  obtain ⟨c4, e4, s4⟩ := hf sStddev (by decide)
  obtain ⟨c5, e5, s5⟩ := hf sVariance (by decide)
  refine ⟨?_, ?_, ⟨c3, e3, s3⟩, ⟨c4, e4, s4⟩, ⟨c5, e5, s5⟩⟩
  · unfold histMin; rw [bind_ok e1]
    show (st, Ans.ok _) = _
    rw [hconv (L.min h) (by simp) c1 s1]
  · unfold histMax; rw [bind_ok e2]
    show (st, Ans.ok _) = _
    rw [hconv (L.max h) (by simp) c2 s2]

/-- A library that keeps the last value, and rejects values above its bound. -/
def exHdr : Hdr where
  H := BitVec 64 × BitVec 64 × BitVec 64
  new low high _ := (low, high, 0)
  record h v _ := if v.toInt ≤ h.2.1.toInt then some (h.1, h.2.1, v) else none
  min h := h.2.2
  max h := h.2.2
  mean h := h.2.2
  stddev _ := 0
  lowest h := h.1
  highest h := h.2.1

/-- Three records, the second of which is rejected. -/
example : ∃ m h, newPCPHistogram exHdr 1 2 sC 1 100 3 OneUnit [] = some (m, h) ∧
    ((histRun exFlops exHdr (fun _ => none) h ⟨m, []⟩ [(7, 1), (200, 1), (9, 2)]).2.m.cur (some sMax)) = some (.float64 9) ∧
    (histRecord exFlops exHdr h 200 1 (fun _ => none) ⟨m, []⟩).2.2 = .err := ⟨_, _, rfl, by decide⟩

/-- The conversion hypothesis of `C26_accessors` can be met. -/
example : ∀ x ∈ [exHdr.min (1, 100, 9), exHdr.max (1, 100, 9)], ∀ c, sameF c (exFlops.ofInt x) → exFlops.toInt c = x := by
  have key : ∀ c : BitVec 64, sameF c 9 → c = 9 := by
    rintro c (h | ⟨_, h⟩)
    · unfold feq64 at h
      simp only [Bool.and_eq_true, Bool.or_eq_true, decide_eq_true_eq] at h
      rcases h.2 with h | ⟨_, h⟩
      · exact h
      · exact absurd h (by decide)
    · exact absurd h (by decide)
  intro x hx c hc
  have : x = 9 := by revert hx; simp [exHdr]
  subst this
  exact key c hc

/-! ### C27 -/

/-- **C27 (partial).** `High` and `Low` return the library's bounds, but each the other's. Missing: the stated ones. -/
theorem C27_swapped_partial (L : Hdr) (h : L.H) : histHigh L h = L.lowest h ∧ histLow L h = L.highest h := ⟨rfl, rfl⟩

example : histHigh (⟨Unit, fun _ _ _ => (), fun _ _ _ => none, fun _ => 0, fun _ => 0, fun _ => 0, fun _ => 0, fun _ => 1, fun _ => 100⟩ : Hdr) () = 1 :=
  rfl

/-- **C27 is false** for every histogram whose bounds differ. -/
theorem C27_refuted (L : Hdr) (h : L.H) (hne : L.lowest h ≠ L.highest h) :
    histHigh L h ≠ L.highest h ∧ histLow L h ≠ L.lowest h := ⟨hne, fun h => hne h.symm⟩

/-- For example one with bounds 1 and 100: `High()` is 1. -/
theorem C27_refuted_example : ∃ m h, newPCPHistogram exHdr 1 2 sC 1 100 3 OneUnit [] = some (m, h) ∧
    histHigh exHdr h = 1 ∧ histLow exHdr h = 100 := ⟨_, _, rfl, by decide⟩

/-! ### C49 -/

/-- **C49.** The bounds and the number of significant figures given to the library are in range, and those asked for if
these are in range; `low > high` is rejected. -/
theorem C49_bounds (L : Hdr) (uid duid : Nat) (name : Str) (low high sig : Int) (unit : BitVec 32) (desc : List Str) :
    (low > high → newPCPHistogram L uid duid name low high sig unit desc = none) ∧
    ∀ m h, newPCPHistogram L uid duid name low high sig unit desc = some (m, h) →
      ∃ l t s : BitVec 64, h = L.new l t s ∧ 0 ≤ l.toInt ∧ l.toInt ≤ t.toInt ∧ t.toInt ≤ 3600000000 ∧
        1 ≤ s.toInt ∧ s.toInt ≤ 5 ∧
        (0 ≤ low → low ≤ 3600000000 → l.toInt = low) ∧ (0 ≤ high → high ≤ 3600000000 → t.toInt = high) ∧
        (1 ≤ sig → sig ≤ 5 → s.toInt = sig) := by
  refine ⟨fun h => by unfold newPCPHistogram; rw [if_pos h], fun m h he => ?_⟩
  obtain ⟨_, _, hle, h2, _⟩ := newPCPHistogram_eq he
  refine ⟨_, _, _, h2, ?_⟩
  have hconv : ∀ x : Int, 0 ≤ x → x ≤ 3600000000 → (BitVec.ofInt 64 x).toInt = x := by
    intro x h1 h2
    rw [BitVec.toInt_ofInt, Int.bmod_def]
    simp only [Nat.reducePow]
    omega
  have b1 : 0 ≤ (normalize low high sig).1 ∧ (normalize low high sig).1 ≤ (normalize low high sig).2.1 ∧
      (normalize low high sig).2.1 ≤ 3600000000 ∧ 1 ≤ (normalize low high sig).2.2 ∧ (normalize low high sig).2.2 ≤ 5 ∧
      (0 ≤ low → low ≤ 3600000000 → (normalize low high sig).1 = low) ∧
      (0 ≤ high → high ≤ 3600000000 → (normalize low high sig).2.1 = high) ∧
      (1 ≤ sig → sig ≤ 5 → (normalize low high sig).2.2 = sig) := by
    unfold normalize
    dsimp only
    refine ⟨?_, ?_, ?_, ?_, ?_, ?_, ?_, ?_⟩ <;> (repeat' split) <;> omega
  obtain ⟨a1, a2, a3, a4, a5, a6, a7, a8⟩ := b1
  rw [hconv _ a1 (by omega), hconv _ (by omega) a3, hconv _ (by omega) (by omega)]
  exact ⟨a1, a2, a3, a4, a5, a6, a7, a8⟩

example : normalize (-5) 4000000000 9 = (0, 3600000000, 5) := by decide

end Speed
