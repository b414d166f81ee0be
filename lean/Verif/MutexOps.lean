import Verif.MutexSound
import Verif.MetricOps
/-
The bodies of `Mutex.lean`, run without interruption, are the operations of `ValueModel.lean`; and they write
only bytes of the metric's own values.
-/
namespace Speed

section
variable {H α β : Type}

theorem MProc.run_bind (u : Upd) (p : MProc H α) (f : α → MProc H β) (o : Obj H) (b : Buf) :
    (p.bind f).run u o b = match p.run u o b with
      | (o', b', .ok a) => (f a).run u o' b'
      | (o', b', .err) => (o', b', .err)
      | (o', b', .panic) => (o', b', .panic) := by
  induction p generalizing o b with
  | ret a => cases a <;> rfl
  | load s k ih => exact ih _ o b
  | store s v k ih => exact ih _ b
  | upd s k ih => exact ih _ o b
  | byte x c k ih => exact ih o _
  | getTs k ih => exact ih _ o b
  | setTs t k ih => exact ih _ b
  | getH k ih => exact ih _ o b
  | setH t k ih => exact ih _ b

theorem MProc.Within.bind {u : Upd} {A : Nat → Prop} {p : MProc H α} {f : α → MProc H β} (hp : p.Within u A)
    (hf : ∀ x, (f x).Within u A) : (p.bind f).Within u A := by
  induction p with
  | ret a => cases a <;> first | exact hf _ | trivial
  | load s k ih => exact fun v => ih v (hp v)
  | store s v k ih => exact ih hp
  | upd s k ih => exact ih _ hp
  | byte x c k ih => exact ⟨hp.1, ih hp.2⟩
  | getTs k ih => exact fun v => ih v (hp v)
  | setTs t k ih => exact ih hp
  | getH k ih => exact fun v => ih v (hp v)
  | setH t k ih => exact ih hp

theorem MProc.ReadOnly.bind {p : MProc H α} {f : α → MProc H β} (hp : p.ReadOnly)
    (hf : ∀ x, (f x).ReadOnly) : (p.bind f).ReadOnly := by
  induction p with
  | ret a => cases a <;> first | exact hf _ | trivial
  | load s k ih => exact fun v => ih v (hp v)
  | store => exact hp.elim
  | upd s k ih => exact fun v => ih v (hp v)
  | byte => exact hp.elim
  | getTs k ih => exact fun v => ih v (hp v)
  | setTs => exact hp.elim
  | getH k ih => exact fun v => ih v (hp v)
  | setH => exact hp.elim

/-! ### Stores -/

theorem bytesP_run (u : Upd) (off : Nat) (data : List Byte) (o : Obj H) (b : Buf) :
    (bytesP off data).run u o b = (o, place b off data, .ok ()) := by
  induction data generalizing off b with
  | nil => rfl
  | cons d ds ih => exact ih (off + 1) (b.set off d)

theorem bytesP_within {u : Upd} {A : Nat → Prop} {off : Nat} {data : List Byte}
    (h : ∀ a, off ≤ a → a < off + data.length → A a) : (bytesP off data : MProc H Unit).Within u A := by
  induction data generalizing off with
  | nil => trivial
  | cons d ds ih =>
    refine ⟨h off (Nat.le_refl _) (by simp), ih fun a h1 h2 => h a (by omega) ?_⟩
    simp only [List.length_cons]; omega

/-- The bytes of a value of type `t`. -/
def width (t : MetricType) : Nat :=
  if t = StringType then 256 else if t = Int32Type ∨ t = Uint32Type ∨ t = FloatType then 4 else 8

theorem newBytes_width {t : MetricType} {v : GoVal} (hv : Typed t v) (hf : Fits v) : (newBytes v).length ≤ width t := by
  unfold width
  rcases hv with ⟨rfl, x, rfl⟩ | ⟨rfl, x, rfl⟩ | ⟨rfl, x, rfl⟩ | ⟨rfl, x, rfl⟩ | ⟨rfl, x, rfl⟩ | ⟨rfl, x, rfl⟩ | ⟨rfl, x, rfl⟩
  case inr.inr.inr.inr.inr.inr =>
    rw [if_pos rfl]
    show (pad StringLength x).length ≤ _
    rw [pad_length hf]
  all_goals
    rw [if_neg (by decide)]
    simp [newBytes, binaryWrite]

theorem width_le {t : MetricType} (h : t ≠ StringType) : width t ≤ 8 := by
  unfold width
  rw [if_neg h]
  split <;> omega

/-- A closure call that succeeds, byte by byte. -/
theorem updP_run {u : Upd} {t : MetricType} {v : GoVal} (hv : Typed t v) (hf : Fits v) {off : Nat} {o : Obj H} {b : Buf}
    (h : off + (newBytes v).length ≤ b.length) : (updP b.length off v).run u o b = (o, place b off (newBytes v), .ok ()) := by
  rcases hv with ⟨rfl, x, rfl⟩ | ⟨rfl, x, rfl⟩ | ⟨rfl, x, rfl⟩ | ⟨rfl, x, rfl⟩ | ⟨rfl, x, rfl⟩ | ⟨rfl, x, rfl⟩ | ⟨rfl, x, rfl⟩
  case inr.inr.inr.inr.inr.inr =>
    have hs : x.length ≤ 256 := hf
    have hl : (newBytes (.str x)).length = 256 := by show (pad StringLength x).length = _; rw [pad_length hs]
    unfold updP
    dsimp only
    rw [if_pos (by show off + 256 ≤ _; omega), MProc.run_bind, bytesP_run]
    dsimp only
    unfold writeP
    rw [if_pos (by omega), bytesP_run]
    show (o, place (place b off (zeros StringLength)) off x, _) = (o, place b off (pad StringLength x), _)
    rw [← place_pad b off x hs (by omega)]
  all_goals
    unfold updP
    simp only [newBytes, binaryWrite, Option.getD_some] at h ⊢
    unfold writeP
    rw [if_pos h, bytesP_run]

theorem updP_within {u : Upd} {A : Nat → Prop} {t : MetricType} {v : GoVal} (hv : Typed t v) (hf : Fits v) {off len : Nat}
    (h : ∀ a, off ≤ a → a < off + width t → A a) : (updP len off v : MProc H Unit).Within u A := by
  have hw := newBytes_width hv hf
  rcases hv with ⟨rfl, x, rfl⟩ | ⟨rfl, x, rfl⟩ | ⟨rfl, x, rfl⟩ | ⟨rfl, x, rfl⟩ | ⟨rfl, x, rfl⟩ | ⟨rfl, x, rfl⟩ | ⟨rfl, x, rfl⟩
  case inr.inr.inr.inr.inr.inr =>
    have hs : x.length ≤ 256 := hf
    unfold updP
    dsimp only
    have hw' : width StringType = 256 := by decide
    split
    · refine .bind (bytesP_within fun a h1 h2 => h a h1 ?_) fun _ => ?_
      · rw [zeros_length] at h2; rw [hw']; exact h2
      · unfold writeP
        split
        · exact bytesP_within fun a h1 h2 => h a h1 (by omega)
        · trivial
    · trivial
  all_goals
    unfold updP
    simp only [newBytes, binaryWrite, Option.getD_some] at hw ⊢
    unfold writeP
    split
    · exact bytesP_within fun a h1 h2 => h a h1 (by omega)
    · trivial

/-- The fixed parts of a metric and a buffer. -/
def fixedOf (m : Metric) (len : Nat) : Fixed := ⟨m.desc.t, m.desc.unit, m.hasInst, len⟩

theorem fixedOf_put (m : Metric) (s v len) : fixedOf (m.put s v) len = fixedOf m len := by
  unfold fixedOf Metric.hasInst
  rw [put_indom, put_desc]

/-- Body `p` is operation `op` on metrics whose closures are usable. -/
def Impl (f : Fixed) (p : MProc H α) (op : MOp α) : Prop :=
  ∀ u (o : Obj H) b, Good u ⟨o.m, b⟩ → f = fixedOf o.m b.length →
    p.run u o b = ({ o with m := (op u ⟨o.m, b⟩).1.m }, (op u ⟨o.m, b⟩).1.mem, (op u ⟨o.m, b⟩).2) ∧
    Good u (op u ⟨o.m, b⟩).1 ∧ f = fixedOf (op u ⟨o.m, b⟩).1.m (op u ⟨o.m, b⟩).1.mem.length

variable {f : Fixed}

theorem Impl.pure (a : α) : Impl f (.ret (.ok a) : MProc H α) (.pure a) := fun _ _ _ h hf => ⟨rfl, h, hf⟩
theorem Impl.err : Impl f (.ret .err : MProc H α) .err := fun _ _ _ h hf => ⟨rfl, h, hf⟩
theorem Impl.panic : Impl f (.ret .panic : MProc H α) .panic := fun _ _ _ h hf => ⟨rfl, h, hf⟩

theorem Impl.bind {p : MProc H α} {op : MOp α} {q : α → MProc H β} {op' : α → MOp β} (hp : Impl f p op)
    (hq : ∀ x, Impl f (q x) (op' x)) : Impl f (p.bind q) (op.bind op') := by
  intro u o b hg hf
  obtain ⟨h1, h2, h3⟩ := hp u o b hg hf
  rw [MProc.run_bind, h1]
  unfold MOp.bind
  generalize op u ⟨o.m, b⟩ = r at h2 h3 ⊢
  obtain ⟨⟨m, b'⟩, a⟩ := r
  cases a with
  | ok x => exact hq x u { o with m := m } b' h2 h3
  | err => exact ⟨rfl, h2, h3⟩
  | panic => exact ⟨rfl, h2, h3⟩

theorem Impl.ite {c : Prop} [Decidable c] {p q : MProc H α} {a b : MOp α} (hp : Impl f p a) (hq : Impl f q b) :
    Impl f (if c then p else q) (if c then a else b) := by split <;> assumption

theorem impl_val : Impl f (valP : MProc H GoVal) val := by
  intro u o b h hf
  unfold valP val
  simp only [MProc.run]
  cases o.m.cur none <;> exact ⟨rfl, h, hf⟩

theorem impl_asInt64 (v : GoVal) : Impl f (asInt64P v : MProc H _) (asInt64 v) := by
  cases v <;> first | exact .pure _ | exact .panic

theorem impl_asFloat64 (v : GoVal) : Impl f (asFloat64P v : MProc H _) (asFloat64 v) := by
  cases v <;> first | exact .pure _ | exact .panic

theorem storeVal_run {u : Upd} {o : Obj H} {b : Buf} (h : Good u ⟨o.m, b⟩) {s : Option Str} (hs : s ∈ o.m.slots) {old v : GoVal}
    (hv : Typed o.m.desc.t v) (hf : Fits v) :
    (storeValP b.length s old v).run u o b = ({ o with m := (storeVal s old v u ⟨o.m, b⟩).1.m }, (storeVal s old v u ⟨o.m, b⟩).1.mem,
      (storeVal s old v u ⟨o.m, b⟩).2) ∧ Good u (storeVal s old v u ⟨o.m, b⟩).1 ∧
    fixedOf o.m b.length = fixedOf (storeVal s old v u ⟨o.m, b⟩).1.m (storeVal s old v u ⟨o.m, b⟩).1.mem.length := by
  unfold storeValP storeVal
  by_cases he : goEq v old = true
  · rw [if_pos he, if_pos he]; exact ⟨rfl, h, rfl⟩
  · rw [if_neg he, if_neg he]
    simp only [MProc.run]
    cases hu : u s with
    | none => exact ⟨rfl, h.put hv rfl, (fixedOf_put ..).symm⟩
    | some off =>
      have hr := h.room s hs off hu v hv hf
      obtain ⟨n, hn⟩ := updClosure_ok (fits_valOK hv hf) hr h.len
      dsimp only at hn hr ⊢
      rw [MProc.run_bind, updP_run hv hf hr, hn]
      refine ⟨rfl, h.put hv (place_length ..), ?_⟩
      dsimp only
      rw [fixedOf_put, place_length]

theorem fixedOf_eqs {f : Fixed} {m : Metric} {len : Nat} (h : f = fixedOf m len) :
    f.t = m.desc.t ∧ f.has = m.hasInst ∧ f.len = len := by rw [h]; exact ⟨rfl, rfl, rfl⟩

theorem impl_set {v : GoVal} (hv : Fits v) : Impl f (setP f v : MProc H Unit) (set v) := by
  intro u o b h hf
  obtain ⟨e1, e2, e3⟩ := fixedOf_eqs hf
  unfold setP set
  rw [e1, e3, hf]
  dsimp only
  by_cases hc : isCompatible o.m.desc.t v = false
  · rw [if_pos hc, if_pos hc]; exact ⟨rfl, h, rfl⟩
  · rw [if_neg hc, if_neg hc]
    simp only [MProc.run]
    cases hcur : o.m.cur none with
    | none => exact ⟨rfl, h, rfl⟩
    | some old =>
      have hc' : isCompatible o.m.desc.t v = true := by simpa using hc
      exact storeVal_run h ((WF.slot_iff h.wf none).2 (by dsimp only; rw [hcur]; rfl)) (resolve_typed hc') (resolve_fits hv)

theorem impl_valInstance (n : Str) : Impl f (valInstanceP f n : MProc H GoVal) (valInstance n) := by
  intro u o b h hf
  obtain ⟨e1, e2, e3⟩ := fixedOf_eqs hf
  unfold valInstanceP valInstance
  rw [e2, hf]
  dsimp only
  split
  · exact ⟨rfl, h, rfl⟩
  · simp only [MProc.run]
    cases o.m.cur (some n) <;> exact ⟨rfl, h, rfl⟩

theorem impl_setInstance {v : GoVal} (hv : Fits v) (n : Str) : Impl f (setInstanceP f v n : MProc H Unit) (setInstance v n) := by
  intro u o b h hf
  obtain ⟨e1, e2, e3⟩ := fixedOf_eqs hf
  unfold setInstanceP setInstance
  rw [e1, e2, e3, hf]
  dsimp only
  by_cases hc : isCompatible o.m.desc.t v = false
  · rw [if_pos hc, if_pos hc]; exact ⟨rfl, h, rfl⟩
  · rw [if_neg hc, if_neg hc]
    split
    · exact ⟨rfl, h, rfl⟩
    · simp only [MProc.run]
      cases hcur : o.m.cur (some n) with
      | none => exact ⟨rfl, h, rfl⟩
      | some old =>
        have hc' : isCompatible o.m.desc.t v = true := by simpa using hc
        exact storeVal_run h ((WF.slot_iff h.wf (some n)).2 (by dsimp only; rw [hcur]; rfl)) (resolve_typed hc') (resolve_fits hv)

theorem impl_counterVal : Impl f (counterValP : MProc H _) counterVal := .bind impl_val impl_asInt64
theorem impl_counterSet (x : BitVec 64) : Impl f (counterSetP f x : MProc H _) (counterSet x) :=
  .bind impl_counterVal fun _ => .ite .err (impl_set trivial)
theorem impl_counterInc (x : BitVec 64) : Impl f (counterIncP f x : MProc H _) (counterInc x) :=
  .ite .err (.ite (.pure _) (.bind impl_counterVal fun _ => impl_set trivial))
theorem impl_gaugeVal : Impl f (gaugeValP : MProc H _) gaugeVal := .bind impl_val impl_asFloat64
theorem impl_gaugeInc (F : Flops) (x : BitVec 64) : Impl f (gaugeIncP F f x : MProc H _) (gaugeInc F x) :=
  .ite (.pure _) (.bind impl_gaugeVal fun _ => impl_set trivial)
theorem impl_cvVal (n : Str) : Impl f (cvValP f n : MProc H _) (cvVal n) := .bind (impl_valInstance n) impl_asInt64
theorem impl_cvSet (x : BitVec 64) (n : Str) : Impl f (cvSetP f x n : MProc H _) (cvSet x n) :=
  .bind (impl_valInstance n) fun v => .bind (impl_asInt64 v) fun _ => .ite .err (impl_setInstance (v := .int64 _) trivial n)
theorem impl_cvInc (x : BitVec 64) (n : Str) : Impl f (cvIncP f x n : MProc H _) (cvInc x n) :=
  .ite .err (.ite (.pure _) (.bind (impl_valInstance n) fun v => .bind (impl_asInt64 v) fun _ => impl_setInstance (v := .int64 _) trivial n))
theorem impl_gvVal (n : Str) : Impl f (gvValP f n : MProc H _) (gvVal n) := .bind (impl_valInstance n) impl_asFloat64
theorem impl_gvInc (F : Flops) (x : BitVec 64) (n : Str) : Impl f (gvIncP F f x n : MProc H _) (gvInc F x n) :=
  .bind (impl_valInstance n) fun v => .bind (impl_asFloat64 v) fun _ => impl_setInstance (v := .float64 _) trivial n

theorem impl_histUpd (n : Str) (x : BitVec 64) : Impl f (histUpdP f n x : MProc H _) (histUpd n x) := by
  intro u o b h hf
  unfold histUpdP histUpd
  simp only [MProc.run]
  cases hcur : o.m.cur (some n) with
  | none => exact ⟨rfl, h, hf⟩
  | some v =>
    dsimp only
    split
    · exact ⟨rfl, h, hf⟩
    · exact impl_setInstance (v := .float64 _) trivial n u o b h hf

theorem impl_histField (n : Str) : Impl f (histFieldP n : MProc H _) (histField n) := by
  intro u o b h hf
  unfold histFieldP histField
  simp only [MProc.run]
  cases hcur : o.m.cur (some n) with
  | none => exact ⟨rfl, h, hf⟩
  | some v => exact impl_asFloat64 v u o b h hf

theorem impl_histUpdate (F : Flops) (L : Hdr) (h : L.H) : Impl f (histUpdateP F L f h) (histUpdate F L h) :=
  .bind (impl_histUpd _ _) fun _ => .bind (impl_histUpd _ _) fun _ => .bind (impl_histUpd _ _) fun _ =>
    .bind (impl_histUpd _ _) fun _ => impl_histUpd _ _

end

/-! ### The sequential meaning of the operations -/

/-- Change of the result. -/
def Ans.to {α β : Type} (f : α → β) : Ans α → Ans β
  | .ok a => .ok (f a)
  | .err => .err
  | .panic => .panic

section
variable {F : Flops} {L : Hdr}

/-- An operation that does not use timer or histogram state. -/
def lift {α : Type} (g : α → Ret) (op : MOp α) (u : Upd) (o : Obj L.H) (b : Buf) : Obj L.H × Buf × Ans Ret :=
  ({ o with m := (op u ⟨o.m, b⟩).1.m }, (op u ⟨o.m, b⟩).1.mem, (op u ⟨o.m, b⟩).2.to g)

/-- What an operation does when nothing else runs, in terms of `ValueModel.lean`. -/
def Meth.spec (F : Flops) (L : Hdr) : Meth → Upd → Obj L.H → Buf → Obj L.H × Buf × Ans Ret
  | .set v => lift (fun _ => .unit) (Speed.set v)
  | .val => lift .val Speed.val
  | .setInstance v n => lift (fun _ => .unit) (Speed.setInstance v n)
  | .valInstance n => lift .val (Speed.valInstance n)
  | .counterSet x => lift (fun _ => .unit) (Speed.counterSet x)
  | .counterInc x => lift (fun _ => .unit) (Speed.counterInc x)
  | .counterVal => lift .num Speed.counterVal
  | .gaugeSet x => lift (fun _ => .unit) (Speed.gaugeSet x)
  | .gaugeInc x => lift (fun _ => .unit) (Speed.gaugeInc F x)
  | .gaugeDec x => lift (fun _ => .unit) (Speed.gaugeDec F x)
  | .gaugeVal => lift .num Speed.gaugeVal
  | .timerReset => fun u o b => lift (fun _ => .unit) (Speed.timerReset o.ts) u o b
  | .timerStart now => fun u o b => match Speed.timerStart now o.ts u ⟨o.m, b⟩ with
    | (st, .ok ts) => ({ o with m := st.m, ts := ts }, st.mem, .ok .unit)
    | (st, .err) => ({ o with m := st.m }, st.mem, .err)
    | (st, .panic) => ({ o with m := st.m }, st.mem, .panic)
  | .timerStop now => fun u o b => match Speed.timerStop F now o.ts u ⟨o.m, b⟩ with
    | (st, .ok (ts, x)) => ({ o with m := st.m, ts := ts }, st.mem, .ok (.num x))
    | (st, .err) => ({ o with m := st.m }, st.mem, .err)
    | (st, .panic) => ({ o with m := st.m }, st.mem, .panic)
  | .cvSet x n => lift (fun _ => .unit) (Speed.cvSet x n)
  | .cvInc x n => lift (fun _ => .unit) (Speed.cvInc x n)
  | .cvVal n => lift .num (Speed.cvVal n)
  | .gvSet x n => lift (fun _ => .unit) (Speed.gvSet x n)
  | .gvInc x n => lift (fun _ => .unit) (Speed.gvInc F x n)
  | .gvDec x n => lift (fun _ => .unit) (Speed.gvDec F x n)
  | .gvVal n => lift .num (Speed.gvVal n)
  | .histRecord v n => fun u o b =>
    let r := Speed.histRecord F L o.h v n u ⟨o.m, b⟩
    ({ o with m := r.2.1.m, h := r.1 }, r.2.1.mem, r.2.2.to fun _ => .unit)
  | .histField n => lift .num (Speed.histField n)

/-- Passed strings have at most 256 bytes. -/
def Meth.Fits : Meth → Prop
  | .set v => Speed.Fits v
  | .setInstance v _ => Speed.Fits v
  | _ => True

theorem impl_lift {α : Type} {f : Fixed} {p : MProc L.H α} {op : MOp α} (h : Impl f p op) (g : α → Ret) {u : Upd} {o : Obj L.H} {b : Buf}
    (hg : Good u ⟨o.m, b⟩) (hf : f = fixedOf o.m b.length) :
    (p.bind fun a => .ret (.ok (g a))).run u o b = lift g op u o b := by
  obtain ⟨h1, _, _⟩ := h u o b hg hf
  rw [MProc.run_bind, h1]
  unfold lift
  cases (op u ⟨o.m, b⟩).2 <;> rfl

/-- The body, run without interruption, is the operation. -/
theorem Meth.run_spec {me : Meth} (hfit : me.Fits) {f : Fixed} {u : Upd} {o : Obj L.H} {b : Buf} (hg : Good u ⟨o.m, b⟩)
    (hf : f = fixedOf o.m b.length) : (me.body F L f).run u o b = me.spec F L u o b := by
  cases me
  case set v => exact impl_lift (impl_set hfit) _ hg hf
  case val => exact impl_lift impl_val _ hg hf
  case setInstance v n => exact impl_lift (impl_setInstance hfit n) _ hg hf
  case valInstance n => exact impl_lift (impl_valInstance n) _ hg hf
  case counterSet x => exact impl_lift (impl_counterSet x) _ hg hf
  case counterInc x => exact impl_lift (impl_counterInc x) _ hg hf
  case counterVal => exact impl_lift impl_counterVal _ hg hf
  case gaugeSet x => exact impl_lift (impl_set (v := .float64 x) trivial) _ hg hf
  case gaugeInc x => exact impl_lift (impl_gaugeInc F x) _ hg hf
  case gaugeDec x => exact impl_lift (impl_gaugeInc F (fneg x)) _ hg hf
  case gaugeVal => exact impl_lift impl_gaugeVal _ hg hf
  case timerReset =>
    have : (timerResetP f : MProc L.H Unit).unit.run u o b =
        ((if o.ts.started then .ret .err else setP f (.float64 0) : MProc L.H Unit).bind fun _ => .ret (.ok .unit)).run u o b := rfl
    show (timerResetP f : MProc L.H Unit).unit.run u o b = _
    rw [this]
    have hi : Impl f (if o.ts.started then .ret .err else setP f (.float64 0) : MProc L.H Unit)
        (if o.ts.started then .err else Speed.set (.float64 0)) := .ite .err (impl_set trivial)
    rw [impl_lift hi (fun _ => .unit) hg hf]
    simp only [Meth.spec]
    by_cases hs : o.ts.started = true
    · have e1 : (if o.ts.started then .err else Speed.set (.float64 0) : MOp Unit) = .err := if_pos hs
      have e2 : Speed.timerReset o.ts = .err := if_pos hs
      rw [e1, e2]; rfl
    · have e1 : (if o.ts.started then .err else Speed.set (.float64 0) : MOp Unit) = Speed.set (.float64 0) := if_neg hs
      have e2 : Speed.timerReset o.ts = (Speed.set (.float64 0)).bind fun _ => .pure o.ts := if_neg hs
      rw [e1, e2]
      unfold lift MOp.bind
      dsimp only
      generalize Speed.set (.float64 0) u ⟨o.m, b⟩ = r
      obtain ⟨st, a⟩ := r
      cases a <;> rfl
  case timerStart now =>
    show (timerStartP now : MProc L.H Unit).unit.run u o b = _
    have : (timerStartP now : MProc L.H Unit).unit.run u o b =
        ((if o.ts.started then .ret .err else .setTs ⟨true, now⟩ (.ret (.ok ())) : MProc L.H Unit).bind fun _ => .ret (.ok .unit)).run u o b := rfl
    rw [this]
    simp only [Meth.spec]
    unfold Speed.timerStart
    cases o.ts.started <;> rfl
  case timerStop now =>
    show (timerStopP F f now : MProc L.H _).num.run u o b = _
    have hu : f.unit = o.m.desc.unit := by rw [hf]; rfl
    have : (timerStopP F f now : MProc L.H _).num.run u o b =
        (((if o.ts.started = false then .ret .err
          else ((valP.bind asFloat64P).bind fun v =>
            (setP f (.float64 (F.add v (F.dur f.unit (now - o.ts.since))))).bind fun _ =>
              .ret (.ok (F.add v (F.dur f.unit (now - o.ts.since))))).bind fun x =>
            .setTs ⟨false, o.ts.since⟩ (.ret (.ok x)) : MProc L.H _)).bind fun x => .ret (.ok (.num x))).run u o b := rfl
    rw [this]
    simp only [Meth.spec]
    unfold Speed.timerStop
    cases o.ts.started with
    | false => rfl
    | true =>
      simp only [Bool.true_eq_false, if_false]
      have hi : Impl f (((valP.bind asFloat64P).bind fun v =>
            (setP f (.float64 (F.add v (F.dur f.unit (now - o.ts.since))))).bind fun _ =>
              .ret (.ok (F.add v (F.dur f.unit (now - o.ts.since)))) : MProc L.H _))
          ((Speed.val.bind asFloat64).bind fun v => (Speed.set (.float64 (F.add v (F.dur f.unit (now - o.ts.since))))).bind fun _ =>
            .pure (F.add v (F.dur f.unit (now - o.ts.since)))) :=
        .bind (.bind impl_val impl_asFloat64) fun _ => .bind (impl_set trivial) fun _ => .pure _
      obtain ⟨h1, _, _⟩ := hi u o b hg hf
      rw [MProc.run_bind, MProc.run_bind, h1, hu]
      unfold MOp.bind MOp.pure
      generalize Speed.val u ⟨o.m, b⟩ = r1
      obtain ⟨st1, a1⟩ := r1
      cases a1 with
      | err => rfl
      | panic => rfl
      | ok v =>
        dsimp only
        generalize asFloat64 v u st1 = r2
        obtain ⟨st2, a2⟩ := r2
        cases a2 with
        | err => rfl
        | panic => rfl
        | ok x =>
          dsimp only
          generalize Speed.set (.float64 (F.add x (F.dur o.m.desc.unit (now - o.ts.since)))) u st2 = r3
          obtain ⟨st3, a3⟩ := r3
          cases a3 <;> rfl
  case cvSet x n => exact impl_lift (impl_cvSet x n) _ hg hf
  case cvInc x n => exact impl_lift (impl_cvInc x n) _ hg hf
  case cvVal n => exact impl_lift (impl_cvVal n) _ hg hf
  case gvSet x n => exact impl_lift (impl_setInstance (v := .float64 x) trivial n) _ hg hf
  case gvInc x n => exact impl_lift (impl_gvInc F x n) _ hg hf
  case gvDec x n => exact impl_lift (impl_gvInc F (fneg x) n) _ hg hf
  case gvVal n => exact impl_lift (impl_gvVal n) _ hg hf
  case histRecord v n =>
    show (histRecordP F L f v n).unit.run u o b = _
    simp only [Meth.spec]
    unfold Speed.histRecord MProc.unit histRecordP
    cases hr : L.record o.h v n with
    | none =>
      simp only [MProc.bind, MProc.run, hr]
      rfl
    | some h' =>
      simp only [MProc.bind, MProc.run, hr]
      have := impl_lift (impl_histUpdate (f := f) F L h') (fun _ => .unit) (o := { o with h := h' }) hg hf
      rw [this]
      rfl
  case histField n => exact impl_lift (impl_histField n) _ hg hf

/-! ### Where the operations write -/

/-- The operation uses the value of a singleton metric. -/
def Meth.single : Meth → Bool
  | .setInstance _ _ | .valInstance _ | .cvSet _ _ | .cvInc _ _ | .cvVal _ | .gvSet _ _ | .gvInc _ _ | .gvDec _ _ | .gvVal _
  | .histRecord _ _ | .histField _ => false
  | _ => true

section
variable {H : Type} {u : Upd} {A : Nat → Prop} {f : Fixed}

theorem storeValP_within {s : Option Str} {old v : GoVal} (hv : Typed f.t v) (hfit : Fits v)
    (h : ∀ off, u s = some off → ∀ a, off ≤ a → a < off + width f.t → A a) :
    (storeValP f.len s old v : MProc H Unit).Within u A := by
  unfold storeValP
  split
  · trivial
  · show MProc.Within u A (match u s with | none => _ | some off => _)
    cases hu : u s with
    | none => trivial
    | some off => exact .bind (updP_within hv hfit (h off hu)) fun _ => trivial

theorem setP_within {v : GoVal} (hfit : Fits v) (h : ∀ off, u none = some off → ∀ a, off ≤ a → a < off + width f.t → A a) :
    (setP f v : MProc H Unit).Within u A := by
  unfold setP
  split
  · trivial
  · intro old
    cases old with
    | none => trivial
    | some old => exact storeValP_within (resolve_typed (by simp_all)) (resolve_fits hfit) h

theorem setInstanceP_within {v : GoVal} (hfit : Fits v) {n : Str}
    (h : f.has n = true → ∀ off, u (some n) = some off → ∀ a, off ≤ a → a < off + width f.t → A a) :
    (setInstanceP f v n : MProc H Unit).Within u A := by
  unfold setInstanceP
  split
  · trivial
  · split
    · trivial
    · intro old
      cases old with
      | none => trivial
      | some old => exact storeValP_within (resolve_typed (by simp_all)) (resolve_fits hfit) (h (by simp_all))

theorem valP_ro : (valP : MProc H GoVal).ReadOnly := fun v => by cases v <;> trivial
theorem asInt64P_ro (v : GoVal) : (asInt64P v : MProc H _).ReadOnly := by cases v <;> trivial
theorem asFloat64P_ro (v : GoVal) : (asFloat64P v : MProc H _).ReadOnly := by cases v <;> trivial
theorem valInstanceP_ro (n : Str) : (valInstanceP f n : MProc H GoVal).ReadOnly := by
  unfold valInstanceP
  split
  · trivial
  · intro v; cases v <;> trivial

theorem MProc.ReadOnly.within {α : Type} {p : MProc H α} (h : p.ReadOnly) : p.Within u A := by
  induction p with
  | ret => trivial
  | load s k ih => exact fun v => ih v (h v)
  | store => exact h.elim
  | upd s k ih => exact ih _ (h _)
  | byte => exact h.elim
  | getTs k ih => exact fun v => ih v (h v)
  | setTs => exact h.elim
  | getH k ih => exact fun v => ih v (h v)
  | setH => exact h.elim

theorem histUpdP_within {n : Str} {x : BitVec 64}
    (h : f.has n = true → ∀ off, u (some n) = some off → ∀ a, off ≤ a → a < off + width f.t → A a) :
    (histUpdP f n x : MProc H Unit).Within u A := by
  intro v
  cases v with
  | none => trivial
  | some v =>
    dsimp only
    split
    · trivial
    · exact setInstanceP_within (v := .float64 _) trivial h

theorem MProc.Within.ite {α : Type} {c : Prop} [Decidable c] {p q : MProc H α} (hp : p.Within u A) (hq : q.Within u A) :
    (if c then p else q).Within u A := by split <;> assumption

end

/-- Every operation that is a `Lock` operation writes only where the closures of the metric's values point to;
the others write nothing. -/
theorem Meth.safe {me : Meth} (hfit : me.Fits) {f : Fixed} {u : Upd} {A : Nat → Prop}
    (h0 : me.single = true → ∀ off, u none = some off → ∀ a, off ≤ a → a < off + width f.t → A a)
    (h1 : ∀ n, f.has n = true → ∀ off, u (some n) = some off → ∀ a, off ≤ a → a < off + width f.t → A a) :
    (me.wr = true → (me.body F L f).Within u A) ∧ (me.wr = false → (me.body F L f).ReadOnly) := by
  cases me
  case set v => exact ⟨fun _ => .bind (setP_within hfit (h0 rfl)) fun _ => trivial, fun h => by cases h⟩
  case val => exact ⟨(fun h => by cases h), fun _ => .bind valP_ro fun _ => trivial⟩
  case setInstance v n => exact ⟨fun _ => .bind (setInstanceP_within hfit (h1 n)) fun _ => trivial, fun h => by cases h⟩
  case valInstance n => exact ⟨(fun h => by cases h), fun _ => .bind (valInstanceP_ro n) fun _ => trivial⟩
  case counterSet x =>
    exact ⟨fun _ => .bind (.bind (.bind valP_ro.within fun _ => (asInt64P_ro _).within)
      fun _ => .ite trivial (setP_within trivial (h0 rfl))) fun _ => trivial, fun h => by cases h⟩
  case counterInc x =>
    exact ⟨fun _ => .bind (.ite trivial (.ite trivial (.bind (.bind valP_ro.within fun _ => (asInt64P_ro _).within)
      fun _ => setP_within trivial (h0 rfl)))) fun _ => trivial, fun h => by cases h⟩
  case counterVal => exact ⟨(fun h => by cases h), fun _ => .bind (.bind valP_ro asInt64P_ro) fun _ => trivial⟩
  case gaugeSet x => exact ⟨fun _ => .bind (setP_within trivial (h0 rfl)) fun _ => trivial, fun h => by cases h⟩
  case gaugeInc x =>
    exact ⟨fun _ => .bind (.ite trivial (.bind (.bind valP_ro.within fun _ => (asFloat64P_ro _).within)
      fun _ => setP_within trivial (h0 rfl))) fun _ => trivial, fun h => by cases h⟩
  case gaugeDec x =>
    exact ⟨fun _ => .bind (.ite trivial (.bind (.bind valP_ro.within fun _ => (asFloat64P_ro _).within)
      fun _ => setP_within trivial (h0 rfl))) fun _ => trivial, fun h => by cases h⟩
  case gaugeVal => exact ⟨(fun h => by cases h), fun _ => .bind (.bind valP_ro asFloat64P_ro) fun _ => trivial⟩
  case timerReset => exact ⟨fun _ => .bind (fun _ => .ite trivial (setP_within trivial (h0 rfl))) fun _ => trivial, fun h => by cases h⟩
  case timerStart now => exact ⟨fun _ => .bind (fun _ => .ite trivial trivial) fun _ => trivial, fun h => by cases h⟩
  case timerStop now =>
    exact ⟨fun _ => .bind (fun _ => .ite trivial (.bind (.bind (.bind valP_ro.within fun _ => (asFloat64P_ro _).within)
      fun _ => .bind (setP_within trivial (h0 rfl)) fun _ => trivial) fun _ => trivial)) fun _ => trivial, fun h => by cases h⟩
  case cvSet x n =>
    exact ⟨fun _ => .bind (.bind (valInstanceP_ro n).within fun v => .bind (asInt64P_ro v).within fun _ =>
      .ite trivial (setInstanceP_within (v := .int64 _) trivial (h1 n))) fun _ => trivial, fun h => by cases h⟩
  case cvInc x n =>
    exact ⟨fun _ => .bind (.ite trivial (.ite trivial (.bind (valInstanceP_ro n).within fun v => .bind (asInt64P_ro v).within fun _ =>
      setInstanceP_within (v := .int64 _) trivial (h1 n)))) fun _ => trivial, fun h => by cases h⟩
  case cvVal n => exact ⟨(fun h => by cases h), fun _ => .bind (.bind (valInstanceP_ro n) asInt64P_ro) fun _ => trivial⟩
  case gvSet x n => exact ⟨fun _ => .bind (setInstanceP_within (v := .float64 _) trivial (h1 n)) fun _ => trivial, fun h => by cases h⟩
  case gvInc x n =>
    exact ⟨fun _ => .bind (.bind (valInstanceP_ro n).within fun v => .bind (asFloat64P_ro v).within fun _ =>
      setInstanceP_within (v := .float64 _) trivial (h1 n)) fun _ => trivial, fun h => by cases h⟩
  case gvDec x n =>
    exact ⟨fun _ => .bind (.bind (valInstanceP_ro n).within fun v => .bind (asFloat64P_ro v).within fun _ =>
      setInstanceP_within (v := .float64 _) trivial (h1 n)) fun _ => trivial, fun h => by cases h⟩
  case gvVal n => exact ⟨(fun h => by cases h), fun _ => .bind (.bind (valInstanceP_ro n) asFloat64P_ro) fun _ => trivial⟩
  case histRecord v n =>
    refine ⟨fun _ => .bind (fun h => ?_) fun _ => trivial, fun h => by cases h⟩
    dsimp only
    split
    · trivial
    · exact fun h => .bind (histUpdP_within (h1 _)) fun _ => .bind (histUpdP_within (h1 _)) fun _ =>
        .bind (histUpdP_within (h1 _)) fun _ => .bind (histUpdP_within (h1 _)) fun _ => histUpdP_within (h1 _)
  case histField n =>
    refine ⟨(fun h => by cases h), fun _ => .bind (fun v => ?_) fun _ => trivial⟩
    cases v with
    | none => trivial
    | some v => exact asFloat64P_ro v

end

end Speed
