import Verif.MutexOps
/-
Goroutines that use the metrics of an active client: the bytes of different metrics are disjoint, and the
atomic executions are histories of calls in the sense of `PropsLive.lean`.
-/
namespace Speed

section
variable {F : Flops} {L : Hdr}

/-! ### An operation is one of the calls of `PropsLive.lean`, or changes nothing -/

/-- The operation changes neither metric nor file. -/
def MOp.RO {α : Type} (op : MOp α) : Prop := ∀ u st, (op u st).1 = st

theorem MOp.RO.bind {α β : Type} {a : MOp α} {f : α → MOp β} (ha : a.RO) (hf : ∀ x, (f x).RO) : (a.bind f).RO := by
  intro u st
  have h := ha u st
  unfold MOp.bind
  split <;> rename_i heq <;> rw [heq] at h
  · exact (hf _ _ _).trans h
  · exact h
  · exact h

theorem ro_val : val.RO := by intro u st; unfold val; split <;> rfl
theorem ro_valInstance (n : Str) : (valInstance n).RO := by
  intro u st; unfold valInstance; split
  · rfl
  · split <;> rfl
theorem ro_asInt64 (v : GoVal) : (asInt64 v).RO := by intro u st; cases v <;> rfl
theorem ro_asFloat64 (v : GoVal) : (asFloat64 v).RO := by intro u st; cases v <;> rfl
theorem ro_histField (n : Str) : (histField n).RO := by
  intro u st
  unfold histField
  split
  · rfl
  · exact ro_asFloat64 _ _ _

theorem bind_pure_st {α : Type} (op : MOp α) (u : Upd) (st : MSt) : ((op.bind fun _ => .pure ()) u st).1 = (op u st).1 := by
  unfold MOp.bind
  split <;> rename_i heq <;> rw [heq] <;> rfl

theorem Meth.effect (me : Meth) (hfit : me.Fits) (u : Upd) (o : Obj L.H) (b : Buf) :
    ((me.spec F L u o b).1.m = o.m ∧ (me.spec F L u o b).2.1 = b) ∨
    ∃ c : Call, c.Fits ∧ (me.spec F L u o b).1.m = (c.op u ⟨o.m, b⟩).1.m ∧ (me.spec F L u o b).2.1 = (c.op u ⟨o.m, b⟩).1.mem := by
  have ro : ∀ {α : Type} {g : α → Ret} {op : MOp α}, op.RO → (lift (L := L) g op u o b).1.m = o.m ∧ (lift (L := L) g op u o b).2.1 = b := by
    intro α g op h
    unfold lift
    rw [h]
    exact ⟨rfl, rfl⟩
  cases me
  case set v => exact .inr ⟨.set v, hfit, rfl, rfl⟩
  case val => exact .inl (ro ro_val)
  case setInstance v n => exact .inr ⟨.setInstance v n, hfit, rfl, rfl⟩
  case valInstance n => exact .inl (ro (ro_valInstance n))
  case counterSet x => exact .inr ⟨.counterSet x, trivial, rfl, rfl⟩
  case counterInc x => exact .inr ⟨.counterInc x, trivial, rfl, rfl⟩
  case counterVal => exact .inl (ro (.bind ro_val ro_asInt64))
  case gaugeSet x => exact .inr ⟨.gaugeSet x, trivial, rfl, rfl⟩
  case gaugeInc x => exact .inr ⟨.gaugeInc F x, trivial, rfl, rfl⟩
  case gaugeDec x => exact .inr ⟨.gaugeDec F x, trivial, rfl, rfl⟩
  case gaugeVal => exact .inl (ro (.bind ro_val ro_asFloat64))
  case timerReset => exact .inr ⟨.timerReset o.ts, trivial, by simp only [Call.op]; rw [bind_pure_st]; exact ⟨rfl, rfl⟩⟩
  case timerStart now =>
    refine .inr ⟨.timerStart now o.ts, trivial, ?_⟩
    simp only [Call.op]
    rw [bind_pure_st]
    simp only [Meth.spec]
    generalize Speed.timerStart now o.ts u ⟨o.m, b⟩ = r
    obtain ⟨st, a⟩ := r
    cases a <;> exact ⟨rfl, rfl⟩
  case timerStop now =>
    refine .inr ⟨.timerStop F now o.ts, trivial, ?_⟩
    simp only [Call.op]
    rw [bind_pure_st]
    simp only [Meth.spec]
    generalize Speed.timerStop F now o.ts u ⟨o.m, b⟩ = r
    obtain ⟨st, a⟩ := r
    cases a <;> exact ⟨rfl, rfl⟩
  case cvSet x n => exact .inr ⟨.cvSet x n, trivial, rfl, rfl⟩
  case cvInc x n => exact .inr ⟨.cvInc x n, trivial, rfl, rfl⟩
  case cvVal n => exact .inl (ro (.bind (ro_valInstance n) ro_asInt64))
  case gvSet x n => exact .inr ⟨.gvSet x n, trivial, rfl, rfl⟩
  case gvInc x n => exact .inr ⟨.gvInc F x n, trivial, rfl, rfl⟩
  case gvDec x n => exact .inr ⟨.gvDec F x n, trivial, rfl, rfl⟩
  case gvVal n => exact .inl (ro (.bind (ro_valInstance n) ro_asFloat64))
  case histRecord v n =>
    simp only [Meth.spec]
    unfold Speed.histRecord
    cases L.record o.h v n with
    | none => exact .inl ⟨rfl, rfl⟩
    | some h' => exact .inr ⟨.histUpdate F L h', trivial, rfl, rfl⟩
  case histField n => exact .inl (ro (ro_histField n))

/-! ### Regions -/

/-- The bytes of the values of metric `m` of the world. -/
def Live.region (w : Live) (m a : Nat) : Prop :=
  ∃ x ∈ w.reg.metrics, x.uid = m ∧ ∃ s ∈ x.slots, ∃ off, w.upd m s = some off ∧ off ≤ a ∧ a < off + width x.desc.t

theorem LiveAt.slot {e o σ w} (h : LiveAt e o σ w) {m : Metric} (hm : m ∈ w.reg.metrics) {s : Option Str} (hs : s ∈ m.slots) :
    ∃ off t, w.upd m.uid s = some off ∧ σ (.slot t) = some off ∧ width m.desc.t ≤ regSlot w.reg t.chan ∧
      (t = .valStr m.uid s ∨ t = .value m.uid s) := by
  obtain ⟨old, hold, _⟩ := h.ok.vals m hm s hs
  obtain ⟨⟨v0, u0, h1, h2, h3⟩, _⟩ := (h.file.recs.2 m hm).2 s hs old hold
  unfold ValData at h3
  by_cases ht : m.desc.t = StringType
  · rw [if_pos ht] at h3
    obtain ⟨str, _, _, hsa, _⟩ := h3
    exact ⟨u0, _, h.cells _ _ h2, hsa, by rw [ht]; exact Nat.le_refl 256, .inl rfl⟩
  · rw [if_neg ht] at h3
    obtain ⟨rfl, _⟩ := h3
    exact ⟨u0, _, h.cells _ _ h2, h1, (width_le ht).trans (by show 8 ≤ 32; decide), .inr rfl⟩

/-- Different metrics have different bytes. -/
theorem Active.region_disj {e o w} (h : Active e o w) {m m' a : Nat} (h1 : w.region m a) (h2 : w.region m' a) : m = m' := by
  obtain ⟨σ, hl, _⟩ := h.liveAt
  obtain ⟨x, hx, rfl, s, hs, off, ho, a1, a2⟩ := h1
  obtain ⟨x', hx', rfl, s', hs', off', ho', b1, b2⟩ := h2
  obtain ⟨q, t, q1, q2, q3, q4⟩ := hl.slot hx hs
  obtain ⟨q', t', q1', q2', q3', q4'⟩ := hl.slot hx' hs'
  rw [q1] at ho
  rw [q1'] at ho'
  obtain rfl := Option.some.inj ho
  obtain rfl := Option.some.inj ho'
  by_contra hne
  have htt : t ≠ t' := by
    rintro rfl
    rcases q4 with rfl | rfl <;> rcases q4' with e | e <;>
      first | (injection e with e1 e2; exact hne e1) | (injection e)
  have := slot_disj hl.ok hl.sealed q2 q2' htt
  omega

/-- The parts of the metrics that do not change. -/
noncomputable def Live.fixed (w : Live) (m : Nat) : Fixed :=
  match w.reg.metrics.find? (fun x => x.uid = m) with
  | some x => fixedOf x w.mem.length
  | none => ⟨StringType, OneUnit, fun _ => false, 0⟩

theorem Live.fixed_eq {w : Live} (hu : (w.reg.metrics.map (·.uid)).Nodup) {x : Metric} (hx : x ∈ w.reg.metrics) :
    w.fixed x.uid = fixedOf x w.mem.length := by
  unfold Live.fixed
  cases hf : w.reg.metrics.find? (fun y => y.uid = x.uid) with
  | none =>
    have := List.find?_eq_none.1 hf x hx
    simp at this
  | some y =>
    have hy := List.mem_of_find?_eq_some hf
    have he := List.find?_some hf
    simp only [decide_eq_true_eq] at he
    rw [eq_of_uid hu hy hx he]

/-- The calls that type-check: the metric is registered; the operations of singleton metrics are called on
singleton metrics only; and strings have at most 256 bytes. -/
def Live.Calls (w : Live) (uid : Nat) (me : Meth) : Prop :=
  ∃ x ∈ w.reg.metrics, x.uid = uid ∧ me.Fits ∧ (me.single = true → x.indom = none)

theorem indom_none_slot {x : Metric} (h : x.indom = none) : none ∈ x.slots := by
  unfold Metric.indom at h
  unfold Metric.slots
  cases hb : x.body with
  | single v => simp
  | inst d vs => rw [hb] at h; cases h

theorem Active.safe {e o w} (h : Active e o w) {m : Nat} {me : Meth} (hc : w.Calls m me) :
    (meths F L w.fixed).Safe w.upd w.region m me := by
  obtain ⟨x, hx, rfl, hfit, hs⟩ := hc
  obtain ⟨σ, hl, _⟩ := h.liveAt
  have hfx := Live.fixed_eq hl.ok.metricUid hx
  obtain ⟨e1, e2, e3⟩ := fixedOf_eqs hfx
  refine Meth.safe hfit ?_ ?_
  · intro h1 off ho a h2 h3
    rw [e1] at h3
    exact ⟨x, hx, rfl, none, indom_none_slot (hs h1), off, ho, h2, h3⟩
  · intro n hn off ho a h2 h3
    rw [e1] at h3
    rw [e2] at hn
    exact ⟨x, hx, rfl, some n, hasInst_slot hn, off, ho, h2, h3⟩

theorem Cli.All.mono {R Me : Type} {P Q : Nat → Me → Prop} (hpq : ∀ m me, P m me → Q m me) {c : Cli R Me} (h : c.All P) : c.All Q := by
  induction c with
  | done => trivial
  | panic => trivial
  | call m me k ih => exact ⟨hpq _ _ h.1, fun a => ih a (h.2 a)⟩

/-! ### The specification: goroutines whose calls are the operations of `ValueModel.lean`, atomically -/

/-- One step of the specification. -/
inductive SStep (F : Flops) (L : Hdr) (u : Nat → Upd) : ASt L.H Ret Meth → ASt L.H Ret Meth → Prop
  /-- a call takes effect -/
  | call {s i m me k} : s.thr[i]? = some (.out (.call m me k)) →
      SStep F L u s {
        mem := (me.spec F L (u m) (s.obj m) s.mem).2.1
        obj := fset s.obj m (me.spec F L (u m) (s.obj m) s.mem).1
        thr := s.thr.set i (.pend (me.spec F L (u m) (s.obj m) s.mem).2.2 k)
        log := s.log ++ [.call i m me] }
  /-- and returns -/
  | ret {s i r k} : s.thr[i]? = some (.pend r k) →
      SStep F L u s { s with thr := s.thr.set i (.out (k r)), log := s.log ++ [.ret i r] }

inductive SReach (F : Flops) (L : Hdr) (u : Nat → Upd) (s : ASt L.H Ret Meth) : ASt L.H Ret Meth → Prop
  | refl : SReach F L u s s
  | tail {t t'} : SReach F L u s t → SStep F L u t t' → SReach F L u s t'

/-- The world whose metrics and buffer are these. -/
def Live.at {H : Type} (w : Live) (obj : Nat → Obj H) (mem : Buf) : Live :=
  ⟨{ w.reg with metrics := w.reg.metrics.map fun x => (obj x.uid).m }, mem, w.cells⟩

/-- What a client can do next. -/
def AThr.Good (w : Live) : AThr Ret Meth → Prop
  | .out c => c.All w.Calls
  | .pend _ k => ∀ a, (k a).All w.Calls

/-- Invariant of the executions. -/
structure Tracks (e : Env) (o : Ord) (w : Live) (T : ASt L.H Ret Meth) : Prop where
  act : Active e o (w.at T.obj T.mem)
  same : ∀ x ∈ w.reg.metrics, (T.obj x.uid).m.uid = x.uid ∧ w.fixed x.uid = fixedOf (T.obj x.uid).m T.mem.length
  thr : ∀ t ∈ T.thr, t.Good w

theorem Live.at_self {w : Live} {obj : Nat → Obj L.H} (h : ∀ x ∈ w.reg.metrics, (obj x.uid).m = x) : w.at obj w.mem = w := by
  unfold Live.at
  have : w.reg.metrics.map (fun x => (obj x.uid).m) = w.reg.metrics := by
    conv => rhs; rw [← List.map_id w.reg.metrics]
    exact List.map_congr_left h
  rw [this]

/-- The changed metric, in the world. -/
theorem Live.at_put {w : Live} {obj : Nat → Obj L.H} {mem : Buf} (hs : ∀ x ∈ w.reg.metrics, (obj x.uid).m.uid = x.uid)
    {x : Metric} {o' : Obj L.H} (hu : o'.m.uid = x.uid) {mem' : Buf} :
    (w.at obj mem).put ⟨o'.m, mem'⟩ = w.at (fset obj x.uid o') mem' := by
  unfold Live.put Live.at Reg.setMetric
  dsimp only
  congr 2
  rw [List.map_map]
  apply List.map_congr_left
  intro y hy
  dsimp only [Function.comp, fset]
  rw [hs y hy, hu]
  split <;> rfl

/-- What a call keeps. -/
theorem call_keeps {u : Upd} {m : Metric} {b : Buf} (hg : Good u ⟨m, b⟩) {c : Call} (hc : c.Fits) :
    Good u (c.op u ⟨m, b⟩).1 ∧ (c.op u ⟨m, b⟩).1.m.uid = m.uid ∧
      fixedOf (c.op u ⟨m, b⟩).1.m (c.op u ⟨m, b⟩).1.mem.length = fixedOf m b.length := by
  refine c.pres hc u (fun st => Good u st ∧ st.m.uid = m.uid ∧ fixedOf st.m st.mem.length = fixedOf m b.length)
    (fun _ h => h) ?_ _ ⟨hg, rfl, rfl⟩
  rintro ⟨m', b'⟩ s old v ⟨g1, g2, g3⟩ hs hold hcomp hfit
  obtain ⟨_, h2, h3⟩ := storeVal_run (H := Unit) (o := ⟨m', ⟨false, 0⟩, ()⟩) g1 hs (old := old) (resolve_typed hcomp) (resolve_fits hfit)
  refine ⟨h2, ?_, h3.symm.trans g3⟩
  rw [← g2]
  unfold storeVal
  split
  · rfl
  · dsimp only
    split
    · exact put_uid ..
    · split <;> first | exact put_uid .. | rfl

/-- An atomic call. -/
theorem Tracks.call {e o w} {T : ASt L.H Ret Meth} (h : Tracks e o w T) {m : Nat} {me : Meth} (hc : w.Calls m me) :
    (me.body F L (w.fixed m)).run (w.upd m) (T.obj m) T.mem = me.spec F L (w.upd m) (T.obj m) T.mem ∧
    ∀ thr log, (∀ t ∈ thr, t.Good w) → Tracks e o w
      ⟨(me.spec F L (w.upd m) (T.obj m) T.mem).2.1, fset T.obj m (me.spec F L (w.upd m) (T.obj m) T.mem).1, thr, log⟩ := by
  obtain ⟨x, hx, rfl, hfit, _⟩ := hc
  obtain ⟨s1, s2⟩ := h.same x hx
  have hm : (T.obj x.uid).m ∈ (w.at T.obj T.mem).reg.metrics := List.mem_map.2 ⟨x, hx, rfl⟩
  have hg := h.act.good hm
  rw [s1] at hg
  change Good (w.upd x.uid) ⟨(T.obj x.uid).m, T.mem⟩ at hg
  refine ⟨Meth.run_spec hfit hg s2, fun thr log ht => ?_⟩
  generalize hr : me.spec F L (w.upd x.uid) (T.obj x.uid) T.mem = r
  have heff := Meth.effect (F := F) (L := L) me hfit (w.upd x.uid) (T.obj x.uid) T.mem
  rw [hr] at heff
  have key : Active e o (w.at (fset T.obj x.uid r.1) r.2.1) ∧ r.1.m.uid = x.uid ∧ w.fixed x.uid = fixedOf r.1.m r.2.1.length ∧
      r.2.1.length = T.mem.length := by
    rcases heff with ⟨e1, e2⟩ | ⟨c, hcf, e1, e2⟩
    · have : w.at (fset T.obj x.uid r.1) r.2.1 = w.at T.obj T.mem := by
        unfold Live.at
        rw [e2]
        dsimp only
        congr 2
        apply List.map_congr_left
        intro y _
        simp only [fset]
        split
        · rename_i hy; rw [e1, hy]
        · rfl
      rw [this, e1, e2]
      exact ⟨h.act, s1, s2, rfl⟩
    · obtain ⟨k1, k2, k3⟩ := call_keeps hg hcf
      have hu : r.1.m.uid = x.uid := by rw [e1, k2, s1]
      have := h.act.call c hm hcf
      unfold Live.call at this
      rw [s1] at this
      dsimp only at this
      change Active e o ((w.at T.obj T.mem).put (c.op (w.upd x.uid) ⟨(T.obj x.uid).m, T.mem⟩).1) at this
      have hst : (c.op (w.upd x.uid) ⟨(T.obj x.uid).m, T.mem⟩).1 = ⟨r.1.m, r.2.1⟩ := by rw [e1, e2]
      rw [hst, Live.at_put (fun y hy => (h.same y hy).1) hu] at this
      refine ⟨this, hu, ?_, ?_⟩
      · rw [hst] at k3; exact s2.trans k3.symm
      · rw [hst] at k3; exact congrArg Fixed.len k3
  obtain ⟨k1, k2, k3, k4⟩ := key
  refine ⟨k1, fun y hy => ?_, ht⟩
  dsimp only [fset]
  split
  · rename_i hyx
    rw [hyx]; exact ⟨k2, k3⟩
  · rw [k4]; exact h.same y hy

theorem Tracks.init {e o w} (h : Active e o w) {obj : Nat → Obj L.H} (hobj : ∀ x ∈ w.reg.metrics, (obj x.uid).m = x)
    {cs : List (Cli Ret Meth)} (hc : ∀ c ∈ cs, c.All w.Calls) : Tracks e o w (ASt.init obj w.mem cs) := by
  obtain ⟨σ, hl, _⟩ := h.liveAt
  refine ⟨?_, fun x hx => ?_, fun t ht => ?_⟩
  · show Active e o (w.at obj w.mem)
    rw [Live.at_self hobj]; exact h
  · show (obj x.uid).m.uid = _ ∧ _ = fixedOf (obj x.uid).m w.mem.length
    rw [hobj x hx]
    exact ⟨rfl, Live.fixed_eq hl.ok.metricUid hx⟩
  · obtain ⟨c, h1, rfl⟩ := List.mem_map.1 ht
    exact hc c h1

theorem mem_set_of {X : Type} {P : X → Prop} {l : List X} {i : Nat} {y : X} (h : ∀ x ∈ l, P x) (hy : P y) : ∀ x ∈ l.set i y, P x := by
  intro x hx
  rcases List.mem_or_eq_of_mem_set hx with h1 | rfl
  · exact h x h1
  · exact hy

/-- Atomic executions of the bodies are executions of the specification. -/
theorem AReach.spec {e o w} (h : Active e o w) {obj : Nat → Obj L.H} (hobj : ∀ x ∈ w.reg.metrics, (obj x.uid).m = x)
    {cs : List (Cli Ret Meth)} (hc : ∀ c ∈ cs, c.All w.Calls) {T : ASt L.H Ret Meth}
    (hT : AReach (meths F L w.fixed) w.upd (ASt.init obj w.mem cs) T) :
    SReach F L w.upd (ASt.init obj w.mem cs) T ∧ Tracks e o w T := by
  induction hT with
  | refl => exact ⟨.refl, Tracks.init h hobj hc⟩
  | tail _ hs ih =>
    obtain ⟨ih1, ih2⟩ := ih
    cases hs with
    | @call i m me k hi =>
      have hcall : (Cli.call m me k).All w.Calls := ih2.thr _ (List.mem_of_getElem? hi)
      obtain ⟨h1, h2⟩ := ih2.call (F := F) hcall.1
      have h1' : ((meths F L w.fixed).body m me).run (w.upd m) _ _ = _ := h1
      rw [h1']
      exact ⟨ih1.tail (.call hi), h2 _ _ (mem_set_of ih2.thr hcall.2)⟩
    | @ret i r k hi =>
      have hk : ∀ a, (k a).All w.Calls := ih2.thr _ (List.mem_of_getElem? hi)
      exact ⟨ih1.tail (.ret hi), ih2.act, ih2.same, mem_set_of ih2.thr (hk r)⟩

end

end Speed
