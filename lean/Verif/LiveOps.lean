import Verif.Live
/-
Histories of value operations on a published registry: the mapped file stays a complete file of the
registry as it is now.
-/
namespace Speed

/-- A started client: registry, mapped buffer, and the heap cells set by `start` (in particular the
`update` closures of all values). -/
structure Live where
  reg : Reg
  mem : Buf
  cells : Cell → Option Nat

/-- The `update` fields of the values of metric `uid`. -/
def Live.upd (w : Live) (uid : Nat) : Upd := fun s => w.cells (.upd uid s)

/-- The world in which the metric object and the buffer have changed. -/
def Live.put (w : Live) (st : MSt) : Live := { w with reg := w.reg.setMetric st.m, mem := st.mem }

/-- A call on a registered metric. -/
def Live.call {α : Type} (w : Live) (m : Metric) (op : MOp α) : Live × Ans α :=
  let x := op (w.upd m.uid) ⟨m, w.mem⟩
  (w.put x.1, x.2)

/-- The buffer is a complete file for the registry, and the update cells are the right ones. -/
structure LiveAt (e : Env) (o : Ord) (σ : Seal) (w : Live) : Prop where
  ok : w.reg.OK
  small : w.reg.Small
  typed : w.reg.Typed
  sealed : SealOK (params w.reg e o) σ
  file : FileOK w.reg e o σ w.mem
  cells : ∀ c v, σ (.cell c) = some v → w.cells c = some v

/-- Strings fit their slot; other values always do. -/
def Fits : GoVal → Prop
  | .str s => s.length ≤ 256
  | _ => True

theorem fits_valOK {t : MetricType} {v : GoVal} (h : Typed t v) (hf : Fits v) : ValOK t v :=
  typed_valOK h (fun s hs => by subst hs; exact hf)

theorem resolve_fits {t : MetricType} {v : GoVal} (h : Fits v) : Fits (resolve t v) := by
  unfold resolve
  cases v <;> simp only [resolveInt] <;> repeat' split
  all_goals (simp only [resolveFloat]; try split)
  all_goals first | trivial | exact h

theorem setMetric_setMetric (r : Reg) (a b : Metric) (h : a.uid = b.uid) : (r.setMetric a).setMetric b = r.setMetric b := by
  unfold Reg.setMetric
  simp only [List.map_map]
  congr 1
  apply List.map_congr_left
  intro x _
  dsimp only [Function.comp]
  by_cases hx : x.uid = b.uid
  · simp [hx, h]
  · simp [hx, h]

theorem setMetric_self {r : Reg} {m : Metric} (hm : m ∈ r.metrics) (hu : (r.metrics.map (·.uid)).Nodup) :
    r.setMetric m = r := by
  unfold Reg.setMetric
  have : r.metrics.map (fun x => if x.uid = m.uid then m else x) = r.metrics := by
    conv => rhs; rw [← List.map_id r.metrics]
    apply List.map_congr_left
    intro x hx
    split
    · rename_i h; exact (eq_of_uid hu hx hm h).symm
    · rfl
  rw [this]

section
variable {e : Env} {o : Ord} {σ : Seal} {w : Live}

theorem LiveAt.len (h : LiveAt e o σ w) : w.mem.length < 9223372036854775808 := by
  rw [h.file.len]
  have := h.small.length
  omega

/-- The address updates of a slot go to. -/
theorem LiveAt.updAt (h : LiveAt e o σ w) {m : Metric} (hm : m ∈ w.reg.metrics) {s : Option Str} (hs : s ∈ m.slots) :
    ∃ u, σ (.cell (.upd m.uid s)) = some u ∧ w.upd m.uid s = some u := by
  obtain ⟨old, hold, _⟩ := h.ok.vals m hm s hs
  obtain ⟨⟨v0, u0, h1, h2, h3⟩, _⟩ := (h.file.recs.2 m hm).2 s hs old hold
  exact ⟨u0, h2, h.cells _ _ h2⟩

/-- A store into a slot of a published metric succeeds, and the file follows. -/
theorem LiveAt.store (h : LiveAt e o σ w) {m : Metric} (hm : m ∈ w.reg.metrics) {s : Option Str} (hs : s ∈ m.slots)
    {old v : GoVal} (hv : Typed m.desc.t v) (hf : Fits v) :
    ∃ u, σ (.cell (.upd m.uid s)) = some u ∧ u + (newBytes v).length ≤ w.mem.length ∧
      storeVal s old v (w.upd m.uid) ⟨m, w.mem⟩ =
        (if goEq v old then ⟨m, w.mem⟩ else ⟨m.put s v, place w.mem u (newBytes v)⟩, .ok ()) ∧
      LiveAt e o σ (w.put ⟨m.put s v, place w.mem u (newBytes v)⟩) := by
  obtain ⟨u, hu, hu'⟩ := h.updAt hm hs
  have hok := fits_valOK hv hf
  obtain ⟨hin, hfile⟩ := put_file h.ok h.sealed h.file hm hs h.typed hv hok hu
  refine ⟨u, hu, hin, ?_, ?_⟩
  · unfold storeVal
    split
    · rfl
    · rw [hu']
      obtain ⟨n, hn⟩ := updClosure_ok hok hin h.len
      dsimp only
      rw [hn]
  · exact ⟨Reg.OK.setMetric hm h.ok.metricUid h.ok hok, h.small.setMetric, h.typed.setMetric hm hv,
      sealOK_setMetric hm h.ok.metricUid h.sealed, hfile, h.cells⟩

end

/-! ### Operations built from stores -/

/-- `P` is kept by every store of a compatible value that satisfies `fit`. -/
def StoreInv (fit : GoVal → Prop) (u : Upd) (P : MSt → Prop) : Prop :=
  ∀ st s old v, P st → s ∈ st.m.slots → st.m.cur s = some old → isCompatible st.m.desc.t v = true → fit v →
    P (storeVal s old (resolve st.m.desc.t v) u st).1

/-- The operation changes metric and buffer only through stores of values that satisfy `fit`. -/
def MOp.Pres (fit : GoVal → Prop) {α : Type} (op : MOp α) : Prop :=
  ∀ u P, (∀ v, Fits v → fit v) → StoreInv fit u P → ∀ st, P st → P (op u st).1

section
variable {fit : GoVal → Prop}

theorem MOp.Pres.pure {α : Type} (a : α) : (MOp.pure a).Pres fit := fun _ _ _ _ _ h => h
theorem MOp.Pres.err {α : Type} : (MOp.err : MOp α).Pres fit := fun _ _ _ _ _ h => h
theorem MOp.Pres.panic {α : Type} : (MOp.panic : MOp α).Pres fit := fun _ _ _ _ _ h => h

theorem MOp.Pres.bind {α β : Type} {a : MOp α} {f : α → MOp β} (ha : a.Pres fit) (hf : ∀ x, (f x).Pres fit) : (a.bind f).Pres fit := by
  intro u P hft hP st h
  have h1 := ha u P hft hP st h
  unfold MOp.bind
  split <;> rename_i heq <;> rw [heq] at h1
  · exact hf _ u P hft hP _ h1
  · exact h1
  · exact h1

theorem MOp.Pres.must {α : Type} {a : MOp α} (ha : a.Pres fit) : a.must.Pres fit := by
  intro u P hft hP st h
  have h1 := ha u P hft hP st h
  unfold MOp.must
  split
  · rename_i heq; rw [heq] at h1; exact h1
  · exact h1

theorem MOp.Pres.ite {α : Type} {c : Prop} [Decidable c] {a b : MOp α} (ha : a.Pres fit) (hb : b.Pres fit) :
    (if c then a else b).Pres fit := by split <;> assumption

theorem MOp.Pres.val : val.Pres fit := by
  intro u P _ _ st h
  unfold Speed.val
  split <;> exact h

theorem MOp.Pres.valInstance (n : Str) : (valInstance n).Pres fit := by
  intro u P _ _ st h
  unfold Speed.valInstance
  split
  · exact h
  · split <;> exact h

theorem cur_none_slot {m : Metric} {v : GoVal} (h : m.cur none = some v) : none ∈ m.slots := by
  unfold Metric.cur at h
  unfold Metric.slots
  cases hb : m.body <;> simp [hb] at h ⊢

theorem hasInst_slot {m : Metric} {n : Str} (h : m.hasInst n = true) : some n ∈ m.slots := by
  unfold Metric.hasInst Metric.indom Indom.hasInstance at h
  unfold Metric.slots
  cases hb : m.body with
  | single v => rw [hb] at h; cases h
  | inst d vs =>
    rw [hb] at h
    simp only [List.any_eq_true, decide_eq_true_eq] at h
    obtain ⟨i, hi, rfl⟩ := h
    exact List.mem_map.2 ⟨i, hi, rfl⟩

theorem MOp.Pres.set {v : GoVal} (hv : (∀ v, Fits v → fit v) → fit v) : (set v).Pres fit := by
  intro u P hft hP st h
  unfold Speed.set
  split
  · exact h
  · rename_i hc
    split
    · exact h
    · rename_i old hold
      exact hP st none old _ h (cur_none_slot hold) hold (by simpa using hc) (hv hft)

theorem MOp.Pres.setInstance {v : GoVal} (hv : (∀ v, Fits v → fit v) → fit v) (n : Str) : (setInstance v n).Pres fit := by
  intro u P hft hP st h
  unfold Speed.setInstance
  split
  · exact h
  · rename_i hc
    split
    · exact h
    · rename_i hi
      split
      · exact h
      · rename_i old hold
        exact hP st (some n) old _ h (hasInst_slot (by simpa using hi)) hold (by simpa using hc) (hv hft)

theorem MOp.Pres.asInt64 (v : GoVal) : (asInt64 v).Pres fit := by
  unfold Speed.asInt64; split
  · exact .pure _
  · exact .panic

theorem MOp.Pres.asFloat64 (v : GoVal) : (asFloat64 v).Pres fit := by
  unfold Speed.asFloat64; split
  · exact .pure _
  · exact .panic

theorem MOp.Pres.counterVal : counterVal.Pres fit := .bind .val .asInt64
theorem MOp.Pres.counterSet (x) : (counterSet x).Pres fit := .bind .counterVal fun _ => .ite .err (.set fun h => h _ trivial)
theorem MOp.Pres.counterInc (x) : (counterInc x).Pres fit :=
  .ite .err (.ite (.pure _) (.bind .counterVal fun _ => .set fun h => h _ trivial))
theorem MOp.Pres.counterUp : counterUp.Pres fit := .must (.counterInc 1)
theorem MOp.Pres.gaugeVal : gaugeVal.Pres fit := .bind .val .asFloat64
theorem MOp.Pres.gaugeSet (x) : (gaugeSet x).Pres fit := .set fun h => h _ trivial
theorem MOp.Pres.gaugeInc (F x) : (gaugeInc F x).Pres fit := .ite (.pure _) (.bind .gaugeVal fun _ => .set fun h => h _ trivial)
theorem MOp.Pres.gaugeDec (F x) : (gaugeDec F x).Pres fit := .gaugeInc _ _
theorem MOp.Pres.cvVal (n) : (cvVal n).Pres fit := .bind (.valInstance _) .asInt64
theorem MOp.Pres.cvSet (x n) : (cvSet x n).Pres fit :=
  .bind (.valInstance _) fun _ => .bind (.asInt64 _) fun _ => .ite .err (.setInstance (fun h => h _ (by exact trivial)) _)
theorem MOp.Pres.cvInc (x n) : (cvInc x n).Pres fit :=
  .ite .err (.ite (.pure _) (.bind (.valInstance _) fun _ => .bind (.asInt64 _) fun _ => .setInstance (fun h => h _ (by exact trivial)) _))
theorem MOp.Pres.forEach {f : Str → MOp Unit} (hf : ∀ n, (f n).Pres fit) (l : List Str) : (forEach f l).Pres fit := by
  induction l with
  | nil => exact .pure _
  | cons n l ih => exact .bind (hf n) fun _ => ih
theorem MOp.Pres.cvSetAll (x l) : (cvSetAll x l).Pres fit := .forEach (fun _ => .must (.cvSet _ _)) _
theorem MOp.Pres.cvIncAll (x l) : (cvIncAll x l).Pres fit := .forEach (fun _ => .must (.cvInc _ _)) _
theorem MOp.Pres.gvVal (n) : (gvVal n).Pres fit := .bind (.valInstance _) .asFloat64
theorem MOp.Pres.gvSet (x n) : (gvSet x n).Pres fit := .setInstance (fun h => h _ (by exact trivial)) _
theorem MOp.Pres.gvInc (F x n) : (gvInc F x n).Pres fit :=
  .bind (.valInstance _) fun _ => .bind (.asFloat64 _) fun _ => .setInstance (fun h => h _ (by exact trivial)) _
theorem MOp.Pres.gvDec (F x n) : (gvDec F x n).Pres fit := .gvInc _ _ _
theorem MOp.Pres.gvSetAll (x l) : (gvSetAll x l).Pres fit := .forEach (fun _ => .must (.gvSet _ _)) _
theorem MOp.Pres.gvIncAll (F x l) : (gvIncAll F x l).Pres fit := .forEach (fun _ => .must (.gvInc _ _ _)) _
theorem MOp.Pres.gvDecAll (F x l) : (gvDecAll F x l).Pres fit := .gvIncAll _ _ _
theorem MOp.Pres.timerReset (ts) : (timerReset ts).Pres fit := .ite .err (.bind (.set fun h => h _ trivial) fun _ => .pure _)
theorem MOp.Pres.timerStart (now ts) : (timerStart now ts).Pres fit := .ite .err (.pure _)
theorem MOp.Pres.timerStop (F now ts) : (timerStop F now ts).Pres fit := by
  intro u P hft hP st h
  exact (MOp.Pres.ite (c := ts.started = false) .err (.bind (.bind .val .asFloat64) fun v =>
    .bind (a := Speed.set (.float64 (F.add v (F.dur st.m.desc.unit (now - ts.since))))) (.set fun h => h _ trivial) fun _ =>
      .pure _)) u P hft hP st h
theorem MOp.Pres.histUpd (n x) : (histUpd n x).Pres fit := by
  intro u P hft hP st h
  unfold Speed.histUpd
  split
  · exact h
  · split
    · exact h
    · exact MOp.Pres.setInstance (v := .float64 x) (fun h => h _ trivial) n u P hft hP st h
theorem MOp.Pres.histUpdate (F L h) : (histUpdate F L h).Pres fit :=
  .bind (.histUpd _ _) fun _ => .bind (.histUpd _ _) fun _ => .bind (.histUpd _ _) fun _ =>
    .bind (.histUpd _ _) fun _ => .histUpd _ _

end

/-! ### Calls -/

/-- Being live is an invariant of stores. -/
theorem LiveAt.storeInv {e o σ w} {m : Metric} (_h : LiveAt e o σ w) (_hm : m ∈ w.reg.metrics) :
    StoreInv Fits (w.upd m.uid) (fun st => st.m.uid = m.uid ∧ st.m ∈ (w.put st).reg.metrics ∧ LiveAt e o σ (w.put st)) := by
  rintro st s old v0 ⟨hu, hmem, hl⟩ hs hold hv hf
  replace hf := resolve_fits (t := st.m.desc.t) hf
  replace hv := resolve_typed hv
  generalize resolve st.m.desc.t v0 = v at hf hv ⊢
  obtain ⟨u, _, _, hst, hl'⟩ := hl.store (old := old) hmem hs hv hf
  have hupd : (w.put st).upd st.m.uid = w.upd m.uid := by rw [hu]; rfl
  rw [hupd] at hst
  have hst' : (storeVal s old v (w.upd m.uid) st) =
      (if goEq v old then st else ⟨st.m.put s v, place st.mem u (newBytes v)⟩, .ok ()) := hst
  rw [hst']
  dsimp only
  split
  · exact ⟨hu, hmem, hl⟩
  · have hp : (w.put st).put ⟨st.m.put s v, place st.mem u (newBytes v)⟩ =
        w.put ⟨st.m.put s v, place st.mem u (newBytes v)⟩ := by
      unfold Live.put
      dsimp only
      rw [setMetric_setMetric _ _ _ (put_uid ..).symm]
    have hl'' : LiveAt e o σ ((w.put st).put ⟨st.m.put s v, place st.mem u (newBytes v)⟩) := hl'
    rw [hp] at hl''
    refine ⟨hu, ?_, hl''⟩
    have := mem_setMetric_self (s := s) (v := v) hmem
    unfold Live.put at this ⊢
    dsimp only at this ⊢
    rw [setMetric_setMetric _ _ _ (put_uid ..).symm] at this
    exact this

theorem put_self {w : Live} {m : Metric} (hm : m ∈ w.reg.metrics) (hu : (w.reg.metrics.map (·.uid)).Nodup) :
    w.put ⟨m, w.mem⟩ = w := by
  unfold Live.put
  rw [setMetric_self hm hu]

/-- Any operation made of stores keeps the file right. -/
theorem LiveAt.call {e o σ w} {α : Type} {op : MOp α} (hop : op.Pres Fits) (h : LiveAt e o σ w) {m : Metric}
    (hm : m ∈ w.reg.metrics) : LiveAt e o σ (w.call m op).1 := by
  have h0 := put_self hm h.ok.metricUid
  exact (hop _ _ (fun _ h => h) (h.storeInv hm) ⟨m, w.mem⟩ ⟨rfl, by rw [h0]; exact hm, by rw [h0]; exact h⟩).2.2

/-- `FileOK` only depends on the order of the instances. -/
theorem FileOK.ord {r e o o' σ F} (h : FileOK r e o σ F) (ho : o'.insts = o.insts) : FileOK r e o' σ F := by
  refine ⟨h.len, h.hdr, h.toc, ?_⟩
  obtain ⟨h1, h2⟩ := h.recs
  refine ⟨fun d hd => ?_, h2⟩
  obtain ⟨⟨v, ioff, so, lo, g1, g0, g2, g3⟩, g4⟩ := h1 d hd
  exact ⟨⟨v, ioff, so, lo, g1, g0, by rw [ho]; exact g2, g3⟩, g4⟩

/-- The order of the instances is one of the maps'. -/
def InstsOK (o : Ord) (r : Reg) : Prop := ∀ d ∈ r.indoms, (o.insts d).Perm d.insts

/-- Iteration orders for the registry as it is now. -/
def natOrd (o : Ord) (r : Reg) : Ord where
  indoms := r.indoms
  insts := o.insts
  metrics := r.metrics
  vals := fun m => match m.indom with | some d => d.insts | none => []

theorem natOrd_ok {o : Ord} {r : Reg} (h : InstsOK o r) : (natOrd o r).OK r where
  indoms := .refl _
  insts := h
  metrics := .refl _
  vals := by
    intro m _ d vs hb
    simp only [natOrd, Metric.indom, hb]
    exact .refl _

/-- The dump of a live file describes the registry as it is now. -/
theorem LiveAt.dump {e o σ w} (h : LiveAt e o σ w) (ho : InstsOK o w.reg) {out : Dump.DumpOut} (hd : Dump.Dumps w.mem out) :
    ∃ D, out = .ok D ∧ D.header = hdrOf w.reg e ∧ DescribesAt w.reg D (addrsOf σ) := by
  have hs : SealOK (params w.reg e (natOrd o w.reg)) σ := h.sealed
  have hF : FileOK w.reg e (natOrd o w.reg) σ w.mem := h.file.ord rfl
  obtain ⟨D, h1, h2⟩ := dump_raw h.ok h.small hF hd
  exact ⟨D, h1, h2.header, describesAt h.ok h.small (natOrd_ok ho) h.typed hs hF h2⟩

end Speed
