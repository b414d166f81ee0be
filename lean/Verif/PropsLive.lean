import Verif.PropsFile
/-
Properties of value updates while a client is active (C05, C06, C08, C41, C45).
-/
namespace Speed

open Dump

/-! ### Histories of calls on a started client -/

/-- The exported operations that change values. Those of timers and histograms also depend on a state of
their own (clock readings; the HDR library), which is arbitrary here. -/
inductive Call where
  | set (v : GoVal)
  | setInstance (v : GoVal) (n : Str)
  | counterSet (x : BitVec 64)
  | counterInc (x : BitVec 64)
  | counterUp
  | gaugeSet (x : BitVec 64)
  | gaugeInc (F : Flops) (x : BitVec 64)
  | gaugeDec (F : Flops) (x : BitVec 64)
  | timerReset (ts : TimerSt)
  | timerStart (now : BitVec 64) (ts : TimerSt)
  | timerStop (F : Flops) (now : BitVec 64) (ts : TimerSt)
  | cvSet (x : BitVec 64) (n : Str)
  | cvInc (x : BitVec 64) (n : Str)
  | cvSetAll (x : BitVec 64) (order : List Str)
  | cvIncAll (x : BitVec 64) (order : List Str)
  | gvSet (x : BitVec 64) (n : Str)
  | gvInc (F : Flops) (x : BitVec 64) (n : Str)
  | gvDec (F : Flops) (x : BitVec 64) (n : Str)
  | gvSetAll (x : BitVec 64) (order : List Str)
  | gvIncAll (F : Flops) (x : BitVec 64) (order : List Str)
  | gvDecAll (F : Flops) (x : BitVec 64) (order : List Str)
  | histUpdate (F : Flops) (L : Hdr) (h : L.H)

/-- The operation, without its result. -/
def Call.op : Call → MOp Unit
  | .set v => Speed.set v
  | .setInstance v n => Speed.setInstance v n
  | .counterSet x => Speed.counterSet x
  | .counterInc x => Speed.counterInc x
  | .counterUp => Speed.counterUp
  | .gaugeSet x => Speed.gaugeSet x
  | .gaugeInc F x => Speed.gaugeInc F x
  | .gaugeDec F x => Speed.gaugeDec F x
  | .timerReset ts => (Speed.timerReset ts).bind fun _ => .pure ()
  | .timerStart now ts => (Speed.timerStart now ts).bind fun _ => .pure ()
  | .timerStop F now ts => (Speed.timerStop F now ts).bind fun _ => .pure ()
  | .cvSet x n => Speed.cvSet x n
  | .cvInc x n => Speed.cvInc x n
  | .cvSetAll x l => Speed.cvSetAll x l
  | .cvIncAll x l => Speed.cvIncAll x l
  | .gvSet x n => Speed.gvSet x n
  | .gvInc F x n => Speed.gvInc F x n
  | .gvDec F x n => Speed.gvDec F x n
  | .gvSetAll x l => Speed.gvSetAll x l
  | .gvIncAll F x l => Speed.gvIncAll F x l
  | .gvDecAll F x l => Speed.gvDecAll F x l
  | .histUpdate F L h => Speed.histUpdate F L h

/-- Passed strings have at most 256 bytes. -/
def Call.Fits : Call → Prop
  | .set v => Speed.Fits v
  | .setInstance v _ => Speed.Fits v
  | _ => True

theorem Call.presOf {fit : GoVal → Prop} {c : Call} (h : ∀ v, (c = .set v ∨ ∃ n, c = .setInstance v n) → fit v) :
    c.op.Pres fit := by
  cases c
  case set v => exact .set fun _ => h v (.inl rfl)
  case setInstance v n => exact .setInstance (fun _ => h v (.inr ⟨n, rfl⟩)) n
  case counterSet => exact .counterSet _
  case counterInc => exact .counterInc _
  case counterUp => exact .counterUp
  case gaugeSet => exact .gaugeSet _
  case gaugeInc => exact .gaugeInc _ _
  case gaugeDec => exact .gaugeDec _ _
  case timerReset => exact .bind (.timerReset _) fun _ => .pure _
  case timerStart => exact .bind (.timerStart _ _) fun _ => .pure _
  case timerStop => exact .bind (.timerStop _ _ _) fun _ => .pure _
  case cvSet => exact .cvSet _ _
  case cvInc => exact .cvInc _ _
  case cvSetAll => exact .cvSetAll _ _
  case cvIncAll => exact .cvIncAll _ _
  case gvSet => exact .gvSet _ _
  case gvInc => exact .gvInc _ _ _
  case gvDec => exact .gvDec _ _ _
  case gvSetAll => exact .gvSetAll _ _
  case gvIncAll => exact .gvIncAll _ _ _
  case gvDecAll => exact .gvDecAll _ _ _
  case histUpdate => exact .histUpdate _ _ _

theorem Call.pres {c : Call} (h : c.Fits) : c.op.Pres Speed.Fits :=
  Call.presOf (by rintro v (rfl | ⟨n, rfl⟩) <;> exact h)

theorem Call.presAll (c : Call) : c.op.Pres (fun _ => True) := Call.presOf fun _ _ => trivial

/-- The worlds that a program can reach from a returned `Start` by calls on registered metrics, passing
strings of at most 256 bytes. -/
inductive Active (e : Env) (o : Ord) : Live → Prop
  | start {r s} : Started r e o s → Active e o ⟨r, s.mem, s.cells⟩
  | call {w m} (c : Call) : Active e o w → m ∈ w.reg.metrics → c.Fits → Active e o (w.call m c.op).1

theorem Started.liveAt {r e o s} (h : Started r e o s) :
    ∃ σ, LiveAt e o σ ⟨r, s.mem, s.cells⟩ ∧ InstsOK o r := by
  obtain ⟨cells, hs⟩ := h.run
  obtain ⟨σ, h1, h2, h3⟩ := start_returned h.ok h.ord hs h.ret
  exact ⟨σ, ⟨h.ok, h.small, h.built.typed, h1, h2, h3⟩, h.ord.insts⟩

theorem Active.liveAt {e o w} (h : Active e o w) : ∃ σ, LiveAt e o σ w ∧ InstsOK o w.reg := by
  induction h with
  | start h => exact h.liveAt
  | call c _ hm hf ih =>
    obtain ⟨σ, h1, h2⟩ := ih
    exact ⟨σ, h1.call (c.pres hf) hm, h2⟩

/-- What `Val` or `ValInstance` returns for a metric. -/
def reads (s : Option Str) : MOp GoVal :=
  match s with
  | none => val
  | some n => valInstance n

theorem reads_cur {m : Metric} {s : Option Str} (hs : s ∈ m.slots) {v : GoVal} (hv : m.cur s = some v) (u : Upd) (mem : Buf) :
    reads s u ⟨m, mem⟩ = (⟨m, mem⟩, .ok v) := by
  cases s with
  | none => unfold reads val; dsimp only; rw [hv]
  | some n =>
    have : m.hasInst n = true := by
      unfold Metric.slots at hs
      unfold Metric.hasInst Metric.indom Indom.hasInstance
      cases hb : m.body with
      | single v => rw [hb] at hs; simp at hs
      | inst d vs =>
        rw [hb] at hs
        obtain ⟨i, hi, he⟩ := List.mem_map.1 hs
        simp only [List.any_eq_true, decide_eq_true_eq]
        exact ⟨i, hi, by simpa using he⟩
    unfold reads valInstance
    dsimp only
    rw [if_neg (by simp [this]), hv]

/-! ### C05 -/

/-- C05 (partial): after any history of value operations, whatever their results, the dump of the mapped file
describes the registry as it is now; in particular every value record, found by its metric and instance,
decodes to exactly what `Val`/`ValInstance` returns. Missing: strings of more than 256 bytes, for which
the claim is false (`C05_refuted`). -/
theorem C05_file_follows_partial {e o w} (h : Active e o w) :
    (∃ out, Dumps w.mem out) ∧
    ∀ out, Dumps w.mem out → ∃ D A, out = .ok D ∧ DescribesAt w.reg D A ∧
      ∀ m ∈ w.reg.metrics, ∀ s ∈ m.slotNames, ∃ v x,
        reads s (w.upd m.uid) ⟨m, w.mem⟩ = (⟨m, w.mem⟩, .ok v) ∧
        look D.values (A.value m.uid s) = some x ∧ ValueShows D A x m s v := by
  refine ⟨dumps_exists _, fun out hd => ?_⟩
  obtain ⟨σ, hl, hi⟩ := h.liveAt
  obtain ⟨D, h1, _, h3⟩ := hl.dump hi hd
  refine ⟨D, _, h1, h3, fun m hm s hs => ?_⟩
  obtain ⟨v, x, hv, hx, hsh⟩ := h3.values m hm s hs
  exact ⟨v, x, reads_cur hs hv _ _, hx, hsh⟩

/-- `Set` on the singleton or `SetInstance` on an instance. -/
def setAt (s : Option Str) (v : GoVal) : MOp Unit :=
  match s with
  | none => set v
  | some n => setInstance v n

/-- An incompatible value is rejected. -/
theorem setAt_incompatible (s : Option Str) {v : GoVal} {u : Upd} {st : MSt} (h : isCompatible st.m.desc.t v = false) :
    setAt s v u st = (st, .err) := by
  cases s with
  | none => show set v u st = _; unfold set; rw [if_pos h]
  | some n => show setInstance v n u st = _; unfold setInstance; rw [if_pos h]

theorem setAt_compatible {s : Option Str} {v : GoVal} {u : Upd} {st : MSt} (h : isCompatible st.m.desc.t v = true)
    (hs : s ∈ st.m.slots) {old : GoVal} (hold : st.m.cur s = some old) :
    setAt s v u st = storeVal s old (resolve st.m.desc.t v) u st := by
  cases s with
  | none => show set v u st = _; unfold set; rw [if_neg (by simp [h]), hold]
  | some n =>
    have hi : st.m.hasInst n = true := by
      unfold Metric.slots at hs
      unfold Metric.hasInst Metric.indom Indom.hasInstance
      cases hb : st.m.body with
      | single v => rw [hb] at hs; simp at hs
      | inst d vs =>
        rw [hb] at hs
        obtain ⟨i, hi, he⟩ := List.mem_map.1 hs
        simp only [List.any_eq_true, decide_eq_true_eq]
        exact ⟨i, hi, by simpa using he⟩
    show setInstance v n u st = _
    unfold setInstance
    rw [if_neg (by simp [h]), if_neg (by simp [hi]), hold]

/-- A compatible value is stored in memory and in the file, unless it equals the current one. -/
theorem LiveAt.setAt_spec {e o σ w} (h : LiveAt e o σ w) {m : Metric} (hm : m ∈ w.reg.metrics) {s : Option Str}
    (hs : s ∈ m.slots) {v : GoVal} (hf : Fits v) (hc : isCompatible m.desc.t v = true) :
    ∃ old u, m.cur s = some old ∧ σ (.cell (.upd m.uid s)) = some u ∧
      u + (newBytes (resolve m.desc.t v)).length ≤ w.mem.length ∧
      setAt s v (w.upd m.uid) ⟨m, w.mem⟩ =
        (if goEq (resolve m.desc.t v) old then ⟨m, w.mem⟩
          else ⟨m.put s (resolve m.desc.t v), place w.mem u (newBytes (resolve m.desc.t v))⟩, .ok ()) := by
  obtain ⟨old, hold, _⟩ := h.ok.vals m hm s hs
  have hold' : m.cur s = some old := by rw [cur_eq_val]; exact hold
  obtain ⟨u, h1, h2, h3, _⟩ := h.store (old := old) hm hs (resolve_typed hc) (resolve_fits (t := m.desc.t) hf)
  exact ⟨old, u, hold', h1, h2, by rw [setAt_compatible (st := ⟨m, w.mem⟩) hc hs hold', h3]⟩

/-- The calls have an effect: `Set` and `SetInstance` as instances of `Active`. -/
theorem Active.setAt {e o w} (h : Active e o w) {m : Metric} (hm : m ∈ w.reg.metrics) (s : Option Str) {v : GoVal}
    (hf : Fits v) : Active e o (w.call m (setAt s v)).1 := by
  cases s with
  | none => exact h.call (.set v) hm hf
  | some n => exact h.call (.setInstance v n) hm hf

/-- An active client whose counter was 5 and has been set to 12, and whose string has been shortened. -/
theorem sample_active : ∃ e o w m m2, Active e o w ∧ m ∈ w.reg.metrics ∧ m2 ∈ w.reg.metrics ∧
    m.desc.name = sC ∧ m.cur none = some (.int64 12) ∧
    m2.desc.t = StringType ∧ none ∈ m2.slotNames ∧ m2.cur none = some (.str []) := by
  obtain ⟨s, hs⟩ := sample_started
  obtain ⟨m, hm, hn, hsl, hc, hold, m2, hm2, hne, hsl2, hc2, hold2⟩ : ∃ m ∈ sampleReg.metrics, m.desc.name = sC ∧ none ∈ m.slots ∧
      isCompatible m.desc.t (.int64 12) = true ∧ m.cur none = some (.int64 5) ∧ ∃ m2 ∈ sampleReg.metrics, m2.uid ≠ m.uid ∧
      none ∈ m2.slots ∧ isCompatible m2.desc.t (.str []) = true ∧ m2.cur none = some (.str sD) := by decide
  obtain ⟨σ, hl, _⟩ := hs.liveAt
  have h1 := (Active.start hs).setAt hm none (v := .int64 12) trivial
  obtain ⟨old, u, hold', _, _, heq⟩ := hl.setAt_spec hm hsl (v := .int64 12) trivial hc
  rw [hold] at hold'
  obtain rfl := Option.some.inj hold'
  have hr : ((⟨sampleReg, s.mem, s.cells⟩ : Live).call m (setAt none (.int64 12))).1.reg =
      sampleReg.setMetric (m.put none (.int64 12)) := by
    unfold Live.call
    rw [heq]
    rfl
  have hm' : m.put none (.int64 12) ∈ (sampleReg.setMetric (m.put none (.int64 12))).metrics := mem_setMetric_self hm
  have hm2' : m2 ∈ (sampleReg.setMetric (m.put none (.int64 12))).metrics :=
    mem_setMetric_other hm2 (by rw [put_uid]; exact hne)
  generalize hw : ((⟨sampleReg, s.mem, s.cells⟩ : Live).call m (setAt none (.int64 12))).1 = w at *
  rw [← hr] at hm' hm2'
  obtain ⟨σ, hl, _⟩ := h1.liveAt
  have h2 := h1.setAt hm2' none (v := .str []) (by show ([] : Str).length ≤ 256; decide)
  obtain ⟨old, u, hold', _, _, heq⟩ := hl.setAt_spec hm2' hsl2 (v := .str []) (by show ([] : Str).length ≤ 256; decide) hc2
  rw [hold2] at hold'
  obtain rfl := Option.some.inj hold'
  have hr2 : (w.call m2 (setAt none (.str []))).1.reg = w.reg.setMetric (m2.put none (.str [])) := by
    unfold Live.call
    rw [heq]
    rfl
  refine ⟨_, _, _, m.put none (.int64 12), m2.put none (.str []), h2, ?_, ?_, hn, ?_, ?_, ?_, ?_⟩
  · rw [hr2]; exact mem_setMetric_other hm' (by rw [put_uid, put_uid]; exact hne.symm)
  · rw [hr2]; exact mem_setMetric_self hm2'
  · rw [put_cur, if_pos rfl, hold]; rfl
  · rw [put_desc]; simpa [isCompatible] using hc2
  · rw [put_slotNames]; exact hsl2
  · rw [put_cur, if_pos rfl, hold2]; rfl

/-- The file of this client shows 12 for the counter. -/
example : ∃ e o w m D A x, Active e o w ∧ m ∈ w.reg.metrics ∧ m.desc.name = sC ∧ Dumps w.mem (.ok D) ∧ DescribesAt w.reg D A ∧
    look D.values (A.value m.uid none) = some x ∧ ValueShows D A x m none (.int64 12) := by
  obtain ⟨e, o, w, m, m2, h, hm, _, hn, hc, _⟩ := sample_active
  obtain ⟨⟨out, hd⟩, h1⟩ := C05_file_follows_partial h
  obtain ⟨D, A, rfl, h2, h3⟩ := h1 out hd
  have hs : none ∈ m.slotNames := by
    unfold Metric.cur at hc
    unfold Metric.slotNames
    cases hb : m.body with
    | single v => simp
    | inst d vs => rw [hb] at hc; cases hc
  obtain ⟨v, x, h4, h5, h6⟩ := h3 m hm none hs
  have : v = .int64 12 := by
    have h7 := reads_cur hs hc (w.upd m.uid) w.mem
    rw [h7] at h4
    simpa using h4.symm
  subst this
  exact ⟨e, o, w, m, D, A, x, h, hm, hn, hd, h2, h5, h6⟩

/-! ### C06 -/

theorem bytesAt_congr {F F' : Buf} {k n : Nat} (h : ∀ j, k ≤ j → j < k + n → F'[j]? = F[j]?) :
    bytesAt F' k n = bytesAt F k n := by
  unfold bytesAt
  apply List.ext_getElem?
  intro j
  rw [List.getElem?_take, List.getElem?_take]
  split
  · rw [List.getElem?_drop, List.getElem?_drop]
    exact h _ (by omega) (by omega)
  · rfl

/-- The two buffers agree on `n` bytes from `k`. -/
def Same (F' F : Buf) (k n : Nat) : Prop := ∀ j, k ≤ j → j < k + n → F'[j]? = F[j]?

theorem Same.bytes {F' F : Buf} {k n : Nat} (h : Same F' F k n) (a : Nat) (m : Nat) (ha : a + m ≤ n) :
    bytesAt F' (k + a) m = bytesAt F (k + a) m :=
  bytesAt_congr fun j h1 h2 => h j (by omega) (by omega)

theorem Same.w64 {F' F : Buf} {k n : Nat} (h : Same F' F k n) (a : Nat) (ha : a + 8 ≤ n) :
    f64 F' (k + a) = f64 F (k + a) := by unfold f64; rw [h.bytes a 8 ha]
theorem Same.w32 {F' F : Buf} {k n : Nat} (h : Same F' F k n) (a : Nat) (ha : a + 4 ≤ n) :
    f32 F' (k + a) = f32 F (k + a) := by unfold f32; rw [h.bytes a 4 ha]

theorem Same.indom {F' F : Buf} {k : Nat} (h : Same F' F k 32) : decIndom F' k = decIndom F k := by
  unfold decIndom
  rw [h.w32 4 (by omega), h.w64 8 (by omega), h.w64 16 (by omega), h.w64 24 (by omega)]
  have := h.w32 0 (by omega)
  rw [Nat.add_zero] at this
  rw [this]
theorem Same.value {F' F : Buf} {k : Nat} (h : Same F' F k 32) : decValue F' k = decValue F k := by
  unfold decValue
  rw [h.w64 8 (by omega), h.w64 16 (by omega), h.w64 24 (by omega)]
  have := h.w64 0 (by omega)
  rw [Nat.add_zero] at this
  rw [this]
theorem Same.inst {F' F : Buf} {k : Nat} {v2 : Bool} (h : Same F' F k (if v2 then 24 else 80)) :
    decInst v2 F' k = decInst v2 F k := by
  unfold decInst
  have h0 := h.w64 0 (by split <;> omega)
  rw [Nat.add_zero] at h0
  rw [h0, h.w32 8 (by split <;> omega), h.w32 12 (by split <;> omega), h.w64 16 (by split <;> omega)]
  cases v2 with
  | true => rfl
  | false => simp only [Bool.false_eq_true, if_false]; rw [h.bytes 16 64 (by decide)]
theorem Same.metric {F' F : Buf} {k : Nat} {v2 : Bool} (h : Same F' F k (if v2 then 48 else 104)) :
    decMetric v2 F' k = decMetric v2 F k := by
  unfold decMetric metricBase
  cases v2 with
  | true =>
    simp only [if_true, Nat.add_assoc] at h ⊢
    have h0 := h.w64 0 (by omega)
    rw [Nat.add_zero] at h0
    rw [h0, h.w32 8 (by omega), h.w32 (8 + 4) (by omega), h.w32 (8 + 8) (by omega), h.w32 (8 + 12) (by omega), h.w32 (8 + 16) (by omega),
      h.w32 (8 + 20) (by omega), h.w64 (8 + 24) (by omega), h.w64 (8 + 32) (by omega)]
  | false =>
    simp only [Bool.false_eq_true, if_false, Nat.add_assoc] at h ⊢
    have h0 := h.bytes 0 64 (by omega)
    rw [Nat.add_zero] at h0
    rw [h0, h.w32 64 (by omega), h.w32 (64 + 4) (by omega), h.w32 (64 + 8) (by omega), h.w32 (64 + 12) (by omega), h.w32 (64 + 16) (by omega),
      h.w32 (64 + 20) (by omega), h.w64 (64 + 24) (by omega), h.w64 (64 + 32) (by omega)]

/-- Lookups in a section whose records at `k` are equal. -/
theorem look_same {α : Type} {l l' : List (Nat × α)} {f f' : Nat → α} {off L n : Nat}
    (h : l.Perm (secItems f off L n)) (h' : l'.Perm (secItems f' off L n)) {k : Nat}
    (hk : ∀ i < n, k = off + i * L → f' k = f k) : look l' k = look l k := by
  have key : ∀ {l : List (Nat × α)} {f : Nat → α}, l.Perm (secItems f off L n) →
      secItems f off L n = ((List.range n).map (fun i => off + i * L)).map (fun k => (k, f k)) := by
    intro l f _; unfold secItems; rw [List.map_map]; rfl
  by_cases hm : k ∈ (List.range n).map (fun i => off + i * L)
  · rw [look_perm (h.trans (.of_eq (key h))) hm, look_perm (h'.trans (.of_eq (key h'))) hm]
    obtain ⟨i, hi, he⟩ := List.mem_map.1 hm
    rw [hk i (by simpa using hi) he.symm]
  · have none_of : ∀ {l : List (Nat × α)} {f : Nat → α}, l.Perm (secItems f off L n) → look l k = none := by
      intro l f hl
      unfold look
      rw [Option.map_eq_none_iff, List.find?_eq_none]
      intro p hp
      have hp' : p.1 ∈ l.map Prod.fst := List.mem_map.2 ⟨p, hp, rfl⟩
      have hpp := (hl.map Prod.fst).mem_iff.1 hp'
      rw [secItems_keys] at hpp
      simp only [decide_eq_true_eq]
      rintro rfl
      exact hm hpp
    rw [none_of h, none_of h']

/-- The dump of a live file, in terms of its bytes. -/
theorem LiveAt.raw {e o σ w} (h : LiveAt e o σ w) (ho : InstsOK o w.reg) {D : Result} (hd : Dumps w.mem (.ok D)) :
    RawDump w.reg e w.mem D ∧ DescribesAt w.reg D (addrsOf σ) := by
  obtain ⟨D1, h1, _, h3⟩ := h.dump ho hd
  cases h1
  obtain ⟨D2, h4, h5⟩ := dump_raw h.ok h.small (h.file.ord (o' := natOrd o w.reg) rfl) hd
  cases h4
  exact ⟨h5, h3⟩

theorem newBytes_length {t : MetricType} {v : GoVal} (h : Typed t v) (hf : Fits v) :
    (t = StringType → (newBytes v).length = 256) ∧ (t ≠ StringType → (newBytes v).length ≤ 8) := by
  rcases h with ⟨rfl, x, rfl⟩ | ⟨rfl, x, rfl⟩ | ⟨rfl, x, rfl⟩ | ⟨rfl, x, rfl⟩ | ⟨rfl, x, rfl⟩ | ⟨rfl, x, rfl⟩ | ⟨rfl, x, rfl⟩
  case inr.inr.inr.inr.inr.inr =>
    exact ⟨fun _ => pad_length hf, fun hn => absurd rfl hn⟩
  all_goals exact ⟨fun hn => absurd hn (by decide), fun _ => by simp [newBytes, binaryWrite]⟩

/-- Where updates of a slot go. -/
theorem LiveAt.slotAt {e o σ w} (h : LiveAt e o σ w) {m : Metric} (hm : m ∈ w.reg.metrics) {s : Option Str}
    (hs : s ∈ m.slots) {u : Nat} (hu : σ (.cell (.upd m.uid s)) = some u) :
    ∃ v0, σ (.slot (.value m.uid s)) = some v0 ∧
      (m.desc.t ≠ StringType → u = v0) ∧
      (m.desc.t = StringType → σ (.slot (.valStr m.uid s)) = some u ∧ (f64 w.mem (v0 + 8)).toNat = u ∧
        ∃ t, m.cur s = some (.str t) ∧ FileAt w.mem u (pad StringLength t)) := by
  obtain ⟨old, hold, _⟩ := h.ok.vals m hm s hs
  obtain ⟨⟨v0, u0, h1, h2, h3⟩, _⟩ := (h.file.recs.2 m hm).2 s hs old hold
  rw [hu] at h2
  obtain rfl := Option.some.inj h2
  refine ⟨v0, h1, fun ht => ?_, fun ht => ?_⟩
  · unfold ValData at h3
    rw [if_neg ht] at h3
    exact h3.1
  · unfold ValData at h3
    rw [if_pos ht] at h3
    obtain ⟨str, rfl, h4, h5, h6⟩ := h3
    refine ⟨h5, ?_, str, by rw [cur_eq_val]; exact hold, h6⟩
    rw [FileAt.append, le_length] at h4
    rw [f64_of h4.2, ofNat64_toNat (slot_lt h.ok h.small h.sealed h5).1]

/-- C06: `Set`/`SetInstance` of one value leaves every byte outside the 8 data bytes of its record (its
256-byte slot, for a string) as it was; all records stay where they are, and the dump of everything else
is unchanged. -/
theorem C06_one_value {e o w} (h : Active e o w) {m : Metric} (hm : m ∈ w.reg.metrics) {s : Option Str}
    (hs : s ∈ m.slotNames) {v : GoVal} (hf : Fits v) {D D' : Result} (hd : Dumps w.mem (.ok D))
    (hd' : Dumps (w.call m (setAt s v)).1.mem (.ok D')) :
    ∃ A x, DescribesAt w.reg D A ∧ DescribesAt (w.call m (setAt s v)).1.reg D' A ∧
      look D.values (A.value m.uid s) = some x ∧
      (m.desc.t ≠ StringType →
        (∀ j, ¬ (A.value m.uid s ≤ j ∧ j < A.value m.uid s + 8) → (w.call m (setAt s v)).1.mem[j]? = w.mem[j]?) ∧
        (∀ k, k ≠ A.value m.uid s → look D'.values k = look D.values k) ∧ ∀ k, look D'.strings k = look D.strings k) ∧
      (m.desc.t = StringType →
        (∀ j, ¬ (x.extra.toNat ≤ j ∧ j < x.extra.toNat + 256) → (w.call m (setAt s v)).1.mem[j]? = w.mem[j]?) ∧
        (∀ k, look D'.values k = look D.values k) ∧ ∀ k, k ≠ x.extra.toNat → look D'.strings k = look D.strings k) ∧
      D'.header = D.header ∧ D'.tocs = D.tocs ∧ (∀ k, look D'.indoms k = look D.indoms k) ∧
      (∀ k, look D'.instances k = look D.instances k) ∧ ∀ k, look D'.metrics k = look D.metrics k := by
  obtain ⟨σ, hl, hi⟩ := h.liveAt
  obtain ⟨hR, hA⟩ := hl.raw hi hd
  obtain ⟨u, hu, _⟩ := hl.updAt hm hs
  obtain ⟨v0, hv0, hfix, hstr⟩ := hl.slotAt hm hs hu
  -- the world after the call
  have hw' : LiveAt e o σ (w.call m (setAt s v)).1 := by
    cases s with
    | none => exact hl.call (.set (fun _ => hf)) hm
    | some n => exact hl.call (.setInstance (fun _ => hf) n) hm
  obtain ⟨hR', hA'⟩ := hw'.raw (show InstsOK o (w.call m (setAt s v)).1.reg from hi) hd'
  have hreg : ∃ m', (w.call m (setAt s v)).1.reg = w.reg.setMetric m' := ⟨_, rfl⟩
  obtain ⟨m', hreg⟩ := hreg
  obtain ⟨n, hn, hmem⟩ : ∃ n, ((m.desc.t = StringType → n = 256) ∧ (m.desc.t ≠ StringType → n ≤ 8)) ∧
      ∀ j, ¬ (u ≤ j ∧ j < u + n) → (w.call m (setAt s v)).1.mem[j]? = w.mem[j]? := by
    by_cases hc : isCompatible m.desc.t v = true
    · obtain ⟨old, u', _, hu', hin, heq⟩ := hl.setAt_spec hm hs hf hc
      rw [hu] at hu'
      obtain rfl := Option.some.inj hu'
      refine ⟨_, newBytes_length (resolve_typed hc) (resolve_fits (t := m.desc.t) hf), fun j hj => ?_⟩
      show (setAt s v (w.upd m.uid) ⟨m, w.mem⟩).1.mem[j]? = _
      rw [heq]
      dsimp only
      split
      · rfl
      · dsimp only
        rw [place_get _ _ _ hin, if_neg hj]
    · refine ⟨if m.desc.t = StringType then 256 else 8, ⟨fun h => if_pos h, fun h => by rw [if_neg h]⟩, fun j _ => ?_⟩
      show (setAt s v (w.upd m.uid) ⟨m, w.mem⟩).1.mem[j]? = _
      rw [setAt_incompatible (st := ⟨m, w.mem⟩) s (by simpa using hc)]
  generalize hmm : (w.call m (setAt s v)).1.mem = mem' at *
  obtain ⟨t0, ht0, hn0, hch⟩ : ∃ t0, σ (.slot t0) = some u ∧ n ≤ regSlot w.reg t0.chan ∧
      ((m.desc.t = StringType ∧ t0.chan = .str) ∨ (m.desc.t ≠ StringType ∧ t0.chan = .value)) := by
    by_cases ht : m.desc.t = StringType
    · refine ⟨_, (hstr ht).1, ?_, .inl ⟨ht, rfl⟩⟩
      rw [hn.1 ht]; exact Nat.le_refl 256
    · refine ⟨_, (hfix ht) ▸ hv0, ?_, .inr ⟨ht, rfl⟩⟩
      exact Nat.le_trans (hn.2 ht) (show 8 ≤ 32 by decide)
  obtain ⟨_, _, hb1, hb2⟩ := slot_range hl.ok hl.sealed ht0
  obtain ⟨_, _, q0, hq0⟩ := hl.sealed.1 t0 u ht0
  simp only [params] at hq0
  obtain ⟨l1, l2, l3, l4, l5⟩ := lim_eq hl.ok e o
  obtain ⟨c1, c2, c3, c4, c5, c6⟩ := off_chain w.reg
  have same : ∀ k L, k + L ≤ u ∨ u + n ≤ k → Same mem' w.mem k L := by
    intro k L hk j h1 h2
    exact hmem j (by omega)
  have inSec : ∀ off L i n : Nat, i < n → off + i * L + L ≤ off + L * n := by
    intro off L i n hi
    have : L * (i + 1) ≤ L * n := Nat.mul_le_mul_left _ hi
    rw [Nat.mul_add, Nat.mul_one, Nat.mul_comm L i] at this
    omega
  have hlow : w.reg.valuesoffset ≤ u := by
    rcases hch with ⟨_, hc⟩ | ⟨_, hc⟩ <;> rw [hc] at hb1 <;> simp only [regBase] at hb1 <;> omega
  have p1 : D'.indoms.Perm (secItems (decIndom mem') w.reg.indomoffset 32 w.reg.InstanceDomainCount) := by
    have := hR'.indoms; rw [hreg, indomoffset_setMetric] at this; exact this
  have p2 : D'.instances.Perm (secItems (decInst w.reg.version2 mem') w.reg.instanceoffset w.reg.InstanceLength w.reg.InstanceCount) := by
    have := hR'.insts; rw [hreg, instanceoffset_setMetric] at this; exact this
  have p3 : D'.metrics.Perm (secItems (decMetric w.reg.version2 mem') w.reg.metricsoffset w.reg.MetricLength w.reg.MetricCount) := by
    have := hR'.metrics; rw [hreg, metricsoffset_setMetric, MetricCount_setMetric] at this; exact this
  have p4 : D'.values.Perm (secItems (decValue mem') w.reg.valuesoffset 32 w.reg.ValuesCount) := by
    have := hR'.values; rw [hreg, valuesoffset_setMetric] at this; exact this
  have p5 : D'.strings.Perm (secItems (fun k => ⟨bytesAt mem' k 256⟩) w.reg.stringsoffset 256 w.reg.StringCount) := by
    have := hR'.strings; rw [hreg, stringsoffset_setMetric, StringCount_setMetric] at this; exact this
  have hx : look D.values (slotOf σ (.value m.uid s)) = some (decValue w.mem v0) := by
    have hp := hR.values.trans (sec_perm hl.ok hl.sealed hl.file .value _ (regToks_length hl.ok).2.2.2.1)
    have htok := (hl.sealed.1 _ _ hv0).1
    rw [look_perm hp (List.mem_map.2 ⟨_, htok, rfl⟩), slotOf_eq hv0]
  have hval : (addrsOf σ).value m.uid s = v0 := slotOf_eq hv0
  refine ⟨addrsOf σ, decValue w.mem v0, hA, hA', hx, fun ht => ?_, fun ht => ?_, ?_, ?_, ?_, ?_, ?_⟩
  · obtain rfl := hfix ht
    rw [hval]
    have h8 := hn.2 ht
    have hc : t0.chan = .value := by
      rcases hch with ⟨h, _⟩ | ⟨_, h⟩
      · exact absurd h ht
      · exact h
    rw [hc] at hb1 hb2 hq0
    rw [l4] at hb2
    simp only [regBase, regSlot, ValueLength] at hb1 hb2 hq0
    refine ⟨fun j hj => hmem j (by omega), fun k hk => ?_, fun k => ?_⟩
    · refine look_same hR.values p4 fun i hi he => (same k 32 ?_).value
      omega
    · refine look_same hR.strings p5 fun i hi he => ?_
      have := (same k 256 (.inr (by omega))).bytes 0 256 (by omega)
      rw [Nat.add_zero] at this
      rw [this]
  · have hex : (decValue w.mem v0).extra.toNat = u := (hstr ht).2.1
    rw [hex]
    have h256 := hn.1 ht
    have hc : t0.chan = .str := by
      rcases hch with ⟨_, h⟩ | ⟨h, _⟩
      · exact h
      · exact absurd ht h
    rw [hc] at hb1 hb2 hq0
    rw [l5] at hb2
    simp only [regBase, regSlot, StringLength] at hb1 hb2 hq0
    refine ⟨fun j hj => hmem j (by omega), fun k => ?_, fun k hk => ?_⟩
    · refine look_same hR.values p4 fun i hi he => (same k 32 (.inl ?_)).value
      have := inSec w.reg.valuesoffset 32 i _ hi
      have : w.reg.stringsoffset = w.reg.valuesoffset + 32 * w.reg.ValuesCount := rfl
      omega
    · refine look_same hR.strings p5 fun i hi he => ?_
      have := (same k 256 (by omega)).bytes 0 256 (by omega)
      rw [Nat.add_zero] at this
      rw [this]
  · rw [hR'.header, hR.header, hreg]
    unfold hdrOf
    rw [tocCount_setMetric]
    rfl
  · rw [hR'.tocs, hR.tocs, hreg, tocEntries_setMetric]
  · intro k
    refine look_same hR.indoms p1 fun i hi he => (same k 32 (.inl ?_)).indom
    have := inSec w.reg.indomoffset 32 i _ hi
    have : w.reg.instanceoffset = w.reg.indomoffset + 32 * w.reg.InstanceDomainCount := rfl
    omega
  · intro k
    have hL : w.reg.InstanceLength = if w.reg.version2 then 24 else 80 := by
      unfold Reg.InstanceLength; split <;> rfl
    refine look_same hR.insts p2 fun i hi he => (hL ▸ same k w.reg.InstanceLength (.inl ?_)).inst
    have := inSec w.reg.instanceoffset w.reg.InstanceLength i _ hi
    have : w.reg.metricsoffset = w.reg.instanceoffset + w.reg.InstanceLength * w.reg.InstanceCount := rfl
    omega
  · intro k
    have hL : w.reg.MetricLength = if w.reg.version2 then 48 else 104 := by
      unfold Reg.MetricLength; split <;> rfl
    refine look_same hR.metrics p3 fun i hi he => (hL ▸ same k w.reg.MetricLength (.inl ?_)).metric
    have := inSec w.reg.metricsoffset w.reg.MetricLength i _ hi
    have : w.reg.valuesoffset = w.reg.metricsoffset + w.reg.MetricLength * w.reg.MetricCount := rfl
    omega

/-- Such worlds, calls and dumps exist, for a number and for a string. -/
theorem active_cases : ∃ e o w m m2 D, Active e o w ∧ m ∈ w.reg.metrics ∧ m2 ∈ w.reg.metrics ∧ none ∈ m.slotNames ∧
    none ∈ m2.slotNames ∧ m.desc.t = Int64Type ∧ m2.desc.t = StringType ∧ Dumps w.mem (.ok D) := by
  obtain ⟨e, o, w, m, m2, h, hm, hm2, hn, hc, ht2, hs2, _⟩ := sample_active
  obtain ⟨⟨out, hd⟩, hall⟩ := C05_file_follows_partial h
  obtain ⟨D, A, rfl, _⟩ := hall out hd
  have hs : none ∈ m.slotNames := by
    unfold Metric.cur at hc
    unfold Metric.slotNames
    cases hb : m.body with
    | single v => simp
    | inst d vs => rw [hb] at hc; cases hc
  obtain ⟨σ, hl, _⟩ := h.liveAt
  refine ⟨e, o, w, m, m2, D, h, hm, hm2, hs, hs2, ?_, ht2, hd⟩
  rcases hl.typed m hm none _ hc with ⟨_, x, hx⟩ | ⟨_, x, hx⟩ | ⟨h3, x, hx⟩ | ⟨_, x, hx⟩ | ⟨_, x, hx⟩ | ⟨_, x, hx⟩ | ⟨_, x, hx⟩
  all_goals first | cases hx; done | exact h3

example : ∃ e o w m D D', Active e o w ∧ m ∈ w.reg.metrics ∧ none ∈ m.slotNames ∧ Dumps w.mem (.ok D) ∧
    Dumps (w.call m (setAt none (.str sA))).1.mem (.ok D') := by
  obtain ⟨e, o, w, m, m2, D, h, hm, hm2, hs, hs2, _, _, hd⟩ := active_cases
  have h' := h.setAt hm2 none (v := .str sA) (by show sA.length ≤ 256; decide)
  obtain ⟨⟨out, hd'⟩, hall⟩ := C05_file_follows_partial h'
  obtain ⟨D', A, rfl, _⟩ := hall out hd'
  exact ⟨e, o, w, m2, D, D', h, hm2, hs2, hd, hd'⟩

/-! ### C08 -/

/-- The operation changes nothing. -/
def MOp.Keeps {α : Type} (op : MOp α) : Prop := ∀ u st, (op u st).1 = st
/-- The operation never returns an error. -/
def MOp.NoErr {α : Type} (op : MOp α) : Prop := ∀ u st, (op u st).2 ≠ .err
/-- When the operation returns an error in a state satisfying `P`, it has changed nothing. -/
def MOp.ErrSafe {α : Type} (u : Upd) (P : MSt → Prop) (op : MOp α) : Prop :=
  ∀ st, P st → (op u st).2 = .err → (op u st).1 = st

theorem MOp.Keeps.errSafe {α : Type} {op : MOp α} (h : op.Keeps) {u P} : op.ErrSafe u P := fun st _ _ => h u st
theorem MOp.NoErr.errSafe {α : Type} {op : MOp α} (h : op.NoErr) {u P} : op.ErrSafe u P :=
  fun st _ he => absurd he (h u st)

theorem MOp.ErrSafe.bind {α β : Type} {a : MOp α} {f : α → MOp β} {u P} (ha : a.Keeps) (hf : ∀ x, (f x).ErrSafe u P) :
    (a.bind f).ErrSafe u P := by
  intro st hP he
  have hk := ha u st
  revert he
  unfold MOp.bind
  split <;> rename_i heq <;> rw [heq] at hk <;> dsimp only at hk <;> subst hk
  · exact fun he => hf _ _ hP he
  · exact fun _ => rfl
  · exact fun he => (by cases he)

theorem MOp.ErrSafe.bind' {α β : Type} {a : MOp α} {f : α → MOp β} {u P} (ha : a.ErrSafe u P) (hf : ∀ x, (f x).NoErr) :
    (a.bind f).ErrSafe u P := by
  intro st hP he
  have hk := ha st hP
  revert he
  unfold MOp.bind
  split <;> rename_i heq <;> rw [heq] at hk <;> dsimp only at hk
  · exact fun he => absurd he (hf _ _ _)
  · exact fun _ => hk rfl
  · exact fun he => (by cases he)

theorem MOp.ErrSafe.ite {α : Type} {c : Prop} [Decidable c] {a b : MOp α} {u P} (ha : a.ErrSafe u P) (hb : b.ErrSafe u P) :
    (if c then a else b).ErrSafe u P := by split <;> assumption

theorem MOp.NoErr.pure {α : Type} (a : α) : (MOp.pure a).NoErr := fun _ _ h => (by cases h)
theorem MOp.Keeps.pure {α : Type} (a : α) : (MOp.pure a).Keeps := fun _ _ => rfl
theorem MOp.Keeps.err {α : Type} : (MOp.err : MOp α).Keeps := fun _ _ => rfl
theorem MOp.Keeps.panic {α : Type} : (MOp.panic : MOp α).Keeps := fun _ _ => rfl
theorem MOp.NoErr.must {α : Type} (a : MOp α) : a.must.NoErr := by
  intro u st h
  unfold MOp.must at h
  split at h
  · cases h
  · rename_i x hne
    generalize hx : a u st = y at *
    obtain ⟨y1, y2⟩ := y
    dsimp only at h
    subst h
    exact hne _ rfl
theorem MOp.NoErr.bind {α β : Type} {a : MOp α} {f : α → MOp β} (ha : a.NoErr) (hf : ∀ x, (f x).NoErr) : (a.bind f).NoErr := by
  intro u st h
  have hk := ha u st
  revert h
  unfold MOp.bind
  split <;> rename_i heq <;> rw [heq] at hk <;> dsimp only at hk
  · exact hf _ _ _
  · exact absurd rfl hk
  · exact fun h => (by cases h)
theorem MOp.NoErr.forEach {f : Str → MOp Unit} (hf : ∀ n, (f n).NoErr) (l : List Str) : (forEach f l).NoErr := by
  induction l with
  | nil => exact .pure _
  | cons n l ih => exact .bind (hf n) fun _ => ih
theorem MOp.Keeps.bind {α β : Type} {a : MOp α} {f : α → MOp β} (ha : a.Keeps) (hf : ∀ x, (f x).Keeps) : (a.bind f).Keeps := by
  intro u st
  have hk := ha u st
  unfold MOp.bind
  split <;> rename_i heq <;> rw [heq] at hk <;> dsimp only at hk <;> subst hk
  · exact hf _ _ _
  · rfl
  · rfl
theorem MOp.Keeps.val : val.Keeps := by
  intro u st; unfold Speed.val; split <;> rfl
theorem MOp.Keeps.valInstance (n : Str) : (valInstance n).Keeps := by
  intro u st; unfold Speed.valInstance; split
  · rfl
  · split <;> rfl
theorem MOp.Keeps.asInt64 (v : GoVal) : (asInt64 v).Keeps := by
  unfold Speed.asInt64; split
  · exact .pure _
  · exact .panic
theorem MOp.Keeps.asFloat64 (v : GoVal) : (asFloat64 v).Keeps := by
  unfold Speed.asFloat64; split
  · exact .pure _
  · exact .panic
theorem MOp.Keeps.counterVal : counterVal.Keeps := .bind .val .asInt64
theorem MOp.Keeps.gaugeVal : gaugeVal.Keeps := .bind .val .asFloat64

/-- `P` is a predicate under which stores of fitting values do not fail. -/
def NoFail (u : Upd) (P : MSt → Prop) (fit : GoVal → Prop) : Prop :=
  ∀ st s old v, P st → s ∈ st.m.slots → st.m.cur s = some old → Typed st.m.desc.t v → fit v →
    (storeVal s old v u st).2 ≠ .err

section
variable {u : Upd} {P : MSt → Prop} {fit : GoVal → Prop} (hNF : NoFail u P fit)
include hNF

theorem MOp.ErrSafe.set {v : GoVal} (hv : ∀ t, fit (resolve t v)) : (set v).ErrSafe u P := by
  intro st hP he
  unfold Speed.set at he ⊢
  split
  · rfl
  · rename_i hc
    rw [if_neg hc] at he
    split
    · rfl
    · rename_i old hold
      rw [hold] at he
      exact absurd he (hNF st none old _ hP (cur_none_slot hold) hold (resolve_typed (by simpa using hc)) (hv _))

theorem MOp.ErrSafe.setInstance {v : GoVal} (hv : ∀ t, fit (resolve t v)) (n : Str) : (setInstance v n).ErrSafe u P := by
  intro st hP he
  unfold Speed.setInstance at he ⊢
  split
  · rfl
  · rename_i hc
    rw [if_neg hc] at he
    split
    · rfl
    · rename_i hi
      rw [if_neg hi] at he
      split
      · rfl
      · rename_i old hold
        rw [hold] at he
        exact absurd he (hNF st (some n) old _ hP (hasInst_slot (by simpa using hi)) hold (resolve_typed (by simpa using hc)) (hv _))

theorem Call.errSafe (c : Call) (hfit : ∀ v : GoVal, Speed.Fits v → fit v)
    (hset : ∀ v, (c = .set v ∨ ∃ n, c = .setInstance v n) → ∀ t, fit (resolve t v))
    (hnh : ∀ F L h, c ≠ .histUpdate F L h) : c.op.ErrSafe u P := by
  have nf : ∀ x t, fit (resolve t (.float64 x)) := fun x t => hfit _ (resolve_fits (v := .float64 x) trivial)
  have ni : ∀ x t, fit (resolve t (.int64 x)) := fun x t => hfit _ (resolve_fits (v := .int64 x) trivial)
  have cvI : ∀ x n, (Speed.cvInc x n).ErrSafe u P := fun x n =>
    .ite (MOp.Keeps.errSafe .err) (.ite (MOp.Keeps.errSafe (.pure _))
      (.bind (.valInstance n) fun _ => .bind (.asInt64 _) fun _ => .setInstance hNF (ni _) n))
  have gI : ∀ F x, (Speed.gaugeInc F x).ErrSafe u P := fun F x =>
    .ite (MOp.Keeps.errSafe (.pure _)) (.bind .gaugeVal fun _ => .set hNF (nf _))
  have gvI : ∀ F x n, (Speed.gvInc F x n).ErrSafe u P := fun F x n =>
    .bind (.valInstance n) fun _ => .bind (.asFloat64 _) fun _ => .setInstance hNF (nf _) n
  cases c
  case set v => exact .set hNF (hset v (.inl rfl))
  case setInstance v n => exact .setInstance hNF (hset v (.inr ⟨n, rfl⟩)) n
  case counterSet x =>
    exact .bind .counterVal fun v => .ite (MOp.Keeps.errSafe .err) (.set hNF (ni _))
  case counterInc x =>
    exact .ite (MOp.Keeps.errSafe .err) (.ite (MOp.Keeps.errSafe (.pure _)) (.bind .counterVal fun _ => .set hNF (ni _)))
  case counterUp => exact MOp.NoErr.errSafe (.must _)
  case gaugeSet x => exact .set hNF (nf _)
  case gaugeInc F x => exact gI F x
  case gaugeDec F x => exact gI F _
  case timerReset ts =>
    refine .bind' ?_ fun _ => .pure _
    exact .ite (MOp.Keeps.errSafe .err) (.bind' (.set hNF (nf _)) fun _ => .pure _)
  case timerStart now ts =>
    refine .bind' ?_ fun _ => .pure _
    exact .ite (MOp.Keeps.errSafe .err) (MOp.Keeps.errSafe (.pure _))
  case timerStop F now ts =>
    refine .bind' ?_ fun _ => .pure _
    intro st hP he
    exact (MOp.ErrSafe.ite (c := ts.started = false) (MOp.Keeps.errSafe .err)
      (.bind (a := Speed.val.bind Speed.asFloat64) .gaugeVal fun v =>
        .bind' (a := Speed.set (.float64 (F.add v (F.dur st.m.desc.unit (now - ts.since))))) (.set hNF (nf _)) fun _ =>
          .pure _)) st hP he
  case cvSet x n =>
    exact .bind (.valInstance n) fun _ => .bind (.asInt64 _) fun _ =>
      .ite (MOp.Keeps.errSafe .err) (.setInstance hNF (ni _) n)
  case cvInc x n => exact cvI x n
  case cvSetAll x l => exact MOp.NoErr.errSafe (.forEach (fun _ => .must _) _)
  case cvIncAll x l => exact MOp.NoErr.errSafe (.forEach (fun _ => .must _) _)
  case gvSet x n => exact .setInstance hNF (nf _) n
  case gvInc F x n => exact gvI F x n
  case gvDec F x n => exact gvI F _ n
  case gvSetAll x l => exact MOp.NoErr.errSafe (.forEach (fun _ => .must _) _)
  case gvIncAll F x l => exact MOp.NoErr.errSafe (.forEach (fun _ => .must _) _)
  case gvDecAll F x l => exact MOp.NoErr.errSafe (.forEach (fun _ => .must _) _)
  case histUpdate F L h => exact absurd rfl (hnh F L h)

end

/-- C08 (partial): on an active client, when `Set`, `SetInstance` (of a string of at most 256 bytes or any
other value) or any other value operation returns an error, neither the metric nor any byte of the file has
changed. Missing: longer strings, for which the claim is false (`C08_refuted`). Histogram records are the
subject of C26. -/
theorem C08_rejected_partial {e o w} (h : Active e o w) {m : Metric} (hm : m ∈ w.reg.metrics) (c : Call) (hf : c.Fits)
    (hnh : ∀ F L h, c ≠ .histUpdate F L h) (he : (w.call m c.op).2 = .err) : (w.call m c.op).1 = w := by
  obtain ⟨σ, hl, _⟩ := h.liveAt
  have hself := put_self hm hl.ok.metricUid
  have hNF : NoFail (w.upd m.uid)
      (fun st => st.m.uid = m.uid ∧ st.m ∈ (w.put st).reg.metrics ∧ LiveAt e o σ (w.put st)) Fits := by
    rintro st s old v ⟨hu, hmem, hl⟩ hs _ hv hf
    obtain ⟨u, _, _, hst, _⟩ := hl.store (old := old) hmem hs hv hf
    have hupd : (w.put st).upd st.m.uid = w.upd m.uid := by rw [hu]; rfl
    rw [hupd] at hst
    have hst' : (storeVal s old v (w.upd m.uid) st) =
      (if goEq v old then st else ⟨st.m.put s v, place st.mem u (newBytes v)⟩, .ok ()) := hst
    rw [hst']
    simp
  have := Call.errSafe hNF c (fun _ h => h) (by
    rintro v (rfl | ⟨n, rfl⟩) t <;> exact resolve_fits hf) hnh ⟨m, w.mem⟩
    ⟨rfl, by rw [hself]; exact hm, by rw [hself]; exact hl⟩ he
  show w.put (c.op (w.upd m.uid) ⟨m, w.mem⟩).1 = w
  rw [this, hself]

/-- A rejected call on an active client. -/
example : ∃ e o w m, Active e o w ∧ m ∈ w.reg.metrics ∧ (w.call m (Call.op (.set (.str sA)))).2 = .err := by
  obtain ⟨e, o, w, m, m2, D, h, hm, hm2, hs, hs2, ht, _, hd⟩ := active_cases
  refine ⟨e, o, w, m, h, hm, ?_⟩
  have := setAt_incompatible none (v := .str sA) (u := w.upd m.uid) (st := ⟨m, w.mem⟩) (by show isCompatible m.desc.t _ = _; rw [ht]; rfl)
  show (setAt none (.str sA) (w.upd m.uid) ⟨m, w.mem⟩).2 = .err
  rw [this]

/-- C08: for a metric that is not published, every rejected call changes nothing, whatever the value. -/
theorem C08_unpublished (m : Metric) (mem : Buf) (c : Call) (hnh : ∀ F L h, c ≠ .histUpdate F L h)
    (he : (c.op (fun _ => none) ⟨m, mem⟩).2 = .err) : (c.op (fun _ => none) ⟨m, mem⟩).1 = ⟨m, mem⟩ := by
  have hNF : NoFail (fun _ => none) (fun _ => True) (fun _ => True) := by
    intro st s old v _ _ _ _ _
    unfold storeVal
    split <;> simp
  exact Call.errSafe hNF c (fun _ _ => trivial) (fun _ _ _ => trivial) hnh _ trivial he

/-- A string for a counter, an unknown instance and a negative increment. -/
example : ((newPCPCounter 1 5 sC []).map fun m => ((Call.op (.set (.str sA)) (fun _ => none) ⟨m, []⟩).2,
      (Call.op (.counterInc (-1)) (fun _ => none) ⟨m, []⟩).2)) = some (.err, .err) ∧
    ((newPCPCounterVector 1 2 [(sA, 1)] sC []).map fun m => (Call.op (.cvInc 1 sB) (fun _ => none) ⟨m, []⟩).2) = some .err := by
  decide

/-! ### C41 -/

theorem string_of_compatible {t : MetricType} {x : Str} (h : isCompatible t (.str x) = true) :
    t = StringType ∧ resolve t (.str x) = .str x := by
  refine ⟨by simpa [isCompatible] using h, rfl⟩

/-- C41: after a successful `Set`/`SetInstance` of a string of at most 256 bytes, the string slot that the
value record refers to holds exactly this string followed by NUL bytes, whatever was there before. -/
theorem C41_string_replaced {e o w} (h : Active e o w) {m : Metric} (hm : m ∈ w.reg.metrics) {s : Option Str}
    (hs : s ∈ m.slotNames) {t : Str} (ht : t.length ≤ 256) (hok : (w.call m (setAt s (.str t))).2 = .ok ())
    {D' : Result} (hd' : Dumps (w.call m (setAt s (.str t))).1.mem (.ok D')) :
    ∃ A x, DescribesAt (w.call m (setAt s (.str t))).1.reg D' A ∧ look D'.values (A.value m.uid s) = some x ∧
      look D'.strings x.extra.toNat = some ⟨t ++ List.replicate (256 - t.length) 0⟩ := by
  obtain ⟨σ, hl, hi⟩ := h.liveAt
  have hc : isCompatible m.desc.t (.str t) = true := by
    cases hc : isCompatible m.desc.t (.str t) with
    | true => rfl
    | false =>
      have : (w.call m (setAt s (.str t))).2 = .err := by
        show (setAt s (.str t) (w.upd m.uid) ⟨m, w.mem⟩).2 = _
        rw [setAt_incompatible s hc]
      rw [this] at hok; cases hok
  obtain ⟨hty, hres⟩ := string_of_compatible hc
  obtain ⟨old, u, hold, hu, hin, heq⟩ := hl.setAt_spec hm hs (v := .str t) ht hc
  rw [hres] at heq hin
  have hw' : LiveAt e o σ (w.call m (setAt s (.str t))).1 := by
    cases s with
    | none => exact hl.call (.set (v := .str t) (fun _ => ht)) hm
    | some n => exact hl.call (.setInstance (v := .str t) (fun _ => ht) n) hm
  obtain ⟨hR', hA'⟩ := hw'.raw (show InstsOK o (w.call m (setAt s (.str t))).1.reg from hi) hd'
  -- the metric after the call
  obtain ⟨m', hm', hmu, hmd, hms, hcur⟩ : ∃ m', m' ∈ (w.call m (setAt s (.str t))).1.reg.metrics ∧ m'.uid = m.uid ∧
      m'.desc = m.desc ∧ s ∈ m'.slots ∧ m'.cur s = some (.str t) := by
    show ∃ m', m' ∈ (w.reg.setMetric (setAt s (.str t) (w.upd m.uid) ⟨m, w.mem⟩).1.m).metrics ∧ _
    rw [heq]
    dsimp only
    split
    · rename_i hg
      have hst : GoVal.str t = old := by
        cases old <;> simp [goEq] at hg ⊢
        exact hg
      rw [setMetric_self hm hl.ok.metricUid]
      exact ⟨m, hm, rfl, rfl, hs, by rw [hold, hst]⟩
    · refine ⟨m.put s (.str t), mem_setMetric_self hm, rfl, rfl, by rw [put_slots]; exact hs, ?_⟩
      rw [put_cur, if_pos rfl, hold]; rfl
  obtain ⟨v0, hv0, _, hstr⟩ := hw'.slotAt hm' hms (by rw [hmu]; exact hu)
  obtain ⟨h1, h2, t', h3, h4⟩ := hstr (by rw [hmd]; exact hty)
  rw [hcur] at h3
  obtain rfl : t = t' := by injection h3 with h3; injection h3
  have hx : look D'.values (slotOf σ (.value m.uid s)) = some (decValue (w.call m (setAt s (.str t))).1.mem v0) := by
    have hp := hR'.values.trans (sec_perm hw'.ok hw'.sealed hw'.file .value _ (regToks_length hw'.ok).2.2.2.1)
    rw [hmu] at hv0
    have htok := (hw'.sealed.1 _ _ hv0).1
    rw [look_perm hp (List.mem_map.2 ⟨_, htok, rfl⟩), slotOf_eq hv0]
  refine ⟨_, _, hA', hx, ?_⟩
  have := strSlot_of hw'.ok hw'.small hw'.sealed hw'.file hR' rfl ht ⟨h1, h4⟩
  rw [ofNat64_toNat (slot_lt hw'.ok hw'.small hw'.sealed h1).1] at this
  show look D'.strings (f64 _ (v0 + 8)).toNat = _
  rw [h2]
  exact this

/-- Such a call. -/
example : ∃ e o w m, Active e o w ∧ m ∈ w.reg.metrics ∧ none ∈ m.slotNames ∧
    (w.call m (setAt none (.str sA))).2 = .ok () := by
  obtain ⟨e, o, w, m, m2, D, h, hm, hm2, hs, hs2, _, ht, hd⟩ := active_cases
  obtain ⟨σ, hl, _⟩ := h.liveAt
  obtain ⟨_, _, _, _, _, heq⟩ := hl.setAt_spec hm2 hs2 (v := .str sA) (by show sA.length ≤ 256; decide) (by rw [ht]; rfl)
  refine ⟨e, o, w, m2, h, hm2, hs2, ?_⟩
  show (setAt none (.str sA) (w.upd m2.uid) ⟨m2, w.mem⟩).2 = _
  rw [heq]

/-! ### Strings longer than a slot: C05, C08 and C45 fail -/

theorem updClosure_err_of {b b1 b2 : Buf} {off : Nat} {s : Str} {n1 n2 : Int}
    (h1 : bwWrite b (zeros StringLength) off = .ok b1 n1) (h2 : bwWriteString b1 s off = .err b2 n2) :
    updClosure off (.str s) b = .err b2 n2 := by
  have h3 : must (bwWrite b (zeros StringLength) off) = .ok b1 n1 := congrArg must h1
  have h4 : updClosure off (.str s) b =
    (must (bwWrite b (zeros StringLength) off)).andThen (fun b => bwWriteVal b (.str s) off) := rfl
  rw [h4, h3, andThen_ok, bwWriteVal_str, h2]

theorem wrap64_nat {n m : Nat} (h : n + m < 2 ^ 63) : wrap64 ((n : Int) + (m : Int)) = ((n + m : Nat) : Int) := by
  rw [wrap64_of_range] <;> omega

theorem bwWrite_err {b : Buf} {off : Nat} {s : List Byte} (h2 : b.length < off + s.length)
    (hw : wrap64 ((off : Int) + (s.length : Int)) = ((off + s.length : Nat) : Int)) : bwWrite b s off = .err b (-1) := by
  have h : wrap64 ((off : Int) + (s.length : Int)) > b.length := by rw [hw]; exact Int.ofNat_lt.2 h2
  unfold bwWrite
  exact if_pos h

theorem bwWriteString_err_of {b b' : Buf} {off : Int} {s : Str} {n : Int} (h : bwWrite b s off = .err b' n) :
    bwWriteString b s off = .err b' (wrap64 (off + s.length)) := by
  unfold bwWriteString
  rw [h]

theorem bwWriteString_err {b : Buf} {off : Nat} {s : Str} (h2 : b.length < off + s.length)
    (h3 : off + s.length < 2 ^ 63) : bwWriteString b s off = .err b (wrap64 (off + s.length)) :=
  bwWriteString_err_of (bwWrite_err h2 (wrap64_nat h3))

theorem storeVal_ok {s : Option Str} {old v : GoVal} {u : Upd} {st : MSt} {off : Nat} {b : Buf} {n : Int}
    (h1 : goEq v old = false) (h2 : u s = some off) (h3 : updClosure off v st.mem = .ok b n) :
    storeVal s old v u st = (⟨st.m.put s v, b⟩, .ok ()) := by
  unfold storeVal
  rw [h1, h2]
  dsimp only
  rw [h3]
  rfl

theorem storeVal_err {s : Option Str} {old v : GoVal} {u : Upd} {st : MSt} {off : Nat} {b : Buf} {n : Int}
    (h1 : goEq v old = false) (h2 : u s = some off) (h3 : updClosure off v st.mem = .err b n) :
    storeVal s old v u st = (⟨st.m, b⟩, .err) := by
  unfold storeVal
  rw [h1, h2]
  dsimp only
  rw [h3]
  rfl

theorem updClosure_err {b : Buf} {off : Nat} {s : Str} (h1 : off + 256 ≤ b.length) (h2 : b.length < off + s.length)
    (h3 : off + s.length < 9223372036854775808) :
    ∃ n, updClosure off (.str s) b = .err (place b off (zeros StringLength)) n := by
  have hz : (zeros StringLength).length = 256 := zeros_length _
  exact ⟨_, updClosure_err_of (bwWrite_ok (by omega) (by omega)) (bwWriteString_err (by rw [place_length]; exact h2) (by omega))⟩

/-- What `Set` of an over-long string does on an active client: when the string ends within the file, it is
written over whatever follows its slot; otherwise the slot is zeroed and an error returned. -/
theorem LiveAt.setLong {e o σ w} (h : LiveAt e o σ w) {m : Metric} (hm : m ∈ w.reg.metrics) {s : Option Str}
    (hs : s ∈ m.slots) (hty : m.desc.t = StringType) {t : Str} (hlen : 256 < t.length) {u : Nat}
    (hu : σ (.cell (.upd m.uid s)) = some u) :
    (u + t.length ≤ w.mem.length → setAt s (.str t) (w.upd m.uid) ⟨m, w.mem⟩ =
      (⟨m.put s (.str t), place (place w.mem u (zeros StringLength)) u t⟩, .ok ())) ∧
    (w.mem.length < u + t.length → u + t.length < 9223372036854775808 → setAt s (.str t) (w.upd m.uid) ⟨m, w.mem⟩ =
      (⟨m, place w.mem u (zeros StringLength)⟩, .err)) := by
  obtain ⟨old, hold, hvok⟩ := h.ok.vals m hm s hs
  have hold' : m.cur s = some old := by rw [cur_eq_val]; exact hold
  have hc : isCompatible m.desc.t (.str t) = true := by rw [hty]; rfl
  obtain ⟨hin, _⟩ := put_file h.ok h.sealed h.file hm hs h.typed (v := .str []) (by rw [hty]; exact .inr (.inr (.inr (.inr (.inr (.inr ⟨rfl, _, rfl⟩))))))
    (fits_valOK (by rw [hty]; exact .inr (.inr (.inr (.inr (.inr (.inr ⟨rfl, _, rfl⟩)))))) (show ([] : Str).length ≤ 256 by decide)) hu
  have hp : (newBytes (.str [])).length = 256 := pad_length (Nat.zero_le _)
  rw [hp] at hin
  have hne : goEq (.str t) old = false := by
    unfold ValOK at hvok
    rw [if_pos hty] at hvok
    obtain ⟨s', rfl, hl⟩ := hvok
    have hl : s'.length ≤ 256 := hl
    show decide (GoVal.str t = GoVal.str s') = false
    rw [decide_eq_false_iff_not]
    intro hh; injection hh with hh; subst hh; omega
  obtain ⟨u', hu', hu''⟩ := h.updAt hm hs
  rw [hu] at hu'
  obtain rfl := Option.some.inj hu'
  rw [setAt_compatible (st := ⟨m, w.mem⟩) hc hs hold', (string_of_compatible hc).2]
  constructor
  · intro hfit
    have hz : (zeros StringLength).length = 256 := zeros_length _
    obtain ⟨n, hn⟩ := bwWriteString_ok (b := place w.mem u (zeros StringLength)) (off := u) (s := t)
      (by rw [place_length]; omega) (by rw [place_length]; have := h.len; omega)
    exact storeVal_ok hne hu'' (updClosure_of (bwWrite_ok (b := w.mem) (by omega) (by have := h.len; omega)) hn)
  · intro hno hbig
    obtain ⟨n, hn⟩ := updClosure_err hin hno hbig
    exact storeVal_err hne hu'' hn

/-- One string metric. -/
def oneStr : Reg := runHist (fun _ => none) Reg.empty
  (opsOf (newPCPSingletonMetric 1 (.str sA) sA StringType InstantSemantics OneUnit []))
/-- Two string metrics. -/
def twoStr : Reg := runHist (fun _ => none) Reg.empty
  (opsOf (newPCPSingletonMetric 1 (.str sA) sA StringType InstantSemantics OneUnit []) ++
   opsOf (newPCPSingletonMetric 2 (.str sB) sB StringType InstantSemantics OneUnit []))

theorem oneStr_started : ∃ s, Started oneStr ⟨2, 77, 12345, 42⟩ (idOrd oneStr) s := by
  refine started_exists ⟨_, _, ?_, rfl⟩ (publishable_of (by decide)) (by constructor <;> decide) (idOrd_ok _) _
  exact opsOf_made (fun _ h => .singleton h)

theorem twoStr_started : ∃ s, Started twoStr ⟨2, 77, 12345, 42⟩ (idOrd twoStr) s := by
  refine started_exists ⟨_, _, ?_, rfl⟩ (publishable_of (by decide)) (by constructor <;> decide) (idOrd_ok _) _
  intro op hop
  rcases List.mem_append.1 hop with h | h
  · exact opsOf_made (fun _ h => .singleton h) op h
  · exact opsOf_made (fun _ h => .singleton h) op h

/-- "x" n times -/
def xs (n : Nat) : Str := List.replicate n 0x78

theorem xs_length (n : Nat) : (xs n).length = n := List.length_replicate

/-- C08 is false for strings longer than 256 bytes: `Set` returns an error (not enough space in the buffer)
after the slot has been filled with zeros; `Val` still returns the old string. -/
theorem C08_refuted : ∃ e o w m, Active e o w ∧ m ∈ w.reg.metrics ∧ (w.call m (Call.op (.set (.str (xs 256 ++ xs 44))))).2 = .err ∧
    (w.call m (Call.op (.set (.str (xs 256 ++ xs 44))))).1.reg = w.reg ∧
    (w.call m (Call.op (.set (.str (xs 256 ++ xs 44))))).1.mem ≠ w.mem := by
  obtain ⟨s, hs⟩ := oneStr_started
  obtain ⟨σ, hl, _⟩ := hs.liveAt
  obtain ⟨m, hm, hsl, hty, hcur⟩ : ∃ m ∈ oneStr.metrics, none ∈ m.slots ∧ m.desc.t = StringType ∧ m.cur none = some (.str sA) := by decide
  obtain ⟨u, hu, _⟩ := hl.updAt hm hsl
  obtain ⟨v0, _, _, hstr⟩ := hl.slotAt hm hsl hu
  obtain ⟨h1, _, t, h3, h4⟩ := hstr hty
  obtain ⟨_, h6, h7, _⟩ := slot_range hl.ok hl.sealed h1
  have hlen := hl.file.len
  have h6 : u + 256 ≤ oneStr.Length := h6
  have h7 : oneStr.stringsoffset ≤ u := h7
  have h8 : oneStr.Length = oneStr.stringsoffset + 256 ∧ oneStr.Length < 1000 := by decide
  have hlen : s.mem.length = oneStr.Length := hlen
  have hset := (hl.setLong hm hsl hty (t := (xs 256 ++ xs 44)) (by rw [List.length_append, xs_length, xs_length]; decide) hu).2
    (by have : (xs 256 ++ xs 44).length = 300 := (by rw [List.length_append, xs_length, xs_length]); show s.mem.length < _; omega)
    (by have : (xs 256 ++ xs 44).length = 300 := (by rw [List.length_append, xs_length, xs_length]); omega)
  have hset : Call.op (.set (.str (xs 256 ++ xs 44))) ((⟨oneStr, s.mem, s.cells⟩ : Live).upd m.uid) ⟨m, s.mem⟩ = _ := hset
  refine ⟨_, _, _, m, .start hs, hm, ?_, ?_, ?_⟩
  · show (Call.op (.set (.str (xs 256 ++ xs 44))) ((⟨oneStr, s.mem, s.cells⟩ : Live).upd m.uid) ⟨m, s.mem⟩).2 = _
    rw [hset]
  · show oneStr.setMetric (Call.op (.set (.str (xs 256 ++ xs 44))) ((⟨oneStr, s.mem, s.cells⟩ : Live).upd m.uid) ⟨m, s.mem⟩).1.m = _
    rw [hset]
    exact setMetric_self hm hl.ok.metricUid
  · show (Call.op (.set (.str (xs 256 ++ xs 44))) ((⟨oneStr, s.mem, s.cells⟩ : Live).upd m.uid) ⟨m, s.mem⟩).1.mem ≠ s.mem
    rw [hset]
    rw [hcur] at h3
    obtain rfl : sA = t := by injection h3 with h3; injection h3
    have hz : (zeros StringLength).length = 256 := zeros_length _
    intro heq
    have hb := h4 0 0x61 rfl
    have hb : s.mem[u]? = some 0x61 := hb
    have : (place s.mem u (zeros StringLength))[u]? = some 0 := by
      rw [place_get _ _ _ (by omega), if_pos (by omega), Nat.sub_self]; rfl
    dsimp only at heq
    rw [heq, hb] at this
    cases this

/-- The effect on the neighbour: a string too long for its slot, followed by the slot of a short string,
gives the same bytes as its two parts in the two slots. -/
theorem place_spill {B : Buf} {u : Nat} {t a b : Str} (hin : u + 512 ≤ B.length) (ha : a.length = 256)
    (hb : b.length ≤ 256) (ht : t.length ≤ b.length) (hF : FileAt B (u + 256) (pad StringLength t)) :
    place (place B u (zeros StringLength)) u (a ++ b) =
      place (place B u (pad StringLength a)) (u + 256) (pad StringLength b) := by
  have e1 : (zeros StringLength).length = 256 := zeros_length _
  have e2 : (a ++ b).length = 256 + b.length := by rw [List.length_append, ha]
  have e3 : (pad StringLength a).length = 256 := pad_length (Nat.le_of_eq ha)
  have e4 : (pad StringLength b).length = 256 := pad_length hb
  apply List.ext_getElem?
  intro j
  rw [place_get _ _ _ (by rw [place_length]; omega), place_get _ _ _ (by omega),
    place_get _ _ _ (by rw [place_length]; omega), place_get _ _ _ (by omega)]
  rw [e1, e2, e3, e4]
  by_cases h1 : u ≤ j ∧ j < u + 256
  · rw [if_pos (by omega), if_neg (by omega), if_pos h1]
    unfold pad
    rw [List.getElem?_append_left (by omega), List.getElem?_append_left (by omega)]
  · by_cases h2 : j < u
    · rw [if_neg (by omega), if_neg (by omega), if_neg (by omega), if_neg (by omega)]
    · by_cases h3 : j < u + 256 + b.length
      · rw [if_pos (by omega), if_pos (by omega)]
        unfold pad
        rw [List.getElem?_append_left (l₁ := b) (by omega), List.getElem?_append_right (by omega), ha]
        rw [show j - u - 256 = j - (u + 256) by omega]
      · rw [if_neg (by omega), if_neg (by omega)]
        by_cases h4 : j < u + 512
        · rw [if_pos (by omega)]
          have hpad : ∀ x : Str, x.length ≤ j - (u + 256) → (pad StringLength x)[j - (u + 256)]? = some 0 := by
            intro x hx
            unfold pad zeros
            rw [List.getElem?_append_right hx, List.getElem?_replicate, if_pos (by simp only [StringLength]; omega)]
          rw [hpad b (by omega)]
          have := hF _ _ (hpad t (by omega))
          rwa [show u + 256 + (j - (u + 256)) = j by omega] at this
        · rw [if_neg (by omega), if_neg (by omega)]

theorem LiveAt.spill {e o σ w} (h : LiveAt e o σ w) (ho : InstsOK o w.reg) {m m2 : Metric} (hm : m ∈ w.reg.metrics)
    (hm2 : m2 ∈ w.reg.metrics) (hne : m2.uid ≠ m.uid) (hs : none ∈ m.slots) (hs2 : none ∈ m2.slots)
    (hty : m.desc.t = StringType) (hty2 : m2.desc.t = StringType) {t2 a b : Str}
    (hc2 : m2.cur none = some (.str t2)) (ha : a.length = 256) (hb : b.length ≤ 256) (hb0 : b ≠ [])
    (hl2 : t2.length ≤ b.length) {u : Nat}
    (hu : σ (.cell (.upd m.uid none)) = some u) (hu2 : σ (.cell (.upd m2.uid none)) = some (u + 256)) :
    (w.call m (Call.op (.set (.str (a ++ b))))).2 = .ok () ∧
    (w.call m (Call.op (.set (.str (a ++ b))))).1.reg = w.reg.setMetric (m.put none (.str (a ++ b))) ∧
    (w.call m (Call.op (.set (.str (a ++ b))))).1.mem[u + 256]? = b[0]? ∧
    FileAt w.mem (u + 256) (pad StringLength t2) ∧
    ∀ D, Dumps (w.call m (Call.op (.set (.str (a ++ b))))).1.mem (.ok D) →
      (D.strings.map (fun p => trimNul p.2.payload)).Perm
        (((w.reg.setMetric (m.put none (.str a))).setMetric (m2.put none (.str b))).strings.map trimNul) := by
  have hbl : 0 < b.length := List.length_pos_iff.2 hb0
  have e2 : (a ++ b).length = 256 + b.length := by rw [List.length_append, ha]
  have e3 : (pad StringLength a).length = 256 := pad_length (Nat.le_of_eq ha)
  have e4 : (pad StringLength b).length = 256 := pad_length hb
  obtain ⟨v0, _, _, hstr⟩ := h.slotAt hm2 hs2 hu2
  obtain ⟨h1, _, t', h3, h4⟩ := hstr hty2
  rw [hc2] at h3
  obtain rfl : t2 = t' := by injection h3 with h3; injection h3
  obtain ⟨_, h6, _, _⟩ := slot_range h.ok h.sealed h1
  have h6 : u + 256 + 256 ≤ w.reg.Length := h6
  have hin : u + 512 ≤ w.mem.length := by rw [h.file.len]; omega
  have hset := (h.setLong hm hs hty (t := a ++ b) (by omega) hu).1 (by omega)
  have hset : Call.op (.set (.str (a ++ b))) (w.upd m.uid) ⟨m, w.mem⟩ = _ := hset
  have hsp := place_spill (u := u) hin ha hb hl2 h4
  have hcall : w.call m (Call.op (.set (.str (a ++ b)))) =
      (w.put ⟨m.put none (.str (a ++ b)), place (place w.mem u (pad StringLength a)) (u + 256) (pad StringLength b)⟩, .ok ()) := by
    unfold Live.call
    rw [hset, hsp]
  rw [hcall]
  -- the two stores that give the same bytes
  have ty : ∀ {m : Metric} {t : Str}, m.desc.t = StringType → Typed m.desc.t (.str t) :=
    fun h => .inr (.inr (.inr (.inr (.inr (.inr ⟨h, _, rfl⟩)))))
  obtain ⟨u', hu', _, _, hl'⟩ := h.store (old := .other) hm hs (v := .str a) (ty hty) (Nat.le_of_eq ha)
  rw [hu] at hu'
  obtain rfl := Option.some.inj hu'
  have hm2' : m2 ∈ (w.put ⟨m.put none (.str a), place w.mem u (newBytes (.str a))⟩).reg.metrics :=
    mem_setMetric_other hm2 (by rw [put_uid]; exact hne)
  obtain ⟨u'', hu'', _, _, hl''⟩ := hl'.store (old := .other) hm2' hs2 (v := .str b) (ty hty2) hb
  rw [hu2] at hu''
  obtain rfl := Option.some.inj hu''
  refine ⟨rfl, rfl, ?_, h4, fun D hd => ?_⟩
  · dsimp only [Live.put]
    rw [place_get _ _ _ (by rw [place_length]; omega), if_pos (by omega), Nat.sub_self]
    unfold pad
    rw [List.getElem?_append_left hbl]
  · obtain ⟨_, hA⟩ := hl''.raw (show InstsOK o w.reg from ho) (D := D) hd
    exact hA.strings

/-- C05 and C45 are false for strings longer than 256 bytes: of two string metrics with values "a" and "b",
`Set` of 300 bytes on one of them returns nil and overwrites the slot of the other. The other metric
still returns its old value, which no string of the file shows any more. -/
theorem C45_refuted : ∃ e o w m m2 u t2, Active e o w ∧ m ∈ w.reg.metrics ∧ m2 ∈ w.reg.metrics ∧ m2.uid ≠ m.uid ∧
    (w.call m (Call.op (.set (.str (xs 256 ++ xs 44))))).2 = .ok () ∧
    m2 ∈ (w.call m (Call.op (.set (.str (xs 256 ++ xs 44))))).1.reg.metrics ∧ m2.cur none = some (.str t2) ∧
    -- the slot of the other metric changes
    FileAt w.mem u (pad 256 t2) ∧ ¬ FileAt (w.call m (Call.op (.set (.str (xs 256 ++ xs 44))))).1.mem u (pad 256 t2) ∧
    -- and no dump of the file shows its value
    ∀ D, Dumps (w.call m (Call.op (.set (.str (xs 256 ++ xs 44))))).1.mem (.ok D) →
      ∀ p ∈ D.strings, trimNul p.2.payload ≠ trimNul t2 := by
  obtain ⟨s, hs⟩ := twoStr_started
  obtain ⟨σ, hl, ho⟩ := hs.liveAt
  have key : ∀ m ∈ twoStr.metrics, ∀ m2 ∈ twoStr.metrics, m2.uid ≠ m.uid →
      none ∈ m.slots ∧ none ∈ m2.slots ∧ m.desc.t = StringType ∧ m2.desc.t = StringType ∧
      ∃ t ∈ [sA, sB], ∃ t2 ∈ [sA, sB], m.cur none = some (.str t) ∧ m2.cur none = some (.str t2) := by decide
  have key2 : ∀ m ∈ twoStr.metrics, ∀ m2 ∈ twoStr.metrics, m2.uid ≠ m.uid →
      ∀ q ∈ ((twoStr.setMetric (m.put none (.str (xs 256)))).setMetric (m2.put none (.str (xs 44)))).strings.map trimNul,
        q.length ≠ 1 := by
    set_option maxRecDepth 20000 in decide
  obtain ⟨m, hm, m2, hm2, hne, u, hu, hu2⟩ : ∃ m ∈ twoStr.metrics, ∃ m2 ∈ twoStr.metrics, m2.uid ≠ m.uid ∧
      ∃ u, σ (.cell (.upd m.uid none)) = some u ∧ σ (.cell (.upd m2.uid none)) = some (u + 256) := by
    obtain ⟨m, hm, m2, hm2, hne⟩ : ∃ m ∈ twoStr.metrics, ∃ m2 ∈ twoStr.metrics, m2.uid ≠ m.uid := by decide
    obtain ⟨h1, h2, h3, h4, _⟩ := key m hm m2 hm2 hne
    obtain ⟨u, hu, _⟩ := hl.updAt hm h1
    obtain ⟨u2, hu2, _⟩ := hl.updAt hm2 h2
    obtain ⟨_, _, _, hstr⟩ := hl.slotAt hm h1 hu
    obtain ⟨_, _, _, hstr2⟩ := hl.slotAt hm2 h2 hu2
    have a := (hstr h3).1
    have b := (hstr2 h4).1
    obtain ⟨_, a1, a2, _⟩ := slot_range hl.ok hl.sealed a
    obtain ⟨_, b1, b2, _⟩ := slot_range hl.ok hl.sealed b
    have a1 : u + 256 ≤ twoStr.Length := a1
    have b1 : u2 + 256 ≤ twoStr.Length := b1
    have a2 : twoStr.stringsoffset ≤ u := a2
    have b2 : twoStr.stringsoffset ≤ u2 := b2
    have hL : twoStr.Length = twoStr.stringsoffset + 512 := by decide
    have hd := slot_disj hl.ok hl.sealed a b (by intro hh; injection hh with hh; exact hne hh.symm)
    have hd : u + 256 ≤ u2 ∨ u2 + 256 ≤ u := hd
    rcases hd with hd | hd
    · exact ⟨m, hm, m2, hm2, hne, u, hu, by rw [hu2]; congr 1; omega⟩
    · exact ⟨m2, hm2, m, hm, hne.symm, u2, hu2, by rw [hu]; congr 1; omega⟩
  obtain ⟨h1, h2, h3, h4, t, ht, t2, ht2, hc, hc2⟩ := key m hm m2 hm2 hne
  have hlen : ∀ t ∈ [sA, sB], t.length = 1 ∧ (trimNul t).length = 1 ∧ (pad 256 t)[0]? ≠ some 0x78 := by decide
  obtain ⟨r1, r2, r3, r4, r5⟩ := hl.spill ho hm hm2 hne h1 h2 h3 h4 hc2 (a := xs 256) (b := xs 44) (xs_length _)
    (by rw [xs_length]; decide) (by decide) (by rw [(hlen t2 ht2).1, xs_length]; decide) hu hu2
  refine ⟨_, _, _, m, m2, u + 256, t2, .start hs, hm, hm2, hne, r1, ?_, hc2, r4, fun hF => ?_, fun D hD p hp he => ?_⟩
  · rw [r2]
    exact mem_setMetric_other hm2 (by rw [put_uid]; exact hne)
  · have h5 := (hlen t2 ht2).2.2
    cases hp : (pad 256 t2)[0]? with
    | none =>
      have hpl : (pad 256 t2).length = 256 := pad_length (by rw [(hlen t2 ht2).1]; decide)
      rw [List.getElem?_eq_none_iff] at hp
      omega
    | some b =>
      rw [hp] at h5
      have := hF 0 b hp
      rw [Nat.add_zero, r3] at this
      exact h5 this.symm
  · have hmem := (r5 D hD).mem_iff.1 (List.mem_map.2 ⟨p, hp, rfl⟩)
    exact key2 m hm m2 hm2 hne _ hmem (by rw [he]; exact (hlen t2 ht2).2.1)

/-- C05 is false without a bound on strings: after the call of `C45_refuted` no result of a dump describes
the registry. -/
theorem C05_refuted : ∃ e o w m, Active e o w ∧ m ∈ w.reg.metrics ∧
    (w.call m (Call.op (.set (.str (xs 256 ++ xs 44))))).2 = .ok () ∧
    ∀ D, Dumps (w.call m (Call.op (.set (.str (xs 256 ++ xs 44))))).1.mem (.ok D) →
      ¬ Describes (w.call m (Call.op (.set (.str (xs 256 ++ xs 44))))).1.reg D := by
  obtain ⟨e, o, w, m, m2, u, t2, h, hm, hm2, hne, hok, hm2', hc2, _, _, hD⟩ := C45_refuted
  refine ⟨e, o, w, m, h, hm, hok, fun D hd => ?_⟩
  rintro ⟨A, hA⟩
  have hs : none ∈ m2.slotNames := by
    unfold Metric.cur at hc2
    unfold Metric.slotNames
    cases hb : m2.body with
    | single v => simp
    | inst d vs => rw [hb] at hc2; cases hc2
  obtain ⟨v, x, h1, h2, h3⟩ := hA.values m2 hm2' none hs
  rw [hc2] at h1
  obtain rfl := Option.some.inj h1
  obtain ⟨_, _, _, h4⟩ := h3
  unfold strAt look at h4
  simp only [Option.map_map, Option.map_eq_some_iff] at h4
  obtain ⟨p, hp, he⟩ := h4
  exact hD D hd p (List.mem_of_find?_eq_some hp) he

/-- C45 (partial): no name that the constructors accept is longer than its field or slot, and on an
active client a string value of at most 256 bytes stays within its slot (`C06_one_value`,
`C41_string_replaced`). Missing: over-long string values and descriptions, for which the claim is false
(`C45_refuted`). -/
theorem C45_names_partial {r : Reg} (h : Built r) :
    (∀ m ∈ r.metrics, m.desc.name.length ≤ 256 ∧ (r.version2 = false → m.desc.name.length ≤ 63)) ∧
    ∀ d ∈ r.indoms, ∀ i ∈ d.insts, i.name.length ≤ 256 ∧ (r.version2 = false → i.name.length ≤ 63) := by
  have hi := h.inv
  have hv := hi.counts.version
  refine ⟨fun m hm => ⟨(hi.metrics m hm).len, fun h2 => ?_⟩, fun d hd i hii => ⟨(hi.indoms d hd).len i hii, fun h2 => ?_⟩⟩
  · rcases Nat.lt_or_ge 63 m.desc.name.length with hgt | hle
    · rw [hv.2 (.inl ⟨m, hm, hgt⟩)] at h2; cases h2
    · exact hle
  · rcases Nat.lt_or_ge 63 i.name.length with hgt | hle
    · rw [hv.2 (.inr ⟨d, hd, i, hii, hgt⟩)] at h2; cases h2
    · exact hle

/-- The longest name that is accepted has 256 bytes. -/
example : (newPCPCounter 1 5 (List.replicate 256 0x61) []).isSome = true ∧ newPCPCounter 1 5 (List.replicate 257 0x61) [] = none := by
  decide +kernel

end Speed
