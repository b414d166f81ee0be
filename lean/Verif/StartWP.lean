import Verif.FileSpec
import Mathlib.Algebra.BigOperators.Group.List.Basic
/-
Every goroutine of `start` is safe in the logic of `Logic.lean` and hands over its records.
-/
namespace Speed

/-! ### Parameters -/

/-- String tokens of an instance domain. -/
def indomStrToks (r : Reg) (d : Indom) : List Tok :=
  (if d.short = [] then [] else [.indomShort d.uid]) ++
  (if d.long = [] then [] else [.indomLong d.uid]) ++
  (if r.version2 then d.insts.map (fun i => .instName d.uid i.name) else [])

/-- String tokens of a metric. -/
def metricStrToks (r : Reg) (m : Metric) : List Tok :=
  (if r.version2 then [.metName m.uid] else []) ++
  (if m.desc.short = [] then [] else [.metShort m.uid]) ++
  (if m.desc.long = [] then [] else [.metLong m.uid]) ++
  (if m.desc.t = StringType then m.slots.map (fun s => .valStr m.uid s) else [])

def regToks (r : Reg) : Chan → List Tok
  | .indom => r.indoms.map (fun d => .indom d.uid)
  | .inst => r.indoms.flatMap (fun d => d.insts.map (fun i => .inst d.uid i.name))
  | .metric => r.metrics.map (fun m => .metric m.uid)
  | .value => r.metrics.flatMap (fun m => m.slots.map (fun s => .value m.uid s))
  | .str => r.indoms.flatMap (indomStrToks r) ++ r.metrics.flatMap (metricStrToks r)
  | _ => []

def regBase (r : Reg) : Chan → Nat
  | .indom => r.indomoffset
  | .inst => r.instanceoffset
  | .metric => r.metricsoffset
  | .value => r.valuesoffset
  | .str => r.stringsoffset
  | _ => 0

def regSlot (r : Reg) : Chan → Nat
  | .indom => InstanceDomainLength
  | .inst => r.InstanceLength
  | .metric => r.MetricLength
  | .value => ValueLength
  | .str => StringLength
  | _ => 1

def regMade (r : Reg) : Chan → Bool
  | .indom => decide (r.InstanceDomainCount > 0)
  | .inst => decide (r.InstanceDomainCount > 0)
  | .metric => decide (r.MetricCount > 0)
  | .value => decide (r.MetricCount > 0)
  | .str => decide (r.StringCount > 0)
  | _ => false

/-- The file has the bytes `bs` at `v`. -/
def FileAt (F : Buf) (v : Nat) (bs : List Byte) : Prop :=
  ∀ (j : Nat) (b : Byte), bs[j]? = some b → F[v + j]? = some b

/-- `F` is a complete file for `r`. -/
structure FileOK (r : Reg) (e : Env) (o : Ord) (σ : Seal) (F : Buf) : Prop where
  len : F.length = r.Length
  hdr : FileAt F 0 (hdrBytes r e e.gen.toNat)
  toc : ∀ (j : Nat) (x : Nat × Nat × Nat), (tocEntries r)[j]? = some x →
    FileAt F (HeaderLength + TocLength * j) (tocBytes x)
  recs : AllRec r o (FileAt F) σ

/-- Invariant of the buffer while records are being written: the second generation number is zero,
and as long as the first one is zero so is the number of TOC entries. -/
def Early (m : Buf) : Prop :=
  (∀ a, 16 ≤ a → a < 24 → m[a]? = some 0) ∧
  ((∀ a, 8 ≤ a → a < 16 → m[a]? = some 0) → ∀ a, 24 ≤ a → a < 28 → m[a]? = some 0)

/-- The byte behind the magic is 0, and the four bytes of the version are 0 or those that are written there. -/
def VerAt (r : Reg) (m : Buf) : Prop :=
  ∀ a b, 3 ≤ a → a < 8 → m[a]? = some b → b = 0 ∨ (0 :: le 4 (if r.version2 then 2 else 1))[a - 3]? = some b

theorem VerAt.set {r : Reg} {m : Buf} {a : Nat} {b : Byte} (h : VerAt r m)
    (hb : 3 ≤ a → a < 8 → b = 0 ∨ (0 :: le 4 (if r.version2 then 2 else 1))[a - 3]? = some b) : VerAt r (m.set a b) := by
  intro x y h1 h2 hx
  rw [List.getElem?_set] at hx
  split at hx
  · rename_i hax
    subst hax
    split at hx
    · injection hx with hx; subst hx; exact hb h1 h2
    · cases hx
  · exact h x y h1 h2 hx

/-- In the final phase every byte but those of the second generation number is final. -/
def Late (r : Reg) (e : Env) (o : Ord) (σ : Seal) (m : Buf) : Prop :=
  ∃ F, FileOK r e o σ F ∧ m.length = F.length ∧ ∀ a, ¬ (16 ≤ a ∧ a < 24) → m[a]? = F[a]?

def params (r : Reg) (e : Env) (o : Ord) : Params where
  len := r.Length
  base := regBase r
  slotLen := regSlot r
  toks := regToks r
  made := regMade r
  IA := fun m => (e.gen ≠ 0 → Early m) ∧ VerAt r m
  IB := Late r e o
  post := FileOK r e o
  late := fun a => 16 ≤ a ∧ a < 24
  Phi := fun n v _ D =>
    if n = 0 then v = e.gen.toNat else v = 16 ∧ Owns D.m 0 (hdrBytes r e 0)

theorem hdrOnly (r e o) : (params r e o).HdrOnly := by
  intro m a b ha h
  refine ⟨fun hg => ?_, h.2.set (by omega)⟩
  obtain ⟨h1, h2⟩ := h.1 hg
  have key : ∀ x, x < 40 → (m.set a b)[x]? = m[x]? := by
    intro x hx; rw [List.getElem?_set_ne (by omega)]
  refine ⟨fun x hx1 hx2 => ?_, fun hz x hx1 hx2 => ?_⟩
  · rw [key x (by omega)]; exact h1 x hx1 hx2
  · rw [key x (by omega)]
    apply h2 _ x hx1 hx2
    intro y hy1 hy2
    rw [← key y (by omega)]; exact hz y hy1 hy2

/-! ### Counting -/

theorem sum_map_add {α} (l : List α) (f g : α → Nat) :
    (l.map (fun x => f x + g x)).sum = (l.map f).sum + (l.map g).sum := by
  induction l with
  | nil => rfl
  | cons a l ih => simp only [List.map_cons, List.sum_cons, ih]; omega

theorem sum_map_const {α} (l : List α) (c : Nat) : (l.map (fun _ => c)).sum = l.length * c := by
  induction l with
  | nil => simp
  | cons a l ih => simp only [List.map_cons, List.sum_cons, ih, List.length_cons, Nat.add_mul]; omega

theorem slots_length (m : Metric) : m.slots.length = m.valueCount := by
  unfold Metric.slots Metric.valueCount Metric.indom
  cases m.body <;> simp

theorem indomStrToks_length (r : Reg) (d : Indom) :
    (indomStrToks r d).length = textCount d.short d.long + (if r.version2 then d.insts.length else 0) := by
  unfold indomStrToks textCount
  split <;> split <;> split <;> simp <;> omega

theorem metricStrToks_length (r : Reg) (m : Metric) :
    (metricStrToks r m).length = (if r.version2 then 1 else 0) + m.stringCount := by
  unfold metricStrToks Metric.stringCount textCount
  rw [← slots_length]
  split <;> split <;> split <;> split <;> simp <;> omega

theorem regToks_length {r : Reg} (hr : r.OK) :
    (regToks r .indom).length = r.InstanceDomainCount ∧
    (regToks r .inst).length = r.InstanceCount ∧
    (regToks r .metric).length = r.MetricCount ∧
    (regToks r .value).length = r.ValuesCount ∧
    (regToks r .str).length = r.StringCount := by
  refine ⟨by simp [regToks, Reg.InstanceDomainCount], ?_, by simp [regToks, Reg.MetricCount], ?_, ?_⟩
  · simp only [regToks, List.length_flatMap, List.length_map, Reg.InstanceCount, hr.instanceCount]
  · simp only [regToks, List.length_flatMap, List.length_map, Reg.ValuesCount, hr.valueCount, slots_length]
  · simp only [regToks, List.length_append, List.length_flatMap, indomStrToks_length,
      metricStrToks_length, sum_map_add, Reg.StringCount, hr.stringcount, Reg.MetricCount,
      Reg.InstanceCount, hr.instanceCount]
    cases r.version2
    · simp
    · simp; omega

/-- Offsets and lengths of the sections. -/
theorem lim_eq {r : Reg} (hr : r.OK) (e o) :
    (params r e o).lim .indom = r.instanceoffset ∧ (params r e o).lim .inst = r.metricsoffset ∧
    (params r e o).lim .metric = r.valuesoffset ∧ (params r e o).lim .value = r.stringsoffset ∧
    (params r e o).lim .str = r.Length := by
  obtain ⟨h1, h2, h3, h4, h5⟩ := regToks_length hr
  simp only [Params.lim, params, h1, h2, h3, h4, h5, regBase, regSlot]
  refine ⟨rfl, rfl, rfl, rfl, ?_⟩
  simp only [Reg.Length, Reg.stringsoffset, Reg.valuesoffset, Reg.metricsoffset, Reg.instanceoffset,
    Reg.indomoffset, Nat.mul_comm]
  omega

theorem off_chain (r : Reg) : r.indomoffset = 40 + 16 * r.tocCount ∧
    r.indomoffset ≤ r.instanceoffset ∧ r.instanceoffset ≤ r.metricsoffset ∧
    r.metricsoffset ≤ r.valuesoffset ∧ r.valuesoffset ≤ r.stringsoffset ∧
    r.stringsoffset ≤ r.Length := by
  refine ⟨rfl, Nat.le_add_right _ _, Nat.le_add_right _ _, Nat.le_add_right _ _,
    Nat.le_add_right _ _, ?_⟩
  simp only [Reg.Length, Reg.stringsoffset, Reg.valuesoffset, Reg.metricsoffset, Reg.instanceoffset,
    Reg.indomoffset, Nat.mul_comm]
  omega

theorem base_le {r : Reg} (hr : r.OK) (e o) {c : Chan} (hc : c.isAlloc = true) {v x : Nat}
    (h1 : (params r e o).base c ≤ v) (h2 : v + x ≤ (params r e o).lim c) :
    40 + 16 * r.tocCount ≤ v ∧ v + x ≤ r.Length := by
  obtain ⟨l1, l2, l3, l4, l5⟩ := lim_eq hr e o
  obtain ⟨c1, c2, c3, c4, c5, c6⟩ := off_chain r
  cases c
  · rw [l2] at h2; have h1 : r.instanceoffset ≤ v := h1; omega
  · rw [l1] at h2; have h1 : r.indomoffset ≤ v := h1; omega
  · rw [l3] at h2; have h1 : r.metricsoffset ≤ v := h1; omega
  · rw [l4] at h2; have h1 : r.valuesoffset ≤ v := h1; omega
  · rw [l5] at h2; have h1 : r.stringsoffset ≤ v := h1; omega
  · simp [Chan.isAlloc] at hc
  · simp [Chan.isAlloc] at hc

theorem made_of_mem {r : Reg} (hr : r.OK) {c : Chan} {t : Tok} (h : t ∈ regToks r c) :
    regMade r c = true := by
  obtain ⟨h1, h2, h3, h4, h5⟩ := regToks_length hr
  have hpos : 0 < (regToks r c).length := List.length_pos_of_mem h
  cases c with
  | indom => simp only [regMade, decide_eq_true_eq]; omega
  | inst =>
    show decide (r.indoms.length > 0) = true
    simp only [regToks, List.mem_flatMap] at h
    obtain ⟨d, hd, _⟩ := h
    exact decide_eq_true (List.length_pos_of_mem hd)
  | metric => simp only [regMade, decide_eq_true_eq]; omega
  | value =>
    show decide (r.metrics.length > 0) = true
    simp only [regToks, List.mem_flatMap] at h
    obtain ⟨d, hd, _⟩ := h
    exact decide_eq_true (List.length_pos_of_mem hd)
  | str => simp only [regMade, decide_eq_true_eq]; omega
  | gen => simp [regToks] at h
  | g2 => simp [regToks] at h

end Speed
