import Verif.Registry
import Verif.StartAdequacy
/-
Registries that satisfy the conditions of C02 are ones `start` is verified for.
-/
namespace Speed

/-- The conditions of C02 on a registry, and that objects with different names are different objects. -/
structure Reg.Publishable (r : Reg) : Prop where
  /-- unless there is no instance domain at all, one of them has an instance -/
  nonempty : r.indoms ≠ [] → ∃ d ∈ r.indoms, d.insts ≠ []
  /-- descriptions fit their slots -/
  indomText : ∀ d ∈ r.indoms, d.short.length ≤ 256 ∧ d.long.length ≤ 256
  metricText : ∀ m ∈ r.metrics, m.desc.short.length ≤ 256 ∧ m.desc.long.length ≤ 256
  /-- string values fit their slots -/
  strVals : ∀ m ∈ r.metrics, ∀ n s, m.cur n = some (.str s) → s.length ≤ 256
  /-- metrics are of the library's own types -/
  library : ∀ m ∈ r.metrics, m.kind ≠ .foreign
  /-- a metric's domain object is the registered one -/
  registered : ∀ m ∈ r.metrics, ∀ d, m.indom = some d → d ∈ r.indoms
  /-- addresses of distinct objects are distinct -/
  indomUid : (r.indoms.map (·.uid)).Nodup
  metricUid : (r.metrics.map (·.uid)).Nodup

theorem textCount_eq (a b : Str) : textCount a b = bump a + bump b := by
  unfold textCount bump
  by_cases ha : a = [] <;> by_cases hb : b = [] <;> simp [ha, hb]

theorem nonEmpty_flatMap {α : Type} (l : List α) (f g : α → Str) :
    nonEmpty (l.flatMap (fun x => [f x, g x])) = (l.map (fun x => textCount (f x) (g x))).sum := by
  induction l with
  | nil => rfl
  | cons a l ih =>
    rw [List.flatMap_cons, nonEmpty_append, nonEmpty_two, ih, List.map_cons, List.sum_cons, textCount_eq]

theorem sum_filter {α : Type} (l : List α) (p : α → Bool) (f : α → Nat) :
    ((l.filter p).map f).sum = (l.map (fun x => if p x then f x else 0)).sum := by
  induction l with
  | nil => rfl
  | cons a l ih =>
    by_cases h : p a = true
    · rw [List.filter_cons_of_pos h]; simp [h, ih]
    · rw [List.filter_cons_of_neg h]; simp [h, ih]

theorem lookupVal_some {vs : List (Str × GoVal)} {n : Str} (h : n ∈ vs.map (·.1)) :
    ∃ v, lookupVal vs n = some v ∧ (n, v) ∈ vs := by
  unfold lookupVal
  cases hf : vs.find? (fun p => p.1 = n) with
  | none =>
    rw [List.find?_eq_none] at hf
    obtain ⟨p, hp, rfl⟩ := List.mem_map.1 h
    exact absurd (by simp) (hf p hp)
  | some p =>
    have h1 := List.find?_some hf
    simp only [decide_eq_true_eq] at h1
    exact ⟨p.2, rfl, by rw [← h1]; exact List.mem_of_find?_eq_some hf⟩

theorem lookupVal_mem {vs : List (Str × GoVal)} {n : Str} {v : GoVal} (h : lookupVal vs n = some v) :
    (n, v) ∈ vs := by
  unfold lookupVal at h
  cases hf : vs.find? (fun p => p.1 = n) with
  | none => rw [hf] at h; cases h
  | some p =>
    rw [hf] at h
    have h1 := List.find?_some hf
    simp only [decide_eq_true_eq] at h1
    simp only [Option.map_some, Option.some.injEq] at h
    rw [← h1, ← h]; exact List.mem_of_find?_eq_some hf

theorem Metric.WF.cur_typed {m : Metric} (h : m.WF) {s : Option Str} {v : GoVal} (hc : m.cur s = some v) :
    Typed m.desc.t v := by
  rw [cur_eq_val] at hc
  unfold Metric.val at hc
  cases s with
  | none =>
    dsimp only at hc
    split at hc
    · rename_i v' hb
      obtain rfl := Option.some.inj hc
      exact h.single _ hb
    · cases hc
  | some n =>
    dsimp only at hc
    split at hc
    · rename_i d vs hb
      exact (h.inst d vs hb).2.2 _ (lookupVal_mem hc)
    · cases hc

theorem Metric.WF.cur_some {m : Metric} (h : m.WF) {s : Option Str} (hs : s ∈ m.slotNames) :
    ∃ v, m.cur s = some v := by
  rw [cur_eq_val]
  unfold Metric.slotNames at hs
  split at hs
  · rename_i v hb
    simp at hs; subst hs
    exact ⟨v, by simp [Metric.val, hb]⟩
  · rename_i d vs hb
    obtain ⟨i, hi, rfl⟩ := List.mem_map.1 hs
    have hk := (h.inst d vs hb).2.1
    obtain ⟨v, hv, _⟩ := lookupVal_some (vs := vs) (n := i.name) (by rw [hk]; exact List.mem_map.2 ⟨i, hi, rfl⟩)
    exact ⟨v, by simp only [Metric.val, hb]; exact hv⟩

theorem typed_valOK {t : MetricType} {v : GoVal} (h : Typed t v) (hl : ∀ s, v = .str s → s.length ≤ 256) :
    ValOK t v := by
  unfold ValOK
  rcases h with ⟨ht, x, rfl⟩ | ⟨ht, x, rfl⟩ | ⟨ht, x, rfl⟩ | ⟨ht, x, rfl⟩ | ⟨ht, x, rfl⟩ | ⟨ht, x, rfl⟩ | ⟨ht, x, rfl⟩
  case inr.inr.inr.inr.inr.inr => rw [if_pos ht]; exact ⟨x, rfl, hl x rfl⟩
  all_goals
    rw [if_neg (by rw [ht]; decide)]
    refine ⟨fun s h => (by cases h), _, rfl⟩

/-- What the API guarantees plus the conditions of C02 is what the proof about `start` needs. -/
theorem RegInv.ok {r : Reg} (h : RegInv r) (hp : r.Publishable) : r.OK where
  indomUid := hp.indomUid
  metricUid := hp.metricUid
  instName := fun d hd => (h.indoms d hd).nodup
  instanceCount := h.counts.insts
  valueCount := by rw [h.counts.values]; congr 1; apply List.map_congr_left; intro m _; exact slotNames_length m
  stringcount := by
    rw [h.counts.strings, nonEmpty_flatMap, nonEmpty_flatMap, sum_filter, Nat.add_assoc, ← sum_map_add]
    congr 2
    apply List.map_congr_left
    intro m _
    unfold Metric.stringCount
    congr 1
    by_cases ht : m.desc.t = StringType
    · rw [if_pos ht, if_pos (by simpa using ht)]; exact slotNames_length m
    · rw [if_neg ht, if_neg (by simpa using ht)]
  v1metric := by
    intro hv m hm
    by_contra hlt
    have := h.counts.version.2 (.inl ⟨m, hm, by simpa using Nat.lt_of_not_le hlt⟩)
    rw [hv] at this; cases this
  v1inst := by
    intro hv d hd i hi
    by_contra hlt
    have := h.counts.version.2 (.inr ⟨d, hd, i, hi, by simpa using Nat.lt_of_not_le hlt⟩)
    rw [hv] at this; cases this
  metricName := fun m hm => (h.metrics m hm).len
  instNameLen := fun d hd => (h.indoms d hd).len
  nonempty := by
    intro hne
    obtain ⟨d, hd, hi⟩ := hp.nonempty hne
    have h1 : r.instanceCount = (r.indoms.map (fun d => d.insts.length)).sum := h.counts.insts
    have h2 := List.length_pos_of_ne_nil hi
    have h3 : d.insts.length ≤ (r.indoms.map (fun d => d.insts.length)).sum :=
      List.le_sum_of_mem (List.mem_map.2 ⟨d, hd, rfl⟩)
    omega
  indomText := hp.indomText
  metricText := hp.metricText
  vals := by
    intro m hm s hs
    obtain ⟨v, hv⟩ := (h.metrics m hm).cur_some hs
    refine ⟨v, by rw [← cur_eq_val]; exact hv, typed_valOK ((h.metrics m hm).cur_typed hv) ?_⟩
    rintro t rfl
    exact hp.strVals m hm s t hv
  registered := hp.registered
  known := by
    intro m hm
    rcases (h.metrics m hm).kind with hk | hk
    · exact hk
    · exact absurd hk (hp.library m hm)

theorem RegInv.typed {r : Reg} (h : RegInv r) : r.Typed :=
  fun m hm _ _ hc => (h.metrics m hm).cur_typed hc

end Speed
