import Verif.DumpModel
import Mathlib.Data.List.Nodup
import Mathlib.Data.List.Perm.Basic
/-
`readItems`: every interleaving of its goroutines gives the same result.
-/
namespace Speed.Dump

section
variable {α : Type} {rd : Nat → Out α} {keys : List Nat}

/-- Number of goroutines in a class of program points. -/
def cnt (f : Pc α → Bool) (s : IState α) : Nat := s.pcs.countP f

def Pc.isDone : Pc α → Bool
  | .done => true
  | _ => false

def Pc.holds : Pc α → Bool
  | .put _ => true
  | .unlock => true
  | _ => false

/-- What is known about one goroutine. -/
def PcOK (rd : Nat → Out α) (s : IState α) (k : Nat) : Pc α → Prop
  | .start => True
  | .read => True
  | .lock x => rd k = .ok x
  | .put x => rd k = .ok x
  | .unlock => ∃ x, rd k = .ok x ∧ (k, x) ∈ s.items
  | .setErr => rd k = .err
  | .fin => s.err = true ∨ ∃ x, rd k = .ok x ∧ (k, x) ∈ s.items
  | .done => s.err = true ∨ ∃ x, rd k = .ok x ∧ (k, x) ∈ s.items

structure IInv (rd : Nat → Out α) (keys : List Nat) (s : IState α) : Prop where
  len : s.pcs.length = keys.length
  wg : s.wg + s.pcs.countP Pc.isDone = keys.length
  lock : s.pcs.countP Pc.holds = if s.locked then 1 else 0
  err : s.err = true → ∃ k ∈ keys, rd k = .err
  pc : ∀ (i : Nat) (pc : Pc α) (k : Nat), s.pcs[i]? = some pc → keys[i]? = some k → PcOK rd s k pc
  items : ∀ k x, (k, x) ∈ s.items → k ∈ keys ∧ rd k = .ok x
  nodup : (s.items.map Prod.fst).Nodup

theorem countP_set {β} (f : β → Bool) (l : List β) (i : Nat) (a b : β) (h : l[i]? = some a) :
    (l.set i b).countP f + (if f a then 1 else 0) = l.countP f + (if f b then 1 else 0) := by
  induction l generalizing i with
  | nil => simp at h
  | cons x l ih =>
    cases i with
    | zero =>
      simp at h; subst h
      simp only [List.set_cons_zero, List.countP_cons]; omega
    | succ i =>
      simp at h
      have := ih i h
      simp only [List.set_cons_succ, List.countP_cons]; omega

theorem PcOK.mono {s t : IState α} {k : Nat} {pc : Pc α} (he : s.err = true → t.err = true)
    (hi : ∀ x, rd k = .ok x → (k, x) ∈ s.items → (k, x) ∈ t.items) (h : PcOK rd s k pc) :
    PcOK rd t k pc := by
  cases pc <;> simp only [PcOK] at h ⊢ <;> try exact h
  · obtain ⟨x, h1, h2⟩ := h
    exact ⟨x, h1, hi x h1 h2⟩
  · rcases h with h | ⟨x, h1, h2⟩
    · exact .inl (he h)
    · exact .inr ⟨x, h1, hi x h1 h2⟩
  · rcases h with h | ⟨x, h1, h2⟩
    · exact .inl (he h)
    · exact .inr ⟨x, h1, hi x h1 h2⟩

theorem mapPut_mem {items : List (Nat × α)} {k : Nat} {x : α} {k' : Nat} {y : α} :
    (k', y) ∈ mapPut items k x ↔ (k' = k ∧ y = x) ∨ (k' ≠ k ∧ (k', y) ∈ items) := by
  simp only [mapPut, List.mem_cons, List.mem_filter, Prod.mk.injEq, ne_eq, decide_not,
    Bool.not_eq_eq_eq_not, Bool.not_true, decide_eq_false_iff_not]
  constructor
  · rintro (h | h)
    · exact .inl h
    · exact .inr ⟨h.2, h.1⟩
  · rintro (h | h)
    · exact .inl h
    · exact .inr ⟨h.2, h.1⟩

theorem set_get' {β} {l : List β} {i j : Nat} {p q : β} (h : (l.set i p)[j]? = some q) :
    (j = i ∧ q = p ∧ i < l.length) ∨ (j ≠ i ∧ l[j]? = some q) := by
  rw [List.getElem?_set] at h
  split at h
  · split at h <;> simp_all
  · simp_all; omega

theorem iinv_init : IInv rd keys (iinit keys : IState α) := by
  refine ⟨by simp [iinit], ?_, ?_, by simp [iinit], ?_, by simp [iinit], by simp [iinit]⟩
  · simp only [iinit]
    rw [List.countP_eq_zero.2]
    · rfl
    · intro a ha
      simp only [List.mem_map] at ha
      obtain ⟨_, _, rfl⟩ := ha
      simp [Pc.isDone]
  · simp only [iinit]
    rw [List.countP_eq_zero.2]
    · rfl
    · intro a ha
      simp only [List.mem_map] at ha
      obtain ⟨_, _, rfl⟩ := ha
      simp [Pc.holds]
  · intro i pc k h1 _
    simp only [iinit, List.getElem?_map, Option.map_eq_some_iff] at h1
    obtain ⟨_, _, rfl⟩ := h1
    trivial

/-- A step of one goroutine from `pc` to `pc'` preserves the invariant if the new facts hold. -/
theorem iinv_set {s : IState α} {i k : Nat} {pc pc' : Pc α} (h : IInv rd keys s)
    (hi : s.pcs[i]? = some pc) (hk : keys[i]? = some k) (e : Bool) (its : List (Nat × α)) (lk : Bool)
    (w : Nat)
    (hw : w + (if Pc.isDone pc' then 1 else 0) = s.wg + (if Pc.isDone pc then 1 else 0))
    (hl : (if lk then 1 else 0) + (if pc.holds then 1 else 0) =
      (if s.locked then 1 else 0) + (if pc'.holds then 1 else 0))
    (he : s.err = true → e = true) (he' : e = true → s.err = true ∨ rd k = .err)
    (hits : ∀ k' x, rd k' = .ok x → (k', x) ∈ s.items → (k', x) ∈ its)
    (hits' : ∀ k' x, (k', x) ∈ its → (k', x) ∈ s.items ∨ (k' = k ∧ rd k = .ok x))
    (hnd : (its.map Prod.fst).Nodup)
    (hpc : PcOK rd ⟨s.pcs.set i pc', e, its, lk, w, s.crashed⟩ k pc') :
    IInv rd keys ⟨s.pcs.set i pc', e, its, lk, w, s.crashed⟩ := by
  have hkm : k ∈ keys := List.mem_of_getElem? hk
  refine ⟨by simpa using h.len, ?_, ?_, ?_, ?_, ?_, hnd⟩
  · have := countP_set Pc.isDone s.pcs i pc pc' hi
    have := h.wg
    simp only
    omega
  · have := countP_set Pc.holds s.pcs i pc pc' hi
    have := h.lock
    simp only
    omega
  · intro hee
    rcases he' hee with h1 | h1
    · exact h.err h1
    · exact ⟨k, hkm, h1⟩
  · intro j q k' hq hk'
    rcases set_get' hq with ⟨rfl, rfl, _⟩ | ⟨hne, hq⟩
    · rw [hk] at hk'; cases hk'; exact hpc
    · exact (h.pc j q k' hq hk').mono he (fun x hx => hits k' x hx)
  · intro k' x hx
    rcases hits' k' x hx with h1 | ⟨rfl, h1⟩
    · exact h.items k' x h1
    · exact ⟨hkm, h1⟩

theorem iinv_step {s t : IState α} (h : IInv rd keys s) (hc : s.crashed = false)
    (hs : IStep rd keys s t) : IInv rd keys t ∧ (t.crashed = true → ∃ k ∈ keys, rd k = .panic) := by
  obtain ⟨i, hs⟩ := hs
  unfold istep at hs
  rw [if_neg (by simp [hc])] at hs
  split at hs
  · rename_i pc k hi hk
    have hkm : k ∈ keys := List.mem_of_getElem? hk
    have hp := h.pc i pc k hi hk
    have hnd := h.nodup
    split at hs
    · cases hs
      refine ⟨iinv_set h hi hk _ _ _ _ ?_ ?_ id .inl (fun _ _ _ => id) (fun _ _ => .inl) hnd ?_, by simp [hc]⟩
      · split <;> simp [Pc.isDone]
      · cases s.err <;> simp [Pc.holds]
      · split
        · rename_i he; exact .inl he
        · trivial
    · split at hs
      · cases hs
        exact ⟨iinv_set h hi hk _ _ _ _ (by simp [Pc.isDone]) (by simp [Pc.holds]) id .inl
          (fun _ _ _ => id) (fun _ _ => .inl) hnd (by assumption), by simp [hc]⟩
      · cases hs
        exact ⟨iinv_set h hi hk _ _ _ _ (by simp [Pc.isDone]) (by simp [Pc.holds]) id .inl
          (fun _ _ _ => id) (fun _ _ => .inl) hnd (by assumption), by simp [hc]⟩
      · cases hs
        refine ⟨⟨h.len, h.wg, h.lock, h.err, ?_, h.items, h.nodup⟩, fun _ => ⟨k, hkm, by assumption⟩⟩
        intro j q k' h1 h2
        exact (h.pc j q k' h1 h2).mono id (fun _ _ => id)
    · rename_i x
      split at hs
      · cases hs
      · cases hs
        rename_i hl
        exact ⟨iinv_set h hi hk _ _ _ _ (by simp [Pc.isDone]) (by simp [Pc.holds, hl]) id .inl
          (fun _ _ _ => id) (fun _ _ => .inl) hnd hp, by simp [hc]⟩
    · rename_i x
      cases hs
      have hp : rd k = .ok x := hp
      refine ⟨iinv_set h hi hk _ _ _ _ (by simp [Pc.isDone]) (by simp [Pc.holds]) id .inl
        ?_ ?_ ?_ ⟨x, hp, mapPut_mem.2 (.inl ⟨rfl, rfl⟩)⟩, by simp [hc]⟩
      · intro k' y hy hm
        rw [mapPut_mem]
        by_cases hkk : k' = k
        · subst hkk
          rw [hp] at hy; cases hy
          exact .inl ⟨rfl, rfl⟩
        · exact .inr ⟨hkk, hm⟩
      · intro k' y hy
        rw [mapPut_mem] at hy
        rcases hy with ⟨rfl, rfl⟩ | ⟨_, hy⟩
        · exact .inr ⟨rfl, hp⟩
        · exact .inl hy
      · simp only [mapPut, List.map_cons, List.nodup_cons, List.mem_map, List.mem_filter]
        refine ⟨?_, ?_⟩
        · rintro ⟨⟨a, b⟩, ⟨_, h2⟩, h3⟩
          simp_all
        · exact (List.filter_sublist.map _).nodup hnd
    · cases hs
      have hlk : s.locked = true := by
        by_contra hne
        have h0 := h.lock
        rw [if_neg hne] at h0
        have := List.countP_eq_zero.1 h0 _ (List.mem_of_getElem? hi)
        simp [Pc.holds] at this
      exact ⟨iinv_set h hi hk _ _ _ _ (by simp [Pc.isDone]) (by simp [Pc.holds, hlk]) id .inl
        (fun _ _ _ => id) (fun _ _ => .inl) hnd (.inr hp), by simp [hc]⟩
    · cases hs
      exact ⟨iinv_set h hi hk _ _ _ _ (by simp [Pc.isDone]) (by simp [Pc.holds]) (fun _ => rfl)
        (fun _ => .inr hp) (fun _ _ _ => id) (fun _ _ => .inl) hnd (.inl rfl), by simp [hc]⟩
    · cases hs
      have hpos : 0 < s.wg := by
        have h0 := h.wg
        have hlt : s.pcs.countP Pc.isDone < s.pcs.length := by
          rcases Nat.lt_or_ge (s.pcs.countP Pc.isDone) s.pcs.length with hh | hh
          · exact hh
          · have := List.countP_eq_length.1 (Nat.le_antisymm List.countP_le_length hh) _ (List.mem_of_getElem? hi)
            simp [Pc.isDone] at this
        rw [h.len] at hlt
        omega
      exact ⟨iinv_set h hi hk _ _ _ _ (by simp [Pc.isDone]; omega) (by simp [Pc.holds]) id .inl
        (fun _ _ _ => id) (fun _ _ => .inl) hnd hp, by simp [hc]⟩
    · cases hs
  · cases hs

theorem iinv_reach {s t : IState α} (h : IInv rd keys s) (hc : s.crashed = false)
    (hs : IReach rd keys s t) : IInv rd keys t ∧ (t.crashed = true → ∃ k ∈ keys, rd k = .panic) := by
  induction hs with
  | refl => exact ⟨h, by simp [hc]⟩
  | tail _ h2 ih =>
    obtain ⟨h3, _⟩ := ih
    refine iinv_step h3 ?_ h2
    obtain ⟨i, h2⟩ := h2
    unfold istep at h2
    split at h2
    · cases h2
    · rename_i hcc; simpa using hcc

/-- The items at `keys`, as pairs. -/
def allItems (rd : Nat → Out α) (keys : List Nat) : List (Nat × α) :=
  keys.filterMap (fun k => match rd k with | .ok x => some (k, x) | _ => none)

theorem mem_allItems {k : Nat} {x : α} : (k, x) ∈ allItems rd keys ↔ k ∈ keys ∧ rd k = .ok x := by
  simp only [allItems, List.mem_filterMap]
  constructor
  · rintro ⟨a, ha, h⟩
    split at h
    · simp only [Option.some.injEq, Prod.mk.injEq] at h
      obtain ⟨rfl, rfl⟩ := h
      exact ⟨ha, by assumption⟩
    · cases h
  · rintro ⟨h1, h2⟩
    exact ⟨k, h1, by rw [h2]⟩

theorem allItems_keys (h : ∀ k ∈ keys, ∃ x, rd k = .ok x) : (allItems rd keys).map Prod.fst = keys := by
  induction keys with
  | nil => rfl
  | cons k ks ih =>
    obtain ⟨x, hx⟩ := h k (by simp)
    have := ih (fun k hk => h k (by simp [hk]))
    simp only [allItems, List.filterMap_cons, hx, List.map_cons] at this ⊢
    rw [this]

theorem allItems_map {f : Nat → α} (h : ∀ k ∈ keys, rd k = .ok (f k)) :
    allItems rd keys = keys.map (fun k => (k, f k)) := by
  induction keys with
  | nil => rfl
  | cons k ks ih =>
    have := ih (fun k hk => h k (by simp [hk]))
    simp only [allItems, List.filterMap_cons, h k (by simp), List.map_cons] at this ⊢
    rw [this]

/-- Result of a completed `readItems` without panics: an error iff some item is bad, otherwise the map
of all items. -/
theorem items_final (hnd : keys.Nodup) {s : IState α}
    (hs : IReach rd keys (iinit keys) s) (hw : s.wg = 0) :
    (s.err = true ↔ ∃ k ∈ keys, rd k = .err) ∧
    (s.err = false → (∀ k ∈ keys, ∃ x, rd k = .ok x) ∧ s.items.Perm (allItems rd keys)) := by
  obtain ⟨h, _⟩ := iinv_reach iinv_init rfl hs
  have hall : ∀ pc ∈ s.pcs, pc = .done := by
    have h0 := h.wg
    rw [hw, Nat.zero_add, ← h.len] at h0
    intro pc hpc
    have := List.countP_eq_length.1 h0 pc hpc
    cases pc <;> simp_all [Pc.isDone]
  have hk : ∀ k ∈ keys, s.err = true ∨ ∃ x, rd k = .ok x ∧ (k, x) ∈ s.items := by
    intro k hk
    obtain ⟨i, hi, rfl⟩ := List.getElem_of_mem hk
    have hi' : i < s.pcs.length := by rw [h.len]; exact hi
    have := h.pc i _ _ (List.getElem?_eq_getElem hi') (List.getElem?_eq_getElem hi)
    rw [hall _ (List.getElem_mem hi')] at this
    exact this
  refine ⟨⟨h.err, ?_⟩, ?_⟩
  · rintro ⟨k, hkm, hke⟩
    rcases hk k hkm with h1 | ⟨x, hx, _⟩
    · exact h1
    · rw [hke] at hx; cases hx
  · intro he
    have hk' : ∀ k ∈ keys, ∃ x, rd k = .ok x ∧ (k, x) ∈ s.items := by
      intro k hkm
      rcases hk k hkm with h1 | h1
      · rw [he] at h1; cases h1
      · exact h1
    have hk2 : ∀ k ∈ keys, ∃ x, rd k = .ok x := fun k hkm => ⟨_, (hk' k hkm).choose_spec.1⟩
    refine ⟨hk2, ?_⟩
    rw [List.perm_ext_iff_of_nodup h.nodup.of_map (List.Nodup.of_map Prod.fst (by rw [allItems_keys hk2]; exact hnd))]
    rintro ⟨k, x⟩
    rw [mem_allItems]
    constructor
    · exact h.items k x
    · rintro ⟨h1, h2⟩
      obtain ⟨y, h3, h4⟩ := hk' k h1
      rw [h2] at h3; cases h3; exact h4

/-! ### Progress and termination -/

/-- Distance of a goroutine from its end. -/
def Pc.dist : Pc α → Nat
  | .start => 6
  | .read => 5
  | .lock _ => 4
  | .put _ => 3
  | .unlock => 2
  | .setErr => 2
  | .fin => 1
  | .done => 0

def IState.measure (s : IState α) : Nat := 2 * (s.pcs.map Pc.dist).sum + (if s.crashed then 0 else 1)

theorem sum_set (l : List Nat) (i a b : Nat) (h : l[i]? = some a) : (l.set i b).sum + a = l.sum + b := by
  induction l generalizing i with
  | nil => simp at h
  | cons x l ih =>
    cases i with
    | zero => simp at h; subst h; simp; omega
    | succ i => simp at h; have := ih i h; simp; omega

theorem istep_measure {s t : IState α} (h : IStep rd keys s t) : t.measure < s.measure := by
  obtain ⟨i, h⟩ := h
  have key : ∀ pc pc' : Pc α, s.pcs[i]? = some pc → pc'.dist < pc.dist →
      ((s.pcs.set i pc').map Pc.dist).sum < (s.pcs.map Pc.dist).sum := by
    intro pc pc' h1 h2
    have := sum_set (s.pcs.map Pc.dist) i pc.dist pc'.dist (by simp [h1])
    rw [List.map_set]; omega
  unfold istep at h
  split at h
  · cases h
  · rename_i hc
    have hc : s.crashed = false := by simpa using hc
    split at h
    · rename_i pc k hi hk
      have fin : ∀ (pc' : Pc α) (e its lk w), pc'.dist < pc.dist →
          (IState.mk (s.pcs.set i pc') e its lk w s.crashed).measure < s.measure := by
        intro pc' e its lk w hlt
        have := key pc pc' hi hlt
        simp only [IState.measure]; omega
      split at h
      · cases h; apply fin; split <;> simp [Pc.dist]
      · split at h
        · cases h; apply fin; simp [Pc.dist]
        · cases h; apply fin; simp [Pc.dist]
        · cases h; simp [IState.measure, hc]
      · split at h
        · cases h
        · cases h; apply fin; simp [Pc.dist]
      · cases h; apply fin; simp [Pc.dist]
      · cases h; apply fin; simp [Pc.dist]
      · cases h; apply fin; simp [Pc.dist]
      · cases h; apply fin; simp [Pc.dist]
      · cases h
    · cases h

/-- When no goroutine can step, the process has crashed or the WaitGroup is at zero. -/
theorem istuck {s : IState α} (h : IInv rd keys s) (hst : ∀ t, ¬ IStep rd keys s t) :
    s.crashed = true ∨ s.wg = 0 := by
  by_contra hcon
  simp only [not_or] at hcon
  obtain ⟨hc, hw⟩ := hcon
  have hc : s.crashed = false := by simpa using hc
  -- somebody is not done
  have hex : ∃ pc ∈ s.pcs, pc ≠ .done := by
    by_contra hn
    have : s.pcs.countP Pc.isDone = s.pcs.length := by
      rw [List.countP_eq_length]
      intro pc hpc
      by_contra hne
      apply hn
      refine ⟨pc, hpc, ?_⟩
      rintro rfl; simp [Pc.isDone] at hne
    have := h.wg
    have := h.len
    omega
  have step1 : ∀ (i : Nat) (pc : Pc α), s.pcs[i]? = some pc → (∃ x, pc = .lock x ∧ s.locked = true) ∨ pc = .done := by
    intro i pc hi
    obtain ⟨k, hk⟩ : ∃ k, keys[i]? = some k := by
      have hlt : i < s.pcs.length := (List.getElem?_eq_some_iff.1 hi).1
      exact ⟨_, List.getElem?_eq_getElem (by rw [← h.len]; exact hlt)⟩
    by_contra hn
    simp only [not_or, not_exists, not_and] at hn
    have hno := fun t => hst t
    simp only [IStep, not_exists] at hno
    have hno := fun t => hno t i
    unfold istep at hno
    rw [if_neg (by simp [hc]), hi, hk] at hno
    cases pc with
    | done => exact hn.2 rfl
    | lock x =>
      have := hn.1 x rfl
      simp [this] at hno
    | read =>
      cases hrd : rd k <;> simp [hrd] at hno
    | _ => simp at hno
  obtain ⟨pc, hpc, hne⟩ := hex
  obtain ⟨i, hi, hpi⟩ := List.getElem_of_mem hpc
  have hi' : s.pcs[i]? = some pc := by rw [List.getElem?_eq_getElem hi, hpi]
  rcases step1 i pc hi' with ⟨x, _, hlk⟩ | hd
  · -- the holder can step
    have h0 := h.lock
    rw [if_pos hlk] at h0
    have : ∃ q ∈ s.pcs, Pc.holds q = true := by
      by_contra hn
      have : s.pcs.countP Pc.holds = 0 := by
        rw [List.countP_eq_zero]
        intro q hq hh
        exact hn ⟨q, hq, hh⟩
      omega
    obtain ⟨q, hq, hh⟩ := this
    obtain ⟨j, hj, hqj⟩ := List.getElem_of_mem hq
    have hj' : s.pcs[j]? = some q := by rw [List.getElem?_eq_getElem hj, hqj]
    rcases step1 j q hj' with ⟨x, rfl, _⟩ | rfl <;> simp [Pc.holds] at hh
  · exact hne hd

/-- Every `readItems` call can run to its end. -/
theorem ireach_final {s : IState α} (h : IInv rd keys s) (hc : s.crashed = false) :
    ∃ t, IReach rd keys s t ∧ (t.crashed = true ∨ t.wg = 0) := by
  generalize hm : s.measure = n
  induction n using Nat.strongRecOn generalizing s with
  | _ n ih =>
    by_cases hst : ∀ t, ¬ IStep rd keys s t
    · exact ⟨s, .refl, istuck h hst⟩
    · simp only [not_forall, not_not] at hst
      obtain ⟨t, ht⟩ := hst
      obtain ⟨h', _⟩ := iinv_step h hc ht
      by_cases hct : t.crashed = true
      · exact ⟨t, .tail .refl ht, .inl hct⟩
      · have hct : t.crashed = false := by simpa using hct
        obtain ⟨u, hu, hf⟩ := ih _ (hm ▸ istep_measure ht) h' hct rfl
        refine ⟨u, ?_, hf⟩
        clear hf ih
        induction hu with
        | refl => exact .tail .refl ht
        | tail _ h2 ih2 => exact .tail ih2 h2

end

/-! ### `readItems` as a whole -/

section
variable {α : Type} {rd : Nat → Out α}

theorem itemKeys_nodup {off L n : Nat} (hL : 0 < L) (hn : n * L ≤ 2 ^ 64) : (itemKeys off L n).Nodup := by
  unfold itemKeys
  rw [List.nodup_map_iff_inj_on (List.nodup_range)]
  intro i hi j hj h
  simp only [List.mem_range] at hi hj
  have h1 : i * L < 2 ^ 64 := Nat.lt_of_lt_of_le (Nat.mul_lt_mul_of_pos_right hi hL) hn
  have h2 : j * L < 2 ^ 64 := Nat.lt_of_lt_of_le (Nat.mul_lt_mul_of_pos_right hj hL) hn
  have : i * L = j * L := by omega
  exact Nat.eq_of_mul_eq_mul_right hL this

theorem readItems_out {off : BitVec 64} {count : BitVec 32} {L : Nat} (hc : 0 ≤ count.toInt)
    (hL : 0 < L) (hL2 : L ≤ 256) (hnp : ∀ k ∈ itemKeys off.toNat L count.toNat, rd k ≠ .panic)
    {out : Out (List (Nat × α))} (h : ReadItems rd off count L out) :
    ((∃ k ∈ itemKeys off.toNat L count.toNat, rd k = .err) → out = .err) ∧
    ((∀ k ∈ itemKeys off.toNat L count.toNat, ∃ x, rd k = .ok x) →
      ∃ its, out = .ok its ∧ its.Perm (allItems rd (itemKeys off.toNat L count.toNat))) := by
  unfold ReadItems at h
  rw [if_neg (by omega)] at h
  obtain ⟨s, hs, h⟩ := h
  have hcnt := count.isLt
  have hnd : (itemKeys off.toNat L count.toNat).Nodup := by
    apply itemKeys_nodup hL
    calc count.toNat * L ≤ 2 ^ 32 * 256 := Nat.mul_le_mul (by omega) hL2
      _ ≤ 2 ^ 64 := by decide
  rcases h with ⟨h1, h2⟩ | ⟨h1, h2, h3⟩
  · obtain ⟨k, hk, hp⟩ := (iinv_reach iinv_init rfl hs).2 h1
    exact absurd hp (hnp k hk)
  · obtain ⟨h4, h5⟩ := items_final hnd hs h2
    constructor
    · intro hbad
      rw [h3, if_pos (h4.2 hbad)]
    · intro hall
      have hne : s.err = false := by
        by_contra hne
        obtain ⟨k, hk, he⟩ := h4.1 (by simpa using hne)
        obtain ⟨x, hx⟩ := hall k hk
        rw [he] at hx; cases hx
      exact ⟨s.items, by rw [h3, hne]; rfl, (h5 hne).2⟩

/-- `readItems` always has an outcome. -/
theorem readItems_exists (rd : Nat → Out α) (off : BitVec 64) (count : BitVec 32) (L : Nat) :
    ∃ out, ReadItems rd off count L out := by
  unfold ReadItems
  split
  · exact ⟨_, rfl⟩
  · obtain ⟨t, ht, h⟩ := ireach_final (iinv_init (rd := rd) (keys := itemKeys off.toNat L count.toNat)) rfl
    by_cases hc : t.crashed = true
    · exact ⟨_, t, ht, .inl ⟨hc, rfl⟩⟩
    · exact ⟨_, t, ht, .inr ⟨by simpa using hc, by simpa [hc] using h, rfl⟩⟩

end
end Speed.Dump
