import Verif.PropsSetStart
/-
Several clients, each with its own registry, whose `Start`s run at the same time in one process.

Every client has its own buffer, channels and WaitGroups (client.go:101-118, 212-248). What they share is the
heap: the `offset` fields of the instances of a domain object and the `update` fields of a metric object
(`Cell`), if the object is registered in several registries. A panic of one goroutine ends the process.
-/
namespace Speed

/-- Client `x` sees the heap as `s` left it. -/
def share (s x : St) : St := { x with cells := s.cells, crashed := s.crashed }

/-- One step of goroutine `i` of client `n` (and its partner `j`). -/
def stepOf (cs : List St) (n i j : Nat) : Option (List St) :=
  match cs[n]? with
  | none => none
  | some s => (step s i j).map fun s' => (cs.map (share s')).set n s'

def ManyStep (cs cs' : List St) : Prop := ∃ n i j, stepOf cs n i j = some cs'

/-- States reachable under some schedule. -/
inductive ManyReach (cs : List St) : List St → Prop where
  | refl : ManyReach cs cs
  | tail {t u : List St} : ManyReach cs t → ManyStep t u → ManyReach cs u

def ManyStuck (cs : List St) : Prop := ∀ cs', ¬ ManyStep cs cs'

/-- A client: registry, inputs of `start`, map orders. -/
abbrev ClientOf := Reg × Env × Ord

/-- All clients before their first step. -/
def manyInit (l : List ClientOf) (cells : Cell → Option Nat) : List St :=
  l.map fun x => initSt x.1 x.2.1 x.2.2 cells

/-! ### The cells a program uses -/

def Proc.CellsIn (A : Cell → Prop) : Proc → Prop
  | .done => True
  | .panic => True
  | .store _ _ k => k.CellsIn A
  | .recv _ k => ∀ v, (k v).CellsIn A
  | .send _ _ k => k.CellsIn A
  | .fork p k => p.CellsIn A ∧ k.CellsIn A
  | .wgNew _ k => ∀ v, (k v).CellsIn A
  | .wgDone _ k => k.CellsIn A
  | .wgWait _ k => k.CellsIn A
  | .setCell c _ k => A c ∧ k.CellsIn A
  | .getCell c k => A c ∧ ∀ v, (k v).CellsIn A

theorem Proc.CellsIn.mono {A B : Cell → Prop} (hab : ∀ c, A c → B c) {p : Proc} (h : p.CellsIn A) : p.CellsIn B := by
  induction p with
  | done => trivial
  | panic => trivial
  | store _ _ k ih => exact ih h
  | recv _ k ih => exact fun v => ih v (h v)
  | send _ _ k ih => exact ih h
  | fork p k ihp ihk => exact ⟨ihp h.1, ihk h.2⟩
  | wgNew _ k ih => exact fun v => ih v (h v)
  | wgDone _ k ih => exact ih h
  | wgWait _ k ih => exact ih h
  | setCell c _ k ih => exact ⟨hab _ h.1, ih h.2⟩
  | getCell c k ih => exact ⟨hab _ h.1, fun v => ih v (h.2 v)⟩

/-- `t` and `s` differ only in cells outside `A` (and perhaps in whether the process has ended). -/
structure SameOn (A : Cell → Prop) (t s : St) : Prop where
  mem : t.mem = s.mem
  thr : t.thr = s.thr
  ch : t.ch = s.ch
  wgs : t.wgs = s.wgs
  cells : ∀ c, A c → t.cells c = s.cells c

theorem mem_set_thr {l : List Proc} {i : Nat} {q p : Proc} (h : p ∈ l.set i q) : p = q ∨ p ∈ l := by
  rcases List.mem_or_eq_of_mem_set h with h | h
  · exact .inr h
  · exact .inl h

/-- A step that is possible in `s` is possible in `t`, and the other way round. -/
theorem SameOn.step {A : Cell → Prop} {t s s' : St} {i j : Nat} (h : SameOn A t s) (hc : t.crashed = false)
    (ha : ∀ p ∈ s.thr, p.CellsIn A) (hs : Speed.step s i j = some s') :
    ∃ t', Speed.step t i j = some t' ∧ SameOn A t' s' ∧ t'.crashed = s'.crashed ∧ (∀ p ∈ s'.thr, p.CellsIn A) ∧
      ∀ c, ¬ A c → s'.cells c = s.cells c := by
  obtain ⟨mem, thr, ch, wgs, cells, crashed⟩ := s
  obtain ⟨mem', thr', ch', wgs', cells', crashed'⟩ := t
  obtain ⟨h1, h2, h3, h4, h5⟩ := h
  dsimp only at h1 h2 h3 h4 h5 hc ha
  subst h1; subst h2; subst h3; subst h4; subst hc
  unfold Speed.step at hs ⊢
  dsimp only at hs ⊢
  split at hs
  · cases hs
  · rename_i hcr
    have hcr : crashed = false := by simpa using hcr
    subst hcr
    rw [if_neg (by simp)]
    have set1 : ∀ {q : Proc}, q.CellsIn A → ∀ p ∈ thr'.set i q, p.CellsIn A := by
      intro q hq p hp
      rcases mem_set_thr hp with rfl | hp
      · exact hq
      · exact ha p hp
    split at hs
    · cases hs
    · cases hs
    · cases hs
      exact ⟨_, rfl, ⟨rfl, rfl, rfl, rfl, h5⟩, rfl, ha, fun _ _ => rfl⟩
    · rename_i a b k hi
      have hk := ha _ (List.mem_of_getElem? hi)
      split at hs
      · rename_i hlt
        cases hs
        refine ⟨_, if_pos hlt, ⟨rfl, rfl, rfl, rfl, h5⟩, rfl, set1 hk, fun _ _ => rfl⟩
      · rename_i hlt
        cases hs
        refine ⟨_, if_neg hlt, ⟨rfl, rfl, rfl, rfl, h5⟩, rfl, ha, fun _ _ => rfl⟩
    · rename_i c k hi
      have hk := ha _ (List.mem_of_getElem? hi)
      split at hs
      · cases hs
        rename_i hch
        refine ⟨_, rfl, ⟨rfl, rfl, rfl, rfl, h5⟩, rfl, set1 (hk _), fun _ _ => rfl⟩
      · cases hs
    · rename_i c v k hi
      have hk := ha _ (List.mem_of_getElem? hi)
      split at hs
      · cases hs
        rename_i hch
        refine ⟨_, rfl, ⟨rfl, rfl, rfl, rfl, h5⟩, rfl, set1 hk, fun _ _ => rfl⟩
      · rename_i hch
        split at hs
        · rename_i c' k' hj
          have hk' := ha _ (List.mem_of_getElem? hj)
          split at hs
          · rename_i hcc
            cases hs
            refine ⟨_, if_pos hcc, ⟨rfl, rfl, rfl, rfl, h5⟩, rfl, ?_, fun _ _ => rfl⟩
            intro p hp
            rcases mem_set_thr hp with rfl | hp
            · exact hk' _
            · exact set1 (q := k) hk p hp
          · cases hs
        · cases hs
      · cases hs
    · rename_i p k hi
      have hk := ha _ (List.mem_of_getElem? hi)
      cases hs
      refine ⟨_, rfl, ⟨rfl, rfl, rfl, rfl, h5⟩, rfl, ?_, fun _ _ => rfl⟩
      intro q hq
      rcases List.mem_append.1 hq with hq | hq
      · exact set1 hk.2 q hq
      · obtain rfl := List.mem_singleton.1 hq
        exact hk.1
    · rename_i n k hi
      have hk := ha _ (List.mem_of_getElem? hi)
      cases hs
      exact ⟨_, rfl, ⟨rfl, rfl, rfl, rfl, h5⟩, rfl, set1 (hk _), fun _ _ => rfl⟩
    · rename_i w k hi
      have hk := ha _ (List.mem_of_getElem? hi)
      split at hs
      · rename_i n hw
        cases hs
        refine ⟨_, rfl, ⟨rfl, rfl, rfl, rfl, h5⟩, rfl, set1 hk, fun _ _ => rfl⟩
      · rename_i hw
        cases hs
        refine ⟨_, rfl, ⟨rfl, rfl, rfl, rfl, h5⟩, rfl, ha, fun _ _ => rfl⟩
      · cases hs
    · rename_i w k hi
      have hk := ha _ (List.mem_of_getElem? hi)
      split at hs
      · rename_i hw
        cases hs
        refine ⟨_, rfl, ⟨rfl, rfl, rfl, rfl, h5⟩, rfl, set1 hk, fun _ _ => rfl⟩
      · cases hs
    · rename_i c v k hi
      have hk := ha _ (List.mem_of_getElem? hi)
      cases hs
      refine ⟨_, rfl, ⟨rfl, rfl, rfl, rfl, fun x hx => ?_⟩, rfl, set1 hk.2, fun x hx => ?_⟩
      · dsimp only [fset]
        split
        · rfl
        · exact h5 x hx
      · dsimp only [fset]
        rw [if_neg]
        rintro rfl
        exact hx hk.1
    · rename_i c k hi
      have hk := ha _ (List.mem_of_getElem? hi)
      cases hs
      refine ⟨_, rfl, ⟨rfl, ?_, rfl, rfl, h5⟩, rfl, set1 (hk.2 _), fun _ _ => rfl⟩
      dsimp only
      rw [h5 c hk.1]

theorem SameOn.symm {A : Cell → Prop} {t s : St} (h : SameOn A t s) : SameOn A s t :=
  ⟨h.mem.symm, h.thr.symm, h.ch.symm, h.wgs.symm, fun c hc => (h.cells c hc).symm⟩

/-! ### Every client on its own -/

/-- Client `s` of the combined state is client `t` running alone. -/
structure Alone (A : Cell → Prop) (s0 t s : St) : Prop where
  reach : Reach s0 t
  same : SameOn A t s
  ins : ∀ p ∈ s.thr, p.CellsIn A

/-- The invariant of `ManyReach`. `A n` are the cells of client `n`. -/
structure ManyInv (ini : List St) (A : Nat → Cell → Prop) (cs : List St) : Prop where
  len : cs.length = ini.length
  heap : ∀ s ∈ cs, ∀ s' ∈ cs, s.cells = s'.cells ∧ s.crashed = s'.crashed
  alone : ∀ (n : Nat) s0 s, ini[n]? = some s0 → cs[n]? = some s → ∃ t, Alone (A n) s0 t s ∧ (t.crashed = true → s.crashed = true)
  crash : ∀ s ∈ cs, s.crashed = true → ∃ (n : Nat) (s0 t : St), ini[n]? = some s0 ∧ Reach s0 t ∧ t.crashed = true

theorem get_share {cs : List St} {s' : St} {n k : Nat} {s x : St} (hn : cs[n]? = some s)
    (hk : ((cs.map (share s')).set n s')[k]? = some x) : (k = n ∧ x = s') ∨ (k ≠ n ∧ ∃ y, cs[k]? = some y ∧ x = share s' y) := by
  by_cases hkn : k = n
  · subst hkn
    rw [List.getElem?_set_self (by simpa using (List.getElem?_eq_some_iff.1 hn).1)] at hk
    exact .inl ⟨rfl, (Option.some.inj hk).symm⟩
  · rw [List.getElem?_set_ne (Ne.symm hkn), List.getElem?_map] at hk
    obtain ⟨y, hy, rfl⟩ := Option.map_eq_some_iff.1 hk
    exact .inr ⟨hkn, y, hy, rfl⟩

theorem step_crashed {s s' : St} {i j : Nat} (h : step s i j = some s') : s.crashed = false := by
  unfold step at h
  split at h
  · cases h
  · rename_i hc
    simpa using hc

theorem ManyInv.step {ini : List St} {A : Nat → Cell → Prop} {cs cs' : List St}
    (hd : ∀ n m, n ≠ m → ∀ c, A n c → ¬ A m c) (h : ManyInv ini A cs) (hs : ManyStep cs cs') : ManyInv ini A cs' := by
  obtain ⟨n, i, j, hs⟩ := hs
  unfold stepOf at hs
  split at hs
  · cases hs
  · rename_i s hn
    obtain ⟨s', hs', rfl⟩ := Option.map_eq_some_iff.1 hs
    have hc0 := step_crashed hs'
    have hlt : n < ini.length := by rw [← h.len]; exact (List.getElem?_eq_some_iff.1 hn).1
    obtain ⟨s0, hs0⟩ : ∃ s0, ini[n]? = some s0 := ⟨_, List.getElem?_eq_getElem hlt⟩
    obtain ⟨t, hal, htc⟩ := h.alone n s0 s hs0 hn
    have htf : t.crashed = false := by
      cases ht : t.crashed with
      | false => rfl
      | true => rw [htc ht] at hc0; cases hc0
    obtain ⟨t', e1, e2, e3, e4, e5⟩ := hal.same.step htf hal.ins hs'
    have hr' : Reach s0 t' := hal.reach.tail ⟨i, j, e1⟩
    refine ⟨by simp [h.len], ?_, ?_, ?_⟩
    · have key : ∀ x ∈ (cs.map (share s')).set n s', x.cells = s'.cells ∧ x.crashed = s'.crashed := by
        intro x hx
        obtain ⟨k, hk⟩ := List.getElem?_of_mem hx
        rcases get_share hn hk with ⟨_, rfl⟩ | ⟨_, y, _, rfl⟩
        · exact ⟨rfl, rfl⟩
        · exact ⟨rfl, rfl⟩
      intro x hx y hy
      exact ⟨(key x hx).1.trans (key y hy).1.symm, (key x hx).2.trans (key y hy).2.symm⟩
    · intro k k0 x hk0 hk
      rcases get_share hn hk with ⟨rfl, rfl⟩ | ⟨hkn, y, hy, rfl⟩
      · obtain rfl := Option.some.inj (hs0.symm.trans hk0)
        exact ⟨t', ⟨hr', e2, e4⟩, fun hh => e3 ▸ hh⟩
      · obtain ⟨u, hu, huc⟩ := h.alone k k0 y hk0 hy
        have hyc : y.cells = s.cells ∧ y.crashed = s.crashed := h.heap y (List.mem_of_getElem? hy) s (List.mem_of_getElem? hn)
        refine ⟨u, ⟨hu.reach, ⟨hu.same.mem, hu.same.thr, hu.same.ch, hu.same.wgs, fun c hc => ?_⟩, hu.ins⟩, fun hh => ?_⟩
        · show u.cells c = s'.cells c
          rw [e5 c (hd k n hkn c hc), hu.same.cells c hc, hyc.1]
        · have := huc hh
          rw [hyc.2, hc0] at this
          cases this
    · intro x hx hxc
      have : s'.crashed = true := by
        obtain ⟨k, hk⟩ := List.getElem?_of_mem hx
        rcases get_share hn hk with ⟨_, rfl⟩ | ⟨_, y, _, rfl⟩
        · exact hxc
        · exact hxc
      exact ⟨n, s0, t', hs0, hr', e3.trans this⟩

theorem ManyInv.reach {ini : List St} {A : Nat → Cell → Prop} {cs cs' : List St}
    (hd : ∀ n m, n ≠ m → ∀ c, A n c → ¬ A m c) (h : ManyInv ini A cs) (hs : ManyReach cs cs') : ManyInv ini A cs' := by
  induction hs with
  | refl => exact h
  | tail _ hs ih => exact ih.step hd hs

/-! ### The cells of `start` -/

/-- The cells of the objects in registry `r`: its instance domains, the domains of its metrics, and its metrics. -/
def Reg.Uses (r : Reg) : Cell → Prop
  | .off d _ => (∃ x ∈ r.indoms, x.uid = d) ∨ ∃ m ∈ r.metrics, ∃ x, m.indom = some x ∧ x.uid = d
  | .upd u _ => ∃ m ∈ r.metrics, m.uid = u

section
variable {A : Cell → Prop} {r : Reg}

theorem storeAll_in {off : Nat} {data : List Byte} {k : Proc} (h : k.CellsIn A) : (storeAll off data k).CellsIn A := by
  induction data generalizing off with
  | nil => exact h
  | cons b bs ih => exact ih

theorem mustWrite_in {len off : Nat} {data : List Byte} {k : Nat → Proc} (h : ∀ v, (k v).CellsIn A) : (mustWrite len data off k).CellsIn A := by
  unfold mustWrite
  split
  · exact storeAll_in (h _)
  · trivial

theorem tryWrite_in {len off : Nat} {data : List Byte} {k : Proc} (h : k.CellsIn A) : (tryWrite len data off k).CellsIn A := by
  unfold tryWrite
  split
  · exact storeAll_in h
  · exact h

theorem forkIf_in {c : Prop} [Decidable c] {p k : Proc} (hp : p.CellsIn A) (hk : k.CellsIn A) : (forkIf c p k).CellsIn A := by
  unfold forkIf
  split
  · exact ⟨hp, hk⟩
  · exact hk

theorem writeHeaderBlock_in {e : Env} : (writeHeaderBlock r e).CellsIn A := by
  unfold writeHeaderBlock
  iterate 8 refine mustWrite_in fun _ => ?_
  trivial

theorem writeSingleToc_in {p i c o : Nat} {k : Proc} (h : k.CellsIn A) : (writeSingleToc r p i c o k).CellsIn A := by
  unfold writeSingleToc
  iterate 3 refine mustWrite_in fun _ => ?_
  exact h

theorem writeTocBlock_in {k : Proc} (h : k.CellsIn A) : (writeTocBlock r k).CellsIn A := by
  unfold writeTocBlock
  intro wg
  have t : (Proc.wgDone wg .done).CellsIn A := trivial
  exact forkIf_in (writeSingleToc_in t) (forkIf_in (writeSingleToc_in t)
    ⟨writeSingleToc_in t, writeSingleToc_in t, forkIf_in (writeSingleToc_in t) h⟩)

theorem writeText_in {s : Str} {k : Nat → Proc} (h : ∀ v, (k v).CellsIn A) : (writeText r s k).CellsIn A := by
  unfold writeText
  split
  · exact h _
  · exact fun _ => mustWrite_in fun _ => h _

theorem writeInstance_in {d : Indom} {i : Inst} {a b : Nat} {k : Proc} (hd : A (.off d.uid i.name)) (h : k.CellsIn A) :
    (writeInstance r d i a b k).CellsIn A := by
  unfold writeInstance
  refine ⟨hd, mustWrite_in fun _ => mustWrite_in fun _ => mustWrite_in fun _ => ?_⟩
  split
  · exact fun _ => mustWrite_in fun _ => mustWrite_in fun _ => h
  · exact mustWrite_in fun _ => h

theorem writeInstancesLoop_in {d : Indom} {wg inoff : Nat} {is : List Inst} (hd : ∀ i, A (.off d.uid i)) {ioff : Nat} {k : Proc}
    (h : k.CellsIn A) : (writeInstancesLoop r d wg inoff is ioff k).CellsIn A := by
  induction is generalizing ioff with
  | nil => exact h
  | cons i is ih => exact ⟨writeInstance_in (hd _) trivial, ih⟩

theorem writeInstanceDomain_in {o : Ord} {d : Indom} (hd : ∀ i, A (.off d.uid i)) {k : Proc} (h : k.CellsIn A) :
    (writeInstanceDomain r o d k).CellsIn A := by
  unfold writeInstanceDomain
  refine fun _ _ _ => mustWrite_in fun _ => mustWrite_in fun _ => mustWrite_in fun _ => ?_
  refine writeInstancesLoop_in hd (writeText_in fun _ => writeText_in fun _ => mustWrite_in fun _ => mustWrite_in fun _ => h)

theorem writeInstanceDomains_in {o : Ord} (hd : ∀ d ∈ o.indoms, ∀ i, A (.off d.uid i)) {k : Proc} (h : k.CellsIn A) :
    (writeInstanceDomains r o k).CellsIn A := by
  unfold writeInstanceDomains
  intro wg
  have hk : (Proc.wgWait wg k).CellsIn A := h
  revert hd
  generalize o.indoms = l
  intro hd
  induction l with
  | nil => exact hk
  | cons d l ih => exact ⟨writeInstanceDomain_in (hd d (by simp)) trivial, ih fun x hx => hd x (by simp [hx])⟩

theorem writeMetricDesc_in {m : Desc} {d : Option Indom} {off : Nat} {k : Proc} (h : k.CellsIn A) :
    (writeMetricDesc r m d off k).CellsIn A := by
  have tail : ∀ off, (writeDescTail r m d off k).CellsIn A := by
    intro off
    unfold writeDescTail
    iterate 6 refine mustWrite_in fun _ => ?_
    exact writeText_in fun _ => writeText_in fun _ => mustWrite_in fun _ => mustWrite_in fun _ => h
  unfold writeMetricDesc
  split
  · exact fun _ => mustWrite_in fun _ => mustWrite_in fun _ => tail _
  · exact mustWrite_in fun _ => tail _

theorem callUpdate_in {v : GoVal} {off : Nat} {k : Proc} (h : k.CellsIn A) : (callUpdate r v off k).CellsIn A := by
  unfold callUpdate
  split
  · with_reducible refine mustWrite_in fun _ => ?_
    with_reducible exact tryWrite_in h
  · split
    · exact tryWrite_in h
    · exact h

theorem writeValue_in {t : MetricType} {v : GoVal} {c : Cell} {off : Nat} {k : Proc} (hc : A c) (h : k.CellsIn A) :
    (writeValue r t v c off k).CellsIn A := by
  unfold writeValue
  split
  · exact mustWrite_in fun _ => fun _ => mustWrite_in fun _ => callUpdate_in ⟨hc, h⟩
  · exact callUpdate_in ⟨hc, h⟩

theorem writeSingletonMetric_in {m : Metric} {v : GoVal} {k : Proc} (hc : A (.upd m.uid none)) (h : k.CellsIn A) :
    (writeSingletonMetric r m v k).CellsIn A := by
  unfold writeSingletonMetric
  exact fun _ _ => ⟨writeMetricDesc_in trivial, fun _ => ⟨writeValue_in hc trivial, mustWrite_in fun _ => mustWrite_in fun _ => h⟩⟩

theorem writeInstanceMetric_in {o : Ord} {m : Metric} {d : Indom} {vs : List (Str × GoVal)} {k : Proc} (hc : ∀ i, A (.upd m.uid i))
    (hd : ∀ i, A (.off d.uid i)) (h : k.CellsIn A) : (writeInstanceMetric r o m d vs k).CellsIn A := by
  unfold writeInstanceMetric
  refine fun wg doff => ⟨writeMetricDesc_in trivial, ?_⟩
  have hk : (Proc.wgWait wg k).CellsIn A := h
  generalize o.vals m = l
  induction l with
  | nil => exact hk
  | cons i l ih =>
    refine fun _ => ⟨?_, mustWrite_in fun _ => ⟨hd _, fun _ => mustWrite_in fun _ => ih⟩⟩
    split
    · exact writeValue_in (hc _) trivial
    · trivial

theorem writeMetrics_in {o : Ord} (hm : ∀ m ∈ o.metrics, ∀ i, A (.upd m.uid i)) (hd : ∀ m ∈ o.metrics, ∀ d, m.indom = some d → ∀ i, A (.off d.uid i))
    {k : Proc} (h : k.CellsIn A) : (writeMetrics r o k).CellsIn A := by
  unfold writeMetrics
  intro wg
  have hk : (Proc.wgWait wg k).CellsIn A := h
  revert hm hd
  generalize o.metrics = l
  intro hm hd
  induction l with
  | nil => exact hk
  | cons m l ih =>
    have ih := ih (fun x hx => hm x (by simp [hx])) (fun x hx => hd x (by simp [hx]))
    have h1 := hm m (by simp)
    have h2 := hd m (by simp)
    unfold Metric.indom at h2
    unfold writeMetricsLoop
    dsimp only
    split
    case h_9 => exact ih
    all_goals
      rename_i hb
      rw [hb] at h2
      refine ⟨?_, ih⟩
      first
      | (with_reducible refine writeSingletonMetric_in (h1 _) ?_); trivial
      | (with_reducible refine writeInstanceMetric_in h1 (h2 _ rfl) ?_); trivial

/-- `start` uses only the cells of the objects of its registry. -/
theorem startProg_in {e : Env} {o : Ord} (ho : o.OK r) : (startProg r e o).CellsIn r.Uses := by
  unfold startProg
  refine ⟨writeHeaderBlock_in, fun _ => ⟨writeTocBlock_in trivial, writeInstanceDomains_in ?_ (writeMetrics_in ?_ ?_ trivial), ?_⟩⟩
  · exact fun d hd i => .inl ⟨d, ho.indoms.mem_iff.1 hd, rfl⟩
  · exact fun m hm i => ⟨m, ho.metrics.mem_iff.1 hm, rfl⟩
  · exact fun m hm d hd i => .inr ⟨m, ho.metrics.mem_iff.1 hm, d, hd, rfl⟩
  · exact fun _ _ => mustWrite_in fun _ => trivial

end

end Speed
