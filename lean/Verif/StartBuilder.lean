import Verif.StartMetrics
/-
The goroutine that writes instance domains and metrics, and the one that writes the TOC.
-/
namespace Speed

attribute [local irreducible] WP

section
variable {r : Reg} {e : Env} {o : Ord}

theorem os_split {os0 os : Nat → Nat → Prop} {w j l : Nat}
    (hos : ∀ w' i', os w' i' ↔ (os0 w' i' ∨ (w' = w ∧ j ≤ i' ∧ i' < j + (l + 1)))) (w' i' : Nat) :
    os w' i' ↔ ((w' = w ∧ i' = j) ∨ (os0 w' i' ∨ (w' = w ∧ j + 1 ≤ i' ∧ i' < j + 1 + l))) := by
  rw [hos]
  by_cases h1 : os0 w' i' <;> simp [h1]
  constructor
  · rintro ⟨rfl, h2, h3⟩; by_cases h4 : i' = j
    · left; exact ⟨rfl, h4⟩
    · right; exact ⟨rfl, by omega, by omega⟩
  · rintro (⟨rfl, rfl⟩ | ⟨rfl, h2, h3⟩)
    · exact ⟨rfl, by omega, by omega⟩
    · exact ⟨rfl, by omega, by omega⟩

theorem wp_indomsLoop (hr : r.OK) (ho : o.OK r) {W : World} {ws : Nat → Prop} {K : Mem}
    {w : Nat} {os0 : Nat → Nat → Prop} {As : List MAsrt} {k : Proc}
    (hW : W.wgs[w]? = some (As.map MAsrt.lift)) (hos0 : ∀ i, ¬ os0 w i) :
    ∀ (ds : List Indom) (j : Nat) (R : Res) (p : SealKey → Prop) (os : Nat → Nat → Prop),
      TS R os ws none p K [] →
      (∀ w' i', os w' i' ↔ (os0 w' i' ∨ (w' = w ∧ j ≤ i' ∧ i' < j + ds.length))) →
      (∀ d ∈ ds, d ∈ r.indoms) → (ds.map (·.uid)).Nodup →
      (∀ d ∈ ds, ∀ k : SealKey, k.dUid = some d.uid → p k) →
      (∀ (x : Nat) (d : Indom), ds[x]? = some d →
        As[j + x]? = some (fun σ M => IndomAll r o (Owns M) σ d)) →
      (∀ R', TS R' os0 ws none (fun k => p k ∧ k.dUid = none) K [] → WP (params r e o) k W R') →
      WP (params r e o) (writeInstanceDomainsLoop r o w ds k) W R := by
  intro ds
  induction ds with
  | nil =>
    intro j R p os h hos _ _ _ _ hk
    unfold writeInstanceDomainsLoop
    exact hk R (h.imp (fun w' i' => by rw [hos]; simp; omega) (fun _ => Iff.rfl) (fun k hk => hk.1))
  | cons d ds ih =>
    intro j R p os h hos hmem hnd hp hx hk
    unfold writeInstanceDomainsLoop
    simp only [List.length_cons] at hos
    simp only [List.map_cons, List.nodup_cons, List.mem_map, not_exists, not_and] at hnd
    refine ts_fork (cs1 := []) (cs2 := []) h (fun w' i' => w' = w ∧ i' = j)
      (fun w' i' => os0 w' i' ∨ (w' = w ∧ j + 1 ≤ i' ∧ i' < j + 1 + ds.length))
      (fun k => k.dUid = some d.uid) (fun k => p k ∧ ¬ k.dUid = some d.uid)
      none none (os_split hos) ?_ (hp d (by simp)) (fun k hk => hk) (.inl ⟨rfl, rfl⟩) ?_ ?_
    · rintro w' i' ⟨rfl, rfl⟩ (h1 | ⟨_, h1, _⟩)
      · exact hos0 _ h1
      · omega
    · intro R' hR'
      exact wp_indom hr ho (hmem d (by simp)) hR' (fun _ _ => Iff.rfl) (fun k hk => hk) hW
        (by simpa using hx 0 d rfl)
    · intro R' hR'
      refine ih (j + 1) R' _ _ hR' (fun _ _ => Iff.rfl) (fun d hd => hmem d (by simp [hd])) hnd.2 ?_ ?_ ?_
      · intro d' hd' k hk
        refine ⟨hp d' (by simp [hd']) k hk, ?_⟩
        rw [hk]; intro h; exact hnd.1 d' hd' (Option.some.inj h)
      · intro x d' hd'
        have := hx (x + 1) d' (by simpa using hd')
        rwa [show j + 1 + x = j + (x + 1) by omega]
      · intro R'' hR''
        refine hk R'' (hR''.imp (fun _ _ => Iff.rfl) (fun _ => Iff.rfl) ?_)
        rintro k ⟨h1, h2⟩
        exact ⟨⟨h1, by rw [h2]; simp⟩, h2⟩

theorem wp_metricsLoop (hr : r.OK) (ho : o.OK r) {W : World} {ws : Nat → Prop} {K : Mem}
    {w : Nat} {os0 : Nat → Nat → Prop} {As : List MAsrt} {k : Proc}
    (hcell : ∀ d ∈ r.indoms, ∀ i ∈ d.insts, ∃ v, W.sl (.cell (.off d.uid i.name)) = some v ∧
      W.sl (.slot (.inst d.uid i.name)) = some v)
    (hW : W.wgs[w]? = some (As.map MAsrt.lift)) (hos0 : ∀ i, ¬ os0 w i) :
    ∀ (ms : List Metric) (j : Nat) (R : Res) (p : SealKey → Prop) (os : Nat → Nat → Prop),
      TS R os ws none p K [] →
      (∀ w' i', os w' i' ↔ (os0 w' i' ∨ (w' = w ∧ j ≤ i' ∧ i' < j + ms.length))) →
      (∀ m ∈ ms, m ∈ r.metrics) → (ms.map (·.uid)).Nodup →
      (∀ m ∈ ms, ∀ k : SealKey, k.mUid = some m.uid → p k) →
      (∀ (x : Nat) (m : Metric), ms[x]? = some m →
        As[j + x]? = some (fun σ M => MetricAll r (Owns M) σ m)) →
      (∀ R', TS R' os0 ws none (fun _ => False) K [] → WP (params r e o) k W R') →
      WP (params r e o) (writeMetricsLoop r o w ms k) W R := by
  intro ms
  induction ms with
  | nil =>
    intro j R p os h hos _ _ _ _ hk
    unfold writeMetricsLoop
    exact hk R (h.imp (fun w' i' => by rw [hos]; simp; omega) (fun _ => Iff.rfl) (fun k hk => hk.elim))
  | cons m ms ih =>
    intro j R p os h hos hmem hnd hp hx hk
    simp only [List.length_cons] at hos
    simp only [List.map_cons, List.nodup_cons, List.mem_map, not_exists, not_and] at hnd
    have hmr : m ∈ r.metrics := hmem m (by simp)
    have key : ∀ q : Proc,
        (∀ R', TS R' (fun w' i' => w' = w ∧ i' = j) (fun _ => False) none
          (fun k => k.mUid = some m.uid) (fun _ => none) [] → WP (params r e o) q W R') →
        WP (params r e o) (.fork q (writeMetricsLoop r o w ms k)) W R := by
      intro q hq
      refine ts_fork (cs1 := []) (cs2 := []) h (fun w' i' => w' = w ∧ i' = j)
        (fun w' i' => os0 w' i' ∨ (w' = w ∧ j + 1 ≤ i' ∧ i' < j + 1 + ms.length))
        (fun k => k.mUid = some m.uid) (fun k => p k ∧ ¬ k.mUid = some m.uid)
        none none (os_split hos) ?_ (hp m (by simp)) (fun k hk => hk) (.inl ⟨rfl, rfl⟩) hq ?_
      · rintro w' i' ⟨rfl, rfl⟩ (h1 | ⟨_, h1, _⟩)
        · exact hos0 _ h1
        · omega
      · intro R' hR'
        refine ih (j + 1) R' _ _ hR' (fun _ _ => Iff.rfl) (fun d hd => hmem d (by simp [hd])) hnd.2 ?_ ?_ hk
        · intro m' hm' k hk
          refine ⟨hp m' (by simp [hm']) k hk, ?_⟩
          rw [hk]; intro h; exact hnd.1 m' hm' (Option.some.inj h)
        · intro x m' hm'
          have := hx (x + 1) m' (by simpa using hm')
          rwa [show j + 1 + x = j + (x + 1) by omega]
    have hA : As[j]? = some (fun σ M => MetricAll r (Owns M) σ m) := by simpa using hx 0 m rfl
    have hkn := hr.known m hmr
    unfold writeMetricsLoop
    unfold Metric.Known at hkn
    cases hb : m.body with
    | single v =>
      have hq : WP (params r e o) (.fork (writeSingletonMetric r m v (.wgDone w .done))
          (writeMetricsLoop r o w ms k)) W R :=
        key _ fun R' hR' => wp_singleton hr hmr hb hR' (fun _ _ => Iff.rfl) (fun k hk => hk) hW hA
      rw [hb] at hkn
      simp only at hkn
      rcases hkn with h | h | h | h <;> simp only [h] <;> exact hq
    | inst d vs =>
      have hd := hr.registered m hmr d (by simp [Metric.indom, hb])
      have hq : WP (params r e o) (.fork (writeInstanceMetric r o m d vs (.wgDone w .done))
          (writeMetricsLoop r o w ms k)) W R :=
        key _ fun R' hR' => wp_instMetric hr ho hmr hb hR' (fun _ _ => Iff.rfl) (fun k hk => hk)
          (hcell d hd) hW hA
      rw [hb] at hkn
      simp only at hkn
      rcases hkn with h | h | h | h <;> simp only [h] <;> exact hq

/-- Goroutine that writes the instance domains, then the metrics (client.go:257-262). -/
theorem wp_builder (hr : r.OK) (ho : o.OK r)
    {W : World} {R ws K} {p : SealKey → Prop} {w n : Nat} {os : Nat → Nat → Prop} {As : List MAsrt}
    (h : TS R os ws none p K []) (hp : ∀ k, p k)
    (hos : ∀ w' i', os w' i' ↔ (w' = w ∧ i' = n))
    (hW : W.wgs[w]? = some (As.map MAsrt.lift))
    (hA : As[n]? = some (fun σ M => AllRec r o (Owns M) σ)) :
    WP (params r e o) (writeInstanceDomains r o (writeMetrics r o (.wgDone w .done))) W R := by
  unfold writeInstanceDomains
  have hlen1 := ho.indoms.length_eq
  have hlen2 := ho.metrics.length_eq
  refine ts_wgNew h (o.indoms.map (fun d => fun σ M => IndomAll r o (Owns M) σ d)) (by simp [hlen1, Reg.InstanceDomainCount]) ?_
  intro w1 W1 R1 hle1 hW1 hw1 _ h1
  have hww : w < w1 := by
    have := (List.getElem?_eq_some_iff.1 hW).1; omega
  refine wp_indomsLoop hr ho hW1 (os0 := os) ?_ o.indoms 0 R1 p _ h1 ?_ (fun d hd => ho.indoms.mem_iff.1 hd)
    ((ho.indoms.map _).nodup_iff.2 hr.indomUid) (fun _ _ k _ => hp k) ?_ ?_
  · intro i hi; have := (hos _ _).1 hi; omega
  · intro w' i'; simp [hlen1, Reg.InstanceDomainCount]
  · intro x d hx; simp [hx]
  intro R2 h2
  refine ts_wgWait h2 (w := w1) (.inr rfl) ?_ hW1 ?_ ?_
  · intro w' i h; have := (hos _ _).1 h; omega
  · intro A hA
    obtain ⟨d, _, rfl⟩ := List.mem_map.1 hA
    intro _ _ _ _ hs hM h
    exact h.mono (At.mono hM) hs
  intro W3 R3 hle3 _ hsub3 h3 hdep3
  have hind : ∀ d ∈ r.indoms, IndomAll r o (Owns R3.m) W3.sl d := by
    intro d hd
    obtain ⟨x, hx⟩ := List.getElem?_of_mem (ho.indoms.mem_iff.2 hd)
    exact hdep3 x (fun σ M => IndomAll r o (Owns M) σ d) (by simp [hx])
  have h3' := h3.rekeep
  unfold writeMetrics
  refine ts_wgNew h3' (o.metrics.map (fun m => fun σ M => MetricAll r (Owns M) σ m)) (by simp [hlen2, Reg.MetricCount]) ?_
  intro w4 W4 R4 hle4 hW4 hw4 _ h4
  have hww4 : w < w4 := by
    have := (List.getElem?_eq_some_iff.1 (le_wg2 hle3 (le_wg2 hle1 hW))).1; omega
  refine wp_metricsLoop hr ho (os0 := os) ?_ hW4 ?_ o.metrics 0 R4 _ _ h4 ?_ (fun d hd => ho.metrics.mem_iff.1 hd)
    ((ho.metrics.map _).nodup_iff.2 hr.metricUid) ?_ ?_ ?_
  · intro d hd i hi
    obtain ⟨v, inoff, g1, g2, _⟩ := (hind d hd).2 i hi
    exact ⟨v, hle4.2 _ _ g2, hle4.2 _ _ g1⟩
  · intro i hi; have := (hos _ _).1 hi; omega
  · intro w' i'; simp [hlen2, Reg.MetricCount]
  · intro m hm k hk
    refine ⟨hp k, ?_⟩
    cases k with
    | slot t => cases t <;> simp_all [SealKey.mUid, SealKey.dUid]
    | cell c => cases c <;> simp_all [SealKey.mUid, SealKey.dUid]
    | ghost n => cases n <;> simp_all [SealKey.mUid, SealKey.dUid]
  · intro x d hx; simp [hx]
  intro R5 h5
  refine ts_wgWait h5 (w := w4) (.inr rfl) ?_ hW4 ?_ ?_
  · intro w' i h; have := (hos _ _).1 h; omega
  · intro A hA
    obtain ⟨d, _, rfl⟩ := List.mem_map.1 hA
    intro _ _ _ _ hs hM h
    exact h.mono (At.mono hM) hs
  intro W6 R6 hle6 _ hsub6 h6 hdep6
  refine ts_wgDone h6 (le_wg2 hle6 (le_wg2 hle4 (le_wg2 hle3 (le_wg2 hle1 hW)))) hA hos ?_
  intro σ hσ
  refine ⟨fun d hd => ?_, fun m hm => ?_⟩
  · exact (hind d hd).mono (At.mono h6.keep) (Seal.le_trans hle4.2 (Seal.le_trans hle6.2 hσ))
  · obtain ⟨x, hx⟩ := List.getElem?_of_mem (ho.metrics.mem_iff.2 hm)
    have := hdep6 x (fun σ M => MetricAll r (Owns M) σ m) (by simp [hx])
    exact MetricAll.mono (fun _ _ h => h) hσ this

/-! ### Table of contents -/

/-- The loop form of `writeTocBlock`. -/
def tocLoop (r : Reg) (wg : Nat) : List (Nat × Nat × Nat) → Nat → Proc → Proc
  | [], _, k => k
  | x :: xs, pos, k =>
    .fork (writeSingleToc r pos x.1 x.2.1 x.2.2 (.wgDone wg .done)) (tocLoop r wg xs (pos + 16) k)

theorem writeTocBlock_eq (r : Reg) (k : Proc) :
    writeTocBlock r k =
      .wgNew r.tocCount fun wg => tocLoop r wg (tocEntries r) 40 (.wgWait wg k) := by
  unfold writeTocBlock tocEntries forkIf
  congr 1
  funext wg
  by_cases h1 : r.InstanceDomainCount > 0 <;> by_cases h2 : r.InstanceCount > 0 <;>
    by_cases h3 : r.StringCount > 0 <;>
    simp [h1, h2, h3, tocLoop, HeaderLength, TocLength]

theorem instanceCount_pos (hr : r.OK) : r.InstanceDomainCount > 0 ↔ r.InstanceCount > 0 := by
  have hne := hr.nonempty
  have hc := hr.instanceCount
  unfold Reg.InstanceDomainCount Reg.InstanceCount
  generalize r.indoms = ds at hne hc
  cases ds with
  | nil => simp at hc; simp [hc]
  | cons d ds =>
    have := hne (by simp)
    simp; omega

theorem tocEntries_length (hr : r.OK) : (tocEntries r).length = r.tocCount := by
  have h := instanceCount_pos hr
  unfold tocEntries Reg.tocCount
  by_cases h1 : r.InstanceDomainCount > 0 <;> by_cases h2 : r.InstanceCount > 0 <;>
    by_cases h3 : r.StringCount > 0 <;> simp_all

/-- Goroutine of `writeSingleToc`. -/
theorem wp_singleToc {W : World} {R ws K} {p : SealKey → Prop} {w n pos : Nat} {os : Nat → Nat → Prop}
    {As : List MAsrt} {x : Nat × Nat × Nat}
    (h : TS R os ws none p K [(pos, zeros 16)])
    (hos : ∀ w' i', os w' i' ↔ (w' = w ∧ i' = n))
    (h40 : 40 ≤ pos) (hlen : pos + 16 ≤ r.Length)
    (hW : W.wgs[w]? = some (As.map MAsrt.lift))
    (hA : As[n]? = some (fun _ M => Owns M pos (tocBytes x))) :
    WP (params r e o) (writeSingleToc r pos x.1 x.2.1 x.2.2 (.wgDone w .done)) W R := by
  unfold writeSingleToc
  refine ts_app (hdrOnly _ _ _) (plen _ _ _) h 0 (pre := []) (v := pos) (n := 16) rfl (by ar) (by ar) (by ar) (by ar) ?_
  intro R1 h1
  refine ts_app (hdrOnly _ _ _) (plen _ _ _) h1 0 rfl (by ar) (by ar) (by ar) (by ar) ?_
  intro R2 h2
  refine ts_app (hdrOnly _ _ _) (plen _ _ _) h2 0 rfl (by ar) (by ar) (by ar) (by ar) ?_
  intro R3 h3
  refine ts_wgDone h3 hW hA hos ?_
  intro σ hσ
  have := h3.own (pos, _) List.mem_cons_self
  simpa [zeros, tocBytes] using this

theorem wp_tocLoop {W : World} {ws : Nat → Prop} {K : Mem}
    {w : Nat} {os0 : Nat → Nat → Prop} {As : List MAsrt} {k : Proc}
    (hW : W.wgs[w]? = some (As.map MAsrt.lift)) (hos0 : ∀ i, ¬ os0 w i) :
    ∀ (xs : List (Nat × Nat × Nat)) (j pos : Nat) (R : Res) (os : Nat → Nat → Prop),
      TS R os ws none (fun _ => False) K [(pos, zeros (16 * xs.length))] →
      (∀ w' i', os w' i' ↔ (os0 w' i' ∨ (w' = w ∧ j ≤ i' ∧ i' < j + xs.length))) →
      (∀ (y : Nat) (x : Nat × Nat × Nat), xs[y]? = some x →
        As[j + y]? = some (fun _ M => Owns M (pos + 16 * y) (tocBytes x))) →
      40 ≤ pos → pos + 16 * xs.length ≤ r.Length →
      (∀ R', TS R' os0 ws none (fun _ => False) K [] → WP (params r e o) k W R') →
      WP (params r e o) (tocLoop r w xs pos k) W R := by
  intro xs
  induction xs with
  | nil =>
    intro j pos R os h hos _ _ _ hk
    unfold tocLoop
    exact hk R (h.tail.imp (fun w' i' => by rw [hos]; simp; omega) (fun _ => Iff.rfl) (fun k hk => hk.elim))
  | cons x xs ih =>
    intro j pos R os h hos hx h40 hlen hk
    unfold tocLoop
    simp only [List.length_cons] at h hos hlen
    rw [show 16 * (xs.length + 1) = 16 + 16 * xs.length by omega, zeros_add] at h
    have h' := h.split
    simp only [zeros_length] at h'
    refine ts_fork (cs1 := [(pos, zeros 16)]) h' (fun w' i' => w' = w ∧ i' = j)
      (fun w' i' => os0 w' i' ∨ (w' = w ∧ j + 1 ≤ i' ∧ i' < j + 1 + xs.length))
      (fun _ => False) (fun _ => False)
      none none (os_split hos) ?_ (fun k hk => hk.elim) (fun k hk => hk.elim) (.inl ⟨rfl, rfl⟩) ?_ ?_
    · rintro w' i' ⟨rfl, rfl⟩ (h1 | ⟨_, h1, _⟩)
      · exact hos0 _ h1
      · omega
    · intro R' hR'
      exact wp_singleToc hR' (fun _ _ => Iff.rfl) h40 (by omega) hW (by simpa using hx 0 x rfl)
    · intro R' hR'
      refine ih (j + 1) (pos + 16) R' _ hR' (fun _ _ => Iff.rfl) ?_ (by omega) (by omega) hk
      intro y x' hy
      have := hx (y + 1) x' (by simpa using hy)
      rw [show j + 1 + y = j + (y + 1) by omega, this, show pos + 16 + 16 * y = pos + 16 * (y + 1) by omega]

def TocA (r : Reg) : MAsrt := fun _ M => ∀ (j : Nat) (x : Nat × Nat × Nat),
  (tocEntries r)[j]? = some x → Owns M (40 + 16 * j) (tocBytes x)

/-- Goroutine that writes the TOC (client.go:252-255). -/
theorem wp_toc (hr : r.OK)
    {W : World} {R ws K} {p : SealKey → Prop} {w n : Nat} {os : Nat → Nat → Prop} {As : List MAsrt}
    (h : TS R os ws none p K [(40, zeros (16 * r.tocCount))])
    (hos : ∀ w' i', os w' i' ↔ (w' = w ∧ i' = n))
    (hW : W.wgs[w]? = some (As.map MAsrt.lift))
    (hA : As[n]? = some (TocA r)) :
    WP (params r e o) (writeTocBlock r (.wgDone w .done)) W R := by
  rw [writeTocBlock_eq]
  have hl := tocEntries_length hr
  refine ts_wgNew h ((tocEntries r).mapIdx (fun j x => fun _ M => Owns M (40 + 16 * j) (tocBytes x)))
    (by simp [hl]) ?_
  intro w1 W1 R1 hle1 hW1 hw1 _ h1
  have hww : w < w1 := by
    have := (List.getElem?_eq_some_iff.1 hW).1; omega
  obtain ⟨c1, c2, c3, c4, c5, c6⟩ := off_chain r
  rw [← hl] at h1
  refine wp_tocLoop hW1 (os0 := os) ?_ (tocEntries r) 0 40 R1 _
    (h1.imp (fun _ _ => Iff.rfl) (fun _ => Iff.rfl) (fun _ h => h.elim)) ?_ ?_ (by omega) (by omega) ?_
  · intro i hi; have := (hos _ _).1 hi; omega
  · intro w' i'; simp
  · intro y x hy
    simp [hy]
  intro R2 h2
  refine ts_wgWait h2 (w := w1) (.inr rfl) ?_ hW1 ?_ ?_
  · intro w' i h; have := (hos _ _).1 h; omega
  · intro A hA
    obtain ⟨d, _, rfl⟩ := List.mem_mapIdx.1 hA
    intro _ _ _ _ hs hM h
    exact h.mono hM
  intro W3 R3 hle3 _ hsub3 h3 hdep3
  refine ts_wgDone h3 (le_wg2 hle3 (le_wg2 hle1 hW)) hA hos ?_
  intro σ hσ j x hx
  exact hdep3 j (fun _ M => Owns M (40 + 16 * j) (tocBytes x)) (by simp [hx])

end
end Speed
