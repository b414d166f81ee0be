import Verif.StartThreads
/-
The metric goroutines of `start`.
-/
namespace Speed

theorem wp_getCell {P : Params} {W : World} {R : Res} {c : Cell} {k : Nat → Proc} {v : Nat}
    (h : W.sl (.cell c) = some v) (hk : WP P (k v) W R) : WP P (.getCell c k) W R := ⟨v, h, hk⟩

attribute [local irreducible] WP

section
variable {r : Reg} {e : Env} {o : Ord}

/-- Permissions of the descriptor goroutine. -/
def DescPerm (u : Nat) (k : SealKey) : Prop :=
  k = .slot (.metric u) ∨ k = .slot (.metName u) ∨ k = .slot (.metShort u) ∨ k = .slot (.metLong u)

/-- Permissions of a value goroutine. -/
def ValPerm (u : Nat) (s : Option Str) (k : SealKey) : Prop :=
  k = .cell (.upd u s) ∨ k = .slot (.valStr u s)

/-- Goroutine of `writeSingletonMetric`. -/
theorem wp_singleton (hr : r.OK) {m : Metric} (hm : m ∈ r.metrics) {val : GoVal}
    (hb : m.body = .single val)
    {W : World} {R ws K} {p : SealKey → Prop} {w n : Nat} {os : Nat → Nat → Prop} {As : List MAsrt}
    (h : TS R os ws none p K [])
    (hos : ∀ w' i', os w' i' ↔ (w' = w ∧ i' = n))
    (hp : ∀ k : SealKey, k.mUid = some m.uid → p k)
    (hW : W.wgs[w]? = some (As.map MAsrt.lift))
    (hA : As[n]? = some (fun σ M => MetricAll r (Owns M) σ m)) :
    WP (params r e o) (writeSingletonMetric r m val (.wgDone w .done)) W R := by
  have hslots : m.slots = [none] := by simp [Metric.slots, hb]
  have hval : m.val none = some val := by simp [Metric.val, hb]
  have hind : m.indom = none := by simp [Metric.indom, hb]
  have hm1 : Tok.metric m.uid ∈ regToks r .metric := List.mem_map_of_mem hm
  have hm2 : Tok.value m.uid none ∈ regToks r .value := by
    simp only [regToks, List.mem_flatMap]
    exact ⟨m, hm, by simp [hslots]⟩
  have hvok : ValOK m.desc.t val := by
    obtain ⟨v, hv1, hv2⟩ := hr.vals m hm none (by simp [hslots])
    rw [hval] at hv1; cases hv1; exact hv2
  unfold writeSingletonMetric
  refine ts_wgNew h [DescA r m, fun σ M => ValRec1 (Owns M) σ m none val] rfl ?_
  intro w1 W1 R1 hle1 hW1 hw1 _ h1
  have hww : w < w1 := by
    have := (List.getElem?_eq_some_iff.1 hW).1; omega
  refine ts_recvG rfl (made_of_mem hr hm1) h1 (fun x => x == .met m.uid) ?_ ?_
  · intro x hx; apply hp; simp at hx; simp [SealKey.mUid, hx]
  intro doff W2 R2 hle2 hg2 h2
  have hg : W2.sl (.ghost (.met m.uid)) = some doff := hg2 (.met m.uid) (by simp)
  refine ts_fork (cs1 := []) (cs2 := []) h2 (fun w' i' => w' = w1 ∧ i' = 0)
    (fun w' i' => os w' i' ∨ (w' = w1 ∧ i' = 1)) (DescPerm m.uid)
    (fun k => (p k ∧ ∀ x : Gh, (x == .met m.uid) = true → k ≠ .ghost x) ∧ ¬ DescPerm m.uid k) (some (.metric, doff)) none
    ?_ ?_ ?_ (fun k hk => hk) (.inl ⟨rfl, rfl⟩) ?_ ?_
  · intro w' i'
    by_cases h1 : os w' i' <;> simp [h1]
    constructor
    · rintro ⟨rfl, h2⟩; rcases Nat.lt_or_ge i' 1 with h | h
      · left; exact ⟨rfl, by omega⟩
      · right; exact ⟨rfl, by omega⟩
    · rintro (⟨rfl, rfl⟩ | ⟨rfl, rfl⟩) <;> simp
  · rintro w' i' ⟨rfl, rfl⟩ (h1 | ⟨_, h1⟩)
    · have := (hos _ _).1 h1; omega
    · omega
  · rintro k (rfl | rfl | rfl | rfl) <;> exact ⟨hp _ rfl, by simp⟩
  · intro R' hR'
    have := wp_desc (e := e) (o := o) hr hm hR' (fun _ _ => Iff.rfl) (.inl rfl) (.inr (.inl rfl)) (.inr (.inr (.inl rfl)))
      (.inr (.inr (.inr rfl))) hg (le_wg2 hle2 hW1) (n := 0) rfl
    rwa [hind] at this
  intro R3 h3
  refine ts_alloc (c := .value) rfl (made_of_mem hr hm2) h3 [.value m.uid none]
    (by simp [params, regSlot]) (by simp) ?_ ?_
  · intro t ht; simp only [List.mem_singleton] at ht; subst ht
    exact ⟨rfl, hm2, ⟨hp _ rfl, by simp⟩, by simp [DescPerm]⟩
  intro off W4 R4 hle4 hs4 hlim4 hbase4 h4
  have hb4 : 40 + 16 * r.tocCount ≤ off ∧ off + 32 ≤ r.Length := base_le hr e o rfl hbase4 hlim4
  have hoff : W4.sl (.slot (.value m.uid none)) = some off := by simpa using hs4 0 _ rfl
  rw [show zeros ValueLength = zeros 16 ++ zeros 16 from (zeros_add 16 16)] at h4
  have h5 := h4.split
  simp only [zeros_length] at h5
  refine ts_fork (cs1 := [(off, zeros 16)]) h5 (fun w' i' => w' = w1 ∧ i' = 1) os
    (ValPerm m.uid none) (fun _ => False) none none ?_ ?_ ?_ (fun k hk => hk.elim) (.inl ⟨rfl, rfl⟩) ?_ ?_
  · intro w' i'; exact or_comm
  · rintro w' i' ⟨rfl, rfl⟩ h1
    have := (hos _ _).1 h1; omega
  · rintro k (rfl | rfl) <;> exact ⟨⟨⟨hp _ rfl, by simp⟩, by simp [DescPerm]⟩, by simp⟩
  · intro R' hR'
    exact wp_value hr hm (by simp [hslots]) hvok hR' (fun _ _ => Iff.rfl) (.inl rfl) (.inr rfl) hoff (by omega)
      (by omega) (le_wg2 hle4 (le_wg2 hle2 hW1)) (n := 1) rfl
  intro R6 h6
  refine ts_app (hdrOnly _ _ _) (plen _ _ _) h6 0 (v := off + 16) (pre := []) (n := 16) rfl (by ar) (by ar) (by ar) (by ar) ?_
  intro R7 h7
  refine ts_app (hdrOnly _ _ _) (plen _ _ _) h7 0 rfl (by ar) (by ar) (by ar) (by ar) ?_
  intro R8 h8
  have hle14 : W1.le W4 := World.le_trans hle2 hle4
  refine ts_wgWait h8 (w := w1) (.inr rfl) ?_ (le_wg2 hle14 hW1) ?_ ?_
  · intro w' i h; have := (hos _ _).1 h; omega
  · intro A hA
    simp only [List.mem_cons, List.not_mem_nil, or_false] at hA
    rcases hA with rfl | rfl
    · exact monoDesc m
    · exact monoVal1 m none val
  intro W9 R9 hle9 _ hsub h9 hdep
  refine ts_wgDone h9 (le_wg2 hle9 (le_wg2 hle14 (le_wg2 hle1 hW))) hA hos ?_
  intro σ hσ
  obtain ⟨hdesc, v, hv1, hv2⟩ := hdep 0 _ rfl
  have hv1' := hdep 1 _ rfl
  have hvd : v = doff := by
    have := hle9.2 _ _ (hle4.2 _ _ hg)
    rw [hv2] at this; exact Option.some.inj this
  subst hvd
  refine ⟨hdesc.mono (fun _ _ h => h) hσ, ?_⟩
  intro s hs val' hval'
  rw [hslots, List.mem_singleton] at hs
  subst hs
  rw [hval] at hval'; cases hval'
  refine ⟨ValRec1.mono (fun _ _ h => h) hσ hv1', off, v, 0, hσ _ _ (hle9.2 _ _ hoff), hσ _ _ hv1, rfl, ?_⟩
  have := h9.own (off + 16, _) List.mem_cons_self
  simpa [zeros] using this

/-- The loop that starts the value goroutines of an instance metric. -/
theorem wp_valLoop (hr : r.OK) {m : Metric} (hm : m ∈ r.metrics) {d : Indom} {vals : List (Str × GoVal)}
    (hb : m.body = .inst d vals) {ws : Nat → Prop}
    {w doff : Nat} {os0 : Nat → Nat → Prop} {As : List MAsrt} {k : Proc} (hos0 : ∀ i, ¬ os0 w i) :
    ∀ (is : List Inst) (j : Nat) (W : World) (R : Res) (p : SealKey → Prop) (os : Nat → Nat → Prop)
      (K : Mem),
      TS R os ws none p K [] →
      W.wgs[w]? = some (As.map MAsrt.lift) →
      (∀ i ∈ d.insts, ∃ v, W.sl (.cell (.off d.uid i.name)) = some v ∧
        W.sl (.slot (.inst d.uid i.name)) = some v) →
      (∀ w' i', os w' i' ↔ (os0 w' i' ∨ (w' = w ∧ j ≤ i' ∧ i' < j + is.length))) →
      (∀ i ∈ is, i ∈ d.insts) → (is.map (·.name)).Nodup →
      (∀ i ∈ is, p (.slot (.value m.uid (some i.name))) ∧ p (.cell (.upd m.uid (some i.name))) ∧
        p (.slot (.valStr m.uid (some i.name)))) →
      (∀ (x : Nat) (i : Inst) (val : GoVal), is[x]? = some i → lookupVal vals i.name = some val →
        As[j + x]? = some (fun σ M => ValRec1 (Owns M) σ m (some i.name) val)) →
      (∀ W' R' K', W.le W' → K.Sub K' → TS R' os0 ws none (fun _ => False) K' [] →
        (∀ i ∈ is, ∃ v ioff, W'.sl (.slot (.value m.uid (some i.name))) = some v ∧
          W'.sl (.slot (.inst d.uid i.name)) = some ioff ∧
          Owns K' (v + 16) (le 8 doff ++ le 8 ioff)) → WP (params r e o) k W' R') →
      WP (params r e o) (writeInstanceValuesLoop r m d vals w doff is k) W R := by
  intro is
  induction is with
  | nil =>
    intro j W R p os K h _ _ hos _ _ _ _ hk
    unfold writeInstanceValuesLoop
    exact hk W R K (World.le_refl _) (fun _ _ h => h)
      (h.imp (fun w' i' => by rw [hos]; simp; omega) (fun _ => Iff.rfl) (fun k hk => hk.elim)) (by simp)
  | cons i is ih =>
    intro j W R p os K h hW hcell hos hmem hnd hp hx hk
    unfold writeInstanceValuesLoop
    simp only [List.length_cons] at hos
    simp only [List.map_cons, List.nodup_cons, List.mem_map, not_exists, not_and] at hnd
    have hid : i ∈ d.insts := hmem i (by simp)
    have hsl : some i.name ∈ m.slots := by
      simp only [Metric.slots, hb, List.mem_map]; exact ⟨i, hid, rfl⟩
    have hm2 : Tok.value m.uid (some i.name) ∈ regToks r .value := by
      simp only [regToks, List.mem_flatMap, List.mem_map]
      exact ⟨m, hm, _, hsl, rfl⟩
    obtain ⟨val, hval, hvok⟩ := hr.vals m hm _ hsl
    have hlk : lookupVal vals i.name = some val := by simpa [Metric.val, hb] using hval
    obtain ⟨q1, q2, q3⟩ := hp i (by simp)
    refine ts_alloc (c := .value) rfl (made_of_mem hr hm2) h [.value m.uid (some i.name)]
      (by simp [params, regSlot]) (by simp) ?_ ?_
    · intro t ht; simp only [List.mem_singleton] at ht; subst ht
      exact ⟨rfl, hm2, q1⟩
    intro off W4 R4 hle4 hs4 hlim4 hbase4 h4
    have hb4 : 40 + 16 * r.tocCount ≤ off ∧ off + 32 ≤ r.Length := base_le hr e o rfl hbase4 hlim4
    have hoff : W4.sl (.slot (.value m.uid (some i.name))) = some off := by simpa using hs4 0 _ rfl
    rw [show zeros ValueLength = zeros 16 ++ zeros 16 from (zeros_add 16 16)] at h4
    have h5 := h4.split
    simp only [zeros_length] at h5
    refine ts_fork (cs1 := [(off, zeros 16)]) h5 (fun w' i' => w' = w ∧ i' = j)
      (fun w' i' => os0 w' i' ∨ (w' = w ∧ j + 1 ≤ i' ∧ i' < j + 1 + is.length))
      (ValPerm m.uid (some i.name))
      (fun k => (p k ∧ ∀ t ∈ [Tok.value m.uid (some i.name)], k ≠ .slot t) ∧ ¬ ValPerm m.uid (some i.name) k)
      none none ?_ ?_ ?_ (fun k hk => hk) (.inl ⟨rfl, rfl⟩) ?_ ?_
    · intro w' i'; rw [hos]
      by_cases h1 : os0 w' i' <;> simp [h1]
      constructor
      · rintro ⟨rfl, h2, h3⟩; by_cases h4 : i' = j
        · left; exact ⟨rfl, h4⟩
        · right; exact ⟨rfl, by omega, by omega⟩
      · rintro (⟨rfl, rfl⟩ | ⟨rfl, h2, h3⟩)
        · exact ⟨rfl, by omega, by omega⟩
        · exact ⟨rfl, by omega, by omega⟩
    · rintro w' i' ⟨rfl, rfl⟩ (h1 | ⟨_, h1, _⟩)
      · exact hos0 _ h1
      · omega
    · rintro k (rfl | rfl)
      · exact ⟨q2, by simp⟩
      · exact ⟨q3, by simp⟩
    · intro R' hR'
      rw [hlk]
      exact wp_value hr hm hsl hvok hR' (fun _ _ => Iff.rfl) (.inl rfl) (.inr rfl) hoff (by omega)
        (by omega) (le_wg2 hle4 hW) (n := j) (by simpa using hx 0 i val rfl hlk)
    intro R6 h6
    refine ts_app (hdrOnly _ _ _) (plen _ _ _) h6 0 (v := off + 16) (pre := []) (n := 16) rfl (by ar) (by ar) (by ar) (by ar) ?_
    intro R7 h7
    obtain ⟨ioff, hc1, hc2⟩ := hcell i hid
    refine wp_getCell (hle4.2 _ _ hc1) ?_
    refine ts_app (hdrOnly _ _ _) (plen _ _ _) h7 0 rfl (by ar) (by ar) (by ar) (by ar) ?_
    intro R8 h8
    simp only [List.set_cons_zero, List.nil_append] at h8
    obtain ⟨K9, hK9, hown, h9⟩ := h8.absorb
    refine ih (j + 1) W4 R8 _ _ K9 h9 (le_wg2 hle4 hW) ?_ (fun _ _ => Iff.rfl)
      (fun i hi => hmem i (by simp [hi])) hnd.2 ?_ ?_ ?_
    · intro i hi; obtain ⟨v, h1, h2⟩ := hcell i hi
      exact ⟨v, hle4.2 _ _ h1, hle4.2 _ _ h2⟩
    · intro i' hi'
      obtain ⟨q1, q2, q3⟩ := hp i' (by simp [hi'])
      have hne : i'.name ≠ i.name := hnd.1 i' hi'
      exact ⟨⟨⟨q1, by simp [hne]⟩, by simp [ValPerm]⟩, ⟨⟨q2, by simp⟩, by simp [ValPerm, hne]⟩,
        ⟨⟨q3, by simp⟩, by simp [ValPerm, hne]⟩⟩
    · intro x i' val' hi' hv'
      have := hx (x + 1) i' val' (by simpa using hi') hv'
      rw [show j + 1 + x = j + (x + 1) by omega]
      exact this
    · intro W' R' K' hle hK' h' hfacts
      refine hk W' R' K' (World.le_trans hle4 hle) (fun a v h => hK' a v (hK9 a v h)) h' ?_
      intro i' hi'
      rcases List.mem_cons.1 hi' with rfl | hi'
      · refine ⟨off, ioff, hle.2 _ _ hoff, hle.2 _ _ (hle4.2 _ _ hc2), ?_⟩
        have := hown.mono hK'
        simpa [zeros] using this
      · exact hfacts i' hi'

/-- Goroutine of `writeInstanceMetric`. -/
theorem wp_instMetric (hr : r.OK) (ho : o.OK r) {m : Metric} (hm : m ∈ r.metrics) {d : Indom}
    {vals : List (Str × GoVal)} (hb : m.body = .inst d vals)
    {W : World} {R ws K} {p : SealKey → Prop} {w n : Nat} {os : Nat → Nat → Prop} {As : List MAsrt}
    (h : TS R os ws none p K [])
    (hos : ∀ w' i', os w' i' ↔ (w' = w ∧ i' = n))
    (hp : ∀ k : SealKey, k.mUid = some m.uid → p k)
    (hcell : ∀ i ∈ d.insts, ∃ v, W.sl (.cell (.off d.uid i.name)) = some v ∧
      W.sl (.slot (.inst d.uid i.name)) = some v)
    (hW : W.wgs[w]? = some (As.map MAsrt.lift))
    (hA : As[n]? = some (fun σ M => MetricAll r (Owns M) σ m)) :
    WP (params r e o) (writeInstanceMetric r o m d vals (.wgDone w .done)) W R := by
  have hind : m.indom = some d := by simp [Metric.indom, hb]
  have hd : d ∈ r.indoms := hr.registered m hm d hind
  have hperm : (o.vals m).Perm d.insts := ho.vals m hm d vals hb
  have hlen := hperm.length_eq
  have hndn : ((o.vals m).map (·.name)).Nodup := (hperm.map _).nodup_iff.2 (hr.instName d hd)
  have hm1 : Tok.metric m.uid ∈ regToks r .metric := List.mem_map_of_mem hm
  unfold writeInstanceMetric
  refine ts_wgNew h (DescA r m :: (o.vals m).map (fun i => fun σ M =>
      ∀ val, lookupVal vals i.name = some val → ValRec1 (Owns M) σ m (some i.name) val))
    (by simp [hlen, Nat.add_comm]) ?_
  intro w1 W1 R1 hle1 hW1 hw1 _ h1
  have hww : w < w1 := by
    have := (List.getElem?_eq_some_iff.1 hW).1; omega
  refine ts_recvG rfl (made_of_mem hr hm1) h1 (fun x => x == .met m.uid) ?_ ?_
  · intro x hx; apply hp; simp at hx; simp [SealKey.mUid, hx]
  intro doff W2 R2 hle2 hg2 h2
  have hg : W2.sl (.ghost (.met m.uid)) = some doff := hg2 (.met m.uid) (by simp)
  refine ts_fork (cs1 := []) (cs2 := []) h2 (fun w' i' => w' = w1 ∧ i' = 0)
    (fun w' i' => os w' i' ∨ (w' = w1 ∧ 1 ≤ i' ∧ i' < 1 + (o.vals m).length)) (DescPerm m.uid)
    (fun k => (p k ∧ ∀ x : Gh, (x == .met m.uid) = true → k ≠ .ghost x) ∧ ¬ DescPerm m.uid k) (some (.metric, doff)) none
    ?_ ?_ ?_ (fun k hk => hk) (.inl ⟨rfl, rfl⟩) ?_ ?_
  · intro w' i'; rw [hlen]
    by_cases h1 : os w' i' <;> simp [h1]
    constructor
    · rintro ⟨rfl, h2⟩; rcases Nat.lt_or_ge i' 1 with h | h
      · left; exact ⟨rfl, by omega⟩
      · right; exact ⟨rfl, by omega, by omega⟩
    · rintro (⟨rfl, rfl⟩ | ⟨rfl, _, _⟩)
      · exact ⟨rfl, by omega⟩
      · exact ⟨rfl, by omega⟩
  · rintro w' i' ⟨rfl, rfl⟩ (h1 | ⟨_, h1, _⟩)
    · have := (hos _ _).1 h1; omega
    · omega
  · rintro k (rfl | rfl | rfl | rfl) <;> exact ⟨hp _ rfl, by simp⟩
  · intro R' hR'
    have := wp_desc (e := e) (o := o) hr hm hR' (fun _ _ => Iff.rfl) (.inl rfl) (.inr (.inl rfl)) (.inr (.inr (.inl rfl)))
      (.inr (.inr (.inr rfl))) hg (le_wg2 hle2 hW1) (n := 0) rfl
    rwa [hind] at this
  intro R3 h3
  have hle12 := World.le_trans hle1 hle2
  refine wp_valLoop hr hm hb (os0 := os) ?_ (o.vals m) 1 W2 R3 _ _ K h3 (le_wg2 hle2 hW1) ?_ (fun _ _ => Iff.rfl)
    (fun i hi => hperm.mem_iff.1 hi) hndn ?_ ?_ ?_
  · intro i hi; have := (hos _ _).1 hi; omega
  · intro i hi; obtain ⟨v, h1, h2⟩ := hcell i hi
    exact ⟨v, hle12.2 _ _ h1, hle12.2 _ _ h2⟩
  · intro i hi
    exact ⟨⟨⟨hp _ rfl, by simp⟩, by simp [DescPerm]⟩, ⟨⟨hp _ rfl, by simp⟩, by simp [DescPerm]⟩,
      ⟨⟨hp _ rfl, by simp⟩, by simp [DescPerm]⟩⟩
  · intro x i val hx hv
    rw [Nat.add_comm, List.getElem?_cons_succ, List.getElem?_map, hx]
    simp [hv]
  intro W4 R4 K4 hle4 hK4 h4 hfacts
  refine ts_wgWait h4 (w := w1) (.inr rfl) ?_ (le_wg2 hle4 (le_wg2 hle2 hW1)) ?_ ?_
  · intro w' i h; have := (hos _ _).1 h; omega
  · intro A hA
    rcases List.mem_cons.1 hA with rfl | hA
    · exact monoDesc m
    · obtain ⟨i, _, rfl⟩ := List.mem_map.1 hA
      intro _ _ _ _ hs hM h val hv
      exact (h val hv).mono (At.mono hM) hs
  intro W9 R9 hle9 _ hsub h9 hdep
  refine ts_wgDone h9 (le_wg2 hle9 (le_wg2 hle4 (le_wg2 hle12 hW))) hA hos ?_
  intro σ hσ
  obtain ⟨hdesc, v, hv1, hv2⟩ := hdep 0 _ rfl
  have hvd : v = doff := by
    have := hle9.2 _ _ (hle4.2 _ _ hg)
    rw [hv2] at this; exact Option.some.inj this
  subst hvd
  refine ⟨hdesc.mono (fun _ _ h => h) hσ, ?_⟩
  intro s hs val hval
  simp only [Metric.slots, hb, List.mem_map] at hs
  obtain ⟨i, hi, rfl⟩ := hs
  have hlk : lookupVal vals i.name = some val := by simpa [Metric.val, hb] using hval
  have hi' := hperm.mem_iff.2 hi
  obtain ⟨x, hx⟩ := List.getElem?_of_mem hi'
  have hv1' := hdep (x + 1) (fun σ M =>
      ∀ val, lookupVal vals i.name = some val → ValRec1 (Owns M) σ m (some i.name) val) (by simp [hx]) val hlk
  obtain ⟨voff, ioff, f1, f2, f3⟩ := hfacts i hi'
  refine ⟨ValRec1.mono (fun _ _ h => h) hσ hv1', voff, v, ioff, hσ _ _ (hle9.2 _ _ f1), hσ _ _ hv1, ?_, ?_⟩
  · rw [hind]; exact hσ _ _ (hle9.2 _ _ f2)
  · exact f3.mono h9.keep

end
end Speed
