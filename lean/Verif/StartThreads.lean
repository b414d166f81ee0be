import Verif.StartWP
import Mathlib.Data.List.Nodup
namespace Speed

attribute [simp] le_length
attribute [local irreducible] WP

/-- Offset arithmetic. -/
macro "ar" : tactic => `(tactic| first | omega | (simp; done) | (simp; omega))

theorem plen (r e o) : (params r e o).len = r.Length := rfl

section
variable {r : Reg} {e : Env} {o : Ord}

theorem le_wg2 {W W' : World} (h : W.le W') {w : Nat} {As : List MAsrt}
    (hq : W.wgs[w]? = some (As.map MAsrt.lift)) : W'.wgs[w]? = some (As.map MAsrt.lift) :=
  World.le_wg h hq

theorem At.mono {M N : Mem} (h : M.Sub N) : ∀ v bs, Owns M v bs → Owns N v bs :=
  fun _ _ h' => h'.mono h

/-- `writeText`: the string goes to kept memory. -/
theorem wp_text (hr : r.OK) {W : World} {R os ws p K cs} {k : Nat → Proc}
    (h : TS R os ws none p K cs) (t : Tok) (s : Str) (hs : s.length ≤ StringLength)
    (hmem : s ≠ [] → t ∈ regToks r .str ∧ t.chan = .str) (hp : p (.slot t))
    (hk : ∀ x W' R' K', W.le W' → K.Sub K' → TextAt (Owns K') W'.sl t s x →
      TS R' os ws none (fun k => p k ∧ k ≠ .slot t) K' cs → WP (params r e o) (k x) W' R') :
    WP (params r e o) (writeText r s k) W R := by
  unfold writeText
  split
  · rename_i h0
    refine hk 0 W R K (World.le_refl _) (fun _ _ h => h) (by simp [TextAt, h0])
      (h.imp (fun _ _ => Iff.rfl) (fun _ => Iff.rfl) (fun k hk => hk.1))
  · rename_i h0
    obtain ⟨hm, hc⟩ := hmem h0
    refine ts_alloc (c := .str) rfl (made_of_mem hr hm) h [t] (by simp [params, regSlot]) (by simp) ?_ ?_
    · intro t' ht'
      simp only [List.mem_singleton] at ht'
      subst ht'
      exact ⟨hc, hm, hp⟩
    intro v0 W1 R1 hle1 hs1 hlim hbase h1
    have hb := base_le hr e o rfl hbase hlim
    refine ts_app (hdrOnly _ _ _) (plen _ _ _) h1 0 (pre := []) rfl hs (by simp) (by omega) (by ar) ?_
    intro R2 h2
    simp only [List.set_cons_zero] at h2
    obtain ⟨K', hK, hown, h3⟩ := h2.absorb
    refine hk v0 W1 R2 K' hle1 hK ?_ (h3.imp (fun _ _ => Iff.rfl) (fun _ => Iff.rfl) ?_)
    · rw [TextAt, if_neg h0]
      exact ⟨by simpa using hs1 0 t rfl, by simpa [pad] using hown⟩
    · rintro k ⟨h1, h2⟩
      exact ⟨h1, by simpa using h2⟩

/-- Goroutine of `writeInstance`. -/
theorem wp_instance (hr : r.OK) {d : Indom} (hd : d ∈ r.indoms) {i : Inst} (hi : i ∈ d.insts)
    {W : World} {R ws p K} {w n inoff off : Nat} {os : Nat → Nat → Prop} {As : List MAsrt}
    (h : TS R os ws none p K [(off, zeros r.InstanceLength)])
    (hos : ∀ w' i', os w' i' ↔ (w' = w ∧ i' = n))
    (hp1 : p (.cell (.off d.uid i.name))) (hp2 : p (.slot (.instName d.uid i.name)))
    (hoff : W.sl (.slot (.inst d.uid i.name)) = some off)
    (hin : W.sl (.slot (.indom d.uid)) = some inoff)
    (h40 : 40 ≤ off) (hlen : off + r.InstanceLength ≤ r.Length)
    (hW : W.wgs[w]? = some (As.map MAsrt.lift))
    (hA : As[n]? = some (fun σ M => InstRec r (Owns M) σ d i)) :
    WP (params r e o) (writeInstance r d i inoff off (.wgDone w .done)) W R := by
  unfold writeInstance
  refine ts_setCell h hp1 ?_
  intro W1 R1 hle1 hc1 _ h1
  have hl : 24 ≤ r.InstanceLength := by unfold Reg.InstanceLength; split <;> decide
  refine ts_app (hdrOnly _ _ _) (plen _ _ _) h1 0 (pre := []) rfl (by ar) (by ar) h40 (by ar) ?_
  intro R2 h2
  refine ts_app (hdrOnly _ _ _) (plen _ _ _) h2 0 rfl (by ar) (by simp) h40 (by ar) ?_
  intro R3 h3
  refine ts_app (hdrOnly _ _ _) (plen _ _ _) h3 0 rfl (by ar) (by ar) h40 (by ar) ?_
  intro R4 h4
  simp only [List.set_cons_zero, List.nil_append, le_length] at h4 ⊢
  split
  · rename_i hv
    have hm : Tok.instName d.uid i.name ∈ regToks r .str := by
      simp only [regToks, List.mem_append, List.mem_flatMap]
      left
      refine ⟨d, hd, ?_⟩
      simp only [indomStrToks, List.mem_append, hv, if_true, List.mem_map]
      right; exact ⟨i, hi, rfl⟩
    refine ts_alloc (c := .str) rfl (made_of_mem hr hm) h4 [.instName d.uid i.name]
      (by simp [params, regSlot]) (by simp) ?_ ?_
    · intro t ht
      simp only [List.mem_singleton] at ht
      subst ht
      exact ⟨rfl, hm, hp2, by simp⟩
    intro v0 W5 R5 hle5 hs5 hlim hbase h5
    have hb := base_le hr e o rfl hbase hlim
    have hil : r.InstanceLength = 24 := by simp [Reg.InstanceLength, hv]
    refine ts_app (hdrOnly _ _ _) (plen _ _ _) h5 1 rfl (by ar) (by ar) h40 (by ar) ?_
    intro R6 h6
    refine ts_app (hdrOnly _ _ _) (plen _ _ _) h6 0 (pre := []) rfl (hr.instNameLen d hd i hi) (by simp) (by omega) (by ar) ?_
    intro R7 h7
    refine ts_wgDone h7 (le_wg2 hle5 (le_wg2 hle1 hW)) hA hos ?_
    intro σ hσ
    have hle : W.sl.le σ := Seal.le_trans hle1.2 (Seal.le_trans hle5.2 hσ)
    refine ⟨off, inoff, hle _ _ hoff, hσ _ _ (hle5.2 _ _ hc1), hle _ _ hin, ?_⟩
    rw [if_pos hv]
    refine ⟨v0, ⟨hσ _ _ (by simpa using hs5 0 _ rfl), ?_⟩, ?_⟩
    · have := h7.own (v0, [] ++ i.name ++ zeros (StringLength - i.name.length)) (by simp)
      simpa [pad] using this
    · have := h7.own (off, _) (List.mem_cons_of_mem _ (List.mem_cons_self))
      simpa [hil, zeros] using this
  · rename_i hv
    have hv' : r.version2 = false := by simpa using hv
    have hil : r.InstanceLength = 80 := by simp [Reg.InstanceLength, hv]
    have hn := hr.v1inst hv' d hd i hi
    simp only [MaxV1NameLength] at hn
    refine ts_app (hdrOnly _ _ _) (plen _ _ _) h4 0 rfl (by omega) (by ar) h40 (by ar) ?_
    intro R7 h7
    refine ts_wgDone h7 (le_wg2 hle1 hW) hA hos ?_
    intro σ hσ
    have hle : W.sl.le σ := Seal.le_trans hle1.2 hσ
    refine ⟨off, inoff, hle _ _ hoff, hσ _ _ hc1, hle _ _ hin, ?_⟩
    rw [if_neg hv]
    have := h7.own (off, _) List.mem_cons_self
    simpa [hil, pad, MaxV1NameLength] using this

/-- The loop that starts the `writeInstance` goroutines. -/
theorem wp_instLoop (hr : r.OK) {d : Indom} (hd : d ∈ r.indoms) {W : World} {ws : Nat → Prop}
    {K : Mem} {cs : List Chunk} {w inoff : Nat} {os0 : Nat → Nat → Prop} {As : List MAsrt} {k : Proc}
    (hin : W.sl (.slot (.indom d.uid)) = some inoff)
    (hW : W.wgs[w]? = some (As.map MAsrt.lift)) (hos0 : ∀ i, ¬ os0 w i) :
    ∀ (is : List Inst) (j ioff : Nat) (R : Res) (p : SealKey → Prop) (os : Nat → Nat → Prop),
      TS R os ws none p K ((ioff, zeros (is.length * r.InstanceLength)) :: cs) →
      (∀ w' i', os w' i' ↔ (os0 w' i' ∨ (w' = w ∧ j ≤ i' ∧ i' < j + is.length))) →
      (∀ i ∈ is, i ∈ d.insts) → (is.map (·.name)).Nodup →
      (∀ i ∈ is, p (.cell (.off d.uid i.name)) ∧ p (.slot (.instName d.uid i.name))) →
      (∀ (x : Nat) (i : Inst), is[x]? = some i →
        As[j + x]? = some (fun σ M => InstRec r (Owns M) σ d i) ∧
        W.sl (.slot (.inst d.uid i.name)) = some (ioff + x * r.InstanceLength)) →
      40 ≤ ioff → ioff + is.length * r.InstanceLength ≤ r.Length →
      (∀ R', TS R' os0 ws none (fun k => p k ∧ ∀ n, k ≠ .cell (.off d.uid n) ∧
          k ≠ .slot (.instName d.uid n)) K cs → WP (params r e o) k W R') →
      WP (params r e o) (writeInstancesLoop r d w inoff is ioff k) W R := by
  intro is
  induction is with
  | nil =>
    intro j ioff R p os h hos _ _ _ _ _ _ hk
    unfold writeInstancesLoop
    exact hk R (h.tail.imp (fun w' i' => by rw [hos]; simp; omega) (fun _ => Iff.rfl) (fun k hk => hk.1))
  | cons i is ih =>
    intro j ioff R p os h hos hmem hnd hp hx h40 hlen hk
    unfold writeInstancesLoop
    simp only [List.length_cons] at h hos hlen
    rw [Nat.add_mul, Nat.one_mul] at hlen
    rw [Nat.add_mul, Nat.one_mul, Nat.add_comm, zeros_add] at h
    have h' := h.split
    simp only [zeros_length] at h'
    simp only [List.map_cons, List.nodup_cons, List.mem_map, not_exists, not_and] at hnd
    refine ts_fork (cs1 := [(ioff, zeros r.InstanceLength)]) h' (fun w' i' => w' = w ∧ i' = j)
      (fun w' i' => os0 w' i' ∨ (w' = w ∧ j + 1 ≤ i' ∧ i' < j + 1 + is.length))
      (fun k => k = .cell (.off d.uid i.name) ∨ k = .slot (.instName d.uid i.name))
      (fun k => p k ∧ ¬ (k = .cell (.off d.uid i.name) ∨ k = .slot (.instName d.uid i.name)))
      none none ?_ ?_ ?_ (fun k hk => hk) (.inl ⟨rfl, rfl⟩) ?_ ?_
    · intro w' i'; rw [hos]
      by_cases h1 : os0 w' i' <;> simp [h1]
      constructor
      · rintro ⟨rfl, h2, h3⟩; by_cases h4 : i' = j
        · left; exact ⟨rfl, h4⟩
        · right; exact ⟨rfl, by omega, by omega⟩
      · rintro (⟨rfl, rfl⟩ | ⟨rfl, h2, h3⟩)
        · exact ⟨rfl, by omega, by omega⟩
        · exact ⟨rfl, by omega, by omega⟩
    · rintro w' i' ⟨rfl, rfl⟩ (h1 | ⟨_, h1, _⟩)
      · exact hos0 _ h1
      · omega
    · rintro k (rfl | rfl)
      · exact (hp i (by simp)).1
      · exact (hp i (by simp)).2
    · intro R' hR'
      have := hx 0 i rfl
      exact wp_instance hr hd (hmem i (by simp)) hR' (fun _ _ => Iff.rfl) (.inl rfl) (.inr rfl)
        (by simpa using this.2) hin h40 (by omega) hW (by simpa using this.1)
    · intro R' hR'
      refine ih (j + 1) (ioff + r.InstanceLength) R' _ _ hR' (fun _ _ => Iff.rfl)
        (fun i hi => hmem i (by simp [hi])) hnd.2 ?_ ?_ (by omega) (by omega) ?_
      · intro i' hi'
        have := hp i' (by simp [hi'])
        have hne : i'.name ≠ i.name := hnd.1 i' hi'
        refine ⟨⟨this.1, by simp [hne]⟩, ⟨this.2, by simp [hne]⟩⟩
      · intro x i' hi'
        have := hx (x + 1) i' (by simpa using hi')
        rw [show j + 1 + x = j + (x + 1) by omega]
        refine ⟨this.1, ?_⟩
        rw [this.2, Nat.add_mul]; congr 1; omega
      · intro R'' hR''
        apply hk R''
        refine hR''.imp (fun _ _ => Iff.rfl) (fun _ => Iff.rfl) ?_
        rintro k ⟨h1, h2⟩
        exact ⟨⟨h1, by rintro (rfl | rfl); exacts [(h2 i.name).1 rfl, (h2 i.name).2 rfl]⟩, h2⟩

/-- Instance domain that a write-once fact belongs to. -/
def SealKey.dUid : SealKey → Option Nat
  | .slot (.indom d) => some d
  | .slot (.inst d _) => some d
  | .slot (.indomShort d) => some d
  | .slot (.indomLong d) => some d
  | .slot (.instName d _) => some d
  | .cell (.off d _) => some d
  | .ghost (.dom d) => some d
  | _ => none

/-- Metric that a write-once fact belongs to. -/
def SealKey.mUid : SealKey → Option Nat
  | .slot (.metric m) => some m
  | .slot (.value m _) => some m
  | .slot (.metName m) => some m
  | .slot (.metShort m) => some m
  | .slot (.metLong m) => some m
  | .slot (.valStr m _) => some m
  | .cell (.upd m _) => some m
  | .ghost (.met m) => some m
  | _ => none

theorem monoInst (d i) : MAsrt.Mono (fun σ M => InstRec r (Owns M) σ d i) :=
  fun _ _ _ _ hs hM h => h.mono (At.mono hM) hs

/-- Goroutine of `writeInstanceDomain`. -/
theorem wp_indom (hr : r.OK) (ho : o.OK r) {d : Indom} (hd : d ∈ r.indoms)
    {W : World} {R ws K} {p : SealKey → Prop} {w n : Nat} {os : Nat → Nat → Prop} {As : List MAsrt}
    (h : TS R os ws none p K [])
    (hos : ∀ w' i', os w' i' ↔ (w' = w ∧ i' = n))
    (hp : ∀ k : SealKey, k.dUid = some d.uid → p k)
    (hW : W.wgs[w]? = some (As.map MAsrt.lift))
    (hA : As[n]? = some (fun σ M => IndomAll r o (Owns M) σ d)) :
    WP (params r e o) (writeInstanceDomain r o d (.wgDone w .done)) W R := by
  unfold writeInstanceDomain
  have hperm := ho.insts d hd
  have hlen : (o.insts d).length = d.insts.length := hperm.length_eq
  have hm1 : Tok.indom d.uid ∈ regToks r .indom := List.mem_map_of_mem hd
  have hm2 : ∀ i ∈ d.insts, Tok.inst d.uid i.name ∈ regToks r .inst := by
    intro i hi
    simp only [regToks, List.mem_flatMap, List.mem_map]
    exact ⟨d, hd, i, hi, rfl⟩
  have hmade : regMade r .inst = true := (made_of_mem hr hm1 : regMade r .indom = true)
  have hndn : ((o.insts d).map (·.name)).Nodup := (hperm.map _).nodup_iff.2 (hr.instName d hd)
  refine ts_alloc (c := .indom) rfl (made_of_mem hr hm1) h [.indom d.uid] (by simp [params, regSlot])
    (by simp) ?_ ?_
  · intro t ht; simp only [List.mem_singleton] at ht; subst ht
    exact ⟨rfl, hm1, hp _ rfl⟩
  intro inoff W1 R1 hle1 hs1 hlim1 hbase1 h1
  have hb1 : 40 + 16 * r.tocCount ≤ inoff ∧ inoff + 32 ≤ r.Length := base_le hr e o rfl hbase1 hlim1
  have hin1 : W1.sl (.slot (.indom d.uid)) = some inoff := by simpa using hs1 0 _ rfl
  refine ts_allocG (c := .inst) rfl hmade h1 (.dom d.uid) ⟨hp _ rfl, by simp⟩ ((o.insts d).map (fun i => .inst d.uid i.name))
    (by simp [params, regSlot, hlen, Nat.mul_comm]) ?_ ?_ ?_
  · have : (((o.insts d).map (·.name)).map (Tok.inst d.uid)).Nodup :=
      List.Nodup.map (fun a b hab => by simpa using hab) hndn
    rwa [List.map_map] at this
  · intro t ht
    obtain ⟨i, hi, rfl⟩ := List.mem_map.1 ht
    exact ⟨rfl, hm2 i (hperm.mem_iff.1 hi), hp _ rfl, by simp⟩
  intro ioff W2 R2 hle2 hg2 hs2 hlim2 hbase2 h2
  have hb2 := base_le hr e o rfl hbase2 hlim2
  have hs2' : ∀ (x : Nat) (i : Inst), (o.insts d)[x]? = some i →
      W2.sl (.slot (.inst d.uid i.name)) = some (ioff + x * r.InstanceLength) := by
    intro x i hx
    exact hs2 x _ (by simp [hx])
  refine ts_wgNew h2 ((o.insts d).map (fun i => fun σ M => InstRec r (Owns M) σ d i)) (by simp [hlen]) ?_
  intro w3 W3 R3 hle3 hW3 hw3 _ h3
  have hww : w < w3 := by
    have := (List.getElem?_eq_some_iff.1 (le_wg2 hle2 (le_wg2 hle1 hW))).1
    omega
  refine ts_app (hdrOnly _ _ _) (plen _ _ _) h3 1 (pre := []) (v := inoff) (n := 32) rfl (by ar) (by ar) (by ar) (by ar) ?_
  intro R4 h4
  refine ts_app (hdrOnly _ _ _) (plen _ _ _) h4 1 rfl (by ar) (by ar) (by ar) (by ar) ?_
  intro R5 h5
  refine ts_app (hdrOnly _ _ _) (plen _ _ _) h5 1 rfl (by ar) (by ar) (by ar) (by ar) ?_
  intro R6 h6
  simp only [List.set_cons_succ, List.set_cons_zero, List.nil_append, le_length] at h6 ⊢
  rw [show r.InstanceLength * d.insts.length = (o.insts d).length * r.InstanceLength by
    rw [hlen, Nat.mul_comm]] at h6
  refine wp_instLoop hr hd (os0 := os) (hle3.2 _ _ (hle2.2 _ _ hin1)) hW3 ?_ (o.insts d) 0 ioff R6 _ _ h6 ?_
    (fun i hi => hperm.mem_iff.1 hi) hndn ?_ ?_ (by omega) ?_ ?_
  · intro i hi; have := (hos _ _).1 hi; omega
  · intro w' i'; simp [hlen]
  · intro i hi; exact ⟨⟨⟨⟨hp _ rfl, by simp⟩, by simp⟩, by simp⟩, ⟨⟨⟨hp _ rfl, by simp⟩, by simp⟩, by simp⟩⟩
  · intro x i hx
    refine ⟨by simp [hx], hle3.2 _ _ (hs2' x i hx)⟩
  · rw [hlen, Nat.mul_comm]; omega
  intro R7 h7
  refine wp_text hr h7 (.indomShort d.uid) d.short (hr.indomText d hd).1 ?_ ?_ ?_
  · intro hne
    refine ⟨?_, rfl⟩
    simp only [regToks, List.mem_append, List.mem_flatMap]
    left; exact ⟨d, hd, by simp [indomStrToks, hne]⟩
  · refine ⟨⟨⟨⟨hp _ rfl, by simp⟩, by simp⟩, by simp⟩, by simp⟩
  intro so W8 R8 K8 hle8 hK8 hso h8
  refine wp_text hr h8 (.indomLong d.uid) d.long (hr.indomText d hd).2 ?_ ?_ ?_
  · intro hne
    refine ⟨?_, rfl⟩
    simp only [regToks, List.mem_append, List.mem_flatMap]
    left; exact ⟨d, hd, by simp [indomStrToks, hne]⟩
  · refine ⟨⟨⟨⟨⟨hp _ rfl, by simp⟩, by simp⟩, by simp⟩, by simp⟩, by simp⟩
  intro lo W9 R9 K9 hle9 hK9 hlo h9
  refine ts_app (hdrOnly _ _ _) (plen _ _ _) h9 0 rfl (by ar) (by ar) (by ar) (by ar) ?_
  intro R10 h10
  refine ts_app (hdrOnly _ _ _) (plen _ _ _) h10 0 rfl (by ar) (by ar) (by ar) (by ar) ?_
  intro R11 h11
  have hle39 : W3.le W9 := World.le_trans hle8 hle9
  have hle09 : W.le W9 := World.le_trans hle1 (World.le_trans hle2 (World.le_trans hle3 hle39))
  refine ts_wgWait h11 (w := w3) (.inr rfl) ?_ (le_wg2 hle39 hW3) ?_ ?_
  · intro w' i h; have := (hos _ _).1 h; omega
  · intro A hA
    obtain ⟨i, _, rfl⟩ := List.mem_map.1 hA
    exact monoInst d i
  intro W12 R12 hle12 _ hsub h12 hdep
  refine ts_wgDone h12 (le_wg2 hle12 (le_wg2 hle09 hW)) hA hos ?_
  intro σ hσ
  have hleσ : W9.sl.le σ := Seal.le_trans hle12.2 hσ
  refine ⟨⟨inoff, ioff, so, lo, ?_, ?_, ?_, ?_, ?_, ?_⟩, ?_⟩
  · exact hleσ _ _ (hle39.2 _ _ (hle3.2 _ _ (hle2.2 _ _ hin1)))
  · exact hleσ _ _ (hle39.2 _ _ (hle3.2 _ _ hg2))
  · intro j i hj
    exact hleσ _ _ (hle39.2 _ _ (hle3.2 _ _ (hs2' j i hj)))
  · refine (hso.mono (At.mono ?_) (Seal.le_trans hle9.2 hleσ))
    exact fun a v h => h12.keep a v (hK9 a v h)
  · exact hlo.mono (At.mono h12.keep) hleσ
  · have := h12.own (inoff, _) List.mem_cons_self
    simpa [zeros] using this
  · intro i hi
    obtain ⟨x, hx⟩ := List.getElem?_of_mem (hperm.mem_iff.2 hi)
    have := hdep x (fun σ M => InstRec r (Owns M) σ d i) (by simp [hx])
    exact InstRec.mono (fun _ _ h => h) hσ this

/-- `writeDescTail`. -/
theorem wp_descTail (hr : r.OK) {m : Metric} (hm : m ∈ r.metrics)
    {W : World} {R os ws K} {p : SealKey → Prop} {v off : Nat} {pre : List Byte} {k : Proc}
    (h : TS R os ws none p K [(v, pre ++ zeros 40)]) (hoff : off = v + pre.length)
    (hp1 : p (.slot (.metShort m.uid))) (hp2 : p (.slot (.metLong m.uid)))
    (h40 : 40 ≤ v) (hlen : v + (pre.length + 40) ≤ r.Length)
    (hk : ∀ W' R' K' cs so lo, W.le W' → K.Sub K' → TS R' os ws none (fun _ => False) K' cs →
      TextAt (Owns R'.m) W'.sl (.metShort m.uid) m.desc.short so →
      TextAt (Owns R'.m) W'.sl (.metLong m.uid) m.desc.long lo →
      Owns R'.m v (pre ++ descBytes m ++ le 8 so ++ le 8 lo) → WP (params r e o) k W' R') :
    WP (params r e o) (writeDescTail r m.desc m.indom off k) W R := by
  subst hoff
  unfold writeDescTail
  refine ts_app (hdrOnly _ _ _) (plen _ _ _) h 0 rfl (by ar) (by ar) h40 (by ar) ?_
  intro R1 h1
  refine ts_app (hdrOnly _ _ _) (plen _ _ _) h1 0 rfl (by ar) (by ar) h40 (by ar) ?_
  intro R2 h2
  refine ts_app (hdrOnly _ _ _) (plen _ _ _) h2 0 rfl (by ar) (by ar) h40 (by ar) ?_
  intro R3 h3
  refine ts_app (hdrOnly _ _ _) (plen _ _ _) h3 0 rfl (by ar) (by ar) h40 (by ar) ?_
  intro R4 h4
  have hl4 : (indomIdBytes m.indom).length = 4 := by
    unfold indomIdBytes; split <;> simp
  refine ts_app (hdrOnly _ _ _) (plen _ _ _) h4 0 rfl (by rw [hl4]; ar) (by ar) h40 (by ar) ?_
  intro R5 h5
  rw [hl4] at h5 ⊢
  refine ts_app (hdrOnly _ _ _) (plen _ _ _) h5 0 rfl (by ar) (by simp only [List.length_append, hl4]; ar) h40
    (by simp only [List.length_append, hl4]; ar) ?_
  intro R6 h6
  refine wp_text hr h6 (.metShort m.uid) m.desc.short (hr.metricText m hm).1 ?_ hp1 ?_
  · intro hne
    refine ⟨?_, rfl⟩
    simp only [regToks, List.mem_append, List.mem_flatMap]
    right; exact ⟨m, hm, by simp [metricStrToks, hne]⟩
  intro so W7 R7 K7 hle7 hK7 hso h7
  refine wp_text hr h7 (.metLong m.uid) m.desc.long (hr.metricText m hm).2 ?_ ⟨hp2, by simp⟩ ?_
  · intro hne
    refine ⟨?_, rfl⟩
    simp only [regToks, List.mem_append, List.mem_flatMap]
    right; exact ⟨m, hm, by simp [metricStrToks, hne]⟩
  intro lo W8 R8 K8 hle8 hK8 hlo h8
  refine ts_app (hdrOnly _ _ _) (plen _ _ _) h8 0 rfl (by ar) (by simp only [List.length_append, hl4]; ar) h40
    (by simp only [List.length_append, hl4]; ar) ?_
  intro R9 h9
  refine ts_app (hdrOnly _ _ _) (plen _ _ _) h9 0 rfl (by ar) (by simp only [List.length_append, hl4]; ar) h40
    (by simp only [List.length_append, hl4]; ar) ?_
  intro R10 h10
  refine hk W8 R10 K8 _ so lo (World.le_trans hle7 hle8) (fun a v h => hK8 a v (hK7 a v h))
    (h10.imp (fun _ _ => Iff.rfl) (fun _ => Iff.rfl) (fun _ h => h.elim)) ?_ ?_ ?_
  · exact hso.mono (At.mono (fun a v h => h10.keep a v (hK8 a v h))) hle8.2
  · exact hlo.mono (At.mono h10.keep) (Seal.le_refl _)
  · have := h10.own (v, _) List.mem_cons_self
    simpa [zeros, descBytes] using this

/-- What the descriptor goroutine hands over. -/
def DescA (r : Reg) (m : Metric) : MAsrt := fun σ M =>
  DescRec r (Owns M) σ m ∧ ∃ v, σ (.slot (.metric m.uid)) = some v ∧ σ (.ghost (.met m.uid)) = some v

theorem monoDesc (m : Metric) : (DescA r m).Mono := by
  rintro σ τ M N hs hM ⟨h, v, h1, h2⟩
  exact ⟨h.mono (At.mono hM) hs, v, hs _ _ h1, hs _ _ h2⟩

/-- Goroutine of `writeMetricDesc`. -/
theorem wp_desc (hr : r.OK) {m : Metric} (hm : m ∈ r.metrics)
    {W : World} {R ws K} {p : SealKey → Prop} {w n doff : Nat} {os : Nat → Nat → Prop} {As : List MAsrt}
    (h : TS R os ws (some (.metric, doff)) p K [])
    (hos : ∀ w' i', os w' i' ↔ (w' = w ∧ i' = n))
    (hp0 : p (.slot (.metric m.uid))) (hp1 : p (.slot (.metName m.uid)))
    (hp2 : p (.slot (.metShort m.uid))) (hp3 : p (.slot (.metLong m.uid)))
    (hg : W.sl (.ghost (.met m.uid)) = some doff)
    (hW : W.wgs[w]? = some (As.map MAsrt.lift)) (hA : As[n]? = some (DescA r m)) :
    WP (params r e o) (writeMetricDesc r m.desc m.indom doff (.wgDone w .done)) W R := by
  have hm1 : Tok.metric m.uid ∈ regToks r .metric := List.mem_map_of_mem hm
  unfold writeMetricDesc
  split
  · rename_i hv
    have hl : r.MetricLength = 48 := by simp [Reg.MetricLength, hv]
    refine ts_send (c := .metric) rfl (made_of_mem hr hm1) h [.metric m.uid]
      (by simp [params, regSlot, hl]) (by simp) ?_ ?_
    · intro t ht; simp only [List.mem_singleton] at ht; subst ht
      exact ⟨rfl, hm1, hp0⟩
    intro W1 R1 hle1 hs1 hlim1 hbase1 h1
    have hb1 := base_le hr e o rfl hbase1 hlim1
    simp only [params, regSlot, hl, List.length_singleton, Nat.one_mul] at hb1 h1
    have hd1 : W1.sl (.slot (.metric m.uid)) = some doff := by simpa using hs1 0 _ rfl
    have hm2 : Tok.metName m.uid ∈ regToks r .str := by
      simp only [regToks, List.mem_append, List.mem_flatMap]
      right; exact ⟨m, hm, by simp [metricStrToks, hv]⟩
    refine ts_alloc (c := .str) rfl (made_of_mem hr hm2) h1 [.metName m.uid]
      (by simp [params, regSlot]) (by simp) ?_ ?_
    · intro t ht; simp only [List.mem_singleton] at ht; subst ht
      exact ⟨rfl, hm2, hp1, by simp⟩
    intro noff W2 R2 hle2 hs2 hlim2 hbase2 h2
    have hb2 := base_le hr e o rfl hbase2 hlim2
    refine ts_app (hdrOnly _ _ _) (plen _ _ _) h2 1 (v := doff) (pre := []) (n := 48) rfl (by ar) (by ar) (by ar) (by ar) ?_
    intro R3 h3
    refine ts_app (hdrOnly _ _ _) (plen _ _ _) h3 0 (pre := []) rfl (hr.metricName m hm) (by ar) (by ar) (by ar) ?_
    intro R4 h4
    simp only [List.set_cons_succ, List.set_cons_zero, List.nil_append, le_length] at h4 ⊢
    obtain ⟨K', hK', hown, h5⟩ := h4.absorb
    refine wp_descTail hr hm h5 (by simp) ⟨⟨hp2, by simp⟩, by simp⟩ ⟨⟨hp3, by simp⟩, by simp⟩ (by ar) (by ar) ?_
    intro W6 R6 K6 cs so lo hle6 hK6 h6 hso hlo hb
    have hle26 := World.le_trans hle2 hle6
    refine ts_wgDone h6 (le_wg2 hle26 (le_wg2 hle1 hW)) hA hos ?_
    intro σ hσ
    have hleσ := Seal.le_trans hle26.2 hσ
    refine ⟨⟨doff, so, lo, hleσ _ _ hd1, hso.mono (fun _ _ h => h) hσ,
      hlo.mono (fun _ _ h => h) hσ, ?_⟩, doff, hleσ _ _ hd1, hleσ _ _ (hle1.2 _ _ hg)⟩
    rw [if_pos hv]
    refine ⟨noff, ⟨hσ _ _ (hle6.2 _ _ (by simpa using hs2 0 _ rfl)), ?_⟩, hb⟩
    have := hown.mono (fun a v h => h6.keep a v (hK6 a v h))
    simpa [pad] using this
  · rename_i hv
    have hv' : r.version2 = false := by simpa using hv
    have hl : r.MetricLength = 104 := by simp [Reg.MetricLength, hv]
    have hn := hr.v1metric hv' m hm
    simp only [MaxV1NameLength] at hn
    refine ts_send (c := .metric) rfl (made_of_mem hr hm1) h [.metric m.uid]
      (by simp [params, regSlot, hl]) (by simp) ?_ ?_
    · intro t ht; simp only [List.mem_singleton] at ht; subst ht
      exact ⟨rfl, hm1, hp0⟩
    intro W1 R1 hle1 hs1 hlim1 hbase1 h1
    have hb1 := base_le hr e o rfl hbase1 hlim1
    simp only [params, regSlot, hl, List.length_singleton, Nat.one_mul] at hb1 h1
    have hd1 : W1.sl (.slot (.metric m.uid)) = some doff := by simpa using hs1 0 _ rfl
    refine ts_app (hdrOnly _ _ _) (plen _ _ _) h1 0 (pre := []) (v := doff) (n := 104) rfl (by omega) (by ar) (by ar) (by ar) ?_
    intro R2 h2
    have hz : zeros (104 - m.desc.name.length) = zeros (64 - m.desc.name.length) ++ zeros 40 := by
      rw [← zeros_add]; congr 1; omega
    simp only [List.set_cons_zero, List.nil_append] at h2
    rw [hz, ← List.append_assoc] at h2
    refine wp_descTail hr hm h2 (by simp only [List.length_append, zeros_length, MaxV1NameLength]; omega)
      ⟨hp2, by simp⟩ ⟨hp3, by simp⟩ (by ar)
      (by simp only [List.length_append, zeros_length]; omega) ?_
    intro W6 R6 K6 cs so lo hle6 hK6 h6 hso hlo hb
    refine ts_wgDone h6 (le_wg2 hle6 (le_wg2 hle1 hW)) hA hos ?_
    intro σ hσ
    have hleσ := Seal.le_trans hle6.2 hσ
    refine ⟨⟨doff, so, lo, hleσ _ _ hd1, hso.mono (fun _ _ h => h) hσ,
      hlo.mono (fun _ _ h => h) hσ, ?_⟩, doff, hleσ _ _ hd1, hleσ _ _ (hle1.2 _ _ hg)⟩
    rw [if_neg hv]
    exact hb

theorem binaryWrite_length {v : GoVal} {bs : List Byte} (h : binaryWrite v = some bs)
    (hs : ∀ s, v ≠ .str s) : bs.length ≤ 8 := by
  cases v <;> simp [binaryWrite] at h <;> (subst h; simp)

theorem callUpdate_str {r : Reg} {s : Str} {off : Nat} {k : Proc} :
    callUpdate r (.str s) off k =
      mustWrite r.Length (zeros StringLength) off fun _ => tryWrite r.Length s off k := rfl

theorem callUpdate_num {r : Reg} {v : GoVal} {off : Nat} {k : Proc} {bs : List Byte}
    (h : binaryWrite v = some bs) (hs : ∀ s, v ≠ .str s) :
    callUpdate r v off k = tryWrite r.Length bs off k := by
  unfold callUpdate
  cases v <;> simp_all

theorem monoVal1 (m : Metric) (s : Option Str) (val : GoVal) :
    MAsrt.Mono (fun σ M => ValRec1 (Owns M) σ m s val) :=
  fun _ _ _ _ hs hM h => h.mono (At.mono hM) hs

/-- Goroutine of `writeValue`. -/
theorem wp_value (hr : r.OK) {m : Metric} (hm : m ∈ r.metrics) {s : Option Str} (hs : s ∈ m.slots)
    {val : GoVal} (hv : ValOK m.desc.t val)
    {W : World} {R ws K} {p : SealKey → Prop} {w n off : Nat} {os : Nat → Nat → Prop} {As : List MAsrt}
    (h : TS R os ws none p K [(off, zeros 16)])
    (hos : ∀ w' i', os w' i' ↔ (w' = w ∧ i' = n))
    (hp1 : p (.cell (.upd m.uid s))) (hp2 : p (.slot (.valStr m.uid s)))
    (hoff : W.sl (.slot (.value m.uid s)) = some off)
    (h40 : 40 ≤ off) (hlen : off + 16 ≤ r.Length)
    (hW : W.wgs[w]? = some (As.map MAsrt.lift))
    (hA : As[n]? = some (fun σ M => ValRec1 (Owns M) σ m s val)) :
    WP (params r e o) (writeValue r m.desc.t val (.upd m.uid s) off (.wgDone w .done)) W R := by
  unfold writeValue
  unfold ValOK at hv
  split
  · rename_i ht
    rw [if_pos ht] at hv
    obtain ⟨str, rfl, hstr⟩ := hv
    have hm2 : Tok.valStr m.uid s ∈ regToks r .str := by
      simp only [regToks, List.mem_append, List.mem_flatMap]
      right; exact ⟨m, hm, by simp [metricStrToks, ht]; exact hs⟩
    refine ts_app (hdrOnly _ _ _) (plen _ _ _) h 0 (pre := []) (v := off) (n := 16) rfl (by ar) (by ar) (by ar) (by ar) ?_
    intro R1 h1
    refine ts_alloc (c := .str) rfl (made_of_mem hr hm2) h1 [.valStr m.uid s]
      (by simp [params, regSlot]) (by simp) ?_ ?_
    · intro t ht; simp only [List.mem_singleton] at ht; subst ht
      exact ⟨rfl, hm2, hp2⟩
    intro u W2 R2 hle2 hs2 hlim2 hbase2 h2
    have hb2 := base_le hr e o rfl hbase2 hlim2
    refine ts_app (hdrOnly _ _ _) (plen _ _ _) h2 1 (v := off) rfl (by ar) (by ar) (by ar) (by ar) ?_
    intro R3 h3
    simp only [List.set_cons_succ, List.set_cons_zero] at h3
    rw [callUpdate_str]
    refine ts_zero (hdrOnly _ _ _) (plen _ _ _) h3 0 (v := u) (n := StringLength) rfl (by ar) (by ar) ?_
    intro R4 h4
    refine ts_try (hdrOnly _ _ _) (plen _ _ _) h4 0 (v := u) (n := StringLength) rfl hstr (by ar) (by ar) ?_
    intro R5 h5
    refine ts_setCell h5 ⟨hp1, by simp⟩ ?_
    intro W6 R6 hle6 hc6 hm6 h6
    have hle := World.le_trans hle2 hle6
    refine ts_wgDone h6 (le_wg2 hle hW) hA hos ?_
    intro σ hσ
    have hleσ := Seal.le_trans hle.2 hσ
    refine ⟨off, u, hleσ _ _ hoff, hσ _ _ hc6, ?_⟩
    unfold ValData
    rw [if_pos ht]
    refine ⟨str, rfl, ?_, hσ _ _ (hle6.2 _ _ (by simpa using hs2 0 _ rfl)), ?_⟩
    · have := h6.own (off, _) (List.mem_cons_of_mem _ (List.mem_cons_self))
      simpa [zeros] using this
    · have := h6.own (u, _) List.mem_cons_self
      simpa [pad] using this
  · rename_i ht
    rw [if_neg ht] at hv
    obtain ⟨hns, bs, hbs⟩ := hv
    have hbl := binaryWrite_length hbs hns
    rw [callUpdate_num hbs hns]
    refine ts_try (hdrOnly _ _ _) (plen _ _ _) h 0 (v := off) (n := 16) rfl (by omega) (by ar) (by ar) ?_
    intro R5 h5
    refine ts_setCell h5 hp1 ?_
    intro W6 R6 hle6 hc6 hm6 h6
    refine ts_wgDone h6 (le_wg2 hle6 hW) hA hos ?_
    intro σ hσ
    have hleσ := Seal.le_trans hle6.2 hσ
    refine ⟨off, off, hleσ _ _ hoff, hσ _ _ hc6, ?_⟩
    unfold ValData
    rw [if_neg ht]
    refine ⟨rfl, bs, hbs, ?_⟩
    have := h6.own (off, _) List.mem_cons_self
    simpa [pad] using this

end
end Speed
