import Verif.StartMain
import Mathlib.Data.List.Perm.Subperm
/-
The program of `start` satisfies the logic; consequences for every interleaving.
-/
namespace Speed

section
variable {r : Reg} {e : Env} {o : Ord}

/-! ### Well-formed parameters -/

theorem slots_nodup (hr : r.OK) {m : Metric} (hm : m ∈ r.metrics) : m.slots.Nodup := by
  unfold Metric.slots
  cases hb : m.body with
  | single v => simp
  | inst d vs =>
    have hd := hr.registered m hm d (by simp [Metric.indom, hb])
    have := hr.instName d hd
    have h2 : ((d.insts.map (·.name)).map (fun s => some s)).Nodup :=
      List.Nodup.map (fun a b hab => by simpa using hab) this
    rwa [List.map_map] at h2

theorem disj_of_uid {α} {l : List α} {uid : α → Nat} {f : α → List Tok} {cls : Tok → Option Nat}
    (hn : (l.map uid).Nodup) (hc : ∀ x ∈ l, ∀ t ∈ f x, cls t = some (uid x))
    (hf : ∀ x ∈ l, (f x).Nodup) : (l.flatMap f).Nodup := by
  rw [List.nodup_flatMap]
  refine ⟨hf, ?_⟩
  have hp : l.Pairwise (fun a b => uid a ≠ uid b) := List.pairwise_map.1 hn
  refine hp.imp_of_mem ?_
  intro a b ha hb hne t h1 h2
  have := hc a ha t h1
  rw [hc b hb t h2] at this
  exact hne (Option.some.inj this).symm

theorem indomStrToks_cls {d : Indom} {t : Tok} (h : t ∈ indomStrToks r d) :
    (SealKey.slot t).dUid = some d.uid ∧ t.chan = .str := by
  simp only [indomStrToks, List.mem_append] at h
  rcases h with (h | h) | h <;> split at h <;> simp at h
  · subst h; exact ⟨rfl, rfl⟩
  · subst h; exact ⟨rfl, rfl⟩
  · obtain ⟨i, _, rfl⟩ := h; exact ⟨rfl, rfl⟩

theorem metricStrToks_cls {m : Metric} {t : Tok} (h : t ∈ metricStrToks r m) :
    (SealKey.slot t).mUid = some m.uid ∧ t.chan = .str := by
  simp only [metricStrToks, List.mem_append] at h
  rcases h with ((h | h) | h) | h <;> split at h <;> simp at h
  · subst h; exact ⟨rfl, rfl⟩
  · subst h; exact ⟨rfl, rfl⟩
  · subst h; exact ⟨rfl, rfl⟩
  · obtain ⟨i, _, rfl⟩ := h; exact ⟨rfl, rfl⟩

theorem indomStrToks_nodup (hr : r.OK) {d : Indom} (hd : d ∈ r.indoms) : (indomStrToks r d).Nodup := by
  have h2 : (d.insts.map (fun i => Tok.instName d.uid i.name)).Nodup := by
    have := List.Nodup.map (f := Tok.instName d.uid) (fun a b hab => by simpa using hab) (hr.instName d hd)
    rwa [List.map_map] at this
  unfold indomStrToks
  split <;> split <;> split <;> simp [List.nodup_append, h2]

theorem metricStrToks_nodup (hr : r.OK) {m : Metric} (hm : m ∈ r.metrics) : (metricStrToks r m).Nodup := by
  have h2 : (m.slots.map (fun s => Tok.valStr m.uid s)).Nodup :=
    List.Nodup.map (fun a b hab => by simpa using hab) (slots_nodup hr hm)
  unfold metricStrToks
  split <;> split <;> split <;> split <;> simp [List.nodup_append, h2] <;> (intros; simp_all)

theorem params_wf (hr : r.OK) : (params r e o).WF := by
  constructor
  · intro c
    cases c with
    | indom =>
      have := List.Nodup.map (f := Tok.indom) (fun a b hab => by simpa using hab) hr.indomUid
      rwa [List.map_map] at this
    | metric =>
      have := List.Nodup.map (f := Tok.metric) (fun a b hab => by simpa using hab) hr.metricUid
      rwa [List.map_map] at this
    | inst =>
      refine disj_of_uid (cls := fun t => (SealKey.slot t).dUid) hr.indomUid ?_ ?_
      · intro d _ t ht; obtain ⟨i, _, rfl⟩ := List.mem_map.1 ht; rfl
      · intro d hd
        have := List.Nodup.map (f := Tok.inst d.uid) (fun a b hab => by simpa using hab) (hr.instName d hd)
        rwa [List.map_map] at this
    | value =>
      refine disj_of_uid (cls := fun t => (SealKey.slot t).mUid) hr.metricUid ?_ ?_
      · intro d _ t ht; obtain ⟨i, _, rfl⟩ := List.mem_map.1 ht; rfl
      · intro m hm
        exact List.Nodup.map (fun a b hab => by simpa using hab) (slots_nodup hr hm)
    | str =>
      refine List.Nodup.append ?_ ?_ ?_
      · exact disj_of_uid (cls := fun t => (SealKey.slot t).dUid) hr.indomUid
          (fun d _ t ht => (indomStrToks_cls ht).1) (fun d hd => indomStrToks_nodup hr hd)
      · exact disj_of_uid (cls := fun t => (SealKey.slot t).mUid) hr.metricUid
          (fun d _ t ht => (metricStrToks_cls ht).1) (fun d hd => metricStrToks_nodup hr hd)
      · intro t h1 h2
        obtain ⟨d, _, h1⟩ := List.mem_flatMap.1 h1
        obtain ⟨m, _, h2⟩ := List.mem_flatMap.1 h2
        have h1 := (indomStrToks_cls h1).1
        have h2 := (metricStrToks_cls h2).1
        cases t <;> simp [SealKey.dUid, SealKey.mUid] at h1 h2
    | gen => simp [params, regToks]
    | g2 => simp [params, regToks]
  · intro c t ht
    cases c with
    | indom => obtain ⟨i, _, rfl⟩ := List.mem_map.1 ht; rfl
    | metric => obtain ⟨i, _, rfl⟩ := List.mem_map.1 ht; rfl
    | inst =>
      obtain ⟨d, _, ht⟩ := List.mem_flatMap.1 ht
      obtain ⟨i, _, rfl⟩ := List.mem_map.1 ht; rfl
    | value =>
      obtain ⟨d, _, ht⟩ := List.mem_flatMap.1 ht
      obtain ⟨i, _, rfl⟩ := List.mem_map.1 ht; rfl
    | str =>
      rcases List.mem_append.1 ht with ht | ht
      · obtain ⟨d, _, ht⟩ := List.mem_flatMap.1 ht
        exact (indomStrToks_cls ht).2
      · obtain ⟨d, _, ht⟩ := List.mem_flatMap.1 ht
        exact (metricStrToks_cls ht).2
    | gen => simp [params, regToks] at ht
    | g2 => simp [params, regToks] at ht
  · intro c
    cases c <;> simp only [params, regSlot, Reg.InstanceLength, Reg.MetricLength] <;>
      first | decide | (split <;> decide)

/-! ### Coverage: the records fill their sections -/

/-- All bytes of `[v, v+n)` are owned. -/
def Has (M : Mem) (v n : Nat) : Prop := ∀ a, v ≤ a → a < v + n → M a ≠ none

theorem Owns.has {M : Mem} {v : Nat} {bs : List Byte} {n : Nat} (h : Owns M v bs) (hn : bs.length = n) :
    Has M v n := fun _ h1 h2 => h.some h1 (hn ▸ h2)

theorem TextAt.has {M : Mem} {σ : Seal} {t : Tok} {s : Str} {x : Nat} (h : TextAt (Owns M) σ t s x)
    (hs : s ≠ []) (hl : s.length ≤ StringLength) : ∃ v, σ (.slot t) = some v ∧ Has M v StringLength := by
  rw [TextAt, if_neg hs] at h
  exact ⟨x, h.1, h.2.has (pad_length hl)⟩

theorem cov (hr : r.OK) {M : Mem} {σ : Seal} (h : AllRec r o (Owns M) σ) {c : Chan} {t : Tok}
    (ht : t ∈ regToks r c) : ∃ v, σ (.slot t) = some v ∧ Has M v (regSlot r c) := by
  obtain ⟨hI, hM⟩ := h
  have hil : ∀ x : Option Indom, (indomIdBytes x).length = 4 := by
    intro x; unfold indomIdBytes; split <;> simp
  cases c with
  | indom =>
    obtain ⟨d, hd, rfl⟩ := List.mem_map.1 ht
    obtain ⟨v, ioff, so, lo, h1, _, _, _, _, h5⟩ := (hI d hd).1
    exact ⟨v, h1, h5.has (by simp [regSlot])⟩
  | inst =>
    obtain ⟨d, hd, ht⟩ := List.mem_flatMap.1 ht
    obtain ⟨i, hi, rfl⟩ := List.mem_map.1 ht
    obtain ⟨v, inoff, h1, _, _, h4⟩ := (hI d hd).2 i hi
    refine ⟨v, h1, ?_⟩
    split at h4
    · rename_i hv
      obtain ⟨so, _, h5⟩ := h4
      exact h5.has (by simp [regSlot, Reg.InstanceLength, hv])
    · rename_i hv
      have := hr.v1inst (by simpa using hv) d hd i hi
      refine h4.has ?_
      simp only [MaxV1NameLength] at this
      simp [regSlot, Reg.InstanceLength, hv, pad, Instance1Length, MaxV1NameLength]; omega
  | metric =>
    obtain ⟨m, hm, rfl⟩ := List.mem_map.1 ht
    obtain ⟨v, so, lo, h1, _, _, h4⟩ := (hM m hm).1
    refine ⟨v, h1, ?_⟩
    split at h4
    · rename_i hv
      obtain ⟨so, _, h5⟩ := h4
      exact h5.has (by simp [regSlot, Reg.MetricLength, hv, descBytes, hil])
    · rename_i hv
      have := hr.v1metric (by simpa using hv) m hm
      refine h4.has ?_
      simp only [MaxV1NameLength] at this
      simp [regSlot, Reg.MetricLength, hv, pad, descBytes, hil, Metric1Length, MaxV1NameLength]; omega
  | value =>
    obtain ⟨m, hm, ht⟩ := List.mem_flatMap.1 ht
    obtain ⟨s, hs, rfl⟩ := List.mem_map.1 ht
    obtain ⟨val, hval, hvok⟩ := hr.vals m hm s hs
    obtain ⟨⟨v, u, h1, _, h3⟩, ⟨v', doff, ioff, h4, _, _, h5⟩⟩ := (hM m hm).2 s hs val hval
    rw [h1] at h4
    obtain rfl := Option.some.inj h4
    refine ⟨v, h1, ?_⟩
    have hlo : Has M v 16 := by
      unfold ValData at h3
      split at h3
      · obtain ⟨str, _, h6, _⟩ := h3
        exact h6.has (by simp)
      · rename_i htt
        obtain ⟨_, bs, h6, h7⟩ := h3
        rw [ValOK, if_neg htt] at hvok
        have := binaryWrite_length h6 hvok.1
        exact h7.has (by simp [pad, MaxDataValueSize]; omega)
    have hhi : Has M (v + 16) 16 := h5.has (by simp)
    intro a h1 h2
    by_cases hlt : a < v + 16
    · exact hlo a h1 hlt
    · exact hhi a (by omega) (by simp only [regSlot, ValueLength] at h2; omega)
  | str =>
    rcases List.mem_append.1 ht with ht | ht
    · obtain ⟨d, hd, ht⟩ := List.mem_flatMap.1 ht
      obtain ⟨v, ioff, so, lo, _, _, _, h1, h2, _⟩ := (hI d hd).1
      simp only [indomStrToks, List.mem_append] at ht
      rcases ht with (ht | ht) | ht <;> split at ht <;> simp at ht
      · subst ht; exact h1.has (by assumption) (hr.indomText d hd).1
      · subst ht; exact h2.has (by assumption) (hr.indomText d hd).2
      · obtain ⟨i, hi, rfl⟩ := ht
        obtain ⟨v, inoff, _, _, _, h4⟩ := (hI d hd).2 i hi
        rw [if_pos (by assumption)] at h4
        obtain ⟨so, h5, _⟩ := h4
        exact ⟨so, h5.1, h5.2.has (pad_length (hr.instNameLen d hd i hi))⟩
    · obtain ⟨m, hm, ht⟩ := List.mem_flatMap.1 ht
      obtain ⟨v, so, lo, _, h2, h3, h4⟩ := (hM m hm).1
      simp only [metricStrToks, List.mem_append] at ht
      rcases ht with ((ht | ht) | ht) | ht <;> split at ht <;> simp at ht
      · subst ht
        rw [if_pos (by assumption)] at h4
        obtain ⟨no, h5, _⟩ := h4
        exact ⟨no, h5.1, h5.2.has (pad_length (hr.metricName m hm))⟩
      · subst ht; exact h2.has (by assumption) (hr.metricText m hm).1
      · subst ht; exact h3.has (by assumption) (hr.metricText m hm).2
      · obtain ⟨s, hs, rfl⟩ := ht
        have htt : m.desc.t = StringType := by assumption
        obtain ⟨val, hval, hvok⟩ := hr.vals m hm s hs
        obtain ⟨⟨v, u, _, _, h6⟩, _⟩ := (hM m hm).2 s hs val hval
        rw [ValData, if_pos htt] at h6
        obtain ⟨str, rfl, _, h7⟩ := h6
        rw [ValOK, if_pos htt] at hvok
        obtain ⟨str', heq, hl⟩ := hvok
        cases heq
        exact ⟨u, h7.1, h7.2.has (pad_length hl)⟩
  | gen => simp [regToks] at ht
  | g2 => simp [regToks] at ht

/-- Distinct aligned slots, as many as fit, fill the section. -/
theorem section_full {P : Params} (hwf : P.WF) {σ : Seal} (hs : SealOK P σ) {c : Chan}
    (hall : ∀ t ∈ P.toks c, σ (.slot t) ≠ none) {a : Nat} (h1 : P.base c ≤ a) (h2 : a < P.lim c) :
    ∃ t ∈ P.toks c, ∃ v, σ (.slot t) = some v ∧ v ≤ a ∧ a < v + P.slotLen c := by
  classical
  have hpos := hwf.pos c
  let f : Tok → Nat := fun t => ((σ (.slot t)).getD 0 - P.base c) / P.slotLen c
  have hf : ∀ t ∈ P.toks c, σ (.slot t) = some (P.base c + P.slotLen c * f t) ∧
      f t < (P.toks c).length := by
    intro t ht
    obtain ⟨v, hv⟩ := Option.ne_none_iff_exists'.1 (hall t ht)
    have hc := hwf.chan c t ht
    obtain ⟨_, h3, q, hq⟩ := hs.1 t v hv
    rw [hc] at h3 hq
    have hfq : f t = q := by
      show ((σ (.slot t)).getD 0 - P.base c) / P.slotLen c = q
      rw [hv, Option.getD_some, hq, Nat.add_sub_cancel_left, Nat.mul_div_cancel_left _ hpos]
    rw [hfq]
    refine ⟨by rw [hv, hq], ?_⟩
    unfold Params.lim at h3
    have h5 : P.slotLen c * q + P.slotLen c ≤ P.slotLen c * (P.toks c).length := by omega
    have h6 : P.slotLen c * (q + 1) ≤ P.slotLen c * (P.toks c).length := by
      rw [Nat.mul_add, Nat.mul_one]; exact h5
    have := Nat.le_of_mul_le_mul_left h6 hpos
    omega
  have hnd : ((P.toks c).map f).Nodup := by
    rw [List.nodup_map_iff_inj_on (hwf.nodup c)]
    intro t ht t' ht' heq
    have e1 := (hf t ht).1
    have e2 := (hf t' ht').1
    rw [heq] at e1
    exact hs.2 t t' _ (by rw [hwf.chan c t ht, hwf.chan c t' ht']) e1 e2
  have hsub : ((P.toks c).map f).Subperm (List.range (P.toks c).length) := by
    apply List.subperm_of_subset hnd
    intro x hx
    obtain ⟨t, ht, rfl⟩ := List.mem_map.1 hx
    exact List.mem_range.2 (hf t ht).2
  have hperm := hsub.perm_of_length_le (by simp)
  have hq : (a - P.base c) / P.slotLen c < (P.toks c).length := by
    rw [Nat.div_lt_iff_lt_mul hpos]
    unfold Params.lim at h2
    rw [Nat.mul_comm]; omega
  have hmem := hperm.mem_iff.2 (List.mem_range.2 hq)
  obtain ⟨t, ht, hft⟩ := List.mem_map.1 hmem
  refine ⟨t, ht, _, (hf t ht).1, ?_, ?_⟩
  · rw [hft]
    have := Nat.mul_div_le (a - P.base c) (P.slotLen c)
    omega
  · rw [hft]
    have := Nat.lt_mul_div_succ (a - P.base c) hpos
    rw [Nat.mul_add, Nat.mul_one] at this
    omega

/-- Header, TOC and all records together are the whole buffer. -/
theorem full_of (hr : r.OK) {M : Mem} {σ : Seal} (hs : SealOK (params r e o) σ)
    (h0 : Has M 0 40) (h1 : Has M 40 (16 * r.tocCount)) (h2 : AllRec r o (Owns M) σ)
    {a : Nat} (ha : a < r.Length) : M a ≠ none := by
  obtain ⟨c1, c2, c3, c4, c5, c6⟩ := off_chain r
  obtain ⟨l1, l2, l3, l4, l5⟩ := lim_eq hr e o
  by_cases ha0 : a < 40
  · exact h0 a (by omega) (by omega)
  by_cases ha1 : a < r.indomoffset
  · exact h1 a (by omega) (by omega)
  have key : ∀ c, (params r e o).base c ≤ a → a < (params r e o).lim c → M a ≠ none := by
    intro c hb hl
    have hall : ∀ t ∈ (params r e o).toks c, σ (.slot t) ≠ none := by
      intro t ht
      obtain ⟨v, hv, _⟩ := cov hr h2 ht
      simp [hv]
    obtain ⟨t, ht, v, hv, hva, hva2⟩ := section_full (params_wf hr) hs hall hb hl
    obtain ⟨v', hv', hhas⟩ := cov hr h2 ht
    rw [hv] at hv'
    obtain rfl := Option.some.inj hv'
    exact hhas a hva hva2
  by_cases ha2 : a < r.instanceoffset
  · exact key .indom (by show r.indomoffset ≤ a; omega) (by rw [l1]; exact ha2)
  by_cases ha3 : a < r.metricsoffset
  · exact key .inst (by show r.instanceoffset ≤ a; omega) (by rw [l2]; exact ha3)
  by_cases ha4 : a < r.valuesoffset
  · exact key .metric (by show r.metricsoffset ≤ a; omega) (by rw [l3]; exact ha4)
  by_cases ha5 : a < r.stringsoffset
  · exact key .value (by show r.valuesoffset ≤ a; omega) (by rw [l4]; exact ha5)
  · exact key .str (by show r.stringsoffset ≤ a; omega) (by rw [l5]; exact ha)

end
end Speed
