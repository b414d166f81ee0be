import Verif.DumpFile
/-
A complete file is read back as the registry it was written from.
-/
namespace Speed
open Dump

/-! ### Helper lemmas -/

theorem trimNul_zeros (s : List Byte) (k : Nat) : trimNul (s ++ zeros k) = trimNul s := by
  unfold trimNul
  rw [List.reverse_append]
  have : (zeros k).reverse = zeros k := by simp [zeros]
  rw [this]
  congr 1
  clear this
  induction k with
  | zero => rfl
  | succ k ih =>
    rw [show zeros (k + 1) = 0 :: zeros k from rfl]
    simpa using ih

theorem trimNul_pad (n : Nat) (s : List Byte) : trimNul (pad n s) = trimNul s := trimNul_zeros _ _

/-- A string that does not end in NUL is recovered exactly. -/
theorem trimNul_eq {s : List Byte} (h : s.getLast? ≠ some 0) : trimNul s = s := by
  unfold trimNul
  cases hr : s.reverse with
  | nil => simpa using hr
  | cons b bs =>
    have hb : s.getLast? = some b := by
      rw [← List.head?_reverse, hr]; rfl
    rw [List.dropWhile_cons, if_neg (by simp; rintro rfl; exact h hb), ← hr, List.reverse_reverse]

theorem look_perm {α : Type} {l : List (Nat × α)} {ks : List Nat} {f : Nat → α} {k : Nat}
    (h : l.Perm (ks.map (fun k => (k, f k)))) (hk : k ∈ ks) : look l k = some (f k) := by
  unfold look
  have hm : (k, f k) ∈ l := h.mem_iff.2 (List.mem_map.2 ⟨k, hk, rfl⟩)
  cases hf : l.find? (fun p => p.1 = k) with
  | none =>
    rw [List.find?_eq_none] at hf
    exact absurd (by simp) (hf _ hm)
  | some p =>
    have h1 := List.find?_some hf
    have h2 := List.mem_of_find?_eq_some hf
    rw [h.mem_iff] at h2
    obtain ⟨k', _, rfl⟩ := List.mem_map.1 h2
    simp only [decide_eq_true_eq] at h1
    subst h1; rfl

theorem le_sum_of_mem {l : List Nat} {x : Nat} (h : x ∈ l) : x ≤ l.sum := by
  induction l with
  | nil => simp at h
  | cons a l ih =>
    rw [List.sum_cons]
    rcases List.mem_cons.1 h with rfl | h
    · omega
    · have := ih h; omega

def fileMem (F : Buf) : Mem := fun a => (F[a]?).map BitVec.toNat

theorem owns_fileMem {F : Buf} {v : Nat} {bs : List Byte} (h : FileAt F v bs) : Owns (fileMem F) v bs := by
  intro j b hj
  simp [fileMem, h j b hj]

def slotOf (σ : Seal) (t : Tok) : Nat := (σ (.slot t)).getD 0

theorem slotOf_eq {σ : Seal} {t : Tok} {v : Nat} (h : σ (.slot t) = some v) : slotOf σ t = v := by
  simp [slotOf, h]

/-- The slots of a section are exactly its aligned positions. -/
theorem slots_perm {P : Params} (hwf : P.WF) {σ : Seal} (hs : SealOK P σ) {c : Chan}
    (hall : ∀ t ∈ P.toks c, σ (.slot t) ≠ none) :
    ((P.toks c).map (slotOf σ)).Perm
      ((List.range (P.toks c).length).map (fun i => P.base c + i * P.slotLen c)) := by
  classical
  have hpos := hwf.pos c
  have hf : ∀ t ∈ P.toks c, ∃ q, slotOf σ t = P.base c + q * P.slotLen c ∧ q < (P.toks c).length := by
    intro t ht
    obtain ⟨v, hv⟩ := Option.ne_none_iff_exists'.1 (hall t ht)
    have hc := hwf.chan c t ht
    obtain ⟨_, h3, q, hq⟩ := hs.1 t v hv
    rw [hc] at h3 hq
    refine ⟨q, by rw [slotOf_eq hv, hq, Nat.mul_comm], ?_⟩
    unfold Params.lim at h3
    have h5 : P.slotLen c * q + P.slotLen c ≤ P.slotLen c * (P.toks c).length := by omega
    have h6 : P.slotLen c * (q + 1) ≤ P.slotLen c * (P.toks c).length := by
      rw [Nat.mul_add, Nat.mul_one]; exact h5
    have := Nat.le_of_mul_le_mul_left h6 hpos
    omega
  have hnd : ((P.toks c).map (slotOf σ)).Nodup := by
    rw [List.nodup_map_iff_inj_on (hwf.nodup c)]
    intro t ht t' ht' heq
    obtain ⟨v, hv⟩ := Option.ne_none_iff_exists'.1 (hall t ht)
    obtain ⟨v', hv'⟩ := Option.ne_none_iff_exists'.1 (hall t' ht')
    rw [slotOf_eq hv, slotOf_eq hv'] at heq
    subst heq
    exact hs.2 t t' _ (by rw [hwf.chan c t ht, hwf.chan c t' ht']) hv hv'
  have hsub : ((P.toks c).map (slotOf σ)).Subperm
      ((List.range (P.toks c).length).map (fun i => P.base c + i * P.slotLen c)) := by
    apply List.subperm_of_subset hnd
    intro x hx
    obtain ⟨t, ht, rfl⟩ := List.mem_map.1 hx
    obtain ⟨q, h1, h2⟩ := hf t ht
    rw [h1]
    exact List.mem_map.2 ⟨q, List.mem_range.2 h2, rfl⟩
  exact hsub.perm_of_length_le (by simp)

theorem cur_eq_val (m : Metric) (s : Option Str) : m.cur s = m.val s := by
  unfold Metric.cur Metric.val
  cases s <;> cases m.body <;> rfl

theorem slotNames_eq (m : Metric) : m.slotNames = m.slots := rfl

/-- All current values have the metrics' types. -/
def Reg.Typed (r : Reg) : Prop := ∀ m ∈ r.metrics, ∀ s v, m.cur s = some v → Speed.Typed m.desc.t v

theorem le_succ (n x : Nat) (h : x < 256 ^ n) : le (n + 1) x = le n x ++ [0] := by
  induction n generalizing x with
  | zero => simp only [Nat.pow_zero, Nat.lt_one_iff] at h; subst h; rfl
  | succ n ih =>
    rw [le, ih (x / 256) (by rw [Nat.pow_succ] at h; omega)]; rfl

theorem pad_le4 (x : BitVec 32) : pad MaxDataValueSize (le 4 x.toNat) = le 8 x.toNat ++ le 8 0 := by
  have hx : x.toNat < 256 ^ 4 := x.isLt
  rw [le_succ 7 _ (by omega), le_succ 6 _ (by omega), le_succ 5 _ (by omega), le_succ 4 _ hx]
  rfl

theorem flatMap_congr' {α β : Type} {l : List α} {f g : α → List β} (h : ∀ a ∈ l, f a = g a) :
    l.flatMap f = l.flatMap g := by
  induction l with
  | nil => rfl
  | cons a l ih =>
    rw [List.flatMap_cons, List.flatMap_cons, h a (by simp), ih (fun b hb => h b (by simp [hb]))]

/-! ### The theorem -/

section
variable {r : Reg} {e : Env} {o : Ord} {σ : Seal} {F : Buf} {D : Result}
variable (hr : r.OK) (hsm : r.Small) (ho : o.OK r) (hs : SealOK (params r e o) σ) (hF : FileOK r e o σ F)
  (hD : RawDump r e F D)

theorem slot_some (hr : r.OK) (hF : FileOK r e o σ F) {c : Chan} {t : Tok} (ht : t ∈ regToks r c) :
    σ (.slot t) ≠ none := by
  obtain ⟨v, hv, _⟩ := cov hr (hF.recs.mono (fun _ _ => owns_fileMem) (Seal.le_refl _)) ht
  simp [hv]

theorem sec_perm (hr : r.OK) (hs : SealOK (params r e o) σ) (hF : FileOK r e o σ F) (c : Chan)
    {α : Type} (f : Nat → α) {n : Nat} (hn : (regToks r c).length = n) :
    (secItems f (regBase r c) (regSlot r c) n).Perm
      (((regToks r c).map (slotOf σ)).map (fun k => (k, f k))) := by
  have h := slots_perm (P := params r e o) (params_wf hr) hs (c := c) (fun t ht => slot_some hr hF ht)
  subst hn
  refine List.Perm.trans ?_ (h.map (fun k => (k, f k))).symm
  rw [List.map_map]
  exact .refl _

theorem slot_lt (hr : r.OK) (hsm : r.Small) (hs : SealOK (params r e o) σ) {t : Tok} {v : Nat}
    (h : σ (.slot t) = some v) : v < 2 ^ 48 ∧ 0 < v ∧ t ∈ regToks r t.chan := by
  obtain ⟨h1, h2, q, h3⟩ := hs.1 t v h
  have hl := hsm.length
  have hmem : t ∈ regToks r t.chan := h1
  have hal : t.chan.isAlloc = true := by cases t <;> rfl
  obtain ⟨h4, h5⟩ := base_le hr e o hal (v := v) (x := (params r e o).slotLen t.chan) (by rw [h3]; omega) h2
  exact ⟨by omega, by omega, hmem⟩

theorem ofNat64_toNat {x : Nat} (h : x < 2 ^ 48) : (BitVec.ofNat 64 x).toNat = x := by
  simp; omega

include hr hsm hs hF hD in
theorem strAt_of {t : Tok} {s : Str} {x : Nat} (hc : t.chan = .str) (hl : s.length ≤ StringLength)
    (h : StrAt (FileAt F) σ t s x) : strAt D (BitVec.ofNat 64 x) = some (trimNul s) := by
  obtain ⟨h1, h2⟩ := h
  obtain ⟨hlt, _, hm⟩ := slot_lt hr hsm hs h1
  rw [hc] at hm
  have hp := hD.strings.trans (sec_perm hr hs hF .str _ (regToks_length hr).2.2.2.2)
  unfold strAt
  rw [ofNat64_toNat hlt, look_perm hp (List.mem_map.2 ⟨t, hm, slotOf_eq h1⟩)]
  simp only [Option.map_some, Option.some.injEq]
  rw [bytesAt_of h2 (pad_length hl), trimNul_pad]

include hr hsm hs hF hD in
theorem textOf_of {t : Tok} {s : Str} {x : Nat} (hc : t.chan = .str) (hl : s.length ≤ StringLength)
    (h : TextAt (FileAt F) σ t s x) : textOf D (BitVec.ofNat 64 x) = some (trimNul s) := by
  unfold TextAt at h
  unfold textOf
  split at h
  · rename_i h0
    subst h0; subst h
    rfl
  · obtain ⟨hlt, hpos, _⟩ := slot_lt hr hsm hs h.1
    rw [if_neg, strAt_of hr hsm hs hF hD hc hl h]
    intro h0
    have := congrArg BitVec.toNat h0
    rw [ofNat64_toNat hlt] at this
    simp at this; omega

def addrsOf (σ : Seal) : Addrs where
  indom := fun u => slotOf σ (.indom u)
  inst := fun u n => slotOf σ (.inst u n)
  metric := fun u => slotOf σ (.metric u)
  value := fun u s => slotOf σ (.value u s)

include hr hsm hs hF hD in
theorem metric_shows {m : Metric} (hm : m ∈ r.metrics) :
    ∃ x, look D.metrics (slotOf σ (.metric m.uid)) = some x ∧ MetricShows D x m := by
  have hp := hD.metrics.trans (sec_perm hr hs hF .metric _ (regToks_length hr).2.2.1)
  have htok : Tok.metric m.uid ∈ regToks r .metric := List.mem_map.2 ⟨m, hm, rfl⟩
  refine ⟨_, look_perm hp (List.mem_map.2 ⟨_, htok, rfl⟩), ?_⟩
  obtain ⟨v, so, lo, h1, h2, h3, h4⟩ := (hF.recs.2 m hm).1
  rw [slotOf_eq h1]
  have hshort := textOf_of hr hsm hs hF hD rfl (hr.metricText m hm).1 h2
  have hlong := textOf_of hr hsm hs hF hD rfl (hr.metricText m hm).2 h3
  have hbase : ∀ nm v, FileAt F v (descBytes m ++ le 8 so ++ le 8 lo) →
      metricBase F nm v = ⟨nm, m.desc.id, m.desc.t, m.desc.sem, m.desc.unit,
        (match m.indom with | some d => d.id | none => -1), 0, BitVec.ofNat 64 so, BitVec.ofNat 64 lo⟩ := by
    intro nm v h
    have hil : (indomIdBytes m.indom).length = 4 := by unfold indomIdBytes; split <;> simp
    simp only [descBytes, FileAt.append, le_length, List.length_append, hil] at h
    obtain ⟨⟨⟨⟨⟨⟨⟨a1, a2⟩, a3⟩, a4⟩, a5⟩, a6⟩, a7⟩, a8⟩ := h
    have hind : f32 F (v + 16) = (match m.indom with | some d => d.id | none => -1) := by
      unfold indomIdBytes at a5
      split at a5 <;> rename_i hmi <;> rw [hmi]
      · rw [f32_of a5, ofNat_toNat32]
      · rw [f32_of a5]; rfl
    unfold metricBase
    rw [f32_of a1, f32_of a2, f32_of a3, f32_of a4, hind, f32_of a6, f64_of a7, f64_of a8,
      ofNat_toNat32, ofNat_toNat32, ofNat_toNat32, ofNat_toNat32]
    rfl
  unfold decMetric
  split at h4
  · rename_i hv
    rw [if_pos hv]
    obtain ⟨no, h5, h6⟩ := h4
    have hname := strAt_of hr hsm hs hF hD rfl (hr.metricName m hm) h5
    rw [List.append_assoc, List.append_assoc, FileAt.append] at h6
    obtain ⟨h6, h7⟩ := h6
    rw [le_length, ← List.append_assoc] at h7
    rw [hbase _ _ h7, f64_of h6]
    exact ⟨hname, rfl, rfl, rfl, rfl, rfl, rfl, hshort, hlong⟩
  · rename_i hv
    rw [if_neg hv]
    have hnl := hr.v1metric (by simpa using hv) m hm
    rw [List.append_assoc, List.append_assoc, FileAt.append] at h4
    obtain ⟨h6, h7⟩ := h4
    have hpl : (pad (MaxV1NameLength + 1) m.desc.name).length = 64 := pad_length (Nat.le_succ_of_le hnl)
    rw [hpl, ← List.append_assoc] at h7
    rw [hbase _ _ h7, bytesAt_of h6 hpl]
    refine ⟨?_, rfl, rfl, rfl, rfl, rfl, rfl, hshort, hlong⟩
    simp only [nameOf, trimNul_pad]

include hr hsm hs hF hD in
theorem inst_shows {d : Indom} (hd : d ∈ r.indoms) {i : Inst} (hi : i ∈ d.insts) :
    ∃ x, look D.instances (slotOf σ (.inst d.uid i.name)) = some x ∧ InstShows D (addrsOf σ) x d i := by
  have hp := hD.insts.trans (sec_perm hr hs hF .inst _ (regToks_length hr).2.1)
  have htok : Tok.inst d.uid i.name ∈ regToks r .inst :=
    List.mem_flatMap.2 ⟨d, hd, List.mem_map.2 ⟨i, hi, rfl⟩⟩
  refine ⟨_, look_perm hp (List.mem_map.2 ⟨_, htok, rfl⟩), ?_⟩
  obtain ⟨v, inoff, h1, _, h3, h4⟩ := (hF.recs.1 d hd).2 i hi
  have hinl := (slot_lt hr hsm hs h3).1
  have hin : (BitVec.ofNat 64 inoff).toNat = (addrsOf σ).indom d.uid := by
    rw [ofNat64_toNat hinl]; exact (slotOf_eq h3).symm
  rw [slotOf_eq h1]
  unfold decInst
  split at h4
  · rename_i hv
    rw [if_pos hv]
    obtain ⟨so, h5, h6⟩ := h4
    have hname := strAt_of hr hsm hs hF hD rfl (hr.instNameLen d hd i hi) h5
    simp only [FileAt.append, le_length, List.length_append] at h6
    obtain ⟨⟨⟨a1, a2⟩, a3⟩, a4⟩ := h6
    rw [f64_of a1, f32_of a2, f32_of a3, f64_of a4, ofNat_toNat32]
    exact ⟨hin, rfl, rfl, hname⟩
  · rename_i hv
    rw [if_neg hv]
    have hnl := hr.v1inst (by simpa using hv) d hd i hi
    simp only [FileAt.append, le_length, List.length_append] at h4
    obtain ⟨⟨⟨a1, a2⟩, a3⟩, a4⟩ := h4
    rw [f64_of a1, f32_of a2, f32_of a3, bytesAt_of a4 (pad_length (Nat.le_succ_of_le hnl)), ofNat_toNat32]
    refine ⟨hin, rfl, rfl, ?_⟩
    simp only [nameOf, trimNul_pad]

include hr hsm ho hs hF hD in
theorem indom_shows {d : Indom} (hd : d ∈ r.indoms) :
    ∃ x, look D.indoms (slotOf σ (.indom d.uid)) = some x ∧ IndomShows D (addrsOf σ) r.InstanceLength x d := by
  have hp := hD.indoms.trans (sec_perm hr hs hF .indom _ (regToks_length hr).1)
  have htok : Tok.indom d.uid ∈ regToks r .indom := List.mem_map.2 ⟨d, hd, rfl⟩
  refine ⟨_, look_perm hp (List.mem_map.2 ⟨_, htok, rfl⟩), ?_⟩
  obtain ⟨v, ioff, so, lo, h1, _, h2, h3, h4, h5⟩ := (hF.recs.1 d hd).1
  have hshort := textOf_of hr hsm hs hF hD rfl (hr.indomText d hd).1 h3
  have hlong := textOf_of hr hsm hs hF hD rfl (hr.indomText d hd).2 h4
  rw [slotOf_eq h1]
  simp only [FileAt.append, le_length, List.length_append] at h5
  obtain ⟨⟨⟨⟨a1, a2⟩, a3⟩, a4⟩, a5⟩ := h5
  unfold decIndom
  rw [f32_of a1, f32_of a2, f64_of a3, f64_of a4, f64_of a5, ofNat_toNat32]
  have hperm := ho.insts d hd
  have hlen : (o.insts d).length = d.insts.length := hperm.length_eq
  have hcnt : d.insts.length < 2 ^ 31 := by
    have h6 := hsm.insts
    have h7 : d.insts.length ≤ (r.indoms.map (fun d => d.insts.length)).sum :=
      le_sum_of_mem (List.mem_map.2 ⟨d, hd, rfl⟩)
    have h8 := hr.instanceCount
    unfold Reg.InstanceCount at h6
    omega
  refine ⟨rfl, by simp; omega, ?_, hshort, hlong⟩
  by_cases hemp : (o.insts d).length = 0
  · have h6 : d.insts.length = 0 := by omega
    rw [List.length_eq_zero_iff.1 h6]
    exact List.Perm.refl _
  have hio : (BitVec.ofNat 64 ioff).toNat = ioff := by
    have hpos : 0 < (o.insts d).length := by omega
    have h6 := h2 0 _ (List.getElem?_eq_getElem hpos)
    have h7 := (slot_lt hr hsm hs h6).1
    simp only [Nat.zero_mul, Nat.add_zero] at h7
    exact ofNat64_toNat h7
  simp only [hio]
  refine List.Perm.trans ?_ (hperm.map (fun i => slotOf σ (.inst d.uid i.name)))
  rw [← hlen]
  have : (List.range (o.insts d).length).map (fun j => ioff + j * r.InstanceLength) =
      (o.insts d).map (fun i => slotOf σ (.inst d.uid i.name)) := by
    apply List.ext_getElem
    · simp
    · intro j hj1 hj2
      simp only [List.length_map] at hj2
      simp only [List.getElem_map, List.getElem_range]
      rw [slotOf_eq (h2 j _ (List.getElem?_eq_getElem hj2))]
  rw [this]

include hr hsm hs hF hD in
theorem value_shows (hty : r.Typed) {m : Metric} (hm : m ∈ r.metrics) {s : Option Str} (hsl : s ∈ m.slotNames) :
    ∃ v x, m.cur s = some v ∧ look D.values (slotOf σ (.value m.uid s)) = some x ∧
      ValueShows D (addrsOf σ) x m s v := by
  have hp := hD.values.trans (sec_perm hr hs hF .value _ (regToks_length hr).2.2.2.1)
  have htok : Tok.value m.uid s ∈ regToks r .value :=
    List.mem_flatMap.2 ⟨m, hm, List.mem_map.2 ⟨s, hsl, rfl⟩⟩
  obtain ⟨val, hval, hvok⟩ := hr.vals m hm s hsl
  have hcur : m.cur s = some val := by rw [cur_eq_val, hval]
  refine ⟨val, _, hcur, look_perm hp (List.mem_map.2 ⟨_, htok, rfl⟩), ?_⟩
  obtain ⟨⟨v, u, h1, _, h3⟩, ⟨v', doff, ioff, h4, h5, h6, h7⟩⟩ := (hF.recs.2 m hm).2 s hsl val hval
  rw [h1] at h4; obtain rfl := Option.some.inj h4
  rw [slotOf_eq h1]
  simp only [FileAt.append, le_length] at h7
  obtain ⟨a3, a4⟩ := h7
  simp only [MaxDataValueSize] at a3 a4
  have hm2 : (f64 F (v + 16)).toNat = (addrsOf σ).metric m.uid := by
    rw [f64_of a3, ofNat64_toNat (slot_lt hr hsm hs h5).1]; exact (slotOf_eq h5).symm
  refine ⟨hm2, ?_, ?_⟩
  · have h24 := f64_of a4
    rw [show v + 16 + 8 = v + 24 by omega] at h24
    have hdi : (decValue F v).inst = BitVec.ofNat 64 ioff := h24
    rw [hdi]
    clear htok hval hcur h1 h3 a3 a4 h24 hdi hsl
    cases s with
    | none => obtain rfl : ioff = 0 := h6; rfl
    | some n =>
      cases hmi : m.indom with
      | none => rw [hmi] at h6; obtain rfl : ioff = 0 := h6; rfl
      | some d =>
        rw [hmi] at h6
        have h6 : σ (.slot (.inst d.uid n)) = some ioff := h6
        show (BitVec.ofNat 64 ioff).toNat = slotOf σ (.inst d.uid n)
        rw [ofNat64_toNat (slot_lt hr hsm hs h6).1, slotOf_eq h6]
  · have hty := hty m hm s val hcur
    have h32 : ∀ x : BitVec 32, FileAt F v (pad MaxDataValueSize (le 4 x.toNat)) →
        f64 F v = x.setWidth 64 ∧ f64 F (v + 8) = 0 := by
      intro x h
      have h' : FileAt F v (le 8 x.toNat ++ le 8 0) := by rw [pad_le4] at h; exact h
      rw [FileAt.append] at h'
      have h8 := f64_of h'.2
      rw [le_length] at h8
      refine ⟨?_, h8⟩
      rw [f64_of h'.1]
      apply BitVec.eq_of_toNat_eq; simp
    have h64 : ∀ x : BitVec 64, FileAt F v (pad MaxDataValueSize (le 8 x.toNat)) →
        f64 F v = x ∧ f64 F (v + 8) = 0 := by
      intro x h
      have h' : FileAt F v (le 8 x.toNat ++ le 8 0) := h
      rw [FileAt.append] at h'
      have h8 := f64_of h'.2
      rw [le_length] at h8
      refine ⟨?_, h8⟩
      rw [f64_of h'.1]
      apply BitVec.eq_of_toNat_eq; simp
    unfold ValData at h3
    rcases hty with ⟨ht, x, rfl⟩ | ⟨ht, x, rfl⟩ | ⟨ht, x, rfl⟩ | ⟨ht, x, rfl⟩ | ⟨ht, x, rfl⟩ | ⟨ht, x, rfl⟩ |
      ⟨ht, x, rfl⟩
    case inr.inr.inr.inr.inr.inr =>
      rw [if_pos ht] at h3
      obtain ⟨str, h8, h9, h10⟩ := h3
      obtain rfl : x = str := by injection h8
      rw [FileAt.append] at h9
      obtain ⟨b1, b2⟩ := h9
      rw [le_length] at b2
      have hvl : x.length ≤ StringLength := by
        unfold ValOK at hvok
        rw [if_pos ht] at hvok
        obtain ⟨y, hy, hl⟩ := hvok
        injection hy with hy; rw [hy]; exact hl
      refine ⟨?_, ?_⟩
      · show f64 F v = 255
        rw [f64_of b1]; rfl
      · show strAt D (f64 F (v + 8)) = _
        rw [f64_of b2]
        exact strAt_of hr hsm hs hF hD rfl hvl h10
    all_goals
      rw [if_neg (by rw [ht]; decide)] at h3
      obtain ⟨_, bs, hbs, h9⟩ := h3
      have hbs := Option.some.inj hbs
      subst hbs
      show fixedVal (f64 F v) m.desc.t = _ ∧ f64 F (v + 8) = 0
      first
      | (have c := h32 _ h9
         rw [c.1, c.2, ht]; refine ⟨?_, rfl⟩
         simp [fixedVal])
      | (have c := h64 _ h9
         rw [c.1, c.2, ht]; exact ⟨rfl, rfl⟩)


/-- The string a token stands for. -/
def textIn (bs : Buf) (x : Nat) : Str := trimNul (bytesAt bs x 256)

include hr hsm hs hF in
theorem textIn_of {t : Tok} {s : Str} {x : Nat} (hl : s.length ≤ StringLength)
    (h : StrAt (FileAt F) σ t s x) : textIn F (slotOf σ t) = trimNul s := by
  unfold textIn
  rw [slotOf_eq h.1, bytesAt_of h.2 (pad_length hl), trimNul_pad]

include hr hF in
theorem texts_of {t1 t2 : Tok} {a b : Str} {x y : Nat}
    (ha : a.length ≤ StringLength) (hb : b.length ≤ StringLength)
    (h1 : TextAt (FileAt F) σ t1 a x) (h2 : TextAt (FileAt F) σ t2 b y) :
    ((if a = [] then [] else [t1]) ++ (if b = [] then [] else [t2])).map (fun t => textIn F (slotOf σ t)) =
      ([a, b].filter (· ≠ [])).map trimNul := by
  have key : ∀ {t : Tok} {s : Str} {x : Nat}, s.length ≤ StringLength → TextAt (FileAt F) σ t s x → s ≠ [] →
      textIn F (slotOf σ t) = trimNul s := by
    intro t s x hl h hne
    unfold TextAt at h
    rw [if_neg hne] at h
    unfold textIn
    rw [slotOf_eq h.1, bytesAt_of h.2 (pad_length hl), trimNul_pad]
  by_cases h3 : a = [] <;> by_cases h4 : b = []
  · simp [h3, h4]
  · simp [h3, h4, key hb h2 h4]
  · simp [h3, h4, key ha h1 h3]
  · simp [h3, h4, key ha h1 h3, key hb h2 h4]

include hr hsm hs hF in
theorem strings_map (hty : r.Typed) :
    (regToks r .str).map (fun t => textIn F (slotOf σ t)) = r.strings.map trimNul := by
  simp only [regToks, Reg.strings, List.map_append, List.map_flatMap]
  congr 1
  · apply flatMap_congr'
    intro d hd
    obtain ⟨v, ioff, so, lo, h1, _, h2, h3, h4, h5⟩ := (hF.recs.1 d hd).1
    unfold indomStrToks
    rw [List.map_append, texts_of hr hF (hr.indomText d hd).1 (hr.indomText d hd).2 h3 h4]
    congr 1
    split
    · rename_i hv
      rw [List.map_map, List.map_map]
      apply List.map_congr_left
      intro i hi
      obtain ⟨_, _, _, _, _, h6⟩ := (hF.recs.1 d hd).2 i hi
      rw [if_pos hv] at h6
      obtain ⟨so, h6, _⟩ := h6
      exact textIn_of hr hsm hs hF (hr.instNameLen d hd i hi) h6
    · rfl
  · apply flatMap_congr'
    intro m hm
    obtain ⟨v, so, lo, h1, h2, h3, h4⟩ := (hF.recs.2 m hm).1
    unfold metricStrToks
    rw [List.append_assoc (if r.version2 = true then [Tok.metName m.uid] else []), List.map_append,
      List.map_append, texts_of hr hF (hr.metricText m hm).1 (hr.metricText m hm).2 h2 h3]
    congr 1
    · congr 1
      split
      · rename_i hv
        rw [if_pos hv] at h4
        obtain ⟨no, h4, _⟩ := h4
        simp only [List.map_cons, List.map_nil]
        rw [textIn_of hr hsm hs hF (hr.metricName m hm) h4]
      · rfl
    · have hcase : ∀ s ∈ m.slots, m.desc.t = StringType → ∃ t : Str, m.cur s = some (.str t) ∧
          textIn F (slotOf σ (.valStr m.uid s)) = trimNul t := by
        intro s hsl ht
        obtain ⟨val, hval, hvok⟩ := hr.vals m hm s hsl
        unfold ValOK at hvok
        rw [if_pos ht] at hvok
        obtain ⟨t, rfl, hl⟩ := hvok
        obtain ⟨v, u, _, _, h7⟩ := ((hF.recs.2 m hm).2 s hsl _ hval).1
        unfold ValData at h7
        rw [if_pos ht] at h7
        obtain ⟨t', h8, _, h9⟩ := h7
        obtain rfl : t = t' := by injection h8
        exact ⟨t, by rw [cur_eq_val, hval], textIn_of hr hsm hs hF hl h9⟩
      by_cases ht : m.desc.t = StringType
      · rw [if_pos ht, slotNames_eq]
        generalize m.slots = sl at hcase
        clear h1 h2 h3 h4
        induction sl with
        | nil => rfl
        | cons s sl ih =>
          obtain ⟨t, h5, h6⟩ := hcase s (by simp) ht
          rw [List.map_cons, List.map_cons, List.filterMap_cons_some (b := t) (by rw [h5]), List.map_cons,
            ih (fun s' hs' => hcase s' (by simp [hs'])), h6]
      · rw [if_neg ht, slotNames_eq]
        rw [List.filterMap_eq_nil_iff.2]
        · rfl
        · intro s hsl
          obtain ⟨val, hval, hvok⟩ := hr.vals m hm s hsl
          unfold ValOK at hvok
          rw [if_neg ht] at hvok
          rw [cur_eq_val, hval]
          cases val with
          | str t => exact absurd rfl (hvok.1 t)
          | _ => rfl

theorem secItems_keys {α : Type} (f : Nat → α) (off L n : Nat) :
    (secItems f off L n).map Prod.fst = (List.range n).map (fun i => off + i * L) := by
  unfold secItems
  rw [List.map_map]; rfl

theorem range_nodup (off n : Nat) {L : Nat} (hL : 0 < L) :
    ((List.range n).map (fun i => off + i * L)).Nodup := by
  rw [List.nodup_map_iff_inj_on List.nodup_range]
  intro i _ j _ h
  have : i * L = j * L := by omega
  exact Nat.eq_of_mul_eq_mul_right hL this

theorem keys_nodup {α : Type} {l : List (Nat × α)} {f : Nat → α} {off L n : Nat} (hL : 0 < L)
    (h : l.Perm (secItems f off L n)) : (l.map Prod.fst).Nodup := by
  have := h.map Prod.fst
  rw [secItems_keys] at this
  exact this.nodup_iff.2 (range_nodup off n hL)

include hr hs hF in
theorem keys_perm {α : Type} {l : List (Nat × α)} {f : Nat → α} (c : Chan) {n : Nat}
    (hn : (regToks r c).length = n) (h : l.Perm (secItems f (regBase r c) (regSlot r c) n)) :
    (l.map Prod.fst).Perm ((regToks r c).map (slotOf σ)) := by
  have h2 := (h.trans (sec_perm hr hs hF c f hn)).map Prod.fst
  have h3 : (((regToks r c).map (slotOf σ)).map (fun k => (k, f k))).map Prod.fst = (regToks r c).map (slotOf σ) := by
    rw [List.map_map]; exact List.map_id _
  rw [h3] at h2
  exact h2

/-- A complete file, read back, describes the registry. -/
theorem describesAt (hr : r.OK) (hsm : r.Small) (ho : o.OK r) (hty : r.Typed) (hs : SealOK (params r e o) σ)
    (hF : FileOK r e o σ F) (hD : RawDump r e F D) : DescribesAt r D (addrsOf σ) where
  indomKeys := by
    have := keys_perm hr hs hF .indom (regToks_length hr).1 hD.indoms
    simpa [regToks, List.map_map, Function.comp_def, addrsOf] using this
  instKeys := by
    have := keys_perm hr hs hF .inst (regToks_length hr).2.1 hD.insts
    simpa [regToks, List.map_flatMap, List.map_map, Function.comp_def, addrsOf] using this
  metricKeys := by
    have := keys_perm hr hs hF .metric (regToks_length hr).2.2.1 hD.metrics
    simpa [regToks, List.map_map, Function.comp_def, addrsOf] using this
  valueKeys := by
    have := keys_perm hr hs hF .value (regToks_length hr).2.2.2.1 hD.values
    simpa [regToks, List.map_flatMap, List.map_map, Function.comp_def, slotNames_eq, addrsOf] using this
  nodup := by
    refine ⟨keys_nodup ?_ hD.indoms, keys_nodup ?_ hD.insts, keys_nodup ?_ hD.metrics, keys_nodup ?_ hD.values,
      keys_nodup ?_ hD.strings⟩
    · decide
    · unfold Reg.InstanceLength; split <;> decide
    · unfold Reg.MetricLength; split <;> decide
    · decide
    · decide
  indoms := fun d hd => indom_shows hr hsm ho hs hF hD hd
  insts := fun d hd i hi => inst_shows hr hsm hs hF hD hd hi
  metrics := fun m hm => metric_shows hr hsm hs hF hD hm
  values := fun m hm s hsl => value_shows hr hsm hs hF hD hty hm hsl
  strings := by
    have hp := hD.strings.trans (sec_perm hr hs hF .str _ (regToks_length hr).2.2.2.2)
    have h1 := hp.map (fun p => trimNul p.2.payload)
    rw [← strings_map hr hsm hs hF hty]
    refine h1.trans ?_
    rw [List.map_map, List.map_map]
    exact .refl _

/-- `Dump` of a complete file succeeds, whatever the schedule, with the expected header, and the
result describes the registry. -/
theorem dump_describes (hr : r.OK) (hsm : r.Small) (ho : o.OK r) (hty : r.Typed)
    (hs : SealOK (params r e o) σ) (hF : FileOK r e o σ F) {out : DumpOut} (h : Dumps F out) :
    ∃ D, out = .ok D ∧ D.header = hdrOf r e ∧ Describes r D := by
  obtain ⟨D, h1, h2⟩ := dump_raw hr hsm hF h
  exact ⟨D, h1, h2.header, _, describesAt hr hsm ho hty hs hF h2⟩

end
end Speed
