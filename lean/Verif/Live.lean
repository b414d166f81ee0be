import Verif.ValueModel
import Verif.Publish
/-
Effect of value updates on the mapped file.
-/
namespace Speed

/-! ### `put` -/

theorem put_desc (m : Metric) (s v) : (m.put s v).desc = m.desc := rfl
theorem put_uid (m : Metric) (s v) : (m.put s v).uid = m.uid := rfl
theorem put_kind (m : Metric) (s v) : (m.put s v).kind = m.kind := rfl

theorem put_indom (m : Metric) (s v) : (m.put s v).indom = m.indom := by
  unfold Metric.put Metric.indom
  cases m.body <;> cases s <;> rfl

theorem put_slots (m : Metric) (s v) : (m.put s v).slots = m.slots := by
  unfold Metric.put Metric.slots
  cases m.body <;> cases s <;> rfl

theorem put_slotNames (m : Metric) (s v) : (m.put s v).slotNames = m.slotNames := put_slots m s v

theorem put_valueCount (m : Metric) (s v) : (m.put s v).valueCount = m.valueCount := by
  unfold Metric.valueCount; rw [put_indom]

theorem put_cur (m : Metric) (s s' : Option Str) (v : GoVal) :
    (m.put s v).cur s' = if s' = s then (m.cur s).map (fun _ => v) else m.cur s' := by
  have key : ∀ (vs : List (Str × GoVal)) (n n' : Str),
      ((vs.map (fun p => if p.1 = n then (p.1, v) else p)).find? (fun p => p.1 = n')).map Prod.snd =
      if n' = n then ((vs.find? (fun p => p.1 = n)).map Prod.snd).map (fun _ => v)
      else (vs.find? (fun p => p.1 = n')).map Prod.snd := by
    intro vs n n'
    induction vs with
    | nil => simp
    | cons p vs ih =>
      obtain ⟨k, x⟩ := p
      by_cases h1 : k = n
      · subst h1
        by_cases h2 : k = n'
        · subst h2; simp
        · have h3 : ¬ n' = k := fun h => h2 h.symm
          rw [if_neg h3] at ih ⊢
          simp only [List.map_cons, if_true]
          rw [List.find?_cons_of_neg (by simpa using h2), List.find?_cons_of_neg (by simpa using h2)]
          exact ih
      · simp only [List.map_cons, if_neg h1]
        by_cases h2 : k = n'
        · subst h2
          rw [if_neg h1]; simp
        · rw [List.find?_cons_of_neg (by simpa using h2), List.find?_cons_of_neg (p := fun p : Str × GoVal => decide (p.1 = n)) (by simpa using h1),
            List.find?_cons_of_neg (p := fun p : Str × GoVal => decide (p.1 = n')) (by simpa using h2)]
          exact ih
  unfold Metric.put Metric.cur
  cases hb : m.body with
  | single w => cases s <;> cases s' <;> simp
  | inst d vs =>
    cases s with
    | none => cases s' <;> simp
    | some n =>
      cases s' with
      | none => simp
      | some n' =>
        have := key vs n n'
        simp only [Option.some.injEq]
        exact this

theorem put_val (m : Metric) (s s' : Option Str) (v : GoVal) :
    (m.put s v).val s' = if s' = s then (m.val s).map (fun _ => v) else m.val s' := by
  rw [← cur_eq_val, ← cur_eq_val, ← cur_eq_val, put_cur]

theorem put_known {m : Metric} {s v} (h : m.Known) : (m.put s v).Known := by
  unfold Metric.Known at *
  unfold Metric.put
  dsimp only
  cases hb : m.body <;> rw [hb] at h <;> cases s <;> exact h

theorem put_WF {m : Metric} {s v} (h : m.WF) (hv : Typed m.desc.t v) : (m.put s v).WF where
  name := h.name
  len := h.len
  id := h.id
  kind := h.kind.imp put_known id
  single := by
    intro w hw
    unfold Metric.put at hw
    dsimp only at hw
    cases hb : m.body with
    | single x =>
      rw [hb] at hw
      cases s with
      | none => simp only [Body.single.injEq] at hw; subst hw; exact hv
      | some n => simp only at hw; exact h.single w (by rw [hb]; exact hw)
    | inst d vs => rw [hb] at hw; cases s <;> cases hw
  inst := by
    intro d vs hw
    unfold Metric.put at hw
    dsimp only at hw
    cases hb : m.body with
    | single x => rw [hb] at hw; cases s <;> cases hw
    | inst d' vs' =>
      rw [hb] at hw
      obtain ⟨h1, h2, h3⟩ := h.inst d' vs' hb
      cases s with
      | none => simp only at hw; exact h.inst d vs (by rw [hb]; exact hw)
      | some n =>
        simp only [Body.inst.injEq] at hw
        obtain ⟨rfl, rfl⟩ := hw
        refine ⟨h1, ?_, ?_⟩
        · rw [← h2, List.map_map]
          apply List.map_congr_left
          intro p _
          dsimp only [Function.comp]
          split <;> rfl
        · intro p hp
          obtain ⟨q, hq, rfl⟩ := List.mem_map.1 hp
          split
          · exact hv
          · exact h3 q hq

/-! ### Replacing a metric in the registry -/

/-- The registry after the object of a registered metric has changed. -/
def Reg.setMetric (r : Reg) (m : Metric) : Reg :=
  { r with metrics := r.metrics.map (fun x => if x.uid = m.uid then m else x) }

section
variable {r : Reg} {m : Metric} {s : Option Str} {v : GoVal} (hm : m ∈ r.metrics) (hu : (r.metrics.map (·.uid)).Nodup)

theorem eq_of_uid {l : List Metric} (hu : (l.map (·.uid)).Nodup) {a b : Metric} (ha : a ∈ l) (hb : b ∈ l)
    (h : a.uid = b.uid) : a = b := by
  induction l with
  | nil => cases ha
  | cons x l ih =>
    rw [List.map_cons, List.nodup_cons] at hu
    rcases List.mem_cons.1 ha with ha | ha <;> rcases List.mem_cons.1 hb with hb | hb
    · rw [ha, hb]
    · exact absurd (List.mem_map.2 ⟨b, hb, by rw [← h, ha]⟩) hu.1
    · exact absurd (List.mem_map.2 ⟨a, ha, by rw [h, hb]⟩) hu.1
    · exact ih hu.2 ha hb

include hm hu in
/-- A function that does not see the change is constant under `setMetric`. -/
theorem map_setMetric {β : Type} (f : Metric → β) (hf : f (m.put s v) = f m) :
    (r.setMetric (m.put s v)).metrics.map f = r.metrics.map f := by
  unfold Reg.setMetric
  rw [List.map_map]
  apply List.map_congr_left
  intro x hx
  dsimp only [Function.comp]
  split
  · rename_i h
    rw [hf, eq_of_uid hu hx hm h]
  · rfl

theorem mem_setMetric {x : Metric} (h : x ∈ (r.setMetric m).metrics) :
    x = m ∨ (x ∈ r.metrics ∧ x.uid ≠ m.uid) := by
  unfold Reg.setMetric at h
  obtain ⟨y, hy, rfl⟩ := List.mem_map.1 h
  split
  · exact .inl rfl
  · rename_i hne; exact .inr ⟨hy, hne⟩

include hm in
theorem mem_setMetric_self : m.put s v ∈ (r.setMetric (m.put s v)).metrics := by
  unfold Reg.setMetric
  exact List.mem_map.2 ⟨m, hm, by rw [if_pos (put_uid ..).symm]⟩

theorem mem_setMetric_other {x : Metric} (h : x ∈ r.metrics) (hne : x.uid ≠ m.uid) :
    x ∈ (r.setMetric m).metrics := by
  unfold Reg.setMetric
  exact List.mem_map.2 ⟨x, h, by rw [if_neg hne]⟩

include hm hu in
theorem regToks_setMetric : regToks (r.setMetric (m.put s v)) = regToks r := by
  funext c
  cases c with
  | indom => rfl
  | inst => rfl
  | metric => exact map_setMetric hm hu (fun m => Tok.metric m.uid) (by rw [put_uid])
  | value =>
    simp only [regToks, List.flatMap_def]
    rw [map_setMetric (s := s) (v := v) hm hu (fun m => m.slots.map (fun s => Tok.value m.uid s)) (by rw [put_slots, put_uid])]
  | str =>
    simp only [regToks, List.flatMap_def]
    have h2 : (r.setMetric (m.put s v)).metrics.map (metricStrToks (r.setMetric (m.put s v))) =
        r.metrics.map (metricStrToks r) := by
      have : metricStrToks (r.setMetric (m.put s v)) = metricStrToks r := rfl
      rw [this]
      apply map_setMetric hm hu
      unfold metricStrToks
      rw [put_slots, put_uid, put_desc]
    rw [h2]; rfl
  | gen => rfl
  | g2 => rfl

theorem MetricCount_setMetric : (r.setMetric m).MetricCount = r.MetricCount := by
  simp [Reg.setMetric, Reg.MetricCount]

theorem StringCount_setMetric : (r.setMetric m).StringCount = r.StringCount := by
  unfold Reg.StringCount; rw [MetricCount_setMetric]; rfl

theorem tocCount_setMetric : (r.setMetric m).tocCount = r.tocCount := by
  unfold Reg.tocCount; rw [StringCount_setMetric]; rfl

theorem indomoffset_setMetric : (r.setMetric m).indomoffset = r.indomoffset := by
  unfold Reg.indomoffset; rw [tocCount_setMetric]
theorem instanceoffset_setMetric : (r.setMetric m).instanceoffset = r.instanceoffset := by
  unfold Reg.instanceoffset; rw [indomoffset_setMetric]; rfl
theorem metricsoffset_setMetric : (r.setMetric m).metricsoffset = r.metricsoffset := by
  unfold Reg.metricsoffset; rw [instanceoffset_setMetric]; rfl
theorem valuesoffset_setMetric : (r.setMetric m).valuesoffset = r.valuesoffset := by
  unfold Reg.valuesoffset; rw [metricsoffset_setMetric, MetricCount_setMetric]; rfl
theorem stringsoffset_setMetric : (r.setMetric m).stringsoffset = r.stringsoffset := by
  unfold Reg.stringsoffset; rw [valuesoffset_setMetric]; rfl

theorem Length_setMetric : (r.setMetric m).Length = r.Length := by
  unfold Reg.Length; rw [tocCount_setMetric, MetricCount_setMetric, StringCount_setMetric]; rfl

theorem hdrBytes_setMetric (e g) : hdrBytes (r.setMetric m) e g = hdrBytes r e g := by
  unfold hdrBytes; rw [tocCount_setMetric]; rfl

theorem tocEntries_setMetric : tocEntries (r.setMetric m) = tocEntries r := by
  unfold tocEntries
  rw [MetricCount_setMetric, StringCount_setMetric, indomoffset_setMetric, instanceoffset_setMetric,
    metricsoffset_setMetric, valuesoffset_setMetric, stringsoffset_setMetric]
  rfl

include hm hu in
theorem sealOK_setMetric {e o o' σ} (h : SealOK (params r e o) σ) :
    SealOK (params (r.setMetric (m.put s v)) e o') σ := by
  have hb : regBase (r.setMetric (m.put s v)) = regBase r := by
    funext c
    cases c <;> simp only [regBase, indomoffset_setMetric, instanceoffset_setMetric, metricsoffset_setMetric,
      valuesoffset_setMetric, stringsoffset_setMetric]
  have hl : regSlot (r.setMetric (m.put s v)) = regSlot r := by funext c; cases c <;> rfl
  have ht := regToks_setMetric (s := s) (v := v) hm hu
  obtain ⟨h1, h2⟩ := h
  refine ⟨?_, h2⟩
  intro t x hx
  obtain ⟨a1, a2, a3⟩ := h1 t x hx
  simp only [params, Params.lim] at a1 a2 a3 ⊢
  rw [hb, hl, ht]
  exact ⟨a1, a2, a3⟩

include hm hu in
theorem Reg.OK.setMetric (hr : r.OK) (hv : ValOK m.desc.t v) :
    (r.setMetric (m.put s v)).OK where
  indomUid := hr.indomUid
  metricUid := by rw [map_setMetric hm hu _ (put_uid ..)]; exact hr.metricUid
  instName := hr.instName
  instanceCount := hr.instanceCount
  valueCount := by
    rw [map_setMetric hm hu _ (put_valueCount ..)]; exact hr.valueCount
  stringcount := by
    rw [map_setMetric hm hu _ (by unfold Metric.stringCount; rw [put_valueCount, put_desc])]; exact hr.stringcount
  v1metric := by
    intro h x hx
    rcases mem_setMetric hx with rfl | ⟨hx, _⟩
    · exact hr.v1metric h m hm
    · exact hr.v1metric h x hx
  v1inst := hr.v1inst
  metricName := by
    intro x hx
    rcases mem_setMetric hx with rfl | ⟨hx, _⟩
    · exact hr.metricName m hm
    · exact hr.metricName x hx
  instNameLen := hr.instNameLen
  nonempty := hr.nonempty
  indomText := hr.indomText
  metricText := by
    intro x hx
    rcases mem_setMetric hx with rfl | ⟨hx, _⟩
    · exact hr.metricText m hm
    · exact hr.metricText x hx
  vals := by
    intro x hx s' hs'
    rcases mem_setMetric hx with rfl | ⟨hx, _⟩
    · rw [put_slots] at hs'
      obtain ⟨w, hw, hok⟩ := hr.vals m hm s' hs'
      rw [put_val]
      by_cases h : s' = s
      · subst h; rw [if_pos rfl, hw]; exact ⟨v, rfl, hv⟩
      · rw [if_neg h]; exact ⟨w, hw, hok⟩
    · exact hr.vals x hx s' hs'
  registered := by
    intro x hx d hd
    rcases mem_setMetric hx with rfl | ⟨hx, _⟩
    · rw [put_indom] at hd; exact hr.registered m hm d hd
    · exact hr.registered x hx d hd
  known := by
    intro x hx
    rcases mem_setMetric hx with rfl | ⟨hx, _⟩
    · exact put_known (hr.known m hm)
    · exact hr.known x hx

include hm in
theorem Reg.Typed.setMetric (hty : r.Typed) (hv : Speed.Typed m.desc.t v) :
    (r.setMetric (m.put s v)).Typed := by
  intro x hx s' w hw
  rcases mem_setMetric hx with rfl | ⟨hx, _⟩
  · rw [put_cur] at hw
    split at hw
    · cases hc : m.cur s with
      | none => rw [hc] at hw; cases hw
      | some y => rw [hc] at hw; obtain rfl := Option.some.inj hw; exact hv
    · exact hty m hm s' w hw
  · exact hty x hx s' w hw

theorem Reg.Small.setMetric (h : r.Small) : (r.setMetric m).Small where
  indoms := h.indoms
  insts := h.insts
  metrics := by rw [MetricCount_setMetric]; exact h.metrics
  values := h.values
  strings := by rw [StringCount_setMetric]; exact h.strings

end

/-! ### The write -/

/-- The bytes an update stores: the encoding, for a string padded to its slot. -/
def newBytes : GoVal → List Byte
  | .str s => pad StringLength s
  | v => (binaryWrite v).getD []

theorem place_pad (b : Buf) (off : Nat) (s : Str) (hs : s.length ≤ 256) (h : off + 256 ≤ b.length) :
    place (place b off (zeros StringLength)) off s = place b off (pad StringLength s) := by
  show place (place b off (zeros 256)) off s = place b off (pad 256 s)
  have hz : (zeros 256).length = 256 := List.length_replicate
  have hp : (pad 256 s).length = 256 := pad_length hs
  apply List.ext_getElem?
  intro j
  rw [place_get _ _ _ (by simp; omega), place_get _ _ _ (by omega), place_get _ _ _ (by omega), hz, hp]
  by_cases h1 : off ≤ j ∧ j < off + s.length
  · rw [if_pos h1, if_pos (by omega)]
    unfold pad
    rw [List.getElem?_append_left (by omega)]
  · rw [if_neg h1]
    by_cases h2 : off ≤ j ∧ j < off + 256
    · rw [if_pos h2, if_pos h2]
      unfold pad zeros
      rw [List.getElem?_append_right (by omega), List.getElem?_replicate, List.getElem?_replicate, if_pos (by omega),
        if_pos (by omega)]
    · rw [if_neg h2, if_neg h2]

theorem andThen_ok (b : Buf) (n : Int) (k : Buf → WRes) : (WRes.ok b n).andThen k = k b := rfl

theorem bwWriteVal_str (b : Buf) (s : Str) (off : Int) : bwWriteVal b (.str s) off = bwWriteString b s off := rfl

theorem updClosure_of {b b1 b2 : Buf} {off : Nat} {s : Str} {n1 n2 : Int}
    (h1 : bwWrite b (zeros StringLength) off = .ok b1 n1) (h2 : bwWriteString b1 s off = .ok b2 n2) :
    updClosure off (.str s) b = .ok b2 n2 := by
  have h3 : must (bwWrite b (zeros StringLength) off) = .ok b1 n1 := congrArg must h1
  have h4 : updClosure off (.str s) b =
    (must (bwWrite b (zeros StringLength) off)).andThen (fun b => bwWriteVal b (.str s) off) := rfl
  rw [h4, h3, andThen_ok, bwWriteVal_str, h2]

/-- The update closure stores `newBytes` when they fit. -/
theorem updClosure_ok {t : MetricType} {v : GoVal} (hv : ValOK t v) {b : Buf} {off : Nat}
    (h : off + (newBytes v).length ≤ b.length) (hl : b.length < 9223372036854775808) :
    ∃ n, updClosure off v b = .ok (place b off (newBytes v)) n := by
  cases v with
  | str s =>
    have hs : s.length ≤ 256 := by
      unfold ValOK at hv
      split at hv
      · obtain ⟨s', h1, h2⟩ := hv; cases h1; exact h2
      · exact absurd rfl (hv.1 s)
    have hp : (pad StringLength s).length = 256 := pad_length hs
    simp only [newBytes] at h
    have hz : (zeros StringLength).length = 256 := zeros_length _
    obtain ⟨n, hn⟩ := bwWriteString_ok (b := place b off (zeros StringLength)) (off := off) (s := s)
      (by rw [place_length]; omega) (by rw [place_length]; omega)
    refine ⟨n, ?_⟩
    rw [newBytes, ← place_pad b off s hs (by omega)]
    exact updClosure_of (bwWrite_ok (by omega) (by omega)) hn
  | _ =>
    unfold ValOK at hv
    split at hv
    · obtain ⟨s', h1, h2⟩ := hv; cases h1
    · obtain ⟨_, bs, hbs⟩ := hv
      unfold updClosure
      dsimp only [bwWriteVal]
      simp only [hbs]
      simp only [newBytes, hbs, Option.getD_some] at h ⊢
      exact ⟨_, bwWrite_ok h (by omega)⟩

/-! ### Disjointness of slots -/

section
variable {r : Reg} {e : Env} {o : Ord} {σ : Seal} {F : Buf}

theorem slot_range (hr : r.OK) (hs : SealOK (params r e o) σ) {t : Tok} {x : Nat} (h : σ (.slot t) = some x) :
    40 + 16 * r.tocCount ≤ x ∧ x + regSlot r t.chan ≤ r.Length ∧ regBase r t.chan ≤ x ∧
      x + regSlot r t.chan ≤ (params r e o).lim t.chan := by
  obtain ⟨h1, h2, q, h3⟩ := hs.1 t x h
  have hal : t.chan.isAlloc = true := by cases t <;> rfl
  obtain ⟨h4, h5⟩ := base_le hr e o hal (v := x) (x := (params r e o).slotLen t.chan) (by rw [h3]; omega) h2
  exact ⟨h4, h5, by rw [h3]; exact Nat.le_add_right _ _, h2⟩

/-- Distinct slots do not overlap. -/
theorem slot_disj (hr : r.OK) (hs : SealOK (params r e o) σ) {t t' : Tok} {x x' : Nat}
    (h : σ (.slot t) = some x) (h' : σ (.slot t') = some x') (hne : t ≠ t') :
    x + regSlot r t.chan ≤ x' ∨ x' + regSlot r t'.chan ≤ x := by
  obtain ⟨a1, a2, a3, a4⟩ := slot_range hr hs h
  obtain ⟨b1, b2, b3, b4⟩ := slot_range hr hs h'
  obtain ⟨l1, l2, l3, l4, l5⟩ := lim_eq hr e o
  obtain ⟨c1, c2, c3, c4, c5, c6⟩ := off_chain r
  by_cases hc : t.chan = t'.chan
  · obtain ⟨_, _, q, hq⟩ := hs.1 t x h
    obtain ⟨_, _, q', hq'⟩ := hs.1 t' x' h'
    have hxx : x ≠ x' := by
      rintro rfl; exact hne (hs.2 t t' x hc h h')
    simp only [params] at hq hq'
    rw [← hc] at hq' ⊢
    rcases Nat.lt_trichotomy q q' with hlt | rfl | hlt
    · left
      have : regSlot r t.chan * (q + 1) ≤ regSlot r t.chan * q' := Nat.mul_le_mul_left _ hlt
      rw [Nat.mul_add, Nat.mul_one] at this; omega
    · omega
    · right
      have : regSlot r t.chan * (q' + 1) ≤ regSlot r t.chan * q := Nat.mul_le_mul_left _ hlt
      rw [Nat.mul_add, Nat.mul_one] at this; omega
  · cases t <;> cases t' <;> simp only [Tok.chan, ne_eq, not_true, reduceCtorEq, not_false_eq_true] at * <;>
      simp only [l1, l2, l3, l4, l5, regBase] at a3 a4 b3 b4 <;> omega

/-- The change of one value's data: everything else is kept. -/
theorem put_file (hr : r.OK) (hs : SealOK (params r e o) σ) (hF : FileOK r e o σ F)
    {m : Metric} (hm : m ∈ r.metrics) {s : Option Str} (hsl : s ∈ m.slots) {v : GoVal}
    (hty : r.Typed) (hvt : Speed.Typed m.desc.t v) (hv : ValOK m.desc.t v) {u : Nat}
    (hu : σ (.cell (.upd m.uid s)) = some u) :
    u + (newBytes v).length ≤ F.length ∧
    FileOK (r.setMetric (m.put s v)) e o σ (place F u (newBytes v)) := by
  classical
  have hlenF := hF.len
  obtain ⟨old, hold, _⟩ := hr.vals m hm s hsl
  obtain ⟨⟨v0, u0, h1, h2, h3⟩, hrec2⟩ := (hF.recs.2 m hm).2 s hsl old hold
  rw [hu] at h2
  obtain rfl := Option.some.inj h2
  have hoty := hty m hm s old (by rw [cur_eq_val]; exact hold)
  -- the changed range is inside the slot of token `t0`
  have hmid : ∃ t0, σ (.slot t0) = some u ∧ (newBytes v).length ≤ regSlot r t0.chan ∧
      ((m.desc.t = StringType ∧ t0 = .valStr m.uid s ∧ ∃ str, v = .str str ∧ newBytes v = pad 256 str) ∨
       (m.desc.t ≠ StringType ∧ t0 = .value m.uid s ∧ u = v0 ∧ ∃ bs bs0, binaryWrite v = some bs ∧
          newBytes v = bs ∧ binaryWrite old = some bs0 ∧ bs.length = bs0.length ∧ bs.length ≤ 8)) := by
    unfold ValData at h3
    by_cases ht : m.desc.t = StringType
    · rw [if_pos ht] at h3
      obtain ⟨str, _, _, hsa, _⟩ := h3
      unfold ValOK at hv
      rw [if_pos ht] at hv
      obtain ⟨str', rfl, hl⟩ := hv
      refine ⟨_, hsa, ?_, .inl ⟨ht, rfl, str', rfl, rfl⟩⟩
      simp only [newBytes]
      rw [pad_length hl]; exact Nat.le_refl _
    · rw [if_neg ht] at h3
      obtain ⟨rfl, bs0, hb0, _⟩ := h3
      have hbs : ∃ bs, binaryWrite v = some bs ∧ newBytes v = bs ∧ bs.length = bs0.length ∧ bs.length ≤ 8 := by
        rcases hvt with ⟨h, x, rfl⟩ | ⟨h, x, rfl⟩ | ⟨h, x, rfl⟩ | ⟨h, x, rfl⟩ | ⟨h, x, rfl⟩ | ⟨h, x, rfl⟩ | ⟨h, x, rfl⟩ <;>
        rcases hoty with ⟨g, y, rfl⟩ | ⟨g, y, rfl⟩ | ⟨g, y, rfl⟩ | ⟨g, y, rfl⟩ | ⟨g, y, rfl⟩ | ⟨g, y, rfl⟩ | ⟨g, y, rfl⟩ <;>
        first
          | (exfalso; rw [h] at g; revert g; decide)
          | (exfalso; exact ht h)
          | (obtain rfl := Option.some.inj hb0; exact ⟨_, rfl, rfl, by simp, by simp⟩)
      obtain ⟨bs, g1, g2, g3, g4⟩ := hbs
      exact ⟨_, h1, by rw [g2]; exact Nat.le_trans g4 (show (8:Nat) ≤ 32 by decide),
        .inr ⟨ht, rfl, rfl, bs, bs0, g1, g2, hb0, g3, g4⟩⟩
  obtain ⟨t0, ht0, hfit, hcase⟩ := hmid
  obtain ⟨r1, r2, _, _⟩ := slot_range hr hs ht0
  have hin : u + (newBytes v).length ≤ F.length := by omega
  refine ⟨hin, ?_⟩
  have hget : ∀ a, a < u ∨ u + (newBytes v).length ≤ a → (place F u (newBytes v))[a]? = F[a]? := by
    intro a ha
    rw [place_get _ _ _ hin, if_neg (by omega)]
  have hnew : FileAt (place F u (newBytes v)) u (newBytes v) := by
    intro j b hj
    have hjl : j < (newBytes v).length := by
      by_contra hge
      rw [List.getElem?_eq_none (by omega)] at hj; cases hj
    rw [place_get _ _ _ hin, if_pos (by omega), show u + j - u = j by omega]; exact hj
  have hout : ∀ (x : Nat) (bs : List Byte), x + bs.length ≤ u ∨ u + (newBytes v).length ≤ x →
      FileAt F x bs → FileAt (place F u (newBytes v)) x bs := by
    intro x bs hd h j b hj
    have hjl : j < bs.length := by
      by_contra hge
      rw [List.getElem?_eq_none (by omega)] at hj; cases hj
    rw [hget _ (by omega)]; exact h j b hj
  have keep : ∀ (t : Tok) (x k : Nat) (bs : List Byte), σ (.slot t) = some x → t ≠ t0 →
      k + bs.length ≤ regSlot r t.chan → FileAt F (x + k) bs → FileAt (place F u (newBytes v)) (x + k) bs := by
    intro t x k bs hx hne hk
    apply hout
    rcases slot_disj hr hs hx ht0 hne with h | h <;> omega
  have keep0 : ∀ (t : Tok) (x : Nat) (bs : List Byte), σ (.slot t) = some x → t ≠ t0 →
      bs.length ≤ regSlot r t.chan → FileAt F x bs → FileAt (place F u (newBytes v)) x bs := by
    intro t x bs hx hne hk h
    have := keep t x 0 bs hx hne (by omega)
    rw [Nat.add_zero] at this; exact this h
  have keepS : ∀ (t : Tok) (str : Str) (x : Nat), t ≠ t0 → t.chan = .str → str.length ≤ 256 →
      StrAt (FileAt F) σ t str x → StrAt (FileAt (place F u (newBytes v))) σ t str x := by
    intro t str x hne hc hl ⟨h1, h2⟩
    refine ⟨h1, keep0 t x _ h1 hne ?_ h2⟩
    rw [pad_length hl, hc]; exact Nat.le_refl _
  have keepT : ∀ (t : Tok) (str : Str) (x : Nat), t ≠ t0 → t.chan = .str → str.length ≤ 256 →
      TextAt (FileAt F) σ t str x → TextAt (FileAt (place F u (newBytes v))) σ t str x := by
    intro t str x hne hc hl h
    unfold TextAt at *
    split at h
    · rw [if_pos (by assumption)]; exact h
    · rw [if_neg (by assumption)]; exact keepS t str x hne hc hl h
  have ht0v : ∀ t, (∀ a b, t ≠ .valStr a b) → (∀ a b, t ≠ .value a b) → t ≠ t0 := by
    rintro t g1 g2 rfl
    rcases hcase with ⟨_, h, _⟩ | ⟨_, h, _⟩
    · exact g1 _ _ h
    · exact g2 _ _ h
  have hidb : ∀ x : Option Indom, (indomIdBytes x).length = 4 := by
    intro x; unfold indomIdBytes; split <;> simp
  -- other records of metrics
  have keepDesc : ∀ x ∈ r.metrics, DescRec r (FileAt F) σ x → DescRec r (FileAt (place F u (newBytes v))) σ x := by
    intro x hx ⟨w, so, lo, g1, g2, g3, g4⟩
    refine ⟨w, so, lo, g1, keepT _ _ _ (ht0v _ (by simp) (by simp)) rfl (hr.metricText x hx).1 g2,
      keepT _ _ _ (ht0v _ (by simp) (by simp)) rfl (hr.metricText x hx).2 g3, ?_⟩
    split at g4
    · rename_i hv2
      rw [if_pos hv2]
      obtain ⟨no, g5, g6⟩ := g4
      refine ⟨no, keepS _ _ _ (ht0v _ (by simp) (by simp)) rfl (hr.metricName x hx) g5, ?_⟩
      refine keep0 _ _ _ g1 (ht0v _ (by simp) (by simp)) ?_ g6
      simp [descBytes, hidb, regSlot, Tok.chan, Reg.MetricLength, hv2]
    · rename_i hv2
      rw [if_neg hv2]
      refine keep0 _ _ _ g1 (ht0v _ (by simp) (by simp)) ?_ g4
      have := pad_length (n := MaxV1NameLength + 1) (s := x.desc.name)
        (Nat.le_succ_of_le (hr.v1metric (by simpa using hv2) x hx))
      simp [descBytes, hidb, regSlot, Tok.chan, Reg.MetricLength, hv2, this]
  have keepVal : ∀ x ∈ r.metrics, ∀ s' ∈ x.slots, ∀ val, x.val s' = some val → (x.uid ≠ m.uid ∨ s' ≠ s) →
      ValRec1 (FileAt F) σ x s' val → ValRec1 (FileAt (place F u (newBytes v))) σ x s' val := by
    intro x hx s' hs' val hval hne ⟨w, uu, g1, g2, g3⟩
    have hne1 : Tok.value x.uid s' ≠ t0 := by
      rintro rfl
      rcases hcase with ⟨_, h, _⟩ | ⟨_, h, _⟩
      · cases h
      · injection h with ha hb; rcases hne with h | h <;> [exact h ha; exact h hb]
    have hne2 : Tok.valStr x.uid s' ≠ t0 := by
      rintro rfl
      rcases hcase with ⟨_, h, _⟩ | ⟨_, h, _⟩
      · injection h with ha hb; rcases hne with h | h <;> [exact h ha; exact h hb]
      · cases h
    refine ⟨w, uu, g1, g2, ?_⟩
    unfold ValData at *
    split at g3
    · rename_i hst
      rw [if_pos hst]
      obtain ⟨str, rfl, g4, g5⟩ := g3
      obtain ⟨val', hval', hok⟩ := hr.vals x hx s' hs'
      rw [hval] at hval'
      obtain rfl := Option.some.inj hval'
      unfold ValOK at hok
      rw [if_pos hst] at hok
      obtain ⟨str', he, hl⟩ := hok
      cases he
      exact ⟨str, rfl, keep0 _ _ _ g1 hne1 (by rw [List.length_append, le_length, le_length]; show (16:Nat) ≤ 32; decide) g4, keepS _ _ _ hne2 rfl hl g5⟩
    · rename_i hst
      rw [if_neg hst]
      obtain ⟨g4, bs, g5, g6⟩ := g3
      refine ⟨g4, bs, g5, keep0 _ _ _ g1 hne1 ?_ g6⟩
      have hb8 : bs.length ≤ 8 := by
        cases val <;> simp [binaryWrite] at g5 <;> subst g5 <;> simp
      rw [pad_length (by show bs.length ≤ 16; omega)]
      show (16 : Nat) ≤ 32; decide
  have keepVal2 : ∀ x ∈ r.metrics, ∀ s', ValRec2 (FileAt F) σ x s' →
      ValRec2 (FileAt (place F u (newBytes v))) σ x s' := by
    intro x hx s' ⟨w, doff, ioff, g1, g2, g3, g4⟩
    refine ⟨w, doff, ioff, g1, g2, g3, ?_⟩
    by_cases he : Tok.value x.uid s' = t0
    · subst he
      rw [g1] at ht0
      obtain rfl := Option.some.inj ht0
      apply hout _ _ _ g4
      right
      rcases hcase with ⟨_, h, _⟩ | ⟨_, _, _, bs, _, _, h, _, _, h8⟩
      · cases h
      · rw [h]; show w + bs.length ≤ w + 16; omega
    · exact keep _ _ _ _ g1 he (by simp [regSlot, Tok.chan]) g4
  -- assemble
  refine ⟨by simp [Length_setMetric, hlenF], ?_, ?_, ?_, ?_⟩
  · rw [hdrBytes_setMetric]
    apply hout _ _ _ hF.hdr
    left
    have : (hdrBytes r e e.gen.toNat).length = 40 := by simp [hdrBytes, magic]
    omega
  · intro j x hj
    rw [tocEntries_setMetric] at hj
    apply hout _ _ _ (hF.toc j x hj)
    left
    have hjl : j < r.tocCount := by
      rw [← tocEntries_length hr]
      by_contra hge
      rw [List.getElem?_eq_none (by omega)] at hj; cases hj
    have : (tocBytes x).length = 16 := by simp [tocBytes]
    rw [this]
    show 40 + 16 * j + 16 ≤ u
    omega
  · intro d hd
    obtain ⟨⟨w, ioff, so, lo, g1, g0, g2, g3, g4, g5⟩, g6⟩ := hF.recs.1 d hd
    refine ⟨⟨w, ioff, so, lo, g1, g0, g2, keepT _ _ _ (ht0v _ (by simp) (by simp)) rfl (hr.indomText d hd).1 g3,
      keepT _ _ _ (ht0v _ (by simp) (by simp)) rfl (hr.indomText d hd).2 g4,
      keep0 _ _ _ g1 (ht0v _ (by simp) (by simp)) (by simp [regSlot, Tok.chan]) g5⟩, ?_⟩
    intro i hi
    obtain ⟨w, inoff, k1, k2, k3, k4⟩ := g6 i hi
    refine ⟨w, inoff, k1, k2, k3, ?_⟩
    change if (r.version2 = true) then _ else _
    split at k4
    · rename_i hv2
      rw [if_pos hv2]
      obtain ⟨so, k5, k6⟩ := k4
      refine ⟨so, keepS _ _ _ (ht0v _ (by simp) (by simp)) rfl (hr.instNameLen d hd i hi) k5,
        keep0 _ _ _ k1 (ht0v _ (by simp) (by simp)) ?_ k6⟩
      simp [regSlot, Tok.chan, Reg.InstanceLength, hv2]
    · rename_i hv2
      refine (if_neg hv2).mpr ?_
      refine keep0 _ _ _ k1 (ht0v _ (by simp) (by simp)) ?_ k4
      have := pad_length (n := MaxV1NameLength + 1) (s := i.name)
        (Nat.le_succ_of_le (hr.v1inst (by simpa using hv2) d hd i hi))
      simp [regSlot, Tok.chan, Reg.InstanceLength, hv2, this]
      decide
  · intro x hx
    rcases mem_setMetric hx with rfl | ⟨hx, hne⟩
    · obtain ⟨g1, g2⟩ := hF.recs.2 m hm
      refine ⟨?_, ?_⟩
      · obtain ⟨w, so, lo, a1, a2, a3, a4⟩ := keepDesc m hm g1
        refine ⟨w, so, lo, a1, a2, a3, ?_⟩
        have hdb : descBytes (m.put s v) = descBytes m := by
          unfold descBytes; rw [put_desc, put_indom]
        rw [hdb]; exact a4
      · intro s' hs' val hval
        rw [put_slots] at hs'
        have h22 : ∀ w, m.val s' = some w → ValRec2 (FileAt (place F u (newBytes v))) σ (m.put s v) s' := by
          intro w hw
          obtain ⟨a, b, c, d1, d2, d3, d4⟩ := keepVal2 m hm s' (g2 s' hs' w hw).2
          refine ⟨a, b, c, d1, d2, ?_, d4⟩
          rw [put_indom]; exact d3
        by_cases hss : s' = s
        · subst hss
          rw [put_val, if_pos rfl, hold] at hval
          obtain rfl := Option.some.inj hval
          refine ⟨⟨v0, u, h1, hu, ?_⟩, h22 _ hold⟩
          unfold ValData at h3 ⊢
          rcases hcase with ⟨ht, rfl, str, rfl, hnb⟩ | ⟨ht, rfl, rfl, bs, bs0, hb, hnb, hb0, hl, h8⟩
          · rw [if_pos (show (m.put s' (.str str)).desc.t = StringType from ht)]
            rw [if_pos ht] at h3
            obtain ⟨str0, _, k1, k2⟩ := h3
            refine ⟨str, rfl, ?_, ht0, ?_⟩
            · exact keep0 _ _ _ h1 (by simp) (by rw [List.length_append, le_length, le_length]; show (16:Nat) ≤ 32; decide) k1
            · rw [hnb] at hnew ⊢; exact hnew
          · rw [if_neg (show ¬ (m.put s' v).desc.t = StringType from ht)]
            rw [if_neg ht] at h3
            obtain ⟨_, bs0', hb0', k1⟩ := h3
            rw [hb0] at hb0'
            obtain rfl := Option.some.inj hb0'
            refine ⟨rfl, bs, hb, ?_⟩
            unfold pad at k1 ⊢
            rw [FileAt.append] at k1 ⊢
            rw [hnb] at hnew hout ⊢
            refine ⟨hnew, ?_⟩
            rw [hl]
            exact hout _ _ (.inr (by rw [hl])) k1.2
        · rw [put_val, if_neg hss] at hval
          refine ⟨?_, h22 _ hval⟩
          exact keepVal m hm s' hs' val hval (.inr hss) (g2 s' hs' val hval).1
    · obtain ⟨g1, g2⟩ := hF.recs.2 x hx
      exact ⟨keepDesc x hx g1, fun s' hs' val hval =>
        ⟨keepVal x hx s' hs' val hval (.inl hne) (g2 s' hs' val hval).1, keepVal2 x hx s' (g2 s' hs' val hval).2⟩⟩

end

end Speed
