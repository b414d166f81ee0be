import Verif.PropsAccept
import Verif.PropsStart
import Verif.PropsEdge
import Verif.PropsClients
/-
A reader that reads the file piece by piece while `Start` writes it (C67).
-/
namespace Speed
open Dump

section
variable {r : Reg} {o : Ord} {At : Nat → List Byte → Prop} {σ : Seal} {e : Env}

/-! ### Records lie behind the header -/

theorem TextAt.above (hv : ∀ t v, σ (.slot t) = some v → 40 ≤ v) {t s x} (h : TextAt At σ t s x) :
    TextAt (fun v bs => 40 ≤ v ∧ At v bs) σ t s x := by
  unfold TextAt at *
  split at h
  · rw [if_pos (by assumption)]; exact h
  · rw [if_neg (by assumption)]; exact ⟨h.1, hv _ _ h.1, h.2⟩

theorem AllRec.above (hv : ∀ t v, σ (.slot t) = some v → 40 ≤ v) (h : AllRec r o At σ) :
    AllRec r o (fun v bs => 40 ≤ v ∧ At v bs) σ := by
  refine ⟨fun d hd => ⟨?_, fun i hi => ?_⟩, fun m hm => ⟨?_, fun s hs val hval => ⟨?_, ?_⟩⟩⟩
  · obtain ⟨v, ioff, so, lo, h1, h0, h2, h3, h4, h5⟩ := (h.1 d hd).1
    exact ⟨v, ioff, so, lo, h1, h0, h2, h3.above hv, h4.above hv, hv _ _ h1, h5⟩
  · obtain ⟨v, inoff, h1, h2, h3, h4⟩ := (h.1 d hd).2 i hi
    refine ⟨v, inoff, h1, h2, h3, ?_⟩
    split at h4
    · rw [if_pos (by assumption)]
      obtain ⟨so, h5, h6⟩ := h4
      exact ⟨so, ⟨h5.1, hv _ _ h5.1, h5.2⟩, hv _ _ h1, h6⟩
    · rw [if_neg (by assumption)]; exact ⟨hv _ _ h1, h4⟩
  · obtain ⟨v, so, lo, h1, h2, h3, h4⟩ := (h.2 m hm).1
    refine ⟨v, so, lo, h1, h2.above hv, h3.above hv, ?_⟩
    split at h4
    · rw [if_pos (by assumption)]
      obtain ⟨no, h5, h6⟩ := h4
      exact ⟨no, ⟨h5.1, hv _ _ h5.1, h5.2⟩, hv _ _ h1, h6⟩
    · rw [if_neg (by assumption)]; exact ⟨hv _ _ h1, h4⟩
  · obtain ⟨v, u, h1, h2, h3⟩ := ((h.2 m hm).2 s hs val hval).1
    refine ⟨v, u, h1, h2, ?_⟩
    unfold ValData at *
    split at h3
    · rw [if_pos (by assumption)]
      obtain ⟨str, h4, h5, h6⟩ := h3
      exact ⟨str, h4, ⟨hv _ _ h1, h5⟩, h6.1, hv _ _ h6.1, h6.2⟩
    · rw [if_neg (by assumption)]
      obtain ⟨h4, bs, h5, h6⟩ := h3
      exact ⟨h4, bs, h5, hv _ _ h1, h6⟩
  · obtain ⟨v, doff, ioff, h1, h2, h3, h4⟩ := ((h.2 m hm).2 s hs val hval).2
    exact ⟨v, doff, ioff, h1, h2, h3, by have := hv _ _ h1; omega, h4⟩

theorem slot_above (hs : SealOK (params r e o) σ) (t : Tok) (v : Nat) (h : σ (.slot t) = some v) : 40 ≤ v := by
  obtain ⟨h1, _, q, rfl⟩ := hs.1 t v h
  have : 40 ≤ regBase r t.chan := by
    revert h1
    show t ∈ regToks r t.chan → _
    cases t.chan <;> intro h1 <;> try cases h1
    all_goals
      simp only [regBase, Reg.indomoffset, Reg.instanceoffset, Reg.metricsoffset, Reg.valuesoffset, Reg.stringsoffset, HeaderLength]
      try omega
  exact Nat.le_trans this (Nat.le_add_right _ _)

end

/-! ### The reader -/

/-- `R` was read from the mapping while `Start` was running: byte `a` in the state `τ a`. The states can be any
states of the run, in any order. -/
structure ReadDuring (r : Reg) (e : Env) (o : Ord) (cells : Cell → Option Nat) (τ : Nat → St) (R : Buf) : Prop where
  reach : ∀ a, Reach (initSt r e o cells) (τ a)
  len : R.length = r.Length
  bytes : ∀ a, R[a]? = (τ a).mem[a]?

section
variable {r : Reg} {o : Ord} {e : Env} {cells : Cell → Option Nat} {τ : Nat → St} {R : Buf}

/-- A nonzero generation shows that some byte of the second one was read in the final phase. -/
theorem stamp_seen (hr : r.OK) (ho : o.OK r) (hg : e.gen ≠ 0) (h : ReadDuring r e o cells τ R) (h0 : f64 R 16 ≠ 0) :
    ∃ a, 16 ≤ a ∧ a < 24 ∧ ∃ σ F, SealOK (params r e o) σ ∧ FileOK r e o σ F ∧
      (∀ t, Reach (τ a) t → ∀ b, ¬ (16 ≤ b ∧ b < 24) → t.mem[b]? = F[b]?) ∧
      ∀ t, Reach (τ a) t → Returned t → t.mem = F := by
  have hex : ∃ a, 16 ≤ a ∧ a < 24 ∧ R[a]? ≠ some 0 := by
    by_contra hn
    apply h0
    have : bytesAt R 16 8 = zeros 8 := bytes_zero (fun i h1 h2 => by
      by_contra hne
      exact hn ⟨i, h1, by omega, hne⟩)
    unfold f64
    rw [this]
    decide
  obtain ⟨a, h1, h2, h3⟩ := hex
  refine ⟨a, h1, h2, ?_⟩
  rcases start_final hr ho (h.reach a) with h4 | ⟨σ, F, hs, hF, _, hag, hfin⟩
  · rw [h.bytes a] at h3
    exact absurd ((h4.1 hg).1 a h1 h2) h3
  · exact ⟨σ, F, hs, hF, hag, hfin⟩

/-- The bytes from 3 to 7 are the final ones or 0. -/
theorem version_bytes (hr : r.OK) (ho : o.OK r) (h : ReadDuring r e o cells τ R) {a : Nat} {b : Byte} (h1 : 3 ≤ a)
    (h2 : a < 8) (hb : R[a]? = some b) : b = 0 ∨ (0 :: le 4 (if r.version2 then 2 else 1))[a - 3]? = some b := by
  rw [h.bytes a] at hb
  rcases start_final hr ho (h.reach a) with h4 | ⟨σ, F, hs, hF, _, hag, _⟩
  · exact h4.2 a b h1 h2 hb
  · right
    rw [hag _ .refl a (by omega)] at hb
    have hlt : a - 3 < (0 :: le 4 (if r.version2 then 2 else 1) : List Byte).length := by simp; omega
    obtain ⟨x, hx⟩ : ∃ x, (0 :: le 4 (if r.version2 then 2 else 1) : List Byte)[a - 3]? = some x :=
      ⟨_, List.getElem?_eq_getElem hlt⟩
    have : (hdrBytes r e e.gen.toNat)[a]? = some x := by
      rw [show hdrBytes r e e.gen.toNat = magic ++ ((0 :: le 4 (if r.version2 then 2 else 1)) ++ (le 8 e.gen.toNat ++
        le 8 e.gen.toNat ++ le 4 r.tocCount ++ le 4 e.flag.toNat ++ le 4 e.pid.toNat ++ le 4 e.clusterID.toNat)) by
          simp [hdrBytes]]
      rw [List.getElem?_append_right (by show 3 ≤ a; exact h1), List.getElem?_append_left (by exact hlt)]
      exact hx
    have h5 := hF.hdr a x this
    rw [Nat.zero_add, hb] at h5
    rw [hx, ← h5]

/-- C67: a reader that reads the second generation number before all else, and finds it nonzero and equal to
the first, has read the final file: what `Dump` returns describes the registry, and the bytes are those of
every later state in which `Start` has returned. -/
theorem C67_stamp_first {r : Reg} (hb : Built r) (hp : r.Publishable) (hsm : r.Small) {o : Ord} (ho : o.OK r)
    {e : Env} (hg : e.gen ≠ 0) {cells τ R} (h : ReadDuring r e o cells τ R)
    (hord : ∀ a b, 16 ≤ a → a < 24 → ¬ (16 ≤ b ∧ b < 24) → Reach (τ a) (τ b))
    {D : Result} (hD : Dumps R (.ok D)) (h1 : D.header.g1 ≠ 0) :
    Describes r D ∧ ∃ a, 16 ≤ a ∧ a < 24 ∧ ∀ t, Reach (τ a) t → Returned t → t.mem = R := by
  have hr := hb.ok hp
  obtain ⟨hh, _, _⟩ := dumps_ok hD
  obtain ⟨hl40, hH, _, hgg⟩ := readHeader_ok hh
  rw [hH] at h1
  obtain ⟨a, ha1, ha2, σ, F, hs, hF, hag, hfin⟩ := stamp_seen hr ho hg h (by rw [← hgg]; exact h1)
  have hbs := (header_bytes hl40).1 hgg
  have hR : R = F := by
    apply List.ext_getElem?
    intro b
    have hne : ∀ b, ¬ (16 ≤ b ∧ b < 24) → R[b]? = F[b]? := fun b hb => by
      rw [h.bytes b]; exact hag _ (hord a b ha1 ha2 hb) b hb
    by_cases hb : 16 ≤ b ∧ b < 24
    · have e1 : R[b]? = R[b - 8]? := by
        have := congrArg (fun l => l[b - 16]?) hbs
        unfold bytesAt at this
        simp only [List.getElem?_take, List.getElem?_drop] at this
        rw [if_pos (by omega), if_pos (by omega), show 8 + (b - 16) = b - 8 by omega, show 16 + (b - 16) = b by omega] at this
        exact this.symm
      have hlt : b - 16 < 8 := by omega
      obtain ⟨x, hx⟩ : ∃ x, (le 8 e.gen.toNat)[b - 16]? = some x := ⟨_, List.getElem?_eq_getElem (by simpa using hlt)⟩
      have e2 : F[b]? = some x := by
        have := hF.hdr b x (by
          rw [show hdrBytes r e e.gen.toNat = (magic ++ [0] ++ le 4 (if r.version2 then 2 else 1) ++ le 8 e.gen.toNat) ++
            (le 8 e.gen.toNat ++ (le 4 r.tocCount ++ le 4 e.flag.toNat ++ le 4 e.pid.toNat ++ le 4 e.clusterID.toNat)) by
              simp [hdrBytes]]
          rw [List.getElem?_append_right (by simp [magic]; omega), List.getElem?_append_left (by simp [magic]; omega)]
          simpa [magic] using hx)
        simpa using this
      have e3 : F[b - 8]? = some x := by
        have := hF.hdr (b - 8) x (by
          rw [show hdrBytes r e e.gen.toNat = (magic ++ [0] ++ le 4 (if r.version2 then 2 else 1)) ++
            (le 8 e.gen.toNat ++ (le 8 e.gen.toNat ++ le 4 r.tocCount ++ le 4 e.flag.toNat ++ le 4 e.pid.toNat ++ le 4 e.clusterID.toNat)) by
              simp [hdrBytes]]
          rw [List.getElem?_append_right (by simp [magic]; omega), List.getElem?_append_left (by simp [magic]; omega)]
          refine Eq.trans (congrArg (fun i => (le 8 e.gen.toNat)[i]?) ?_) hx
          simp [magic]; omega)
        simpa using this
      rw [e1, hne (b - 8) (by omega), e2, e3]
    · exact hne b hb
  subst hR
  obtain ⟨D', h3, h4⟩ := dump_raw hr hsm hF hD
  injection h3 with h3
  subst h3
  exact ⟨⟨_, describesAt hr hsm ho (hb.typed) hs hF h4⟩, a, ha1, ha2, hfin⟩

/-- C67, partial: a reader that reads the rest of the file after the second generation number, for example from
front to back, and finds a generation and a version that are not zero gets a description of the registry.

Missing: files whose generation or version was read as zero, for which this is false
(`C67_refuted_generation`, `C67_refuted_version`), and readers that read the contents before the generation, for
which it is false as well (`C67_refuted_order`). -/
theorem C67_front_to_back_partial {r : Reg} (hb : Built r) (hp : r.Publishable) (hsm : r.Small) {o : Ord} (ho : o.OK r)
    {e : Env} (hg : e.gen ≠ 0) {cells τ R} (h : ReadDuring r e o cells τ R)
    (hord : ∀ a b, 16 ≤ a → a < 24 → 24 ≤ b → Reach (τ a) (τ b))
    {D : Result} (hD : Dumps R (.ok D)) (h1 : D.header.g1 ≠ 0) (h2 : D.header.version ≠ 0) : Describes r D := by
  have hr := hb.ok hp
  obtain ⟨hh, _, _⟩ := dumps_ok hD
  obtain ⟨hl40, hH, hmag, hgg⟩ := readHeader_ok hh
  rw [hH] at h1 h2
  obtain ⟨a, ha1, ha2, σ, F, hs, hF, hag, hfin⟩ := stamp_seen hr ho hg h (by rw [← hgg]; exact h1)
  have hbs := (header_bytes hl40).1 hgg
  have hhigh : ∀ b, 24 ≤ b → R[b]? = F[b]? := fun b hb => by
    rw [h.bytes b]; exact hag _ (hord a b ha1 ha2 hb) b (by omega)
  have hat : ∀ v bs, 24 ≤ v → FileAt F v bs → FileAt R v bs := fun v bs hv hF j b hj => by
    rw [hhigh _ (by omega)]; exact hF j b hj
  -- the header, with the generation that was read
  have hver : bytesAt R 3 5 = 0 :: le 4 (if r.version2 then 2 else 1) := by
    have hb5 : ∀ i < 5, ∃ x, R[3 + i]? = some x ∧ (x = 0 ∨ (0 :: le 4 (if r.version2 then 2 else 1) : List Byte)[i]? = some x) := by
      intro i hi
      have hx := List.getElem?_eq_getElem (l := R) (i := 3 + i) (by omega)
      refine ⟨_, hx, ?_⟩
      have := version_bytes hr ho h (by omega) (by omega) hx
      rwa [show 3 + i - 3 = i by omega] at this
    have hz : ∀ i < 5, i ≠ 1 → (0 :: le 4 (if r.version2 then 2 else 1) : List Byte)[i]? = some 0 := by
      intro i hi hi1
      have : i = 0 ∨ i = 2 ∨ i = 3 ∨ i = 4 := by omega
      rcases this with rfl | rfl | rfl | rfl <;> split <;> decide
    have hall : ∀ i < 5, R[3 + i]? = (0 :: le 4 (if r.version2 then 2 else 1) : List Byte)[i]? := by
      have hne1 : ∀ i < 5, i ≠ 1 → R[3 + i]? = some 0 := by
        intro i hi hi1
        obtain ⟨x, hx, h3 | h3⟩ := hb5 i hi
        · rw [hx, h3]
        · rw [hz i hi hi1] at h3
          rw [hx, ← h3]
      intro i hi
      by_cases hi1 : i = 1
      · subst hi1
        obtain ⟨x, hx, h3 | h3⟩ := hb5 1 (by omega)
        · exfalso
          apply h2
          have : bytesAt R 4 4 = zeros 4 := bytes_zero (fun j h4 h5 => by
            have : j = 3 + (j - 3) := by omega
            by_cases h6 : j - 3 = 1
            · rw [this, h6, hx, h3]
            · rw [this]; exact hne1 _ (by omega) h6)
          show f32 R 4 = 0
          unfold f32
          rw [this]
          decide
        · rw [hx, h3]
      · rw [hne1 i hi hi1, hz i hi hi1]
    apply List.ext_getElem?
    intro i
    unfold bytesAt
    rw [List.getElem?_take, List.getElem?_drop]
    split
    · exact hall i (by assumption)
    · rw [List.getElem?_eq_none]
      simp; omega
  have at_of : ∀ {v n bs}, bytesAt R v n = bs → FileAt R v bs := by
    intro v n bs hbs j b hj
    subst hbs
    unfold bytesAt at hj
    rw [List.getElem?_take, List.getElem?_drop] at hj
    split at hj
    · exact hj
    · cases hj
  have hgen : bytesAt R 8 8 = le 8 (f64 R 8).toNat := by
    have l1 : (bytesAt R 8 8).length = 8 := by simp [bytesAt]; omega
    have b1 := unLe_lt (bytesAt R 8 8)
    rw [l1] at b1
    unfold f64
    have h8 := le_unLe (bytesAt R 8 8)
    rw [l1] at h8
    rw [BitVec.toNat_ofNat, Nat.mod_eq_of_lt (by omega), h8]
  have hhdr : FileAt R 0 (hdrBytes r { e with gen := f64 R 8 } (f64 R 8).toNat) := by
    have hsplit : ∀ (e' : Env) g, hdrBytes r e' g = magic ++ ((0 :: le 4 (if r.version2 then 2 else 1)) ++ (le 8 e'.gen.toNat ++
        (le 8 g ++ (le 4 r.tocCount ++ le 4 e'.flag.toNat ++ le 4 e'.pid.toNat ++ le 4 e'.clusterID.toNat)))) := by
      intro e' g; simp [hdrBytes]
    have hF' := hF.hdr
    rw [hsplit] at hF' ⊢
    rw [FileAt.append, FileAt.append, FileAt.append, FileAt.append] at hF' ⊢
    refine ⟨at_of hmag, at_of (n := 5) hver, ?_, ?_, ?_⟩
    · exact at_of (n := 8) (by simpa [magic] using hgen)
    · exact at_of (n := 8) (by simpa [magic] using hbs.symm.trans hgen)
    · refine hat _ _ (by simp [magic]) ?_
      simpa [magic] using hF'.2.2.2.2
  have hR : FileOK r { e with gen := f64 R 8 } o σ R := by
    refine ⟨h.len, hhdr, fun j x hx => hat _ _ (by simp [HeaderLength]; omega) (hF.toc j x hx), ?_⟩
    exact (hF.recs.above (slot_above hs)).mono (fun v bs h3 => hat v bs (by omega) h3.2) (Seal.le_refl _)
  obtain ⟨D', h3, h4⟩ := dump_raw hr hsm hR hD
  injection h3 with h3
  subst h3
  exact ⟨_, describesAt hr hsm ho hb.typed (e := { e with gen := f64 R 8 }) hs hR h4⟩

end

/-! ### Readers that are deceived -/

/-- A registry with one counter, of value 5. -/
def cntReg : Reg := regOf (opsOf (newPCPCounter 1 5 sC []))
def cntEnv : Env := ⟨0, 0, 5, 6⟩

theorem cntReg_built : Built cntReg := ⟨_, _, opsOf_made (fun _ h => .counter h), rfl⟩
theorem cntReg_pub : cntReg.Publishable := publishable_of (by decide)
theorem cntReg_small : cntReg.Small := by constructor <;> decide

/-- `Start` of this registry after `n` steps. -/
def cntAt (n : Nat) : St := auto n (initSt cntReg cntEnv (idOrd cntReg) (fun _ => none))

theorem auto_add (n m : Nat) (s : St) : auto (n + m) s = auto m (auto n s) := by
  induction n generalizing s with
  | zero => simp [auto]
  | succ n ih =>
    rw [Nat.add_right_comm]
    show (match firstStep s with | some t => auto (n + m) t | none => s) = auto m (match firstStep s with | some t => auto n t | none => s)
    cases h : firstStep s with
    | some t => exact ih t
    | none =>
      dsimp only
      cases m with
      | zero => rfl
      | succ m =>
        show s = (match firstStep s with | some t => auto m t | none => s)
        rw [h]

theorem cntAt_reach {n m : Nat} (h : n ≤ m) : Reach (cntAt n) (cntAt m) := by
  obtain ⟨k, rfl⟩ := Nat.exists_eq_add_of_le h
  unfold cntAt
  rw [auto_add]
  exact reach_auto _ _

theorem cntAt_init (n : Nat) : Reach (initSt cntReg cntEnv (idOrd cntReg) (fun _ => none)) (cntAt n) := reach_auto _ _

attribute [irreducible] cntAt

/-- The bytes below `p` are read after `n` steps, the others after `m` steps. -/
def twoReads (p n m : Nat) : Buf := (cntAt n).mem.take p ++ (cntAt m).mem.drop p

set_option maxRecDepth 100000 in
theorem cntAt_len : cntReg.Length = 208 ∧ (cntAt 7).mem.length = 208 ∧ (cntAt 10).mem.length = 208 ∧
    (cntAt 90).mem.length = 208 ∧ (cntAt 200).mem.length = 208 := by decide +kernel

theorem twoReads_during {p n m : Nat} (hp : p ≤ 208) (hn : (cntAt n).mem.length = 208) (hm : (cntAt m).mem.length = 208) :
    ReadDuring cntReg cntEnv (idOrd cntReg) (fun _ => none) (fun a => if a < p then cntAt n else cntAt m) (twoReads p n m) where
  reach a := by
    split
    · exact cntAt_init n
    · exact cntAt_init m
  len := by
    rw [cntAt_len.1]
    simp only [twoReads, List.length_append, List.length_take, List.length_drop]
    omega
  bytes a := by
    unfold twoReads
    split
    · rename_i h
      rw [List.getElem?_append_left (by simp; omega), List.getElem?_take_of_lt h]
    · rename_i h
      rw [List.getElem?_append_right (by simp; omega), List.getElem?_drop]
      congr 1
      simp only [List.length_take]
      omega

theorem header_fields {R : Buf} {D : Result} (hD : Dumps R (.ok D)) :
    D.header.version = f32 R 4 ∧ D.header.g1 = f64 R 8 := by
  rw [(C33_header hD).1]
  exact ⟨rfl, rfl⟩

/-- With zeros in place of the metric's identifier, the registry is not described. -/
theorem cnt_undescribed {R : Buf} (h1 : f32 R 24 = 2) (h2 : (List.range 2).map (fun j => tocAt R (40 + j * 16)) =
      [⟨3, 1, 72⟩, ⟨4, 1, 176⟩]) (h3 : (metricAt (f32 R 4) R 72).item = 0) {D : Result} (hD : Dumps R (.ok D)) :
    ¬ Describes cntReg D := by
  obtain ⟨e1, e2, _⟩ := C33_header hD
  rw [h1] at e2
  have e2 := e2.trans h2
  have hv : D.header.version = f32 R 4 := by rw [e1]
  have hm := ((C33_items hD .metrics).1 ⟨3, 1, 72⟩ (by rw [e2]; decide) (by
    show 72 + 1 * _ < 2 ^ 64
    have := (Dump.Kind.size_pos D.header.version .metrics).2
    omega)).2.1
  have hm' : D.metrics = [(72, metricAt D.header.version R 72)] := by
    have h6 := List.perm_singleton.1 hm
    show Dump.Kind.items D .metrics = [(72, Dump.Kind.recAt D.header.version R .metrics 72)]
    rw [h6]
    simp
  rintro ⟨A, hA⟩
  obtain ⟨m, hmm, hid⟩ : ∃ m ∈ cntReg.metrics, m.desc.id ≠ 0 := by decide
  obtain ⟨x, hx, hs⟩ := hA.metrics m hmm
  have := mem_of_look hx
  rw [hm', List.mem_singleton] at this
  injection this with _ hx'
  apply hid
  rw [← hs.2.1, hx', hv]
  exact h3

set_option maxRecDepth 100000 in
theorem read_generation : fits (twoReads 24 10 90) = true ∧ f32 (twoReads 24 10 90) 24 = 2 ∧
    (List.range 2).map (fun j => tocAt (twoReads 24 10 90) (40 + j * 16)) = [⟨3, 1, 72⟩, ⟨4, 1, 176⟩] ∧
    f32 (twoReads 24 10 90) 4 = 1 ∧ (metricAt (f32 (twoReads 24 10 90) 4) (twoReads 24 10 90) 72).item = 0 := by
  decide +kernel

/-- C67 is false without the condition on the generation: a reader reads the file from front to back and gets
the generations before they are written, both 0. `Dump` accepts the bytes (of version 1) although the records had
not been written when they were read. -/
theorem C67_refuted_generation : ∃ r e o cells τ R D, Built r ∧ r.Publishable ∧ r.Small ∧ o.OK r ∧ e.gen ≠ 0 ∧
    ReadDuring r e o cells τ R ∧ (∀ a b, a ≤ b → Reach (τ a) (τ b)) ∧ Dumps R (.ok D) ∧ D.header.version = 1 ∧
    ¬ Describes r D := by
  obtain ⟨h1, h2, h3, h4, h5⟩ := read_generation
  obtain ⟨_, _, l10, l90, _⟩ := cntAt_len
  obtain ⟨D, hD⟩ := fits_accepts h1
  have hR := twoReads_during (p := 24) (by decide) l10 l90
  generalize twoReads 24 10 90 = R at *
  refine ⟨cntReg, cntEnv, _, _, _, R, D, cntReg_built, cntReg_pub, cntReg_small, idOrd_ok _, by decide,
    hR, ?_, hD, ?_, cnt_undescribed h2 h3 h5 hD⟩
  · intro a b hab
    split <;> split
    · exact .refl
    · exact cntAt_reach (by omega)
    · omega
    · exact .refl
  · exact (header_fields hD).1.trans h4

set_option maxRecDepth 100000 in
theorem read_version : fits (twoReads 8 7 200) = true ∧ f32 (twoReads 8 7 200) 24 = 2 ∧
    (List.range 2).map (fun j => tocAt (twoReads 8 7 200) (40 + j * 16)) = [⟨3, 1, 72⟩, ⟨4, 1, 176⟩] ∧
    f64 (twoReads 8 7 200) 8 = 5 ∧ (metricAt (f32 (twoReads 8 7 200) 4) (twoReads 8 7 200) 72).item = 0 := by
  decide +kernel

/-- C67 is false without the condition on the version: a reader reads the file from front to back and gets the
version before it is written; all else is read after `Start` has returned. `Dump` takes the bytes (of generation
5) for a file of version 0 and decodes the metric wrongly. -/
theorem C67_refuted_version : ∃ r e o cells τ R D, Built r ∧ r.Publishable ∧ r.Small ∧ o.OK r ∧ e.gen ≠ 0 ∧
    ReadDuring r e o cells τ R ∧ (∀ a b, a ≤ b → Reach (τ a) (τ b)) ∧ Dumps R (.ok D) ∧ D.header.g1 = 5 ∧
    ¬ Describes r D := by
  obtain ⟨h1, h2, h3, h4, h5⟩ := read_version
  obtain ⟨_, l7, _, _, l200⟩ := cntAt_len
  obtain ⟨D, hD⟩ := fits_accepts h1
  have hR := twoReads_during (p := 8) (by decide) l7 l200
  generalize twoReads 8 7 200 = R at *
  refine ⟨cntReg, cntEnv, _, _, _, R, D, cntReg_built, cntReg_pub, cntReg_small, idOrd_ok _, by decide,
    hR, ?_, hD, ?_, cnt_undescribed h2 h3 h5 hD⟩
  · intro a b hab
    split <;> split
    · exact .refl
    · exact cntAt_reach (by omega)
    · omega
    · exact .refl
  · exact (header_fields hD).2.trans h4

set_option maxRecDepth 100000 in
theorem read_order : fits (twoReads 24 200 90) = true ∧ f32 (twoReads 24 200 90) 24 = 2 ∧
    (List.range 2).map (fun j => tocAt (twoReads 24 200 90) (40 + j * 16)) = [⟨3, 1, 72⟩, ⟨4, 1, 176⟩] ∧
    f64 (twoReads 24 200 90) 8 = 5 ∧ f32 (twoReads 24 200 90) 4 = 1 ∧
    (metricAt (f32 (twoReads 24 200 90) 4) (twoReads 24 200 90) 72).item = 0 := by
  decide +kernel

/-- C67 is false for readers that read the generation last: a reader reads the file from back to front, the
contents before the records are written and the header after `Start` has returned. -/
theorem C67_refuted_order : ∃ r e o cells τ R D, Built r ∧ r.Publishable ∧ r.Small ∧ o.OK r ∧ e.gen ≠ 0 ∧
    ReadDuring r e o cells τ R ∧ (∀ a b, a ≤ b → Reach (τ b) (τ a)) ∧ Dumps R (.ok D) ∧ D.header.g1 = 5 ∧
    D.header.version = 1 ∧ ¬ Describes r D := by
  obtain ⟨h1, h2, h3, h4, h4', h5⟩ := read_order
  obtain ⟨_, _, _, l90, l200⟩ := cntAt_len
  obtain ⟨D, hD⟩ := fits_accepts h1
  have hR := twoReads_during (p := 24) (by decide) l200 l90
  generalize twoReads 24 200 90 = R at *
  refine ⟨cntReg, cntEnv, _, _, _, R, D, cntReg_built, cntReg_pub, cntReg_small, idOrd_ok _, by decide,
    hR, ?_, hD, ?_, ?_, cnt_undescribed h2 h3 h5 hD⟩
  · intro a b hab
    split <;> split
    · exact .refl
    · omega
    · exact cntAt_reach (by omega)
    · exact .refl
  · exact (header_fields hD).2.trans h4
  · exact (header_fields hD).1.trans h4'

set_option maxRecDepth 100000 in
/-- A reader of the header after 170 steps, when only the last bytes of the second generation are missing, and of
the rest later meets the conditions of `C67_front_to_back_partial`. -/
example : ReadDuring cntReg cntEnv (idOrd cntReg) (fun _ => none) (fun a => if a < 24 then cntAt 170 else cntAt 200)
      (twoReads 24 170 200) ∧
    (∀ a b, 16 ≤ a → a < 24 → 24 ≤ b →
      Reach ((fun a => if a < 24 then cntAt 170 else cntAt 200) a) ((fun a => if a < 24 then cntAt 170 else cntAt 200) b)) ∧
    ∃ D, Dumps (twoReads 24 170 200) (.ok D) ∧ D.header.g1 = 5 ∧ D.header.version = 1 := by
  have h1 : (cntAt 170).mem.length = 208 ∧ fits (twoReads 24 170 200) = true ∧ f64 (twoReads 24 170 200) 8 = 5 ∧
      f32 (twoReads 24 170 200) 4 = 1 := by decide +kernel
  obtain ⟨D, hD⟩ := fits_accepts h1.2.1
  refine ⟨twoReads_during (by decide) h1.1 cntAt_len.2.2.2.2, fun a b h1 h2 h3 => ?_, D, hD, ?_, ?_⟩
  · dsimp only
    rw [if_pos h2, if_neg (by omega)]
    exact cntAt_reach (by omega)
  · exact (header_fields hD).2.trans h1.2.2.1
  · exact (header_fields hD).1.trans h1.2.2.2

set_option maxRecDepth 100000 in
/-- A reader of the finished file meets the conditions of `C67_stamp_first`. -/
example : ReadDuring cntReg cntEnv (idOrd cntReg) (fun _ => none) (fun a => if a < 0 then cntAt 200 else cntAt 200)
      (twoReads 0 200 200) ∧ Returned (cntAt 200) ∧
    ∃ D, Dumps (twoReads 0 200 200) (.ok D) ∧ D.header.g1 = 5 := by
  have h1 : fits (twoReads 0 200 200) = true ∧ f64 (twoReads 0 200 200) 8 = 5 ∧
      ((cntAt 200).thr[0]?).any Proc.isDone = true := by decide +kernel
  obtain ⟨D, hD⟩ := fits_accepts h1.1
  exact ⟨twoReads_during (by decide) cntAt_len.2.2.2.2 cntAt_len.2.2.2.2, returned_of_isDone h1.2.2, D, hD,
    (header_fields hD).2.trans h1.2.1⟩

end Speed
