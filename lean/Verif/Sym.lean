import Verif.Logic
import Verif.StartProg
import Mathlib.Data.List.Perm.Basic
/-
Symbolic execution rules: the logic of `Logic.lean` restated for goroutines whose resources are
described by a list of owned memory chunks, a set of obligations and a set of permissions.
-/
namespace Speed

abbrev Mem := Nat → Option Nat

/-- Memory `M` contains the bytes `bs` at `v`. -/
def Owns (M : Mem) (v : Nat) (bs : List Byte) : Prop :=
  ∀ (j : Nat) (b : Byte), bs[j]? = some b → M (v + j) = some b.toNat

def Mem.Sub (M N : Mem) : Prop := ∀ a v, M a = some v → N a = some v

def Res.m (R : Res) : Mem := fun a => R (.mem a)

theorem Owns.mono {M N : Mem} {v bs} (h : Owns M v bs) (hs : M.Sub N) : Owns N v bs :=
  fun j b hj => hs _ _ (h j b hj)

theorem Owns.append {M : Mem} {v : Nat} {as bs : List Byte} :
    Owns M v (as ++ bs) ↔ Owns M v as ∧ Owns M (v + as.length) bs := by
  constructor
  · intro h
    refine ⟨fun j b hj => h j b ?_, fun j b hj => ?_⟩
    · rw [List.getElem?_append_left (List.getElem?_eq_some_iff.1 hj).1]; exact hj
    · rw [Nat.add_assoc]
      apply h
      rw [List.getElem?_append_right (by omega)]
      simpa using hj
  · rintro ⟨h1, h2⟩ j b hj
    by_cases hlt : j < as.length
    · rw [List.getElem?_append_left hlt] at hj; exact h1 j b hj
    · rw [List.getElem?_append_right (by omega)] at hj
      have := h2 _ _ hj
      rw [show v + as.length + (j - as.length) = v + j by omega] at this
      exact this

theorem Owns.nil {M : Mem} {v : Nat} : Owns M v [] := fun j b h => by simp at h

theorem Owns.some {M : Mem} {v : Nat} {bs : List Byte} (h : Owns M v bs) {a : Nat} (h1 : v ≤ a)
    (h2 : a < v + bs.length) : M a ≠ none := by
  have := h (a - v) (bs[a - v]'(by omega)) (List.getElem?_eq_getElem (by omega))
  rw [show v + (a - v) = a by omega] at this
  simp [this]

abbrev Chunk := Nat × List Byte

def Chunk.In (c : Chunk) (a : Nat) : Prop := c.1 ≤ a ∧ a < c.1 + c.2.length

instance (c : Chunk) (a : Nat) : Decidable (c.In a) := inferInstanceAs (Decidable (_ ∧ _))

def Chunk.Dj (c c' : Chunk) : Prop := ∀ a, c.In a → ¬ c'.In a

theorem Chunk.Dj.symm {c c' : Chunk} (h : c.Dj c') : c'.Dj c := fun a h1 h2 => h a h2 h1

/-- What a goroutine owns: obligations `os`, wait rights `ws`, at most one channel token `t`,
at least the permissions `p`, memory `K` that it will not touch again, and disjoint chunks `cs`. -/
structure TS (R : Res) (os : Nat → Nat → Prop) (ws : Nat → Prop) (t : Option (Chan × Nat))
    (p : SealKey → Prop) (K : Mem) (cs : List Chunk) : Prop where
  obl : ∀ w i, R (.obl w i) ≠ none ↔ os w i
  wait : ∀ w, R (.wait w) ≠ none ↔ ws w
  tok : ∀ c, R (.tok c) = match t with
    | some (c', v) => if c = c' then some v else none
    | none => none
  snd : R .snd = none
  rcv : R .rcv = none
  fin : R .fin = none
  perm : ∀ k, p k → R (.perm k) ≠ none
  keep : K.Sub R.m
  own : ∀ c ∈ cs, Owns R.m c.1 c.2
  dis : cs.Pairwise Chunk.Dj
  kdis : ∀ c ∈ cs, ∀ a, c.In a → K a = none

def Res.write (R : Res) (off : Nat) (bs : List Byte) : Res
  | .mem a => if off ≤ a then (match bs[a - off]? with | some b => some b.toNat | none => R (.mem a))
      else R (.mem a)
  | k => R k

theorem write_cons (R : Res) (off : Nat) (b : Byte) (bs : List Byte) :
    R.write off (b :: bs) = Res.write (fset R (.mem off) (some b.toNat)) (off + 1) bs := by
  funext k
  cases k with
  | mem a =>
    simp only [Res.write, fset]
    by_cases h : off + 1 ≤ a
    · rw [if_pos h, if_pos (by omega), show a - off = (a - (off + 1)) + 1 by omega]
      simp only [List.getElem?_cons_succ, Key.mem.injEq]
      split
      · rfl
      · rw [if_neg (by omega)]
    · rw [if_neg h]
      by_cases h2 : a = off
      · subst h2; simp
      · simp [h2, show ¬ off ≤ a by omega]
  | _ => simp [Res.write, fset]

/-- The buffer invariant does not look beyond the header. -/
def Params.HdrOnly (P : Params) : Prop :=
  ∀ (m : Buf) (a : Nat) (b : Byte), 40 ≤ a → P.IA m → P.IA (m.set a b)

theorem wp_storeAll {P : Params} {W : World} {k : Proc} (hP : P.HdrOnly) (bs : List Byte) :
    ∀ (R : Res) (off : Nat), 40 ≤ off → off + bs.length ≤ P.len →
      (∀ j, j < bs.length → R (.mem (off + j)) ≠ none) →
      WP P k W (R.write off bs) → WP P (storeAll off bs k) W R := by
  induction bs with
  | nil =>
    intro R off _ _ _ h
    have : R.write off [] = R := by
      funext k; cases k <;> simp [Res.write]
    rwa [this] at h
  | cons b bs ih =>
    intro R off h40 hlen ho h
    simp only [List.length_cons] at hlen ho
    refine ⟨by omega, by simpa using ho 0 (by omega), fun m _ _ hm => hP m off b h40 hm, ?_⟩
    refine ih _ _ (by omega) (by omega) ?_ ?_
    · intro j hj
      have := ho (j + 1) (by omega)
      simp only [fset]
      split
      · simp
      · rwa [show off + 1 + j = off + (j + 1) by omega]
    · rw [← write_cons]; exact h

theorem write_in {R : Res} {off : Nat} {bs : List Byte} : Owns (R.write off bs).m off bs := by
  intro j b hj
  simp [Res.m, Res.write, hj]

theorem write_out {R : Res} {off a : Nat} {bs : List Byte} (h : ¬ (off ≤ a ∧ a < off + bs.length)) :
    (R.write off bs) (.mem a) = R (.mem a) := by
  simp only [Res.write]
  split
  · rw [List.getElem?_eq_none (by omega)]
  · rfl

/-- Overwrite the part `x` of a chunk `a ++ x ++ b`. -/
theorem ts_store {P : Params} {W : World} {k : Proc} {R os ws t p K cs} (hP : P.HdrOnly)
    (h : TS R os ws t p K cs) (i : Nat) {v off : Nat} {a x b bs : List Byte}
    (hi : cs[i]? = some (v, a ++ (x ++ b))) (hl : x.length = bs.length) (ho : off = v + a.length)
    (h40 : 40 ≤ v) (hlen : off + bs.length ≤ P.len)
    (hk : ∀ R', TS R' os ws t p K (cs.set i (v, a ++ (bs ++ b))) → WP P k W R') :
    WP P (storeAll off bs k) W R := by
  have hmem : ((v, a ++ (x ++ b)) : Chunk) ∈ cs := List.mem_of_getElem? hi
  have hin : ∀ y, Chunk.In (v, a ++ (bs ++ b)) y ↔ Chunk.In (v, a ++ (x ++ b)) y := by
    intro y; simp [Chunk.In, hl]
  have hsub : ∀ y, off ≤ y → y < off + bs.length → Chunk.In (v, a ++ (x ++ b)) y := by
    intro y h1 h2; simp only [Chunk.In, List.length_append]; omega
  apply wp_storeAll hP bs R off (by omega) hlen
  · intro j hj
    have := hsub (off + j) (by omega) (by omega)
    exact (h.own _ hmem).some this.1 this.2
  apply hk
  have hsame : ∀ c, c ∈ cs.set i (v, a ++ (bs ++ b)) → c = (v, a ++ (bs ++ b)) ∨ (c ∈ cs ∧ c.Dj (v, a ++ (x ++ b))) := by
    intro c hc
    obtain ⟨j, hj⟩ := List.getElem?_of_mem hc
    by_cases hji : j = i
    · subst hji
      rw [List.getElem?_set_self (List.getElem?_eq_some_iff.1 hi).1] at hj
      left; exact (Option.some.inj hj).symm
    · rw [List.getElem?_set_ne (Ne.symm hji)] at hj
      right
      refine ⟨List.mem_of_getElem? hj, ?_⟩
      obtain ⟨hj1, hj2⟩ := List.getElem?_eq_some_iff.1 hj
      obtain ⟨hi1, hi2⟩ := List.getElem?_eq_some_iff.1 hi
      rcases Nat.lt_or_gt_of_ne hji with hlt | hlt
      · have := List.pairwise_iff_getElem.1 h.dis j i hj1 hi1 hlt
        rwa [hj2, hi2] at this
      · have := List.pairwise_iff_getElem.1 h.dis i j hi1 hj1 hlt
        rw [hj2, hi2] at this
        exact this.symm
  have hout : ∀ {y : Nat} {u : List Byte}, Owns R.m y u →
      (∀ z, y ≤ z → z < y + u.length → ¬ (off ≤ z ∧ z < off + bs.length)) →
      Owns (R.write off bs).m y u := by
    intro y u hu hz j b hj
    show (R.write off bs) (.mem _) = _
    rw [write_out]
    · exact hu j b hj
    · exact hz _ (by omega) (by have := (List.getElem?_eq_some_iff.1 hj).1; omega)
  refine ⟨h.obl, h.wait, h.tok, h.snd, h.rcv, h.fin, h.perm, ?_, ?_, ?_, ?_⟩
  · intro y u hu
    show (R.write off bs) (.mem y) = _
    rw [write_out]
    · exact h.keep y u hu
    · intro hy
      have := h.kdis _ hmem y (hsub y hy.1 hy.2)
      rw [this] at hu; cases hu
  · intro c hc
    rcases hsame c hc with rfl | ⟨hc, hd⟩
    · have h1 := h.own _ hmem
      simp only [Owns.append] at h1 ⊢
      refine ⟨hout h1.1 (by omega), ?_, ?_⟩
      · rw [← ho]; exact write_in
      · rw [← hl]; exact hout h1.2.2 (by omega)
    · refine hout (h.own c hc) ?_
      intro z h1 h2 h3
      exact hd z ⟨h1, h2⟩ (hsub z h3.1 h3.2)
  · have hpw := h.dis
    rw [List.pairwise_iff_getElem] at hpw ⊢
    intro y z hy hz hyz
    simp only [List.length_set] at hy hz
    have key := hpw y z hy hz hyz
    obtain ⟨hi1, hi2⟩ := List.getElem?_eq_some_iff.1 hi
    rw [List.getElem_set, List.getElem_set]
    split
    · split
      · omega
      · subst_vars; intro u hu; rw [hin] at hu; rw [hi2] at key; exact key u hu
    · split
      · subst_vars; intro u hu; rw [hin]; rw [hi2] at key; exact key u hu
      · exact key
  · intro c hc y hy
    rcases hsame c hc with rfl | ⟨hc, _⟩
    · exact h.kdis _ hmem y ((hin y).1 hy)
    · exact h.kdis c hc y hy

/-- A run of zero bytes. -/
def zeros (n : Nat) : List Byte := List.replicate n 0

@[simp] theorem zeros_length (n : Nat) : (zeros n).length = n := by simp [zeros]

theorem zeros_add (n m : Nat) : zeros (n + m) = zeros n ++ zeros m := by
  simp [zeros, List.replicate_append_replicate]

/-- Append to the written part of a chunk. -/
theorem ts_app {P : Params} {W : World} {len : Nat} {k : Nat → Proc} {R os ws t p K cs}
    (hP : P.HdrOnly) (hlen : P.len = len)
    (h : TS R os ws t p K cs) (i : Nat) {v off n : Nat} {pre bs : List Byte}
    (hi : cs[i]? = some (v, pre ++ zeros n)) (hl : bs.length ≤ n) (ho : off = v + pre.length)
    (h40 : 40 ≤ v) (hle : v + (pre.length + n) ≤ len)
    (hk : ∀ R', TS R' os ws t p K (cs.set i (v, (pre ++ bs) ++ zeros (n - bs.length))) →
      WP P (k (off + bs.length)) W R') :
    WP P (mustWrite len bs off k) W R := by
  unfold mustWrite
  rw [if_pos (by omega)]
  have hz : zeros n = zeros bs.length ++ zeros (n - bs.length) := by
    rw [← zeros_add]; congr 1; omega
  rw [hz] at hi
  refine ts_store hP h i hi (by simp) ho h40 (by omega) ?_
  intro R' h'
  apply hk
  rwa [List.append_assoc]

/-- `WriteVal` at the start of a zero chunk. -/
theorem ts_try {P : Params} {W : World} {len : Nat} {k : Proc} {R os ws t p K cs}
    (hP : P.HdrOnly) (hlen : P.len = len)
    (h : TS R os ws t p K cs) (i : Nat) {v n : Nat} {bs : List Byte}
    (hi : cs[i]? = some (v, zeros n)) (hl : bs.length ≤ n)
    (h40 : 40 ≤ v) (hle : v + n ≤ len)
    (hk : ∀ R', TS R' os ws t p K (cs.set i (v, bs ++ zeros (n - bs.length))) → WP P k W R') :
    WP P (tryWrite len bs v k) W R := by
  unfold tryWrite
  rw [if_pos (by omega)]
  have hz : zeros n = [] ++ (zeros bs.length ++ zeros (n - bs.length)) := by
    rw [← zeros_add, List.nil_append]; congr 1; omega
  rw [hz] at hi
  refine ts_store hP h i hi (by simp) (by simp) h40 (by omega) ?_
  intro R' h'
  apply hk
  exact h'

/-- Writing zeros over zeros. -/
theorem ts_zero {P : Params} {W : World} {len : Nat} {k : Nat → Proc} {R os ws t p K cs}
    (hP : P.HdrOnly) (hlen : P.len = len)
    (h : TS R os ws t p K cs) (i : Nat) {v n : Nat}
    (hi : cs[i]? = some (v, zeros n)) (h40 : 40 ≤ v) (hle : v + n ≤ len)
    (hk : ∀ R', TS R' os ws t p K cs → WP P (k (v + n)) W R') :
    WP P (mustWrite len (zeros n) v k) W R := by
  unfold mustWrite
  rw [if_pos (by simpa using hle)]
  have hi' : cs[i]? = some (v, [] ++ (zeros n ++ [])) := by simpa using hi
  refine ts_store hP h i hi' (by simp) (by simp) h40 (by simp; omega) ?_
  intro R' h'
  simp only [zeros_length]
  apply hk
  have : cs.set i (v, [] ++ (zeros n ++ [])) = cs := by
    apply List.ext_getElem?
    intro j
    rw [List.getElem?_set]
    split
    · subst_vars
      rw [if_pos (List.getElem?_eq_some_iff.1 hi).1, hi]; simp
    · rfl
  rwa [this] at h'

theorem TS.imp {R os os' ws ws' t} {p p' : SealKey → Prop} {K cs} (h : TS R os ws t p K cs)
    (ho : ∀ w i, os w i ↔ os' w i) (hw : ∀ w, ws w ↔ ws' w) (hp : ∀ k, p' k → p k) :
    TS R os' ws' t p' K cs :=
  ⟨fun w i => (h.obl w i).trans (ho w i), fun w => (h.wait w).trans (hw w), h.tok, h.snd, h.rcv, h.fin,
    fun k hk => h.perm k (hp k hk), h.keep, h.own, h.dis, h.kdis⟩

theorem TS.perm_cs {R os ws t p K cs cs'} (h : TS R os ws t p K cs) (hp : cs.Perm cs') :
    TS R os ws t p K cs' :=
  ⟨h.obl, h.wait, h.tok, h.snd, h.rcv, h.fin, h.perm, h.keep, fun c hc => h.own c (hp.mem_iff.2 hc),
    (hp.pairwise_iff (fun h => Chunk.Dj.symm h)).1 h.dis, fun c hc => h.kdis c (hp.mem_iff.2 hc)⟩

theorem TS.rekeep {R os ws t p K cs} (h : TS R os ws t p K cs) : TS R os ws t p R.m [] :=
  ⟨h.obl, h.wait, h.tok, h.snd, h.rcv, h.fin, h.perm, fun _ _ h => h, by simp, by simp, by simp⟩

/-- Give up chunk 0. -/
theorem TS.tail {R os ws t p K c cs} (h : TS R os ws t p K (c :: cs)) : TS R os ws t p K cs :=
  ⟨h.obl, h.wait, h.tok, h.snd, h.rcv, h.fin, h.perm, h.keep, fun c hc => h.own c (by simp [hc]),
    (List.pairwise_cons.1 h.dis).2, fun c hc => h.kdis c (by simp [hc])⟩

/-- Split chunk 0. -/
theorem TS.split {R os ws t p K} {v : Nat} {a b : List Byte} {cs}
    (h : TS R os ws t p K ((v, a ++ b) :: cs)) :
    TS R os ws t p K ((v, a) :: (v + a.length, b) :: cs) := by
  have hd := List.pairwise_cons.1 h.dis
  have h1 := Owns.append.1 (h.own (v, a ++ b) (by simp))
  refine ⟨h.obl, h.wait, h.tok, h.snd, h.rcv, h.fin, h.perm, h.keep, ?_, ?_, ?_⟩
  · intro c hc
    simp only [List.mem_cons] at hc
    rcases hc with rfl | rfl | hc
    · exact h1.1
    · exact h1.2
    · exact h.own c (by simp [hc])
  · refine List.pairwise_cons.2 ⟨?_, List.pairwise_cons.2 ⟨?_, hd.2⟩⟩
    · intro c hc
      simp only [List.mem_cons] at hc
      rcases hc with rfl | hc
      · intro x h1 h2; have := h1.2; have := h2.1; simp only at *; omega
      · intro x hx; exact hd.1 c hc x ⟨hx.1, by have := hx.2; simp only [List.length_append] at *; omega⟩
    · intro c hc x hx
      exact hd.1 c hc x ⟨by have := hx.1; simp only at *; omega,
        by have := hx.2; simp only [List.length_append] at *; omega⟩
  · intro c hc x hx
    have key := h.kdis (v, a ++ b) (by simp) x
    simp only [List.mem_cons] at hc
    rcases hc with rfl | rfl | hc
    · exact key ⟨hx.1, by have := hx.2; simp only [List.length_append] at *; omega⟩
    · exact key ⟨by have := hx.1; simp only at *; omega,
        by have := hx.2; simp only [List.length_append] at *; omega⟩
    · exact h.kdis c (by simp [hc]) x hx

/-- Move chunk 0 to the kept memory. -/
theorem TS.absorb {R os ws t p K} {c : Chunk} {cs}
    (h : TS R os ws t p K (c :: cs)) :
    ∃ K', K.Sub K' ∧ Owns K' c.1 c.2 ∧ TS R os ws t p K' cs := by
  have hd := List.pairwise_cons.1 h.dis
  refine ⟨fun a => if c.In a then R (.mem a) else K a, ?_, ?_, ?_⟩
  · intro a v hv
    simp only
    split
    · exact h.keep a v hv
    · exact hv
  · intro j b hj
    simp only
    rw [if_pos ⟨by omega, by have := (List.getElem?_eq_some_iff.1 hj).1; omega⟩]
    exact h.own c (by simp) j b hj
  · refine ⟨h.obl, h.wait, h.tok, h.snd, h.rcv, h.fin, h.perm, ?_, fun c hc => h.own c (by simp [hc]),
      hd.2, ?_⟩
    · intro a v hv
      simp only at hv
      split at hv
      · exact hv
      · exact h.keep a v hv
    · intro c' hc' a ha
      rw [if_neg (fun hin => hd.1 c' hc' a hin ha)]
      exact h.kdis c' (by simp [hc']) a ha

theorem ts_done {P : Params} {W : World} {R os ws p K cs} (h : TS R os ws none p K cs)
    (ho : ∀ w i, ¬ os w i) : WP P .done W R :=
  ⟨h.fin, fun c => h.tok c, fun w i => by
    have := h.obl w i; by_contra hc; exact ho w i (this.1 hc), .inl h.snd, .inl h.rcv⟩

/-- Receive an offset and record it as the ghost facts `gs`. -/
theorem ts_recvG {P : Params} {W : World} {c : Chan} {k : Nat → Proc} {R os ws p K cs}
    (hc : c.isAlloc = true) (hm : P.made c = true)
    (h : TS R os ws none p K cs) (gs : Gh → Bool) (hgs : ∀ n, gs n = true → p (.ghost n))
    (hk : ∀ (v : Nat) (W' : World) (R' : Res), W.le W' →
      (∀ n, gs n = true → W'.sl (.ghost n) = some v) →
      TS R' os ws (some (c, v)) (fun k => p k ∧ ∀ n, gs n = true → k ≠ .ghost n) K cs →
      WP P (k v) W' R') :
    WP P (.recv c k) W R := by
  refine ⟨fun c => h.tok c, ?_⟩
  rw [if_pos hc]
  refine ⟨hm, gs, fun n hn => h.perm _ (hgs n hn), fun v W' hle hs => hk v W' _ hle hs ?_⟩
  refine ⟨h.obl, h.wait, ?_, h.snd, h.rcv, h.fin, ?_, h.keep, h.own, h.dis, h.kdis⟩
  · intro c'
    simp only [fset, Key.tok.injEq]
    split
    · rfl
    · exact h.tok c'
  · rintro k ⟨h1, h2⟩
    cases k with
    | ghost n =>
      simp only [fset, Res.drop]
      by_cases hn : gs n = true
      · exact absurd rfl (h2 n hn)
      · simpa [hn] using h.perm _ h1
    | _ => exact h.perm _ h1

theorem ts_recv {P : Params} {W : World} {c : Chan} {k : Nat → Proc} {R os ws p K cs}
    (hc : c.isAlloc = true) (hm : P.made c = true)
    (h : TS R os ws none p K cs)
    (hk : ∀ (v : Nat) (W' : World) (R' : Res), W.le W' → TS R' os ws (some (c, v)) p K cs → WP P (k v) W' R') :
    WP P (.recv c k) W R :=
  ts_recvG hc hm h (fun _ => false) (by simp) fun v W' R' hle _ h' =>
    hk v W' R' hle (h'.imp (fun _ _ => Iff.rfl) (fun _ => Iff.rfl) (fun k hk => ⟨hk, by simp⟩))

theorem ts_send {P : Params} {W : World} {c : Chan} {v0 x : Nat} {k : Proc} {R os ws p K cs}
    (hc : c.isAlloc = true) (hm : P.made c = true)
    (h : TS R os ws (some (c, v0)) p K cs)
    (ts : List Tok) (hx : x = v0 + ts.length * P.slotLen c) (hnd : ts.Nodup)
    (hts : ∀ t ∈ ts, t.chan = c ∧ t ∈ P.toks c ∧ p (.slot t))
    (hk : ∀ (W' : World) (R' : Res), W.le W' →
      (∀ (j : Nat) (t : Tok), ts[j]? = some t → W'.sl (.slot t) = some (v0 + j * P.slotLen c)) →
      v0 + ts.length * P.slotLen c ≤ P.lim c → P.base c ≤ v0 →
      TS R' os ws none (fun k => p k ∧ ∀ t ∈ ts, k ≠ .slot t) K
        ((v0, zeros (ts.length * P.slotLen c)) :: cs) → WP P k W' R') :
    WP P (.send c x k) W R := by
  unfold WP
  rw [if_pos hc]
  refine ⟨v0, ts, by rw [h.tok]; simp, hx, hnd, hm, fun t ht => ⟨(hts t ht).1, (hts t ht).2.1, h.perm _ (hts t ht).2.2⟩, ?_⟩
  intro W' hle hs h1 h2 hnone
  refine hk W' _ hle hs h1 h2 ?_
  have hnone' : ∀ a, Chunk.In (v0, zeros (ts.length * P.slotLen c)) a → R (.mem a) = none := by
    intro a ha; exact hnone a ha.1 (by simpa using ha.2)
  refine ⟨h.obl, h.wait, ?_, h.snd, h.rcv, h.fin, ?_, ?_, ?_, ?_, ?_⟩
  · intro c'
    simp only [Res.alloc]
    split
    · rfl
    · rw [h.tok]; simp [*]
  · rintro k ⟨hk1, hk2⟩
    cases k with
    | cell c => exact h.perm _ hk1
    | ghost n => exact h.perm _ hk1
    | slot t =>
      simp only [Res.alloc]
      rw [if_neg (fun ht => hk2 t ht rfl)]
      exact h.perm _ hk1
  · intro a v hv
    have hR := h.keep a v hv
    show (R.alloc _ _ _ _) (.mem a) = _
    simp only [Res.alloc]
    rw [if_neg]
    · exact hR
    · intro hin
      have := hnone a hin.1 hin.2
      simp only [Res.m] at hR; rw [this] at hR; cases hR
  · intro ch hch
    rcases List.mem_cons.1 hch with rfl | hch
    · intro j b hj
      show (R.alloc _ _ _ _) (.mem _) = _
      obtain ⟨hj1, hj2⟩ := List.getElem?_eq_some_iff.1 hj
      simp only [zeros_length] at hj1
      simp only [Res.alloc]
      rw [if_pos (by omega)]
      simp [zeros] at hj2; simp [← hj2]
    · intro j b hj
      have hR := h.own ch hch j b hj
      show (R.alloc _ _ _ _) (.mem _) = _
      simp only [Res.alloc]
      rw [if_neg]
      · exact hR
      · intro hin
        have := hnone _ hin.1 hin.2
        simp only [Res.m] at hR; rw [this] at hR; cases hR
  · refine List.pairwise_cons.2 ⟨?_, h.dis⟩
    intro c' hc' a ha hin
    have := (h.own c' hc').some hin.1 hin.2
    exact this (hnone' a ha)
  · intro c' hc' a ha
    rcases List.mem_cons.1 hc' with rfl | hc'
    · by_contra hne
      obtain ⟨v, hv⟩ := Option.ne_none_iff_exists'.1 hne
      have := h.keep a v hv
      simp only [Res.m] at this; rw [hnone' a ha] at this; cases this
    · exact h.kdis c' hc' a ha

/-- `recv` directly followed by `send` of the next offset. -/
theorem ts_alloc {P : Params} {W : World} {c : Chan} {k : Nat → Proc} {x : Nat} {R os ws p K cs}
    (hc : c.isAlloc = true) (hm : P.made c = true)
    (h : TS R os ws none p K cs)
    (ts : List Tok) (hx : x = ts.length * P.slotLen c) (hnd : ts.Nodup)
    (hts : ∀ t ∈ ts, t.chan = c ∧ t ∈ P.toks c ∧ p (.slot t))
    (hk : ∀ (v0 : Nat) (W' : World) (R' : Res), W.le W' →
      (∀ (j : Nat) (t : Tok), ts[j]? = some t → W'.sl (.slot t) = some (v0 + j * P.slotLen c)) →
      v0 + x ≤ P.lim c → P.base c ≤ v0 →
      TS R' os ws none (fun k => p k ∧ ∀ t ∈ ts, k ≠ .slot t) K
        ((v0, zeros x) :: cs) → WP P (k v0) W' R') :
    WP P (.recv c fun off => .send c (off + x) (k off)) W R := by
  apply ts_recv hc hm h
  intro v W1 R' hle1 h'
  apply ts_send hc hm h' ts (by omega) hnd hts
  rw [← hx]
  intro W' R'' hle; exact hk v W' R'' (World.le_trans hle1 hle)

/-- The same, recording the offset as the ghost fact `g`. -/
theorem ts_allocG {P : Params} {W : World} {c : Chan} {k : Nat → Proc} {x : Nat} {R os ws p K cs}
    (hc : c.isAlloc = true) (hm : P.made c = true)
    (h : TS R os ws none p K cs) (g : Gh) (hg : p (.ghost g))
    (ts : List Tok) (hx : x = ts.length * P.slotLen c) (hnd : ts.Nodup)
    (hts : ∀ t ∈ ts, t.chan = c ∧ t ∈ P.toks c ∧ p (.slot t))
    (hk : ∀ (v0 : Nat) (W' : World) (R' : Res), W.le W' → W'.sl (.ghost g) = some v0 →
      (∀ (j : Nat) (t : Tok), ts[j]? = some t → W'.sl (.slot t) = some (v0 + j * P.slotLen c)) →
      v0 + x ≤ P.lim c → P.base c ≤ v0 →
      TS R' os ws none (fun k => (p k ∧ k ≠ .ghost g) ∧ ∀ t ∈ ts, k ≠ .slot t) K
        ((v0, zeros x) :: cs) → WP P (k v0) W' R') :
    WP P (.recv c fun off => .send c (off + x) (k off)) W R := by
  apply ts_recvG hc hm h (fun n => n == g) (by simp; exact hg)
  intro v W1 R' hle1 hg1 h'
  have hg1 : W1.sl (.ghost g) = some v := hg1 g (by simp)
  have h'' := h'.imp (fun _ _ => Iff.rfl) (fun _ => Iff.rfl) (p' := fun k => p k ∧ k ≠ .ghost g)
    (fun k hk => ⟨hk.1, fun n hn => by rw [beq_iff_eq] at hn; rw [hn]; exact hk.2⟩)
  apply ts_send hc hm h'' ts (by omega) hnd (fun t ht => ⟨(hts t ht).1, (hts t ht).2.1, (hts t ht).2.2, by simp⟩)
  rw [← hx]
  intro W' R'' hle; exact hk v W' R'' (World.le_trans hle1 hle) (hle.2 _ _ hg1)

theorem ts_fork {P : Params} {W : World} {q k : Proc} {R os ws t p K} {cs1 cs2 : List Chunk}
    (h : TS R os ws t p K (cs1 ++ cs2))
    (os1 os2 : Nat → Nat → Prop) (p1 p2 : SealKey → Prop) (t1 t2 : Option (Chan × Nat))
    (ho : ∀ w i, os w i ↔ (os1 w i ∨ os2 w i)) (hod : ∀ w i, os1 w i → ¬ os2 w i)
    (hp1 : ∀ k, p1 k → p k) (hp2 : ∀ k, p2 k → p k ∧ ¬ p1 k)
    (ht : (t1 = t ∧ t2 = none) ∨ (t1 = none ∧ t2 = t))
    (hq : ∀ R', TS R' os1 (fun _ => False) t1 p1 (fun _ => none) cs1 → WP P q W R')
    (hk : ∀ R', TS R' os2 ws t2 p2 K cs2 → WP P k W R') :
    WP P (.fork q k) W R := by
  classical
  have hdj := List.pairwise_append.1 h.dis
  let S : Key → Bool
    | .mem a => decide (∃ c ∈ cs1, c.In a)
    | .perm k => decide (p1 k)
    | .obl w i => decide (os1 w i)
    | .tok _ => decide (t1 = t)
    | _ => false
  refine ⟨S, rfl, hq _ ?_, hk _ ?_⟩
  · refine ⟨?_, ?_, ?_, ?_, ?_, ?_, ?_, ?_, ?_, hdj.1, ?_⟩
    · intro w i
      simp only [Res.restr, S]
      by_cases h1 : os1 w i
      · simp [h1]; exact (h.obl w i).2 ((ho w i).2 (.inl h1))
      · simp [h1]
    · intro w; simp [Res.restr, S]
    · intro c
      simp only [Res.restr, S]
      rcases ht with ⟨h1, _⟩ | ⟨h1, _⟩
      · simp [h1, h.tok]
      · subst h1
        by_cases h2 : none = t
        · subst h2; simp [h.tok]
        · simp [h2]
    · simp [Res.restr, S]
    · simp [Res.restr, S]
    · simp [Res.restr, S]
    · intro k hk; simp [Res.restr, S, hk]; exact h.perm k (hp1 k hk)
    · intro a v hv; simp at hv
    · intro c hc j b hj
      simp only [Res.m, Res.restr, S]
      have hin : c.In (c.1 + j) := ⟨by omega, by have := (List.getElem?_eq_some_iff.1 hj).1; omega⟩
      rw [if_pos (by simp only [decide_eq_true_eq]; exact ⟨c, hc, hin⟩)]
      exact h.own c (by simp [hc]) j b hj
    · intro c hc a ha; rfl
  · refine ⟨?_, ?_, ?_, ?_, ?_, ?_, ?_, ?_, ?_, hdj.2.1, ?_⟩
    · intro w i
      simp only [Res.restr, S]
      by_cases h1 : os1 w i
      · simp [h1]; exact hod w i h1
      · have := h.obl w i; rw [ho w i] at this; simp [h1] at this ⊢; exact this
    · intro w; simp only [Res.restr, S]; simpa using h.wait w
    · intro c
      simp only [Res.restr, S]
      rcases ht with ⟨h1, h2⟩ | ⟨h1, h2⟩
      · simp [h1, h2]
      · subst h1; subst h2
        by_cases h2 : none = t2
        · subst h2; simp
        · simp [h2, h.tok]
    · simp only [Res.restr, S]; simpa using h.snd
    · simp only [Res.restr, S]; simpa using h.rcv
    · simp only [Res.restr, S]; simpa using h.fin
    · intro k hk
      have := hp2 k hk
      simp only [Res.restr, S]; simp [this.2]; exact h.perm k this.1
    · intro a v hv
      simp only [Res.m, Res.restr, S]
      rw [if_pos]
      · exact h.keep a v hv
      · simp only [Bool.not_eq_true', decide_eq_false_iff_not]
        rintro ⟨c, hc, hin⟩
        have := h.kdis c (by simp [hc]) a hin
        rw [this] at hv; cases hv
    · intro c hc j b hj
      simp only [Res.m, Res.restr, S]
      have hin : c.In (c.1 + j) := ⟨by omega, by have := (List.getElem?_eq_some_iff.1 hj).1; omega⟩
      rw [if_pos]
      · exact h.own c (by simp [hc]) j b hj
      · simp only [Bool.not_eq_true', decide_eq_false_iff_not]
        rintro ⟨c', hc', hin'⟩
        exact hdj.2.2 c' hc' c hc _ hin' hin
    · intro c hc; exact h.kdis c (by simp [hc])

/-! ### WaitGroups -/

/-- Assertions about the sealed facts and the memory handed over. -/
abbrev MAsrt := Seal → Mem → Prop

def MAsrt.lift (A : MAsrt) : Asrt := fun σ D => A σ D.m

def MAsrt.Mono (A : MAsrt) : Prop := ∀ σ τ M N, Seal.le σ τ → Mem.Sub M N → A σ M → A τ N

theorem ts_wgNew {P : Params} {W : World} {n : Nat} {k : Nat → Proc} {R os ws t p K cs}
    (h : TS R os ws t p K cs) (As : List MAsrt) (hn : As.length = n)
    (hk : ∀ (w : Nat) (W' : World) (R' : Res), W.le W' → W'.wgs[w]? = some (As.map MAsrt.lift) →
      W.wgs.length ≤ w → W'.wgs.length = w + 1 →
      TS R' (fun w' i => os w' i ∨ (w' = w ∧ i < n)) (fun w' => ws w' ∨ w' = w) t p K cs →
      WP P (k w) W' R') :
    WP P (.wgNew n k) W R := by
  refine ⟨As.map MAsrt.lift, by simpa using hn, fun W' hle => ?_⟩
  have hlen : W.wgs.length ≤ W'.wgs.length := hle.1.length_le
  refine hk _ _ _ ⟨hle.1.trans (List.prefix_append _ _), hle.2⟩ (by simp) hlen (by simp) ?_
  refine ⟨?_, ?_, h.tok, h.snd, h.rcv, h.fin, h.perm, h.keep, h.own, h.dis, h.kdis⟩
  · intro w i
    simp only [Res.addWg]
    split
    · simp [*]
    · rename_i hn; simp only [hn, or_false]; exact h.obl w i
  · intro w
    simp only [Res.addWg]
    split
    · simp [*]
    · rename_i hn; simp only [hn, or_false]; exact h.wait w

theorem ts_wgDone {P : Params} {W : World} {w i : Nat} {R os ws p K cs}
    (h : TS R os ws none p K cs) {As : List MAsrt} {A : MAsrt}
    (hW : W.wgs[w]? = some (As.map MAsrt.lift)) (hA : As[i]? = some A)
    (ho : ∀ w' i', os w' i' ↔ (w' = w ∧ i' = i))
    (hq : ∀ σ, W.sl.le σ → A σ R.m) :
    WP P (.wgDone w .done) W R := by
  refine ⟨i, fun k => match k with | .mem _ => true | _ => false, As.map MAsrt.lift, A.lift,
    (h.obl w i).2 ((ho w i).2 ⟨rfl, rfl⟩), hW, by simp [hA], ?_, ?_, ?_⟩
  · intro k hk
    cases k <;> simp_all [Res.restr, Key.plain]
  · intro σ hσ
    exact hq σ hσ
  · refine ⟨?_, ?_, ?_, ?_, ?_⟩
    · simpa [fset, Res.restr] using h.fin
    · intro c; simpa [fset, Res.restr] using h.tok c
    · intro w' i'
      simp only [fset, Res.restr]
      by_cases hk : w' = w ∧ i' = i
      · simp [hk]
      · have := h.obl w' i'; rw [ho] at this
        simp at this ⊢
        intro hc
        by_contra hn
        exact hk (this.1 hn)
    · left; simpa [fset, Res.restr] using h.snd
    · left; simpa [fset, Res.restr] using h.rcv

theorem ts_wgWait {P : Params} {W : World} {w : Nat} {k : Proc} {R os ws p K cs}
    (h : TS R os ws none p K cs) (hw : ws w) (ho : ∀ w' i, os w' i → w' < w) {As : List MAsrt}
    (hW : W.wgs[w]? = some (As.map MAsrt.lift)) (hmono : ∀ A ∈ As, A.Mono)
    (hk : ∀ (W' : World) (R' : Res), W.le W' → SealOK P W'.sl → R.m.Sub R'.m →
      TS R' os (fun w' => ws w' ∧ w' ≠ w) none p K cs →
      (∀ (i : Nat) (A : MAsrt), As[i]? = some A → A W'.sl R'.m) → WP P k W' R') :
    WP P (.wgWait w k) W R := by
  refine ⟨(h.wait w).2 hw, fun c => h.tok c, fun w' i hne => ho w' i ((h.obl w' i).1 hne),
    As.map MAsrt.lift, hW, ?_⟩
  intro W' D hle hsok hD hdj hdep
  right
  have hplain : ∀ k : Key, k.plain = false → D k = none := by
    intro k hk
    by_contra hn
    have := hD k hn
    rw [hk] at this; cases this
  have hRm : R.m.Sub (Res.m (fset (R.union D) (.wait w) none)) := by
    intro a v hv
    simp only [Res.m, fset, Res.union] at hv ⊢
    simp [hv]
  refine hk W' _ hle hsok hRm ?_ ?_
  · refine ⟨?_, ?_, ?_, ?_, ?_, ?_, ?_, ?_, ?_, h.dis, h.kdis⟩
    · intro w' i
      simp only [fset, Res.union, hplain (.obl w' i) rfl]
      simpa using h.obl w' i
    · intro w'
      simp only [fset, Res.union, hplain (.wait w') rfl]
      by_cases hw' : w' = w
      · simp [hw']
      · simp [hw']; exact h.wait w'
    · intro c
      simp only [fset, Res.union, hplain (.tok c) rfl]
      simpa using h.tok c
    · simp only [fset, Res.union, hplain .snd rfl]; simpa using h.snd
    · simp only [fset, Res.union, hplain .rcv rfl]; simpa using h.rcv
    · simp only [fset, Res.union, hplain .fin rfl]; simpa using h.fin
    · intro k hk
      obtain ⟨v, hv⟩ := Option.ne_none_iff_exists'.1 (h.perm k hk)
      simp [fset, Res.union, hv]
    · intro a v hv; exact hRm a v (h.keep a v hv)
    · intro c hc; exact (h.own c hc).mono hRm
  · intro i A hA
    obtain ⟨Di, hsub, hq⟩ := hdep i A.lift (by simp [hA])
    refine hmono A (List.mem_of_getElem? hA) _ _ _ _ (Seal.le_refl _) ?_ hq
    intro a v hv
    have hd := hsub _ _ hv
    have hRn : R (.mem a) = none := by
      by_contra hne
      have := hdj _ hne
      rw [this] at hd; cases hd
    simp [Res.m, fset, Res.union, hRn, hd]

/-! ### Cells -/

theorem ts_setCell {P : Params} {W : World} {c : Cell} {v : Nat} {k : Proc} {R os ws t p K cs}
    (h : TS R os ws t p K cs) (hp : p (.cell c))
    (hk : ∀ (W' : World) (R' : Res), W.le W' → W'.sl (.cell c) = some v → R'.m = R.m →
      TS R' os ws t (fun k => p k ∧ k ≠ .cell c) K cs → WP P k W' R') :
    WP P (.setCell c v k) W R := by
  refine ⟨h.perm _ hp, fun W' hle hs => hk W' _ hle hs ?_ ?_⟩
  · funext a; simp [Res.m, fset]
  · refine ⟨?_, ?_, ?_, ?_, ?_, ?_, ?_, ?_, ?_, h.dis, h.kdis⟩
    · intro w i; simpa [fset] using h.obl w i
    · intro w; simpa [fset] using h.wait w
    · intro c'; simpa [fset] using h.tok c'
    · simpa [fset] using h.snd
    · simpa [fset] using h.rcv
    · simpa [fset] using h.fin
    · rintro k ⟨hk, hne⟩; simp [fset, hne]; exact h.perm k hk
    · intro a v hv; have := h.keep a v hv; simpa [Res.m, fset] using this
    · intro c' hc'; have := h.own c' hc'; intro j b hj; have := this j b hj; simpa [Res.m, fset] using this

end Speed
