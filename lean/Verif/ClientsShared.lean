import Verif.Clients
/-
Clients that share instance domain objects: what one client does differs from what it would do alone only in
the bytes of the instance fields of its value records.

`Hazy` relates a client of the combined state to the same client running alone: the programs may differ in the
bytes they store at addresses `X`, and in what they do with the contents of shared cells, as long as that only
affects bytes stored at `X`.
-/
namespace Speed

section
variable (A : Cell → Prop) (X : Nat → Prop) (P Q : Chan → Nat → Prop)

/-- The programs do the same, except for the bytes stored at addresses in `X`. Cells outside `A` may have any
contents. `P` holds of what is sent on the channels, and `Q` of what has been sent. -/
def Proc.Like : Proc → Proc → Prop
  | .done, .done => True
  | .panic, .panic => True
  | .store a b k, .store a' b' k' => a = a' ∧ (X a ∨ b = b') ∧ k.Like k'
  | .recv c k, .recv c' k' => c = c' ∧ ∀ v, P c v → (k v).Like (k' v)
  | .send c v k, .send c' v' k' => c = c' ∧ v = v' ∧ P c v ∧ (Q c v → k.Like k')
  | .fork p k, .fork p' k' => p.Like p' ∧ k.Like k'
  | .wgNew n k, .wgNew n' k' => n = n' ∧ ∀ v, (k v).Like (k' v)
  | .wgDone w k, .wgDone w' k' => w = w' ∧ k.Like k'
  | .wgWait w k, .wgWait w' k' => w = w' ∧ k.Like k'
  | .setCell c v k, .setCell c' v' k' => c = c' ∧ v = v' ∧ k.Like k'
  | .getCell c k, .getCell c' k' => c = c' ∧ ((A c ∧ ∀ v, (k v).Like (k' v)) ∨ ∀ v w, (k v).Like (k' w))
  | _, _ => False

/-- The combined state's client `s`, and `t` alone. -/
structure Hazy (t s : St) : Prop where
  len : t.mem.length = s.mem.length
  mem : ∀ a, ¬ X a → t.mem[a]? = s.mem[a]?
  num : t.thr.length = s.thr.length
  thr : ∀ (i : Nat) p q, t.thr[i]? = some p → s.thr[i]? = some q → p.Like A X P Q q
  ch : t.ch = s.ch
  sent : ∀ c v, s.ch c = .buf (some v) → P c v
  wgs : t.wgs = s.wgs
  cells : ∀ c, A c → t.cells c = s.cells c

end

section
variable {A : Cell → Prop} {X : Nat → Prop} {P Q : Chan → Nat → Prop}

theorem Proc.Like.symm {p q : Proc} (h : p.Like A X P Q q) : q.Like A X P Q p := by
  induction p generalizing q with
  | done => cases q <;> first | trivial | exact h.elim
  | panic => cases q <;> first | trivial | exact h.elim
  | store a b k ih =>
    cases q <;> try exact h.elim
    obtain ⟨rfl, h2, h3⟩ := h
    exact ⟨rfl, h2.imp id Eq.symm, ih h3⟩
  | recv c k ih =>
    cases q <;> try exact h.elim
    obtain ⟨rfl, h2⟩ := h
    exact ⟨rfl, fun v hv => ih v (h2 v hv)⟩
  | send c v k ih =>
    cases q <;> try exact h.elim
    obtain ⟨rfl, rfl, h2, h3⟩ := h
    exact ⟨rfl, rfl, h2, fun hq => ih (h3 hq)⟩
  | fork p k ihp ihk =>
    cases q <;> try exact h.elim
    exact ⟨ihp h.1, ihk h.2⟩
  | wgNew n k ih =>
    cases q <;> try exact h.elim
    exact ⟨h.1.symm, fun v => ih v (h.2 v)⟩
  | wgDone w k ih =>
    cases q <;> try exact h.elim
    exact ⟨h.1.symm, ih h.2⟩
  | wgWait w k ih =>
    cases q <;> try exact h.elim
    exact ⟨h.1.symm, ih h.2⟩
  | setCell c v k ih =>
    cases q <;> try exact h.elim
    obtain ⟨rfl, rfl, h3⟩ := h
    exact ⟨rfl, rfl, ih h3⟩
  | getCell c k ih =>
    cases q <;> try exact h.elim
    obtain ⟨rfl, h2⟩ := h
    refine ⟨rfl, ?_⟩
    rcases h2 with ⟨h2, h3⟩ | h2
    · exact .inl ⟨h2, fun v => ih v (h3 v)⟩
    · exact .inr fun v w => ih w (h2 w v)

theorem Hazy.symm {t s : St} (h : Hazy A X P Q t s) : Hazy A X P Q s t where
  len := h.len.symm
  mem := fun a ha => (h.mem a ha).symm
  num := h.num.symm
  thr := fun i p q hp hq => (h.thr i q p hq hp).symm
  ch := h.ch.symm
  sent := fun c v hc => h.sent c v (h.ch ▸ hc)
  wgs := h.wgs.symm
  cells := fun c hc => (h.cells c hc).symm

/-- Replacing the programs of a goroutine. -/
theorem thr_set {l l' : List Proc} (hn : l.length = l'.length) (h : ∀ (i : Nat) p q, l[i]? = some p → l'[i]? = some q → p.Like A X P Q q)
    {i : Nat} {p q : Proc} (hpq : p.Like A X P Q q) :
    (l.set i p).length = (l'.set i q).length ∧
      ∀ (j : Nat) p' q', (l.set i p)[j]? = some p' → (l'.set i q)[j]? = some q' → p'.Like A X P Q q' := by
  refine ⟨by simpa using hn, fun j p' q' hp hq => ?_⟩
  by_cases hj : i = j
  · subst hj
    obtain ⟨h1, h2⟩ := List.getElem?_eq_some_iff.1 hp
    obtain ⟨h3, h4⟩ := List.getElem?_eq_some_iff.1 hq
    rw [List.getElem_set_self] at h2 h4
    subst h2; subst h4
    exact hpq
  · rw [List.getElem?_set_ne hj] at hp hq
    exact h j p' q' hp hq

theorem Hazy.step {t s s' : St} {i j : Nat} (h : Hazy A X P Q t s) (hc : t.crashed = false) (hs : Speed.step s i j = some s')
    (hQ : ∀ t', Speed.step t i j = some t' → ∀ c v k, t.thr[i]? = some (.send c v k) → Q c v) :
    ∃ t', Speed.step t i j = some t' ∧ Hazy A X P Q t' s' ∧ t'.crashed = s'.crashed := by
  have hsc := step_crashed hs
  unfold Speed.step at hs
  rw [hsc, if_neg (by simp)] at hs
  obtain ⟨q, hq⟩ : ∃ q, s.thr[i]? = some q := by
    cases hi : s.thr[i]? with
    | none => rw [hi] at hs; cases hs
    | some q => exact ⟨q, rfl⟩
  obtain ⟨p, hp⟩ : ∃ p, t.thr[i]? = some p :=
    ⟨_, List.getElem?_eq_getElem (by rw [h.num]; exact (List.getElem?_eq_some_iff.1 hq).1)⟩
  have hl := h.thr i p q hp hq
  unfold Speed.step at hQ ⊢
  rw [hc, if_neg (by simp), hp] at hQ ⊢
  rw [hq] at hs
  cases q with
  | done => cases hs
  | panic =>
    cases p <;> try exact hl.elim
    cases hs
    exact ⟨_, rfl, ⟨h.len, h.mem, h.num, h.thr, h.ch, h.sent, h.wgs, h.cells⟩, rfl⟩
  | store a b k =>
    cases p <;> try exact hl.elim
    rename_i a' b' k'
    obtain ⟨rfl, hb, hk⟩ := hl
    dsimp only at hs ⊢
    rw [h.len]
    split at hs
    · rename_i hlt
      cases hs
      refine ⟨_, if_pos hlt, ⟨?_, ?_, (thr_set h.num h.thr hk).1, (thr_set h.num h.thr hk).2, h.ch, h.sent, h.wgs, h.cells⟩, rfl⟩
      · simpa using h.len
      · intro x hx
        dsimp only
        by_cases hax : a' = x
        · subst hax
          rcases hb with hb | rfl
          · exact (hx hb).elim
          · rw [List.getElem?_set_self hlt, List.getElem?_set_self (by rw [h.len]; exact hlt)]
        · rw [List.getElem?_set_ne hax, List.getElem?_set_ne hax]
          exact h.mem x hx
    · rename_i hlt
      cases hs
      exact ⟨_, if_neg hlt, ⟨h.len, h.mem, h.num, h.thr, h.ch, h.sent, h.wgs, h.cells⟩, rfl⟩
  | recv c k =>
    cases p <;> try exact hl.elim
    rename_i c' k'
    obtain ⟨rfl, hk⟩ := hl
    dsimp only at hs ⊢
    rw [h.ch]
    split at hs
    · rename_i v hch
      cases hs
      have hk := hk v (h.sent _ _ hch)
      refine ⟨_, rfl, ⟨h.len, h.mem, (thr_set h.num h.thr hk).1, (thr_set h.num h.thr hk).2, rfl, ?_, h.wgs, h.cells⟩, rfl⟩
      intro x w hx
      dsimp only [fset] at hx
      split at hx
      · cases hx
      · exact h.sent x w hx
    · cases hs
  | send c v k =>
    cases p <;> try exact hl.elim
    rename_i c' v' k'
    obtain ⟨rfl, rfl, hP, hk⟩ := hl
    dsimp only at hs hQ ⊢
    rw [h.ch] at hQ ⊢
    split at hs
    · rename_i hch
      cases hs
      rw [hch] at hQ
      have hk := hk (hQ _ rfl _ _ _ rfl)
      refine ⟨_, rfl, ⟨h.len, h.mem, (thr_set h.num h.thr hk).1, (thr_set h.num h.thr hk).2, rfl, ?_, h.wgs, h.cells⟩, rfl⟩
      intro x w hx
      dsimp only [fset] at hx
      split at hx
      · rename_i hxc
        subst hxc
        cases hx
        exact hP
      · exact h.sent x w hx
    · rename_i hch
      split at hs
      · rename_i c'' k'' hj
        split at hs
        · rename_i hcc
          cases hs
          obtain ⟨p2, hp2⟩ : ∃ p, t.thr[j]? = some p :=
            ⟨_, List.getElem?_eq_getElem (by rw [h.num]; exact (List.getElem?_eq_some_iff.1 hj).1)⟩
          have hl2 := h.thr j _ _ hp2 hj
          cases p2 <;> try exact hl2.elim
          rename_i c3 k3
          obtain ⟨rfl, hk2⟩ := hl2
          have hk2 := hk2 v' (hcc.1 ▸ hP)
          rw [hch, hp2] at hQ
          have hk := hk (hQ _ (if_pos hcc) _ _ _ rfl)
          have h1 := thr_set h.num h.thr hk (i := i)
          have h2 := thr_set h1.1 h1.2 hk2 (i := j)
          rw [hp2]
          refine ⟨_, if_pos hcc, ⟨h.len, h.mem, h2.1, h2.2, rfl, h.sent, h.wgs, h.cells⟩, rfl⟩
        · cases hs
      · cases hs
    · cases hs
  | fork p' k =>
    cases p <;> try exact hl.elim
    cases hs
    have h1 := thr_set h.num h.thr hl.2 (i := i)
    refine ⟨_, rfl, ⟨h.len, h.mem, ?_, ?_, h.ch, h.sent, h.wgs, h.cells⟩, rfl⟩
    · dsimp only
      rw [List.length_append, List.length_append, h1.1]
      rfl
    · intro x p2 q2 hp2 hq2
      dsimp only at hp2 hq2
      by_cases hx : x < (s.thr.set i k).length
      · rw [List.getElem?_append_left (by rw [h1.1]; exact hx)] at hp2
        rw [List.getElem?_append_left hx] at hq2
        exact h1.2 x p2 q2 hp2 hq2
      · rw [List.getElem?_append_right (by rw [h1.1]; omega), h1.1] at hp2
        rw [List.getElem?_append_right (by omega)] at hq2
        obtain rfl := List.mem_singleton.1 (List.mem_of_getElem? hp2)
        obtain rfl := List.mem_singleton.1 (List.mem_of_getElem? hq2)
        exact hl.1
  | wgNew n k =>
    cases p <;> try exact hl.elim
    obtain ⟨rfl, hk⟩ := hl
    cases hs
    have hk := hk s.wgs.length
    refine ⟨_, rfl, ⟨h.len, h.mem, ?_, ?_, h.ch, h.sent, ?_, h.cells⟩, rfl⟩
    · dsimp only; rw [h.wgs]; exact (thr_set h.num h.thr hk).1
    · dsimp only; rw [h.wgs]; exact (thr_set h.num h.thr hk).2
    · dsimp only; rw [h.wgs]
  | wgDone w k =>
    cases p <;> try exact hl.elim
    obtain ⟨rfl, hk⟩ := hl
    dsimp only at hs ⊢
    rw [h.wgs]
    split at hs
    · rename_i n hw
      cases hs
      exact ⟨_, rfl, ⟨h.len, h.mem, (thr_set h.num h.thr hk).1, (thr_set h.num h.thr hk).2, h.ch, h.sent, rfl, h.cells⟩, rfl⟩
    · rename_i hw
      cases hs
      exact ⟨_, rfl, ⟨h.len, h.mem, h.num, h.thr, h.ch, h.sent, h.wgs, h.cells⟩, rfl⟩
    · cases hs
  | wgWait w k =>
    cases p <;> try exact hl.elim
    obtain ⟨rfl, hk⟩ := hl
    dsimp only at hs ⊢
    rw [h.wgs]
    split at hs
    · rename_i hw
      cases hs
      exact ⟨_, rfl, ⟨h.len, h.mem, (thr_set h.num h.thr hk).1, (thr_set h.num h.thr hk).2, h.ch, h.sent, rfl, h.cells⟩, rfl⟩
    · cases hs
  | setCell c v k =>
    cases p <;> try exact hl.elim
    obtain ⟨rfl, rfl, hk⟩ := hl
    cases hs
    refine ⟨_, rfl, ⟨h.len, h.mem, (thr_set h.num h.thr hk).1, (thr_set h.num h.thr hk).2, h.ch, h.sent, h.wgs, fun x hx => ?_⟩, rfl⟩
    dsimp only [fset]
    split
    · rfl
    · exact h.cells x hx
  | getCell c k =>
    cases p <;> try exact hl.elim
    rename_i c' k'
    obtain ⟨rfl, hk⟩ := hl
    cases hs
    have hk : (k' ((t.cells c').getD 0)).Like A X P Q (k ((s.cells c').getD 0)) := by
      rcases hk with ⟨h1, h2⟩ | h2
      · rw [h.cells c' h1]; exact h2 _
      · exact h2 _ _
    exact ⟨_, rfl, ⟨h.len, h.mem, (thr_set h.num h.thr hk).1, (thr_set h.num h.thr hk).2, h.ch, h.sent, h.wgs, h.cells⟩, rfl⟩

end

/-! ### What a lone client has sent -/

/-- Addresses of the instance fields (the last eight bytes) of the value records. -/
def Reg.InstField (r : Reg) (a : Nat) : Prop :=
  ∃ q < r.ValuesCount, r.valuesoffset + 32 * q + 24 ≤ a ∧ a < r.valuesoffset + 32 * q + 32

/-- Value offsets are offsets of records. -/
def ValueAt (r : Reg) (c : Chan) (v : Nat) : Prop := c = .value → ∃ q, v = r.valuesoffset + 32 * q
/-- Value offsets that have been sent are at most the end of the section. -/
def ValueIn (r : Reg) (c : Chan) (v : Nat) : Prop := c = .value → v ≤ r.valuesoffset + 32 * r.ValuesCount

theorem sent_in {r : Reg} {e : Env} {o : Ord} {cells : Cell → Option Nat} {t t' : St} (hr : r.OK) (ho : o.OK r)
    (h : Reach (initSt r e o cells) t) {i j : Nat} (hs : step t i j = some t') :
    ∀ c v k, t.thr[i]? = some (.send c v k) → ValueIn r c v := by
  rintro c v k hi rfl
  obtain ⟨W, g, _, hinv⟩ := inv_reach (params_wf hr) (init_inv (e := e) hr ho cells) h
  obtain ⟨W', g', _, hinv'⟩ := inv_reach (params_wf hr) (init_inv (e := e) hr ho cells) (h.tail ⟨i, j, hs⟩)
  have hm : (params r e o).made .value = true := by
    rcases hinv.thr i _ hi with hw | ⟨_, _, _, _, _, σ, _, _, hf⟩
    · unfold WP at hw
      rw [if_pos (show Chan.value.isAlloc = true from rfl)] at hw
      obtain ⟨_, _, _, _, _, hm, _⟩ := hw
      exact hm
    · exact hf.elim
  obtain ⟨u, hu, _⟩ := hinv.chan .value rfl hm
  obtain ⟨w, hw, hwv, _⟩ := hinv'.chan .value rfl hm
  have hv : t'.ch .value = .buf (some v) := by
    unfold step at hs
    rw [hinv.nocrash, if_neg (by simp), hi] at hs
    dsimp only at hs
    rcases hu with ⟨hu, _⟩ | ⟨hu, _⟩
    · rw [hu] at hs; cases hs
    · rw [hu] at hs
      cases hs
      simp [fset]
  have hle : w ≤ (params r e o).lim .value := by
    rw [hwv]
    exact Nat.add_le_add_left (Nat.mul_le_mul_left _ List.countP_le_length) _
  rw [(lim_eq hr e o).2.2.2.1] at hle
  rcases hw with ⟨hw, _⟩ | ⟨hw, _⟩
  · rw [hv] at hw
    cases hw
    exact hle
  · rw [hv] at hw
    cases hw

/-! ### `start` is like itself -/

section
variable {A : Cell → Prop} {r : Reg}

/-- The relation for clients with registry `r`. -/
abbrev LikeFor (A : Cell → Prop) (r : Reg) (p q : Proc) : Prop := p.Like A r.InstField (ValueAt r) (ValueIn r) q

theorem storeAll_like {data data' : List Byte} (hl : data.length = data'.length) {off : Nat}
    (hd : data = data' ∨ ∀ a, off ≤ a → a < off + data.length → r.InstField a) {k k' : Proc} (h : LikeFor A r k k') :
    LikeFor A r (storeAll off data k) (storeAll off data' k') := by
  induction data generalizing data' off with
  | nil =>
    cases data' with
    | nil => exact h
    | cons b bs => simp at hl
  | cons b bs ih =>
    cases data' with
    | nil => simp at hl
    | cons b' bs' =>
      refine ⟨rfl, ?_, ih (by simpa using hl) ?_⟩
      · rcases hd with hd | hd
        · cases hd; exact .inr rfl
        · exact .inl (hd off (Nat.le_refl _) (by simp))
      · rcases hd with hd | hd
        · cases hd; exact .inl rfl
        · refine .inr fun a h1 h2 => hd a (by omega) (by simp only [List.length_cons]; omega)

theorem mustWrite_like {len off : Nat} {data : List Byte} {k k' : Nat → Proc} (h : ∀ v, LikeFor A r (k v) (k' v)) :
    LikeFor A r (mustWrite len data off k) (mustWrite len data off k') := by
  unfold mustWrite
  split
  · exact storeAll_like rfl (.inl rfl) (h _)
  · trivial

theorem tryWrite_like {len off : Nat} {data : List Byte} {k k' : Proc} (h : LikeFor A r k k') :
    LikeFor A r (tryWrite len data off k) (tryWrite len data off k') := by
  unfold tryWrite
  split
  · exact storeAll_like rfl (.inl rfl) h
  · exact h

theorem forkIf_like {c : Prop} [Decidable c] {p k p' k' : Proc} (hp : LikeFor A r p p') (hk : LikeFor A r k k') :
    LikeFor A r (forkIf c p k) (forkIf c p' k') := by
  unfold forkIf
  split
  · exact ⟨hp, hk⟩
  · exact hk

theorem send_like {c : Chan} {v : Nat} {k k' : Proc} (hc : c ≠ .value) (h : LikeFor A r k k') :
    LikeFor A r (.send c v k) (.send c v k') := ⟨rfl, rfl, fun h => absurd h hc, fun _ => h⟩

theorem recv_like {c : Chan} {k k' : Nat → Proc} (h : ∀ v, LikeFor A r (k v) (k' v)) :
    LikeFor A r (.recv c k) (.recv c k') := ⟨rfl, fun v _ => h v⟩

theorem writeHeaderBlock_like {e : Env} : LikeFor A r (writeHeaderBlock r e) (writeHeaderBlock r e) := by
  unfold writeHeaderBlock
  iterate 8 refine mustWrite_like fun _ => ?_
  exact send_like (by decide) (send_like (by decide) trivial)

theorem writeSingleToc_like {p i c o : Nat} {k k' : Proc} (h : LikeFor A r k k') :
    LikeFor A r (writeSingleToc r p i c o k) (writeSingleToc r p i c o k') := by
  unfold writeSingleToc
  iterate 3 refine mustWrite_like fun _ => ?_
  exact h

theorem writeTocBlock_like {k k' : Proc} (h : LikeFor A r k k') : LikeFor A r (writeTocBlock r k) (writeTocBlock r k') := by
  unfold writeTocBlock
  refine ⟨rfl, fun wg => ?_⟩
  have t : LikeFor A r (Proc.wgDone wg .done) (Proc.wgDone wg .done) := ⟨rfl, trivial⟩
  exact forkIf_like (writeSingleToc_like t) (forkIf_like (writeSingleToc_like t)
    ⟨writeSingleToc_like t, writeSingleToc_like t, forkIf_like (writeSingleToc_like t) ⟨rfl, h⟩⟩)

theorem writeText_like {s : Str} {k k' : Nat → Proc} (h : ∀ v, LikeFor A r (k v) (k' v)) :
    LikeFor A r (writeText r s k) (writeText r s k') := by
  unfold writeText
  split
  · exact h _
  · exact recv_like fun _ => send_like (by decide) (mustWrite_like fun _ => h _)

theorem writeInstance_like {d : Indom} {i : Inst} {a b : Nat} {k k' : Proc} (h : LikeFor A r k k') :
    LikeFor A r (writeInstance r d i a b k) (writeInstance r d i a b k') := by
  unfold writeInstance
  refine ⟨rfl, rfl, mustWrite_like fun _ => mustWrite_like fun _ => mustWrite_like fun _ => ?_⟩
  split
  · exact recv_like fun _ => send_like (by decide) (mustWrite_like fun _ => mustWrite_like fun _ => h)
  · exact mustWrite_like fun _ => h

theorem writeInstancesLoop_like {d : Indom} {wg inoff : Nat} {is : List Inst} {ioff : Nat} {k k' : Proc} (h : LikeFor A r k k') :
    LikeFor A r (writeInstancesLoop r d wg inoff is ioff k) (writeInstancesLoop r d wg inoff is ioff k') := by
  induction is generalizing ioff with
  | nil => exact h
  | cons i is ih => exact ⟨writeInstance_like ⟨rfl, trivial⟩, ih⟩

theorem writeInstanceDomain_like {o : Ord} {d : Indom} {k k' : Proc} (h : LikeFor A r k k') :
    LikeFor A r (writeInstanceDomain r o d k) (writeInstanceDomain r o d k') := by
  unfold writeInstanceDomain
  refine recv_like fun _ => send_like (by decide) (recv_like fun _ => send_like (by decide) ⟨rfl, fun _ =>
    mustWrite_like fun _ => mustWrite_like fun _ => mustWrite_like fun _ => ?_⟩)
  exact writeInstancesLoop_like (writeText_like fun _ => writeText_like fun _ => mustWrite_like fun _ => mustWrite_like fun _ => ⟨rfl, h⟩)

theorem writeInstanceDomains_like {o : Ord} {k k' : Proc} (h : LikeFor A r k k') :
    LikeFor A r (writeInstanceDomains r o k) (writeInstanceDomains r o k') := by
  unfold writeInstanceDomains
  refine ⟨rfl, fun wg => ?_⟩
  have hk : LikeFor A r (Proc.wgWait wg k) (Proc.wgWait wg k') := ⟨rfl, h⟩
  generalize o.indoms = l
  induction l with
  | nil => exact hk
  | cons d l ih => exact ⟨writeInstanceDomain_like ⟨rfl, trivial⟩, ih⟩

theorem writeMetricDesc_like {m : Desc} {d : Option Indom} {off : Nat} {k k' : Proc} (h : LikeFor A r k k') :
    LikeFor A r (writeMetricDesc r m d off k) (writeMetricDesc r m d off k') := by
  have tail : ∀ off, LikeFor A r (writeDescTail r m d off k) (writeDescTail r m d off k') := by
    intro off
    unfold writeDescTail
    iterate 6 refine mustWrite_like fun _ => ?_
    exact writeText_like fun _ => writeText_like fun _ => mustWrite_like fun _ => mustWrite_like fun _ => h
  unfold writeMetricDesc
  split
  · exact send_like (by decide) (recv_like fun _ => send_like (by decide) (mustWrite_like fun _ => mustWrite_like fun _ => tail _))
  · exact send_like (by decide) (mustWrite_like fun _ => tail _)

theorem callUpdate_like {v : GoVal} {off : Nat} {k k' : Proc} (h : LikeFor A r k k') :
    LikeFor A r (callUpdate r v off k) (callUpdate r v off k') := by
  unfold callUpdate
  split
  · with_reducible refine mustWrite_like fun _ => ?_
    with_reducible exact tryWrite_like h
  · split
    · exact tryWrite_like h
    · exact h

theorem writeValue_like {t : MetricType} {v : GoVal} {c : Cell} {off : Nat} {k k' : Proc} (h : LikeFor A r k k') :
    LikeFor A r (writeValue r t v c off k) (writeValue r t v c off k') := by
  unfold writeValue
  split
  · exact mustWrite_like fun _ => recv_like fun _ => send_like (by decide) (mustWrite_like fun _ => callUpdate_like ⟨rfl, rfl, h⟩)
  · exact callUpdate_like ⟨rfl, rfl, h⟩

/-- Taking the next value record. -/
theorem value_like {k k' : Nat → Proc} (h : ∀ q, q < r.ValuesCount → LikeFor A r (k (r.valuesoffset + 32 * q)) (k' (r.valuesoffset + 32 * q))) :
    LikeFor A r (.recv .value fun off => .send .value (off + ValueLength) (k off)) (.recv .value fun off => .send .value (off + ValueLength) (k' off)) := by
  refine ⟨rfl, fun v hv => ?_⟩
  obtain ⟨q, rfl⟩ := hv rfl
  refine ⟨rfl, rfl, fun _ => ⟨q + 1, by simp only [ValueLength]; omega⟩, fun hq => h q ?_⟩
  have := hq rfl
  simp only [ValueLength] at this
  omega

theorem writeSingletonMetric_like {m : Metric} {v : GoVal} {k k' : Proc} (h : LikeFor A r k k') :
    LikeFor A r (writeSingletonMetric r m v k) (writeSingletonMetric r m v k') := by
  unfold writeSingletonMetric
  refine ⟨rfl, fun _ => recv_like fun _ => ⟨writeMetricDesc_like ⟨rfl, trivial⟩, ?_⟩⟩
  exact value_like fun q _ => ⟨writeValue_like ⟨rfl, trivial⟩, mustWrite_like fun _ => mustWrite_like fun _ => ⟨rfl, h⟩⟩

theorem writeInstanceMetric_like {o : Ord} {m : Metric} {d : Indom} {vs : List (Str × GoVal)} {k k' : Proc} (h : LikeFor A r k k') :
    LikeFor A r (writeInstanceMetric r o m d vs k) (writeInstanceMetric r o m d vs k') := by
  unfold writeInstanceMetric
  refine ⟨rfl, fun wg => recv_like fun doff => ⟨writeMetricDesc_like ⟨rfl, trivial⟩, ?_⟩⟩
  have hk : LikeFor A r (Proc.wgWait wg k) (Proc.wgWait wg k') := ⟨rfl, h⟩
  generalize o.vals m = l
  induction l with
  | nil => exact hk
  | cons i l ih =>
    refine value_like fun q hq => ⟨?_, ?_⟩
    · split
      · exact writeValue_like ⟨rfl, trivial⟩
      · trivial
    · unfold mustWrite
      split
      · refine storeAll_like rfl (.inl rfl) ⟨rfl, .inr fun v w => ?_⟩
        simp only [le_length]
        split
        · refine storeAll_like (by rw [le_length, le_length]) (.inr fun a h1 h2 => ⟨q, hq, ?_⟩) ih
          rw [le_length] at h2
          simp only [MaxDataValueSize] at h1 h2
          omega
        · trivial
      · trivial

theorem writeMetrics_like {o : Ord} {k k' : Proc} (h : LikeFor A r k k') :
    LikeFor A r (writeMetrics r o k) (writeMetrics r o k') := by
  unfold writeMetrics
  refine ⟨rfl, fun wg => ?_⟩
  have hk : LikeFor A r (Proc.wgWait wg k) (Proc.wgWait wg k') := ⟨rfl, h⟩
  generalize o.metrics = l
  induction l with
  | nil => exact hk
  | cons m l ih =>
    unfold writeMetricsLoop
    dsimp only
    split
    case h_9 => exact ih
    all_goals
      refine ⟨?_, ih⟩
      first
      | (with_reducible refine writeSingletonMetric_like ?_); exact ⟨rfl, trivial⟩
      | (with_reducible refine writeInstanceMetric_like ?_); exact ⟨rfl, trivial⟩

/-- What other clients do to the shared domain objects can only change the instance fields. -/
theorem startProg_like {e : Env} {o : Ord} : LikeFor A r (startProg r e o) (startProg r e o) := by
  unfold startProg
  exact ⟨writeHeaderBlock_like, rfl, fun _ => ⟨writeTocBlock_like ⟨rfl, trivial⟩, writeInstanceDomains_like (writeMetrics_like ⟨rfl, trivial⟩),
    recv_like fun _ => recv_like fun _ => ⟨rfl, mustWrite_like fun _ => trivial⟩⟩⟩

end

end Speed
