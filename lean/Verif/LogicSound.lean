import Verif.Logic
import Mathlib.Data.List.Nodup
import Mathlib.Data.List.Perm.Basic
/-
Soundness of the logic of `Logic.lean`: a global invariant that every step of every schedule
preserves.
-/
namespace Speed

/-- Who owns a resource: a goroutine, a finished obligation of a WaitGroup, or an offset channel. -/
inductive Loc where
  | thr (i : Nat)
  | dep (w i : Nat)
  | ch (c : Chan)
  deriving DecidableEq

/-- Global ghost state: one owner and one value per resource. -/
structure Gl where
  own : Key → Option Loc
  val : Key → Nat

def Gl.res (g : Gl) (l : Loc) : Res := fun k => if g.own k = some l then some (g.val k) else none

def FinalAt (P : Params) (p : Proc) (W : World) (R : Res) (m : Buf) : Prop :=
  Full P R ∧ R.NoTok ∧ R.NoObl ∧ (R .snd = none ∨ R .snd = some 2) ∧ (R .rcv = none ∨ R .rcv = some 2) ∧
  ∃ σ, σ.le W.sl ∧ SealOK P σ ∧ FinalOK P σ p m

structure Inv (P : Params) (s : St) (W : World) (g : Gl) : Prop where
  nocrash : s.crashed = false
  len : s.mem.length = P.len
  agr : ∀ a, g.own (.mem a) ≠ none → ∃ b, s.mem[a]? = some b ∧ b.toNat = g.val (.mem a)
  rng : ∀ k i, g.own k = some (.thr i) → i < s.thr.length
  lin : ∀ k l, g.own k = some l → k.plain = false → ∃ i, l = .thr i
  thr : ∀ i p, s.thr[i]? = some p →
    WP P p W (g.res (.thr i)) ∨ FinalAt P p W (g.res (.thr i)) s.mem
  phase : P.IA s.mem ∨ ∃ i p, s.thr[i]? = some p ∧ FinalAt P p W (g.res (.thr i)) s.mem
  chan : ∀ c, c.isAlloc = true → P.made c = true → ∃ v,
     ((s.ch c = .buf (some v) ∧ g.own (.tok c) = none) ∨
       (s.ch c = .buf none ∧ g.own (.tok c) ≠ none ∧ g.val (.tok c) = v)) ∧
     v = P.base c + P.slotLen c * (P.toks c).countP (fun t => (W.sl (.slot t)).isSome) ∧
     (∀ a, v ≤ a → a < P.lim c → g.own (.mem a) = some (.ch c) ∧ g.val (.mem a) = 0) ∧
     (∀ t x, t.chan = c → W.sl (.slot t) = some x → x + P.slotLen c ≤ v)
  rv : ∀ c, c.isAlloc = false → s.ch c = .unbuf
  wlen : s.wgs.length = W.wgs.length
  wg : ∀ w Qs, W.wgs[w]? = some Qs →
      s.wgs[w]? = some ((List.range Qs.length).countP (fun i => (g.own (.obl w i)).isSome)) ∧
      (g.own (.wait w) ≠ none → ∀ (i : Nat) (Q : Asrt), Qs[i]? = some Q → g.own (.obl w i) = none →
        ∀ σ, W.sl.le σ → Q σ (g.res (.dep w i)))
  obl : ∀ w i, g.own (.obl w i) ≠ none → ∃ Qs : List Asrt, W.wgs[w]? = some Qs ∧ i < Qs.length
  waitIn : ∀ w, g.own (.wait w) ≠ none → w < W.wgs.length
  depIn : ∀ k w i, g.own k = some (.dep w i) →
    ∃ Qs : List Asrt, W.wgs[w]? = some Qs ∧ i < Qs.length ∧ g.own (.obl w i) = none
  sess : g.own .snd ≠ none ∧ g.own .rcv ≠ none ∧ g.val .snd = g.val .rcv
  fin : g.own .fin = some (.thr 0)
  cells : ∀ c v, W.sl (.cell c) = some v → s.cells c = some v
  seals : ∀ k, W.sl k ≠ none → g.own (.perm k) = none
  sok : SealOK P W.sl

theorem Gl.res_some {g : Gl} {l : Loc} {k : Key} : g.res l k ≠ none ↔ g.own k = some l := by
  unfold Gl.res; split <;> simp_all

theorem Gl.res_eq {g : Gl} {l : Loc} {k : Key} {v : Nat} :
    g.res l k = some v ↔ g.own k = some l ∧ g.val k = v := by
  unfold Gl.res; split <;> simp_all

theorem Gl.res_none {g : Gl} {l : Loc} {k : Key} : g.res l k = none ↔ g.own k ≠ some l := by
  unfold Gl.res; split <;> simp_all

theorem Gl.res_congr {g g' : Gl} {l : Loc} (h1 : ∀ k, g'.own k = some l ↔ g.own k = some l)
    (h2 : ∀ k, g.own k = some l → g'.val k = g.val k) : g'.res l = g.res l := by
  funext k
  unfold Gl.res
  by_cases h : g.own k = some l
  · rw [if_pos h, if_pos ((h1 k).2 h), h2 k h]
  · rw [if_neg h, if_neg (fun h' => h ((h1 k).1 h'))]

theorem Inv.agrees {P s W g} (h : Inv P s W g) (l : Loc) : (g.res l).Agrees s.mem := by
  intro a v hv
  rw [Gl.res_eq] at hv
  obtain ⟨b, hb, hb2⟩ := h.agr a (by simp [hv.1])
  exact ⟨b, hb, hb2.trans hv.2⟩

theorem FinalAt.mono {P p W W' R m} (hle : W.le W') (h : FinalAt P p W R m) : FinalAt P p W' R m := by
  obtain ⟨h1, h2, h3, h4, h5, σ, h6, h7⟩ := h
  exact ⟨h1, h2, h3, h4, h5, σ, Seal.le_trans h6 hle.2, h7⟩

/-- A thread whose next action is not a store (and that has not returned) is not in the final phase. -/
def Proc.isFinalShape : Proc → Bool
  | .done => true
  | .store _ _ _ => true
  | _ => false

theorem FinalAt.shape {P p W R m} (h : FinalAt P p W R m) : p.isFinalShape = true := by
  obtain ⟨_, _, _, _, _, σ, _, _, h⟩ := h
  cases p <;> simp_all [FinalOK, Proc.isFinalShape]

theorem Inv.wp {P s W g} (h : Inv P s W g) {i p} (hi : s.thr[i]? = some p)
    (hs : p.isFinalShape = false) : WP P p W (g.res (.thr i)) := by
  rcases h.thr i p hi with h | h
  · exact h
  · have := h.shape; simp_all

theorem set_get {α} {l : List α} {i j : Nat} {p q : α} (h : (l.set i p)[j]? = some q) :
    (j = i ∧ q = p ∧ i < l.length) ∨ (j ≠ i ∧ l[j]? = some q) := by
  rw [List.getElem?_set] at h
  split at h
  · split at h <;> simp_all
  · simp_all; omega

theorem lt_of_get {α} {l : List α} {i : Nat} {p : α} (h : l[i]? = some p) : i < l.length :=
  (List.getElem?_eq_some_iff.1 h).1

/-- A step of goroutine `i` that changes neither memory, channels nor WaitGroup counters, and after
which the others own what they owned. -/
theorem thr_frame {P : Params} {s : St} {W W' : World} {g g' : Gl} {i : Nat} {p k : Proc}
    (h : Inv P s W g) (hi : s.thr[i]? = some p) (hsh : p.isFinalShape = false) (hle : W.le W')
    (hres : ∀ j, j ≠ i → g'.res (.thr j) = g.res (.thr j))
    (hk : WP P k W' (g'.res (.thr i)) ∨ FinalAt P k W' (g'.res (.thr i)) s.mem) :
    (∀ j q, (s.thr.set i k)[j]? = some q →
      WP P q W' (g'.res (.thr j)) ∨ FinalAt P q W' (g'.res (.thr j)) s.mem) ∧
    (P.IA s.mem ∨ ∃ j q, (s.thr.set i k)[j]? = some q ∧ FinalAt P q W' (g'.res (.thr j)) s.mem) := by
  constructor
  · intro j q hq
    rcases set_get hq with ⟨rfl, rfl, _⟩ | ⟨hne, hq⟩
    · exact hk
    · rw [hres j hne]
      rcases h.thr j q hq with h | h
      · exact .inl (h.mono hle)
      · exact .inr (h.mono hle)
  · rcases h.phase with h' | ⟨j, q, hj, hf⟩
    · exact .inl h'
    · refine .inr ⟨j, q, ?_, ?_⟩
      · have hne : j ≠ i := by
          rintro rfl
          rw [hi] at hj; cases hj
          have := hf.shape; simp_all
        rw [List.getElem?_set_ne (Ne.symm hne)]; exact hj
      · have hne : j ≠ i := by
          rintro rfl
          rw [hi] at hj; cases hj
          have := hf.shape; simp_all
        rw [hres j hne]; exact hf.mono hle

/-! ### Preservation, one lemma per kind of step -/

theorem inv_store_wp {P s W g i a b k} (h : Inv P s W g) (hi : s.thr[i]? = some (.store a b k))
    (hw : WP P (.store a b k) W (g.res (.thr i)))
    (hnfi : ¬ FinalAt P (.store a b k) W (g.res (.thr i)) s.mem) :
    Inv P { s with mem := s.mem.set a b, thr := s.thr.set i k } W
      ⟨g.own, fset g.val (.mem a) b.toNat⟩ := by
  obtain ⟨ha, ho, hIA, hk⟩ := hw
  rw [Gl.res_some] at ho
  have hres : ∀ l, l ≠ .thr i → Gl.res ⟨g.own, fset g.val (.mem a) b.toNat⟩ l = g.res l := by
    intro l hl
    apply Gl.res_congr
    · intro k; rfl
    · intro k hk
      simp only [fset]
      split
      · subst_vars; rw [ho] at hk; simp at hk; exact absurd hk.symm hl
      · rfl
  have hresi : Gl.res ⟨g.own, fset g.val (.mem a) b.toNat⟩ (.thr i) = fset (g.res (.thr i)) (.mem a) (some b.toNat) := by
    funext k
    simp only [Gl.res, fset]
    split <;> split <;> simp_all
  have hnf : ∀ j q, s.thr[j]? = some q → j ≠ i → ¬ FinalAt P q W (g.res (.thr j)) s.mem := by
    intro j q _ hne hf
    have := hf.1 a ha
    rw [Gl.res_some, ho] at this
    simp at this; omega
  have hlen := h.len
  refine { nocrash := h.nocrash, len := by simpa using h.len, agr := ?_, rng := ?_, lin := h.lin, thr := ?_,
           phase := ?_, chan := ?_, rv := h.rv, wlen := h.wlen, wg := ?_, obl := h.obl, waitIn := h.waitIn,
           depIn := h.depIn,
           sess := ?_, fin := h.fin, cells := h.cells, seals := h.seals, sok := h.sok }
  · intro x hx
    simp only [fset]
    by_cases hxa : x = a
    · subst hxa; simp [hlen, ha]
    · obtain ⟨y, hy, hy2⟩ := h.agr x hx
      exact ⟨y, by simp [Ne.symm hxa, hy], by simp [hxa, hy2]⟩
  · intro x j hx; simpa using h.rng x j hx
  · intro j q hq
    rcases set_get hq with ⟨rfl, rfl, _⟩ | ⟨hne, hq⟩
    · left; rw [hresi]; exact hk
    · rw [hres _ (by simp; omega)]
      rcases h.thr j q hq with h' | h'
      · exact .inl h'
      · exact absurd h' (hnf j q hq hne)
  · left
    rcases h.phase with h' | ⟨j, q, hj, hf⟩
    · exact hIA _ h.len (h.agrees _) h'
    · exfalso
      by_cases hne : j = i
      · subst hne
        rw [hi] at hj; cases hj
        exact hnfi hf
      · exact hnf j q hj hne hf
  · intro c hc hm
    obtain ⟨v, h1, h2, h3, h4⟩ := h.chan c hc hm
    refine ⟨v, ?_, h2, ?_, h4⟩
    · simpa [fset] using h1
    · intro x hx hx2
      obtain ⟨h5, h6⟩ := h3 x hx hx2
      refine ⟨h5, ?_⟩
      have : x ≠ a := by rintro rfl; rw [h5] at ho; simp at ho
      simpa [fset, this] using h6
  · intro w Qs hw
    obtain ⟨h1, h2⟩ := h.wg w Qs hw
    refine ⟨h1, fun h3 n Q h4 h5 σ h6 => ?_⟩
    rw [hres _ (by simp)]
    exact h2 h3 n Q h4 h5 σ h6
  · have := h.sess
    simpa [fset] using this

theorem inv_store_final {P s W g i a b k} (h : Inv P s W g) (hi : s.thr[i]? = some (.store a b k))
    (hf : FinalAt P (.store a b k) W (g.res (.thr i)) s.mem) :
    Inv P { s with mem := s.mem.set a b, thr := s.thr.set i k } W
      ⟨g.own, fset g.val (.mem a) b.toNat⟩ := by
  obtain ⟨hF, hT, hO, hS, hR, σ, hσ, hsok, hfo⟩ := hf
  obtain ⟨hIB, ⟨ha, _⟩, hfo⟩ := hfo
  have ho := hF a ha
  rw [Gl.res_some] at ho
  have hres : ∀ l, l ≠ .thr i → Gl.res ⟨g.own, fset g.val (.mem a) b.toNat⟩ l = g.res l := by
    intro l hl
    apply Gl.res_congr
    · intro k; rfl
    · intro k hk
      simp only [fset]
      split
      · subst_vars; rw [ho] at hk; simp at hk; exact absurd hk.symm hl
      · rfl
  have hkey : ∀ key, key ≠ .mem a → Gl.res ⟨g.own, fset g.val (.mem a) b.toNat⟩ (.thr i) key = g.res (.thr i) key := by
    intro key hk
    simp [Gl.res, fset, hk]
  have hnew : FinalAt P k W (Gl.res ⟨g.own, fset g.val (.mem a) b.toNat⟩ (.thr i)) (s.mem.set a b) := by
    refine ⟨?_, ?_, ?_, ?_, ?_, σ, hσ, hsok, hfo⟩
    · intro x hx
      have := hF x hx
      rw [Gl.res_some] at this ⊢; exact this
    · intro c; rw [hkey _ (by simp)]; exact hT c
    · intro c d; rw [hkey _ (by simp)]; exact hO c d
    · rw [hkey _ (by simp)]; exact hS
    · rw [hkey _ (by simp)]; exact hR
  have hnf : ∀ j q, s.thr[j]? = some q → j ≠ i → ¬ FinalAt P q W (g.res (.thr j)) s.mem := by
    intro j q _ hne hf
    have := hf.1 a ha
    rw [Gl.res_some, ho] at this
    simp at this; omega
  have hlen := h.len
  have hil := lt_of_get hi
  refine { nocrash := h.nocrash, len := by simpa using h.len, agr := ?_, rng := ?_, lin := h.lin, thr := ?_,
           phase := ?_, chan := ?_, rv := h.rv, wlen := h.wlen, wg := ?_, obl := h.obl, waitIn := h.waitIn,
           depIn := h.depIn,
           sess := ?_, fin := h.fin, cells := h.cells, seals := h.seals, sok := h.sok }
  · intro x hx
    simp only [fset]
    by_cases hxa : x = a
    · subst hxa; simp [hlen, ha]
    · obtain ⟨y, hy, hy2⟩ := h.agr x hx
      exact ⟨y, by simp [Ne.symm hxa, hy], by simp [hxa, hy2]⟩
  · intro x j hx; simpa using h.rng x j hx
  · intro j q hq
    rcases set_get hq with ⟨rfl, rfl, _⟩ | ⟨hne, hq⟩
    · right; exact hnew
    · rw [hres _ (by simp; omega)]
      rcases h.thr j q hq with h' | h'
      · exact .inl h'
      · exact absurd h' (hnf j q hq hne)
  · right
    exact ⟨i, k, by simp [hil], hnew⟩
  · intro c hc hm
    obtain ⟨v, h1, h2, h3, h4⟩ := h.chan c hc hm
    refine ⟨v, ?_, h2, ?_, h4⟩
    · simpa [fset] using h1
    · intro x hx hx2
      obtain ⟨h5, h6⟩ := h3 x hx hx2
      refine ⟨h5, ?_⟩
      have : x ≠ a := by rintro rfl; rw [h5] at ho; simp at ho
      simpa [fset, this] using h6
  · intro w Qs hw
    obtain ⟨h1, h2⟩ := h.wg w Qs hw
    refine ⟨h1, fun h3 n Q h4 h5 σ h6 => ?_⟩
    rw [hres _ (by simp)]
    exact h2 h3 n Q h4 h5 σ h6
  · have := h.sess
    simpa [fset] using this

theorem inv_recv {P s W g i c k v} (h : Inv P s W g) (hi : s.thr[i]? = some (.recv c k))
    (hc : s.ch c = .buf (some v)) :
    ∃ W' g', W.le W' ∧
      Inv P { s with ch := fset s.ch c (.buf none), thr := s.thr.set i (k v) } W' g' := by
  have hw := h.wp hi rfl
  have hal : c.isAlloc = true := by
    rcases hca : c.isAlloc with _ | _
    · have := h.rv c hca; simp_all
    · rfl
  unfold WP at hw
  rw [if_pos hal] at hw
  obtain ⟨hT, hm, gs, hgs, hk⟩ := hw
  obtain ⟨v', h1, h2, h3, h4⟩ := h.chan c hal hm
  have hon : g.own (.tok c) = none ∧ v' = v := by
    rcases h1 with ⟨h1, h5⟩ | ⟨h1, _⟩
    · rw [hc] at h1; simp at h1; exact ⟨h5, h1.symm⟩
    · rw [hc] at h1; simp at h1
  obtain ⟨hon, rfl⟩ := hon
  have hgo : ∀ n, gs n = true → g.own (.perm (.ghost n)) = some (.thr i) := fun n hn =>
    Gl.res_some.1 (hgs n hn)
  have hun : ∀ n, gs n = true → W.sl (.ghost n) = none := by
    intro n hn
    by_contra hne
    have := h.seals _ hne
    rw [hgo n hn] at this; simp at this
  let σ' : Seal := fun key => match key with
    | .ghost n => if gs n then some v' else W.sl (.ghost n)
    | key => W.sl key
  have hσle : W.sl.le σ' := by
    intro key x hx
    cases key with
    | ghost n =>
      simp only [σ']
      split
      · rename_i hn; rw [hun n hn] at hx; simp at hx
      · exact hx
    | _ => exact hx
  let W' : World := ⟨W.wgs, σ'⟩
  have hle : W.le W' := ⟨List.prefix_rfl, hσle⟩
  let own' : Key → Option Loc := fun key => match key with
    | .tok c' => if c' = c then some (.thr i) else g.own (.tok c')
    | .perm (.ghost n) => if gs n then none else g.own (.perm (.ghost n))
    | key => g.own key
  let g' : Gl := ⟨own', fset g.val (.tok c) v'⟩
  have hkeep : ∀ key l, key ≠ .tok c → g'.own key = some l → g.own key = some l := by
    intro key l hne hk'
    simp only [g', own'] at hk'
    split at hk'
    · rename_i c'
      rw [if_neg (by rintro rfl; exact hne rfl)] at hk'; exact hk'
    · split at hk'
      · simp at hk'
      · exact hk'
    · exact hk'
  have hval : ∀ k, k ≠ .tok c → g'.val k = g.val k := by intro k hk; simp [g', fset, hk]
  have hres : ∀ l, l ≠ .thr i → g'.res l = g.res l := by
    intro l hl
    apply Gl.res_congr
    · intro key
      simp only [g', own']
      split
      · split
        · subst_vars; simp [hon, Ne.symm hl]
        · rfl
      · split
        · rename_i hn; rw [hgo _ hn]; simp [Ne.symm hl]
        · rfl
      · rfl
    · intro key hk'
      apply hval
      rintro rfl; rw [hon] at hk'; simp at hk'
  have hresi : g'.res (.thr i) = fset ((g.res (.thr i)).drop gs) (.tok c) (some v') := by
    funext key
    simp only [Gl.res, g', own', fset, Res.drop]
    split
    · split
      · subst_vars; simp
      · rename_i hne; simp [hne]
    · rename_i n
      split
      · simp_all
      · simp_all
    · rename_i h5 h6
      have : key ≠ .tok c := by rintro rfl; exact h5 c rfl
      simp only [this, if_false]
  have ht := thr_frame (k := k v') h hi rfl hle (g' := g')
    (fun j hj => hres _ (by simpa using hj)) (.inl (by
      rw [hresi]; exact hk v' W' hle (fun n hn => by simp [W', σ', hn])))
  have hslot : ∀ t, W'.sl (.slot t) = W.sl (.slot t) := fun t => rfl
  have ho : ∀ key, key ≠ .tok c → (∀ n, key ≠ .perm (.ghost n)) → g'.own key = g.own key := by
    intro key h5 h6
    simp only [g', own']
    split
    · rw [if_neg (by rintro rfl; exact h5 rfl)]
    · rename_i n; exact absurd rfl (h6 n)
    · rfl
  refine ⟨W', g', hle, ?_⟩
  refine { nocrash := h.nocrash, len := h.len, agr := ?_, rng := ?_, lin := ?_, thr := ht.1,
           phase := ht.2, chan := ?_, rv := ?_, wlen := h.wlen, wg := ?_, obl := ?_, waitIn := ?_,
           depIn := ?_,
           sess := ?_, fin := ?_, cells := h.cells, seals := ?_, sok := ?_ }
  · intro a ha
    rw [ho _ (by simp) (by simp)] at ha; rw [hval _ (by simp)]; exact h.agr a ha
  · intro x j hx
    by_cases hxc : x = .tok c
    · subst hxc; simp [g', own'] at hx; subst hx; simpa using lt_of_get hi
    · simpa using h.rng x j (hkeep _ _ hxc hx)
  · intro x l hx hp
    by_cases hxc : x = .tok c
    · subst hxc; simp [g', own'] at hx; exact ⟨i, hx.symm⟩
    · exact h.lin x l (hkeep _ _ hxc hx) hp
  · intro c' hc' hm'
    by_cases hcc : c' = c
    · subst hcc
      refine ⟨v', .inr ⟨by simp [fset], by simp [g', own'], by simp [g', fset]⟩, ?_, ?_, ?_⟩
      · simp only [hslot]; exact h2
      · intro x hx hx2
        rw [ho _ (by simp) (by simp), hval _ (by simp)]; exact h3 x hx hx2
      · intro t x; rw [hslot]; exact h4 t x
    · obtain ⟨v2, h1, h2, h3, h4⟩ := h.chan c' hc' hm'
      refine ⟨v2, ?_, ?_, ?_, ?_⟩
      · rw [ho _ (by simpa using hcc) (by simp), hval _ (by simpa using hcc)]; simpa [fset, hcc] using h1
      · simp only [hslot]; exact h2
      · intro x hx hx2
        rw [ho _ (by simp) (by simp), hval _ (by simp)]; exact h3 x hx hx2
      · intro t x; rw [hslot]; exact h4 t x
  · intro c' hc'
    have : c' ≠ c := by rintro rfl; simp_all
    simpa [fset, this] using h.rv c' hc'
  · intro w Qs hw
    obtain ⟨h1, h2⟩ := h.wg w Qs hw
    refine ⟨?_, fun h3 n Q h4 h5 σ h6 => ?_⟩
    · simp only [ho (.obl w _) (by simp) (by simp)]; exact h1
    · rw [hres _ (by simp)]
      rw [ho _ (by simp) (by simp)] at h3 h5
      exact h2 h3 n Q h4 h5 σ (Seal.le_trans hσle h6)
  · intro w n hn; rw [ho _ (by simp) (by simp)] at hn; exact h.obl w n hn
  · intro w hn; rw [ho _ (by simp) (by simp)] at hn; exact h.waitIn w hn
  · intro x w n hn
    rw [ho (.obl w n) (by simp) (by simp)]
    apply h.depIn x w n
    by_cases hxc : x = .tok c
    · subst hxc; simp [g', own'] at hn
    · exact hkeep _ _ hxc hn
  · rw [ho _ (by simp) (by simp), ho _ (by simp) (by simp), hval _ (by simp), hval _ (by simp)]; exact h.sess
  · rw [ho _ (by simp) (by simp)]; exact h.fin
  · intro key hk'
    cases key with
    | ghost n =>
      simp only [g', own']
      split
      · rfl
      · rename_i hn
        simp only [W', σ', hn] at hk'
        exact h.seals _ (by simpa using hk')
    | cell c => rw [ho _ (by simp) (by simp)]; exact h.seals _ hk'
    | slot t => rw [ho _ (by simp) (by simp)]; exact h.seals _ hk'
  · exact ⟨fun t v hv => h.sok.1 t v hv, fun t t' v hc h5 h6 => h.sok.2 t t' v hc h5 h6⟩

theorem countP_add {α} (l : List α) (p q : α → Bool) (h : ∀ x ∈ l, q x = true → p x = false) :
    l.countP (fun x => p x || q x) = l.countP p + l.countP q := by
  induction l with
  | nil => rfl
  | cons x l ih =>
    have ih := ih (fun y hy => h y (List.mem_cons_of_mem _ hy))
    have hx := h x (by simp)
    simp only [List.countP_cons]
    rw [ih]
    cases hq : q x
    · cases hp : p x
      · simp
      · simp; omega
    · simp [hx hq]; omega

theorem countP_mem {α} [DecidableEq α] (l ts : List α) (hl : l.Nodup) (ht : ts.Nodup)
    (h : ∀ t ∈ ts, t ∈ l) : l.countP (fun x => decide (x ∈ ts)) = ts.length := by
  rw [List.countP_eq_length_filter]
  apply List.Perm.length_eq
  apply (List.perm_ext_iff_of_nodup (hl.filter _) ht).2
  intro a; simp; exact h a

/-- Sanity conditions on the parameters. -/
structure Params.WF (P : Params) : Prop where
  nodup : ∀ c, (P.toks c).Nodup
  chan : ∀ c, ∀ t ∈ P.toks c, t.chan = c
  pos : ∀ c, 0 < P.slotLen c

theorem inv_send {P s W g i c v k} (hwf : P.WF) (h : Inv P s W g)
    (hi : s.thr[i]? = some (.send c v k)) (hc : s.ch c = .buf none) :
    ∃ W' g', W.le W' ∧ Inv P { s with ch := fset s.ch c (.buf (some v)), thr := s.thr.set i k } W' g' := by
  have hw := h.wp hi rfl
  have hal : c.isAlloc = true := by
    rcases hca : c.isAlloc with _ | _
    · have := h.rv c hca; simp_all
    · rfl
  unfold WP at hw
  rw [if_pos hal] at hw
  obtain ⟨v0, ts, hT, hv, hts, hm, hp, hk⟩ := hw
  obtain ⟨v', h1, h2, h3, h4⟩ := h.chan c hal hm
  rw [Gl.res_eq] at hT
  have hvv : g.val (.tok c) = v' := by
    rcases h1 with ⟨h1, h5⟩ | ⟨_, _, h1⟩
    · rw [hc] at h1; simp at h1
    · exact h1
  have hv0 : v0 = v' := by rw [← hT.2, hvv]
  subst hv0
  set L := P.slotLen c with hL
  set n := ts.length with hn
  -- counting
  have huns : ∀ t ∈ ts, W.sl (.slot t) = none := by
    intro t ht
    have h5 := (hp t ht).2.2
    rw [Gl.res_some] at h5
    by_contra hne
    have := h.seals _ hne
    rw [this] at h5; simp at h5
  have hcnt : (P.toks c).countP (fun t => (W.sl (.slot t)).isSome || decide (t ∈ ts)) =
      (P.toks c).countP (fun t => (W.sl (.slot t)).isSome) + n := by
    rw [countP_add, countP_mem _ _ (hwf.nodup c) hts (fun t ht => (hp t ht).2.1)]
    intro x _ hx
    simp at hx
    simp [huns x hx]
  have hle1 : (P.toks c).countP (fun t => (W.sl (.slot t)).isSome) + n ≤ (P.toks c).length := by
    rw [← hcnt]; exact List.countP_le_length
  have hlim : v0 + n * L ≤ P.lim c := by
    unfold Params.lim
    rw [h2, ← hL, Nat.mul_comm n L, Nat.add_assoc, ← Nat.mul_add]
    exact Nat.add_le_add_left (Nat.mul_le_mul_left _ hle1) _
  have hbase : P.base c ≤ v0 := by rw [h2]; omega
  -- new world
  set σ' : Seal := fun key => match key with
    | .slot t => if t ∈ ts then some (v0 + ts.idxOf t * L) else W.sl (.slot t)
    | key => W.sl key with hσ'
  have hσslot : ∀ t, σ' (.slot t) = if t ∈ ts then some (v0 + ts.idxOf t * L) else W.sl (.slot t) := fun t => rfl
  have hσcell : ∀ x, σ' (.cell x) = W.sl (.cell x) := fun t => rfl
  have hσle : W.sl.le σ' := by
    intro key x hx
    cases key with
    | cell c => exact hx
    | ghost n => exact hx
    | slot t =>
      rw [hσslot]
      split
      · rename_i ht; rw [huns t ht] at hx; simp at hx
      · exact hx
  set W' : World := ⟨W.wgs, σ'⟩ with hW'
  have hWle : W.le W' := ⟨List.prefix_rfl, hσle⟩
  set own' : Key → Option Loc := fun key => match key with
    | .tok c' => if c' = c then none else g.own (.tok c')
    | .perm (.slot t) => if t ∈ ts then none else g.own (.perm (.slot t))
    | .mem a => if v0 ≤ a ∧ a < v0 + n * L then some (.thr i) else g.own (.mem a)
    | key => g.own key with hown'
  set g' : Gl := ⟨own', g.val⟩ with hg'
  have hmemold : ∀ a, v0 ≤ a → a < v0 + n * L → g.own (.mem a) = some (.ch c) ∧ g.val (.mem a) = 0 :=
    fun a ha hb => h3 a ha (by omega)
  have hres : ∀ l, l ≠ .thr i → l ≠ .ch c → g'.res l = g.res l := by
    intro l hl hl2
    apply Gl.res_congr
    · intro key
      simp only [hg', hown']
      split
      · split
        · subst_vars; simp [hT.1, Ne.symm hl]
        · rfl
      · split
        · rename_i t ht
          have := (hp t ht).2.2; rw [Gl.res_some] at this
          simp [this, Ne.symm hl]
        · rfl
      · split
        · rename_i a ha
          simp [(hmemold a ha.1 ha.2).1, Ne.symm hl, Ne.symm hl2]
        · rfl
      · rfl
    · intro k hk; rfl
  have hresi : g'.res (.thr i) = (g.res (.thr i)).alloc c v0 (n * L) ts := by
    funext key
    unfold Res.alloc
    simp only [Gl.res, hg', hown']
    split
    · split <;> simp_all
    · split <;> simp_all
    · split
      · rename_i a ha
        show _ = if v0 ≤ a ∧ a < v0 + n * L then some 0 else _
        rw [if_pos ha, if_pos rfl, (hmemold a ha.1 ha.2).2]
      · rename_i a ha
        show _ = if v0 ≤ a ∧ a < v0 + n * L then some 0 else _
        rw [if_neg ha]
    · rename_i hk1 hk2 hk3
      cases key with
      | mem a => exact absurd rfl (hk3 a)
      | tok c => exact absurd rfl (hk1 c)
      | perm q => cases q with
        | slot t => exact absurd rfl (hk2 t)
        | cell c => rfl
        | ghost n => rfl
      | _ => rfl
  have hkk : WP P k W' (g'.res (.thr i)) := by
    rw [hresi]
    apply hk W' hWle
    · intro j t hj
      have hmem : t ∈ ts := List.mem_of_getElem? hj
      rw [show W'.sl = σ' from rfl, hσslot, if_pos hmem]
      have hlt := lt_of_get hj
      have : ts.idxOf t = j := by
        rw [List.getElem?_eq_getElem hlt] at hj
        simp at hj
        rw [← hj, hts.idxOf_getElem]
      rw [this]
    · exact hlim
    · exact hbase
    · intro a ha hb
      rw [Gl.res_none, (hmemold a ha hb).1]; simp
  have ht := thr_frame (k := k) h hi rfl hWle (g' := g')
    (fun j hj => hres _ (by simpa using hj) (by simp)) (.inl hkk)
  have hmemn : ∀ a, g'.own (.mem a) = if v0 ≤ a ∧ a < v0 + n * L then some (.thr i) else g.own (.mem a) := fun _ => rfl
  have htokn : ∀ c', g'.own (.tok c') = if c' = c then none else g.own (.tok c') := fun _ => rfl
  have hsub : ∀ key, g'.own key ≠ none → g.own key ≠ none := by
    intro key
    simp only [hg', hown']
    split
    · split <;> simp_all
    · split <;> simp_all
    · split
      · rename_i a ha; simp [(hmemold a ha.1 ha.2).1]
      · exact id
    · exact id
  have hkeep : ∀ key l, g'.own key = some l → g.own key = some l ∨ (l = .thr i ∧ key.plain = true) := by
    intro key l
    simp only [hg', hown']
    split
    · split <;> simp_all
    · split <;> simp_all
    · split
      · intro hh; simp at hh; right; exact ⟨hh.symm, rfl⟩
      · exact .inl
    · exact .inl
  refine ⟨W', g', hWle, ?_⟩
  have hsok' : SealOK P σ' := by
    have hidx : ∀ t ∈ ts, v0 + ts.idxOf t * L + L ≤ v0 + n * L := by
      intro t ht
      have : ts.idxOf t + 1 ≤ n := List.idxOf_lt_length_iff.2 ht
      have := Nat.mul_le_mul_right L this
      rw [Nat.add_mul] at this; omega
    constructor
    · intro t x hx
      rw [hσslot] at hx
      split at hx
      · rename_i htm
        have hch := (hp t htm).1
        simp at hx
        subst hx
        rw [hch]
        refine ⟨(hp t htm).2.1, ?_, ?_⟩
        · have := hidx t htm; omega
        · refine ⟨(P.toks c).countP (fun t => (W.sl (.slot t)).isSome) + ts.idxOf t, ?_⟩
          rw [h2, Nat.mul_add, Nat.add_assoc, Nat.mul_comm (ts.idxOf t) L]
      · exact h.sok.1 t x hx
    · have key : ∀ t t' x, t.chan = t'.chan → t ∈ ts → t' ∉ ts → σ' (.slot t) = some x →
          W.sl (.slot t') = some x → False := by
        intro t t' x hch ht ht' hx hx'
        have := h4 t' x (by rw [← hch, (hp t ht).1]) hx'
        rw [hσslot, if_pos ht] at hx
        simp at hx
        have hLpos : 0 < L := hwf.pos c
        omega
      intro t t' x hch hx hx'
      by_cases ht : t ∈ ts
      · by_cases ht' : t' ∈ ts
        · rw [hσslot, if_pos ht] at hx
          rw [hσslot, if_pos ht'] at hx'
          simp only [Option.some.injEq] at hx hx'
          have h5 : ts.idxOf t * L = ts.idxOf t' * L := by omega
          have h6 := Nat.eq_of_mul_eq_mul_right (hwf.pos c) h5
          exact (List.idxOf_inj ht).1 h6
        · exact absurd (key t t' x hch ht ht' hx (by rwa [hσslot, if_neg ht'] at hx')) id
      · by_cases ht' : t' ∈ ts
        · exact absurd (key t' t x hch.symm ht' ht hx' (by rwa [hσslot, if_neg ht] at hx)) id
        · rw [hσslot, if_neg ht] at hx
          rw [hσslot, if_neg ht'] at hx'
          exact h.sok.2 t t' x hch hx hx'
  refine { nocrash := h.nocrash, len := h.len, agr := ?_, rng := ?_, lin := ?_, thr := ht.1,
           phase := ht.2, chan := ?_, rv := ?_, wlen := h.wlen, wg := ?_, obl := ?_, waitIn := ?_,
           depIn := ?_,
           sess := ?_, fin := h.fin, cells := ?_, seals := ?_, sok := hsok' }
  · intro a ha
    exact h.agr a (hsub _ ha)
  · intro x j hx
    rcases hkeep _ _ hx with hx | ⟨hx, _⟩
    · simpa using h.rng x j hx
    · simp at hx; subst hx; simpa using lt_of_get hi
  · intro x l hx hp
    rcases hkeep _ _ hx with hx | ⟨hx, h5⟩
    · exact h.lin x l hx hp
    · exact ⟨i, hx⟩
  · intro c' hc' hm'
    by_cases hcc : c' = c
    · subst hcc
      refine ⟨v, .inl ⟨by simp [fset], by simp [htokn]⟩, ?_, ?_, ?_⟩
      · have : (fun t => (W'.sl (.slot t)).isSome) = fun t => (W.sl (.slot t)).isSome || decide (t ∈ ts) := by
          funext t
          rw [show W'.sl = σ' from rfl, hσslot]
          by_cases ht : t ∈ ts <;> simp [ht]
        rw [this, hcnt, hv, h2, Nat.mul_add, ← hL, Nat.mul_comm n L]; omega
      · intro a ha hb
        rw [hmemn, if_neg (by omega)]
        exact h3 a (by omega) hb
      · intro t x htc hx
        rw [show W'.sl = σ' from rfl, hσslot] at hx
        split at hx
        · rename_i htm
          simp at hx
          have : ts.idxOf t + 1 ≤ n := List.idxOf_lt_length_iff.2 htm
          have := Nat.mul_le_mul_right L this
          rw [Nat.add_mul] at this; omega
        · have := h4 t x htc hx; omega
    · obtain ⟨v2, h5, h6, h7, h8⟩ := h.chan c' hc' hm'
      refine ⟨v2, ?_, ?_, ?_, ?_⟩
      · rw [htokn, if_neg hcc]; simpa [fset, hcc] using h5
      · rw [h6]
        congr 2
        apply List.countP_congr
        intro t htm
        rw [show W'.sl = σ' from rfl, hσslot, if_neg]
        intro h9; exact hcc ((hwf.chan c' t htm).symm.trans (hp t h9).1)
      · intro a ha hb
        obtain ⟨h9, h10⟩ := h7 a ha hb
        refine ⟨?_, h10⟩
        rw [hmemn, if_neg]
        · exact h9
        · intro hr
          rw [(hmemold a hr.1 hr.2).1] at h9
          simp at h9; exact hcc h9.symm
      · intro t x htc hx
        rw [show W'.sl = σ' from rfl, hσslot, if_neg] at hx
        · exact h8 t x htc hx
        · intro htm; exact hcc (htc.symm.trans (hp t htm).1)
  · intro c' hc'
    have : c' ≠ c := by rintro rfl; simp_all
    simpa [fset, this] using h.rv c' hc'
  · intro w Qs hw
    obtain ⟨h5, h6⟩ := h.wg w Qs hw
    refine ⟨h5, fun h7 n Q h8 h9 σ h10 => ?_⟩
    rw [hres _ (by simp) (by simp)]
    exact h6 h7 n Q h8 h9 σ (Seal.le_trans hσle h10)
  · exact h.obl
  · exact h.waitIn
  · intro x w n hn
    rcases hkeep _ _ hn with hn | ⟨hn, _⟩
    · exact h.depIn x w n hn
    · simp at hn
  · exact h.sess
  · exact h.cells
  · intro x hx
    cases x with
    | cell c => exact h.seals _ hx
    | ghost n => exact h.seals _ hx
    | slot t =>
      by_cases htm : t ∈ ts
      · simp [hg', hown', htm]
      · rw [show W'.sl = σ' from rfl, hσslot, if_neg htm] at hx
        have := h.seals _ hx
        simp [hg', hown', htm, this]


theorem inv_fork {P s W g i p k} (h : Inv P s W g) (hi : s.thr[i]? = some (.fork p k)) :
    ∃ g', Inv P { s with thr := s.thr.set i k ++ [p] } W g' := by
  obtain ⟨S, hSf, hp, hk⟩ := h.wp hi rfl
  set N := s.thr.length with hN
  have hil := lt_of_get hi
  set own' : Key → Option Loc := fun key =>
    if g.own key = some (.thr i) ∧ S key = true then some (.thr N) else g.own key with hown'
  set g' : Gl := ⟨own', g.val⟩ with hg'
  have ho : ∀ key, g'.own key = if g.own key = some (.thr i) ∧ S key = true then some (.thr N) else g.own key := fun _ => rfl
  have hnone : ∀ key, g'.own key = none ↔ g.own key = none := by
    intro key; rw [ho]; split
    · rename_i hh; simp [hh.1]
    · rfl
  have hres : ∀ l, l ≠ .thr i → l ≠ .thr N → g'.res l = g.res l := by
    intro l hl hl2
    apply Gl.res_congr
    · intro key; rw [ho]; split
      · rename_i hh; simp [hh.1, Ne.symm hl, Ne.symm hl2]
      · rfl
    · intro _ _; rfl
  have hresi : g'.res (.thr i) = (g.res (.thr i)).restr (fun x => !S x) := by
    funext key
    simp only [Gl.res, Res.restr, ho]
    by_cases h1 : g.own key = some (.thr i)
    · by_cases h2 : S key = true <;> simp [h1, h2, hg']; omega
    · simp [h1]
  have hresN : g'.res (.thr N) = (g.res (.thr i)).restr S := by
    funext key
    simp only [Gl.res, Res.restr, ho]
    by_cases h1 : g.own key = some (.thr i)
    · by_cases h2 : S key = true <;> simp [h1, h2, hg']; omega
    · have : g.own key ≠ some (.thr N) := by
        intro h3; have := h.rng _ _ h3; omega
      simp [h1, this]
  have hkeep : ∀ key l, g'.own key = some l → g.own key = some l ∨ l = .thr N := by
    intro key l; rw [ho]; split
    · intro hh; simp at hh; exact .inr hh.symm
    · exact .inl
  refine ⟨g', ?_⟩
  refine { nocrash := h.nocrash, len := h.len, agr := ?_, rng := ?_, lin := ?_, thr := ?_,
           phase := ?_, chan := ?_, rv := h.rv, wlen := h.wlen, wg := ?_, obl := ?_, waitIn := ?_,
           depIn := ?_,
           sess := ?_, fin := ?_, cells := h.cells, seals := ?_, sok := h.sok }
  · intro a ha
    exact h.agr a (by rwa [Ne, ← hnone])
  · intro x j hx
    simp only [List.length_append, List.length_set, List.length_singleton]
    rcases hkeep _ _ hx with hx | hx
    · have := h.rng x j hx; omega
    · simp at hx; omega
  · intro x l hx hp
    rcases hkeep _ _ hx with hx | hx
    · exact h.lin x l hx hp
    · exact ⟨N, hx⟩
  · intro j q hq
    rcases Nat.lt_trichotomy j N with hj | hj | hj
    · rw [List.getElem?_append_left (by simpa using hj)] at hq
      rcases set_get hq with ⟨rfl, rfl, _⟩ | ⟨hne, hq⟩
      · left; rw [hresi]; exact hk
      · rw [hres _ (by simpa using hne) (by simp; omega)]; exact h.thr j q hq
    · subst hj
      rw [List.getElem?_append_right (by simp [hN])] at hq
      simp [hN] at hq
      subst hq
      left; rw [hresN]; exact hp
    · rw [List.getElem?_eq_none (by simp; omega)] at hq; simp at hq
  · rcases h.phase with h' | ⟨j, q, hj, hf⟩
    · exact .inl h'
    · have hne : j ≠ i := by
        rintro rfl
        rw [hi] at hj; cases hj
        have := hf.shape; simp [Proc.isFinalShape] at this
      have hjl := lt_of_get hj
      refine .inr ⟨j, q, ?_, ?_⟩
      · rw [List.getElem?_append_left (by simpa using hjl), List.getElem?_set_ne (Ne.symm hne)]; exact hj
      · rw [hres _ (by simpa using hne) (by simp; omega)]; exact hf
  · intro c hc hm
    obtain ⟨v, h1, h2, h3, h4⟩ := h.chan c hc hm
    refine ⟨v, ?_, h2, ?_, h4⟩
    · simpa only [Ne, hnone] using h1
    · intro x hx hx2
      obtain ⟨h5, h6⟩ := h3 x hx hx2
      refine ⟨?_, h6⟩
      rw [ho, if_neg (by simp [h5])]; exact h5
  · intro w Qs hw
    obtain ⟨h1, h2⟩ := h.wg w Qs hw
    refine ⟨?_, fun h3 n Q h4 h5 σ h6 => ?_⟩
    · rw [h1]; congr 1
      apply List.countP_congr
      intro n _
      have := hnone (.obl w n)
      rw [Option.isSome_iff_ne_none, Option.isSome_iff_ne_none, Ne, Ne, this]
    · rw [hres _ (by simp) (by simp)]
      rw [Ne, hnone] at h3
      rw [hnone] at h5
      exact h2 h3 n Q h4 h5 σ h6
  · intro w n hn; rw [Ne, hnone] at hn; exact h.obl w n hn
  · intro w hn; rw [Ne, hnone] at hn; exact h.waitIn w hn
  · intro x w n hn
    rw [hnone]
    rcases hkeep _ _ hn with hn | hn
    · exact h.depIn x w n hn
    · simp at hn
  · rw [Ne, Ne, hnone, hnone]; exact h.sess
  · rw [ho, if_neg (by simp [hSf])]; exact h.fin
  · intro x hx; rw [hnone]; exact h.seals x hx

theorem inv_wgNew {P s W g i n k} (h : Inv P s W g) (hi : s.thr[i]? = some (.wgNew n k)) :
    ∃ W' g', W.le W' ∧
      Inv P { s with wgs := s.wgs ++ [n], thr := s.thr.set i (k s.wgs.length) } W' g' := by
  obtain ⟨Qs, hQ, hk⟩ := h.wp hi rfl
  have hk := hk W (World.le_refl W)
  set w := W.wgs.length with hw
  rw [h.wlen]
  have hil := lt_of_get hi
  have hf1 : ∀ j, g.own (.obl w j) = none := by
    intro j; by_contra hne
    obtain ⟨Q, h1, _⟩ := h.obl w j hne
    have := lt_of_get h1; omega
  have hf2 : g.own (.wait w) = none := by
    by_contra hne
    have := h.waitIn w hne; omega
  have hf3 : ∀ key j, g.own key ≠ some (.dep w j) := by
    intro key j hne
    obtain ⟨Q, h1, _⟩ := h.depIn key w j hne
    have := lt_of_get h1; omega
  set own' : Key → Option Loc := fun key => match key with
    | .obl w' j => if w' = w ∧ j < n then some (.thr i) else g.own (.obl w' j)
    | .wait w' => if w' = w then some (.thr i) else g.own (.wait w')
    | key => g.own key with hown'
  set val' : Key → Nat := fun key => match key with
    | .obl w' j => if w' = w ∧ j < n then 0 else g.val (.obl w' j)
    | .wait w' => if w' = w then 0 else g.val (.wait w')
    | key => g.val key with hval'
  set g' : Gl := ⟨own', val'⟩ with hg'
  set W' : World := ⟨W.wgs ++ [Qs], W.sl⟩ with hW'
  have hle : W.le W' := ⟨List.prefix_append _ _, Seal.le_refl _⟩
  have ho1 : ∀ w' j, g'.own (.obl w' j) = if w' = w ∧ j < n then some (.thr i) else g.own (.obl w' j) := fun _ _ => rfl
  have ho2 : ∀ w', g'.own (.wait w') = if w' = w then some (.thr i) else g.own (.wait w') := fun _ => rfl
  have hkeep : ∀ key l, g'.own key = some l → g.own key = some l ∨ l = .thr i := by
    intro key l
    simp only [hg', hown']
    split
    · split <;> simp_all
    · split <;> simp_all
    · exact .inl
  have hres : ∀ l, l ≠ .thr i → g'.res l = g.res l := by
    intro l hl
    apply Gl.res_congr
    · intro key
      simp only [hg', hown']
      split
      · split
        · rename_i hh; rw [hh.1, hf1]; simp [Ne.symm hl]
        · rfl
      · split
        · rename_i hh; rw [hh, hf2]; simp [Ne.symm hl]
        · rfl
      · rfl
    · intro key hkey
      simp only [hg', hval']
      split
      · split
        · rename_i hh; rw [hh.1, hf1] at hkey; simp at hkey
        · rfl
      · split
        · rename_i hh; rw [hh, hf2] at hkey; simp at hkey
        · rfl
      · rfl
  have hresi : g'.res (.thr i) = (g.res (.thr i)).addWg w n := by
    funext key
    cases key with
    | obl w' j =>
      simp only [Gl.res, Res.addWg, hg', hown', hval']
      split
      · rename_i hh; simp
      · rfl
    | wait w' =>
      simp only [Gl.res, Res.addWg, hg', hown', hval']
      split
      · rename_i hh; simp
      · rfl
    | _ => rfl
  have ht := thr_frame (k := k w) h hi rfl hle (g' := g')
    (fun j hj => hres _ (by simpa using hj)) (.inl (by rw [hresi]; exact hk))
  refine ⟨W', g', hle, ?_⟩
  refine { nocrash := h.nocrash, len := h.len, agr := h.agr, rng := ?_, lin := ?_, thr := ht.1,
           phase := ht.2, chan := h.chan, rv := h.rv, wlen := ?_, wg := ?_, obl := ?_, waitIn := ?_,
           depIn := ?_,
           sess := h.sess, fin := h.fin, cells := h.cells, seals := h.seals, sok := h.sok }
  · intro x j hx
    rcases hkeep _ _ hx with hx | hx
    · simpa using h.rng x j hx
    · simp at hx; subst hx; simpa using hil
  · intro x l hx hp
    rcases hkeep _ _ hx with hx | hx
    · exact h.lin x l hx hp
    · exact ⟨i, hx⟩
  · simp [hW', h.wlen]
  · intro w' Qs' hw'
    have hc : w' = w ∧ Qs' = Qs ∨ w' ≠ w ∧ W.wgs[w']? = some Qs' := by
      have hl := lt_of_get hw'
      simp [hW'] at hl
      by_cases hww : w' = w
      · left; subst hww; simp [hW', hw] at hw'; exact ⟨rfl, hw'.symm⟩
      · right
        rw [show W'.wgs = W.wgs ++ [Qs] from rfl, List.getElem?_append_left (by omega)] at hw'
        exact ⟨hww, hw'⟩
    rcases hc with ⟨rfl, rfl⟩ | ⟨hne, hw'⟩
    · constructor
      · have : (List.range Qs'.length).countP (fun j => (g'.own (.obl w j)).isSome) = n := by
          rw [List.countP_eq_length.2]
          · simp [hQ]
          · intro j hj
            simp at hj
            rw [ho1, if_pos (by simp; omega)]; rfl
        rw [this, hw, ← h.wlen]; simp
      · intro _ j Q hj hn
        have hl := lt_of_get hj
        rw [ho1, if_pos (by simp; omega)] at hn; simp at hn
    · obtain ⟨h1, h2⟩ := h.wg w' Qs' hw'
      constructor
      · simp only [ho1, hne, false_and, if_false]
        rw [List.getElem?_append_left (lt_of_get h1)]; exact h1
      · intro h3 j Q h4 h5 σ h6
        rw [ho2, if_neg hne] at h3
        rw [ho1, if_neg (by simp [hne])] at h5
        rw [hres _ (by simp)]
        exact h2 h3 j Q h4 h5 σ h6
  · intro w' j hj
    rw [ho1] at hj
    split at hj
    · rename_i hh
      exact ⟨Qs, by simp [hW', hh.1, hw], by omega⟩
    · obtain ⟨Q', h1, h2⟩ := h.obl w' j hj
      exact ⟨Q', World.le_wg hle h1, h2⟩
  · intro w' hw'
    rw [ho2] at hw'
    simp only [hW', List.length_append, List.length_singleton]
    split at hw'
    · omega
    · have := h.waitIn w' hw'; omega
  · intro x w' j hx
    rcases hkeep _ _ hx with hx | hx
    · obtain ⟨Q', h1, h2, h3⟩ := h.depIn x w' j hx
      refine ⟨Q', World.le_wg hle h1, h2, ?_⟩
      have : w' ≠ w := by rintro rfl; exact hf3 _ _ hx
      rw [ho1, if_neg (by simp [this])]; exact h3
    · simp at hx

theorem countP_range_dec (n j : Nat) (hj : j < n) (p q : Nat → Bool) (hp : p j = true) (hq : q j = false)
    (hpq : ∀ m, m ≠ j → q m = p m) : (List.range n).countP p = (List.range n).countP q + 1 := by
  have h1 : p = fun m => q m || decide (m = j) := by
    funext m
    by_cases h : m = j
    · subst h; simp [hp]
    · simp [hpq m h, h]
  rw [h1, countP_add]
  · congr 1
    have := countP_mem (List.range n) [j] List.nodup_range (by simp) (by simpa using hj)
    simpa using this
  · intro x _ hx; simp at hx; subst hx; exact hq

theorem inv_wgDone {P s W g i w k n} (h : Inv P s W g) (hi : s.thr[i]? = some (.wgDone w k))
    (hn : s.wgs[w]? = some (n + 1)) :
    ∃ g', Inv P { s with wgs := s.wgs.set w n, thr := s.thr.set i k } W g' := by
  obtain ⟨j, S, Qs, Q, hob, hQs, hQ, hpl, hQS, hk⟩ := h.wp hi rfl
  rw [Gl.res_some] at hob
  have hil := lt_of_get hi
  have hnodep : ∀ key, g.own key ≠ some (.dep w j) := by
    intro key hkey
    obtain ⟨_, _, _, h1⟩ := h.depIn key w j hkey
    rw [hob] at h1; simp at h1
  have hSp : ∀ key, g.own key = some (.thr i) → S key = true → key.plain = true := by
    intro key h1 h2
    apply hpl key
    simp only [Res.restr, h2, if_true, ne_eq]
    rw [← Ne, Gl.res_some]; exact h1
  set own' : Key → Option Loc := fun key =>
    if key = .obl w j then none else
    if g.own key = some (.thr i) ∧ S key = true then some (.dep w j) else g.own key with hown'
  set g' : Gl := ⟨own', g.val⟩ with hg'
  have ho : ∀ key, g'.own key = if key = .obl w j then none else
    if g.own key = some (.thr i) ∧ S key = true then some (.dep w j) else g.own key := fun _ => rfl
  have hnp : ∀ key, key.plain = false → key ≠ .obl w j → g'.own key = g.own key := by
    intro key hp hne
    rw [ho, if_neg hne, if_neg]
    intro hh; have := hSp key hh.1 hh.2; simp_all
  have hkeep : ∀ key l, g'.own key = some l →
      g.own key = some l ∨ (l = .dep w j ∧ g.own key = some (.thr i) ∧ S key = true) := by
    intro key l; rw [ho]; split
    · simp
    · split
      · rename_i hh; intro h1; simp at h1; exact .inr ⟨h1.symm, hh⟩
      · exact .inl
  have hnone : ∀ key, key ≠ .obl w j → (g'.own key = none ↔ g.own key = none) := by
    intro key hne; rw [ho, if_neg hne]; split
    · rename_i hh; simp [hh.1]
    · rfl
  have hres : ∀ l, l ≠ .thr i → l ≠ .dep w j → g'.res l = g.res l := by
    intro l hl hl2
    apply Gl.res_congr
    · intro key; rw [ho]; split
      · rename_i hh; rw [hh, hob]; simp [Ne.symm hl]
      · split
        · rename_i hh; simp [hh.1, Ne.symm hl, Ne.symm hl2]
        · rfl
    · intro _ _; rfl
  have hresi : g'.res (.thr i) = fset ((g.res (.thr i)).restr (fun x => !S x)) (.obl w j) none := by
    funext key
    simp only [Gl.res, Res.restr, ho, fset]
    split
    · simp
    · by_cases h1 : g.own key = some (.thr i)
      · by_cases h2 : S key = true <;> simp [h1, h2, hg']
      · simp [h1]
  have hresd : g'.res (.dep w j) = (g.res (.thr i)).restr S := by
    funext key
    simp only [Gl.res, Res.restr, ho]
    split
    · rename_i hh
      subst hh
      by_cases h2 : S (.obl w j) = true
      · have := hSp _ hob h2; simp [Key.plain] at this
      · simp [h2]
    · by_cases h1 : g.own key = some (.thr i)
      · by_cases h2 : S key = true <;> simp [h1, h2, hg']
      · simp [h1, hnodep key]
  have ht := thr_frame (k := k) h hi rfl (World.le_refl W) (g' := g')
    (fun j hj => hres _ (by simpa using hj) (by simp)) (.inl (by rw [hresi]; exact hk))
  refine ⟨g', ?_⟩
  refine { nocrash := h.nocrash, len := h.len, agr := ?_, rng := ?_, lin := ?_, thr := ht.1,
           phase := ht.2, chan := ?_, rv := h.rv, wlen := ?_, wg := ?_, obl := ?_, waitIn := ?_,
           depIn := ?_,
           sess := ?_, fin := ?_, cells := h.cells, seals := ?_, sok := h.sok }
  · intro a ha
    exact h.agr a (by rwa [Ne, ← hnone _ (by simp)])
  · intro x j' hx
    rcases hkeep _ _ hx with hx | ⟨hx, _⟩
    · simpa using h.rng x j' hx
    · simp at hx
  · intro x l hx hp
    rcases hkeep _ _ hx with hx | ⟨_, h1, h2⟩
    · exact h.lin x l hx hp
    · have := hSp x h1 h2; simp_all
  · intro c hc hm
    obtain ⟨v, h1, h2, h3, h4⟩ := h.chan c hc hm
    refine ⟨v, ?_, h2, ?_, h4⟩
    · simpa only [Ne, hnone (.tok c) (by simp)] using h1
    · intro x hx hx2
      obtain ⟨h5, h6⟩ := h3 x hx hx2
      refine ⟨?_, h6⟩
      rw [ho, if_neg (by simp), if_neg (by simp [h5])]; exact h5
  · simpa using h.wlen
  · intro w' Qs' hw'
    obtain ⟨h1, h2⟩ := h.wg w' Qs' hw'
    by_cases hww : w' = w
    · subst hww
      rw [hQs] at hw'; cases hw'
      constructor
      · rw [h1] at hn
        simp only [Option.some.injEq] at hn
        have hlt := lt_of_get hQ
        have := countP_range_dec Qs.length j hlt (fun m => (g.own (.obl w' m)).isSome)
          (fun m => (g'.own (.obl w' m)).isSome) (by simp [hob]) (by simp [ho])
          (by intro m hm; rw [hnp _ rfl (by simpa using hm)])
        rw [this] at hn
        have hl := lt_of_get h1
        simp only [List.getElem?_set, if_pos hl, if_true]
        congr 1; omega
      · intro h3 m Q' h4 h5 σ h6
        by_cases hm : m = j
        · subst hm
          rw [hQ] at h4; cases h4
          rw [hresd]; exact hQS σ h6
        · rw [hnp _ rfl (by simp)] at h3
          rw [hnp _ rfl (by simpa using hm)] at h5
          rw [hres _ (by simp) (by simpa using hm)]
          exact h2 h3 m Q' h4 h5 σ h6
    · constructor
      · rw [List.getElem?_set_ne (Ne.symm hww), h1]
        congr 1
        apply List.countP_congr
        intro m _; rw [hnp _ rfl (by simp [hww])]
      · intro h3 m Q' h4 h5 σ h6
        rw [hnp _ rfl (by simp)] at h3
        rw [hnp _ rfl (by simp [hww])] at h5
        rw [hres _ (by simp) (by simp [hww])]
        exact h2 h3 m Q' h4 h5 σ h6
  · intro w' m hm
    by_cases hh : (Key.obl w' m) = .obl w j
    · rw [ho, if_pos hh] at hm; simp at hm
    · rw [hnp _ rfl hh] at hm; exact h.obl w' m hm
  · intro w' hn; rw [hnp _ rfl (by simp)] at hn; exact h.waitIn w' hn
  · intro x w' m hm
    rcases hkeep _ _ hm with hm | ⟨hm, _⟩
    · obtain ⟨Q', h1, h2, h3⟩ := h.depIn x w' m hm
      refine ⟨Q', h1, h2, ?_⟩
      by_cases hh : (Key.obl w' m) = .obl w j
      · rw [ho, if_pos hh]
      · rw [hnp _ rfl hh]; exact h3
    · simp at hm
      rw [hm.1, hm.2]
      exact ⟨Qs, hQs, lt_of_get hQ, by simp [ho]⟩
  · rw [hnp _ rfl (by simp), hnp _ rfl (by simp)]; exact h.sess
  · rw [hnp _ rfl (by simp)]; exact h.fin
  · intro x hx; rw [hnone _ (by simp)]; exact h.seals x hx

theorem inv_wgWait {P s W g i w k} (h : Inv P s W g) (hi : s.thr[i]? = some (.wgWait w k))
    (hn : s.wgs[w]? = some 0) :
    ∃ g', Inv P { s with thr := s.thr.set i k } W g' := by
  obtain ⟨hwt, hT, hO, Qs, hQs, hk⟩ := h.wp hi rfl
  rw [Gl.res_some] at hwt
  have hil := lt_of_get hi
  obtain ⟨hcnt, hdep⟩ := h.wg w Qs hQs
  have hall : ∀ j, j < Qs.length → g.own (.obl w j) = none := by
    rw [hcnt] at hn
    simp only [Option.some.injEq, List.countP_eq_zero] at hn
    intro j hj
    have := hn j (by simpa using hj)
    simpa using this
  set D : Res := fun key => match g.own key with
    | some (.dep w' _) => if w' = w then some (g.val key) else none
    | _ => none with hD
  set own' : Key → Option Loc := fun key =>
    if key = .wait w then none else
    match g.own key with
    | some (.dep w' j) => if w' = w then some (.thr i) else some (.dep w' j)
    | o => o with hown'
  set g' : Gl := ⟨own', g.val⟩ with hg'
  have hdp : ∀ key w' j, g.own key = some (.dep w' j) → key.plain = true := by
    intro key w' j hh
    by_contra hp
    obtain ⟨x, hx⟩ := h.lin key _ hh (by simpa using hp)
    simp at hx
  have ho : ∀ key, (g'.own key = none ∧ key = .wait w) ∨
      (key ≠ .wait w ∧ key.plain = true ∧ g'.own key = some (.thr i) ∧ ∃ j, g.own key = some (.dep w j)) ∨
      (key ≠ .wait w ∧ g'.own key = g.own key ∧ ∀ j, g.own key ≠ some (.dep w j)) := by
    intro key
    simp only [hg', hown']
    by_cases h1 : key = .wait w
    · left; simp [h1]
    · right
      simp only [h1, if_false]
      split
      · rename_i w' j hh
        split
        · rename_i hw; subst hw
          left; exact ⟨h1, hdp _ _ _ hh, rfl, j, hh⟩
        · rename_i hw
          right; refine ⟨h1, hh.symm, ?_⟩
          intro j'; rw [hh]; simp [hw]
      · rename_i hh
        right; exact ⟨h1, rfl, fun j => hh w j⟩
  have hnp : ∀ key, key.plain = false → key ≠ .wait w → g'.own key = g.own key := by
    intro key h1 h2
    rcases ho key with h3 | h3 | h3
    · exact absurd h3.2 h2
    · simp [h3.2.1] at h1
    · exact h3.2.1
  have hnone : ∀ key, key ≠ .wait w → (g'.own key = none ↔ g.own key = none) := by
    intro key hne
    rcases ho key with h3 | ⟨_, _, h3, j, h4⟩ | h3
    · exact absurd h3.2 hne
    · simp [h3, h4]
    · rw [h3.2.1]
  have hkeep : ∀ key l, g'.own key = some l → g.own key = some l ∨
      (l = .thr i ∧ key.plain = true) := by
    intro key l hh
    rcases ho key with h3 | ⟨_, h2, h3, j, h4⟩ | h3
    · rw [h3.1] at hh; simp at hh
    · rw [h3] at hh; simp at hh; exact .inr ⟨hh.symm, h2⟩
    · rw [h3.2.1] at hh; exact .inl hh
  have hres : ∀ l, l ≠ .thr i → (∀ j, l ≠ .dep w j) → g'.res l = g.res l := by
    intro l hl hl2
    apply Gl.res_congr
    · intro key
      rcases ho key with h3 | ⟨_, h2, h3, j, h4⟩ | h3
      · rw [h3.1, h3.2, hwt]; simp [Ne.symm hl]
      · rw [h3, h4]; simp [Ne.symm hl, Ne.symm (hl2 j)]
      · rw [h3.2.1]
    · intro _ _; rfl
  have hDown : ∀ key v, D key = some v ↔ (∃ j, g.own key = some (.dep w j)) ∧ g.val key = v := by
    intro key v
    simp only [hD]
    split
    · rename_i w' j hh
      rw [hh]
      by_cases hw : w' = w
      · subst hw; simp
      · simp [hw]
    · rename_i hh
      simp; intro x hx; exact absurd hx (hh w x)
  have hDnone : ∀ key, D key = none ↔ ∀ j, g.own key ≠ some (.dep w j) := by
    intro key
    constructor
    · intro h1 j h2
      have := (hDown key (g.val key)).2 ⟨⟨j, h2⟩, rfl⟩
      rw [h1] at this; simp at this
    · intro h1
      rcases hdk : D key with _ | v
      · rfl
      · obtain ⟨⟨j, h2⟩, _⟩ := (hDown key v).1 hdk
        exact absurd h2 (h1 j)
  have hresi : g'.res (.thr i) = fset ((g.res (.thr i)).union D) (.wait w) none := by
    funext key
    simp only [fset]
    rcases ho key with h3 | ⟨h1, h2, h3, j, h4⟩ | ⟨h1, h2, h3⟩
    · rw [if_pos h3.2, Gl.res_none, h3.1]; simp
    · rw [if_neg h1]
      have h5 : g.res (.thr i) key = none := by rw [Gl.res_none, h4]; simp
      have h6 : D key = some (g.val key) := (hDown _ _).2 ⟨⟨j, h4⟩, rfl⟩
      rw [Res.union, h5, h6, Option.none_or, Gl.res_eq]
      exact ⟨h3, rfl⟩
    · rw [if_neg h1]
      have h6 : D key = none := (hDnone _).2 h3
      rw [Res.union, h6, Option.or_none]
      simp only [Gl.res, h2]
      rfl
  have hpost := hk W D (World.le_refl W) h.sok
    (by
      intro key hkey
      have : ¬ ∀ j, g.own key ≠ some (.dep w j) := fun hh => hkey ((hDnone key).2 hh)
      simp only [ne_eq, not_forall, not_not] at this
      obtain ⟨j, hj⟩ := this
      exact hdp _ _ _ hj)
    (by
      intro key hkey
      rw [Gl.res_some] at hkey
      rw [hDnone, hkey]; simp)
    (by
      intro j Q hj
      refine ⟨g.res (.dep w j), ?_, ?_⟩
      · intro key v hv
        rw [Gl.res_eq] at hv
        exact (hDown _ _).2 ⟨⟨j, hv.1⟩, hv.2⟩
      · exact hdep (by simp [hwt]) j Q hj (hall j (lt_of_get hj)) _ (Seal.le_refl _))
  have hag : (g'.res (.thr i)).Agrees s.mem := by
    intro a v hv
    rw [Gl.res_eq] at hv
    obtain ⟨b, hb, hb2⟩ := h.agr a (by rw [Ne, ← hnone _ (by simp), hv.1]; simp)
    exact ⟨b, hb, hb2.trans hv.2⟩
  have hpost2 : WP P k W (g'.res (.thr i)) ∨ FinalAt P k W (g'.res (.thr i)) s.mem := by
    rw [hresi] at hag ⊢
    rcases hpost with hp | hp
    · right
      obtain ⟨h1, h2, h3, h4, h5, h6⟩ := hp
      exact ⟨h1, h2, h3, h4, h5, W.sl, Seal.le_refl _, h.sok, h6 s.mem h.len hag⟩
    · exact .inl hp
  have ht := thr_frame (k := k) h hi rfl (World.le_refl W) (g' := g')
    (fun j hj => hres _ (by simpa using hj) (by simp)) hpost2
  refine ⟨g', ?_⟩
  refine { nocrash := h.nocrash, len := h.len, agr := ?_, rng := ?_, lin := ?_, thr := ht.1,
           phase := ht.2, chan := ?_, rv := h.rv, wlen := h.wlen, wg := ?_, obl := ?_, waitIn := ?_,
           depIn := ?_,
           sess := ?_, fin := ?_, cells := h.cells, seals := ?_, sok := h.sok }
  · intro a ha
    exact h.agr a (by rwa [Ne, ← hnone _ (by simp)])
  · intro x j' hx
    rcases hkeep _ _ hx with hx | ⟨hx, _⟩
    · simpa using h.rng x j' hx
    · simp at hx; subst hx; simpa using hil
  · intro x l hx hp
    rcases hkeep _ _ hx with hx | ⟨h1, h2⟩
    · exact h.lin x l hx hp
    · exact ⟨i, h1⟩
  · intro c hc hm
    obtain ⟨v, h1, h2, h3, h4⟩ := h.chan c hc hm
    refine ⟨v, ?_, h2, ?_, h4⟩
    · simpa only [Ne, hnone (.tok c) (by simp)] using h1
    · intro x hx hx2
      obtain ⟨h5, h6⟩ := h3 x hx hx2
      refine ⟨?_, h6⟩
      rcases ho (.mem x) with h3 | ⟨_, _, _, j, h4⟩ | h3
      · simp at h3
      · rw [h5] at h4; simp at h4
      · rw [h3.2.1]; exact h5
  · intro w' Qs' hw'
    obtain ⟨h1, h2⟩ := h.wg w' Qs' hw'
    constructor
    · rw [h1]; congr 1
      apply List.countP_congr
      intro m _; rw [hnp _ rfl (by simp)]
    · intro h3 m Q' h4 h5 σ h6
      by_cases hww : w' = w
      · subst hww
        rcases ho (.wait w') with h7 | h7 | h7
        · exact absurd h7.1 h3
        · exact absurd rfl h7.1
        · exact absurd rfl h7.1
      · rw [hnp _ rfl (by simpa using hww)] at h3
        rw [hnp _ rfl (by simp)] at h5
        rw [hres _ (by simp) (by simp [hww])]
        exact h2 h3 m Q' h4 h5 σ h6
  · intro w' m hm; rw [hnp _ rfl (by simp)] at hm; exact h.obl w' m hm
  · intro w' hn
    apply h.waitIn w'
    by_cases hww : w' = w
    · subst hww; simp [hwt]
    · rwa [hnp _ rfl (by simpa using hww)] at hn
  · intro x w' m hm
    rw [hnp _ rfl (by simp)]
    rcases hkeep _ _ hm with hm | ⟨hm, _⟩
    · exact h.depIn x w' m hm
    · simp at hm
  · rw [hnp _ rfl (by simp), hnp _ rfl (by simp)]; exact h.sess
  · rw [hnp _ rfl (by simp)]; exact h.fin
  · intro x hx; rw [hnone _ (by simp)]; exact h.seals x hx

theorem inv_setCell {P s W g i c v k} (h : Inv P s W g) (hi : s.thr[i]? = some (.setCell c v k)) :
    ∃ W' g', W.le W' ∧
      Inv P { s with cells := fset s.cells c (some v), thr := s.thr.set i k } W' g' := by
  obtain ⟨hpm, hk⟩ := h.wp hi rfl
  rw [Gl.res_some] at hpm
  have hun : W.sl (.cell c) = none := by
    by_contra hne
    have := h.seals _ hne
    rw [this] at hpm; simp at hpm
  set σ' : Seal := fset W.sl (.cell c) (some v) with hσ'
  have hσle : W.sl.le σ' := by
    intro key x hx
    simp only [hσ', fset]
    split
    · subst_vars; rw [hun] at hx; simp at hx
    · exact hx
  set W' : World := ⟨W.wgs, σ'⟩ with hW'
  have hle : W.le W' := ⟨List.prefix_rfl, hσle⟩
  set g' : Gl := ⟨fset g.own (.perm (.cell c)) none, g.val⟩ with hg'
  have ho : ∀ key, key ≠ .perm (.cell c) → g'.own key = g.own key := by
    intro key hk; simp [hg', fset, hk]
  have hkeep : ∀ key l, g'.own key = some l → g.own key = some l := by
    intro key l; simp only [hg', fset]; split <;> simp
  have hres : ∀ l, l ≠ .thr i → g'.res l = g.res l := by
    intro l hl
    apply Gl.res_congr
    · intro key; simp only [hg', fset]; split
      · subst_vars; rw [hpm]; simp [Ne.symm hl]
      · rfl
    · intro _ _; rfl
  have hresi : g'.res (.thr i) = fset (g.res (.thr i)) (.perm (.cell c)) none := by
    funext key
    simp only [Gl.res, fset, hg']
    split <;> split <;> simp_all
  have ht := thr_frame (k := k) h hi rfl hle (g' := g')
    (fun j hj => hres _ (by simpa using hj)) (.inl (by
      rw [hresi]; exact hk W' hle (by simp [hW', hσ', fset])))
  have hslot : ∀ t, W'.sl (.slot t) = W.sl (.slot t) := by intro t; simp [hW', hσ', fset]
  refine ⟨W', g', hle, ?_⟩
  refine { nocrash := h.nocrash, len := h.len, agr := ?_, rng := ?_, lin := ?_, thr := ht.1,
           phase := ht.2, chan := ?_, rv := h.rv, wlen := h.wlen, wg := ?_, obl := ?_, waitIn := ?_,
           depIn := ?_,
           sess := ?_, fin := ?_, cells := ?_, seals := ?_, sok := ?_ }
  · intro a ha; rw [ho _ (by simp)] at ha; exact h.agr a ha
  · intro x j' hx; simpa using h.rng x j' (hkeep _ _ hx)
  · intro x l hx hp; exact h.lin x l (hkeep _ _ hx) hp
  · intro c' hc hm
    obtain ⟨v, h1, h2, h3, h4⟩ := h.chan c' hc hm
    refine ⟨v, ?_, ?_, ?_, ?_⟩
    · rw [ho _ (by simp)]; exact h1
    · simp only [hslot]; exact h2
    · intro x hx hx2; rw [ho _ (by simp)]; exact h3 x hx hx2
    · intro t x; rw [hslot]; exact h4 t x
  · intro w' Qs' hw'
    obtain ⟨h1, h2⟩ := h.wg w' Qs' hw'
    constructor
    · simp only [ho (.obl w' _) (by simp)]; exact h1
    · intro h3 m Q' h4 h5 σ h6
      rw [ho _ (by simp)] at h3 h5
      rw [hres _ (by simp)]
      exact h2 h3 m Q' h4 h5 σ (Seal.le_trans hσle h6)
  · intro w' m hm; rw [ho _ (by simp)] at hm; exact h.obl w' m hm
  · intro w' hm; rw [ho _ (by simp)] at hm; exact h.waitIn w' hm
  · intro x w' m hm; rw [ho _ (by simp)]; exact h.depIn x w' m (hkeep _ _ hm)
  · rw [ho _ (by simp), ho _ (by simp)]; exact h.sess
  · rw [ho _ (by simp)]; exact h.fin
  · intro c' v' hv
    simp only [fset]
    by_cases hcc : c' = c
    · subst hcc; simp [hW', hσ', fset] at hv; simp [hv]
    · simp [hW', hσ', fset, hcc] at hv; simp [hcc, h.cells _ _ hv]
  · intro x hx
    by_cases hxc : x = .cell c
    · subst hxc; simp [hg', fset]
    · simp [hW', hσ', fset, hxc] at hx
      rw [ho _ (by simpa using hxc)]; exact h.seals x hx
  · constructor
    · intro t x; rw [hslot]; exact h.sok.1 t x
    · intro t t' x; rw [hslot, hslot]; exact h.sok.2 t t' x

theorem inv_getCell {P s W g i c k} (h : Inv P s W g) (hi : s.thr[i]? = some (.getCell c k)) :
    Inv P { s with thr := s.thr.set i (k ((s.cells c).getD 0)) } W g := by
  obtain ⟨v, hv, hk⟩ := h.wp hi rfl
  have hc := h.cells _ _ hv
  rw [hc]
  have ht := thr_frame (k := k v) h hi rfl (World.le_refl W) (g' := g) (fun _ _ => rfl) (.inl hk)
  refine { nocrash := h.nocrash, len := h.len, agr := h.agr, rng := by simpa using h.rng, lin := h.lin, thr := ht.1,
           phase := ht.2, chan := h.chan, rv := h.rv, wlen := h.wlen, wg := h.wg, obl := h.obl, waitIn := h.waitIn,
           depIn := h.depIn,
           sess := h.sess, fin := h.fin, cells := h.cells, seals := h.seals, sok := h.sok }


theorem inv_rdv {P s W g i j c v k k'} (h : Inv P s W g) (hi : s.thr[i]? = some (.send c v k))
    (hj : s.thr[j]? = some (.recv c k')) (hji : j ≠ i) (hc : s.ch c = .unbuf) :
    ∃ g', Inv P { s with thr := (s.thr.set i k).set j (k' v) } W g' := by
  have hwi := h.wp hi rfl
  have hwj := h.wp hj rfl
  have hil := lt_of_get hi
  have hjl := lt_of_get hj
  unfold WP at hwi hwj
  have hna : c.isAlloc ≠ true := by
    intro hal
    rw [if_pos hal] at hwi
    obtain ⟨v0, ts, _, _, _, hm, _⟩ := hwi
    obtain ⟨v', h1, _⟩ := h.chan c hal hm
    rcases h1 with h1 | h1 <;> simp [hc] at h1
  rw [if_neg hna] at hwi hwj
  obtain ⟨hTi, n, hsn, hri, hn2, hmc, hOi, S, hpl, hPhi, hki⟩ := hwi
  obtain ⟨hTj, n', hrn, hsj, hn2', hmc', hOj, hkj⟩ := hwj
  rw [Gl.res_eq] at hsn hrn
  have hnn : n' = n := by rw [← hsn.2, ← hrn.2]; exact h.sess.2.2.symm
  subst hnn
  set D := (g.res (.thr i)).restr S with hD
  have hSp : ∀ key, g.own key = some (.thr i) → S key = true → key.plain = true := by
    intro key h1 h2
    apply hpl key
    rw [hD]
    simp only [Res.restr, h2, if_true]
    rw [Gl.res_some]; exact h1
  have hDsome : ∀ key, D key ≠ none ↔ g.own key = some (.thr i) ∧ S key = true := by
    intro key
    simp only [hD, Res.restr]
    by_cases h2 : S key = true
    · simp only [h2, if_true, and_true, Gl.res_some]
    · simp [h2]
  set own' : Key → Option Loc := fun key =>
    if g.own key = some (.thr i) ∧ S key = true then some (.thr j) else g.own key with hown'
  set val' : Key → Nat := fset (fset g.val .snd (n' + 1)) .rcv (n' + 1) with hval'
  set g' : Gl := ⟨own', val'⟩ with hg'
  have ho : ∀ key, g'.own key =
    if g.own key = some (.thr i) ∧ S key = true then some (.thr j) else g.own key := fun _ => rfl
  have hv : ∀ key, key ≠ .snd → key ≠ .rcv → g'.val key = g.val key := by
    intro key h1 h2; simp [hg', hval', fset, h1, h2]
  have hnp : ∀ key, key.plain = false → g'.own key = g.own key := by
    intro key hp
    rw [ho, if_neg]
    intro hh; have := hSp key hh.1 hh.2; simp_all
  have hkeep : ∀ key l, g'.own key = some l → g.own key = some l ∨ (l = .thr j ∧ key.plain = true) := by
    intro key l; rw [ho]; split
    · rename_i hh; intro h1; simp at h1; exact .inr ⟨h1.symm, hSp _ hh.1 hh.2⟩
    · exact .inl
  have hnone : ∀ key, (g'.own key = none ↔ g.own key = none) := by
    intro key; rw [ho]; split
    · rename_i hh; simp [hh.1]
    · rfl
  have hres : ∀ l, l ≠ .thr i → l ≠ .thr j → g'.res l = g.res l := by
    intro l hl hl2
    apply Gl.res_congr
    · intro key; rw [ho]; split
      · rename_i hh; simp [hh.1, Ne.symm hl, Ne.symm hl2]
      · rfl
    · intro key hkey
      apply hv
      · rintro rfl; rw [hsn.1] at hkey; simp at hkey; exact hl hkey.symm
      · rintro rfl; rw [hrn.1] at hkey; simp at hkey; exact hl2 hkey.symm
  have hresi : g'.res (.thr i) = fset ((g.res (.thr i)).restr (fun x => !S x)) .snd (some (n' + 1)) := by
    funext key
    simp only [fset]
    by_cases hks : key = .snd
    · subst hks
      rw [if_pos rfl, Gl.res_eq, hnp _ rfl]
      exact ⟨hsn.1, by simp [hg', hval', fset]⟩
    · rw [if_neg hks]
      simp only [Res.restr, Gl.res, ho]
      by_cases h1 : g.own key = some (.thr i)
      · have hkr : key ≠ .rcv := by rintro rfl; rw [hrn.1] at h1; simp at h1; exact hji h1
        by_cases h2 : S key = true
        · simp [h1, h2, hji]
        · simp [h1, h2, hv key hks hkr]
      · simp [h1]
  have hresj : g'.res (.thr j) = fset ((g.res (.thr j)).union D) .rcv (some (n' + 1)) := by
    funext key
    simp only [fset]
    by_cases hks : key = .rcv
    · subst hks
      rw [if_pos rfl, Gl.res_eq, hnp _ rfl]
      exact ⟨hrn.1, by simp [hg', hval', fset]⟩
    · rw [if_neg hks]
      by_cases h1 : g.own key = some (.thr i)
      · have h5 : g.res (.thr j) key = none := by rw [Gl.res_none, h1]; simp; omega
        rw [Res.union, h5, Option.none_or]
        simp only [hD, Res.restr, Gl.res, ho]
        by_cases h2 : S key = true
        · have hsk : key ≠ .snd := by rintro rfl; have := hSp _ h1 h2; simp [Key.plain] at this
          simp [h1, h2, hv key hsk hks]
        · simp [h1, h2, Ne.symm hji]
      · have h6 : D key = none := by
          by_contra hne
          exact h1 ((hDsome key).1 hne).1
        rw [Res.union, h6, Option.or_none]
        simp only [Gl.res, ho]
        by_cases h7 : g.own key = some (.thr j)
        · have hsk : key ≠ .snd := by rintro rfl; rw [hsn.1] at h1; simp at h1
          simp [h7, hv key hsk hks]
        · simp [h1, h7]
  have hkj := hkj W v D (World.le_refl W) hpl
    (by
      intro key hkey
      rw [Gl.res_some] at hkey
      by_contra hne
      have := ((hDsome key).1 hne).1
      rw [hkey] at this; simp at this; exact hji this)
    (hPhi W.sl (Seal.le_refl _))
  refine ⟨g', ?_⟩
  refine { nocrash := h.nocrash, len := h.len, agr := ?_, rng := ?_, lin := ?_, thr := ?_,
           phase := ?_, chan := ?_, rv := h.rv, wlen := h.wlen, wg := ?_, obl := ?_, waitIn := ?_,
           depIn := ?_,
           sess := ?_, fin := ?_, cells := h.cells, seals := ?_, sok := h.sok }
  · intro a ha
    rw [Ne, hnone] at ha
    rw [hv _ (by simp) (by simp)]; exact h.agr a ha
  · intro x m hx
    rcases hkeep _ _ hx with hx | ⟨hx, _⟩
    · simpa using h.rng x m hx
    · simp at hx; subst hx; simpa using hjl
  · intro x l hx hp
    rcases hkeep _ _ hx with hx | ⟨hx, _⟩
    · exact h.lin x l hx hp
    · exact ⟨j, hx⟩
  · intro m q hq
    rcases set_get hq with ⟨rfl, rfl, _⟩ | ⟨hne, hq⟩
    · left; rw [hresj]; exact hkj
    · rcases set_get hq with ⟨rfl, rfl, _⟩ | ⟨hne2, hq⟩
      · left; rw [hresi]; exact hki
      · rw [hres _ (by simpa using hne2) (by simpa using hne)]; exact h.thr m q hq
  · rcases h.phase with h' | ⟨m, q, hm, hf⟩
    · exact .inl h'
    · have hne : m ≠ i := by
        rintro rfl
        rw [hi] at hm; cases hm
        have := hf.shape; simp [Proc.isFinalShape] at this
      have hne2 : m ≠ j := by
        rintro rfl
        rw [hj] at hm; cases hm
        have := hf.shape; simp [Proc.isFinalShape] at this
      refine .inr ⟨m, q, ?_, ?_⟩
      · rw [List.getElem?_set_ne (Ne.symm hne2), List.getElem?_set_ne (Ne.symm hne)]; exact hm
      · rw [hres _ (by simpa using hne) (by simpa using hne2)]; exact hf
  · intro c' hc hm
    obtain ⟨v, h1, h2, h3, h4⟩ := h.chan c' hc hm
    refine ⟨v, ?_, h2, ?_, h4⟩
    · rw [hnp _ rfl, hv _ (by simp) (by simp)]; exact h1
    · intro x hx hx2
      obtain ⟨h5, h6⟩ := h3 x hx hx2
      rw [hv _ (by simp) (by simp)]
      refine ⟨?_, h6⟩
      rw [ho, if_neg (by simp [h5])]; exact h5
  · intro w' Qs' hw'
    obtain ⟨h1, h2⟩ := h.wg w' Qs' hw'
    constructor
    · simp only [hnp (.obl w' _) rfl]; exact h1
    · intro h3 m Q' h4 h5 σ h6
      rw [hnp _ rfl] at h3 h5
      rw [hres _ (by simp) (by simp)]
      exact h2 h3 m Q' h4 h5 σ h6
  · intro w' m hm; rw [hnp _ rfl] at hm; exact h.obl w' m hm
  · intro w' hm; rw [hnp _ rfl] at hm; exact h.waitIn w' hm
  · intro x w' m hm
    rw [hnp _ rfl]
    rcases hkeep _ _ hm with hm | ⟨hm, _⟩
    · exact h.depIn x w' m hm
    · simp at hm
  · rw [hnp _ rfl, hnp _ rfl]
    exact ⟨h.sess.1, h.sess.2.1, by simp [hg', hval', fset]⟩
  · rw [hnp _ rfl]; exact h.fin
  · intro x hx; rw [hnone]; exact h.seals x hx

/-- The invariant is preserved by every step. -/
theorem inv_step {P s t W g} (hwf : P.WF) (h : Inv P s W g) (hs : Step s t) :
    ∃ W' g', W.le W' ∧ Inv P t W' g' := by
  obtain ⟨i, j, hs⟩ := hs
  unfold step at hs
  rw [if_neg (by simp [h.nocrash])] at hs
  split at hs
  · simp at hs
  · simp at hs
  · rename_i hi
    exact absurd (h.wp hi rfl) (by simp [WP])
  · rename_i a b k hi
    have key : a < s.mem.length → ∃ W' g', W.le W' ∧
        Inv P { s with mem := s.mem.set a b, thr := s.thr.set i k } W' g' := by
      intro _
      by_cases hf : FinalAt P (.store a b k) W (g.res (.thr i)) s.mem
      · exact ⟨W, _, World.le_refl W, inv_store_final h hi hf⟩
      · rcases h.thr i _ hi with hw | hw
        · exact ⟨W, _, World.le_refl W, inv_store_wp h hi hw hf⟩
        · exact absurd hw hf
    split at hs
    · rename_i hl; cases hs; exact key hl
    · rename_i hl
      exfalso; apply hl; rw [h.len]
      rcases h.thr i _ hi with hw | hw
      · exact hw.1
      · obtain ⟨_, _, _, _, _, _, _, _, hw⟩ := hw; exact hw.2.1.1
  · rename_i c k hi
    split at hs
    · rename_i v hc
      cases hs
      exact inv_recv h hi hc
    · simp at hs
  · rename_i c v k hi
    split at hs
    · rename_i hc
      cases hs
      exact inv_send hwf h hi hc
    · rename_i hc
      split at hs
      · rename_i c' k' hj
        split at hs
        · rename_i hh
          cases hs
          obtain ⟨rfl, hne⟩ := hh
          obtain ⟨g', hg'⟩ := inv_rdv h hi hj hne hc
          exact ⟨W, g', World.le_refl W, hg'⟩
        · simp at hs
      · simp at hs
    · simp at hs
  · rename_i p k hi
    cases hs
    obtain ⟨g', hg'⟩ := inv_fork h hi
    exact ⟨W, g', World.le_refl W, hg'⟩
  · rename_i n k hi
    cases hs
    exact inv_wgNew h hi
  · rename_i w k hi
    have hob : ∃ n, s.wgs[w]? = some (n + 1) := by
      obtain ⟨j, S, Qs, Q, hob, hQs, hQ, _⟩ := h.wp hi rfl
      rw [Gl.res_some] at hob
      obtain ⟨h1, _⟩ := h.wg w Qs hQs
      rw [h1]
      have : 0 < (List.range Qs.length).countP (fun i => (g.own (.obl w i)).isSome) := by
        rw [List.countP_pos_iff]
        exact ⟨j, by simpa using lt_of_get hQ, by simp [hob]⟩
      exact ⟨_, by congr 1; exact (Nat.succ_pred_eq_of_pos this).symm⟩
    obtain ⟨n, hn⟩ := hob
    rw [hn] at hs
    cases hs
    obtain ⟨g', hg'⟩ := inv_wgDone h hi hn
    exact ⟨W, g', World.le_refl W, hg'⟩
  · rename_i w k hi
    split at hs
    · rename_i hn
      cases hs
      obtain ⟨g', hg'⟩ := inv_wgWait h hi hn
      exact ⟨W, g', World.le_refl W, hg'⟩
    · simp at hs
  · rename_i c v k hi
    cases hs
    exact inv_setCell h hi
  · rename_i c k hi
    cases hs
    exact ⟨W, g, World.le_refl W, inv_getCell h hi⟩

theorem inv_reach {P s t W g} (hwf : P.WF) (h : Inv P s W g) (hs : Reach s t) :
    ∃ W' g', W.le W' ∧ Inv P t W' g' := by
  induction hs with
  | refl => exact ⟨W, g, World.le_refl W, h⟩
  | tail _ h2 ih =>
    obtain ⟨W1, g1, hle, h1⟩ := ih
    obtain ⟨W2, g2, hle2, h2⟩ := inv_step hwf h1 h2
    exact ⟨W2, g2, World.le_trans hle hle2, h2⟩

/-! ### Progress -/

theorem stuck_shape {P s W g} (h : Inv P s W g) (hst : Stuck s) {i : Nat} {p : Proc}
    (hi : s.thr[i]? = some p) :
    p = .done ∨ (∃ w k n, p = .wgWait w k ∧ s.wgs[w]? = some (n + 1)) ∨
    (∃ c k, p = .recv c k ∧ (c.isAlloc = false ∨ ∀ v, s.ch c ≠ .buf (some v))) ∨
    (∃ c v k, p = .send c v k ∧ s.ch c ≠ .buf none) := by
  have hn : ∀ j, step s i j = none := by
    intro j
    rcases hs : step s i j with _ | t
    · rfl
    · exact absurd ⟨i, j, hs⟩ (hst t)
  have hn := hn i
  unfold step at hn
  rw [if_neg (by simp [h.nocrash]), hi] at hn
  cases p with
  | done => exact .inl rfl
  | panic => simp at hn
  | store a b k => simp at hn; split at hn <;> simp at hn
  | recv c k =>
    right; right; left
    refine ⟨c, k, rfl, ?_⟩
    right
    intro v hv
    simp [hv] at hn
  | send c v k =>
    right; right; right
    refine ⟨c, v, k, rfl, ?_⟩
    intro hv
    simp [hv] at hn
  | fork p k => simp at hn
  | wgNew n k => simp at hn
  | wgDone w k =>
    exfalso
    obtain ⟨j, S, Qs, Q, hob, hQs, hQ, _⟩ := h.wp hi rfl
    obtain ⟨h1, _⟩ := h.wg w Qs hQs
    simp only [h1] at hn
    split at hn <;> simp_all
  | wgWait w k =>
    right; left
    obtain ⟨_, _, _, Qs, hQs, _⟩ := h.wp hi rfl
    obtain ⟨h1, _⟩ := h.wg w Qs hQs
    simp only [h1] at hn
    refine ⟨w, k, (List.range Qs.length).countP (fun i => (g.own (.obl w i)).isSome) - 1, rfl, ?_⟩
    split at hn
    · simp at hn
    · rename_i hne
      rw [h1]; congr 1
      have : (List.range Qs.length).countP (fun i => (g.own (.obl w i)).isSome) ≠ 0 := by
        intro h0; exact hne (by rw [h0])
      omega
  | setCell c v k => simp at hn
  | getCell c k => simp at hn

/-- A state satisfying the invariant in which no goroutine can step is one in which all have
returned: no deadlock. -/
theorem progress {P s W g} (h : Inv P s W g) (hst : Stuck s) : AllDone s := by
  -- nobody holds an offset
  have htok : ∀ c, c.isAlloc = true → P.made c = true → g.own (.tok c) = none := by
    intro c hc hm
    by_contra hne
    obtain ⟨l, hl⟩ := Option.ne_none_iff_exists'.1 hne
    obtain ⟨i, rfl⟩ := h.lin _ _ hl rfl
    have hil := h.rng _ _ hl
    have hi : s.thr[i]? = some s.thr[i] := List.getElem?_eq_getElem hil
    have hR : ¬ (g.res (.thr i)).NoTok := by
      intro hnt; have := hnt c; rw [Gl.res_none] at this; exact this hl
    rcases h.thr i _ hi with hw | hw
    · rcases stuck_shape h hst hi with hd | ⟨w, k, n, hd, _⟩ | ⟨c', k, hd, _⟩ | ⟨c', v, k, hd, hch⟩
      · rw [hd] at hw; exact hR hw.2.1
      · rw [hd] at hw; exact hR hw.2.1
      · rw [hd] at hw; exact hR hw.1
      · rw [hd] at hw
        unfold WP at hw
        split at hw
        · rename_i hal
          obtain ⟨v0, ts, h1, _, _, hm', _⟩ := hw
          rw [Gl.res_eq] at h1
          obtain ⟨v', h2, _⟩ := h.chan c' hal hm'
          rcases h2 with h2 | h2
          · rw [h2.2] at h1; simp at h1
          · exact hch h2.1
        · exact hR hw.1
    · exact hR hw.2.1
  -- nobody waits on a WaitGroup
  have hnowait : ∀ m w, W.wgs.length - w = m → ∀ (i : Nat) (k : Proc), s.thr[i]? ≠ some (.wgWait w k) := by
    intro m
    induction m using Nat.strongRecOn with
    | _ m ih =>
      intro w hwm i k hi
      have hw := h.wp hi rfl
      obtain ⟨hwt, hT, hO, Qs, hQs, _⟩ := hw
      have hwl := lt_of_get hQs
      rcases stuck_shape h hst hi with hd | ⟨w', k', n, hd, hc⟩ | ⟨c', k', hd, _⟩ | ⟨c', v, k', hd, _⟩
      · simp at hd
      · cases hd
        obtain ⟨h1, _⟩ := h.wg w Qs hQs
        rw [h1] at hc
        simp only [Option.some.injEq] at hc
        have hpos : 0 < (List.range Qs.length).countP (fun i => (g.own (.obl w i)).isSome) := by omega
        rw [List.countP_pos_iff] at hpos
        obtain ⟨x, _, hx⟩ := hpos
        obtain ⟨l, hl⟩ := Option.isSome_iff_exists.1 hx
        obtain ⟨i2, rfl⟩ := h.lin _ _ hl rfl
        have hil := h.rng _ _ hl
        have hi2 : s.thr[i2]? = some s.thr[i2] := List.getElem?_eq_getElem hil
        have hR : ¬ (g.res (.thr i2)).NoObl := by
          intro hnt; have := hnt w x; rw [Gl.res_none] at this; exact this hl
        rcases h.thr i2 _ hi2 with hw2 | hw2
        · rcases stuck_shape h hst hi2 with hd | ⟨w', k', n', hd, _⟩ | ⟨c', k', hd, hch⟩ | ⟨c', v, k', hd, hch⟩
          · rw [hd] at hw2; exact hR hw2.2.2.1
          · have hw3 := hw2
            rw [hd] at hw2
            have := hw2.2.2.1 w x (by rw [Gl.res_some]; exact hl)
            exact ih (W.wgs.length - w') (by omega) w' rfl i2 k' (by rw [hi2, hd])
          · rw [hd] at hw2
            unfold WP at hw2
            obtain ⟨_, hw2⟩ := hw2
            split at hw2
            · rename_i hal
              obtain ⟨v', h2, _⟩ := h.chan c' hal hw2.1
              rcases h2 with h2 | h2
              · rcases hch with hch | hch
                · simp_all
                · exact hch v' h2.1
              · exact h2.2.1 (htok c' hal hw2.1)
            · obtain ⟨_, _, _, _, _, hno, _⟩ := hw2
              exact hR hno
          · rw [hd] at hw2
            unfold WP at hw2
            split at hw2
            · rename_i hal
              obtain ⟨v0, ts, h1, _, _, hm', _⟩ := hw2
              rw [Gl.res_eq] at h1
              rw [htok c' hal hm'] at h1; simp at h1
            · obtain ⟨_, n, _, _, _, _, hno, _⟩ := hw2
              exact hR hno
        · exact hR hw2.2.2.1
      · simp at hd
      · simp at hd
  -- classify
  have hcl : ∀ (i : Nat) (p : Proc), s.thr[i]? = some p → p = .done ∨
      (∃ c k n, p = .recv c k ∧ g.own .rcv = some (.thr i) ∧ g.val .rcv = n ∧ n < 2 ∧ msgChan n = c ∧ c.isAlloc = false) ∨
      (∃ c v k n, p = .send c v k ∧ g.own .snd = some (.thr i) ∧ g.val .snd = n ∧ n < 2 ∧ msgChan n = c ∧ c.isAlloc = false) := by
    intro i p hi
    rcases stuck_shape h hst hi with hd | ⟨w', k', n', hd, _⟩ | ⟨c', k', hd, hch⟩ | ⟨c', v, k', hd, hch⟩
    · exact .inl hd
    · exact absurd (by rw [hi, hd]) (hnowait _ w' rfl i k')
    · right; left
      subst hd
      have hw2 := h.wp hi rfl
      unfold WP at hw2
      obtain ⟨_, hw2⟩ := hw2
      split at hw2
      · rename_i hal
        exfalso
        obtain ⟨v', h2, _⟩ := h.chan c' hal hw2.1
        rcases h2 with h2 | h2
        · rcases hch with hch | hch
          · simp_all
          · exact hch v' h2.1
        · exact h2.2.1 (htok c' hal hw2.1)
      · rename_i hal
        obtain ⟨n, h1, _, h2, h3, _⟩ := hw2
        rw [Gl.res_eq] at h1
        exact ⟨c', k', n, rfl, h1.1, h1.2, h2, h3, by simpa using hal⟩
    · right; right
      subst hd
      have hw2 := h.wp hi rfl
      unfold WP at hw2
      split at hw2
      · rename_i hal
        exfalso
        obtain ⟨v0, ts, h1, _, _, hm', _⟩ := hw2
        rw [Gl.res_eq] at h1
        rw [htok c' hal hm'] at h1; simp at h1
      · rename_i hal
        obtain ⟨_, n, h1, _, h2, h3, _⟩ := hw2
        rw [Gl.res_eq] at h1
        exact ⟨c', v, k', n, rfl, h1.1, h1.2, h2, h3, by simpa using hal⟩
  obtain ⟨⟨ls, hls⟩, ⟨lr, hlr⟩, hval⟩ :=
    (⟨Option.ne_none_iff_exists'.1 h.sess.1, Option.ne_none_iff_exists'.1 h.sess.2.1, h.sess.2.2⟩ :
      (∃ l, g.own .snd = some l) ∧ (∃ l, g.own .rcv = some l) ∧ g.val .snd = g.val .rcv)
  obtain ⟨is, rfl⟩ := h.lin _ _ hls rfl
  obtain ⟨ir, rfl⟩ := h.lin _ _ hlr rfl
  have hisl := h.rng _ _ hls
  have hirl := h.rng _ _ hlr
  have his := List.getElem?_eq_getElem hisl
  have hir := List.getElem?_eq_getElem hirl
  -- the session is over, or both ends are ready
  have hdone : 2 ≤ g.val .snd := by
    by_contra hlt
    have hS : ∃ c v k, s.thr[is] = .send c v k ∧ msgChan (g.val .snd) = c ∧ c.isAlloc = false := by
      rcases hcl is _ his with hd | ⟨c, k, n, hd, hr, hn, hn2, hc, hal⟩ | ⟨c, v, k, n, hd, hr, hn, hn2, hc, hal⟩
      · exfalso
        rcases h.thr is _ his with hw | hw
        · rw [hd] at hw
          rcases hw.2.2.2.1 with h1 | h1
          · rw [Gl.res_none] at h1; exact h1 hls
          · rw [Gl.res_eq] at h1; omega
        · rcases hw.2.2.2.1 with h1 | h1
          · rw [Gl.res_none] at h1; exact h1 hls
          · rw [Gl.res_eq] at h1; omega
      · exfalso
        have hw := h.wp his (by rw [hd]; rfl)
        rw [hd] at hw
        unfold WP at hw
        rw [if_neg (by simp [hal])] at hw
        obtain ⟨_, _, _, hsn, _⟩ := hw
        rw [Gl.res_none] at hsn; exact hsn hls
      · exact ⟨c, v, k, hd, by rw [hn]; exact hc, hal⟩
    have hR : ∃ c k, s.thr[ir] = .recv c k ∧ msgChan (g.val .snd) = c := by
      rcases hcl ir _ hir with hd | ⟨c, k, n, hd, hr, hn, hn2, hc, hal⟩ | ⟨c, v, k, n, hd, hr, hn, hn2, hc, hal⟩
      · exfalso
        rcases h.thr ir _ hir with hw | hw
        · rw [hd] at hw
          rcases hw.2.2.2.2 with h1 | h1
          · rw [Gl.res_none] at h1; exact h1 hlr
          · rw [Gl.res_eq] at h1; omega
        · rcases hw.2.2.2.2.1 with h1 | h1
          · rw [Gl.res_none] at h1; exact h1 hlr
          · rw [Gl.res_eq] at h1; omega
      · exact ⟨c, k, hd, by rw [hval, hn]; exact hc⟩
      · exfalso
        have hw := h.wp hir (by rw [hd]; rfl)
        rw [hd] at hw
        unfold WP at hw
        rw [if_neg (by simp [hal])] at hw
        obtain ⟨_, _, _, hsn, _⟩ := hw
        rw [Gl.res_none] at hsn; exact hsn hlr
    obtain ⟨c, v, k, h1, h2, h3⟩ := hS
    obtain ⟨c', k', h4, h5⟩ := hR
    have hcc : c' = c := by rw [← h5, h2]
    subst hcc
    have hne : ir ≠ is := by
      rintro rfl
      rw [h1] at h4; simp at h4
    apply hst { s with thr := (s.thr.set is k).set ir (k' v) }
    refine ⟨is, ir, ?_⟩
    unfold step
    rw [if_neg (by simp [h.nocrash]), his, h1]
    simp only [h.rv c' h3, hir, h4]
    rw [if_pos ⟨trivial, hne⟩]
  intro p hp
  obtain ⟨i, hi⟩ := List.mem_iff_getElem?.1 hp
  rcases hcl i p hi with hd | ⟨c, k, n, hd, hr, hn, hn2, hc, hal⟩ | ⟨c, v, k, n, hd, hr, hn, hn2, hc, hal⟩
  · exact hd
  · omega
  · omega

end Speed
