import Verif.Conc
/-
A small separation logic for the goroutine language of `Conc.lean`. It is proof machinery, not part
of the model: `WP p W R` says that a goroutine with program `p` that owns the resources `R` runs
safely. `LogicSound.lean` proves that it is sound for every interleaving.
-/
namespace Speed

/-- Names of the record slots that the offset channels hand out. -/
inductive Tok where
  | indom (d : Nat) | inst (d : Nat) (i : Str) | metric (m : Nat) | value (m : Nat) (i : Option Str)
  | indomShort (d : Nat) | indomLong (d : Nat) | instName (d : Nat) (i : Str)
  | metName (m : Nat) | metShort (m : Nat) | metLong (m : Nat) | valStr (m : Nat) (i : Option Str)
  deriving DecidableEq, Repr

def Tok.chan : Tok → Chan
  | .indom _ => .indom
  | .inst _ _ => .inst
  | .metric _ => .metric
  | .value _ _ => .value
  | _ => .str

/-- Received offsets worth naming: that of a metric's descriptor, that of a domain's first instance. -/
inductive Gh where
  | met (m : Nat)
  | dom (d : Nat)
  deriving DecidableEq

/-- Write-once facts: a slot's location, or the final value of a heap cell. -/
inductive SealKey where
  | cell (c : Cell)
  | slot (t : Tok)
  | ghost (n : Gh)    -- a value fixed when it was received from a channel
  deriving DecidableEq

abbrev Seal := SealKey → Option Nat

def Seal.le (σ τ : Seal) : Prop := ∀ k v, σ k = some v → τ k = some v

theorem Seal.le_refl (σ : Seal) : σ.le σ := fun _ _ h => h
theorem Seal.le_trans {a b c : Seal} (h1 : a.le b) (h2 : b.le c) : a.le c :=
  fun k v h => h2 k v (h1 k v h)

/-- Exclusive resources. -/
inductive Key where
  | mem (a : Nat)          -- ownership of a byte, value = its content
  | tok (c : Chan)         -- the offset taken out of channel `c`
  | perm (k : SealKey)     -- right to set `k` once
  | obl (w i : Nat)        -- obligation to call Done on WaitGroup `w` (the `i`-th)
  | wait (w : Nat)         -- right to Wait on `w`
  | snd | rcv              -- the two ends of the rendezvous session
  | fin                    -- duty (of the first goroutine) to reach the final phase
  deriving DecidableEq

def Key.plain : Key → Bool
  | .mem _ => true
  | .perm _ => true
  | _ => false

abbrev Res := Key → Option Nat

namespace Res
def union (R S : Res) : Res := fun k => (R k).or (S k)
def restr (R : Res) (S : Key → Bool) : Res := fun k => if S k then R k else none
def Sub (R S : Res) : Prop := ∀ k v, R k = some v → S k = some v
def Disj (R S : Res) : Prop := ∀ k, R k ≠ none → S k = none
def Plain (R : Res) : Prop := ∀ k, R k ≠ none → k.plain = true
def NoTok (R : Res) : Prop := ∀ c, R (.tok c) = none
def NoObl (R : Res) : Prop := ∀ w i, R (.obl w i) = none
def Agrees (R : Res) (m : Buf) : Prop := ∀ a v, R (.mem a) = some v → ∃ b, m[a]? = some b ∧ b.toNat = v
end Res

abbrev Asrt := Seal → Res → Prop

structure World where
  wgs : List (List Asrt)
  sl : Seal

def World.le (W W' : World) : Prop := W.wgs <+: W'.wgs ∧ W.sl.le W'.sl

theorem World.le_refl (W : World) : W.le W := ⟨List.prefix_rfl, Seal.le_refl _⟩
theorem World.le_trans {a b c : World} (h1 : a.le b) (h2 : b.le c) : a.le c :=
  ⟨h1.1.trans h2.1, Seal.le_trans h1.2 h2.2⟩

theorem World.le_wg {W W' : World} (h : W.le W') {w : Nat} {Q} (hq : W.wgs[w]? = some Q) :
    W'.wgs[w]? = some Q := by
  obtain ⟨l, hl⟩ := h.1
  rw [← hl, List.getElem?_append_left]
  · exact hq
  · exact (List.getElem?_eq_some_iff.1 hq).1

def Chan.isAlloc : Chan → Bool
  | .gen => false
  | .g2 => false
  | _ => true

/-- The `n`-th rendezvous uses this channel. -/
def msgChan : Nat → Chan
  | 0 => .gen
  | _ => .g2

structure Params where
  len : Nat
  base : Chan → Nat
  slotLen : Chan → Nat
  toks : Chan → List Tok
  made : Chan → Bool
  /-- invariant of the whole buffer before the final phase -/
  IA : Buf → Prop
  /-- invariant of the whole buffer in the final phase -/
  IB : Seal → Buf → Prop
  post : Seal → Buf → Prop
  /-- addresses written in the final phase -/
  late : Nat → Prop
  /-- resources transferred by the `n`-th rendezvous -/
  Phi : Nat → Nat → Seal → Res → Prop

/-- End of the section that channel `c` hands out. -/
def Params.lim (P : Params) (c : Chan) : Nat := P.base c + P.slotLen c * (P.toks c).length

/-- Slot locations are in range, aligned and distinct. -/
def SealOK (P : Params) (σ : Seal) : Prop :=
  (∀ t v, σ (.slot t) = some v → t ∈ P.toks t.chan ∧ v + P.slotLen t.chan ≤ P.lim t.chan ∧
      ∃ q, v = P.base t.chan + P.slotLen t.chan * q) ∧
  (∀ t t' v, t.chan = t'.chan → σ (.slot t) = some v → σ (.slot t') = some v → t = t')

/-- Resources after `c <- v0 + n * slotLen` for slots `ts`. -/
def Res.alloc (R : Res) (c : Chan) (v0 n : Nat) (ts : List Tok) : Res
  | .tok c' => if c' = c then none else R (.tok c')
  | .perm (.slot t) => if t ∈ ts then none else R (.perm (.slot t))
  | .mem a => if v0 ≤ a ∧ a < v0 + n then some 0 else R (.mem a)
  | k => R k

/-- Resources after the ghost facts `gs` were set. -/
def Res.drop (R : Res) (gs : Gh → Bool) : Res
  | .perm (.ghost n) => if gs n then none else R (.perm (.ghost n))
  | k => R k

/-- Resources after `wg.Add(n)` on the new WaitGroup `w`. -/
def Res.addWg (R : Res) (w n : Nat) : Res
  | .obl w' i => if w' = w ∧ i < n then some 0 else R (.obl w' i)
  | .wait w' => if w' = w then some 0 else R (.wait w')
  | k => R k

/-- Final phase: only stores to owned memory remain. -/
def FinalOK (P : Params) (σ : Seal) : Proc → Buf → Prop
  | .done, m => P.IB σ m ∧ P.post σ m
  | .store a b k, m => P.IB σ m ∧ (a < P.len ∧ P.late a) ∧ FinalOK P σ k (m.set a b)
  | _, _ => False

def Full (P : Params) (R : Res) : Prop := ∀ a, a < P.len → R (.mem a) ≠ none

def Final (P : Params) (p : Proc) (σ : Seal) (R : Res) : Prop :=
  Full P R ∧ R.NoTok ∧ R.NoObl ∧ (R .snd = none ∨ R .snd = some 2) ∧ (R .rcv = none ∨ R .rcv = some 2) ∧
  ∀ m : Buf, m.length = P.len → R.Agrees m → FinalOK P σ p m

/-- Weakest precondition. -/
def WP (P : Params) : Proc → World → Res → Prop
  | .done, _, R => R .fin = none ∧ R.NoTok ∧ R.NoObl ∧ (R .snd = none ∨ R .snd = some 2) ∧ (R .rcv = none ∨ R .rcv = some 2)
  | .panic, _, _ => False
  | .store a b k, W, R =>
      a < P.len ∧ R (.mem a) ≠ none ∧
      (∀ m : Buf, m.length = P.len → R.Agrees m → P.IA m → P.IA (m.set a b)) ∧
      WP P k W (fset R (.mem a) (some b.toNat))
  | .recv c k, W, R =>
      R.NoTok ∧
      if c.isAlloc then P.made c = true ∧ ∃ gs : Gh → Bool,
        (∀ n, gs n = true → R (.perm (.ghost n)) ≠ none) ∧
        ∀ (v : Nat) (W' : World), W.le W' → (∀ n, gs n = true → W'.sl (.ghost n) = some v) →
          WP P (k v) W' (fset (R.drop gs) (.tok c) (some v))
      else ∃ n, R .rcv = some n ∧ R .snd = none ∧ n < 2 ∧ msgChan n = c ∧ R.NoObl ∧
        ∀ (W' : World) (v : Nat) (D : Res), W.le W' → D.Plain → R.Disj D → P.Phi n v W'.sl D →
          WP P (k v) W' (fset (R.union D) .rcv (some (n + 1)))
  | .send c v k, W, R =>
      if c.isAlloc then ∃ v0 ts, R (.tok c) = some v0 ∧ v = v0 + ts.length * P.slotLen c ∧ ts.Nodup ∧
        P.made c = true ∧
        (∀ t ∈ ts, t.chan = c ∧ t ∈ P.toks c ∧ R (.perm (.slot t)) ≠ none) ∧
        ∀ W' : World, W.le W' →
          (∀ j t, ts[j]? = some t → W'.sl (.slot t) = some (v0 + j * P.slotLen c)) →
          v0 + ts.length * P.slotLen c ≤ P.lim c → P.base c ≤ v0 →
          (∀ a, v0 ≤ a → a < v0 + ts.length * P.slotLen c → R (.mem a) = none) →
          WP P k W' (R.alloc c v0 (ts.length * P.slotLen c) ts)
      else R.NoTok ∧ ∃ n, R .snd = some n ∧ R .rcv = none ∧ n < 2 ∧ msgChan n = c ∧ R.NoObl ∧
        ∃ S : Key → Bool, (R.restr S).Plain ∧ (∀ σ, W.sl.le σ → P.Phi n v σ (R.restr S)) ∧
          WP P k W (fset (R.restr (fun x => !S x)) .snd (some (n + 1)))
  | .fork p k, W, R =>
      ∃ S : Key → Bool, S .fin = false ∧ WP P p W (R.restr S) ∧ WP P k W (R.restr (fun x => !S x))
  | .wgNew n k, W, R =>
      ∃ Qs : List Asrt, Qs.length = n ∧ ∀ W' : World, W.le W' →
        WP P (k W'.wgs.length) ⟨W'.wgs ++ [Qs], W'.sl⟩ (R.addWg W'.wgs.length n)
  | .wgDone w k, W, R =>
      ∃ (i : Nat) (S : Key → Bool) (Qs : List Asrt) (Q : Asrt), R (.obl w i) ≠ none ∧
        W.wgs[w]? = some Qs ∧ Qs[i]? = some Q ∧ (R.restr S).Plain ∧
        (∀ σ, W.sl.le σ → Q σ (R.restr S)) ∧
        WP P k W (fset (R.restr (fun x => !S x)) (.obl w i) none)
  | .wgWait w k, W, R =>
      R (.wait w) ≠ none ∧ R.NoTok ∧ (∀ w' i, R (.obl w' i) ≠ none → w' < w) ∧
      ∃ Qs : List Asrt, W.wgs[w]? = some Qs ∧
      ∀ (W' : World) (D : Res), W.le W' → SealOK P W'.sl → D.Plain → R.Disj D →
        (∀ (i : Nat) (Q : Asrt), Qs[i]? = some Q → ∃ Di : Res, Di.Sub D ∧ Q W'.sl Di) →
        Final P k W'.sl (fset (R.union D) (.wait w) none) ∨
        WP P k W' (fset (R.union D) (.wait w) none)
  | .setCell c v k, W, R =>
      R (.perm (.cell c)) ≠ none ∧ ∀ W' : World, W.le W' → W'.sl (.cell c) = some v →
        WP P k W' (fset R (.perm (.cell c)) none)
  | .getCell c k, W, R => ∃ v, W.sl (.cell c) = some v ∧ WP P (k v) W R

theorem WP.mono {P : Params} {p : Proc} {W W' : World} {R : Res} (hle : W.le W')
    (h : WP P p W R) : WP P p W' R := by
  induction p generalizing W W' R with
  | done => exact h
  | panic => exact h
  | store a b k ih => exact ⟨h.1, h.2.1, h.2.2.1, ih hle h.2.2.2⟩
  | recv c k ih =>
    unfold WP at h ⊢
    refine ⟨h.1, ?_⟩
    have h2 := h.2
    split
    · rename_i hc
      rw [if_pos hc] at h2
      obtain ⟨h3, gs, h4, h5⟩ := h2
      exact ⟨h3, gs, h4, fun v W2 hw => h5 v W2 (World.le_trans hle hw)⟩
    · rename_i hc
      rw [if_neg hc] at h2
      obtain ⟨n, h1, h0, h3, h4, h5, h6⟩ := h2
      exact ⟨n, h1, h0, h3, h4, h5, fun W2 v D hw => h6 W2 v D (World.le_trans hle hw)⟩
  | send c v k ih =>
    unfold WP at h ⊢
    split
    · rename_i hc
      rw [if_pos hc] at h
      obtain ⟨v0, ts, h1, h2, h3, h4, h5, h6⟩ := h
      exact ⟨v0, ts, h1, h2, h3, h4, h5, fun W2 hw => h6 W2 (World.le_trans hle hw)⟩
    · rename_i hc
      rw [if_neg hc] at h
      obtain ⟨h0, n, h1, h1', h2, h3, h4, S, h5, h6, h7⟩ := h
      exact ⟨h0, n, h1, h1', h2, h3, h4, S, h5, fun σ hs => h6 σ (Seal.le_trans hle.2 hs), ih hle h7⟩
  | fork p k ihp ihk =>
    obtain ⟨S, h0, h1, h2⟩ := h
    exact ⟨S, h0, ihp hle h1, ihk hle h2⟩
  | wgNew n k ih =>
    obtain ⟨Qs, h1, h2⟩ := h
    exact ⟨Qs, h1, fun W2 hw => h2 W2 (World.le_trans hle hw)⟩
  | wgDone w k ih =>
    obtain ⟨i, S, Qs, Q, h1, h2, h3, h4, h5, h6⟩ := h
    exact ⟨i, S, Qs, Q, h1, World.le_wg hle h2, h3, h4,
      fun σ hs => h5 σ (Seal.le_trans hle.2 hs), ih hle h6⟩
  | wgWait w k ih =>
    obtain ⟨h1, h2, h3, Qs, h4, h5⟩ := h
    exact ⟨h1, h2, h3, Qs, World.le_wg hle h4, fun W2 D hw => h5 W2 D (World.le_trans hle hw)⟩
  | setCell c v k ih =>
    exact ⟨h.1, fun W2 hw => h.2 W2 (World.le_trans hle hw)⟩
  | getCell c k ih =>
    obtain ⟨v, h1, h2⟩ := h
    exact ⟨v, hle.2 _ _ h1, ih v hle h2⟩

end Speed
