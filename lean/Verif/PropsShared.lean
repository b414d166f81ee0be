import Verif.ClientsShared
import Verif.PropsClients
/-
C52 for clients that share domain objects.
-/
namespace Speed

open Dump

/-- The update closures of the metrics of `r`. -/
def Reg.Own (r : Reg) : Cell → Prop
  | .off _ _ => False
  | .upd u _ => ∃ m ∈ r.metrics, m.uid = u

theorem Reg.Own.uses {r : Reg} {c : Cell} (h : r.Own c) : r.Uses c := by
  cases c with
  | off d i => exact h.elim
  | upd u i => exact h

/-- Every client is one running alone, but for the instance fields. -/
structure ManyHazy (l : List ClientOf) (cells : Cell → Option Nat) (cs : List St) : Prop where
  len : cs.length = l.length
  heap : ∀ s ∈ cs, ∀ s' ∈ cs, s.cells = s'.cells
  safe : ∀ s ∈ cs, s.crashed = false
  ins : ∀ (n : Nat) x s, l[n]? = some x → cs[n]? = some s → ∀ p ∈ s.thr, p.CellsIn x.1.Uses
  alone : ∀ (n : Nat) x s, l[n]? = some x → cs[n]? = some s → ∃ t, Reach (initSt x.1 x.2.1 x.2.2 cells) t ∧
    Hazy x.1.Own x.1.InstField (ValueAt x.1) (ValueIn x.1) t s

theorem init_sent (r : Reg) (c : Chan) (v : Nat) (h : initCh r c = .buf (some v)) : ValueAt r c v := by
  rintro rfl
  unfold initCh at h
  dsimp only at h
  split at h
  · cases h
    exact ⟨0, rfl⟩
  · cases h

theorem manyHazy_init {l : List ClientOf} (ho : ∀ x ∈ l, x.2.2.OK x.1) (cells : Cell → Option Nat) :
    ManyHazy l cells (manyInit l cells) := by
  have hini : ∀ {n : Nat} {x s}, l[n]? = some x → (manyInit l cells)[n]? = some s → s = initSt x.1 x.2.1 x.2.2 cells := by
    intro n x s hx h
    unfold manyInit at h
    rw [List.getElem?_map, hx] at h
    exact (Option.some.inj h).symm
  refine ⟨by simp [manyInit], ?_, ?_, ?_, ?_⟩
  · intro s hs s' hs'
    obtain ⟨x, _, rfl⟩ := List.mem_map.1 hs
    obtain ⟨y, _, rfl⟩ := List.mem_map.1 hs'
    rfl
  · intro s hs
    obtain ⟨x, _, rfl⟩ := List.mem_map.1 hs
    rfl
  · intro n x s hx h p hp
    rw [hini hx h] at hp
    obtain rfl := List.mem_singleton.1 hp
    exact startProg_in (ho x (List.mem_of_getElem? hx))
  · intro n x s hx h
    obtain rfl := hini hx h
    refine ⟨_, .refl, ⟨rfl, fun _ _ => rfl, rfl, ?_, rfl, init_sent _, rfl, fun _ _ => rfl⟩⟩
    intro i p q hp hq
    obtain rfl := List.mem_singleton.1 (List.mem_of_getElem? hp)
    obtain rfl := List.mem_singleton.1 (List.mem_of_getElem? hq)
    exact startProg_like

theorem ManyHazy.step {l : List ClientOf} {cells : Cell → Option Nat} {cs cs' : List St}
    (hb : ∀ x ∈ l, x.1.OK ∧ x.2.2.OK x.1)
    (hd : ∀ (n m : Nat) (x y : ClientOf), n ≠ m → l[n]? = some x → l[m]? = some y → ∀ u i, x.1.Uses (.upd u i) → ¬ y.1.Uses (.upd u i))
    (h : ManyHazy l cells cs) (hs : ManyStep cs cs') : ManyHazy l cells cs' := by
  obtain ⟨n, i, j, hs⟩ := hs
  unfold stepOf at hs
  split at hs
  · cases hs
  rename_i s hn
  obtain ⟨s', hs', rfl⟩ := Option.map_eq_some_iff.1 hs
  have hlt : n < l.length := by rw [← h.len]; exact (List.getElem?_eq_some_iff.1 hn).1
  obtain ⟨x, hx⟩ : ∃ x, l[n]? = some x := ⟨_, List.getElem?_eq_getElem hlt⟩
  obtain ⟨t, hrt, hz⟩ := h.alone n x s hx hn
  obtain ⟨b1, b2⟩ := hb x (List.mem_of_getElem? hx)
  have hsc := h.safe s (List.mem_of_getElem? hn)
  obtain ⟨t', e1, e2, e3⟩ := hz.step (start_safe b1 b2 hrt) hs' (fun _ h => sent_in b1 b2 hrt h)
  have hr' : Reach (initSt x.1 x.2.1 x.2.2 cells) t' := hrt.tail ⟨i, j, e1⟩
  have hsc' : s'.crashed = false := by rw [← e3]; exact start_safe b1 b2 hr'
  have same : SameOn x.1.Uses s s := ⟨rfl, rfl, rfl, rfl, fun _ _ => rfl⟩
  obtain ⟨_, _, _, _, hin, hout⟩ := same.step hsc (h.ins n x s hx hn) hs'
  have key : ∀ y ∈ (cs.map (share s')).set n s', y.cells = s'.cells ∧ y.crashed = s'.crashed := by
    intro y hy
    obtain ⟨k, hk⟩ := List.getElem?_of_mem hy
    rcases get_share hn hk with ⟨_, rfl⟩ | ⟨_, y, _, rfl⟩
    · exact ⟨rfl, rfl⟩
    · exact ⟨rfl, rfl⟩
  refine ⟨by simp [h.len], ?_, ?_, ?_, ?_⟩
  · intro y hy z hz
    exact (key y hy).1.trans (key z hz).1.symm
  · intro y hy
    rw [(key y hy).2, hsc']
  · intro k y z hy hk
    rcases get_share hn hk with ⟨rfl, rfl⟩ | ⟨_, z, hz, rfl⟩
    · obtain rfl := Option.some.inj (hx.symm.trans hy)
      exact hin
    · exact h.ins k y z hy hz
  · intro k y z hy hk
    rcases get_share hn hk with ⟨rfl, rfl⟩ | ⟨hkn, z, hz, rfl⟩
    · obtain rfl := Option.some.inj (hx.symm.trans hy)
      exact ⟨t', hr', e2⟩
    · obtain ⟨u, hu, hh⟩ := h.alone k y z hy hz
      refine ⟨u, hu, ⟨hh.len, hh.mem, hh.num, hh.thr, hh.ch, hh.sent, hh.wgs, fun c hc => ?_⟩⟩
      show u.cells c = s'.cells c
      have hnot : ¬ x.1.Uses c := by
        cases c with
        | off d i => exact hc.elim
        | upd v i => exact hd k n y x hkn hy hx v i hc
      rw [hout c hnot, hh.cells c hc, h.heap z (List.mem_of_getElem? hz) s (List.mem_of_getElem? hn)]

theorem ManyHazy.reach {l : List ClientOf} {cells : Cell → Option Nat} {cs cs' : List St}
    (hb : ∀ x ∈ l, x.1.OK ∧ x.2.2.OK x.1)
    (hd : ∀ (n m : Nat) (x y : ClientOf), n ≠ m → l[n]? = some x → l[m]? = some y → ∀ u i, x.1.Uses (.upd u i) → ¬ y.1.Uses (.upd u i))
    (h : ManyHazy l cells cs) (hs : ManyReach cs cs') : ManyHazy l cells cs' := by
  induction hs with
  | refl => exact h
  | tail _ hs ih => exact ih.step hb hd hs

theorem like_done {A : Cell → Prop} {X : Nat → Prop} {P Q : Chan → Nat → Prop} {p : Proc} (h : Proc.Like A X P Q p .done) : p = .done := by
  cases p <;> first | rfl | exact h.elim

/-! ### Every schedule ends -/

/-- All goroutines of all clients. -/
def pool (cs : List St) : Multiset Proc := (cs.map fun s => (s.thr : Multiset Proc)).sum

theorem pool_share (x : St) (cs : List St) : pool (cs.map (share x)) = pool cs := by
  unfold pool
  rw [List.map_map]
  rfl

theorem pool_set {cs : List St} {n : Nat} {s : St} (s' : St) (h : cs[n]? = some s) :
    ∃ M, pool cs = M + (s.thr : Multiset Proc) ∧ pool (cs.set n s') = M + (s'.thr : Multiset Proc) := by
  induction cs generalizing n with
  | nil => simp at h
  | cons y cs ih =>
    cases n with
    | zero =>
      cases h
      exact ⟨pool cs, by simp [pool, add_comm], by simp [pool, add_comm]⟩
    | succ n =>
      obtain ⟨M, h1, h2⟩ := ih (by simpa using h)
      refine ⟨(y.thr : Multiset Proc) + M, ?_, ?_⟩
      · show _ + pool cs = _
        rw [h1, add_assoc]
      · show _ + pool (cs.set n s') = _
        rw [h2, add_assoc]

theorem pool_below {cs cs' : List St} (h : ManyStep cs cs') :
    Relation.TransGen (Relation.CutExpand Proc.Sub) (pool cs') (pool cs) ∨ ∀ s ∈ cs', s.crashed = true := by
  obtain ⟨n, i, j, h⟩ := h
  unfold stepOf at h
  split at h
  · cases h
  rename_i s hn
  obtain ⟨s', hs', rfl⟩ := Option.map_eq_some_iff.1 h
  have hn' : (cs.map (share s'))[n]? = some (share s' s) := by rw [List.getElem?_map, hn]; rfl
  rcases below_of_step ⟨i, j, hs'⟩ with hb | ⟨_, hb, _⟩
  · obtain ⟨M, h1, h2⟩ := pool_set s' hn'
    rw [pool_share] at h1
    left
    rw [h1, h2]
    show Relation.TransGen _ _ (M + (s.thr : Multiset Proc))
    exact hb.lift (M + ·) fun a b hab => (Relation.cutExpand_add_left _).2 hab
  · right
    intro y hy
    obtain ⟨k, hk⟩ := List.getElem?_of_mem hy
    rcases get_share hn hk with ⟨_, rfl⟩ | ⟨_, y, _, rfl⟩
    · exact hb
    · exact hb

/-- No schedule of any clients is infinite. -/
theorem many_ends (cs : List St) : ¬ ∃ f : Nat → List St, f 0 = cs ∧ ∀ k, ManyStep (f k) (f (k + 1)) := by
  rintro ⟨f, _, hf⟩
  have hwf : WellFounded (Relation.TransGen (Relation.CutExpand Proc.Sub)) := (Proc.sub_wf.cutExpand).transGen
  have hlt : ∀ k, Relation.TransGen (Relation.CutExpand Proc.Sub) (pool (f (k + 1))) (pool (f k)) := by
    intro k
    rcases pool_below (hf k) with h | h
    · exact h
    · exfalso
      obtain ⟨n, i, j, hs⟩ := hf (k + 1)
      unfold stepOf at hs
      split at hs
      · cases hs
      rename_i s hn
      obtain ⟨s', hs', _⟩ := Option.map_eq_some_iff.1 hs
      have := step_crashed hs'
      rw [h s (List.mem_of_getElem? hn)] at this
      cases this
  have key : ∀ M, ∀ k, pool (f k) = M → False := by
    intro M
    induction M using hwf.induction with
    | _ M ih =>
      rintro k rfl
      exact ih _ (hlt k) (k + 1) rfl
  exact key _ 0 rfl

/-- C52, as far as it holds for clients whose registries share domain objects (as all registries with histograms
do) but no metric objects. Any number of clients start at the same time. Under every interleaving: the process does
not panic; every schedule ends, and when nothing can step any more all `Start`s have returned; the update closures of a returned client's
metrics and all bytes of its file, other than the instance fields of its value records, are those of a file it could
have written alone.

Not covered (and false, `C52_refuted`): the instance fields. -/
theorem C52_shared_partial {l : List ClientOf} (hb : ∀ x ∈ l, Built x.1 ∧ x.1.Publishable ∧ x.1.Small ∧ x.2.2.OK x.1)
    (hd : ∀ (n m : Nat) (x y : ClientOf), n ≠ m → l[n]? = some x → l[m]? = some y → ∀ u ∈ x.1.metrics, ∀ v ∈ y.1.metrics, u.uid ≠ v.uid)
    {cells : Cell → Option Nat} {cs : List St} (hr : ManyReach (manyInit l cells) cs) :
    cs.length = l.length ∧ (∀ s ∈ cs, s.crashed = false) ∧ (ManyStuck cs → ∀ s ∈ cs, AllDone s ∧ Returned s) ∧
    (¬ ∃ f : Nat → List St, f 0 = cs ∧ ∀ k, ManyStep (f k) (f (k + 1))) ∧
    ∀ (n : Nat) x s, l[n]? = some x → cs[n]? = some s → Returned s →
      ∃ t, Started x.1 x.2.1 x.2.2 t ∧ t.mem.length = s.mem.length ∧
        (∀ a, (¬ ∃ q < x.1.ValuesCount, x.1.valuesoffset + 32 * q + 24 ≤ a ∧ a < x.1.valuesoffset + 32 * q + 32) → t.mem[a]? = s.mem[a]?) ∧
        ∀ m ∈ x.1.metrics, ∀ i, t.cells (.upd m.uid i) = s.cells (.upd m.uid i) := by
  have hinv := (manyHazy_init (fun x hx => (hb x hx).2.2.2) cells).reach
    (fun x hx => ⟨(hb x hx).1.ok (hb x hx).2.1, (hb x hx).2.2.2⟩) (by
      rintro n m x y hnm hx hy u i ⟨a, ha, rfl⟩ ⟨b, hb, he⟩
      exact hd n m x y hnm hx hy a ha b hb he.symm) hr
  refine ⟨hinv.len, hinv.safe, fun hst s hs => ?_, many_ends cs, fun n x s hx hs hret => ?_⟩
  · obtain ⟨n, hn⟩ := List.getElem?_of_mem hs
    have hlt : n < l.length := by rw [← hinv.len]; exact (List.getElem?_eq_some_iff.1 hn).1
    obtain ⟨x, hx⟩ : ∃ x, l[n]? = some x := ⟨_, List.getElem?_eq_getElem hlt⟩
    obtain ⟨t, hrt, hz⟩ := hinv.alone n x s hx hn
    obtain ⟨b1, b2, _, b4⟩ := hb x (List.mem_of_getElem? hx)
    have hstuck : Stuck t := by
      rintro t' ⟨i, j, hstep⟩
      obtain ⟨s', h1, _⟩ := hz.symm.step (hinv.safe s hs) hstep (by
        intro _ _ c v k hk
        obtain ⟨p, hp⟩ : ∃ p, t.thr[i]? = some p :=
          ⟨_, List.getElem?_eq_getElem (by rw [hz.num]; exact (List.getElem?_eq_some_iff.1 hk).1)⟩
        have hl := hz.thr i p _ hp hk
        cases p <;> try exact hl.elim
        obtain ⟨rfl, rfl, _⟩ := hl
        exact sent_in (b1.ok b2) b4 hrt hstep _ _ _ hp)
      exact hst _ ⟨n, i, j, by unfold stepOf; rw [hn]; dsimp only; rw [h1]; rfl⟩
    obtain ⟨h1, h2⟩ := ((C02_terminates b1 b2 b4 x.2.1 cells).1 t hrt).2 hstuck
    have hdone : ∀ (k : Nat) q, s.thr[k]? = some q → q = .done := by
      intro k q hq
      obtain ⟨p, hp⟩ : ∃ p, t.thr[k]? = some p :=
        ⟨_, List.getElem?_eq_getElem (by rw [hz.num]; exact (List.getElem?_eq_some_iff.1 hq).1)⟩
      have hl := (hz.thr k p q hp hq).symm
      rw [h1 p (List.mem_of_getElem? hp)] at hl
      exact like_done hl
    refine ⟨fun q hq => ?_, ?_⟩
    · obtain ⟨k, hk⟩ := List.getElem?_of_mem hq
      exact hdone k q hk
    · unfold Returned at h2 ⊢
      obtain ⟨q, hq⟩ : ∃ q, s.thr[0]? = some q :=
        ⟨_, List.getElem?_eq_getElem (by rw [← hz.num]; exact (List.getElem?_eq_some_iff.1 h2).1)⟩
      rw [hq, hdone 0 q hq]
  · obtain ⟨t, hrt, hz⟩ := hinv.alone n x s hx hs
    obtain ⟨b1, b2, b3, b4⟩ := hb x (List.mem_of_getElem? hx)
    refine ⟨t, ⟨b1, b2, b3, b4, ⟨cells, hrt⟩, ?_⟩, hz.len, hz.mem, fun m hm i => hz.cells _ ⟨m, hm, rfl⟩⟩
    unfold Returned at hret ⊢
    obtain ⟨p, hp⟩ : ∃ p, t.thr[0]? = some p :=
      ⟨_, List.getElem?_eq_getElem (by rw [hz.num]; exact (List.getElem?_eq_some_iff.1 hret).1)⟩
    rw [hp, like_done (hz.thr 0 p _ hp hret)]

/-- The two clients of `C52_refuted`. -/
example {cs : List St} (hr : ManyReach histInit cs) : cs.length = 2 ∧ (∀ s ∈ cs, s.crashed = false) ∧
    (ManyStuck cs → ∀ s ∈ cs, AllDone s ∧ Returned s) := by
  have hbuilt : ∀ m : Option Metric, (∀ x, m = some x → MadeMetric x) → Built (regOf (opsOf m)) :=
    fun m hm => ⟨_, opsOf m, opsOf_made hm, rfl⟩
  have h := C52_shared_partial (by
    intro x hx
    simp only [List.mem_cons, List.not_mem_nil, or_false] at hx
    rcases hx with rfl | rfl
    · exact ⟨hbuilt _ fun _ h => hist_made (.inl h), publishable_of (by decide), by constructor <;> decide, idOrd_ok _⟩
    · exact ⟨hbuilt _ fun _ h => hist_made (.inr h), publishable_of (by decide), by constructor <;> decide, idOrd_ok _⟩) (by
    have h1 : ∀ x ∈ histRegA.metrics, ∀ y ∈ histRegB.metrics, x.uid ≠ y.uid := by decide
    intro n m x y hnm hx hy u hu v hv
    match n, m, hnm, hx, hy with
    | 0, 1, _, hx, hy => cases hx; cases hy; exact h1 u hu v hv
    | 1, 0, _, hx, hy => cases hx; cases hy; exact (h1 v hv u hu).symm
    | n + 2, _, _, hx, _ => simp at hx
    | _, m + 2, _, _, hy => simp at hy) hr
  exact ⟨h.1, h.2.1, h.2.2.1⟩

end Speed
