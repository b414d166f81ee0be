import Verif.PropsConcMonoVec
/-
Concurrent increments of one instance of a counter vector (C20).
-/
namespace Speed

open Dump

section
variable {F : Flops} {L : Hdr}

/-- Increments the instance `s` of the counter vector `uid` by each of the given amounts, ignoring errors. -/
def cvIncProg (uid : Nat) (s : Str) : List (BitVec 64) → Cli Ret Meth
  | [] => .done
  | x :: l => .call uid (.cvInc x s) fun _ => cvIncProg uid s l

def CvIncThr (uid : Nat) (s : Str) (t : AThr Ret Meth) (l : List (BitVec 64)) : Prop :=
  t = .out (cvIncProg uid s l) ∨ ∃ r k, t = .pend r k ∧ ∀ a, k a = cvIncProg uid s l

structure CvIncInv (uid : Nat) (s : Str) (total : BitVec 64) (T : ASt L.H Ret Meth) : Prop where
  t : (T.obj uid).m.desc.t = Int64Type
  sum : ∃ v ls, (T.obj uid).m.cur (some s) = some (.int64 v) ∧ T.thr.length = ls.length ∧
    (∀ (i : Nat) t, T.thr[i]? = some t → ∃ l, ls[i]? = some l ∧ CvIncThr uid s t l) ∧ v + addedAll ls = total

theorem CvIncInv.step {e o w} {T T' : ASt L.H Ret Meth} {x : Metric} (hx : x ∈ w.reg.metrics) {s : Str} {total} (h : Tracks e o w T)
    (hi : CvIncInv x.uid s total T) (hs : SStep F L w.upd T T') : CvIncInv x.uid s total T' := by
  obtain ⟨ht, v, ls, hv, hlen, hthr, hsum⟩ := hi
  cases hs with
  | @call i m me k hti =>
    obtain ⟨l, hl, hinc⟩ := hthr i _ hti
    rcases hinc with hinc | ⟨r, k', hinc, _⟩
    · cases l with
      | nil => cases hinc
      | cons y l =>
        simp only [cvIncProg, AThr.out.injEq, Cli.call.injEq] at hinc
        obtain ⟨rfl, rfl, rfl⟩ := hinc
        obtain ⟨c1, c2⟩ := cvInc_eq (h.good hx) ht hv y
        have hthr' : ∀ r (j : Nat) t, (T.thr.set i (.pend r fun _ => cvIncProg x.uid s l))[j]? = some t →
            ∃ l', (ls.set i l)[j]? = some l' ∧ CvIncThr x.uid s t l' := by
          intro r j t hj
          rw [get_set hti] at hj
          rw [get_set hl]
          split at hj
          · rw [if_pos (by assumption)]
            exact ⟨l, rfl, .inr ⟨_, _, (Option.some.inj hj).symm, fun _ => rfl⟩⟩
          · rw [if_neg (by assumption)]; exact hthr j t hj
        have hset := addedAll_set hl
        simp only [Meth.spec, lift]
        by_cases hy : y.toInt < 0
        · rw [c1 hy]
          rw [if_pos hy] at hset
          refine ⟨by simpa [fset] using ht, v, ls.set i l, by simpa [fset] using hv, by simp [hlen], hthr' _, ?_⟩
          rw [← hsum, hset]; simp
        · obtain ⟨b, c3, _⟩ := c2 (by omega)
          rw [c3]
          rw [if_neg hy] at hset
          refine ⟨by simpa [fset, put_desc] using ht, v + y, ls.set i l, ?_, by simp [hlen], hthr' _, ?_⟩
          · simp only [fset, if_pos]
            rw [put_cur, if_pos rfl, hv]; rfl
          · rw [← hsum, hset, BitVec.add_assoc]
    · cases hinc
  | @ret i r k hti =>
    refine ⟨ht, v, ls, hv, by simpa using hlen, ?_, hsum⟩
    intro j t hj
    dsimp only at hj
    rw [get_set hti] at hj
    split at hj
    · rename_i hji
      subst hji
      obtain ⟨l, hl, hinc⟩ := hthr j _ hti
      rcases hinc with hinc | ⟨r', k', hinc, hk⟩
      · cases hinc
      · cases hinc
        exact ⟨l, hl, .inl ((Option.some.inj hj).symm.trans (by rw [hk]))⟩
    · exact hthr j t hj

theorem cv_inc_inv {e o w obj ls} {m : Metric} (hm : m ∈ w.reg.metrics) {s : Str} {v : BitVec 64}
    (ht : m.desc.t = Int64Type) (hv : m.cur (some s) = some (.int64 v)) (h : Users (L := L) e o w obj (ls.map (cvIncProg m.uid s))) {T}
    (hT : SReach F L w.upd (ASt.init obj w.mem (ls.map (cvIncProg m.uid s))) T) : CvIncInv m.uid s (v + addedAll ls) T := by
  induction hT with
  | refl =>
    refine ⟨by show (obj m.uid).m.desc.t = _; rw [h.obj m hm]; exact ht, v, ls,
      by show (obj m.uid).m.cur (some s) = _; rw [h.obj m hm]; exact hv, by simp [ASt.init], ?_, rfl⟩
    intro i t hi
    simp only [ASt.init, List.map_map, List.getElem?_map, Option.map_eq_some_iff] at hi
    obtain ⟨l, hl, rfl⟩ := hi
    exact ⟨l, hl, .inl rfl⟩
  | tail hr hs ih => exact ih.step hm (hr.tracks h) hs

/-- C20: if any number of goroutines increment one instance of a counter vector concurrently, then when all have ended its
value is the initial value plus all increments, modulo 2^64, and the file shows it. -/
theorem C20_inc_sum_vector {e o w obj ls S} {m : Metric} (hm : m ∈ w.reg.metrics) {s : Str} {v : BitVec 64}
    (ht : m.desc.t = Int64Type) (hv : m.cur (some s) = some (.int64 v))
    (h : Users (L := L) e o w obj (ls.map (cvIncProg m.uid s))) (hS : Runs F L w obj (ls.map (cvIncProg m.uid s)) S)
    (hend : ∀ t ∈ S.thr, t = .out .done) :
    (S.obj m.uid).m.cur (some s) = some (.int64 (v + addedAll ls)) ∧
    ∀ out, Dumps S.mem out → ∃ D A x, out = .ok D ∧ DescribesAt (w.at S.obj S.mem).reg D A ∧
      look D.values (A.value m.uid (some s)) = some x ∧ ValueShows D A x (S.obj m.uid).m (some s) (.int64 (v + addedAll ls)) := by
  have hq : S.Quiet := fun t ht => ⟨_, hend t ht⟩
  obtain ⟨T, h1, h2, h3⟩ := h.sim hS
  obtain ⟨q1, q2, q3⟩ := h3.quiet hq
  have hcur : (S.obj m.uid).m.cur (some s) = some (.int64 (v + addedAll ls)) := by
    obtain ⟨_, v', ls', hv', hlen, hthr, hsum⟩ := cv_inc_inv hm ht hv h h1
    have hz : ∀ l ∈ ls', l = [] := by
      intro l hl
      obtain ⟨i, hi⟩ := List.getElem?_of_mem hl
      have hlt : i < T.thr.length := by rw [hlen]; exact (List.getElem?_eq_some_iff.1 hi).1
      obtain ⟨l', hl', hinc⟩ := hthr i _ (List.getElem?_eq_getElem hlt)
      obtain rfl := Option.some.inj (hi.symm.trans hl')
      have hmem : T.thr[i] ∈ T.thr := List.getElem_mem hlt
      have hdone : ∀ x ∈ T.thr, x = .out .done := by
        intro x hx
        rw [q3] at hx
        obtain ⟨t, ht1, ht2⟩ := List.mem_map.1 hx
        rw [hend t ht1] at ht2
        exact ht2.symm
      have ht2 := hdone _ hmem
      rcases hinc with hinc | ⟨r, k, hinc, _⟩
      · rw [hinc] at ht2
        cases l with
        | nil => rfl
        | cons y l => cases ht2
      · rw [hinc] at ht2
        cases ht2
    have h0 : ∀ ls : List (List (BitVec 64)), (∀ l ∈ ls, l = []) → addedAll ls = 0 := by
      intro ls hls
      induction ls with
      | nil => rfl
      | cons l ls ih =>
        rw [addedAll, ih fun l hl => hls l (List.mem_cons_of_mem _ hl), hls l (by simp)]
        rfl
    rw [h0 ls' hz] at hsum
    rw [q2, hv', ← hsum]
    simp
  refine ⟨hcur, fun out hd => ?_⟩
  have hslot : some s ∈ (S.obj m.uid).m.slots := by
    apply hasInst_slot
    rw [q2, ← WF.cur_iff (h2.good hm).wf, ← q2, hcur]
    rfl
  obtain ⟨_, hf⟩ := C20_file h hS hq
  obtain ⟨D, A, g1, g2, g3⟩ := hf out hd
  obtain ⟨v', x, r1, r2, r3⟩ := g3 m hm (some s) hslot
  have huid : (S.obj m.uid).m.uid = m.uid := by rw [q2]; exact (h2.same m hm).1
  rw [huid] at r2
  rw [hcur] at r1
  obtain rfl := Option.some.inj r1
  exact ⟨D, A, x, g1, g2, r2, r3⟩

end

theorem cvIncProg_all {P : Nat → Meth → Prop} {uid : Nat} {s : Str} (h : ∀ x, P uid (.cvInc x s)) (l : List (BitVec 64)) :
    (cvIncProg uid s l).All P := by
  induction l with
  | nil => trivial
  | cons x l ih => exact ⟨h x, fun _ => ih⟩

/-- Three goroutines increment the instance "b", with value 1, of the counter vector of the client of `PropsDoc.lean`; all their
executions can end, and then its value is 1 + 1 + 2 + 3 + 4 = 11: the amount -5 is refused. -/
example (F : Flops) (L : Hdr) (h0 : L.H) : ∃ (e : Env) (o : Ord) (w : Live) (m : Metric) (obj : Nat → Obj L.H) (ls : List (List (BitVec 64))),
    m ∈ w.reg.metrics ∧ m.cur (some sB) = some (.int64 1) ∧ Users e o w obj (ls.map (cvIncProg m.uid sB)) ∧
    (∃ S, Runs F L w obj (ls.map (cvIncProg m.uid sB)) S ∧ (∀ t ∈ S.thr, t = .out .done) ∧
      (S.obj m.uid).m.cur (some sB) = some (.int64 11)) := by
  obtain ⟨s, hs⟩ := started_exists docReg_built (publishable_of (by decide)) (by constructor <;> decide) (idOrd_ok _) ⟨2, 77, 12345, 42⟩
  have h := Active.start hs
  obtain ⟨m, hm, ht, hc⟩ : ∃ m ∈ docReg.metrics, m.desc.t = Int64Type ∧ m.cur (some sB) = some (.int64 1) := by decide
  replace hm : m ∈ (⟨docReg, s.mem, s.cells⟩ : Live).reg.metrics := hm
  generalize (⟨docReg, s.mem, s.cells⟩ : Live) = w at h hm
  obtain ⟨σ, hl, _⟩ := h.liveAt
  let obj : Nat → Obj L.H := fun uid => ⟨(w.reg.metrics.find? (fun x => x.uid = uid)).getD m, ⟨false, 0⟩, h0⟩
  have hobj : ∀ x ∈ w.reg.metrics, (obj x.uid).m = x := by
    intro x hx
    show (w.reg.metrics.find? (fun y => y.uid = x.uid)).getD m = x
    cases hf : w.reg.metrics.find? (fun y => y.uid = x.uid) with
    | none => have := List.find?_eq_none.1 hf x hx; simp at this
    | some y =>
      have he := List.find?_some hf
      simp only [decide_eq_true_eq] at he
      exact eq_of_uid hl.ok.metricUid (List.mem_of_find?_eq_some hf) hx he
  have hu : Users ⟨2, 77, 12345, 42⟩ (idOrd docReg) w obj ([[1, 2], [BitVec.ofInt 64 (-5), 3], [4]].map (cvIncProg m.uid sB)) := by
    refine ⟨h, hobj, fun c hcs => ?_⟩
    obtain ⟨l, _, rfl⟩ := List.mem_map.1 hcs
    exact cvIncProg_all (fun x => ⟨m, hm, rfl, trivial, fun h => by cases h⟩) l
  obtain ⟨S, h1, h2⟩ := C20_no_deadlock (F := F) (L := L) (w := w) (obj := obj) (S := LSt.init obj w.mem _) (cs := _) LReach.refl
  have hend : ∀ t ∈ S.thr, t = .out .done := by
    intro t htm
    obtain ⟨c, rfl, hce⟩ := h2 t htm
    obtain ⟨T, t1, _, t3⟩ := hu.sim h1
    obtain ⟨_, v', ls', _, _, hthr, _⟩ := cv_inc_inv hm ht hc hu t1
    obtain ⟨i, hi⟩ := List.getElem?_of_mem htm
    obtain ⟨l, _, hinc⟩ := hthr i _ (t3.outs i c hi).1
    rcases hinc with hinc | ⟨r, k, hinc, _⟩
    · obtain rfl := AThr.out.inj hinc
      cases l with
      | nil => rfl
      | cons x l => exact hce.elim
    · cases hinc
  refine ⟨_, _, w, m, obj, _, hm, hc, hu, S, h1, hend, ?_⟩
  rw [(C20_inc_sum_vector hm ht hc hu h1 hend).1]
  decide

end Speed
