import Verif.PropsConcMonoVec
/-
What different goroutines see of one counter (C95): the order of their calls is the order of the values.
-/
namespace Speed

open Dump

section
variable {F : Flops} {L : Hdr}

/-- The goroutine of an event. -/
def Ev.who : Ev Ret Meth → Nat
  | .call i _ _ => i
  | .ret i _ => i

/-- The call of goroutine `i` that is event `p` of the history ends with event `q`: `i` does nothing between them. -/
def EndsAt (log : List (Ev Ret Meth)) (i p q : Nat) : Prop :=
  p < q ∧ ∀ k ev, p < k → k < q → log[k]? = some ev → ev.who ≠ i

/-- `g p` is the value after the first `p` events, and what the operation `rd` of `uid` answers. -/
structure OrdInv (uid : Nat) (rd : Meth) (v c : BitVec 64) (g : Nat → BitVec 64) (T : ASt L.H Ret Meth) : Prop where
  mono : ∀ p q, p ≤ q → q ≤ T.log.length → (g p).toInt ≤ (g q).toInt
  first : g 0 = v
  last : g T.log.length = c
  pend : ∀ (i : Nat) r k, T.thr[i]? = some (.pend r k) → ∃ p m me, T.log[p]? = some (.call i m me) ∧
    (∀ q ev, p < q → T.log[q]? = some ev → ev.who ≠ i) ∧ (m = uid → me = rd → r = .ok (.num (g p)))
  done : ∀ i p q a, T.log[p]? = some (.call i uid rd) → T.log[q]? = some (.ret i a) → EndsAt T.log i p q →
    a = .ok (.num (g p))

theorem get_snoc {X : Type} {l : List X} {e x : X} {p : Nat} : (l ++ [e])[p]? = some x ↔ l[p]? = some x ∨ (p = l.length ∧ x = e) := by
  rw [List.getElem?_append]
  split
  · rename_i h
    exact ⟨.inl, fun h' => h'.elim id fun h' => absurd h'.1 (by omega)⟩
  · rename_i h
    rw [List.getElem?_eq_none (l := l) (by omega)]
    by_cases hp : p = l.length
    · subst hp; simp [eq_comm]
    · simp only [hp, false_and, or_false, reduceCtorEq, iff_false]
      rw [List.getElem?_eq_none (by simp; omega)]
      simp

theorem OrdInv.step {w : Live} {T T' : ASt L.H Ret Meth} {uid : Nat} {rd : Meth} {v c c' g}
    (hm : (rd.spec F L (w.upd uid) (T.obj uid) T.mem).2.2 = .ok (.num c)) (hc : c.toInt ≤ c'.toInt)
    (hi : OrdInv uid rd v c g T) (hs : SStep F L w.upd T T') : ∃ g', OrdInv uid rd v c' g' T' := by
  obtain ⟨h1, h2, h3, h4, h5⟩ := hi
  refine ⟨fun p => if p ≤ T.log.length then g p else c', ?_⟩
  have hg : ∀ p, p ≤ T.log.length → (if p ≤ T.log.length then g p else c') = g p := fun p hp => if_pos hp
  have hmono : ∀ p q, p ≤ q → q ≤ T.log.length + 1 →
      (if p ≤ T.log.length then g p else c').toInt ≤ (if q ≤ T.log.length then g q else c').toInt := by
    intro p q hpq hq
    by_cases hq' : q ≤ T.log.length
    · rw [if_pos hq', if_pos (by omega)]; exact h1 p q hpq hq'
    · rw [if_neg hq']
      by_cases hp' : p ≤ T.log.length
      · rw [if_pos hp']
        have := h1 p _ hp' (Nat.le_refl _)
        rw [h3] at this
        omega
      · rw [if_neg hp']
  have hends : ∀ {ev i p q}, q ≤ T.log.length → EndsAt (T.log ++ [ev]) i p q → EndsAt T.log i p q := by
    intro ev i p q _ ⟨e1, e2⟩
    exact ⟨e1, fun k ev' k1 k2 k3 => e2 k ev' k1 k2 (get_snoc.2 (.inl k3))⟩
  cases hs with
  | @call i m me k hti =>
    refine ⟨by simpa using hmono, by simpa using h2, by simp, ?_, ?_⟩
    · intro j r k' hj
      dsimp only at hj
      rw [get_set hti] at hj
      by_cases hji : j = i
      · subst hji
        rw [if_pos rfl] at hj
        cases hj
        refine ⟨T.log.length, m, me, get_snoc.2 (.inr ⟨rfl, rfl⟩), ?_, ?_⟩
        · intro q ev hq hev
          rcases get_snoc.1 hev with hev | ⟨rfl, _⟩
          · have := lt_of_get hev; omega
          · omega
        · rintro rfl rfl
          rw [hm, if_pos (Nat.le_refl _), h3]
      · rw [if_neg hji] at hj
        obtain ⟨p, m', me', p1, p2, p3⟩ := h4 j r k' hj
        refine ⟨p, m', me', get_snoc.2 (.inl p1), ?_, ?_⟩
        · intro q ev hq hev
          rcases get_snoc.1 hev with hev | ⟨_, rfl⟩
          · exact p2 q ev hq hev
          · exact fun h => hji h.symm
        · intro a b
          rw [hg p (Nat.le_of_lt (lt_of_get p1))]
          exact p3 a b
    · intro j p q a hp hq he
      rcases get_snoc.1 hq with hq | ⟨_, hq⟩
      · have hlt := lt_of_get hq
        have hpq := he.1
        rcases get_snoc.1 hp with hp | ⟨rfl, _⟩
        · rw [hg p (by omega)]
          exact h5 j p q a hp hq (hends (by omega) he)
        · omega
      · cases hq
  | @ret i r k hti =>
    refine ⟨by simpa using hmono, by simpa using h2, by simp, ?_, ?_⟩
    · intro j r' k' hj
      dsimp only at hj
      rw [get_set hti] at hj
      by_cases hji : j = i
      · rw [if_pos hji] at hj; cases hj
      · rw [if_neg hji] at hj
        obtain ⟨p, m', me', p1, p2, p3⟩ := h4 j r' k' hj
        refine ⟨p, m', me', get_snoc.2 (.inl p1), ?_, ?_⟩
        · intro q ev hq hev
          rcases get_snoc.1 hev with hev | ⟨_, rfl⟩
          · exact p2 q ev hq hev
          · exact fun h => hji h.symm
        · intro a b
          rw [hg p (Nat.le_of_lt (lt_of_get p1))]
          exact p3 a b
    · intro j p q a hp hq he
      have hpq := he.1
      have hqle : q ≤ T.log.length := by have := lt_of_get hq; simp only [List.length_append, List.length_singleton] at this; omega
      rcases get_snoc.1 hp with hp | ⟨rfl, _⟩
      · rw [hg p (by omega)]
        rcases get_snoc.1 hq with hq | ⟨hqn, hq2⟩
        · exact h5 j p q a hp hq (hends hqle he)
        · subst hqn
          cases hq2
          obtain ⟨p0, m', me', p1, p2, p3⟩ := h4 _ _ k hti
          have hpp : p = p0 := by
            rcases Nat.lt_trichotomy p p0 with h | h | h
            · exact absurd rfl (he.2 p0 _ h (lt_of_get p1) (get_snoc.2 (.inl p1)))
            · exact h
            · exact absurd rfl (p2 p _ h hp)
          subst hpp
          rw [hp] at p1
          cases p1
          exact p3 rfl rfl
      · omega

theorem ord_inv {e o w obj cs} {m : Metric} (hm : m ∈ w.reg.metrics) {v : BitVec 64}
    (ht : m.desc.t = Int64Type) (hv : m.cur none = some (.int64 v)) (h : Users (L := L) e o w obj cs)
    (hc : ∀ c ∈ cs, c.All (CtrOnly m.uid)) (hno : NoOverflow F L w obj cs m.uid) {T}
    (hT : SReach F L w.upd (ASt.init obj w.mem cs) T) : ∃ c g, MonoInv m.uid v c T ∧ OrdInv m.uid .counterVal v c g T := by
  induction hT with
  | refl =>
    obtain ⟨c, k1, _⟩ := mono_inv hm ht hv h hc hno .refl
    have hcv : c = v := by
      have := k1.cur
      change (obj m.uid).m.cur none = _ at this
      rw [h.obj m hm, hv] at this
      simpa using this.symm
    subst hcv
    refine ⟨c, fun _ => c, k1, fun _ _ _ _ => Int.le_refl _, rfl, rfl, ?_, ?_⟩
    · intro i r k hi
      simp only [ASt.init, List.getElem?_map, Option.map_eq_some_iff] at hi
      obtain ⟨_, _, hi⟩ := hi
      cases hi
    · intro i p q a hp
      simp [ASt.init] at hp
  | @tail T _ hr hs ih =>
    obtain ⟨c, g, i1, i2⟩ := ih
    obtain ⟨c', k1, k2⟩ := i1.step hm (hr.tracks h) (fun i y k hi => hno _ hr i y k c hi i1.cur) hs
    have e1 : counterVal (w.upd m.uid) ⟨(T.obj m.uid).m, T.mem⟩ = (⟨(T.obj m.uid).m, T.mem⟩, .ok c) := by
      unfold counterVal; rw [bind_ok (val_ok i1.cur)]; rfl
    obtain ⟨g', k3⟩ := i2.step (by simp only [Meth.spec, lift]; rw [e1]; rfl) k2 hs
    exact ⟨c', g', k1, k3⟩

/-- C95: of two calls of `Val`, by any goroutines, the one that gets the lock second gives no smaller number, and the first
gives no smaller one than the value at the start. (A call that begins after another has returned gets the lock after it.) -/
theorem C95_order {e o w obj cs S} {m : Metric} (hm : m ∈ w.reg.metrics) {v : BitVec 64}
    (ht : m.desc.t = Int64Type) (hv : m.cur none = some (.int64 v)) (h : Users (L := L) e o w obj cs)
    (hc : ∀ c ∈ cs, c.All (CtrOnly m.uid)) (hno : NoOverflow F L w obj cs m.uid) (hS : Runs F L w obj cs S)
    {i j p q p' q' : Nat} {a b : Ans Ret}
    (hp : S.log[p]? = some (.call i m.uid .counterVal)) (hq : S.log[q]? = some (.ret i a)) (he : EndsAt S.log i p q)
    (hp' : S.log[p']? = some (.call j m.uid .counterVal)) (hq' : S.log[q']? = some (.ret j b)) (he' : EndsAt S.log j p' q')
    (hpp : p ≤ p') : ∃ x y, a = .ok (.num x) ∧ b = .ok (.num y) ∧ v.toInt ≤ x.toInt ∧ x.toInt ≤ y.toInt := by
  obtain ⟨T, h1, h2, _⟩ := C20_linearizable h hS
  obtain ⟨c, g, _, k⟩ := ord_inv hm ht hv h hc hno h1
  rw [h2] at hp hq he hp' hq' he'
  refine ⟨g p, g p', k.done i p q a hp hq he, k.done j p' q' b hp' hq' he', ?_, k.mono p p' hpp (Nat.le_of_lt (lt_of_get hp'))⟩
  rw [← k.first]
  exact k.mono 0 p (Nat.zero_le _) (Nat.le_of_lt (lt_of_get hp))

theorem cv_ord_inv {e o w obj cs} {m : Metric} (hm : m ∈ w.reg.metrics) {s : Str} {v : BitVec 64}
    (ht : m.desc.t = Int64Type) (hv : m.cur (some s) = some (.int64 v)) (h : Users (L := L) e o w obj cs)
    (hc : ∀ c ∈ cs, c.All (CvOnly m.uid)) (hno : CvNoOverflow F L w obj cs m.uid s) {T}
    (hT : SReach F L w.upd (ASt.init obj w.mem cs) T) : ∃ c g, CvMonoInv m.uid s v c T ∧ OrdInv m.uid (.cvVal s) v c g T := by
  induction hT with
  | refl =>
    obtain ⟨c, k1, _⟩ := cv_mono_inv hm ht hv h hc hno .refl
    have hcv : c = v := by
      have := k1.cur
      change (obj m.uid).m.cur (some s) = _ at this
      rw [h.obj m hm, hv] at this
      simpa using this.symm
    subst hcv
    refine ⟨c, fun _ => c, k1, fun _ _ _ _ => Int.le_refl _, rfl, rfl, ?_, ?_⟩
    · intro i r k hi
      simp only [ASt.init, List.getElem?_map, Option.map_eq_some_iff] at hi
      obtain ⟨_, _, hi⟩ := hi
      cases hi
    · intro i p q a hp
      simp [ASt.init] at hp
  | @tail T _ hr hs ih =>
    obtain ⟨c, g, i1, i2⟩ := ih
    obtain ⟨c', k1, k2⟩ := i1.step hm (hr.tracks h) (fun i y k hi => hno _ hr i y k c hi i1.cur) hs
    have e1 : cvVal s (w.upd m.uid) ⟨(T.obj m.uid).m, T.mem⟩ = (⟨(T.obj m.uid).m, T.mem⟩, .ok c) := by
      unfold cvVal; rw [bind_ok (valInstance_ok ((hr.tracks h).good hm).wf i1.cur)]; rfl
    obtain ⟨g', k3⟩ := i2.step (by simp only [Meth.spec, lift]; rw [e1]; rfl) k2 hs
    exact ⟨c', g', k1, k3⟩

/-- C95: the same for calls of `Val` for one instance of a counter vector. -/
theorem C95_vector_order {e o w obj cs S} {m : Metric} (hm : m ∈ w.reg.metrics) {s : Str} {v : BitVec 64}
    (ht : m.desc.t = Int64Type) (hv : m.cur (some s) = some (.int64 v)) (h : Users (L := L) e o w obj cs)
    (hc : ∀ c ∈ cs, c.All (CvOnly m.uid)) (hno : CvNoOverflow F L w obj cs m.uid s) (hS : Runs F L w obj cs S)
    {i j p q p' q' : Nat} {a b : Ans Ret}
    (hp : S.log[p]? = some (.call i m.uid (.cvVal s))) (hq : S.log[q]? = some (.ret i a)) (he : EndsAt S.log i p q)
    (hp' : S.log[p']? = some (.call j m.uid (.cvVal s))) (hq' : S.log[q']? = some (.ret j b)) (he' : EndsAt S.log j p' q')
    (hpp : p ≤ p') : ∃ x y, a = .ok (.num x) ∧ b = .ok (.num y) ∧ v.toInt ≤ x.toInt ∧ x.toInt ≤ y.toInt := by
  obtain ⟨T, h1, h2, _⟩ := C20_linearizable h hS
  obtain ⟨c, g, _, k⟩ := cv_ord_inv hm ht hv h hc hno h1
  rw [h2] at hp hq he hp' hq' he'
  refine ⟨g p, g p', k.done i p q a hp hq he, k.done j p' q' b hp' hq' he', ?_, k.mono p p' hpp (Nat.le_of_lt (lt_of_get hp'))⟩
  rw [← k.first]
  exact k.mono 0 p (Nat.zero_le _) (Nat.le_of_lt (lt_of_get hp))

/-! ### A case -/

/-- Two goroutines that call `Val` once: one possible history is that the second gets the lock after the first has returned. -/
theorem two_vals {w : Live} {obj : Nat → Obj L.H} {uid : Nat} {v : BitVec 64} (hv : (obj uid).m.cur none = some (.int64 v)) :
    ∃ S, Runs F L w obj [pollProg uid 1, pollProg uid 1] S ∧
      S.log = [.call 0 uid .counterVal, .ret 0 (.ok (.num v)), .call 1 uid .counterVal, .ret 1 (.ok (.num v))] := by
  have hstep : ∀ (o : Obj L.H) (mem : Buf), o.m.cur none = some (.int64 v) →
      (Meth.counterVal.body F L (w.fixed uid)).step (w.upd uid) o mem = some (.ret (.ok (.num v)), o, mem) := by
    intro o mem ho
    show some _ = _
    rw [ho]
    rfl
  refine ⟨_, .tail (.tail (.tail (.tail (.tail (.tail .refl
    (.rlock (i := 0) (n := 0) rfl rfl rfl))
    (.access (i := 0) rfl (hstep _ _ hv)))
    (.runlock (i := 0) (n := 0) rfl (by simp [fset])))
    (.rlock (i := 1) (n := 0) rfl rfl (by simp [fset])))
    (.access (i := 1) rfl (hstep _ _ (by simpa [fset, LSt.init] using hv))))
    (.runlock (i := 1) (n := 0) rfl (by simp [fset])), rfl⟩

/-- The same for an instance of a counter vector. -/
theorem two_cvVals {w : Live} {obj : Nat → Obj L.H} {uid : Nat} {s : Str} {v : BitVec 64} (hh : (w.fixed uid).has s = true)
    (hv : (obj uid).m.cur (some s) = some (.int64 v)) :
    ∃ S, Runs F L w obj [cvPollProg uid s 1, cvPollProg uid s 1] S ∧
      S.log = [.call 0 uid (.cvVal s), .ret 0 (.ok (.num v)), .call 1 uid (.cvVal s), .ret 1 (.ok (.num v))] := by
  have hstep : ∀ (o : Obj L.H) (mem : Buf), o.m.cur (some s) = some (.int64 v) →
      ((Meth.cvVal s).body F L (w.fixed uid)).step (w.upd uid) o mem = some (.ret (.ok (.num v)), o, mem) := by
    intro o mem ho
    simp only [Meth.body, cvValP, valInstanceP, hh]
    show some _ = _
    rw [ho]
    rfl
  refine ⟨_, .tail (.tail (.tail (.tail (.tail (.tail .refl
    (.rlock (i := 0) (n := 0) rfl rfl rfl))
    (.access (i := 0) rfl (hstep _ _ hv)))
    (.runlock (i := 0) (n := 0) rfl (by simp [fset])))
    (.rlock (i := 1) (n := 0) rfl rfl (by simp [fset])))
    (.access (i := 1) rfl (hstep _ _ (by simpa [fset, LSt.init] using hv))))
    (.runlock (i := 1) (n := 0) rfl (by simp [fset])), rfl⟩

end

/-- The theorem about that history. -/
example {F : Flops} {L : Hdr} {e o w} {obj : Nat → Obj L.H} {m : Metric} (hm : m ∈ w.reg.metrics) (ht : m.desc.t = Int64Type) {v : BitVec 64}
    (hv : m.cur none = some (.int64 v)) (h : Users e o w obj [pollProg m.uid 1, pollProg m.uid 1]) :
    ∃ S a b, Runs F L w obj [pollProg m.uid 1, pollProg m.uid 1] S ∧ S.log[1]? = some (.ret 0 a) ∧ S.log[3]? = some (.ret 1 b) ∧
      ∃ x y, a = .ok (.num x) ∧ b = .ok (.num y) ∧ v.toInt ≤ x.toInt ∧ x.toInt ≤ y.toInt := by
  obtain ⟨S, hS, hlog⟩ := two_vals (F := F) (L := L) (w := w) (obj := obj) (uid := m.uid) (v := v) (by rw [h.obj m hm]; exact hv)
  have hall : ∀ {P : Nat → Meth → Prop}, P m.uid .counterVal → ∀ c ∈ [pollProg m.uid 1, pollProg m.uid 1], c.All P := by
    intro P hP c hc
    simp only [List.mem_cons, List.not_mem_nil, or_false, or_self] at hc
    subst hc
    exact pollProg_all hP 1
  refine ⟨S, _, _, hS, by rw [hlog]; rfl, by rw [hlog]; rfl, ?_⟩
  refine C95_order hm ht hv h (hall fun _ => .inl rfl) ?_ hS (i := 0) (j := 1) (p := 0) (q := 1) (p' := 2) (q' := 3)
    (by rw [hlog]; rfl) (by rw [hlog]; rfl) ⟨by decide, fun k _ h1 h2 => by omega⟩ (by rw [hlog]; rfl) (by rw [hlog]; rfl)
    ⟨by decide, fun k _ h1 h2 => by omega⟩ (by decide)
  intro T hT i x k c hi _
  have : ∀ t ∈ T.thr, (∀ c, t = .out c → c.All fun _ me => me = .counterVal) ∧
      ∀ r k, t = .pend r k → ∀ a, (k a).All fun _ me => me = .counterVal := hT.all (hall rfl)
  have h1 := (this _ (List.mem_of_getElem? hi)).1 _ rfl
  cases h1.1

/-- The theorem about the history of two goroutines that read an instance. -/
example {F : Flops} {L : Hdr} {e o w} {obj : Nat → Obj L.H} {m : Metric} (hm : m ∈ w.reg.metrics) (ht : m.desc.t = Int64Type) {s : Str}
    {v : BitVec 64} (hh : (w.fixed m.uid).has s = true) (hv : m.cur (some s) = some (.int64 v))
    (h : Users e o w obj [cvPollProg m.uid s 1, cvPollProg m.uid s 1]) :
    ∃ S a b, Runs F L w obj [cvPollProg m.uid s 1, cvPollProg m.uid s 1] S ∧ S.log[1]? = some (.ret 0 a) ∧
      S.log[3]? = some (.ret 1 b) ∧ ∃ x y, a = .ok (.num x) ∧ b = .ok (.num y) ∧ v.toInt ≤ x.toInt ∧ x.toInt ≤ y.toInt := by
  obtain ⟨S, hS, hlog⟩ := two_cvVals (F := F) (L := L) (w := w) (obj := obj) (uid := m.uid) (v := v) hh (by rw [h.obj m hm]; exact hv)
  have hall : ∀ {P : Nat → Meth → Prop}, P m.uid (.cvVal s) → ∀ c ∈ [cvPollProg m.uid s 1, cvPollProg m.uid s 1], c.All P := by
    intro P hP c hc
    simp only [List.mem_cons, List.not_mem_nil, or_false, or_self] at hc
    subst hc
    exact cvPollProg_all hP 1
  refine ⟨S, _, _, hS, by rw [hlog]; rfl, by rw [hlog]; rfl, ?_⟩
  refine C95_vector_order hm ht hv h (hall fun _ => ⟨s, .inl rfl⟩) ?_ hS (i := 0) (j := 1) (p := 0) (q := 1) (p' := 2) (q' := 3)
    (by rw [hlog]; rfl) (by rw [hlog]; rfl) ⟨by decide, fun k _ h1 h2 => by omega⟩ (by rw [hlog]; rfl) (by rw [hlog]; rfl)
    ⟨by decide, fun k _ h1 h2 => by omega⟩ (by decide)
  intro T hT i x k c hi _
  have := (hT.all (P := fun _ me => me = .cvVal s) (hall rfl) _ (List.mem_of_getElem? hi)).1 _ rfl
  cases this.1

end Speed
