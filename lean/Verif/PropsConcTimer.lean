import Verif.PropsConcOrder
/-
Timers used by several goroutines at once (C96).
-/
namespace Speed

open Dump

section
variable {F : Flops} {L : Hdr}

/-- What `Start` and `Stop` answer, if the timer runs (`b`) before and (`b'`) after the call. -/
def TimAns : Meth → Bool → Bool → Ans Ret → Prop
  | .timerStart _, b, b', a => a = (if b then .err else .ok .unit) ∧ b' = true
  | .timerStop _, b, b', a => (b = false → a = .err) ∧ ∀ r, a = .ok r → b = true ∧ b' = false
  | _, b, b', _ => b' = b

/-- One call, when nothing else runs. -/
theorem timAns_spec (me : Meth) (u : Upd) (o : Obj L.H) (b : Buf) :
    TimAns me o.ts.started (me.spec F L u o b).1.ts.started (me.spec F L u o b).2.2 ∧
    (o.ts.started = true → (me.spec F L u o b).1.ts.started = false → ∃ now, me = .timerStop now) ∧
    (o.ts.started = false → (me.spec F L u o b).1.ts.started = true → ∃ now, me = .timerStart now) := by
  have triv : ∀ {c d : Bool}, d = c → (c = true → d = false → ∃ now, me = .timerStop now) ∧ (c = false → d = true → ∃ now, me = .timerStart now) := by
    rintro c d rfl
    exact ⟨fun h1 h2 => by simp_all, fun h1 h2 => by simp_all⟩
  cases me with
  | timerStart now =>
    cases hs : o.ts.started with
    | true =>
      have : timerStart now o.ts u ⟨o.m, b⟩ = (⟨o.m, b⟩, .err) := by unfold timerStart; rw [if_pos hs]; rfl
      simp only [Meth.spec, this, TimAns]
      exact ⟨⟨rfl, hs⟩, fun _ h => (by rw [hs] at h; cases h), fun h => by cases h⟩
    | false =>
      have : timerStart now o.ts u ⟨o.m, b⟩ = (⟨o.m, b⟩, .ok ⟨true, now⟩) := by unfold timerStart; rw [if_neg (by simp [hs])]; rfl
      simp only [Meth.spec, this, TimAns]
      exact ⟨⟨rfl, by first | rfl | trivial⟩, fun h => (by cases h), fun _ _ => ⟨now, rfl⟩⟩
  | timerStop now =>
    cases hs : o.ts.started with
    | false =>
      have : timerStop F now o.ts u ⟨o.m, b⟩ = (⟨o.m, b⟩, .err) := by unfold timerStop; rw [if_pos hs]; rfl
      simp only [Meth.spec, this, TimAns]
      exact ⟨⟨fun _ => (by first | rfl | trivial), fun _ h => by cases h⟩, fun h => (by cases h), fun _ h => by rw [hs] at h; cases h⟩
    | true =>
      refine ⟨⟨fun h => (by cases h), ?_⟩, fun _ _ => ⟨now, rfl⟩, fun h => by cases h⟩
      intro r hr
      refine ⟨rfl, ?_⟩
      simp only [Meth.spec] at hr ⊢
      have key : ∀ st x, timerStop F now o.ts u ⟨o.m, b⟩ = (st, .ok x) → x.1.started = false := by
        intro st x hx
        unfold timerStop at hx
        rw [if_neg (by simp [hs])] at hx
        unfold MOp.bind at hx
        split at hx
        · dsimp only at hx
          split at hx
          · cases hx; rfl
          · cases hx
          · cases hx
        · cases hx
        · cases hx
      split at hr
      · rename_i st ts x heq
        exact key _ _ heq
      · cases hr
      · cases hr
  | _ => exact ⟨rfl, triv rfl⟩

/-- `f p` tells whether the timer runs after the first `p` events. -/
structure TimInv (uid : Nat) (b : Bool) (f : Nat → Bool) (T : ASt L.H Ret Meth) : Prop where
  first : f 0 = b
  last : f T.log.length = (T.obj uid).ts.started
  fall : ∀ p, p < T.log.length → f p = true → f (p + 1) = false → ∃ i now, T.log[p]? = some (.call i uid (.timerStop now))
  rise : ∀ p, p < T.log.length → f p = false → f (p + 1) = true → ∃ i now, T.log[p]? = some (.call i uid (.timerStart now))
  up : ∀ p i now, T.log[p]? = some (.call i uid (.timerStart now)) → f (p + 1) = true
  pend : ∀ (i : Nat) r k, T.thr[i]? = some (.pend r k) → ∃ p m me, T.log[p]? = some (.call i m me) ∧
    (∀ q ev, p < q → T.log[q]? = some ev → ev.who ≠ i) ∧ (m = uid → TimAns me (f p) (f (p + 1)) r)
  done : ∀ i p q me a, T.log[p]? = some (.call i uid me) → T.log[q]? = some (.ret i a) → EndsAt T.log i p q →
    TimAns me (f p) (f (p + 1)) a

theorem TimInv.step {w : Live} {T T' : ASt L.H Ret Meth} {uid : Nat} {b f} (hi : TimInv uid b f T) (hs : SStep F L w.upd T T') :
    ∃ f', TimInv uid b f' T' := by
  obtain ⟨h1, h2, h3, h4, hu, h5, h6⟩ := hi
  refine ⟨fun p => if p ≤ T.log.length then f p else (T'.obj uid).ts.started, ?_⟩
  have hg : ∀ {x : Bool} p, p ≤ T.log.length → (if p ≤ T.log.length then f p else x) = f p := fun p hp => if_pos hp
  have hn : ∀ {x : Bool}, (if T.log.length + 1 ≤ T.log.length then f (T.log.length + 1) else x) = x := if_neg (by omega)
  have hends : ∀ {ev i p q}, EndsAt (T.log ++ [ev]) i p q → EndsAt T.log i p q := by
    intro ev i p q ⟨e1, e2⟩
    exact ⟨e1, fun k ev' k1 k2 k3 => e2 k ev' k1 k2 (get_snoc.2 (.inl k3))⟩
  have hold : ∀ {x : Bool} {i r k}, T.thr[i]? = some (.pend r k) → ∀ ev : Ev Ret Meth, ev.who ≠ i → ∃ p m me, (T.log ++ [ev])[p]? = some (.call i m me) ∧
      (∀ q ev', p < q → (T.log ++ [ev])[q]? = some ev' → ev'.who ≠ i) ∧
      (m = uid → TimAns me (if p ≤ T.log.length then f p else x) (if p + 1 ≤ T.log.length then f (p + 1) else x) r) := by
    intro x i r k hj ev hev
    obtain ⟨p, m', me', p1, p2, p3⟩ := h5 i r k hj
    have hlt := lt_of_get p1
    refine ⟨p, m', me', get_snoc.2 (.inl p1), ?_, ?_⟩
    · intro q ev' hq hev'
      rcases get_snoc.1 hev' with hev' | ⟨_, rfl⟩
      · exact p2 q ev' hq hev'
      · exact hev
    · rw [hg p (by omega), hg (p + 1) (by omega)]
      exact p3
  cases hs with
  | @call i m me k hti =>
    have hts : (fset T.obj m (me.spec F L (w.upd m) (T.obj m) T.mem).1 uid).ts.started =
        if uid = m then (me.spec F L (w.upd m) (T.obj m) T.mem).1.ts.started else (T.obj uid).ts.started := by
      unfold fset; split <;> rfl
    obtain ⟨s1, s2, s3⟩ := timAns_spec (F := F) me (w.upd m) (T.obj m) T.mem
    refine ⟨by simpa using h1, by simp, ?_, ?_, ?_, ?_, ?_⟩
    · intro p hp e1 e2
      simp only [List.length_append, List.length_singleton] at hp
      dsimp only at e1 e2 ⊢
      rw [hg p (by omega)] at e1
      by_cases hpn : p = T.log.length
      · subst hpn
        rw [hn, hts] at e2
        rw [h2] at e1
        by_cases hum : uid = m
        · subst hum
          rw [if_pos rfl] at e2
          obtain ⟨now, rfl⟩ := s2 e1 e2
          exact ⟨i, now, get_snoc.2 (.inr ⟨rfl, rfl⟩)⟩
        · rw [if_neg hum, e1] at e2; cases e2
      · rw [hg (p + 1) (by omega)] at e2
        obtain ⟨j, now, h⟩ := h3 p (by omega) e1 e2
        exact ⟨j, now, get_snoc.2 (.inl h)⟩
    · intro p hp e1 e2
      simp only [List.length_append, List.length_singleton] at hp
      dsimp only at e1 e2 ⊢
      rw [hg p (by omega)] at e1
      by_cases hpn : p = T.log.length
      · subst hpn
        rw [hn, hts] at e2
        rw [h2] at e1
        by_cases hum : uid = m
        · subst hum
          rw [if_pos rfl] at e2
          obtain ⟨now, rfl⟩ := s3 e1 e2
          exact ⟨i, now, get_snoc.2 (.inr ⟨rfl, rfl⟩)⟩
        · rw [if_neg hum, e1] at e2; cases e2
      · rw [hg (p + 1) (by omega)] at e2
        obtain ⟨j, now, h⟩ := h4 p (by omega) e1 e2
        exact ⟨j, now, get_snoc.2 (.inl h)⟩
    · intro p j now hp
      rcases get_snoc.1 hp with hp | ⟨rfl, hp2⟩
      · have := lt_of_get hp
        rw [hg (p + 1) (by omega)]
        exact hu p j now hp
      · cases hp2
        rw [hn, hts, if_pos rfl]
        exact s1.2
    · intro j r k' hj
      dsimp only at hj
      rw [get_set hti] at hj
      by_cases hji : j = i
      · subst hji
        rw [if_pos rfl] at hj
        cases hj
        refine ⟨T.log.length, m, me, get_snoc.2 (.inr ⟨rfl, rfl⟩), ?_, ?_⟩
        · intro q ev hq hev
          rcases get_snoc.1 hev with hev | ⟨rfl, _⟩
          · have := lt_of_get hev; omega
          · omega
        · rintro rfl
          rw [hn, hg _ (Nat.le_refl _), h2, hts, if_pos rfl]
          exact s1
      · rw [if_neg hji] at hj
        exact hold hj _ (fun h => hji h.symm)
    · intro j p q me' a hp hq he
      rcases get_snoc.1 hq with hq | ⟨_, hq⟩
      · have hlt := lt_of_get hq
        have hpq := he.1
        rcases get_snoc.1 hp with hp | ⟨rfl, _⟩
        · rw [hg p (by omega), hg (p + 1) (by omega)]
          exact h6 j p q me' a hp hq (hends he)
        · omega
      · cases hq
  | @ret i r k hti =>
    refine ⟨by simpa using h1, by simp, ?_, ?_, ?_, ?_, ?_⟩
    · intro p hp e1 e2
      simp only [List.length_append, List.length_singleton] at hp
      dsimp only at e1 e2 ⊢
      rw [hg p (by omega)] at e1
      by_cases hpn : p = T.log.length
      · subst hpn
        rw [hn, ← h2, e1] at e2
        cases e2
      · rw [hg (p + 1) (by omega)] at e2
        obtain ⟨j, now, h⟩ := h3 p (by omega) e1 e2
        exact ⟨j, now, get_snoc.2 (.inl h)⟩
    · intro p hp e1 e2
      simp only [List.length_append, List.length_singleton] at hp
      dsimp only at e1 e2 ⊢
      rw [hg p (by omega)] at e1
      by_cases hpn : p = T.log.length
      · subst hpn
        rw [hn, ← h2, e1] at e2
        cases e2
      · rw [hg (p + 1) (by omega)] at e2
        obtain ⟨j, now, h⟩ := h4 p (by omega) e1 e2
        exact ⟨j, now, get_snoc.2 (.inl h)⟩
    · intro p j now hp
      rcases get_snoc.1 hp with hp | ⟨rfl, hp2⟩
      · have := lt_of_get hp
        rw [hg (p + 1) (by omega)]
        exact hu p j now hp
      · cases hp2
    · intro j r' k' hj
      dsimp only at hj
      rw [get_set hti] at hj
      by_cases hji : j = i
      · rw [if_pos hji] at hj; cases hj
      · rw [if_neg hji] at hj
        exact hold hj _ (fun h => hji h.symm)
    · intro j p q me' a hp hq he
      have hpq := he.1
      have hqle : q ≤ T.log.length := by have := lt_of_get hq; simp only [List.length_append, List.length_singleton] at this; omega
      rcases get_snoc.1 hp with hp | ⟨rfl, _⟩
      · rw [hg p (by omega), hg (p + 1) (by omega)]
        rcases get_snoc.1 hq with hq | ⟨hqn, hq2⟩
        · exact h6 j p q me' a hp hq (hends he)
        · subst hqn
          cases hq2
          obtain ⟨p0, m', me0, p1, p2, p3⟩ := h5 _ _ k hti
          have hpp : p = p0 := by
            rcases Nat.lt_trichotomy p p0 with h | h | h
            · exact absurd rfl (he.2 p0 _ h (lt_of_get p1) (get_snoc.2 (.inl p1)))
            · exact h
            · exact absurd rfl (p2 p _ h hp)
          subst hpp
          rw [hp] at p1
          cases p1
          exact p3 rfl
      · omega

theorem tim_inv {w : Live} {obj : Nat → Obj L.H} {cs} {uid : Nat} {T} (hT : SReach F L w.upd (ASt.init obj w.mem cs) T) :
    ∃ f, TimInv uid (obj uid).ts.started f T := by
  induction hT with
  | refl =>
    refine ⟨fun _ => (obj uid).ts.started, rfl, rfl, ?_, ?_, ?_, ?_, ?_⟩
    · intro p hp; simp [ASt.init] at hp
    · intro p hp; simp [ASt.init] at hp
    · intro p i now hp; simp [ASt.init] at hp
    · intro i r k hi
      simp only [ASt.init, List.getElem?_map, Option.map_eq_some_iff] at hi
      obtain ⟨_, _, hi⟩ := hi
      cases hi
    · intro i p q me a hp
      simp [ASt.init] at hp
  | tail _ hs ih =>
    obtain ⟨f, h⟩ := ih
    exact h.step hs

/-- A Boolean sequence with different values at two places changes between them. -/
theorem bool_change {f : Nat → Bool} {b : Bool} {p q : Nat} (hpq : p ≤ q) (hp : f p = b) (hq : f q = !b) :
    ∃ k, p ≤ k ∧ k < q ∧ f k = b ∧ f (k + 1) = !b := by
  induction q with
  | zero =>
    obtain rfl : p = 0 := by omega
    rw [hp] at hq
    cases b <;> cases hq
  | succ q ih =>
    by_cases h : p = q + 1
    · subst h; rw [hp] at hq; cases b <;> cases hq
    · cases hb : f q == b with
      | true => exact ⟨q, by omega, by omega, by simpa using hb, hq⟩
      | false =>
        obtain ⟨k, k1, k2, k3, k4⟩ := ih (by omega) (by cases b <;> cases hf : f q <;> simp_all)
        exact ⟨k, k1, by omega, k3, k4⟩

/-- C96: between two successful calls of `Start` of a timer, by any goroutines, there is a call of `Stop`. -/
theorem C96_start {e o w obj cs S} (h : Users (L := L) e o w obj cs) (hS : Runs F L w obj cs S) {uid i j p q p' q' : Nat}
    {n n' : BitVec 64} {a b : Ret}
    (hp : S.log[p]? = some (.call i uid (.timerStart n))) (hq : S.log[q]? = some (.ret i (.ok a))) (he : EndsAt S.log i p q)
    (hp' : S.log[p']? = some (.call j uid (.timerStart n'))) (hq' : S.log[q']? = some (.ret j (.ok b))) (he' : EndsAt S.log j p' q')
    (hpp : p < p') : ∃ k i' now, p < k ∧ k < p' ∧ S.log[k]? = some (.call i' uid (.timerStop now)) := by
  obtain ⟨T, h1, h2, _⟩ := C20_linearizable h hS
  obtain ⟨f, k⟩ := tim_inv (uid := uid) h1
  rw [h2] at hp hq he hp' hq' he' ⊢
  have a1 := k.done i p q _ _ hp hq he
  have a2 := k.done j p' q' _ _ hp' hq' he'
  have b2 : f p' = false := by
    cases hf : f p' with
    | false => rfl
    | true => rw [hf] at a2; exact absurd a2.1 (by simp)
  obtain ⟨x, x1, x2, x3, x4⟩ := bool_change (b := true) (p := p + 1) (q := p') (by omega) a1.2 b2
  obtain ⟨i', now, hx⟩ := k.fall x (by have := lt_of_get hp'; omega) x3 x4
  exact ⟨x, i', now, by omega, x2, hx⟩

/-- C96: and between two successful calls of `Stop` a call of `Start`. -/
theorem C96_stop {e o w obj cs S} (h : Users (L := L) e o w obj cs) (hS : Runs F L w obj cs S) {uid i j p q p' q' : Nat}
    {n n' : BitVec 64} {a b : Ret}
    (hp : S.log[p]? = some (.call i uid (.timerStop n))) (hq : S.log[q]? = some (.ret i (.ok a))) (he : EndsAt S.log i p q)
    (hp' : S.log[p']? = some (.call j uid (.timerStop n'))) (hq' : S.log[q']? = some (.ret j (.ok b))) (he' : EndsAt S.log j p' q')
    (hpp : p < p') : ∃ k i' now, p < k ∧ k < p' ∧ S.log[k]? = some (.call i' uid (.timerStart now)) := by
  obtain ⟨T, h1, h2, _⟩ := C20_linearizable h hS
  obtain ⟨f, k⟩ := tim_inv (uid := uid) h1
  rw [h2] at hp hq he hp' hq' he' ⊢
  have a1 := (k.done i p q _ _ hp hq he).2 _ rfl
  have a2 := (k.done j p' q' _ _ hp' hq' he').2 _ rfl
  obtain ⟨x, x1, x2, x3, x4⟩ := bool_change (b := false) (p := p + 1) (q := p') (by omega) a1.2 a2.1
  obtain ⟨i', now, hx⟩ := k.rise x (by have := lt_of_get hp'; omega) x3 x4
  exact ⟨x, i', now, by omega, x2, hx⟩

/-- C96: the first call of `Start` of a timer that does not run succeeds, and every later one before a call of `Stop` fails: of any
number of goroutines that start a timer at the same time exactly one succeeds. -/
theorem C96_one {e o w obj cs S} (h : Users (L := L) e o w obj cs) (hS : Runs F L w obj cs S) {uid i p q : Nat}
    {n : BitVec 64} {a : Ans Ret} (hs : (obj uid).ts.started = false)
    (hno : ∀ k i' now, k < p → S.log[k]? ≠ some (.call i' uid (.timerStop now)))
    (hp : S.log[p]? = some (.call i uid (.timerStart n))) (hq : S.log[q]? = some (.ret i a)) (he : EndsAt S.log i p q) :
    ((∀ k i' now, k < p → S.log[k]? ≠ some (.call i' uid (.timerStart now))) → a = .ok .unit) ∧
    (∀ k i' now, k < p → S.log[k]? = some (.call i' uid (.timerStart now)) → a = .err) := by
  obtain ⟨T, h1, h2, _⟩ := C20_linearizable h hS
  obtain ⟨f, g⟩ := tim_inv (uid := uid) h1
  rw [h2] at hp hq he hno ⊢
  have a1 := g.done i p q _ _ hp hq he
  have hlt := lt_of_get hp
  refine ⟨fun hf => ?_, fun k i' now hk hst => ?_⟩
  · have : f p = false := by
      cases hfp : f p with
      | false => rfl
      | true =>
        obtain ⟨x, x1, x2, x3, x4⟩ := bool_change (b := false) (p := 0) (q := p) (Nat.zero_le _) (g.first.trans hs) hfp
        obtain ⟨i', now, hx⟩ := g.rise x (by omega) x3 x4
        exact absurd hx (hf x i' now x2)
    rw [this] at a1
    exact a1.1
  · have b1 := g.up k i' now hst
    have : f p = true := by
      cases hfp : f p with
      | true => rfl
      | false =>
        obtain ⟨x, x1, x2, x3, x4⟩ := bool_change (b := true) (p := k + 1) (q := p) (by omega) b1 hfp
        obtain ⟨i', now, hx⟩ := g.fall x (by omega) x3 x4
        exact absurd hx (hno x i' now x2)
    rw [this] at a1
    exact a1.1

/-- A goroutine that calls `Start` once. -/
def timerProg (uid : Nat) (now : BitVec 64) : Cli Ret Meth := .call uid (.timerStart now) fun _ => .done

/-- Two of them: one possible history. -/
theorem two_starts {w : Live} {obj : Nat → Obj L.H} {uid : Nat} {n n' : BitVec 64} (hs : (obj uid).ts.started = false) :
    ∃ S, Runs F L w obj [timerProg uid n, timerProg uid n'] S ∧
      S.log = [.call 0 uid (.timerStart n), .ret 0 (.ok .unit), .call 1 uid (.timerStart n'), .ret 1 .err] := by
  have h0 : ∀ (o : Obj L.H) (mem : Buf), o.ts.started = false →
      ((Meth.timerStart n).body F L (w.fixed uid)).step (w.upd uid) o mem =
        some (.setTs ⟨true, n⟩ (.ret (.ok .unit)), o, mem) := by
    intro o mem ho
    simp only [Meth.body, timerStartP, MProc.unit, MProc.bind, MProc.step]
    rw [ho]
    rfl
  have h1 : ∀ (o : Obj L.H) (mem : Buf), o.ts.started = true →
      ((Meth.timerStart n').body F L (w.fixed uid)).step (w.upd uid) o mem = some (.ret .err, o, mem) := by
    intro o mem ho
    simp only [Meth.body, timerStartP, MProc.unit, MProc.bind, MProc.step]
    rw [ho]
    rfl
  refine ⟨_, .tail (.tail (.tail (.tail (.tail (.tail (.tail .refl
    (.lock (i := 0) rfl rfl rfl))
    (.access (i := 0) rfl (h0 _ _ hs)))
    (.access (i := 0) rfl rfl))
    (.unlock (i := 0) rfl))
    (.lock (i := 1) rfl rfl (by simp [fset])))
    (.access (i := 1) rfl (h1 _ _ (by simp [fset]))))
    (.unlock (i := 1) rfl), rfl⟩

end

/-- The theorem about that history: the first call succeeds, the second fails. -/
example {F : Flops} {L : Hdr} {e o w} {obj : Nat → Obj L.H} {uid : Nat} (hs : (obj uid).ts.started = false)
    (h : Users e o w obj [timerProg uid 5, timerProg uid 7]) :
    ∃ S a b, Runs F L w obj [timerProg uid 5, timerProg uid 7] S ∧ S.log[1]? = some (.ret 0 a) ∧ S.log[3]? = some (.ret 1 b) ∧
      a = .ok .unit ∧ b = .err := by
  obtain ⟨S, hS, hlog⟩ := two_starts (F := F) (L := L) (w := w) (obj := obj) (n := 5) (n' := 7) hs
  refine ⟨S, _, _, hS, by rw [hlog]; rfl, by rw [hlog]; rfl, ?_, ?_⟩
  · refine (C96_one h hS (i := 0) (p := 0) (q := 1) hs (fun k _ _ hk => by omega) (by rw [hlog]; rfl) (by rw [hlog]; rfl)
      ⟨by decide, fun k _ h1 h2 => by omega⟩).1 (fun k _ _ hk => by omega)
  · refine (C96_one h hS (i := 1) (p := 2) (q := 3) hs ?_ (by rw [hlog]; rfl) (by rw [hlog]; rfl)
      ⟨by decide, fun k _ h1 h2 => by omega⟩).2 0 0 5 (by decide) (by rw [hlog]; rfl)
    intro k i' now hk
    rw [hlog]
    match k, hk with
    | 0, _ => intro h; cases h
    | 1, _ => intro h; cases h

/-- It is not possible that two goroutines call `Start` one after the other and both succeed. -/
example {F : Flops} {L : Hdr} {e o w} {obj : Nat → Obj L.H} {cs S} (h : Users e o w obj cs) (hS : Runs F L w obj cs S) :
    S.log ≠ [.call 0 4 (.timerStart 5), .ret 0 (.ok .unit), .call 1 4 (.timerStart 7), .ret 1 (.ok .unit)] := by
  intro hlog
  obtain ⟨k, i', now, h1, h2, h3⟩ := C96_start h hS (uid := 4) (i := 0) (j := 1) (p := 0) (q := 1) (p' := 2) (q' := 3)
    (by rw [hlog]; rfl) (by rw [hlog]; rfl) ⟨by decide, fun k _ h1 h2 => by omega⟩ (by rw [hlog]; rfl) (by rw [hlog]; rfl)
    ⟨by decide, fun k _ h1 h2 => by omega⟩ (by decide)
  obtain rfl : k = 1 := by omega
  rw [hlog] at h3
  cases h3

/-- It is not possible that two goroutines call `Stop` one after the other and both succeed. -/
example {F : Flops} {L : Hdr} {e o w} {obj : Nat → Obj L.H} {cs S} (h : Users e o w obj cs) (hS : Runs F L w obj cs S) :
    S.log ≠ [.call 0 4 (.timerStop 5), .ret 0 (.ok (.num 3)), .call 1 4 (.timerStop 7), .ret 1 (.ok (.num 3))] := by
  intro hlog
  obtain ⟨k, i', now, h1, h2, h3⟩ := C96_stop h hS (uid := 4) (i := 0) (j := 1) (p := 0) (q := 1) (p' := 2) (q' := 3)
    (by rw [hlog]; rfl) (by rw [hlog]; rfl) ⟨by decide, fun k _ h1 h2 => by omega⟩ (by rw [hlog]; rfl) (by rw [hlog]; rfl)
    ⟨by decide, fun k _ h1 h2 => by omega⟩ (by decide)
  obtain rfl : k = 1 := by omega
  rw [hlog] at h3
  cases h3

end Speed
