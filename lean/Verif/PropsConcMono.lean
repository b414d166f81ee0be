import Verif.PropsConc
/-
Counters used by several goroutines at once never go backwards (C95).
-/
namespace Speed

open Dump

section
variable {F : Flops} {L : Hdr}

/-- Through its counter interface only (metrics.go:652-662), the metric `uid` is used. -/
def CtrOnly (uid : Nat) (m : Nat) (me : Meth) : Prop :=
  m = uid → me = .counterVal ∨ (∃ x, me = .counterSet x) ∨ ∃ x, me = .counterInc x

/-- In no order of the calls does an increment of the counter `uid` exceed the largest int64. -/
def NoOverflow (F : Flops) (L : Hdr) (w : Live) (obj : Nat → Obj L.H) (cs : List (Cli Ret Meth)) (uid : Nat) : Prop :=
  ∀ T, SReach F L w.upd (ASt.init obj w.mem cs) T → ∀ (i : Nat) x k c, T.thr[i]? = some (.out (.call uid (.counterInc x) k)) →
    (T.obj uid).m.cur none = some (.int64 c) → c.toInt + x.toInt < 2 ^ 63

/-- A goroutine that asks for the counter's value again and again. -/
def pollProg (uid : Nat) : Nat → Cli Ret Meth
  | 0 => .done
  | n + 1 => .call uid .counterVal fun _ => pollProg uid n

/-- The numbers that calls of goroutine `i` have returned, in order. -/
def answers (i : Nat) (log : List (Ev Ret Meth)) : List (BitVec 64) :=
  log.filterMap fun
    | .ret j (.ok (.num x)) => if j = i then some x else none
    | _ => none

def AThr.CtrOnly (uid : Nat) : AThr Ret Meth → Prop
  | .out c => c.All (Speed.CtrOnly uid)
  | .pend _ k => ∀ a, (k a).All (Speed.CtrOnly uid)

/-- The counter has a value not less than `v`. -/
structure MonoInv (uid : Nat) (v c : BitVec 64) (T : ASt L.H Ret Meth) : Prop where
  t : (T.obj uid).m.desc.t = Int64Type
  cur : (T.obj uid).m.cur none = some (.int64 c)
  le : v.toInt ≤ c.toInt
  thr : ∀ t ∈ T.thr, t.CtrOnly uid

theorem MonoInv.step {e o w} {T T' : ASt L.H Ret Meth} {x : Metric} (hx : x ∈ w.reg.metrics) {v c} (h : Tracks e o w T)
    (hno : ∀ (i : Nat) y k, T.thr[i]? = some (.out (.call x.uid (.counterInc y) k)) → c.toInt + y.toInt < 2 ^ 63)
    (hi : MonoInv x.uid v c T) (hs : SStep F L w.upd T T') : ∃ c', MonoInv x.uid v c' T' ∧ c.toInt ≤ c'.toInt := by
  obtain ⟨ht, hv, hle, hthr⟩ := hi
  cases hs with
  | @call i m me k hti =>
    have hall : (Cli.call m me k).All (CtrOnly x.uid) := hthr _ (List.mem_of_getElem? hti)
    have hthr' : ∀ r, ∀ t ∈ T.thr.set i (.pend r k), t.CtrOnly x.uid := fun r => mem_set_of hthr hall.2
    by_cases hmx : m = x.uid
    · subst hmx
      obtain ⟨s1, s2⟩ := h.same x hx
      have hm : (T.obj x.uid).m ∈ (w.at T.obj T.mem).reg.metrics := List.mem_map.2 ⟨x, hx, rfl⟩
      have hg := h.act.good hm
      rw [s1] at hg
      change Good (w.upd x.uid) ⟨(T.obj x.uid).m, T.mem⟩ at hg
      rcases hall.1 rfl with rfl | ⟨y, rfl⟩ | ⟨y, rfl⟩
      · have h1 : counterVal (w.upd x.uid) ⟨(T.obj x.uid).m, T.mem⟩ = (⟨(T.obj x.uid).m, T.mem⟩, .ok c) := by
          unfold counterVal; rw [bind_ok (val_ok hv)]; rfl
        simp only [Meth.spec, lift]
        rw [h1]
        exact ⟨c, ⟨by simpa [fset] using ht, by simpa [fset] using hv, hle, hthr' _⟩, Int.le_refl _⟩
      · obtain ⟨c1, c2⟩ := counterSet_eq hg ht hv y
        simp only [Meth.spec, lift]
        by_cases hy : y.toInt < c.toInt
        · rw [c1 hy]
          exact ⟨c, ⟨by simpa [fset] using ht, by simpa [fset] using hv, hle, hthr' _⟩, Int.le_refl _⟩
        · obtain ⟨b, c3, _⟩ := c2 (by omega)
          rw [c3]
          refine ⟨y, ⟨by simpa [fset, put_desc] using ht, ?_, by omega, hthr' _⟩, by omega⟩
          simp only [fset, if_pos]
          rw [put_cur, if_pos rfl, hv]; rfl
      · obtain ⟨c1, c2⟩ := counterInc_eq hg ht hv y
        have hn := hno i y k hti
        simp only [Meth.spec, lift]
        by_cases hy : y.toInt < 0
        · rw [c1 hy]
          exact ⟨c, ⟨by simpa [fset] using ht, by simpa [fset] using hv, hle, hthr' _⟩, Int.le_refl _⟩
        · obtain ⟨b, c3, _⟩ := c2 (by omega)
          rw [c3]
          have hadd : (c + y).toInt = c.toInt + y.toInt := by
            rw [BitVec.toInt_add]
            have := @BitVec.le_toInt 64 c
            apply Int.bmod_eq_of_le <;> simp only [Nat.reducePow, Int.reducePow] at * <;> omega
          refine ⟨c + y, ⟨by simpa [fset, put_desc] using ht, ?_, by omega, hthr' _⟩, by omega⟩
          simp only [fset, if_pos]
          rw [put_cur, if_pos rfl, hv]; rfl
    · have hne : ¬ x.uid = m := fun h => hmx h.symm
      exact ⟨c, ⟨by simpa [fset, hne] using ht, by simpa [fset, hne] using hv, hle, hthr' _⟩, Int.le_refl _⟩
  | @ret i r k hti =>
    have hk : ∀ a, (k a).All (CtrOnly x.uid) := hthr _ (List.mem_of_getElem? hti)
    exact ⟨c, ⟨ht, hv, hle, mem_set_of hthr (hk r)⟩, Int.le_refl _⟩

/-- What the polling goroutine has seen so far is ascending and not above the counter's value. -/
def PollInv (uid i : Nat) (v c : BitVec 64) (T : ASt L.H Ret Meth) : Prop :=
  ∃ n l, l.Pairwise (fun a b : BitVec 64 => a.toInt ≤ b.toInt) ∧ (∀ a ∈ l, a.toInt ≤ c.toInt) ∧
    ((T.thr[i]? = some (.out (pollProg uid n)) ∧ l = v :: answers i T.log) ∨
      ∃ r, T.thr[i]? = some (.pend (.ok (.num r)) fun _ => pollProg uid n) ∧ l = v :: answers i T.log ++ [r])

theorem PollInv.step {w : Live} {T T' : ASt L.H Ret Meth} {uid i : Nat} {v c c'} (hm : MonoInv uid v c T) (hc : c.toInt ≤ c'.toInt)
    (hp : PollInv uid i v c T) (hs : SStep F L w.upd T T') : PollInv uid i v c' T' := by
  obtain ⟨n, l, h1, h2, h3⟩ := hp
  have h2' : ∀ a ∈ l, a.toInt ≤ c'.toInt := fun a ha => Int.le_trans (h2 a ha) hc
  cases hs with
  | @call j m me k hti =>
    have hans : answers i (T.log ++ [.call j m me]) = answers i T.log := by simp [answers]
    by_cases hj : i = j
    · subst hj
      rcases h3 with ⟨h3, rfl⟩ | ⟨r, h3, _⟩
      · rw [hti] at h3
        cases n with
        | zero => cases h3
        | succ n =>
          simp only [pollProg, Option.some.injEq, AThr.out.injEq, Cli.call.injEq] at h3
          obtain ⟨rfl, rfl, rfl⟩ := h3
          have e1 : counterVal (w.upd m) ⟨(T.obj m).m, T.mem⟩ = (⟨(T.obj m).m, T.mem⟩, .ok c) := by
            unfold counterVal; rw [bind_ok (val_ok hm.cur)]; rfl
          refine ⟨n, v :: answers i T.log ++ [c], ?_, ?_, .inr ⟨c, ?_, ?_⟩⟩
          · rw [List.pairwise_append]
            exact ⟨h1, by simp, fun a ha b hb => by obtain rfl := List.mem_singleton.1 hb; exact h2 a ha⟩
          · intro a ha
            rcases List.mem_append.1 ha with ha | ha
            · exact h2' a ha
            · obtain rfl := List.mem_singleton.1 ha; exact hc
          · dsimp only
            rw [get_set hti, if_pos rfl]
            simp only [Meth.spec, lift]
            rw [e1]
            rfl
          · dsimp only; rw [hans]
      · rw [hti] at h3; cases h3
    · refine ⟨n, l, h1, h2', ?_⟩
      dsimp only
      rw [hans, get_set hti, if_neg hj]
      exact h3
  | @ret j r k hti =>
    by_cases hj : i = j
    · subst hj
      rcases h3 with ⟨h3, _⟩ | ⟨r', h3, rfl⟩
      · rw [hti] at h3; cases h3
      · rw [hti] at h3
        cases h3
        refine ⟨n, _, h1, h2', .inl ⟨?_, ?_⟩⟩
        · dsimp only
          rw [get_set hti, if_pos rfl]
        · simp [answers]
    · have hans : answers i (T.log ++ [.ret j r]) = answers i T.log := by
        have : ¬ j = i := fun h => hj h.symm
        simp only [answers, List.filterMap_append]
        rcases r with (_ | _ | _) | _ | _ <;> simp [this]
      refine ⟨n, l, h1, h2', ?_⟩
      dsimp only
      rw [hans, get_set hti, if_neg hj]
      exact h3

theorem mono_inv {e o w obj cs} {m : Metric} (hm : m ∈ w.reg.metrics) {v : BitVec 64}
    (ht : m.desc.t = Int64Type) (hv : m.cur none = some (.int64 v)) (h : Users (L := L) e o w obj cs)
    (hc : ∀ c ∈ cs, c.All (CtrOnly m.uid)) (hno : NoOverflow F L w obj cs m.uid) {T}
    (hT : SReach F L w.upd (ASt.init obj w.mem cs) T) :
    ∃ c, MonoInv m.uid v c T ∧ ∀ (i : Nat) n, cs[i]? = some (pollProg m.uid n) → PollInv m.uid i v c T := by
  induction hT with
  | refl =>
    refine ⟨v, ⟨by show (obj m.uid).m.desc.t = _; rw [h.obj m hm]; exact ht,
      by show (obj m.uid).m.cur none = _; rw [h.obj m hm]; exact hv, Int.le_refl _, ?_⟩, ?_⟩
    · intro t hmem
      obtain ⟨c, hcs, rfl⟩ := List.mem_map.1 hmem
      exact hc c hcs
    · intro i n hi
      exact ⟨n, [v], by simp, by simp, .inl ⟨by simp [ASt.init, hi], by simp [ASt.init, answers]⟩⟩
  | tail hr hs ih =>
    obtain ⟨c, i1, i2⟩ := ih
    obtain ⟨c', k1, k2⟩ := i1.step hm (hr.tracks h) (fun i y k hi => hno _ hr i y k c hi i1.cur) hs
    exact ⟨c', k1, fun i n hi => (i2 i n hi).step i1 k2 hs⟩

/-- C95: while any number of goroutines use a counter, and no increment overflows in any order of the calls, the
numbers that a goroutine polling it has seen never go down, and none is below the value at the start. -/
theorem C95_poll {e o w obj cs S} {m : Metric} (hm : m ∈ w.reg.metrics) {v : BitVec 64}
    (ht : m.desc.t = Int64Type) (hv : m.cur none = some (.int64 v)) (h : Users (L := L) e o w obj cs)
    (hc : ∀ c ∈ cs, c.All (CtrOnly m.uid)) (hno : NoOverflow F L w obj cs m.uid) (hS : Runs F L w obj cs S)
    {i n : Nat} (hi : cs[i]? = some (pollProg m.uid n)) :
    (v :: answers i S.log).Pairwise fun a b => a.toInt ≤ b.toInt := by
  obtain ⟨T, h1, h2, _⟩ := C20_linearizable h hS
  obtain ⟨c, _, h3⟩ := mono_inv hm ht hv h hc hno h1
  obtain ⟨k, l, p1, _, p3⟩ := h3 i n hi
  rw [h2]
  rcases p3 with ⟨_, rfl⟩ | ⟨r, _, rfl⟩
  · exact p1
  · exact (List.pairwise_append.1 p1).1

/-- C95: and when no goroutine is inside a call, the counter's value, in the metric and in the file, is not below the value at
the start. -/
theorem C95_quiet {e o w obj cs S} {m : Metric} (hm : m ∈ w.reg.metrics) {v : BitVec 64}
    (ht : m.desc.t = Int64Type) (hv : m.cur none = some (.int64 v)) (h : Users (L := L) e o w obj cs)
    (hc : ∀ c ∈ cs, c.All (CtrOnly m.uid)) (hno : NoOverflow F L w obj cs m.uid) (hS : Runs F L w obj cs S)
    (hq : S.Quiet) :
    ∃ c, v.toInt ≤ c.toInt ∧ (S.obj m.uid).m.cur none = some (.int64 c) ∧
      ∀ out, Dumps S.mem out → ∃ D A x, out = .ok D ∧ DescribesAt (w.at S.obj S.mem).reg D A ∧
        look D.values (A.value m.uid none) = some x ∧ ValueShows D A x (S.obj m.uid).m none (.int64 c) := by
  obtain ⟨T, h1, h2, h3⟩ := h.sim hS
  obtain ⟨_, q2, _⟩ := h3.quiet hq
  obtain ⟨c, k1, _⟩ := mono_inv hm ht hv h hc hno h1
  have hcur : (S.obj m.uid).m.cur none = some (.int64 c) := by rw [q2]; exact k1.cur
  refine ⟨c, k1.le, hcur, fun out hd => ?_⟩
  obtain ⟨_, hf⟩ := C20_file h hS hq
  obtain ⟨D, A, g1, g2, g3⟩ := hf out hd
  obtain ⟨v', x, r1, r2, r3⟩ := g3 m hm none (cur_none_slot hcur)
  have huid : (S.obj m.uid).m.uid = m.uid := by rw [q2]; exact (h2.same m hm).1
  rw [huid] at r2
  rw [hcur] at r1
  obtain rfl := Option.some.inj r1
  exact ⟨D, A, x, g1, g2, r2, r3⟩

/-! ### A case -/

/-- One goroutine counts, the other polls. -/
structure CntInv (uid : Nat) (B : Int) (T : ASt L.H Ret Meth) : Prop where
  t : (T.obj uid).m.desc.t = Int64Type
  ex : ∃ c l n, (T.obj uid).m.cur none = some (.int64 c) ∧ (∀ y ∈ l, 0 ≤ y.toInt) ∧ c.toInt + (l.map BitVec.toInt).sum = B ∧
    (∃ t u, T.thr = [t, u] ∧ IncThr uid t l ∧ (u = .out (pollProg uid n) ∨ ∃ r, u = .pend r fun _ => pollProg uid n))

theorem sum_nonneg {l : List (BitVec 64)} (h : ∀ y ∈ l, 0 ≤ y.toInt) : 0 ≤ (l.map BitVec.toInt).sum := by
  induction l with
  | nil => simp
  | cons y l ih =>
    have := ih fun z hz => h z (List.mem_cons_of_mem _ hz)
    have := h y (by simp)
    simp only [List.map_cons, List.sum_cons]
    omega

theorem CntInv.step {e o w} {T T' : ASt L.H Ret Meth} {x : Metric} (hx : x ∈ w.reg.metrics) {B} (hB : B < 2 ^ 63) (h : Tracks e o w T)
    (hi : CntInv x.uid B T) (hs : SStep F L w.upd T T') : CntInv x.uid B T' := by
  obtain ⟨ht, c, l, n, hv, hl, hsum, t, u, hthr, hinc, hpoll⟩ := hi
  cases hs with
  | @call i m me k hti =>
    rw [hthr] at hti
    match i, hti with
    | 0, hti =>
      obtain rfl := Option.some.inj hti
      rcases hinc with hinc | ⟨r, k', hinc, _⟩
      · cases l with
        | nil => cases hinc
        | cons y l =>
          simp only [incProg, AThr.out.injEq, Cli.call.injEq] at hinc
          obtain ⟨rfl, rfl, rfl⟩ := hinc
          obtain ⟨s1, s2⟩ := h.same x hx
          have hm : (T.obj x.uid).m ∈ (w.at T.obj T.mem).reg.metrics := List.mem_map.2 ⟨x, hx, rfl⟩
          have hg := h.act.good hm
          rw [s1] at hg
          change Good (w.upd x.uid) ⟨(T.obj x.uid).m, T.mem⟩ at hg
          obtain ⟨b, c3, _⟩ := (counterInc_eq hg ht hv y).2 (hl y (by simp))
          have hl' : ∀ z ∈ l, 0 ≤ z.toInt := fun z hz => hl z (List.mem_cons_of_mem _ hz)
          have h0 := sum_nonneg hl'
          have h1 := hl y (by simp)
          simp only [List.map_cons, List.sum_cons] at hsum
          have hadd : (c + y).toInt = c.toInt + y.toInt := by
            rw [BitVec.toInt_add]
            have := @BitVec.le_toInt 64 c
            apply Int.bmod_eq_of_le <;> simp only [Nat.reducePow, Int.reducePow] at * <;> omega
          simp only [Meth.spec, lift]
          rw [c3]
          refine ⟨by simpa [fset, put_desc] using ht, c + y, l, n, ?_, hl', by omega, _, u, by rw [hthr]; rfl,
            .inr ⟨_, _, rfl, fun _ => rfl⟩, hpoll⟩
          simp only [fset, if_pos]
          rw [put_cur, if_pos rfl, hv]; rfl
      · cases hinc
    | 1, hti =>
      obtain rfl := Option.some.inj hti
      rcases hpoll with hpoll | ⟨r, hpoll⟩
      · cases n with
        | zero => cases hpoll
        | succ n =>
          simp only [pollProg, AThr.out.injEq, Cli.call.injEq] at hpoll
          obtain ⟨rfl, rfl, rfl⟩ := hpoll
          have e1 : counterVal (w.upd x.uid) ⟨(T.obj x.uid).m, T.mem⟩ = (⟨(T.obj x.uid).m, T.mem⟩, .ok c) := by
            unfold counterVal; rw [bind_ok (val_ok hv)]; rfl
          simp only [Meth.spec, lift]
          rw [e1]
          exact ⟨by simpa [fset] using ht, c, l, n, by simpa [fset] using hv, hl, hsum, t, _, by rw [hthr]; rfl, hinc, .inr ⟨_, rfl⟩⟩
      · cases hpoll
    | i + 2, hti => cases hti
  | @ret i r k hti =>
    rw [hthr] at hti
    match i, hti with
    | 0, hti =>
      obtain rfl := Option.some.inj hti
      rcases hinc with hinc | ⟨r', k', hinc, hk⟩
      · cases hinc
      · cases hinc
        exact ⟨ht, c, l, n, hv, hl, hsum, _, u, by simp only [hthr]; rfl, .inl (by rw [hk]), hpoll⟩
    | 1, hti =>
      obtain rfl := Option.some.inj hti
      rcases hpoll with hpoll | ⟨r', hpoll⟩
      · cases hpoll
      · cases hpoll
        exact ⟨ht, c, l, n, hv, hl, hsum, t, _, by simp only [hthr]; rfl, hinc, .inl rfl⟩
    | i + 2, hti => cases hti

theorem noOverflow_count {e o w obj} {m : Metric} (hm : m ∈ w.reg.metrics) {v : BitVec 64} {l : List (BitVec 64)} {n : Nat}
    (ht : m.desc.t = Int64Type) (hv : m.cur none = some (.int64 v))
    (h : Users (L := L) e o w obj [incProg m.uid l, pollProg m.uid n]) (hl : ∀ y ∈ l, 0 ≤ y.toInt)
    (hB : v.toInt + (l.map BitVec.toInt).sum < 2 ^ 63) :
    NoOverflow F L w obj [incProg m.uid l, pollProg m.uid n] m.uid := by
  intro T hT i x k c hi hc
  have hinv : CntInv m.uid (v.toInt + (l.map BitVec.toInt).sum) T := by
    clear hi hc
    induction hT with
    | refl =>
      exact ⟨by show (obj m.uid).m.desc.t = _; rw [h.obj m hm]; exact ht, v, l, n,
        by show (obj m.uid).m.cur none = _; rw [h.obj m hm]; exact hv, hl, rfl, _, _, rfl, .inl rfl, .inl rfl⟩
    | tail hr hs ih => exact ih.step hm hB (hr.tracks h) hs
  obtain ⟨_, c', l', n', hc', hl', hsum, t, u, hthr, hinc, hpoll⟩ := hinv
  rw [hc] at hc'
  simp only [Option.some.injEq, GoVal.int64.injEq] at hc'
  subst hc'
  rw [hthr] at hi
  match i, hi with
  | 0, hi =>
    obtain rfl := Option.some.inj hi
    rcases hinc with hinc | ⟨_, _, hinc, _⟩
    · cases l' with
      | nil => cases hinc
      | cons y l' =>
        simp only [incProg, AThr.out.injEq, Cli.call.injEq] at hinc
        obtain ⟨_, h2, _⟩ := hinc
        cases h2
        have := sum_nonneg fun z hz => hl' z (List.mem_cons_of_mem _ hz)
        simp only [List.map_cons, List.sum_cons] at hsum
        omega
    · cases hinc
  | 1, hi =>
    obtain rfl := Option.some.inj hi
    rcases hpoll with hpoll | ⟨_, hpoll⟩
    · cases n' with
      | zero => cases hpoll
      | succ n' => cases hpoll
    · cases hpoll
  | i + 2, hi => cases hi

theorem pollProg_all {P : Nat → Meth → Prop} {uid : Nat} (h : P uid .counterVal) (n : Nat) : (pollProg uid n).All P := by
  induction n with
  | zero => trivial
  | succ n ih => exact ⟨h, fun _ => ih⟩

end

/-- One goroutine adds 1 and 2 to the counter of the sample client, whose value is 12, and another asks for the value three times:
in every execution it gets 12 or more each time, and never less than before. -/
example (F : Flops) (L : Hdr) (h0 : L.H) : ∃ (e : Env) (o : Ord) (w : Live) (m : Metric) (obj : Nat → Obj L.H),
    m ∈ w.reg.metrics ∧ m.cur none = some (.int64 12) ∧ Users e o w obj [incProg m.uid [1, 2], pollProg m.uid 3] ∧
    (∃ S, Runs F L w obj [incProg m.uid [1, 2], pollProg m.uid 3] S ∧ S.Quiet) ∧
    ∀ S, Runs F L w obj [incProg m.uid [1, 2], pollProg m.uid 3] S →
      (12#64 :: answers 1 S.log).Pairwise fun a b => a.toInt ≤ b.toInt := by
  obtain ⟨e, o, w, m, _, h, hm, _, _, hc, _⟩ := sample_active
  obtain ⟨σ, hl, _⟩ := h.liveAt
  have ht : m.desc.t = Int64Type := by
    have := hl.typed m hm none _ hc
    rcases this with ⟨_, x, hx⟩ | ⟨_, x, hx⟩ | ⟨_, x, hx⟩ | ⟨_, x, hx⟩ | ⟨_, x, hx⟩ | ⟨_, x, hx⟩ | ⟨_, x, hx⟩ <;>
      first | assumption | cases hx
  let obj : Nat → Obj L.H := fun uid => ⟨(w.reg.metrics.find? (fun x => x.uid = uid)).getD m, ⟨false, 0⟩, h0⟩
  have hobj : ∀ x ∈ w.reg.metrics, (obj x.uid).m = x := by
    intro x hx
    show (w.reg.metrics.find? (fun y => y.uid = x.uid)).getD m = x
    cases hf : w.reg.metrics.find? (fun y => y.uid = x.uid) with
    | none => have := List.find?_eq_none.1 hf x hx; simp at this
    | some y =>
      have he := List.find?_some hf
      simp only [decide_eq_true_eq] at he
      exact eq_of_uid hl.ok.metricUid (List.mem_of_find?_eq_some hf) hx he
  have hind : m.indom = none := by
    unfold Metric.cur at hc
    unfold Metric.indom
    cases hb : m.body with
    | single v => rfl
    | inst d vs => rw [hb] at hc; cases hc
  have hall : ∀ {P : Nat → Meth → Prop}, (∀ x, P m.uid (.counterInc x)) → P m.uid .counterVal →
      ∀ c ∈ [incProg m.uid [1, 2], pollProg m.uid 3], c.All P := by
    intro P p1 p2 c hcs
    rcases List.mem_cons.1 hcs with rfl | hcs
    · exact incProg_all p1 _
    · obtain rfl := List.mem_singleton.1 hcs; exact pollProg_all p2 _
  have hu : Users e o w obj [incProg m.uid [1, 2], pollProg m.uid 3] :=
    ⟨h, hobj, hall (fun x => ⟨m, hm, rfl, trivial, fun _ => hind⟩) ⟨m, hm, rfl, trivial, fun _ => hind⟩⟩
  have hpos : ∀ y ∈ [1#64, 2#64], 0 ≤ y.toInt := by
    intro y hy
    simp only [List.mem_cons, List.not_mem_nil, or_false] at hy
    rcases hy with rfl | rfl <;> decide
  have hsum : (12#64).toInt + ([1#64, 2#64].map BitVec.toInt).sum < 2 ^ 63 := by
    have : (12#64).toInt + ([1#64, 2#64].map BitVec.toInt).sum = 15 := by decide
    rw [this]; decide
  refine ⟨e, o, w, m, obj, hm, hc, hu, ?_, fun S hS => ?_⟩
  · obtain ⟨S, h1, h2⟩ := C20_no_deadlock (F := F) (L := L) (w := w) (obj := obj) (S := LSt.init obj w.mem _) (cs := _) LReach.refl
    exact ⟨S, h1, fun t htm => by obtain ⟨c, rfl, _⟩ := h2 t htm; exact ⟨c, rfl⟩⟩
  · exact C95_poll hm ht hc hu (hall (fun x _ => .inr (.inr ⟨x, rfl⟩)) (fun _ => .inl rfl))
      (noOverflow_count (l := [1, 2]) (n := 3) hm ht hc hu hpos hsum) hS (i := 1) (n := 3) rfl

end Speed
