import Verif.MutexLive
import Verif.MutexProgress
import Verif.PropsClient
/-
Concurrent use of metrics (C20): linearizability, absence of data races and deadlocks.
-/
namespace Speed

open Dump

section
variable {F : Flops} {L : Hdr}

/-- Goroutines running the programs `cs` on the metrics of the active client `w` can reach `S`. -/
def Runs (F : Flops) (L : Hdr) (w : Live) (obj : Nat → Obj L.H) (cs : List (Cli Ret Meth)) (S : LSt L.H Ret Meth) : Prop :=
  LReach (meths F L w.fixed) w.upd (LSt.init obj w.mem cs) S

/-- The situation of this file: an active client; `obj` are its metrics with their timer and histogram states; the
programs are well typed. -/
structure Users (e : Env) (o : Ord) (w : Live) (obj : Nat → Obj L.H) (cs : List (Cli Ret Meth)) : Prop where
  act : Active e o w
  obj : ∀ x ∈ w.reg.metrics, (obj x.uid).m = x
  typed : ∀ c ∈ cs, c.All w.Calls

theorem Users.sim {e o w obj cs S} (h : Users (L := L) e o w obj cs) (hS : Runs F L w obj cs S) :
    ∃ T, SReach F L w.upd (ASt.init obj w.mem cs) T ∧ Tracks e o w T ∧ Sim (meths F L w.fixed) w.upd w.region S T := by
  obtain ⟨T, h1, h2⟩ := LReach.sim (Rg := w.region) (fun _ _ _ => h.act.region_disj)
    (fun c hc => (h.typed c hc).mono fun _ _ => h.act.safe) hS
  obtain ⟨h3, h4⟩ := AReach.spec h.act h.obj h.typed h1
  exact ⟨T, h3, h4, h2⟩

/-- C20: every execution of any number of goroutines that call operations of metrics is an execution in which
each call takes effect at one instant between its start and its return, as if nothing else ran: the history
of calls, returns and results is the same, each goroutine has the same rest of its program to run, and when
no goroutine is inside a call, the metrics and the mapped file are the same. (The cases at the end of this file are instances of
this theorem and of the following ones.) -/
theorem C20_linearizable {e o w obj cs S} (h : Users (L := L) e o w obj cs) (hS : Runs F L w obj cs S) :
    ∃ T, SReach F L w.upd (ASt.init obj w.mem cs) T ∧ S.log = T.log ∧ S.thr.length = T.thr.length ∧
      (∀ (i : Nat) c, S.thr[i]? = some (.out c) → T.thr[i]? = some (.out c)) ∧
      (∀ (i : Nat) m wr p k, S.thr[i]? = some (.inn m wr p k) → ∃ r, T.thr[i]? = some (.pend r k)) ∧
      (S.Quiet → S.mem = T.mem ∧ S.obj = T.obj) := by
  obtain ⟨T, h1, _, h2⟩ := h.sim hS
  refine ⟨T, h1, h2.log, h2.count, fun i c hi => (h2.outs i c hi).1, fun i m wr p k hi => ⟨_, (h2.inns i m wr p k hi).1⟩,
    fun hq => ?_⟩
  obtain ⟨q1, q2, _⟩ := h2.quiet hq
  exact ⟨q1, q2⟩

/-- C20: when no goroutine is inside a call, the state is one that a single goroutine can reach by calls, so
everything proved about such states holds: in particular the file shows the values. -/
theorem C20_file {e o w obj cs S} (h : Users (L := L) e o w obj cs) (hS : Runs F L w obj cs S) (hq : S.Quiet) :
    Active e o (w.at S.obj S.mem) ∧
    ∀ out, Dumps S.mem out → ∃ D A, out = .ok D ∧ DescribesAt (w.at S.obj S.mem).reg D A ∧
      ∀ m ∈ w.reg.metrics, ∀ s ∈ (S.obj m.uid).m.slotNames, ∃ v x, (S.obj m.uid).m.cur s = some v ∧
        look D.values (A.value (S.obj m.uid).m.uid s) = some x ∧ ValueShows D A x (S.obj m.uid).m s v := by
  obtain ⟨T, _, h1, h2⟩ := h.sim hS
  obtain ⟨q1, q2, _⟩ := h2.quiet hq
  have hact : Active e o (w.at S.obj S.mem) := by rw [q1, q2]; exact h1.act
  refine ⟨hact, fun out hd => ?_⟩
  obtain ⟨σ, hl, hi⟩ := hact.liveAt
  obtain ⟨D, h1, _, h3⟩ := hl.dump hi hd
  exact ⟨D, _, h1, h3, fun m hm s hs => h3.values _ (List.mem_map.2 ⟨m, hm, rfl⟩) s hs⟩

/-- C20: there is no data race. Two goroutines are never about to access the same field or byte of the file
while one of them is about to write it. -/
theorem C20_race_free {e o w obj cs S} (h : Users (L := L) e o w obj cs) (hS : Runs F L w obj cs S)
    {i j : Nat} (hij : i ≠ j) {m m' : Nat} {wr wr' : Bool} {p p' : MProc L.H Ret} {k k'}
    (hi : S.thr[i]? = some (.inn m wr p k)) (hj : S.thr[j]? = some (.inn m' wr' p' k'))
    {l : MLoc} {x x' : Bool} (ha : p.acc m = some (l, x)) (ha' : p'.acc m' = some (l, x')) : x = false ∧ x' = false := by
  obtain ⟨T, _, _, h2⟩ := h.sim hS
  exact h2.race_free (Rg := w.region) (fun _ _ _ => h.act.region_disj) hij hi hj ha ha'

/-- C20: there is no deadlock. From every state that can be reached, all goroutines can end. -/
theorem C20_no_deadlock {w : Live} {obj cs S} (hS : Runs F L w obj cs S) :
    ∃ S', LReach (meths F L w.fixed) w.upd S S' ∧ ∀ t ∈ S'.thr, ∃ c, t = .out c ∧ c.Ended :=
  ((LockOK.init obj w.mem cs).reach hS).toEnd

/-! ### Increments -/

/-- A goroutine that calls `Inc` with each of `l`. -/
def incProg (uid : Nat) : List (BitVec 64) → Cli Ret Meth
  | [] => .done
  | x :: l => .call uid (.counterInc x) fun _ => incProg uid l

/-- What it adds: the sum of the arguments that are not negative (`Inc` rejects the others). -/
def added : List (BitVec 64) → BitVec 64
  | [] => 0
  | x :: l => (if x.toInt < 0 then 0 else x) + added l

def addedAll : List (List (BitVec 64)) → BitVec 64
  | [] => 0
  | l :: ls => added l + addedAll ls

theorem addedAll_set {ls : List (List (BitVec 64))} {i : Nat} {x : BitVec 64} {l : List (BitVec 64)} (h : ls[i]? = some (x :: l)) :
    addedAll ls = (if x.toInt < 0 then 0 else x) + addedAll (ls.set i l) := by
  induction ls generalizing i with
  | nil => cases h
  | cons a ls ih =>
    cases i with
    | zero =>
      obtain rfl := Option.some.inj h
      simp only [List.set_cons_zero, addedAll, added]
      rw [BitVec.add_assoc]
    | succ i =>
      simp only [List.set_cons_succ, addedAll]
      rw [ih (i := i) h]
      ac_rfl

/-- The rest of an incrementing goroutine. -/
def IncThr (uid : Nat) (t : AThr Ret Meth) (l : List (BitVec 64)) : Prop :=
  t = .out (incProg uid l) ∨ ∃ r k, t = .pend r k ∧ ∀ a, k a = incProg uid l

structure IncInv (w : Live) (uid : Nat) (total : BitVec 64) (T : ASt L.H Ret Meth) : Prop where
  t : (T.obj uid).m.desc.t = Int64Type
  sum : ∃ v ls, (T.obj uid).m.cur none = some (.int64 v) ∧ T.thr.length = ls.length ∧
    (∀ (i : Nat) t, T.thr[i]? = some t → ∃ l, ls[i]? = some l ∧ IncThr uid t l) ∧ v + addedAll ls = total

theorem IncInv.step {e o w} {T T' : ASt L.H Ret Meth} {x : Metric} (hx : x ∈ w.reg.metrics) {total} (h : Tracks e o w T)
    (hi : IncInv w x.uid total T) (hs : SStep F L w.upd T T') : IncInv w x.uid total T' := by
  obtain ⟨ht, v, ls, hv, hlen, hthr, hsum⟩ := hi
  cases hs with
  | @call i m me k hti =>
    obtain ⟨l, hl, hinc⟩ := hthr i _ hti
    rcases hinc with hinc | ⟨r, k', hinc, _⟩
    · cases l with
      | nil => cases hinc
      | cons y l =>
        simp only [incProg, AThr.out.injEq, Cli.call.injEq] at hinc
        obtain ⟨rfl, rfl, rfl⟩ := hinc
        obtain ⟨s1, s2⟩ := h.same x hx
        have hm : (T.obj x.uid).m ∈ (w.at T.obj T.mem).reg.metrics := List.mem_map.2 ⟨x, hx, rfl⟩
        have hg := h.act.good hm
        rw [s1] at hg
        change Good (w.upd x.uid) ⟨(T.obj x.uid).m, T.mem⟩ at hg
        obtain ⟨c1, c2⟩ := counterInc_eq hg ht hv y
        have hthr' : ∀ r (j : Nat) t, (T.thr.set i (.pend r fun _ => incProg x.uid l))[j]? = some t →
            ∃ l', (ls.set i l)[j]? = some l' ∧ IncThr x.uid t l' := by
          intro r j t hj
          rw [get_set hti] at hj
          rw [get_set hl]
          split at hj
          · rw [if_pos (by assumption)]
            exact ⟨l, rfl, .inr ⟨_, _, (Option.some.inj hj).symm, fun _ => rfl⟩⟩
          · rw [if_neg (by assumption)]; exact hthr j t hj
        have hset := addedAll_set hl
        simp only [Meth.spec, lift]
        by_cases hy : y.toInt < 0
        · rw [c1 hy]
          rw [if_pos hy] at hset
          refine ⟨by simpa [fset] using ht, v, ls.set i l, by simpa [fset] using hv, by simp [hlen], hthr' _, ?_⟩
          rw [← hsum, hset]; simp
        · obtain ⟨b, c3, _⟩ := c2 (by omega)
          rw [c3]
          rw [if_neg hy] at hset
          refine ⟨by simpa [fset, put_desc] using ht, v + y, ls.set i l, ?_, by simp [hlen], hthr' _, ?_⟩
          · simp only [fset, if_pos]
            rw [put_cur, if_pos rfl, hv]; rfl
          · rw [← hsum, hset, BitVec.add_assoc]
    · cases hinc
  | @ret i r k hti =>
    refine ⟨ht, v, ls, hv, by simpa using hlen, ?_, hsum⟩
    intro j t hj
    dsimp only at hj
    rw [get_set hti] at hj
    split at hj
    · rename_i hji
      subst hji
      obtain ⟨l, hl, hinc⟩ := hthr j _ hti
      rcases hinc with hinc | ⟨r', k', hinc, hk⟩
      · cases hinc
      · cases hinc
        exact ⟨l, hl, .inl ((Option.some.inj hj).symm.trans (by rw [hk]))⟩
    · exact hthr j t hj

theorem SReach.tracks {e o w obj cs} {T : ASt L.H Ret Meth} (h : Users e o w obj cs) (hT : SReach F L w.upd (ASt.init obj w.mem cs) T) :
    Tracks e o w T := by
  induction hT with
  | refl => exact Tracks.init h.act h.obj h.typed
  | tail _ hs ih =>
    cases hs with
    | @call i m me k hi =>
      have hcall : (Cli.call m me k).All w.Calls := ih.thr _ (List.mem_of_getElem? hi)
      exact (ih.call (F := F) hcall.1).2 _ _ (mem_set_of ih.thr hcall.2)
    | @ret i r k hi =>
      have hk : ∀ a, (k a).All w.Calls := ih.thr _ (List.mem_of_getElem? hi)
      exact ⟨ih.act, ih.same, mem_set_of ih.thr (hk r)⟩

theorem inc_inv {e o w obj ls} {m : Metric} (hm : m ∈ w.reg.metrics) {v : BitVec 64}
    (ht : m.desc.t = Int64Type) (hv : m.cur none = some (.int64 v)) (h : Users (L := L) e o w obj (ls.map (incProg m.uid))) {T}
    (hT : SReach F L w.upd (ASt.init obj w.mem (ls.map (incProg m.uid))) T) : IncInv w m.uid (v + addedAll ls) T := by
  induction hT with
  | refl =>
    refine ⟨by show (obj m.uid).m.desc.t = _; rw [h.obj m hm]; exact ht, v, ls,
      by show (obj m.uid).m.cur none = _; rw [h.obj m hm]; exact hv, by simp [ASt.init], ?_, rfl⟩
    intro i t hi
    simp only [ASt.init, List.map_map, List.getElem?_map, Option.map_eq_some_iff] at hi
    obtain ⟨l, hl, rfl⟩ := hi
    exact ⟨l, hl, .inl rfl⟩
  | tail hr hs ih => exact ih.step hm (hr.tracks h) hs

/-- C20: if any number of goroutines increment a counter concurrently, then when all have ended its value is
the initial value plus all increments, modulo 2^64, and the file shows it. -/
theorem C20_inc_sum {e o w obj ls S} {m : Metric} (hm : m ∈ w.reg.metrics) {v : BitVec 64}
    (ht : m.desc.t = Int64Type) (hv : m.cur none = some (.int64 v))
    (h : Users (L := L) e o w obj (ls.map (incProg m.uid))) (hS : Runs F L w obj (ls.map (incProg m.uid)) S)
    (hend : ∀ t ∈ S.thr, t = .out .done) :
    (S.obj m.uid).m.cur none = some (.int64 (v + addedAll ls)) ∧
    ∀ out, Dumps S.mem out → ∃ D A x, out = .ok D ∧ DescribesAt (w.at S.obj S.mem).reg D A ∧
      look D.values (A.value m.uid none) = some x ∧ ValueShows D A x (S.obj m.uid).m none (.int64 (v + addedAll ls)) := by
  have hq : S.Quiet := fun t ht => ⟨_, hend t ht⟩
  obtain ⟨T, h1, h2, h3⟩ := h.sim hS
  obtain ⟨q1, q2, q3⟩ := h3.quiet hq
  have hcur : (S.obj m.uid).m.cur none = some (.int64 (v + addedAll ls)) := by
    obtain ⟨_, v', ls', hv', hlen, hthr, hsum⟩ := inc_inv hm ht hv h h1
    have hz : ∀ l ∈ ls', l = [] := by
      intro l hl
      obtain ⟨i, hi⟩ := List.getElem?_of_mem hl
      have hlt : i < T.thr.length := by rw [hlen]; exact (List.getElem?_eq_some_iff.1 hi).1
      obtain ⟨l', hl', hinc⟩ := hthr i _ (List.getElem?_eq_getElem hlt)
      obtain rfl := Option.some.inj (hi.symm.trans hl')
      have hmem : T.thr[i] ∈ T.thr := List.getElem_mem hlt
      have hdone : ∀ x ∈ T.thr, x = .out .done := by
        intro x hx
        rw [q3] at hx
        obtain ⟨t, ht1, ht2⟩ := List.mem_map.1 hx
        rw [hend t ht1] at ht2
        exact ht2.symm
      have ht2 := hdone _ hmem
      rcases hinc with hinc | ⟨r, k, hinc, _⟩
      · rw [hinc] at ht2
        cases l with
        | nil => rfl
        | cons y l => cases ht2
      · rw [hinc] at ht2
        cases ht2
    have h0 : ∀ ls : List (List (BitVec 64)), (∀ l ∈ ls, l = []) → addedAll ls = 0 := by
      intro ls hls
      induction ls with
      | nil => rfl
      | cons l ls ih =>
        rw [addedAll, ih fun l hl => hls l (List.mem_cons_of_mem _ hl), hls l (by simp)]
        rfl
    rw [h0 ls' hz] at hsum
    rw [q2, hv', ← hsum]
    simp
  refine ⟨hcur, fun out hd => ?_⟩
  obtain ⟨_, hf⟩ := C20_file h hS hq
  obtain ⟨D, A, g1, g2, g3⟩ := hf out hd
  obtain ⟨v', x, r1, r2, r3⟩ := g3 m hm none (cur_none_slot hcur)
  have huid : (S.obj m.uid).m.uid = m.uid := by rw [q2]; exact (h2.same m hm).1
  rw [huid] at r2
  rw [hcur] at r1
  obtain rfl := Option.some.inj r1
  exact ⟨D, A, x, g1, g2, r2, r3⟩

end

/-! ### A case -/

theorem incProg_all {P : Nat → Meth → Prop} {uid : Nat} (h : ∀ x, P uid (.counterInc x)) (l : List (BitVec 64)) : (incProg uid l).All P := by
  induction l with
  | nil => trivial
  | cons x l ih => exact ⟨h x, fun _ => ih⟩

/-- Three goroutines increment the counter of the sample client; all their executions can end; and when they
have, the counter is 12 + 1 + 2 + 3 + 2^63 - 1 = -2^63 + 17, modulo 2^64. -/
example (F : Flops) (L : Hdr) (h0 : L.H) : ∃ (e : Env) (o : Ord) (w : Live) (m : Metric) (obj : Nat → Obj L.H) (ls : List (List (BitVec 64))),
    m ∈ w.reg.metrics ∧ m.desc.t = Int64Type ∧ m.cur none = some (.int64 12) ∧ Users e o w obj (ls.map (incProg m.uid)) ∧
    (∃ S, Runs F L w obj (ls.map (incProg m.uid)) S ∧ ∀ t ∈ S.thr, t = .out .done) ∧
    12#64 + addedAll ls = BitVec.ofInt 64 (-9223372036854775808 + 17) := by
  obtain ⟨e, o, w, m, _, h, hm, _, _, hc, _⟩ := sample_active
  obtain ⟨σ, hl, _⟩ := h.liveAt
  have ht : m.desc.t = Int64Type := by
    have := hl.typed m hm none _ hc
    rcases this with ⟨_, x, hx⟩ | ⟨_, x, hx⟩ | ⟨_, x, hx⟩ | ⟨_, x, hx⟩ | ⟨_, x, hx⟩ | ⟨_, x, hx⟩ | ⟨_, x, hx⟩ <;>
      first | assumption | cases hx
  let obj : Nat → Obj L.H := fun uid => ⟨(w.reg.metrics.find? (fun x => x.uid = uid)).getD m, ⟨false, 0⟩, h0⟩
  have hobj : ∀ x ∈ w.reg.metrics, (obj x.uid).m = x := by
    intro x hx
    show (w.reg.metrics.find? (fun y => y.uid = x.uid)).getD m = x
    cases hf : w.reg.metrics.find? (fun y => y.uid = x.uid) with
    | none => have := List.find?_eq_none.1 hf x hx; simp at this
    | some y =>
      have he := List.find?_some hf
      simp only [decide_eq_true_eq] at he
      exact eq_of_uid hl.ok.metricUid (List.mem_of_find?_eq_some hf) hx he
  have hind : m.indom = none := by
    unfold Metric.cur at hc
    unfold Metric.indom
    cases hb : m.body with
    | single v => rfl
    | inst d vs => rw [hb] at hc; cases hc
  have hu : Users e o w obj ([[1, 2], [BitVec.ofInt 64 (-5), 3], [9223372036854775807]].map (incProg m.uid)) := by
    refine ⟨h, hobj, fun c hcs => ?_⟩
    obtain ⟨l, _, rfl⟩ := List.mem_map.1 hcs
    exact incProg_all (fun x => ⟨m, hm, rfl, trivial, fun _ => hind⟩) l
  refine ⟨e, o, w, m, obj, [[1, 2], [BitVec.ofInt 64 (-5), 3], [9223372036854775807]], hm, ht, hc, hu, ?_, by decide⟩
  obtain ⟨S, h1, h2⟩ := C20_no_deadlock (F := F) (L := L) (w := w) (obj := obj) (S := LSt.init obj w.mem _) (cs := _) LReach.refl
  refine ⟨S, h1, fun t htm => ?_⟩
  obtain ⟨c, rfl, hce⟩ := h2 t htm
  obtain ⟨T, t1, _, t3⟩ := hu.sim h1
  obtain ⟨_, v', ls', _, _, hthr, _⟩ := inc_inv hm ht hc hu t1
  obtain ⟨i, hi⟩ := List.getElem?_of_mem htm
  obtain ⟨l, _, hinc⟩ := hthr i _ (t3.outs i c hi).1
  rcases hinc with hinc | ⟨r, k, hinc, _⟩
  · obtain rfl := AThr.out.inj hinc
    cases l with
    | nil => rfl
    | cons x l => exact hce.elim
  · cases hinc

/-- Two goroutines can be inside `Val` of the same counter, about to read the same field: the hypotheses of
`C20_race_free` can be met. -/
example (F : Flops) (L : Hdr) {e o w} {obj : Nat → Obj L.H} {m : Metric} (_ : m ∈ w.reg.metrics)
    (_ : Users e o w obj [.call m.uid .counterVal fun _ => .done, .call m.uid .counterVal fun _ => .done]) :
    ∃ S, Runs F L w obj [.call m.uid .counterVal fun _ => .done, .call m.uid .counterVal fun _ => .done] S ∧
      ∃ p k, S.thr[0]? = some (.inn m.uid false p k) ∧ S.thr[1]? = some (.inn m.uid false p k) ∧
        p.acc m.uid = some (.val m.uid none, false) := by
  refine ⟨_, .tail (.tail .refl (.rlock (i := 0) (n := 0) rfl rfl rfl)) (.rlock (i := 1) (n := 1) rfl rfl ?_), _, _, rfl, rfl, rfl⟩
  simp [fset]

end Speed
