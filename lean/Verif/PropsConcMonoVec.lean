import Verif.PropsConcMono
import Verif.PropsMetrics
import Verif.PropsDoc
/-
Counter vectors used by several goroutines at once never go backwards (C95).
-/
namespace Speed

open Dump

section
variable {F : Flops} {L : Hdr}

/-- Through its interface as a counter vector only (metrics.go:1085-1101), one instance per call, the metric `uid` is used. -/
def CvOnly (uid : Nat) (m : Nat) (me : Meth) : Prop :=
  m = uid → ∃ n, me = .cvVal n ∨ (∃ x, me = .cvSet x n) ∨ ∃ x, me = .cvInc x n

/-- In no order of the calls does an increment of instance `n` of `uid` exceed the largest int64. -/
def CvNoOverflow (F : Flops) (L : Hdr) (w : Live) (obj : Nat → Obj L.H) (cs : List (Cli Ret Meth)) (uid : Nat) (n : Str) : Prop :=
  ∀ T, SReach F L w.upd (ASt.init obj w.mem cs) T → ∀ (i : Nat) x k c, T.thr[i]? = some (.out (.call uid (.cvInc x n) k)) →
    (T.obj uid).m.cur (some n) = some (.int64 c) → c.toInt + x.toInt < 2 ^ 63

/-- A goroutine that asks for the value of an instance again and again. -/
def cvPollProg (uid : Nat) (n : Str) : Nat → Cli Ret Meth
  | 0 => .done
  | k + 1 => .call uid (.cvVal n) fun _ => cvPollProg uid n k

def AThr.CvOnly (uid : Nat) : AThr Ret Meth → Prop
  | .out c => c.All (Speed.CvOnly uid)
  | .pend _ k => ∀ a, (k a).All (Speed.CvOnly uid)

structure CvMonoInv (uid : Nat) (n : Str) (v c : BitVec 64) (T : ASt L.H Ret Meth) : Prop where
  cv : ∃ f, IsCV ⟨(T.obj uid).m, T.mem⟩ f ∧ f n = some c
  le : v.toInt ≤ c.toInt
  thr : ∀ t ∈ T.thr, t.CvOnly uid

theorem CvMonoInv.cur {uid n v c} {T : ASt L.H Ret Meth} (h : CvMonoInv uid n v c T) : (T.obj uid).m.cur (some n) = some (.int64 c) := by
  obtain ⟨f, h1, h2⟩ := h.cv
  have := h1.cur n
  rw [h2] at this
  exact this

theorem cvVal_same {u : Upd} {st : MSt} {f : Str → Option (BitVec 64)} (h : Good u st) (hc : IsCV st f) (n : Str) : (cvVal n u st).1 = st := by
  unfold cvVal
  cases hf : f n with
  | none => rw [bind_err (valInstance_err h.wf (by rw [hc.cur, hf]; rfl))]
  | some v => rw [bind_ok (valInstance_ok h.wf (by rw [hc.cur, hf]; rfl))]; rfl

theorem Tracks.good {e o w} {T : ASt L.H Ret Meth} (h : Tracks e o w T) {x : Metric} (hx : x ∈ w.reg.metrics) :
    Good (w.upd x.uid) ⟨(T.obj x.uid).m, T.mem⟩ := by
  have hg := h.act.good (List.mem_map.2 ⟨x, hx, rfl⟩ : (T.obj x.uid).m ∈ (w.at T.obj T.mem).reg.metrics)
  rw [(h.same x hx).1] at hg
  exact hg

theorem CvMonoInv.step {e o w} {T T' : ASt L.H Ret Meth} {x : Metric} (hx : x ∈ w.reg.metrics) {n v c} (h : Tracks e o w T)
    (hno : ∀ (i : Nat) y k, T.thr[i]? = some (.out (.call x.uid (.cvInc y n) k)) → c.toInt + y.toInt < 2 ^ 63)
    (hi : CvMonoInv x.uid n v c T) (hs : SStep F L w.upd T T') : ∃ c', CvMonoInv x.uid n v c' T' ∧ c.toInt ≤ c'.toInt := by
  have hle := hi.le
  have hthr := hi.thr
  obtain ⟨f, hv, hfn⟩ := hi.cv
  cases hs with
  | @call i m me k hti =>
    have hall : (Cli.call m me k).All (CvOnly x.uid) := hthr _ (List.mem_of_getElem? hti)
    have hthr' : ∀ r, ∀ t ∈ T.thr.set i (.pend r k), t.CvOnly x.uid := fun r => mem_set_of hthr hall.2
    by_cases hmx : m = x.uid
    · subst hmx
      have hg := h.good hx
      have fin : ∀ (op : CvOp), (∀ y, op = .inc y n → c.toInt + y.toInt < 2 ^ 63) →
          ∃ c', (∃ f', IsCV (op.run (w.upd x.uid) ⟨(T.obj x.uid).m, T.mem⟩).1 f' ∧ f' n = some c') ∧ c.toInt ≤ c'.toInt := by
        intro op hop
        obtain ⟨_, f', k1, k2, k3⟩ := cv_step hg hv op
        by_cases hn : n = op.name
        · rw [← hn, hfn] at k3
          cases op with
          | set y n' =>
            dsimp only at k3
            rcases k3 with ⟨_, k3⟩ | ⟨hy, k3⟩
            · exact ⟨c, ⟨f', k1, k3⟩, Int.le_refl _⟩
            · exact ⟨y, ⟨f', k1, k3⟩, hy⟩
          | inc y n' =>
            dsimp only at k3
            rcases k3 with ⟨_, k3⟩ | ⟨hy, k3⟩
            · exact ⟨c, ⟨f', k1, k3⟩, Int.le_refl _⟩
            · have hb := hop y (by rw [hn]; rfl)
              have hadd : (c + y).toInt = c.toInt + y.toInt := by
                rw [BitVec.toInt_add]
                have := @BitVec.le_toInt 64 c
                apply Int.bmod_eq_of_le <;> simp only [Nat.reducePow, Int.reducePow] at * <;> omega
              exact ⟨c + y, ⟨f', k1, k3⟩, by omega⟩
        · exact ⟨c, ⟨f', k1, by rw [k2 n hn, hfn]⟩, Int.le_refl _⟩
      obtain ⟨n', hme⟩ := hall.1 rfl
      rcases hme with rfl | ⟨y, rfl⟩ | ⟨y, rfl⟩
      · have e1 := cvVal_same hg hv n'
        refine ⟨c, ⟨⟨f, ⟨?_, fun j => ?_⟩, hfn⟩, hle, hthr' _⟩, Int.le_refl _⟩
        · simp only [Meth.spec, lift, fset, if_pos]
          rw [e1]; exact hv.t
        · simp only [Meth.spec, lift, fset, if_pos]
          rw [e1]; exact hv.cur j
      · obtain ⟨c', ⟨f', g1, g2⟩, g3⟩ := fin (.set y n') (fun y' hy => by cases hy)
        refine ⟨c', ⟨⟨f', ⟨?_, fun j => ?_⟩, g2⟩, Int.le_trans hle g3, hthr' _⟩, g3⟩
        · simp only [Meth.spec, lift, fset, if_pos]
          exact g1.t
        · simp only [Meth.spec, lift, fset, if_pos]
          exact g1.cur j
      · obtain ⟨c', ⟨f', g1, g2⟩, g3⟩ := fin (.inc y n') (fun y' hy => by cases hy; exact hno i _ k hti)
        refine ⟨c', ⟨⟨f', ⟨?_, fun j => ?_⟩, g2⟩, Int.le_trans hle g3, hthr' _⟩, g3⟩
        · simp only [Meth.spec, lift, fset, if_pos]
          exact g1.t
        · simp only [Meth.spec, lift, fset, if_pos]
          exact g1.cur j
    · have hne : ¬ x.uid = m := fun h => hmx h.symm
      refine ⟨c, ⟨⟨f, ⟨?_, fun j => ?_⟩, hfn⟩, hle, hthr' _⟩, Int.le_refl _⟩
      · simpa [fset, hne] using hv.t
      · simpa [fset, hne] using hv.cur j
  | @ret i r k hti =>
    have hk : ∀ a, (k a).All (CvOnly x.uid) := hthr _ (List.mem_of_getElem? hti)
    exact ⟨c, ⟨⟨f, hv, hfn⟩, hle, mem_set_of hthr (hk r)⟩, Int.le_refl _⟩

def CvPollInv (uid : Nat) (s : Str) (i : Nat) (v c : BitVec 64) (T : ASt L.H Ret Meth) : Prop :=
  ∃ n l, l.Pairwise (fun a b : BitVec 64 => a.toInt ≤ b.toInt) ∧ (∀ a ∈ l, a.toInt ≤ c.toInt) ∧
    ((T.thr[i]? = some (.out (cvPollProg uid s n)) ∧ l = v :: answers i T.log) ∨
      ∃ r, T.thr[i]? = some (.pend (.ok (.num r)) fun _ => cvPollProg uid s n) ∧ l = v :: answers i T.log ++ [r])

theorem CvPollInv.step {e o w} {T T' : ASt L.H Ret Meth} {x : Metric} (hx : x ∈ w.reg.metrics) {s : Str} {i : Nat} {v c c'}
    (h : Tracks e o w T) (hm : CvMonoInv x.uid s v c T) (hc : c.toInt ≤ c'.toInt)
    (hp : CvPollInv x.uid s i v c T) (hs : SStep F L w.upd T T') : CvPollInv x.uid s i v c' T' := by
  obtain ⟨n, l, h1, h2, h3⟩ := hp
  have h2' : ∀ a ∈ l, a.toInt ≤ c'.toInt := fun a ha => Int.le_trans (h2 a ha) hc
  cases hs with
  | @call j m me k hti =>
    have hans : answers i (T.log ++ [.call j m me]) = answers i T.log := by simp [answers]
    by_cases hj : i = j
    · subst hj
      rcases h3 with ⟨h3, rfl⟩ | ⟨r, h3, _⟩
      · rw [hti] at h3
        cases n with
        | zero => cases h3
        | succ n =>
          simp only [cvPollProg, Option.some.injEq, AThr.out.injEq, Cli.call.injEq] at h3
          obtain ⟨rfl, rfl, rfl⟩ := h3
          have e1 : cvVal s (w.upd x.uid) ⟨(T.obj x.uid).m, T.mem⟩ = (⟨(T.obj x.uid).m, T.mem⟩, .ok c) := by
            unfold cvVal; rw [bind_ok (valInstance_ok (h.good hx).wf hm.cur)]; rfl
          refine ⟨n, v :: answers i T.log ++ [c], ?_, ?_, .inr ⟨c, ?_, ?_⟩⟩
          · rw [List.pairwise_append]
            exact ⟨h1, by simp, fun a ha b hb => by obtain rfl := List.mem_singleton.1 hb; exact h2 a ha⟩
          · intro a ha
            rcases List.mem_append.1 ha with ha | ha
            · exact h2' a ha
            · obtain rfl := List.mem_singleton.1 ha; exact hc
          · dsimp only
            rw [get_set hti, if_pos rfl]
            simp only [Meth.spec, lift]
            rw [e1]
            rfl
          · dsimp only; rw [hans]
      · rw [hti] at h3; cases h3
    · refine ⟨n, l, h1, h2', ?_⟩
      dsimp only
      rw [hans, get_set hti, if_neg hj]
      exact h3
  | @ret j r k hti =>
    by_cases hj : i = j
    · subst hj
      rcases h3 with ⟨h3, _⟩ | ⟨r', h3, rfl⟩
      · rw [hti] at h3; cases h3
      · rw [hti] at h3
        cases h3
        refine ⟨n, _, h1, h2', .inl ⟨?_, ?_⟩⟩
        · dsimp only
          rw [get_set hti, if_pos rfl]
        · simp [answers]
    · have hans : answers i (T.log ++ [.ret j r]) = answers i T.log := by
        have : ¬ j = i := fun h => hj h.symm
        simp only [answers, List.filterMap_append]
        rcases r with (_ | _ | _) | _ | _ <;> simp [this]
      refine ⟨n, l, h1, h2', ?_⟩
      dsimp only
      rw [hans, get_set hti, if_neg hj]
      exact h3

theorem cv_mono_inv {e o w obj cs} {m : Metric} (hm : m ∈ w.reg.metrics) {s : Str} {v : BitVec 64}
    (ht : m.desc.t = Int64Type) (hv : m.cur (some s) = some (.int64 v)) (h : Users (L := L) e o w obj cs)
    (hc : ∀ c ∈ cs, c.All (CvOnly m.uid)) (hno : CvNoOverflow F L w obj cs m.uid s) {T}
    (hT : SReach F L w.upd (ASt.init obj w.mem cs) T) :
    ∃ c, CvMonoInv m.uid s v c T ∧ ∀ (i : Nat) n, cs[i]? = some (cvPollProg m.uid s n) → CvPollInv m.uid s i v c T := by
  induction hT with
  | refl =>
    obtain ⟨σ, hl, _⟩ := h.act.liveAt
    refine ⟨v, ⟨⟨fun n => match m.cur (some n) with | some (.int64 y) => some y | _ => none, ⟨?_, fun n => ?_⟩, by simp only [hv]⟩,
      Int.le_refl _, ?_⟩, ?_⟩
    · show (obj m.uid).m.desc.t = _; rw [h.obj m hm]; exact ht
    · show (obj m.uid).m.cur (some n) = _
      rw [h.obj m hm]
      cases hcur : m.cur (some n) with
      | none => rfl
      | some y =>
        have := hl.typed m hm (some n) _ hcur
        rw [ht] at this
        rcases this with ⟨a, x, hx⟩ | ⟨a, x, hx⟩ | ⟨a, x, hx⟩ | ⟨a, x, hx⟩ | ⟨a, x, hx⟩ | ⟨a, x, hx⟩ | ⟨a, x, hx⟩ <;>
          first | (subst hx; rfl) | exact absurd a (by decide)
    · intro t hmem
      obtain ⟨c, hcs, rfl⟩ := List.mem_map.1 hmem
      exact hc c hcs
    · intro i n hi
      exact ⟨n, [v], by simp, by simp, .inl ⟨by simp [ASt.init, hi], by simp [ASt.init, answers]⟩⟩
  | tail hr hs ih =>
    obtain ⟨c, i1, i2⟩ := ih
    obtain ⟨c', k1, k2⟩ := i1.step hm (hr.tracks h) (fun i y k hi => hno _ hr i y k c hi i1.cur) hs
    exact ⟨c', k1, fun i n hi => (i2 i n hi).step hm (hr.tracks h) i1 k2 hs⟩

/-- C95: the numbers that a goroutine polling an instance of a counter vector has seen never go down. -/
theorem C95_vector_poll {e o w obj cs S} {m : Metric} (hm : m ∈ w.reg.metrics) {s : Str} {v : BitVec 64}
    (ht : m.desc.t = Int64Type) (hv : m.cur (some s) = some (.int64 v)) (h : Users (L := L) e o w obj cs)
    (hc : ∀ c ∈ cs, c.All (CvOnly m.uid)) (hno : CvNoOverflow F L w obj cs m.uid s) (hS : Runs F L w obj cs S)
    {i n : Nat} (hi : cs[i]? = some (cvPollProg m.uid s n)) :
    (v :: answers i S.log).Pairwise fun a b => a.toInt ≤ b.toInt := by
  obtain ⟨T, h1, h2, _⟩ := C20_linearizable h hS
  obtain ⟨c, _, h3⟩ := cv_mono_inv hm ht hv h hc hno h1
  obtain ⟨k, l, p1, _, p3⟩ := h3 i n hi
  rw [h2]
  rcases p3 with ⟨_, rfl⟩ | ⟨r, _, rfl⟩
  · exact p1
  · exact (List.pairwise_append.1 p1).1

/-- C95: and when no goroutine is inside a call, the value of the instance, in the metric and in the file, is not below the value at
the start. -/
theorem C95_vector_quiet {e o w obj cs S} {m : Metric} (hm : m ∈ w.reg.metrics) {s : Str} {v : BitVec 64}
    (ht : m.desc.t = Int64Type) (hv : m.cur (some s) = some (.int64 v)) (h : Users (L := L) e o w obj cs)
    (hc : ∀ c ∈ cs, c.All (CvOnly m.uid)) (hno : CvNoOverflow F L w obj cs m.uid s) (hS : Runs F L w obj cs S)
    (hq : S.Quiet) :
    ∃ c, v.toInt ≤ c.toInt ∧ (S.obj m.uid).m.cur (some s) = some (.int64 c) ∧
      ∀ out, Dumps S.mem out → ∃ D A x, out = .ok D ∧ DescribesAt (w.at S.obj S.mem).reg D A ∧
        look D.values (A.value m.uid (some s)) = some x ∧ ValueShows D A x (S.obj m.uid).m (some s) (.int64 c) := by
  obtain ⟨T, h1, h2, h3⟩ := h.sim hS
  obtain ⟨_, q2, _⟩ := h3.quiet hq
  obtain ⟨c, k1, _⟩ := cv_mono_inv hm ht hv h hc hno h1
  have hcur : (S.obj m.uid).m.cur (some s) = some (.int64 c) := by rw [q2]; exact k1.cur
  refine ⟨c, k1.le, hcur, fun out hd => ?_⟩
  have hslot : some s ∈ (S.obj m.uid).m.slots := by
    apply hasInst_slot
    rw [q2, ← WF.cur_iff (h2.good hm).wf, k1.cur]
    rfl
  obtain ⟨_, hf⟩ := C20_file h hS hq
  obtain ⟨D, A, g1, g2, g3⟩ := hf out hd
  obtain ⟨v', x, r1, r2, r3⟩ := g3 m hm (some s) hslot
  have huid : (S.obj m.uid).m.uid = m.uid := by rw [q2]; exact (h2.same m hm).1
  rw [huid] at r2
  rw [hcur] at r1
  obtain rfl := Option.some.inj r1
  exact ⟨D, A, x, g1, g2, r2, r3⟩

/-! ### A case -/

theorem SReach.all {w : Live} {obj : Nat → Obj L.H} {cs} {P : Nat → Meth → Prop} (hc : ∀ c ∈ cs, c.All P) {T}
    (hT : SReach F L w.upd (ASt.init obj w.mem cs) T) :
    ∀ t ∈ T.thr, (∀ c, t = .out c → c.All P) ∧ ∀ r k, t = .pend r k → ∀ a, (k a).All P := by
  induction hT with
  | refl =>
    intro t ht
    obtain ⟨c, hcs, rfl⟩ := List.mem_map.1 ht
    exact ⟨fun c' h => by cases h; exact hc c hcs, fun _ _ h => by cases h⟩
  | tail _ hs ih =>
    cases hs with
    | @call i m me k hti =>
      have h1 : (Cli.call m me k).All P := (ih _ (List.mem_of_getElem? hti)).1 _ rfl
      refine mem_set_of ih ?_
      exact ⟨fun _ h => (by cases h), fun _ _ h => by cases h; exact h1.2⟩
    | @ret i r k hti =>
      have h1 := (ih _ (List.mem_of_getElem? hti)).2 _ _ rfl
      refine mem_set_of ih ?_
      exact ⟨fun _ h => by cases h; exact h1 r, fun _ _ h => by cases h⟩

theorem cvPollProg_all {P : Nat → Meth → Prop} {uid : Nat} {s : Str} (h : P uid (.cvVal s)) (n : Nat) : (cvPollProg uid s n).All P := by
  induction n with
  | zero => trivial
  | succ n ih => exact ⟨h, fun _ => ih⟩

/-- Sets one instance to 20 and increments another. -/
def cvWorker (uid : Nat) (s s' : Str) : Cli Ret Meth := .call uid (.cvSet 20 s) fun _ => .call uid (.cvInc 5 s') fun _ => .done

end

/-- The counter vector "d" of a client with documented metrics: one goroutine sets one instance to 20 and increments the other,
another asks for the value of the first three times; it never gets less than before. -/
example (F : Flops) (L : Hdr) (h0 : L.H) : ∃ (e : Env) (o : Ord) (w : Live) (m : Metric) (obj : Nat → Obj L.H),
    m ∈ w.reg.metrics ∧ m.cur (some sA) = some (.int64 0) ∧ Users e o w obj [cvWorker m.uid sA sB, cvPollProg m.uid sA 3] ∧
    (∃ S, Runs F L w obj [cvWorker m.uid sA sB, cvPollProg m.uid sA 3] S ∧ S.Quiet) ∧
    ∀ S, Runs F L w obj [cvWorker m.uid sA sB, cvPollProg m.uid sA 3] S →
      (0#64 :: answers 1 S.log).Pairwise fun a b => a.toInt ≤ b.toInt := by
  obtain ⟨s, hs⟩ := started_exists docReg_built (publishable_of (by decide)) (by constructor <;> decide) (idOrd_ok _) ⟨2, 77, 12345, 42⟩
  have h := Active.start hs
  obtain ⟨m, hm, ht, hc⟩ : ∃ m ∈ docReg.metrics, m.desc.t = Int64Type ∧ m.cur (some sA) = some (.int64 0) := by decide
  replace hm : m ∈ (⟨docReg, s.mem, s.cells⟩ : Live).reg.metrics := hm
  generalize (⟨docReg, s.mem, s.cells⟩ : Live) = w at h hm
  obtain ⟨σ, hl, _⟩ := h.liveAt
  let obj : Nat → Obj L.H := fun uid => ⟨(w.reg.metrics.find? (fun x => x.uid = uid)).getD m, ⟨false, 0⟩, h0⟩
  have hobj : ∀ x ∈ w.reg.metrics, (obj x.uid).m = x := by
    intro x hx
    show (w.reg.metrics.find? (fun y => y.uid = x.uid)).getD m = x
    cases hf : w.reg.metrics.find? (fun y => y.uid = x.uid) with
    | none => have := List.find?_eq_none.1 hf x hx; simp at this
    | some y =>
      have he := List.find?_some hf
      simp only [decide_eq_true_eq] at he
      exact eq_of_uid hl.ok.metricUid (List.mem_of_find?_eq_some hf) hx he
  have hall : ∀ {P : Nat → Meth → Prop}, P m.uid (.cvSet 20 sA) → P m.uid (.cvInc 5 sB) → P m.uid (.cvVal sA) →
      ∀ c ∈ [cvWorker m.uid sA sB, cvPollProg m.uid sA 3], c.All P := by
    intro P p1 p2 p3 c hcs
    rcases List.mem_cons.1 hcs with rfl | hcs
    · exact ⟨p1, fun _ => ⟨p2, fun _ => trivial⟩⟩
    · obtain rfl := List.mem_singleton.1 hcs; exact cvPollProg_all p3 _
  have hu : Users _ _ w obj [cvWorker m.uid sA sB, cvPollProg m.uid sA 3] :=
    ⟨h, hobj, hall ⟨m, hm, rfl, trivial, fun h => by cases h⟩ ⟨m, hm, rfl, trivial, fun h => by cases h⟩
      ⟨m, hm, rfl, trivial, fun h => by cases h⟩⟩
  refine ⟨_, _, w, m, obj, hm, hc, hu, ?_, fun S hS => ?_⟩
  · obtain ⟨S, h1, h2⟩ := C20_no_deadlock (F := F) (L := L) (w := w) (obj := obj) (S := LSt.init obj w.mem _) (cs := _) LReach.refl
    exact ⟨S, h1, fun t htm => by obtain ⟨c, rfl, _⟩ := h2 t htm; exact ⟨c, rfl⟩⟩
  · refine C95_vector_poll hm ht hc hu (hall (fun _ => ⟨sA, .inr (.inl ⟨20, rfl⟩)⟩) (fun _ => ⟨sB, .inr (.inr ⟨5, rfl⟩)⟩)
      (fun _ => ⟨sA, .inl rfl⟩)) ?_ hS (i := 1) (n := 3) rfl
    intro T hT i x k c hi _
    have hP := (hT.all (P := fun _ me => ∀ x, me ≠ .cvInc x sA) (hall (fun _ h => by cases h)
      (fun _ h => absurd (Meth.cvInc.inj h).2 (by decide)) (fun _ h => by cases h)) _ (List.mem_of_getElem? hi)).1 _ rfl
    exact absurd rfl (hP.1 x)

end Speed
