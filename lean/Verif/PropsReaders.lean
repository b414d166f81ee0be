import Verif.PropsStopRace
/-
C72: the exported methods that read a metric without taking its mutex.
-/
namespace Speed

open Dump

/-- The exported methods that read a metric and take no lock. -/
inductive Bare where
  /-- `(*PCPSingletonMetric).String` (metrics.go:645-647) -/
  | string (m : Nat)
  /-- `(*PCPHistogram).Percentile` (metrics.go:1562) -/
  | percentile (m : Nat)
  /-- `(*PCPHistogram).Buckets` (metrics.go:1570-1577) -/
  | buckets (m : Nat)
  /-- `(*PCPHistogram).High` (metrics.go:1448) -/
  | high (m : Nat)
  /-- `(*PCPHistogram).Low` (metrics.go:1451) -/
  | low (m : Nat)

/-- What it reads that can change: the value, or the counts of the HDR histogram. The bounds that `High` and `Low` read are set
when the histogram is made. (Descriptions never change.) -/
def Bare.loc : Bare → Option MLoc
  | .string m => some (.val m none)
  | .percentile m => some (.h m)
  | .buckets m => some (.h m)
  | .high _ => none
  | .low _ => none

/-- A goroutine about to do the read races with one that is about to write the same location. Since the method takes
no lock, a goroutine can be about to do the read at any time. -/
def Bare.Races {H R Me : Type} (b : Bare) (S : LSt H R Me) : Prop :=
  ∃ (i m : Nat) (w : Bool) (p : MProc H R) (k : Ans R → Cli R Me) (l : MLoc),
    S.thr[i]? = some (.inn m w p k) ∧ p.acc m = some (l, true) ∧ b.loc = some l

/-- The metric whose values the method reads. -/
def Bare.metric : Bare → Nat
  | .string m | .percentile m | .buckets m | .high m | .low m => m

section
variable {F : Flops} {L : Hdr}

/-- A goroutine that from now on does not change metric `m`. -/
def Thr.Leaves {H : Type} (m : Nat) : Thr H Ret Meth → Prop
  | .out c => c.All fun m' me => m' = m → me.wr = false
  | .inn m' w _ k => (m' = m → w = false) ∧ ∀ a, (k a).All fun m' me => m' = m → me.wr = false

theorem LStep.leaves {fx : Nat → Fixed} {u : Nat → Upd} {m : Nat} {S S' : LSt L.H Ret Meth} (h : LStep (meths F L fx) u S S')
    (hr : ∀ t ∈ S.thr, t.Leaves m) : ∀ t ∈ S'.thr, t.Leaves m := by
  have key : ∀ (i : Nat) (x : Thr L.H Ret Meth), x.Leaves m → ∀ t ∈ S.thr.set i x, t.Leaves m := by
    intro i x hx t ht
    rcases List.mem_or_eq_of_mem_set ht with ht | rfl
    · exact hr t ht
    · exact hx
  cases h with
  | lock hi hw hl =>
    have := hr _ (List.mem_of_getElem? hi)
    refine key _ _ ⟨fun e => ?_, this.2⟩
    have h1 := this.1 e
    rw [show Meth.wr _ = true from hw] at h1
    cases h1
  | rlock hi hw hl => exact key _ _ ⟨fun _ => rfl, (hr _ (List.mem_of_getElem? hi)).2⟩
  | access hi hp => exact key _ _ (show Thr.Leaves m (.inn _ _ _ _) from (hr _ (List.mem_of_getElem? hi) : Thr.Leaves m (.inn _ _ _ _)))
  | unlock hi => exact key _ _ ((hr _ (List.mem_of_getElem? hi)).2 _)
  | runlock hi hl => exact key _ _ ((hr _ (List.mem_of_getElem? hi)).2 _)

/-- C72, partial: a method without lock does not race as long as no goroutine changes its metric; and `High` and `Low` never
race. (The methods that take the lock never race, C20.) -/
theorem C72_partial {e o w obj cs S S'} (h : Users (L := L) e o w obj cs) (hS : Runs F L w obj cs S) (b : Bare)
    (hq : b.loc = none ∨ ∀ t ∈ S.thr, t.Leaves b.metric) (hS' : LReach (meths F L w.fixed) w.upd S S') : ¬ b.Races S' := by
  rintro ⟨i, m, wr, p, k, l, hi, ha, hl⟩
  rcases hq with hq | hq
  · rw [hq] at hl; cases hl
  · have hall : ∀ t ∈ S'.thr, t.Leaves b.metric := by
      clear hi
      induction hS' with
      | refl => exact hq
      | tail _ hs ih => exact hs.leaves ih
    have hm : b.metric = m := by
      cases b <;> simp only [Bare.loc, Option.some.injEq, reduceCtorEq] at hl <;> subst hl <;>
        cases p <;> simp only [MProc.acc, Option.some.injEq, Prod.mk.injEq, reduceCtorEq, MLoc.val.injEq, MLoc.h.injEq, false_and, and_false] at ha <;>
        first | exact ha.1.symm | exact ha.1.1.symm
    have hw := (hall _ (List.mem_of_getElem? hi)).1 hm.symm
    obtain ⟨T, _, _, hs⟩ := h.sim (LReach.trans hS hS')
    have hro := (hs.inns i m wr p k hi).2.2.2 hw
    cases p <;> simp only [MProc.acc, Option.some.injEq, Prod.mk.injEq, reduceCtorEq, and_false, and_true, Bool.false_eq_true] at ha
    all_goals exact hro

/-- C72 is false: whenever a goroutine is about to record a value that the histogram accepts, it can race with
`Percentile` or `Buckets` in another goroutine. -/
theorem C72_refuted_histogram {w : Live} {obj cs} {m : Nat} {v n : BitVec 64} {h' : L.H} (hr : L.record (obj m).h v n = some h')
    {i : Nat} {k} (hi : cs[i]? = some (.call m (.histRecord v n) k)) :
    ∃ S, Runs F L w obj cs S ∧ Bare.Races (.percentile m) S ∧ Bare.Races (.buckets m) S := by
  have hi' : (LSt.init obj w.mem cs).thr[i]? = some (.out (.call m (.histRecord v n) k)) := by simp [LSt.init, hi]
  obtain ⟨S1, r1, t1, o1⟩ : ∃ S1, Runs F L w obj cs S1 ∧
      S1.thr[i]? = some (.inn m true (histRecordP F L (w.fixed m) v n).unit k) ∧ S1.obj = obj := by
    refine ⟨_, .tail .refl (.lock hi' rfl rfl), ?_, rfl⟩
    dsimp only
    rw [get_set hi', if_pos rfl]
    rfl
  obtain ⟨S2, r2, p, t2⟩ : ∃ S2, Runs F L w obj cs S2 ∧ ∃ p, S2.thr[i]? = some (.inn m true (.setH h' p) k) := by
    refine ⟨_, .tail r1 (.access t1 rfl), (MProc.getH fun h => histUpdateP F L (w.fixed m) h).unit, ?_⟩
    dsimp only
    rw [get_set t1, if_pos rfl, o1, hr]
    rfl
  exact ⟨S2, r2, ⟨i, m, true, _, k, _, t2, rfl, rfl⟩, ⟨i, m, true, _, k, _, t2, rfl, rfl⟩⟩

/-- `p` gets to `q` by writing bytes. -/
inductive MProc.Writes {H α : Type} : MProc H α → MProc H α → Prop
  | refl {p} : MProc.Writes p p
  | byte {a b p q} : MProc.Writes p q → MProc.Writes (.byte a b p) q

theorem MProc.Writes.bind {H α β : Type} {p : MProc H α} {a : α} (h : MProc.Writes p (.ret (.ok a))) (f : α → MProc H β) {q}
    (hq : MProc.Writes (f a) q) : MProc.Writes (p.bind f) q := by
  generalize hx : (MProc.ret (.ok a) : MProc H α) = x at h
  induction h with
  | refl => subst hx; exact hq
  | byte _ ih => exact .byte (ih hx)

theorem bytesP_writes {H : Type} (off : Nat) (data : List Byte) : MProc.Writes (bytesP off data : MProc H Unit) (.ret (.ok ())) := by
  induction data generalizing off with
  | nil => exact .refl
  | cons d ds ih => exact .byte (ih _)

theorem updP_writes {t : MetricType} {v : GoVal} (hv : Typed t v) (hf : Fits v) {off len : Nat} {H : Type}
    (h : off + (newBytes v).length ≤ len) : MProc.Writes (updP len off v : MProc H Unit) (.ret (.ok ())) := by
  rcases hv with ⟨rfl, x, rfl⟩ | ⟨rfl, x, rfl⟩ | ⟨rfl, x, rfl⟩ | ⟨rfl, x, rfl⟩ | ⟨rfl, x, rfl⟩ | ⟨rfl, x, rfl⟩ | ⟨rfl, x, rfl⟩
  case inr.inr.inr.inr.inr.inr =>
    have hs : x.length ≤ 256 := hf
    have hl : (newBytes (.str x)).length = 256 := by show (pad StringLength x).length = _; rw [pad_length hs]
    unfold updP
    dsimp only
    rw [if_pos (by show off + 256 ≤ _; omega)]
    refine (bytesP_writes _ _).bind _ ?_
    unfold writeP
    rw [if_pos (by omega)]
    exact bytesP_writes _ _
  all_goals
    unfold updP
    simp only [newBytes, binaryWrite, Option.getD_some] at h ⊢
    unfold writeP
    rw [if_pos h]
    exact bytesP_writes _ _

theorem MProc.Writes.reach {w : Live} {obj cs} {S : LSt L.H Ret Meth} (hS : Runs F L w obj cs S) {i m : Nat} {p q : MProc L.H Ret} {k}
    (hi : S.thr[i]? = some (.inn m true p k)) (h : MProc.Writes p q) :
    ∃ S', Runs F L w obj cs S' ∧ S'.thr[i]? = some (.inn m true q k) := by
  induction h generalizing S with
  | refl => exact ⟨S, hS, hi⟩
  | byte _ ih =>
    refine ih (.tail hS (.access hi rfl)) ?_
    dsimp only
    rw [get_set hi, if_pos rfl]

/-- The accesses of `Set` up to the assignment: the old value and the closure are read, and bytes are written. -/
theorem set_body {m : Metric} {v old : GoVal} (hc : isCompatible m.desc.t v = true) (hne : goEq (resolve m.desc.t v) old = false)
    {len off : Nat} (hf : Fits v) (hroom : off + (newBytes (resolve m.desc.t v)).length ≤ len) :
    ∃ (k : Option GoVal → MProc L.H Ret), (Meth.set v).body F L (fixedOf m len) = .load none k ∧
      ∃ (k' : Option Nat → MProc L.H Ret), k (some old) = .upd none k' ∧
        ∃ p, MProc.Writes (k' (some off)) (.store none (resolve m.desc.t v) p) := by
  have hp := updP_writes (H := L.H) (resolve_typed hc) (resolve_fits hf) hroom
  have key : ∃ (k' : Option Nat → MProc L.H Ret), (storeValP len none old (resolve m.desc.t v)).unit = .upd none k' ∧
      ∃ p, MProc.Writes (k' (some off)) (.store none (resolve m.desc.t v) p) := by
    unfold storeValP
    rw [if_neg (by simp [hne])]
    refine ⟨_, rfl, (MProc.ret (.ok ())).unit, ?_⟩
    dsimp only
    generalize updP len off (resolve m.desc.t v) = P at hp
    generalize hx : (MProc.ret (.ok ()) : MProc L.H Unit) = x at hp
    induction hp with
    | refl => subst hx; exact .refl
    | byte _ ih => exact .byte (ih hx)
  simp only [Meth.body, MProc.unit, setP, fixedOf, hc, Bool.true_eq_false, if_false, MProc.bind]
  exact ⟨_, rfl, key⟩

/-- C72 is false: whenever a goroutine is about to set a singleton metric to another value, it can race with `String` in another
goroutine. -/
theorem C72_refuted_string {e o w obj cs} (h : Users (L := L) e o w obj cs) {m : Metric} (hm : m ∈ w.reg.metrics)
    (hs : none ∈ m.slots) {v old : GoVal} (hf : Fits v) (hc : isCompatible m.desc.t v = true)
    (hold : m.cur none = some old) (hne : goEq (resolve m.desc.t v) old = false)
    {i : Nat} {k} (hi : cs[i]? = some (.call m.uid (.set v) k)) :
    ∃ S, Runs F L w obj cs S ∧ Bare.Races (.string m.uid) S := by
  obtain ⟨σ, hl, _⟩ := h.act.liveAt
  obtain ⟨off, _, hu⟩ := hl.updAt hm hs
  have hg := h.act.good hm
  have hroom : off + (newBytes (resolve m.desc.t v)).length ≤ w.mem.length :=
    hg.room none hs off hu _ (resolve_typed hc) (resolve_fits hf)
  obtain ⟨k1, e1, k2, e2, p, e3⟩ := set_body (F := F) (L := L) hc hne hf hroom
  have hfx : w.fixed m.uid = fixedOf m w.mem.length := Live.fixed_eq hl.ok.metricUid hm
  obtain ⟨S1, r1, t1, o1⟩ : ∃ S1, Runs F L w obj cs S1 ∧ S1.thr[i]? = some (.inn m.uid true (.load none k1) k) ∧ S1.obj = obj := by
    have hi' : (LSt.init obj w.mem cs).thr[i]? = some (.out (.call m.uid (.set v) k)) := by simp [LSt.init, hi]
    refine ⟨_, .tail .refl (.lock hi' rfl rfl), ?_, rfl⟩
    dsimp only
    rw [get_set hi', if_pos rfl]
    show some (Thr.inn m.uid true ((Meth.set v).body F L (w.fixed m.uid)) k) = _
    rw [hfx, e1]
  obtain ⟨S2, r2, t2⟩ : ∃ S2, Runs F L w obj cs S2 ∧ S2.thr[i]? = some (.inn m.uid true (.upd none k2) k) := by
    refine ⟨_, .tail r1 (.access t1 rfl), ?_⟩
    dsimp only
    rw [get_set t1, if_pos rfl, o1, h.obj m hm, hold, e2]
  obtain ⟨S3, r3, t3⟩ : ∃ S3, Runs F L w obj cs S3 ∧ S3.thr[i]? = some (.inn m.uid true (k2 (some off)) k) := by
    refine ⟨_, .tail r2 (.access t2 rfl), ?_⟩
    dsimp only
    rw [get_set t2, if_pos rfl, hu]
  obtain ⟨S4, r4, t4⟩ := e3.reach r3 t3
  exact ⟨S4, r4, i, m.uid, true, _, k, _, t4, rfl, rfl⟩

end

/-- The statements are not empty: with the two goroutines of the sample client `String` can race; it cannot after both are done;
and with an accepted `Record` instead, `Percentile` can race. -/
example (F : Flops) (L : Hdr) {h0 h1 : L.H} {v : BitVec 64} (hr : L.record h0 v 1 = some h1) :
    ∃ (e : Env) (o : Ord) (w : Live) (m : Metric) (obj : Nat → Obj L.H) (cs : List (Cli Ret Meth)),
    m ∈ w.reg.metrics ∧ Users e o w obj cs ∧ cs = [.call m.uid (.set (.int64 77)) fun _ => .done, .call m.uid .val fun _ => .done] ∧
    (∃ S, Runs F L w obj cs S ∧ Bare.Races (.string m.uid) S) ∧
    (∃ S, Runs F L w obj cs S ∧ ∀ S', LReach (meths F L w.fixed) w.upd S S' → ¬ Bare.Races (.string m.uid) S') ∧
    ∃ S, Runs F L w obj [.call m.uid (.histRecord v 1) fun _ => .done] S ∧ Bare.Races (.percentile m.uid) S := by
  obtain ⟨e, o, w, m, obj, old, hm, ht, hsl, hc, hne, ho, hu⟩ := sample_users L h0
  refine ⟨e, o, w, m, obj, _, hm, hu, rfl, ?_, ?_, ?_⟩
  · exact C72_refuted_string hu hm hsl (v := .int64 77) trivial (by rw [ht]; decide) hc (by rw [ht]; exact hne) (i := 0) rfl
  · obtain ⟨S, h1, h2⟩ := C20_no_deadlock (F := F) (L := L) (w := w) (obj := obj) (S := LSt.init obj w.mem _)
      (cs := [.call m.uid (.set (.int64 77)) fun _ => .done, .call m.uid .val fun _ => .done]) LReach.refl
    refine ⟨S, h1, fun S' hS' => C72_partial hu h1 _ (.inr fun t ht => ?_) hS'⟩
    obtain ⟨c, rfl, hce⟩ := h2 t ht
    cases c with
    | call => exact hce.elim
    | _ => trivial
  · obtain ⟨S, h1, h2, _⟩ := C72_refuted_histogram (F := F) (w := w) (obj := obj) (m := m.uid) (by rw [ho]; exact hr)
      (cs := [.call m.uid (.histRecord v 1) fun _ => .done]) (i := 0) rfl
    exact ⟨S, h1, h2⟩

end Speed
