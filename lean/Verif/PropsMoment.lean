import Verif.Moment
/-
C78: what a program that reads the file finds while goroutines use the metrics.
-/
namespace Speed

open Dump

section
variable {F : Flops} {L : Hdr}

/-- A goroutine is inside the update closure of value `s` of metric `m`, or has just left it. -/
def LSt.Writing (S : LSt L.H Ret Meth) (m : Nat) (s : Option Str) : Prop :=
  ∃ (i : Nat) (p : MProc L.H Ret) (k : Ans Ret → Cli Ret Meth), S.thr[i]? = some (.inn m true p k) ∧ p.InUpd s

/-- C78, partial: at any moment, also while goroutines are inside operations, `Dump` accepts the file, and it finds
the registry with all its metrics and values; and every value that no goroutine is just writing is the one the
metric has at this moment. All records are at the same addresses at all times. -/
theorem C78_partial {e o w obj cs} (h : Users (L := L) e o w obj cs) :
    ∃ A, ∀ S, Runs F L w obj cs S → ∃ r', r' = { w.reg with metrics := r'.metrics } ∧
      List.Forall₂ (fun m m' : Metric => m'.shape = m.shape ∧
        ∀ s ∈ m.slots, ¬ S.Writing m.uid s → m'.cur s = (S.obj m.uid).m.cur s) w.reg.metrics r'.metrics ∧
      ∀ out, Dumps S.mem out → ∃ D, out = .ok D ∧ D.header = hdrOf w.reg e ∧ DescribesAt r' D A := by
  obtain ⟨σ, hl, hio⟩ := h.act.liveAt
  refine ⟨addrsOf σ, fun S hS => ?_⟩
  have hM := h.moment hS
  let P : Metric → Option Str → GoVal → Prop := fun x s v => Typed x.desc.t v ∧ Fits v ∧
    (∀ off, w.upd x.uid s = some off → ShowsAt S.mem off v) ∧ (¬ S.Writing x.uid s → (S.obj x.uid).m.cur s = some v)
  have hP : ∀ x ∈ w.reg.metrics, ∀ s ∈ x.slots, ∃ v, P x s v := by
    intro x hx s hs
    obtain ⟨h1, h2, h3⟩ := hM.objs x hx
    have hsome := (WF.slot_iff h1 s).1 (by rw [shape_slots h2]; exact hs)
    obtain ⟨v, hv⟩ := Option.isSome_iff_exists.1 hsome
    have ht : Typed x.desc.t v := by rw [← shape_desc h2]; exact WF.cur_typed h1 hv
    obtain ⟨h4, h5⟩ := h3 s hs v hv
    rcases h5 with h5 | h5
    · exact ⟨v, ht, h4, h5, fun _ => hv⟩
    · obtain ⟨off, _, ho⟩ := hl.updAt hx hs
      have hr := h.act.slot_room hx hs ho
      rw [← hM.len] at hr
      obtain ⟨v', h6, h7, h8⟩ := decode ht (l := (S.mem.drop off).take (width x.desc.t)) (by
        rw [List.length_take, List.length_drop]; omega)
      refine ⟨v', h6, h7, fun off' ho' j hj => ?_, fun hn => absurd h5 hn⟩
      obtain rfl := Option.some.inj (ho.symm.trans ho')
      rw [newBytes_len h6 h7] at hj
      rw [h8, List.getElem?_take_of_lt hj, List.getElem?_drop]
  have hP' : ∀ uid s, ∃ v, ∀ x ∈ w.reg.metrics, x.uid = uid → s ∈ x.slots → P x s v := by
    intro uid s
    by_cases hx : ∃ x ∈ w.reg.metrics, x.uid = uid ∧ s ∈ x.slots
    · obtain ⟨x, hx, rfl, hs⟩ := hx
      obtain ⟨v, hv⟩ := hP x hx s hs
      exact ⟨v, fun y hy he _ => by rw [eq_of_uid hl.ok.metricUid hy hx he]; exact hv⟩
    · exact ⟨.other, fun x hx1 he hs => absurd ⟨x, hx1, he, hs⟩ hx⟩
  choose f hf using hP'
  let l := w.reg.metrics.flatMap fun x => x.slots.map fun s => (x.uid, s)
  have hl' : ∀ x ∈ w.reg.metrics, ∀ s ∈ x.slots, (x.uid, s) ∈ l := fun x hx s hs =>
    List.mem_flatMap.2 ⟨x, hx, List.mem_map.2 ⟨s, hs, rfl⟩⟩
  obtain ⟨r', q1, q2⟩ := hl.overlay f l
    (fun x hx s hs _ => ⟨(hf x.uid s x hx rfl hs).1, (hf x.uid s x hx rfl hs).2.1⟩) hM.len
    (fun x hx s hs _ => (hf x.uid s x hx rfl hs).2.2.1)
    (fun a ha => hM.rest a fun m hr => by
      obtain ⟨x, hx, rfl, s, hs, off, ho, a1, a2⟩ := hr
      exact ha x hx s hs (hl' x hx s hs) off ho ⟨a1, a2⟩)
  refine ⟨r', q2.rest, forall₂_imp_mem q2.mets fun x hx x' hxx => ⟨hxx.1, fun s hs hn => ?_⟩, fun out hd => ?_⟩
  · rw [hxx.2 s hs, if_pos (hl' x hx s hs)]
    exact ((hf x.uid s x hx rfl hs).2.2.2 hn).symm
  · obtain ⟨D, d1, d2, d3⟩ := q1.dump (by rw [q2.rest]; exact hio) hd
    refine ⟨D, d1, ?_, d3⟩
    obtain ⟨ms, rfl⟩ : ∃ ms, r' = { w.reg with metrics := ms } := ⟨_, q2.rest⟩
    have hlen : w.reg.metrics.length = ms.length := q2.mets.length_eq
    rw [d2]
    unfold hdrOf Reg.tocCount Reg.StringCount Reg.MetricCount
    rw [← hlen]
    rfl

/-- C78: at any moment at most one value of each metric is being written, by one goroutine. -/
theorem C78_one {e o w obj cs S} (h : Users (L := L) e o w obj cs) (hS : Runs F L w obj cs S) {m : Nat} {s s' : Option Str}
    (h1 : S.Writing m s) (h2 : S.Writing m s') : s = s' := by
  obtain ⟨i, p, k, hi, hp⟩ := h1
  obtain ⟨j, q, k', hj, hq⟩ := h2
  obtain ⟨T, _, _, hs⟩ := h.sim hS
  obtain ⟨rfl, _⟩ := hs.locks.alone hj hi
  rw [hi] at hj
  cases hj
  exact hp.unique hq

/-! ### What is false -/

/-- A goroutine writes some bytes. -/
theorem bytes_run {M : Meths L.H Ret Meth} {u : Nat → Upd} {S : LSt L.H Ret Meth} {i m : Nat} {data : List Byte} {f : Unit → MProc L.H Ret} {k}
    {a : Nat} (hi : S.thr[i]? = some (.inn m true ((bytesP a data).bind f) k)) :
    ∃ S', LReach M u S S' ∧ S'.thr[i]? = some (.inn m true (f ()) k) ∧ S'.mem = place S.mem a data := by
  induction data generalizing S a with
  | nil => exact ⟨S, .refl, hi, rfl⟩
  | cons c data ih =>
    let S1 : LSt L.H Ret Meth := { S with
      mem := S.mem.set a c, obj := fset S.obj m (S.obj m), thr := S.thr.set i (.inn m true ((bytesP (a + 1) data).bind f) k) }
    have hst : LStep M u S S1 := .access hi rfl
    obtain ⟨S', h1, h2, h3⟩ := ih (S := S1) (a := a + 1) (by
      show (S.thr.set i _)[i]? = _
      rw [get_set hi, if_pos rfl])
    exact ⟨S', LReach.trans (.tail .refl hst) h1, h2, h3⟩

/-- The accesses of `Set` up to the closure: the old value and the closure are read. -/
theorem setMeth_closure {m : Metric} (hw : m.WF) {s : Option Str} {v old : GoVal} (hold : m.cur s = some old)
    (hc : isCompatible m.desc.t v = true) (hne : goEq (resolve m.desc.t v) old = false) {len off : Nat} :
    ∃ (k : Option GoVal → MProc L.H Ret), (setMeth s v).body F L (fixedOf m len) = .load s k ∧
      ∃ (k' : Option Nat → MProc L.H Ret), k (some old) = .upd s k' ∧
        k' (some off) = ((updP len off (resolve m.desc.t v)).bind fun _ => .store s (resolve m.desc.t v) (.ret (.ok ()))).unit := by
  have key : ∃ (k' : Option Nat → MProc L.H Ret), (storeValP len s old (resolve m.desc.t v)).unit = .upd s k' ∧
      k' (some off) = ((updP len off (resolve m.desc.t v)).bind fun _ => .store s (resolve m.desc.t v) (.ret (.ok ()))).unit := by
    unfold storeValP
    rw [if_neg (by simp [hne])]
    exact ⟨_, rfl, rfl⟩
  cases s with
  | none =>
    simp only [setMeth, Meth.body, MProc.unit, setP, fixedOf, hc, Bool.true_eq_false, if_false, MProc.bind]
    exact ⟨_, rfl, key⟩
  | some n =>
    have hn : m.hasInst n = true := by rw [← WF.cur_iff hw, hold]; rfl
    simp only [setMeth, Meth.body, MProc.unit, setInstanceP, fixedOf, hc, hn, Bool.true_eq_false, if_false, MProc.bind]
    exact ⟨_, rfl, key⟩

/-- C78 is false for strings: whenever a goroutine sets a string value to another string, there is a moment at which
the file shows the empty string, whatever the old and the new string are. (The closure clears the 256 bytes
before it writes, metrics.go:545.) -/
theorem C78_refuted {e o w obj cs} (h : Users (L := L) e o w obj cs) {m : Metric} (hm : m ∈ w.reg.metrics)
    {s : Option Str} (hs : s ∈ m.slots) (ht : m.desc.t = StringType) {x old : Str}
    (hold : m.cur s = some (.str old)) (hne : x ≠ old)
    {i : Nat} {k} (hi : cs[i]? = some (.call m.uid (setMeth s (.str x)) k)) :
    ∃ S, Runs F L w obj cs S ∧ ∀ out, Dumps S.mem out →
      ∃ D A, out = .ok D ∧ DescribesAt (w.reg.setMetric (m.put s (.str []))) D A := by
  obtain ⟨σ, hl, hio⟩ := h.act.liveAt
  obtain ⟨off, hoff, hu⟩ := hl.updAt hm hs
  have hg := h.act.good hm
  have hc : isCompatible m.desc.t (.str x) = true := by rw [ht]; rfl
  have hres : resolve m.desc.t (.str x) = .str x := rfl
  have hgo : goEq (resolve m.desc.t (.str x)) (.str old) = false := by rw [hres]; simp [goEq, hne]
  obtain ⟨k1, e1, k2, e2, e3⟩ := setMeth_closure (F := F) (L := L) (len := w.mem.length) (off := off) hg.wf hold hc hgo
  have hfx : w.fixed m.uid = fixedOf m w.mem.length := Live.fixed_eq hl.ok.metricUid hm
  have hwr : Meth.wr (setMeth s (.str x)) = true := by cases s <;> rfl
  obtain ⟨S1, r1, t1, o1, m1⟩ : ∃ S1, Runs F L w obj cs S1 ∧ S1.thr[i]? = some (.inn m.uid true (.load s k1) k) ∧ S1.obj = obj ∧ S1.mem = w.mem := by
    have hi' : (LSt.init obj w.mem cs).thr[i]? = some (.out (.call m.uid (setMeth s (.str x)) k)) := by simp [LSt.init, hi]
    refine ⟨_, .tail .refl (.lock hi' hwr rfl), ?_, rfl, rfl⟩
    dsimp only
    rw [get_set hi', if_pos rfl]
    show some (Thr.inn m.uid true ((setMeth s (.str x)).body F L (w.fixed m.uid)) k) = _
    rw [hfx, e1]
  obtain ⟨S2, r2, t2, m2⟩ : ∃ S2, Runs F L w obj cs S2 ∧ S2.thr[i]? = some (.inn m.uid true (.upd s k2) k) ∧ S2.mem = w.mem := by
    refine ⟨_, .tail r1 (.access t1 rfl), ?_, m1⟩
    dsimp only
    rw [get_set t1, if_pos rfl, o1, h.obj m hm, hold, e2]
  have hroom := h.act.slot_room hm hs hu
  rw [ht] at hroom
  have hroom' : off + 256 ≤ w.mem.length := hroom
  obtain ⟨f, hf⟩ : ∃ f, k2 (some off) = (bytesP off (zeros StringLength)).bind f := by
    rw [e3, hres]
    have : (updP w.mem.length off (.str x) : MProc L.H Unit) =
        (bytesP off (zeros StringLength)).bind fun _ => writeP w.mem.length off x := by
      unfold updP
      dsimp only
      exact if_pos hroom'
    rw [this]
    have key : ∀ {α β γ : Type} (a : Nat) (l : List Byte) (q : Unit → MProc L.H α) (g : α → MProc L.H β) (g' : β → MProc L.H γ),
        ∃ f, (((bytesP a l).bind q).bind g).bind g' = (bytesP a l).bind f := by
      intro α β γ a l q g g'
      refine ⟨fun _ => ((q ()).bind g).bind g', ?_⟩
      induction l generalizing a with
      | nil => rfl
      | cons c l ih => exact congrArg _ (ih _)
    exact key _ _ _ _ _
  obtain ⟨S3, r3, t3, m3⟩ : ∃ S3, Runs F L w obj cs S3 ∧ S3.thr[i]? = some (.inn m.uid true ((bytesP off (zeros StringLength)).bind f) k) ∧ S3.mem = w.mem := by
    refine ⟨_, .tail r2 (.access t2 rfl), ?_, m2⟩
    dsimp only
    rw [get_set t2, if_pos rfl, hu, hf]
  obtain ⟨S4, r4, _, m4⟩ := bytes_run (M := meths F L w.fixed) (u := w.upd) t3
  refine ⟨S4, LReach.trans r3 r4, fun out hd => ?_⟩
  obtain ⟨u, hu2, _, _, hlive⟩ := hl.store (old := .str old) hm hs (v := .str [])
    (.inr (.inr (.inr (.inr (.inr (.inr ⟨ht, _, rfl⟩)))))) (by show ([] : Str).length ≤ 256; decide)
  obtain rfl := Option.some.inj (hoff.symm.trans hu2)
  have hmem : S4.mem = place w.mem off (newBytes (.str [])) := by
    rw [m4, m3]
    show _ = place w.mem off (pad StringLength [])
    unfold pad
    rw [List.nil_append, List.length_nil, Nat.sub_zero]
  rw [hmem] at hd
  generalize newBytes (.str []) = bs at hd hlive
  obtain ⟨D, d1, _, d3⟩ := hlive.dump hio hd
  exact ⟨D, _, d1, d3⟩

end

/-- A goroutine that sets the string of the sample client and one that reads it. -/
theorem sample_string (L : Hdr) (h0 : L.H) : ∃ (e : Env) (o : Ord) (w : Live) (m : Metric) (obj : Nat → Obj L.H),
    m ∈ w.reg.metrics ∧ m.desc.t = StringType ∧ none ∈ m.slots ∧ m.cur none = some (.str sD) ∧
    Users e o w obj [.call m.uid (setMeth none (.str sA)) fun _ => .done, .call m.uid .val fun _ => .done] := by
  obtain ⟨s, hs⟩ := sample_started
  obtain ⟨m, hm, ht, hsl, hc, hind⟩ : ∃ m ∈ sampleReg.metrics, m.desc.t = StringType ∧ none ∈ m.slots ∧ m.cur none = some (.str sD) ∧ m.indom = none := by
    decide
  let w : Live := ⟨sampleReg, s.mem, s.cells⟩
  have h : Active _ _ w := Active.start hs
  obtain ⟨σ, hl, _⟩ := h.liveAt
  let obj : Nat → Obj L.H := fun uid => ⟨(w.reg.metrics.find? (fun x => x.uid = uid)).getD m, ⟨false, 0⟩, h0⟩
  have hobj : ∀ x ∈ w.reg.metrics, (obj x.uid).m = x := by
    intro x hx
    show (w.reg.metrics.find? (fun y => y.uid = x.uid)).getD m = x
    cases hf : w.reg.metrics.find? (fun y => y.uid = x.uid) with
    | none => have := List.find?_eq_none.1 hf x hx; simp at this
    | some y =>
      have he := List.find?_some hf
      simp only [decide_eq_true_eq] at he
      exact eq_of_uid hl.ok.metricUid (List.mem_of_find?_eq_some hf) hx he
  refine ⟨_, _, w, m, obj, hm, ht, hsl, hc, h, hobj, fun c hcs => ?_⟩
  simp only [List.mem_cons, List.not_mem_nil, or_false] at hcs
  rcases hcs with rfl | rfl
  · exact ⟨⟨m, hm, rfl, by show sA.length ≤ 256; decide, fun _ => hind⟩, fun _ => trivial⟩
  · exact ⟨⟨m, hm, rfl, trivial, fun _ => hind⟩, fun _ => trivial⟩

/-- In the sample client there is a moment at which the file shows the empty string, though the string was never
empty; it is the moment when the goroutine is writing this value. -/
example (F : Flops) (L : Hdr) (h0 : L.H) : ∃ (e : Env) (o : Ord) (w : Live) (m : Metric) (obj : Nat → Obj L.H) (cs : List (Cli Ret Meth)),
    Users e o w obj cs ∧ m ∈ w.reg.metrics ∧ m.cur none = some (.str sD) ∧ trimNul sD ≠ [] ∧ trimNul sA ≠ [] ∧
    cs = [.call m.uid (.set (.str sA)) fun _ => .done, .call m.uid .val fun _ => .done] ∧
    ∃ S, Runs F L w obj cs S ∧ ∀ out, Dumps S.mem out →
      ∃ D A, out = .ok D ∧ DescribesAt (w.reg.setMetric (m.put none (.str []))) D A := by
  obtain ⟨e, o, w, m, obj, hm, ht, hsl, hc, hu⟩ := sample_string L h0
  exact ⟨e, o, w, m, obj, _, hu, hm, hc, by decide, by decide, rfl,
    C78_refuted hu hm hsl ht hc (by decide) (i := 0) rfl⟩

end Speed
