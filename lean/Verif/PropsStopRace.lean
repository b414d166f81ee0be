import Verif.StopRace
/-
C71: `Stop` while goroutines use values.
-/
namespace Speed

open Dump

section
variable {F : Flops} {L : Hdr}

/-- Goroutines run the programs `cs` on the metrics of the active client `w`, and the client may be stopped at any
moment: they can reach `T`. -/
def StopRuns (F : Flops) (L : Hdr) (w : Live) (obj : Nat → Obj L.H) (cs : List (Cli Ret Meth)) (T : USt L.H Ret Meth) : Prop :=
  UReach (meths F L w.fixed) w.upd ⟨LSt.init obj w.mem cs, true⟩ T

/-- C71, partial: until `Stop` unmaps the memory nobody faults, and the goroutines do what they do without `Stop`,
so C20 applies. -/
theorem C71_before_partial {w : Live} {obj cs T} (hT : StopRuns F L w obj cs T) (hm : T.mapped = true) :
    Runs F L w obj cs T.s ∧ ¬ T.Faults :=
  ⟨hT.before hm, fun h => by rw [h.1] at hm; cases hm⟩

/-- C71, partial: if `Stop` unmaps the memory when no goroutine is inside an operation that changes a value, and
none of them calls one afterwards, nobody ever writes to the unmapped memory; reading values goes on as before
(C20). -/
theorem C71_readers_partial {e o w obj cs S} (h : Users (L := L) e o w obj cs) (hS : Runs F L w obj cs S)
    (hq : ∀ t ∈ S.thr, t.Reads Meth.wr) {T} (hT : UReach (meths F L w.fixed) w.upd ⟨S, false⟩ T) :
    Runs F L w obj cs T.s ∧ ¬ T.Faults := by
  obtain ⟨_, h2⟩ := hT.after
  refine ⟨LReach.trans hS h2, ?_⟩
  rintro ⟨_, i, m, wr, a, b, p, k, hi⟩
  have hr := h2.reads (M := meths F L w.fixed) hq _ (List.mem_of_getElem? hi)
  obtain ⟨U, _, _, hs⟩ := h.sim (LReach.trans hS h2)
  exact (hs.inns i m wr _ k hi).2.2.2 hr.1

/-- `Set` or `SetInstance`. -/
def setMeth : Option Str → GoVal → Meth
  | none, v => .set v
  | some n, v => .setInstance v n

/-- The first access of an update closure is a write to the mapped memory. -/
theorem updP_byte {t : MetricType} {v : GoVal} (hv : Typed t v) (hf : Fits v) {off len : Nat} {H : Type}
    (h : off + (newBytes v).length ≤ len) : ∃ b p, (updP len off v : MProc H Unit) = .byte off b p := by
  rcases hv with ⟨rfl, x, rfl⟩ | ⟨rfl, x, rfl⟩ | ⟨rfl, x, rfl⟩ | ⟨rfl, x, rfl⟩ | ⟨rfl, x, rfl⟩ | ⟨rfl, x, rfl⟩ | ⟨rfl, x, rfl⟩
  case inr.inr.inr.inr.inr.inr =>
    have hs : x.length ≤ 256 := hf
    have hl : (newBytes (.str x)).length = 256 := by show (pad StringLength x).length = _; rw [pad_length hs]
    unfold updP
    dsimp only
    rw [if_pos (by show off + 256 ≤ _; omega)]
    exact ⟨_, _, rfl⟩
  all_goals
    unfold updP
    simp only [newBytes, binaryWrite, Option.getD_some] at h ⊢
    unfold writeP
    rw [if_pos h]
    exact ⟨_, _, rfl⟩

/-- The accesses of `Set` up to the first byte: the old value and the closure are read. -/
theorem setMeth_body {m : Metric} (hw : m.WF) {s : Option Str} {v old : GoVal} (hold : m.cur s = some old)
    (hc : isCompatible m.desc.t v = true) (hne : goEq (resolve m.desc.t v) old = false) {len off : Nat} (hf : Fits v)
    (hroom : off + (newBytes (resolve m.desc.t v)).length ≤ len) :
    ∃ (k : Option GoVal → MProc L.H Ret), (setMeth s v).body F L (fixedOf m len) = .load s k ∧
      ∃ (k' : Option Nat → MProc L.H Ret), k (some old) = .upd s k' ∧ ∃ b p, k' (some off) = .byte off b p := by
  obtain ⟨b, p, hp⟩ := updP_byte (H := L.H) (resolve_typed hc) (resolve_fits hf) hroom
  have key : ∃ (k' : Option Nat → MProc L.H Ret), (storeValP len s old (resolve m.desc.t v)).unit = .upd s k' ∧
      ∃ b p, k' (some off) = .byte off b p := by
    unfold storeValP
    rw [if_neg (by simp [hne])]
    refine ⟨_, rfl, b, (p.bind fun _ => .store s (resolve m.desc.t v) (.ret (.ok ()))).unit, ?_⟩
    dsimp only
    rw [hp]
    rfl
  cases s with
  | none =>
    simp only [setMeth, Meth.body, MProc.unit, setP, fixedOf, hc, Bool.true_eq_false, if_false, MProc.bind]
    exact ⟨_, rfl, key⟩
  | some n =>
    have hn : m.hasInst n = true := by rw [← WF.cur_iff hw, hold]; rfl
    simp only [setMeth, Meth.body, MProc.unit, setInstanceP, fixedOf, hc, hn, Bool.true_eq_false, if_false, MProc.bind]
    exact ⟨_, rfl, key⟩

/-- C71 is false: whenever some goroutine `i` is about to set a value of an active client to something else, `Stop`
in another goroutine can come between its reading of the closure and its first write; the goroutine then writes
to memory that is not mapped, and the process dies. -/
theorem C71_refuted {e o w obj cs} (h : Users (L := L) e o w obj cs) {m : Metric} (hm : m ∈ w.reg.metrics)
    {s : Option Str} (hs : s ∈ m.slots) {v old : GoVal} (hf : Fits v) (hc : isCompatible m.desc.t v = true)
    (hold : m.cur s = some old) (hne : goEq (resolve m.desc.t v) old = false)
    {i : Nat} {k} (hi : cs[i]? = some (.call m.uid (setMeth s v) k)) :
    ∃ T, StopRuns F L w obj cs T ∧ T.Faults := by
  obtain ⟨σ, hl, _⟩ := h.act.liveAt
  obtain ⟨off, _, hu⟩ := hl.updAt hm hs
  have hg := h.act.good hm
  have hroom : off + (newBytes (resolve m.desc.t v)).length ≤ w.mem.length :=
    hg.room s hs off hu _ (resolve_typed hc) (resolve_fits hf)
  obtain ⟨k1, e1, k2, e2, b, p, e3⟩ := setMeth_body (F := F) (L := L) hg.wf hold hc hne hf hroom
  have hfx : w.fixed m.uid = fixedOf m w.mem.length := Live.fixed_eq hl.ok.metricUid hm
  have hwr : Meth.wr (setMeth s v) = true := by cases s <;> rfl
  obtain ⟨S1, r1, t1, o1⟩ : ∃ S1, Runs F L w obj cs S1 ∧ S1.thr[i]? = some (.inn m.uid true (.load s k1) k) ∧ S1.obj = obj := by
    have hi' : (LSt.init obj w.mem cs).thr[i]? = some (.out (.call m.uid (setMeth s v) k)) := by simp [LSt.init, hi]
    refine ⟨_, .tail .refl (.lock hi' hwr rfl), ?_, rfl⟩
    dsimp only
    rw [get_set hi', if_pos rfl]
    show some (Thr.inn m.uid true ((setMeth s v).body F L (w.fixed m.uid)) k) = _
    rw [hfx, e1]
  obtain ⟨S2, r2, t2⟩ : ∃ S2, Runs F L w obj cs S2 ∧ S2.thr[i]? = some (.inn m.uid true (.upd s k2) k) := by
    refine ⟨_, .tail r1 (.access t1 rfl), ?_⟩
    dsimp only
    rw [get_set t1, if_pos rfl, o1, h.obj m hm, hold, e2]
  obtain ⟨S3, r3, t3⟩ : ∃ S3, Runs F L w obj cs S3 ∧ S3.thr[i]? = some (.inn m.uid true (.byte off b p) k) := by
    refine ⟨_, .tail r2 (.access t2 rfl), ?_⟩
    dsimp only
    rw [get_set t2, if_pos rfl, hu, e3]
  exact ⟨⟨S3, false⟩, .tail (.of_ops .refl r3) .unmap, rfl, i, _, _, _, _, _, _, t3⟩

end

/-- Two goroutines that use the counter of the sample client: one sets it, one reads it. -/
theorem sample_users (L : Hdr) (h0 : L.H) : ∃ (e : Env) (o : Ord) (w : Live) (m : Metric) (obj : Nat → Obj L.H) (old : GoVal),
    m ∈ w.reg.metrics ∧ m.desc.t = Int64Type ∧ none ∈ m.slots ∧ m.cur none = some old ∧ goEq (.int64 77) old = false ∧
    (obj m.uid).h = h0 ∧
    Users e o w obj [.call m.uid (.set (.int64 77)) fun _ => .done, .call m.uid .val fun _ => .done] := by
  obtain ⟨e, o, w, m, _, h, hm, _, _, hc, _⟩ := sample_active
  obtain ⟨σ, hl, _⟩ := h.liveAt
  have ht : m.desc.t = Int64Type := by
    have := hl.typed m hm none _ hc
    rcases this with ⟨_, x, hx⟩ | ⟨_, x, hx⟩ | ⟨_, x, hx⟩ | ⟨_, x, hx⟩ | ⟨_, x, hx⟩ | ⟨_, x, hx⟩ | ⟨_, x, hx⟩ <;>
      first | assumption | cases hx
  let obj : Nat → Obj L.H := fun uid => ⟨(w.reg.metrics.find? (fun x => x.uid = uid)).getD m, ⟨false, 0⟩, h0⟩
  have hobj : ∀ x ∈ w.reg.metrics, (obj x.uid).m = x := by
    intro x hx
    show (w.reg.metrics.find? (fun y => y.uid = x.uid)).getD m = x
    cases hf : w.reg.metrics.find? (fun y => y.uid = x.uid) with
    | none => have := List.find?_eq_none.1 hf x hx; simp at this
    | some y =>
      have he := List.find?_some hf
      simp only [decide_eq_true_eq] at he
      exact eq_of_uid hl.ok.metricUid (List.mem_of_find?_eq_some hf) hx he
  have hind : m.indom = none := by
    unfold Metric.cur at hc
    unfold Metric.indom
    cases hb : m.body with
    | single v => rfl
    | inst d vs => rw [hb] at hc; cases hc
  have hsl : none ∈ m.slots := by
    unfold Metric.indom at hind
    unfold Metric.slots
    cases hb : m.body with
    | single v => simp
    | inst d vs => rw [hb] at hind; cases hind
  have hu : Users e o w obj [.call m.uid (.set (.int64 77)) fun _ => .done, .call m.uid .val fun _ => .done] := by
    refine ⟨h, hobj, fun c hcs => ?_⟩
    simp only [List.mem_cons, List.not_mem_nil, or_false] at hcs
    rcases hcs with rfl | rfl
    · exact ⟨⟨m, hm, rfl, trivial, fun _ => hind⟩, fun _ => trivial⟩
    · exact ⟨⟨m, hm, rfl, trivial, fun _ => hind⟩, fun _ => trivial⟩
  exact ⟨e, o, w, m, obj, _, hm, ht, hsl, hc, by decide, rfl, hu⟩

/-- The statements are not empty: in the sample client, a goroutine that sets the counter and one that reads it:
`Stop` at the beginning kills the process if the first one then runs; and after the first one is done it does
no harm. -/
example (F : Flops) (L : Hdr) (h0 : L.H) : ∃ (e : Env) (o : Ord) (w : Live) (m : Metric) (obj : Nat → Obj L.H) (cs : List (Cli Ret Meth)),
    m ∈ w.reg.metrics ∧ Users e o w obj cs ∧ cs = [.call m.uid (.set (.int64 77)) fun _ => .done, .call m.uid .val fun _ => .done] ∧
    (∃ T, StopRuns F L w obj cs T ∧ T.Faults) ∧
    ∃ S, Runs F L w obj cs S ∧ (∀ t ∈ S.thr, t.Reads Meth.wr) := by
  obtain ⟨e, o, w, m, obj, old, hm, ht, hsl, hc, hne, _, hu⟩ := sample_users L h0
  refine ⟨e, o, w, m, obj, _, hm, hu, rfl, ?_, ?_⟩
  · exact C71_refuted hu hm hsl (v := .int64 77) trivial (by rw [ht]; decide) hc (by rw [ht]; exact hne) (i := 0) rfl
  · obtain ⟨S, h1, h2⟩ := C20_no_deadlock (F := F) (L := L) (w := w) (obj := obj) (S := LSt.init obj w.mem _)
      (cs := [.call m.uid (.set (.int64 77)) fun _ => .done, .call m.uid .val fun _ => .done]) LReach.refl
    refine ⟨S, h1, fun t ht => ?_⟩
    obtain ⟨c, rfl, hce⟩ := h2 t ht
    cases c with
    | call => exact hce.elim
    | _ => trivial

end Speed
