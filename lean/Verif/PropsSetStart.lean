import Verif.SetStart
import Verif.PropsRegConc
/-
C42: `Set` while `Start` is running.
-/
namespace Speed

/-! ### Executing schedules -/

section
variable {H R Me : Type}

/-- Whose step it is. -/
inductive VCh where
  | caller (i : Nat)
  | value (i : Nat)

def LSt.exec (M : Meths H R Me) (u : Nat → Upd) (s : LSt H R Me) (i : Nat) : Option (LSt H R Me) :=
  match s.thr[i]? with
  | some (.out (.call m me k)) =>
    match M.wr me, s.lock m with
    | true, ⟨false, 0⟩ => some { s with lock := fset s.lock m ⟨true, 0⟩, thr := s.thr.set i (.inn m true (M.body m me) k), log := s.log ++ [.call i m me] }
    | false, ⟨false, n⟩ => some { s with lock := fset s.lock m ⟨false, n + 1⟩, thr := s.thr.set i (.inn m false (M.body m me) k), log := s.log ++ [.call i m me] }
    | _, _ => none
  | some (.inn m w p k) =>
    match p.step (u m) (s.obj m) s.mem with
    | some (p', o', mem') => some { s with mem := mem', obj := fset s.obj m o', thr := s.thr.set i (.inn m w p' k) }
    | none =>
      match w, p, s.lock m with
      | true, .ret a, _ => some { s with lock := fset s.lock m ⟨false, 0⟩, thr := s.thr.set i (.out (k a)), log := s.log ++ [.ret i a] }
      | false, .ret a, ⟨false, n + 1⟩ => some { s with lock := fset s.lock m ⟨false, n⟩, thr := s.thr.set i (.out (k a)), log := s.log ++ [.ret i a] }
      | _, _, _ => none
  | _ => none

def VSt.exec (M : Meths H R Me) (len : Nat) (c : VSt H R Me) : VCh → Option (VSt H R Me)
  | .caller i => (c.S.exec M c.up i).map fun S' => { c with S := S' }
  | .value i =>
    match c.vg[i]? with
    | some (.todo m s off) => ((c.S.obj m).m.cur s).map fun v => { c with vg := c.vg.set i (.busy m s off (updP len off v)) }
    | some (.busy m s off p) =>
      match p.step (c.up m) (c.S.obj m) c.S.mem with
      | some (p', o', mem') => some { c with S := { c.S with mem := mem', obj := fset c.S.obj m o' }, vg := c.vg.set i (.busy m s off p') }
      | none =>
        match p with
        | .ret .panic => none
        | .ret _ => some { c with up := fset c.up m (fset (c.up m) s (some off)), vg := c.vg.set i (.ended m s off) }
        | _ => none
    | _ => none

def VSt.execs (M : Meths H R Me) (len : Nat) : List VCh → VSt H R Me → Option (VSt H R Me)
  | [], c => some c
  | x :: xs, c => (c.exec M len x).bind (VSt.execs M len xs)

def VG.isBusyOf (lock : Nat → RW) : VG H → Bool
  | .busy m _ _ _ => !(lock m).writer
  | _ => true

def VSt.apart (c : VSt H R Me) : Bool := c.vg.all (VG.isBusyOf c.S.lock)

/-- Through states that are `Apart`. -/
def VSt.execsQ (M : Meths H R Me) (len : Nat) : List VCh → VSt H R Me → Option (VSt H R Me)
  | [], c => some c
  | x :: xs, c => (c.exec M len x).bind fun c' => if c'.apart then VSt.execsQ M len xs c' else none

theorem LSt.exec_step {M : Meths H R Me} {u : Nat → Upd} {s s' : LSt H R Me} {i : Nat} (h : s.exec M u i = some s') : LStep M u s s' := by
  unfold LSt.exec at h
  split at h
  · rename_i m me k hi
    split at h
    · rename_i hw hl
      cases h
      exact .lock hi hw hl
    · rename_i n hw hl
      cases h
      exact .rlock hi hw hl
    · cases h
  · rename_i m w p k hi
    split at h
    · rename_i hs
      cases h
      exact .access hi hs
    · split at h
      · cases h
        exact .unlock hi
      · rename_i hl _
        cases h
        exact .runlock hi hl
      · cases h
  · cases h

theorem VSt.exec_step {M : Meths H R Me} {len : Nat} {c c' : VSt H R Me} {x : VCh} (h : c.exec M len x = some c') : VStep M len c c' := by
  unfold VSt.exec at h
  split at h
  · rename_i i
    obtain ⟨S', hS, rfl⟩ := Option.map_eq_some_iff.1 h
    exact .caller (LSt.exec_step hS)
  · rename_i i
    split at h
    · rename_i hi
      obtain ⟨v, hv, rfl⟩ := Option.map_eq_some_iff.1 h
      exact .read hi hv
    · rename_i hi
      split at h
      · rename_i hs
        cases h
        exact .write hi hs
      · split at h
        · cases h
        · rename_i a ha _
          cases h
          exact .assign hi ha
        · cases h
    · cases h

theorem VSt.execs_reach {M : Meths H R Me} {len : Nat} {c0 : VSt H R Me} : ∀ {l : List VCh} {c c' : VSt H R Me}, VReach M len c0 c →
    c.execs M len l = some c' → VReach M len c0 c'
  | [], _, _, h0, h => by cases h; exact h0
  | x :: xs, c, c', h0, h => by
    obtain ⟨c1, h1, h2⟩ := Option.bind_eq_some_iff.1 h
    exact VSt.execs_reach (h0.tail (VSt.exec_step h1)) h2

theorem VStep.keys {M : Meths H R Me} {len : Nat} {c c' : VSt H R Me} (h : VStep M len c c') : c'.vg.map VG.key = c.vg.map VG.key := by
  have key : ∀ {i : Nat} {g g' : VG H}, c.vg[i]? = some g → g'.key = g.key → (c.vg.set i g').map VG.key = c.vg.map VG.key := by
    intro i g g' hi hk
    rw [List.map_set, hk]
    exact set_id (by rw [List.getElem?_map, hi]; rfl)
  cases h with
  | caller _ => rfl
  | read hi _ => exact key hi rfl
  | write hi _ => exact key hi rfl
  | assign hi _ => exact key hi rfl

theorem QReach.keys {M : Meths H R Me} {len : Nat} {c c' : VSt H R Me} (h : QReach M len c c') : c'.vg.map VG.key = c.vg.map VG.key := by
  induction h with
  | refl => rfl
  | tail _ hs _ ih => rw [hs.keys, ih]

theorem VSt.apart_iff {c : VSt H R Me} (h : c.apart = true) : c.Apart := by
  intro i m s off p hi
  have := List.all_eq_true.1 h _ (List.mem_of_getElem? hi)
  simpa [VG.isBusyOf] using this

theorem VSt.execsQ_reach {M : Meths H R Me} {len : Nat} {c0 : VSt H R Me} : ∀ {l : List VCh} {c c' : VSt H R Me}, QReach M len c0 c →
    c.execsQ M len l = some c' → QReach M len c0 c'
  | [], _, _, h0, h => by cases h; exact h0
  | x :: xs, c, c', h0, h => by
    obtain ⟨c1, h1, h2⟩ := Option.bind_eq_some_iff.1 h
    split at h2
    · rename_i ha
      exact VSt.execsQ_reach (h0.tail (VSt.exec_step h1) (VSt.apart_iff ha)) h2
    · cases h2

end

/-! ### It is false -/

/-- An int32 metric with the value 1; the file of a registry with just this metric has 208 bytes, and the value
goes to byte 176. -/
def raceMetric : Option Metric := newPCPSingletonMetric 0 (.int32 1) sA Int32Type InstantSemantics OneUnit []
def raceObj (L : Hdr) (m : Metric) : Nat → Obj L.H := fun _ => ⟨m, ⟨false, 0⟩, L.new 0 0 0⟩
/-- A goroutine that calls `Set(2)`. -/
def raceProg : Cli Ret Meth := .call 0 (.set (.int32 2)) fun _ => .done
def raceInit (L : Hdr) (m : Metric) : VSt L.H Ret Meth :=
  vinit (raceObj L m) (zeros 208) [raceProg] (fun _ _ => 176) [(0, none)]

/-- The rest of a run, as far as it matters here. -/
def VSt.rest {H R Me : Type} (c : VSt H R Me) : Bool :=
  c.S.thr.all (fun | .out _ => true | _ => false) && c.vg.all (fun | .ended _ _ _ => true | _ => false)

theorem VSt.rest_iff {H R Me : Type} {c : VSt H R Me} (h : c.rest = true) : c.Rest := by
  unfold VSt.rest at h
  rw [Bool.and_eq_true, List.all_eq_true, List.all_eq_true] at h
  refine ⟨fun t ht => ?_, fun g hg => ?_⟩
  · have := h.1 t ht
    split at this
    · exact ⟨_, rfl⟩
    · cases this
  · have := h.2 g hg
    split at this
    · exact ⟨_, _, _, rfl⟩
    · cases this

/-- **C42** is false: `Start` reads the value 1, `Set(2)` returns nil, `Start` writes the 1 and is done. From then
on the metric says 2 and the file says 1. -/
theorem C42_refuted (F : Flops) (L : Hdr) : ∃ m c, raceMetric = some m ∧
    VReach (meths F L fun _ => fixedOf m 208) 208 (raceInit L m) c ∧ c.Rest ∧
    c.S.log = [.call 0 0 (.set (.int32 2)), .ret 0 (.ok .unit)] ∧
    (c.S.obj 0).m.cur none = some (.int32 2) ∧ c.up 0 none = some 176 ∧
    ShowsAt c.S.mem 176 (.int32 1) ∧ ¬ ShowsAt c.S.mem 176 (.int32 2) := by
  obtain ⟨m, hm, c, hc, h1, h2, h3, h4, h5⟩ : ∃ m, raceMetric = some m ∧ ∃ c,
      (raceInit L m).execs (meths F L fun _ => fixedOf m 208) 208 [.value 0, .caller 0, .caller 0, .caller 0, .caller 0, .caller 0,
        .value 0, .value 0, .value 0, .value 0, .value 0] = some c ∧ c.rest = true ∧
      c.S.log = [.call 0 0 (.set (.int32 2)), .ret 0 (.ok .unit)] ∧
      (c.S.obj 0).m.cur none = some (.int32 2) ∧ c.up 0 none = some 176 ∧
      (c.S.mem.drop 176).take 4 = newBytes (.int32 1) := ⟨_, rfl, _, rfl, rfl, rfl, rfl, rfl, rfl⟩
  have hb : ∀ k, k < 4 → c.S.mem[176 + k]? = (newBytes (.int32 1))[k]? := by
    intro k hk
    rw [← h5, List.getElem?_take, if_pos hk, List.getElem?_drop]
  refine ⟨m, c, hm, VSt.execs_reach .refl hc, VSt.rest_iff h1, h2, h3, h4, hb, fun h => ?_⟩
  have := h 0 (by decide)
  rw [hb 0 (by omega)] at this
  revert this
  decide

/-! ### What does hold -/

/-- C42, as far as it holds. If no operation that changes a metric overlaps the time in which the value goroutine
of one of that metric's values reads the value, writes it and assigns the closure, then, once `Start` and all
calls have returned, the file shows the current value of every published metric.

Not covered (and false, `C42_refuted`): operations that do overlap this time. -/
theorem C42_apart_partial {F : Flops} {L : Hdr} {obj0 : Nat → Obj L.H} {mets : Nat → Prop} {loc : Nat → Option Str → Nat} {len : Nat}
    (hL : Layout obj0 mets loc len) {mem : Buf} (hm : mem.length = len) {cs : List (Cli Ret Meth)}
    (hc : ∀ k ∈ cs, k.All (LCalls obj0 mets)) {keys : List (Nat × Option Str)} (hn : keys.Nodup)
    (hk : ∀ m s, (m, s) ∈ keys ↔ mets m ∧ s ∈ (obj0 m).m.slots) {c : VSt L.H Ret Meth}
    (hr : QReach (meths F L fun m => fixedOf (obj0 m).m len) len (vinit obj0 mem cs loc keys) c) (hq : c.Rest) :
    ∀ m, mets m → ∀ s ∈ (obj0 m).m.slots, ∃ v, (c.S.obj m).m.cur s = some v ∧ c.up m s = some (loc m s) ∧
      ShowsAt c.S.mem (loc m s) v := by
  intro m hmm s hs
  have hi := (VInv.init hL hm hc hn fun k hk' => (hk k.1 k.2).1 hk').reach hL hr
  have hkey : (m, s) ∈ c.vg.map VG.key := by
    rw [QReach.keys hr]
    have := (hk m s).2 ⟨hmm, hs⟩
    show (m, s) ∈ (keys.map _).map VG.key
    rw [List.map_map]
    exact List.mem_map.2 ⟨_, this, rfl⟩
  obtain ⟨g, hg, hgk⟩ := List.mem_map.1 hkey
  obtain ⟨m', s', off, rfl⟩ := hq.2 g hg
  simp only [VG.key, Prod.mk.injEq] at hgk
  obtain ⟨rfl, rfl⟩ := hgk
  obtain ⟨i, hgi⟩ := List.getElem?_of_mem hg
  obtain ⟨_, _, rfl, hup⟩ := hi.vg i _ hgi
  have hf := hi.free m' hmm (by rw [hi.lock.quiet hq.1])
  have hs' : s' ∈ (c.S.obj m').m.slots := by rw [slots_of_indom hf.indom]; exact hs
  obtain ⟨v, hv⟩ := Option.isSome_iff_exists.1 ((WF.slot_iff hf.wf s').1 hs')
  exact ⟨v, hv, hup, hf.shows s' hs' _ hup v hv⟩

/-- The places `Start` chose for the values of an active world are such a layout. -/
theorem Active.layout {L : Hdr} {e o w} (h : Active e o w) {obj : Nat → Obj L.H} (hobj : ∀ x ∈ w.reg.metrics, (obj x.uid).m = x) :
    Layout obj (fun m => ∃ x ∈ w.reg.metrics, x.uid = m) (fun m s => (w.upd m s).getD 0) w.mem.length := by
  obtain ⟨σ, hl, _⟩ := h.liveAt
  refine ⟨?_, ?_, hl.len, ?_, ?_⟩
  · rintro _ ⟨x, hx, rfl⟩
    rw [hobj x hx]
    exact h.wf x hx
  · rintro _ ⟨x, hx, rfl⟩ s v hv
    rw [hobj x hx] at hv
    have hs : s ∈ x.slots := (WF.slot_iff (h.wf x hx) s).2 (by rw [hv]; rfl)
    obtain ⟨v', hv', hok⟩ := hl.ok.vals x hx s hs
    rw [← cur_eq_val, hv] at hv'
    obtain rfl := Option.some.inj hv'
    cases v with
    | str t =>
      unfold ValOK at hok
      split at hok
      · obtain ⟨t', ht, hlen⟩ := hok
        cases ht
        exact hlen
      · exact (hok.1 t rfl).elim
    | _ => trivial
  · rintro _ ⟨x, hx, rfl⟩ s hs
    rw [hobj x hx] at hs ⊢
    obtain ⟨q, t, q1, q2, q3, _⟩ := hl.slot hx hs
    rw [q1, hl.file.len]
    have := (slot_range hl.ok hl.sealed q2).2.1
    simp only [Option.getD_some]
    omega
  · rintro _ _ s s' a ⟨x, hx, rfl⟩ ⟨x', hx', rfl⟩ hs hs' h1 h2 h3 h4
    rw [hobj x hx] at hs h2
    rw [hobj x' hx'] at hs' h4
    obtain ⟨q, t, q1, q2, q3, q4⟩ := hl.slot hx hs
    obtain ⟨q', t', q1', q2', q3', q4'⟩ := hl.slot hx' hs'
    rw [q1] at h1 h2
    rw [q1'] at h3 h4
    simp only [Option.getD_some] at h1 h2 h3 h4
    by_contra hne
    have htt : t ≠ t' := by
      rintro rfl
      rcases q4 with rfl | rfl <;> rcases q4' with e | e <;>
        first | (injection e with e1 e2; exact hne ⟨e1, e2⟩) | (injection e)
    have := slot_disj hl.ok hl.sealed q2 q2' htt
    omega

/-- The same metric, `Start` and `Set(2)`: a layout, a run whose steps are all `Apart` (the value goroutine, then
`Set`), and so the file shows the 2. -/
theorem race_layout (L : Hdr) {m : Metric} (hm : raceMetric = some m) : Layout (raceObj L m) (· = 0) (fun _ _ => 176) 208 := by
  have hw : m.WF := (MadeMetric.singleton hm).wf
  obtain ⟨h1, h2, h3⟩ : m.slots = [none] ∧ width m.desc.t = 4 ∧ m.cur none = some (.int32 1) := by
    obtain ⟨m', hm', h⟩ : ∃ m', raceMetric = some m' ∧ m'.slots = [none] ∧ width m'.desc.t = 4 ∧ m'.cur none = some (.int32 1) :=
      ⟨_, rfl, rfl, rfl, rfl⟩
    obtain rfl := Option.some.inj (hm.symm.trans hm')
    exact h
  refine ⟨fun _ _ => hw, fun _ _ s v hv => ?_, by decide, fun _ _ s _ => ?_, fun a b s s' x ha hb hs hs' _ _ _ _ => ?_⟩
  · have hs : s ∈ m.slots := (WF.slot_iff hw s).2 (by rw [show m.cur s = some v from hv]; rfl)
    rw [h1, List.mem_singleton] at hs
    subst hs
    have := h3.symm.trans hv
    cases this
    trivial
  · show 176 + width m.desc.t ≤ 208
    omega
  · change s ∈ m.slots at hs
    change s' ∈ m.slots at hs'
    rw [h1, List.mem_singleton] at hs hs'
    exact ⟨ha.trans hb.symm, hs.trans hs'.symm⟩

example (F : Flops) (L : Hdr) : ∃ m c, raceMetric = some m ∧ Layout (raceObj L m) (· = 0) (fun _ _ => 176) 208 ∧
    (∀ k ∈ [raceProg], k.All (LCalls (raceObj L m) (· = 0))) ∧
    QReach (meths F L fun _ => fixedOf m 208) 208 (raceInit L m) c ∧ c.Rest ∧
    c.S.log = [.call 0 0 (.set (.int32 2)), .ret 0 (.ok .unit)] ∧ (c.S.obj 0).m.cur none = some (.int32 2) := by
  obtain ⟨m, hm, hi, c, hc, h1, h2, h3⟩ : ∃ m, raceMetric = some m ∧ m.indom = none ∧ ∃ c,
      (raceInit L m).execsQ (meths F L fun _ => fixedOf m 208) 208 [.value 0, .value 0, .value 0, .value 0, .value 0, .value 0,
        .caller 0, .caller 0, .caller 0, .caller 0, .caller 0, .caller 0, .caller 0, .caller 0, .caller 0] = some c ∧ c.rest = true ∧
      c.S.log = [.call 0 0 (.set (.int32 2)), .ret 0 (.ok .unit)] ∧
      (c.S.obj 0).m.cur none = some (.int32 2) := ⟨_, rfl, rfl, _, rfl, rfl, rfl, rfl⟩
  refine ⟨m, c, hm, race_layout L hm, fun k hk => ?_, VSt.execsQ_reach .refl hc, VSt.rest_iff h1, h2, h3⟩
  obtain rfl := List.mem_singleton.1 hk
  exact ⟨⟨rfl, trivial, fun _ => hi⟩, fun _ => trivial⟩

/-- The accesses of the value goroutine and of `Set` to the value are not ordered by anything: a run reaches a state
in which `Start` is about to read the value and `Set`, which holds the mutex, is about to assign it. -/
theorem C42_race (F : Flops) (L : Hdr) : ∃ m c, raceMetric = some m ∧
    VReach (meths F L fun _ => fixedOf m 208) 208 (raceInit L m) c ∧
    c.vg[0]? = some (.todo 0 none 176) ∧ ∃ v p k, c.S.thr[0]? = some (.inn 0 true (.store none v p) k) := by
  obtain ⟨m, hm, c, hc, h1, h2⟩ : ∃ m, raceMetric = some m ∧ ∃ c,
      (raceInit L m).execs (meths F L fun _ => fixedOf m 208) 208 [.caller 0, .caller 0, .caller 0] = some c ∧
      c.vg[0]? = some (.todo 0 none 176) ∧ ∃ v p k, c.S.thr[0]? = some (.inn 0 true (.store none v p) k) :=
    ⟨_, rfl, _, rfl, rfl, _, _, _, rfl⟩
  exact ⟨m, c, hm, VSt.execs_reach .refl hc, h1, h2⟩

end Speed
