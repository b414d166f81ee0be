import Verif.PropsConc
/-
`Start` running while other goroutines call operations of the metrics.

`Start` writes each value in a goroutine of its own: client.go:516-519 for a singleton metric, client.go:543-546
for each instance of an instance metric. That goroutine reads the current value, writes it to the file
(`writeValue`, client.go:603-617) and then assigns the update closure. It does not take the mutex of the metric.
The operations are those of `Mutex.lean`; while the closure of a value is nil they only change the value
(metrics.go:580-590, 1012-1023).

Simplifications:
* the offset a value goroutine writes to is given (`off`): it received it from a channel before (client.go:513,
  539; for strings client.go:607), and neither this nor the other goroutines of `Start` read or write the
  values, the closures or the bytes at that offset (`StartProg.lean`, C02);
* memory is sequentially consistent; reading and assigning the value or the closure are single steps.
-/
namespace Speed

section
variable {H R Me : Type}

/-- The goroutine that publishes value `s` of metric `m`. -/
inductive VG (H : Type) where
  /-- before `m.val` is read -/
  | todo (m : Nat) (s : Option Str) (off : Nat)
  /-- inside `update(val)` -/
  | busy (m : Nat) (s : Option Str) (off : Nat) (p : MProc H Unit)
  /-- the closure has been assigned -/
  | ended (m : Nat) (s : Option Str) (off : Nat)

def VG.key : VG H → Nat × Option Str
  | .todo m s _ => (m, s)
  | .busy m s _ _ => (m, s)
  | .ended m s _ => (m, s)

/-- The goroutines that use the metrics, the closures, and the value goroutines of `Start`. -/
structure VSt (H R Me : Type) where
  S : LSt H R Me
  up : Nat → Upd
  vg : List (VG H)

/-- One step of one goroutine. -/
inductive VStep (M : Meths H R Me) (len : Nat) : VSt H R Me → VSt H R Me → Prop
  /-- of a goroutine that uses the metrics -/
  | caller {c S'} : LStep M c.up c.S S' → VStep M len c { c with S := S' }
  /-- `m.val` is read (client.go:517, 544) -/
  | read {c m s off v} {i : Nat} : c.vg[i]? = some (.todo m s off) → (c.S.obj m).m.cur s = some v →
      VStep M len c { c with vg := c.vg.set i (.busy m s off (updP len off v)) }
  /-- a byte is written (client.go:614) -/
  | write {c m s off p p' o' mem'} {i : Nat} : c.vg[i]? = some (.busy m s off p) →
      p.step (c.up m) (c.S.obj m) c.S.mem = some (p', o', mem') →
      VStep M len c { c with S := { c.S with mem := mem', obj := fset c.S.obj m o' }, vg := c.vg.set i (.busy m s off p') }
  /-- the closure is assigned (client.go:517, 544); the error of the first call is ignored -/
  | assign {c m s off a} {i : Nat} : c.vg[i]? = some (.busy m s off (.ret a)) → a ≠ .panic →
      VStep M len c { c with up := fset c.up m (fset (c.up m) s (some off)), vg := c.vg.set i (.ended m s off) }

/-- Any number of steps. -/
inductive VReach (M : Meths H R Me) (len : Nat) (c : VSt H R Me) : VSt H R Me → Prop
  | refl : VReach M len c c
  | tail {t t'} : VReach M len c t → VStep M len t t' → VReach M len c t'

/-- No operation that changes metric `m` is under way while a value of `m` is between being read and the
assignment of its closure. -/
def VSt.Apart (c : VSt H R Me) : Prop :=
  ∀ (i : Nat) m s off p, c.vg[i]? = some (.busy m s off p) → (c.S.lock m).writer = false

/-- Any number of steps through states that are `Apart`. -/
inductive QReach (M : Meths H R Me) (len : Nat) (c : VSt H R Me) : VSt H R Me → Prop
  | refl : QReach M len c c
  | tail {t t'} : QReach M len c t → VStep M len t t' → t'.Apart → QReach M len c t'

theorem QReach.reach {M : Meths H R Me} {len : Nat} {c c' : VSt H R Me} (h : QReach M len c c') : VReach M len c c' := by
  induction h with
  | refl => exact .refl
  | tail _ hs _ ih => exact ih.tail hs

/-- Everyone is finished with what they started: no operation is under way and all closures are assigned. -/
def VSt.Rest (c : VSt H R Me) : Prop := c.S.Quiet ∧ ∀ g ∈ c.vg, ∃ m s off, g = .ended m s off

/-! ### Programs that only write bytes -/

def MProc.Bytes {α : Type} (A : Nat → Prop) : MProc H α → Prop
  | .ret _ => True
  | .byte a _ k => A a ∧ k.Bytes A
  | _ => False

theorem bytesP_bytes {A : Nat → Prop} {off : Nat} {data : List Byte} (h : ∀ a, off ≤ a → a < off + data.length → A a) :
    (bytesP off data : MProc H Unit).Bytes A := by
  induction data generalizing off with
  | nil => trivial
  | cons b bs ih =>
    refine ⟨h off (Nat.le_refl _) (by simp), ih fun a h1 h2 => h a (by omega) (by simp; omega)⟩

theorem MProc.Bytes.bind {α β : Type} {A : Nat → Prop} {p : MProc H α} {f : α → MProc H β} (hp : p.Bytes A) (hf : ∀ a, (f a).Bytes A) :
    (p.bind f).Bytes A := by
  induction p with
  | ret a => cases a <;> first | exact hf _ | trivial
  | byte a b k ih => exact ⟨hp.1, ih hp.2⟩
  | _ => exact hp.elim

theorem updP_bytes {A : Nat → Prop} {t : MetricType} {v : GoVal} (hv : Typed t v) (hf : Fits v) {off len : Nat}
    (h : ∀ a, off ≤ a → a < off + width t → A a) : (updP len off v : MProc H Unit).Bytes A := by
  have hw := newBytes_width hv hf
  rcases hv with ⟨rfl, x, rfl⟩ | ⟨rfl, x, rfl⟩ | ⟨rfl, x, rfl⟩ | ⟨rfl, x, rfl⟩ | ⟨rfl, x, rfl⟩ | ⟨rfl, x, rfl⟩ | ⟨rfl, x, rfl⟩
  case inr.inr.inr.inr.inr.inr =>
    have hs : x.length ≤ 256 := hf
    unfold updP
    dsimp only
    have hw' : width StringType = 256 := by decide
    split
    · refine .bind (bytesP_bytes fun a h1 h2 => h a h1 ?_) fun _ => ?_
      · rw [zeros_length] at h2; rw [hw']; exact h2
      · unfold writeP
        split
        · exact bytesP_bytes fun a h1 h2 => h a h1 (by omega)
        · trivial
    · trivial
  all_goals
    unfold updP
    simp only [newBytes, binaryWrite, Option.getD_some] at hw ⊢
    unfold writeP
    split
    · exact bytesP_bytes fun a h1 h2 => h a h1 (by omega)
    · trivial

/-- They do not use the closures, and do not change the metric. -/
theorem MProc.Bytes.run_eq {α : Type} {A : Nat → Prop} {p : MProc H α} (h : p.Bytes A) (u u' : Upd) (o o' : Obj H) (b : Buf) :
    (p.run u o b).1 = o ∧ (p.run u o b).2.1 = (p.run u' o' b).2.1 := by
  induction p generalizing b with
  | ret => exact ⟨rfl, rfl⟩
  | byte a x k ih => exact ih h.2 _
  | _ => exact h.elim

theorem MProc.Bytes.step {α : Type} {A : Nat → Prop} {p p' : MProc H α} (h : p.Bytes A) {u : Upd} {o o' : Obj H} {b b' : Buf}
    (hs : p.step u o b = some (p', o', b')) : p'.Bytes A ∧ o' = o ∧ b'.length = b.length ∧ ∀ a, ¬ A a → b'[a]? = b[a]? := by
  cases p <;> simp only [MProc.step, Option.some.injEq, Prod.mk.injEq, reduceCtorEq] at hs
  case byte a x k =>
    obtain ⟨rfl, rfl, rfl⟩ := hs
    refine ⟨h.2, rfl, List.length_set, fun y hy => List.getElem?_set_ne ?_⟩
    rintro rfl
    exact hy h.1
  all_goals exact h.elim

end

/-! ### The invariant -/

/-- The bytes at `off` are those of the value `v`. -/
def ShowsAt (mem : Buf) (off : Nat) (v : GoVal) : Prop := ∀ k, k < (newBytes v).length → mem[off + k]? = (newBytes v)[k]?

/-- Where the values of the metrics go: `loc m s` for value `s` of metric `m`, disjoint and inside the file.
`mets` are the metrics that are published. -/
structure Layout {H : Type} (obj : Nat → Obj H) (mets : Nat → Prop) (loc : Nat → Option Str → Nat) (len : Nat) : Prop where
  wf : ∀ m, mets m → (obj m).m.WF
  fits : ∀ m, mets m → ∀ s v, (obj m).m.cur s = some v → Fits v
  small : len < 9223372036854775808
  room : ∀ m, mets m → ∀ s ∈ (obj m).m.slots, loc m s + width (obj m).m.desc.t ≤ len
  disj : ∀ m m' s s' a, mets m → mets m' → s ∈ (obj m).m.slots → s' ∈ (obj m').m.slots →
    loc m s ≤ a → a < loc m s + width (obj m).m.desc.t →
    loc m' s' ≤ a → a < loc m' s' + width (obj m').m.desc.t → m = m' ∧ s = s'

section
variable {F : Flops} {L : Hdr} {obj0 : Nat → Obj L.H} {mets : Nat → Prop} {loc : Nat → Option Str → Nat} {len : Nat}

/-- The bytes of one value, and of one metric. -/
def vReg (obj0 : Nat → Obj L.H) (loc : Nat → Option Str → Nat) (m : Nat) (s : Option Str) (a : Nat) : Prop :=
  loc m s ≤ a ∧ a < loc m s + width (obj0 m).m.desc.t

def mReg (obj0 : Nat → Obj L.H) (mets : Nat → Prop) (loc : Nat → Option Str → Nat) (m a : Nat) : Prop :=
  mets m ∧ ∃ s ∈ (obj0 m).m.slots, vReg obj0 loc m s a

/-- Metric `m` is as it should be, and the file shows those of its values that have a closure. -/
structure MOK (obj0 : Nat → Obj L.H) (len : Nat) (m : Nat) (u : Upd) (x : Metric) (b : Buf) : Prop where
  wf : x.WF
  desc : x.desc = (obj0 m).m.desc
  indom : x.indom = (obj0 m).m.indom
  fits : ∀ s v, x.cur s = some v → Fits v
  len : b.length = len
  shows : ∀ s ∈ x.slots, ∀ off, u s = some off → ∀ v, x.cur s = some v → ShowsAt b off v

theorem slots_of_indom {x y : Metric} (h : x.indom = y.indom) : x.slots = y.slots := by
  unfold Metric.indom at h
  unfold Metric.slots
  cases hx : x.body <;> cases hy : y.body <;> rw [hx, hy] at h <;> simp at h ⊢
  rw [h]

theorem MOK.slots {m : Nat} {u : Upd} {x : Metric} {b : Buf} (h : MOK obj0 len m u x b) : x.slots = (obj0 m).m.slots :=
  slots_of_indom h.indom

theorem MOK.fixed {m : Nat} {u : Upd} {x : Metric} {b : Buf} (h : MOK obj0 len m u x b) :
    fixedOf (obj0 m).m len = fixedOf x b.length := by
  unfold fixedOf Metric.hasInst
  rw [h.desc, h.indom, h.len]

/-- Only the metric's own bytes matter. -/
theorem MOK.congr (hL : Layout obj0 mets loc len) {m : Nat} (hm : mets m) {u : Upd} (hu : ∀ s off, u s = some off → off = loc m s)
    {x : Metric} {b b' : Buf} (h : MOK obj0 len m u x b) (hl : b'.length = b.length) (hb : ∀ a, mReg obj0 mets loc m a → b'[a]? = b[a]?) :
    MOK obj0 len m u x b' where
  wf := h.wf
  desc := h.desc
  indom := h.indom
  fits := h.fits
  len := hl.trans h.len
  shows := by
    intro s hs off ho v hv k hk
    rw [hb, h.shows s hs off ho v hv k hk]
    have hw := newBytes_width (WF.cur_typed h.wf hv) (h.fits s v hv)
    rw [h.desc] at hw
    refine ⟨hm, s, by rw [← h.slots]; exact hs, ?_, ?_⟩ <;> rw [← hu s off ho] <;> omega

theorem MOK.good (hL : Layout obj0 mets loc len) {m : Nat} (hm : mets m) {u : Upd} (hu : ∀ s off, u s = some off → off = loc m s)
    {x : Metric} {b : Buf} (h : MOK obj0 len m u x b) : Good u ⟨x, b⟩ where
  wf := h.wf
  len := by show b.length < _; rw [h.len]; exact hL.small
  room := by
    intro s hs off ho v hv hf
    show off + _ ≤ b.length
    have hw := newBytes_width hv hf
    rw [h.len, hu s off ho]
    have := hL.room m hm s (by rw [← h.slots]; exact hs)
    rw [← h.desc] at this
    dsimp only at hw
    omega

/-- A store keeps it. -/
theorem MOK.store (hL : Layout obj0 mets loc len) {m : Nat} (hm : mets m) {u : Upd} (hu : ∀ s off, u s = some off → off = loc m s) :
    StoreInv Fits u (fun st => MOK obj0 len m u st.m st.mem) := by
  rintro ⟨x, b⟩ s old v h hs hold hc hfit
  have hg := h.good hL hm hu
  have ht : Typed x.desc.t (resolve x.desc.t v) := resolve_typed hc
  have hf : Fits (resolve x.desc.t v) := resolve_fits hfit
  have hfits : ∀ s' w, (x.put s (resolve x.desc.t v)).cur s' = some w → Fits w := by
    intro s' w hw
    rw [put_cur] at hw
    split at hw
    · obtain ⟨_, _, rfl⟩ := Option.map_eq_some_iff.1 hw
      exact hf
    · exact h.fits _ _ hw
  dsimp only at hs hold ⊢
  unfold storeVal
  by_cases he : goEq (resolve x.desc.t v) old = true
  · rw [if_pos he]; exact h
  · rw [if_neg he]
    cases hus : u s with
    | none =>
      dsimp only
      refine ⟨put_WF h.wf ht, h.desc, (put_indom ..).trans h.indom, hfits, h.len, ?_⟩
      intro s' hs' off ho w hw
      rw [put_cur] at hw
      split at hw
      · rename_i he; rw [he, hus] at ho; cases ho
      · rw [put_slots] at hs'
        exact h.shows s' hs' off ho w hw
    | some off =>
      have hr := hg.room s hs off hus _ ht hf
      obtain ⟨n, hn⟩ := updClosure_ok (fits_valOK ht hf) hr hg.len
      dsimp only at hn hr ⊢
      rw [hn]
      refine ⟨put_WF h.wf ht, h.desc, (put_indom ..).trans h.indom, hfits, (place_length ..).trans h.len, ?_⟩
      intro s' hs' off' ho' w hw k hk
      dsimp only at hs' hw ⊢
      rw [put_slots] at hs'
      rw [put_cur] at hw
      rw [place_get _ _ _ hr]
      split at hw
      · rename_i he
        subst he
        rw [hold] at hw
        obtain rfl := Option.some.inj hw
        rw [hus] at ho'
        obtain rfl := Option.some.inj ho'
        dsimp only at hk
        rw [if_pos ⟨by omega, by omega⟩, Nat.add_sub_cancel_left]
      · rename_i hne
        rw [if_neg, h.shows s' hs' off' ho' w hw k hk]
        rintro ⟨h1, h2⟩
        have hw1 := newBytes_width (WF.cur_typed h.wf hw) (h.fits _ _ hw)
        have hw2 := newBytes_width ht hf
        have hd : x.desc.t = (obj0 m).m.desc.t := congrArg _ h.desc
        have hw1 := hd ▸ hw1
        generalize resolve x.desc.t v = y at *
        rw [hd] at hw2
        refine hne (hL.disj m m s' s (off' + k) hm hm (by rw [← h.slots]; exact hs') (by rw [← h.slots]; exact hs) ?_ ?_ ?_ ?_).2
        · rw [hu _ _ ho']; omega
        · rw [← hu _ _ ho']; omega
        · rw [← hu _ _ hus]; omega
        · rw [← hu _ _ hus]; omega

/-- The calls that type-check. -/
def LCalls (obj0 : Nat → Obj L.H) (mets : Nat → Prop) (m : Nat) (me : Meth) : Prop :=
  mets m ∧ me.Fits ∧ (me.single = true → (obj0 m).m.indom = none)

/-- An operation, run without interruption, keeps it. -/
theorem MOK.run (hL : Layout obj0 mets loc len) {m : Nat} {me : Meth} (hc : LCalls obj0 mets m me) {u : Upd}
    (hu : ∀ s off, u s = some off → off = loc m s) {o : Obj L.H} {b : Buf} (h : MOK obj0 len m u o.m b) :
    MOK obj0 len m u ((me.body F L (fixedOf (obj0 m).m len)).run u o b).1.m ((me.body F L (fixedOf (obj0 m).m len)).run u o b).2.1 := by
  rw [Meth.run_spec hc.2.1 (h.good hL hc.1 hu) h.fixed]
  rcases Meth.effect (F := F) me hc.2.1 u o b with ⟨h1, h2⟩ | ⟨c, hcf, h1, h2⟩
  · rw [h1, h2]; exact h
  · rw [h1, h2]
    exact c.pres hcf u (fun st => MOK obj0 len m u st.m st.mem) (fun _ h => h) (MOK.store hL hc.1 hu) _ h

theorem meth_within (hL : Layout obj0 mets loc len) {m : Nat} {me : Meth} (hc : LCalls obj0 mets m me) {u : Upd}
    (hu : ∀ s off, u s = some off → off = loc m s) :
    (me.wr = true → (me.body F L (fixedOf (obj0 m).m len)).Within u (mReg obj0 mets loc m)) ∧
    (me.wr = false → (me.body F L (fixedOf (obj0 m).m len)).ReadOnly) := by
  refine Meth.safe hc.2.1 ?_ ?_
  · intro h1 off ho a h2 h3
    rw [hu _ _ ho] at h2 h3
    exact ⟨hc.1, none, indom_none_slot (hc.2.2 h1), h2, h3⟩
  · intro n hn off ho a h2 h3
    rw [hu _ _ ho] at h2 h3
    refine ⟨hc.1, some n, ?_, h2, h3⟩
    have hn : (obj0 m).m.hasInst n = true := hn
    rw [← WF.cur_iff (hL.wf m hc.1)] at hn
    exact (WF.slot_iff (hL.wf m hc.1) _).2 hn

/-- Invariant of one value goroutine. -/
def VOK (obj0 : Nat → Obj L.H) (mets : Nat → Prop) (loc : Nat → Option Str → Nat) (c : VSt L.H Ret Meth) : VG L.H → Prop
  | .todo m s off => mets m ∧ s ∈ (obj0 m).m.slots ∧ off = loc m s ∧ c.up m s = none
  | .busy m s off p => mets m ∧ s ∈ (obj0 m).m.slots ∧ off = loc m s ∧ c.up m s = none ∧ (c.S.lock m).writer = false ∧
      p.Bytes (vReg obj0 loc m s) ∧
      ∃ v, (c.S.obj m).m.cur s = some v ∧ ShowsAt (p.run (c.up m) (c.S.obj m) c.S.mem).2.1 off v
  | .ended m s off => mets m ∧ s ∈ (obj0 m).m.slots ∧ off = loc m s ∧ c.up m s = some off

structure VInv (obj0 : Nat → Obj L.H) (mets : Nat → Prop) (loc : Nat → Option Str → Nat) (len : Nat) (c : VSt L.H Ret Meth) : Prop where
  lock : LockOK c.S
  mlen : c.S.mem.length = len
  up : ∀ m s off, c.up m s = some off → off = loc m s
  keys : (c.vg.map VG.key).Nodup
  vg : ∀ (i : Nat) g, c.vg[i]? = some g → VOK obj0 mets loc c g
  outs : ∀ (i : Nat) k, c.S.thr[i]? = some (.out k) → k.All (LCalls obj0 mets)
  inns : ∀ (i : Nat) m w p k, c.S.thr[i]? = some (.inn m w p k) → mets m ∧ (∀ a, (k a).All (LCalls obj0 mets)) ∧
    (w = true → p.Within (c.up m) (mReg obj0 mets loc m) ∧
      MOK obj0 len m (c.up m) (p.run (c.up m) (c.S.obj m) c.S.mem).1.m (p.run (c.up m) (c.S.obj m) c.S.mem).2.1) ∧
    (w = false → p.ReadOnly)
  free : ∀ m, mets m → (c.S.lock m).writer = false → MOK obj0 len m (c.up m) (c.S.obj m).m c.S.mem

theorem vReg_mReg {m : Nat} {s : Option Str} {a : Nat} (hm : mets m) (hs : s ∈ (obj0 m).m.slots) (h : vReg obj0 loc m s a) :
    mReg obj0 mets loc m a := ⟨hm, s, hs, h⟩

theorem mReg_disj (hL : Layout obj0 mets loc len) {m m' a : Nat} (h : mReg obj0 mets loc m a) (h' : mReg obj0 mets loc m' a) : m = m' := by
  obtain ⟨hm, s, hs, h1, h2⟩ := h
  obtain ⟨hm', s', hs', h3, h4⟩ := h'
  exact (hL.disj m m' s s' a hm hm' hs hs' h1 h2 h3 h4).1

/-- Value goroutines whose metrics and bytes did not change. -/
theorem VOK.keep {c c' : VSt L.H Ret Meth} {g : VG L.H} (h : VOK obj0 mets loc c g)
    (hup : ∀ s, c'.up g.key.1 s = c.up g.key.1 s ∨ s ≠ g.key.2)
    (hb : ∀ m s off p, g = .busy m s off p → (c'.S.lock m).writer = false ∧ c'.S.obj m = c.S.obj m ∧
      ∀ a, vReg obj0 loc m s a → c'.S.mem[a]? = c.S.mem[a]?)
    (hfree : ∀ m, mets m → (c.S.lock m).writer = false → MOK obj0 len m (c.up m) (c.S.obj m).m c.S.mem) :
    VOK obj0 mets loc c' g := by
  have hu : c'.up g.key.1 g.key.2 = c.up g.key.1 g.key.2 := (hup g.key.2).resolve_right (fun h => h rfl)
  cases g with
  | todo m s off => exact ⟨h.1, h.2.1, h.2.2.1, hu.trans h.2.2.2⟩
  | ended m s off => exact ⟨h.1, h.2.1, h.2.2.1, hu.trans h.2.2.2⟩
  | busy m s off p =>
    obtain ⟨h1, h2, h3, h4, h5, h6, v, h7, h8⟩ := h
    obtain ⟨b1, b2, b3⟩ := hb m s off p rfl
    refine ⟨h1, h2, h3, hu.trans h4, b1, h6, v, by rw [b2]; exact h7, ?_⟩
    intro k hk
    rw [← h8 k hk, (h6.run_eq (c'.up m) (c.up m) (c'.S.obj m) (c.S.obj m) c'.S.mem).2]
    refine (MProc.run_local (c.up m) p (c.S.obj m) _ _).2.2 _ (b3 _ ?_)
    have hk' := hfree m h1 h5
    have hw := newBytes_width (WF.cur_typed hk'.wf h7) (hk'.fits _ _ h7)
    rw [hk'.desc] at hw
    subst h3
    exact ⟨by omega, by omega⟩


variable {c c' : VSt L.H Ret Meth}

theorem mem_set_iff {X : Type} {l : List X} {i j : Nat} {x y : X} (hy : (l.set i x)[j]? = some y) :
    (j = i ∧ y = x) ∨ (j ≠ i ∧ l[j]? = some y) := by
  rcases set_get hy with ⟨h1, h2, _⟩ | h
  · exact .inl ⟨h1, h2⟩
  · exact .inr h

/-- A caller's step. -/
theorem VInv.caller (hL : Layout obj0 mets loc len) (h : VInv obj0 mets loc len c) {S' : LSt L.H Ret Meth}
    (hs : LStep (meths F L fun m => fixedOf (obj0 m).m len) c.up c.S S') (hq : VSt.Apart { c with S := S' }) :
    VInv obj0 mets loc len { c with S := S' } := by
  have hlock := h.lock.step hs
  have hbusy : ∀ (i : Nat) m s off p, c.vg[i]? = some (.busy m s off p) → (S'.lock m).writer = false := hq
  cases hs with
  | @lock i m me k hi hw hl =>
    have hc := (h.outs i _ hi).1
    refine ⟨hlock, h.mlen, h.up, h.keys, ?_, ?_, ?_, ?_⟩
    · intro j g hg
      exact (h.vg j g hg).keep (fun _ => .inl rfl) (fun m' s off p e => ⟨hbusy j m' s off p (e ▸ hg), rfl, fun _ _ => rfl⟩) h.free
    · intro j k' hj
      rcases mem_set_iff hj with ⟨_, e⟩ | ⟨_, hj⟩
      · cases e
      · exact h.outs j k' hj
    · intro j m' w p k' hj
      rcases mem_set_iff hj with ⟨_, e⟩ | ⟨_, hj⟩
      · cases e
        exact ⟨hc.1, (h.outs i _ hi).2, fun _ => ⟨(meth_within hL hc (h.up m)).1 hw,
          (h.free m hc.1 (by rw [hl])).run hL hc (h.up m)⟩, fun e => by cases e⟩
      · exact h.inns j m' w p k' hj
    · intro m' hm' hw'
      refine h.free m' hm' ?_
      dsimp only [fset] at hw'
      split at hw'
      · cases hw'
      · exact hw'
  | @rlock i m me k n hi hw hl =>
    have hc := (h.outs i _ hi).1
    refine ⟨hlock, h.mlen, h.up, h.keys, ?_, ?_, ?_, ?_⟩
    · intro j g hg
      exact (h.vg j g hg).keep (fun _ => .inl rfl) (fun m' s off p e => ⟨hbusy j m' s off p (e ▸ hg), rfl, fun _ _ => rfl⟩) h.free
    · intro j k' hj
      rcases mem_set_iff hj with ⟨_, e⟩ | ⟨_, hj⟩
      · cases e
      · exact h.outs j k' hj
    · intro j m' w p k' hj
      rcases mem_set_iff hj with ⟨_, e⟩ | ⟨_, hj⟩
      · cases e
        exact ⟨hc.1, (h.outs i _ hi).2, (fun e => by cases e), fun _ => (meth_within hL hc (h.up m)).2 hw⟩
      · exact h.inns j m' w p k' hj
    · intro m' hm' hw'
      refine h.free m' hm' ?_
      dsimp only [fset] at hw'
      split at hw'
      · rename_i e; rw [e, hl]
      · exact hw'
  | @access i m w p k p' o' mem' hi hp =>
    obtain ⟨hm, hk, hwt, hwf⟩ := h.inns i m w p k hi
    cases w with
    | false =>
      obtain ⟨r1, rfl, rfl⟩ := MProc.step_readOnly (hwf rfl) hp
      have ho : fset c.S.obj m (c.S.obj m) = c.S.obj := by
        funext y; unfold fset; split
        · rename_i e; rw [e]
        · rfl
      rw [ho] at hlock hbusy ⊢
      refine ⟨hlock, h.mlen, h.up, h.keys, ?_, ?_, ?_, h.free⟩
      · intro j g hg
        exact (h.vg j g hg).keep (fun _ => .inl rfl) (fun m' s off p e => ⟨hbusy j m' s off p (e ▸ hg), rfl, fun _ _ => rfl⟩) h.free
      · intro j k' hj
        rcases mem_set_iff hj with ⟨_, e⟩ | ⟨_, hj⟩
        · cases e
        · exact h.outs j k' hj
      · intro j m' w p k' hj
        rcases mem_set_iff hj with ⟨_, e⟩ | ⟨_, hj⟩
        · cases e
          exact ⟨hm, hk, (fun e => by cases e), fun _ => r1⟩
        · exact h.inns j m' w p k' hj
    | true =>
      obtain ⟨hin, hok⟩ := hwt rfl
      obtain ⟨w1, w2, w3⟩ := MProc.step_within hin hp
      have hwr : (c.S.lock m).writer = true := by
        cases hx : (c.S.lock m).writer with
        | true => rfl
        | false => exact absurd hi (h.lock.noW hx)
      have hout : ∀ m', m' ≠ m → mets m' → ∀ a, mReg obj0 mets loc m' a → mem'[a]? = c.S.mem[a]? :=
        fun m' hne _ a ha => w3 a fun hb => hne (mReg_disj hL ha hb)
      refine ⟨hlock, w2.trans h.mlen, h.up, h.keys, ?_, ?_, ?_, ?_⟩
      · intro j g hg
        refine (h.vg j g hg).keep (fun _ => .inl rfl) (fun m' s off p e => ?_) h.free
        have hb := hbusy j m' s off p (e ▸ hg)
        have hne : m' ≠ m := by rintro rfl; rw [show (c.S.lock m').writer = false from hb] at hwr; cases hwr
        subst e
        have hv := h.vg j _ hg
        exact ⟨hb, if_neg hne, fun a ha => hout m' hne hv.1 a (vReg_mReg hv.1 hv.2.1 ha)⟩
      · intro j k' hj
        rcases mem_set_iff hj with ⟨_, e⟩ | ⟨_, hj⟩
        · cases e
        · exact h.outs j k' hj
      · intro j m' w q k' hj
        rcases mem_set_iff hj with ⟨_, e⟩ | ⟨hne, hj'⟩
        · cases e
          refine ⟨hm, hk, fun _ => ⟨w1, ?_⟩, fun e => by cases e⟩
          dsimp only
          rw [show fset c.S.obj m o' m = o' from if_pos rfl, ← MProc.run_step hp]
          exact hok
        · obtain ⟨q1, q2, q3, q4⟩ := h.inns j m' w q k' hj'
          refine ⟨q1, q2, fun hw => ?_, q4⟩
          have hmm : m' ≠ m := by
            intro e
            exact hne (h.lock.alone hi (e ▸ hj')).1
          obtain ⟨a1, a2⟩ := q3 hw
          refine ⟨a1, ?_⟩
          dsimp only
          rw [show fset c.S.obj m o' m' = c.S.obj m' from if_neg hmm]
          obtain ⟨l1, _, l3⟩ := MProc.run_local (c.up m') q (c.S.obj m') mem' c.S.mem
          rw [l1]
          exact a2.congr hL q1 (h.up m') (by rw [MProc.run_len, MProc.run_len, w2]) fun a ha => l3 a (hout m' hmm q1 a ha)
      · intro m' hm' hw'
        have hmm : m' ≠ m := by rintro rfl; rw [show (c.S.lock m').writer = false from hw'] at hwr; cases hwr
        dsimp only
        rw [show fset c.S.obj m o' m' = c.S.obj m' from if_neg hmm]
        exact (h.free m' hm' hw').congr hL hm' (h.up m') w2 (hout m' hmm hm')
  | @unlock i m a k hi =>
    obtain ⟨hm, hk, hwt, _⟩ := h.inns i m true _ k hi
    obtain ⟨_, hok⟩ := hwt rfl
    refine ⟨hlock, h.mlen, h.up, h.keys, ?_, ?_, ?_, ?_⟩
    · intro j g hg
      exact (h.vg j g hg).keep (fun _ => .inl rfl) (fun m' s off p e => ⟨hbusy j m' s off p (e ▸ hg), rfl, fun _ _ => rfl⟩) h.free
    · intro j k' hj
      rcases mem_set_iff hj with ⟨_, e⟩ | ⟨_, hj⟩
      · cases e; exact hk a
      · exact h.outs j k' hj
    · intro j m' w p k' hj
      rcases mem_set_iff hj with ⟨_, e⟩ | ⟨_, hj⟩
      · cases e
      · exact h.inns j m' w p k' hj
    · intro m' hm' hw'
      by_cases e : m' = m
      · subst e; exact hok
      · refine h.free m' hm' ?_
        dsimp only [fset] at hw'
        rw [if_neg e] at hw'
        exact hw'
  | @runlock i m a k n hi hl =>
    obtain ⟨hm, hk, _, _⟩ := h.inns i m false _ k hi
    refine ⟨hlock, h.mlen, h.up, h.keys, ?_, ?_, ?_, ?_⟩
    · intro j g hg
      exact (h.vg j g hg).keep (fun _ => .inl rfl) (fun m' s off p e => ⟨hbusy j m' s off p (e ▸ hg), rfl, fun _ _ => rfl⟩) h.free
    · intro j k' hj
      rcases mem_set_iff hj with ⟨_, e⟩ | ⟨_, hj⟩
      · cases e; exact hk a
      · exact h.outs j k' hj
    · intro j m' w p k' hj
      rcases mem_set_iff hj with ⟨_, e⟩ | ⟨_, hj⟩
      · cases e
      · exact h.inns j m' w p k' hj
    · intro m' hm' hw'
      refine h.free m' hm' ?_
      dsimp only [fset] at hw'
      split at hw'
      · rename_i e; rw [e, hl]
      · exact hw'

theorem VInv.keys_ne (h : (c.vg.map VG.key).Nodup) {i j : Nat} {g g' : VG L.H} (hi : c.vg[i]? = some g) (hj : c.vg[j]? = some g')
    (hne : j ≠ i) : g'.key ≠ g.key := by
  intro he
  have hi' : (c.vg.map VG.key)[i]? = some g.key := by rw [List.getElem?_map, hi]; rfl
  have hj' : (c.vg.map VG.key)[j]? = some g.key := by rw [List.getElem?_map, hj, ← he]; rfl
  exact hne ((List.getElem?_inj (List.getElem?_eq_some_iff.1 hj').1 h).1 (hj'.trans hi'.symm))

theorem keys_set {l : List (VG L.H)} (h : (l.map VG.key).Nodup) {i : Nat} {g g' : VG L.H} (hi : l[i]? = some g) (hk : g'.key = g.key) :
    ((l.set i g').map VG.key).Nodup := by
  rw [List.map_set, hk]
  have : (l.map VG.key).set i g.key = l.map VG.key := set_id (by rw [List.getElem?_map, hi]; rfl)
  rw [this]; exact h

theorem VInv.step (hL : Layout obj0 mets loc len) (h : VInv obj0 mets loc len c)
    (hs : VStep (meths F L fun m => fixedOf (obj0 m).m len) len c c') (hq : c'.Apart) : VInv obj0 mets loc len c' := by
  cases hs with
  | caller hs => exact h.caller hL hs hq
  | @read m s off v i hi hv =>
    obtain ⟨g1, g2, g3, g4⟩ := h.vg i _ hi
    have hfr : (c.S.lock m).writer = false := hq i m s off _ (by
      show (c.vg.set i _)[i]? = _
      exact List.getElem?_set_self (lt_of_get hi))
    have hok := h.free m g1 hfr
    refine ⟨h.lock, h.mlen, h.up, keys_set h.keys hi rfl, ?_, h.outs, h.inns, h.free⟩
    intro j g hg
    rcases mem_set_iff hg with ⟨_, rfl⟩ | ⟨hne, hg⟩
    · subst g3
      have ht := WF.cur_typed hok.wf hv
      have hf := hok.fits s v hv
      have hd : (c.S.obj m).m.desc.t = (obj0 m).m.desc.t := congrArg _ hok.desc
      have hw := newBytes_width ht hf
      have hroom := hL.room m g1 s g2
      rw [hd] at hw
      refine ⟨g1, g2, rfl, g4, hfr, updP_bytes ht hf fun a h1 h2 => ⟨h1, by rw [← hd]; exact h2⟩, v, hv, ?_⟩
      intro k hk
      have hr : loc m s + (newBytes v).length ≤ c.S.mem.length := by rw [h.mlen]; omega
      rw [← h.mlen, updP_run ht hf hr]
      dsimp only
      rw [place_get _ _ _ hr, if_pos ⟨by omega, by omega⟩, Nat.add_sub_cancel_left]
    · exact (h.vg j g hg).keep (fun _ => .inl rfl)
        (fun m' s' off' p e => ⟨hq j m' s' off' p (by
          show (c.vg.set i _)[j]? = _
          rw [List.getElem?_set_ne (Ne.symm hne)]; exact e ▸ hg), rfl, fun _ _ => rfl⟩) h.free
  | @write m s off p p' o' mem' i hi hp =>
    obtain ⟨g1, g2, g3, g4, g5, g6, v, g7, g8⟩ := h.vg i _ hi
    obtain ⟨b1, rfl, b3, b4⟩ := g6.step hp
    have ho : fset c.S.obj m (c.S.obj m) = c.S.obj := by
      funext y; unfold fset; split
      · rename_i e; rw [e]
      · rfl
    rw [ho] at hq ⊢
    have hout : ∀ m', m' ≠ m → ∀ a, mReg obj0 mets loc m' a → mem'[a]? = c.S.mem[a]? :=
      fun m' hne a ha => b4 a fun hb => hne (mReg_disj hL ha (vReg_mReg g1 g2 hb))
    refine ⟨h.lock, b3.trans h.mlen, h.up, keys_set h.keys hi rfl, ?_, h.outs, ?_, ?_⟩
    · intro j g hg
      rcases mem_set_iff hg with ⟨_, rfl⟩ | ⟨hne, hg⟩
      · refine ⟨g1, g2, g3, g4, g5, b1, v, g7, ?_⟩
        rw [MProc.run_step hp] at g8
        exact g8
      · refine (h.vg j g hg).keep (fun _ => .inl rfl) (fun m' s' off' q e => ⟨hq j m' s' off' q (by
          show (c.vg.set i _)[j]? = _
          rw [List.getElem?_set_ne (Ne.symm hne)]; exact e ▸ hg), rfl, fun a ha => b4 a fun hb => ?_⟩) h.free
        subst e
        obtain ⟨q1, q2, _⟩ := h.vg j _ hg
        obtain ⟨e1, e2⟩ := hL.disj m' m s' s a q1 g1 q2 g2 ha.1 ha.2 hb.1 hb.2
        exact VInv.keys_ne h.keys hi hg hne (by show (m', s') = (m, s); rw [e1, e2])
    · intro j m' w q k hj
      obtain ⟨q1, q2, q3, q4⟩ := h.inns j m' w q k hj
      refine ⟨q1, q2, fun hw => ?_, q4⟩
      have hmm : m' ≠ m := by
        rintro rfl
        subst hw
        exact h.lock.noW g5 hj
      obtain ⟨a1, a2⟩ := q3 hw
      refine ⟨a1, ?_⟩
      dsimp only
      obtain ⟨l1, _, l3⟩ := MProc.run_local (c.up m') q (c.S.obj m') mem' c.S.mem
      rw [l1]
      exact a2.congr hL q1 (h.up m') (by rw [MProc.run_len, MProc.run_len, b3]) fun a ha => l3 a (hout m' hmm a ha)
    · intro m' hm' hw'
      have hok := h.free m' hm' hw'
      by_cases e : m' = m
      · subst e
        refine ⟨hok.wf, hok.desc, hok.indom, hok.fits, b3.trans hok.len, ?_⟩
        intro s' hs' off' ho' w hw k hk
        show mem'[off' + k]? = _
        rw [b4, hok.shows s' hs' off' ho' w hw k hk]
        intro hb
        have hwd := newBytes_width (WF.cur_typed hok.wf hw) (hok.fits _ _ hw)
        rw [hok.desc] at hwd
        have e := h.up m' s' off' ho'
        have := (hL.disj m' m' s' s (off' + k) hm' hm' (by rw [← hok.slots]; exact hs') g2 (by omega) (by omega) hb.1 hb.2).2
        rw [this, g4] at ho'
        cases ho'
      · exact hok.congr hL hm' (h.up m') b3 (hout m' e)
  | @assign m s off a i hi ha =>
    obtain ⟨g1, g2, g3, g4, g5, g6, v, g7, g8⟩ := h.vg i _ hi
    have hup : ∀ m', m' ≠ m → fset c.up m (fset (c.up m) s (some off)) m' = c.up m' := fun m' hne => if_neg hne
    have hupm : fset c.up m (fset (c.up m) s (some off)) m = fset (c.up m) s (some off) := if_pos rfl
    refine ⟨h.lock, h.mlen, ?_, keys_set h.keys hi rfl, ?_, h.outs, ?_, ?_⟩
    · intro m' s' off' ho'
      dsimp only at ho'
      by_cases e : m' = m
      · subst e
        rw [hupm] at ho'
        unfold fset at ho'
        split at ho'
        · rename_i e
          obtain rfl := Option.some.inj ho'
          rw [e, g3]
        · exact h.up m' s' off' ho'
      · rw [hup m' e] at ho'
        exact h.up m' s' off' ho'
    · intro j g hg
      rcases mem_set_iff hg with ⟨_, rfl⟩ | ⟨hne, hg⟩
      · refine ⟨g1, g2, g3, ?_⟩
        dsimp only
        rw [hupm]
        exact if_pos rfl
      · have hkn := VInv.keys_ne h.keys hi hg hne
        refine (h.vg j g hg).keep (fun s' => ?_) (fun m' s' off' q e => ⟨hq j m' s' off' q (by
          show (c.vg.set i _)[j]? = _
          rw [List.getElem?_set_ne (Ne.symm hne)]; exact e ▸ hg), rfl, fun _ _ => rfl⟩) h.free
        dsimp only
        by_cases e : g.key.1 = m
        · rw [e, hupm]
          unfold fset
          by_cases e' : s' = s
          · right
            rintro rfl
            exact hkn (by show _ = (m, s); rw [← e, ← e'])
          · left; exact if_neg e'
        · left; rw [hup _ e]
    · intro j m' w q k hj
      obtain ⟨q1, q2, q3, q4⟩ := h.inns j m' w q k hj
      refine ⟨q1, q2, fun hw => ?_, q4⟩
      have hmm : m' ≠ m := by
        rintro rfl
        subst hw
        exact h.lock.noW g5 hj
      dsimp only
      rw [hup m' hmm]
      exact q3 hw
    · intro m' hm' hw'
      have hok := h.free m' hm' hw'
      by_cases e : m' = m
      · subst e
        refine ⟨hok.wf, hok.desc, hok.indom, hok.fits, hok.len, ?_⟩
        intro s' hs' off' ho' w hw
        dsimp only at ho'
        rw [hupm] at ho'
        unfold fset at ho'
        split at ho'
        · rename_i e
          obtain rfl := Option.some.inj ho'
          subst e
          rw [show (c.S.obj m').m.cur s' = some w from hw] at g7
          obtain rfl := Option.some.inj g7
          exact g8
        · exact hok.shows s' hs' off' ho' w hw
      · dsimp only
        rw [hup m' e]
        exact hok

/-- The state before any goroutine has taken a step: no closure is assigned; one value goroutine for each value
of each published metric. -/
def vinit (obj0 : Nat → Obj L.H) (mem : Buf) (cs : List (Cli Ret Meth)) (loc : Nat → Option Str → Nat) (keys : List (Nat × Option Str)) :
    VSt L.H Ret Meth :=
  ⟨LSt.init obj0 mem cs, fun _ _ => none, keys.map fun k => .todo k.1 k.2 (loc k.1 k.2)⟩

theorem VInv.init (hL : Layout obj0 mets loc len) {mem : Buf} (hm : mem.length = len) {cs : List (Cli Ret Meth)}
    (hc : ∀ k ∈ cs, k.All (LCalls obj0 mets)) {keys : List (Nat × Option Str)} (hn : keys.Nodup)
    (hk : ∀ k ∈ keys, mets k.1 ∧ k.2 ∈ (obj0 k.1).m.slots) : VInv obj0 mets loc len (vinit obj0 mem cs loc keys) where
  lock := LockOK.init obj0 mem cs
  mlen := hm
  up := fun _ _ _ h => by cases h
  keys := by
    show ((keys.map _).map VG.key).Nodup
    rw [List.map_map]
    exact (List.map_id keys).symm ▸ hn
  vg := by
    intro i g hg
    obtain ⟨k, hk', rfl⟩ := List.mem_map.1 (List.mem_of_getElem? hg)
    exact ⟨(hk k hk').1, (hk k hk').2, rfl, rfl⟩
  outs := by
    intro i k hi
    obtain ⟨k', hk', e⟩ := List.mem_map.1 (List.mem_of_getElem? hi)
    cases e
    exact hc k hk'
  inns := by
    intro i m w p k hi
    obtain ⟨k', _, e⟩ := List.mem_map.1 (List.mem_of_getElem? hi)
    cases e
  free := fun m hm' _ => ⟨hL.wf m hm', rfl, rfl, hL.fits m hm', hm, fun _ _ _ h => by cases h⟩

theorem VInv.reach (hL : Layout obj0 mets loc len) (h : VInv obj0 mets loc len c)
    (hs : QReach (meths F L fun m => fixedOf (obj0 m).m len) len c c') : VInv obj0 mets loc len c' := by
  induction hs with
  | refl => exact h
  | tail _ hs hq ih => exact ih.step hL hs hq

end

end Speed
