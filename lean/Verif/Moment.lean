import Verif.PropsStopRace
import Verif.SetStart
/-
The mapped file at any moment, also while goroutines are inside operations: every value that no goroutine is
just writing has its bytes in the file, and whatever the bytes of the others are, the file is one of a client
like this one.
-/
namespace Speed

section
variable {H α β : Type}

/-- The body is inside the update closure of value `s` (metrics.go:543-552), or has left it and is about to assign
the new value to the field (metrics.go:588, 1022). -/
def MProc.InUpd (s : Option Str) : MProc H α → Prop
  | .byte _ _ k => k.InUpd s
  | .store s' _ _ => s' = s
  | _ => False

/-- The body, if `d` says which value it is inside the closure of, and the buffer is `b`: it writes to the buffer only
inside closures (of values that satisfy `Q`), into the slot of the value, and when it assigns the field the slot has the bytes of the value. -/
def MProc.Tidy (Q : Option Str → Prop) (u : Upd) (t : MetricType) (len : Nat) : MProc H α → Option (Option Str) → Buf → Prop
  | .ret _, d, _ => d = none
  | .load _ k, d, b => d = none ∧ ∀ v, (k v).Tidy Q u t len none b
  | .store s v k, d, b => d = some s ∧ Typed t v ∧ Fits v ∧ (∀ off, u s = some off → ShowsAt b off v) ∧ k.Tidy Q u t len none b
  | .upd s k, d, _ => d = none ∧ Q s ∧ ∀ b : Buf, b.length = len → (k (u s)).Tidy Q u t len (some s) b
  | .byte a c k, d, b => (∃ s off, d = some s ∧ u s = some off ∧ off ≤ a ∧ a < off + width t) ∧ k.Tidy Q u t len d (b.set a c)
  | .getTs k, d, b => d = none ∧ ∀ x, (k x).Tidy Q u t len none b
  | .setTs _ k, d, b => d = none ∧ k.Tidy Q u t len none b
  | .getH k, d, b => d = none ∧ ∀ x, (k x).Tidy Q u t len none b
  | .setH _ k, d, b => d = none ∧ k.Tidy Q u t len none b

variable {Q : Option Str → Prop} {u : Upd} {t : MetricType} {len : Nat}

theorem MProc.Tidy.any {p : MProc H α} {b b' : Buf} (h : p.Tidy Q u t len none b) : p.Tidy Q u t len none b' := by
  induction p generalizing b b' with
  | ret => exact h
  | load s k ih => exact ⟨rfl, fun v => ih v (h.2 v)⟩
  | store => cases h.1
  | upd s k ih => exact h
  | byte => obtain ⟨⟨_, _, h, _⟩, _⟩ := h; cases h
  | getTs k ih => exact ⟨rfl, fun v => ih v (h.2 v)⟩
  | setTs _ k ih => exact ⟨rfl, ih h.2⟩
  | getH k ih => exact ⟨rfl, fun v => ih v (h.2 v)⟩
  | setH _ k ih => exact ⟨rfl, ih h.2⟩

theorem MProc.Tidy.bind {p : MProc H α} {f : α → MProc H β} {d b} (hp : p.Tidy Q u t len d b)
    (hf : ∀ x, (f x).Tidy Q u t len none []) : (p.bind f).Tidy Q u t len d b := by
  induction p generalizing d b with
  | ret a =>
    obtain rfl : d = none := hp
    cases a <;> first | exact (hf _).any | exact rfl
  | load s k ih => exact ⟨hp.1, fun v => ih v (hp.2 v)⟩
  | store s v k ih => exact ⟨hp.1, hp.2.1, hp.2.2.1, hp.2.2.2.1, ih hp.2.2.2.2⟩
  | upd s k ih => exact ⟨hp.1, hp.2.1, fun b hb => ih _ (hp.2.2 b hb)⟩
  | byte x c k ih => exact ⟨hp.1, ih hp.2⟩
  | getTs k ih => exact ⟨hp.1, fun v => ih v (hp.2 v)⟩
  | setTs t k ih => exact ⟨hp.1, ih hp.2⟩
  | getH k ih => exact ⟨hp.1, fun v => ih v (hp.2 v)⟩
  | setH t k ih => exact ⟨hp.1, ih hp.2⟩

theorem MProc.InUpd.unique {p : MProc H α} {s s' : Option Str} (h : p.InUpd s) (h' : p.InUpd s') : s = s' := by
  induction p with
  | store => exact h.symm.trans h'
  | byte a c k ih => exact ih h h'
  | _ => exact h.elim

/-- A body that is inside no closure. -/
theorem MProc.Tidy.not_inUpd {p : MProc H α} {b} (h : p.Tidy Q u t len none b) (s : Option Str) : ¬ p.InUpd s := by
  cases p with
  | store => cases h.1
  | byte => obtain ⟨⟨_, _, h, _⟩, _⟩ := h; cases h
  | _ => exact id

/-- A body that is inside a closure. -/
theorem MProc.Tidy.inUpd {p : MProc H α} {s b} (h : p.Tidy Q u t len (some s) b) : p.InUpd s := by
  induction p generalizing b with
  | store s' v k => obtain ⟨h, _⟩ := h; exact (Option.some.inj h).symm
  | byte a c k ih => exact ih h.2
  | ret => cases h
  | _ => cases h.1

theorem newBytes_len {t : MetricType} {v : GoVal} (hv : Typed t v) (hf : Fits v) : (newBytes v).length = width t := by
  rcases hv with ⟨rfl, x, rfl⟩ | ⟨rfl, x, rfl⟩ | ⟨rfl, x, rfl⟩ | ⟨rfl, x, rfl⟩ | ⟨rfl, x, rfl⟩ | ⟨rfl, x, rfl⟩ | ⟨rfl, x, rfl⟩
  case inr.inr.inr.inr.inr.inr =>
    show (pad StringLength x).length = _
    rw [pad_length hf]; rfl
  all_goals
    simp only [newBytes, binaryWrite, Option.getD_some, le_length]
    decide

/-- Only the bytes of the slot matter. -/
theorem MProc.Tidy.congr {p : MProc H α} {s : Option Str} {b b' : Buf} (h : p.Tidy Q u t len (some s) b)
    (hl : b'.length = b.length) (hb : ∀ off, u s = some off → ∀ a, off ≤ a → a < off + width t → b'[a]? = b[a]?) :
    p.Tidy Q u t len (some s) b' := by
  induction p generalizing b b' with
  | store s' v k ih =>
    obtain ⟨h1, h2, h3, h4, h5⟩ := h
    obtain rfl := Option.some.inj h1
    refine ⟨rfl, h2, h3, fun off ho j hj => ?_, h5.any⟩
    rw [← h4 off ho j hj]
    exact hb off ho _ (Nat.le_add_right ..) (by rw [← newBytes_len h2 h3]; omega)
  | byte a c k ih =>
    refine ⟨h.1, ih h.2 (by simp [hl]) fun off ho x h1 h2 => ?_⟩
    simp only [List.getElem?_set, hl]
    split
    · rfl
    · exact hb off ho x h1 h2
  | ret => cases h
  | _ => cases h.1

/-- Bytes into the slot, then the rest. -/
theorem tidy_bytes {f : Unit → MProc H β} {s : Option Str} {off a : Nat} {data : List Byte} {b : Buf} (hu : u s = some off)
    (h1 : off ≤ a) (h2 : a + data.length ≤ off + width t) (hf : (f ()).Tidy Q u t len (some s) (place b a data)) :
    ((bytesP a data).bind f).Tidy Q u t len (some s) b := by
  induction data generalizing a b with
  | nil => exact hf
  | cons c data ih =>
    rw [List.length_cons] at h2
    exact ⟨⟨s, off, rfl, hu, h1, by omega⟩, ih (by omega) (by omega) hf⟩

/-- The closure, and the assignment after it. -/
theorem tidy_upd {f : Unit → MProc H β} {v : GoVal} (hv : Typed t v) (hfit : Fits v) {s : Option Str} {off : Nat} {b : Buf}
    (hu : u s = some off) (hr : off + width t ≤ len) (hb : b.length = len)
    (hf : ∀ b' : Buf, ShowsAt b' off v → (f ()).Tidy Q u t len (some s) b') :
    ((updP len off v).bind f).Tidy Q u t len (some s) b := by
  have hw := newBytes_len hv hfit
  have hshow : ShowsAt (place b off (newBytes v)) off v := by
    intro j hj
    rw [place_get _ _ _ (by omega), if_pos ⟨by omega, by omega⟩, Nat.add_sub_cancel_left]
  rcases hv with ⟨rfl, x, rfl⟩ | ⟨rfl, x, rfl⟩ | ⟨rfl, x, rfl⟩ | ⟨rfl, x, rfl⟩ | ⟨rfl, x, rfl⟩ | ⟨rfl, x, rfl⟩ | ⟨rfl, x, rfl⟩
  case inr.inr.inr.inr.inr.inr =>
    have hs : x.length ≤ 256 := hfit
    have hw' : width StringType = 256 := by decide
    rw [hw'] at hr hw
    have hassoc : (updP len off (.str x) : MProc H Unit).bind f =
        (bytesP off (zeros StringLength)).bind fun _ => (bytesP off x).bind f := by
      unfold updP
      dsimp only
      rw [if_pos (by show off + 256 ≤ _; omega)]
      have : (writeP len off x : MProc H Unit) = bytesP off x := by unfold writeP; rw [if_pos (by omega)]
      rw [this]
      have key : ∀ (a : Nat) (l : List Byte) (q : MProc H Unit), ((bytesP a l).bind fun _ => q).bind f = (bytesP a l).bind fun _ => q.bind f := by
        intro a l q
        induction l generalizing a with
        | nil => rfl
        | cons c l ih => exact congrArg _ (ih _)
      exact key _ _ _
    rw [hassoc]
    refine tidy_bytes hu (Nat.le_refl _) (by rw [zeros_length, hw']) ?_
    refine tidy_bytes hu (Nat.le_refl _) (by rw [hw']; omega) (hf _ ?_)
    rw [place_pad b off x hs (by omega)]
    exact hshow
  all_goals
    unfold updP
    simp only [newBytes, binaryWrite, Option.getD_some] at hw hshow ⊢
    unfold writeP
    rw [if_pos (by omega)]
    exact tidy_bytes hu (Nat.le_refl _) (by omega) (hf _ hshow)

/-! ### All operations -/

variable {f : Fixed}

theorem tidy_storeVal {s : Option Str} {old v : GoVal} (hv : Typed f.t v) (hfit : Fits v)
    (hQ : ∀ s, Q s → ∀ off, u s = some off → off + width f.t ≤ f.len) (h : Q s) (b : Buf) :
    (storeValP f.len s old v : MProc H Unit).Tidy Q u f.t f.len none b := by
  unfold storeValP
  split
  · rfl
  · refine ⟨rfl, h, fun b' hb' => ?_⟩
    cases hu : u s with
    | none => exact ⟨rfl, hv, hfit, (fun off ho => by rw [hu] at ho; cases ho), rfl⟩
    | some off =>
      refine tidy_upd hv hfit hu (hQ s h off hu) hb' fun b'' hs => ⟨rfl, hv, hfit, fun off' ho => ?_, rfl⟩
      rw [hu] at ho
      obtain rfl := Option.some.inj ho
      exact hs

theorem tidy_set {v : GoVal} (hfit : Fits v) (hQ : ∀ s, Q s → ∀ off, u s = some off → off + width f.t ≤ f.len) (h : Q none) (b : Buf) :
    (setP f v : MProc H Unit).Tidy Q u f.t f.len none b := by
  unfold setP
  split
  · rfl
  · refine ⟨rfl, fun old => ?_⟩
    cases old with
    | none => rfl
    | some old => exact tidy_storeVal (resolve_typed (by simp_all)) (resolve_fits hfit) hQ h b

theorem tidy_setInstance {v : GoVal} (hfit : Fits v) {n : Str}
    (hQ : ∀ s, Q s → ∀ off, u s = some off → off + width f.t ≤ f.len) (h : f.has n = true → Q (some n)) (b : Buf) :
    (setInstanceP f v n : MProc H Unit).Tidy Q u f.t f.len none b := by
  unfold setInstanceP
  split
  · rfl
  · split
    · rfl
    · refine ⟨rfl, fun old => ?_⟩
      cases old with
      | none => rfl
      | some old => exact tidy_storeVal (resolve_typed (by simp_all)) (resolve_fits hfit) hQ (h (by simp_all)) b

theorem tidy_histUpd {n : Str} {x : BitVec 64} (hQ : ∀ s, Q s → ∀ off, u s = some off → off + width f.t ≤ f.len)
    (h : f.has n = true → Q (some n)) (b : Buf) :
    (histUpdP f n x : MProc H Unit).Tidy Q u f.t f.len none b := by
  refine ⟨rfl, fun v => ?_⟩
  cases v with
  | none => rfl
  | some v =>
    dsimp only
    split
    · rfl
    · exact tidy_setInstance (v := .float64 _) trivial hQ h b

theorem tidy_val (b : Buf) : (valP : MProc H GoVal).Tidy Q u t len none b := ⟨rfl, fun v => by cases v <;> rfl⟩
theorem tidy_asInt64 (v : GoVal) (b : Buf) : (asInt64P v : MProc H _).Tidy Q u t len none b := by cases v <;> rfl
theorem tidy_asFloat64 (v : GoVal) (b : Buf) : (asFloat64P v : MProc H _).Tidy Q u t len none b := by cases v <;> rfl
theorem tidy_valInstance (n : Str) (b : Buf) : (valInstanceP f n : MProc H GoVal).Tidy Q u t len none b := by
  unfold valInstanceP
  split
  · rfl
  · exact ⟨rfl, fun v => by cases v <;> rfl⟩

theorem MProc.Tidy.ite {c : Prop} [Decidable c] {p q : MProc H α} {d b} (hp : p.Tidy Q u t len d b) (hq : q.Tidy Q u t len d b) :
    (if c then p else q).Tidy Q u t len d b := by split <;> assumption

end

section
variable {F : Flops} {L : Hdr}

/-- Every operation is tidy. -/
theorem Meth.tidy {me : Meth} (hfit : me.Fits) {f : Fixed} {u : Upd} {Q : Option Str → Prop}
    (hQ : ∀ s, Q s → ∀ off, u s = some off → off + width f.t ≤ f.len)
    (h0 : me.single = true → Q none) (h1 : ∀ n, f.has n = true → Q (some n)) (b : Buf) :
    (me.body F L f).Tidy Q u f.t f.len none b := by
  cases me
  case set v => exact .bind (tidy_set hfit hQ (h0 rfl) b) fun _ => rfl
  case val => exact .bind (tidy_val b) fun _ => rfl
  case setInstance v n => exact .bind (tidy_setInstance hfit hQ (h1 n) b) fun _ => rfl
  case valInstance n => exact .bind (tidy_valInstance n b) fun _ => rfl
  case counterSet x =>
    exact .bind (.bind (.bind (tidy_val b) fun _ => tidy_asInt64 _ _) fun _ => .ite rfl (tidy_set (v := .int64 _) trivial hQ (h0 rfl) _)) fun _ => rfl
  case counterInc x =>
    exact .bind (.ite rfl (.ite rfl (.bind (.bind (tidy_val b) fun _ => tidy_asInt64 _ _) fun _ => tidy_set (v := .int64 _) trivial hQ (h0 rfl) _))) fun _ => rfl
  case counterVal => exact .bind (.bind (tidy_val b) fun _ => tidy_asInt64 _ _) fun _ => rfl
  case gaugeSet x => exact .bind (tidy_set (v := .float64 _) trivial hQ (h0 rfl) b) fun _ => rfl
  case gaugeInc x =>
    exact .bind (.ite rfl (.bind (.bind (tidy_val b) fun _ => tidy_asFloat64 _ _) fun _ => tidy_set (v := .float64 _) trivial hQ (h0 rfl) _)) fun _ => rfl
  case gaugeDec x =>
    exact .bind (.ite rfl (.bind (.bind (tidy_val b) fun _ => tidy_asFloat64 _ _) fun _ => tidy_set (v := .float64 _) trivial hQ (h0 rfl) _)) fun _ => rfl
  case gaugeVal => exact .bind (.bind (tidy_val b) fun _ => tidy_asFloat64 _ _) fun _ => rfl
  case timerReset => exact .bind ⟨rfl, fun _ => .ite rfl (tidy_set (v := .float64 _) trivial hQ (h0 rfl) b)⟩ fun _ => rfl
  case timerStart now => exact .bind ⟨rfl, fun _ => .ite rfl ⟨rfl, rfl⟩⟩ fun _ => rfl
  case timerStop now =>
    exact .bind ⟨rfl, fun _ => .ite rfl (.bind (.bind (.bind (tidy_val b) fun _ => tidy_asFloat64 _ _)
      fun _ => .bind (tidy_set (v := .float64 _) trivial hQ (h0 rfl) _) fun _ => rfl) fun _ => ⟨rfl, rfl⟩)⟩ fun _ => rfl
  case cvSet x n =>
    exact .bind (.bind (tidy_valInstance n b) fun v => .bind (tidy_asInt64 v _) fun _ =>
      .ite rfl (tidy_setInstance (v := .int64 _) trivial hQ (h1 n) _)) fun _ => rfl
  case cvInc x n =>
    exact .bind (.ite rfl (.ite rfl (.bind (tidy_valInstance n b) fun v => .bind (tidy_asInt64 v _) fun _ =>
      tidy_setInstance (v := .int64 _) trivial hQ (h1 n) _))) fun _ => rfl
  case cvVal n => exact .bind (.bind (tidy_valInstance n b) fun _ => tidy_asInt64 _ _) fun _ => rfl
  case gvSet x n => exact .bind (tidy_setInstance (v := .float64 _) trivial hQ (h1 n) b) fun _ => rfl
  case gvInc x n =>
    exact .bind (.bind (tidy_valInstance n b) fun v => .bind (tidy_asFloat64 v _) fun _ =>
      tidy_setInstance (v := .float64 _) trivial hQ (h1 n) _) fun _ => rfl
  case gvDec x n =>
    exact .bind (.bind (tidy_valInstance n b) fun v => .bind (tidy_asFloat64 v _) fun _ =>
      tidy_setInstance (v := .float64 _) trivial hQ (h1 n) _) fun _ => rfl
  case gvVal n => exact .bind (.bind (tidy_valInstance n b) fun _ => tidy_asFloat64 _ _) fun _ => rfl
  case histRecord v n =>
    refine .bind ⟨rfl, fun h => ?_⟩ fun _ => rfl
    dsimp only
    split
    · rfl
    · exact ⟨rfl, rfl, fun h => .bind (tidy_histUpd hQ (h1 _) b) fun _ => .bind (tidy_histUpd hQ (h1 _) _) fun _ =>
        .bind (tidy_histUpd hQ (h1 _) _) fun _ => .bind (tidy_histUpd hQ (h1 _) _) fun _ => tidy_histUpd hQ (h1 _) _⟩
  case histField n =>
    refine .bind ⟨rfl, fun v => ?_⟩ fun _ => rfl
    cases v with
    | none => rfl
    | some v => exact tidy_asFloat64 v b

/-! ### The invariant -/

/-- Different values have different bytes. -/
theorem Active.slot_apart {e o w} (h : Active e o w) {x x' : Metric} (hx : x ∈ w.reg.metrics) (hx' : x' ∈ w.reg.metrics)
    {s s' : Option Str} (hs : s ∈ x.slots) (hs' : s' ∈ x'.slots) {off off' a : Nat} (ho : w.upd x.uid s = some off)
    (ho' : w.upd x'.uid s' = some off') (a1 : off ≤ a) (a2 : a < off + width x.desc.t) (b1 : off' ≤ a)
    (b2 : a < off' + width x'.desc.t) : x = x' ∧ s = s' := by
  obtain ⟨σ, hl, _⟩ := h.liveAt
  obtain ⟨q, t, q1, q2, q3, q4⟩ := hl.slot hx hs
  obtain ⟨q', t', q1', q2', q3', q4'⟩ := hl.slot hx' hs'
  rw [q1] at ho
  rw [q1'] at ho'
  obtain rfl := Option.some.inj ho
  obtain rfl := Option.some.inj ho'
  by_contra hne
  have htt : t ≠ t' := by
    rintro rfl
    rcases q4 with rfl | rfl <;> rcases q4' with e | e <;>
      first | (injection e with e1 e2; exact hne ⟨eq_of_uid hl.ok.metricUid hx hx' e1, e2⟩) | (injection e)
  have := slot_disj hl.ok hl.sealed q2 q2' htt
  omega

theorem valOK_fits {t : MetricType} {v : GoVal} (h : ValOK t v) : Fits v := by
  cases v <;> first | trivial | skip
  rename_i x
  unfold ValOK at h
  split at h
  · obtain ⟨s, hs, hl⟩ := h
    cases hs
    exact hl
  · exact absurd rfl (h.1 x)

/-- The bytes of the values of an active client. -/
theorem LiveAt.shows {e o σ w} (h : LiveAt e o σ w) {x : Metric} (hx : x ∈ w.reg.metrics) {s : Option Str} (hs : s ∈ x.slots)
    {v : GoVal} (hv : x.cur s = some v) : Fits v ∧ ∀ off, w.upd x.uid s = some off → ShowsAt w.mem off v := by
  obtain ⟨v', hv', hok⟩ := h.ok.vals x hx s hs
  obtain rfl := Option.some.inj (hv'.symm.trans ((cur_eq_val x s).symm.trans hv))
  refine ⟨valOK_fits hok, fun off ho j hj => ?_⟩
  obtain ⟨⟨v0, u0, h1, h2, h3⟩, _⟩ := (h.file.recs.2 x hx).2 s hs v' hv'
  obtain rfl := Option.some.inj (ho.symm.trans (h.cells _ _ h2))
  unfold ValData at h3
  rw [List.getElem?_eq_getElem hj]
  split at h3
  · obtain ⟨str, rfl, _, _, h6⟩ := h3
    exact h6 j _ (List.getElem?_eq_getElem hj)
  · obtain ⟨rfl, bs, hb, h6⟩ := h3
    refine h6 j _ ?_
    have hnb : newBytes v' = bs := by
      cases v' <;> cases hb <;> rfl
    simp only [hnb] at hj ⊢
    unfold pad
    rw [List.getElem?_append_left hj, List.getElem?_eq_getElem hj]

/-- Values fit into the file. -/
theorem Active.slot_room {e o w} (h : Active e o w) {x : Metric} (hx : x ∈ w.reg.metrics) {s : Option Str} (hs : s ∈ x.slots)
    {off : Nat} (ho : w.upd x.uid s = some off) : off + width x.desc.t ≤ w.mem.length := by
  obtain ⟨σ, hl, _⟩ := h.liveAt
  obtain ⟨v, hv, hok⟩ := hl.ok.vals x hx s hs
  have hg := h.good hx
  rw [← cur_eq_val] at hv
  have ht := hl.typed x hx s v hv
  have hf := valOK_fits hok
  have := hg.room s hs off ho v ht hf
  rw [newBytes_len ht hf] at this
  exact this

/-- What holds at any moment. -/
structure MomentInv (w : Live) (S : LSt L.H Ret Meth) : Prop where
  len : S.mem.length = w.mem.length
  rest : ∀ a, (∀ m, ¬ w.region m a) → S.mem[a]? = w.mem[a]?
  objs : ∀ x ∈ w.reg.metrics, (S.obj x.uid).m.WF ∧ (S.obj x.uid).m.shape = x.shape ∧
    ∀ s ∈ x.slots, ∀ v, (S.obj x.uid).m.cur s = some v → Fits v ∧
      ((∀ off, w.upd x.uid s = some off → ShowsAt S.mem off v) ∨
        ∃ (i : Nat) (p : MProc L.H Ret) (k : Ans Ret → Cli Ret Meth), S.thr[i]? = some (.inn x.uid true p k) ∧ p.InUpd s)
  thr : ∀ (i m : Nat) (p : MProc L.H Ret) (k : Ans Ret → Cli Ret Meth), S.thr[i]? = some (.inn m true p k) →
    ∃ x ∈ w.reg.metrics, x.uid = m ∧ ∃ d, p.Tidy (· ∈ x.slots) (w.upd m) x.desc.t w.mem.length d S.mem ∧ ∀ s, d = some s → s ∈ x.slots

theorem MomentInv.init {e o w obj cs} (h : Users (L := L) e o w obj cs) : MomentInv w (LSt.init obj w.mem cs) := by
  obtain ⟨σ, hl, _⟩ := h.act.liveAt
  refine ⟨rfl, fun _ _ => rfl, fun x hx => ?_, fun i m p k hi => ?_⟩
  · show (obj x.uid).m.WF ∧ (obj x.uid).m.shape = _ ∧ ∀ s ∈ x.slots, ∀ v, (obj x.uid).m.cur s = some v → _
    rw [h.obj x hx]
    refine ⟨h.act.wf x hx, rfl, fun s hs v hv => ?_⟩
    obtain ⟨h1, h2⟩ := hl.shows hx hs hv
    exact ⟨h1, .inl h2⟩
  · simp [LSt.init] at hi

theorem shape_slots {a b : Metric} (h : a.shape = b.shape) : a.slots = b.slots := congrArg (fun x => x.2.2.2.2) h
theorem shape_indom {a b : Metric} (h : a.shape = b.shape) : a.indom = b.indom := congrArg (fun x => x.2.2.2.1) h
theorem put_shape (m : Metric) (s v) : (m.put s v).shape = m.shape := by
  unfold Metric.shape
  rw [put_indom, put_slots]
  rfl

/-- A step that changes neither the file nor the values, and no goroutine leaves or enters a closure. -/
theorem MomentInv.still {w : Live} {S S' : LSt L.H Ret Meth} (h : MomentInv w S) (hm : S'.mem = S.mem)
    (ho : ∀ m, (S'.obj m).m = (S.obj m).m)
    (hw : ∀ (i m : Nat) p k s, S.thr[i]? = some (.inn m true p k) → p.InUpd s → ∃ (i' : Nat) (p' : MProc L.H Ret) (k' : Ans Ret → Cli Ret Meth), S'.thr[i']? = some (.inn m true p' k') ∧ p'.InUpd s)
    (ht : ∀ (i m : Nat) (p : MProc L.H Ret) (k : Ans Ret → Cli Ret Meth), S'.thr[i]? = some (.inn m true p k) →
      ∃ x ∈ w.reg.metrics, x.uid = m ∧ ∃ d, p.Tidy (· ∈ x.slots) (w.upd m) x.desc.t w.mem.length d S.mem ∧ ∀ s, d = some s → s ∈ x.slots) :
    MomentInv w S' := by
  refine ⟨by rw [hm]; exact h.len, by rw [hm]; exact h.rest, fun x hx => ?_, fun i m p k hi => by rw [hm]; exact ht i m p k hi⟩
  rw [ho, hm]
  obtain ⟨h1, h2, h3⟩ := h.objs x hx
  refine ⟨h1, h2, fun s hs v hv => ?_⟩
  obtain ⟨h4, h5⟩ := h3 s hs v hv
  refine ⟨h4, h5.imp id ?_⟩
  rintro ⟨i, p, k, hi, hp⟩
  exact hw i _ p k s hi hp

theorem MomentInv.step {e o w} {S S' : LSt L.H Ret Meth} {T : ASt L.H Ret Meth} (hact : Active e o w) (h : MomentInv w S)
    (hT : Tracks e o w T) (hsim : Sim (meths F L w.fixed) w.upd w.region S T) (hs : LStep (meths F L w.fixed) w.upd S S') :
    MomentInv w S' := by
  obtain ⟨σ, hl, _⟩ := hact.liveAt
  cases hs with
  | @lock i m me k hi hwr hlk =>
    have hcall : (Cli.call m me k).All w.Calls := hT.thr _ (List.mem_of_getElem? (hsim.outs i _ hi).1)
    obtain ⟨x, hx, rfl, hfit, hsing⟩ := hcall.1
    refine h.still rfl (fun _ => rfl) (fun j m p k' s hj hp => ?_) fun j m p k' hj => ?_
    · refine ⟨j, p, k', ?_, hp⟩
      dsimp only
      rw [get_set hi, if_neg]
      · exact hj
      · rintro rfl; rw [hi] at hj; cases hj
    · dsimp only at hj
      rw [get_set hi] at hj
      split at hj
      · cases hj
        have hfx := Live.fixed_eq hl.ok.metricUid hx
        obtain ⟨e1, e2, e3⟩ := fixedOf_eqs hfx
        have hlen : (w.fixed x.uid).len = w.mem.length := by rw [hfx]; rfl
        refine ⟨x, hx, rfl, none, ?_, fun s hs => by cases hs⟩
        have := Meth.tidy (F := F) (L := L) (f := w.fixed x.uid) (u := w.upd x.uid) (Q := (· ∈ x.slots)) hfit ?_
          (fun h1 => indom_none_slot (hsing h1)) (fun n hn => hasInst_slot (by rw [← e2]; exact hn)) S.mem
        · rw [e1, hlen] at this; exact this
        · intro s hs off ho
          rw [e1, hlen]
          exact hact.slot_room hx hs ho
      · exact h.thr j m p k' hj
  | @rlock i m me k n hi hwr hlk =>
    refine h.still rfl (fun _ => rfl) (fun j m p k' s hj hp => ?_) fun j m p k' hj => ?_
    · refine ⟨j, p, k', ?_, hp⟩
      dsimp only
      rw [get_set hi, if_neg]
      · exact hj
      · rintro rfl; rw [hi] at hj; cases hj
    · dsimp only at hj
      rw [get_set hi] at hj
      split at hj
      · cases hj
      · exact h.thr j m p k' hj
  | @unlock i m a k hi =>
    refine h.still rfl (fun _ => rfl) (fun j m p k' s hj hp => ?_) fun j m p k' hj => ?_
    · refine ⟨j, p, k', ?_, hp⟩
      dsimp only
      rw [get_set hi, if_neg]
      · exact hj
      · rintro rfl; rw [hi] at hj; cases hj; exact hp
    · dsimp only at hj
      rw [get_set hi] at hj
      split at hj
      · cases hj
      · exact h.thr j m p k' hj
  | @runlock i m a k n hi hlk =>
    refine h.still rfl (fun _ => rfl) (fun j m p k' s hj hp => ?_) fun j m p k' hj => ?_
    · refine ⟨j, p, k', ?_, hp⟩
      dsimp only
      rw [get_set hi, if_neg]
      · exact hj
      · rintro rfl; rw [hi] at hj; cases hj
    · dsimp only at hj
      rw [get_set hi] at hj
      split at hj
      · cases hj
      · exact h.thr j m p k' hj
  | @access i m wr p k p' o' mem' hi hst =>
    cases wr with
    | false =>
      have hro := (hsim.inns i m false p k hi).2.2.2 rfl
      have hsame : o' = S.obj m ∧ mem' = S.mem := by
        cases p <;> simp only [MProc.step, Option.some.injEq, Prod.mk.injEq, reduceCtorEq] at hst <;>
          first | exact hro.elim | exact ⟨hst.2.1.symm, hst.2.2.symm⟩
      obtain ⟨rfl, rfl⟩ := hsame
      refine h.still rfl (fun m' => ?_) (fun j m p k' s hj hp => ?_) fun j m p k' hj => ?_
      · simp only [fset]; split
        · rename_i hh; rw [hh]
        · rfl
      · refine ⟨j, p, k', ?_, hp⟩
        dsimp only
        rw [get_set hi, if_neg]
        · exact hj
        · rintro rfl; rw [hi] at hj; cases hj
      · dsimp only at hj
        rw [get_set hi] at hj
        split at hj
        · cases hj
        · exact h.thr j m p k' hj
    | true =>
      obtain ⟨x, hx, rfl, d, htidy, hd⟩ := h.thr i m p k hi
      have halone : ∀ (j : Nat) q k', S.thr[j]? = some (.inn x.uid true q k') → j = i := by
        intro j q k' hj
        exact (hsim.locks.alone hi hj).1
      -- the accesses outside closures
      have hclean : d = none → mem' = S.mem → o'.m = (S.obj x.uid).m →
          (∃ d', p'.Tidy (· ∈ x.slots) (w.upd x.uid) x.desc.t w.mem.length d' S.mem ∧ ∀ s, d' = some s → s ∈ x.slots) →
          MomentInv w { S with mem := mem', obj := fset S.obj x.uid o', thr := S.thr.set i (.inn x.uid true p' k) } := by
        rintro rfl rfl ho hp'
        refine h.still rfl (fun m' => ?_) (fun j m p k' s hj hp => ?_) fun j m p k' hj => ?_
        · simp only [fset]; split
          · rename_i hh; rw [hh, ho]
          · rfl
        · refine ⟨j, p, k', ?_, hp⟩
          dsimp only
          rw [get_set hi, if_neg]
          · exact hj
          · rintro rfl; rw [hi] at hj; cases hj; exact htidy.not_inUpd s hp
        · dsimp only at hj
          rw [get_set hi] at hj
          split at hj
          · cases hj; exact ⟨x, hx, rfl, hp'⟩
          · exact h.thr j m p k' hj
      cases p with
      | ret a => cases hst
      | load s q => cases hst; exact hclean htidy.1 rfl rfl ⟨none, htidy.2 _, fun s hs => by cases hs⟩
      | getTs q => cases hst; exact hclean htidy.1 rfl rfl ⟨none, htidy.2 _, fun s hs => by cases hs⟩
      | setTs t q => cases hst; exact hclean htidy.1 rfl rfl ⟨none, htidy.2, fun s hs => by cases hs⟩
      | getH q => cases hst; exact hclean htidy.1 rfl rfl ⟨none, htidy.2 _, fun s hs => by cases hs⟩
      | setH t q => cases hst; exact hclean htidy.1 rfl rfl ⟨none, htidy.2, fun s hs => by cases hs⟩
      | upd s q =>
        cases hst
        exact hclean htidy.1 rfl rfl ⟨some s, htidy.2.2 _ h.len, fun s' hs => by cases hs; exact htidy.2.1⟩
      | byte a c q =>
        cases hst
        obtain ⟨⟨s, off, rfl, hus, a1, a2⟩, hq⟩ := htidy
        have hss := hd s rfl
        have hother : ∀ y ∈ w.reg.metrics, ∀ s' ∈ y.slots, ∀ off', w.upd y.uid s' = some off' → ¬ (y = x ∧ s' = s) →
            ∀ a', off' ≤ a' → a' < off' + width y.desc.t → (S.mem.set a c)[a']? = S.mem[a']? := by
          intro y hy s' hs' off' ho' hne a' b1 b2
          rw [List.getElem?_set_ne]
          rintro rfl
          exact hne (hact.slot_apart hy hx hs' hss ho' hus b1 b2 a1 a2)
        refine ⟨by simpa using h.len, fun a' ha' => ?_, fun y hy => ?_, fun j m r k' hj => ?_⟩
        · rw [← h.rest a' ha']
          refine List.getElem?_set_ne ?_
          rintro rfl
          exact ha' x.uid ⟨x, hx, rfl, s, hss, off, hus, a1, a2⟩
        · have hobj : fset S.obj x.uid (S.obj x.uid) y.uid = S.obj y.uid := by
            simp only [fset]; split
            · rename_i hh; rw [hh]
            · rfl
          dsimp only
          rw [hobj]
          obtain ⟨h1, h2, h3⟩ := h.objs y hy
          refine ⟨h1, h2, fun s' hs' v hv => ?_⟩
          obtain ⟨h4, h5⟩ := h3 s' hs' v hv
          refine ⟨h4, ?_⟩
          by_cases hys : y = x ∧ s' = s
          · obtain ⟨rfl, rfl⟩ := hys
            exact .inr ⟨i, p', k, by rw [get_set hi, if_pos rfl], hq.inUpd⟩
          · rcases h5 with h5 | ⟨j, r, k', hj, hr⟩
            · refine .inl fun off' ho' z hz => ?_
              have ht : Typed y.desc.t v := by rw [← shape_desc h2]; exact WF.cur_typed h1 hv
              rw [hother y hy s' hs' off' ho' hys _ (Nat.le_add_right ..) (by rw [← newBytes_len ht h4]; omega)]
              exact h5 off' ho' z hz
            · refine .inr ⟨j, r, k', ?_, hr⟩
              rw [get_set hi, if_neg]
              · exact hj
              · rintro rfl
                rw [hi] at hj
                obtain ⟨hm1, rfl, rfl⟩ : x.uid = y.uid ∧ MProc.byte a c p' = r ∧ k = k' := by
                  injection hj with hj; injection hj with e1 e2 e3 e4; exact ⟨e1, e3, e4⟩
                have hyx := eq_of_uid hl.ok.metricUid hx hy hm1
                exact hys ⟨hyx.symm, MProc.InUpd.unique (p := p') hr hq.inUpd⟩
        · dsimp only at hj
          rw [get_set hi] at hj
          split at hj
          · cases hj
            exact ⟨x, hx, rfl, some s, hq, hd⟩
          · rename_i hji
            obtain ⟨y, hy, rfl, d', hr, hd'⟩ := h.thr j m r k' hj
            refine ⟨y, hy, rfl, d', ?_, hd'⟩
            cases d' with
            | none => exact hr.any
            | some s' =>
              refine hr.congr (by simp) fun off' ho' a' b1 b2 => hother y hy s' (hd' s' rfl) off' ho' ?_ a' b1 b2
              rintro ⟨rfl, rfl⟩
              exact hji (halone j r k' hj)
      | store s v q =>
        cases hst
        obtain ⟨rfl, hv1, hv2, hv3, hq⟩ := htidy
        have hss := hd s rfl
        refine ⟨h.len, h.rest, fun y hy => ?_, fun j m r k' hj => ?_⟩
        · obtain ⟨h1, h2, h3⟩ := h.objs y hy
          by_cases hyx : y = x
          · subst hyx
            simp only [fset, if_pos]
            refine ⟨put_WF h1 (by rw [shape_desc h2]; exact hv1), (put_shape ..).trans h2, fun s' hs' v' hv' => ?_⟩
            rw [put_cur] at hv'
            split at hv'
            · rename_i he
              subst he
              obtain ⟨_, _, rfl⟩ := Option.map_eq_some_iff.1 hv'
              exact ⟨hv2, .inl hv3⟩
            · rename_i hne
              obtain ⟨h4, h5⟩ := h3 s' hs' v' hv'
              refine ⟨h4, h5.imp id ?_⟩
              rintro ⟨j, r, k', hj, hr⟩
              obtain rfl := halone j r k' hj
              rw [hi] at hj
              cases hj
              exact absurd hr.symm hne
          · have hne : y.uid ≠ x.uid := fun hh => hyx (eq_of_uid hl.ok.metricUid hy hx hh)
            simp only [fset, if_neg hne]
            refine ⟨h1, h2, fun s' hs' v' hv' => ?_⟩
            obtain ⟨h4, h5⟩ := h3 s' hs' v' hv'
            refine ⟨h4, h5.imp id ?_⟩
            rintro ⟨j, r, k', hj, hr⟩
            refine ⟨j, r, k', ?_, hr⟩
            rw [get_set hi, if_neg]
            · exact hj
            · rintro rfl
              rw [hi] at hj
              injection hj with hj
              injection hj with e1
              exact hne e1.symm
        · dsimp only at hj
          rw [get_set hi] at hj
          split at hj
          · cases hj
            exact ⟨x, hx, rfl, none, hq, fun s hs => by cases hs⟩
          · exact h.thr j m r k' hj

theorem Users.moment {e o w obj cs S} (h : Users (L := L) e o w obj cs) (hS : Runs F L w obj cs S) : MomentInv w S := by
  induction hS with
  | refl => exact .init h
  | tail hr hs ih =>
    obtain ⟨T, _, h1, h2⟩ := h.sim hr
    exact ih.step h.act h1 h2 hs

/-! ### Other values in the file -/

/-- Any bytes are those of a value. -/
theorem decode {t : MetricType} {v : GoVal} (h : Typed t v) {l : List Byte} (hl : l.length = width t) :
    ∃ v', Typed t v' ∧ Fits v' ∧ newBytes v' = l := by
  have h4 : ∀ l : List Byte, l.length = 4 → le 4 (BitVec.ofNat 32 (unLe l)).toNat = l := by
    intro l hl
    have hlt := unLe_lt l
    rw [hl] at hlt
    rw [BitVec.toNat_ofNat, Nat.mod_eq_of_lt (by simpa using hlt), ← hl, le_unLe]
  have h8 : ∀ l : List Byte, l.length = 8 → le 8 (BitVec.ofNat 64 (unLe l)).toNat = l := by
    intro l hl
    have hlt := unLe_lt l
    rw [hl] at hlt
    rw [BitVec.toNat_ofNat, Nat.mod_eq_of_lt (by simpa using hlt), ← hl, le_unLe]
  rcases h with ⟨rfl, x, rfl⟩ | ⟨rfl, x, rfl⟩ | ⟨rfl, x, rfl⟩ | ⟨rfl, x, rfl⟩ | ⟨rfl, x, rfl⟩ | ⟨rfl, x, rfl⟩ | ⟨rfl, x, rfl⟩
  · exact ⟨.int32 (BitVec.ofNat 32 (unLe l)), .inl ⟨rfl, _, rfl⟩, trivial, h4 l hl⟩
  · exact ⟨.uint32 (BitVec.ofNat 32 (unLe l)), .inr (.inl ⟨rfl, _, rfl⟩), trivial, h4 l hl⟩
  · exact ⟨.int64 (BitVec.ofNat 64 (unLe l)), .inr (.inr (.inl ⟨rfl, _, rfl⟩)), trivial, h8 l hl⟩
  · exact ⟨.uint64 (BitVec.ofNat 64 (unLe l)), .inr (.inr (.inr (.inl ⟨rfl, _, rfl⟩))), trivial, h8 l hl⟩
  · exact ⟨.float32 (BitVec.ofNat 32 (unLe l)), .inr (.inr (.inr (.inr (.inl ⟨rfl, _, rfl⟩)))), trivial, h4 l hl⟩
  · exact ⟨.float64 (BitVec.ofNat 64 (unLe l)), .inr (.inr (.inr (.inr (.inr (.inl ⟨rfl, _, rfl⟩))))), trivial, h8 l hl⟩
  · refine ⟨.str l, .inr (.inr (.inr (.inr (.inr (.inr ⟨rfl, _, rfl⟩))))), ?_, ?_⟩
    · show l.length ≤ 256
      rw [hl]; decide
    · show pad StringLength l = l
      have hl' : l.length = 256 := hl
      unfold pad
      rw [hl']
      exact List.append_nil l

/-- The registry `r'` is `r`, except that the values in `l` are those of `f`. -/
structure Overlaid (l : List (Nat × Option Str)) (f : Nat → Option Str → GoVal) (r r' : Reg) : Prop where
  rest : r' = { r with metrics := r'.metrics }
  mets : List.Forall₂ (fun m m' : Metric => m'.shape = m.shape ∧
    ∀ s ∈ m.slots, m'.cur s = if (m.uid, s) ∈ l then some (f m.uid s) else m.cur s) r.metrics r'.metrics

theorem forall₂_imp_mem {X Y : Type} {R R' : X → Y → Prop} {l : List X} {l' : List Y} (h : List.Forall₂ R l l')
    (hi : ∀ x ∈ l, ∀ y, R x y → R' x y) : List.Forall₂ R' l l' := by
  induction h with
  | nil => exact .nil
  | cons h _ ih => exact .cons (hi _ (by simp) _ h) (ih fun x hx => hi x (List.mem_cons_of_mem _ hx))

/-- A file whose bytes differ only in the slots of some values is the file of the same client with other values. -/
theorem LiveAt.overlay {e o σ} (f : Nat → Option Str → GoVal) (l : List (Nat × Option Str)) {w : Live} (h : LiveAt e o σ w)
    (hf : ∀ m ∈ w.reg.metrics, ∀ s ∈ m.slots, (m.uid, s) ∈ l → Typed m.desc.t (f m.uid s) ∧ Fits (f m.uid s))
    {mem : Buf} (hlen : mem.length = w.mem.length)
    (hin : ∀ m ∈ w.reg.metrics, ∀ s ∈ m.slots, (m.uid, s) ∈ l → ∀ off, w.upd m.uid s = some off → ShowsAt mem off (f m.uid s))
    (hout : ∀ a, (∀ m ∈ w.reg.metrics, ∀ s ∈ m.slots, (m.uid, s) ∈ l → ∀ off, w.upd m.uid s = some off →
      ¬ (off ≤ a ∧ a < off + width m.desc.t)) → mem[a]? = w.mem[a]?) :
    ∃ r', LiveAt e o σ ⟨r', mem, w.cells⟩ ∧ Overlaid l f w.reg r' := by
  induction l generalizing w with
  | nil =>
    obtain rfl : mem = w.mem := List.ext_getElem? fun a => hout a fun _ _ _ _ h => by cases h
    exact ⟨w.reg, h, rfl, List.forall₂_same.2 fun m _ => ⟨rfl, fun s _ => by simp⟩⟩
  | cons p l ih =>
    obtain ⟨uid, s⟩ := p
    by_cases hp : ∃ m ∈ w.reg.metrics, m.uid = uid ∧ s ∈ m.slots
    · obtain ⟨m, hm, rfl, hs⟩ := hp
      obtain ⟨hty, hfit⟩ := hf m hm s hs (by simp)
      obtain ⟨u, hu, hroom, _, hstore⟩ := h.store (old := f m.uid s) hm hs hty hfit
      have hupd : w.upd m.uid s = some u := h.cells _ _ hu
      have hwid := newBytes_len hty hfit
      -- the metrics of the world after the store
      have hback : ∀ y ∈ (w.reg.setMetric (m.put s (f m.uid s))).metrics, ∃ x ∈ w.reg.metrics, y.shape = x.shape := by
        intro y hy
        rcases mem_setMetric hy with rfl | ⟨hy, _⟩
        · exact ⟨m, hm, put_shape ..⟩
        · exact ⟨y, hy, rfl⟩
      obtain ⟨r', h1, h2⟩ := ih (w := w.put ⟨m.put s (f m.uid s), place w.mem u (newBytes (f m.uid s))⟩) hstore
        (by
          intro y hy s' hs' hl'
          obtain ⟨x, hx, he⟩ := hback y hy
          rw [shape_desc he, shape_uid he] at *
          rw [shape_slots he] at hs'
          exact hf x hx s' hs' (List.mem_cons_of_mem _ hl'))
        (by rw [hlen]; exact (place_length ..).symm)
        (by
          intro y hy s' hs' hl' off ho
          obtain ⟨x, hx, he⟩ := hback y hy
          rw [shape_uid he] at *
          rw [shape_slots he] at hs'
          exact hin x hx s' hs' (List.mem_cons_of_mem _ hl') off ho)
        (by
          intro a ha
          show mem[a]? = (place w.mem u (newBytes (f m.uid s)))[a]?
          rw [place_get _ _ _ hroom]
          split
          · rename_i hh
            have := hin m hm s hs (by simp) u hupd (a - u) (by omega)
            rw [Nat.add_sub_cancel' hh.1] at this
            exact this
          · rename_i hh
            refine hout a fun x hx s' hs' hl' off ho => ?_
            rcases List.mem_cons.1 hl' with heq | hl2
            · obtain ⟨e1, rfl⟩ := Prod.mk.inj heq
              obtain rfl := eq_of_uid h.ok.metricUid hx hm e1
              obtain rfl := Option.some.inj (ho.symm.trans hupd)
              rw [← hwid]; exact hh
            · by_cases hxm : x.uid = m.uid
              · obtain rfl := eq_of_uid h.ok.metricUid hx hm hxm
                exact ha (x.put s (f x.uid s)) (mem_setMetric_self hm) s' (by rw [put_slots]; exact hs') hl2 off ho
              · exact ha x (mem_setMetric_other hx (by rw [put_uid]; exact hxm)) s' hs' hl2 off ho)
      refine ⟨r', h1, h2.rest, ?_⟩
      have h3 := h2.mets
      change List.Forall₂ _ (w.reg.metrics.map _) _ at h3
      rw [List.forall₂_map_left_iff] at h3
      refine forall₂_imp_mem h3 fun x hx x' hxx => ?_
      dsimp only at hxx
      rw [put_uid] at hxx
      split at hxx
      · rename_i he
        obtain rfl := eq_of_uid h.ok.metricUid hx hm he
        obtain ⟨q1, q2⟩ := hxx
        refine ⟨q1.trans (put_shape ..), fun s' hs' => ?_⟩
        rw [q2 s' (by rw [put_slots]; exact hs'), put_uid, put_cur]
        by_cases hl' : (x.uid, s') ∈ l
        · rw [if_pos hl', if_pos (List.mem_cons_of_mem _ hl')]
        · rw [if_neg hl']
          by_cases hss : s' = s
          · subst hss
            obtain ⟨v, hv, _⟩ := h.ok.vals x hx s' hs
            rw [if_pos rfl, if_pos List.mem_cons_self, cur_eq_val, hv]
            rfl
          · rw [if_neg hss, if_neg]
            intro hh
            rcases List.mem_cons.1 hh with heq | hh
            · exact hss (Prod.mk.inj heq).2
            · exact hl' hh
      · rename_i he
        refine ⟨hxx.1, fun s' hs' => ?_⟩
        rw [hxx.2 s' hs']
        have : (x.uid, s') ∈ (m.uid, s) :: l ↔ (x.uid, s') ∈ l := by
          rw [List.mem_cons]
          exact ⟨fun hh => hh.resolve_left fun heq => he (Prod.mk.inj heq).1, .inr⟩
        simp only [this]
    · obtain ⟨r', h1, h2⟩ := ih h (fun m hm s' hs' hl' => hf m hm s' hs' (List.mem_cons_of_mem _ hl')) hlen
        (fun m hm s' hs' hl' => hin m hm s' hs' (List.mem_cons_of_mem _ hl'))
        (fun a ha => hout a fun m hm s' hs' hl' off ho => by
          rcases List.mem_cons.1 hl' with heq | hl'
          · obtain ⟨e1, rfl⟩ := Prod.mk.inj heq
            exact absurd ⟨m, hm, e1, hs'⟩ hp
          · exact ha m hm s' hs' hl' off ho)
      refine ⟨r', h1, h2.rest, forall₂_imp_mem h2.mets fun x hx x' hxx => ⟨hxx.1, fun s' hs' => ?_⟩⟩
      rw [hxx.2 s' hs']
      have : (x.uid, s') ∈ (uid, s) :: l ↔ (x.uid, s') ∈ l := by
        rw [List.mem_cons]
        refine ⟨fun hh => hh.resolve_left fun heq => hp ⟨x, hx, (Prod.mk.inj heq).1, ?_⟩, .inr⟩
        rw [← (Prod.mk.inj heq).2]; exact hs'
      simp only [this]

end

end Speed
