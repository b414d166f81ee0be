import Verif.Examples
import Verif.PropsClient
import Verif.PropsMetrics
import Verif.PropsRegistry
/-
Lemmas about runs of the example programs.
-/
namespace Speed.Examples
open Dump

section
variable {cf : Conf} {tmp : Str} {parse : Str → Option (Str × Str × Option (List Str))}

/-- There is a run of the program, and every run ends in a system with `Q`. The boolean says if it came to its end. -/
def Runs (cf : Conf) (tmp : Str) (parse : Str → Option (Str × Str × Option (List Str))) (p : Prog) (w : Sys) (Q : Sys → Bool → Prop) : Prop :=
  (∃ w' b, Exec cf tmp parse w p w' b) ∧ ∀ w' b, Exec cf tmp parse w p w' b → Q w' b

theorem Runs.done {w : Sys} {Q : Sys → Bool → Prop} (h : Q w true) : Runs cf tmp parse .done w Q :=
  ⟨⟨w, _, .done⟩, fun w' b he => by cases he; exact h⟩

theorem Runs.op {w : Sys} {Q : Sys → Bool → Prop} {must o k} (h1 : ∃ w1 res, CStep cf tmp parse w (o w) w1 res)
    (h2 : ∀ w1 res, CStep cf tmp parse w (o w) w1 res → res = .ok () ∧ Runs cf tmp parse k w1 Q) :
    Runs cf tmp parse (.op must o k) w Q := by
  refine ⟨?_, fun w' b he => ?_⟩
  · obtain ⟨w1, res, hs⟩ := h1
    obtain ⟨rfl, ⟨w2, b, h3⟩, _⟩ := h2 _ _ hs
    exact ⟨w2, b, .op_on hs (.inl rfl) h3⟩
  · cases he with
    | op_on hs _ he => exact (h2 _ _ hs).2.2 _ _ he
    | op_end hs hn => exact absurd (.inl (h2 _ _ hs).1) hn

theorem Runs.op_panic {w : Sys} {Q : Sys → Bool → Prop} {must o k} (h1 : ∃ w1 res, CStep cf tmp parse w (o w) w1 res)
    (h2 : ∀ w1 res, CStep cf tmp parse w (o w) w1 res → res = .panic ∧ Q w1 false) :
    Runs cf tmp parse (.op must o k) w Q := by
  refine ⟨?_, fun w' b he => ?_⟩
  · obtain ⟨w1, res, hs⟩ := h1
    obtain ⟨rfl, _⟩ := h2 _ _ hs
    exact ⟨w1, _, .op_end hs (by simp)⟩
  · cases he with
    | op_on hs hr he => rw [(h2 _ _ hs).1] at hr; simp at hr
    | op_end hs hn => exact (h2 _ _ hs).2

theorem Runs.read {w : Sys} {Q : Sys → Bool → Prop} {name s k} (h : Runs cf tmp parse (k ((w.reg.get name).bind (·.cur s))) w Q) :
    Runs cf tmp parse (.read name s k) w Q := by
  obtain ⟨⟨w', b, h1⟩, h2⟩ := h
  refine ⟨⟨w', b, .read h1⟩, fun w' b he => ?_⟩
  cases he with
  | read he => exact h2 _ _ he

theorem Runs.orFatal {α : Type} {x : Option α} {a : α} {k : α → Prog} {w Q} (hx : x = some a) (h : Runs cf tmp parse (k a) w Q) :
    Runs cf tmp parse (orFatal x k) w Q := by subst hx; exact h

theorem Runs.orFatal' {α : Type} {x : Option α} {k : α → Prog} {w Q} (hx : x.isSome = true)
    (h : Runs cf tmp parse (k (x.get hx)) w Q) : Runs cf tmp parse (Examples.orFatal x k) w Q :=
  Runs.orFatal (Option.some_get hx).symm h

theorem Runs.loop {body : Nat → Prog → Prog} {Q : Sys → Bool → Prop} (Inv : Nat → Sys → Prop)
    (hb : ∀ i w k, Inv i w → (∀ w', Inv (i + 1) w' → Runs cf tmp parse k w' Q) → Runs cf tmp parse (body i k) w Q) {k : Prog} :
    ∀ (n i : Nat) (w : Sys), Inv i w → (∀ w', Inv (i + n) w' → Runs cf tmp parse k w' Q) → Runs cf tmp parse (loop body i n k) w Q := by
  intro n
  induction n with
  | zero => exact fun i w h hk => hk w h
  | succ n ih =>
    intro i w h hk
    refine hb i w _ h fun w' h' => ih (i + 1) w' h' fun w'' h'' => hk w'' ?_
    rw [Nat.add_right_comm] at h''; exact h''

theorem Runs.each {α : Type} {body : α → Prog → Prog} {Q : Sys → Bool → Prop} (Inv : List α → Sys → Prop)
    (hb : ∀ pre a w k, Inv pre w → (∀ w', Inv (pre ++ [a]) w' → Runs cf tmp parse k w' Q) → Runs cf tmp parse (body a k) w Q) {k : Prog} :
    ∀ (l pre : List α) (w : Sys), Inv pre w → (∀ w', Inv (pre ++ l) w' → Runs cf tmp parse k w' Q) → Runs cf tmp parse (each body l k) w Q := by
  intro l
  induction l with
  | nil => intro pre w h hk; exact hk w (by rw [List.append_nil]; exact h)
  | cons a l ih =>
    intro pre w h hk
    refine hb pre a w _ h fun w' h' => ih (pre ++ [a]) w' h' fun w'' h'' => hk w'' ?_
    rw [List.append_assoc] at h''; exact h''

/-! ### States of a program with one client -/

/-- The client for path `loc`, active (`on`) or never started. -/
structure At (cf : Conf) (tmp : Str) (parse : Str → Option (Str × Str × Option (List Str))) (on : Bool) (loc : Str) (w : Sys) : Prop where
  hist : CHist cf tmp parse w
  alive : w.crashed = false
  mapped : w.reg.mapped = on
  client : ∃ c, w.clients = [c] ∧ c.loc = loc ∧ (on = true → ∃ n, c.writer = some n ∧ w.fs.names loc = some n)
  fresh : on = false → w.upd = fun _ => none

theorem At.nodup {on loc w} (h : At cf tmp parse on loc w) : (w.reg.metrics.map (fun m => m.desc.name)).Nodup :=
  h.hist.inv.built.nodup

theorem get_some {r : Reg} {name : Str} {m : Metric} (h : r.get name = some m) : m ∈ r.metrics ∧ m.desc.name = name :=
  ⟨List.mem_of_find?_eq_some h, by simpa using List.find?_some h⟩

theorem get_eq {r : Reg} (hn : (r.metrics.map (fun m => m.desc.name)).Nodup) {m : Metric} (hm : m ∈ r.metrics) : r.get m.desc.name = some m := by
  cases hg : r.get m.desc.name with
  | none =>
    unfold Reg.get at hg
    rw [List.find?_eq_none] at hg
    exact absurd (by simp) (hg m hm)
  | some x =>
    obtain ⟨h1, h2⟩ := get_some hg
    rw [named_eq hn h1 hm h2]

theorem get_replace {r : Reg} {name : Str} {m m' : Metric} (hm : r.get name = some m)
    (hd : m'.desc.name = name) (name' : Str) : (r.replace name m').get name' = if name' = name then some m' else r.get name' := by
  have key : ∀ (l : List Metric), (∃ x ∈ l, x.desc.name = name) →
      (l.map (fun x => if x.desc.name = name then m' else x)).find? (fun x => x.desc.name = name') =
      if name' = name then some m' else l.find? (fun x => x.desc.name = name') := by
    intro l
    by_cases hn : name' = name
    · subst hn
      rw [if_pos rfl]
      induction l with
      | nil => rintro ⟨_, h, _⟩; cases h
      | cons x l ih =>
        rintro ⟨y, hy, hyn⟩
        by_cases hx : x.desc.name = name'
        · simp [hx, hd]
        · rw [List.map_cons, if_neg hx, List.find?_cons_of_neg (by simpa using hx)]
          refine ih ⟨y, ?_, hyn⟩
          rcases List.mem_cons.1 hy with rfl | h
          · exact absurd hyn hx
          · exact h
    · rintro -
      rw [if_neg hn]
      induction l with
      | nil => rfl
      | cons x l ih =>
        by_cases hx : x.desc.name = name
        · rw [List.map_cons, if_pos hx, List.find?_cons_of_neg (by simpa [hd] using Ne.symm hn),
            List.find?_cons_of_neg (by simpa [hx] using Ne.symm hn)]
          exact ih
        · rw [List.map_cons, if_neg hx]
          by_cases hx' : x.desc.name = name'
          · rw [List.find?_cons_of_pos (by simpa using hx'), List.find?_cons_of_pos (by simpa using hx')]
          · rw [List.find?_cons_of_neg (by simpa using hx'), List.find?_cons_of_neg (by simpa using hx')]
            exact ih
  exact key r.metrics ⟨m, get_some hm⟩

/-- A value operation on a registered metric. -/
theorem At.step {on loc w} (h : At cf tmp parse on loc w) {name : Str} {m : Metric} (hm : w.reg.get name = some m) {c : Call} (hf : c.Fits) :
    (∃ w1 res, CStep cf tmp parse w (.call name c) w1 res) ∧
    ∀ w1 res, CStep cf tmp parse w (.call name c) w1 res → ∃ u mem, Good u ⟨m, mem⟩ ∧ res = (c.op u ⟨m, mem⟩).2 ∧
      w1.reg = w.reg.replace name (c.op u ⟨m, mem⟩).1.m ∧ At cf tmp parse on loc w1 := by
  obtain ⟨hmem, hname⟩ := get_some hm
  have hi := h.hist.inv
  have same : ∀ {x}, x ∈ w.reg.metrics → x.desc.name = name → x = m := fun hx hxn => named_eq h.nodup hx hmem (by rw [hxn, hname])
  have after : ∀ {w1 res}, CStep cf tmp parse w (.call name c) w1 res → w1.crashed = false → w1.reg.mapped = on → w1.clients = w.clients →
      w1.fs.names = w.fs.names → w1.upd = w.upd → At cf tmp parse on loc w1 := by
    intro w1 res hs h1 h2 h3 h4 h5
    refine ⟨h.hist.step hs fun _ => hf, h1, h2, ?_, fun ho => by rw [h5]; exact h.fresh ho⟩
    rw [h3, h4]; exact h.client
  cases on with
  | false =>
    have hu : w.upd m.uid = none := by rw [h.fresh rfl]
    refine ⟨⟨_, _, .call_free h.alive hmem hname hu⟩, fun w1 res hs => ?_⟩
    have hs' := hs
    cases hs with
    | @call_free _ x _ hal hx hxn hxu =>
      obtain rfl := same hx hxn
      exact ⟨_, _, ⟨hi.built.built.inv.metrics _ hmem, by simp, fun _ _ _ h => by cases h⟩, rfl, rfl,
        after hs' hal (by show (w.reg.replace _ _).mapped = _; exact h.mapped) rfl rfl rfl⟩
    | call_live _ hx hxn hxu => rw [same hx hxn, hu] at hxu; cases hxu
    | call_dead _ hx hxn hxu => rw [same hx hxn, hu] at hxu; cases hxu
    | call_crash _ hx hxn hxu => rw [same hx hxn, hu] at hxu; cases hxu
  | true =>
    obtain ⟨cl, n, a⟩ := hi.act h.mapped
    obtain ⟨gen, pid, o, b, live, g1, g2, g3, g4⟩ := a.live
    have hu := g4 m hmem
    refine ⟨⟨_, _, .call_live h.alive hmem hname hu a.mapped⟩, fun w1 res hs => ?_⟩
    have hs' := hs
    cases hs with
    | call_free _ hx hxn hxu => rw [same hx hxn, hu] at hxu; cases hxu
    | @call_live _ x _ k u hal hx hxn hxu hk =>
      obtain rfl := same hx hxn
      rw [hu] at hxu
      simp only [Option.some.injEq, Prod.mk.injEq] at hxu
      obtain ⟨rfl, rfl⟩ := hxu
      have hg := g1.good (m := x) (by rw [g2]; exact hmem)
      rw [g3] at hg
      exact ⟨_, _, hg, rfl, rfl,
        after hs' hal (by show (w.reg.replace _ _).mapped = _; exact h.mapped) rfl rfl rfl⟩
    | call_dead _ hx hxn hxu hk =>
      rw [same hx hxn, hu] at hxu
      simp only [Option.some.injEq, Prod.mk.injEq] at hxu
      rw [← hxu.1] at hk; exact absurd a.mapped hk
    | call_crash _ hx hxn hxu hk =>
      rw [same hx hxn, hu] at hxu
      simp only [Option.some.injEq, Prod.mk.injEq] at hxu
      rw [← hxu.1] at hk; exact absurd a.mapped hk

/-! ### Values -/

/-- The metric `name` has type `t`, and value `v` in slot `s`. -/
def Holds (r : Reg) (name : Str) (t : MetricType) (s : Option Str) (v : GoVal) : Prop :=
  (r.get name).map (fun m => (m.desc.t, m.cur s)) = some (t, some v)

instance (r name t s v) : Decidable (Holds r name t s v) := inferInstanceAs (Decidable (_ = _))

theorem Holds.metric {r name t s v} (h : Holds r name t s v) : ∃ m, r.get name = some m ∧ m.desc.t = t ∧ m.cur s = some v := by
  obtain ⟨m, hm, he⟩ := Option.map_eq_some_iff.1 h
  simp only [Prod.mk.injEq] at he
  exact ⟨m, hm, he.1, he.2⟩

theorem Holds.mk {r name t s v} {m : Metric} (h : r.get name = some m) (ht : m.desc.t = t) (hv : m.cur s = some v) : Holds r name t s v := by
  unfold Holds; rw [h, Option.map_some, ht, hv]

theorem Holds.read {r name t s v} (h : Holds r name t s v) : (r.get name).bind (·.cur s) = some v := by
  obtain ⟨m, h1, _, h3⟩ := h.metric
  rw [h1]; exact h3

theorem Holds.mapped {r name t s v} (h : Holds r name t s v) (b : Bool) : Holds { r with mapped := b } name t s v := h

/-- `r'` is `r` with value `v` in slot `s` of `name`. -/
structure Upd1 (r r' : Reg) (name : Str) (t : MetricType) (s : Option Str) (v : GoVal) : Prop where
  here : Holds r' name t s v
  other : ∀ name' t' s' v', (name' ≠ name ∨ s' ≠ s) → Holds r name' t' s' v' → Holds r' name' t' s' v'
  frozen : Frozen r r'

theorem Metric.put_shape {u : Upd} {m : Metric} {b b' : Buf} {c : Call} {s v res} (h : c.op u ⟨m, b⟩ = (⟨m.put s v, b'⟩, res)) :
    (m.put s v).shape = m.shape := by
  have := c.shape u ⟨m, b⟩
  rw [h] at this; exact this

theorem upd1_put {r : Reg} {name t s} {old : GoVal} {m : Metric} (hn : (r.metrics.map (fun m => m.desc.name)).Nodup)
    (hm : r.get name = some m) (ht : m.desc.t = t) (hold : m.cur s = some old) {v : GoVal} (hs : (m.put s v).shape = m.shape) : Upd1 r (r.replace name (m.put s v)) name t s v := by
  have hg := get_replace (m' := m.put s v) hm (by rw [put_desc]; exact (get_some hm).2)
  refine ⟨.mk (by rw [hg, if_pos rfl]) (by rw [put_desc]; exact ht) (by rw [put_cur, if_pos rfl, hold]; rfl), ?_, by
    have := frozen_replace hn (get_some hm).1 hs
    rw [(get_some hm).2] at this; exact this⟩
  intro name' t' s' v' hne hh
  obtain ⟨m', h1, h2, h3⟩ := hh.metric
  by_cases hn : name' = name
  · subst hn
    rw [hm] at h1
    obtain rfl := Option.some.inj h1
    refine .mk (by rw [hg, if_pos rfl]) (by rw [put_desc]; exact h2) ?_
    rw [put_cur, if_neg (hne.resolve_left (fun h => h rfl))]
    exact h3
  · exact .mk (by rw [hg, if_neg hn]; exact h1) h2 h3

/-- A value operation that stores `v`. -/
theorem Runs.call1 {on loc w Q name t s} {old v : GoVal} {must : Bool} {c : Call} {k : Prog} (h : At cf tmp parse on loc w)
    (hh : Holds w.reg name t s old) (hf : c.Fits)
    (hop : ∀ u st, Good u st → w.reg.get name = some st.m → st.m.desc.t = t → st.m.cur s = some old → ∃ b, c.op u st = (⟨st.m.put s v, b⟩, .ok ()))
    (hk : ∀ w', At cf tmp parse on loc w' → Upd1 w.reg w'.reg name t s v → Runs cf tmp parse k w' Q) :
    Runs cf tmp parse (.op must (fun _ => .call name c) k) w Q := by
  obtain ⟨m, h1, h2, h3⟩ := hh.metric
  obtain ⟨g1, g2⟩ := h.step h1 hf
  refine .op g1 fun w1 res hs => ?_
  obtain ⟨u, mem, hg, e1, e2, e3⟩ := g2 w1 res hs
  obtain ⟨b, hb⟩ := hop u ⟨m, mem⟩ hg h1 h2 h3
  rw [hb] at e1 e2
  exact ⟨e1, hk w1 e3 (by rw [e2]; exact upd1_put h.nodup h1 h2 h3 (Metric.put_shape hb))⟩

/-- `Set` and `SetInstance`. -/
theorem Runs.setAt {on loc w Q name t s} {old v : GoVal} {must : Bool} {k : Prog} (h : At cf tmp parse on loc w)
    (hh : Holds w.reg name t s old) (hc : isCompatible t v = true) (hf : Fits v)
    (hk : ∀ w', At cf tmp parse on loc w' →
      Upd1 w.reg w'.reg name t s (if goEq (resolve t v) old then old else resolve t v) → Runs cf tmp parse k w' Q) :
    Runs cf tmp parse (.op must (fun _ => .call name (setCall s v)) k) w Q := by
  refine .call1 h hh (by cases s <;> exact hf) (fun u st hg _ ht ho => ?_) hk
  subst ht
  obtain ⟨b, hb, _⟩ := hg.setAt ho hc hf
  exact ⟨b, by rw [setCall_op]; exact hb⟩

theorem Runs.set {on loc w Q name t} {old v : GoVal} {k : Prog} (h : At cf tmp parse on loc w)
    (hh : Holds w.reg name t none old) (hc : isCompatible t v = true) (hf : Fits v)
    (hk : ∀ w', At cf tmp parse on loc w' →
      Upd1 w.reg w'.reg name t none (if goEq (resolve t v) old then old else resolve t v) → Runs cf tmp parse k w' Q) :
    Runs cf tmp parse (set name v k) w Q := Runs.setAt (s := none) h hh hc hf hk

theorem Runs.setInst {on loc w Q name t n} {old v : GoVal} {k : Prog} (h : At cf tmp parse on loc w)
    (hh : Holds w.reg name t (some n) old) (hc : isCompatible t v = true) (hf : Fits v)
    (hk : ∀ w', At cf tmp parse on loc w' →
      Upd1 w.reg w'.reg name t (some n) (if goEq (resolve t v) old then old else resolve t v) → Runs cf tmp parse k w' Q) :
    Runs cf tmp parse (setInst name n v k) w Q := Runs.setAt (s := some n) h hh hc hf hk

theorem Runs.up {on loc w Q name} {x : BitVec 64} {k : Prog} (h : At cf tmp parse on loc w)
    (hh : Holds w.reg name Int64Type none (.int64 x))
    (hk : ∀ w', At cf tmp parse on loc w' → Upd1 w.reg w'.reg name Int64Type none (.int64 (x + 1)) → Runs cf tmp parse k w' Q) :
    Runs cf tmp parse (call name .counterUp k) w Q := by
  refine .call1 h hh trivial (fun u st hg _ ht ho => ?_) hk
  obtain ⟨b, hb, _⟩ := counterUp_eq hg ht ho
  exact ⟨b, hb⟩

theorem Runs.inc {on loc w Q name} (F : Flops) {v x : BitVec 64} {k : Prog} (h : At cf tmp parse on loc w)
    (hh : Holds w.reg name DoubleType none (.float64 v))
    (hk : ∀ w', At cf tmp parse on loc w' → Upd1 w.reg w'.reg name DoubleType none (.float64 (gaugeNext F v x)) → Runs cf tmp parse k w' Q) :
    Runs cf tmp parse (call name (.gaugeInc F x) k) w Q := by
  refine .call1 h hh trivial (fun u st hg _ ht ho => ?_) hk
  obtain ⟨b, hb, _⟩ := gaugeInc_eq hg ht F ho x
  exact ⟨b, hb⟩

theorem sameF_gaugeNext {F : Flops} (hF : F.Lawful) (v x : BitVec 64) : sameF (gaugeNext F v x) (F.add v x) := by
  unfold gaugeNext
  split
  · rename_i hx; exact (hF.zero v x hx).symm
  · exact sameF_fstore _ _

/-! ### Registries whose values change -/

theorem Frozen.back {r r' : Reg} (h : Frozen r r') {m : Metric} (hm : m ∈ r'.metrics) : ∃ x ∈ r.metrics, x.shape = m.shape := by
  have : m.shape ∈ r'.metrics.map Metric.shape := List.mem_map_of_mem hm
  rw [h.metrics] at this
  exact List.mem_map.1 this

theorem publishable_frozen {r r' : Reg} (h : Frozen r r') (hp : r.Publishable) (hw : ∀ m ∈ r'.metrics, m.WF)
    (ht : ∀ m ∈ r.metrics, m.desc.t ≠ StringType) : r'.Publishable := by
  refine ⟨by rw [h.indoms]; exact hp.nonempty, by rw [h.indoms]; exact hp.indomText, fun m hm => ?_, fun m hm n s hc => ?_, fun m hm => ?_,
    fun m hm d hd => ?_, by rw [h.indoms]; exact hp.indomUid, ?_⟩
  · obtain ⟨x, hx, he⟩ := Frozen.back h hm
    rw [← shape_desc he]; exact hp.metricText x hx
  · obtain ⟨x, hx, he⟩ := Frozen.back h hm
    have hn := ht x hx
    rw [shape_desc he] at hn
    have := WF.cur_typed (hw m hm) hc
    rcases this with ⟨_, _, h⟩ | ⟨_, _, h⟩ | ⟨_, _, h⟩ | ⟨_, _, h⟩ | ⟨_, _, h⟩ | ⟨_, _, h⟩ | ⟨h, _⟩
    all_goals first
      | exact absurd h hn
      | cases h
  · obtain ⟨x, hx, he⟩ := Frozen.back h hm
    have hk : x.kind = m.kind := congrArg (fun x => x.2.1) he
    rw [← hk]; exact hp.library x hx
  · obtain ⟨x, hx, he⟩ := Frozen.back h hm
    rw [h.indoms]
    exact hp.registered x hx d ((congrArg (fun x => x.2.2.2.1) he : x.indom = m.indom).trans hd)
  · have := congrArg (List.map (fun x : Nat × Kind × Desc × Option Indom × List (Option Str) => x.1)) h.metrics
    simp only [List.map_map] at this
    have h2 : r'.metrics.map (·.uid) = r.metrics.map (·.uid) := this
    rw [h2]; exact hp.metricUid

theorem small_frozen {r r' : Reg} (h : Frozen r r') (hs : r.Small) : r'.Small := by
  have hm : r'.MetricCount = r.MetricCount := by
    have := congrArg List.length h.metrics
    simpa [Reg.MetricCount] using this
  have h1 : r'.InstanceCount = r.InstanceCount := h.instanceCount
  refine ⟨?_, by rw [h1]; exact hs.insts, by rw [hm]; exact hs.metrics, ?_, ?_⟩
  · have := hs.indoms; unfold Reg.InstanceDomainCount at this ⊢; rw [h.indoms]; exact this
  · have := hs.values; unfold Reg.ValuesCount at this ⊢; rw [h.valueCount]; exact this
  · have := hs.strings; unfold Reg.StringCount at this ⊢; rw [h1, hm, h.version2, h.stringcount]; exact this

/-! ### Setting up -/

instance (n : Str) : Decidable (Ordinary n) := inferInstanceAs (Decidable (_ ∧ _ ∧ _ ∧ _))

/-- The client is created. -/
theorem Runs.newC {fs : FS} {name : Str} {k : Prog} {Q} (hfs : fs.OK) (hn : Ordinary name)
    (hk : ∀ w, At cf tmp parse false (mmvDir cf tmp ++ 0x2F :: name) w → w.reg = Reg.empty → Runs cf tmp parse k w Q) :
    Runs cf tmp parse (newC name k) (Sys.init fs) Q := by
  have hl := (C39_location_partial cf tmp name).2 hn
  have hc : newClient cf tmp name = some ⟨mmvDir cf tmp ++ 0x2F :: name, hash name PCPClusterIDBitLength, 2, none⟩ := by unfold newClient; rw [hl]; rfl
  have h0 : CHist cf tmp parse (Sys.init fs) := .init hfs
  refine .op ⟨_, _, .new_ok rfl hc⟩ fun w1 res hs => ?_
  have h1 := h0.step hs rfl
  cases hs with
  | new_err _ he => rw [hc] at he; cases he
  | new_ok _ he =>
    rw [hc] at he
    obtain rfl := Option.some.inj he
    exact ⟨rfl, hk _ ⟨h1, rfl, rfl, ⟨_, rfl, rfl, fun h => by cases h⟩, fun _ => rfl⟩ rfl⟩

/-- A registration. -/
theorem Runs.reg {loc w Q} {op : ROp} {k : Prog} (h : At cf tmp parse false loc w) (hno : ∀ b, op ≠ .mapped b) (hm : HOp.Made (.reg op))
    (hok : (op.apply parse w.reg).ok = true)
    (hk : ∀ w', At cf tmp parse false loc w' → w'.reg = (op.apply parse w.reg).reg → Runs cf tmp parse k w' Q) :
    Runs cf tmp parse (.op true (fun _ => .reg op) k) w Q := by
  refine .op ⟨_, _, .reg h.alive hno hm⟩ fun w1 res hs => ?_
  have h1 := h.hist.step hs trivial
  cases hs with
  | reg =>
    refine ⟨by rw [if_pos hok], hk _ ⟨h1, h.alive, apply_mapped_false h.mapped hno, ?_, h.fresh⟩ rfl⟩
    exact h.client

/-- Registrations that all succeed. -/
def regAll (parse : Str → Option (Str × Str × Option (List Str))) : Reg → List ROp → Option Reg
  | r, [] => some r
  | r, o :: l => if (o.apply parse r).ok then regAll parse (o.apply parse r).reg l else none

theorem Runs.regs {loc Q} {k : Prog} {r : Reg} : ∀ {ops : List ROp} {w : Sys}, At cf tmp parse false loc w →
    (∀ op ∈ ops, (∀ b, op ≠ .mapped b) ∧ HOp.Made (.reg op)) → regAll parse w.reg ops = some r →
    (∀ w', At cf tmp parse false loc w' → w'.reg = r → Runs cf tmp parse k w' Q) →
    Runs cf tmp parse (Examples.each (fun o k => .op true (fun _ => .reg o) k) ops k) w Q
  | [], w, h, _, hr, hk => hk w h (Option.some.inj hr)
  | o :: l, w, h, ho, hr, hk => by
    obtain ⟨h1, h2⟩ := ho o (by simp)
    unfold regAll at hr
    split at hr
    · refine .reg h h1 h2 (by assumption) fun w' h' e => ?_
      rw [← e] at hr
      exact Runs.regs h' (fun op hop => ho op (by simp [hop])) hr hk
    · cases hr

/-- `MustStart`. -/
theorem Runs.start {loc w Q} {gen pid : BitVec 64} {k : Prog} (h : At cf tmp parse false loc w) (hp : w.reg.Publishable) (hs : w.reg.Small)
    (hk : ∀ w', At cf tmp parse true loc w' → w'.reg = { w.reg with mapped := true } → Runs cf tmp parse k w' Q) :
    Runs cf tmp parse (start gen pid k) w Q := by
  obtain ⟨c, hcl, hloc, _⟩ := h.client
  have hc0 : w.clients[0]? = some c := by rw [hcl]; rfl
  obtain ⟨fs', hmm⟩ := newMMW_fine w.fs c.loc w.reg.Length
  refine .op ?_ fun w1 res hst => ?_
  · obtain ⟨w', h1, _⟩ := base_start (cf := cf) (tmp := tmp) h.hist.inv.built hp h.alive hc0 gen pid
    exact ⟨_, _, h1⟩
  · have h1 := h.hist.step hst ⟨hp, hs⟩
    have hst' := hst
    cases hst with
    | @start_err _ c' _ _ _ _ _ hc' hn =>
      rw [hc0] at hc'
      obtain rfl := Option.some.inj hc'
      rw [hmm] at hn; cases hn
    | @start_crash _ c' _ _ _ _ _ o cells s _ hc' hn ho hr hcr =>
      exact absurd hcr (by
        have := (start_safe (h.hist.inv.built.built.ok hp) ho hr)
        simp [this])
    | @start_ok _ c' _ _ _ _ n o cells s hal hc' hn ho hr hret =>
      rw [hc0] at hc'
      obtain rfl := Option.some.inj hc'
      refine ⟨rfl, hk _ ⟨h1, hal, rfl, ?_, fun h => by cases h⟩ rfl⟩
      obtain ⟨_, _, _, _, g5, _⟩ := newMMW_some hn
      refine ⟨{ c with writer := some n }, ?_, hloc, fun _ => ⟨n, rfl, ?_⟩⟩
      · simp [Sys.started, hcl]
      · rw [← hloc]; simp [Sys.started, g5, fset]

/-- Client, registrations, `MustStart`. -/
theorem Runs.setup {fs : FS} {name : Str} {gen pid : BitVec 64} {ops : List ROp} {r : Reg} {k : Prog} {Q} (hfs : fs.OK) (hn : Ordinary name)
    (ho : ∀ op ∈ ops, (∀ b, op ≠ .mapped b) ∧ HOp.Made (.reg op)) (hr : regAll parse Reg.empty ops = some r)
    (hp : r.Publishable) (hs : r.Small)
    (hk : ∀ w, At cf tmp parse true (mmvDir cf tmp ++ 0x2F :: name) w → w.reg = { r with mapped := true } → Runs cf tmp parse k w Q) :
    Runs cf tmp parse (Examples.newC name <| Examples.each (fun o k => .op true (fun _ => .reg o) k) ops <| Examples.start gen pid k)
      (Sys.init fs) Q := by
  refine .newC hfs hn fun w h hw => .regs (r := r) h ho (by rw [hw]; exact hr) fun w h hw => ?_
  subst hw
  exact .start h hp hs hk

/-! ### The file -/

/-- A dump has a value record for slot `s` of a metric with this name and type, which decodes to `v`. -/
def Record (D : Result) (name : Str) (t : MetricType) (s : Option Str) (v : GoVal) : Prop :=
  ∃ key x mr, look D.values key = some x ∧ look D.metrics x.metric.toNat = some mr ∧
    nameOf D mr.name = some (trimNul name) ∧ mr.typ = t ∧
    (match s with
     | none => x.inst = 0
     | some n => ∃ ir, look D.instances x.inst.toNat = some ir ∧ nameOf D ir.external = some (trimNul n)) ∧
    (match v with
     | .str y => strAt D x.extra = some (trimNul y)
     | v => fixedVal x.val mr.typ = some v)

/-- The file at path `loc` is accepted by `Dump`, and shows value `v` for slot `s` of the metric. -/
def FileShows (fs : FS) (loc : Str) (name : Str) (t : MetricType) (s : Option Str) (v : GoVal) : Prop :=
  ∃ n, fs.names loc = some n ∧ (∃ out, Dumps (fs.data n) out) ∧
    ∀ out, Dumps (fs.data n) out → ∃ D, out = .ok D ∧ Record D name t s v

theorem At.shows {loc w} (h : At cf tmp parse true loc w) {name t s v} (hh : Holds w.reg name t s v) : FileShows w.fs loc name t s v := by
  obtain ⟨c, hcl, hloc, hn⟩ := h.client
  obtain ⟨n, hw, hnm⟩ := hn rfl
  obtain ⟨c', n', a⟩ := h.hist.inv.act h.mapped
  have hcc := a.client
  rw [hcl] at hcc
  obtain rfl := (List.cons.inj hcc).1
  have hnn : n' = n := by have := a.writer; rw [hw] at this; exact (Option.some.inj this).symm
  subst hnn
  obtain ⟨gen, pid, o, b, live, h1, h2, h3, _⟩ := a.live
  obtain ⟨σ, hl, hi⟩ := h1.liveAt
  obtain ⟨m, m1, m2, m3⟩ := hh.metric
  obtain ⟨m4, m5⟩ := get_some m1
  refine ⟨n', hnm, dumps_exists _, fun out hd => ?_⟩
  rw [← h3] at hd
  obtain ⟨D, g1, _, g3⟩ := hl.dump hi hd
  refine ⟨D, g1, ?_⟩
  have hml : m ∈ live.reg.metrics := by rw [h2]; exact m4
  have hwf : m.WF := h1.wf m hml
  obtain ⟨v', x, k1, k2, k3⟩ := g3.values m hml s ((WF.slot_iff hwf s).2 (by rw [m3]; rfl))
  rw [m3] at k1
  obtain rfl := Option.some.inj k1
  obtain ⟨mr, r1, r2⟩ := g3.metrics m hml
  obtain ⟨v1, v2, v3⟩ := k3
  refine ⟨_, x, mr, k2, by rw [v1]; exact r1, by rw [← m5]; exact r2.1, by rw [r2.2.2.1]; exact m2, ?_, ?_⟩
  · cases s with
    | none => exact v2
    | some i =>
      obtain ⟨d, hd'⟩ : ∃ d, m.indom = some d := by
        unfold Metric.cur at m3
        unfold Metric.indom
        split at m3
        · rename_i hn; cases hn
        · rename_i hb _; rw [hb]; exact ⟨_, rfl⟩
        · cases m3
      rw [hd'] at v2
      have hreg := hl.ok.registered m hml d hd'
      have hin : ∃ j ∈ d.insts, j.name = i := by
        have hs := (WF.slot_iff hwf (some i)).2 (by rw [m3]; rfl)
        unfold Metric.slots at hs
        unfold Metric.indom at hd'
        revert hs hd'
        cases m.body with
        | single _ => intro h; cases h
        | inst d' vs =>
          intro hd' hs
          obtain rfl := Option.some.inj hd'
          obtain ⟨j, hj, he⟩ := List.mem_map.1 hs
          exact ⟨j, hj, Option.some.inj he⟩
      obtain ⟨j, hj, rfl⟩ := hin
      obtain ⟨ir, i1, i2⟩ := g3.insts d hreg j hj
      exact ⟨ir, by show look D.instances x.inst.toNat = _; rw [v2]; exact i1, i2.2.2.2⟩
  · cases v
    case str => exact v3.2
    all_goals
      show fixedVal x.val mr.typ = _
      rw [r2.2.2.1]; exact v3.1

/-- `MustStop`. -/
theorem Runs.stop {loc w Q} {k : Prog} (h : At cf tmp parse true loc w)
    (hk : ∀ w', w'.crashed = false → w'.reg = { w.reg with mapped := false } → w'.fs.names = w.fs.names → w'.fs.data = w.fs.data →
      CHist cf tmp parse w' → Runs cf tmp parse k w' Q) :
    Runs cf tmp parse (stop k) w Q := by
  obtain ⟨c, hcl, hloc, hn⟩ := h.client
  have hc0 : w.clients[0]? = some c := by rw [hcl]; rfl
  refine .op ⟨_, _, .stop h.alive hc0⟩ fun w1 res hs => ?_
  obtain ⟨c', n, _, _, h1, _, h2, _, h3, h4, _, _, h5⟩ := C37_stop_partial h.hist h.mapped hs
  exact ⟨h5 rfl (by simp), hk w1 h2 h1 (h4 rfl) h3 (h.hist.step hs trivial)⟩

/-- What is shown when the client is active is still shown after `Stop`. -/
theorem Runs.finish {loc w} (h : At cf tmp parse true loc w) {P : FS → Prop}
    (hp : P w.fs) (hP : ∀ fs fs' : FS, fs'.names = fs.names → fs'.data = fs.data → P fs → P fs') :
    Runs cf tmp parse .done w (fun w b => b = true ∧ P w.fs) ∧ Runs cf tmp parse (Examples.stop .done) w (fun w b => b = true ∧ P w.fs) :=
  ⟨.done ⟨rfl, hp⟩, .stop h fun _ _ _ h1 h2 _ => .done ⟨rfl, hP _ _ h1 h2 hp⟩⟩

theorem FileShows.congr {fs fs' : FS} {loc name t s v} (h1 : fs'.names = fs.names) (h2 : fs'.data = fs.data)
    (h : FileShows fs loc name t s v) : FileShows fs' loc name t s v := by
  unfold FileShows; rw [h1, h2]; exact h

end

end Speed.Examples
