import Verif.PropsMust
import Verif.PropsValues
/-
What the bytes of a file determine: two running clients with the same file agree (C94).
-/
namespace Speed
open Dump

/-! ### What is compared -/

/-- A value; strings without NULs at the end. -/
def trimVal : GoVal → GoVal
  | .str s => .str (trimNul s)
  | v => v

/-- A metric: name, item number, type, semantics, unit, number of the domain, texts. -/
def Metric.view (m : Metric) : Str × BitVec 32 × BitVec 32 × BitVec 32 × BitVec 32 × BitVec 32 × Str × Str :=
  (trimNul m.desc.name, m.desc.id, m.desc.t, m.desc.sem, m.desc.unit, (match m.indom with | some d => d.id | none => -1),
    trimNul m.desc.short, trimNul m.desc.long)

/-- A value of a metric: the metric, the instance, the value. -/
def Metric.views (m : Metric) : List (Str × Option Str × Option GoVal) :=
  m.slotNames.map fun s => (trimNul m.desc.name, s.map trimNul, (m.cur s).map trimVal)

/-- A domain: number, number of instances, texts. -/
def Indom.view (d : Indom) : BitVec 32 × Nat × Str × Str := (d.id, d.insts.length, trimNul d.short, trimNul d.long)

/-- The instances of a domain: number of the domain, number, name. -/
def Indom.views (d : Indom) : List (BitVec 32 × BitVec 32 × Str) := d.insts.map fun i => (d.id, i.id, trimNul i.name)

/-! ### The same, from the result of `Dump` -/

theorem view_perm {α β γ : Type} {L : List (Nat × α)} {l : List β} {addr : β → Nat} {F : α → Option γ} {g : β → γ}
    (hk : (L.map Prod.fst).Perm (l.map addr)) (hn : (L.map Prod.fst).Nodup)
    (h : ∀ b ∈ l, ∃ x, look L (addr b) = some x ∧ F x = some (g b)) : (L.filterMap fun p => F p.2).Perm (l.map g) := by
  have h1 : (L.filterMap fun p => F p.2) = (L.map Prod.fst).filterMap fun k => (look L k).bind F := by
    rw [List.filterMap_map]
    refine List.filterMap_congr fun p hp => ?_
    show F p.2 = (look L p.1).bind F
    rw [look_of_mem hn hp]; rfl
  rw [h1]
  refine (hk.filterMap _).trans (.of_eq ?_)
  rw [List.filterMap_map, ← List.filterMap_eq_map]
  refine List.filterMap_congr fun b hb => ?_
  obtain ⟨x, hx, hf⟩ := h b hb
  show (look L (addr b)).bind F = some (g b)
  rw [hx]; exact hf

def metricOf (D : Result) (x : Dump.Metric) :
    Option (Str × BitVec 32 × BitVec 32 × BitVec 32 × BitVec 32 × BitVec 32 × Str × Str) :=
  (nameOf D x.name).bind fun n => (textOf D x.shorttext).bind fun s => (textOf D x.longtext).map fun l =>
    (n, x.item, x.typ, x.sem, x.unit, x.indom, s, l)

def valueOf (D : Result) (v : Dump.Value) : Option (Str × Option Str × Option GoVal) :=
  (look D.metrics v.metric.toNat).bind fun m => (nameOf D m.name).map fun n =>
    (n, (if m.indom = -1 then none else (look D.instances v.inst.toNat).bind fun i => nameOf D i.external),
      if m.typ = 6 then (strAt D v.extra).map .str else fixedVal v.val m.typ)

def indomOf (D : Result) (x : Dump.InstanceDomain) : Option (BitVec 32 × Nat × Str × Str) :=
  (textOf D x.shorttext).bind fun s => (textOf D x.longtext).map fun l => (x.serial, x.count.toNat, s, l)

def instOf (D : Result) (x : Dump.Instance) : Option (BitVec 32 × BitVec 32 × Str) :=
  (look D.indoms x.indom.toNat).bind fun d => (nameOf D x.external).map fun n => (d.serial, x.internal, n)

section
variable {r : Reg} {D : Result} {A : Addrs}

theorem metrics_view (hD : DescribesAt r D A) : (D.metrics.filterMap fun p => metricOf D p.2).Perm (r.metrics.map Metric.view) := by
  refine view_perm hD.metricKeys hD.nodup.2.2.1 fun m hm => ?_
  obtain ⟨x, hx, s1, s2, s3, s4, s5, s6, _, s8, s9⟩ := hD.metrics m hm
  refine ⟨x, hx, ?_⟩
  unfold metricOf Metric.view
  rw [s1, s8, s9, s2, s3, s4, s5, s6]
  rfl

theorem indoms_view (hD : DescribesAt r D A) : (D.indoms.filterMap fun p => indomOf D p.2).Perm (r.indoms.map Indom.view) := by
  refine view_perm hD.indomKeys hD.nodup.1 fun d hd => ?_
  obtain ⟨x, hx, s1, s2, _, s4, s5⟩ := hD.indoms d hd
  refine ⟨x, hx, ?_⟩
  unfold indomOf Indom.view
  rw [s4, s5, s1, s2]
  rfl

/-- As `view_perm`, for things that belong to others. -/
theorem views_perm {α β δ γ : Type} {L : List (Nat × α)} {l : List β} {sub : β → List δ} {addr : β → δ → Nat} {F : α → Option γ}
    {g : β → δ → γ} (hk : (L.map Prod.fst).Perm (l.flatMap fun b => (sub b).map (addr b))) (hn : (L.map Prod.fst).Nodup)
    (h : ∀ b ∈ l, ∀ c ∈ sub b, ∃ x, look L (addr b c) = some x ∧ F x = some (g b c)) :
    (L.filterMap fun p => F p.2).Perm (l.flatMap fun b => (sub b).map (g b)) := by
  have e : ∀ {ε : Type} (f : β → δ → ε), (l.flatMap fun b => (sub b).map (f b)) =
      (l.flatMap fun b => (sub b).map (Prod.mk b)).map fun p => f p.1 p.2 := by
    intro ε f
    rw [List.map_flatMap]
    simp only [List.map_map]
    rfl
  rw [e addr] at hk
  rw [e g]
  refine view_perm hk hn fun p hp => ?_
  obtain ⟨b, hb, hp⟩ := List.mem_flatMap.1 hp
  obtain ⟨c, hc, rfl⟩ := List.mem_map.1 hp
  exact h b hb c hc

theorem insts_view (hD : DescribesAt r D A) : (D.instances.filterMap fun p => instOf D p.2).Perm (r.indoms.flatMap Indom.views) := by
  refine views_perm (sub := Indom.insts) (addr := fun d i => A.inst d.uid i.name) hD.instKeys hD.nodup.2.1 fun d hd i hi => ?_
  obtain ⟨x, hx, s1, s2, _, s4⟩ := hD.insts d hd i hi
  obtain ⟨y, hy, t1, _⟩ := hD.indoms d hd
  refine ⟨x, hx, ?_⟩
  unfold instOf
  rw [s1, hy, s4, s2]
  show some (y.serial, _, _) = _
  rw [t1]

theorem values_view (hD : DescribesAt r D A) (ht : r.Typed) (hw : ∀ m ∈ r.metrics, m.WF)
    (hr : ∀ m ∈ r.metrics, ∀ d, m.indom = some d → d ∈ r.indoms) :
    (D.values.filterMap fun p => valueOf D p.2).Perm (r.metrics.flatMap Metric.views) := by
  refine views_perm (sub := Metric.slotNames) (addr := fun m s => A.value m.uid s) hD.valueKeys hD.nodup.2.2.2.1 fun m hm s hs => ?_
  obtain ⟨v, x, hc, hx, s1, s2, s3⟩ := hD.values m hm s hs
  obtain ⟨y, hy, t1, _, t3, _, _, t6, _⟩ := hD.metrics m hm
  refine ⟨x, hx, ?_⟩
  unfold valueOf
  rw [s1, hy, hc]
  show (nameOf D y.name).map _ = _
  rw [t1]
  show some (_, _, _) = some (_, _, _)
  congr 3
  · cases hi : m.indom with
    | none =>
      rw [hi] at t6
      rw [if_pos t6]
      have : s = none := by
        unfold Metric.indom at hi
        unfold Metric.slotNames at hs
        split at hi
        · rename_i hb; rw [hb] at hs; simpa using hs
        · cases hi
      subst this
      rfl
    | some d =>
      rw [hi] at t6
      have hdw := (hw m hm).indom hi
      have hne : y.indom ≠ -1 := by
        intro he
        have h1 : d.id = -1 := t6.symm.trans he
        have h2 := ((C17_hash d.name 22).2 (by decide)).2
        rw [hdw.id] at h1
        rw [h1] at h2
        revert h2; decide
      rw [if_neg hne]
      have : ∃ i ∈ d.insts, s = some i.name := by
        unfold Metric.indom at hi
        unfold Metric.slotNames at hs
        split at hi
        · cases hi
        · rename_i hb
          obtain rfl := Option.some.inj hi
          rw [hb] at hs
          obtain ⟨i, h1, h2⟩ := List.mem_map.1 hs
          exact ⟨i, h1, h2.symm⟩
      obtain ⟨i, hin, rfl⟩ := this
      rw [hi] at s2
      obtain ⟨z, hz, _, _, _, hz4⟩ := hD.insts d (hr m hm d hi) i hin
      have s2 : x.inst.toNat = A.inst d.uid i.name := s2
      rw [s2, hz]
      exact hz4
  · have htv := ht m hm s v hc
    rw [t3]
    cases v with
    | str t =>
      have h6 : m.desc.t = 6 := by
        rcases htv with ⟨_, _, h⟩ | ⟨_, _, h⟩ | ⟨_, _, h⟩ | ⟨_, _, h⟩ | ⟨_, _, h⟩ | ⟨_, _, h⟩ | ⟨h, _⟩
        all_goals first | cases h | skip
        exact h
      rw [if_pos h6, s3.2]; rfl
    | _ =>
      have h6 : m.desc.t ≠ 6 := by
        intro h6
        have := s3.1
        rw [h6] at this
        cases this
      rw [if_neg h6]; exact s3.1

end

/-- **C94**: two running clients, of any programs, whose files have the same bytes have the same metrics, values, domains and
instances (up to the order of registration, names of domains, and NULs at the end of strings), the same flag, generation,
process and cluster numbers. -/
theorem C94_same_file {e o w e' o' w'} (h : Active e o w) (h' : Active e' o' w') (hf : w.mem = w'.mem) :
    (w.reg.metrics.map Metric.view).Perm (w'.reg.metrics.map Metric.view) ∧
    (w.reg.metrics.flatMap Metric.views).Perm (w'.reg.metrics.flatMap Metric.views) ∧
    (w.reg.indoms.map Indom.view).Perm (w'.reg.indoms.map Indom.view) ∧
    (w.reg.indoms.flatMap Indom.views).Perm (w'.reg.indoms.flatMap Indom.views) ∧
    e.flag.setWidth 32 = e'.flag.setWidth 32 ∧ e.gen = e'.gen ∧ e.pid.setWidth 32 = e'.pid.setWidth 32 ∧
    e.clusterID = e'.clusterID := by
  obtain ⟨out, hd⟩ := dumps_exists w.mem
  obtain ⟨σ, hl, hi⟩ := h.liveAt
  obtain ⟨σ', hl', hi'⟩ := h'.liveAt
  obtain ⟨D, rfl, hh, hD⟩ := hl.dump hi hd
  obtain ⟨D', hDD, hh', hD'⟩ := hl'.dump hi' (hf ▸ hd)
  cases hDD
  rw [hh] at hh'
  exact ⟨(metrics_view hD).symm.trans (metrics_view hD'),
    (values_view hD hl.typed h.wf hl.ok.registered).symm.trans (values_view hD' hl'.typed h'.wf hl'.ok.registered),
    (indoms_view hD).symm.trans (indoms_view hD'), (insts_view hD).symm.trans (insts_view hD'),
    congrArg Header.flag hh', congrArg Header.g1 hh', congrArg Header.process hh', congrArg Header.cluster hh'⟩

/-- A client whose counter "c" was set from 5 to 12 has another file than one that just started. -/
example : ∃ e o w e' o' w', Active e o w ∧ Active e' o' w' ∧ w.reg = sampleReg ∧
    (∃ m ∈ w'.reg.metrics, m.desc.name = sC ∧ m.cur none = some (.int64 12)) ∧ w.mem ≠ w'.mem := by
  obtain ⟨e', o', w', m, m2, h', hm, _, hn, hc, _⟩ := sample_active
  obtain ⟨s, hs⟩ := sample_started
  refine ⟨_, _, _, e', o', w', .start hs, h', rfl, ⟨m, hm, hn, hc⟩, fun hf => ?_⟩
  have hp := (C94_same_file (.start hs) h' hf).2.1
  have hmem : (sC, none, some (.int64 12)) ∈ w'.reg.metrics.flatMap Metric.views := by
    refine List.mem_flatMap.2 ⟨m, hm, List.mem_map.2 ⟨none, ?_, ?_⟩⟩
    · unfold Metric.cur at hc
      unfold Metric.slotNames
      cases hb : m.body with
      | single v => simp
      | inst d vs => rw [hb] at hc; cases hc
    · rw [hn, hc]; rfl
  have : (sC, none, some (.int64 12)) ∈ sampleReg.metrics.flatMap Metric.views := hp.mem_iff.2 hmem
  revert this
  decide

/-- What is compared, for the sample: a counter, a vector with two values, and a string. -/
example : (sampleReg.metrics.flatMap Metric.views) = [(sC, none, some (.int64 5)), (sD, some sA, some (.float64 0)),
    (sD, some sB, some (.float64 0x3FF0000000000000)), (sS, none, some (.str sD))] ∧
    (sampleReg.metrics.map fun m => (m.view.1, m.view.2.2.1)) = [(sC, 2), (sD, 5), (sS, 6)] := by decide

end Speed
