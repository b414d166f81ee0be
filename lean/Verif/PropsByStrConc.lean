import Verif.ByStrConcLive
import Verif.PropsEdge
/-
C82: concurrent `RegisterString`.
-/
namespace Speed
open Dump

/-- The call alone. -/
def BCall.on (parse : Str → Option (Str × Str × Option (List Str))) (c : BCall) (r : Reg) : RRes :=
  r.addMetricByString parse c.uid c.duid c.str c.val c.t c.s c.u

/-- The calls one after the other; the registry, if all succeed. -/
def seqRun (parse : Str → Option (Str × Str × Option (List Str))) (r : Reg) : List BCall → Option Reg
  | [] => some r
  | c :: cs => if (c.on parse r).ok then seqRun parse (c.on parse r).reg cs else none

/-- The calls succeed in any order. -/
def AnyOrder (parse : Str → Option (Str × Str × Option (List Str))) (r : Reg) (cs : List BCall) : Prop :=
  ∀ l, l.Perm cs → (seqRun parse r l).isSome = true

/-- What the goroutines expect: all calls succeed, the domain of each new metric is a registered one, the
counts match. -/
def AllRegistered (s : BSt) : Prop :=
  s.failed = [] ∧ (∀ x ∈ s.r.log, x.2 = true) ∧
  (∀ x ∈ s.r.log, ∀ d, x.1.indom = some d → d ∈ s.r.reg.indoms) ∧ CountsMatch s.r.reg

/-! ### It is false -/

/-- `RegisterString("c[a].d", Instances{"a": 1}, Int32Type, …)`, and the same with `"c[a].e"` -/
def bcall (uid : Nat) (x : Byte) : BCall :=
  ⟨uid, uid + 10, [0x63, 0x5B, 0x61, 0x5D, 0x2E, x], .insts [(sA, .int 1)], Int32Type, InstantSemantics, OneUnit⟩
def bprogs : List (List BCall) := [[bcall 1 0x64], [bcall 2 0x65]]

theorem bprogs_anyOrder : AnyOrder (parseString asciiClass) Reg.empty bprogs.flatten := by
  intro l hl
  have h : l = [bcall 1 0x64, bcall 2 0x65] ∨ l = [bcall 2 0x65, bcall 1 0x64] := by
    match l, hl.length_eq with
    | [x, y], _ =>
      have hx : x ∈ bprogs.flatten := hl.mem_iff.1 List.mem_cons_self
      rcases List.mem_cons.1 hx with rfl | hx
      · have := List.perm_singleton.1 ((List.perm_cons _).1 (show [bcall 1 0x64, y].Perm (bcall 1 0x64 :: [bcall 2 0x65]) from hl))
        exact .inl (by rw [this])
      · obtain rfl : x = bcall 2 0x65 := by simpa using hx
        have := List.perm_singleton.1 ((List.perm_cons _).1
          ((show [bcall 2 0x65, y].Perm [bcall 1 0x64, bcall 2 0x65] from hl).trans
            (List.Perm.swap (bcall 2 0x65) (bcall 1 0x64) [])))
        exact .inr (by rw [this])
  rcases h with rfl | rfl <;> decide +kernel

/-- The end of a schedule. -/
def bend (l : List Nat) : BSt := (brun (parseString asciiClass) (binit Reg.empty bprogs) l).getD (binit Reg.empty bprogs)

theorem reach_bend (l : List Nat) : BReach (parseString asciiClass) (binit Reg.empty bprogs) (bend l) := by
  unfold bend
  cases h : brun (parseString asciiClass) (binit Reg.empty bprogs) l with
  | none => exact .refl
  | some s => exact reach_brun h

def bfail : BSt := bend (List.replicate 2 0 ++ List.replicate 2 1 ++ List.replicate 23 0 ++ List.replicate 1 1)

theorem bfail_facts : (∀ t ∈ bfail.r.thr, t = .idle []) ∧ (∀ g ∈ bfail.gs, g.calls = [] ∧ g.pc = .rest) ∧
    bfail.failed = [bcall 2 0x65] ∧ bfail.r.log.map (fun x => (x.1.uid, x.2)) = [(1, true)] ∧
    bfail.r.reg.metrics.map (·.uid) = [1] := by
  decide +kernel

/-- Both goroutines find the domain missing, the second does not look again before it creates it: its call fails. -/
theorem C82_refuted_fails : ∃ s, BReach (parseString asciiClass) (binit Reg.empty bprogs) s ∧ s.finished ∧
    s.failed = [bcall 2 0x65] ∧ s.r.log.map (fun x => (x.1.uid, x.2)) = [(1, true)] ∧ s.r.reg.metrics.map (·.uid) = [1] :=
  ⟨bfail, reach_bend _, ⟨bfail_facts.1, bfail_facts.2.1⟩, bfail_facts.2.2⟩

def btwice : BSt := bend (List.replicate 4 0 ++ List.replicate 4 1 ++ List.replicate 21 0 ++ List.replicate 21 1)

theorem btwice_facts : (∀ t ∈ btwice.r.thr, t = .idle []) ∧ (∀ g ∈ btwice.gs, g.calls = [] ∧ g.pc = .rest) ∧
    btwice.failed = [] ∧ btwice.r.log.map (fun x => (x.1.uid, x.2)) = [(1, true), (2, true)] ∧
    btwice.r.reg.metrics.map (fun m => (m.uid, m.indom.map (·.uid))) = [(1, some 11), (2, some 12)] ∧
    btwice.r.reg.indoms.map (fun d => (d.uid, d.insts.length)) = [(12, 1)] ∧ btwice.r.reg.InstanceCount = 2 := by
  decide +kernel

/-- Or both create it. Both calls succeed, but the first metric belongs to a domain that is not registered, and the
instances are counted twice. -/
theorem C82_refuted_twice : ∃ s, BReach (parseString asciiClass) (binit Reg.empty bprogs) s ∧ s.finished ∧
    s.failed = [] ∧ s.r.log.map (fun x => (x.1.uid, x.2)) = [(1, true), (2, true)] ∧
    s.r.reg.metrics.map (fun m => (m.uid, m.indom.map (·.uid))) = [(1, some 11), (2, some 12)] ∧
    s.r.reg.indoms.map (fun d => (d.uid, d.insts.length)) = [(12, 1)] ∧ s.r.reg.InstanceCount = 2 :=
  ⟨btwice, reach_bend _, ⟨btwice_facts.1, btwice_facts.2.1⟩, btwice_facts.2.2⟩

def btwiceEnd : St :=
  auto 900 (initSt btwice.r.reg ⟨0, 0, 5, 6⟩ (idOrd btwice.r.reg) (fun _ => none))

set_option maxRecDepth 100000 in
theorem btwiceEnd_facts : (btwiceEnd.thr[0]?.map Proc.isDone) = some true ∧
    (List.range 4).map (fun j => tocAt btwiceEnd.mem (40 + j * 16)) =
      [⟨1, 1, 104⟩, ⟨2, 2, 136⟩, ⟨3, 2, 296⟩, ⟨4, 2, 504⟩] ∧ f32 btwiceEnd.mem 24 = 4 ∧
    valueAt btwiceEnd.mem 504 = ⟨1, 0, 296, 0⟩ ∧ bytesAt btwiceEnd.mem 216 80 = List.replicate 80 0 := by
  decide +kernel

/-- `Start` on that registry returns. The file it leaves has two instance records, of which the second is empty, and the
value of the first metric does not refer to an instance. -/
theorem C82_refuted_file : ∃ s e o cells f, BReach (parseString asciiClass) (binit Reg.empty bprogs) s ∧ s.finished ∧
    s.failed = [] ∧ o.OK s.r.reg ∧ Reach (initSt s.r.reg e o cells) f ∧ Returned f ∧
    (List.range 4).map (fun j => tocAt f.mem (40 + j * 16)) =
      [⟨1, 1, 104⟩, ⟨2, 2, 136⟩, ⟨3, 2, 296⟩, ⟨4, 2, 504⟩] ∧ f32 f.mem 24 = 4 ∧
    valueAt f.mem 504 = ⟨1, 0, 296, 0⟩ ∧ bytesAt f.mem 216 80 = List.replicate 80 0 := by
  obtain ⟨h1, h2⟩ := btwiceEnd_facts
  refine ⟨btwice, _, _, _, btwiceEnd, reach_bend _, ⟨btwice_facts.1, btwice_facts.2.1⟩, btwice_facts.2.2.1, idOrd_ok _,
    reach_auto _ _, ?_, h2⟩
  unfold Returned
  generalize btwiceEnd.thr[0]? = q at h1
  cases q with
  | none => cases h1
  | some q => cases q <;> first | rfl | (simp [Proc.isDone] at h1)

/-- **C82** is false. -/
theorem C82_refuted : ¬ ∀ parse r progs s, Built r → r.mapped = false → AnyOrder parse r progs.flatten →
    BReach parse (binit r progs) s → s.finished → AllRegistered s := by
  intro h
  obtain ⟨s, h1, h2, h3, _⟩ := C82_refuted_fails
  have := (h _ Reg.empty bprogs s ⟨fun _ => none, [], by simp, rfl⟩ rfl bprogs_anyOrder h1 h2).1
  rw [h3] at this
  cases this

/-! ### What holds -/

/-- **C82**, termination: whatever the calls, no execution gets stuck or goes on forever. -/
theorem C82_no_deadlock (parse : Str → Option (Str × Str × Option (List Str))) (r : Reg) (progs : List (List BCall)) :
    (∀ s, BReach parse (binit r progs) s → (∀ s', ¬ BStep parse s s') → s.finished) ∧
    ¬ ∃ f : Nat → BSt, f 0 = binit r progs ∧ ∀ n, BStep parse (f n) (f (n + 1)) :=
  ⟨fun _ hs => ((blinv_init r progs).reach hs).no_deadlock, breach_finite r progs⟩

example : bfail.finished :=
  (C82_no_deadlock _ _ _).1 _ (reach_bend _) (by
    rintro s' ⟨i, hi⟩
    have h : ∀ i, i < 2 → (bstep (parseString asciiClass) bfail i).isNone = true := by decide +kernel
    have h2 : bfail.gs.length = 2 := by decide +kernel
    by_cases hlt : i < 2
    · have := h i hlt
      rw [hi] at this; cases this
    · unfold bstep at hi
      rw [List.getElem?_eq_none (by omega)] at hi
      cases hi)

/-- The calls of a goroutine that is alone: all succeed, and `c` registers the metric `M c`. -/
def SoloCalls (parse : Str → Option (Str × Str × Option (List Str))) (M : BCall → Metric) : Reg → List BCall → Prop
  | _, [] => True
  | r, c :: cs => (c.on parse r).ok = true ∧ (c.on parse r).reg.metrics = r.metrics ++ [M c] ∧
    SoloCalls parse M (c.on parse r).reg cs

theorem SoloCalls.solo {parse M} {r : Reg} {cs : List BCall} (h : SoloCalls parse M r cs) : Solo parse M r.indoms cs := by
  induction cs generalizing r with
  | nil => exact .nil
  | cons c cs ih =>
    obtain ⟨h1, h2, h3⟩ := h
    have h3 := ih h3
    clear ih
    unfold BCall.on Reg.addMetricByString at h1 h2 h3
    cases hp : parse c.str with
    | none => rw [hp] at h1; cases h1
    | some p =>
      obtain ⟨name, dom, o⟩ := p
      rw [hp] at h1 h2 h3
      cases o with
      | none =>
        dsimp only at h1 h2 h3
        have hsb : r.addSingletonByString c.uid name c.val c.t c.s c.u =
            match c.single name with | none => { reg := r, ok := false } | some m => r.addMetric m := by
          unfold Reg.addSingletonByString BCall.single
          cases c.val <;> rfl
        rw [hsb] at h1 h2 h3
        cases hm : c.single name with
        | none => rw [hm] at h1; cases h1
        | some m' =>
          rw [hm] at h1 h2 h3
          have hi := (C48_singleton c.uid _ name c.t c.s c.u []).2 m' hm
          have hn : m'.indom = none := by unfold Metric.indom; rw [hi.2]
          have ha := (addMetric_ok r m' (fun d hd => by rw [hn] at hd; cases hd)).2.1 h1
          have he : [m'] = [M c] := List.append_cancel_left (ha.1.symm.trans h2)
          obtain rfl : m' = M c := by simpa using he
          have h3 : Solo parse M (r.addMetric (M c)).reg.indoms cs := h3
          rw [ha.2] at h3
          exact .single hp hm hn h3
      | some ins =>
        dsimp only at h1 h2 h3
        unfold Reg.addInstanceByString at h1 h2 h3
        cases hv : c.val with
        | plain v => rw [hv] at h1; cases h1
        | insts mp =>
          rw [hv] at h1 h2 h3
          dsimp only at h1 h2 h3
          cases hf : r.indoms.find? (fun d => d.name = dom) with
          | none =>
            rw [hf] at h1 h2 h3
            dsimp only at h1 h2 h3
            have hno : ∀ d' ∈ r.indoms, d'.name ≠ dom := by simpa using hf
            cases hn : r.addIndomByName c.duid dom ins with
            | none => rw [hn] at h1; cases h1
            | some q =>
              obtain ⟨r', d⟩ := q
              rw [hn] at h1 h2 h3
              dsimp only at h1 h2 h3
              obtain ⟨e1, e2, e3⟩ := addIndomByName_some hn
              obtain ⟨_, _, b3, b4, _⟩ := addIndom_some e3
              cases hm : newPCPInstanceMetric c.uid mp name d c.t c.s c.u [] with
              | none => rw [hm] at h1; cases h1
              | some m' =>
                rw [hm] at h1 h2 h3
                have hd := (instMetric_name hm).2
                have hr : ∀ d', m'.indom = some d' → r'.hasIndom d'.name = true := by
                  intro d' hd'
                  rw [hd] at hd'; cases hd'
                  exact hasIndom_iff.2 ⟨d, by rw [b3]; simp, rfl⟩
                have ha := (addMetric_ok r' m' hr).2.1 h1
                have h2 : (r'.addMetric m').reg.metrics = r.metrics ++ [M c] := h2
                have he : [m'] = [M c] := List.append_cancel_left (by rw [← h2, ha.1, b4])
                obtain rfl : m' = M c := by simpa using he
                have h3 : Solo parse M (r'.addMetric (M c)).reg.indoms cs := h3
                rw [ha.2, b3] at h3
                exact .new hp hv hno e2 e1 hm hd h3
          | some d =>
            rw [hf] at h1 h2 h3
            dsimp only at h1 h2 h3
            have hdm : d ∈ r.indoms := List.mem_of_find?_eq_some hf
            have hdn : d.name = dom := by simpa using List.find?_some hf
            split at h1
            · rename_i hmi
              rw [if_pos hmi] at h2 h3
              cases hm : newPCPInstanceMetric c.uid mp name d c.t c.s c.u [] with
              | none => rw [hm] at h1; cases h1
              | some m' =>
                rw [hm] at h1 h2 h3
                have hd := (instMetric_name hm).2
                have hr : ∀ d', m'.indom = some d' → r.hasIndom d'.name = true := by
                  intro d' hd'
                  rw [hd] at hd'; cases hd'
                  exact hasIndom_iff.2 ⟨d, hdm, rfl⟩
                have ha := (addMetric_ok r m' hr).2.1 h1
                have he : [m'] = [M c] := List.append_cancel_left (ha.1.symm.trans h2)
                obtain rfl : m' = M c := by simpa using he
                have h3 : Solo parse M (r.addMetric (M c)).reg.indoms cs := h3
                rw [ha.2] at h3
                exact .found hp hv hdm hdn hmi hm hd h3
            · cases h1

/-- **C82** for goroutines of which each, alone on the registry, would succeed with all its calls, if the metrics have
different names and no two goroutines use the same new domain. Then all calls succeed in every execution; no execution gets
stuck or goes on forever; in the end the metrics that were added are those that each goroutine would have added alone, and
the domains that were added are theirs.

Missing: a new domain used by two goroutines, for which it is false. -/
theorem C82_partial {parse : Str → Option (Str × Str × Option (List Str))} {r : Reg} (hb : Built r) (hmp : r.mapped = false)
    {progs : List (List BCall)} {M : BCall → Metric} (halone : ∀ P ∈ progs, SoloCalls parse M r P)
    (hnames : ((r.metrics ++ progs.flatten.map M).map (fun m => m.desc.name)).Nodup)
    (hown : ∀ (i j : Nat) P Q, progs[i]? = some P → progs[j]? = some Q → i ≠ j → ∀ c ∈ P, ∀ c' ∈ Q, ∀ d d',
      (M c).indom = some d → (M c').indom = some d' → d.name = d'.name → r.hasIndom d.name = true) :
    (¬ ∃ f : Nat → BSt, f 0 = binit r progs ∧ ∀ n, BStep parse (f n) (f (n + 1))) ∧
    ∀ s, BReach parse (binit r progs) s →
      s.failed = [] ∧ (∀ x ∈ s.r.log, x.2 = true) ∧
      ((∀ s', ¬ BStep parse s s') → s.finished) ∧
      (s.finished → AllRegistered s ∧ (s.r.log.map (·.1)).Perm (progs.flatten.map M) ∧
        s.r.reg.metrics.Perm (r.metrics ++ progs.flatten.map M) ∧ (s.r.reg.indoms.map (·.name)).Nodup ∧
        ∀ d, d ∈ s.r.reg.indoms ↔ d ∈ r.indoms ∨ ∃ c ∈ progs.flatten, (M c).indom = some d) := by
  have hfl : (progs.map fun P => P.map M).flatten = progs.flatten.map M := by
    rw [List.map_flatten]
  have hsolo : ∀ P ∈ progs, Solo parse M r.indoms P := fun P hP => (halone P hP).solo
  have hfacts := fun P hP => (hsolo P hP).facts hb.inv.indoms hb.inv.unique.1
  have hhas : ∀ c ∈ progs.flatten, ∀ d, (M c).indom = some d → r.hasIndom d.name = true → d ∈ r.indoms := by
    intro c hc d hd hr
    obtain ⟨P, hP, hc⟩ := List.mem_flatten.1 hc
    obtain ⟨E, e1, e2, e3, e4⟩ := hfacts P hP
    obtain ⟨x, hx, hn⟩ := hasIndom_iff.1 hr
    rw [← List.inj_on_of_nodup_map e2 (e1 x hx) ((e4 c hc).2 d hd) hn]
    exact hx
  have hy : RHyp r (progs.map fun P => P.map M) := by
    refine ⟨hb.inv, hmp, ?_, by rw [hfl]; exact hnames, ?_, ?_⟩
    · intro m hm
      rw [hfl] at hm
      obtain ⟨c, hc, rfl⟩ := List.mem_map.1 hm
      obtain ⟨P, hP, hc⟩ := List.mem_flatten.1 hc
      obtain ⟨E, e1, e2, e3, e4⟩ := hfacts P hP
      exact (e4 c hc).1
    · intro i j P' Q' hP hQ hij m hm m' hm' d d' hd hd' hn
      rw [List.getElem?_map, Option.map_eq_some_iff] at hP hQ
      obtain ⟨P, hP, rfl⟩ := hP
      obtain ⟨Q, hQ, rfl⟩ := hQ
      obtain ⟨c, hc, rfl⟩ := List.mem_map.1 hm
      obtain ⟨c', hc', rfl⟩ := List.mem_map.1 hm'
      exact hown i j P Q hP hQ hij c hc c' hc' d d' hd hd' hn
    · intro m hm d hd
      rw [hfl] at hm
      obtain ⟨c, hc, rfl⟩ := List.mem_map.1 hm
      obtain ⟨P, hP, hc⟩ := List.mem_flatten.1 hc
      obtain ⟨E, e1, e2, e3, e4⟩ := hfacts P hP
      rcases e3 d ((e4 c hc).2 d hd) with h | h
      · exact .inl (hasIndom_iff.2 ⟨d, h, rfl⟩)
      · exact .inr h
  have hB : BHyp parse r M progs := by
    refine ⟨hy, hsolo, ?_, hhas⟩
    intro P hP c hc c' hc' d d' hd hd' hn
    obtain ⟨E, e1, e2, e3, e4⟩ := hfacts P hP
    exact List.inj_on_of_nodup_map e2 ((e4 c hc).2 d hd) ((e4 c' hc').2 d' hd') hn
  have hinv : ∀ s, BReach parse (binit r progs) s → BInv parse r M progs s := fun s hs => (binv_init hB).reach hB hs
  refine ⟨breach_finite r progs, ?_⟩
  · intro s hs
    have h := hinv s hs
    obtain ⟨R, hR⟩ := h.rc
    obtain ⟨hlog, hreg⟩ := registered_of_inv hy hR
    refine ⟨h.failed, hlog, ((blinv_init r progs).reach hs).no_deadlock, fun hfin => ?_⟩
    have hfin' : (s.abs M).finished := by
      intro t ht
      obtain ⟨i, hi⟩ := List.mem_iff_getElem?.1 ht
      unfold BSt.abs at hi
      rw [List.getElem?_zipWith] at hi
      cases h3 : s.r.thr[i]? with
      | none => rw [h3] at hi; cases hg : s.gs[i]? <;> rw [hg] at hi <;> cases hi
      | some u =>
        rw [h3] at hi
        cases h4 : s.gs[i]? with
        | none => rw [h4] at hi; cases hi
        | some g =>
          rw [h4] at hi
          obtain ⟨a, b⟩ := hfin.2 g (List.mem_of_getElem? h4)
          obtain rfl := hfin.1 u (List.mem_of_getElem? h3)
          obtain rfl := Option.some.inj hi
          obtain ⟨cs, pc⟩ := g
          dsimp only at a b
          subst a b
          rfl
    obtain ⟨⟨_, _, hc⟩, hl, hm, hnd, hold, hnew, hdom⟩ := hreg hfin'
    rw [hfl] at hl hm
    have hmine : ∀ c ∈ progs.flatten, ∀ d, (M c).indom = some d → d ∈ s.r.reg.indoms := by
      intro c hcf d hd
      obtain ⟨P, hP, hc⟩ := List.mem_flatten.1 hcf
      obtain ⟨i, hi⟩ := List.mem_iff_getElem?.1 hP
      obtain ⟨d', h1, h2⟩ := hdom (M c) (hm.mem_iff.2 (List.mem_append_right _ (List.mem_map.2 ⟨c, hcf, rfl⟩))) d hd
      have := lookup_eq hB hR hi hc hd (hasIndom_iff.2 ⟨d', h1, h2⟩)
      exact List.mem_of_find?_eq_some this
    refine ⟨⟨h.failed, hlog, ?_, hc⟩, hl, hm, hnd, fun d => ⟨fun hd => ?_, ?_⟩⟩
    · intro x hx d hd
      obtain ⟨c, hcf, e⟩ := List.mem_map.1 (hl.mem_iff.1 (List.mem_map.2 ⟨x, hx, rfl⟩))
      exact hmine c hcf d (by rw [e]; exact hd)
    · rcases hnew d hd with hd | ⟨m, hm', hd⟩
      · exact .inl hd
      · rw [hfl] at hm'
        obtain ⟨c, hc, rfl⟩ := List.mem_map.1 hm'
        exact .inr ⟨c, hc, hd⟩
    · rintro (hd | ⟨c, hc, hd⟩)
      · exact hold d hd
      · exact hmine c hc d hd

/-- Example: `"c[a].f"` was registered before. Two goroutines register `"c[a].d"` and `"c[a].e"`, on its domain, at the same
time; the first goes on with `"h[a].d"` and `"h[a].e"`, on a new domain, the second with a singleton `"g"` and `"k[a].d"`, on
another new domain. -/
def breg : Reg := ((bcall 3 0x66).on (parseString asciiClass) Reg.empty).reg
def bsingle : BCall := ⟨4, 14, [0x67], .plain (.int 1), Int32Type, InstantSemantics, OneUnit⟩
def bcallOn (uid : Nat) (dom x : Byte) : BCall :=
  ⟨uid, uid + 10, [dom, 0x5B, 0x61, 0x5D, 0x2E, x], .insts [(sA, .int 1)], Int32Type, InstantSemantics, OneUnit⟩
def bmore : List (List BCall) :=
  [[bcall 1 0x64, bcallOn 5 0x68 0x64, bcallOn 6 0x68 0x65], [bcall 2 0x65, bsingle, bcallOn 7 0x6B 0x64]]
theorem breg_ne : breg.metrics ≠ [] := by decide +kernel
def bM (c : BCall) : Metric :=
  (((seqRun (parseString asciiClass) breg bmore.flatten).getD breg).metrics.find? (fun m => m.uid = c.uid)).getD
    (breg.metrics.head breg_ne)

theorem breg_built : Built breg :=
  ⟨parseString asciiClass, [.reg (.byString 3 13 (bcall 3 0x66).str (bcall 3 0x66).val Int32Type InstantSemantics OneUnit)],
    by simp [HOp.Made], rfl⟩

example : ∀ s, BReach (parseString asciiClass) (binit breg bmore) s → s.finished →
    s.failed = [] ∧ s.r.reg.metrics.length = 7 ∧ (s.r.log.map fun x => x.1.uid).Perm [1, 5, 6, 2, 4, 7] ∧
    (∀ d, d ∈ s.r.reg.indoms → d.uid = 13 ∨ d.uid = 15 ∨ d.uid = 17) := by
  intro s hs hfin
  have halone : ∀ P ∈ bmore, SoloCalls (parseString asciiClass) bM breg P := by
    intro P hP
    rcases List.mem_cons.1 hP with rfl | hP
    · exact ⟨by decide +kernel, by decide +kernel, by decide +kernel, by decide +kernel, by decide +kernel,
        by decide +kernel, trivial⟩
    · rw [List.mem_singleton.1 hP]
      exact ⟨by decide +kernel, by decide +kernel, by decide +kernel, by decide +kernel, by decide +kernel,
        by decide +kernel, trivial⟩
  have hown := ownCheck_spec (r := breg) (progs := bmore.map fun P => P.map bM) (by decide +kernel)
  obtain ⟨_, h⟩ := C82_partial breg_built (by decide +kernel) halone (by decide +kernel) (by
    intro i j P Q hP hQ hij c hc c' hc'
    exact hown i j (P.map bM) (Q.map bM) (by rw [List.getElem?_map, hP]; rfl) (by rw [List.getElem?_map, hQ]; rfl) hij
      (bM c) (List.mem_map.2 ⟨c, hc, rfl⟩) (bM c') (List.mem_map.2 ⟨c', hc', rfl⟩))
  obtain ⟨h1, _, _, h4⟩ := h s hs
  obtain ⟨_, h5, h6, _, h7⟩ := h4 hfin
  refine ⟨h1, by rw [h6.length_eq]; decide +kernel, ?_, ?_⟩
  · have := h5.map (·.uid)
    rw [List.map_map] at this
    exact this.trans (by rw [show (bmore.flatten.map bM).map (·.uid) = [1, 5, 6, 2, 4, 7] by decide +kernel])
  · intro d hd
    rcases (h7 d).1 hd with hd | ⟨c, hc, hd⟩
    · exact (show ∀ d ∈ breg.indoms, d.uid = 13 ∨ d.uid = 15 ∨ d.uid = 17 by decide +kernel) d hd
    · exact (show ∀ c ∈ bmore.flatten, ∀ d ∈ (bM c).indom.toList, d.uid = 13 ∨ d.uid = 15 ∨ d.uid = 17 by decide +kernel)
        c hc d (Option.mem_toList.2 hd)

end Speed
