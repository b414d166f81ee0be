import Verif.ByStrConcInv
/-
Concurrent registration by string: the invariant holds in every state.
-/
namespace Speed

section
variable {parse : Str → Option (Str × Str × Option (List Str))} {r : Reg} {progs : List (List BCall)} {M : BCall → Metric}

/-- The programs: see `C82`. -/
structure BHyp (parse : Str → Option (Str × Str × Option (List Str))) (r : Reg) (M : BCall → Metric)
    (progs : List (List BCall)) : Prop where
  hy : RHyp r (progs.map fun P => P.map M)
  solo : ∀ P ∈ progs, Solo parse M r.indoms P
  same : ∀ P ∈ progs, ∀ c ∈ P, ∀ c' ∈ P, ∀ d d', (M c).indom = some d → (M c').indom = some d' → d.name = d'.name → d = d'
  reg : ∀ c ∈ progs.flatten, ∀ d, (M c).indom = some d → r.hasIndom d.name = true → d ∈ r.indoms

/-! ### The goroutines -/

/-- The goroutine in `RegConc`: while it creates a domain, it is in the critical section of `AddMetric`. -/
def BG.abs (M : BCall → Metric) (g : BG) (t : RTh) : RTh :=
  match g.pc with
  | .rest => t.app (g.calls.map M)
  | .mappedI a d => .busy (M a.call) (.mappedI d) (g.calls.map M)
  | .csI a d ops x => .busy (M a.call) (.csI d ops x) (g.calls.map M)
  | .look a | .match1 a | .match2 a | .byName a | .addI a _ | .lockI a _ | .failI a => .idle (M a.call :: g.calls.map M)

def BSt.abs (M : BCall → Metric) (s : BSt) : RSt :=
  ⟨s.r.reg, s.r.lm, s.r.li, List.zipWith (BG.abs M) s.gs s.r.thr, s.r.log⟩

/-- The calls that have not reached `AddMetric`. -/
def BG.pend (g : BG) : List BCall :=
  match g.pc with
  | .rest => g.calls
  | .look a | .match1 a | .match2 a | .byName a | .addI a _ | .lockI a _ | .mappedI a _ | .failI a | .csI a _ _ _ =>
    a.call :: g.calls

/-- The domain that is being added. -/
def BPc.adding : BPc → Option Str
  | .csI _ d _ _ => some d.name
  | _ => none

def BArgs.OK (parse : Str → Option (Str × Str × Option (List Str))) (a : BArgs) : Prop :=
  parse a.call.str = some (a.name, a.dom, some a.ins) ∧ a.call.val = .insts a.mp

def BPc.OK (parse : Str → Option (Str × Str × Option (List Str))) (reg : Reg) (L : List Indom) (t : RTh) : BPc → Prop
  | .rest => t.NoI reg
  | .look a => t = .idle [] ∧ a.OK parse
  | .match1 a | .match2 a => t = .idle [] ∧ a.OK parse ∧ ∃ d ∈ L, d.name = a.dom
  | .byName a => t = .idle [] ∧ a.OK parse ∧ ∀ d ∈ L, d.name ≠ a.dom
  | .addI a d | .lockI a d | .mappedI a d | .csI a d _ _ =>
    t = .idle [] ∧ a.OK parse ∧ (∀ d ∈ L, d.name ≠ a.dom) ∧ newIndom a.call.duid a.dom a.ins [] = some d
  | .failI _ => False

/-- Of the domains that the goroutine uses, those in `L` are registered. -/
def Agree (M : BCall → Metric) (P : List BCall) (reg : Reg) (L : List Indom) (skip : Option Str) : Prop :=
  ∀ c ∈ P, ∀ d, (M c).indom = some d → skip ≠ some d.name → (reg.hasIndom d.name = true ↔ ∃ d' ∈ L, d'.name = d.name)

def GOK (parse : Str → Option (Str × Str × Option (List Str))) (M : BCall → Metric) (P : List BCall) (reg : Reg) (g : BG)
    (t : RTh) : Prop :=
  ∃ L, Solo parse M L g.pend ∧ (∀ c ∈ g.pend, c ∈ P) ∧ Agree M P reg L g.pc.adding ∧ g.pc.OK parse reg L t

structure BInv (parse : Str → Option (Str × Str × Option (List Str))) (r : Reg) (M : BCall → Metric)
    (progs : List (List BCall)) (s : BSt) : Prop where
  rc : ∃ R, RCInv r (progs.map fun P => P.map M) R (s.abs M)
  failed : s.failed = []
  len : s.gs.length = s.r.thr.length
  gs : ∀ (i : Nat) g t, s.gs[i]? = some g → s.r.thr[i]? = some t → ∃ P, progs[i]? = some P ∧ GOK parse M P s.r.reg g t

theorem set_same {α : Type} {l : List α} {i : Nat} {a : α} (h : l[i]? = some a) : l.set i a = l := by
  apply List.ext_getElem?
  intro j
  rw [List.getElem?_set]
  split
  · rename_i hij; subst hij
    rw [if_pos (List.getElem?_eq_some_iff.1 h).1, h]
  · rfl

theorem abs_get {s : BSt} {i : Nat} {g : BG} {t : RTh} (hg : s.gs[i]? = some g) (ht : s.r.thr[i]? = some t) :
    (s.abs M).thr[i]? = some (g.abs M t) := by
  show (List.zipWith (BG.abs M) s.gs s.r.thr)[i]? = _
  rw [List.getElem?_zipWith, hg, ht]

theorem abs_set {gs : List BG} {thr : List RTh} {i : Nat} {g g' : BG} {t t' : RTh} (hg : gs[i]? = some g)
    (ht : thr[i]? = some t) :
    List.zipWith (BG.abs M) (gs.set i g') (thr.set i t') = (List.zipWith (BG.abs M) gs thr).set i (g'.abs M t') := by
  apply List.ext_getElem?
  intro j
  rw [List.getElem?_zipWith, List.getElem?_set, List.getElem?_set, List.getElem?_set, List.getElem?_zipWith,
    List.length_zipWith]
  by_cases hij : i = j
  · subst hij
    have h1 := (List.getElem?_eq_some_iff.1 hg).1
    have h2 := (List.getElem?_eq_some_iff.1 ht).1
    rw [if_pos rfl, if_pos rfl, if_pos rfl, if_pos h1, if_pos h2, if_pos (by omega)]
  · rw [if_neg hij, if_neg hij, if_neg hij]

theorem GOK.mono {P : List BCall} {reg reg' : Reg} {g : BG} {t : RTh} (h : GOK parse M P reg g t)
    (h1 : ∀ n, reg.hasIndom n = true → reg'.hasIndom n = true)
    (h2 : ∀ c ∈ P, ∀ d, (M c).indom = some d → reg'.hasIndom d.name = true → reg.hasIndom d.name = true) :
    GOK parse M P reg' g t := by
  obtain ⟨L, a, b, c, d⟩ := h
  refine ⟨L, a, b, fun x hx e he hs => ?_, ?_⟩
  · rw [← c x hx e he hs]
    exact ⟨h2 x hx e he, h1 _⟩
  · obtain ⟨cs, pc⟩ := g
    cases pc with
    | rest => exact RTh.NoI.mono d h1
    | _ => exact d

/-- One goroutine takes a step. -/
theorem BInv.one {s : BSt} (h : BInv parse r M progs s) {i : Nat} {g g' : BG} {t t' : RTh} {P : List BCall}
    (hg : s.gs[i]? = some g) (ht : s.r.thr[i]? = some t) (hP : progs[i]? = some P) {reg : Reg} {lm li : RW}
    {log : List (Metric × Bool)}
    (hrc : ∃ R, RCInv r (progs.map fun P => P.map M) R ⟨reg, lm, li, (s.abs M).thr.set i (g'.abs M t'), log⟩)
    (hmono : ∀ n, s.r.reg.hasIndom n = true → reg.hasIndom n = true)
    (hno : ∀ (j : Nat) Q, i ≠ j → progs[j]? = some Q → ∀ c ∈ Q, ∀ d, (M c).indom = some d → reg.hasIndom d.name = true →
      s.r.reg.hasIndom d.name = true)
    (hok : GOK parse M P reg g' t') :
    BInv parse r M progs ⟨⟨reg, lm, li, s.r.thr.set i t', log⟩, s.gs.set i g', s.failed⟩ := by
  have hset : (⟨⟨reg, lm, li, s.r.thr.set i t', log⟩, s.gs.set i g', s.failed⟩ : BSt).abs M =
      ⟨reg, lm, li, (s.abs M).thr.set i (g'.abs M t'), log⟩ := by
    unfold BSt.abs
    simp only [abs_set hg ht]
  refine ⟨by rw [hset]; exact hrc, h.failed, by simp [h.len], ?_⟩
  intro j g2 t2 hg2 ht2
  dsimp only at hg2 ht2
  rw [List.getElem?_set] at hg2 ht2
  by_cases hij : i = j
  · subst hij
    rw [if_pos rfl, if_pos (List.getElem?_eq_some_iff.1 hg).1] at hg2
    rw [if_pos rfl, if_pos (List.getElem?_eq_some_iff.1 ht).1] at ht2
    obtain rfl := Option.some.inj hg2
    obtain rfl := Option.some.inj ht2
    exact ⟨P, hP, hok⟩
  · rw [if_neg hij] at hg2 ht2
    obtain ⟨Q, hQ, hG⟩ := h.gs j g2 t2 hg2 ht2
    exact ⟨Q, hQ, hG.mono hmono (hno j Q hij hQ)⟩

theorem binv_init (hB : BHyp parse r M progs) : BInv parse r M progs (binit r progs) where
  rc := by
    have : (binit r progs).abs M = rinit r (progs.map fun P => P.map M) := by
      unfold binit rinit BSt.abs
      simp only [List.map_map, RSt.mk.injEq, true_and, and_true]
      apply List.ext_getElem?
      intro i
      rw [List.getElem?_zipWith]
      simp only [List.getElem?_map]
      cases progs[i]? <;> rfl
    rw [this]; exact ⟨r, rcinv_init hB.hy⟩
  failed := rfl
  len := by simp [binit, rinit]
  gs i g t hg ht := by
    simp only [binit, List.getElem?_map, Option.map_eq_some_iff] at hg
    obtain ⟨P, hP, rfl⟩ := hg
    simp only [binit, rinit, List.map_map, List.getElem?_map, hP, Option.map_some, Option.some.injEq] at ht
    refine ⟨P, hP, r.indoms, hB.solo P (List.mem_of_getElem? hP), fun c hc => hc, fun c _ d _ _ => hasIndom_iff, ?_⟩
    rw [← ht]
    intro m hm
    cases hm

/-! ### Facts about the calls -/

theorem Solo.first {L : List Indom} {c : BCall} {cs : List BCall} (h : Solo parse M L (c :: cs)) :
    (∃ name x, parse c.str = some (name, x, none) ∧ c.single name = some (M c) ∧ (M c).indom = none ∧ Solo parse M L cs) ∨
    ∃ name dom ins mp, parse c.str = some (name, dom, some ins) ∧ c.val = .insts mp := by
  cases h with
  | single h1 h2 h3 h4 => exact .inl ⟨_, _, h1, h2, h3, h4⟩
  | found h1 h2 => exact .inr ⟨_, _, _, _, h1, h2⟩
  | new h1 h2 => exact .inr ⟨_, _, _, _, h1, h2⟩

theorem Solo.inst {L : List Indom} {a : BArgs} {cs : List BCall} (h : Solo parse M L (a.call :: cs)) (ha : a.OK parse) :
    (∃ d ∈ L, d.name = a.dom ∧ d.matchInstances a.ins = true ∧ a.inst d = some (M a.call) ∧ (M a.call).indom = some d ∧
      Solo parse M L cs) ∨
    ((∀ d ∈ L, d.name ≠ a.dom) ∧ ∃ d, newIndom a.call.duid a.dom a.ins [] = some d ∧ d.name = a.dom ∧
      a.inst d = some (M a.call) ∧ (M a.call).indom = some d ∧ Solo parse M (L ++ [d]) cs) := by
  obtain ⟨c, name, dom, ins, mp⟩ := a
  obtain ⟨h1, h2⟩ := ha
  dsimp only at h h1 h2 ⊢
  cases h with
  | single e1 =>
    rw [h1] at e1
    cases e1
  | found e1 e2 e3 e4 e5 e6 e7 e8 =>
    rw [h1] at e1
    rw [h2] at e2
    cases e1
    cases e2
    exact .inl ⟨_, e3, e4, e5, e6, e7, e8⟩
  | new e1 e2 e3 e4 e5 e6 e7 e8 =>
    rw [h1] at e1
    rw [h2] at e2
    cases e1
    cases e2
    exact .inr ⟨e3, _, e4, e5, e6, e7, e8⟩

/-- A registered domain that a call uses is the domain of the call's metric. -/
theorem lookup_eq (hB : BHyp parse r M progs) {R : Reg} {s : RSt} (h : RCInv r (progs.map fun P => P.map M) R s) {i : Nat}
    {P : List BCall} (hP : progs[i]? = some P) {c : BCall} (hc : c ∈ P) {d : Indom} (hd : (M c).indom = some d)
    (hh : s.reg.hasIndom d.name = true) : s.reg.indomNamed d.name = some d := by
  have hnd : (s.reg.indoms.map (·.name)).Nodup := by
    have hnd : ((s.reg.indoms ++ _).map (·.name)).Nodup := (h.acc.indoms.map (·.name)).nodup_iff.2 h.inv.unique.1
    rw [List.map_append] at hnd
    exact (List.nodup_append.1 hnd).1
  have hcf : c ∈ progs.flatten := List.mem_flatten.2 ⟨P, List.mem_of_getElem? hP, hc⟩
  unfold Reg.indomNamed
  cases hf : s.reg.indoms.find? (fun x => x.name = d.name) with
  | none =>
    obtain ⟨x, hx, e⟩ := hasIndom_iff.1 hh
    have : ∀ x ∈ s.reg.indoms, x.name ≠ d.name := by simpa using hf
    exact absurd e (this x hx)
  | some d0 =>
    have h1 : d0.name = d.name := by simpa using List.find?_some hf
    have h2 : d0 ∈ s.reg.indoms := List.mem_of_find?_eq_some hf
    have hold : r.hasIndom d.name = true → d0 = d := fun hr =>
      List.inj_on_of_nodup_map hnd h2 (h.old d (hB.reg c hcf d hd hr)) h1
    congr 1
    rcases h.src d0 (h.sub_indoms d0 h2) with h3 | ⟨m, hm, h3⟩
    · exact hold (hasIndom_iff.2 ⟨d0, h3, h1⟩)
    · obtain ⟨Q', hQ', hm⟩ := List.mem_flatten.1 hm
      obtain ⟨j, hj⟩ := List.mem_iff_getElem?.1 hQ'
      have hj' := hj
      rw [List.getElem?_map, Option.map_eq_some_iff] at hj'
      obtain ⟨Q, hQ, rfl⟩ := hj'
      obtain ⟨c0, hc0, rfl⟩ := List.mem_map.1 hm
      by_cases hij : i = j
      · subst hij
        rw [hP] at hQ
        obtain rfl := Option.some.inj hQ
        exact hB.same P (List.mem_of_getElem? hP) c0 hc0 c hc d0 d h3 hd h1
      · exact hold (hB.hy.own i j (P.map M) (Q.map M) (by rw [List.getElem?_map, hP]; rfl) hj hij (M c)
          (List.mem_map.2 ⟨c, hc, rfl⟩) (M c0) (List.mem_map.2 ⟨c0, hc0, rfl⟩) d d0 hd h3 h1.symm)

/-! ### The steps -/

theorem abs_prog {i : Nat} {P : List BCall} (hP : progs[i]? = some P) :
    (progs.map fun P => P.map M)[i]? = some (P.map M) := by rw [List.getElem?_map, hP]; rfl

theorem csStep_nil {r : Reg} {ops : List Mic} {x : Option Nat} (h : csStep r ops x = none) : ops = [] := by
  unfold csStep at h
  split at h <;> first | rfl | cases h

theorem BInv.step (hB : BHyp parse r M progs) {s s' : BSt} (h : BInv parse r M progs s) (hs : BStep parse s s') :
    BInv parse r M progs s' := by
  obtain ⟨i, hs⟩ := hs
  unfold bstep at hs
  cases hg : s.gs[i]? with
  | none => rw [hg] at hs; cases hs
  | some g =>
    cases ht : s.r.thr[i]? with
    | none =>
      rw [hg, ht] at hs
      obtain ⟨cs, pc⟩ := g
      cases pc <;> cases hs
    | some t =>
      obtain ⟨P, hP, L, hsolo, hpend, hag, hpc⟩ := h.gs i g t hg ht
      obtain ⟨R, hR⟩ := h.rc
      rw [hg, ht] at hs
      obtain ⟨cs, pc⟩ := g
      have habs := abs_get (M := M) hg ht
      -- nothing changes in `RegConc`
      have stay : ∀ (g' : BG) (t' : RTh), g'.abs M t' = BG.abs M ⟨cs, pc⟩ t →
          GOK parse M P s.r.reg g' t' →
          BInv parse r M progs ⟨⟨s.r.reg, s.r.lm, s.r.li, s.r.thr.set i t', s.r.log⟩, s.gs.set i g', s.failed⟩ := by
        intro g' t' he hok
        refine h.one hg ht hP ⟨R, ?_⟩ (fun _ h => h) (fun _ _ _ _ _ _ _ _ h => h) hok
        rw [he, set_same habs]; exact hR
      have go : ∀ pc', BG.abs M ⟨cs, pc'⟩ t = BG.abs M ⟨cs, pc⟩ t →
          GOK parse M P s.r.reg ⟨cs, pc'⟩ t → BInv parse r M progs (s.go i cs pc') := by
        intro pc' he hok
        have := stay ⟨cs, pc'⟩ t he hok
        rw [set_same ht] at this
        exact this
      have hmemP : ∀ c ∈ P, M c ∈ P.map M := fun c hc => List.mem_map.2 ⟨c, hc, rfl⟩
      cases pc with
      | rest =>
        by_cases hi : t = .idle []
        · subst hi
          dsimp only at hs
          cases cs with
          | nil => cases hs
          | cons c cs =>
            have hcs : ∀ x ∈ cs, x ∈ P := fun x hx => hpend x (List.mem_cons_of_mem _ hx)
            dsimp only at hs
            rcases Solo.first hsolo with ⟨name, x, e1, e2, e3, e4⟩ | ⟨name, dom, ins, mp, e1, e2⟩
            · rw [e1] at hs
              dsimp only at hs
              rw [e2] at hs
              obtain rfl := Option.some.inj hs
              refine stay ⟨cs, .rest⟩ (.idle [M c]) rfl ⟨L, e4, hcs, hag, ?_⟩
              intro m hm d hd
              rw [List.mem_singleton.1 hm, e3] at hd
              cases hd
            · rw [e1] at hs
              dsimp only at hs
              rw [e2] at hs
              obtain rfl := Option.some.inj hs
              have := stay ⟨cs, .look ⟨c, name, dom, ins, mp⟩⟩ (.idle []) rfl ⟨L, hsolo, hpend, hag, rfl, e1, e2⟩
              rw [set_same ht] at this
              exact this
        · have hs' : (rstep s.r i).map (fun r => { s with r := r }) = some s' := by
            cases t with
            | idle ms =>
              cases ms with
              | nil => exact absurd rfl hi
              | cons m ms => exact hs
            | busy m pc ms => exact hs
          obtain ⟨r', hr, rfl⟩ := Option.map_eq_some_iff.1 hs'
          obtain ⟨t', e1, e2, e3⟩ := rstep_local ht hr (rem := cs.map M) habs
          obtain ⟨e3, e4⟩ := e3 hpc
          have := h.one (g' := ⟨cs, .rest⟩) (t' := t') (reg := r'.reg) (lm := r'.lm) (li := r'.li) (log := r'.log) hg ht hP
            (hR.step hB.hy ⟨i, e2⟩) (fun n hn => by rw [hasIndom_congr e4]; exact hn)
            (fun _ _ _ _ _ _ _ _ hn => by rw [hasIndom_congr e4] at hn; exact hn)
            ⟨L, hsolo, hpend, fun c hc d hd hn => by rw [hasIndom_congr e4]; exact hag c hc d hd hn,
              e3.mono fun n hn => by rw [hasIndom_congr e4]; exact hn⟩
          rw [set_same hg, ← e1] at this
          exact this
      | look a =>
        obtain ⟨rfl, ha⟩ := hpc
        have hcP : a.call ∈ P := hpend _ List.mem_cons_self
        dsimp only at hs
        split at hs
        · cases hs
        · obtain rfl := Option.some.inj hs
          rcases hsolo.inst ha with ⟨d, d1, d2, d3, d4, d5, d6⟩ | ⟨d1, d, d2, d3, d4, d5, d6⟩
          · have hh := (hag a.call hcP d d5 (by simp [BPc.adding])).2 ⟨d, d1, rfl⟩
            rw [d2] at hh
            rw [if_pos hh]
            exact go _ rfl ⟨L, hsolo, hpend, hag, rfl, ha, d, d1, d2⟩
          · have hh : ¬ s.r.reg.hasIndom a.dom = true := by
              intro hh
              rw [← d3] at hh
              obtain ⟨x, hx, e⟩ := (hag a.call hcP d d5 (by simp [BPc.adding])).1 hh
              exact d1 x hx (by rw [e, d3])
            rw [if_neg hh]
            exact go _ rfl ⟨L, hsolo, hpend, hag, rfl, ha, d1⟩
      | match1 a =>
        obtain ⟨rfl, ha, d0, hd0, hn0⟩ := hpc
        have hcP : a.call ∈ P := hpend _ List.mem_cons_self
        rcases hsolo.inst ha with ⟨d, d1, d2, d3, d4, d5, d6⟩ | ⟨d1, _⟩
        · have hh := lookup_eq hB hR hP hcP d5 ((hag a.call hcP d d5 (by simp [BPc.adding])).2 ⟨d, d1, rfl⟩)
          rw [d2] at hh
          dsimp only at hs
          rw [show s.r.reg.indomNamed a.dom = some d from hh] at hs
          obtain rfl := Option.some.inj hs
          rw [if_pos d3]
          exact go _ rfl ⟨L, hsolo, hpend, hag, rfl, ha, d0, hd0, hn0⟩
        · exact absurd hn0 (d1 d0 hd0)
      | match2 a =>
        obtain ⟨rfl, ha, d0, hd0, hn0⟩ := hpc
        have hcP : a.call ∈ P := hpend _ List.mem_cons_self
        rcases hsolo.inst ha with ⟨d, d1, d2, d3, d4, d5, d6⟩ | ⟨d1, _⟩
        · have hr := (hag a.call hcP d d5 (by simp [BPc.adding])).2 ⟨d, d1, rfl⟩
          have hh := lookup_eq hB hR hP hcP d5 hr
          rw [d2] at hh
          dsimp only at hs
          rw [show s.r.reg.indomNamed a.dom = some d from hh] at hs
          dsimp only at hs
          rw [d4] at hs
          obtain rfl := Option.some.inj hs
          refine stay ⟨cs, .rest⟩ (.idle [M a.call]) rfl
            ⟨L, d6, fun c hc => hpend c (List.mem_cons_of_mem _ hc), hag, ?_⟩
          intro m hm d' hd'
          rw [List.mem_singleton.1 hm, d5] at hd'
          obtain rfl := Option.some.inj hd'
          exact hr
        · exact absurd hn0 (d1 d0 hd0)
      | byName a =>
        obtain ⟨rfl, ha, hn0⟩ := hpc
        have hcP : a.call ∈ P := hpend _ List.mem_cons_self
        rcases hsolo.inst ha with ⟨d, d1, d2, _⟩ | ⟨d1, d, d2, d3, d4, d5, d6⟩
        · exact absurd d2 (hn0 d d1)
        · have hh : ¬ s.r.reg.hasIndom a.dom = true := by
            intro hh
            rw [← d3] at hh
            obtain ⟨x, hx, e⟩ := (hag a.call hcP d d5 (by simp [BPc.adding])).1 hh
            exact d1 x hx (by rw [e, d3])
          dsimp only at hs
          split at hs
          · cases hs
          · rw [d2] at hs
            obtain rfl := Option.some.inj hs
            exact go _ rfl ⟨L, hsolo, hpend, hag, rfl, ha, hn0, d2⟩
      | addI a d0 =>
        obtain ⟨rfl, ha, hn0, hnew⟩ := hpc
        have hcP : a.call ∈ P := hpend _ List.mem_cons_self
        rcases hsolo.inst ha with ⟨d, d1, d2, _⟩ | ⟨d1, d, d2, d3, d4, d5, d6⟩
        · exact absurd d2 (hn0 d d1)
        · rw [hnew] at d2
          obtain rfl := Option.some.inj d2
          have hh : ¬ s.r.reg.hasIndom d0.name = true := by
            intro hh
            obtain ⟨x, hx, e⟩ := (hag a.call hcP d0 d5 (by simp [BPc.adding])).1 hh
            exact d1 x hx (by rw [e, d3])
          dsimp only at hs
          split at hs
          · cases hs
          · obtain rfl := Option.some.inj hs
            exact go _ rfl ⟨L, hsolo, hpend, hag, rfl, ha, hn0, hnew⟩
      | lockI a d0 =>
        obtain ⟨rfl, ha, hn0, hnew⟩ := hpc
        have hcP : a.call ∈ P := hpend _ List.mem_cons_self
        rcases hsolo.inst ha with ⟨d, d1, d2, _⟩ | ⟨d1, d, d2, d3, d4, d5, d6⟩
        · exact absurd d2 (hn0 d d1)
        · rw [hnew] at d2
          obtain rfl := Option.some.inj d2
          have hh : ¬ s.r.reg.hasIndom d0.name = true := by
            intro hh
            obtain ⟨x, hx, e⟩ := (hag a.call hcP d0 d5 (by simp [BPc.adding])).1 hh
            exact d1 x hx (by rw [e, d3])
          have hRno : R.hasIndom d0.name = false := by
            rw [hR.reg_has hB.hy habs rfl (abs_prog hP) (hmemP _ hcP) d5]
            exact Bool.eq_false_iff.2 hh
          dsimp only at hs
          split at hs
          · cases hs
          · rename_i hc
            simp only [Bool.or_eq_true, decide_eq_true_eq, not_or, Bool.not_eq_true, ne_eq, not_not] at hc
            obtain rfl := Option.some.inj hs
            have := h.one (g' := ⟨cs, .mappedI a d0⟩) (t' := .idle []) (reg := s.r.reg) (lm := s.r.lm) (li := ⟨true, 0⟩)
              (log := s.r.log) hg ht hP
              ⟨R, hR.move habs rfl rfl (.refl _) hR.ok rfl rfl
                (by rw [show (s.abs M).li.writer = false from hc.1]; rfl) (by rw [show (s.abs M).li.readers = 0 from hc.2]; rfl)
                (fun P hP hT => ⟨hT, d5, hRno⟩)⟩
              (fun _ h => h) (fun _ _ _ _ _ _ _ _ h => h)
              ⟨L, hsolo, hpend, hag, rfl, ha, hn0, hnew⟩
            rw [set_same ht] at this
            exact this
      | mappedI a d0 =>
        obtain ⟨rfl, ha, hn0, hnew⟩ := hpc
        have hmp : s.r.reg.mapped = false := hR.acc.mapped.trans hR.mapped
        dsimp only at hs
        rw [hmp] at hs
        obtain rfl := Option.some.inj hs
        have hst : rstep (s.abs M) i = some ((s.abs M).go i (M a.call) (cs.map M) (.csI d0 (bodyI d0) none)) := by
          unfold rstep
          rw [habs]
          show some (RSt.go _ _ _ _ (if s.r.reg.mapped = true then _ else _)) = _
          rw [hmp]; rfl
        have := h.one (g' := ⟨cs, .csI a d0 (bodyI d0) none⟩) (t' := .idle []) (reg := s.r.reg) (lm := s.r.lm) (li := s.r.li)
          (log := s.r.log) hg ht hP (hR.step hB.hy ⟨i, hst⟩) (fun _ h => h) (fun _ _ _ _ _ _ _ _ h => h)
          ⟨L, hsolo, hpend, fun c hc d hd _ => hag c hc d hd (by simp [BPc.adding]), rfl, ha, hn0, hnew⟩
        rw [set_same ht] at this
        exact this
      | failI a => exact absurd hpc id
      | csI a d0 ops x =>
        obtain ⟨rfl, ha, hn0, hnew⟩ := hpc
        have hcP : a.call ∈ P := hpend _ List.mem_cons_self
        obtain ⟨P', hP', hT⟩ := hR.thr i _ habs
        obtain ⟨_, f1, f2, f3, f4⟩ := hT
        rcases hsolo.inst ha with ⟨d, d1, d2, _⟩ | ⟨d1, d, d2, d3, d4, d5, d6⟩
        · exact absurd d2 (hn0 d d1)
        · rw [hnew] at d2
          obtain rfl := Option.some.inj d2
          dsimp only at hs
          cases hc : csStep s.r.reg ops x with
          | some p =>
            obtain ⟨reg', ops', x'⟩ := p
            rw [hc] at hs
            obtain rfl := Option.some.inj hs
            have hreg : ∀ n, (s.r.reg.hasIndom n = true → reg'.hasIndom n = true) ∧
                (reg'.hasIndom n = true → n = d0.name ∨ s.r.reg.hasIndom n = true) := by
              intro n
              rcases csStep_isI hc f3 with e | e
              · rw [hasIndom_congr e]; exact ⟨fun h => h, fun h => .inr h⟩
              · rw [hasIndom_congr e, hasIndom_put]; exact ⟨fun h => .inr h, fun h => h⟩
            have := h.one (g' := ⟨cs, .csI a d0 ops' x'⟩) (t' := .idle []) (reg := reg') (lm := s.r.lm) (li := s.r.li)
              (log := s.r.log) hg ht hP ⟨R, hR.cs habs hc (.inr ⟨d0, rfl, rfl⟩)⟩ (fun n => (hreg n).1)
              (fun j Q hij hQ c hcQ d hd hn => by
                rcases (hreg _).2 hn with e | e
                · have := hB.hy.own i j _ _ (abs_prog hP) (abs_prog hQ) hij (M a.call) (hmemP _ hcP) (M c)
                    (List.mem_map.2 ⟨c, hcQ, rfl⟩) d0 d d5 hd e.symm
                  obtain ⟨y, hy1, hy2⟩ := hasIndom_iff.1 this
                  rw [e]
                  exact hasIndom_iff.2 ⟨y, hR.old y hy1, hy2⟩
                · exact e)
              ⟨L, hsolo, hpend, fun c hc d hd hn => by
                rw [← hag c hc d hd hn]
                refine ⟨fun h => ?_, (hreg _).1⟩
                rcases (hreg _).2 h with e | e
                · exact absurd (by rw [e]; rfl) hn
                · exact e, rfl, ha, hn0, hnew⟩
            rw [set_same ht] at this
            exact this
          | none =>
            rw [hc] at hs
            dsimp only at hs
            rw [d4] at hs
            obtain rfl := Option.some.inj hs
            obtain rfl := csStep_nil hc
            have hw : (s.abs M).li.writer = true := by
              have h1 := hR.li.writer
              have : 0 < (s.abs M).thr.countP RTh.wI := List.countP_pos_iff.2 ⟨_, List.mem_of_getElem? habs, rfl⟩
              cases hh : (s.abs M).li.writer with
              | true => rfl
              | false => rw [hh] at h1; simp at h1; omega
            have hself : s.r.reg.hasIndom d0.name = true :=
              (hR.reg_has hB.hy habs rfl (abs_prog hP) (hmemP _ hcP) d5).symm.trans f2
            refine h.one (g' := ⟨cs, .rest⟩) (t' := .idle [M a.call]) (reg := s.r.reg) (lm := s.r.lm)
              (li := ⟨false, s.r.li.readers⟩) (log := s.r.log) hg ht hP
              ⟨R, hR.move habs rfl rfl (.refl _) hR.ok rfl rfl (by rw [hw]; rfl) rfl (fun P hP hT => hT.1)⟩
              (fun _ h => h) (fun _ _ _ _ _ _ _ _ h => h) ?_
            · refine ⟨L ++ [d0], d6, fun c hc => hpend c (List.mem_cons_of_mem _ hc), ?_, ?_⟩
              · intro c hc d hd _
                by_cases hn : d.name = d0.name
                · rw [hn]
                  exact ⟨fun _ => ⟨d0, by simp, rfl⟩, fun _ => hself⟩
                · rw [hag c hc d hd (by simp only [BPc.adding, ne_eq, Option.some.injEq]; exact fun h => hn h.symm)]
                  constructor
                  · rintro ⟨y, hy, e⟩
                    exact ⟨y, List.mem_append_left _ hy, e⟩
                  · rintro ⟨y, hy, e⟩
                    rcases List.mem_append.1 hy with hy | hy
                    · exact ⟨y, hy, e⟩
                    · rw [List.mem_singleton.1 hy] at e
                      exact absurd e.symm hn
              · intro m hm d' hd'
                rw [List.mem_singleton.1 hm, d5] at hd'
                obtain rfl := Option.some.inj hd'
                exact hself

theorem BInv.reach (hB : BHyp parse r M progs) {s s' : BSt} (h : BInv parse r M progs s) (hr : BReach parse s s') :
    BInv parse r M progs s' := by
  induction hr with
  | refl => exact h
  | tail _ hs ih => exact ih.step hB hs

end

end Speed
