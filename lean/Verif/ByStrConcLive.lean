import Verif.ByStrConcSim
/-
Concurrent registration by string, for arbitrary calls: no deadlock, every schedule is finite.
-/
namespace Speed

section
variable {parse : Str → Option (Str × Str × Option (List Str))}

/-- Some metric. -/
def anyMetric : Metric := (newPCPCounter 0 0 [0x61] []).get (by decide)

/-- The goroutine as one of `RegConc` that holds the same locks. -/
def BG.lks (g : BG) (t : RTh) : RTh :=
  match g.pc with
  | .mappedI _ d => .busy anyMetric (.mappedI d) []
  | .csI _ d ops x => .busy anyMetric (.csI d ops x) []
  | .failI _ => .busy anyMetric .failI []
  | _ => t

def BSt.lks (s : BSt) : RSt := ⟨s.r.reg, s.r.lm, s.r.li, List.zipWith BG.lks s.gs s.r.thr, s.r.log⟩

def BPc.OKL (reg : Reg) (t : RTh) : BPc → Prop
  | .rest => True
  | .match1 a | .match2 a => t = .idle [] ∧ reg.hasIndom a.dom = true
  | _ => t = .idle []

structure BLInv (s : BSt) : Prop where
  lk : LInv s.lks
  len : s.gs.length = s.r.thr.length
  gs : ∀ (i : Nat) g t, s.gs[i]? = some g → s.r.thr[i]? = some t → g.pc.OKL s.r.reg t

def BPc.rankL : BPc → Nat
  | .rest => 0
  | .look _ => 306
  | .byName _ => 305
  | .addI _ _ => 304
  | .lockI _ _ => 303
  | .match1 _ => 302
  | .match2 _ => 301
  | _ => 250

def BG.rankL (g : BG) : Nat := 400 * g.calls.length + g.pc.rankL
def BSt.rankL (s : BSt) : Nat := s.lks.rank + (s.gs.map BG.rankL).sum

theorem sum_set {α : Type} {f : α → Nat} {l : List α} {i : Nat} {a : α} (hi : l[i]? = some a) (b : α) :
    ((l.set i b).map f).sum + f a = (l.map f).sum + f b := by
  induction l generalizing i with
  | nil => cases hi
  | cons x l ih =>
    cases i with
    | zero =>
      obtain rfl : x = a := by simpa using hi
      simp only [List.set_cons_zero, List.map_cons, List.sum_cons]; omega
    | succ i =>
      have := ih (i := i) (by simpa using hi)
      simp only [List.set_cons_succ, List.map_cons, List.sum_cons]; omega

theorem lks_get {s : BSt} {i : Nat} {g : BG} {t : RTh} (hg : s.gs[i]? = some g) (ht : s.r.thr[i]? = some t) :
    s.lks.thr[i]? = some (g.lks t) := by
  show (List.zipWith BG.lks s.gs s.r.thr)[i]? = _
  rw [List.getElem?_zipWith, hg, ht]

theorem lks_set {gs : List BG} {thr : List RTh} {i : Nat} {g g' : BG} {t t' : RTh} (hg : gs[i]? = some g)
    (ht : thr[i]? = some t) :
    List.zipWith BG.lks (gs.set i g') (thr.set i t') = (List.zipWith BG.lks gs thr).set i (g'.lks t') := by
  apply List.ext_getElem?
  intro j
  rw [List.getElem?_zipWith, List.getElem?_set, List.getElem?_set, List.getElem?_set, List.getElem?_zipWith,
    List.length_zipWith]
  by_cases hij : i = j
  · subst hij
    have h1 := (List.getElem?_eq_some_iff.1 hg).1
    have h2 := (List.getElem?_eq_some_iff.1 ht).1
    rw [if_pos rfl, if_pos rfl, if_pos rfl, if_pos h1, if_pos h2, if_pos (by omega)]
  · rw [if_neg hij, if_neg hij, if_neg hij]

theorem BLInv.one {s : BSt} (h : BLInv s) {i : Nat} {g g' : BG} {t t' : RTh} (hg : s.gs[i]? = some g)
    (ht : s.r.thr[i]? = some t) {reg : Reg} {lm li : RW} {log : List (Metric × Bool)} {failed : List BCall}
    (hlk : LInv ⟨reg, lm, li, s.lks.thr.set i (g'.lks t'), log⟩)
    (hmono : ∀ n, s.r.reg.hasIndom n = true → reg.hasIndom n = true)
    (hrk : (g'.lks t').rank + g'.rankL < (g.lks t).rank + g.rankL) (hok : g'.pc.OKL reg t') :
    BLInv ⟨⟨reg, lm, li, s.r.thr.set i t', log⟩, s.gs.set i g', failed⟩ ∧
      BSt.rankL ⟨⟨reg, lm, li, s.r.thr.set i t', log⟩, s.gs.set i g', failed⟩ < s.rankL := by
  have hset : (⟨⟨reg, lm, li, s.r.thr.set i t', log⟩, s.gs.set i g', failed⟩ : BSt).lks =
      ⟨reg, lm, li, s.lks.thr.set i (g'.lks t'), log⟩ := by
    unfold BSt.lks
    simp only [lks_set hg ht]
  refine ⟨⟨by rw [hset]; exact hlk, by simp [h.len], ?_⟩, ?_⟩
  · intro j g2 t2 hg2 ht2
    dsimp only at hg2 ht2
    rw [List.getElem?_set] at hg2 ht2
    by_cases hij : i = j
    · subst hij
      rw [if_pos rfl, if_pos (List.getElem?_eq_some_iff.1 hg).1] at hg2
      rw [if_pos rfl, if_pos (List.getElem?_eq_some_iff.1 ht).1] at ht2
      obtain rfl := Option.some.inj hg2
      obtain rfl := Option.some.inj ht2
      exact hok
    · rw [if_neg hij] at hg2 ht2
      have := h.gs j g2 t2 hg2 ht2
      obtain ⟨cs, pc⟩ := g2
      cases pc with
      | match1 a => exact ⟨this.1, hmono _ this.2⟩
      | match2 a => exact ⟨this.1, hmono _ this.2⟩
      | _ => exact this
  · unfold BSt.rankL
    rw [hset]
    unfold RSt.rank
    have h1 := sum_set (f := RTh.rank) (lks_get hg ht) (g'.lks t')
    have h2 := sum_set (f := BG.rankL) hg g'
    dsimp only
    omega

theorem blinv_init (r : Reg) (progs : List (List BCall)) : BLInv (binit r progs) where
  lk := by
    have : (binit r progs).lks = rinit r (progs.map fun _ => []) := by
      unfold binit rinit BSt.lks
      simp only [List.map_map, RSt.mk.injEq, true_and, and_true]
      apply List.ext_getElem?
      intro i
      rw [List.getElem?_zipWith]
      simp only [List.getElem?_map]
      cases progs[i]? <;> rfl
    rw [this]; exact linv_init _ _
  len := by simp [binit, rinit]
  gs i g t hg ht := by
    simp only [binit, List.getElem?_map, Option.map_eq_some_iff] at hg
    obtain ⟨P, hP, rfl⟩ := hg
    trivial

theorem csStep_mono {r r' : Reg} {ops ops' : List Mic} {x x' : Option Nat} (h : csStep r ops x = some (r', ops', x'))
    (n : Str) (hn : r.hasIndom n = true) : r'.hasIndom n = true := by
  unfold csStep at h
  split at h
  · cases h
  all_goals
    obtain ⟨rfl, rfl, rfl⟩ : _ ∧ _ ∧ _ := by simpa using h
  · exact hn
  · exact (hasIndom_put _ _ _).2 (.inr hn)
  · exact hn
  · rename_i c n k v; cases c <;> exact hn
  · exact hn
  · split <;> exact hn

theorem rstep_mono {s s' : RSt} {i : Nat} (hs : rstep s i = some s') (n : Str) (hn : s.reg.hasIndom n = true) :
    s'.reg.hasIndom n = true := by
  unfold rstep at hs
  split at hs
  · cases hs
  · cases hs
  · obtain rfl := Option.some.inj hs; exact hn
  · dsimp only at hs
    split at hs <;> try (obtain rfl := Option.some.inj hs)
    · split <;> exact hn
    · split at hs
      · cases hs
      · obtain rfl := Option.some.inj hs; exact hn
    · exact hn
    · split
      · exact hn
      · split <;> exact hn
    · split at hs
      · cases hs
      · obtain rfl := Option.some.inj hs; exact hn
    · exact hn
    · split <;> exact hn
    · split at hs
      · cases hs
      · obtain rfl := Option.some.inj hs; exact hn
    · exact hn
    · exact hn
    · split at hs
      · rename_i hc; obtain rfl := Option.some.inj hs; exact csStep_mono hc n hn
      · obtain rfl := Option.some.inj hs; exact hn
    · split at hs
      · cases hs
      · obtain rfl := Option.some.inj hs; exact hn
    · split at hs
      · rename_i hc; obtain rfl := Option.some.inj hs; exact csStep_mono hc n hn
      · obtain rfl := Option.some.inj hs; exact hn

theorem app_nil (t : RTh) : t.app [] = t := by cases t <;> simp [RTh.app]

theorem BLInv.step {s s' : BSt} (h : BLInv s) (hs : BStep parse s s') : BLInv s' ∧ s'.rankL < s.rankL := by
  obtain ⟨i, hs⟩ := hs
  unfold bstep at hs
  cases hg : s.gs[i]? with
  | none => rw [hg] at hs; cases hs
  | some g =>
    cases ht : s.r.thr[i]? with
    | none =>
      rw [hg, ht] at hs
      obtain ⟨cs, pc⟩ := g
      cases pc <;> cases hs
    | some t =>
      have hpc := h.gs i g t hg ht
      rw [hg, ht] at hs
      obtain ⟨cs, pc⟩ := g
      have hlks := lks_get hg ht
      have hw : ∀ {u : RTh}, s.lks.thr[i]? = some u → u.wI = true → s.lks.li.writer = true := by
        intro u hu hwu
        have h1 := h.lk.2.writer
        have : 0 < s.lks.thr.countP RTh.wI := List.countP_pos_iff.2 ⟨_, List.mem_of_getElem? hu, hwu⟩
        cases hh : s.lks.li.writer with
        | true => rfl
        | false => rw [hh] at h1; simp at h1; omega
      -- steps that touch no lock
      have stay : ∀ (g' : BG) (t' : RTh) (failed : List BCall), (g'.lks t').wM = (BG.lks ⟨cs, pc⟩ t).wM →
          (g'.lks t').rM = (BG.lks ⟨cs, pc⟩ t).rM → (g'.lks t').wI = (BG.lks ⟨cs, pc⟩ t).wI →
          (g'.lks t').rI = (BG.lks ⟨cs, pc⟩ t).rI →
          (g'.lks t').rank + g'.rankL < (BG.lks ⟨cs, pc⟩ t).rank + BG.rankL ⟨cs, pc⟩ → g'.pc.OKL s.r.reg t' →
          BLInv ⟨⟨s.r.reg, s.r.lm, s.r.li, s.r.thr.set i t', s.r.log⟩, s.gs.set i g', failed⟩ ∧
          BSt.rankL ⟨⟨s.r.reg, s.r.lm, s.r.li, s.r.thr.set i t', s.r.log⟩, s.gs.set i g', failed⟩ < s.rankL := by
        intro g' t' failed a1 a2 a3 a4 hrk hok
        exact h.one hg ht (h.lk.move hlks rfl (by rw [a1]; rfl) (by rw [a2]; rfl) (by rw [a3]; rfl) (by rw [a4]; rfl))
          (fun _ h => h) hrk hok
      have failI : ∀ cs' c, t = .idle [] → BG.lks ⟨cs, pc⟩ t = t → 400 * cs'.length < BG.rankL ⟨cs, pc⟩ →
          BLInv (s.fail i cs' c) ∧ (s.fail i cs' c).rankL < s.rankL := by
        rintro cs' c rfl hl hrk
        have := stay ⟨cs', .rest⟩ (.idle []) (s.failed ++ [c]) (by rw [hl]; rfl) (by rw [hl]; rfl) (by rw [hl]; rfl)
          (by rw [hl]; rfl) (by rw [hl]; exact Nat.add_lt_add_left hrk _) trivial
        rw [set_same ht] at this
        exact this
      have madeI : ∀ cs' c o, t = .idle [] → BG.lks ⟨cs, pc⟩ t = t → 400 * cs'.length + 100 < BG.rankL ⟨cs, pc⟩ →
          BLInv (s.made i cs' c o) ∧ (s.made i cs' c o).rankL < s.rankL := by
        rintro cs' c o rfl hl hrk
        cases o with
        | none => exact failI cs' c rfl hl (by omega)
        | some m =>
          refine stay ⟨cs', .rest⟩ (.idle [m]) s.failed (by rw [hl]; rfl) (by rw [hl]; rfl) (by rw [hl]; rfl)
            (by rw [hl]; rfl) ?_ trivial
          rw [hl]
          show 100 * 1 + (400 * cs'.length + 0) < 100 * 0 + _
          omega
      have goI : ∀ cs' pc', t = .idle [] → BG.lks ⟨cs, pc⟩ t = t → BG.lks ⟨cs', pc'⟩ t = t →
          BG.rankL ⟨cs', pc'⟩ < BG.rankL ⟨cs, pc⟩ → pc'.OKL s.r.reg t →
          BLInv (s.go i cs' pc') ∧ (s.go i cs' pc').rankL < s.rankL := by
        rintro cs' pc' rfl hl hl' hrk hok
        have := stay ⟨cs', pc'⟩ (.idle []) s.failed (by rw [hl, hl']) (by rw [hl, hl']) (by rw [hl, hl'])
          (by rw [hl, hl']) (by rw [hl, hl']; omega) hok
        rw [set_same ht] at this
        exact this
      cases pc with
      | rest =>
        by_cases hi : t = .idle []
        · subst hi
          dsimp only at hs
          cases cs with
          | nil => cases hs
          | cons c cs =>
            dsimp only at hs
            split at hs
            · obtain rfl := Option.some.inj hs
              exact failI _ _ rfl rfl (by simp [BG.rankL, BPc.rankL])
            · obtain rfl := Option.some.inj hs
              exact madeI _ _ _ rfl rfl (by simp [BG.rankL, BPc.rankL]; omega)
            · split at hs
              · obtain rfl := Option.some.inj hs
                exact failI _ _ rfl rfl (by simp [BG.rankL, BPc.rankL])
              · obtain rfl := Option.some.inj hs
                exact goI _ _ rfl rfl rfl (by simp [BG.rankL, BPc.rankL]; omega) rfl
        · have hs' : (rstep s.r i).map (fun r => { s with r := r }) = some s' := by
            cases t with
            | idle ms =>
              cases ms with
              | nil => exact absurd rfl hi
              | cons m ms => exact hs
            | busy m pc ms => exact hs
          obtain ⟨r', hr, rfl⟩ := Option.map_eq_some_iff.1 hs'
          obtain ⟨t', e1, e2, _⟩ := rstep_local ht hr (rem := []) (thr := s.lks.thr) (by rw [app_nil]; exact hlks)
          rw [app_nil] at e2
          obtain ⟨hk, hk1⟩ := rstep_facts (s := s.lks) h.lk e2
          have hk2 := sum_set (f := RTh.rank) hlks t'
          have := h.one (g' := ⟨cs, .rest⟩) (t' := t') (reg := r'.reg) (lm := r'.lm) (li := r'.li) (log := r'.log)
            (failed := s.failed) hg ht hk (rstep_mono hr)
            (by
              unfold RSt.rank at hk1
              dsimp only at hk1
              show t'.rank + _ < _
              omega) trivial
          rw [set_same hg, ← e1] at this
          exact this
      | look a =>
        have hpc : t = .idle [] := hpc
        subst hpc
        dsimp only at hs
        split at hs
        · cases hs
        · obtain rfl := Option.some.inj hs
          by_cases hh : s.r.reg.hasIndom a.dom = true
          · rw [if_pos hh]; exact goI _ _ rfl rfl rfl (by simp [BG.rankL, BPc.rankL]) ⟨rfl, hh⟩
          · rw [if_neg hh]; exact goI _ _ rfl rfl rfl (by simp [BG.rankL, BPc.rankL]) rfl
      | match1 a =>
        obtain ⟨rfl, hh⟩ := hpc
        dsimp only at hs
        split at hs
        · cases hs
        · rename_i d hd
          obtain rfl := Option.some.inj hs
          by_cases hm : d.matchInstances a.ins = true
          · rw [if_pos hm]; exact goI _ _ rfl rfl rfl (by simp [BG.rankL, BPc.rankL]) ⟨rfl, hh⟩
          · rw [if_neg hm]; exact failI _ _ rfl rfl (by simp [BG.rankL, BPc.rankL])
      | match2 a =>
        obtain ⟨rfl, hh⟩ := hpc
        dsimp only at hs
        split at hs
        · cases hs
        · obtain rfl := Option.some.inj hs
          exact madeI _ _ _ rfl rfl (by simp [BG.rankL, BPc.rankL])
      | byName a =>
        have hpc : t = .idle [] := hpc
        subst hpc
        dsimp only at hs
        split at hs
        · cases hs
        · split at hs
          · obtain rfl := Option.some.inj hs
            exact failI _ _ rfl rfl (by simp [BG.rankL, BPc.rankL])
          · split at hs
            · obtain rfl := Option.some.inj hs
              exact failI _ _ rfl rfl (by simp [BG.rankL, BPc.rankL])
            · obtain rfl := Option.some.inj hs
              exact goI _ _ rfl rfl rfl (by simp [BG.rankL, BPc.rankL]) rfl
      | addI a d =>
        have hpc : t = .idle [] := hpc
        subst hpc
        dsimp only at hs
        split at hs
        · cases hs
        · obtain rfl := Option.some.inj hs
          by_cases hm : s.r.reg.hasIndom d.name = true
          · rw [if_pos hm]; exact failI _ _ rfl rfl (by simp [BG.rankL, BPc.rankL])
          · rw [if_neg hm]; exact goI _ _ rfl rfl rfl (by simp [BG.rankL, BPc.rankL]) rfl
      | lockI a d =>
        have hpc : t = .idle [] := hpc
        subst hpc
        dsimp only at hs
        split at hs
        · cases hs
        · rename_i hc
          simp only [Bool.or_eq_true, decide_eq_true_eq, not_or, Bool.not_eq_true, ne_eq, not_not] at hc
          obtain rfl := Option.some.inj hs
          have := h.one (g' := ⟨cs, .mappedI a d⟩) (t' := .idle []) (reg := s.r.reg) (lm := s.r.lm) (li := ⟨true, 0⟩)
            (log := s.r.log) (failed := s.failed) hg ht
            (h.lk.move hlks rfl rfl rfl (by rw [show s.lks.li.writer = false from hc.1]; rfl)
              (by rw [show s.lks.li.readers = 0 from hc.2]; rfl))
            (fun _ h => h) (by simp [BG.lks, BG.rankL, BPc.rankL, RTh.rank, RPc.rank]; omega) rfl
          rw [set_same ht] at this
          exact this
      | mappedI a d =>
        have hpc : t = .idle [] := hpc
        subst hpc
        dsimp only at hs
        obtain rfl := Option.some.inj hs
        have hlen := bodyI_length d
        by_cases hm : s.r.reg.mapped = true
        · rw [if_pos hm]
          have := stay ⟨cs, .failI a⟩ (.idle []) s.failed rfl rfl rfl rfl
            (by simp [BG.lks, BG.rankL, BPc.rankL, RTh.rank, RPc.rank]) rfl
          rw [set_same ht] at this
          exact this
        · rw [if_neg hm]
          have := stay ⟨cs, .csI a d (bodyI d) none⟩ (.idle []) s.failed rfl rfl rfl rfl
            (by simp [BG.lks, BG.rankL, BPc.rankL, RTh.rank, RPc.rank]; omega) rfl
          rw [set_same ht] at this
          exact this
      | failI a =>
        have hpc : t = .idle [] := hpc
        subst hpc
        dsimp only at hs
        obtain rfl := Option.some.inj hs
        have := h.one (g' := ⟨cs, .rest⟩) (t' := .idle []) (reg := s.r.reg) (lm := s.r.lm) (li := ⟨false, s.r.li.readers⟩)
          (log := s.r.log) (failed := s.failed ++ [a.call]) hg ht
          (h.lk.move hlks rfl rfl rfl (by rw [hw hlks rfl]; rfl) rfl)
          (fun _ h => h) (by simp [BG.lks, BG.rankL, BPc.rankL, RTh.rank, RPc.rank]; omega) trivial
        rw [set_same ht] at this
        exact this
      | csI a d ops x =>
        have hpc : t = .idle [] := hpc
        subst hpc
        dsimp only at hs
        cases hc : csStep s.r.reg ops x with
        | some p =>
          obtain ⟨reg', ops', x'⟩ := p
          rw [hc] at hs
          obtain rfl := Option.some.inj hs
          obtain ⟨k1, k2, k3⟩ := csStep_rank hc
          have := h.one (g' := ⟨cs, .csI a d ops' x'⟩) (t' := .idle []) (reg := reg') (lm := s.r.lm) (li := s.r.li)
            (log := s.r.log) (failed := s.failed) hg ht (h.lk.move hlks rfl rfl rfl rfl rfl) (csStep_mono hc)
            (by simp only [BG.lks, BG.rankL, BPc.rankL, RTh.rank, RPc.rank]; omega) rfl
          rw [set_same ht] at this
          exact this
        | none =>
          rw [hc] at hs
          obtain rfl := Option.some.inj hs
          obtain rfl := csStep_nil hc
          have hw := hw hlks rfl
          cases hm : a.inst d with
          | none =>
            have := h.one (g' := ⟨cs, .rest⟩) (t' := .idle []) (reg := s.r.reg) (lm := s.r.lm)
              (li := ⟨false, s.r.li.readers⟩) (log := s.r.log) (failed := s.failed ++ [a.call]) hg ht
              (h.lk.move hlks rfl rfl rfl (by rw [hw]; rfl) rfl)
              (fun _ h => h) (by simp [BG.lks, BG.rankL, BPc.rankL, RTh.rank]; omega) trivial
            rw [set_same ht] at this
            exact this
          | some m =>
            exact h.one (g' := ⟨cs, .rest⟩) (t' := .idle [m]) (reg := s.r.reg) (lm := s.r.lm)
              (li := ⟨false, s.r.li.readers⟩) (log := s.r.log) (failed := s.failed) hg ht
              (h.lk.move hlks rfl rfl rfl (by rw [hw]; rfl) rfl)
              (fun _ h => h) (by simp [BG.lks, BG.rankL, BPc.rankL, RTh.rank]; omega) trivial

theorem BLInv.reach {s s' : BSt} (h : BLInv s) (hr : BReach parse s s') : BLInv s' := by
  induction hr with
  | refl => exact h
  | tail _ hs ih => exact (ih.step hs).1

theorem BLInv.no_deadlock {s : BSt} (h : BLInv s) (hst : ∀ s', ¬ BStep parse s s') : s.finished := by
  have hno : ∀ i, bstep parse s i = none := by
    intro i
    cases hb : bstep parse s i with
    | none => rfl
    | some s' => exact absurd ⟨i, hb⟩ (hst s')
  have hboth : ∀ {i : Nat} {t : RTh}, s.r.thr[i]? = some t → ∃ g, s.gs[i]? = some g := by
    intro i t hi
    have := (List.getElem?_eq_some_iff.1 hi).1
    rw [← h.len] at this
    exact ⟨_, List.getElem?_eq_getElem this⟩
  -- in `AddMetric`, it is blocked there
  have hrest : ∀ (i : Nat) cs t, s.gs[i]? = some ⟨cs, .rest⟩ → s.r.thr[i]? = some t → rstep s.r i = none := by
    intro i cs t hg ht
    by_cases hi : t = .idle []
    · subst hi
      unfold rstep; rw [ht]
    · have hb := hno i
      unfold bstep at hb
      rw [hg, ht] at hb
      cases hr : rstep s.r i with
      | none => rfl
      | some r' =>
        rw [hr] at hb
        cases t with
        | idle ms =>
          cases ms with
          | nil => exact absurd rfl hi
          | cons m ms => cases hb
        | busy m pc ms => cases hb
  -- nobody has a lock
  have hlock : ∀ f : RTh → Bool, (∀ t, f t = true → t.wM = true ∨ t.rM = true ∨ t.wI = true ∨ t.rI = true) →
      (f (.idle []) = false) → s.lks.thr.countP f = 0 := by
    intro f hf hidle
    rw [List.countP_eq_zero]
    intro t ht hft
    obtain ⟨i, hi⟩ := List.mem_iff_getElem?.1 ht
    cases h3 : s.r.thr[i]? with
    | none =>
      rw [show s.lks.thr[i]? = none from by unfold BSt.lks; rw [List.getElem?_zipWith, h3]; cases s.gs[i]? <;> rfl] at hi
      cases hi
    | some u =>
      obtain ⟨g, hg⟩ := hboth h3
      rw [lks_get hg h3] at hi
      obtain rfl := Option.some.inj hi
      have hb := hno i
      have hr := hrest i g.calls u
      have hpc := h.gs i g u hg h3
      obtain ⟨cs, pc⟩ := g
      unfold bstep at hb
      rw [hg, h3] at hb
      cases pc with
      | rest =>
        obtain ⟨s', hs'⟩ := holder_steps h3 (hf u hft)
        rw [hr hg h3] at hs'; cases hs'
      | mappedI a d => cases hb
      | csI a d ops x => dsimp only at hb; split at hb <;> cases hb
      | failI a => cases hb
      | match1 a => obtain ⟨rfl, _⟩ := hpc; exact absurd (hft.symm.trans hidle) (by decide)
      | match2 a => obtain ⟨rfl, _⟩ := hpc; exact absurd (hft.symm.trans hidle) (by decide)
      | _ =>
        have hpc : u = .idle [] := hpc
        subst hpc
        exact absurd (hft.symm.trans hidle) (by decide)
  have hwM : s.r.lm.writer = false := by
    have := h.lk.1.writer
    rw [hlock _ (fun _ h => .inl h) rfl] at this
    cases hh : s.r.lm.writer with
    | false => rfl
    | true => rw [show s.lks.lm.writer = true from hh] at this; cases this
  have hwI : s.r.li.writer = false := by
    have := h.lk.2.writer
    rw [hlock _ (fun _ h => .inr (.inr (.inl h))) rfl] at this
    cases hh : s.r.li.writer with
    | false => rfl
    | true => rw [show s.lks.li.writer = true from hh] at this; cases this
  have hrM : s.r.lm.readers = 0 := by
    have := h.lk.1.readers
    rw [hlock _ (fun _ h => .inr (.inl h)) rfl] at this
    exact this
  have hrI : s.r.li.readers = 0 := by
    have := h.lk.2.readers
    rw [hlock _ (fun _ h => .inr (.inr (.inr h))) rfl] at this
    exact this
  have hfound : ∀ n, s.r.reg.hasIndom n = true → ∃ d, s.r.reg.indomNamed n = some d := by
    intro n hn
    obtain ⟨x, hx, e⟩ := hasIndom_iff.1 hn
    unfold Reg.indomNamed
    cases hf : s.r.reg.indoms.find? (fun d => d.name = n) with
    | some d => exact ⟨d, rfl⟩
    | none =>
      have : ∀ x ∈ s.r.reg.indoms, x.name ≠ n := by simpa using hf
      exact absurd e (this x hx)
  have hall : ∀ (i : Nat) g t, s.gs[i]? = some g → s.r.thr[i]? = some t → t = .idle [] ∧ g.calls = [] ∧ g.pc = .rest := by
    intro i g t hg ht
    have hpc := h.gs i g t hg ht
    have hr := hrest i g.calls t
    have hb := hno i
    unfold bstep at hb
    rw [hg, ht] at hb
    obtain ⟨cs, pc⟩ := g
    cases pc with
    | rest =>
      have hr := hr hg ht
      unfold rstep at hr
      rw [ht] at hr
      cases t with
      | idle ms =>
        cases ms with
        | cons m ms => cases hr
        | nil =>
          cases cs with
          | nil => exact ⟨rfl, rfl, rfl⟩
          | cons c cs =>
            exfalso
            dsimp only at hb
            split at hb
            · cases hb
            · cases hb
            · split at hb <;> cases hb
      | busy m pc ms =>
        exfalso
        cases pc <;> simp only [hwM, hrM, hwI, hrI] at hr <;> first | cases hr | (split at hr <;> cases hr)
    | look a => dsimp only at hb; rw [hwI] at hb; cases hb
    | match1 a =>
      obtain ⟨d, hd⟩ := hfound _ hpc.2
      dsimp only at hb; rw [hd] at hb; cases hb
    | match2 a =>
      obtain ⟨d, hd⟩ := hfound _ hpc.2
      dsimp only at hb; rw [hd] at hb; cases hb
    | byName a =>
      dsimp only at hb; rw [hwI, if_neg (by decide)] at hb
      split at hb
      · cases hb
      · split at hb <;> cases hb
    | addI a d => dsimp only at hb; rw [hwI] at hb; cases hb
    | lockI a d => dsimp only at hb; rw [hwI, hrI] at hb; cases hb
    | mappedI a d => cases hb
    | failI a => cases hb
    | csI a d ops x => dsimp only at hb; split at hb <;> cases hb
  refine ⟨fun t ht => ?_, fun g hg => ?_⟩
  · obtain ⟨i, hi⟩ := List.mem_iff_getElem?.1 ht
    obtain ⟨g, hg⟩ := hboth hi
    exact (hall i g t hg hi).1
  · obtain ⟨i, hi⟩ := List.mem_iff_getElem?.1 hg
    have hlt : i < s.r.thr.length := by rw [← h.len]; exact (List.getElem?_eq_some_iff.1 hi).1
    exact (hall i g _ hi (List.getElem?_eq_getElem hlt)).2

theorem breach_finite (r : Reg) (progs : List (List BCall)) :
    ¬ ∃ f : Nat → BSt, f 0 = binit r progs ∧ ∀ n, BStep parse (f n) (f (n + 1)) := by
  rintro ⟨f, h0, hf⟩
  have h1 : ∀ n, BLInv (f n) := by
    intro n
    induction n with
    | zero => rw [h0]; exact blinv_init r progs
    | succ n ih => exact (ih.step (hf n)).1
  have h2 : ∀ n, (f n).rankL + n ≤ (f 0).rankL := by
    intro n
    induction n with
    | zero => simp
    | succ n ih =>
      have := ((h1 n).step (hf n)).2
      omega
  have := h2 ((f 0).rankL + 1)
  omega

end

end Speed
