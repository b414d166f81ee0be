import Verif.PropsRegConc
/-
C74: data races of concurrent registrations, in the interleaving semantics of `RegConc`.
-/
namespace Speed

/-- The fields of a registry. -/
inductive RLoc where
  | metrics | indoms | ctr (c : Ctr) | version2 | mapped
  deriving DecidableEq, Repr

/-- The next access of a critical section, and whether it writes. -/
def csAcc : List Mic → Option Nat → Option (RLoc × Bool)
  | [], _ => none
  | .putM _ :: _, _ => some (.metrics, true)
  | .putI _ :: _, _ => some (.indoms, true)
  | .add c _ :: _, none => some (.ctr c, false)
  | .add c _ :: _, some _ => some (.ctr c, true)
  | .flag _ :: _, none => some (.version2, false)
  | .flag b :: _, some x => if x = 0 ∧ b = true then some (.version2, true) else none

/-- The next access of a goroutine to a field of the registry. -/
def RTh.acc : RTh → Option (RLoc × Bool)
  | .busy _ .start _ => some (.mapped, false)
  | .busy _ .hasM1 _ => some (.metrics, false)
  | .busy _ (.hasI1 _ _) _ => some (.indoms, false)
  | .busy _ (.mappedI _) _ => some (.mapped, false)
  | .busy _ (.csI _ ops x) _ => csAcc ops x
  | .busy _ (.csM ops x) _ => csAcc ops x
  | _ => none

/-- Two goroutines are about to access the same field, and one of them writes. -/
def RRaces (s : RSt) (l : RLoc) : Prop :=
  ∃ (i j : Nat) (t t' : RTh) (b b' : Bool), i ≠ j ∧ s.thr[i]? = some t ∧ s.thr[j]? = some t' ∧
    t.acc = some (l, b) ∧ t'.acc = some (l, b') ∧ (b = true ∨ b' = true)

/-! ### Invariant -/

def KPc (r0 : Reg) (m : Metric) : RPc → Prop
  | .hasI0 d again => m.indom = some d ∧ (again = true → r0.hasIndom d.name = false)
  | .hasI1 d again => m.indom = some d ∧ (again = true → r0.hasIndom d.name = false)
  | .hasI2 d _ b => m.indom = some d ∧ (b = false → r0.hasIndom d.name = false)
  | .lockI d => m.indom = some d ∧ r0.hasIndom d.name = false
  | .mappedI d => m.indom = some d ∧ r0.hasIndom d.name = false
  | .csI d ops _ => (m.indom = some d ∧ r0.hasIndom d.name = false) ∧ ∀ o ∈ ops, o ∈ bodyI d
  | .csM ops _ => ∀ o ∈ ops, o ∈ bodyM m
  | _ => True

def KTh (r0 : Reg) (A : List Metric) : RTh → Prop
  | .idle ms => ∀ m ∈ ms, m ∈ A
  | .busy m pc ms => (m ∈ A ∧ ∀ x ∈ ms, x ∈ A) ∧ KPc r0 m pc

structure KInv (r0 : Reg) (A : List Metric) (s : RSt) : Prop where
  exM : s.lm.writer = true → s.lm.readers = 0
  exI : s.li.writer = true → s.li.readers = 0
  mono : ∀ n, r0.hasIndom n = true → s.reg.hasIndom n = true
  thr : ∀ (i : Nat) t, s.thr[i]? = some t → KTh r0 A t

theorem KInv.put {r0 A s s'} (h : KInv r0 A s) {i : Nat} {t' : RTh} (hth : s'.thr = s.thr.set i t') (ht : KTh r0 A t')
    (h1 : s'.lm.writer = true → s'.lm.readers = 0) (h2 : s'.li.writer = true → s'.li.readers = 0)
    (h3 : ∀ n, r0.hasIndom n = true → s'.reg.hasIndom n = true) : KInv r0 A s' := by
  refine ⟨h1, h2, h3, fun j t hj => ?_⟩
  rw [hth] at hj
  rcases List.mem_or_eq_of_mem_set (List.mem_of_getElem? hj) with hm | rfl
  · obtain ⟨k, hk⟩ := List.getElem?_of_mem hm
    exact h.thr k t hk
  · exact ht

theorem hasIndom_putIndom {r : Reg} {d : Indom} {n : Str} (h : r.hasIndom n = true) : (r.putIndom d).hasIndom n = true := by
  unfold Reg.hasIndom at *
  unfold Reg.putIndom
  rw [List.any_eq_true] at h ⊢
  obtain ⟨x, hx, hn⟩ := h
  by_cases hd : x.name = d.name
  · refine ⟨d, by simp, ?_⟩
    rw [← hd]; exact hn
  · exact ⟨x, by simp [hx, hd], hn⟩

theorem csStep_facts {r r' : Reg} {ops ops' : List Mic} {x x' : Option Nat} (h : csStep r ops x = some (r', ops', x')) :
    (∀ o ∈ ops', o ∈ ops) ∧ ∀ n, r.hasIndom n = true → r'.hasIndom n = true := by
  unfold csStep at h
  split at h
  · cases h
  · cases h; exact ⟨fun o ho => by simp [ho], fun n h => h⟩
  · cases h; exact ⟨fun o ho => by simp [ho], fun n h => hasIndom_putIndom h⟩
  · cases h; exact ⟨fun o ho => ho, fun n h => h⟩
  · rename_i c n k x
    cases h; exact ⟨fun o ho => by simp [ho], fun n h => by cases c <;> exact h⟩
  · cases h; exact ⟨fun o ho => ho, fun n h => h⟩
  · cases h
    refine ⟨fun o ho => by simp [ho], fun n h => ?_⟩
    split <;> exact h

theorem KInv.step {r0 A s s'} (h : KInv r0 A s) (hs : RStep s s') : KInv r0 A s' := by
  obtain ⟨i, hs⟩ := hs
  unfold rstep at hs
  split at hs
  · cases hs
  · cases hs
  · rename_i m ms hi
    cases hs
    have hk := h.thr i _ hi
    exact h.put rfl ⟨⟨hk m (by simp), fun x hx => hk x (by simp [hx])⟩, trivial⟩ h.exM h.exI h.mono
  · rename_i m pc ms hi
    obtain ⟨hA, hp⟩ := h.thr i _ hi
    split at hs
    · cases hs
      split
      · exact h.put rfl hA.2 h.exM h.exI h.mono
      · exact h.put rfl ⟨hA, trivial⟩ h.exM h.exI h.mono
    · split at hs
      · cases hs
      · rename_i hw
        cases hs
        exact h.put rfl ⟨hA, trivial⟩ (fun hx => absurd hx hw) h.exI h.mono
    · cases hs
      exact h.put rfl ⟨hA, trivial⟩ h.exM h.exI h.mono
    · cases hs
      have hx : s.lm.runlock.writer = true → s.lm.runlock.readers = 0 := fun hx => by
        have := h.exM hx
        simp only [RW.runlock, this]
      split
      · exact h.put rfl hA.2 hx h.exI h.mono
      · split
        · exact h.put rfl ⟨hA, trivial⟩ hx h.exI h.mono
        · rename_i d hd
          exact h.put rfl ⟨hA, hd, fun e => by cases e⟩ hx h.exI h.mono
    · split at hs
      · cases hs
      · rename_i hw
        cases hs
        exact h.put rfl ⟨hA, hp⟩ h.exM (fun hx => absurd hx hw) h.mono
    · cases hs
      refine h.put rfl ⟨hA, hp.1, fun hb => ?_⟩ h.exM h.exI h.mono
      rename_i d again
      cases hr : r0.hasIndom d.name with
      | false => rfl
      | true => rw [h.mono _ hr] at hb; cases hb
    · cases hs
      have hx : s.li.runlock.writer = true → s.li.runlock.readers = 0 := fun hx => by
        have := h.exI hx
        simp only [RW.runlock, this]
      split
      · exact h.put rfl ⟨hA, trivial⟩ h.exM hx h.mono
      · exact h.put rfl ⟨hA, hp.1, fun _ => hp.2 rfl⟩ h.exM hx h.mono
      · exact h.put rfl hA.2 h.exM hx h.mono
      · exact h.put rfl ⟨hA, hp.1, hp.2 rfl⟩ h.exM hx h.mono
    · split at hs
      · cases hs
      · cases hs
        exact h.put rfl ⟨hA, hp⟩ h.exM (fun _ => rfl) h.mono
    · cases hs
      split
      · exact h.put rfl ⟨hA, trivial⟩ h.exM h.exI h.mono
      · exact h.put rfl ⟨hA, hp, fun o ho => ho⟩ h.exM h.exI h.mono
    · cases hs
      exact h.put rfl hA.2 h.exM (fun hx => by cases hx) h.mono
    · split at hs
      · rename_i r ops' x' hc
        cases hs
        obtain ⟨k1, k2⟩ := csStep_facts hc
        exact h.put rfl ⟨hA, hp.1, fun o ho => hp.2 o (k1 o ho)⟩ h.exM h.exI fun n hn => k2 n (h.mono n hn)
      · cases hs
        exact h.put rfl ⟨hA, trivial⟩ h.exM (fun hx => by cases hx) h.mono
    · split at hs
      · cases hs
      · cases hs
        exact h.put rfl ⟨hA, fun o ho => ho⟩ (fun _ => rfl) h.exI h.mono
    · split at hs
      · rename_i r ops' x' hc
        cases hs
        obtain ⟨k1, k2⟩ := csStep_facts hc
        exact h.put rfl ⟨hA, fun o ho => hp o (k1 o ho)⟩ h.exM h.exI fun n hn => k2 n (h.mono n hn)
      · cases hs
        exact h.put rfl hA.2 (fun hx => by cases hx) h.exI h.mono

theorem kinv_reach {r : Reg} {progs : List (List Metric)} {s : RSt} (h : RReach (rinit r progs) s) :
    KInv r progs.flatten s ∧ LInv s := by
  induction h with
  | refl =>
    refine ⟨⟨fun h => (by cases h), fun h => (by cases h), fun _ h => h, fun i t ht => ?_⟩, linv_init r progs⟩
    obtain ⟨ms, hms, rfl⟩ := List.mem_map.1 (List.mem_of_getElem? ht)
    exact fun m hm => List.mem_flatten.2 ⟨ms, hms, hm⟩
  | tail h hs ih =>
    obtain ⟨i, hi⟩ := hs
    exact ⟨ih.1.step ⟨i, hi⟩, (rstep_facts ih.2 hi).1⟩

/-- A goroutine that holds a lock for writing keeps others out of the sections that need it. -/
theorem RLockOK.excl {l : RW} {thr : List RTh} {w r : RTh → Bool} (h : RLockOK l thr w r) (hx : l.writer = true → l.readers = 0)
    (h0 : w (.idle []) = false) {i j : Nat} {t t' : RTh} (hij : i ≠ j) (hi : thr[i]? = some t) (hj : thr[j]? = some t') (hw : w t = true)
    (hw' : w t' = true ∨ r t' = true) : False := by
  rcases hw' with hw' | hw'
  · exact hij (h.alone h0 hi hj hw hw')
  · have h1 : 0 < thr.countP w := List.countP_pos_iff.2 ⟨t, List.mem_of_getElem? hi, hw⟩
    have h2 : 0 < thr.countP r := List.countP_pos_iff.2 ⟨t', List.mem_of_getElem? hj, hw'⟩
    rw [← h.writer] at h1
    rw [← h.readers] at h2
    have : l.writer = true := by
      cases hb : l.writer with
      | true => rfl
      | false => rw [hb] at h1; cases h1
    have := hx this
    omega

/-! ### Which statements access which field -/

/-- `o` accesses `l`. -/
def Mic.On (l : RLoc) (b : Bool) (o : Mic) : Prop :=
  match l with
  | .metrics => ∃ m, o = .putM m
  | .indoms => ∃ d, o = .putI d
  | .ctr c => ∃ n, o = .add c n
  | .version2 => ∃ f, o = .flag f ∧ (b = true → f = true)
  | .mapped => False

theorem csAcc_loc {ops : List Mic} {x : Option Nat} {l : RLoc} {b : Bool} (h : csAcc ops x = some (l, b)) : ∃ o ∈ ops, o.On l b := by
  match ops, x, h with
  | .putM m :: _, _, h => cases h; exact ⟨_, List.mem_cons_self, m, rfl⟩
  | .putI d :: _, _, h => cases h; exact ⟨_, List.mem_cons_self, d, rfl⟩
  | .add c n :: _, none, h => cases h; exact ⟨_, List.mem_cons_self, n, rfl⟩
  | .add c n :: _, some _, h => cases h; exact ⟨_, List.mem_cons_self, n, rfl⟩
  | .flag f :: _, none, h => cases h; exact ⟨_, List.mem_cons_self, f, rfl, fun h => by cases h⟩
  | .flag f :: _, some x, h =>
    have h : (if x = 0 ∧ f = true then some (RLoc.version2, true) else none) = some (l, b) := h
    split at h
    · rename_i hc; cases h; exact ⟨_, List.mem_cons_self, f, rfl, fun _ => hc.2⟩
    · cases h

theorem mem_bodyM {m : Metric} {o : Mic} (h : o ∈ bodyM m) : o = .putM m ∨ (o = .flag true ∧ m.desc.name.length > MaxV1NameLength) ∨
    (∃ n, o = .add .val n) ∨ ∃ n, o = .add .str n := by
  unfold bodyM textMic at h
  simp only [List.mem_append, List.mem_singleton] at h
  rcases h with ((((rfl | h) | rfl) | h) | h) | h
  · exact .inl rfl
  · split at h
    · rename_i hc; exact .inr (.inl ⟨List.mem_singleton.1 h, hc⟩)
    · cases h
  · exact .inr (.inr (.inl ⟨_, rfl⟩))
  all_goals
    split at h
    · exact .inr (.inr (.inr ⟨_, List.mem_singleton.1 h⟩))
    · cases h

theorem mem_bodyI {d : Indom} {o : Mic} (h : o ∈ bodyI d) : o = .putI d ∨ (∃ n, o = .add .inst n) ∨
    o = .flag (d.insts.any (fun i => decide (i.name.length > MaxV1NameLength))) ∨
    ((∃ n, o = .add .str n) ∧ (d.short ≠ [] ∨ d.long ≠ [])) := by
  unfold bodyI textMic at h
  simp only [List.mem_append, List.mem_cons, List.not_mem_nil, or_false] at h
  rcases h with ((rfl | rfl | rfl) | h) | h
  · exact .inl rfl
  · exact .inr (.inl ⟨_, rfl⟩)
  · exact .inr (.inr (.inl rfl))
  · split at h
    · rename_i hc; exact .inr (.inr (.inr ⟨⟨_, List.mem_singleton.1 h⟩, .inl hc⟩))
    · cases h
  · split at h
    · rename_i hc; exact .inr (.inr (.inr ⟨⟨_, List.mem_singleton.1 h⟩, .inr hc⟩))
    · cases h

/-- The accesses of the critical section of `addMetric`. -/
theorem accM {r0 A s m ops x ms} {i : Nat} (h : KInv r0 A s) (hi : s.thr[i]? = some (.busy m (.csM ops x) ms)) {l : RLoc} {b : Bool}
    (ha : csAcc ops x = some (l, b)) : m ∈ A ∧ (l = .metrics ∨ l = .ctr .val ∨ l = .ctr .str ∨
      (l = .version2 ∧ m.desc.name.length > MaxV1NameLength)) := by
  obtain ⟨hA, hp⟩ := h.thr i _ hi
  refine ⟨hA.1, ?_⟩
  obtain ⟨o, ho, hx⟩ := csAcc_loc ha
  rcases mem_bodyM (hp o ho) with rfl | ⟨rfl, hn⟩ | ⟨n, rfl⟩ | ⟨n, rfl⟩ <;> cases l <;> simp_all [Mic.On]

/-- The accesses of the critical section of `AddInstanceDomain`. -/
theorem accI {r0 A s m d ops x ms} {i : Nat} (h : KInv r0 A s) (hi : s.thr[i]? = some (.busy m (.csI d ops x) ms)) {l : RLoc} {b : Bool}
    (ha : csAcc ops x = some (l, b)) : m ∈ A ∧ m.indom = some d ∧ r0.hasIndom d.name = false ∧
      (l = .indoms ∨ l = .ctr .inst ∨ (l = .ctr .str ∧ (d.short ≠ [] ∨ d.long ≠ [])) ∨
      (l = .version2 ∧ (b = true → ∃ i ∈ d.insts, i.name.length > MaxV1NameLength))) := by
  obtain ⟨hA, hp, hp'⟩ := h.thr i _ hi
  refine ⟨hA.1, hp.1, hp.2, ?_⟩
  obtain ⟨o, ho, hx⟩ := csAcc_loc ha
  rcases mem_bodyI (hp' o ho) with rfl | ⟨n, rfl⟩ | rfl | ⟨⟨n, rfl⟩, hn⟩ <;> cases l <;> simp_all [Mic.On]

/-- C74, where races are: only between a goroutine in `AddInstanceDomain` and one in `addMetric`, which hold different
mutexes, and only on `stringcount`, when the new domain has a description, or `version2`, when the new metric has a
long name (or races with `AddInstanceDomain`'s write). -/
theorem C74_where_partial {r : Reg} {progs : List (List Metric)} {s : RSt} (h : RReach (rinit r progs) s) {l : RLoc} (hr : RRaces s l) :
    ∃ m ∈ progs.flatten, ∃ m' ∈ progs.flatten, ∃ d, m'.indom = some d ∧ r.hasIndom d.name = false ∧
      ((l = .ctr .str ∧ (d.short ≠ [] ∨ d.long ≠ [])) ∨ (l = .version2 ∧ m.desc.name.length > MaxV1NameLength)) := by
  obtain ⟨hk, hl⟩ := kinv_reach h
  -- one side: the access, with the lock that is held
  have side : ∀ (i : Nat) (t : RTh) (b : Bool), s.thr[i]? = some t → t.acc = some (l, b) →
      (l = .mapped ∧ b = false) ∨
      (l = .metrics ∧ b = false ∧ t.rM = true) ∨ (l = .indoms ∧ b = false ∧ t.rI = true) ∨
      (t.wM = true ∧ (∃ m ∈ progs.flatten, l = .metrics ∨ l = .ctr .val ∨ l = .ctr .str ∨ (l = .version2 ∧ m.desc.name.length > MaxV1NameLength))) ∨
      (t.wI = true ∧ (∃ m ∈ progs.flatten, ∃ d, m.indom = some d ∧ r.hasIndom d.name = false ∧
        (l = .indoms ∨ l = .ctr .inst ∨ (l = .ctr .str ∧ (d.short ≠ [] ∨ d.long ≠ [])) ∨ l = .version2))) := by
    intro i t b hi ha
    cases t with
    | idle ms => cases ha
    | busy m pc ms =>
      cases pc with
      | start => cases ha; exact .inl ⟨rfl, rfl⟩
      | hasM1 => cases ha; exact .inr (.inl ⟨rfl, rfl, rfl⟩)
      | hasI1 d again => cases ha; exact .inr (.inr (.inl ⟨rfl, rfl, rfl⟩))
      | mappedI d => cases ha; exact .inl ⟨rfl, rfl⟩
      | csM ops x =>
        obtain ⟨h1, h2⟩ := accM hk hi ha
        exact .inr (.inr (.inr (.inl ⟨rfl, m, h1, h2⟩)))
      | csI d ops x =>
        obtain ⟨h1, h2, h3, h4⟩ := accI hk hi ha
        refine .inr (.inr (.inr (.inr ⟨rfl, m, h1, d, h2, h3, ?_⟩)))
        rcases h4 with h | h | h | h
        · exact .inl h
        · exact .inr (.inl h)
        · exact .inr (.inr (.inl h))
        · exact .inr (.inr (.inr h.1))
      | _ => cases ha
  obtain ⟨i, j, t, t', b, b', hij, hi, hj, ha, ha', hw⟩ := hr
  have exM := fun {i j t t'} => hl.1.excl hk.exM rfl (i := i) (j := j) (t := t) (t' := t')
  have exI := fun {i j t t'} => hl.2.excl hk.exI rfl (i := i) (j := j) (t := t) (t' := t')
  rcases side i t b hi ha with ⟨e1, e2⟩ | ⟨e1, e2, e3⟩ | ⟨e1, e2, e3⟩ | ⟨e1, m, hm, e2⟩ | ⟨e1, m, hm, d, hd, hn, e2⟩ <;>
  rcases side j t' b' hj ha' with ⟨f1, f2⟩ | ⟨f1, f2, f3⟩ | ⟨f1, f2, f3⟩ | ⟨f1, m', hm', f2⟩ | ⟨f1, m', hm', d', hd', hn', f2⟩
  all_goals first
    | (subst e1; clear side exM exI; simp_all; done)
    | (subst f1; clear side exM exI; simp_all; done)
    | (exact (exM hij hi hj e1 (.inl f1)).elim)
    | (exact (exI hij hi hj e1 (.inl f1)).elim)
    | (exact (exM hij hi hj e1 (.inr f3)).elim)
    | (exact (exI hij hi hj e1 (.inr f3)).elim)
    | (exact (exM hij.symm hj hi f1 (.inr e3)).elim)
    | (exact (exI hij.symm hj hi f1 (.inr e3)).elim)
    | skip
  · refine ⟨m, hm, m', hm', d', hd', hn', ?_⟩
    rcases e2 with e2 | e2 | e2 | ⟨e2, e3⟩ <;> rcases f2 with f2 | f2 | ⟨f2, f3⟩ | f2 <;> subst e2 <;> first | (cases f2; done) | skip
    · exact .inl ⟨rfl, f3⟩
    · exact .inr ⟨rfl, e3⟩
  · refine ⟨m', hm', m, hm, d, hd, hn, ?_⟩
    rcases f2 with f2 | f2 | f2 | ⟨f2, f3⟩ <;> rcases e2 with e2 | e2 | ⟨e2, e3⟩ | e2 <;> subst f2 <;> first | (cases e2; done) | skip
    · exact .inl ⟨rfl, e3⟩
    · exact .inr ⟨rfl, f3⟩

/-- C74, the part that holds: no races if every domain that has to be added is without description and no metric name is
longer than 63 bytes; in particular if all domains are registered already. -/
theorem C74_partial {r : Reg} {progs : List (List Metric)}
    (hp : ∀ m ∈ progs.flatten, ∀ d, m.indom = some d → r.hasIndom d.name = true ∨
      (d.short = [] ∧ d.long = [] ∧ ∀ m' ∈ progs.flatten, m'.desc.name.length ≤ MaxV1NameLength))
    {s : RSt} (h : RReach (rinit r progs) s) (l : RLoc) : ¬ RRaces s l := by
  intro hr
  obtain ⟨m, hm, m', hm', d, hd, hn, hx⟩ := C74_where_partial h hr
  rcases hp m' hm' d hd with h1 | ⟨h1, h2, h3⟩
  · rw [hn] at h1; cases h1
  · rcases hx with ⟨_, hx⟩ | ⟨_, hx⟩
    · rcases hx with hx | hx
      · exact hx h1
      · exact hx h2
    · have := h3 m hm
      omega

/-! ### It is false -/

/-- Goroutine 0 registers a counter with a description, goroutine 1 a metric whose domain has one (`lostProgs`): both are about to access
`stringcount`, one to write it. -/
theorem C74_refuted_count : ∃ s, RReach (rinit Reg.empty lostProgs) s ∧ RRaces s (.ctr .str) := by
  obtain ⟨s, hs⟩ : ∃ s, rrun (rinit Reg.empty lostProgs) (List.replicate 18 1 ++ List.replicate 10 0) = some s :=
    Option.isSome_iff_exists.1 (by decide)
  have h : some s = _ := hs.symm
  refine ⟨s, reach_rrun hs, 0, 1, ?_⟩
  obtain rfl := Option.some.inj h
  exact ⟨_, _, _, _, by decide, rfl, rfl, rfl, rfl, by decide⟩

/-- A counter with a name of 64 bytes, and a metric with a new domain without description. -/
def longProgs : List (List Metric) :=
  [(newPCPCounter 1 5 (List.replicate 64 97) []).toList,
   ((newIndom 10 sD [sA] []).bind fun d => newPCPInstanceMetric 2 [(sA, .int32 7)] sS d Int32Type InstantSemantics OneUnit []).toList]

/-- One goroutine is about to set `version2`, the other to read it. -/
theorem C74_refuted_version : ∃ s, RReach (rinit Reg.empty longProgs) s ∧ RRaces s .version2 := by
  obtain ⟨s, hs⟩ : ∃ s, rrun (rinit Reg.empty longProgs) (List.replicate 16 1 ++ List.replicate 8 0) = some s :=
    Option.isSome_iff_exists.1 (by decide)
  have h : some s = _ := hs.symm
  refine ⟨s, reach_rrun hs, 0, 1, ?_⟩
  obtain rfl := Option.some.inj h
  exact ⟨_, _, true, false, by decide, rfl, rfl, rfl, rfl, by decide⟩

/-! ### Readers -/

/-- Methods that read the registry without registering; the client calls the first three for `Length` and `Start`. -/
inductive RdM where
  /-- `ValuesCount` (registry.go:105): no lock -/
  | values
  /-- `StringCount` (registry.go:108-114): `version2` and `stringcount` without lock -/
  | strings
  /-- `r.instanceDomains[indom]` in `addInstanceMetricByString` (registry.go:301-302): no lock -/
  | byString
  /-- `InstanceCount`, `InstanceDomainCount`, `HasInstanceDomain` (registry.go:82-95, 117-123): `indomlock.RLock` -/
  | instances
  /-- `MetricCount`, `HasMetric` (registry.go:98-103, 126-132): `metricslock.RLock` -/
  | metrics
  deriving DecidableEq, Repr

/-- The fields that the method reads. -/
def RdM.reads : RdM → List RLoc
  | .values => [.ctr .val]
  | .strings => [.version2, .ctr .str]
  | .byString => [.indoms]
  | .instances => [.indoms, .ctr .inst]
  | .metrics => [.metrics]

/-- The method can read in `s`: a method that locks cannot while a goroutine holds the lock for writing. -/
def RdM.can (s : RSt) : RdM → Prop
  | .instances => s.li.writer = false
  | .metrics => s.lm.writer = false
  | _ => True

/-- A goroutine is about to write a field that the method reads. -/
def RdRaces (s : RSt) (k : RdM) : Prop :=
  k.can s ∧ ∃ l ∈ k.reads, ∃ (i : Nat) (t : RTh), s.thr[i]? = some t ∧ t.acc = some (l, true)

theorem RLockOK.held {w r : RTh → Bool} {l : RW} {ts : List RTh} (h : RLockOK l ts w r) {i : Nat} {t : RTh} (hi : ts[i]? = some t)
    (hw : w t = true) : l.writer = true := by
  have h1 : 0 < ts.countP w := List.countP_pos_iff.2 ⟨t, List.mem_of_getElem? hi, hw⟩
  rw [← h.writer] at h1
  cases hb : l.writer with
  | true => rfl
  | false => rw [hb] at h1; cases h1

/-- C74, readers: the methods that take a lock never race with registrations. -/
theorem C74_readers_partial {r : Reg} {progs : List (List Metric)} {s : RSt} (h : RReach (rinit r progs) s) :
    ¬ RdRaces s .instances ∧ ¬ RdRaces s .metrics := by
  obtain ⟨hk, hl⟩ := kinv_reach h
  have key : ∀ (i : Nat) (t : RTh) (l : RLoc), s.thr[i]? = some t → t.acc = some (l, true) →
      (l = .metrics → t.wM = true) ∧ (l = .indoms ∨ l = .ctr .inst → t.wI = true) := by
    intro i t l hi ha
    cases t with
    | idle ms => cases ha
    | busy m pc ms =>
      cases pc with
      | csM ops x =>
        obtain ⟨h1, h2⟩ := accM hk hi ha
        refine ⟨fun _ => rfl, fun h => ?_⟩
        rcases h with rfl | rfl <;> simp at h2
      | csI d ops x =>
        obtain ⟨h1, h2, h3, h4⟩ := accI hk hi ha
        refine ⟨fun h => ?_, fun _ => rfl⟩
        subst h
        simp at h4
      | _ => cases ha
  constructor
  · rintro ⟨hc, l, hm, i, t, hi, ha⟩
    have hw := (key i t l hi ha).2 (by simpa [RdM.reads] using hm)
    have := hl.2.held hi hw
    rw [show s.li.writer = false from hc] at this
    cases this
  · rintro ⟨hc, l, hm, i, t, hi, ha⟩
    have hw := (key i t l hi ha).1 (by simpa [RdM.reads] using hm)
    have := hl.1.held hi hw
    rw [show s.lm.writer = false from hc] at this
    cases this

/-- The other three can race with one goroutine that registers. -/
theorem C74_refuted_readers : ∀ k ∈ [RdM.values, .strings, .byString], ∃ s, RReach (rinit Reg.empty lostProgs) s ∧ RdRaces s k := by
  have go : ∀ (n j : Nat) (l : RLoc) (k : RdM), l ∈ k.reads → (∀ s, k.can s) →
      ((rrun (rinit Reg.empty lostProgs) (List.replicate n j)).bind fun s => s.thr[j]?.bind RTh.acc) = some (l, true) →
      ∃ s, RReach (rinit Reg.empty lostProgs) s ∧ RdRaces s k := by
    intro n j l k hl hc h
    obtain ⟨s, hs, h⟩ := Option.bind_eq_some_iff.1 h
    obtain ⟨t, ht, h⟩ := Option.bind_eq_some_iff.1 h
    exact ⟨s, reach_rrun hs, hc s, l, hl, j, t, ht, h⟩
  intro k hk
  simp only [List.mem_cons, List.not_mem_nil, or_false] at hk
  rcases hk with rfl | rfl | rfl
  · exact go 8 0 (.ctr .val) _ (by decide) (fun _ => trivial) (by decide)
  · exact go 10 0 (.ctr .str) _ (by decide) (fun _ => trivial) (by decide)
  · exact go 13 1 .indoms _ (by decide) (fun _ => trivial) (by decide)

/-! ### Example -/

/-- Two goroutines, one with a metric on a new domain without description, the other with a counter with a description. -/
def apartProgs : List (List Metric) :=
  [(newPCPCounter 1 5 sC [sA]).toList,
   ((newIndom 10 sD [sA] []).bind fun d => newPCPInstanceMetric 2 [(sA, .int32 7)] sS d Int32Type InstantSemantics OneUnit []).toList]

example : apartProgs.map List.length = [1, 1] := by decide

example {s : RSt} (h : RReach (rinit Reg.empty apartProgs) s) (l : RLoc) : ¬ RRaces s l :=
  C74_partial (by decide) h l

end Speed
