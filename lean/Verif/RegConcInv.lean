import Verif.RegConc
/-
Invariant of concurrent registration: if no two goroutines register the same name or the same new domain,
and the new domains have no descriptions, then the registry is at every moment a sequential one (`R`) minus
what the current critical sections still have to do.
-/
namespace Speed

/-! ### What the statements of a critical section still add -/

def micM : Mic → List Metric
  | .putM m => [m]
  | _ => []

def micI : Mic → List Indom
  | .putI d => [d]
  | _ => []

def micC (c : Ctr) : Mic → Nat
  | .add c' n => if c' = c then n else 0
  | _ => 0

def micF : Mic → Bool
  | .flag b => b
  | _ => false

/-- With the statements `ops` executed, the registry `r` is `R`, up to the order of the entries. -/
structure Acc (r : Reg) (ops : List Mic) (R : Reg) : Prop where
  metrics : (r.metrics ++ ops.flatMap micM).Perm R.metrics
  indoms : (r.indoms ++ ops.flatMap micI).Perm R.indoms
  ctr : ∀ c, r.ctr c + (ops.map (micC c)).sum = R.ctr c
  v2 : (r.version2 || ops.any micF) = R.version2
  mapped : r.mapped = R.mapped

theorem Acc.perm {r R : Reg} {ops ops' : List Mic} (h : Acc r ops R) (hp : ops.Perm ops') : Acc r ops' R where
  metrics := (List.Perm.append_left _ (hp.symm.flatMap_right _)).trans h.metrics
  indoms := (List.Perm.append_left _ (hp.symm.flatMap_right _)).trans h.indoms
  ctr c := by rw [← h.ctr c, (hp.map (micC c)).sum_eq]
  v2 := by rw [← h.v2, hp.any_eq]
  mapped := h.mapped

theorem Acc.init (r : Reg) : Acc r [] r := ⟨by simp, by simp, by simp, by simp, rfl⟩

theorem textMic_facts (s : Str) : (textMic s).flatMap micM = [] ∧ (textMic s).flatMap micI = [] ∧
    (∀ c, ((textMic s).map (micC c)).sum = if c = .str then bump s else 0) ∧ (textMic s).any micF = false := by
  unfold textMic bump
  split
  · refine ⟨rfl, rfl, fun c => ?_, rfl⟩
    cases c <;> rfl
  · refine ⟨rfl, rfl, fun c => ?_, rfl⟩
    cases c <;> rfl

theorem Acc.enterM {r R : Reg} {ops : List Mic} (h : Acc r ops R) (m : Metric) :
    Acc r (bodyM m ++ ops) (R.addMetricUnchecked m) := by
  obtain ⟨a1, a2, a3, a4⟩ := textMic_facts m.desc.short
  obtain ⟨b1, b2, b3, b4⟩ := textMic_facts m.desc.long
  have hM : (bodyM m).flatMap micM = [m] := by
    unfold bodyM
    rw [List.flatMap_append, List.flatMap_append, a1, b1]
    split <;> split <;> rfl
  have hI : (bodyM m).flatMap micI = [] := by
    unfold bodyM
    rw [List.flatMap_append, List.flatMap_append, a2, b2]
    split <;> split <;> rfl
  refine ⟨?_, ?_, fun c => ?_, ?_, h.mapped⟩
  · rw [List.flatMap_append, hM]
    refine List.Perm.trans ?_ (h.metrics.append_right [m])
    rw [List.append_assoc]
    exact List.Perm.append_left _ List.perm_append_comm
  · rw [List.flatMap_append, hI]; exact h.indoms
  · have := h.ctr c
    rw [List.map_append, List.sum_append]
    unfold bodyM
    rw [List.map_append, List.map_append, List.sum_append, List.sum_append, a3 c, b3 c]
    cases c <;> simp only [Reg.ctr, Reg.addMetricUnchecked] at this ⊢ <;> split <;> split <;>
      simp [micC, *] <;> omega
  · rw [List.any_append, show (bodyM m).any micF = decide (m.desc.name.length > MaxV1NameLength) from ?_]
    · show _ = (R.version2 || _)
      rw [← h.v2]
      cases r.version2 <;> cases decide (m.desc.name.length > MaxV1NameLength) <;> cases ops.any micF <;> rfl
    · unfold bodyM
      rw [List.any_append, List.any_append, a4, b4]
      split <;> split <;> simp [micF, *]

theorem Acc.enterI {r R R' : Reg} {ops : List Mic} (h : Acc r ops R) {d : Indom} (he : R.addIndom d = some R') :
    Acc r (bodyI d ++ ops) R' := by
  obtain ⟨a1, a2, a3, a4⟩ := textMic_facts d.short
  obtain ⟨b1, b2, b3, b4⟩ := textMic_facts d.long
  unfold Reg.addIndom at he
  split at he
  · cases he
  split at he
  · cases he
  obtain rfl := Option.some.inj he
  have hM : (bodyI d).flatMap micM = [] := by
    unfold bodyI
    rw [List.flatMap_append, List.flatMap_append, a1, b1]
    rfl
  have hI : (bodyI d).flatMap micI = [d] := by
    unfold bodyI
    rw [List.flatMap_append, List.flatMap_append, a2, b2]
    rfl
  refine ⟨?_, ?_, fun c => ?_, ?_, h.mapped⟩
  · rw [List.flatMap_append, hM]; exact h.metrics
  · rw [List.flatMap_append, hI]
    refine List.Perm.trans ?_ (h.indoms.append_right [d])
    rw [List.append_assoc]
    exact List.Perm.append_left _ List.perm_append_comm
  · have := h.ctr c
    rw [List.map_append, List.sum_append]
    unfold bodyI
    rw [List.map_append, List.map_append, List.sum_append, List.sum_append, a3 c, b3 c]
    cases c <;> simp only [Reg.ctr] at this ⊢ <;> simp [micC] <;> omega
  · rw [List.any_append, show (bodyI d).any micF = d.insts.any (fun i => decide (i.name.length > MaxV1NameLength)) from ?_]
    · show _ = (R.version2 || _)
      rw [← h.v2]
      cases r.version2 <;> cases d.insts.any (fun i => decide (i.name.length > MaxV1NameLength)) <;>
        cases ops.any micF <;> rfl
    · unfold bodyI
      rw [List.any_append, List.any_append, a4, b4]
      simp [micF]

/-- What a goroutine has read is still true. -/
def XOK (r : Reg) : List Mic → Option Nat → Prop
  | .add c _ :: _, some v => v = r.ctr c
  | .flag _ :: _, some v => v ≠ 0 → r.version2 = true
  | _, _ => True

theorem xok_none (r : Reg) (ops : List Mic) : XOK r ops none := by
  unfold XOK
  split <;> first | trivial | (rename_i h; cases h)

theorem filter_ne_self {α : Type} {l : List α} {f : α → Str} {n : Str} (h : ∀ x ∈ l, f x ≠ n) :
    l.filter (fun x => f x ≠ n) = l := by
  rw [List.filter_eq_self]
  intro x hx
  simpa using h x hx

theorem Acc.cs {r r' R : Reg} {ops ops' rest : List Mic} {x x' : Option Nat} (h : Acc r (ops ++ rest) R)
    (hu : R.UniqueNames) (hx : XOK r ops x) (hs : csStep r ops x = some (r', ops', x')) :
    Acc r' (ops' ++ rest) R ∧ XOK r' ops' x' ∧ ∀ d ∈ r.indoms, d ∈ r'.indoms := by
  unfold csStep at hs
  split at hs
  · cases hs
  · -- putM
    rename_i m k
    obtain ⟨rfl, rfl, rfl⟩ : _ ∧ _ ∧ _ := by simpa using hs
    have hf : r.metrics.filter (fun y => y.desc.name ≠ m.desc.name) = r.metrics := by
      refine filter_ne_self (f := fun y : Metric => y.desc.name) fun y hy hn => ?_
      have h1 : ((r.metrics ++ [m]).map (fun m => m.desc.name)).Nodup := by
        refine List.Nodup.sublist ?_ ((h.metrics.map (fun m => m.desc.name)).nodup_iff.2 hu.2)
        refine List.Sublist.map _ (List.Sublist.append (List.Sublist.refl _) ?_)
        show List.Sublist [m] (m :: _)
        exact List.Sublist.cons_cons m (List.nil_sublist _)
      rw [List.map_append, List.nodup_append] at h1
      exact h1.2.2 _ (List.mem_map.2 ⟨y, hy, rfl⟩) _ (by simp) hn
    refine ⟨⟨?_, h.indoms, fun c => by have := h.ctr c; cases c <;> simpa [micC, Reg.ctr, Reg.putMetric, Reg.putIndom] using this, h.v2, h.mapped⟩, xok_none _ _, ?_⟩
    · show (List.filter _ r.metrics ++ [m] ++ _).Perm _
      rw [hf, List.append_assoc]
      exact h.metrics
    · exact fun d hd => hd
  · -- putI
    rename_i d k
    obtain ⟨rfl, rfl, rfl⟩ : _ ∧ _ ∧ _ := by simpa using hs
    have hf : r.indoms.filter (fun y => y.name ≠ d.name) = r.indoms := by
      refine filter_ne_self (f := fun y : Indom => y.name) fun y hy hn => ?_
      have h1 : ((r.indoms ++ [d]).map (fun m => m.name)).Nodup := by
        refine List.Nodup.sublist ?_ ((h.indoms.map (fun m => m.name)).nodup_iff.2 hu.1)
        refine List.Sublist.map _ (List.Sublist.append (List.Sublist.refl _) ?_)
        show List.Sublist [d] (d :: _)
        exact List.Sublist.cons_cons d (List.nil_sublist _)
      rw [List.map_append, List.nodup_append] at h1
      exact h1.2.2 _ (List.mem_map.2 ⟨y, hy, rfl⟩) _ (by simp) hn
    refine ⟨⟨h.metrics, ?_, fun c => by have := h.ctr c; cases c <;> simpa [micC, Reg.ctr, Reg.putMetric, Reg.putIndom] using this, h.v2, h.mapped⟩, xok_none _ _, ?_⟩
    · show (List.filter _ r.indoms ++ [d] ++ _).Perm _
      rw [hf, List.append_assoc]
      exact h.indoms
    · intro d' hd'
      show d' ∈ List.filter _ r.indoms ++ [d]
      rw [hf]
      exact List.mem_append_left _ hd'
  · obtain ⟨rfl, rfl, rfl⟩ : _ ∧ _ ∧ _ := by simpa using hs
    exact ⟨h, rfl, fun d hd => hd⟩
  · -- add
    rename_i c n k v
    obtain ⟨rfl, rfl, rfl⟩ : _ ∧ _ ∧ _ := by simpa using hs
    have hv : v = r.ctr c := hx
    subst hv
    refine ⟨⟨?_, ?_, fun c' => ?_, ?_, ?_⟩, xok_none _ _, fun d hd => by cases c <;> exact hd⟩
    · cases c <;> exact h.metrics
    · cases c <;> exact h.indoms
    · have := h.ctr c'
      simp only [List.cons_append, List.map_cons, List.sum_cons] at this
      rw [← this]
      cases c <;> cases c' <;> simp [Reg.setCtr, Reg.ctr, micC] <;> omega
    · cases c <;> exact h.v2
    · cases c <;> exact h.mapped
  · obtain ⟨rfl, rfl, rfl⟩ : _ ∧ _ ∧ _ := by simpa using hs
    refine ⟨h, fun hne => ?_, fun d hd => hd⟩
    by_contra hc
    exact hne (if_neg hc)
  · -- flag
    rename_i k v
    obtain ⟨rfl, rfl, rfl⟩ : _ ∧ _ ∧ _ := by simpa using hs
    have h2 := h.v2
    simp only [List.cons_append, List.any_cons, micF] at h2
    split
    · rename_i hv
      refine ⟨⟨h.metrics, h.indoms, fun c => by have := h.ctr c; cases c <;> simpa [micC, Reg.ctr, Reg.putMetric, Reg.putIndom] using this, ?_, h.mapped⟩, xok_none _ _, fun d hd => hd⟩
      rw [← h2, hv.2]; simp
    · rename_i hv
      refine ⟨⟨h.metrics, h.indoms, fun c => by have := h.ctr c; cases c <;> simpa [micC, Reg.ctr, Reg.putMetric, Reg.putIndom] using this, ?_, h.mapped⟩, xok_none _ _, fun d hd => hd⟩
      rw [← h2]
      by_cases hv0 : v = 0
      · rw [Bool.eq_false_iff.2 fun hb => hv ⟨hv0, hb⟩]; rfl
      · rw [hx hv0]; rfl

/-! ### Lists of goroutines -/

theorem flatMap_split {α β : Type} {l : List α} {i : Nat} {a : α} (h : l[i]? = some a) (f : α → List β) :
    ∃ rest, (l.flatMap f).Perm (f a ++ rest) ∧ ∀ b, ((l.set i b).flatMap f).Perm (f b ++ rest) := by
  induction l generalizing i with
  | nil => simp at h
  | cons x l ih =>
    cases i with
    | zero =>
      simp only [List.getElem?_cons_zero, Option.some.injEq] at h
      subst h
      exact ⟨l.flatMap f, .refl _, fun b => .refl _⟩
    | succ i =>
      obtain ⟨rest, h1, h2⟩ := ih (by simpa using h)
      refine ⟨f x ++ rest, ?_, fun b => ?_⟩
      · rw [List.flatMap_cons]
        exact (List.Perm.append_left _ h1).trans (List.perm_append_comm_assoc _ _ _)
      · rw [List.set_cons_succ, List.flatMap_cons]
        exact (List.Perm.append_left _ (h2 b)).trans (List.perm_append_comm_assoc _ _ _)

theorem countP_split {α : Type} {l : List α} {i : Nat} {a : α} (h : l[i]? = some a) (f : α → Bool) :
    ∃ n, l.countP f = (f a).toNat + n ∧ ∀ b, (l.set i b).countP f = (f b).toNat + n := by
  induction l generalizing i with
  | nil => simp at h
  | cons x l ih =>
    cases i with
    | zero =>
      simp only [List.getElem?_cons_zero, Option.some.injEq] at h
      subst h
      refine ⟨l.countP f, ?_, fun b => ?_⟩
      · rw [List.countP_cons]; cases f x <;> simp <;> omega
      · rw [List.set_cons_zero, List.countP_cons]; cases f b <;> simp <;> omega
    | succ i =>
      obtain ⟨n, h1, h2⟩ := ih (by simpa using h)
      refine ⟨n + (f x).toNat, ?_, fun b => ?_⟩
      · rw [List.countP_cons, h1]; cases f x <;> simp <;> omega
      · rw [List.set_cons_succ, List.countP_cons, h2]; cases f x <;> simp <;> omega

/-- `l` is the lock that the goroutines with `w` hold for writing and those with `r` for reading. -/
structure RLockOK (l : RW) (thr : List RTh) (w r : RTh → Bool) : Prop where
  writer : l.writer.toNat = thr.countP w
  readers : l.readers = thr.countP r

theorem RLockOK.alone {l : RW} {thr : List RTh} {w r : RTh → Bool} (h : RLockOK l thr w r)
    (h0 : w (.idle []) = false) {i j : Nat} {t t' : RTh}
    (hi : thr[i]? = some t) (hj : thr[j]? = some t') (hw : w t = true) (hw' : w t' = true) : i = j := by
  by_contra hne
  obtain ⟨n, h1, h2⟩ := countP_split hi w
  have h3 := h2 (.idle [])
  have h4 : thr.countP w ≤ 1 := by
    rw [← h.writer]
    cases l.writer <;> decide
  have h5 : n = 0 := by
    rw [h1, hw] at h4
    simp at h4
    omega
  have h6 : 0 < (thr.set i (.idle [])).countP w := by
    rw [List.countP_pos_iff]
    exact ⟨t', List.mem_of_getElem? (i := j) (by rw [List.getElem?_set_ne hne]; exact hj), hw'⟩
  rw [h3, h0, h5] at h6
  simp at h6

/-! ### The invariant -/

def RTh.ops : RTh → List Mic
  | .busy _ (.csI _ ops _) _ => ops
  | .busy _ (.csM ops _) _ => ops
  | _ => []

/-- Metrics whose registration is still to take effect. -/
def RTh.todo : RTh → List Metric
  | .idle ms => ms
  | .busy _ (.csM _ _) ms => ms
  | .busy m _ ms => m :: ms

/-- Metrics whose registration has not returned yet. -/
def RTh.calls : RTh → List Metric
  | .idle ms => ms
  | .busy m _ ms => m :: ms

def RTh.wM : RTh → Bool
  | .busy _ (.csM _ _) _ => true
  | _ => false
def RTh.rM : RTh → Bool
  | .busy _ .hasM1 _ => true
  | .busy _ (.hasM2 _) _ => true
  | _ => false
def RTh.wI : RTh → Bool
  | .busy _ (.mappedI _) _ => true
  | .busy _ (.csI _ _ _) _ => true
  | .busy _ .failI _ => true
  | _ => false
def RTh.rI : RTh → Bool
  | .busy _ (.hasI1 _ _) _ => true
  | .busy _ (.hasI2 _ _ _) _ => true
  | _ => false

def Mic.isM : Mic → Prop
  | .putM _ => True
  | .add .val _ => True
  | .add .str _ => True
  | .flag _ => True
  | _ => False

def Mic.isI (d : Indom) : Mic → Prop
  | .putI d' => d' = d
  | .add .inst _ => True
  | .flag _ => True
  | _ => False

def PcOK (R r : Reg) (m : Metric) : RPc → Prop
  | .start => True
  | .hasM0 => True
  | .hasM1 => True
  | .hasM2 b => b = false
  | .hasI0 d again => m.indom = some d ∧ (again = true → R.hasIndom d.name = false)
  | .hasI1 d again => m.indom = some d ∧ (again = true → R.hasIndom d.name = false)
  | .hasI2 d again b => m.indom = some d ∧ (again = true → b = false) ∧ R.hasIndom d.name = b
  | .lockI d => m.indom = some d ∧ R.hasIndom d.name = false
  | .mappedI d => m.indom = some d ∧ R.hasIndom d.name = false
  | .csI d ops x => m.indom = some d ∧ R.hasIndom d.name = true ∧ (∀ o ∈ ops, o.isI d) ∧ XOK r ops x
  | .failI => False
  | .lockM => ∀ d, m.indom = some d → R.hasIndom d.name = true
  | .csM ops x => (∀ o ∈ ops, o.isM) ∧ XOK r ops x

def ThOK (R r : Reg) (P : List Metric) : RTh → Prop
  | .idle ms => ∀ x ∈ ms, x ∈ P
  | .busy m pc ms => (∀ x ∈ m :: ms, x ∈ P) ∧ PcOK R r m pc

/-- The programs: see `C43`. -/
structure RHyp (r0 : Reg) (progs : List (List Metric)) : Prop where
  inv : RegInv r0
  mapped : r0.mapped = false
  wf : ∀ m ∈ progs.flatten, m.WF
  /-- all names are different, and new -/
  names : ((r0.metrics ++ progs.flatten).map (fun m => m.desc.name)).Nodup
  /-- two goroutines use the same domain name only if it is registered at the beginning -/
  own : ∀ (i j : Nat) P Q, progs[i]? = some P → progs[j]? = some Q → i ≠ j → ∀ m ∈ P, ∀ m' ∈ Q, ∀ d d',
    m.indom = some d → m'.indom = some d' → d.name = d'.name → r0.hasIndom d.name = true
  /-- domains that are not registered at the beginning have no descriptions -/
  plain : ∀ m ∈ progs.flatten, ∀ d, m.indom = some d → r0.hasIndom d.name = true ∨ (d.short = [] ∧ d.long = [])

structure RCInv (r0 : Reg) (progs : List (List Metric)) (R : Reg) (s : RSt) : Prop where
  inv : RegInv R
  mapped : R.mapped = false
  acc : Acc s.reg (s.thr.flatMap RTh.ops) R
  todo : (R.metrics ++ s.thr.flatMap RTh.todo).Perm (r0.metrics ++ progs.flatten)
  log : (s.log.map (·.1) ++ s.thr.flatMap RTh.calls).Perm progs.flatten
  ok : ∀ x ∈ s.log, x.2 = true
  old : ∀ d ∈ r0.indoms, d ∈ s.reg.indoms
  src : ∀ d ∈ R.indoms, d ∈ r0.indoms ∨ ∃ m ∈ progs.flatten, m.indom = some d
  lm : RLockOK s.lm s.thr RTh.wM RTh.rM
  li : RLockOK s.li s.thr RTh.wI RTh.rI
  thr : ∀ (i : Nat) t, s.thr[i]? = some t → ∃ P, progs[i]? = some P ∧ ThOK R s.reg P t

theorem rcinv_init {r0 : Reg} {progs : List (List Metric)} (h : RHyp r0 progs) :
    RCInv r0 progs r0 (rinit r0 progs) := by
  have h1 : ∀ f : RTh → Bool, (∀ ms, f (.idle ms) = false) → (progs.map RTh.idle).countP f = 0 := by
    intro f hf
    rw [List.countP_eq_zero]
    intro t ht
    obtain ⟨ms, _, rfl⟩ := List.mem_map.1 ht
    rw [hf]; decide
  have h2 : (progs.map RTh.idle).flatMap RTh.ops = [] := by
    rw [List.flatMap_eq_nil_iff]
    intro t ht
    obtain ⟨ms, _, rfl⟩ := List.mem_map.1 ht
    rfl
  have h3 : ∀ f : RTh → List Metric, (∀ ms, f (.idle ms) = ms) → (progs.map RTh.idle).flatMap f = progs.flatten := by
    intro f hf
    clear h h1 h2
    induction progs with
    | nil => rfl
    | cons p ps ih => simp only [List.map_cons, List.flatMap_cons, List.flatten_cons, hf, ih]
  refine ⟨h.inv, h.mapped, ?_, ?_, ?_, ?_, fun d hd => hd, fun d hd => .inl hd, ⟨?_, ?_⟩, ⟨?_, ?_⟩, ?_⟩
  · show Acc r0 ((progs.map RTh.idle).flatMap RTh.ops) r0
    rw [h2]; exact Acc.init r0
  · show (r0.metrics ++ (progs.map RTh.idle).flatMap RTh.todo).Perm _
    rw [h3 _ (fun _ => rfl)]
  · show ([] ++ (progs.map RTh.idle).flatMap RTh.calls).Perm _
    rw [h3 _ (fun _ => rfl)]; exact .refl _
  · intro x hx; cases hx
  · exact (h1 _ (fun _ => rfl)).symm
  · exact (h1 _ (fun _ => rfl)).symm
  · exact (h1 _ (fun _ => rfl)).symm
  · exact (h1 _ (fun _ => rfl)).symm
  · intro i t ht
    simp only [rinit, List.getElem?_map, Option.map_eq_some_iff] at ht
    obtain ⟨P, h4, rfl⟩ := ht
    exact ⟨P, h4, fun x hx => hx⟩

theorem PcOK.mono {R R' r r' : Reg} {m : Metric} {pc : RPc} (h : PcOK R r m pc)
    (h1 : ∀ n, R.hasIndom n = true → R'.hasIndom n = true)
    (h2 : ∀ d, m.indom = some d → R.hasIndom d.name = false → R'.hasIndom d.name = false)
    (h3 : ∀ d ops x, pc = .csI d ops x → (∀ o ∈ ops, o.isI d) → XOK r ops x → XOK r' ops x)
    (h4 : ∀ ops x, pc = .csM ops x → (∀ o ∈ ops, o.isM) → XOK r ops x → XOK r' ops x) : PcOK R' r' m pc := by
  cases pc with
  | start => trivial
  | hasM0 => trivial
  | hasM1 => trivial
  | hasM2 b => exact h
  | hasI0 d again => exact ⟨h.1, fun ha => h2 d h.1 (h.2 ha)⟩
  | hasI1 d again => exact ⟨h.1, fun ha => h2 d h.1 (h.2 ha)⟩
  | hasI2 d again b =>
    refine ⟨h.1, h.2.1, ?_⟩
    cases b with
    | false => exact h2 d h.1 h.2.2
    | true => exact h1 _ h.2.2
  | lockI d => exact ⟨h.1, h2 d h.1 h.2⟩
  | mappedI d => exact ⟨h.1, h2 d h.1 h.2⟩
  | csI d ops x => exact ⟨h.1, h1 _ h.2.1, h.2.2.1, h3 d ops x rfl h.2.2.1 h.2.2.2⟩
  | failI => exact h
  | lockM => exact fun d hd => h1 _ (h d hd)
  | csM ops x => exact ⟨h.1, h4 ops x rfl h.1 h.2⟩

theorem ThOK.mem {R r : Reg} {P : List Metric} {t : RTh} (h : ThOK R r P t) : ∀ x ∈ t.calls, x ∈ P := by
  cases t with
  | idle ms => exact h
  | busy m pc ms => exact h.1

section
variable {r0 : Reg} {progs : List (List Metric)} {R : Reg} {s : RSt}

/-- A step that touches neither the registry nor what is pending. -/
theorem RCInv.move (h : RCInv r0 progs R s) {i : Nat} {t t' : RTh} (hi : s.thr[i]? = some t) {lm li : RW}
    {log : List (Metric × Bool)} (hops : t'.ops = t.ops) (htodo : t'.todo = t.todo)
    (hlog : (log.map (·.1) ++ t'.calls).Perm (s.log.map (·.1) ++ t.calls)) (hok : ∀ x ∈ log, x.2 = true)
    (hwM : lm.writer.toNat + t.wM.toNat = s.lm.writer.toNat + t'.wM.toNat)
    (hrM : lm.readers + t.rM.toNat = s.lm.readers + t'.rM.toNat)
    (hwI : li.writer.toNat + t.wI.toNat = s.li.writer.toNat + t'.wI.toNat)
    (hrI : li.readers + t.rI.toNat = s.li.readers + t'.rI.toNat)
    (ht : ∀ P, progs[i]? = some P → ThOK R s.reg P t → ThOK R s.reg P t') :
    RCInv r0 progs R ⟨s.reg, lm, li, s.thr.set i t', log⟩ := by
  obtain ⟨o, o1, o2⟩ := flatMap_split hi RTh.ops
  obtain ⟨u, u1, u2⟩ := flatMap_split hi RTh.todo
  obtain ⟨c, c1, c2⟩ := flatMap_split hi RTh.calls
  obtain ⟨n1, a1, a2⟩ := countP_split hi RTh.wM
  obtain ⟨n2, b1, b2⟩ := countP_split hi RTh.rM
  obtain ⟨n3, d1, d2⟩ := countP_split hi RTh.wI
  obtain ⟨n4, e1, e2⟩ := countP_split hi RTh.rI
  have g1 := h.lm.writer
  have g2 := h.lm.readers
  have g3 := h.li.writer
  have g4 := h.li.readers
  refine ⟨h.inv, h.mapped, ?_, ?_, ?_, hok, h.old, h.src, ⟨?_, ?_⟩, ⟨?_, ?_⟩, ?_⟩
  · exact h.acc.perm (o1.trans (by rw [← hops]; exact (o2 t').symm))
  · refine (List.Perm.append_left _ ?_).trans h.todo
    exact (u2 t').trans (by rw [htodo]; exact u1.symm)
  · refine List.Perm.trans ?_ h.log
    refine (List.Perm.append_left _ (c2 t')).trans ?_
    refine List.Perm.trans ?_ (List.Perm.append_left _ c1.symm)
    rw [← List.append_assoc, ← List.append_assoc]
    exact hlog.append_right _
  · show lm.writer.toNat = (s.thr.set i t').countP _
    rw [a2]; omega
  · show lm.readers = (s.thr.set i t').countP _
    rw [b2]; omega
  · show li.writer.toNat = (s.thr.set i t').countP _
    rw [d2]; omega
  · show li.readers = (s.thr.set i t').countP _
    rw [e2]; omega
  · intro j t2 hj
    by_cases hij : i = j
    · subst hij
      have hlt : i < s.thr.length := (List.getElem?_eq_some_iff.1 hi).1
      rw [show (s.thr.set i t')[i]? = some t' by simp [hlt]] at hj
      obtain rfl := Option.some.inj hj
      obtain ⟨P, hP, hT⟩ := h.thr i t hi
      exact ⟨P, hP, ht P hP hT⟩
    · rw [show (s.thr.set i t')[j]? = s.thr[j]? from List.getElem?_set_ne hij] at hj
      exact h.thr j t2 hj

theorem csStep_sub {r r' : Reg} {ops ops' : List Mic} {x x' : Option Nat}
    (h : csStep r ops x = some (r', ops', x')) : (∀ o ∈ ops', o ∈ ops) ∧ (r.version2 = true → r'.version2 = true) := by
  unfold csStep at h
  split at h
  · cases h
  all_goals
    obtain ⟨rfl, rfl, rfl⟩ : _ ∧ _ ∧ _ := by simpa using h
  · exact ⟨fun o ho => List.mem_cons_of_mem _ ho, fun h => h⟩
  · exact ⟨fun o ho => List.mem_cons_of_mem _ ho, fun h => h⟩
  · exact ⟨fun o ho => ho, fun h => h⟩
  · rename_i c n k v
    exact ⟨fun o ho => List.mem_cons_of_mem _ ho, fun h' => by cases c <;> exact h'⟩
  · exact ⟨fun o ho => ho, fun h => h⟩
  · refine ⟨fun o ho => List.mem_cons_of_mem _ ho, fun h => ?_⟩
    split
    · rfl
    · exact h

theorem csStep_M {r r' : Reg} {ops ops' : List Mic} {x x' : Option Nat}
    (h : csStep r ops x = some (r', ops', x')) (ho : ∀ o ∈ ops, o.isM) : r'.ctr .inst = r.ctr .inst := by
  unfold csStep at h
  split at h
  · cases h
  all_goals
    obtain ⟨rfl, rfl, rfl⟩ : _ ∧ _ ∧ _ := by simpa using h
  · rfl
  · rfl
  · rfl
  · rename_i c n k v
    have := ho _ List.mem_cons_self
    cases c with
    | inst => exact this.elim
    | val => rfl
    | str => rfl
  · rfl
  · split <;> rfl

theorem csStep_I {r r' : Reg} {ops ops' : List Mic} {x x' : Option Nat} {d : Indom}
    (h : csStep r ops x = some (r', ops', x')) (ho : ∀ o ∈ ops, o.isI d) :
    r'.ctr .val = r.ctr .val ∧ r'.ctr .str = r.ctr .str := by
  unfold csStep at h
  split at h
  · cases h
  all_goals
    obtain ⟨rfl, rfl, rfl⟩ : _ ∧ _ ∧ _ := by simpa using h
  · exact ⟨rfl, rfl⟩
  · exact ⟨rfl, rfl⟩
  · exact ⟨rfl, rfl⟩
  · rename_i c n k v
    have := ho _ List.mem_cons_self
    cases c with
    | inst => exact ⟨rfl, rfl⟩
    | val => exact this.elim
    | str => exact this.elim
  · exact ⟨rfl, rfl⟩
  · split <;> exact ⟨rfl, rfl⟩

theorem XOK.frame {r r' : Reg} {ops : List Mic} {x : Option Nat} (h : XOK r ops x)
    (hv : r.version2 = true → r'.version2 = true) (hc : ∀ c n k, ops = .add c n :: k → r'.ctr c = r.ctr c) :
    XOK r' ops x := by
  unfold XOK at h ⊢
  split
  · rename_i c n k v
    dsimp only at h
    rw [h, hc c n k rfl]
  · rename_i k v
    dsimp only at h
    exact fun hne => hv (h hne)
  · trivial

/-- A step in a critical section. -/
theorem RCInv.cs (h : RCInv r0 progs R s) {i : Nat} {m : Metric} {ms : List Metric} {pc pc' : RPc} {ops ops' : List Mic}
    {x x' : Option Nat} {r' : Reg} (hi : s.thr[i]? = some (.busy m pc ms))
    (hs : csStep s.reg ops x = some (r', ops', x'))
    (hpc : (pc = .csM ops x ∧ pc' = .csM ops' x') ∨ ∃ d, pc = .csI d ops x ∧ pc' = .csI d ops' x') :
    RCInv r0 progs R ⟨r', s.lm, s.li, s.thr.set i (.busy m pc' ms), s.log⟩ := by
  obtain ⟨P, hP, hT⟩ := h.thr i _ hi
  obtain ⟨o, o1, o2⟩ := flatMap_split hi RTh.ops
  have hx : XOK s.reg ops x := by
    rcases hpc with ⟨rfl, _⟩ | ⟨d, rfl, _⟩
    · exact hT.2.2
    · exact hT.2.2.2.2
  have e1 : (RTh.busy m pc ms).ops = ops := by rcases hpc with ⟨rfl, _⟩ | ⟨d, rfl, _⟩ <;> rfl
  have e2 : (RTh.busy m pc' ms).ops = ops' := by rcases hpc with ⟨_, rfl⟩ | ⟨d, _, rfl⟩ <;> rfl
  obtain ⟨k1, k2, k3⟩ := Acc.cs (h.acc.perm (e1 ▸ o1)) h.inv.unique hx hs
  obtain ⟨f1, f2⟩ := csStep_sub hs
  obtain ⟨u, u1, u2⟩ := flatMap_split hi RTh.todo
  obtain ⟨c, c1, c2⟩ := flatMap_split hi RTh.calls
  obtain ⟨n1, a1, a2⟩ := countP_split hi RTh.wM
  obtain ⟨n2, b1, b2⟩ := countP_split hi RTh.rM
  obtain ⟨n3, d1, d2⟩ := countP_split hi RTh.wI
  obtain ⟨n4, g1, g2⟩ := countP_split hi RTh.rI
  have e3 : (RTh.busy m pc' ms).todo = (RTh.busy m pc ms).todo := by
    rcases hpc with ⟨rfl, rfl⟩ | ⟨d, rfl, rfl⟩ <;> rfl
  have e4 : (RTh.busy m pc' ms).wM = (RTh.busy m pc ms).wM := by
    rcases hpc with ⟨rfl, rfl⟩ | ⟨d, rfl, rfl⟩ <;> rfl
  have e5 : (RTh.busy m pc' ms).rM = (RTh.busy m pc ms).rM := by
    rcases hpc with ⟨rfl, rfl⟩ | ⟨d, rfl, rfl⟩ <;> rfl
  have e6 : (RTh.busy m pc' ms).wI = (RTh.busy m pc ms).wI := by
    rcases hpc with ⟨rfl, rfl⟩ | ⟨d, rfl, rfl⟩ <;> rfl
  have e7 : (RTh.busy m pc' ms).rI = (RTh.busy m pc ms).rI := by
    rcases hpc with ⟨rfl, rfl⟩ | ⟨d, rfl, rfl⟩ <;> rfl
  refine ⟨h.inv, h.mapped, ?_, ?_, ?_, h.ok, fun d hd => k3 d (h.old d hd), h.src, ⟨?_, ?_⟩, ⟨?_, ?_⟩, ?_⟩
  · exact k1.perm (by rw [← e2]; exact (o2 _).symm)
  · exact (List.Perm.append_left _ ((u2 _).trans (by rw [e3]; exact u1.symm))).trans h.todo
  · exact (List.Perm.append_left _ ((c2 (.busy m pc' ms)).trans c1.symm)).trans h.log
  · exact h.lm.writer.trans (a1.trans (by rw [← e4]; exact (a2 _).symm))
  · exact h.lm.readers.trans (b1.trans (by rw [← e5]; exact (b2 _).symm))
  · exact h.li.writer.trans (d1.trans (by rw [← e6]; exact (d2 _).symm))
  · exact h.li.readers.trans (g1.trans (by rw [← e7]; exact (g2 _).symm))
  · intro j t2 hj
    by_cases hij : i = j
    · subst hij
      have hlt : i < s.thr.length := (List.getElem?_eq_some_iff.1 hi).1
      rw [show (s.thr.set i (RTh.busy m pc' ms))[i]? = some (RTh.busy m pc' ms) by simp [hlt]] at hj
      obtain rfl := Option.some.inj hj
      refine ⟨P, hP, hT.1, ?_⟩
      rcases hpc with ⟨rfl, rfl⟩ | ⟨d, rfl, rfl⟩
      · exact ⟨fun o ho => hT.2.1 o (f1 o ho), k2⟩
      · exact ⟨hT.2.1, hT.2.2.1, fun o ho => hT.2.2.2.1 o (f1 o ho), k2⟩
    · rw [show (s.thr.set i (RTh.busy m pc' ms))[j]? = s.thr[j]? from List.getElem?_set_ne hij] at hj
      obtain ⟨Q, hQ, hT2⟩ := h.thr j t2 hj
      refine ⟨Q, hQ, ?_⟩
      cases t2 with
      | idle ms => exact hT2
      | busy m2 pc2 ms2 =>
        refine ⟨hT2.1, hT2.2.mono (fun _ h => h) (fun _ _ h => h) ?_ ?_⟩
        · rintro d2 ops2 x2 rfl hisI hX
          refine hX.frame f2 fun c n k e => ?_
          subst e
          have hc := hisI _ List.mem_cons_self
          cases c with
          | val => exact hc.elim
          | str => exact hc.elim
          | inst =>
            rcases hpc with ⟨rfl, rfl⟩ | ⟨d, rfl, rfl⟩
            · exact csStep_M hs hT.2.1
            · exact absurd (h.li.alone rfl hi hj rfl rfl) hij
        · rintro ops2 x2 rfl hisM hX
          refine hX.frame f2 fun c n k e => ?_
          subst e
          have hc := hisM _ List.mem_cons_self
          rcases hpc with ⟨rfl, rfl⟩ | ⟨d, rfl, rfl⟩
          · exact absurd (h.lm.alone rfl hi hj rfl rfl) hij
          · cases c with
            | inst => exact hc.elim
            | val => exact (csStep_I hs hT.2.2.2.1).1
            | str => exact (csStep_I hs hT.2.2.2.1).2

theorem RCInv.sub_indoms (h : RCInv r0 progs R s) : ∀ d ∈ s.reg.indoms, d ∈ R.indoms :=
  fun _ hd => h.acc.indoms.mem_iff.1 (List.mem_append_left _ hd)

theorem RCInv.sub_metrics (h : RCInv r0 progs R s) : ∀ m ∈ s.reg.metrics, m ∈ R.metrics :=
  fun _ hd => h.acc.metrics.mem_iff.1 (List.mem_append_left _ hd)

theorem RCInv.has_old (h : RCInv r0 progs R s) {n : Str} (hn : r0.hasIndom n = true) : R.hasIndom n = true := by
  obtain ⟨d, hd, e⟩ := hasIndom_iff.1 hn
  exact hasIndom_iff.2 ⟨d, h.sub_indoms d (h.old d hd), e⟩

/-- A metric that is still to be registered is not registered. -/
theorem RCInv.fresh (hy : RHyp r0 progs) (h : RCInv r0 progs R s) {m : Metric} (hm : m ∈ s.thr.flatMap RTh.todo) :
    R.hasMetric m.desc.name = false := by
  have h1 := (h.todo.map (fun m => m.desc.name)).nodup_iff.2 hy.names
  rw [List.map_append, List.nodup_append] at h1
  cases hh : R.hasMetric m.desc.name with
  | false => rfl
  | true =>
    obtain ⟨x, hx, e⟩ := hasMetric_iff.1 hh
    exact absurd e (h1.2.2 _ (List.mem_map.2 ⟨x, hx, rfl⟩) _ (List.mem_map.2 ⟨m, hm, rfl⟩))

theorem mem_flatten_of {P : List Metric} {i : Nat} {m : Metric} (hP : progs[i]? = some P) (hm : m ∈ P) :
    m ∈ progs.flatten :=
  List.mem_flatten.2 ⟨P, List.mem_of_getElem? hP, hm⟩

/-- Entering a critical section. -/
theorem RCInv.enter (h : RCInv r0 progs R s) {i : Nat} {t t' : RTh} (hi : s.thr[i]? = some t) {lm li : RW} {R' : Reg}
    (hR : RegInv R') (hRm : R'.mapped = false) (hacc : ∀ ops, Acc s.reg ops R → Acc s.reg (t'.ops ++ ops) R')
    (hops : t.ops = []) (htodo : (R'.metrics ++ t'.todo).Perm (R.metrics ++ t.todo)) (hcalls : t'.calls = t.calls)
    (hsrc : ∀ d ∈ R'.indoms, d ∈ R.indoms ∨ ∃ m ∈ progs.flatten, m.indom = some d)
    (hwM : lm.writer.toNat + t.wM.toNat = s.lm.writer.toNat + t'.wM.toNat)
    (hrM : lm.readers + t.rM.toNat = s.lm.readers + t'.rM.toNat)
    (hwI : li.writer.toNat + t.wI.toNat = s.li.writer.toNat + t'.wI.toNat)
    (hrI : li.readers + t.rI.toNat = s.li.readers + t'.rI.toNat)
    (hmono : ∀ n, R.hasIndom n = true → R'.hasIndom n = true)
    (hown : ∀ j Q m d, i ≠ j → progs[j]? = some Q → m ∈ Q → m.indom = some d → R.hasIndom d.name = false →
      R'.hasIndom d.name = false)
    (ht : ∀ P, progs[i]? = some P → ThOK R s.reg P t → ThOK R' s.reg P t') :
    RCInv r0 progs R' ⟨s.reg, lm, li, s.thr.set i t', s.log⟩ := by
  obtain ⟨o, o1, o2⟩ := flatMap_split hi RTh.ops
  obtain ⟨u, u1, u2⟩ := flatMap_split hi RTh.todo
  obtain ⟨c, c1, c2⟩ := flatMap_split hi RTh.calls
  obtain ⟨n1, a1, a2⟩ := countP_split hi RTh.wM
  obtain ⟨n2, b1, b2⟩ := countP_split hi RTh.rM
  obtain ⟨n3, d1, d2⟩ := countP_split hi RTh.wI
  obtain ⟨n4, e1, e2⟩ := countP_split hi RTh.rI
  have g1 := h.lm.writer
  have g2 := h.lm.readers
  have g3 := h.li.writer
  have g4 := h.li.readers
  refine ⟨hR, hRm, ?_, ?_, ?_, h.ok, h.old, ?_, ⟨?_, ?_⟩, ⟨?_, ?_⟩, ?_⟩
  · rw [hops] at o1
    exact (hacc _ (h.acc.perm o1)).perm (o2 t').symm
  · refine (List.Perm.append_left _ (u2 t')).trans ?_
    refine List.Perm.trans ?_ h.todo
    refine List.Perm.trans ?_ (List.Perm.append_left _ u1.symm)
    rw [← List.append_assoc, ← List.append_assoc]
    exact htodo.append_right _
  · refine List.Perm.trans ?_ h.log
    exact List.Perm.append_left _ ((c2 t').trans (by rw [hcalls]; exact c1.symm))
  · intro d hd
    rcases hsrc d hd with h1 | h1
    · exact h.src d h1
    · exact .inr h1
  · show lm.writer.toNat = (s.thr.set i t').countP _
    rw [a2]; omega
  · show lm.readers = (s.thr.set i t').countP _
    rw [b2]; omega
  · show li.writer.toNat = (s.thr.set i t').countP _
    rw [d2]; omega
  · show li.readers = (s.thr.set i t').countP _
    rw [e2]; omega
  · intro j t2 hj
    by_cases hij : i = j
    · subst hij
      have hlt : i < s.thr.length := (List.getElem?_eq_some_iff.1 hi).1
      rw [show (s.thr.set i t')[i]? = some t' by simp [hlt]] at hj
      obtain rfl := Option.some.inj hj
      obtain ⟨P, hP, hT⟩ := h.thr i t hi
      exact ⟨P, hP, ht P hP hT⟩
    · rw [show (s.thr.set i t')[j]? = s.thr[j]? from List.getElem?_set_ne hij] at hj
      obtain ⟨Q, hQ, hT⟩ := h.thr j t2 hj
      refine ⟨Q, hQ, ?_⟩
      cases t2 with
      | idle ms => exact hT
      | busy m2 pc2 ms2 =>
        exact ⟨hT.1, hT.2.mono hmono (fun d hd => hown j Q m2 d hij hQ (hT.1 _ List.mem_cons_self) hd)
          (fun _ _ _ _ _ h => h) (fun _ _ _ _ h => h)⟩

theorem bodyM_isM (m : Metric) : ∀ o ∈ bodyM m, o.isM := by
  intro o ho
  unfold bodyM textMic at ho
  simp only [List.mem_append, List.mem_singleton] at ho
  rcases ho with ((((rfl | ho) | rfl) | ho) | ho) | ho
  · trivial
  · split at ho
    · rw [List.mem_singleton.1 ho]; trivial
    · cases ho
  · trivial
  all_goals
    split at ho
    · rw [List.mem_singleton.1 ho]; trivial
    · cases ho

theorem bodyI_isI {d : Indom} (h1 : d.short = []) (h2 : d.long = []) : ∀ o ∈ bodyI d, o.isI d := by
  intro o ho
  unfold bodyI textMic at ho
  rw [h1, h2] at ho
  simp only [List.mem_append, List.mem_cons, List.not_mem_nil, or_false, ne_eq, not_true_eq_false, if_false] at ho
  rcases ho with rfl | rfl | rfl
  · rfl
  · trivial
  · trivial

theorem todo_mem {i : Nat} {t : RTh} (hi : s.thr[i]? = some t) {m : Metric} (hm : m ∈ t.todo) :
    m ∈ s.thr.flatMap RTh.todo :=
  List.mem_flatMap.2 ⟨t, List.mem_of_getElem? hi, hm⟩

theorem RCInv.step (hy : RHyp r0 progs) (h : RCInv r0 progs R s) {s' : RSt} (hs : RStep s s') :
    ∃ R', RCInv r0 progs R' s' := by
  obtain ⟨i, hs⟩ := hs
  unfold rstep at hs
  split at hs
  · cases hs
  · cases hs
  · -- a call
    rename_i m ms hi
    obtain rfl := Option.some.inj hs
    exact ⟨R, h.move hi rfl rfl (.refl _) h.ok rfl rfl rfl rfl (fun P hP hT => ⟨hT, trivial⟩)⟩
  · rename_i m pc ms hi
    obtain ⟨P, hP, hT⟩ := h.thr i _ hi
    have hmP : m ∈ P := hT.1 _ List.mem_cons_self
    have hmf : m ∈ progs.flatten := mem_flatten_of hP hmP
    split at hs
    · -- start
      obtain rfl := Option.some.inj hs
      rw [show s.reg.mapped = false from h.acc.mapped.trans h.mapped, if_neg (by decide)]
      exact ⟨R, h.move hi rfl rfl (.refl _) h.ok rfl rfl rfl rfl (fun P hP hT => ⟨hT.1, trivial⟩)⟩
    · -- hasM0
      split at hs
      · cases hs
      obtain rfl := Option.some.inj hs
      exact ⟨R, h.move hi rfl rfl (.refl _) h.ok rfl rfl rfl rfl (fun P hP hT => ⟨hT.1, trivial⟩)⟩
    · -- hasM1
      obtain rfl := Option.some.inj hs
      refine ⟨R, h.move hi rfl rfl (.refl _) h.ok rfl rfl rfl rfl (fun P hP hT => ⟨hT.1, ?_⟩)⟩
      show s.reg.hasMetric m.desc.name = false
      have hf := h.fresh hy (todo_mem hi (m := m) List.mem_cons_self)
      cases hh : s.reg.hasMetric m.desc.name with
      | false => rfl
      | true =>
        obtain ⟨x, hx, e⟩ := hasMetric_iff.1 hh
        rw [hasMetric_iff.2 ⟨x, h.sub_metrics x hx, e⟩] at hf
        cases hf
    · -- hasM2
      rename_i b
      have hb : b = false := hT.2
      subst hb
      obtain rfl := Option.some.inj hs
      have hr : s.lm.readers ≠ 0 := by
        rw [h.lm.readers]
        have : 0 < s.thr.countP RTh.rM := List.countP_pos_iff.2 ⟨_, List.mem_of_getElem? hi, rfl⟩
        omega
      have hr' : s.lm.readers - 1 + 1 = s.lm.readers := by omega
      rw [if_neg (by decide)]
      cases hd : m.indom with
      | none =>
        refine ⟨R, h.move hi rfl rfl (.refl _) h.ok rfl hr' rfl rfl (fun P hP hT => ⟨hT.1, ?_⟩)⟩
        intro d hd'
        rw [hd] at hd'; cases hd'
      | some d =>
        refine ⟨R, h.move hi rfl rfl (.refl _) h.ok rfl hr' rfl rfl (fun P hP hT => ⟨hT.1, hd, ?_⟩)⟩
        intro h; cases h
    · -- hasI0
      split at hs
      · cases hs
      obtain rfl := Option.some.inj hs
      exact ⟨R, h.move hi rfl rfl (.refl _) h.ok rfl rfl rfl rfl (fun P hP hT => hT)⟩
    · -- hasI1
      rename_i d again
      obtain rfl := Option.some.inj hs
      have hk : R.hasIndom d.name = s.reg.hasIndom d.name := by
        cases hh : s.reg.hasIndom d.name with
        | true =>
          obtain ⟨x, hx, e⟩ := hasIndom_iff.1 hh
          exact hasIndom_iff.2 ⟨x, h.sub_indoms x hx, e⟩
        | false =>
          cases hR : R.hasIndom d.name with
          | false => rfl
          | true =>
            exfalso
            obtain ⟨x, hx, e⟩ := hasIndom_iff.1 hR
            rcases List.mem_append.1 (h.acc.indoms.mem_iff.2 hx) with hx | hx
            · rw [hasIndom_iff.2 ⟨x, hx, e⟩] at hh; cases hh
            · obtain ⟨o, ho, hxo⟩ := List.mem_flatMap.1 hx
              obtain ⟨t, ht, hot⟩ := List.mem_flatMap.1 ho
              obtain ⟨j, hj⟩ := List.mem_iff_getElem?.1 ht
              obtain ⟨Q, hQ, hTj⟩ := h.thr j t hj
              have hxo : o = .putI x := by
                cases o <;> simp [micI] at hxo
                rw [hxo]
              subst hxo
              unfold RTh.ops at hot
              split at hot
              · rename_i m2 d2 ops2 x2 ms2
                have e2 : x = d2 := hTj.2.2.2.1 _ hot
                subst e2
                have hij : i ≠ j := by
                  rintro rfl
                  rw [hi] at hj
                  injection hj with hj
                  injection hj with _ hj _
                  cases hj
                have := hy.own i j P Q hP hQ hij m hmP m2 (hTj.1 _ List.mem_cons_self) d x hT.2.1 hTj.2.1 e.symm
                obtain ⟨y, hy1, hy2⟩ := hasIndom_iff.1 this
                rw [hasIndom_iff.2 ⟨y, h.old y hy1, hy2⟩] at hh
                cases hh
              · exact hTj.2.1 _ hot
              · cases hot
      refine ⟨R, h.move hi rfl rfl (.refl _) h.ok rfl rfl rfl rfl (fun P hP hT => ⟨hT.1, hT.2.1, ?_, hk⟩)⟩
      intro ha
      rw [← hk]
      exact hT.2.2 ha
    · -- hasI2
      rename_i d again b
      obtain rfl := Option.some.inj hs
      have hr : s.li.readers ≠ 0 := by
        rw [h.li.readers]
        have : 0 < s.thr.countP RTh.rI := List.countP_pos_iff.2 ⟨_, List.mem_of_getElem? hi, rfl⟩
        omega
      have hr' : s.li.readers - 1 + 1 = s.li.readers := by omega
      cases again with
      | false =>
        cases b with
        | true =>
          refine ⟨R, h.move hi rfl rfl (.refl _) h.ok rfl rfl rfl hr' (fun P hP hT => ⟨hT.1, ?_⟩)⟩
          intro d' hd'
          rw [hT.2.1] at hd'
          obtain rfl := Option.some.inj hd'
          exact hT.2.2.2
        | false =>
          exact ⟨R, h.move hi rfl rfl (.refl _) h.ok rfl rfl rfl hr'
            (fun P hP hT => ⟨hT.1, hT.2.1, fun _ => hT.2.2.2⟩)⟩
      | true =>
        have hb : b = false := hT.2.2.1 rfl
        subst hb
        exact ⟨R, h.move hi rfl rfl (.refl _) h.ok rfl rfl rfl hr' (fun P hP hT => ⟨hT.1, hT.2.1, hT.2.2.2⟩)⟩
    · -- lockI
      rename_i d
      split at hs
      · cases hs
      rename_i hc
      simp only [Bool.or_eq_true, decide_eq_true_eq, not_or, Bool.not_eq_true, ne_eq, not_not] at hc
      obtain rfl := Option.some.inj hs
      exact ⟨R, h.move hi rfl rfl (.refl _) h.ok rfl rfl (by rw [hc.1]; rfl) (by rw [hc.2]; rfl)
        (fun P hP hT => ⟨hT.1, hT.2⟩)⟩
    · -- mappedI
      rename_i d
      obtain rfl := Option.some.inj hs
      rw [show s.reg.mapped = false from h.acc.mapped.trans h.mapped, if_neg (by decide)]
      obtain ⟨hmd, hno⟩ := hT.2
      obtain ⟨R', hR'⟩ : ∃ R', R.addIndom d = some R' := by
        unfold Reg.addIndom
        rw [hno, h.mapped]
        exact ⟨_, rfl⟩
      obtain ⟨q1, q2, q3, q4, _, _⟩ := h.inv.addIndom ((hy.wf m hmf).indom hmd) hR'
      have hpl : d.short = [] ∧ d.long = [] := by
        rcases hy.plain m hmf d hmd with h1 | h1
        · rw [h.has_old h1] at hno; cases hno
        · exact h1
      have hmono : ∀ n, R.hasIndom n = true → R'.hasIndom n = true := by
        intro n hn
        obtain ⟨x, hx, e⟩ := hasIndom_iff.1 hn
        exact hasIndom_iff.2 ⟨x, by rw [q2]; exact List.mem_append_left _ hx, e⟩
      have hself : R'.hasIndom d.name = true :=
        hasIndom_iff.2 ⟨d, by rw [q2]; exact List.mem_append_right _ (List.mem_singleton.2 rfl), rfl⟩
      refine ⟨R', h.enter hi q1 (q4.trans h.mapped) (fun ops hA => hA.enterI hR') rfl (by rw [q3]; exact .refl _) rfl ?_
        rfl rfl rfl rfl hmono ?_ ?_⟩
      · intro x hx
        rw [q2] at hx
        rcases List.mem_append.1 hx with hx | hx
        · exact .inl hx
        · rw [List.mem_singleton.1 hx]; exact .inr ⟨m, hmf, hmd⟩
      · intro j Q m2 d2 hij hQ hm2 hd2 hn2
        cases hh : R'.hasIndom d2.name with
        | false => rfl
        | true =>
          obtain ⟨x, hx, e⟩ := hasIndom_iff.1 hh
          rw [q2] at hx
          rcases List.mem_append.1 hx with hx | hx
          · rw [hasIndom_iff.2 ⟨x, hx, e⟩] at hn2; cases hn2
          · rw [List.mem_singleton.1 hx] at e
            have := h.has_old (hy.own i j P Q hP hQ hij m hmP m2 hm2 d d2 hmd hd2 e)
            rw [hno] at this; cases this
      · exact fun P hP hT => ⟨hT.1, hmd, hself, bodyI_isI hpl.1 hpl.2, xok_none _ _⟩
    · -- failI
      exact hT.2.elim
    · -- csI
      rename_i d ops x
      split at hs
      · rename_i r' ops' x' hcs
        obtain rfl := Option.some.inj hs
        exact ⟨R, h.cs hi hcs (.inr ⟨d, rfl, rfl⟩)⟩
      · rename_i hcs
        obtain rfl := Option.some.inj hs
        have hops : ops = [] := by
          unfold csStep at hcs
          split at hcs <;> first | rfl | cases hcs
        subst hops
        have hw : s.li.writer = true := by
          have h1 := h.li.writer
          have : 0 < s.thr.countP RTh.wI := List.countP_pos_iff.2 ⟨_, List.mem_of_getElem? hi, rfl⟩
          cases hh : s.li.writer with
          | true => rfl
          | false => rw [hh] at h1; simp at h1; omega
        refine ⟨R, h.move hi rfl rfl (.refl _) h.ok rfl rfl (by rw [hw]; rfl) rfl (fun P hP hT => ⟨hT.1, ?_⟩)⟩
        intro d' hd'
        rw [hT.2.1] at hd'
        obtain rfl := Option.some.inj hd'
        exact hT.2.2.1
    · -- lockM
      split at hs
      · cases hs
      rename_i hc
      simp only [Bool.or_eq_true, decide_eq_true_eq, not_or, Bool.not_eq_true, ne_eq, not_not] at hc
      obtain rfl := Option.some.inj hs
      have hf := h.fresh hy (todo_mem hi (m := m) List.mem_cons_self)
      have hinv := h.inv.addMetricUnchecked (hy.wf m hmf) hf (fun d hd => hasIndom_iff.1 (hT.2 d hd))
      refine ⟨R.addMetricUnchecked m, h.enter hi hinv h.mapped (fun ops hA => hA.enterM m) rfl ?_ rfl
        (fun d hd => .inl hd) (by rw [hc.1]; rfl) (by rw [hc.2]; rfl) rfl rfl (fun _ h => h) (fun _ _ _ _ _ _ _ _ h => h)
        (fun P hP hT => ⟨hT.1, bodyM_isM m, xok_none _ _⟩)⟩
      show (R.metrics ++ [m] ++ ms).Perm (R.metrics ++ m :: ms)
      rw [List.append_assoc]; exact .refl _
    · -- csM
      rename_i ops x
      split at hs
      · rename_i r' ops' x' hcs
        obtain rfl := Option.some.inj hs
        exact ⟨R, h.cs hi hcs (.inl ⟨rfl, rfl⟩)⟩
      · rename_i hcs
        obtain rfl := Option.some.inj hs
        have hops : ops = [] := by
          unfold csStep at hcs
          split at hcs <;> first | rfl | cases hcs
        subst hops
        have hw : s.lm.writer = true := by
          have h1 := h.lm.writer
          have : 0 < s.thr.countP RTh.wM := List.countP_pos_iff.2 ⟨_, List.mem_of_getElem? hi, rfl⟩
          cases hh : s.lm.writer with
          | true => rfl
          | false => rw [hh] at h1; simp at h1; omega
        refine ⟨R, h.move hi rfl rfl ?_ ?_ (by rw [hw]; rfl) rfl rfl rfl
          (fun P hP hT x hx => hT.1 x (List.mem_cons_of_mem _ hx))⟩
        · show ((s.log ++ [(m, true)]).map (·.1) ++ ms).Perm (s.log.map (·.1) ++ m :: ms)
          simp
        · intro x hx
          rcases List.mem_append.1 hx with hx | hx
          · exact h.ok x hx
          · rw [List.mem_singleton.1 hx]

theorem RCInv.reach (hy : RHyp r0 progs) {s' : RSt} (h : RCInv r0 progs R s) (hr : RReach s s') :
    ∃ R', RCInv r0 progs R' s' := by
  induction hr with
  | refl => exact ⟨R, h⟩
  | tail _ hs ih =>
    obtain ⟨R1, h1⟩ := ih
    exact h1.step hy hs

end

end Speed
