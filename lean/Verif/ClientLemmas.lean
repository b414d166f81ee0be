import Verif.Client
import Verif.PropsConfig
import Verif.PropsUnits
import Verif.PropsRegistry
import Verif.PropsConstruct
/-
Lemmas about client histories.
-/
namespace Speed

/-! ### Registry calls on a mapped registry -/

theorem apply_mapped {parse : Str → Option (Str × Str × Option (List Str))} {r : Reg} (h : r.mapped = true) {op : ROp} (hop : ∀ b, op ≠ .mapped b) :
    op.apply parse r = ⟨r, false⟩ := by
  have hM : ∀ m, r.addMetric m = ⟨r, false⟩ := by intro m; unfold Reg.addMetric; rw [if_pos h]
  have hI : ∀ d, r.addIndom d = none := by
    intro d; unfold Reg.addIndom; rw [if_pos h]; split <;> rfl
  have hN : ∀ uid name l, r.addIndomByName uid name l = none := by
    intro uid name l
    unfold Reg.addIndomByName
    split
    · rfl
    · split
      · rfl
      · rw [hI]
  cases op with
  | addIndom d => unfold ROp.apply; dsimp only; rw [hI]
  | addMetric m => exact hM m
  | byName uid name l => unfold ROp.apply; dsimp only; rw [hN]
  | byString uid duid str val t s u =>
    unfold ROp.apply Reg.addMetricByString
    dsimp only
    split
    · rfl
    · unfold Reg.addSingletonByString
      split
      · rfl
      · exact hM _
    · unfold Reg.addInstanceByString
      split
      · rfl
      · dsimp only
        split
        · rw [hN]
        · split
          · split
            · rfl
            · exact hM _
          · rfl
  | mapped b => exact absurd rfl (hop b)

/-- Registration leaves the `mapped` flag. -/
theorem apply_mapped_false {parse : Str → Option (Str × Str × Option (List Str))} {r : Reg} (h : r.mapped = false) {op : ROp} (hop : ∀ b, op ≠ .mapped b) :
    (op.apply parse r).reg.mapped = false := by
  have hI : ∀ d r', r.addIndom d = some r' → r'.mapped = false := by
    intro d r' hd
    unfold Reg.addIndom at hd
    split at hd
    · cases hd
    · split at hd
      · cases hd
      · rw [← Option.some.inj hd]; exact h
  have hM : ∀ (r : Reg), r.mapped = false → ∀ m, (r.addMetric m).reg.mapped = false := by
    intro r h m
    unfold Reg.addMetric
    rw [if_neg (by simp [h])]
    split
    · exact h
    · split
      · exact h
      · split
        · exact h
        · split
          · exact h
          · rename_i hd
            unfold Reg.addIndom at hd
            split at hd
            · cases hd
            · split at hd
              · cases hd
              · rw [← Option.some.inj hd]; exact h
  have hN : ∀ uid name l r' d, r.addIndomByName uid name l = some (r', d) → r'.mapped = false := by
    intro uid name l r' d hd
    unfold Reg.addIndomByName at hd
    split at hd
    · cases hd
    · split at hd
      · cases hd
      · split at hd
        · cases hd
        · rename_i ha
          simp only [Option.some.injEq, Prod.mk.injEq] at hd
          rw [← hd.1]; exact hI _ _ ha
  cases op with
  | addIndom d =>
    unfold ROp.apply; dsimp only
    split
    · rename_i ha; exact hI _ _ ha
    · exact h
  | addMetric m => exact hM r h m
  | byName uid name l =>
    unfold ROp.apply; dsimp only
    split
    · rename_i ha; exact hN _ _ _ _ _ ha
    · exact h
  | byString uid duid str val t s u =>
    unfold ROp.apply Reg.addMetricByString
    dsimp only
    split
    · exact h
    · unfold Reg.addSingletonByString
      split
      · exact h
      · exact hM r h _
    · unfold Reg.addInstanceByString
      split
      · exact h
      · dsimp only
        split
        · split
          · exact h
          · rename_i ha
            split
            · exact hN _ _ _ _ _ ha
            · exact hM _ (hN _ _ _ _ _ ha) _
        · split
          · split
            · exact h
            · exact hM r h _
          · exact h
  | mapped b => exact absurd rfl (hop b)

/-! ### Value calls and the registry -/

theorem storeVal_m (s : Option Str) (old v : GoVal) (u : Upd) (st : MSt) :
    (storeVal s old v u st).1.m = st.m ∨ (storeVal s old v u st).1.m = st.m.put s v := by
  unfold storeVal
  repeat' split
  all_goals first | exact .inl rfl | exact .inr rfl

/-- A value operation changes a metric by value updates only. -/
theorem Call.ind (c : Call) {P : Metric → Prop} (h : ∀ m s v, P m → P (m.update s v)) (u : Upd) (st : MSt) (h0 : P st.m) :
    P (c.op u st).1.m := by
  refine c.presAll u (fun st => P st.m) (fun _ _ => trivial) ?_ st h0
  intro st s old v hp _ _ hc _
  rcases storeVal_m s old (resolve st.m.desc.t v) u st with e | e <;> rw [e]
  · exact hp
  · have := h st.m s v hp
    unfold Metric.update at this
    rwa [if_pos hc] at this

/-- Everything about a metric that value operations leave alone. -/
def Metric.shape (m : Metric) : Nat × Kind × Desc × Option Indom × List (Option Str) :=
  (m.uid, m.kind, m.desc, m.indom, m.slots)

theorem update_shape (m : Metric) (s v) : (m.update s v).shape = m.shape := by
  unfold Metric.shape
  rw [update_uid, update_desc, update_indom]
  have h1 : (m.update s v).kind = m.kind := by unfold Metric.update; split <;> rfl
  have h2 : (m.update s v).slots = m.slots := update_slotNames m s v
  rw [h1, h2]

theorem Call.shape (c : Call) (u : Upd) (st : MSt) : (c.op u st).1.m.shape = st.m.shape :=
  c.ind (P := fun m => m.shape = st.m.shape) (fun m s v h => (update_shape m s v).trans h) u st rfl

theorem shape_desc {a b : Metric} (h : a.shape = b.shape) : a.desc = b.desc := congrArg (fun x => x.2.2.1) h
theorem shape_uid {a b : Metric} (h : a.shape = b.shape) : a.uid = b.uid := congrArg (fun x => x.1) h

theorem named_eq {l : List Metric} (hn : (l.map (fun m => m.desc.name)).Nodup) {a b : Metric} (ha : a ∈ l) (hb : b ∈ l)
    (h : a.desc.name = b.desc.name) : a = b := List.inj_on_of_nodup_map hn ha hb h

theorem replace_self {r : Reg} (hn : (r.metrics.map (fun m => m.desc.name)).Nodup) {m : Metric} (hm : m ∈ r.metrics) :
    r.replace m.desc.name m = r := by
  unfold Reg.replace
  have : r.metrics.map (fun x => if x.desc.name = m.desc.name then m else x) = r.metrics := by
    conv => rhs; rw [← List.map_id r.metrics]
    apply List.map_congr_left
    intro x hx
    split
    · rename_i h; exact (named_eq hn hx hm h).symm
    · rfl
  rw [this]

theorem replace_update (r : Reg) (name : Str) (m : Metric) (hm : m.desc.name = name) (s v) :
    r.replace name (m.update s v) = (r.replace name m).update name s v := by
  unfold Reg.replace Reg.update
  simp only [List.map_map]
  congr 1
  apply List.map_congr_left
  intro x _
  dsimp only [Function.comp]
  by_cases hx : x.desc.name = name
  · simp only [hx, hm, if_true]
  · simp only [hx, if_false]

theorem replace_map {β : Type} {r : Reg} (hn : (r.metrics.map (fun m => m.desc.name)).Nodup) {m m' : Metric} (hm : m ∈ r.metrics)
    (f : Metric → β) (hf : f m' = f m) : (r.replace m.desc.name m').metrics.map f = r.metrics.map f := by
  unfold Reg.replace
  rw [List.map_map]
  apply List.map_congr_left
  intro x hx
  dsimp only [Function.comp]
  split
  · rename_i h; rw [hf, named_eq hn hx hm h]
  · rfl

theorem Built.snoc {parse ops} {r : Reg} (hr : r = runHist parse Reg.empty ops) (hm : ∀ op ∈ ops, HOp.Made op) (op : HOp)
    (hop : op.Made) : Built (op.apply parse r) := by
  refine ⟨parse, ops ++ [op], ?_, by rw [runHist_snoc, hr]⟩
  intro x hx
  rcases List.mem_append.1 hx with h | h
  · exact hm x h
  · rw [List.mem_singleton.1 h]; exact hop

/-- A registry a program can have, given the parser in use. -/
def BuiltBy (parse : Str → Option (Str × Str × Option (List Str))) (r : Reg) : Prop :=
  ∃ ops, (∀ op ∈ ops, HOp.Made op) ∧ r = runHist parse Reg.empty ops

section
variable {parse : Str → Option (Str × Str × Option (List Str))} {r : Reg}

theorem BuiltBy.built (h : BuiltBy parse r) : Built r := by
  obtain ⟨ops, h1, h2⟩ := h
  exact ⟨parse, ops, h1, h2⟩

theorem BuiltBy.step (h : BuiltBy parse r) (op : HOp) (hop : op.Made) : BuiltBy parse (op.apply parse r) := by
  obtain ⟨ops, h1, h2⟩ := h
  refine ⟨ops ++ [op], ?_, by rw [runHist_snoc, h2]⟩
  intro x hx
  rcases List.mem_append.1 hx with h | h
  · exact h1 x h
  · rw [List.mem_singleton.1 h]; exact hop

theorem BuiltBy.mapped (h : BuiltBy parse r) (b : Bool) : BuiltBy parse { r with mapped := b } :=
  h.step (.reg (.mapped b)) trivial

theorem BuiltBy.nodup (h : BuiltBy parse r) : (r.metrics.map (fun m => m.desc.name)).Nodup := h.built.inv.unique.2

theorem BuiltBy.call (h : BuiltBy parse r) {m : Metric} (hm : m ∈ r.metrics) (c : Call) (u : Upd) (mem : Buf) :
    BuiltBy parse (r.replace m.desc.name (c.op u ⟨m, mem⟩).1.m) := by
  refine (c.ind (P := fun x => x.desc = m.desc ∧ BuiltBy parse (r.replace m.desc.name x)) ?_ u ⟨m, mem⟩ ⟨rfl, ?_⟩).2
  · rintro x s v ⟨h1, h2⟩
    refine ⟨(update_desc x s v).trans h1, ?_⟩
    rw [replace_update _ _ _ (by rw [h1])]
    exact h2.step (.set m.desc.name s v) trivial
  · dsimp only
    rw [replace_self h.nodup hm]
    exact h

end

/-! ### Every reachable registry is built by a history -/

theorem CStep.built {cf tmp parse w op w' res} (h : CStep cf tmp parse w op w' res) (hb : BuiltBy parse w.reg) :
    BuiltBy parse w'.reg := by
  cases h with
  | new_err => exact hb
  | new_ok => exact hb
  | setFlag => unfold Sys.setFlag; split <;> exact hb
  | reg _ _ hm => exact hb.step (.reg _) hm
  | call_free _ hm hn => subst hn; exact hb.call hm _ _ _
  | call_live _ hm hn => subst hn; exact hb.call hm _ _ _
  | @call_dead name m c n u m' a _ hm hn _ _ ht =>
    subst hn
    have := hb.call hm c u []
    rw [ht []] at this
    exact this
  | call_crash => exact hb
  | start_err => exact hb
  | start_ok => exact hb.mapped true
  | start_crash => exact hb
  | stop =>
    unfold Sys.stop
    split
    · exact hb
    · dsimp only
      split <;> exact hb.mapped false

theorem CSteps.built {cf tmp parse w ops w'} (h : CSteps cf tmp parse w ops w') (hb : BuiltBy parse w.reg) :
    BuiltBy parse w'.reg := by
  induction h with
  | nil => exact hb
  | cons h _ ih => exact ih (h.built hb)

theorem builtBy_empty {parse} : BuiltBy parse Reg.empty := ⟨[], by simp, rfl⟩

/-! ### Frozen registries -/

/-- `r'` has the metrics, domains and counts of `r`; only values may differ. -/
structure Frozen (r r' : Reg) : Prop where
  indoms : r'.indoms = r.indoms
  metrics : r'.metrics.map Metric.shape = r.metrics.map Metric.shape
  instanceCount : r'.instanceCount = r.instanceCount
  valueCount : r'.valueCount = r.valueCount
  stringcount : r'.stringcount = r.stringcount
  version2 : r'.version2 = r.version2

theorem Frozen.refl (r : Reg) : Frozen r r := ⟨rfl, rfl, rfl, rfl, rfl, rfl⟩

theorem Frozen.trans {a b c : Reg} (h : Frozen a b) (h' : Frozen b c) : Frozen a c :=
  ⟨h'.1.trans h.1, h'.2.trans h.2, h'.3.trans h.3, h'.4.trans h.4, h'.5.trans h.5, h'.6.trans h.6⟩

theorem Frozen.length {r r' : Reg} (h : Frozen r r') : r'.Length = r.Length := by
  have hm : r'.metrics.length = r.metrics.length := by
    have := congrArg List.length h.metrics
    simpa using this
  have h1 : r'.InstanceCount = r.InstanceCount := h.instanceCount
  have h2 : r'.MetricCount = r.MetricCount := hm
  have h3 : r'.StringCount = r.StringCount := by
    unfold Reg.StringCount; rw [h1, h2, h.version2, h.stringcount]
  have h4 : r'.InstanceDomainCount = r.InstanceDomainCount := by unfold Reg.InstanceDomainCount; rw [h.indoms]
  have h5 : r'.ValuesCount = r.ValuesCount := h.valueCount
  have h6 : r'.InstanceLength = r.InstanceLength := by unfold Reg.InstanceLength; rw [h.version2]
  have h7 : r'.MetricLength = r.MetricLength := by unfold Reg.MetricLength; rw [h.version2]
  have h8 : r'.tocCount = r.tocCount := by unfold Reg.tocCount; rw [h1, h3]
  unfold Reg.Length
  rw [h1, h2, h3, h4, h5, h6, h7, h8]

theorem frozen_replace {r : Reg} (hn : (r.metrics.map (fun m => m.desc.name)).Nodup) {m m' : Metric} (hm : m ∈ r.metrics)
    (hs : m'.shape = m.shape) : Frozen r (r.replace m.desc.name m') :=
  ⟨rfl, replace_map hn hm _ hs, rfl, rfl, rfl, rfl⟩

/-- While the registry is mapped, every call but `Stop` leaves it mapped and frozen, and leaves the flags. -/
theorem CStep.frozen {cf tmp parse w op w' res} (h : CStep cf tmp parse w op w' res) (hb : BuiltBy parse w.reg)
    (hmap : w.reg.mapped = true) (hns : ∀ i erase os, op ≠ .stop i erase os) :
    w'.reg.mapped = true ∧ Frozen w.reg w'.reg ∧ ∀ (i : Nat) (c : Client), w.clients[i]? = some c → ∃ c' : Client, w'.clients[i]? = some c' ∧ c'.flag = c.flag := by
  have same : ∀ (i : Nat) (c : Client), w.clients[i]? = some c → ∃ c' : Client, w.clients[i]? = some c' ∧ c'.flag = c.flag :=
    fun i c h => ⟨c, h, rfl⟩
  cases h with
  | new_err => exact ⟨hmap, .refl _, same⟩
  | new_ok =>
    refine ⟨hmap, .refl _, fun i c h => ⟨c, ?_, rfl⟩⟩
    dsimp only
    rw [List.getElem?_append_left (List.getElem?_eq_some_iff.1 h).1]; exact h
  | setFlag => unfold Sys.setFlag; rw [if_pos hmap]; exact ⟨hmap, .refl _, same⟩
  | reg _ hno => rw [apply_mapped hmap hno]; exact ⟨hmap, .refl _, same⟩
  | call_free _ hm hn => subst hn; exact ⟨hmap, frozen_replace hb.nodup hm (Call.shape _ _ _), same⟩
  | call_live _ hm hn => subst hn; exact ⟨hmap, frozen_replace hb.nodup hm (Call.shape _ _ _), same⟩
  | @call_dead name m c n u m' a _ hm hn _ _ ht =>
    subst hn
    have := Call.shape c u ⟨m, []⟩
    rw [ht []] at this
    exact ⟨hmap, frozen_replace hb.nodup hm this, same⟩
  | call_crash => exact ⟨hmap, .refl _, same⟩
  | start_err => exact ⟨hmap, .refl _, same⟩
  | @start_ok i c _ _ _ _ _ _ _ _ _ hc =>
    refine ⟨rfl, ⟨rfl, rfl, rfl, rfl, rfl, rfl⟩, fun j d hj => ?_⟩
    unfold Sys.started
    dsimp only
    by_cases hij : j = i
    · subst hij
      rw [hc] at hj
      obtain rfl := Option.some.inj hj
      exact ⟨_, List.getElem?_set_self (List.getElem?_eq_some_iff.1 hc).1, rfl⟩
    · exact ⟨d, by rw [List.getElem?_set_ne (fun h => hij h.symm)]; exact hj, rfl⟩
  | start_crash => exact ⟨hmap, .refl _, same⟩
  | stop => exact absurd rfl (hns _ _ _)

/-! ### `NewMemoryMappedWriter` and `Unmap` -/

theorem openMMW_some {fs fs' : FS} {loc : Str} {size n : Nat} {os : StartOS} (h : openMMW fs loc size os = (fs', some n)) :
    n = fs.next ∧ fs'.next = fs.next + 1 ∧ fs'.maps = n :: fs.maps ∧ fs'.handles = n :: fs.handles ∧
    fs'.names = fset fs.names loc (some n) ∧ fs'.data n = zeros size ∧ (∀ k, k ≠ n → fs'.data k = fs.data k) ∧
    os.writeErr = false ∧ size ≤ os.written ∧ os.mmapErr = false := by
  unfold openMMW at h
  dsimp only at h
  split at h
  · cases h
  · split at h
    · cases h
    · split at h
      · cases h
      · split at h
        · cases h
        · split at h
          · cases h
          · rename_i h1 h2 h3
            simp only [Prod.mk.injEq, Option.some.injEq] at h
            obtain ⟨rfl, rfl⟩ := h
            refine ⟨rfl, rfl, rfl, rfl, rfl, ?_, ?_, by simpa using h1, by omega, by simpa using h3⟩
            · simp only [FS.create, fset, if_true]; congr 1; omega
            · intro k hk
              simp only [FS.create, fset, if_neg hk]

/-- A successful `NewMemoryMappedWriter`. -/
theorem newMMW_some {fs fs' : FS} {loc : Str} {size n : Nat} {os : StartOS} (h : newMMW fs loc size os = (fs', some n)) :
    n = fs.next ∧ fs'.next = fs.next + 1 ∧ fs'.maps = n :: fs.maps ∧ fs'.handles = n :: fs.handles ∧
    fs'.names = fset fs.names loc (some n) ∧ fs'.data n = zeros size ∧ (∀ k, k ≠ n → fs'.data k = fs.data k) ∧
    os.writeErr = false ∧ size ≤ os.written ∧ os.mmapErr = false := by
  unfold newMMW at h
  split at h
  · split at h
    · cases h
    · obtain ⟨h1, h2, h3, h4, h5, h6⟩ := openMMW_some h
      refine ⟨h1, h2, h3, h4, ?_, h6⟩
      rw [h5]
      funext x
      simp only [FS.remove, fset]
      split <;> rfl
  · exact openMMW_some h

/-- A failed one. -/
def MMWFailed (fs : FS) (size : Nat) (os : StartOS) (fs' : FS) : Prop :=
    fs.next ≤ fs'.next ∧ fs'.maps = fs.maps ∧ (∀ k, k < fs.next → fs'.data k = fs.data k) ∧
    (∀ l n, fs'.names l = some n → n < fs'.next ∨ fs.names l = some n) ∧
    (fs'.handles = fs.handles ∨ fs'.handles = fs.next :: fs.handles ∧ (os.writeErr = true ∨ os.written < size ∨ os.mmapErr = true))

theorem MMWFailed.refl (fs : FS) (size os) : MMWFailed fs size os fs :=
  ⟨Nat.le_refl _, rfl, fun _ _ => rfl, fun _ _ h => .inr h, .inl rfl⟩

theorem openMMW_none {fs fs' : FS} {loc : Str} {size : Nat} {os : StartOS} (h : openMMW fs loc size os = (fs', none)) :
    MMWFailed fs size os fs' := by
  have late : ∀ F : FS, F = { fs.create loc with data := fset (fs.create loc).data fs.next (zeros (min os.written size)) } →
      (os.writeErr = true ∨ os.written < size ∨ os.mmapErr = true) → MMWFailed fs size os F := by
    rintro F rfl hf
    refine ⟨Nat.le_succ _, rfl, ?_, ?_, .inr ⟨rfl, hf⟩⟩
    · intro k hk
      have : k ≠ fs.next := by omega
      simp only [FS.create, fset, if_neg this]
    · intro l n hn
      simp only [FS.create, fset] at hn ⊢
      split at hn
      · left; injection hn with hn; omega
      · right; exact hn
  unfold openMMW at h
  dsimp only at h
  split at h
  · simp only [Prod.mk.injEq, and_true] at h; subst h; exact .refl _ _ _
  · split at h
    · simp only [Prod.mk.injEq, and_true] at h; subst h; exact .refl _ _ _
    · split at h
      · simp only [Prod.mk.injEq, and_true] at h
        exact late _ h.symm (.inl (by assumption))
      · split at h
        · simp only [Prod.mk.injEq, and_true] at h
          exact late _ h.symm (.inr (.inl (by assumption)))
        · split at h
          · simp only [Prod.mk.injEq, and_true] at h
            exact late _ h.symm (.inr (.inr (by assumption)))
          · cases h

theorem newMMW_none {fs fs' : FS} {loc : Str} {size : Nat} {os : StartOS} (h : newMMW fs loc size os = (fs', none)) :
    MMWFailed fs size os fs' := by
  unfold newMMW at h
  split at h
  · split at h
    · simp only [Prod.mk.injEq, and_true] at h; subst h; exact .refl _ _ _
    · obtain ⟨h1, h2, h3, h4, h5⟩ := openMMW_none h
      refine ⟨h1, h2, h3, fun l n hn => ?_, h5⟩
      rcases h4 l n hn with h | h
      · exact .inl h
      · right
        simp only [FS.remove, fset] at h
        split at h
        · cases h
        · exact h
  · exact openMMW_none h

theorem unmap_spec (fs : FS) (n : Nat) (loc : Str) (erase : Bool) (os : StopOS) :
    (fs.unmap n loc erase os).1.next = fs.next ∧ (fs.unmap n loc erase os).1.data = fs.data ∧
    (∀ l k, (fs.unmap n loc erase os).1.names l = some k → fs.names l = some k) ∧
    (fs.unmap n loc erase os).1.maps = (if os.munmapErr then fs.maps else fs.maps.erase n) := by
  unfold FS.unmap
  split
  · exact ⟨rfl, rfl, fun _ _ => id, rfl⟩
  · dsimp only
    split
    · exact ⟨rfl, rfl, fun _ _ => id, rfl⟩
    · split
      · split
        · exact ⟨rfl, rfl, fun _ _ => id, rfl⟩
        · refine ⟨rfl, rfl, fun l k => ?_, rfl⟩
          simp only [FS.remove, fset]
          split
          · intro h; cases h
          · exact id
      · exact ⟨rfl, rfl, fun _ _ => id, rfl⟩

theorem unmap_ok {fs : FS} {n : Nat} {loc : Str} {erase : Bool} {os : StopOS} (h : (fs.unmap n loc erase os).2 = true) :
    (fs.unmap n loc erase os).1.maps = fs.maps.erase n ∧ (fs.unmap n loc erase os).1.handles = fs.handles.erase n ∧
    (erase = true → (fs.unmap n loc erase os).1.names = fset fs.names loc none) := by
  unfold FS.unmap at h ⊢
  obtain ⟨a, b, c⟩ := os
  cases a <;> cases b <;> cases c <;> cases erase <;> cases hn : fs.names loc <;> simp_all [FS.remove]

theorem unmap_keep (fs : FS) (n : Nat) (loc : Str) (os : StopOS) : (fs.unmap n loc false os).1.names = fs.names := by
  unfold FS.unmap
  obtain ⟨a, b, c⟩ := os
  cases a <;> cases b <;> cases c <;> simp

theorem unmap_fine {fs : FS} {n : Nat} {loc : Str} {erase : Bool} (h : erase = true → (fs.names loc).isSome = true) :
    (fs.unmap n loc erase ⟨false, false, false⟩).2 = true := by
  unfold FS.unmap
  cases erase
  · simp
  · have := h rfl
    cases hn : fs.names loc <;> simp_all

/-! ### Histories with one client -/

/-- Conditions on a call: there is one client; `Start` is called for a registry that it can publish (see
`Reg.Publishable`; the other registries are the subject of C44-C47); strings passed while the client is
active have at most 256 bytes. -/
def Fair (w : Sys) : COp → Prop
  | .new _ => w.clients = []
  | .start _ _ _ _ => w.reg.Publishable ∧ w.reg.Small
  | .call _ c => w.reg.mapped = true → c.Fits
  | _ => True

/-- File numbers in use are below `next`. -/
structure FS.OK (fs : FS) : Prop where
  names : ∀ l n, fs.names l = some n → n < fs.next
  maps : ∀ n ∈ fs.maps, n < fs.next
  nodup : fs.maps.Nodup

/-- The states of a program with one client. -/
inductive CHist (cf : Conf) (tmp : Str) (parse : Str → Option (Str × Str × Option (List Str))) : Sys → Prop
  | init {fs : FS} : fs.OK → CHist cf tmp parse (Sys.init fs)
  | step {w op w' res} : CHist cf tmp parse w → CStep cf tmp parse w op w' res → Fair w op → CHist cf tmp parse w'

/-- The client is active: `n` is the file of its writer, and the mapped memory, the closures and the registry
are those of a started client. -/
structure ActiveAt (w : Sys) (c : Client) (n : Nat) : Prop where
  client : w.clients = [c]
  writer : c.writer = some n
  mapped : n ∈ w.fs.maps
  live : ∃ gen pid o b live, Active ⟨c.flag, c.clusterID, gen, pid⟩ o live ∧ live.reg = { w.reg with mapped := b } ∧
    live.mem = w.fs.data n ∧ ∀ m ∈ w.reg.metrics, w.upd m.uid = some (n, fun s => live.cells (.upd m.uid s))

structure CInv (parse : Str → Option (Str × Str × Option (List Str))) (w : Sys) : Prop where
  built : BuiltBy parse w.reg
  one : w.clients.length ≤ 1
  fs : w.fs.OK
  idle : w.reg.mapped = false → ∀ c ∈ w.clients, c.writer = none
  act : w.reg.mapped = true → ∃ c n, ActiveAt w c n

theorem replace_setMetric {r : Reg} (hn : (r.metrics.map (fun m => m.desc.name)).Nodup) (hu : (r.metrics.map (·.uid)).Nodup)
    {m m' : Metric} (hm : m ∈ r.metrics) (hs : m'.shape = m.shape) : r.replace m.desc.name m' = r.setMetric m' := by
  unfold Reg.replace Reg.setMetric
  congr 1
  apply List.map_congr_left
  intro x hx
  by_cases h : x.desc.name = m.desc.name
  · rw [if_pos h, named_eq hn hx hm h, if_pos (shape_uid hs).symm]
  · rw [if_neg h, if_neg]
    intro hh
    exact h (by rw [eq_of_uid hu hx hm (hh.trans (shape_uid hs))])

theorem only_client {w : Sys} (h : w.clients.length ≤ 1) {i : Nat} {c : Client} (hc : w.clients[i]? = some c) :
    i = 0 ∧ w.clients = [c] := by
  obtain ⟨l, hl⟩ : ∃ l, l = w.clients := ⟨_, rfl⟩
  rw [← hl] at h hc ⊢
  match l, h with
  | [], _ => simp at hc
  | [d], _ =>
    cases i with
    | zero => simp at hc; exact ⟨rfl, by rw [hc]⟩
    | succ i => simp at hc

theorem mem_replace {r : Reg} {name : Str} {m' x : Metric} (h : x ∈ (r.replace name m').metrics) :
    x = m' ∧ (∃ y ∈ r.metrics, y.desc.name = name) ∨ x ∈ r.metrics := by
  unfold Reg.replace at h
  obtain ⟨y, hy, h2⟩ := List.mem_map.1 h
  split at h2
  · exact .inl ⟨h2.symm, y, hy, by assumption⟩
  · subst h2; exact .inr hy

theorem CInv.step {cf tmp parse w op w' res} (h : CInv parse w) (hs : CStep cf tmp parse w op w' res) (hf : Fair w op) :
    CInv parse w' := by
  have hb := hs.built h.built
  cases hs with
  | new_err => exact h
  | @new_ok name c _ hc =>
    have hw : w.clients = [] := hf
    refine ⟨hb, by simp [hw], h.fs, ?_, ?_⟩
    · intro _ d hd
      simp only [hw, List.nil_append, List.mem_singleton] at hd
      subst hd
      unfold newClient at hc
      obtain ⟨loc, _, rfl⟩ := Option.map_eq_some_iff.1 hc
      rfl
    · intro hm
      obtain ⟨c', n, h1, _⟩ := h.act hm
      rw [hw] at h1; cases h1
  | @setFlag i c flag _ hc =>
    unfold Sys.setFlag at hb ⊢
    by_cases hm : w.reg.mapped = true
    · rw [if_pos hm] at hb ⊢; exact h
    · rw [if_neg hm] at hb ⊢
      refine ⟨hb, by simpa using h.one, h.fs, ?_, fun hm' => absurd hm' hm⟩
      intro hm' d hd
      obtain ⟨rfl, hw⟩ := only_client h.one hc
      simp only [hw, List.set_cons_zero, List.mem_singleton] at hd
      subst hd
      exact h.idle hm' c (by rw [hw]; simp)
  | @reg op _ hno hmade =>
    by_cases hm : w.reg.mapped = true
    · rw [apply_mapped hm hno] at hb ⊢; exact h
    · have hm' : (op.apply parse w.reg).reg.mapped = false := by
        simp only [Bool.not_eq_true] at hm
        exact apply_mapped_false hm hno
      exact ⟨hb, h.one, h.fs, fun _ => h.idle (by simpa using hm), fun hx => by rw [show _ = true from hx] at hm'; cases hm'⟩
  | @call_free name m c _ hm hn hu =>
    refine ⟨hb, h.one, h.fs, h.idle, fun hmap => ?_⟩
    obtain ⟨c, n, _, _, _, gen, pid, o, b, live, _, _, _, g4⟩ := h.act hmap
    rw [g4 m hm] at hu; cases hu
  | @call_live name m c n u _ hm hn hu hmaps =>
    subst hn
    refine ⟨hb, h.one, ⟨h.fs.names, h.fs.maps, h.fs.nodup⟩, h.idle, fun hmap => ?_⟩
    obtain ⟨cl, n', a1, a2, a3, gen, pid, o, b, live, g1, g2, g3, g4⟩ := h.act hmap
    have hu' := g4 m hm
    rw [hu] at hu'
    simp only [Option.some.injEq, Prod.mk.injEq] at hu'
    obtain ⟨rfl, rfl⟩ := hu'
    refine ⟨cl, n, a1, a2, a3, gen, pid, o, b, _, g1.call c (by rw [g2]; exact hm) (hf hmap), ?_, ?_, ?_⟩
    · obtain ⟨σ, hl, _⟩ := g1.liveAt
      have hnod := hl.ok.metricUid
      rw [g2] at hnod
      rw [replace_setMetric h.built.nodup hnod hm (Call.shape _ _ _)]
      unfold Live.call Live.put
      dsimp only
      rw [g2, g3]
      rfl
    · unfold Live.call Live.put
      dsimp only [fset]
      rw [if_pos rfl, g3]
      rfl
    · intro x hx
      have : ∃ y ∈ w.reg.metrics, y.uid = x.uid := by
        rcases mem_replace hx with ⟨rfl, _⟩ | hx
        · exact ⟨m, hm, (shape_uid (Call.shape c _ ⟨m, _⟩)).symm⟩
        · exact ⟨x, hx, rfl⟩
      obtain ⟨y, hy, he⟩ := this
      rw [← he]
      exact g4 y hy
  | @call_dead name m c n u m' a _ hm hn hu hmaps _ =>
    refine ⟨hb, h.one, h.fs, h.idle, fun hmap => ?_⟩
    obtain ⟨cl, n', a1, a2, a3, gen, pid, o, b, live, g1, g2, g3, g4⟩ := h.act hmap
    rw [g4 m hm] at hu
    simp only [Option.some.injEq, Prod.mk.injEq] at hu
    rw [hu.1] at a3
    exact absurd a3 hmaps
  | call_crash =>
    refine ⟨hb, h.one, h.fs, h.idle, fun hmap => ?_⟩
    obtain ⟨cl, n', a1, a2, a3, hl⟩ := h.act hmap
    exact ⟨cl, n', a1, a2, a3, hl⟩
  | @start_err i c gen pid os fs _ hc hn =>
    obtain ⟨g1, g2, g3, g4, g5⟩ := newMMW_none hn
    refine ⟨hb, h.one, ⟨?_, ?_, ?_⟩, h.idle, fun hmap => ?_⟩
    · intro l n hl
      rcases g4 l n hl with hl | hl
      · exact hl
      · exact Nat.lt_of_lt_of_le (h.fs.names l n hl) g1
    · intro n hn; dsimp only at hn; rw [g2] at hn; exact Nat.lt_of_lt_of_le (h.fs.maps n hn) g1
    · dsimp only; rw [g2]; exact h.fs.nodup
    · obtain ⟨cl, n', a1, a2, a3, gen, pid, o, b, live, k1, k2, k3, k4⟩ := h.act hmap
      refine ⟨cl, n', a1, a2, by dsimp only; rw [g2]; exact a3, gen, pid, o, b, live, k1, k2, ?_, k4⟩
      dsimp only
      rw [g3 n' (h.fs.maps n' a3)]
      exact k3
  | @start_ok i c gen pid os fs n o cells s _ hc hn ho hr hret =>
    obtain ⟨g1, g2, g3, g4, g5, g6, g7, _⟩ := newMMW_some hn
    obtain ⟨rfl, hw⟩ := only_client h.one hc
    refine ⟨hb, by simp [Sys.started, hw], ⟨?_, ?_, ?_⟩, fun hx => (by cases hx), fun _ => ⟨{ c with writer := some n }, n, ?_, rfl, ?_, ?_⟩⟩
    · intro l k hl
      simp only [Sys.started, g5, fset] at hl
      simp only [Sys.started, g2]
      split at hl
      · injection hl with hl; omega
      · have := h.fs.names l k hl; omega
    · intro k hk
      simp only [Sys.started, g3, List.mem_cons] at hk
      simp only [Sys.started, g2]
      rcases hk with hk | hk
      · omega
      · have := h.fs.maps k hk; omega
    · simp only [Sys.started, g3, List.nodup_cons]
      refine ⟨fun hk => ?_, h.fs.nodup⟩
      have := h.fs.maps n hk; omega
    · simp [Sys.started, hw]
    · simp [Sys.started, g3]
    · refine ⟨gen, pid, o, w.reg.mapped, _, Active.start ⟨h.built.built, hf.1, hf.2, ho, ⟨cells, hr⟩, hret⟩, rfl, ?_, ?_⟩
      · simp [Sys.started, fset]
      · intro m hm
        have hm' : m.uid ∈ w.reg.metrics.map (·.uid) := List.mem_map.2 ⟨m, hm, rfl⟩
        simp only [Sys.started, if_pos hm']
  | start_crash =>
    refine ⟨hb, h.one, h.fs, h.idle, fun hmap => ?_⟩
    obtain ⟨cl, n', a1, a2, a3, hl⟩ := h.act hmap
    exact ⟨cl, n', a1, a2, a3, hl⟩
  | @stop i c erase os _ hc =>
    unfold Sys.stop at hb ⊢
    by_cases hm : w.reg.mapped = false
    · rw [if_pos hm] at hb ⊢; exact h
    · rw [if_neg hm] at hb ⊢
      obtain ⟨cl, n, a1, a2, a3, hl⟩ := h.act (by simpa using hm)
      obtain ⟨rfl, hw⟩ := only_client h.one hc
      rw [a1] at hw
      obtain rfl := (List.cons.inj hw).1
      dsimp only at hb ⊢
      rw [a2] at hb ⊢
      dsimp only at hb ⊢
      obtain ⟨u1, u2, u3, u4⟩ := unmap_spec w.fs n cl.loc erase os
      refine ⟨hb, by simpa using h.one, ⟨?_, ?_, ?_⟩, ?_, fun hx => by cases hx⟩
      · intro l k hl; rw [u1]; exact h.fs.names l k (u3 l k hl)
      · intro k hk
        rw [u1]
        rw [u4] at hk
        split at hk
        · exact h.fs.maps k hk
        · exact h.fs.maps k (List.mem_of_mem_erase hk)
      · rw [u4]
        split
        · exact h.fs.nodup
        · exact h.fs.nodup.erase _
      · intro _ d hd
        simp only [a1, List.set_cons_zero, List.mem_singleton] at hd
        subst hd
        rfl

theorem CHist.inv {cf tmp parse w} (h : CHist cf tmp parse w) : CInv parse w := by
  induction h with
  | init hfs => exact ⟨builtBy_empty, by simp [Sys.init], hfs, fun _ c hc => by simp [Sys.init] at hc, fun hx => by cases hx⟩
  | step _ hs hf ih => exact ih.step hs hf

end Speed
