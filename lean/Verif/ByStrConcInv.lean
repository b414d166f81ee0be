import Verif.ByStrConc
import Verif.PropsRegConc
import Verif.PropsByString
/-
Concurrent registration by string: the invariant. Every state corresponds to a state of `RegConc` in which the goroutines
that create a domain are inside the `AddMetric` of the metric to come; the invariant of `RegConc` holds there.
-/
namespace Speed

/-! ### The calls of one goroutine alone -/

/-- The calls of a goroutine, if it is alone and the domains `L` are registered; `M c` is the metric that `c` registers. -/
inductive Solo (parse : Str → Option (Str × Str × Option (List Str))) (M : BCall → Metric) : List Indom → List BCall → Prop
  | nil {L} : Solo parse M L []
  | single {L c cs name x} : parse c.str = some (name, x, none) → c.single name = some (M c) → (M c).indom = none →
      Solo parse M L cs → Solo parse M L (c :: cs)
  | found {L c cs name dom ins mp d} : parse c.str = some (name, dom, some ins) → c.val = .insts mp → d ∈ L → d.name = dom →
      d.matchInstances ins = true → BArgs.inst ⟨c, name, dom, ins, mp⟩ d = some (M c) → (M c).indom = some d →
      Solo parse M L cs → Solo parse M L (c :: cs)
  | new {L c cs name dom ins mp d} : parse c.str = some (name, dom, some ins) → c.val = .insts mp →
      (∀ d' ∈ L, d'.name ≠ dom) → newIndom c.duid dom ins [] = some d → d.name = dom →
      BArgs.inst ⟨c, name, dom, ins, mp⟩ d = some (M c) → (M c).indom = some d →
      Solo parse M (L ++ [d]) cs → Solo parse M L (c :: cs)

/-- The domains after the calls. -/
theorem Solo.facts {parse M} {L : List Indom} {cs : List BCall} (h : Solo parse M L cs) (hwf : ∀ d ∈ L, d.WF)
    (hnd : (L.map (·.name)).Nodup) :
    ∃ E : List Indom, (∀ d ∈ L, d ∈ E) ∧ (E.map (·.name)).Nodup ∧ (∀ d ∈ E, d ∈ L ∨ (d.short = [] ∧ d.long = [])) ∧
      ∀ c ∈ cs, (M c).WF ∧ ∀ d, (M c).indom = some d → d ∈ E := by
  induction h with
  | nil => exact ⟨_, fun d hd => hd, hnd, fun d hd => .inl hd, by simp⟩
  | single _ h2 h3 _ ih =>
    obtain ⟨E, e1, e2, e3, e4⟩ := ih hwf hnd
    refine ⟨E, e1, e2, e3, ?_⟩
    intro c hc
    rcases List.mem_cons.1 hc with rfl | hc
    · exact ⟨(newSingle_wf (.inl rfl) h2).1, fun d hd => by rw [h3] at hd; cases hd⟩
    · exact e4 c hc
  | found _ _ hd _ _ h2 h3 _ ih =>
    obtain ⟨E, e1, e2, e3, e4⟩ := ih hwf hnd
    refine ⟨E, e1, e2, e3, ?_⟩
    intro c hc
    rcases List.mem_cons.1 hc with rfl | hc
    · refine ⟨(newInst_wf (.inl rfl) (hwf _ hd) h2).1, fun d' hd' => ?_⟩
      rw [h3] at hd'; cases hd'; exact e1 _ hd
    · exact e4 c hc
  | @new L c cs name dom ins mp d _ _ hno hnew hn h2 h3 _ ih =>
    have hw := newIndom_wf hnew
    have hwf' : ∀ x ∈ L ++ [d], x.WF := by
      intro x hx
      rcases List.mem_append.1 hx with hx | hx
      · exact hwf x hx
      · rw [List.mem_singleton.1 hx]; exact hw.1
    obtain ⟨E, e1, e2, e3, e4⟩ := ih hwf' (by
      rw [List.map_append, List.nodup_append]
      refine ⟨hnd, by simp, ?_⟩
      intro a ha b hb
      obtain ⟨x, hx, rfl⟩ := List.mem_map.1 ha
      simp only [List.map_cons, List.map_nil, List.mem_singleton] at hb
      rw [hb, hn]; exact hno x hx)
    have hdE : d ∈ E := e1 d (by simp)
    refine ⟨E, fun x hx => e1 x (List.mem_append_left _ hx), e2, ?_, ?_⟩
    · intro x hx
      rcases e3 x hx with h | h
      · rcases List.mem_append.1 h with h | h
        · exact .inl h
        · rw [List.mem_singleton.1 h]
          have := hw.2.2.2.2
          simp only [descs, Option.some.injEq, Prod.mk.injEq] at this
          exact .inr ⟨this.1.symm, this.2.symm⟩
      · exact .inr h
    · intro x hx
      rcases List.mem_cons.1 hx with rfl | hx
      · refine ⟨(newInst_wf (.inl rfl) hw.1 h2).1, fun d' hd' => ?_⟩
        rw [h3] at hd'; cases hd'; exact hdE
      · exact e4 x hx

/-! ### `AddMetric` of a metric whose domain is registered -/

def RTh.app (rem : List Metric) : RTh → RTh
  | .idle ms => .idle (ms ++ rem)
  | .busy m pc ms => .busy m pc (ms ++ rem)

def RPc.NoI (m : Metric) : RPc → Prop
  | .hasI0 d again => again = false ∧ m.indom = some d
  | .hasI1 d again => again = false ∧ m.indom = some d
  | .hasI2 _ again b => again = false ∧ b = true
  | .lockI _ => False
  | .mappedI _ => False
  | .csI _ _ _ => False
  | .failI => False
  | .csM ops _ => ∀ o ∈ ops, o.isM
  | _ => True

/-- The domains of the metrics are registered, so that none is added. -/
def RTh.NoI (r : Reg) : RTh → Prop
  | .idle ms => ∀ m ∈ ms, ∀ d, m.indom = some d → r.hasIndom d.name = true
  | .busy m pc ms => (∀ x ∈ m :: ms, ∀ d, x.indom = some d → r.hasIndom d.name = true) ∧ pc.NoI m

theorem RTh.NoI.mono {r r' : Reg} {t : RTh} (h : t.NoI r) (hr : ∀ n, r.hasIndom n = true → r'.hasIndom n = true) : t.NoI r' := by
  cases t with
  | idle ms => exact fun m hm d hd => hr _ (h m hm d hd)
  | busy m pc ms => exact ⟨fun x hx d hd => hr _ (h.1 x hx d hd), h.2⟩

theorem csStep_isM {r r' : Reg} {ops ops' : List Mic} {x x' : Option Nat} (h : csStep r ops x = some (r', ops', x'))
    (ho : ∀ o ∈ ops, o.isM) : r'.indoms = r.indoms := by
  unfold csStep at h
  split at h
  · cases h
  all_goals
    obtain ⟨rfl, rfl, rfl⟩ : _ ∧ _ ∧ _ := by simpa using h
  · rfl
  · exact (ho _ List.mem_cons_self).elim
  · rfl
  · rename_i c n k v; cases c <;> rfl
  · rfl
  · split <;> rfl

theorem csStep_isI {r r' : Reg} {ops ops' : List Mic} {x x' : Option Nat} {d : Indom} (h : csStep r ops x = some (r', ops', x'))
    (ho : ∀ o ∈ ops, o.isI d) : r'.indoms = r.indoms ∨ r'.indoms = (r.putIndom d).indoms := by
  unfold csStep at h
  split at h
  · cases h
  all_goals
    obtain ⟨rfl, rfl, rfl⟩ : _ ∧ _ ∧ _ := by simpa using h
  · exact .inl rfl
  · have : _ = d := ho _ List.mem_cons_self
    rw [this]; exact .inr rfl
  · exact .inl rfl
  · rename_i c n k v; cases c <;> exact .inl rfl
  · exact .inl rfl
  · split <;> exact .inl rfl

theorem hasIndom_congr {r r' : Reg} (h : r'.indoms = r.indoms) (n : Str) : r'.hasIndom n = r.hasIndom n := by
  unfold Reg.hasIndom; rw [h]

theorem hasIndom_put (r : Reg) (d : Indom) (n : Str) :
    (r.putIndom d).hasIndom n = true ↔ n = d.name ∨ r.hasIndom n = true := by
  rw [hasIndom_iff, hasIndom_iff]
  unfold Reg.putIndom
  simp only [List.mem_append, List.mem_filter, List.mem_singleton, decide_eq_true_eq]
  constructor
  · rintro ⟨x, ⟨hx, _⟩ | rfl, rfl⟩
    · exact .inr ⟨x, hx, rfl⟩
    · exact .inl rfl
  · rintro (rfl | ⟨x, hx, rfl⟩)
    · exact ⟨d, .inr rfl, rfl⟩
    · by_cases hn : x.name = d.name
      · exact ⟨d, .inr rfl, hn.symm⟩
      · exact ⟨x, .inl ⟨hx, hn⟩, rfl⟩

/-- A step depends on no other goroutine, and not on what comes later. -/
theorem rstep_local {s s' : RSt} {i : Nat} {t : RTh} (ht : s.thr[i]? = some t) (hs : rstep s i = some s')
    {thr : List RTh} {rem : List Metric} (hg : thr[i]? = some (t.app rem)) :
    ∃ t', s'.thr = s.thr.set i t' ∧
      rstep ⟨s.reg, s.lm, s.li, thr, s.log⟩ i = some ⟨s'.reg, s'.lm, s'.li, thr.set i (t'.app rem), s'.log⟩ ∧
      (t.NoI s.reg → t'.NoI s.reg ∧ s'.reg.indoms = s.reg.indoms) := by
  unfold rstep at hs ⊢
  rw [ht] at hs
  rw [show (⟨s.reg, s.lm, s.li, thr, s.log⟩ : RSt).thr[i]? = some (t.app rem) from hg]
  cases t with
  | idle ms =>
    cases ms with
    | nil => cases hs
    | cons m ms =>
      obtain rfl := Option.some.inj hs
      exact ⟨_, rfl, rfl, fun h => ⟨⟨h, trivial⟩, rfl⟩⟩
  | busy m pc ms =>
    have htail : (RTh.busy m pc ms).NoI s.reg → (RTh.idle ms).NoI s.reg := fun h x hx => h.1 x (List.mem_cons_of_mem _ hx)
    cases pc <;> simp only [] at hs
    case start =>
      obtain rfl := Option.some.inj hs
      by_cases h : s.reg.mapped = true
      · rw [if_pos h]
        refine ⟨_, rfl, ?_, fun h => ⟨htail h, rfl⟩⟩
        show some (if s.reg.mapped = true then _ else _) = _
        rw [if_pos h]; rfl
      · rw [if_neg h]
        refine ⟨_, rfl, ?_, fun h => ⟨⟨h.1, trivial⟩, rfl⟩⟩
        show some (if s.reg.mapped = true then _ else _) = _
        rw [if_neg h]; rfl
    case hasM0 =>
      split at hs
      · cases hs
      · rename_i h
        obtain rfl := Option.some.inj hs
        refine ⟨_, rfl, ?_, fun h => ⟨⟨h.1, trivial⟩, rfl⟩⟩
        show (if s.lm.writer = true then _ else _) = _
        rw [if_neg h]; rfl
    case hasM1 => obtain rfl := Option.some.inj hs; exact ⟨_, rfl, rfl, fun h => ⟨⟨h.1, trivial⟩, rfl⟩⟩
    case hasM2 b =>
      obtain rfl := Option.some.inj hs
      cases b
      · simp only [RTh.app, Bool.false_eq_true, if_false]
        cases hm : m.indom with
        | none => exact ⟨_, rfl, rfl, fun h => ⟨⟨h.1, trivial⟩, rfl⟩⟩
        | some d => exact ⟨_, rfl, rfl, fun h => ⟨⟨h.1, rfl, hm⟩, rfl⟩⟩
      · exact ⟨_, rfl, rfl, fun h => ⟨htail h, rfl⟩⟩
    case hasI0 d again =>
      split at hs
      · cases hs
      · rename_i h
        obtain rfl := Option.some.inj hs
        refine ⟨_, rfl, ?_, fun h => ⟨⟨h.1, h.2⟩, rfl⟩⟩
        show (if s.li.writer = true then _ else _) = _
        rw [if_neg h]; rfl
    case hasI1 d again =>
      obtain rfl := Option.some.inj hs
      exact ⟨_, rfl, rfl, fun h => ⟨⟨h.1, h.2.1, h.1 m List.mem_cons_self d h.2.2⟩, rfl⟩⟩
    case hasI2 d again b =>
      obtain rfl := Option.some.inj hs
      cases again <;> cases b
      · exact ⟨_, rfl, rfl, fun h => absurd h.2.2 (by decide)⟩
      · exact ⟨_, rfl, rfl, fun h => ⟨⟨h.1, trivial⟩, rfl⟩⟩
      · exact ⟨_, rfl, rfl, fun h => absurd h.2.1 (by decide)⟩
      · exact ⟨_, rfl, rfl, fun h => absurd h.2.1 (by decide)⟩
    case lockI d =>
      split at hs
      · cases hs
      · rename_i h
        obtain rfl := Option.some.inj hs
        refine ⟨_, rfl, ?_, fun h => h.2.elim⟩
        show (if (s.li.writer || decide (s.li.readers ≠ 0)) = true then _ else _) = _
        rw [if_neg h]; rfl
    case mappedI d => obtain rfl := Option.some.inj hs; exact ⟨_, rfl, rfl, fun h => h.2.elim⟩
    case csI d ops x =>
      dsimp only [RTh.app]
      cases hc : csStep s.reg ops x with
      | none => rw [hc] at hs; obtain rfl := Option.some.inj hs; exact ⟨_, rfl, rfl, fun h => h.2.elim⟩
      | some p =>
        obtain ⟨r, ops', x'⟩ := p
        rw [hc] at hs; obtain rfl := Option.some.inj hs; exact ⟨_, rfl, rfl, fun h => h.2.elim⟩
    case failI => obtain rfl := Option.some.inj hs; exact ⟨_, rfl, rfl, fun h => h.2.elim⟩
    case lockM =>
      split at hs
      · cases hs
      · rename_i h
        obtain rfl := Option.some.inj hs
        refine ⟨_, rfl, ?_, fun h => ⟨⟨h.1, bodyM_isM m⟩, rfl⟩⟩
        show (if (s.lm.writer || decide (s.lm.readers ≠ 0)) = true then _ else _) = _
        rw [if_neg h]; rfl
    case csM ops x =>
      dsimp only [RTh.app]
      cases hc : csStep s.reg ops x with
      | none => rw [hc] at hs; obtain rfl := Option.some.inj hs; exact ⟨_, rfl, rfl, fun h => ⟨htail h, rfl⟩⟩
      | some p =>
        obtain ⟨r, ops', x'⟩ := p
        rw [hc] at hs; obtain rfl := Option.some.inj hs
        exact ⟨_, rfl, rfl, fun h => ⟨⟨h.1, fun o ho => h.2 o ((csStep_sub hc).1 o ho)⟩, csStep_isM hc h.2⟩⟩

/-- With no critical section of its own, a goroutine sees of its domains what is registered. -/
theorem RCInv.reg_has {r0 R : Reg} {progs : List (List Metric)} {s : RSt} (hy : RHyp r0 progs) (h : RCInv r0 progs R s)
    {i : Nat} {t : RTh} (hi : s.thr[i]? = some t) (hops : t.ops = []) {P : List Metric} (hP : progs[i]? = some P)
    {m : Metric} (hmP : m ∈ P) {d : Indom} (hd : m.indom = some d) : R.hasIndom d.name = s.reg.hasIndom d.name := by
  cases hh : s.reg.hasIndom d.name with
  | true =>
    obtain ⟨x, hx, e⟩ := hasIndom_iff.1 hh
    exact hasIndom_iff.2 ⟨x, h.sub_indoms x hx, e⟩
  | false =>
    cases hR : R.hasIndom d.name with
    | false => rfl
    | true =>
      exfalso
      obtain ⟨x, hx, e⟩ := hasIndom_iff.1 hR
      rcases List.mem_append.1 (h.acc.indoms.mem_iff.2 hx) with hx | hx
      · rw [hasIndom_iff.2 ⟨x, hx, e⟩] at hh; cases hh
      · obtain ⟨o, ho, hxo⟩ := List.mem_flatMap.1 hx
        obtain ⟨t', ht, hot⟩ := List.mem_flatMap.1 ho
        obtain ⟨j, hj⟩ := List.mem_iff_getElem?.1 ht
        obtain ⟨Q, hQ, hTj⟩ := h.thr j t' hj
        have hxo : o = .putI x := by
          cases o <;> simp [micI] at hxo
          rw [hxo]
        subst hxo
        have hij : i ≠ j := by
          rintro rfl
          rw [hi] at hj
          obtain rfl := Option.some.inj hj
          rw [hops] at hot; cases hot
        unfold RTh.ops at hot
        split at hot
        · rename_i m2 d2 ops2 x2 ms2
          have e2 : x = d2 := hTj.2.2.2.1 _ hot
          subst e2
          have := hy.own i j P Q hP hQ hij m hmP m2 (hTj.1 _ List.mem_cons_self) d x hd hTj.2.1 e.symm
          obtain ⟨y, hy1, hy2⟩ := hasIndom_iff.1 this
          rw [hasIndom_iff.2 ⟨y, h.old y hy1, hy2⟩] at hh
          cases hh
        · exact hTj.2.1 _ hot
        · cases hot

end Speed
