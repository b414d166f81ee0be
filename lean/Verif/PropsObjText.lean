import Verif.ObjText
import Verif.PropsPrint
import Verif.History
/-
C79: the texts of domains and singleton metrics.
-/
namespace Speed
namespace ObjText

open Dump

/-! ### Words with separators -/

/-- Where the first separator is, is determined by the text. -/
theorem sep_inj {c : Byte} {a b x y : Str} (ha : c ∉ a) (hb : c ∉ b) (h : a ++ c :: x = b ++ c :: y) : a = b ∧ x = y := by
  induction a generalizing b with
  | nil =>
    cases b with
    | nil => exact ⟨rfl, (List.cons.inj h).2⟩
    | cons d b => exact absurd (List.cons.inj h).1 (fun e => hb (by simp [e]))
  | cons d a ih =>
    cases b with
    | nil => exact absurd (List.cons.inj h).1 (fun e => ha (by simp [e]))
    | cons d' b =>
      obtain ⟨rfl, h1⟩ := List.cons.inj h
      obtain ⟨rfl, h2⟩ := ih (fun h => ha (by simp [h])) (fun h => hb (by simp [h])) h1
      exact ⟨rfl, h2⟩

/-- A word: not empty, no space. -/
def Word (s : Str) : Prop := s ≠ [] ∧ (0x20 : Byte) ∉ s

theorem joinSp_inj {l l' : List Str} (hl : ∀ s ∈ l, Word s) (hl' : ∀ s ∈ l', Word s) (h : joinSp l = joinSp l') : l = l' := by
  induction l generalizing l' with
  | nil =>
    match l', hl' with
    | [], _ => rfl
    | [x], hl' => exact absurd h.symm (hl' x (by simp)).1
    | x :: y :: l', _ => simp [joinSp] at h
  | cons x l ih =>
    have hx := hl x (by simp)
    match l, l' with
    | [], [] => exact absurd h hx.1
    | [], [y] => exact congrArg (fun s => [s]) h
    | [], y :: z :: l' =>
      have h : x = y ++ 0x20 :: joinSp (z :: l') := h
      exact absurd (by rw [h]; simp) hx.2
    | z :: l, [] => simp [joinSp] at h
    | z :: l, [y] =>
      have h : x ++ 0x20 :: joinSp (z :: l) = y := h
      exact absurd (by rw [← h]; simp) (hl' y (by simp)).2
    | z :: l, y :: z' :: l' =>
      have h : x ++ 0x20 :: joinSp (z :: l) = y ++ 0x20 :: joinSp (z' :: l') := h
      obtain ⟨rfl, h1⟩ := sep_inj hx.2 (hl' y (by simp)).2 h
      rw [ih (fun s hs => hl s (List.mem_cons_of_mem _ hs)) (fun s hs => hl' s (List.mem_cons_of_mem _ hs)) h1]

/-! ### Domains -/

/-- Every instance has a name that is one word. -/
def Plain (d : Indom) : Prop := ∀ i ∈ d.insts, Word i.name

/-- C79, the part that holds for domains: if instance names are words and the names of the domains have no `[`, then domains with
a common text have the same name and the same instances; and the text shows the order in which the map was read.
Missing: other names (`C79_refuted_ident`), and that the text is always the same one (`C79_refuted_order`). -/
theorem C79_domain_partial {a b : Indom} (ha : Plain a) (hb : Plain b) (na : (0x5B : Byte) ∉ a.name) (nb : (0x5B : Byte) ∉ b.name) :
    (∀ s, IndomStr a s → IndomStr b s → a.name = b.name ∧ (a.insts.map (·.name)).Perm (b.insts.map (·.name))) ∧
    ∀ o o' : List Str, o.Perm (a.insts.map (·.name)) → o'.Perm (b.insts.map (·.name)) → indomText a o = indomText b o' → o = o' := by
  have key : ∀ o o' : List Str, o.Perm (a.insts.map (·.name)) → o'.Perm (b.insts.map (·.name)) → indomText a o = indomText b o' →
      a.name = b.name ∧ o = o' := by
    intro o o' ho ho' h
    unfold indomText at h
    simp only [List.append_assoc, List.singleton_append] at h
    obtain ⟨h1, h2⟩ := sep_inj na nb h
    refine ⟨h1, joinSp_inj ?_ ?_ (List.append_cancel_right h2)⟩
    · intro s hs
      obtain ⟨i, hi, rfl⟩ := List.mem_map.1 (ho.mem_iff.1 hs)
      exact ha i hi
    · intro s hs
      obtain ⟨i, hi, rfl⟩ := List.mem_map.1 (ho'.mem_iff.1 hs)
      exact hb i hi
  refine ⟨?_, fun o o' h1 h2 h3 => (key o o' h1 h2 h3).2⟩
  rintro s ⟨o, ho, rfl⟩ ⟨o', ho', h⟩
  obtain ⟨h1, rfl⟩ := key o o' ho ho' h
  exact ⟨h1, ho.symm.trans ho'⟩

/-- The text of a domain with at most one instance is always the same. -/
theorem C79_once {d : Indom} (hd : d.insts.length ≤ 1) {s s' : Str} (h : IndomStr d s) (h' : IndomStr d s') : s = s' := by
  obtain ⟨o, ho, rfl⟩ := h
  obtain ⟨o', ho', rfl⟩ := h'
  match hi : d.insts, hd with
  | [], _ => rw [hi] at ho ho'; rw [List.Perm.eq_nil ho, List.Perm.eq_nil ho']
  | [i], _ => rw [hi] at ho ho'; rw [List.perm_singleton.1 ho, List.perm_singleton.1 ho']

/-- Every order of the instances gives a text. -/
example (d : Indom) (hd : newIndom 1 b!"cpu" [b!"cpu0", b!"cpu1"] [] = some d) :
    IndomStr d b!"cpu[cpu0 cpu1]" ∧ IndomStr d b!"cpu[cpu1 cpu0]" ∧ Plain d := by
  obtain rfl := Option.some.inj hd
  exact ⟨⟨[b!"cpu0", b!"cpu1"], by decide, by decide⟩, ⟨[b!"cpu1", b!"cpu0"], by decide, by decide⟩, by unfold Plain Word; decide⟩

/-- C79 is false: a domain with two or more instances, whose names are words, has different texts. -/
theorem C79_refuted_order {d : Indom} (hw : d.WF) (hp : Plain d) (h2 : 2 ≤ d.insts.length) : ∃ s s', IndomStr d s ∧ IndomStr d s' ∧ s ≠ s' := by
  obtain ⟨i, j, l, hi⟩ : ∃ i j l, d.insts = i :: j :: l := by
    match d.insts, h2 with
    | i :: j :: l, _ => exact ⟨i, j, l, rfl⟩
  refine ⟨_, _, ⟨_, .refl _, rfl⟩, ⟨j.name :: i.name :: l.map (·.name), by rw [hi]; exact .swap _ _ _, rfl⟩, fun h => ?_⟩
  have h1 := List.append_cancel_left (List.append_cancel_right h : _ = d.name ++ b!"[" ++ _)
  have hwords : ∀ s ∈ d.insts.map (·.name), Word s := by
    intro s hs
    obtain ⟨x, hx, rfl⟩ := List.mem_map.1 hs
    exact hp x hx
  have h3 := joinSp_inj hwords (fun s hs => hwords s (by rw [hi]; simp only [List.map_cons, List.mem_cons] at hs ⊢; tauto)) h1
  have hn := hw.nodup
  rw [hi] at h3 hn
  simp only [List.map_cons, List.cons.injEq] at h3
  simp only [List.map_cons, List.nodup_cons, List.mem_cons, h3.1, true_or, not_true, false_and] at hn

/-- C79 is false: two domains with different instances, and two with different names, that have the same text. -/
theorem C79_refuted_ident : ∃ a b c e : Indom, MadeIndom a ∧ MadeIndom b ∧ MadeIndom c ∧ MadeIndom e ∧
    a.name = b.name ∧ ¬ (a.insts.map (·.name)).Perm (b.insts.map (·.name)) ∧ c.name ≠ e.name ∧
    (∃ s, IndomStr a s ∧ IndomStr b s) ∧ ∃ s, IndomStr c s ∧ IndomStr e s := by
  refine ⟨_, _, _, _, ⟨1, b!"x", [b!"a", b!"b"], [], rfl⟩, ⟨2, b!"x", [b!"a b"], [], rfl⟩, ⟨3, b!"x[a", [b!"b"], [], rfl⟩,
    ⟨4, b!"x", [b!"a[b"], [], rfl⟩, rfl, by decide, by decide, ⟨b!"x[a b]", ⟨[b!"a", b!"b"], by decide, by decide⟩, ⟨[b!"a b"], by decide, by decide⟩⟩,
    ⟨b!"x[a[b]", ⟨[b!"b"], by decide, by decide⟩, ⟨[b!"a[b"], by decide, by decide⟩⟩⟩

/-! ### Metrics -/

/-- C79: of one metric that has no float type, different values have different texts. -/
theorem C79_value (P : FloatFmt) (d : Desc) {v w : GoVal} (hv : Typed d.t v) (hw : Typed d.t w) (h4 : d.t ≠ FloatType) (h5 : d.t ≠ DoubleType)
    (h : singleText P d v = singleText P d w) : v = w := by
  have h : fmtVal P v = fmtVal P w := by
    unfold singleText at h
    exact List.append_cancel_left (List.append_cancel_right (List.append_cancel_right h))
  generalize d.t = t at hv hw h4 h5
  rcases hv with ⟨e, x, rfl⟩ | ⟨e, x, rfl⟩ | ⟨e, x, rfl⟩ | ⟨e, x, rfl⟩ | ⟨e, x, rfl⟩ | ⟨e, x, rfl⟩ | ⟨e, x, rfl⟩ <;> subst e <;>
  rcases hw with ⟨e, y, rfl⟩ | ⟨e, y, rfl⟩ | ⟨e, y, rfl⟩ | ⟨e, y, rfl⟩ | ⟨e, y, rfl⟩ | ⟨e, y, rfl⟩ | ⟨e, y, rfl⟩ <;>
  first
  | exact absurd e (by decide)
  | exact absurd rfl h4
  | exact absurd rfl h5
  | exact congrArg GoVal.int32 ((C58_inj (by decide) x y).2.1 h)
  | exact congrArg GoVal.uint32 ((C58_inj (by decide) x y).1 h)
  | exact congrArg GoVal.int64 ((C58_inj (by decide) x y).2.1 h)
  | exact congrArg GoVal.uint64 ((C58_inj (by decide) x y).1 h)
  | exact congrArg GoVal.str h

/-- The texts of two values. -/
example (P : FloatFmt) (d : Desc) (hd : newDesc b!"a" Int32Type CounterSemantics OneUnit [b!"short"] = some d) :
    singleText P d (.int32 (-7)) = b!"Val: -7\nshort\n" ∧ singleText P d (.int32 41) = b!"Val: 41\nshort\n" := by
  obtain rfl := Option.some.inj hd
  exact ⟨by rfl, by rfl⟩

/-- C79: the two descriptions can be told from the text if the short one has no line break. -/
theorem C79_desc {a b : Desc} (ha : (0x0A : Byte) ∉ a.short) (hb : (0x0A : Byte) ∉ b.short) (h : descText a = descText b) :
    a.short = b.short ∧ a.long = b.long := by
  unfold descText at h
  simp only [List.append_assoc, List.singleton_append] at h
  exact sep_inj ha hb h

/-- Otherwise not, and a string value with a line break can look like the beginning of the description. -/
theorem C79_refuted_desc (P : FloatFmt) : ∃ a b c : Desc, newDesc b!"m" StringType InstantSemantics OneUnit [b!"x\ny", b!"z"] = some a ∧
    newDesc b!"m" StringType InstantSemantics OneUnit [b!"x", b!"y\nz"] = some b ∧
    newDesc b!"m" StringType InstantSemantics OneUnit [b!"y", b!"z"] = some c ∧
    singleText P a (.str b!"v") = singleText P b (.str b!"v") ∧ singleText P a (.str b!"v") = singleText P c (.str b!"v\nx") :=
  ⟨_, _, _, rfl, rfl, rfl, by rfl, by rfl⟩

end ObjText
end Speed
