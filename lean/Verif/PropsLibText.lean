import Verif.LibText
import Verif.PropsUnits
import Verif.PropsPrint
/-
C65: the `String()` methods of the library's enumerations and units.
-/
namespace Speed
namespace LibText

open Dump Speed.Units

/-! ### Enumerations -/

theorem head_ne {a b : List Byte} (h : a.head? ≠ b.head?) : a ≠ b := fun e => h (congrArg _ e)

/-- C65: the constants are printed by their names. -/
theorem C65_names :
    ([0, 1, 2, 3, 4, 5, 6].map typeText =
      [b!"Int32Type", b!"Uint32Type", b!"Int64Type", b!"Uint64Type", b!"FloatType", b!"DoubleType", b!"StringType"]) ∧
    ([0, 1, 3, 4].map semText = [b!"NoSemantics", b!"CounterSemantics", b!"InstantSemantics", b!"DiscreteSemantics"]) ∧
    ([1, 2, 4].map flagText = [b!"NoPrefixFlag", b!"ProcessFlag", b!"SentinelFlag"]) ∧
    ([0, 1, 2, 3, 4, 5, 6].map (fun k => spaceText (spaceUnit k)) =
      [b!"ByteUnit", b!"KilobyteUnit", b!"MegabyteUnit", b!"GigabyteUnit", b!"TerabyteUnit", b!"PetabyteUnit", b!"ExabyteUnit"]) ∧
    ([0, 1, 2, 3, 4, 5].map (fun k => timeText (timeUnit k)) =
      [b!"NanosecondUnit", b!"MicrosecondUnit", b!"MillisecondUnit", b!"SecondUnit", b!"MinuteUnit", b!"HourUnit"]) ∧
    countText oneUnit = b!"OneUnit" := by decide +kernel

theorem typeText_inj {t t' : BitVec 32} (h : typeText t = typeText t') : t = t' := by
  have hd : ∀ i, i < 7 → ∀ j, j < 7 →
      slice b!"Int32TypeUint32TypeInt64TypeUint64TypeFloatTypeDoubleTypeStringType" [0, 9, 19, 28, 38, 47, 57, 67] i =
      slice b!"Int32TypeUint32TypeInt64TypeUint64TypeFloatTypeDoubleTypeStringType" [0, 9, 19, 28, 38, 47, 57, 67] j → i = j := by
    decide +kernel
  have hh : ∀ i, i < 7 →
      (slice b!"Int32TypeUint32TypeInt64TypeUint64TypeFloatTypeDoubleTypeStringType" [0, 9, 19, 28, 38, 47, 57, 67] i).head? ≠ some 0x4D := by
    decide +kernel
  unfold typeText at h
  split at h <;> split at h
  · exact (C58_inj (by decide) t t').2.1 (List.append_cancel_left (List.append_cancel_right h))
  · exact absurd (congrArg List.head? h).symm (hh _ (by omega))
  · exact absurd (congrArg List.head? h) (hh _ (by omega))
  · have := hd _ (by omega) _ (by omega) h
    exact BitVec.eq_of_toInt_eq (by omega)

theorem semText_inj {s s' : BitVec 32} (h : semText s = semText s') : s = s' := by
  have hd : ∀ i, i < 2 → ∀ j, j < 2 → slice b!"NoSemanticsCounterSemantics" [0, 11, 27] i = slice b!"NoSemanticsCounterSemantics" [0, 11, 27] j → i = j := by
    decide
  have hd2 : ∀ i, i < 2 → ∀ j, j < 2 →
      slice b!"InstantSemanticsDiscreteSemantics" [0, 16, 33] i = slice b!"InstantSemanticsDiscreteSemantics" [0, 16, 33] j → i = j := by
    decide +kernel
  have hx : ∀ i, i < 2 → ∀ j, j < 2 → slice b!"NoSemanticsCounterSemantics" [0, 11, 27] i ≠ slice b!"InstantSemanticsDiscreteSemantics" [0, 16, 33] j := by
    decide +kernel
  have h1 : ∀ i, i < 2 → (slice b!"NoSemanticsCounterSemantics" [0, 11, 27] i).head? ≠ some 0x4D := by decide
  have h2 : ∀ i, i < 2 → (slice b!"InstantSemanticsDiscreteSemantics" [0, 16, 33] i).head? ≠ some 0x4D := by decide
  unfold semText at h
  split at h
  · split at h
    · have := hd _ (by omega) _ (by omega) h
      exact BitVec.eq_of_toInt_eq (by omega)
    · split at h
      · exact absurd h (hx _ (by omega) _ (by omega))
      · exact absurd (congrArg List.head? h) (h1 _ (by omega))
  · split at h
    · split at h
      · exact absurd h.symm (hx _ (by omega) _ (by omega))
      · split at h
        · have := hd2 _ (by omega) _ (by omega) h
          exact BitVec.eq_of_toInt_eq (by omega)
        · exact absurd (congrArg List.head? h) (h2 _ (by omega))
    · split at h
      · exact absurd (congrArg List.head? h).symm (h1 _ (by omega))
      · split at h
        · exact absurd (congrArg List.head? h).symm (h2 _ (by omega))
        · exact (C58_inj (by decide) s s').2.1 (List.append_cancel_left (List.append_cancel_right h))

theorem flagText_inj {f f' : BitVec 64} (h : flagText f = flagText f') : f = f' := by
  have hd : ∀ i, i < 2 → ∀ j, j < 2 → slice b!"NoPrefixFlagProcessFlag" [0, 12, 23] i = slice b!"NoPrefixFlagProcessFlag" [0, 12, 23] j → i = j := by
    decide
  have hx : ∀ i, i < 2 → slice b!"NoPrefixFlagProcessFlag" [0, 12, 23] i ≠ b!"SentinelFlag" := by decide
  have h1 : ∀ i, i < 2 → (slice b!"NoPrefixFlagProcessFlag" [0, 12, 23] i).head? ≠ some 0x4D := by decide
  unfold flagText at h
  split at h
  · split at h
    · have := hd _ (by omega) _ (by omega) h
      exact BitVec.eq_of_toInt_eq (by omega)
    · split at h
      · exact absurd h (hx _ (by omega))
      · exact absurd (congrArg List.head? h) (h1 _ (by omega))
  · split at h
    · split at h
      · exact absurd h.symm (hx _ (by omega))
      · split at h
        · exact BitVec.eq_of_toInt_eq (by omega)
        · exact absurd (congrArg List.head? h) (by simp)
    · split at h
      · exact absurd (congrArg List.head? h).symm (h1 _ (by omega))
      · split at h
        · exact absurd (congrArg List.head? h) (by simp)
        · exact (C58_inj (by decide) f f').2.1 (List.append_cancel_left (List.append_cancel_right h))

/-- A list of constants with names, and a default that begins with a letter none of the names begins with. -/
def pick (l : List (BitVec 32 × List Byte)) (pre : List Byte) (i : BitVec 32) : List Byte :=
  match l with
  | [] => pre ++ decU i ++ b!")"
  | (k, n) :: l => if i = k then n else pick l pre i

theorem pick_cases (l : List (BitVec 32 × List Byte)) (pre : List Byte) (i : BitVec 32) :
    (i, pick l pre i) ∈ l ∨ (i ∉ l.map Prod.fst ∧ pick l pre i = pre ++ decU i ++ b!")") := by
  induction l with
  | nil => right; exact ⟨by simp, rfl⟩
  | cons p l ih =>
    obtain ⟨k, n⟩ := p
    unfold pick
    by_cases hk : i = k
    · rw [if_pos hk, hk]; left; exact List.mem_cons_self
    · rw [if_neg hk]
      rcases ih with h | ⟨h, e⟩
      · left; exact List.mem_cons_of_mem _ h
      · right; exact ⟨by simp [hk]; simpa using h, e⟩

theorem pick_inj {l : List (BitVec 32 × List Byte)} {pre : List Byte} {c : Byte} (hc : pre.head? = some c)
    (hl : ∀ p ∈ l, p.2.head? ≠ some c) (hn : ∀ p ∈ l, ∀ q ∈ l, p.2 = q.2 → p.1 = q.1) {i j : BitVec 32} (h : pick l pre i = pick l pre j) : i = j := by
  have hp : ∀ x : List Byte, (pre ++ x ++ b!")").head? = some c := by
    intro x
    cases pre with
    | nil => cases hc
    | cons a as => simpa using hc
  rcases pick_cases l pre i with h1 | ⟨_, h1⟩ <;> rcases pick_cases l pre j with h2 | ⟨_, h2⟩
  · exact hn _ h1 _ h2 h
  · exact absurd (by rw [h, h2]; exact hp _) (hl _ h1)
  · exact absurd (by rw [← h, h1]; exact hp _) (hl _ h2)
  · rw [h1, h2] at h
    exact (C58_inj (by decide) i j).1 (List.append_cancel_left (List.append_cancel_right h))

theorem spaceText_inj {i j : BitVec 32} (h : spaceText i = spaceText j) : i = j :=
  pick_inj (l := [(268435456, b!"ByteUnit"), (268500992, b!"KilobyteUnit"), (268566528, b!"MegabyteUnit"), (268632064, b!"GigabyteUnit"),
    (268697600, b!"TerabyteUnit"), (268763136, b!"PetabyteUnit"), (268828672, b!"ExabyteUnit")]) (pre := b!"SpaceUnit(") (c := 0x53)
    rfl (by decide) (by decide) h

theorem timeText_inj {i j : BitVec 32} (h : timeText i = timeText j) : i = j :=
  pick_inj (l := [(16777216, b!"NanosecondUnit"), (16781312, b!"MicrosecondUnit"), (16785408, b!"MillisecondUnit"), (16789504, b!"SecondUnit"),
    (16793600, b!"MinuteUnit"), (16797696, b!"HourUnit")]) (pre := b!"TimeUnit(") (c := 0x54) rfl (by decide) (by decide) h

theorem countText_inj {i j : BitVec 32} (h : countText i = countText j) : i = j := by
  have e : ∀ i, countText i = pick [(1048576, b!"OneUnit")] b!"CountUnit(" i := by
    intro i
    unfold countText pick
    by_cases hi : i = 1048576
    · subst hi; rfl
    · rw [if_neg hi, if_pos, BitVec.sub_add_cancel]
      · rfl
      · have : i - 1048576 ≠ 0 := fun e => hi (by rw [← BitVec.sub_add_cancel i 1048576, e]; rfl)
        rcases Nat.lt_or_ge (i - 1048576).toNat 1 with hh | hh
        · exact absurd (BitVec.eq_of_toNat_eq (by rw [show (0 : BitVec 32).toNat = 0 from rfl]; omega)) this
        · exact hh
  rw [e, e] at h
  exact pick_inj (c := 0x43) rfl (by decide) (by decide) h

/-- C65: different values of an enumeration are printed differently: all 2^32 (2^64 for the flags) values. -/
theorem C65_enums : (∀ t t', typeText t = typeText t' → t = t') ∧ (∀ s s', semText s = semText s' → s = s') ∧
    (∀ f f', flagText f = flagText f' → f = f') ∧ (∀ i j, spaceText i = spaceText j → i = j) ∧
    (∀ i j, timeText i = timeText j → i = j) ∧ (∀ i j, countText i = countText j → i = j) :=
  ⟨fun _ _ => typeText_inj, fun _ _ => semText_inj, fun _ _ => flagText_inj, fun _ _ => spaceText_inj, fun _ _ => timeText_inj,
    fun _ _ => countText_inj⟩

/-- Values without a name. -/
example : typeText (-3) = b!"MetricType(-3)" ∧ semText 2 = b!"MetricSemantics(2)" ∧ flagText 3 = b!"MMVFlag(3)" ∧
    spaceText 7 = b!"SpaceUnit(7)" ∧ countText 0 = b!"CountUnit(0)" := by decide

/-! ### Composite units -/

/-- A byte of a printed dimension. -/
def dimByte (c : Byte) : Bool := c == 0x2D || (0x30 ≤ c.toNat && c.toNat ≤ 0x39)

/-- A component: name and dimension. -/
def OkPart (p : List Byte × List Byte) : Prop :=
  0x5E ∉ p.1 ∧ (∃ c s, p.1 = c :: s ∧ dimByte c = false) ∧ ∀ c ∈ p.2, dimByte c = true

/-- The components in a row. -/
def flat (l : List (List Byte × List Byte)) : List Byte := l.flatMap fun p => p.1 ++ 0x5E :: p.2

theorem split_at {c : Byte} : ∀ {a b x y : List Byte}, c ∉ a → c ∉ b → a ++ c :: x = b ++ c :: y → a = b ∧ x = y
  | [], [], _, _, _, _, h => ⟨rfl, (List.cons.inj h).2⟩
  | [], b :: bs, _, _, _, hb, h => absurd (by rw [(List.cons.inj h).1]; exact List.mem_cons_self) hb
  | a :: as, [], _, _, ha, _, h => absurd (by rw [← (List.cons.inj h).1]; exact List.mem_cons_self) ha
  | a :: as, b :: bs, _, _, ha, hb, h => by
    obtain ⟨h1, h2⟩ := List.cons.inj h
    obtain ⟨h3, h4⟩ := split_at (fun m => ha (List.mem_cons_of_mem _ m)) (fun m => hb (List.mem_cons_of_mem _ m)) h2
    exact ⟨by rw [h1, h3], h4⟩

/-- The rest does not begin with a byte of a dimension. -/
def Stops (r : List Byte) : Prop := ∀ c ∈ r.head?, dimByte c = false

theorem split_dim : ∀ {a b x y : List Byte}, (∀ c ∈ a, dimByte c = true) → (∀ c ∈ b, dimByte c = true) → Stops x → Stops y →
    a ++ x = b ++ y → a = b ∧ x = y
  | [], [], _, _, _, _, _, _, h => ⟨rfl, h⟩
  | [], b :: bs, x, _, _, hb, hx, _, h => by
    have h : x = b :: (bs ++ _) := h
    subst h
    exact absurd (hb b List.mem_cons_self) (by rw [hx b (by simp)]; simp)
  | a :: as, [], _, y, ha, _, _, hy, h => by
    have h : a :: (as ++ _) = y := h
    subst h
    exact absurd (ha a List.mem_cons_self) (by rw [hy a (by simp)]; simp)
  | a :: as, b :: bs, _, _, ha, hb, hx, hy, h => by
    obtain ⟨h1, h2⟩ := List.cons.inj h
    obtain ⟨h3, h4⟩ := split_dim (fun c m => ha c (List.mem_cons_of_mem _ m)) (fun c m => hb c (List.mem_cons_of_mem _ m)) hx hy h2
    exact ⟨by rw [h1, h3], h4⟩

theorem flat_stops {l : List (List Byte × List Byte)} (h : ∀ p ∈ l, OkPart p) : Stops (flat l) := by
  cases l with
  | nil => intro c hc; simp [flat] at hc
  | cons p l =>
    obtain ⟨_, ⟨c, s, e, hc⟩, _⟩ := h p List.mem_cons_self
    intro d hd
    simp only [flat, List.flatMap_cons, e, List.cons_append, List.head?_cons, Option.mem_some_iff] at hd
    rw [← hd]; exact hc

theorem flat_inj : ∀ {l m : List (List Byte × List Byte)}, (∀ p ∈ l, OkPart p) → (∀ p ∈ m, OkPart p) → flat l = flat m → l = m
  | [], [], _, _, _ => rfl
  | [], q :: m, _, _, h => by simp [flat] at h
  | p :: l, [], _, _, h => by simp [flat] at h
  | p :: l, q :: m, hl, hm, h => by
    simp only [flat, List.flatMap_cons, List.append_assoc, List.cons_append] at h
    obtain ⟨e1, h⟩ := split_at (hl p List.mem_cons_self).1 (hm q List.mem_cons_self).1 h
    have hl' : ∀ p ∈ l, OkPart p := fun p hp => hl p (List.mem_cons_of_mem _ hp)
    have hm' : ∀ p ∈ m, OkPart p := fun p hp => hm p (List.mem_cons_of_mem _ hp)
    obtain ⟨e2, h⟩ := split_dim (hl p List.mem_cons_self).2.2 (hm q List.mem_cons_self).2.2 (flat_stops hl') (flat_stops hm') h
    rw [flat_inj hl' hm' h, Prod.ext e1 e2]

/-- The components of a unit, with their printed names and dimensions. -/
def part (dim : BitVec 8) (name : List Byte) : List (List Byte × List Byte) := if dim = 0 then [] else [(name, decI dim)]

def spaceName (k : BitVec 4) : List Byte := spaceText (spaceUnit k)
def timeName (k : BitVec 4) : List Byte := timeText (timeUnit k)

def parts (w : BitVec 32) : List (List Byte × List Byte) :=
  part (spaceDim w) (spaceName (field 16 w)) ++ (part (timeDim w) (timeName (field 12 w)) ++ part (countDim w) b!"OneUnit")

theorem unitText_eq (w : BitVec 32) : unitText w = some (flat (parts w)) := by
  have h1 : partText (spaceDim w) (spaceScale w) spaceText = some (flat (part (spaceDim w) (spaceName (field 16 w)))) := by
    unfold partText part spaceScale
    by_cases h : spaceDim w = 0
    · simp [h, flat]
    · rw [if_pos h, if_neg h, if_neg h, nibble 16 w (by decide)]
      simp [flat, spaceName, spaceUnit]
  have h2 : partText (timeDim w) (timeScale w) timeText = some (flat (part (timeDim w) (timeName (field 12 w)))) := by
    unfold partText part timeScale
    by_cases h : timeDim w = 0
    · simp [h, flat]
    · rw [if_pos h, if_neg h, if_neg h, nibble 12 w (by decide)]
      simp [flat, timeName, timeUnit]
  have h3 : partText (countDim w) (countScale w) countText = some (flat (part (countDim w) b!"OneUnit")) := by
    unfold partText part countScale
    by_cases h : countDim w = 0
    · simp [h, flat]
    · rw [if_pos h, if_neg h, if_neg h, nibble 8 w (by decide)]
      have : ∀ f : BitVec 4, countText (0x100000 ||| f.setWidth 32 >>> 8) = b!"OneUnit" := by decide +kernel
      simp [flat]
      exact congrArg (· ++ 94#8 :: decI (countDim w)) (this (field 8 w))
  unfold unitText parts
  rw [h1, h2, h3]
  simp [flat]

theorem part_ok {w : BitVec 32} : ∀ p ∈ parts w, OkPart p := by
  have hd : ∀ f : BitVec 4, ∀ c ∈ decI (f.signExtend 8), dimByte c = true := by decide +kernel
  have key : ∀ n : List Byte, 0x5E ∉ n → (∃ c s, n = c :: s ∧ dimByte c = false) → ∀ f : BitVec 4, ∀ p ∈ part (f.signExtend 8) n, OkPart p := by
    intro n h1 h2 f p hp
    unfold part at hp
    split at hp
    · cases hp
    · obtain rfl := List.mem_singleton.1 hp
      exact ⟨h1, h2, hd f⟩
  have hs : ∀ k, 0x5E ∉ spaceName k ∧ (spaceName k).head?.map dimByte = some false := by decide +kernel
  have ht : ∀ k, 0x5E ∉ timeName k ∧ (timeName k).head?.map dimByte = some false := by decide +kernel
  have hh : ∀ n : List Byte, n.head?.map dimByte = some false → ∃ c s, n = c :: s ∧ dimByte c = false := by
    intro n hn
    cases n with
    | nil => cases hn
    | cons c s => exact ⟨c, s, rfl, by simpa using hn⟩
  intro p hp
  unfold parts at hp
  rw [spaceDim_eq, timeDim_eq, countDim_eq] at hp
  rcases List.mem_append.1 hp with hp | hp
  · exact key _ (hs _).1 (hh _ (hs _).2) _ p hp
  · rcases List.mem_append.1 hp with hp | hp
    · exact key _ (ht _).1 (hh _ (ht _).2) _ p hp
    · exact key _ (by decide) ⟨0x4F, _, rfl, by decide⟩ _ p hp

def spaceNames : List (List Byte) := (List.range 16).map fun k => spaceName (BitVec.ofNat 4 k)
def timeNames : List (List Byte) := (List.range 16).map fun k => timeName (BitVec.ofNat 4 k)

theorem filter_part (q : List Byte → Bool) (d : BitVec 8) (n : List Byte) :
    (part d n).filter (fun p => q p.1) = if q n then part d n else [] := by
  unfold part
  split
  · simp
  · by_cases h : q n <;> simp [h]

theorem part_inj {d d' : BitVec 8} {n n' : List Byte} (h : part d n = part d' n') : d = d' ∧ (d ≠ 0 → n = n') := by
  unfold part at h
  split at h <;> split at h
  · rename_i h1 h2; exact ⟨h1.trans h2.symm, fun h => absurd h1 h⟩
  · cases h
  · cases h
  · obtain ⟨e1, e2⟩ := Prod.mk.inj (List.cons.inj h).1
    exact ⟨(C58_inj (by decide) d d').2.1 e2, fun _ => e1⟩

/-- C65: `String` of a unit never panics, and it tells dimensions and scales: two units are printed alike exactly if they have the
same dimensions and, where the dimension is not 0, the same scales of space and time. For all 2^32 words. (The scale of the count
is not printed; the library has only one.) -/
theorem C65_text (w w' : BitVec 32) : unitText w ≠ none ∧ (unitText w = unitText w' ↔
    spaceDim w = spaceDim w' ∧ timeDim w = timeDim w' ∧ countDim w = countDim w' ∧
    (spaceDim w ≠ 0 → field 16 w = field 16 w') ∧ (timeDim w ≠ 0 → field 12 w = field 12 w')) := by
  refine ⟨by rw [unitText_eq]; simp, ?_⟩
  rw [unitText_eq, unitText_eq, Option.some.injEq]
  constructor
  · intro h
    have h := flat_inj part_ok part_ok h
    have s1 : ∀ k, decide (spaceName k ∈ spaceNames) = true ∧ decide (spaceName k ∈ timeNames) = false := by decide +kernel
    have t1 : ∀ k, decide (timeName k ∈ spaceNames) = false ∧ decide (timeName k ∈ timeNames) = true := by decide +kernel
    have c1 : decide (b!"OneUnit" ∈ spaceNames) = false ∧ decide (b!"OneUnit" ∈ timeNames) = false := by decide +kernel
    have si : ∀ j k, spaceName j = spaceName k → j = k := by decide +kernel
    have ti : ∀ j k, timeName j = timeName k → j = k := by decide +kernel
    have hs := congrArg (List.filter fun p => decide (p.1 ∈ spaceNames)) h
    have ht := congrArg (List.filter fun p => decide (p.1 ∈ timeNames)) h
    have hc := congrArg (List.filter fun p => !decide (p.1 ∈ spaceNames) && !decide (p.1 ∈ timeNames)) h
    unfold parts at hs ht hc
    simp only [List.filter_append, filter_part (fun n => decide (n ∈ spaceNames)), filter_part (fun n => decide (n ∈ timeNames)),
      filter_part (fun n => !decide (n ∈ spaceNames) && !decide (n ∈ timeNames)), s1, t1, c1] at hs ht hc
    simp only [Bool.not_true, Bool.not_false, Bool.and_false, Bool.and_true, if_true, Bool.false_eq_true,
      if_false, List.append_nil, List.nil_append] at hs ht hc
    obtain ⟨a1, a2⟩ := part_inj hs
    obtain ⟨b1, b2⟩ := part_inj ht
    obtain ⟨d1, _⟩ := part_inj hc
    exact ⟨a1, b1, d1, fun h => si _ _ (a2 h), fun h => ti _ _ (b2 h)⟩
  · rintro ⟨h1, h2, h3, h4, h5⟩
    have e1 : part (spaceDim w) (spaceName (field 16 w)) = part (spaceDim w') (spaceName (field 16 w')) := by
      unfold part
      rw [← h1]
      by_cases h : spaceDim w = 0
      · rw [if_pos h, if_pos h]
      · rw [if_neg h, if_neg h, h4 h]
    have e2 : part (timeDim w) (timeName (field 12 w)) = part (timeDim w') (timeName (field 12 w')) := by
      unfold part
      rw [← h2]
      by_cases h : timeDim w = 0
      · rw [if_pos h, if_pos h]
      · rw [if_neg h, if_neg h, h5 h]
    unfold parts
    rw [e1, e2, h3]

/-- Megabytes per second; and gigabytes that were or-ed from kilobytes and megabytes. -/
example : unitText 0x1F023000 = some b!"MegabyteUnit^1SecondUnit^-1" ∧ unitText 0x10030000 = some b!"GigabyteUnit^1" ∧
    unitText 0x10070000 = some b!"SpaceUnit(268894208)^1" ∧ unitText 0 = some [] := by decide +kernel

/-- The words of units that the library can make. -/
inductive MadeUnit : BitVec 32 → Prop
  | zero : MadeUnit 0
  | space {k : BitVec 4} : k.toNat ≤ 6 → MadeUnit (spaceUnit k)
  | time {k : BitVec 4} : k.toNat ≤ 5 → MadeUnit (timeUnit k)
  | one : MadeUnit oneUnit
  | addSpace {w w' k d} : MadeUnit w → k.toNat ≤ 6 → addSpace w (spaceUnit k) d = some w' → MadeUnit w'
  | addTime {w w' k d} : MadeUnit w → k.toNat ≤ 5 → addTime w (timeUnit k) d = some w' → MadeUnit w'
  | addCount {w w' d} : MadeUnit w → addCount w oneUnit d = some w' → MadeUnit w'

theorem field_ext {w w' : BitVec 32} (h : ∀ k ∈ [0, 4, 8, 12, 16, 20, 24, 28], field k w = field k w') : w = w' := by
  ext i hi
  have h1 := h (4 * (i / 4)) (by
    have : i / 4 < 8 := by omega
    generalize i / 4 = j at this
    revert j; decide)
  have h2 := congrArg (fun x : BitVec 4 => x.getLsbD (i % 4)) h1
  have e : 4 * (i / 4) + i % 4 = i := by omega
  have hm : i % 4 < 4 := by omega
  simp only [field, BitVec.getLsbD_extractLsb', hm, decide_true, Bool.true_and, e] at h2
  rw [BitVec.getLsbD_eq_getElem hi, BitVec.getLsbD_eq_getElem hi] at h2
  exact h2

/-- The words whose scale fields are 0 where the dimension is. -/
def Neat (w : BitVec 32) : Prop :=
  field 0 w = 0 ∧ field 4 w = 0 ∧ field 8 w = 0 ∧ (field 28 w = 0 → field 16 w = 0) ∧ (field 24 w = 0 → field 12 w = 0)

theorem MadeUnit.neat {w : BitVec 32} (h : MadeUnit w) : Neat w := by
  have one : ∀ a b : BitVec 4, a ||| 1 ||| b ≠ 0 := by decide
  have fs : ∀ k, field 0 (spaceUnit k) = 0 ∧ field 4 (spaceUnit k) = 0 := by decide
  have ft : ∀ k, field 0 (timeUnit k) = 0 ∧ field 4 (timeUnit k) = 0 := by decide
  have fd : ∀ d : BitVec 8, ∀ k ∈ [20, 24, 28], field 0 ((d.signExtend 32 &&& 0xF) <<< k) = 0 ∧ field 4 ((d.signExtend 32 &&& 0xF) <<< k) = 0 := by
    decide
  induction h with
  | zero => unfold Neat; decide
  | @space k h => unfold Neat; revert k; decide
  | @time k h => unfold Neat; revert k; decide
  | one => unfold Neat; decide
  | @addSpace w w' k d _ _ hw ih =>
    obtain ⟨_, rfl⟩ := orIn_some hw
    obtain ⟨i0, i4, i8, i1, i2⟩ := ih
    refine ⟨?_, ?_, ?_, ?_, ?_⟩ <;> simp only [field_or]
    · rw [i0, (fs k).1, (fd d 28 (by decide)).1]; rfl
    · rw [i4, (fs k).2, (fd d 28 (by decide)).2]; rfl
    · rw [i8, field_space k 8 (by decide), field_dim d 8 (by decide) 28 (by decide)]; simp
    · rw [field_space k 28 (by decide), field_dim d 28 (by decide) 28 (by decide)]
      exact fun h => absurd h (one _ _)
    · rw [field_space k 24 (by decide), field_dim d 24 (by decide) 28 (by decide), field_space k 12 (by decide),
        field_dim d 12 (by decide) 28 (by decide)]
      simpa using i2
  | @addTime w w' k d _ _ hw ih =>
    obtain ⟨_, rfl⟩ := orIn_some hw
    obtain ⟨i0, i4, i8, i1, i2⟩ := ih
    refine ⟨?_, ?_, ?_, ?_, ?_⟩ <;> simp only [field_or]
    · rw [i0, (ft k).1, (fd d 24 (by decide)).1]; rfl
    · rw [i4, (ft k).2, (fd d 24 (by decide)).2]; rfl
    · rw [i8, field_time k 8 (by decide), field_dim d 8 (by decide) 24 (by decide)]; simp
    · rw [field_time k 28 (by decide), field_dim d 28 (by decide) 24 (by decide), field_time k 16 (by decide),
        field_dim d 16 (by decide) 24 (by decide)]
      simpa using i1
    · rw [field_time k 24 (by decide), field_dim d 24 (by decide) 24 (by decide)]
      exact fun h => absurd h (one _ _)
  | @addCount w w' d _ hw ih =>
    obtain ⟨_, rfl⟩ := orIn_some hw
    obtain ⟨i0, i4, i8, i1, i2⟩ := ih
    refine ⟨?_, ?_, ?_, ?_, ?_⟩ <;> simp only [field_or]
    · rw [i0, (fd d 20 (by decide)).1]; decide
    · rw [i4, (fd d 20 (by decide)).2]; decide
    · rw [i8, field_one 8 (by decide), field_dim d 8 (by decide) 20 (by decide)]; simp
    · rw [field_one 28 (by decide), field_dim d 28 (by decide) 20 (by decide), field_one 16 (by decide),
        field_dim d 16 (by decide) 20 (by decide)]
      simpa using i1
    · rw [field_one 24 (by decide), field_dim d 24 (by decide) 20 (by decide), field_one 12 (by decide),
        field_dim d 12 (by decide) 20 (by decide)]
      simpa using i2

/-- C65: two units that the library can make are printed alike only if they are the same unit, with the same bits in the file. -/
theorem C65_made {w w' : BitVec 32} (h : MadeUnit w) (h' : MadeUnit w') (ht : unitText w = unitText w') : w = w' := by
  have sx : ∀ a b : BitVec 4, a.signExtend 8 = b.signExtend 8 → a = b := by decide
  have s0 : ∀ a : BitVec 4, a.signExtend 8 = 0 → a = 0 := by decide
  obtain ⟨h1, h2, h3, h4, h5⟩ := ((C65_text w w').2).1 ht
  obtain ⟨a0, a4, a8, a1, a2⟩ := h.neat
  obtain ⟨b0, b4, b8, b1, b2⟩ := h'.neat
  rw [spaceDim_eq, spaceDim_eq] at h1
  rw [timeDim_eq, timeDim_eq] at h2
  rw [countDim_eq, countDim_eq] at h3
  rw [spaceDim_eq] at h4
  rw [timeDim_eq] at h5
  have e1 := sx _ _ h1
  have e2 := sx _ _ h2
  have e3 := sx _ _ h3
  have e4 : field 16 w = field 16 w' := by
    by_cases hz : field 28 w = 0
    · rw [a1 hz, b1 (e1 ▸ hz)]
    · exact h4 (fun h => hz (s0 _ h))
  have e5 : field 12 w = field 12 w' := by
    by_cases hz : field 24 w = 0
    · rw [a2 hz, b2 (e2 ▸ hz)]
    · exact h5 (fun h => hz (s0 _ h))
  apply field_ext
  intro k hk
  simp only [List.mem_cons, List.not_mem_nil, or_false] at hk
  rcases hk with rfl | rfl | rfl | rfl | rfl | rfl | rfl | rfl
  · rw [a0, b0]
  · rw [a4, b4]
  · rw [a8, b8]
  · exact e5
  · exact e4
  · exact e3
  · exact e2
  · exact e1

/-- Kilobytes per second, in either order. -/
example : ∃ w, MadeUnit w ∧ ((addSpace 0 (spaceUnit 1) 1).bind fun w => addTime w (timeUnit 3) (-1)) = some w ∧
    unitText w = some b!"KilobyteUnit^1SecondUnit^-1" := by
  refine ⟨0x1F013000, ?_, by decide, by decide +kernel⟩
  exact .addTime (w := spaceUnit 1) (k := 3) (d := -1) (.space (by decide)) (by decide) (by decide)

end LibText
end Speed
