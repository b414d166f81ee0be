import Verif.History
import Verif.FileUnique
import Verif.StartStable
/-
Concrete registries, used to show that the hypotheses of the property theorems can be met.
-/
namespace Speed

/-- "a", "b", "c", "d", "s" -/
def sA : Str := [0x61]
def sB : Str := [0x62]
def sC : Str := [0x63]
def sD : Str := [0x64]
def sS : Str := [0x73]
/-- 70 bytes: too long for an MMV version 1 name -/
def sLong : Str := List.replicate 70 0x6C

def opsOf (m : Option Metric) : List HOp := m.toList.map (fun m => .reg (.addMetric m))

theorem opsOf_made {m : Option Metric} (h : ∀ x, m = some x → MadeMetric x) : ∀ op ∈ opsOf m, HOp.Made op := by
  intro op hop
  unfold opsOf at hop
  cases m with
  | none => simp at hop
  | some m => simp at hop; subst hop; exact h m rfl

/-- A counter with a description, a gauge vector with two instances, and a string metric that has been
set once. -/
def sampleOps : List HOp :=
  opsOf (newPCPCounter 1 5 sC [sD]) ++
  opsOf (newPCPGaugeVector 2 10 [(sA, 0), (sB, 0x3FF0000000000000)] sD []) ++
  opsOf (newPCPSingletonMetric 3 (.str sA) sS StringType InstantSemantics OneUnit [sA, sB]) ++
  [.set sS none (.str sD)]

/-- The same with a metric whose name needs MMV version 2. -/
def sampleOps2 : List HOp := sampleOps ++ opsOf (newPCPTimer 4 sLong 0 [])

def sampleReg : Reg := runHist (fun _ => none) Reg.empty sampleOps
def sampleReg2 : Reg := runHist (fun _ => none) Reg.empty sampleOps2

theorem sampleOps_made : ∀ op ∈ sampleOps, HOp.Made op := by
  intro op hop
  simp only [sampleOps, List.mem_append, or_assoc] at hop
  rcases hop with h | h | h | h
  · exact opsOf_made (fun _ h => .counter h) op h
  · exact opsOf_made (fun _ h => .gaugeVector h) op h
  · exact opsOf_made (fun _ h => .singleton h) op h
  · simp at h; subst h; trivial

theorem sampleReg_built : Built sampleReg := ⟨_, _, sampleOps_made, rfl⟩

theorem sampleReg2_built : Built sampleReg2 := by
  refine ⟨_, sampleOps2, ?_, rfl⟩
  intro op hop
  rcases List.mem_append.1 hop with h | h
  · exact sampleOps_made op h
  · exact opsOf_made (fun _ h => .timer h) op h

/-- Both registries contain what they should. -/
example : sampleReg.metrics.map (fun m => m.desc.name) = [sC, sD, sS] ∧ sampleReg.version2 = false ∧
    sampleReg.InstanceCount = 2 ∧ sampleReg.StringCount = 4 := by decide
example : sampleReg2.metrics.map (fun m => m.desc.name) = [sC, sD, sS, sLong] ∧ sampleReg2.version2 = true ∧
    sampleReg2.ValuesCount = 5 ∧ sampleReg2.StringCount = 10 := by decide

/-- Decidable form of `Publishable`. -/
def Reg.publishable (r : Reg) : Bool :=
  (r.indoms.isEmpty || r.indoms.any (fun d => d.insts ≠ [])) &&
  r.indoms.all (fun d => d.short.length ≤ 256 && d.long.length ≤ 256) &&
  r.metrics.all (fun m => m.desc.short.length ≤ 256 && m.desc.long.length ≤ 256 && m.kind ≠ .foreign &&
    (match m.body with
     | .single (.str s) => decide (s.length ≤ 256)
     | .single _ => true
     | .inst d vs => decide (d ∈ r.indoms) &&
        vs.all (fun p => match p.2 with | .str s => decide (s.length ≤ 256) | _ => true))) &&
  (r.indoms.map (·.uid)).Nodup && (r.metrics.map (·.uid)).Nodup

theorem publishable_of {r : Reg} (h : r.publishable = true) : r.Publishable := by
  simp only [Reg.publishable, Bool.and_eq_true, List.all_eq_true, decide_eq_true_eq] at h
  obtain ⟨⟨⟨⟨h0, h1⟩, h2⟩, h3⟩, h4⟩ := h
  refine ⟨?_, h1,
    fun m hm => (h2 m hm).1.1, ?_, fun m hm => (h2 m hm).1.2, ?_, h3, h4⟩
  · intro hne
    simpa [hne] using h0
  · intro m hm n s hc
    have := (h2 m hm).2
    unfold Metric.cur at hc
    cases hb : m.body with
    | single v =>
      rw [hb] at hc this
      cases n with
      | none => cases hc; simpa using this
      | some n => cases hc
    | inst d vs =>
      rw [hb] at hc this
      cases n with
      | none => cases hc
      | some n =>
        simp only [Bool.and_eq_true, List.all_eq_true] at this
        simp only [Option.map_eq_some_iff] at hc
        obtain ⟨p, hp, hs⟩ := hc
        have := this.2 p (List.mem_of_find?_eq_some hp)
        rw [hs] at this
        simpa using this
  · intro m hm d hd
    have := (h2 m hm).2
    unfold Metric.indom at hd
    cases hb : m.body with
    | single v => rw [hb] at hd; cases hd
    | inst d' vs =>
      rw [hb] at hd this
      cases hd
      simp only [Bool.and_eq_true, decide_eq_true_eq] at this
      exact this.1

theorem sampleReg_pub : sampleReg.Publishable := publishable_of (by decide)
theorem sampleReg2_pub : sampleReg2.Publishable := publishable_of (by decide)

theorem sampleReg_small : sampleReg.Small := by constructor <;> decide
theorem sampleReg2_small : sampleReg2.Small := by constructor <;> decide

/-- Iteration in list order. -/
def idOrd (r : Reg) : Ord := ⟨r.indoms, fun d => d.insts, r.metrics, fun m => match m.indom with | some d => d.insts | none => []⟩

theorem idOrd_ok (r : Reg) : (idOrd r).OK r where
  indoms := .refl _
  insts := fun _ _ => .refl _
  metrics := .refl _
  vals := by
    intro m _ d vs hb
    simp only [idOrd, Metric.indom, hb]
    exact .refl _

/-- Iteration in reverse order. -/
def revOrd (r : Reg) : Ord := ⟨r.indoms.reverse, fun d => d.insts.reverse, r.metrics.reverse, fun m => match m.indom with | some d => d.insts.reverse | none => []⟩

theorem revOrd_ok (r : Reg) : (revOrd r).OK r where
  indoms := List.reverse_perm _
  insts := fun _ _ => List.reverse_perm _
  metrics := List.reverse_perm _
  vals := by
    intro m _ d vs hb
    simp only [revOrd, Metric.indom, hb]
    exact List.reverse_perm _

theorem Built.ok {r : Reg} (hb : Built r) (hp : r.Publishable) : r.OK := hb.inv.ok hp
theorem Built.typed {r : Reg} (hb : Built r) : r.Typed := hb.inv.typed

/-- From every state of a `Start` a state is reachable in which it has returned. -/
theorem reach_returned {r : Reg} {e : Env} {o : Ord} (hr : r.OK) (ho : o.OK r) {cells s}
    (h : Reach (initSt r e o cells) s) : ∃ t, Reach s t ∧ Returned t := by
  obtain ⟨t, h1, h2⟩ := exists_stuck s
  have h3 := start_progress hr ho (h.trans h1) h2
  refine ⟨t, h1, ?_⟩
  have hlen : ∀ {a b : St}, Reach a b → 0 < a.thr.length → 0 < b.thr.length := by
    intro a b hab h0
    induction hab with
    | refl => exact h0
    | tail _ hs ih =>
      obtain ⟨i, j, hs⟩ := hs
      unfold step at hs
      repeat' split at hs
      all_goals first
        | (obtain rfl := Option.some.inj hs; first | exact ih | (simpa [St.crash] using ih) | (simp))
        | cases hs
  have h0 : 0 < t.thr.length := hlen (h.trans h1) (by simp [initSt])
  obtain ⟨p, hp⟩ : ∃ p, t.thr[0]? = some p := ⟨_, List.getElem?_eq_getElem h0⟩
  have := h3 p (List.mem_of_getElem? hp)
  subst this
  exact hp

end Speed
