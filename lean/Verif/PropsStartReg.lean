import Verif.StartReg
/-
C62: metrics that are registered while `Start` runs.
-/
namespace Speed

open Dump

/-! ### What holds: nothing is registered while `Start` runs -/

variable {parse : Str → Option (Str × Str × Option (List Str))} {e : Env}

theorem beginSt_eq (r : Reg) (e : Env) (o : Ord) (cells : Cell → Option Nat) :
    beginSt r.Length r e o cells = initSt r e o cells := by
  unfold beginSt initSt
  rw [StartLen.startProg_eq]

/-- What is known in each phase. -/
def SRInv (parse : Str → Option (Str × Str × Option (List Str))) (e : Env) (w : RegStart) : Prop :=
  BuiltBy parse w.reg ∧ match w.phase with
  | .idle => True
  | .sized len => len = w.reg.Length
  | .running s => ∃ o cells, o.OK w.reg ∧ Reach (initSt w.reg e o cells) s
  | .active F => ∃ r o cells s, w.reg = { r with mapped := true } ∧ BuiltBy parse r ∧ o.OK r ∧ Reach (initSt r e o cells) s ∧
      Returned s ∧ F = s.mem

theorem SRInv.reach {w0 w : RegStart} (h : SRReach parse e (ApartCall parse) w0 w) (h0 : BuiltBy parse w0.reg)
    (hp : w0.phase = .idle) : SRInv parse e w := by
  induction h with
  | refl => exact ⟨h0, by rw [hp]; trivial⟩
  | @tail w l w' _ hs hq ih =>
    obtain ⟨hb, ih⟩ := ih
    cases hs with
    | @call r p op hop hm =>
      have hb' : BuiltBy parse (op.apply parse r).reg := hb.step (.reg op) hm
      refine ⟨hb', ?_⟩
      have hq := hq op rfl
      cases p with
      | idle => trivial
      | sized len => rw [hq trivial]; exact ih
      | running s => rw [hq trivial]; exact ih
      | active F =>
        obtain ⟨r', o, cells, s, rfl, h1⟩ := ih
        have : (op.apply parse { r' with mapped := true }).reg = { r' with mapped := true } := by
          rw [apply_mapped rfl hop]
        rw [this]
        exact ⟨r', o, cells, s, rfl, h1⟩
    | size => exact ⟨hb, rfl⟩
    | @begin r len o cells ho =>
      have hl : len = r.Length := ih
      subst hl
      exact ⟨hb, o, cells, ho, by rw [beginSt_eq]; exact .refl⟩
    | go hst =>
      obtain ⟨o, cells, h1, h2⟩ := ih
      exact ⟨hb, o, cells, h1, h2.tail hst⟩
    | @finish r s hr =>
      obtain ⟨o, cells, h1, h2⟩ := ih
      exact ⟨hb.mapped true, r, o, cells, s, rfl, hb, h1, h2, hr, rfl⟩

/-- C62, the part that holds: if no registry call changes the registry between the moment `Start` takes the length and the
moment it sets `mapped`, `Start` does not crash, and when it has returned the file describes the registry. Missing: the
other runs (`C62_refuted_crash`, `C62_refuted_missing`). -/
theorem C62_apart_partial {r0 : Reg} (h0 : BuiltBy parse r0) {w : RegStart}
    (h : SRReach parse e (ApartCall parse) ⟨r0, .idle⟩ w) (hp : w.reg.Publishable) (hsm : w.reg.Small) :
    (∀ s, w.phase = .running s → s.crashed = false) ∧
    ∀ F, w.phase = .active F → (∃ out, Dumps F out) ∧ ∀ out, Dumps F out → ∃ D, out = .ok D ∧ Describes w.reg D := by
  obtain ⟨hb, hi⟩ := SRInv.reach h h0 rfl
  constructor
  · intro s hs
    rw [hs] at hi
    obtain ⟨o, cells, h1, h2⟩ := hi
    exact ((C02_terminates hb.built hp h1 e cells).1 s h2).1
  · intro F hF
    rw [hF] at hi
    obtain ⟨r, o, cells, s, hr, h1, h2, h3, h4, rfl⟩ := hi
    rw [hr] at hp hsm ⊢
    have hst : Started r e o s := ⟨h1.built,
      ⟨hp.nonempty, hp.indomText, hp.metricText, hp.strVals, hp.library, hp.registered, hp.indomUid, hp.metricUid⟩,
      ⟨hsm.indoms, hsm.insts, hsm.metrics, hsm.values, hsm.strings⟩, h2, ⟨cells, h3⟩, h4⟩
    obtain ⟨k1, k2⟩ := C03_dump_describes hst
    refine ⟨k1, fun out hd => ?_⟩
    obtain ⟨D, e1, A, e2⟩ := k2 out hd
    exact ⟨D, e1, A, e2.indomKeys, e2.instKeys, e2.metricKeys, e2.valueKeys, e2.nodup, e2.indoms, e2.insts, e2.metrics, e2.values, e2.strings⟩

/-! ### It is false -/

theorem SRReach.goes {Q w0 r s t} (h : SRReach parse e Q w0 ⟨r, .running s⟩) (hr : Reach s t) : SRReach parse e Q w0 ⟨r, .running t⟩ := by
  induction hr with
  | refl => exact h
  | tail _ hs ih => exact ih.tail (.go hs) (by simp)


/-- One counter "c"; another metric "a" is registered while `Start` runs. -/
def oneReg : Reg := runHist (fun _ => none) Reg.empty (opsOf (newPCPCounter 1 5 sC []))
def lateMetric : Option Metric := newPCPGauge 2 0 sA []

theorem oneReg_built : BuiltBy (fun _ => none) oneReg :=
  ⟨_, fun op hop => opsOf_made (fun _ h => .counter h) op hop, rfl⟩

/-- The process as it is when the metric has been registered after `Start` took the length. -/
def lateSt (m : Metric) : St :=
  beginSt oneReg.Length ((ROp.addMetric m).apply (fun _ => none) oneReg).reg ⟨2, 77, 12345, 42⟩
    (idOrd ((ROp.addMetric m).apply (fun _ => none) oneReg).reg) (fun _ => none)

/-- Main goroutine, the one that writes the metrics, the one of the first metric. -/
def lateSched : List (Nat × Nat) := List.replicate 4 (0, 0) ++ List.replicate 4 (3, 0) ++ List.replicate 7 (4, 0)

/-- C62 does not hold: a metric registered after `Start` has taken the length makes `Start` write past the end of the file:
a panic in a goroutine. -/
theorem C62_refuted_crash : ∃ m w s, lateMetric = some m ∧ ((ROp.addMetric m).apply (fun _ => none) oneReg).ok = true ∧
    SRReach (fun _ => none) ⟨2, 77, 12345, 42⟩ anyCall ⟨oneReg, .idle⟩ w ∧ w.phase = .running s ∧ s.crashed = true := by
  obtain ⟨m, hm, h1, s, hs, h2⟩ : ∃ m, lateMetric = some m ∧ ((ROp.addMetric m).apply (fun _ => none) oneReg).ok = true ∧
      ∃ s, run (lateSt m) lateSched = some s ∧ s.crashed = true := ⟨_, rfl, rfl, _, rfl, rfl⟩
  have hmade : HOp.Made (.reg (.addMetric m)) := MadeMetric.gauge hm
  refine ⟨m, ⟨((ROp.addMetric m).apply (fun _ => none) oneReg).reg, .running s⟩, s, hm, h1, ?_, rfl, h2⟩
  have hr : SRReach (fun _ => none) ⟨2, 77, 12345, 42⟩ anyCall ⟨oneReg, .idle⟩
      ⟨((ROp.addMetric m).apply (fun _ => none) oneReg).reg, .running (lateSt m)⟩ :=
    ((SRReach.refl.tail .size (fun _ _ => trivial)).tail (.call (op := .addMetric m) (by simp) hmade) (fun _ _ => trivial)).tail
      (.begin (idOrd_ok _)) (fun _ _ => trivial)
  exact hr.goes (reach_of_run hs)

/-- Apart from `Start`: the metric "a" is registered before it; `Start` runs to its end; another registration is refused. -/
example : ∃ m w F, lateMetric = some m ∧ SRReach (fun _ => none) ⟨2, 77, 12345, 42⟩ (ApartCall fun _ => none) ⟨oneReg, .idle⟩ w ∧
    w.phase = .active F ∧ w.reg.metrics.length = 2 ∧ w.reg.Publishable ∧ w.reg.Small := by
  obtain ⟨m, hm, hp, hsm, hl⟩ : ∃ m, lateMetric = some m ∧ ((ROp.addMetric m).apply (fun _ => none) oneReg).reg.Publishable ∧
      ((ROp.addMetric m).apply (fun _ => none) oneReg).reg.Small ∧ ((ROp.addMetric m).apply (fun _ => none) oneReg).reg.metrics.length = 2 :=
    ⟨_, rfl, publishable_of (by decide), by constructor <;> decide, by decide⟩
  have hmade : HOp.Made (.reg (.addMetric m)) := MadeMetric.gauge hm
  have hb := oneReg_built.step (.reg (.addMetric m)) hmade
  generalize hr : ((ROp.addMetric m).apply (fun _ => none) oneReg).reg = r at hp hsm hl
  have h0 : SRReach (fun _ => none) ⟨2, 77, 12345, 42⟩ (ApartCall fun _ => none) ⟨oneReg, .idle⟩ ⟨r, .idle⟩ := by
    subst hr
    exact SRReach.refl.tail (.call (op := .addMetric m) (by simp) hmade) (fun _ _ h => h.elim)
  obtain ⟨s, h⟩ := started_exists (hr ▸ hb.built : Built r) hp hsm (idOrd_ok r) ⟨2, 77, 12345, 42⟩
  obtain ⟨cells, hrun⟩ := h.run
  have h1 := (SRReach.goes ((h0.tail .size (by simp)).tail (.begin (cells := cells) (idOrd_ok r)) (by simp))
    (by rw [beginSt_eq]; exact hrun)).tail (.finish h.ret) (by simp)
  have h2 := h1.tail (.call (op := .addMetric m) (by simp) hmade) (fun _ _ h => h.elim)
  rw [apply_mapped rfl (by simp)] at h2
  exact ⟨m, _, s.mem, hm, h2, rfl, hl, ⟨hp.nonempty, hp.indomText, hp.metricText, hp.strVals, hp.library, hp.registered, hp.indomUid, hp.metricUid⟩,
    ⟨hsm.indoms, hsm.insts, hsm.metrics, hsm.values, hsm.strings⟩⟩

/-- C62 does not hold, for any registry and any registration that can succeed: registered after `start` has read the
registry, a metric is in the registry of an active client, but the file does not describe it. -/
theorem C62_refuted_missing {r : Reg} (hb : Built r) (hp : r.Publishable) (hsm : r.Small) {op : ROp} (hop : ∀ b, op ≠ .mapped b)
    (hm : HOp.Made (.reg op)) (hadd : (op.apply parse r).reg.metrics.length ≠ r.metrics.length) :
    ∃ w F, SRReach parse e anyCall ⟨r, .idle⟩ w ∧ w.phase = .active F ∧
      w.reg = { (op.apply parse r).reg with mapped := true } ∧ (∃ D, Dumps F (.ok D)) ∧
      ∀ D, Dumps F (.ok D) → ¬ Describes w.reg D := by
  obtain ⟨s, h⟩ := started_exists hb hp hsm (idOrd_ok r) e
  obtain ⟨cells, hrun⟩ := h.run
  refine ⟨_, s.mem, ((SRReach.goes ((SRReach.refl.tail .size (fun _ _ => trivial)).tail (.begin (cells := cells) (idOrd_ok r)) (fun _ _ => trivial))
    (by rw [beginSt_eq]; exact hrun)).tail (.call hop hm) (fun _ _ => trivial)).tail (.finish h.ret) (fun _ _ => trivial), rfl, rfl, ?_, ?_⟩
  · obtain ⟨⟨out, h1⟩, h2⟩ := C03_dump_describes h
    obtain ⟨D, rfl, _⟩ := h2 out h1
    exact ⟨D, h1⟩
  · rintro D hD ⟨A, hA⟩
    obtain ⟨D', e1, A', hA'⟩ := (C03_dump_describes h).2 _ hD
    injection e1 with e1; subst e1
    have l1 := hA.metricKeys.length_eq
    have l2 := hA'.metricKeys.length_eq
    simp only [List.length_map] at l1 l2
    exact hadd (by rw [← l2, l1])

/-- The registry with the counter "c" and the gauge "a" registered meanwhile. -/
example : ∃ m, lateMetric = some m ∧ Built oneReg ∧ oneReg.Publishable ∧ oneReg.Small ∧
    ((ROp.addMetric m).apply (fun _ => none) oneReg).reg.metrics.length ≠ oneReg.metrics.length :=
  ⟨_, rfl, oneReg_built.built, publishable_of (by decide), by constructor <;> decide, by decide⟩

end Speed
