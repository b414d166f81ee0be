import Verif.PropsClient
/-
Property C85: can a reader tell by the generation number that a client was started anew?
-/
namespace Speed

open Dump

variable {cf : Conf} {tmp : Str} {parse : Str → Option (Str × Str × Option (List Str))}

/-- A history of a program with one client from `w` to `w'`, with the calls and their results. -/
inductive RHist (cf : Conf) (tmp : Str) (parse : Str → Option (Str × Str × Option (List Str))) (w : Sys) :
    List (COp × Ans Unit) → Sys → Prop
  | nil : RHist cf tmp parse w [] w
  | snoc {tr w1 op res w2} : RHist cf tmp parse w tr w1 → CStep cf tmp parse w1 op w2 res → Fair w1 op →
      RHist cf tmp parse w (tr ++ [(op, res)]) w2

/-- The clock readings at the calls of `Start` that returned nil. -/
def startGens (tr : List (COp × Ans Unit)) : List (BitVec 64) :=
  tr.filterMap fun x => match x with
    | (.start _ gen _ _, .ok ()) => some gen
    | _ => none

theorem startGens_append (a b : List (COp × Ans Unit)) : startGens (a ++ b) = startGens a ++ startGens b := by
  unfold startGens; exact List.filterMap_append

theorem RHist.hist {w tr w'} (h : RHist cf tmp parse w tr w') (hw : CHist cf tmp parse w) : CHist cf tmp parse w' := by
  induction h with
  | nil => exact hw
  | snoc _ hs hf ih => exact ih.step hs hf

theorem RHist.trans {w a w1 b w2} (h : RHist cf tmp parse w a w1) (h' : RHist cf tmp parse w1 b w2) :
    RHist cf tmp parse w (a ++ b) w2 := by
  induction h' with
  | nil => rw [List.append_nil]; exact h
  | snoc _ hs hf ih => rw [← List.append_assoc]; exact ih.snoc hs hf

/-- The client is active with a file that was begun at `gen`. -/
def GenAt (w : Sys) (gen : BitVec 64) (n : Nat) : Prop :=
  ∃ c, w.clients = [c] ∧ c.writer = some n ∧ n ∈ w.fs.maps ∧ n < w.fs.next ∧
    ∃ pid o b live, Active ⟨c.flag, c.clusterID, gen, pid⟩ o live ∧ live.reg = { w.reg with mapped := b } ∧
    live.mem = w.fs.data n ∧ ∀ m ∈ w.reg.metrics, w.upd m.uid = some (n, fun s => live.cells (.upd m.uid s))

/-- What one call does to it. -/
theorem GenAt.step {w op w' res gen n} (h : CInv parse w) (hg : GenAt w gen n) (hmap : w.reg.mapped = true)
    (hs : CStep cf tmp parse w op w' res) (hf : Fair w op) (hm' : w'.reg.mapped = true) :
    (startGens [(op, res)] = [] ∧ GenAt w' gen n) ∨ ∃ g, startGens [(op, res)] = [g] ∧ GenAt w' g w.fs.next := by
  have hu := hg
  obtain ⟨cl, a1, a2, a3, a4, pid, o, b, live, g1, g2, g3, g4⟩ := hg
  cases hs with
  | new_err => exact .inl ⟨rfl, hu⟩
  | @new_ok name c _ hc =>
    have hw : w.clients = [] := hf
    rw [hw] at a1; cases a1
  | @setFlag i c flag _ hc =>
    have e : w.setFlag i c flag = (w, .err) := by unfold Sys.setFlag; rw [if_pos hmap]
    rw [e]
    exact .inl ⟨rfl, hu⟩
  | @reg op _ hno hmade =>
    rw [apply_mapped hmap hno]
    exact .inl ⟨rfl, hu⟩
  | @call_free name m c _ hm hn hup =>
    rw [g4 m hm] at hup; cases hup
  | @call_live name m c k u _ hm hn hup hmaps =>
    subst hn
    have hu' := g4 m hm
    rw [hup] at hu'
    simp only [Option.some.injEq, Prod.mk.injEq] at hu'
    obtain ⟨rfl, rfl⟩ := hu'
    refine .inl ⟨rfl, cl, a1, a2, a3, a4, pid, o, b, _, g1.call c (by rw [g2]; exact hm) (hf hmap), ?_, ?_, ?_⟩
    · obtain ⟨σ, hl, _⟩ := g1.liveAt
      have hnod := hl.ok.metricUid
      rw [g2] at hnod
      rw [replace_setMetric h.built.nodup hnod hm (Call.shape _ _ _)]
      unfold Live.call Live.put
      dsimp only
      rw [g2, g3]
      rfl
    · unfold Live.call Live.put
      dsimp only [fset]
      rw [if_pos rfl, g3]
      rfl
    · intro x hx
      have : ∃ y ∈ w.reg.metrics, y.uid = x.uid := by
        rcases mem_replace hx with ⟨rfl, _⟩ | hx
        · exact ⟨m, hm, (shape_uid (Call.shape c _ ⟨m, _⟩)).symm⟩
        · exact ⟨x, hx, rfl⟩
      obtain ⟨y, hy, he⟩ := this
      rw [← he]
      exact g4 y hy
  | @call_dead name m c k u m' a _ hm hn hup hmaps _ =>
    rw [g4 m hm] at hup
    simp only [Option.some.injEq, Prod.mk.injEq] at hup
    rw [hup.1] at a3
    exact absurd a3 hmaps
  | call_crash => exact .inl ⟨rfl, cl, a1, a2, a3, a4, pid, o, b, live, g1, g2, g3, g4⟩
  | @start_err i c gen pid os fs _ hc hn =>
    obtain ⟨k1, k2, k3, _⟩ := newMMW_none hn
    refine .inl ⟨rfl, cl, a1, a2, by dsimp only; rw [k2]; exact a3, Nat.lt_of_lt_of_le a4 k1, _, o, b, live, g1, g2, ?_, g4⟩
    dsimp only
    rw [k3 n a4]
    exact g3
  | @start_ok i c gen' pid' os fs k o' cells s _ hc hn ho hr hret =>
    obtain ⟨k1, k2, k3, k4, k5, k6, k7, _⟩ := newMMW_some hn
    obtain ⟨rfl, hw⟩ := only_client h.one hc
    subst k1
    refine .inr ⟨gen', rfl, { c with writer := some w.fs.next }, by simp [Sys.started, hw], rfl, by simp [Sys.started, k3],
      by simp only [Sys.started, k2]; omega,
      pid', o', w.reg.mapped, _, Active.start ⟨h.built.built, hf.1, hf.2, ho, ⟨cells, hr⟩, hret⟩, rfl, ?_, ?_⟩
    · simp [Sys.started, fset]
    · intro m hm
      have hm' : m.uid ∈ w.reg.metrics.map (·.uid) := List.mem_map.2 ⟨m, hm, rfl⟩
      simp only [Sys.started, if_pos hm']
  | start_crash => exact .inl ⟨rfl, cl, a1, a2, a3, a4, pid, o, b, live, g1, g2, g3, g4⟩
  | @stop i c erase os _ hc =>
    obtain ⟨rfl, hw⟩ := only_client h.one hc
    rw [a1] at hw
    obtain rfl := (List.cons.inj hw).1
    have : (w.stop 0 cl erase os).1.reg.mapped = false := by
      unfold Sys.stop
      rw [if_neg (by rw [hmap]; decide)]
      dsimp only
      rw [a2]
    rw [this] at hm'; cases hm'

/-- What the call that makes a client active does. -/
theorem genAt_start {w op w' res} (h : CInv parse w) (hmap : w.reg.mapped = false) (hs : CStep cf tmp parse w op w' res) (hf : Fair w op)
    (hm' : w'.reg.mapped = true) : ∃ g, startGens [(op, res)] = [g] ∧ GenAt w' g w.fs.next := by
  cases hs with
  | @start_ok i c gen' pid' os fs k o' cells s _ hc hn ho hr hret =>
    obtain ⟨k1, k2, k3, k4, k5, k6, k7, _⟩ := newMMW_some hn
    obtain ⟨rfl, hw⟩ := only_client h.one hc
    subst k1
    refine ⟨gen', rfl, { c with writer := some w.fs.next }, by simp [Sys.started, hw], rfl, by simp [Sys.started, k3],
      by simp only [Sys.started, k2]; omega,
      pid', o', w.reg.mapped, _, Active.start ⟨h.built.built, hf.1, hf.2, ho, ⟨cells, hr⟩, hret⟩, rfl, ?_, ?_⟩
    · simp [Sys.started, fset]
    · intro m hm
      have hm' : m.uid ∈ w.reg.metrics.map (·.uid) := List.mem_map.2 ⟨m, hm, rfl⟩
      simp only [Sys.started, if_pos hm']
  | @setFlag i c flag _ hc =>
    unfold Sys.setFlag at hm'
    rw [if_neg (by rw [hmap]; decide)] at hm'
    dsimp only at hm'
    rw [hmap] at hm'; cases hm'
  | @reg op _ hno hmade =>
    dsimp only at hm'
    rw [apply_mapped_false hmap hno] at hm'; cases hm'
  | @stop i c erase os _ hc =>
    unfold Sys.stop at hm'
    rw [if_pos hmap, hmap] at hm'; cases hm'
  | new_err => rw [hmap] at hm'; cases hm'
  | new_ok => dsimp only at hm'; rw [hmap] at hm'; cases hm'
  | call_free => exact absurd (hmap.symm.trans (show w.reg.mapped = true from hm')) (by decide)
  | call_live => exact absurd (hmap.symm.trans (show w.reg.mapped = true from hm')) (by decide)
  | call_dead => exact absurd (hmap.symm.trans (show w.reg.mapped = true from hm')) (by decide)
  | call_crash => dsimp only at hm'; rw [hmap] at hm'; cases hm'
  | start_err => dsimp only at hm'; rw [hmap] at hm'; cases hm'
  | start_crash => dsimp only at hm'; rw [hmap] at hm'; cases hm'

theorem CStep.next {w op w' res} (hs : CStep cf tmp parse w op w' res) : w.fs.next ≤ w'.fs.next := by
  cases hs with
  | start_err _ _ hn => exact (newMMW_none hn).1
  | start_ok _ _ hn => obtain ⟨_, k2, _⟩ := newMMW_some hn; simp only [Sys.started, k2]; omega
  | @stop i c erase os _ hc =>
    unfold Sys.stop
    split
    · exact Nat.le_refl _
    · dsimp only
      split
      · exact Nat.le_refl _
      · exact Nat.le_of_eq (unmap_spec _ _ _ _ _).1.symm
  | @setFlag i c flag _ hc => unfold Sys.setFlag; split <;> exact Nat.le_refl _
  | _ => exact Nat.le_refl _

/-- From one moment of a history to a later one. -/
theorem RHist.gens {w0 tr w} (h : RHist cf tmp parse w0 tr w) (hw : CHist cf tmp parse w0) : w0.fs.next ≤ w.fs.next ∧
    (w.reg.mapped = true → (startGens tr = [] ∧ w0.reg.mapped = true ∧ ∀ g n, GenAt w0 g n → GenAt w g n) ∨
      ∃ g n, (startGens tr).getLast? = some g ∧ GenAt w g n ∧ w0.fs.next ≤ n) := by
  induction h with
  | nil => exact ⟨Nat.le_refl _, fun hm => .inl ⟨rfl, hm, fun _ _ h => h⟩⟩
  | @snoc tr w1 op res w2 h hs hf ih =>
    refine ⟨Nat.le_trans ih.1 hs.next, fun hm => ?_⟩
    have hi := (h.hist hw).inv
    rw [startGens_append]
    cases hm1 : w1.reg.mapped with
    | false =>
      obtain ⟨g, h1, h2⟩ := genAt_start hi hm1 hs hf hm
      exact .inr ⟨g, _, by rw [h1]; simp, h2, ih.1⟩
    | true =>
      have key : ∀ g n, GenAt w1 g n → _ := fun g n hg => hg.step hi hm1 hs hf hm
      rcases ih.2 hm1 with ⟨e1, e2, e3⟩ | ⟨g, n, e1, e2, e3⟩
      · rw [e1, List.nil_append]
        by_cases hsg : startGens [(op, res)] = []
        · refine .inl ⟨hsg, e2, fun g n hg => ?_⟩
          rcases key g n (e3 g n hg) with ⟨_, k⟩ | ⟨g', k, _⟩
          · exact k
          · rw [hsg] at k; cases k
        · obtain ⟨c, n, a⟩ := hi.act hm1
          obtain ⟨gen, pid, o, b, live, k1, k2, k3, k4⟩ := a.live
          rcases key gen n ⟨c, a.client, a.writer, a.mapped, hi.fs.maps n a.mapped, pid, o, b, live, k1, k2, k3, k4⟩ with ⟨k, _⟩ | ⟨g', k, k'⟩
          · exact absurd k hsg
          · exact .inr ⟨g', _, by rw [k]; rfl, k', ih.1⟩
      · rcases key g n e2 with ⟨k, k'⟩ | ⟨g', k, k'⟩
        · exact .inr ⟨g, n, by rw [k, List.append_nil]; exact e1, k', e3⟩
        · exact .inr ⟨g', _, by rw [k]; simp, k', ih.1⟩

theorem GenAt.dump {w g n} (h : GenAt w g n) : ∃ c, w.clients = [c] ∧ c.writer = some n ∧ (∃ out, Dumps (w.fs.data n) out) ∧
    ∀ out, Dumps (w.fs.data n) out → ∃ D, out = .ok D ∧ D.header.g1 = g ∧ D.header.g2 = g ∧ Describes w.reg D := by
  obtain ⟨c, a1, a2, _, _, pid, o, b, live, g1, g2, g3, _⟩ := h
  refine ⟨c, a1, a2, dumps_exists _, fun out hd => ?_⟩
  rw [← g3] at hd
  obtain ⟨σ, hl, hi⟩ := g1.liveAt
  obtain ⟨D, e1, e2, e3⟩ := hl.dump hi hd
  rw [g2] at e3
  exact ⟨D, e1, by rw [e2]; rfl, by rw [e2]; rfl, _,
    ⟨e3.indomKeys, e3.instKeys, e3.metricKeys, e3.valueKeys, e3.nodup, e3.indoms, e3.insts, e3.metrics, e3.values, e3.strings⟩⟩

/-! ### The theorems -/

/-- **C85**, the generation: after any history with one client, and any failures of system calls in it, the two generation
numbers in the file of an active client are the reading of the clock at the last `Start` that returned nil. -/
theorem C85_generation {fs tr w} (hfs : fs.OK) (h : RHist cf tmp parse (Sys.init fs) tr w) (hm : w.reg.mapped = true) :
    ∃ c n g, w.clients = [c] ∧ c.writer = some n ∧ (startGens tr).getLast? = some g ∧ (∃ out, Dumps (w.fs.data n) out) ∧
      ∀ out, Dumps (w.fs.data n) out → ∃ D, out = .ok D ∧ D.header.g1 = g ∧ D.header.g2 = g := by
  rcases (h.gens (.init hfs)).2 hm with ⟨_, h2, _⟩ | ⟨g, n, h1, h2, _⟩
  · cases h2
  · obtain ⟨c, a1, a2, a3, a4⟩ := h2.dump
    refine ⟨c, n, g, a1, a2, h1, a3, fun out ho => ?_⟩
    obtain ⟨D, e1, e2, e3, _⟩ := a4 out ho
    exact ⟨D, e1, e2, e3⟩

/-- **C85**, the part that holds, between two moments of a history at which the client is active, `n1` and `n2` being the files of
its writer: they are the same file exactly if no `Start` succeeded in between. If none did, the generation is the same; if
the clock at the last `Start` was different from the generation before, the generation is different. Missing: the case that the clock
shows the same second (`C85_refuted`). -/
theorem C85_notice_partial {w1 tr w2} (hw : CHist cf tmp parse w1) (h : RHist cf tmp parse w1 tr w2) (hm1 : w1.reg.mapped = true)
    (hm2 : w2.reg.mapped = true) : ∃ c1 n1 c2 n2, w1.clients = [c1] ∧ c1.writer = some n1 ∧ w2.clients = [c2] ∧ c2.writer = some n2 ∧
      (n1 = n2 ↔ startGens tr = []) ∧ ∀ D1 D2, Dumps (w1.fs.data n1) (.ok D1) → Dumps (w2.fs.data n2) (.ok D2) →
        ((startGens tr).getLast? ≠ some D1.header.g1 → (D1.header.g1 = D2.header.g1 ↔ startGens tr = [])) ∧
        (startGens tr = [] → D1.header.g2 = D2.header.g2) := by
  have hi := hw.inv
  obtain ⟨c, n, a⟩ := hi.act hm1
  obtain ⟨gen, pid, o, b, live, k1, k2, k3, k4⟩ := a.live
  have hg : GenAt w1 gen n := ⟨c, a.client, a.writer, a.mapped, hi.fs.maps n a.mapped, pid, o, b, live, k1, k2, k3, k4⟩
  obtain ⟨c1, a1, a2, _, a4⟩ := hg.dump
  have hlt := hi.fs.maps n a.mapped
  rcases (h.gens hw).2 hm2 with ⟨h1, _, h3⟩ | ⟨g, n2, h1, h2, h3⟩
  · obtain ⟨c2, b1, b2, _, b4⟩ := (h3 gen n hg).dump
    refine ⟨c1, n, c2, n, a1, a2, b1, b2, iff_of_true rfl h1, fun D1 D2 d1 d2 => ?_⟩
    obtain ⟨_, ⟨⟩, e1, e2, _⟩ := a4 _ d1
    obtain ⟨_, ⟨⟩, f1, f2, _⟩ := b4 _ d2
    exact ⟨fun _ => iff_of_true (e1.trans f1.symm) h1, fun _ => e2.trans f2.symm⟩
  · obtain ⟨c2, b1, b2, _, b4⟩ := h2.dump
    have hne : startGens tr ≠ [] := by intro he; rw [he] at h1; cases h1
    refine ⟨c1, n, c2, n2, a1, a2, b1, b2, iff_of_false (by omega) hne, fun D1 D2 d1 d2 => ?_⟩
    obtain ⟨_, ⟨⟩, e1, e2, _⟩ := a4 _ d1
    obtain ⟨_, ⟨⟩, f1, f2, _⟩ := b4 _ d2
    refine ⟨fun hd => iff_of_false (fun he => hd ?_) hne, fun he => absurd he hne⟩
    rw [h1, he, f1]

theorem RHist.one {w op w' res} (h : CStep cf tmp parse w op w' res) (hf : Fair w op) : RHist cf tmp parse w [(op, res)] w' :=
  (RHist.nil (w := w)).snoc h hf

/-- Another counter, "b". -/
def moreOps : List ROp := ((newPCPCounter 4 0 sB []).toList).map .addMetric

theorem moreOps_made : ∃ m, moreOps = [.addMetric m] ∧ MadeMetric m := by
  refine ⟨_, rfl, .counter (uid := 4) (val := 0) (name := sB) (desc := []) ?_⟩
  rfl

/-- **C85 is false.** A client is started, stopped, gets another metric and is started again within a second: there is a new file with
other contents and the same generation numbers. -/
theorem C85_refuted (cf : Conf) (tmp : Str) : ∃ w1 tr w2, CHist cf tmp (fun _ => none) w1 ∧ RHist cf tmp (fun _ => none) w1 tr w2 ∧
    w1.reg.mapped = true ∧ w2.reg.mapped = true ∧ startGens tr = [12345] ∧ ∃ c1 n1 c2 n2,
      w1.clients = [c1] ∧ c1.writer = some n1 ∧ w2.clients = [c2] ∧ c2.writer = some n2 ∧ n1 ≠ n2 ∧
      ∀ D1 D2, Dumps (w1.fs.data n1) (.ok D1) → Dumps (w2.fs.data n2) (.ok D2) →
        D1.header.g1 = D2.header.g1 ∧ D1.header.g2 = D2.header.g2 ∧ D1.metrics.length = 3 ∧ D2.metrics.length = 4 := by
  obtain ⟨w0, w, h0, _, hr0, hst, hw, hcr, hr⟩ := sample_start cf tmp
  have hm : w.reg.mapped = true := by rw [hr]
  obtain ⟨g, hg, hga⟩ := genAt_start h0.inv (by rw [hr0]; decide) hst (by rw [Fair, hr0]; exact ⟨baseReg_pub, baseReg_small⟩) hm
  obtain rfl : (12345 : BitVec 64) = g := (List.cons.inj hg).1
  obtain ⟨c, a1, a2, _, a4⟩ := hga.dump
  have hc : w.clients[0]? = some c := by rw [a1]; rfl
  have hs : CStep cf tmp (fun _ => none) w (.stop 0 false ⟨false, false, false⟩) _ _ := .stop hcr hc
  have hw1 := hw.step hs trivial
  obtain ⟨c', n', k1, _, k2, k3, k4, _⟩ := C37_stop_partial hw hm hs
  rw [a1] at k1
  obtain rfl := (List.cons.inj k1).1
  have H1 := RHist.one hs trivial
  generalize (w.stop 0 c false ⟨false, false, false⟩).1 = w1 at hw1 k2 k3 k4 hs H1
  have hb : w1.reg = baseReg := by rw [k2, hr]; rfl
  obtain ⟨m, hmo, hmade⟩ := moreOps_made
  have hreg : CStep cf tmp (fun _ => none) w1 (.reg (.addMetric m)) _ _ := .reg k4 (by simp) hmade
  have hw2 := hw1.step hreg trivial
  have H2 := H1.snoc hreg trivial
  have hrm : (ROp.apply (fun _ => none) w1.reg (.addMetric m)).reg = runOps (fun _ => none) baseReg moreOps := by rw [hb, hmo]; rfl
  rw [hrm] at hw2 H2
  have hp : (runOps (fun _ => none) baseReg moreOps).Publishable := publishable_of (by decide)
  have hsm : (runOps (fun _ => none) baseReg moreOps).Small := by constructor <;> decide
  obtain ⟨w3, h3, s, hw3⟩ := base_start (cf := cf) (tmp := tmp) hw2.inv.built hp k4 (i := 0) (c := { c with writer := none })
    (by show w1.clients[0]? = _; rw [k3]; rfl) 12345 42
  have H3 := H2.snoc h3 ⟨hp, hsm⟩
  have hr3 : w3.reg = { runOps (fun _ => none) baseReg moreOps with mapped := true } := by rw [hw3]; rfl
  have hm3 : w3.reg.mapped = true := by rw [hr3]
  have hsg : ∀ r1 r2, startGens ([(COp.stop 0 false ⟨false, false, false⟩, r1)] ++ [(COp.reg (.addMetric m), r2)] ++
      [(COp.start 0 12345 42 (.fine (runOps (fun _ => none) baseReg moreOps).Length), .ok ())]) = [12345] := fun _ _ => rfl
  have key := (H3.gens hw).2 hm3
  rw [hsg] at key
  rcases key with ⟨h, _⟩ | ⟨g, n2, e1, e2, e3⟩
  · cases h
  obtain rfl : (12345 : BitVec 64) = g := Option.some.inj e1
  obtain ⟨c2, b1, b2, _, b4⟩ := e2.dump
  obtain ⟨_, _, _, _, hlt, _⟩ := hga
  refine ⟨w, _, w3, hw, H3, hm, hm3, hsg _ _, c, _, c2, n2, a1, a2, b1, b2, by omega, fun D1 D2 d1 d2 => ?_⟩
  obtain ⟨_, ⟨⟩, e1, e2, A, hA⟩ := a4 _ d1
  obtain ⟨_, ⟨⟩, f1, f2, B, hB⟩ := b4 _ d2
  refine ⟨e1.trans f1.symm, e2.trans f2.symm, ?_, ?_⟩
  · have := hA.metricKeys.length_eq
    rw [List.length_map, List.length_map, hr] at this
    rw [this]
    decide
  · have := hB.metricKeys.length_eq
    rw [List.length_map, List.length_map, hr3] at this
    rw [this]
    decide

/-- With clocks 12345 and then 12346 the readings tell them apart. -/
example : startGens [(.start 0 12345 42 (.fine 0), .ok ()), (.stop 0 true ⟨false, false, false⟩, .ok ()), (.start 0 7 42 (.fine 0), .err),
    (.start 0 12346 42 (.fine 0), .ok ())] = [12345, 12346] := rfl

end Speed
