import Verif.PropsConfig
import Verif.ClientLemmas
/-
Properties of the life of a client (C14, C37, C38, C53).

`CStep cf tmp parse w op w' res`: in the system `w` the call `op` can lead to `w'` with result `res`.
`CSteps` are histories of calls, with any number of clients of one registry; `CHist` are the states of a
program with one client that calls `Start` only for registries that can be published (`Fair`).
-/
namespace Speed

open Dump

section
variable {cf : Conf} {tmp : Str} {parse : Str → Option (Str × Str × Option (List Str))}

/-! ### Sample histories -/

theorem CHist.regs {w : Sys} (h : CHist cf tmp parse w) (hc : w.crashed = false) (ops : List ROp)
    (hops : ∀ op ∈ ops, (∀ b, op ≠ .mapped b) ∧ HOp.Made (.reg op)) :
    ∃ w', CHist cf tmp parse w' ∧ CSteps cf tmp parse w (ops.map .reg) w' ∧ w' = { w with reg := runOps parse w.reg ops } := by
  induction ops generalizing w with
  | nil => exact ⟨w, h, .nil, rfl⟩
  | cons op ops ih =>
    obtain ⟨h1, h2⟩ := hops op (by simp)
    have hs : CStep cf tmp parse w (.reg op) _ _ := .reg hc h1 h2
    obtain ⟨w', g1, g2, g3⟩ := ih (h.step hs trivial) hc (fun o ho => hops o (by simp [ho]))
    exact ⟨w', g1, .cons hs g2, g3⟩

/-- The metrics of `sampleReg` as registry calls. -/
def sampleROps : List ROp :=
  ((newPCPCounter 1 5 sC [sD]).toList ++
  (newPCPGaugeVector 2 10 [(sA, 0), (sB, 0x3FF0000000000000)] sD []).toList ++
  (newPCPSingletonMetric 3 (.str sA) sS StringType InstantSemantics OneUnit [sA, sB]).toList).map .addMetric

theorem sampleROps_ok : ∀ op ∈ sampleROps, (∀ b, op ≠ .mapped b) ∧ HOp.Made (.reg op) := by
  intro op hop
  obtain ⟨m, hm, rfl⟩ := List.mem_map.1 hop
  refine ⟨by simp, ?_⟩
  simp only [List.mem_append, Option.mem_toList, Option.mem_def, or_assoc] at hm
  rcases hm with h | h | h
  · exact MadeMetric.counter h
  · exact MadeMetric.gaugeVector h
  · exact MadeMetric.singleton h

def emptyFS : FS := ⟨fun _ => none, fun _ => [], 0, [], []⟩
theorem emptyFS_ok : emptyFS.OK := ⟨by simp [emptyFS], by simp [emptyFS], by simp [emptyFS]⟩

/-- The registry with the three sample metrics. -/
def baseReg : Reg := runOps (fun _ => none) Reg.empty sampleROps

theorem baseReg_pub : baseReg.Publishable := publishable_of (by decide)
theorem baseReg_small : baseReg.Small := by constructor <;> decide

theorem newMMW_fine (fs : FS) (loc : Str) (size : Nat) : ∃ fs', newMMW fs loc size (.fine size) = (fs', some fs.next) := by
  unfold newMMW openMMW
  by_cases h : (fs.names loc).isSome = true
  · simp [StartOS.fine, h, FS.remove, fset]
  · simp only [Bool.not_eq_true] at h
    simp [StartOS.fine, h]

/-- A client of the sample registry can be started. -/
theorem base_start {w : Sys} (hb : BuiltBy parse w.reg) (hp : w.reg.Publishable) (hc : w.crashed = false) {i c} (hi : w.clients[i]? = some c)
    (gen pid : BitVec 64) : ∃ w', CStep cf tmp parse w (.start i gen pid (.fine w.reg.Length)) w' (.ok ()) ∧
      ∃ s, w' = w.started i c (newMMW w.fs c.loc w.reg.Length (.fine w.reg.Length)).1 w.fs.next s := by
  obtain ⟨fs', h1⟩ := newMMW_fine w.fs c.loc w.reg.Length
  obtain ⟨t, h2, h3⟩ := reach_returned (e := ⟨c.flag, c.clusterID, gen, pid⟩) (hb.built.ok hp) (idOrd_ok w.reg) (cells := fun _ => none) .refl
  refine ⟨_, .start_ok hc hi h1 (idOrd_ok _) h2 h3, t, ?_⟩
  rw [h1]

theorem newClient_plain (cf : Conf) (tmp : Str) : ∃ c, newClient cf tmp sA = some c ∧ c.writer = none := by
  unfold newClient mmvFileLocation
  rw [if_neg (by decide)]
  exact ⟨_, rfl, rfl⟩

/-- A started client of the sample registry. -/
theorem sample_client (cf : Conf) (tmp : Str) : ∃ w, CHist cf tmp (fun _ => none) w ∧ w.crashed = false ∧
    w.reg = { baseReg with mapped := true } := by
  obtain ⟨c, hc, _⟩ := newClient_plain cf tmp
  have h0 : CHist cf tmp (fun _ => none) (Sys.init emptyFS) := .init emptyFS_ok
  have h1 := h0.step (.new_ok rfl hc) rfl
  obtain ⟨w2, h2, _, rfl⟩ := h1.regs rfl sampleROps sampleROps_ok
  obtain ⟨w3, h3, s, rfl⟩ := base_start (cf := cf) (tmp := tmp) h2.inv.built baseReg_pub rfl (i := 0) (c := c) rfl 12345 42
  exact ⟨_, h2.step h3 ⟨baseReg_pub, baseReg_small⟩, rfl, rfl⟩

/-- The same client before and after its `Start`. -/
theorem sample_start (cf : Conf) (tmp : Str) : ∃ w w', CHist cf tmp (fun _ => none) w ∧ w.crashed = false ∧ w.reg = baseReg ∧
    CStep cf tmp (fun _ => none) w (.start 0 12345 42 (.fine baseReg.Length)) w' (.ok ()) ∧
    CHist cf tmp (fun _ => none) w' ∧ w'.crashed = false ∧ w'.reg = { baseReg with mapped := true } := by
  obtain ⟨c, hc, _⟩ := newClient_plain cf tmp
  have h0 : CHist cf tmp (fun _ => none) (Sys.init emptyFS) := .init emptyFS_ok
  have h1 := h0.step (.new_ok rfl hc) rfl
  obtain ⟨w2, h2, _, rfl⟩ := h1.regs rfl sampleROps sampleROps_ok
  obtain ⟨w3, h3, s, rfl⟩ := base_start (cf := cf) (tmp := tmp) h2.inv.built baseReg_pub rfl (i := 0) (c := c) rfl 12345 42
  exact ⟨_, _, h2, rfl, rfl, h3, h2.step h3 ⟨baseReg_pub, baseReg_small⟩, rfl, rfl⟩

/-! ### C14 -/

/-- C14: between a successful `Start` and the next `Stop` of a client of the registry, every registration and
every `SetFlag` fails and changes nothing, and the registry (but for values), the flags and `Length()` are
those at the time of `Start`. -/
theorem C14_frozen {fs pre w i gen pid os w1 ops w2} (h0 : CSteps cf tmp parse (Sys.init fs) pre w)
    (h1 : CStep cf tmp parse w (.start i gen pid os) w1 (.ok ())) (h2 : CSteps cf tmp parse w1 ops w2)
    (hns : ∀ op ∈ ops, ∀ j erase os, op ≠ .stop j erase os) (hcr : w2.crashed = false) :
    (∀ op, (∀ b, op ≠ .mapped b) → HOp.Made (.reg op) →
      CStep cf tmp parse w2 (.reg op) w2 .err ∧ ∀ w3 res, CStep cf tmp parse w2 (.reg op) w3 res → w3 = w2 ∧ res = .err) ∧
    (∀ j c flag, w2.clients[j]? = some c →
      CStep cf tmp parse w2 (.setFlag j flag) w2 .err ∧
      ∀ w3 res, CStep cf tmp parse w2 (.setFlag j flag) w3 res → w3 = w2 ∧ res = .err) ∧
    Frozen w.reg w2.reg ∧ w2.reg.Length = w.reg.Length ∧
    ∀ (j : Nat) (c : Client), w.clients[j]? = some c → ∃ c' : Client, w2.clients[j]? = some c' ∧ c'.flag = c.flag := by
  have hb := h0.built (parse := parse) builtBy_empty
  have hb1 := h1.built hb
  have key : ∀ {w1 ops w2}, CSteps cf tmp parse w1 ops w2 → BuiltBy parse w1.reg → w1.reg.mapped = true →
      (∀ op ∈ ops, ∀ j erase os, op ≠ .stop j erase os) →
      w2.reg.mapped = true ∧ Frozen w1.reg w2.reg ∧
      ∀ (j : Nat) (c : Client), w1.clients[j]? = some c → ∃ c' : Client, w2.clients[j]? = some c' ∧ c'.flag = c.flag := by
    intro w1 ops w2 h
    induction h with
    | nil => exact fun _ hm _ => ⟨hm, .refl _, fun j c h => ⟨c, h, rfl⟩⟩
    | cons hs _ ih =>
      intro hb hm hn
      obtain ⟨g1, g2, g3⟩ := hs.frozen hb hm (hn _ (by simp))
      obtain ⟨k1, k2, k3⟩ := ih (hs.built hb) g1 (fun o ho => hn o (by simp [ho]))
      refine ⟨k1, g2.trans k2, fun j c hj => ?_⟩
      obtain ⟨c', hc', he⟩ := g3 j c hj
      obtain ⟨c'', hc'', he'⟩ := k3 j c' hc'
      exact ⟨c'', hc'', he'.trans he⟩
  have hstart : w1.reg.mapped = true ∧ Frozen w.reg w1.reg ∧
      ∀ (j : Nat) (c : Client), w.clients[j]? = some c → ∃ c' : Client, w1.clients[j]? = some c' ∧ c'.flag = c.flag := by
    cases h1 with
    | @start_ok i c _ _ _ _ _ _ _ _ _ hc =>
      refine ⟨rfl, ⟨rfl, rfl, rfl, rfl, rfl, rfl⟩, fun j d hj => ?_⟩
      unfold Sys.started
      dsimp only
      by_cases hij : j = i
      · subst hij
        rw [hc] at hj
        obtain rfl := Option.some.inj hj
        exact ⟨_, List.getElem?_set_self (List.getElem?_eq_some_iff.1 hc).1, rfl⟩
      · exact ⟨d, by rw [List.getElem?_set_ne (fun h => hij h.symm)]; exact hj, rfl⟩
  obtain ⟨hm, hfr, hfl⟩ := hstart
  obtain ⟨hm2, hfr2, hfl2⟩ := key h2 hb1 hm hns
  refine ⟨fun op hop hmade => ?_, fun j c flag hj => ?_, hfr.trans hfr2, (hfr.trans hfr2).length, fun j c hj => ?_⟩
  · have he := apply_mapped (parse := parse) hm2 hop
    constructor
    · have := CStep.reg (cf := cf) (tmp := tmp) (parse := parse) hcr hop hmade
      rw [he] at this
      exact this
    · intro w3 res h3
      cases h3 with
      | reg => rw [he]; exact ⟨rfl, rfl⟩
  · have he : w2.setFlag j c flag = (w2, .err) := by unfold Sys.setFlag; rw [if_pos hm2]
    constructor
    · have := CStep.setFlag (cf := cf) (tmp := tmp) (parse := parse) (flag := flag) hcr hj
      rw [he] at this
      exact this
    · intro w3 res h3
      cases h3 with
      | setFlag _ hj' =>
        rw [hj] at hj'
        obtain rfl := Option.some.inj hj'
        rw [he]; exact ⟨rfl, rfl⟩
  · obtain ⟨c', hc', he⟩ := hfl j c hj
    obtain ⟨c'', hc'', he'⟩ := hfl2 j c' hc'
    exact ⟨c'', hc'', he'.trans he⟩

/-- Such a history: a client, three metrics, `Start`, then an attempt to register and to set the flag. -/
example (cf : Conf) (tmp : Str) : ∃ pre w w1, CSteps cf tmp (fun _ => none) (Sys.init emptyFS) pre w ∧
    w.reg.metrics.length = 3 ∧
    CStep cf tmp (fun _ => none) w (.start 0 12345 42 (.fine w.reg.Length)) w1 (.ok ()) ∧
    CStep cf tmp (fun _ => none) w1 (.setFlag 0 1) w1 .err := by
  obtain ⟨c, hc, _⟩ := newClient_plain cf tmp
  have h0 : CHist cf tmp (fun _ => none) (Sys.init emptyFS) := .init emptyFS_ok
  have hn : CStep cf tmp (fun _ => none) (Sys.init emptyFS) (.new sA) _ _ := .new_ok rfl hc
  obtain ⟨w2, h2, h2', rfl⟩ := (h0.step hn rfl).regs rfl sampleROps sampleROps_ok
  obtain ⟨w3, h3, s, rfl⟩ := base_start (cf := cf) (tmp := tmp) h2.inv.built baseReg_pub rfl (i := 0) (c := c) rfl 12345 42
  have := (C14_frozen (.cons hn h2') h3 .nil (by simp) rfl).2.1 0 _ 1 rfl
  exact ⟨_, _, _, .cons hn h2', by show baseReg.metrics.length = 3; decide, h3, this.1⟩

/-! ### C37 -/

/-- C37: a successful `Start` makes the client active: its writer is mapped, and the path of the client leads
to the mapped file. (Any number of clients.) -/
theorem C37_start {w i gen pid os w'} (h : CStep cf tmp parse w (.start i gen pid os) w' (.ok ())) :
    ∃ c n, w.clients[i]? = some c ∧ w'.reg = { w.reg with mapped := true } ∧
      w'.clients[i]? = some { c with writer := some n } ∧ n ∈ w'.fs.maps ∧ w'.fs.names c.loc = some n := by
  cases h with
  | @start_ok i c _ _ _ _ n _ _ _ _ hc hn =>
    obtain ⟨g1, g2, g3, g4, g5, _⟩ := newMMW_some hn
    refine ⟨c, n, hc, rfl, List.getElem?_set_self (List.getElem?_eq_some_iff.1 hc).1, ?_, ?_⟩
    · simp [Sys.started, g3]
    · simp [Sys.started, g5, fset]

/-- The registry of the sample becomes mapped. -/
example (cf : Conf) (tmp : Str) : ∃ w w' : Sys, w.reg.mapped = false ∧
    CStep cf tmp (fun _ => none) w (.start 0 12345 42 (.fine baseReg.Length)) w' (.ok ()) ∧ w'.reg.mapped = true ∧
    w'.reg.metrics.length = 3 ∧ ∃ c n, w'.clients[0]? = some c ∧ c.writer = some n ∧ n ∈ w'.fs.maps := by
  obtain ⟨w, w', _, _, hr, h, _, _, hr'⟩ := sample_start cf tmp
  obtain ⟨c, n, _, _, h1, h2, _⟩ := C37_start h
  exact ⟨w, w', by rw [hr]; decide, h, by rw [hr'], by rw [hr']; show baseReg.metrics.length = 3; decide, _, n, h1, rfl, h2⟩

/-- C37: `Stop` on an inactive client fails and changes nothing. -/
theorem C37_stop_inactive {w i erase os w' res} (hm : w.reg.mapped = false)
    (h : CStep cf tmp parse w (.stop i erase os) w' res) : w' = w ∧ res = .err := by
  cases h with
  | stop => unfold Sys.stop; rw [if_pos hm]; exact ⟨rfl, rfl⟩

/-- `Stop` of the sample client before its `Start`. -/
example (cf : Conf) (tmp : Str) : ∃ w, CHist cf tmp (fun _ => none) w ∧ w.reg = baseReg ∧
    CStep cf tmp (fun _ => none) w (.stop 0 true ⟨false, false, false⟩) w .err := by
  obtain ⟨w, w', hw, hcr, hr, h, _⟩ := sample_start cf tmp
  obtain ⟨c, _, hc, _⟩ := C37_start h
  have hs : CStep cf tmp (fun _ => none) w (.stop 0 true ⟨false, false, false⟩) _ _ := .stop hcr hc
  obtain ⟨h1, h2⟩ := C37_stop_inactive (by rw [hr]; decide) hs
  rw [h1, h2] at hs
  exact ⟨w, hw, hr, hs⟩

/-- C37 (partial: one client for the registry): `Stop` on an active client makes it inactive, whatever the
system calls do. It leaves registry and values, and the bytes of the file. Without `EraseFileOnStop` it leaves
the file under its name; with it, a `Stop` that returns nil has removed the file. It returns nil if no system
call fails and the file (when it has to be removed) is still there; mapping and handle are then gone.
Missing: with two clients of one registry `Stop` of the inactive one panics (`C37_refuted_shared`). -/
theorem C37_stop_partial {w i erase os w' res} (hw : CHist cf tmp parse w) (hm : w.reg.mapped = true)
    (h : CStep cf tmp parse w (.stop i erase os) w' res) :
    ∃ c n, w.clients = [c] ∧ c.writer = some n ∧ w'.reg = { w.reg with mapped := false } ∧
      w'.clients = [{ c with writer := none }] ∧ w'.crashed = false ∧ res ≠ .panic ∧ w'.fs.data = w.fs.data ∧
      (erase = false → w'.fs.names = w.fs.names) ∧
      (erase = true → res = .ok () → w'.fs.names = fset w.fs.names c.loc none) ∧
      (res = .ok () → w'.fs.maps = w.fs.maps.erase n ∧ n ∉ w'.fs.maps ∧ w'.fs.handles = w.fs.handles.erase n) ∧
      (os = ⟨false, false, false⟩ → (erase = true → (w.fs.names c.loc).isSome = true) → res = .ok ()) := by
  have hi := hw.inv
  obtain ⟨c, n, a⟩ := hi.act hm
  cases h with
  | @stop i c' erase os hcr hc' =>
    obtain ⟨rfl, hcl⟩ := only_client hi.one hc'
    rw [a.client] at hcl
    obtain rfl := (List.cons.inj hcl).1
    have hst : w.stop 0 c erase os = ({ w with
        reg := { w.reg with mapped := false }
        fs := (w.fs.unmap n c.loc erase os).1
        clients := w.clients.set 0 { c with writer := none } }, if (w.fs.unmap n c.loc erase os).2 then .ok () else .err) := by
      unfold Sys.stop
      rw [if_neg (by simp [hm])]
      dsimp only
      rw [a.writer]
    rw [hst]
    obtain ⟨_, u2, _, _⟩ := unmap_spec w.fs n c.loc erase os
    have hne : n ∉ w.fs.maps.erase n := fun hx => ((List.Nodup.mem_erase_iff hi.fs.nodup).1 hx).1 rfl
    refine ⟨c, n, a.client, a.writer, rfl, by simp [a.client], hcr, ?_, u2, ?_, ?_, ?_, ?_⟩
    · dsimp only; split <;> simp
    · rintro rfl; exact unmap_keep ..
    · intro he hok
      dsimp only at hok
      split at hok
      · exact (unmap_ok (by assumption)).2.2 he
      · cases hok
    · intro hok
      dsimp only at hok
      split at hok
      · obtain ⟨k1, k2, _⟩ := unmap_ok (fs := w.fs) (by assumption)
        exact ⟨k1, by dsimp only; rw [k1]; exact hne, k2⟩
      · cases hok
    · rintro rfl hfile
      dsimp only
      rw [if_pos (unmap_fine hfile)]

/-- The sample client is stopped: its values are those it had. -/
example (cf : Conf) (tmp : Str) : ∃ w w', CHist cf tmp (fun _ => none) w ∧ w.reg.mapped = true ∧
    CStep cf tmp (fun _ => none) w (.stop 0 false ⟨false, false, false⟩) w' (.ok ()) ∧ w'.reg = baseReg ∧
    w'.fs.names = w.fs.names := by
  obtain ⟨w, hw, hcr, hr⟩ := sample_client cf tmp
  have hm : w.reg.mapped = true := by rw [hr]
  obtain ⟨c, n, a⟩ := hw.inv.act hm
  have hc : w.clients[0]? = some c := by rw [a.client]; rfl
  have hs : CStep cf tmp (fun _ => none) w (.stop 0 false ⟨false, false, false⟩) _ _ := .stop hcr hc
  obtain ⟨_, _, _, _, k3, _, _, _, _, k5, _, _, k4⟩ := C37_stop_partial hw hm hs
  rw [k4 rfl (by simp)] at hs
  exact ⟨w, _, hw, hm, hs, by rw [k3, hr]; rfl, k5 rfl⟩

/-- C37: an inactive client registers again: a metric whose name is new is accepted and added at the end. -/
theorem C37_register {w} (hw : CHist cf tmp parse w) (hm : w.reg.mapped = false) (hcr : w.crashed = false) {m : Metric} (hmade : MadeMetric m)
    (hnew : w.reg.hasMetric m.desc.name = false) :
    ∃ w', CStep cf tmp parse w (.reg (.addMetric m)) w' (.ok ()) ∧ w'.reg.metrics = w.reg.metrics ++ [m] ∧
      w'.reg.mapped = false := by
  obtain ⟨_, h1, h2⟩ := hw.inv.built.built.inv.addMetric hmade.wf
  cases hok : (w.reg.addMetric m).ok with
  | false =>
    obtain ⟨_, h | h⟩ := h1 hok
    · rw [hm] at h; cases h
    · rw [hnew] at h; cases h
  | true =>
    obtain ⟨_, _, g3, g4, _⟩ := h2 hok
    have := CStep.reg (cf := cf) (tmp := tmp) (parse := parse) (op := .addMetric m) hcr (by simp) hmade
    have he : (ROp.addMetric m).apply parse w.reg = w.reg.addMetric m := rfl
    rw [he, hok] at this
    exact ⟨_, this, g4, g3⟩

/-- A timer is added to the sample registry. -/
example (cf : Conf) (tmp : Str) : ∃ w m w', CHist cf tmp (fun _ => none) w ∧
    CStep cf tmp (fun _ => none) w (.reg (.addMetric m)) w' (.ok ()) ∧
    w'.reg.metrics.map (fun m => m.desc.name) = [sC, sD, sS, sLong] := by
  obtain ⟨w, _, hw, hcr, hr, _⟩ := sample_start cf tmp
  obtain ⟨m, hm⟩ : ∃ m, newPCPTimer 4 sLong 0 [] = some m := Option.isSome_iff_exists.1 (by decide)
  have hn : m.desc.name = sLong := by
    have : (newPCPTimer 4 sLong 0 []).map (fun m => m.desc.name) = some sLong := by decide
    rw [hm] at this; exact Option.some.inj this
  obtain ⟨w', h1, h2, _⟩ := C37_register hw (by rw [hr]; decide) hcr (.timer hm) (by rw [hr, hn]; decide)
  refine ⟨w, m, w', hw, h1, ?_⟩
  rw [h2, hr, List.map_append, List.map_cons, hn]
  decide

/-- C37: after any history with one client, and any failures of system calls in it, an active client has a
complete file of its registry, with the current values: the dump of the mapped memory succeeds and describes
all metrics, old and new. (In particular right after a `Start` that returns nil, see `C37_start`.) -/
theorem C37_published {w} (hw : CHist cf tmp parse w) (hm : w.reg.mapped = true) :
    ∃ c n, w.clients = [c] ∧ c.writer = some n ∧ n ∈ w.fs.maps ∧
      (∃ out, Dumps (w.fs.data n) out) ∧
      ∀ out, Dumps (w.fs.data n) out → ∃ D A, out = .ok D ∧ DescribesAt w.reg D A ∧
        D.header.flag = BitVec.truncate 32 c.flag ∧ D.header.cluster = c.clusterID := by
  obtain ⟨c, n, a⟩ := hw.inv.act hm
  obtain ⟨gen, pid, o, b, live, h1, h2, h3, _⟩ := a.live
  obtain ⟨σ, hl, hi⟩ := h1.liveAt
  refine ⟨c, n, a.client, a.writer, a.mapped, dumps_exists _, fun out hd => ?_⟩
  rw [← h3] at hd
  obtain ⟨D, g1, g2, g3⟩ := hl.dump hi hd
  rw [h2] at g3
  refine ⟨D, _, g1, ⟨g3.indomKeys, g3.instKeys, g3.metricKeys, g3.valueKeys, g3.nodup, g3.indoms, g3.insts, g3.metrics, g3.values, g3.strings⟩, ?_, ?_⟩
  · rw [g2]; rfl
  · rw [g2]; rfl

/-- A client that was started, stopped, given another metric and started again. -/
theorem sample_restart (cf : Conf) (tmp : Str) : ∃ w, CHist cf tmp (fun _ => none) w ∧ w.crashed = false ∧
    w.reg.mapped = true ∧ w.reg.metrics.map (fun m => m.desc.name) = [sC, sD, sS, sLong] := by
  obtain ⟨w, hw, hcr, hr⟩ := sample_client cf tmp
  have hm : w.reg.mapped = true := by rw [hr]
  obtain ⟨c, n, a⟩ := hw.inv.act hm
  have hc : w.clients[0]? = some c := by rw [a.client]; rfl
  have hs : CStep cf tmp (fun _ => none) w (.stop 0 false ⟨false, false, false⟩) _ _ := .stop hcr hc
  have hw1 := hw.step hs trivial
  obtain ⟨c', n', k1, _, k2, k3, k4, _⟩ := C37_stop_partial hw hm hs
  rw [a.client] at k1
  obtain rfl := (List.cons.inj k1).1
  generalize (w.stop 0 c false ⟨false, false, false⟩).1 = w1 at hw1 k2 k3 k4 hs
  have hb : w1.reg = baseReg := by rw [k2, hr]; rfl
  obtain ⟨w2, g1, _, rfl⟩ := hw1.regs k4 (((newPCPTimer 4 sLong 0 []).toList).map .addMetric) (by
    intro op hop
    obtain ⟨m, hm, rfl⟩ := List.mem_map.1 hop
    exact ⟨by simp, MadeMetric.timer (by simpa using hm)⟩)
  have hreg : runOps (fun _ => none) w1.reg (((newPCPTimer 4 sLong 0 []).toList).map .addMetric) =
      runOps (fun _ => none) baseReg (((newPCPTimer 4 sLong 0 []).toList).map .addMetric) := by rw [hb]
  have hp : (runOps (fun _ => none) baseReg (((newPCPTimer 4 sLong 0 []).toList).map .addMetric)).Publishable :=
    publishable_of (by decide)
  have hsm : (runOps (fun _ => none) baseReg (((newPCPTimer 4 sLong 0 []).toList).map .addMetric)).Small := by
    constructor <;> decide
  rw [← hreg] at hp hsm
  obtain ⟨w3, h3, s, rfl⟩ := base_start (cf := cf) (tmp := tmp) g1.inv.built hp k4 (i := 0) (c := { c with writer := none })
    (by rw [k3]; rfl) 777 42
  refine ⟨_, g1.step h3 ⟨hp, hsm⟩, k4, rfl, ?_⟩
  show (runOps (fun _ => none) w1.reg (((newPCPTimer 4 sLong 0 []).toList).map .addMetric)).metrics.map _ = _
  rw [hreg]
  decide

/-- Its file describes all four metrics. -/
example (cf : Conf) (tmp : Str) : ∃ w, CHist cf tmp (fun _ => none) w ∧ ∃ n D A, Dumps (w.fs.data n) (.ok D) ∧
    DescribesAt w.reg D A ∧ w.reg.metrics.map (fun m => m.desc.name) = [sC, sD, sS, sLong] := by
  obtain ⟨w, hw, _, hm, hn⟩ := sample_restart cf tmp
  obtain ⟨_, n, _, _, _, ⟨out, h1⟩, h2⟩ := C37_published hw hm
  obtain ⟨D, A, rfl, h3, _⟩ := h2 out h1
  exact ⟨w, hw, n, D, A, h1, h3, hn⟩

/-- C37 is false when a registry has two clients: `mapped` is a field of the registry. After a `Start` of one
client, `Stop` of the other one, which is not active, does not return an error but panics (type assertion on
a nil writer), after marking the registry as not mapped: the first client still has its mapping, but now
`Stop` refuses to end it. -/
theorem C37_refuted_shared {w i j gen pid os w1 d} (hs : CStep cf tmp parse w (.start i gen pid os) w1 (.ok ()))
    (hij : j ≠ i) (hd : w.clients[j]? = some d) (hdw : d.writer = none) (erase : Bool) (os' : StopOS) :
    ∃ w2, CStep cf tmp parse w1 (.stop j erase os') w2 .panic ∧
      (∀ w3 res, CStep cf tmp parse w1 (.stop j erase os') w3 res → w3 = w2 ∧ res = .panic) ∧
      (∃ c n, w2.clients[i]? = some c ∧ c.writer = some n ∧ n ∈ w2.fs.maps) ∧
      ∀ w3 res, CStep cf tmp parse w2 (.stop i erase os') w3 res → w3 = w2 ∧ res = .err := by
  obtain ⟨c, n, h1, h2, h3, h4, _⟩ := C37_start hs
  have hcr : w1.crashed = false := by
    cases hs with
    | start_ok hcr => exact hcr
  have hd1 : w1.clients[j]? = some d := by
    cases hs with
    | start_ok => unfold Sys.started; dsimp only; rw [List.getElem?_set_ne (fun h => hij h.symm)]; exact hd
  have hst : w1.stop j d erase os' = ({ w1 with reg := { w1.reg with mapped := false } }, .panic) := by
    unfold Sys.stop
    rw [if_neg (by rw [h2]; simp)]
    dsimp only
    rw [hdw]
  refine ⟨{ w1 with reg := { w1.reg with mapped := false } }, ?_, ?_, ⟨_, n, h3, rfl, h4⟩, ?_⟩
  · have := CStep.stop (cf := cf) (tmp := tmp) (parse := parse) (erase := erase) (os := os') hcr hd1
    rwa [hst] at this
  · intro w3 res h
    cases h with
    | stop _ hc =>
      rw [hd1] at hc
      obtain rfl := Option.some.inj hc
      rw [hst]; exact ⟨rfl, rfl⟩
  · intro w3 res h
    exact C37_stop_inactive rfl h

/-- Two clients of the sample registry, the first one started. -/
example (cf : Conf) (tmp : Str) : ∃ ops w w1 d, CSteps cf tmp (fun _ => none) (Sys.init emptyFS) ops w ∧
    CStep cf tmp (fun _ => none) w (.start 0 12345 42 (.fine w.reg.Length)) w1 (.ok ()) ∧
    w.clients[1]? = some d ∧ d.writer = none := by
  obtain ⟨c, hc, hcw⟩ := newClient_plain cf tmp
  have h0 : CHist cf tmp (fun _ => none) (Sys.init emptyFS) := .init emptyFS_ok
  obtain ⟨w2, h2, h2', rfl⟩ := h0.regs rfl sampleROps sampleROps_ok
  have hn : CStep cf tmp (fun _ => none) { Sys.init emptyFS with reg := baseReg } (.new sA)
    { Sys.init emptyFS with reg := baseReg, clients := [c] } _ := .new_ok rfl hc
  have hn2 : CStep cf tmp (fun _ => none) { Sys.init emptyFS with reg := baseReg, clients := [c] } (.new sA)
    { Sys.init emptyFS with reg := baseReg, clients := [c, c] } _ := .new_ok rfl hc
  have app : ∀ {a ops b op d res}, CSteps cf tmp (fun _ => none) a ops b → CStep cf tmp (fun _ => none) b op d res →
      CSteps cf tmp (fun _ => none) a (ops ++ [op]) d := by
    intro a ops b op d res h1 h2
    induction h1 with
    | nil => exact .cons h2 .nil
    | cons h _ ih => exact .cons h (ih h2)
  obtain ⟨w3, h3, s, _⟩ := base_start (cf := cf) (tmp := tmp) (w := { Sys.init emptyFS with reg := baseReg, clients := [c, c] })
    h2.inv.built baseReg_pub rfl (i := 0) (c := c) rfl 12345 42
  exact ⟨_, _, w3, c, app (app h2' hn) hn2, h3, rfl, hcw⟩

/-! ### C38 -/

/-- `Set` or `SetInstance` as a call. -/
def setCall (s : Option Str) (v : GoVal) : Call :=
  match s with
  | none => .set v
  | some n => .setInstance v n

theorem setCall_op (s : Option Str) (v : GoVal) : (setCall s v).op = setAt s v := by cases s <;> rfl

theorem bwWrite_nil {data : List Byte} (h : data ≠ []) (off : Int) (b : Buf) (n : Int) : bwWrite [] data off ≠ .ok b n := by
  unfold bwWrite
  split
  · intro h; cases h
  · cases data with
    | nil => exact absurd rfl h
    | cons d ds =>
      unfold writeLoop
      rw [if_neg (by simp)]
      intro h; cases h

theorem must_ok_inv {r : WRes} {b : Buf} {n : Int} (h : must r = .ok b n) : r = .ok b n := by
  cases r <;> first | exact h | cases h

theorem andThen_ok_inv {r : WRes} {k : Buf → WRes} {b : Buf} {n : Int} (h : r.andThen k = .ok b n) : ∃ b' n', r = .ok b' n' := by
  cases r with
  | ok b' n' => exact ⟨b', n', rfl⟩
  | err => cases h
  | panic => cases h

theorem updClosure_str (off : Nat) (x : Str) (mem : Buf) : ∃ z : List Byte, z ≠ [] ∧
    updClosure off (.str x) mem = (must (bwWrite mem z off)).andThen (fun b => bwWriteVal b (.str x) off) := by
  refine ⟨zeros StringLength, ?_, rfl⟩
  intro h
  have := congrArg List.length h
  rw [zeros_length] at this
  exact absurd this (by decide)

theorem bwWriteVal_nil {v : GoVal} {bytes : List Byte} (h : binaryWrite v = some bytes) (hne : bytes ≠ []) (off : Nat)
    (hs : ∀ x, v ≠ .str x) (b : Buf) (n : Int) : updClosure off v [] ≠ .ok b n := by
  cases v
  case str x => exact absurd rfl (hs x)
  all_goals
    unfold updClosure
    dsimp only [bwWriteVal]
    simp only [h]
    exact bwWrite_nil hne _ _ _

theorem updClosure_nil {t : MetricType} {v : GoVal} (h : Typed t v) (off : Nat) (b : Buf) (n : Int) : updClosure off v [] ≠ .ok b n := by
  rcases h with ⟨_, x, rfl⟩ | ⟨_, x, rfl⟩ | ⟨_, x, rfl⟩ | ⟨_, x, rfl⟩ | ⟨_, x, rfl⟩ | ⟨_, x, rfl⟩ | ⟨_, x, rfl⟩
  case inr.inr.inr.inr.inr.inr =>
    intro h
    obtain ⟨z, hz, e⟩ := updClosure_str off x []
    rw [e] at h
    obtain ⟨b', n', h1⟩ := andThen_ok_inv h
    exact bwWrite_nil hz _ _ _ (must_ok_inv h1)
  all_goals
    exact bwWriteVal_nil rfl (List.cons_ne_nil _ _) _ (fun _ h => by cases h) _ _

/-- C38 is false, for every program with one client: after a `Stop` that unmapped the memory, changing the
value of any metric that was published kills the process. -/
theorem C38_refuted {w i erase os w1 res} (hw : CHist cf tmp parse w) (hm : w.reg.mapped = true)
    (hs : CStep cf tmp parse w (.stop i erase os) w1 res) (hos : os.munmapErr = false) {m : Metric} (hmem : m ∈ w1.reg.metrics)
    {s : Option Str} (hsl : s ∈ m.slots) {v old : GoVal} (hf : Fits v) (hc : isCompatible m.desc.t v = true)
    (hold : m.cur s = some old) (hne : goEq (resolve m.desc.t v) old = false) :
    (∃ w2, CStep cf tmp parse w1 (.call m.desc.name (setCall s v)) w2 .panic ∧ w2.crashed = true) ∧
    ∀ w2 res, CStep cf tmp parse w1 (.call m.desc.name (setCall s v)) w2 res → w2.crashed = true := by
  have hi := hw.inv
  have hi1 := (hw.step hs trivial).inv
  obtain ⟨c, n, a⟩ := hi.act hm
  obtain ⟨c', n', k1, k2, k3, _, k5, _, _⟩ := C37_stop_partial hw hm hs
  rw [a.client] at k1
  obtain rfl := (List.cons.inj k1).1
  have : n' = n := by rw [a.writer] at k2; exact (Option.some.inj k2).symm
  subst this
  obtain ⟨hupd, hmaps⟩ : w1.upd = w.upd ∧ n' ∉ w1.fs.maps := by
    cases hs with
    | @stop i cc erase os _ hc' =>
      obtain ⟨rfl, hcl⟩ := only_client hi.one hc'
      rw [a.client] at hcl
      obtain rfl := (List.cons.inj hcl).1
      unfold Sys.stop
      rw [if_neg (by simp [hm])]
      dsimp only
      rw [a.writer]
      refine ⟨rfl, ?_⟩
      dsimp only
      rw [(unmap_spec w.fs n' c.loc erase os).2.2.2, hos, if_neg (by simp)]
      exact fun hx => ((List.Nodup.mem_erase_iff hi.fs.nodup).1 hx).1 rfl
  obtain ⟨gen, pid, o, b, live, h1, h2, h3, h4⟩ := a.live
  have hmem' : m ∈ w.reg.metrics := by rw [k3] at hmem; exact hmem
  have hu := h4 m hmem'
  have hno : ∀ m' r, ¬ NoTouch (setCall s v).op (fun s => live.cells (.upd m.uid s)) m m' r := by
    intro m' r hnt
    rw [setCall_op] at hnt
    obtain ⟨σ, hl, _⟩ := h1.liveAt
    have hml : m ∈ live.reg.metrics := by rw [h2]; exact hmem'
    obtain ⟨old', u, g1, _, _, g4⟩ := hl.setAt_spec hml hsl hf hc
    rw [hold] at g1
    obtain rfl := Option.some.inj g1
    have e1 := hnt live.mem
    rw [show (fun s => live.cells (.upd m.uid s)) = live.upd m.uid from rfl] at e1
    rw [g4] at e1
    have hr : r = .ok () := (congrArg Prod.snd e1).symm
    subst hr
    have e2 := hnt []
    rw [setAt_compatible (st := ⟨m, []⟩) hc hsl hold] at e2
    obtain ⟨u', hu1, hu2⟩ := hl.updAt hml hsl
    have hu2' : live.cells (.upd m.uid s) = some u' := hu2
    have hn := updClosure_nil (resolve_typed hc) u'
    unfold storeVal at e2
    rw [if_neg (by simp [hne])] at e2
    dsimp only at e2
    rw [hu2'] at e2
    dsimp only at e2
    cases hcl : updClosure u' (resolve m.desc.t v) [] with
    | ok b n => exact hn b n hcl
    | err b n => rw [hcl] at e2; cases congrArg Prod.snd e2
    | panic b => rw [hcl] at e2; cases congrArg Prod.snd e2
  rw [← hupd] at hu
  refine ⟨⟨_, .call_crash k5 hmem rfl hu hmaps hno, rfl⟩, ?_⟩
  have same : ∀ m2, m2 ∈ w1.reg.metrics → m2.desc.name = m.desc.name → m2 = m := fun m2 h h' =>
    named_eq hi1.built.nodup h hmem h'
  intro w2 res h
  cases h with
  | call_free _ hm2 hn2 hu2 => rw [same _ hm2 hn2, hu] at hu2; cases hu2
  | call_live _ hm2 hn2 hu2 hmp =>
    rw [same _ hm2 hn2, hu] at hu2
    simp only [Option.some.injEq, Prod.mk.injEq] at hu2
    rw [← hu2.1] at hmp
    exact absurd hmp hmaps
  | call_dead _ hm2 hn2 hu2 hmp hnt =>
    obtain rfl := same _ hm2 hn2
    rw [hu] at hu2
    simp only [Option.some.injEq, Prod.mk.injEq] at hu2
    rw [← hu2.2] at hnt
    exact absurd hnt (hno _ _)
  | call_crash => rfl

/-- C38 is false: there is a program that starts and stops a client and then dies in `Set`. -/
theorem C38_refuted_example (cf : Conf) (tmp : Str) : ∃ w w1 w2 name c, CHist cf tmp (fun _ => none) w ∧
    CStep cf tmp (fun _ => none) w (.stop 0 false ⟨false, false, false⟩) w1 (.ok ()) ∧
    CStep cf tmp (fun _ => none) w1 (.call name c) w2 .panic ∧ w2.crashed = true := by
  obtain ⟨w, hw, hcr, hr⟩ := sample_client cf tmp
  have hm : w.reg.mapped = true := by rw [hr]
  obtain ⟨c, n, a⟩ := hw.inv.act hm
  have hc : w.clients[0]? = some c := by rw [a.client]; rfl
  have hs : CStep cf tmp (fun _ => none) w (.stop 0 false ⟨false, false, false⟩) _ _ := .stop hcr hc
  obtain ⟨_, _, _, _, k3, _, _, _, _, _, _, _, k4⟩ := C37_stop_partial hw hm hs
  have hok := k4 rfl (by simp)
  rw [hok] at hs
  have hb : (w.stop 0 c false ⟨false, false, false⟩).1.reg = baseReg := by rw [k3, hr]; rfl
  obtain ⟨m, hmem, hsl, hcomp, old, hold, hne⟩ : ∃ m ∈ baseReg.metrics, none ∈ m.slots ∧
      isCompatible m.desc.t (.int64 12) = true ∧ ∃ old, m.cur none = some old ∧
      goEq (resolve m.desc.t (.int64 12)) old = false := by
    refine ⟨(baseReg.metrics.head (by decide)), List.head_mem _, by decide, by decide, .int64 5, by decide, by decide⟩
  obtain ⟨⟨w2, g1, g2⟩, _⟩ := C38_refuted hw hm hs rfl (by rw [hb]; exact hmem) hsl (v := .int64 12) trivial hcomp hold hne
  exact ⟨w, _, w2, _, _, hw, hs, g1, g2⟩

/-- C38 (partial): only an operation on a metric that was published earlier, while the client is not active,
can kill the process, and only if it uses the mapped memory. A metric that was never published, and every
metric while the client is active, can be changed. Missing: metrics that were published before the last
`Stop`, for which the claim is false (`C38_refuted`). -/
theorem C38_partial {w name c w' res} (hw : CHist cf tmp parse w) (h : CStep cf tmp parse w (.call name c) w' res) :
    (w'.crashed = true → w.reg.mapped = false ∧ ∃ m ∈ w.reg.metrics, ∃ n u, m.desc.name = name ∧ w.upd m.uid = some (n, u) ∧
      n ∉ w.fs.maps ∧ ∀ m' a, ¬ NoTouch c.op u m m' a) ∧
    (∀ m ∈ w.reg.metrics, m.desc.name = name → w.upd m.uid = none →
      w'.fs = w.fs ∧ w'.crashed = false ∧ res = (c.op (fun _ => none) ⟨m, []⟩).2 ∧
      w'.reg = w.reg.replace name (c.op (fun _ => none) ⟨m, []⟩).1.m) := by
  have hi := hw.inv
  cases h with
  | @call_free name m c hcr hm hn hu =>
    subst hn
    refine ⟨fun hx => absurd (hcr.symm.trans hx) (by decide), fun m2 hm2 hn2 hu2 => ?_⟩
    obtain rfl := named_eq hi.built.nodup hm2 hm hn2
    exact ⟨rfl, hcr, rfl, rfl⟩
  | @call_live name m c n u hcr hm hn hu hmp =>
    subst hn
    refine ⟨fun hx => absurd (hcr.symm.trans hx) (by decide), fun m2 hm2 hn2 hu2 => ?_⟩
    obtain rfl := named_eq hi.built.nodup hm2 hm hn2
    rw [hu] at hu2; cases hu2
  | @call_dead name m c n u m' a hcr hm hn hu hmp =>
    subst hn
    refine ⟨fun hx => absurd (hcr.symm.trans hx) (by decide), fun m2 hm2 hn2 hu2 => ?_⟩
    obtain rfl := named_eq hi.built.nodup hm2 hm hn2
    rw [hu] at hu2; cases hu2
  | @call_crash name m c n u hcr hm hn hu hmp hnt =>
    subst hn
    refine ⟨fun _ => ⟨?_, m, hm, n, u, rfl, hu, hmp, hnt⟩, fun m2 hm2 hn2 hu2 => ?_⟩
    · cases hmap : w.reg.mapped with
      | false => rfl
      | true =>
        obtain ⟨cl, n', a1, a2, a3, gen, pid, o, b, live, g1, g2, g3, g4⟩ := hi.act hmap
        rw [g4 m hm] at hu
        simp only [Option.some.injEq, Prod.mk.injEq] at hu
        rw [hu.1] at a3
        exact absurd a3 hmp
    · obtain rfl := named_eq hi.built.nodup hm2 hm hn2
      rw [hu] at hu2; cases hu2

/-- The counter of an active client is set to 7. -/
example (cf : Conf) (tmp : Str) : ∃ w w' res, CHist cf tmp (fun _ => none) w ∧ w.reg.mapped = true ∧
    CStep cf tmp (fun _ => none) w (.call sC (.set (.int64 7))) w' res ∧ w'.crashed = false := by
  obtain ⟨w, hw, hcr, hr⟩ := sample_client cf tmp
  have hm : w.reg.mapped = true := by rw [hr]
  obtain ⟨c, n, a⟩ := hw.inv.act hm
  obtain ⟨m, hmem, hn⟩ : ∃ m ∈ w.reg.metrics, m.desc.name = sC := by rw [hr]; show ∃ m ∈ baseReg.metrics, _; decide
  obtain ⟨gen, pid, o, b, live, _, _, _, h4⟩ := a.live
  have hs : CStep cf tmp (fun _ => none) w (.call sC (.set (.int64 7))) _ _ := .call_live hcr hmem hn (h4 m hmem) a.mapped
  refine ⟨w, _, _, hw, hm, hs, ?_⟩
  cases hx : Sys.crashed _ with
  | false => rfl
  | true => have := ((C38_partial hw hs).1 hx).1; rw [hm] at this; cases this

/-! ### C53 -/

/-- C53 (partial): a `Start` that returns an error leaves registry, metrics, closures, clients (so an inactive
client is still inactive), mappings and the contents of all files that existed, whichever system call failed.
If neither the write nor the mapping of the new file failed, the open handles are also unchanged. Missing:
otherwise the handle of the new file stays open (`C53_refuted`). -/
theorem C53_failed_partial {w i gen pid os w'} (h : CStep cf tmp parse w (.start i gen pid os) w' .err) :
    w'.reg = w.reg ∧ w'.clients = w.clients ∧ w'.upd = w.upd ∧ w'.crashed = false ∧ w'.fs.maps = w.fs.maps ∧
    (∀ k, k < w.fs.next → w'.fs.data k = w.fs.data k) ∧
    (os.writeErr = false → w.reg.Length ≤ os.written → os.mmapErr = false → w'.fs.handles = w.fs.handles) := by
  cases h with
  | @start_err i c _ _ os fs hcr _ hn =>
    obtain ⟨g1, g2, g3, g4, g5⟩ := newMMW_none hn
    refine ⟨rfl, rfl, rfl, hcr, g2, g3, fun h1 h2 h3 => ?_⟩
    rcases g5 with h | ⟨_, h | h | h⟩
    · exact h
    · rw [h1] at h; cases h
    · omega
    · rw [h3] at h; cases h

/-- The directory cannot be created: nothing has changed. -/
example (cf : Conf) (tmp : Str) : ∃ w w', CHist cf tmp (fun _ => none) w ∧ w.clients.length = 1 ∧
    CStep cf tmp (fun _ => none) w (.start 0 12345 42 ⟨false, false, true, false, 0, false, false⟩) w' .err ∧
    w'.clients = w.clients ∧ w'.fs.maps = w.fs.maps ∧ w'.reg = w.reg := by
  obtain ⟨c, hc, _⟩ := newClient_plain cf tmp
  have h0 : CHist cf tmp (fun _ => none) (Sys.init emptyFS) := .init emptyFS_ok
  have hn : CStep cf tmp (fun _ => none) (Sys.init emptyFS) (.new sA) { Sys.init emptyFS with clients := [c] } _ := .new_ok rfl hc
  have hs : CStep cf tmp (fun _ => none) { Sys.init emptyFS with clients := [c] }
      (.start 0 12345 42 ⟨false, false, true, false, 0, false, false⟩) _ .err := .start_err (c := c) rfl rfl rfl
  obtain ⟨h1, h2, _, _, h3, _⟩ := C53_failed_partial hs
  exact ⟨_, _, h0.step hn rfl, rfl, hs, h2, h3, h1⟩

/-- C53, when `Stat` fails although there is a file, or it cannot be removed: `Start` fails (it never uses a file that was there
before), and no file is changed. -/
theorem C53_exists {w i c gen pid os w' res} (h : CStep cf tmp parse w (.start i gen pid os) w' res)
    (hc : w.clients[i]? = some c) (hf : (w.fs.names c.loc).isSome = true) (he : os.statErr = true ∨ os.removeErr = true) :
    res = .err ∧ w' = w := by
  have key : newMMW w.fs c.loc w.reg.Length os = (w.fs, none) := by
    unfold newMMW openMMW
    rw [hf]
    cases h1 : os.statErr with
    | true => simp
    | false =>
      rcases he with he | he
      · rw [h1] at he; cases he
      · simp [he]
  cases h with
  | start_err _ hc' hn =>
    rw [hc] at hc'; cases hc'
    rw [key] at hn; cases hn
    exact ⟨rfl, rfl⟩
  | start_ok _ hc' hn =>
    rw [hc] at hc'; cases hc'
    rw [key] at hn; cases hn
  | start_crash _ hc' hn =>
    rw [hc] at hc'; cases hc'
    rw [key] at hn; cases hn

/-- The file is there, `Stat` fails, and so does `Start`. -/
example (cf : Conf) (tmp : Str) : ∃ w w' c, CHist cf tmp (fun _ => none) w ∧ w.clients = [c] ∧
    (w.fs.names c.loc).isSome = true ∧
    CStep cf tmp (fun _ => none) w (.start 0 12345 42 ⟨true, false, false, false, 1000, false, false⟩) w' .err ∧ w' = w := by
  obtain ⟨c, hc, _⟩ := newClient_plain cf tmp
  have h0 : CHist cf tmp (fun _ => none) (Sys.init ⟨fun _ => some 0, fun _ => [], 1, [], []⟩) := .init ⟨by simp, by simp, by simp⟩
  have hn : CStep cf tmp (fun _ => none) (Sys.init ⟨fun _ => some 0, fun _ => [], 1, [], []⟩) (.new sA)
      { Sys.init ⟨fun _ => some 0, fun _ => [], 1, [], []⟩ with clients := [c] } _ := .new_ok rfl hc
  have hs : CStep cf tmp (fun _ => none) { Sys.init ⟨fun _ => some 0, fun _ => [], 1, [], []⟩ with clients := [c] }
      (.start 0 12345 42 ⟨true, false, false, false, 1000, false, false⟩) _ .err := .start_err (c := c) rfl rfl rfl
  exact ⟨_, _, c, h0.step hn rfl, rfl, rfl, hs, (C53_exists hs rfl rfl (.inl rfl)).2⟩

/-- C53 is false: whenever the file can be created but writing it fails, is cut short, or mapping it fails,
`Start` returns the error and leaves the handle open (and the unusable file in place). -/
theorem C53_refuted {w i c} (hcr : w.crashed = false) (hc : w.clients[i]? = some c) (gen pid : BitVec 64) {os : StartOS}
    (h1 : os.statErr = false) (h2 : os.removeErr = false) (h3 : os.mkdirErr = false) (h4 : os.openErr = false)
    (h5 : os.writeErr = true ∨ os.written < w.reg.Length ∨ os.mmapErr = true) :
    ∃ w', CStep cf tmp parse w (.start i gen pid os) w' .err ∧ w'.fs.handles = w.fs.next :: w.fs.handles ∧
      w'.fs.names c.loc = some w.fs.next := by
  obtain ⟨a1, a2, a3, a4, wr, a5, a6⟩ := os
  dsimp only at h1 h2 h3 h4 h5
  subst h1 h2 h3 h4
  have key : ∀ fs : FS, fs.names c.loc = none → ∃ fs', openMMW fs c.loc w.reg.Length ⟨false, false, false, false, wr, a5, a6⟩ = (fs', none) ∧
      fs'.handles = fs.next :: fs.handles ∧ fs'.names c.loc = some fs.next := by
    intro fs hn
    unfold openMMW
    simp only [hn, Option.isSome_none, Bool.or_self, Bool.false_eq_true, if_false]
    repeat' split
    · exact ⟨_, rfl, rfl, by simp [FS.create, fset]⟩
    · exact ⟨_, rfl, rfl, by simp [FS.create, fset]⟩
    · exact ⟨_, rfl, rfl, by simp [FS.create, fset]⟩
    · rename_i g1 g2 g3
      rcases h5 with h | h | h <;> contradiction
  have : ∃ fs', newMMW w.fs c.loc w.reg.Length ⟨false, false, false, false, wr, a5, a6⟩ = (fs', none) ∧
      fs'.handles = w.fs.next :: w.fs.handles ∧ fs'.names c.loc = some w.fs.next := by
    unfold newMMW
    split
    · rw [if_neg (by simp)]
      exact key (w.fs.remove c.loc) (by simp [FS.remove, fset])
    · rename_i h
      exact key w.fs (by simpa using h)
  obtain ⟨fs', g1, g2, g3⟩ := this
  exact ⟨_, .start_err hcr hc g1, g2, g3⟩

/-- A full disk: `Start` of a client of the sample registry leaves one more handle open. -/
example (cf : Conf) (tmp : Str) : ∃ w w' os, CHist cf tmp (fun _ => none) w ∧
    CStep cf tmp (fun _ => none) w (.start 0 12345 42 os) w' .err ∧ w.fs.handles = [] ∧ w'.fs.handles = [0] := by
  obtain ⟨c, hc, _⟩ := newClient_plain cf tmp
  have h0 : CHist cf tmp (fun _ => none) (Sys.init emptyFS) := .init emptyFS_ok
  have hn : CStep cf tmp (fun _ => none) (Sys.init emptyFS) (.new sA) { Sys.init emptyFS with clients := [c] } _ := .new_ok rfl hc
  obtain ⟨w', g1, g2, _⟩ := C53_refuted (cf := cf) (tmp := tmp) (parse := fun _ => none) (w := { Sys.init emptyFS with clients := [c] })
    (i := 0) (c := c) rfl rfl 12345 42 (os := ⟨false, false, false, false, 0, true, false⟩) rfl rfl rfl rfl (.inl rfl)
  exact ⟨_, w', _, h0.step hn rfl, g1, rfl, g2⟩

end

end Speed
