import Verif.Machine
/-
Property C70: what is at the path of an active client, with several programs on the machine.
-/
namespace Speed
open Dump

variable {cf : Nat → Conf} {tmp : Nat → Str} {parse : Str → Option (Str × Str × Option (List Str))}

/-- What another program finds at path `l`. -/
def FS.open (fs : FS) (l : Str) : Option Buf := (fs.names l).map fs.data

/-- C70, the part that holds: any number of programs with one client each, whose paths are different, make calls in any
order, with any failures of system calls, except that `Start` of an active client does not fail. Then
whoever opens the path of an active client finds a file that describes the present contents of its registry.
Missing: clients with the same path (`C70_refuted_start`, `C70_refuted_stop`) and a failing `Start` of an active client (`C70_refuted_again`). -/
theorem C70_path_partial {M : Machine} (h : MHist cf tmp parse Machine.Apart M) {k : Nat} {p : Sys} (hk : M.progs[k]? = some p)
    (hm : p.reg.mapped = true) :
    ∃ c data, p.clients = [c] ∧ M.fs.open c.loc = some data ∧ (∃ out, Dumps data out) ∧
      ∀ out, Dumps data out → ∃ D A, out = .ok D ∧ DescribesAt p.reg D A ∧
        D.header.flag = BitVec.truncate 32 c.flag ∧ D.header.cluster = c.clusterID := by
  have hi := h.inv
  obtain ⟨c, n, a⟩ := (hi.inv k p hk).act hm
  obtain ⟨gen, pid, o, b, live, h1, h2, h3, _⟩ := a.live
  obtain ⟨σ, hl, hi'⟩ := h1.liveAt
  have hpath := hi.path k p c n hk hm a.client a.writer
  refine ⟨c, M.fs.data n, a.client, by unfold FS.open; rw [hpath]; rfl, dumps_exists _, fun out hd => ?_⟩
  have h3 : live.mem = M.fs.data n := h3
  rw [← h3] at hd
  obtain ⟨D, g1, g2, g3⟩ := hl.dump hi' hd
  have h2 : live.reg = { p.reg with mapped := b } := h2
  rw [h2] at g3
  refine ⟨D, _, g1, ⟨g3.indomKeys, g3.instKeys, g3.metricKeys, g3.valueKeys, g3.nodup, g3.indoms, g3.insts, g3.metrics, g3.values, g3.strings⟩, ?_, ?_⟩
  · rw [g2]; rfl
  · rw [g2]; rfl

/-- Clients with different ordinary names have different paths, in programs with the same configuration. -/
theorem C70_names {cf : Conf} {tmp a b : Str} (ha : Ordinary a) (hb : Ordinary b) (hab : a ≠ b) {c d : Client}
    (hc : newClient cf tmp a = some c) (hd : newClient cf tmp b = some d) : c.loc ≠ d.loc := by
  unfold newClient at hc hd
  rw [(C39_location_partial cf tmp a).2 ha] at hc
  rw [(C39_location_partial cf tmp b).2 hb] at hd
  cases hc
  cases hd
  intro h
  exact hab (List.cons.inj (List.append_cancel_left h)).2

/-- Registrations of a program, one after the other. -/
theorem MHist.regs {C : Machine → Prop} {M : Machine} (h : MHist cf tmp parse C M) {k : Nat} {p : Sys} (hk : M.progs[k]? = some p)
    (hcr : p.crashed = false) (ops : List ROp) (hops : ∀ op ∈ ops, (∀ b, op ≠ .mapped b) ∧ HOp.Made (.reg op))
    (hC : ∀ r : Reg, C ⟨M.fs, M.progs.set k { p with fs := M.fs, reg := r }⟩) (h0 : p.fs = M.fs) :
    MHist cf tmp parse C ⟨M.fs, M.progs.set k { p with fs := M.fs, reg := runOps parse p.reg ops }⟩ := by
  induction ops generalizing M p with
  | nil =>
    have e : M.progs.set k { p with fs := M.fs, reg := runOps parse p.reg [] } = M.progs := by
      rw [← h0]
      obtain ⟨hlt, he⟩ := List.getElem?_eq_some_iff.1 hk
      show M.progs.set k p = M.progs
      rw [← he, List.set_getElem_self]
    rw [e]; exact h
  | cons op ops ih =>
    have ho := hops op (by simp)
    have hs : MStep cf tmp parse M k (.reg op) _ _ := .call hk (.reg hcr ho.1 ho.2)
    have h1 := h.step hs (fun p' hp' => ⟨trivial, fun i gen pid os e => by cases e⟩) (hC _)
    have hlt := (List.getElem?_eq_some_iff.1 hk).1
    have := ih (p := { p with fs := M.fs, reg := (op.apply parse p.reg).reg }) h1 (List.getElem?_set_self hlt) hcr
      (fun o ho => hops o (by simp [ho])) (fun r => by rw [List.set_set]; exact hC r) rfl
    rw [List.set_set] at this
    exact this

/-- Two programs with the same registrations; both clients are started. -/
theorem two_programs {C : Machine → Prop} {ops : List ROp} (hops : ∀ op ∈ ops, (∀ b, op ≠ .mapped b) ∧ HOp.Made (.reg op))
    {R : Reg} (hR : runOps (fun _ => none) Reg.empty ops = R) (hpub : R.Publishable) (hsmall : R.Small) {a b : Str} {ca cb : Client} (ha : newClient (cf 0) (tmp 0) a = some ca)
    (hb : newClient (cf 1) (tmp 1) b = some cb)
    (hC : ∀ fs p q, (∀ c ∈ Sys.clients p, c.loc = ca.loc) → (∀ c ∈ Sys.clients q, c.loc = cb.loc) → C ⟨fs, [p, q]⟩) :
    ∃ M M' p q w, MHist cf tmp (fun _ => none) C M ∧ MHist cf tmp (fun _ => none) C M' ∧
      M.progs = [p, q] ∧ p.reg = { R with mapped := true } ∧ p.clients = [{ ca with writer := some 0 }] ∧ M.fs.next = 1 ∧
      q.clients = [cb] ∧
      MStep cf tmp (fun _ => none) M 1 (.start 0 777 43 (.fine R.Length)) M' (.ok ()) ∧
      M'.progs = [p, w] ∧ w.reg = { R with mapped := true } ∧ w.clients = [{ cb with writer := some 1 }] ∧
      p.crashed = false ∧ w.crashed = false := by
  have hw := newClient_writer ha
  have hw' := newClient_writer hb
  have n1 : ∀ c ∈ ([] : List Client), c.loc = ca.loc := by simp
  have n2 : ∀ c ∈ ([] : List Client), c.loc = cb.loc := by simp
  have c1 : ∀ c ∈ [ca], c.loc = ca.loc := by simp
  have c2 : ∀ c ∈ [cb], c.loc = cb.loc := by simp
  have free : ∀ {M k op res}, (∀ i gen pid os, op ≠ COp.start i gen pid os) → (∀ p : Sys, M.progs[k]? = some p → Fair { p with fs := M.fs } op) →
      MFair M k op res := fun h1 h2 p hp => ⟨h2 p hp, fun i gen pid os e => absurd e (h1 i gen pid os)⟩
  have h0 : MHist cf tmp (fun _ => none) C ⟨emptyFS, [Sys.init emptyFS, Sys.init emptyFS]⟩ := .init (n := 2) emptyFS_ok
  have h1 := h0.step (.call (k := 0) rfl (.new_ok rfl ha)) (free (by simp) (by rintro p ⟨⟩; rfl)) (hC _ _ _ c1 n2)
  have h2 := h1.regs (k := 0) rfl rfl ops hops (fun r => hC _ _ _ c1 n2) rfl
  have h3 := h2.step (.call (k := 1) rfl (.new_ok rfl hb)) (free (by simp) (by rintro p ⟨⟩; rfl)) (hC _ _ _ c1 c2)
  have e0 : runOps (fun _ => none) (Sys.init emptyFS).reg ops = R := hR
  have h4 := h3.regs (k := 1) rfl rfl ops hops (fun r => hC _ _ _ c1 c2) rfl
  have hb0 : BuiltBy (fun _ => none) R := by
    obtain ⟨w', hw', _, e⟩ := (CHist.init (cf := ⟨[], [], none⟩) (tmp := []) (parse := fun _ => none) emptyFS_ok).regs rfl ops hops
    have := hw'.inv.built
    rw [e] at this
    rw [← hR]; exact this
  dsimp only [List.set_cons_zero, List.set_cons_succ] at h4
  rw [e0] at h4
  have hfair : ∀ {M k} (gen pid : BitVec 64) (p : Sys), M.progs[k]? = some p → p.reg = R →
      MFair M k (.start 0 gen pid (.fine R.Length)) (.ok ()) := by
    intro M k gen pid p hp hr p' hp'
    rw [hp] at hp'
    obtain rfl := Option.some.inj hp'
    exact ⟨⟨by show p.reg.Publishable; rw [hr]; exact hpub, by show p.reg.Small; rw [hr]; exact hsmall⟩, fun _ _ _ _ _ _ => rfl⟩
  obtain ⟨w1, hs1, s1, e1⟩ := base_start (cf := cf 0) (tmp := tmp 0) (parse := fun _ => none)
    (w := { Sys.init emptyFS with reg := R, clients := [ca] }) hb0 hpub rfl (i := 0) (c := ca) rfl 12345 42
  obtain ⟨fs1, k1⟩ := newMMW_fine emptyFS ca.loc R.Length
  obtain ⟨_, k2, _⟩ := newMMW_some k1
  have hc1 : w1.clients = [{ ca with writer := some 0 }] := by rw [e1]; rfl
  have h5 := h4.step (.call (k := 0) rfl hs1) (hfair _ _ _ rfl rfl)
    (hC _ _ _ (by show ∀ c ∈ w1.clients, _; rw [hc1]; simp) c2)
  have hf1 : w1.fs.next = 1 := by
    rw [e1]
    show (newMMW emptyFS ca.loc R.Length (.fine R.Length)).1.next = 1
    rw [k1]; exact k2
  obtain ⟨w2, hs2, s2, e2⟩ := base_start (cf := cf 1) (tmp := tmp 1) (parse := fun _ => none)
    (w := { Sys.init emptyFS with reg := R, clients := [cb], fs := w1.fs }) hb0 hpub rfl (i := 0) (c := cb) rfl 777 43
  have hc2 : w2.clients = [{ cb with writer := some 1 }] := by
    rw [e2]
    show [{ cb with writer := some w1.fs.next }] = _
    rw [hf1]
  have hst : MStep cf tmp (fun _ => none) ⟨w1.fs, [w1, { Sys.init emptyFS with reg := R, clients := [cb] }]⟩ 1 (.start 0 777 43 (.fine R.Length)) ⟨w2.fs, [w1, w2]⟩ (.ok ()) := .call (k := 1) rfl hs2
  have h6 := h5.step hst (hfair _ _ _ rfl rfl)
    (hC _ _ _ (by show ∀ c ∈ w1.clients, _; rw [hc1]; simp) (by show ∀ c ∈ w2.clients, _; rw [hc2]; simp))
  exact ⟨_, _, w1, _, w2, h5, h6, rfl, by rw [e1]; rfl, hc1, hf1, rfl, hst, rfl, by rw [e2]; rfl, hc2, by rw [e1]; rfl, by rw [e2]; rfl⟩

/-- Two programs with clients "a" and "b": at both paths is a file that describes the registry. -/
example (cf : Conf) (tmp : Str) : ∃ M p q ca cb Da Db A B, MHist (fun _ => cf) (fun _ => tmp) (fun _ => none) Machine.Apart M ∧
    M.progs = [p, q] ∧ newClient cf tmp sA = some ca ∧ newClient cf tmp sB = some cb ∧
    (∃ data, M.fs.open ca.loc = some data ∧ Dumps data (.ok Da) ∧ DescribesAt p.reg Da A) ∧
    (∃ data, M.fs.open cb.loc = some data ∧ Dumps data (.ok Db) ∧ DescribesAt q.reg Db B) := by
  have oa : Ordinary sA := by unfold Ordinary; decide
  have ob : Ordinary sB := by unfold Ordinary; decide
  obtain ⟨ca, ha⟩ : ∃ ca, newClient cf tmp sA = some ca := by
    unfold newClient; rw [(C39_location_partial cf tmp sA).2 oa]; exact ⟨_, rfl⟩
  obtain ⟨cb, hb⟩ : ∃ cb, newClient cf tmp sB = some cb := by
    unfold newClient; rw [(C39_location_partial cf tmp sB).2 ob]; exact ⟨_, rfl⟩
  have hne := C70_names oa ob (by decide) ha hb
  obtain ⟨_, M, p, _, q, _, h, _, e1, e2, _, _, _, hp, e3, e4, _⟩ := two_programs (cf := fun _ => cf) (tmp := fun _ => tmp)
    (C := Machine.Apart) sampleROps_ok (R := baseReg) rfl baseReg_pub baseReg_small ha hb (by
      intro fs p q h1 h2 j k p' q' c d hj hk hc hd hl
      match j, k with
      | 0, 0 => rfl
      | 1, 1 => rfl
      | 0, 1 => cases hj; cases hk; exact absurd ((h1 c hc).symm.trans (hl.trans (h2 d hd))) hne
      | 1, 0 => cases hj; cases hk; exact absurd ((h1 d hd).symm.trans (hl.symm.trans (h2 c hc))) hne
      | j + 2, _ => simp at hj
      | _, k + 2 => simp at hk)
  obtain ⟨c, data, k1, k2, ⟨out, k3⟩, k4⟩ := C70_path_partial h (k := 0) (p := p) (by rw [hp]; rfl) (by rw [e1])
  obtain ⟨D, A, rfl, k5, _⟩ := k4 out k3
  obtain ⟨c', data', l1, l2, ⟨out', l3⟩, l4⟩ := C70_path_partial h (k := 1) (p := q) (by rw [hp]; rfl) (by rw [e3])
  obtain ⟨D', A', rfl, l5, _⟩ := l4 out' l3
  rw [e2] at k1
  rw [e4] at l1
  have k1 := (List.cons.inj k1).1
  have l1 := (List.cons.inj l1).1
  subst k1 l1
  exact ⟨M, p, q, ca, cb, D, D', A, A', h, hp, ha, hb, ⟨data, k2, k3, k5⟩, ⟨data', l2, l3, l5⟩⟩

/-! ### What does not hold -/

/-- C70 is false for two clients with the same path: `Start` of the second removes the file of the first. The first is
still active, and the file at its path is that of the second. For all machines. -/
theorem C70_refuted_start {M M' : Machine} {k i gen pid os} (hs : MStep cf tmp parse M k (.start i gen pid os) M' (.ok ()))
    {j : Nat} (hjk : j ≠ k) {p q : Sys} (hp : M.progs[k]? = some p) (hq : M.progs[j]? = some q) {c d : Client} {n : Nat}
    (hc : p.clients[i]? = some c) (_hd : d ∈ q.clients) (hloc : d.loc = c.loc) (_hw : d.writer = some n) (hn : n < M.fs.next) :
    M'.progs[j]? = some q ∧ ∃ n' w, M'.fs.names d.loc = some n' ∧ n' ≠ n ∧ M'.progs[k]? = some w ∧
      w.reg.mapped = true ∧ w.clients[i]? = some { c with writer := some n' } := by
  cases hs with
  | call hk hs =>
    rename_i p' w
    rw [hp] at hk
    obtain rfl := Option.some.inj hk
    obtain ⟨c', n', h1, h2, h3, h4, h5⟩ := C37_start hs
    have h1 : p.clients[i]? = some c' := h1
    rw [hc] at h1
    obtain rfl := Option.some.inj h1
    have hlt := (List.getElem?_eq_some_iff.1 hp).1
    refine ⟨?_, n', w, by rw [hloc]; exact h5, ?_, List.getElem?_set_self hlt, by rw [h2], h3⟩
    · exact (List.getElem?_set_ne (fun e => hjk e.symm)).trans hq
    · cases hs with
      | start_ok _ hc' hn' =>
        obtain ⟨g1, _⟩ := newMMW_some hn'
        have e : n' = M.fs.next := by
          simp only [Sys.started] at h3
          rw [List.getElem?_set_self (List.getElem?_eq_some_iff.1 hc).1] at h3
          have := congrArg (fun x => Option.bind x Client.writer) h3
          simp only [Option.bind_some, Option.some.injEq] at this
          rw [← this]; exact g1
        omega

/-- ... and `Stop` of the first then removes the file of the second, which is still active: nothing is at its path. For
all machines. -/
theorem C70_refuted_stop {M M' : Machine} {j i os} (hs : MStep cf tmp parse M j (.stop i true os) M' (.ok ()))
    {k : Nat} (hjk : k ≠ j) {p q : Sys} (hp : M.progs[j]? = some p) (hq : M.progs[k]? = some q) {c d : Client}
    (hc : p.clients[i]? = some c) (_hd : d ∈ q.clients) (hloc : d.loc = c.loc) :
    M'.progs[k]? = some q ∧ M'.fs.open d.loc = none := by
  cases hs with
  | call hk hs =>
    rename_i p' w
    rw [hp] at hk
    obtain rfl := Option.some.inj hk
    refine ⟨(List.getElem?_set_ne (fun e => hjk e.symm)).trans hq, ?_⟩
    generalize hres : Ans.ok () = res at hs
    cases hs with
    | stop hcr hc' =>
      have hc' : p.clients[i]? = some _ := hc'
      rw [hc] at hc'
      obtain rfl := Option.some.inj hc'
      unfold Sys.stop at hres ⊢
      by_cases hm : p.reg.mapped = false
      · rw [if_pos hm] at hres; cases hres
      · rw [if_neg hm] at hres ⊢
        dsimp only at hres ⊢
        split at hres
        · cases hres
        · rename_i n hw
          dsimp only at hres
          split at hres
          · rename_i hok
            have e := (unmap_ok hok).2.2 rfl
            unfold FS.open
            rw [e, hloc]
            simp [fset]
          · cases hres

/-- Two programs with clients of the same name "a". First both are started: the file at the path of the first client is
that of the second. Then the first is stopped: the second is active and nothing is at its path. -/
theorem C70_refuted (cf : Nat → Conf) (tmp : Nat → Str) (h01 : cf 0 = cf 1) (t01 : tmp 0 = tmp 1) :
    ∃ (M M' : Machine) (p q w : Sys) (c d : Client) (n m : Nat),
      MHist cf tmp (fun _ => none) (fun _ => True) M ∧ M.progs = [p, q] ∧ p.reg.mapped = true ∧ p.clients = [c] ∧
      c.writer = some n ∧ q.reg.mapped = true ∧ q.clients = [d] ∧ d.writer = some m ∧ m ≠ n ∧ M.fs.names c.loc = some m ∧
      MStep cf tmp (fun _ => none) M 0 (.stop 0 true ⟨false, false, false⟩) M' (.ok ()) ∧ M'.progs = [w, q] ∧
      M'.fs.open d.loc = none := by
  obtain ⟨c, ha, _⟩ := newClient_plain (cf 0) (tmp 0)
  have hb : newClient (cf 1) (tmp 1) sA = some c := by rw [← h01, ← t01]; exact ha
  obtain ⟨M0, M, p, q0, q, _, h, hp0, e1, e2, hn, e0, hs, hp, e3, e4, cr, _⟩ := two_programs (cf := cf) (tmp := tmp)
    (C := fun _ => True) sampleROps_ok (R := baseReg) rfl baseReg_pub baseReg_small ha hb (fun _ _ _ _ _ => trivial)
  obtain ⟨_, m, w', k1, k2, k3, k4, k5⟩ := C70_refuted_start hs (j := 0) (by decide) (p := q0) (q := p) (by rw [hp0]; rfl) (by rw [hp0]; rfl)
    (c := c) (d := { c with writer := some 0 }) (n := 0) (by rw [e0]; rfl) (by rw [e2]; simp) rfl rfl (by omega)
  rw [hp] at k3
  obtain rfl : q = w' := Option.some.inj k3
  rw [e4] at k5
  have k5 : some 1 = some m := congrArg (fun x => Option.bind x Client.writer) k5
  obtain rfl := Option.some.inj k5
  have hst : MStep cf tmp (fun _ => none) M 0 (.stop 0 true ⟨false, false, false⟩) _ _ :=
    .call (k := 0) (p := p) (by rw [hp]; rfl) (.stop (i := 0) (c := { c with writer := some 0 }) cr (by show p.clients[0]? = _; rw [e2]; rfl))
  have hok : (Sys.stop { p with fs := M.fs } 0 { c with writer := some 0 } true ⟨false, false, false⟩).2 = .ok () := by
    unfold Sys.stop
    rw [if_neg (by rw [e1]; decide)]
    dsimp only
    rw [if_pos (unmap_fine (fun _ => by rw [k1]; rfl))]
  rw [hok] at hst
  have h2 := C70_refuted_stop hst (k := 1) (by decide) (p := p) (q := q) (by rw [hp]; rfl) (by rw [hp]; rfl)
    (c := { c with writer := some 0 }) (d := { c with writer := some 1 }) (by rw [e2]; rfl) (by rw [e4]; simp) rfl
  exact ⟨M, _, p, q, _, { c with writer := some 0 }, { c with writer := some 1 }, 0, 1, h, hp, by rw [e1], e2, rfl, by rw [e3], e4, rfl, by decide,
    k1, hst, by rw [hp]; rfl, h2.2⟩

/-- C70 is false for a `Start` of an active client that fails after removing the old file: the client is still active,
and nothing is at its path. For all machines in which a file is at the path. -/
theorem C70_refuted_again {M : Machine} {k i : Nat} {p : Sys} {c : Client} (hp : M.progs[k]? = some p) (hcr : p.crashed = false)
    (hc : p.clients[i]? = some c) (hx : (M.fs.names c.loc).isSome = true) (gen pid : BitVec 64) {os : StartOS} (h1 : os.statErr = false)
    (h2 : os.removeErr = false) (h3 : os.mkdirErr = true ∨ os.openErr = true) :
    ∃ M', MStep cf tmp parse M k (.start i gen pid os) M' .err ∧ M'.fs.open c.loc = none ∧
      ∃ w, M'.progs[k]? = some w ∧ w.reg = p.reg ∧ w.clients = p.clients := by
  have he : newMMW M.fs c.loc p.reg.Length os = (M.fs.remove c.loc, none) := by
    unfold newMMW openMMW
    rw [if_pos (by simp [h1, hx]), if_neg (by simp [h2])]
    rcases h3 with h3 | h3
    · rw [if_pos h3]
    · split
      · rfl
      · rw [if_pos (by simp [h3])]
  refine ⟨_, .call hp (.start_err hcr hc he), ?_, _, List.getElem?_set_self (List.getElem?_eq_some_iff.1 hp).1, rfl, rfl⟩
  simp [FS.open, FS.remove, fset]

end Speed
