import Verif.PropsClient
/-
Several programs (or several registries of one program) on one file system. Calls of different programs are
interleaved as a whole; `Client` has the calls of one program, `Clients` the steps inside several `Start`s.
-/
namespace Speed

/-- Programs, each with a registry and its clients, and the files that they share. Only this `fs` is used, the field
`fs` of a `Sys` in the list is not. -/
structure Machine where
  fs : FS
  progs : List Sys

/-- One call of program `k`: the call of `CStep`, on the files of the machine. File numbers are never used twice, so the
mappings and handles of all programs can be in one list. Each program has its own configuration. -/
inductive MStep (cf : Nat → Conf) (tmp : Nat → Str) (parse : Str → Option (Str × Str × Option (List Str))) :
    Machine → Nat → COp → Machine → Ans Unit → Prop
  | call {M : Machine} {k p op w res} : M.progs[k]? = some p → CStep (cf k) (tmp k) parse { p with fs := M.fs } op w res →
      MStep cf tmp parse M k op ⟨w.fs, M.progs.set k w⟩ res

/-- Clients of different programs have different paths. -/
def Machine.Apart (M : Machine) : Prop :=
  ∀ (j k : Nat) (p q : Sys) (c d : Client), M.progs[j]? = some p → M.progs[k]? = some q → c ∈ p.clients → d ∈ q.clients →
    c.loc = d.loc → j = k

/-- Conditions on one call: those of one program (`Fair`), and no `Start` of an active client fails. -/
def MFair (M : Machine) (k : Nat) (op : COp) (res : Ans Unit) : Prop :=
  ∀ p : Sys, M.progs[k]? = some p → Fair { p with fs := M.fs } op ∧
    ∀ i gen pid os, op = .start i gen pid os → p.reg.mapped = true → res = .ok ()

/-- The states of `n` programs whose calls satisfy the conditions, with all states in `C`. -/
inductive MHist (cf : Nat → Conf) (tmp : Nat → Str) (parse : Str → Option (Str × Str × Option (List Str)))
    (C : Machine → Prop) : Machine → Prop
  | init {fs : FS} {n : Nat} : fs.OK → MHist cf tmp parse C ⟨fs, List.replicate n (Sys.init fs)⟩
  | step {M k op M' res} : MHist cf tmp parse C M → MStep cf tmp parse M k op M' res → MFair M k op res → C M' →
      MHist cf tmp parse C M'

/-! ### What a call does to the files of others -/

/-- The closures or a client of the program refer to file `n`. -/
def Sys.Refs (w : Sys) (n : Nat) : Prop :=
  (∃ uid u, w.upd uid = some (n, u)) ∨ ∃ c ∈ w.clients, c.writer = some n

theorem openMMW_effect {fs fs' : FS} {loc : Str} {size : Nat} {os : StartOS} {x : Option Nat}
    (h : openMMW fs loc size os = (fs', x)) : ∀ l, l ≠ loc → fs'.names l = fs.names l := by
  intro l hl
  unfold openMMW at h
  dsimp only at h
  repeat' split at h
  all_goals cases h
  all_goals first
    | rfl
    | simp only [FS.create, fset, if_neg hl]

theorem newMMW_effect {fs fs' : FS} {loc : Str} {size : Nat} {os : StartOS} {x : Option Nat}
    (h : newMMW fs loc size os = (fs', x)) : ∀ l, l ≠ loc → fs'.names l = fs.names l := by
  intro l hl
  unfold newMMW at h
  split at h
  · split at h
    · cases h; rfl
    · rw [openMMW_effect h l hl]; simp only [FS.remove, fset, if_neg hl]
  · exact openMMW_effect h l hl

theorem unmap_effect (fs : FS) (n : Nat) (loc : Str) (erase : Bool) (os : StopOS) :
    ∀ l, l ≠ loc → (fs.unmap n loc erase os).1.names l = fs.names l := by
  intro l hl
  unfold FS.unmap
  dsimp only
  repeat' split
  all_goals first
    | rfl
    | simp only [FS.remove, fset, if_neg hl]

/-- What a call leaves alone: files that the program does not refer to, and paths that are not those of its clients. -/
structure FileEffect (w w' : Sys) : Prop where
  next : w.fs.next ≤ w'.fs.next
  data : ∀ n, n < w.fs.next → ¬ w.Refs n → w'.fs.data n = w.fs.data n
  maps : ∀ n, n ∈ w.fs.maps → ¬ w.Refs n → n ∈ w'.fs.maps
  names : ∀ l, (∀ c ∈ w.clients, c.loc ≠ l) → w'.fs.names l = w.fs.names l
  refs : ∀ n, w'.Refs n → w.Refs n ∨ n = w.fs.next ∧ n < w'.fs.next

theorem FileEffect.same {w w' : Sys} (h1 : w'.fs = w.fs) (h2 : ∀ n, w'.Refs n → w.Refs n) : FileEffect w w' :=
  ⟨by rw [h1], fun _ _ _ => by rw [h1], fun _ h _ => by rw [h1]; exact h, fun _ _ => by rw [h1], fun n h => .inl (h2 n h)⟩

theorem newClient_writer {cf : Conf} {tmp name : Str} {c : Client} (h : newClient cf tmp name = some c) : c.writer = none := by
  unfold newClient at h
  obtain ⟨loc, _, rfl⟩ := Option.map_eq_some_iff.1 h
  rfl

theorem CStep.effect {cf tmp parse w op w' res} (h : CStep cf tmp parse w op w' res) : FileEffect w w' := by
  cases h with
  | new_err => exact .same rfl fun _ => id
  | @new_ok name c _ hc =>
    refine .same rfl fun n hn => ?_
    rcases hn with h | ⟨d, hd, hw⟩
    · exact .inl h
    · rcases List.mem_append.1 hd with hd | hd
      · exact .inr ⟨d, hd, hw⟩
      · rw [List.mem_singleton.1 hd, newClient_writer hc] at hw; cases hw
  | @setFlag i c flag _ hc =>
    unfold Sys.setFlag
    split
    · exact .same rfl fun _ => id
    · refine .same rfl fun n hn => ?_
      rcases hn with h | ⟨d, hd, hw⟩
      · exact .inl h
      · rcases List.mem_or_eq_of_mem_set hd with hd | rfl
        · exact .inr ⟨d, hd, hw⟩
        · exact .inr ⟨c, List.mem_of_getElem? hc, hw⟩
  | reg => exact .same rfl fun _ => id
  | call_free => exact .same rfl fun _ => id
  | @call_live name m c n u _ _ _ hu hmaps =>
    refine ⟨Nat.le_refl _, fun k _ hk => ?_, fun _ h _ => h, fun _ _ => rfl, fun k h => .inl h⟩
    have hne : k ≠ n := by
      rintro rfl
      exact hk (.inl ⟨_, _, hu⟩)
    simp only [fset, if_neg hne]
  | call_dead => exact .same rfl fun _ => id
  | call_crash => exact .same rfl fun _ => id
  | @start_err i c gen pid os fs _ hc hn =>
    obtain ⟨g1, g2, g3, g4, g5⟩ := newMMW_none hn
    exact ⟨g1, fun n h _ => g3 n h, fun n h _ => by dsimp only; rw [g2]; exact h,
      fun l hl => newMMW_effect hn l (fun e => hl c (List.mem_of_getElem? hc) e.symm), fun n h => .inl h⟩
  | @start_ok i c gen pid os fs n o cells s _ hc hn =>
    obtain ⟨g1, g2, g3, g4, g5, g6, g7, _⟩ := newMMW_some hn
    refine ⟨?_, fun k hk _ => ?_, fun k hk _ => ?_, fun l hl => newMMW_effect hn l (fun e => hl c (List.mem_of_getElem? hc) e.symm),
      fun k hk => ?_⟩
    · simp only [Sys.started, g2]; omega
    · have hne : k ≠ n := by omega
      simp only [Sys.started, fset, if_neg hne]
      exact g7 k hne
    · simp only [Sys.started, g3]; exact List.mem_cons_of_mem _ hk
    · have hnew : k = n → k = w.fs.next ∧ k < (w.started i c fs n s).fs.next := by
        rintro rfl
        simp only [Sys.started, g2]
        omega
      rcases hk with ⟨uid, u, h⟩ | ⟨d, hd, hw⟩
      · simp only [Sys.started] at h
        split at h
        · simp only [Option.some.injEq, Prod.mk.injEq] at h
          exact .inr (hnew h.1.symm)
        · exact .inl (.inl ⟨_, _, h⟩)
      · rcases List.mem_or_eq_of_mem_set hd with hd | rfl
        · exact .inl (.inr ⟨d, hd, hw⟩)
        · exact .inr (hnew (Option.some.inj hw).symm)
  | start_crash => exact .same rfl fun _ => id
  | @stop i c erase os _ hc =>
    unfold Sys.stop
    split
    · exact .same rfl fun _ => id
    · dsimp only
      split
      · exact .same rfl fun _ => id
      · rename_i n hw
        obtain ⟨u1, u2, u3, u4⟩ := unmap_spec w.fs n c.loc erase os
        refine ⟨by dsimp only; rw [u1], fun k _ _ => by dsimp only; rw [u2], fun k hk hr => ?_,
          fun l hl => unmap_effect _ _ _ _ _ l (fun e => hl c (List.mem_of_getElem? hc) e.symm), fun k hk => .inl ?_⟩
        · dsimp only
          rw [u4]
          split
          · exact hk
          · refine (List.mem_erase_of_ne ?_).2 hk
            rintro rfl
            exact hr (.inr ⟨c, List.mem_of_getElem? hc, hw⟩)
        · rcases hk with h | ⟨d, hd, hw⟩
          · exact .inl h
          · rcases List.mem_or_eq_of_mem_set hd with hd | rfl
            · exact .inr ⟨d, hd, hw⟩
            · cases hw

/-- A program does not notice changes to files that it does not refer to. -/
theorem CInv.frame {parse} {w : Sys} {fs : FS} (h : CInv parse w) (hfs : fs.OK)
    (hd : ∀ n, w.Refs n → n ∈ w.fs.maps → fs.data n = w.fs.data n ∧ n ∈ fs.maps) : CInv parse { w with fs := fs } := by
  refine ⟨h.built, h.one, hfs, h.idle, fun hm => ?_⟩
  obtain ⟨c, n, a1, a2, a3, gen, pid, o, b, live, k1, k2, k3, k4⟩ := h.act hm
  obtain ⟨e1, e2⟩ := hd n (.inr ⟨c, by rw [a1]; simp, a2⟩) a3
  exact ⟨c, n, a1, a2, e2, gen, pid, o, b, live, k1, k2, k3.trans e1.symm, k4⟩

/-! ### Invariant -/

structure MInv (parse : Str → Option (Str × Str × Option (List Str))) (M : Machine) : Prop where
  fs : M.fs.OK
  inv : ∀ (k : Nat) (p : Sys), M.progs[k]? = some p → CInv parse { p with fs := M.fs }
  old : ∀ (k : Nat) (p : Sys) n, M.progs[k]? = some p → p.Refs n → n < M.fs.next
  own : ∀ (j k : Nat) (p q : Sys) n, M.progs[j]? = some p → M.progs[k]? = some q → p.Refs n → q.Refs n → j = k
  path : ∀ (k : Nat) (p : Sys) c n, M.progs[k]? = some p → p.reg.mapped = true → p.clients = [c] → c.writer = some n →
    M.fs.names c.loc = some n
  apart : M.Apart

/-- The path of the active client of the program that makes the call. -/
theorem CStep.path {cf tmp parse w op w' res} (h : CStep cf tmp parse w op w' res) (hi : CInv parse w) (hf : Fair w op)
    (hst : ∀ i gen pid os, op = .start i gen pid os → w.reg.mapped = true → res = .ok ())
    (hp : w.reg.mapped = true → ∀ c n, w.clients = [c] → c.writer = some n → w.fs.names c.loc = some n) :
    w'.reg.mapped = true → ∀ c n, w'.clients = [c] → c.writer = some n → w'.fs.names c.loc = some n := by
  intro hm' c' n' hc' hw'
  cases h with
  | new_err => exact hp hm' c' n' hc' hw'
  | @new_ok name c _ hc =>
    have he : w.clients = [] := hf
    obtain ⟨_, _, h1, _⟩ := hi.act hm'
    rw [he] at h1; cases h1
  | @setFlag i c flag _ hc =>
    unfold Sys.setFlag at *
    by_cases hm : w.reg.mapped = true
    · rw [if_pos hm] at *; exact hp hm' c' n' hc' hw'
    · rw [if_neg hm] at hm'; exact absurd hm' hm
  | @reg op _ hno hmade =>
    by_cases hm : w.reg.mapped = true
    · exact hp hm c' n' hc' hw'
    · have e := apply_mapped_false (parse := parse) (by simpa using hm) hno
      have hm' : (op.apply parse w.reg).reg.mapped = true := hm'
      rw [e] at hm'; cases hm'
  | call_free => exact hp hm' c' n' hc' hw'
  | call_live => exact hp hm' c' n' hc' hw'
  | call_dead => exact hp hm' c' n' hc' hw'
  | call_crash => exact hp hm' c' n' hc' hw'
  | start_err =>
    cases hst _ _ _ _ rfl hm'
  | @start_ok i c gen pid os fs n o cells s _ hc hn =>
    obtain ⟨g1, g2, g3, g4, g5, _⟩ := newMMW_some hn
    obtain ⟨rfl, hcl⟩ := only_client hi.one hc
    simp only [Sys.started, hcl, List.set_cons_zero, List.cons.injEq, and_true] at hc'
    subst hc'
    simp only [Option.some.injEq] at hw'
    subst hw'
    simp [Sys.started, g5, fset]
  | start_crash => exact hp hm' c' n' hc' hw'
  | @stop i c erase os _ hc =>
    unfold Sys.stop at *
    by_cases hm : w.reg.mapped = false
    · rw [if_pos hm] at *; exact hp hm' c' n' hc' hw'
    · rw [if_neg hm] at hm'
      dsimp only at hm'
      split at hm' <;> cases hm'

theorem MHist.inv {cf tmp parse M} (h : MHist cf tmp parse Machine.Apart M) : MInv parse M := by
  induction h with
  | @init fs n hfs =>
    have key : ∀ (k : Nat) (p : Sys), (List.replicate n (Sys.init fs))[k]? = some p → p = Sys.init fs := by
      intro k p hk
      rw [List.getElem?_replicate] at hk
      split at hk
      · exact (Option.some.inj hk).symm
      · cases hk
    have hr : ∀ n, ¬ (Sys.init fs).Refs n := by
      rintro n (⟨_, _, h⟩ | ⟨c, h, _⟩)
      · cases h
      · cases h
    refine ⟨hfs, ?_, ?_, ?_, ?_, ?_⟩
    · intro k p hk
      rw [key k p hk]
      exact ⟨builtBy_empty, by simp [Sys.init], hfs, fun _ c hc => by simp [Sys.init] at hc, fun hx => by cases hx⟩
    · intro k p n hk hn
      rw [key k p hk] at hn; exact absurd hn (hr n)
    · intro j k p q n hj _ hn
      rw [key j p hj] at hn; exact absurd hn (hr n)
    · intro k p c n hk hm
      rw [key k p hk] at hm; cases hm
    · intro j k p q c d hj _ hc
      rw [key j p hj] at hc; cases hc
  | @step M k op M' res hM hs hf ha ih =>
    cases hs with
    | call hk hc =>
    rename_i p w
    obtain ⟨hf1, hf2⟩ := hf p hk
    have hi := ih.inv k p hk
    have he := hc.effect
    have hi' := hi.step hc hf1
    have hget : ∀ (j : Nat) (q : Sys), (M.progs.set k w)[j]? = some q → j = k ∧ q = w ∨ j ≠ k ∧ M.progs[j]? = some q := by
      intro j q hj
      by_cases h : j = k
      · subst h
        rw [List.getElem?_set_self (List.getElem?_eq_some_iff.1 hk).1] at hj
        exact .inl ⟨rfl, (Option.some.inj hj).symm⟩
      · rw [List.getElem?_set_ne (fun e => h e.symm)] at hj
        exact .inr ⟨h, hj⟩
    have hnot : ∀ (j : Nat) (q : Sys) n, j ≠ k → M.progs[j]? = some q → q.Refs n → ¬ Sys.Refs { p with fs := M.fs } n :=
      fun j q n hne hj hr hr' => hne (ih.own j k q p n hj hk hr hr')
    have hrefs : ∀ n, w.Refs n → p.Refs n ∨ n = M.fs.next ∧ n < w.fs.next := he.refs
    refine ⟨hi'.fs, ?_, ?_, ?_, ?_, ha⟩
    · intro j q hj
      rcases hget j q hj with ⟨rfl, rfl⟩ | ⟨hne, hj⟩
      · exact hi'
      · refine (ih.inv j q hj).frame hi'.fs fun n hr hm => ?_
        have hno := hnot j q n hne hj hr
        exact ⟨he.data n (ih.old j q n hj hr) hno, he.maps n hm hno⟩
    · intro j q n hj hr
      rcases hget j q hj with ⟨rfl, rfl⟩ | ⟨hne, hj⟩
      · rcases hrefs n hr with h | h
        · exact Nat.lt_of_lt_of_le (ih.old j p n hk h) he.next
        · exact h.2
      · exact Nat.lt_of_lt_of_le (ih.old j q n hj hr) he.next
    · intro i j q r n hq hr hr1 hr2
      rcases hget i q hq with ⟨rfl, rfl⟩ | ⟨_, hq'⟩
      · rcases hget j r hr with ⟨rfl, rfl⟩ | ⟨_, hr'⟩
        · rfl
        · rcases hrefs n hr1 with h | h
          · exact ih.own _ _ _ _ n hk hr' h hr2
          · have := ih.old j r n hr' hr2; omega
      · rcases hget j r hr with ⟨rfl, rfl⟩ | ⟨_, hr'⟩
        · rcases hrefs n hr2 with h | h
          · exact ih.own _ _ _ _ n hq' hk hr1 h
          · have := ih.old i q n hq' hr1; omega
        · exact ih.own _ _ _ _ n hq' hr' hr1 hr2
    · intro j q c n hj hm hcl hw
      rcases hget j q hj with ⟨rfl, rfl⟩ | ⟨hne, hj⟩
      · exact hc.path hi hf1 hf2 (fun h c n => ih.path j p c n hk h) hm c n hcl hw
      · refine (he.names c.loc fun d hd e => ?_).trans (ih.path j q c n hj hm hcl hw)
        exact hne (ih.apart j k q p c d hj hk (by rw [hcl]; simp) hd e.symm)

end Speed
