import Verif.PropsClient
/-
C63: mappings and file handles. What a program holds beyond the writer of an active client can never be released: the
library has no other way to reach it.
-/
namespace Speed

variable {cf : Conf} {tmp : Str} {parse : Str → Option (Str × Str × Option (List Str))}

/-! ### What holds -/

/-- `Start` is called when the client is not active, and neither writing nor mapping the file fails in it; in `Stop`
neither unmapping nor closing fails. Removing files, making directories and opening may fail. -/
def Careful (w : Sys) : COp → Prop
  | .start _ _ _ os => w.reg.mapped = false ∧ os.writeErr = false ∧ w.reg.Length ≤ os.written ∧ os.mmapErr = false
  | .stop _ _ os => os.munmapErr = false ∧ os.closeErr = false
  | _ => True

/-- The states of a program with one client that uses it so, beginning with the files `fs0`. -/
inductive CareHist (cf : Conf) (tmp : Str) (parse : Str → Option (Str × Str × Option (List Str))) (fs0 : FS) : Sys → Prop
  | init : fs0.OK → CareHist cf tmp parse fs0 (Sys.init fs0)
  | step {w op w' res} : CareHist cf tmp parse fs0 w → CStep cf tmp parse w op w' res → Fair w op → Careful w op →
      CareHist cf tmp parse fs0 w'

theorem CareHist.hist {fs0 w} (h : CareHist cf tmp parse fs0 w) : CHist cf tmp parse w := by
  induction h with
  | init h => exact .init h
  | step _ hs hf _ ih => exact ih.step hs hf

theorem CareHist.regs {fs0 w} (h : CareHist cf tmp parse fs0 w) (hc : w.crashed = false) (ops : List ROp)
    (hops : ∀ op ∈ ops, (∀ b, op ≠ .mapped b) ∧ HOp.Made (.reg op)) :
    CareHist cf tmp parse fs0 { w with reg := runOps parse w.reg ops } := by
  induction ops generalizing w with
  | nil => exact h
  | cons op ops ih =>
    have ho := hops op (by simp)
    exact ih (h.step (.reg hc ho.1 ho.2) trivial trivial) hc (fun o h => hops o (by simp [h]))

/-- What the process holds: nothing more than at the beginning, or also the file of the active client. -/
def Holds (fs0 : FS) (w : Sys) : Prop :=
  (w.reg.mapped = false → w.fs.maps = fs0.maps ∧ w.fs.handles = fs0.handles) ∧
  (w.reg.mapped = true → ∃ c n, w.clients = [c] ∧ c.writer = some n ∧ w.fs.maps = n :: fs0.maps ∧ w.fs.handles = n :: fs0.handles)

theorem openMMW_held {fs fs' : FS} {loc : Str} {size : Nat} {os : StartOS} (h : openMMW fs loc size os = (fs', none))
    (h1 : os.writeErr = false) (h2 : size ≤ os.written) (h3 : os.mmapErr = false) : fs'.maps = fs.maps ∧ fs'.handles = fs.handles := by
  unfold openMMW at h
  split at h
  · cases h; exact ⟨rfl, rfl⟩
  · split at h
    · cases h; exact ⟨rfl, rfl⟩
    · dsimp only at h
      rw [if_neg (by rw [h1]; simp), if_neg (by omega), if_neg (by rw [h3]; simp)] at h
      cases h

theorem newMMW_held {fs fs' : FS} {loc : Str} {size : Nat} {os : StartOS} (h : newMMW fs loc size os = (fs', none))
    (h1 : os.writeErr = false) (h2 : size ≤ os.written) (h3 : os.mmapErr = false) : fs'.maps = fs.maps ∧ fs'.handles = fs.handles := by
  unfold newMMW at h
  split at h
  · split at h
    · cases h; exact ⟨rfl, rfl⟩
    · exact openMMW_held (fs := fs.remove loc) h h1 h2 h3
  · exact openMMW_held h h1 h2 h3

theorem unmap_held (fs : FS) (n : Nat) (loc : Str) (erase : Bool) {os : StopOS} (h1 : os.munmapErr = false) (h2 : os.closeErr = false) :
    (fs.unmap n loc erase os).1.maps = fs.maps.erase n ∧ (fs.unmap n loc erase os).1.handles = fs.handles.erase n := by
  obtain ⟨a, b, c⟩ := os
  cases h1; cases h2
  unfold FS.unmap
  cases c <;> cases erase <;> cases hn : fs.names loc <;> simp [FS.remove, hn]

/-- C63, the part that holds: with one client that is started only when it is not active, and no failing write, mapping,
unmapping or close, the process never holds more mappings and handles than before it made the client, except those of
the file of the active client; after `Stop` they are released. Missing: the other histories (`C63_refuted_twice`,
`C63_refuted_stop`, `C53_refuted`). -/
theorem C63_held_partial {fs0 w} (h : CareHist cf tmp parse fs0 w) : Holds fs0 w := by
  induction h with
  | init => exact ⟨fun _ => ⟨rfl, rfl⟩, fun h => by cases h⟩
  | @step w op w' res h hs hf hc ih =>
    have inv := h.hist.inv
    have inv' := (h.hist.step hs hf).inv
    cases hs with
    | new_err => exact ih
    | new_ok =>
      refine ⟨ih.1, fun hm => ?_⟩
      obtain ⟨c, n, h1, _⟩ := ih.2 hm
      have hf : w.clients = [] := hf
      rw [hf] at h1; cases h1
    | @setFlag i c flag _ hc =>
      unfold Sys.setFlag
      split
      · exact ih
      · rename_i hm
        exact ⟨fun _ => ih.1 (by simpa using hm), fun h => absurd h hm⟩
    | @reg op _ hno hmade =>
      by_cases hm : w.reg.mapped = true
      · rw [apply_mapped hm hno]; exact ih
      · have hm' : w.reg.mapped = false := by simpa using hm
        refine ⟨fun _ => ih.1 hm', fun h => ?_⟩
        have e := apply_mapped_false (parse := parse) hm' hno
        have h : (op.apply parse w.reg).reg.mapped = true := h
        rw [e] at h; cases h
    | call_free => exact ih
    | call_live => exact ih
    | call_dead => exact ih
    | call_crash => exact ih
    | start_err _ _ hn =>
      obtain ⟨e1, e2⟩ := newMMW_held hn hc.2.1 hc.2.2.1 hc.2.2.2
      refine ⟨fun hm => ?_, fun hm => ?_⟩
      · dsimp only; rw [e1, e2]; exact ih.1 hm
      · have h1 : w.reg.mapped = true := hm
        rw [hc.1] at h1; cases h1
    | @start_ok i c gen pid os fs n o cells s _ hi hn ho hr hret =>
      refine ⟨fun hm => (by cases hm), fun _ => ?_⟩
      obtain ⟨rfl, hw⟩ := only_client inv.one hi
      obtain ⟨h1, h2⟩ := ih.1 hc.1
      obtain ⟨_, _, h3, h4, _⟩ := newMMW_some hn
      refine ⟨{ c with writer := some n }, n, ?_, rfl, ?_, ?_⟩
      · show w.clients.set 0 { c with writer := some n } = _
        rw [hw]; rfl
      · show fs.maps = _
        rw [h3, h1]
      · show fs.handles = _
        rw [h4, h2]
    | start_crash => exact ih
    | @stop i c erase os _ hi =>
      unfold Sys.stop
      by_cases hm : w.reg.mapped = false
      · rw [if_pos hm]; exact ih
      · rw [if_neg hm]
        obtain ⟨c', n, h1, h2, h3, h4⟩ := ih.2 (by simpa using hm)
        obtain ⟨rfl, hw⟩ := only_client inv.one hi
        rw [hw] at h1
        obtain ⟨rfl, _⟩ := List.cons.inj h1
        dsimp only
        rw [h2]
        refine ⟨fun _ => ?_, fun h => by cases h⟩
        obtain ⟨e1, e2⟩ := unmap_held w.fs n c.loc erase hc.1 hc.2
        dsimp only
        rw [e1, e2, h3, h4]
        simp

/-- The sample client: one mapping and one handle while it is active, none after `Stop`. -/
example (cf : Conf) (tmp : Str) : ∃ w w1, CareHist cf tmp (fun _ => none) emptyFS w ∧ w.fs.maps = [0] ∧ w.fs.handles = [0] ∧
    CareHist cf tmp (fun _ => none) emptyFS w1 ∧ w1.fs.maps = [] ∧ w1.fs.handles = [] ∧ w1.clients.length = 1 := by
  obtain ⟨c, hc, _⟩ := newClient_plain cf tmp
  have h0 : CareHist cf tmp (fun _ => none) emptyFS (Sys.init emptyFS) := .init emptyFS_ok
  have h1 := h0.step (.new_ok rfl hc) rfl trivial
  have h2 : CareHist cf tmp (fun _ => none) emptyFS { Sys.init emptyFS with clients := [c], reg := baseReg } :=
    h1.regs rfl sampleROps sampleROps_ok
  obtain ⟨w3, h3, s, rfl⟩ := base_start (cf := cf) (tmp := tmp) h2.hist.inv.built baseReg_pub rfl (i := 0) (c := c) rfl 12345 42
  have h4 := h2.step h3 ⟨baseReg_pub, baseReg_small⟩ ⟨rfl, rfl, Nat.le_refl _, rfl⟩
  have h5 := h4.step (.stop (i := 0) (erase := true) (os := ⟨false, false, false⟩) rfl rfl) trivial ⟨rfl, rfl⟩
  obtain ⟨_, n, k1, k2, k3, k4⟩ := (C63_held_partial h4).2 rfl
  have e1 := (List.cons.inj k1).1
  subst e1
  obtain rfl : 0 = n := Option.some.inj k2
  refine ⟨_, _, h4, k3, k4, h5, ?_⟩
  have := (C63_held_partial h5).1 rfl
  exact ⟨this.1, this.2, rfl⟩

/-! ### What does not hold -/

/-- The writers of the clients are mapped and open, and no two clients have the same. -/
structure Writers (w : Sys) : Prop where
  held : ∀ (i : Nat) (c : Client) n, w.clients[i]? = some c → c.writer = some n → n < w.fs.next ∧ n ∈ w.fs.maps ∧ n ∈ w.fs.handles
  apart : ∀ (i j : Nat) (c d : Client) n, w.clients[i]? = some c → w.clients[j]? = some d → c.writer = some n → d.writer = some n → i = j

/-- A file that no client has as its writer. -/
structure Lost (w : Sys) (n : Nat) : Prop where
  old : n < w.fs.next
  free : ∀ (i : Nat) (c : Client), w.clients[i]? = some c → c.writer ≠ some n

theorem newMMW_keeps {fs fs' : FS} {loc : Str} {size : Nat} {os : StartOS} {x : Option Nat} (h : newMMW fs loc size os = (fs', x)) :
    fs.next ≤ fs'.next ∧ (∀ n ∈ fs.maps, n ∈ fs'.maps) ∧ ∀ n ∈ fs.handles, n ∈ fs'.handles := by
  have key : ∀ g : FS, g.next = fs.next → g.maps = fs.maps → g.handles = fs.handles → openMMW g loc size os = (fs', x) →
      fs.next ≤ fs'.next ∧ (∀ n ∈ fs.maps, n ∈ fs'.maps) ∧ ∀ n ∈ fs.handles, n ∈ fs'.handles := by
    intro g e1 e2 e3 h
    rw [← e1, ← e2, ← e3]
    unfold openMMW at h
    split at h
    · cases h; exact ⟨Nat.le_refl _, fun _ h => h, fun _ h => h⟩
    · split at h
      · cases h; exact ⟨Nat.le_refl _, fun _ h => h, fun _ h => h⟩
      · dsimp only at h
        split at h
        · cases h; exact ⟨Nat.le_succ _, fun _ h => h, fun _ h => List.mem_cons_of_mem _ h⟩
        · split at h
          · cases h; exact ⟨Nat.le_succ _, fun _ h => h, fun _ h => List.mem_cons_of_mem _ h⟩
          · split at h
            · cases h; exact ⟨Nat.le_succ _, fun _ h => h, fun _ h => List.mem_cons_of_mem _ h⟩
            · cases h; exact ⟨Nat.le_succ _, fun _ h => List.mem_cons_of_mem _ h, fun _ h => List.mem_cons_of_mem _ h⟩
  unfold newMMW at h
  split at h
  · split at h
    · cases h; exact ⟨Nat.le_refl _, fun _ h => h, fun _ h => h⟩
    · exact key (fs.remove loc) rfl rfl rfl h
  · exact key fs rfl rfl rfl h

theorem unmap_keeps (fs : FS) (n : Nat) (loc : Str) (erase : Bool) (os : StopOS) :
    (fs.unmap n loc erase os).1.next = fs.next ∧ (∀ k ∈ fs.maps, k ≠ n → k ∈ (fs.unmap n loc erase os).1.maps) ∧
    ∀ k ∈ fs.handles, k ≠ n → k ∈ (fs.unmap n loc erase os).1.handles := by
  obtain ⟨a, b, c⟩ := os
  unfold FS.unmap
  have hm : ∀ (l : List Nat) k, k ∈ l → k ≠ n → k ∈ l.erase n := fun l k h hk => (List.mem_erase_of_ne hk).2 h
  cases a <;> cases b <;> cases c <;> cases erase <;> cases hn : fs.names loc <;> simp [FS.remove, hn] <;>
    first
    | exact ⟨fun k h hk => hm _ k h hk, fun k h hk => hm _ k h hk⟩
    | exact ⟨fun k h hk => hm _ k h hk, fun k h _ => h⟩
    | exact ⟨fun k h _ => h, fun k h _ => h⟩

/-- The clients after one of them was given another writer. -/
theorem clients_set {l : List Client} {i : Nat} {c : Client} (hi : l[i]? = some c) {c' : Client} {j : Nat} {d : Client}
    (h : (l.set i c')[j]? = some d) : j = i ∧ d = c' ∨ j ≠ i ∧ l[j]? = some d := by
  by_cases hj : j = i
  · subst hj
    have hl : j < l.length := by
      by_contra hc
      rw [List.getElem?_eq_none (by omega)] at hi; cases hi
    rw [List.getElem?_set_self hl] at h
    exact .inl ⟨rfl, (Option.some.inj h).symm⟩
  · rw [List.getElem?_set_ne (fun h => hj h.symm)] at h
    exact .inr ⟨hj, h⟩

theorem Writers.set {w w' : Sys} (h : Writers w) (h1 : w.fs.next ≤ w'.fs.next) {i : Nat} {c c' : Client} (hi : w.clients[i]? = some c)
    (hc : w'.clients = w.clients.set i c')
    (hk : ∀ j d k, w.clients[j]? = some d → j ≠ i → d.writer = some k → k ∈ w'.fs.maps ∧ k ∈ w'.fs.handles)
    (hn : ∀ k, c'.writer = some k → k < w'.fs.next ∧ k ∈ w'.fs.maps ∧ k ∈ w'.fs.handles ∧
      ∀ j d, w.clients[j]? = some d → j ≠ i → d.writer ≠ some k) : Writers w' := by
  constructor
  · intro j d k hj hd
    rw [hc] at hj
    rcases clients_set hi hj with ⟨rfl, rfl⟩ | ⟨hne, hj⟩
    · obtain ⟨a1, a2, a3, _⟩ := hn k hd
      exact ⟨a1, a2, a3⟩
    · exact ⟨Nat.lt_of_lt_of_le (h.held j d k hj hd).1 h1, hk j d k hj hne hd⟩
  · intro j j' d d' k hj hj' hd hd'
    rw [hc] at hj hj'
    rcases clients_set hi hj with ⟨e1, e2⟩ | ⟨hne, hk1⟩ <;> rcases clients_set hi hj' with ⟨e3, e4⟩ | ⟨hne', hk2⟩
    · rw [e1, e3]
    · exact absurd hd' ((hn k (e2 ▸ hd)).2.2.2 j' d' hk2 hne')
    · exact absurd hd ((hn k (e4 ▸ hd')).2.2.2 j d hk1 hne)
    · exact h.apart j j' d d' k hk1 hk2 hd hd'

theorem getElem?_snoc {l : List Client} {c d : Client} {j : Nat} (h : (l ++ [c])[j]? = some d) : l[j]? = some d ∨ d = c := by
  by_cases hj : j < l.length
  · rw [List.getElem?_append_left hj] at h; exact .inl h
  · rw [List.getElem?_append_right (by omega)] at h
    have := List.mem_of_getElem? h
    exact .inr (List.mem_singleton.1 this)

theorem Writers.step {w op w' res} (h : Writers w) (hs : CStep cf tmp parse w op w' res) : Writers w' := by
  cases hs with
  | new_err => exact h
  | @new_ok name c _ hc =>
    have hw : c.writer = none := by
      unfold newClient at hc
      obtain ⟨loc, _, rfl⟩ := Option.map_eq_some_iff.1 hc
      rfl
    constructor
    · intro j d k hj hd
      rcases getElem?_snoc hj with hj | rfl
      · exact h.held j d k hj hd
      · rw [hw] at hd; cases hd
    · intro j j' d d' k hj hj' hd hd'
      rcases getElem?_snoc hj with hj | rfl <;> rcases getElem?_snoc hj' with hj' | rfl
      · exact h.apart j j' d d' k hj hj' hd hd'
      all_goals first | (rw [hw] at hd; cases hd) | (rw [hw] at hd'; cases hd')
  | @setFlag i c flag _ hi =>
    unfold Sys.setFlag
    split
    · exact h
    · exact h.set (Nat.le_refl _) hi rfl (fun j d k hj _ hd => (h.held j d k hj hd).2)
        fun k hk => ⟨(h.held i c k hi hk).1, (h.held i c k hi hk).2.1, (h.held i c k hi hk).2.2,
          fun j d hj hne hd => hne (h.apart j i d c k hj hi hd hk)⟩
  | reg => exact ⟨h.held, h.apart⟩
  | call_free => exact ⟨h.held, h.apart⟩
  | call_live => exact ⟨h.held, h.apart⟩
  | call_dead => exact ⟨h.held, h.apart⟩
  | call_crash => exact ⟨h.held, h.apart⟩
  | start_err _ _ hn =>
    obtain ⟨e1, e2, e3⟩ := newMMW_keeps hn
    exact ⟨fun j d k hj hd => ⟨Nat.lt_of_lt_of_le (h.held j d k hj hd).1 e1, e2 _ (h.held j d k hj hd).2.1, e3 _ (h.held j d k hj hd).2.2⟩, h.apart⟩
  | @start_ok i c gen pid os fs n o cells s _ hi hn =>
    obtain ⟨e1, e2, e3⟩ := newMMW_keeps hn
    obtain ⟨f1, f2, f3, f4, _⟩ := newMMW_some hn
    refine h.set (c' := { c with writer := some n }) e1 hi rfl (fun j d k hj _ hd => ⟨e2 _ (h.held j d k hj hd).2.1, e3 _ (h.held j d k hj hd).2.2⟩) ?_
    intro k hk
    obtain rfl : n = k := Option.some.inj hk
    refine ⟨?_, ?_, ?_, fun j d hj _ hd => ?_⟩
    · show n < fs.next
      omega
    · show n ∈ fs.maps
      rw [f3]; exact List.mem_cons_self
    · show n ∈ fs.handles
      rw [f4]; exact List.mem_cons_self
    · have := (h.held j d n hj hd).1
      omega
  | start_crash => exact ⟨h.held, h.apart⟩
  | @stop i c erase os _ hi =>
    unfold Sys.stop
    split
    · exact h
    · dsimp only
      split
      · exact ⟨h.held, h.apart⟩
      · rename_i n hw
        obtain ⟨e1, e2, e3⟩ := unmap_keeps w.fs n c.loc erase os
        refine h.set (Nat.le_of_eq e1.symm) hi rfl (fun j d k hj hne hd => ?_) (fun k hk => by cases hk)
        have hk : k ≠ n := fun e => hne (h.apart j i d c n hj hi (e ▸ hd) hw)
        exact ⟨e2 k (h.held j d k hj hd).2.1 hk, e3 k (h.held j d k hj hd).2.2 hk⟩

theorem CSteps.writers {w ops w'} (hs : CSteps cf tmp parse w ops w') (h : Writers w) : Writers w' := by
  induction hs with
  | nil => exact h
  | cons h1 _ ih => exact ih (h.step h1)

theorem writers_init (fs : FS) : Writers (Sys.init fs) :=
  ⟨fun j d k h _ => by simp [Sys.init] at h, fun j j' d d' k h _ _ _ => by simp [Sys.init] at h⟩

/-- No call gives a lost file to a client again, and none releases it. -/
theorem Lost.step {w op w' res n} (h : Lost w n) (hs : CStep cf tmp parse w op w' res) :
    Lost w' n ∧ (n ∈ w.fs.maps → n ∈ w'.fs.maps) ∧ (n ∈ w.fs.handles → n ∈ w'.fs.handles) := by
  have put : ∀ (w' : Sys) (i : Nat) (c c' : Client), w.clients[i]? = some c → w.fs.next ≤ w'.fs.next → w'.clients = w.clients.set i c' →
      c'.writer ≠ some n → Lost w' n := by
    intro w' i c c' hi h1 h2 h3
    refine ⟨Nat.lt_of_lt_of_le h.old h1, fun j d hj => ?_⟩
    rw [h2] at hj
    rcases clients_set hi hj with ⟨_, rfl⟩ | ⟨_, hj⟩
    · exact h3
    · exact h.free j d hj
  cases hs with
  | new_err => exact ⟨h, id, id⟩
  | @new_ok name c _ hc =>
    refine ⟨⟨h.old, fun j d hj => ?_⟩, id, id⟩
    rcases getElem?_snoc hj with hj | rfl
    · exact h.free j d hj
    · unfold newClient at hc
      obtain ⟨loc, _, rfl⟩ := Option.map_eq_some_iff.1 hc
      simp
  | @setFlag i c flag _ hi =>
    unfold Sys.setFlag
    split
    · exact ⟨h, id, id⟩
    · exact ⟨put _ i c _ hi (Nat.le_refl _) rfl (h.free i c hi), id, id⟩
  | reg => exact ⟨⟨h.old, h.free⟩, id, id⟩
  | call_free => exact ⟨⟨h.old, h.free⟩, id, id⟩
  | call_live => exact ⟨⟨h.old, h.free⟩, id, id⟩
  | call_dead => exact ⟨⟨h.old, h.free⟩, id, id⟩
  | call_crash => exact ⟨⟨h.old, h.free⟩, id, id⟩
  | start_err _ _ hn =>
    obtain ⟨e1, e2, e3⟩ := newMMW_keeps hn
    exact ⟨⟨Nat.lt_of_lt_of_le h.old e1, h.free⟩, e2 n, e3 n⟩
  | @start_ok i c gen pid os fs k o cells s _ hi hn =>
    obtain ⟨e1, e2, e3⟩ := newMMW_keeps hn
    obtain ⟨f1, _⟩ := newMMW_some hn
    refine ⟨put _ i c { c with writer := some k } hi e1 rfl ?_, e2 n, e3 n⟩
    have := h.old
    simp only [ne_eq, Option.some.injEq]
    omega
  | start_crash => exact ⟨⟨h.old, h.free⟩, id, id⟩
  | @stop i c erase os _ hi =>
    unfold Sys.stop
    split
    · exact ⟨h, id, id⟩
    · dsimp only
      split
      · exact ⟨⟨h.old, h.free⟩, id, id⟩
      · rename_i k hw
        obtain ⟨e1, e2, e3⟩ := unmap_keeps w.fs k c.loc erase os
        have hk : n ≠ k := fun e => h.free i c hi (e ▸ hw)
        exact ⟨put _ i c { c with writer := none } hi (Nat.le_of_eq e1.symm) rfl (by simp), fun hm => e2 n hm hk, fun hm => e3 n hm hk⟩

theorem Lost.steps {w ops w' n} (hs : CSteps cf tmp parse w ops w') (h : Lost w n) :
    Lost w' n ∧ (n ∈ w.fs.maps → n ∈ w'.fs.maps) ∧ (n ∈ w.fs.handles → n ∈ w'.fs.handles) := by
  induction hs with
  | nil => exact ⟨h, id, id⟩
  | cons h1 _ ih =>
    obtain ⟨a1, a2, a3⟩ := h.step h1
    obtain ⟨b1, b2, b3⟩ := ih a1
    exact ⟨b1, b2 ∘ a2, b3 ∘ a3⟩

/-- C63 does not hold: `Start` of a client that is already active succeeds, and the mapping and the handle of the file it
had are never released, whatever is called afterwards. -/
theorem C63_refuted_twice {fs pre w i c n gen pid os w1 ops w2} (h0 : CSteps cf tmp parse (Sys.init fs) pre w)
    (hi : w.clients[i]? = some c) (hw : c.writer = some n) (h1 : CStep cf tmp parse w (.start i gen pid os) w1 (.ok ()))
    (h2 : CSteps cf tmp parse w1 ops w2) : n ∈ w2.fs.maps ∧ n ∈ w2.fs.handles := by
  have W := h0.writers (writers_init fs)
  obtain ⟨g1, g2, g3⟩ := W.held i c n hi hw
  cases h1 with
  | @start_ok _ c' _ _ _ fs' k o cells s _ hi' hn =>
    rw [hi] at hi'
    obtain rfl := Option.some.inj hi'
    obtain ⟨e1, e2, e3⟩ := newMMW_keeps hn
    obtain ⟨f1, _⟩ := newMMW_some hn
    have hl : Lost (w.started i c fs' k s) n := by
      refine ⟨Nat.lt_of_lt_of_le g1 e1, fun j d hj => ?_⟩
      rcases clients_set (c' := { c with writer := some k }) hi hj with ⟨_, rfl⟩ | ⟨hne, hj⟩
      · simp only [ne_eq, Option.some.injEq]
        omega
      · exact fun hd => hne (W.apart j i d c n hj hi hd hw)
    obtain ⟨_, b2, b3⟩ := Lost.steps h2 hl
    exact ⟨b2 (e2 n g2), b3 (e3 n g3)⟩

/-- The sample client, active; `Start` can be called again. -/
example (cf : Conf) (tmp : Str) : ∃ pre w c n w1, CSteps cf tmp (fun _ => none) (Sys.init emptyFS) pre w ∧ w.clients[0]? = some c ∧
    c.writer = some n ∧ w.reg.mapped = true ∧ CStep cf tmp (fun _ => none) w (.start 0 12346 42 (.fine w.reg.Length)) w1 (.ok ()) := by
  obtain ⟨c, hc, _⟩ := newClient_plain cf tmp
  have h0 : CHist cf tmp (fun _ => none) (Sys.init emptyFS) := .init emptyFS_ok
  have h1 := h0.step (.new_ok rfl hc) rfl
  obtain ⟨w2, h2, g2, rfl⟩ := h1.regs rfl sampleROps sampleROps_ok
  obtain ⟨w3, h3, s, rfl⟩ := base_start (cf := cf) (tmp := tmp) h2.inv.built baseReg_pub rfl (i := 0) (c := c) rfl 12345 42
  have h4 := h2.step h3 ⟨baseReg_pub, baseReg_small⟩
  obtain ⟨w5, h5, _⟩ := base_start (cf := cf) (tmp := tmp) h4.inv.built
    ⟨baseReg_pub.nonempty, baseReg_pub.indomText, baseReg_pub.metricText, baseReg_pub.strVals, baseReg_pub.library,
      baseReg_pub.registered, baseReg_pub.indomUid, baseReg_pub.metricUid⟩ rfl (i := 0) rfl 12346 42
  have app : ∀ {a ops b op d res}, CSteps cf tmp (fun _ => none) a ops b → CStep cf tmp (fun _ => none) b op d res →
      CSteps cf tmp (fun _ => none) a (ops ++ [op]) d := by
    intro a ops b op d res h1 h2
    induction h1 with
    | nil => exact .cons h2 .nil
    | cons h _ ih => exact .cons h (ih h2)
  exact ⟨_, _, _, _, _, app (.cons (.new_ok rfl hc) g2) h3, rfl, rfl, rfl, h5⟩

/-- C63 does not hold when unmapping fails: `Stop` returns the error, and the client has forgotten its writer: no later call
releases the mapping or the handle. -/
theorem C63_refuted_stop {fs pre w i c n erase os w1 res ops w2} (h0 : CSteps cf tmp parse (Sys.init fs) pre w)
    (hi : w.clients[i]? = some c) (hw : c.writer = some n) (hm : w.reg.mapped = true) (ho : os.munmapErr = true)
    (h1 : CStep cf tmp parse w (.stop i erase os) w1 res) (h2 : CSteps cf tmp parse w1 ops w2) :
    res = .err ∧ n ∈ w2.fs.maps ∧ n ∈ w2.fs.handles := by
  have W := h0.writers (writers_init fs)
  obtain ⟨g1, g2, g3⟩ := W.held i c n hi hw
  cases h1 with
  | @stop _ c' _ _ _ hi' =>
    rw [hi] at hi'
    obtain rfl := Option.some.inj hi'
    have e : w.stop i c erase os = ({ w with reg := { w.reg with mapped := false }, clients := w.clients.set i { c with writer := none } }, .err) := by
      unfold Sys.stop
      rw [if_neg (by rw [hm]; simp)]
      simp [hw, FS.unmap, ho]
    rw [e] at h2 ⊢
    have hl : Lost { w with reg := { w.reg with mapped := false }, clients := w.clients.set i { c with writer := none } } n := by
      refine ⟨g1, fun j d hj => ?_⟩
      rcases clients_set (c' := { c with writer := none }) hi hj with ⟨_, rfl⟩ | ⟨hne, hj⟩
      · simp
      · exact fun hd => hne (W.apart j i d c n hj hi hd hw)
    obtain ⟨_, b2, b3⟩ := Lost.steps h2 hl
    exact ⟨rfl, b2 g2, b3 g3⟩

end Speed
