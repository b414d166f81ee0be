import Verif.Sample
import Verif.DumpWrite
/-
Properties of `Start` and of the file it writes (C01-C04, C16, C36, C40, C54, C55).

`Reach (initSt r e o cells) s`: some schedule of the goroutines of `start` leads to `s`; `r` is the
registry, `e` flag, cluster id, generation stamp and process id, `o` the iteration orders of the maps,
`cells` the old contents of the heap fields that `start` assigns.
-/
namespace Speed

open Dump

/-! ### Specification -/

/-- `s` is a state in which a `Start` of the registry `r`, under some schedule, has returned. -/
structure Started (r : Reg) (e : Env) (o : Ord) (s : St) : Prop where
  built : Built r
  pub : r.Publishable
  small : r.Small
  ord : o.OK r
  run : ∃ cells, Reach (initSt r e o cells) s
  ret : Returned s

/-- The extents (address, length) of `l` follow one another without gap from `a` to `b`. -/
def Tiles : Nat → List (Nat × Nat) → Nat → Prop
  | a, [], b => a = b
  | a, (x, n) :: l, b => x = a ∧ Tiles (a + n) l b

/-- Every address belongs to one extent, and different extents do not overlap. -/
def Exact (l : List (Nat × Nat)) (len : Nat) : Prop :=
  (∀ x, x < len ↔ ∃ p ∈ l, p.1 ≤ x ∧ x < p.1 + p.2) ∧ l.Pairwise (fun p q => p.1 + p.2 ≤ q.1)

theorem Tiles.cover {a l b} (h : Tiles a l b) :
    a ≤ b ∧ (∀ x, a ≤ x ∧ x < b ↔ ∃ p ∈ l, p.1 ≤ x ∧ x < p.1 + p.2) ∧
    l.Pairwise (fun p q => p.1 + p.2 ≤ q.1) ∧ ∀ p ∈ l, a ≤ p.1 := by
  induction l generalizing a with
  | nil => cases h; simp
  | cons p l ih =>
    obtain ⟨x, n⟩ := p
    obtain ⟨rfl, h⟩ := h
    obtain ⟨h1, h2, h3, h4⟩ := ih h
    refine ⟨by omega, fun y => ?_, ?_, ?_⟩
    · constructor
      · rintro ⟨h5, h6⟩
        by_cases hy : y < x + n
        · exact ⟨(x, n), by simp, h5, hy⟩
        · obtain ⟨p, hp, h7⟩ := (h2 y).1 ⟨by omega, h6⟩
          exact ⟨p, by simp [hp], h7⟩
      · rintro ⟨p, hp, h5, h6⟩
        rcases List.mem_cons.1 hp with rfl | hp
        · dsimp only at h5 h6; omega
        · have := (h2 y).2 ⟨p, hp, h5, h6⟩; omega
    · exact List.pairwise_cons.2 ⟨fun q hq => h4 q hq, h3⟩
    · intro p hp
      rcases List.mem_cons.1 hp with rfl | hp
      · exact Nat.le_refl _
      · have := h4 p hp; omega

theorem Tiles.exact {l len} (h : Tiles 0 l len) : Exact l len :=
  ⟨fun x => by rw [← h.cover.2.1 x]; simp, h.cover.2.2.1⟩

theorem Tiles.append {a b c l l'} (h1 : Tiles a l b) (h2 : Tiles b l' c) : Tiles a (l ++ l') c := by
  induction l generalizing a with
  | nil => cases h1; exact h2
  | cons p l ih => exact ⟨h1.1, ih h1.2⟩

theorem tiles_range (a L n : Nat) : Tiles a ((List.range n).map (fun i => (a + i * L, L))) (a + L * n) := by
  induction n with
  | zero => simp [Tiles]
  | succ n ih =>
    rw [List.range_succ, List.map_append]
    refine ih.append ⟨by simp [Nat.mul_comm], ?_⟩
    show a + L * n + L = a + L * (n + 1)
    rw [Nat.mul_add]; omega

/-! ### Helpers -/

section
variable {r : Reg} {e : Env} {o : Ord} {s : St}

theorem Started.ok (h : Started r e o s) : r.OK := h.built.ok h.pub

/-- What is known once `Start` has returned. -/
theorem Started.file (h : Started r e o s) : ∃ σ, SealOK (params r e o) σ ∧ FileOK r e o σ s.mem := by
  obtain ⟨cells, hs⟩ := h.run
  obtain ⟨σ, h1, h2, _⟩ := start_returned h.ok h.ord hs h.ret
  exact ⟨σ, h1, h2⟩

theorem Started.raw (h : Started r e o s) {out : DumpOut} (hd : Dumps s.mem out) :
    ∃ σ D, out = .ok D ∧ SealOK (params r e o) σ ∧ FileOK r e o σ s.mem ∧ RawDump r e s.mem D ∧
      DescribesAt r D (addrsOf σ) := by
  obtain ⟨σ, h1, h2⟩ := h.file
  obtain ⟨D, h3, h4⟩ := dump_raw h.ok h.small h2 hd
  exact ⟨σ, D, h3, h1, h2, h4, describesAt h.ok h.small h.ord h.built.typed h1 h2 h4⟩

/-- There are started clients: of every publishable registry, for every environment and map order. -/
theorem started_exists (hb : Built r) (hp : r.Publishable) (hsm : r.Small) (ho : o.OK r) (e : Env) :
    ∃ s, Started r e o s := by
  obtain ⟨t, h1, h2⟩ := reach_returned (e := e) (hb.ok hp) ho (cells := fun _ => none) .refl
  exact ⟨t, hb, hp, hsm, ho, ⟨_, h1⟩, h2⟩

/-- A started client of `sampleReg` and one of the version 2 registry, with reversed map orders. -/
theorem sample_started : ∃ s, Started sampleReg ⟨2, 77, 12345, 42⟩ (idOrd sampleReg) s :=
  started_exists sampleReg_built sampleReg_pub sampleReg_small (idOrd_ok _) _
theorem sample_started2 : ∃ s, Started sampleReg2 ⟨3, 78, 999, 43⟩ (revOrd sampleReg2) s :=
  started_exists sampleReg2_built sampleReg2_pub sampleReg2_small (revOrd_ok _) _

/-- Files written by the two clients, and their dumps. -/
theorem sample_dumped : ∃ s D, Started sampleReg ⟨2, 77, 12345, 42⟩ (idOrd sampleReg) s ∧ Dumps s.mem (.ok D) := by
  obtain ⟨s, h⟩ := sample_started
  obtain ⟨out, hd⟩ := dumps_exists s.mem
  obtain ⟨σ, D, rfl, _⟩ := h.raw hd
  exact ⟨s, D, h, hd⟩
theorem sample_dumped2 : ∃ s D, Started sampleReg2 ⟨3, 78, 999, 43⟩ (revOrd sampleReg2) s ∧ Dumps s.mem (.ok D) := by
  obtain ⟨s, h⟩ := sample_started2
  obtain ⟨out, hd⟩ := dumps_exists s.mem
  obtain ⟨σ, D, rfl, _⟩ := h.raw hd
  exact ⟨s, D, h, hd⟩

theorem keys_of {α : Type} {l : List (Nat × α)} {f : Nat → α} {off L n : Nat} (h : l.Perm (secItems f off L n)) :
    (l.map (fun p => (p.1, L))).Perm ((List.range n).map (fun i => (off + i * L, L))) := by
  have := h.map (fun p => (p.1, L))
  unfold secItems at this
  rw [List.map_map] at this
  exact this

end

/-! ### C01 -/

/-- C01: for every registry the seven sections, in this order, tile exactly `Length()` bytes. -/
theorem C01_sections (r : Reg) :
    let l := [(0, 40), (40, 16 * r.tocCount), (r.indomoffset, 32 * r.InstanceDomainCount),
      (r.instanceoffset, (if r.version2 then 24 else 80) * r.InstanceCount),
      (r.metricsoffset, (if r.version2 then 48 else 104) * r.MetricCount),
      (r.valuesoffset, 32 * r.ValuesCount), (r.stringsoffset, 256 * r.StringCount)]
    Tiles 0 l r.Length ∧ Exact l r.Length := by
  intro l
  have h : Tiles 0 l r.Length := by
    simp only [l, Tiles, Reg.stringsoffset, Reg.valuesoffset, Reg.metricsoffset, Reg.instanceoffset,
      Reg.indomoffset, Reg.Length, Reg.InstanceLength, Reg.MetricLength, Nat.zero_add, true_and,
      HeaderLength, TocLength, ValueLength, StringLength, InstanceDomainLength, Instance1Length, Instance2Length,
      Metric1Length, Metric2Length]
    cases r.version2 <;> simp <;> omega
  exact ⟨h, h.exact⟩

/-- One domain with two instances, three metrics, four values and four strings; and the version 2 registry, whose names are
strings too. -/
example : Tiles 0 [(0, 40), (40, 80), (120, 32), (152, 160), (312, 312), (624, 128), (752, 1024)] 1776 ∧
    sampleReg.Length = 1776 := ⟨(C01_sections sampleReg).1, by decide⟩
example : Tiles 0 [(0, 40), (40, 80), (120, 32), (152, 48), (200, 192), (392, 160), (552, 2560)] 3112 ∧
    sampleReg2.Length = 3112 := ⟨(C01_sections sampleReg2).1, by decide⟩

/-- Extents of all records of a file: header, TOC entries, and everything in the maps of the dump. -/
def extents (D : Result) : List (Nat × Nat) :=
  [(0, 40)] ++ (List.range D.tocs.length).map (fun i => (40 + i * 16, 16)) ++
  D.indoms.map (fun p => (p.1, 32)) ++
  D.instances.map (fun p => (p.1, if D.header.version = 2 then 24 else 80)) ++
  D.metrics.map (fun p => (p.1, if D.header.version = 2 then 48 else 104)) ++
  D.values.map (fun p => (p.1, 32)) ++ D.strings.map (fun p => (p.1, 256))

/-- C01: the records of a written file are contiguous, disjoint and cover exactly the `Length()` bytes of
the mapping, in the order header, TOC, domains, instances, metrics, values, strings (each section in
some order of its records). -/
theorem C01_records {r e o s} (h : Started r e o s) {D} (hd : Dumps s.mem (.ok D)) :
    s.mem.length = r.Length ∧ ∃ l1 l2 l3 l4 l5 : List Nat,
      l1.Perm (D.indoms.map Prod.fst) ∧ l2.Perm (D.instances.map Prod.fst) ∧ l3.Perm (D.metrics.map Prod.fst) ∧
      l4.Perm (D.values.map Prod.fst) ∧ l5.Perm (D.strings.map Prod.fst) ∧
      Tiles 0 ([(0, 40)] ++ (List.range D.tocs.length).map (fun i => (40 + i * 16, 16)) ++
        l1.map (·, 32) ++ l2.map (·, if D.header.version = 2 then 24 else 80) ++
        l3.map (·, if D.header.version = 2 then 48 else 104) ++ l4.map (·, 32) ++ l5.map (·, 256)) r.Length := by
  obtain ⟨σ, D', hD', hs, hF, hR, hA⟩ := h.raw hd
  obtain rfl : D = D' := by injection hD'
  obtain ⟨c1, c2, c3, c4, c5, c6⟩ := off_chain r
  have hlen := h.ok
  have htl : D.tocs.length = r.tocCount := by rw [hR.tocs, List.length_map, tocEntries_length hlen]
  have hv : (if D.header.version = 2 then 24 else 80) = r.InstanceLength := by
    rw [hR.header]; unfold hdrOf verOf Reg.InstanceLength; cases r.version2 <;> rfl
  have hv2 : (if D.header.version = 2 then 48 else 104) = r.MetricLength := by
    rw [hR.header]; unfold hdrOf verOf Reg.MetricLength; cases r.version2 <;> rfl
  have key : ∀ {α : Type} {l : List (Nat × α)} {f : Nat → α} {off L n : Nat}, l.Perm (secItems f off L n) →
      ((List.range n).map (fun i => off + i * L)).Perm (l.map Prod.fst) := by
    intro α l f off L n h
    have := h.map Prod.fst
    rw [secItems_keys] at this
    exact this.symm
  refine ⟨hF.len, _, _, _, _, _, key hR.indoms, key hR.insts, key hR.metrics, key hR.values, key hR.strings, ?_⟩
  rw [htl, hv, hv2]
  simp only [List.map_map]
  have e5 : r.Length = r.stringsoffset + 256 * r.StringCount := by
    simp only [Reg.Length, Reg.stringsoffset, Reg.valuesoffset, Reg.metricsoffset, Reg.instanceoffset,
      Reg.indomoffset, Reg.InstanceLength, Reg.MetricLength, HeaderLength, TocLength, ValueLength, StringLength, InstanceDomainLength, Instance1Length, Instance2Length,
      Metric1Length, Metric2Length]
    cases r.version2 <;> simp <;> omega
  rw [e5]
  have t0 : Tiles 0 [(0, 40)] 40 := ⟨rfl, rfl⟩
  have t1 := tiles_range 40 16 r.tocCount
  rw [← c1] at t1
  exact (((((t0.append t1).append (tiles_range _ _ _)).append (tiles_range _ _ _)).append
    (tiles_range _ _ _)).append (tiles_range _ _ _)).append (tiles_range _ _ _)

/-- The file of the sample registry has 1776 bytes. -/
example : ∃ s D, Started sampleReg ⟨2, 77, 12345, 42⟩ (idOrd sampleReg) s ∧ Dumps s.mem (.ok D) ∧ s.mem.length = 1776 := by
  obtain ⟨s, D, h, hd⟩ := sample_dumped
  exact ⟨s, D, h, hd, (C01_records h hd).1⟩

/-- C01: in particular no two records overlap and every byte belongs to a record. -/
theorem C01_exact {r e o s} (h : Started r e o s) {D} (hd : Dumps s.mem (.ok D)) :
    ∃ l, l.Perm (extents D) ∧ Exact l s.mem.length := by
  obtain ⟨h0, l1, l2, l3, l4, l5, h1, h2, h3, h4, h5, h6⟩ := C01_records h hd
  rw [h0]
  refine ⟨_, ?_, h6.exact⟩
  unfold extents
  refine (((((List.Perm.refl _).append ?_).append ?_).append ?_).append ?_).append ?_
  · have := h1.map (·, 32)
    rwa [List.map_map] at this
  · have := h2.map (·, if D.header.version = 2 then 24 else 80)
    rwa [List.map_map] at this
  · have := h3.map (·, if D.header.version = 2 then 48 else 104)
    rwa [List.map_map] at this
  · have := h4.map (·, 32)
    rwa [List.map_map] at this
  · have := h5.map (·, 256)
    rwa [List.map_map] at this

/-- A file with records of all kinds. -/
example : ∃ s D, Started sampleReg2 ⟨3, 78, 999, 43⟩ (revOrd sampleReg2) s ∧ Dumps s.mem (.ok D) ∧
    ∃ l, l.Perm (extents D) ∧ Exact l 3112 := by
  obtain ⟨s, D, h, hd⟩ := sample_dumped2
  obtain ⟨l, h1, h2⟩ := C01_exact h hd
  rw [(C01_records h hd).1] at h2
  exact ⟨s, D, h, hd, l, h1, h2⟩

/-! ### C02 -/

/-- C02: under every schedule and map order `Start` neither panics nor gets stuck, and every schedule
ends (with all goroutines finished). -/
theorem C02_terminates {r : Reg} (hb : Built r) (hp : r.Publishable) {o : Ord} (ho : o.OK r) (e : Env)
    (cells : Cell → Option Nat) :
    (∀ s, Reach (initSt r e o cells) s → s.crashed = false ∧ (Stuck s → AllDone s ∧ Returned s)) ∧
    ¬ ∃ f : Nat → St, f 0 = initSt r e o cells ∧ ∀ n, Step (f n) (f (n + 1)) := by
  have hr := hb.ok hp
  refine ⟨fun s hs => ⟨start_safe hr ho hs, fun hst => ⟨start_progress hr ho hs hst, ?_⟩⟩, ?_⟩
  · obtain ⟨t, h1, h2⟩ := reach_returned hr ho hs
    cases h1 with
    | refl => exact h2
    | tail a b =>
      exfalso
      have : ∀ {x y z : St}, Reach x y → Step y z → ∃ y', Step x y' := by
        intro x y z hxy hyz
        induction hxy generalizing z with
        | refl => exact ⟨z, hyz⟩
        | tail _ h1 ih => exact ih h1
      obtain ⟨y, hy⟩ := this a b
      exact hst y hy
  · rintro ⟨f, _, hf⟩
    have : ∀ x : St, ∀ n, f n = x → False := fun x => step_wf.induction (C := fun x => ∀ n, f n = x → False) x
      (fun y ih n hn => ih (f (n + 1)) (by subst hn; exact hf n) (n + 1) rfl)
    exact this _ 0 rfl

example : Built sampleReg2 ∧ sampleReg2.Publishable ∧ (revOrd sampleReg2).OK sampleReg2 :=
  ⟨sampleReg2_built, sampleReg2_pub, revOrd_ok _⟩

/-! ### C03 -/

/-- C03: after `Start` has returned, `Dump` (under every schedule of its own goroutines) succeeds and
its result describes the registry: one record per registered object under distinct keys, nothing else,
showing all its fields, its current value and the right references. -/
theorem C03_dump_describes {r e o s} (h : Started r e o s) :
    (∃ out, Dumps s.mem out) ∧ ∀ out, Dumps s.mem out → ∃ D, out = .ok D ∧ Describes r D := by
  refine ⟨dumps_exists _, fun out hd => ?_⟩
  obtain ⟨σ, D, h1, _, _, _, h2⟩ := h.raw hd
  exact ⟨D, h1, _, h2⟩

example : ∃ e o s, Started sampleReg e o s := ⟨_, _, sample_started⟩
example : ∃ e o s, Started sampleReg2 e o s := ⟨_, _, sample_started2⟩

/-! ### C04 -/

theorem bytes_zero {m : Buf} {a n : Nat} (h : ∀ i, a ≤ i → i < a + n → m[i]? = some 0) :
    bytesAt m a n = zeros n := by
  apply List.ext_getElem?
  intro j
  unfold bytesAt zeros
  rw [List.getElem?_take, List.getElem?_drop]
  split
  · rename_i hj
    rw [h (a + j) (by omega) (by omega), List.getElem?_replicate, if_pos hj]
  · rename_i hj
    rw [List.getElem?_eq_none (by simp; omega)]

theorem bytesAt_eq_getElem {m m' : Buf} {a n : Nat} (h : bytesAt m a n = bytesAt m' a n) {i : Nat} (h1 : a ≤ i)
    (h2 : i < a + n) : m[i]? = m'[i]? := by
  have := congrArg (fun l => l[i - a]?) h
  unfold bytesAt at this
  simp only [List.getElem?_take, List.getElem?_drop] at this
  rw [if_pos (by omega), if_pos (by omega), show a + (i - a) = i by omega] at this
  exact this

theorem unLe_zeros (n : Nat) : unLe (zeros n) = 0 := by
  induction n with
  | zero => rfl
  | succ n ih => show unLe (0 :: zeros n) = 0; simp [unLe, ih]

theorem f64_inj {m : Buf} {a b : Nat} (ha : a + 8 ≤ m.length) (hb : b + 8 ≤ m.length) (h : f64 m a = f64 m b) :
    bytesAt m a 8 = bytesAt m b 8 := by
  have hl : ∀ c, c + 8 ≤ m.length → (bytesAt m c 8).length = 8 := by
    intro c hc; unfold bytesAt; simp; omega
  have h1 := congrArg BitVec.toNat h
  unfold f64 at h1
  have key : ∀ l : List Byte, l.length = 8 → unLe l < 2 ^ 64 := by
    intro l hl
    have := unLe_lt l
    rw [hl] at this
    exact this
  rw [BitVec.toNat_ofNat, BitVec.toNat_ofNat, Nat.mod_eq_of_lt (key _ (hl a ha)), Nat.mod_eq_of_lt (key _ (hl b hb))] at h1
  rw [← le_unLe (bytesAt m a 8), ← le_unLe (bytesAt m b 8), hl a ha, hl b hb, h1]

/-- Equal byte windows give the same 64-bit field. -/
theorem f64_zero {m : Buf} {a : Nat} (h : ∀ i, a ≤ i → i < a + 8 → m[i]? = some 0) : f64 m a = 0 := by
  unfold f64; rw [bytes_zero h, unLe_zeros]; rfl

theorem f32_zero {m : Buf} {a : Nat} (h : ∀ i, a ≤ i → i < a + 4 → m[i]? = some 0) : f32 m a = 0 := by
  unfold f32; rw [bytes_zero h, unLe_zeros]; rfl

theorem zero_of_f64 {m : Buf} {a : Nat} (ha : a + 8 ≤ m.length) (h : f64 m a = 0) :
    ∀ i, a ≤ i → i < a + 8 → m[i]? = some 0 := by
  have hl : (bytesAt m a 8).length = 8 := by unfold bytesAt; simp; omega
  have h1 := congrArg BitVec.toNat h
  unfold f64 at h1
  have hlt := unLe_lt (bytesAt m a 8)
  rw [hl] at hlt
  rw [BitVec.toNat_ofNat, Nat.mod_eq_of_lt hlt] at h1
  have h2 : bytesAt m a 8 = zeros 8 := by
    rw [← le_unLe (bytesAt m a 8), hl, h1]; rfl
  intro i h3 h4
  have := congrArg (fun l => l[i - a]?) h2
  unfold bytesAt zeros at this
  simp only [List.getElem?_take, List.getElem?_drop, List.getElem?_replicate] at this
  rw [if_pos (by omega), if_pos (by omega), show a + (i - a) = i by omega] at this
  exact this

theorem dump_empty {data : List Byte} {h : Header} {out : DumpOut} (h1 : readHeader data = .ok h) (h2 : h.toc = 0)
    (hd : Dumps data out) : out = .ok ⟨h, [], [], [], [], [], []⟩ := by
  unfold Dumps at hd
  rw [h1] at hd
  dsimp only at hd
  have h3 : readTocs data h.toc = .ok [] := by rw [h2]; rfl
  rw [h3] at hd
  obtain ⟨secs, h4, h5⟩ := hd
  cases h4
  simp only [List.any_nil, Bool.false_eq_true, if_false, List.not_mem_nil, List.filterMap_nil] at h5
  obtain ⟨mi, ei, md, ed, mm, em, mv, ev, ms, es, p1, p2, p3, p4, p5, h6⟩ := h5
  obtain ⟨rfl, rfl⟩ := pick_nil p1
  obtain ⟨rfl, rfl⟩ := pick_nil p2
  obtain ⟨rfl, rfl⟩ := pick_nil p3
  obtain ⟨rfl, rfl⟩ := pick_nil p4
  obtain ⟨rfl, rfl⟩ := pick_nil p5
  simpa using h6

/-- C04: whatever byte `Start` has written last, a reader of the bytes gets an error, or a header with no
TOC entries (an empty result), or the complete description of the registry from bytes none of which
changes any more: they are the bytes in every later state in which `Start` has returned. -/
theorem C04_no_half_written {r : Reg} (hb : Built r) (hp : r.Publishable) (hsm : r.Small) {o : Ord} (ho : o.OK r)
    {e : Env} (hg : e.gen ≠ 0) {cells s} (h : Reach (initSt r e o cells) s) {out} (hd : Dumps s.mem out) :
    out = .err ∨ (∃ H, out = .ok ⟨H, [], [], [], [], [], []⟩ ∧ H.toc = 0) ∨
    (∃ D, out = .ok D ∧ Describes r D ∧ ∀ t, Reach s t → Returned t → t.mem = s.mem) := by
  have hr := hb.ok hp
  cases hh : readHeader s.mem with
  | err => unfold Dumps at hd; rw [hh] at hd; exact .inl hd
  | panic =>
    exfalso
    unfold readHeader at hh
    split at hh
    · cases hh
    · dsimp only at hh
      split at hh
      · cases hh
      · split at hh <;> cases hh
  | ok H =>
    have hH := hh
    unfold readHeader at hH
    split at hH
    · cases hH
    · rename_i hlen
      dsimp only at hH
      split at hH
      · cases hH
      · split at hH
        · cases hH
        · rename_i hgen
          injection hH with hH
          have hgen : f64 s.mem 8 = f64 s.mem 16 := by simpa using hgen
          rcases start_final hr ho h with h1 | ⟨σ, F, hs, hF, hl, hag, hfin⟩
          · right; left
            obtain ⟨e1, e2⟩ := h1.1 hg
            have hz : f64 s.mem 8 = 0 := by rw [hgen]; exact f64_zero e1
            have htoc : H.toc = 0 := by
              rw [← hH]; exact f32_zero (e2 (zero_of_f64 (by omega) hz))
            exact ⟨H, dump_empty hh htoc hd, htoc⟩
          · right; right
            have hFm : s.mem = F := by
              apply List.ext_getElem?
              intro a
              by_cases ha : 16 ≤ a ∧ a < 24
              · have hF8 : bytesAt F 8 8 = bytesAt F 16 8 := by
                  have hhdr := hF.hdr
                  simp only [hdrBytes, FileAt.append] at hhdr
                  obtain ⟨⟨⟨⟨⟨⟨⟨⟨_, _⟩, _⟩, a4⟩, a5⟩, _⟩, _⟩, _⟩, _⟩ := hhdr
                  simp only [magic, le_length, List.length_append, List.length_cons, List.length_nil] at a4 a5
                  rw [bytesAt_of a4 (le_length _ _), bytesAt_of a5 (le_length _ _)]
                have h8 := f64_inj (by omega) (by omega) hgen
                have hb8 : bytesAt s.mem 8 8 = bytesAt F 8 8 := by
                  apply List.ext_getElem?
                  intro j
                  unfold bytesAt
                  rw [List.getElem?_take, List.getElem?_take]
                  split
                  · rw [List.getElem?_drop, List.getElem?_drop]; exact hag s .refl _ (by omega)
                  · rfl
                have : bytesAt s.mem 16 8 = bytesAt F 16 8 := by rw [← h8, hb8, hF8]
                exact bytesAt_eq_getElem this ha.1 (by omega)
              · exact hag s .refl a ha
            obtain ⟨D, hD1, hD2⟩ := dump_raw hr hsm (hFm ▸ hF) hd
            exact ⟨D, hD1, ⟨_, describesAt hr hsm ho hb.typed hs (hFm ▸ hF) hD2⟩,
              fun t ht hret => by rw [hFm]; exact hfin t ht hret⟩

/-- Completion is always possible, so the last clause of `C04_no_half_written` is not vacuous. -/
example {r : Reg} (hb : Built r) (hp : r.Publishable) {o : Ord} (ho : o.OK r) {e cells s}
    (h : Reach (initSt r e o cells) s) : ∃ t, Reach s t ∧ Returned t := reach_returned (hb.ok hp) ho h

end Speed
