import Verif.HashLemmas
import Verif.PropsStart
import Verif.PropsIdent
import Verif.PropsFile
import Verif.Print
/-
Property C84: identifiers of instances, instance domains and clients; and more on C18, those of metrics.
-/
namespace Speed

open Dump

/-! ### C18: metrics -/

/-- **C18**, the part that holds: metrics whose names differ in one byte only have different ids. Missing: all other pairs of
names (`C18_refuted`). -/
theorem C18_one_byte_partial {r : Reg} (hb : Built r) {m1 m2 : Metric} (h1 : m1 ∈ r.metrics) (h2 : m2 ∈ r.metrics)
    {p s : Str} {a b : Byte} (n1 : m1.desc.name = p ++ a :: s) (n2 : m2.desc.name = p ++ b :: s) (hab : a ≠ b) :
    m1.desc.id ≠ m2.desc.id := by
  intro h
  have := (C18_ids_partial hb h1 h2).1 h
  rw [n1, n2] at this
  exact fnv_one (k := 10) (by decide) (by decide) p s hab this

/-- "cpu0" and "cpu7". -/
example : (hash b!"cpu0" 10) ≠ hash b!"cpu7" 10 := by decide

/-! ### C84: the registry -/

/-- A domain "d" whose instances "costarring" and "liquid" get the same 32 bit id. -/
def clashInsts : List HOp := [.reg (.byName 1 b!"d" [b!"costarring", b!"liquid"])]
def clashInstsReg : Reg := runHist (fun _ => none) Reg.empty clashInsts
/-- Two domains whose 22 bit ids are the same. -/
def clashIndoms : List HOp := [.reg (.byName 1 b!"dsz" [b!"x"]), .reg (.byName 2 b!"iaze" [b!"y"])]
def clashIndomsReg : Reg := runHist (fun _ => none) Reg.empty clashIndoms

theorem clashInstsReg_built : Built clashInstsReg := ⟨_, clashInsts, by simp [clashInsts, HOp.Made], rfl⟩
theorem clashIndomsReg_built : Built clashIndomsReg := ⟨_, clashIndoms, by simp [clashIndoms, HOp.Made], rfl⟩

/-- **C84 is false of instances.** The instances "costarring" and "liquid" of one domain have the same id, and `Start` publishes
them. -/
theorem C84_refuted_instances : ∃ r, Built r ∧ r.Publishable ∧ r.Small ∧ ∃ d ∈ r.indoms, ∃ i ∈ d.insts, ∃ j ∈ d.insts,
    i.name = b!"costarring" ∧ j.name = b!"liquid" ∧ i.id = j.id := by
  refine ⟨clashInstsReg, clashInstsReg_built, publishable_of (by decide +kernel), ?_, ?_⟩
  · constructor <;> decide +kernel
  · decide +kernel

/-- **C84 is false of domains**: "dsz" and "iaze". -/
theorem C84_refuted_indoms : ∃ r, Built r ∧ r.Publishable ∧ r.Small ∧ ∃ d ∈ r.indoms, ∃ d' ∈ r.indoms,
    d.name = b!"dsz" ∧ d'.name = b!"iaze" ∧ d.id = d'.id := by
  refine ⟨clashIndomsReg, clashIndomsReg_built, publishable_of (by decide +kernel), ?_, ?_⟩
  · constructor <;> decide +kernel
  · decide +kernel

/-- It fails in every registry with more than 2^22 domains. -/
theorem C84_refuted_large {r : Reg} (hb : Built r) (hl : 2 ^ 22 < r.indoms.length) :
    ∃ d ∈ r.indoms, ∃ d' ∈ r.indoms, d.name ≠ d'.name ∧ d.id = d'.id := by
  obtain ⟨_, hids, _⟩ := C17_ids hb
  let f : Fin r.indoms.length → Nat := fun i => r.indoms[i].id.toNat
  obtain ⟨i, _, j, _, hne, he⟩ := Finset.exists_ne_map_eq_of_card_lt_of_maps_to
    (s := (Finset.univ : Finset (Fin r.indoms.length))) (t := Finset.range (2 ^ 22)) (f := f)
    (by rw [Finset.card_range, Finset.card_univ, Fintype.card_fin]; exact hl) (by
      intro i _
      simp only [Finset.coe_range, Set.mem_Iio]
      exact (hids _ (List.getElem_mem i.isLt)).2)
  refine ⟨_, List.getElem_mem i.isLt, _, List.getElem_mem j.isLt, ?_, BitVec.eq_of_toNat_eq he⟩
  intro hn
  apply hne
  have hnd := hb.inv.unique.1
  have h1 : (r.indoms.map (fun d => d.name))[i.1]'(by simp) = (r.indoms.map (fun d => d.name))[j.1]'(by simp) := by
    simpa using hn
  exact Fin.ext ((List.Nodup.getElem_inj_iff hnd).1 h1)

/-! ### C84: the file -/

/-- What a reader of the file gets of two instances of a domain whose ids are the same: two records that belong to the same
domain and have the same internal id, but different names. -/
theorem C84_file_instances {r e o s} (h : Started r e o s) {D} (hd : Dumps s.mem (.ok D)) {d i j} (hdm : d ∈ r.indoms)
    (hi : i ∈ d.insts) (hj : j ∈ d.insts) (hne : trimNul i.name ≠ trimNul j.name) (hid : i.id = j.id) :
    ∃ a b x y, a ≠ b ∧ look D.instances a = some x ∧ look D.instances b = some y ∧ x.indom = y.indom ∧
      x.internal = y.internal ∧ nameOf D x.external = some (trimNul i.name) ∧ nameOf D y.external = some (trimNul j.name) := by
  obtain ⟨D', hD, A, hA⟩ := (C03_dump_describes h).2 _ hd
  cases hD
  obtain ⟨x, hx, x1, x2, _, x4⟩ := hA.insts d hdm i hi
  obtain ⟨y, hy, y1, y2, _, y4⟩ := hA.insts d hdm j hj
  refine ⟨_, _, x, y, ?_, hx, hy, BitVec.eq_of_toNat_eq (x1.trans y1.symm), by rw [x2, y2, hid], x4, y4⟩
  intro hab
  rw [hab, hy] at hx
  cases hx
  rw [x4] at y4
  exact hne (Option.some.inj y4)

/-- The file of the domain "d": for one id of one domain there are two names. -/
theorem C84_refuted_file : ∃ r e o s, Started r e o s ∧ ∀ D, Dumps s.mem (.ok D) → ∃ a b x y,
    a ≠ b ∧ look D.instances a = some x ∧ look D.instances b = some y ∧ x.indom = y.indom ∧ x.internal = y.internal ∧
      nameOf D x.external = some b!"costarring" ∧ nameOf D y.external = some b!"liquid" := by
  obtain ⟨r, hb, hp, hs, d, hd, i, hi, j, hj, ni, nj, hij⟩ := C84_refuted_instances
  obtain ⟨s, h⟩ := started_exists hb hp hs (idOrd_ok r) ⟨2, 77, 12345, 42⟩
  refine ⟨r, _, _, s, h, fun D hD => ?_⟩
  have e1 : trimNul i.name = b!"costarring" := by rw [ni]; decide +kernel
  have e2 : trimNul j.name = b!"liquid" := by rw [nj]; decide +kernel
  have := C84_file_instances h hD hd hi hj (by rw [e1, e2]; decide) hij
  rw [e1, e2] at this
  exact this

/-- The serial number of a domain's record is its id; with two domains of the same id two records have the same. -/
theorem C84_file_indoms {r e o s} (h : Started r e o s) {D} (hd : Dumps s.mem (.ok D)) :
    (D.indoms.map (fun p => p.2.serial)).Perm (r.indoms.map (·.id)) := by
  obtain ⟨D', hD, A, hA⟩ := (C03_dump_describes h).2 _ hd
  cases hD
  have hk := hA.indomKeys
  have e1 : D.indoms.map (fun p => p.2.serial) = (D.indoms.map Prod.fst).map (fun a => ((look D.indoms a).map (·.serial)).getD 0) := by
    rw [List.map_map]
    apply List.map_congr_left
    intro p hp
    have : look D.indoms p.1 = some p.2 := look_of_mem hA.nodup.1 hp
    simp [this]
  have e2 : r.indoms.map (·.id) = (r.indoms.map (fun d => A.indom d.uid)).map (fun a => ((look D.indoms a).map (·.serial)).getD 0) := by
    rw [List.map_map]
    apply List.map_congr_left
    intro d hd
    obtain ⟨x, hx, hs, _⟩ := hA.indoms d hd
    simp [hx, hs]
  rw [e1, e2]
  exact hk.map _

/-! ### C84: the part that holds -/

/-- **C84**, exactly when ids clash. Missing: that different names never agree in these bits (`C84_refuted_instances`,
`C84_refuted_indoms`). -/
theorem C84_ids_partial {r : Reg} (hb : Built r) :
    (∀ d ∈ r.indoms, ∀ d' ∈ r.indoms, d.id = d'.id ↔ fnvSpec d.name % 2 ^ 22 = fnvSpec d'.name % 2 ^ 22) ∧
    ∀ d ∈ r.indoms, ∀ i ∈ d.insts, ∀ d' ∈ r.indoms, ∀ j ∈ d'.insts, i.id = j.id ↔ fnvSpec i.name = fnvSpec j.name := by
  obtain ⟨_, h2, h3⟩ := C17_ids hb
  refine ⟨fun d hd d' hd' => ?_, fun d hd i hi d' hd' j hj => ?_⟩
  · rw [← (h2 d hd).1, ← (h2 d' hd').1]
    exact ⟨fun h => by rw [h], fun h => BitVec.eq_of_toNat_eq h⟩
  · rw [← (h3 d hd i hi).1, ← (h3 d' hd' j hj).1]
    exact ⟨fun h => by rw [h], fun h => BitVec.eq_of_toNat_eq h⟩

/-- **C84**, the part that holds: instances, and domains, whose names differ in one byte only or in two neighbouring bytes only
have different ids ("cpu0" to "cpu99" padded to one length, "eth0", "sda"). Missing: all other pairs of names. -/
theorem C84_near_partial {r : Reg} (hb : Built r) :
    (∀ d ∈ r.indoms, ∀ d' ∈ r.indoms, ∀ (p s : Str) (u v : Byte), d.name = p ++ u :: s → d'.name = p ++ v :: s → u ≠ v → d.id ≠ d'.id) ∧
    (∀ d ∈ r.indoms, ∀ d' ∈ r.indoms, ∀ (p s : Str) (t u v w : Byte), d.name = p ++ t :: u :: s → d'.name = p ++ v :: w :: s →
      (t, u) ≠ (v, w) → d.id ≠ d'.id) ∧
    (∀ d ∈ r.indoms, ∀ i ∈ d.insts, ∀ j ∈ d.insts, ∀ (p s : Str) (u v : Byte), i.name = p ++ u :: s → j.name = p ++ v :: s → u ≠ v →
      i.id ≠ j.id) ∧
    ∀ d ∈ r.indoms, ∀ i ∈ d.insts, ∀ j ∈ d.insts, ∀ (p s : Str) (t u v w : Byte), i.name = p ++ t :: u :: s → j.name = p ++ v :: w :: s →
      (t, u) ≠ (v, w) → i.id ≠ j.id := by
  obtain ⟨h1, h2⟩ := C84_ids_partial hb
  have lt : ∀ n : Str, fnvSpec n % 2 ^ 32 = fnvSpec n := fun n => Nat.mod_eq_of_lt (fnvSpec_lt n)
  refine ⟨fun d hd d' hd' p s u v e e' huv h => ?_, fun d hd d' hd' p s t u v w e e' huv h => ?_,
    fun d hd i hi j hj p s u v e e' huv h => ?_, fun d hd i hi j hj p s t u v w e e' huv h => ?_⟩
  · have := (h1 d hd d' hd').1 h
    rw [e, e'] at this
    exact fnv_one (k := 22) (by decide) (by decide) p s huv this
  · have := (h1 d hd d' hd').1 h
    rw [e, e'] at this
    exact fnv_two (.inl rfl) p s (fun hh => huv (by rw [hh.1, hh.2])) this
  · have := (h2 d hd i hi d hd j hj).1 h
    rw [e, e', ← lt, ← lt (p ++ v :: s)] at this
    exact fnv_one (k := 32) (by decide) (by decide) p s huv this
  · have := (h2 d hd i hi d hd j hj).1 h
    rw [e, e', ← lt, ← lt (p ++ v :: w :: s)] at this
    exact fnv_two (.inr rfl) p s (fun hh => huv (by rw [hh.1, hh.2])) this

/-- "cpu07" and "cpu10" in two neighbouring bytes; names of different length have no such guarantee. -/
example : hash b!"cpu07" 0 ≠ hash b!"cpu10" 0 ∧ hash b!"cpu07" 22 ≠ hash b!"cpu10" 22 ∧
    hash b!"costarring" 0 = hash b!"liquid" 0 := by decide +kernel

/-! ### C84: clients -/

variable {cf : Conf} {tmp : Str} {parse : Str → Option (Str × Str × Option (List Str))}

/-- **C84 is false of clients**: "ng" and "aaa" write different files with the same cluster id. -/
theorem C84_refuted_clients (cf : Conf) (tmp : Str) (parse) (fs : FS) : ∃ w c c',
    CSteps cf tmp parse (Sys.init fs) [.new b!"ng", .new b!"aaa"] w ∧ w.clients = [c, c'] ∧ c.clusterID = c'.clusterID ∧
      mmvFileLocation cf tmp b!"ng" = some c.loc ∧ mmvFileLocation cf tmp b!"aaa" = some c'.loc := by
  have hn : ∀ n : Str, 0x2F ∉ n → ∃ d loc, newClient cf tmp n = some d ∧ mmvFileLocation cf tmp n = some loc ∧ d.loc = loc ∧
      d.clusterID = hash n PCPClusterIDBitLength := by
    intro n h
    unfold newClient mmvFileLocation; rw [if_neg h]; exact ⟨_, _, rfl, rfl, rfl, rfl⟩
  obtain ⟨c, l, h1, h2, rfl, h3⟩ := hn b!"ng" (by decide)
  obtain ⟨c', l', k1, k2, rfl, k3⟩ := hn b!"aaa" (by decide)
  refine ⟨_, c, c', .cons (.new_ok rfl h1) (.cons (.new_ok rfl k1) .nil), by simp [Sys.init], ?_, h2, k2⟩
  rw [h3, k3]
  decide +kernel

/-- **C84**, clients, the part that holds: those whose names differ in one byte only have different cluster ids. Missing: all other
pairs of names (`C84_refuted_clients`). -/
theorem C84_clients_partial {fs ops w} (h : CSteps cf tmp parse (Sys.init fs) ops w) {i j : Nat} {c c' : Client} {p s : Str} {u v : Byte}
    (hi : w.clients[i]? = some c) (hj : w.clients[j]? = some c')
    (ni : (clientNames ops)[i]? = some (p ++ u :: s)) (nj : (clientNames ops)[j]? = some (p ++ v :: s)) (huv : u ≠ v) :
    c.clusterID ≠ c'.clusterID := by
  have key : ∀ {k : Nat} {c : Client} {n : Str}, w.clients[k]? = some c → (clientNames ops)[k]? = some n →
      c.clusterID.toNat = fnvSpec n % 2 ^ 12 := by
    intro k c n hk hn
    have := congrArg (fun l => l[k]?) (C17_cluster h).1
    simp only [List.getElem?_map, hk, hn, Option.map_some] at this
    exact (Prod.mk.inj (Option.some.inj this)).2
  intro he
  have h1 := key hi ni
  have h2 := key hj nj
  rw [he, h2] at h1
  exact fnv_one (k := 12) (by decide) (by decide) p s huv h1.symm

/-- "web1" and "web2". -/
example : hash b!"web1" 12 ≠ hash b!"web2" 12 := by decide +kernel

end Speed
