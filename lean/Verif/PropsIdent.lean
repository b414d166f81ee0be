import Verif.PropsClient
import Verif.PropsConfig
import Verif.PropsValues
/-
More about clients: the cluster id and the flag of a client (C17, C54), and which configuration file decides where
its file is (C39).
-/
namespace Speed

variable {cf : Conf} {tmp : Str} {parse : Str → Option (Str × Str × Option (List Str))}

/-! ### C17, C54: the client -/

/-- The names for which the constructor succeeded, in order. -/
def clientNames (ops : List COp) : List Str :=
  ops.filterMap fun op => match op with
    | .new n => if 0x2F ∈ n then none else some n
    | _ => none

/-- One call and the clients: `new` adds one at the end, with the 12 bit hash of its name and the process flag; no call
changes location or cluster id of a client, and only a successful `SetFlag` on it changes its flag. -/
theorem C54_client {w op w' res} (h : CStep cf tmp parse w op w' res) :
    (∀ i c, w.clients[i]? = some c → ∃ c', w'.clients[i]? = some c' ∧ c'.loc = c.loc ∧ c'.clusterID = c.clusterID ∧
      ((∀ f, op = .setFlag i f → res = .ok () → c'.flag = f) ∧
       ((∀ f, op = .setFlag i f → res ≠ .ok ()) → c'.flag = c.flag))) ∧
    ((∀ n, op = .new n → res ≠ .ok ()) → w'.clients.length = w.clients.length) ∧
    ∀ n, op = .new n → (res = .ok () ↔ 0x2F ∉ n) ∧ (res = .ok () → ∃ c, w'.clients = w.clients ++ [c] ∧
      mmvFileLocation cf tmp n = some c.loc ∧ c.clusterID.toNat = fnvSpec n % 2 ^ 12 ∧ c.flag = 2) := by
  have same : ∀ {op : COp} {res : Ans Unit}, (∀ i f, op ≠ .setFlag i f) → ∀ (i : Nat) (c : Client), w.clients[i]? = some c →
      ∃ c', w.clients[i]? = some c' ∧ c'.loc = c.loc ∧ c'.clusterID = c.clusterID ∧
      ((∀ f, op = .setFlag i f → res = .ok () → c'.flag = f) ∧
       ((∀ f, op = .setFlag i f → res ≠ .ok ()) → c'.flag = c.flag)) :=
    fun hop i c hc => ⟨c, hc, rfl, rfl, fun f h => absurd h (hop i f), fun _ => rfl⟩
  have setw : ∀ {op : COp} {res : Ans Unit} {j : Nat} {d : Client} {x : Option Nat}, (∀ i f, op ≠ .setFlag i f) → w.clients[j]? = some d →
      ∀ (i : Nat) (c : Client), w.clients[i]? = some c →
      ∃ c', (w.clients.set j { d with writer := x })[i]? = some c' ∧ c'.loc = c.loc ∧ c'.clusterID = c.clusterID ∧
      ((∀ f, op = .setFlag i f → res = .ok () → c'.flag = f) ∧
       ((∀ f, op = .setFlag i f → res ≠ .ok ()) → c'.flag = c.flag)) := by
    intro op res j d x hop hd i c hc
    by_cases hij : j = i
    · subst hij
      rw [hd] at hc; obtain rfl := Option.some.inj hc
      exact ⟨_, List.getElem?_set_self (List.getElem?_eq_some_iff.1 hd).1, rfl, rfl, fun f h => absurd h (hop j f), fun _ => rfl⟩
    · rw [List.getElem?_set_ne hij]
      exact ⟨c, hc, rfl, rfl, fun f h => absurd h (hop i f), fun _ => rfl⟩
  cases h with
  | @new_err name _ hn =>
    refine ⟨same (by simp), fun _ => rfl, fun n hop => ?_⟩
    injection hop with hop; subst hop
    refine ⟨⟨by simp, fun hs => ?_⟩, by simp⟩
    unfold newClient mmvFileLocation at hn
    rw [if_neg hs] at hn; simp at hn
  | @new_ok name c _ hn =>
    refine ⟨fun i d hd => ⟨d, ?_, rfl, rfl, by simp, fun _ => rfl⟩, fun h => absurd rfl (h _ rfl), fun n hop => ?_⟩
    · have := (List.getElem?_eq_some_iff.1 hd).1
      rw [List.getElem?_append_left this, hd]
    · injection hop with hop; subst hop
      unfold newClient at hn
      obtain ⟨loc, hl, rfl⟩ := Option.map_eq_some_iff.1 hn
      refine ⟨⟨fun _ hs => ?_, fun _ => rfl⟩, fun _ => ⟨_, rfl, hl, ((C17_hash _ _).2 (by decide)).1, rfl⟩⟩
      rw [(C39_location_partial cf tmp name).1 hs] at hl; cases hl
  | @setFlag j c flag _ hc =>
    refine ⟨?_, ?_, by simp⟩
    · intro i d hd
      unfold Sys.setFlag
      split
      · exact ⟨d, hd, rfl, rfl, by simp, fun _ => rfl⟩
      · by_cases hij : j = i
        · subst hij
          rw [hc] at hd; obtain rfl := Option.some.inj hd
          refine ⟨_, List.getElem?_set_self (List.getElem?_eq_some_iff.1 hc).1, rfl, rfl, ?_, ?_⟩
          · intro f hf _; injection hf
          · intro h; exact absurd rfl (h _ rfl)
        · dsimp only
          rw [List.getElem?_set_ne hij]
          exact ⟨d, hd, rfl, rfl, fun f hf => by injection hf with h _; exact absurd h hij, fun _ => rfl⟩
    · intro _
      unfold Sys.setFlag
      split
      · rfl
      · simp
  | reg => exact ⟨same (by simp), fun _ => rfl, by simp⟩
  | call_free => exact ⟨same (by simp), fun _ => rfl, by simp⟩
  | call_live => exact ⟨same (by simp), fun _ => rfl, by simp⟩
  | call_dead => exact ⟨same (by simp), fun _ => rfl, by simp⟩
  | call_crash => exact ⟨same (by simp), fun _ => rfl, by simp⟩
  | start_err => exact ⟨same (by simp), fun _ => rfl, by simp⟩
  | start_ok _ hc => exact ⟨setw (by simp) hc, fun _ => by simp [Sys.started], by simp⟩
  | start_crash => exact ⟨same (by simp), fun _ => rfl, by simp⟩
  | @stop i c erase os _ hc =>
    refine ⟨?_, ?_, by simp⟩
    · unfold Sys.stop
      split
      · exact same (by simp)
      · dsimp only
        split
        · exact same (by simp)
        · exact setw (by simp) hc
    · intro _
      unfold Sys.stop
      split
      · rfl
      · dsimp only
        split
        · rfl
        · simp

/-- **C17**, clients: after any history the clients have, in order, the locations and the 12 bit hashes of their names. -/
theorem C17_cluster {fs ops w} (h : CSteps cf tmp parse (Sys.init fs) ops w) :
    w.clients.map (fun c => (some c.loc, c.clusterID.toNat)) =
      (clientNames ops).map (fun n => (mmvFileLocation cf tmp n, fnvSpec n % 2 ^ 12)) ∧
    ∀ c ∈ w.clients, c.clusterID.toNat < 2 ^ 12 := by
  have key : ∀ {v : Sys} {ops w}, CSteps cf tmp parse v ops w →
      w.clients.map (fun c => (some c.loc, c.clusterID.toNat)) = v.clients.map (fun c => (some c.loc, c.clusterID.toNat)) ++
        (clientNames ops).map (fun n => (mmvFileLocation cf tmp n, fnvSpec n % 2 ^ 12)) := by
    intro v ops w h
    induction h with
    | nil => simp [clientNames]
    | @cons v op v1 res ops w hs _ ih =>
      rw [ih]
      obtain ⟨h1, h2, h3⟩ := C54_client hs
      have hkeep : v1.clients.length = v.clients.length →
          v1.clients.map (fun c => (some c.loc, c.clusterID.toNat)) = v.clients.map (fun c => (some c.loc, c.clusterID.toNat)) := by
        intro hlen
        apply List.ext_getElem?
        intro i
        rw [List.getElem?_map, List.getElem?_map]
        cases hi : v.clients[i]? with
        | none =>
          rw [List.getElem?_eq_none_iff] at hi
          rw [List.getElem?_eq_none (by omega)]
        | some c =>
          obtain ⟨c', e1, e2, e3, _⟩ := h1 i c hi
          rw [e1]; simp [e2, e3]
      by_cases hn : ∃ n, op = .new n
      · obtain ⟨n, rfl⟩ := hn
        obtain ⟨k1, k2⟩ := h3 n rfl
        by_cases hr : res = .ok ()
        · obtain ⟨c, e1, e2, e3, _⟩ := k2 hr
          have hns := k1.1 hr
          have hcn : clientNames (.new n :: ops) = n :: clientNames ops := by
            unfold clientNames; rw [List.filterMap_cons]; dsimp only; rw [if_neg hns]
          rw [e1, hcn]
          simp [e2, e3]
        · have hs : 0x2F ∈ n := by by_contra hh; exact hr (k1.2 hh)
          have hcn : clientNames (.new n :: ops) = clientNames ops := by
            unfold clientNames; rw [List.filterMap_cons]; dsimp only; rw [if_pos hs]
          rw [hkeep (h2 (fun _ _ => hr)), hcn]
      · have hc : clientNames (op :: ops) = clientNames ops := by
          unfold clientNames
          rw [List.filterMap_cons]
          cases op with
          | new n => exact absurd ⟨n, rfl⟩ hn
          | _ => rfl
        rw [hc, hkeep (h2 (fun n hop => absurd ⟨n, hop⟩ hn))]
  have h0 := key h
  rw [show (Sys.init fs).clients = [] from rfl, List.map_nil, List.nil_append] at h0
  refine ⟨h0, fun c hc => ?_⟩
  have : (some c.loc, c.clusterID.toNat) ∈ w.clients.map (fun c => (some c.loc, c.clusterID.toNat)) := List.mem_map.2 ⟨c, hc, rfl⟩
  rw [h0] at this
  obtain ⟨n, _, hn⟩ := List.mem_map.1 this
  injection hn with _ hn
  rw [← hn]
  exact Nat.mod_lt _ (by decide)

/-- Two clients "a" and "b", with a rejected name between them. -/
example (cf : Conf) (tmp : Str) (fs : FS) : ∃ w,
    CSteps cf tmp parse (Sys.init fs) [.new sA, .new [0x2F], .setFlag 0 5, .new sB] w ∧
    w.clients.map (fun c => (c.clusterID, c.flag)) = [(0x92C, 5), (0xDE5, 2)] := by
  obtain ⟨c, hc, _⟩ := newClient_plain cf tmp
  have hb : ∃ d, newClient cf tmp sB = some d ∧ d.flag = 2 ∧ d.clusterID = 0xDE5 := by
    unfold newClient mmvFileLocation; rw [if_neg (by decide)]; exact ⟨_, rfl, rfl, by show hash sB PCPClusterIDBitLength = _; decide⟩
  obtain ⟨d, hd, hd1, hd2⟩ := hb
  have hc2 : c.clusterID = 0x92C := by
    unfold newClient mmvFileLocation at hc; rw [if_neg (by decide)] at hc
    obtain rfl := Option.some.inj hc; show hash sA PCPClusterIDBitLength = _; decide
  refine ⟨_, .cons (.new_ok rfl hc) (.cons (.new_err rfl ?_) (.cons (.setFlag (c := c) rfl rfl) (.cons (.new_ok rfl hd) .nil))), ?_⟩
  · unfold newClient mmvFileLocation; rw [if_pos (by decide)]; rfl
  · simp [Sys.setFlag, Sys.init, Reg.empty, hc2, hd1, hd2]

/-! ### C39: the configuration -/

/-- The configuration file: `$PCP_CONF`, or etc/pcp.conf in `$PCP_DIR`, or /etc/pcp.conf. -/
def confFile (env : Str → Option Str) : Str :=
  match env sPcpConf with
  | some c => c
  | none => joinPath [(env sPcpDir).getD [0x2F], sEtc, sPcpConfFile]

/-- **C39**, the directory: if the configuration file can be read and assigns `PCP_TMP_DIR`, it is mmv in that directory
below `$PCP_DIR` (or the root); otherwise it is mmv in the directory for temporary files. -/
theorem C39_config (env read : Str → Option Str) (tmp name : Str) (hn : Ordinary name) :
    (∀ file d, read (confFile env) = some file → (parseConfig file).get sPcpTmpDir = some d →
      mmvFileLocation (initConfig env read) tmp name =
        some (joinPath [joinPath [(env sPcpDir).getD [0x2F], d], sMmv] ++ 0x2F :: name)) ∧
    ((read (confFile env) = none ∨ ∃ file, read (confFile env) = some file ∧ (parseConfig file).get sPcpTmpDir = none) →
      mmvFileLocation (initConfig env read) tmp name = some (joinPath [tmp, sMmv] ++ 0x2F :: name)) := by
  have hloc := (C39_location_partial (initConfig env read) tmp name).2 hn
  have hconf : (env sPcpConf).getD (joinPath [(env sPcpDir).getD [0x2F], sEtc, sPcpConfFile]) = confFile env := by
    unfold confFile
    cases env sPcpConf <;> rfl
  unfold mmvDir baseDir at hloc
  have hcfg : (initConfig env read).config = (read (confFile env)).map parseConfig := by
    unfold initConfig; dsimp only; rw [hconf]
  rw [hcfg] at hloc
  constructor
  · intro file d hr hd
    rw [hloc, hr]
    dsimp only [Option.map_some, Option.getD_some]
    rw [hd]
    rfl
  · rintro (hr | ⟨file, hr, hd⟩)
    · rw [hloc, hr]; rfl
    · rw [hloc, hr]
      dsimp only [Option.map_some, Option.getD_some]
      rw [hd]

/-- `PCP_CONF=/p`, with "PCP_TMP_DIR=/q" in that file: the file of client "a" is /q/mmv/a. -/
example : mmvFileLocation (initConfig (fun k => if k = sPcpConf then some [0x2F, 0x70] else none)
    (fun f => if f = [0x2F, 0x70] then some (sPcpTmpDir ++ [0x3D, 0x2F, 0x71]) else none)) [0x2F] sA =
    some ([0x2F, 0x71, 0x2F] ++ sMmv ++ [0x2F, 0x61]) := by decide +kernel

end Speed
