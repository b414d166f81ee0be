import Verif.Tool
import Verif.PropsWhole
import Verif.PropsMachine
/-
The command line tool: C75, C76, C77.
-/
namespace Speed
open Dump

variable {cf : Nat → Conf} {tmp : Nat → Str} {parse : Str → Option (Str × Str × Option (List Str))}

/-! ### C75 -/

/-- `Write` adds its text to what is in the output already. -/
theorem pWrite_append (P : FloatFmt) (D : Result) (a : List Byte) : (pWrite P D ⟨a, []⟩).1.out = a ++ (pWrite P D ⟨[], []⟩).1.out ∧
    (pWrite P D ⟨a, []⟩).2 = (pWrite P D ⟨[], []⟩).2 := by
  obtain ⟨cs, e, _, h⟩ := C57_writer P D
  have key : ∀ a, (pWrite P D ⟨a, []⟩).1.out = a ++ cs.flatten ∧ (pWrite P D ⟨a, []⟩).2 = e := by
    intro a
    rcases h ⟨a, []⟩ with ⟨_, h1, h2⟩ | ⟨i, n, c, _, h1, _⟩
    · exact ⟨h1, h2⟩
    · simp at h1
  obtain ⟨h1, h2⟩ := key a
  obtain ⟨h3, h4⟩ := key []
  rw [h1, h2, h3, h4]
  exact ⟨rfl, rfl⟩

/-- C75: any number of programs with one client each, whose paths are different, make calls in any order (under the
conditions of C70). If `mmvdump` is then called with the path of an active client and its output does not fail, it ends normally
under every schedule of its goroutines, and has printed exactly: the path, the header, and the sections with one item for each
registered object, which show what the registry holds at this moment. -/
theorem C75_tool {M : Machine} (h : MHist cf tmp parse Machine.Apart M) {k : Nat} {p : Sys} (hk : M.progs[k]? = some p)
    (hm : p.reg.mapped = true) (P : FloatFmt) :
    ∃ c gen pid, p.clients = [c] ∧ ∀ args l, parseFlags args = some (c.loc :: l) →
      (∃ x, Tool P M.fs.open args ⟨[], []⟩ x) ∧
      ∀ x, Tool P M.fs.open args ⟨[], []⟩ x → ∃ A T, ItemsAre p.reg A ∧ ItemsText P p.reg A T ∧
        x.2 = .ok ∧ x.1.out = b!"File      = " ++ c.loc ++ b!"\n" ++ headText p.reg ⟨c.flag, c.clusterID, gen, pid⟩ ++
          (regSecs p.reg).zipIdx.flatMap (fun q => secText T q.1 q.2) := by
  have hi := h.inv
  obtain ⟨c, n, a⟩ := (hi.inv k p hk).act hm
  have hb := (hi.inv k p hk).built.built.inv
  obtain ⟨gen, pid, o, b, live, h1, h2, h3, _⟩ := a.live
  obtain ⟨σ, hl, hi'⟩ := h1.liveAt
  have hpath := hi.path k p c n hk hm a.client a.writer
  have hop : M.fs.open c.loc = some (M.fs.data n) := by unfold FS.open; rw [hpath]; rfl
  have h3 : live.mem = M.fs.data n := h3
  have h2 : live.reg = { p.reg with mapped := b } := h2
  have hdump : ∀ out, Dumps (M.fs.data n) out → ∃ D A T, out = .ok D ∧ ItemsAre p.reg A ∧ ItemsText P p.reg A T ∧
      pWrite P D ⟨[], []⟩ = (⟨headText p.reg ⟨c.flag, c.clusterID, gen, pid⟩ ++
        (regSecs p.reg).zipIdx.flatMap (fun q => secText T q.1 q.2), []⟩, .ok) := by
    intro out hd
    rw [← h3] at hd
    have hF : FileOK live.reg ⟨c.flag, c.clusterID, gen, pid⟩ (natOrd o live.reg) σ live.mem := hl.file.ord rfl
    have hs : SealOK (params live.reg ⟨c.flag, c.clusterID, gen, pid⟩ (natOrd o live.reg)) σ := hl.sealed
    obtain ⟨D, g1, g2⟩ := dump_raw hl.ok hl.small hF hd
    have g3 := describesAt hl.ok hl.small (natOrd_ok hi') hl.typed hs hF g2
    have hinv : RegInv live.reg := by rw [h2]; exact hb.mapped b
    obtain ⟨T, e1, e2, e3⟩ := text_exact hl.ok hl.small hl.typed hinv g2 g3 P
    rw [h2] at e1 e2 e3
    exact ⟨D, _, T, g1, ⟨e1.indoms, e1.insts, e1.metrics, e1.values⟩, ⟨e2.indoms, e2.insts, e2.metrics, e2.values, e2.strings⟩, e3⟩
  refine ⟨c, gen, pid, a.client, fun args l ha => ⟨?_, fun x hx => ?_⟩⟩
  · obtain ⟨out, hd⟩ := dumps_exists (M.fs.data n)
    obtain ⟨D, _, _, rfl, _⟩ := hdump out hd
    exact ⟨_, .shown ha hop hd⟩
  · cases hx with
    | flags h => rw [ha] at h; cases h
    | usage h => rw [ha] at h; cases h
    | noFile h h' => rw [ha] at h; cases h; rw [hop] at h'; cases h'
    | err h h' hd => rw [ha] at h; cases h; rw [hop] at h'; cases h'; obtain ⟨D, _, _, he, _⟩ := hdump _ hd; cases he
    | crash h h' hd => rw [ha] at h; cases h; rw [hop] at h'; cases h'; obtain ⟨D, _, _, he, _⟩ := hdump _ hd; cases he
    | hang h h' hd => rw [ha] at h; cases h; rw [hop] at h'; cases h'; obtain ⟨D, _, _, he, _⟩ := hdump _ hd; cases he
    | shown h h' hd =>
      rename_i f l' d D
      rw [ha] at h
      cases h
      rw [hop] at h'
      cases h'
      obtain ⟨D', A, T, he, e1, e2, e3⟩ := hdump _ hd
      cases he
      obtain ⟨f1, f2⟩ := pWrite_append P D (b!"File      = " ++ c.loc ++ b!"\n")
      rw [e3] at f1 f2
      refine ⟨A, T, e1, e2, ?_⟩
      have hk1 : (fprintf (b!"File      = " ++ c.loc ++ b!"\n") ⟨[], []⟩).1 = ⟨b!"File      = " ++ c.loc ++ b!"\n", []⟩ := rfl
      unfold toolShow
      dsimp only
      rw [hk1]
      cases hw : pWrite P D ⟨b!"File      = " ++ c.loc ++ b!"\n", []⟩ with
      | mk k2 e =>
        rw [hw] at f1 f2
        cases f2
        exact ⟨rfl, by rw [f1]; simp only [List.append_assoc]⟩

/-- Two programs with clients "a" and "b" and the same configuration: `mmvdump -- PATH` prints the registry of the first. -/
example (cf : Conf) (tmp : Str) (P : FloatFmt) : ∃ M p q ca x A T gen pid, MHist (fun _ => cf) (fun _ => tmp) (fun _ => none) Machine.Apart M ∧
    M.progs = [p, q] ∧ newClient cf tmp sA = some ca ∧ p.reg.metrics ≠ [] ∧ Tool P M.fs.open [b!"--", ca.loc] ⟨[], []⟩ x ∧ ItemsText P p.reg A T ∧
    x.1.out = b!"File      = " ++ ca.loc ++ b!"\n" ++ headText p.reg ⟨ca.flag, ca.clusterID, gen, pid⟩ ++
          (regSecs p.reg).zipIdx.flatMap (fun q => secText T q.1 q.2) := by
  have oa : Ordinary sA := by unfold Ordinary; decide
  have ob : Ordinary sB := by unfold Ordinary; decide
  obtain ⟨ca, ha⟩ : ∃ ca, newClient cf tmp sA = some ca := by
    unfold newClient; rw [(C39_location_partial cf tmp sA).2 oa]; exact ⟨_, rfl⟩
  obtain ⟨cb, hb⟩ : ∃ cb, newClient cf tmp sB = some cb := by
    unfold newClient; rw [(C39_location_partial cf tmp sB).2 ob]; exact ⟨_, rfl⟩
  have hne := C70_names oa ob (by decide) ha hb
  obtain ⟨_, M, p, _, q, _, h, _, e1, e2, _, _, _, hp, e3, e4, _⟩ := two_programs (cf := fun _ => cf) (tmp := fun _ => tmp)
    (C := Machine.Apart) sampleROps_ok (R := baseReg) rfl baseReg_pub baseReg_small ha hb (by
      intro fs p q h1 h2 j k p' q' c d hj hk hc hd hl
      match j, k with
      | 0, 0 => rfl
      | 1, 1 => rfl
      | 0, 1 => cases hj; cases hk; exact absurd ((h1 c hc).symm.trans (hl.trans (h2 d hd))) hne
      | 1, 0 => cases hj; cases hk; exact absurd ((h1 d hd).symm.trans (hl.symm.trans (h2 c hc))) hne
      | j + 2, _ => simp at hj
      | _, k + 2 => simp at hk)
  obtain ⟨c, gen, pid, k1, k2⟩ := C75_tool h (k := 0) (p := p) (by rw [hp]; rfl) (by rw [e1]) P
  rw [e2] at k1
  have k1 := (List.cons.inj k1).1
  subst k1
  obtain ⟨⟨x, k3⟩, k4⟩ := k2 [b!"--", ca.loc] [] rfl
  obtain ⟨A, T, _, g2, _, g4⟩ := k4 x k3
  exact ⟨M, p, q, ca, x, A, T, gen, pid, h, hp, ha, by rw [e1]; decide, k3, g2, g4⟩

/-! ### C76: which file is read -/

/-- C76, the part that holds: an argument that does not begin with `-` (or is `-` itself) is the name of the file that is read: the
outcomes do not depend on any other file, and are those of `Dump` on its bytes.
Missing: other names that begin with `-` (`C76_refuted`). -/
theorem C76_file_partial (P : FloatFmt) (rd : Str → Option Buf) (f : Str) (l : List Str) (k : Sink) (hf : f.head? ≠ some 0x2D ∨ f = [0x2D])
    (x : Sink × TEnd) : Tool P rd (f :: l) k x ↔
      (rd f = none ∧ x = (k, .panic)) ∨ ∃ d out, rd f = some d ∧ Dumps d out ∧
        ((out = .err ∧ x = (k, .panic)) ∨ (out = .panic ∧ x = (k, .panic)) ∨ (out = .hang ∧ x = (k, .hang)) ∨
          ∃ D, out = .ok D ∧ x = toolShow P f D k) := by
  have ha : parseFlags (f :: l) = some (f :: l) := by
    rw [parseFlags, if_pos]
    rcases hf with h | h
    · exact .inr h
    · left; rw [h]; decide
  constructor
  · intro h
    cases h with
    | flags h => rw [ha] at h; cases h
    | usage h => rw [ha] at h; cases h
    | noFile h h' => rw [ha] at h; cases h; exact .inl ⟨h', rfl⟩
    | err h h' hd => rw [ha] at h; cases h; exact .inr ⟨_, _, h', hd, .inl ⟨rfl, rfl⟩⟩
    | crash h h' hd => rw [ha] at h; cases h; exact .inr ⟨_, _, h', hd, .inr (.inl ⟨rfl, rfl⟩)⟩
    | hang h h' hd => rw [ha] at h; cases h; exact .inr ⟨_, _, h', hd, .inr (.inr (.inl ⟨rfl, rfl⟩))⟩
    | shown h h' hd => rw [ha] at h; cases h; exact .inr ⟨_, _, h', hd, .inr (.inr (.inr ⟨_, rfl, rfl⟩))⟩
  · rintro (⟨h, rfl⟩ | ⟨d, out, h, hd, ⟨rfl, rfl⟩ | ⟨rfl, rfl⟩ | ⟨rfl, rfl⟩ | ⟨D, rfl, rfl⟩⟩)
    · exact .noFile ha h
    · exact .err ha h hd
    · exact .crash ha h hd
    · exact .hang ha h hd
    · exact .shown ha h hd

/-- The name of a file that begins with `-` is taken as a flag: whatever the file contains, nothing is printed; with `--`
the next argument is read instead. -/
theorem C76_refuted (P : FloatFmt) (rd : Str → Option Buf) (f : Str) (l : List Str) (k : Sink) (hf : f.head? = some 0x2D) (hl : 2 ≤ f.length)
    (x : Sink × TEnd) : Tool P rd (f :: l) k x → (f ≠ b!"--" → x = (k, .exit)) ∧
      (f = b!"--" → ∀ rd' : Str → Option Buf, (∀ g ∈ l.head?, rd' g = rd g) → Tool P rd' (f :: l) k x) := by
  have ha : parseFlags (f :: l) = if f = b!"--" then some l else none := by
    rw [parseFlags, if_neg (by rintro (h | h); omega; exact h hf)]
    rfl
  intro h
  refine ⟨fun hd => ?_, fun hd rd' hr => ?_⟩
  · rw [if_neg hd] at ha
    cases h with
    | flags h => rfl
    | _ h => rw [ha] at h; cases h
  · rw [if_pos hd] at ha
    cases h with
    | flags h => rw [ha] at h; cases h
    | usage h => exact .usage h
    | noFile h h' => exact .noFile h (by rw [ha] at h; cases h; rw [hr _ rfl]; exact h')
    | err h h' hd => exact .err h (by rw [ha] at h; cases h; rw [hr _ rfl]; exact h') hd
    | crash h h' hd => exact .crash h (by rw [ha] at h; cases h; rw [hr _ rfl]; exact h') hd
    | hang h h' hd => exact .hang h (by rw [ha] at h; cases h; rw [hr _ rfl]; exact h') hd
    | shown h h' hd => exact .shown h (by rw [ha] at h; cases h; rw [hr _ rfl]; exact h') hd

/-- A file named `-a`. -/
example (P : FloatFmt) (rd : Str → Option Buf) (x) (h : Tool P rd [b!"-a"] ⟨[], []⟩ x) : x = (⟨[], []⟩, .exit) :=
  (C76_refuted P rd _ [] _ rfl (by decide) x h).1 (by decide)

/-! ### C77: failing output -/

/-- C77, the part that holds: if the tool ends normally after reading a file, all of the text after the first line has been written, and
the first line too unless the first write failed. Missing: that case (`C77_refuted`). -/
theorem C77_written_partial (P : FloatFmt) (f : Str) (D : Result) (k : Sink) (h : (toolShow P f D k).2 = .ok) :
    (pWrite P D ⟨[], []⟩).2 = .ok ∧ ∃ n, (toolShow P f D k).1.out = k.out ++ (b!"File      = " ++ f ++ b!"
").take n ++ (pWrite P D ⟨[], []⟩).1.out ∧
      ((∀ m, k.script.head? ≠ some (some m)) → (b!"File      = " ++ f ++ b!"
").length ≤ n) := by
  obtain ⟨cs, e, he, hc⟩ := C57_writer P D
  have h0 : (pWrite P D ⟨[], []⟩).1.out = cs.flatten ∧ (pWrite P D ⟨[], []⟩).2 = e := by
    rcases hc ⟨[], []⟩ with ⟨_, h1, h2⟩ | ⟨i, n, c, _, h1, _⟩
    · exact ⟨h1, h2⟩
    · simp at h1
  obtain ⟨n, hn, hn'⟩ : ∃ n, (fprintf (b!"File      = " ++ f ++ b!"
") k).1.out = k.out ++ (b!"File      = " ++ f ++ b!"
").take n ∧
      ((∀ m, k.script.head? ≠ some (some m)) → (b!"File      = " ++ f ++ b!"
").length ≤ n) := by
    unfold fprintf
    split
    · exact ⟨_, by rw [List.take_length], fun _ => le_refl _⟩
    · exact ⟨_, by rw [List.take_length], fun _ => le_refl _⟩
    · rename_i m l hs
      exact ⟨m, rfl, fun h => absurd (by rw [hs]; rfl) (h m)⟩
  unfold toolShow at h ⊢
  dsimp only at h ⊢
  rcases hc (fprintf (b!"File      = " ++ f ++ b!"
") k).1 with ⟨_, h1, h2⟩ | ⟨i, m, c, _, _, _, _, h1⟩
  · cases hw : pWrite P D (fprintf (b!"File      = " ++ f ++ b!"
") k).1 with
    | mk k2 e2 =>
      rw [hw] at h h1 h2
      cases e2 with
      | ok =>
        refine ⟨by rw [h0.2, ← h2], n, ?_, hn'⟩
        dsimp only at h1 ⊢
        rw [h1, hn, h0.1]
      | _ => cases h
  · cases hw : pWrite P D (fprintf (b!"File      = " ++ f ++ b!"
") k).1 with
    | mk k2 e2 =>
      rw [hw] at h h1
      subst h1
      cases h

/-- C77 for runs of the tool: if it ends normally after the arguments named a file, that file was read, `Dump` accepted it, and the text
of its result has been written, after the first line or a part of it. -/
theorem C77_tool_partial {P : FloatFmt} {rd : Str → Option Buf} {args : List Str} {k k' : Sink} (h : Tool P rd args k (k', .ok))
    {f : Str} {l : List Str} (ha : parseFlags args = some (f :: l)) : ∃ d D, rd f = some d ∧ Dumps d (.ok D) ∧
    (pWrite P D ⟨[], []⟩).2 = .ok ∧ ∃ n, k'.out = k.out ++ (b!"File      = " ++ f ++ b!"
").take n ++ (pWrite P D ⟨[], []⟩).1.out ∧
      ((∀ m, k.script.head? ≠ some (some m)) → (b!"File      = " ++ f ++ b!"
").length ≤ n) := by
  generalize hx : (k', TEnd.ok) = x at h
  cases h with
  | flags _ => cases hx
  | usage h1 => rw [ha] at h1; cases h1
  | noFile _ _ => cases hx
  | err _ _ _ => cases hx
  | crash _ _ _ => cases hx
  | hang _ _ _ => cases hx
  | shown h1 h2 h3 =>
    rw [ha] at h1
    cases h1
    obtain ⟨a, b⟩ := C77_written_partial P f _ k (by rw [← hx])
    rw [← hx] at b
    exact ⟨_, _, h2, h3, a, b⟩

/-- The error of the first write is ignored: with every result that can be printed there is an output on which the tool ends
normally although the line with the name of the file is missing. -/
theorem C77_refuted (P : FloatFmt) (f : Str) (D : Result) (hD : (pWrite P D ⟨[], []⟩).2 = .ok) :
    toolShow P f D ⟨[], [some 0]⟩ = (⟨(pWrite P D ⟨[], []⟩).1.out, (pWrite P D ⟨[], []⟩).1.script⟩, .ok) := by
  unfold toolShow
  dsimp only
  have : (fprintf (b!"File      = " ++ f ++ b!"
") ⟨[], [some 0]⟩).1 = ⟨[], []⟩ := by
    unfold fprintf; simp
  rw [this]
  cases hw : pWrite P D ⟨[], []⟩ with
  | mk k2 e =>
    rw [hw] at hD
    cases hD
    rfl

/-- The same for runs of the tool on any file that can be shown. -/
theorem C77_refuted_tool (P : FloatFmt) (rd : Str → Option Buf) {f : Str} (hf : f.head? ≠ some 0x2D) {d : Buf} (hr : rd f = some d)
    {D : Result} (hd : Dumps d (.ok D)) (hD : (pWrite P D ⟨[], []⟩).2 = .ok) :
    ∃ k k', Tool P rd [f] k (k', .ok) ∧ k.out = [] ∧ k'.out = (pWrite P D ⟨[], []⟩).1.out := by
  have h := C77_refuted P f D hD
  have hp : parseFlags [f] = some [f] := by rw [parseFlags, if_pos (.inr hf)]
  refine ⟨⟨[], [some 0]⟩, _, ?_, rfl, rfl⟩
  have ht := Tool.shown (P := P) (k := ⟨[], [some 0]⟩) hp hr hd
  rw [h] at ht
  exact ht

/-- The result with one string. -/
example : (toolShow noFloats b!"x" oneString ⟨[], [some 0]⟩).2 = .ok ∧
    (toolShow noFloats b!"x" oneString ⟨[], []⟩).1.out = b!"File      = x\n" ++ (toolShow noFloats b!"x" oneString ⟨[], [some 0]⟩).1.out := by
  decide +kernel

end Speed
