import Verif.ExampleLemmas
/-
The example programs (C80).
-/
namespace Speed.Examples
open Dump

section
variable {cf : Conf} {tmp : Str} {parse : Str → Option (Str × Str × Option (List Str))}

/-- Path of the file of a client. -/
def path (cf : Conf) (tmp : Str) (name : Str) : Str := mmvDir cf tmp ++ 0x2F :: name

/-- Every run of the program, in a file system in any state, comes to its end, and `P` then holds of the files, both before
and after the final `Stop`. -/
def Works (cf : Conf) (tmp : Str) (parse : Str → Option (Str × Str × Option (List Str))) (p : Prog → Prog) (P : FS → Prop) : Prop :=
  ∀ fs : FS, fs.OK → Runs cf tmp parse (p .done) (Sys.init fs) (fun w b => b = true ∧ P w.fs) ∧
    Runs cf tmp parse (p (stop .done)) (Sys.init fs) (fun w b => b = true ∧ P w.fs)

/-- A program works if it is verified for every continuation. -/
theorem works {p : Prog → Prog} {P : FS → Prop} {loc : Str}
    (hP : ∀ fs fs' : FS, fs'.names = fs.names → fs'.data = fs.data → P fs → P fs')
    (h : ∀ fs : FS, fs.OK → ∀ k Q, (∀ w, At cf tmp parse true loc w → P w.fs → Runs cf tmp parse k w Q) → Runs cf tmp parse (p k) (Sys.init fs) Q) :
    Works cf tmp parse p P := fun fs hfs =>
  ⟨h fs hfs _ _ fun _ ha hp => (Runs.finish ha hp hP).1, h fs hfs _ _ fun _ ha hp => (Runs.finish ha hp hP).2⟩

theorem counter_works {client name desc : Str} {m : Metric} {r : Reg} (hc : Ordinary client) (hm : newPCPCounter 1 0 name [desc] = some m)
    (hr : regAll parse Reg.empty [.addMetric m] = some r) (hp : r.Publishable) (hs : r.Small)
    (hv : Holds r name Int64Type none (.int64 0)) (gen pid : BitVec 64) (n : Nat) :
    Works cf tmp parse (fun k => orFatal (newPCPCounter 1 0 name [desc]) fun m => newC client <| register m <| start gen pid <|
        loop (fun _ k => call name .counterUp k) 0 n k)
      (fun fs => FileShows fs (path cf tmp client) name Int64Type none (.int64 (BitVec.ofNat 64 n))) := by
  refine works (loc := path cf tmp client) (fun fs fs' h1 h2 => FileShows.congr h1 h2) fun fs hfs k Q hk => .orFatal hm ?_
  refine Runs.setup (ops := [.addMetric m]) hfs hc ?_ hr hp hs fun w h hw => ?_
  · intro op ho
    rw [List.mem_singleton] at ho; subst ho
    exact ⟨by simp, MadeMetric.counter hm⟩
  refine Runs.loop (fun i w => At cf tmp parse true (path cf tmp client) w ∧ Holds w.reg name Int64Type none (.int64 (BitVec.ofNat 64 i)))
    (fun i w k hi hk => ?_) n 0 w ⟨h, ?_⟩ fun w' hw => hk w' hw.1 ?_
  · refine .up hi.1 hi.2 fun w' h' hu => hk w' ⟨h', ?_⟩
    rw [BitVec.ofNat_add]; exact hu.1
  · rw [hw]; exact hv.mapped true
  · rw [Nat.zero_add] at hw; exact hw.1.shows hw.2

/-- The registry of a program, if registering never fails and nothing is registered by string. -/
def regOf (ops : List ROp) : Reg := (regAll (fun _ => none) Reg.empty ops).getD Reg.empty

def counterM : Metric := (newPCPCounter 1 0 b!"counter" [b!"A Simple Metric"]).get (by decide)
def requestsM : Metric := (newPCPCounter 1 0 b!"http.requests" [b!"Number of Requests"]).get (by decide)

/-- C80: `singleton_counter` counts. -/
theorem C80_singleton_counter (gen pid : BitVec 64) (n : Nat) :
    Works cf tmp parse (singletonCounter gen pid n)
      (fun fs => FileShows fs (path cf tmp b!"singletoncounter") b!"counter" Int64Type none (.int64 (BitVec.ofNat 64 n))) :=
  counter_works (parse := parse) (client := b!"singletoncounter") (name := b!"counter") (m := counterM) (r := regOf [.addMetric counterM]) (by decide) rfl rfl (publishable_of (by decide))
    (by constructor <;> decide) (by decide) gen pid n

/-- C80: `http_counter` counts the requests. -/
theorem C80_http_counter (gen pid : BitVec 64) (n : Nat) :
    Works cf tmp parse (httpCounter gen pid n)
      (fun fs => FileShows fs (path cf tmp b!"example") b!"http.requests" Int64Type none (.int64 (BitVec.ofNat 64 n))) :=
  counter_works (parse := parse) (client := b!"example") (name := b!"http.requests") (m := requestsM) (r := regOf [.addMetric requestsM]) (by decide) rfl rfl (publishable_of (by decide))
    (by constructor <;> decide) (by decide) gen pid n

def simpleM : Metric := (newPCPSingletonMetric 1 (.int 42) b!"simple.counter" Int32Type CounterSemantics OneUnit
    [b!"A Simple Metric", b!"This is a simple counter metric to demonstrate the speed API"]).get (by decide)

/-- C80: `simple` shows 42. -/
theorem C80_simple (gen pid : BitVec 64) :
    Works cf tmp parse (simple gen pid)
      (fun fs => FileShows fs (path cf tmp b!"simple") b!"simple.counter" Int32Type none (.int32 42)) := by
  refine works (loc := path cf tmp b!"simple") (fun fs fs' h1 h2 => FileShows.congr h1 h2) fun fs hfs k Q hk =>
    .orFatal (a := simpleM) rfl ?_
  refine Runs.setup (ops := [.addMetric simpleM]) (r := regOf [.addMetric simpleM]) hfs (by decide) ?_ rfl (publishable_of (by decide))
    (by constructor <;> decide) fun w h hw => hk w h (h.shows ?_)
  · intro op ho
    rw [List.mem_singleton] at ho; subst ho
    exact ⟨by simp, MadeMetric.singleton (Option.some_get (by decide)).symm⟩
  · rw [hw]; decide

/-- Storing a value that is not a float. -/
theorem store_exact {a b : GoVal} (h32 : ∀ x, a ≠ .float32 x) (h64 : ∀ x, a ≠ .float64 x) : (if goEq a b then b else a) = a := by
  split
  · rename_i h
    unfold goEq at h
    split at h
    · exact absurd rfl (h32 _)
    · exact absurd rfl (h64 _)
    · exact (by simpa using h : a = b).symm
  · rfl

/-! ### Programs that register by string -/

theorem isId_ascii (W : WordClass) {s : Str} (h0 : s ≠ []) (h : ∀ t ∈ Re.decode s, t.1 < 0x80 ∧ asciiWord t.1 = true) : IsId W s :=
  ⟨h0, fun t ht => by rw [W.ascii _ (h t ht).1]; exact (h t ht).2⟩

theorem parse_bat (W : WordClass) : parseString W b!"bat.names" = some (b!"bat.names", [], none) :=
  (C30_grammar W _ _).2 ⟨⟨b!"bat", [b!"names"], none, []⟩,
    ⟨isId_ascii W (by decide) (by decide), fun i hi => by rw [List.mem_singleton.1 hi]; exact isId_ascii W (by decide) (by decide),
      fun _ h => (by cases h), fun _ _ h => (by cases h)⟩, by decide, by decide⟩

/-- The registry of a program with one registration by string. -/
def strReg (res : Str × Str × Option (List Str)) (val : ByStrVal) (t : MetricType) (s u : BitVec 32) : Reg :=
  (regAll (fun _ => some res) Reg.empty [.byString 1 2 [] val t s u]).getD Reg.empty

theorem regAll_str {str : Str} {res : Str × Str × Option (List Str)} (hp : parse str = some res) (val : ByStrVal) (t : MetricType) (s u : BitVec 32)
    (h : (regAll (fun _ => some res) Reg.empty [.byString 1 2 [] val t s u]).isSome = true) :
    regAll parse Reg.empty [.byString 1 2 str val t s u] = some (strReg res val t s u) := by
  obtain ⟨r, hr⟩ := Option.isSome_iff_exists.1 h
  have he : regAll parse Reg.empty [.byString 1 2 str val t s u] = regAll (fun _ => some res) Reg.empty [.byString 1 2 [] val t s u] := by
    simp only [regAll, ROp.apply, Reg.addMetricByString, hp]
    rfl
  rw [he]
  unfold strReg
  rw [hr]; rfl

/-- C80: `simple_string_metric` shows the names in turn. -/
theorem C80_simple_string (W : WordClass) (gen pid : BitVec 64) (n : Nat) :
    Works cf tmp (parseString W) (simpleString gen pid n)
      (fun fs => FileShows fs (path cf tmp b!"stringtest") b!"bat.names" StringType none
        (.str (batNames.getD ((n - 1) % 6) []))) := by
  refine works (loc := path cf tmp b!"stringtest") (fun fs fs' h1 h2 => FileShows.congr h1 h2) fun fs hfs k Q hk => ?_
  refine Runs.setup (ops := [.byString 1 2 b!"bat.names" _ _ _ _])
    (r := strReg (b!"bat.names", [], none) (.plain (.str (batNames.getD 0 []))) StringType InstantSemantics OneUnit) hfs (by decide) ?_
    (regAll_str (parse_bat W) _ _ _ _ (by decide)) (publishable_of (by decide)) (by constructor <;> decide) fun w h hw => ?_
  · intro op ho
    rw [List.mem_singleton] at ho; subst ho
    exact ⟨by simp, trivial⟩
  refine Runs.loop (fun i w => At cf tmp (parseString W) true (path cf tmp b!"stringtest") w ∧
      Holds w.reg b!"bat.names" StringType none (.str (batNames.getD ((i - 1) % 6) [])))
    (fun i w k hi hk => ?_) n 0 w ⟨h, ?_⟩ fun w' hw => hk w' hw.1 ?_
  · refine .set hi.1 hi.2 rfl ?_ fun w' h' hu => hk w' ⟨h', ?_⟩
    · have : ∀ j, j < 6 → (batNames.getD j []).length ≤ 256 := by decide
      exact this _ (Nat.mod_lt _ (by decide))
    · have hu1 := hu.1
      rw [store_exact (fun _ h => by cases h) (fun _ h => by cases h)] at hu1
      exact hu1
  · rw [hw]; decide
  · rw [Nat.zero_add] at hw; exact hw.1.shows hw.2

theorem parse_long (W : WordClass) : parseString W longName = some (longName, [], none) := by
  refine (C30_grammar W _ _).2 ⟨⟨b!"this", [b!"is", b!"a", b!"simple", b!"counter", b!"metric", b!"to", b!"demonstrate", b!"the",
    b!"RegisterString", b!"function"], none, []⟩,
    ⟨isId_ascii W (by decide) (by decide), fun i hi => ?_, fun _ h => (by cases h), fun _ _ h => (by cases h)⟩, by decide, by decide⟩
  have : ∀ i ∈ [b!"is", b!"a", b!"simple", b!"counter", b!"metric", b!"to", b!"demonstrate", b!"the", b!"RegisterString", b!"function"],
      i ≠ [] ∧ ∀ t ∈ Re.decode i, t.1 < 0x80 ∧ asciiWord t.1 = true := by decide
  exact isId_ascii W (this i hi).1 (this i hi).2

/-- C80: `singleton_string` counts from 10. -/
theorem C80_singleton_string (W : WordClass) (gen pid : BitVec 64) (n : Nat) :
    Works cf tmp (parseString W) (singletonString gen pid n)
      (fun fs => FileShows fs (path cf tmp b!"strings") longName Int32Type none (.int32 (10 + BitVec.ofNat 32 n))) := by
  refine works (loc := path cf tmp b!"strings") (fun fs fs' h1 h2 => FileShows.congr h1 h2) fun fs hfs k Q hk => ?_
  refine Runs.setup (ops := [.byString 1 2 longName _ _ _ _])
    (r := strReg (longName, [], none) (.plain (.int 10)) Int32Type CounterSemantics OneUnit) hfs (by decide) ?_
    (regAll_str (parse_long W) _ _ _ _ (by decide)) (publishable_of (by decide)) (by constructor <;> decide) fun w h hw => ?_
  · intro op ho
    rw [List.mem_singleton] at ho; subst ho
    exact ⟨by simp, trivial⟩
  refine Runs.loop (fun i w => At cf tmp (parseString W) true (path cf tmp b!"strings") w ∧
      Holds w.reg longName Int32Type none (.int32 (10 + BitVec.ofNat 32 i)))
    (fun i w k hi hk => ?_) n 0 w ⟨h, ?_⟩ fun w' hw => hk w' hw.1 ?_
  · refine .read ?_
    rw [hi.2.read]
    refine .set hi.1 hi.2 rfl trivial fun w' h' hu => hk w' ⟨h', ?_⟩
    have hu1 := hu.1
    rw [store_exact (fun _ h => by cases h) (fun _ h => by cases h)] at hu1
    rw [BitVec.ofNat_add, ← BitVec.add_assoc]
    exact hu1
  · rw [hw]; decide
  · rw [Nat.zero_add] at hw; exact hw.1.shows hw.2

theorem parse_lang (W : WordClass) : parseString W b!"language[go, javascript, php].users" =
    some (b!"language.users", b!"language", some [b!"go", b!"javascript", b!"php"]) := by
  refine (C30_grammar W _ _).2 ⟨⟨b!"language", [], some (b!"go", [(b!" ", b!"javascript"), (b!" ", b!"php")]), [b!"users"]⟩,
    ⟨isId_ascii W (by decide) (by decide), fun _ h => (by cases h), fun i hi => ?_, ?_⟩, by decide, by decide⟩
  · rw [List.mem_singleton.1 hi]; exact isId_ascii W (by decide) (by decide)
  · intro i more h
    simp only [Option.some.injEq, Prod.mk.injEq] at h
    obtain ⟨rfl, rfl⟩ := h
    refine ⟨isId_ascii W (by decide) (by decide), fun p hp => ?_⟩
    simp only [List.mem_cons, List.not_mem_nil, or_false] at hp
    rcases hp with rfl | rfl
    · exact ⟨.inr ⟨0x20, rfl, by decide⟩, isId_ascii W (by decide) (by decide)⟩
    · exact ⟨.inr ⟨0x20, rfl, by decide⟩, isId_ascii W (by decide) (by decide)⟩

theorem bump_runs {loc w Q} {inst : Str} {f : BitVec 64 → BitVec 64} {x : BitVec 64} {k : Prog} (h : At cf tmp parse true loc w)
    (hh : Holds w.reg b!"language.users" Uint64Type (some inst) (.uint64 x))
    (hk : ∀ w', At cf tmp parse true loc w' → Upd1 w.reg w'.reg b!"language.users" Uint64Type (some inst) (.uint64 (f x)) →
      Runs cf tmp parse k w' Q) : Runs cf tmp parse (bumpInst inst f k) w Q := by
  refine .read ?_
  rw [hh.read]
  refine .setInst h hh rfl trivial fun w' h' hu => hk w' h' ?_
  rw [store_exact (fun _ h => by cases h) (fun _ h => by cases h)] at hu
  exact hu

/-- C80: `instance_string` doubles one instance, adds 10 to another and 1 to the third. -/
theorem C80_instance_string (W : WordClass) (gen pid : BitVec 64) (n : Nat) :
    Works cf tmp (parseString W) (instanceString gen pid n) (fun fs =>
      FileShows fs (path cf tmp b!"strings") b!"language.users" Uint64Type (some b!"go") (.uint64 (BitVec.ofNat 64 (2 ^ n))) ∧
      FileShows fs (path cf tmp b!"strings") b!"language.users" Uint64Type (some b!"javascript") (.uint64 (BitVec.ofNat 64 (100 + 10 * n))) ∧
      FileShows fs (path cf tmp b!"strings") b!"language.users" Uint64Type (some b!"php") (.uint64 (BitVec.ofNat 64 (10 + n)))) := by
  refine works (loc := path cf tmp b!"strings")
    (fun fs fs' h1 h2 h => ⟨h.1.congr h1 h2, h.2.1.congr h1 h2, h.2.2.congr h1 h2⟩) fun fs hfs k Q hk => ?_
  refine Runs.setup (ops := [.byString 1 2 b!"language[go, javascript, php].users" _ _ _ _])
    (r := strReg (b!"language.users", b!"language", some [b!"go", b!"javascript", b!"php"])
      (.insts [(b!"go", .int 1), (b!"javascript", .int 100), (b!"php", .int 10)]) Uint64Type CounterSemantics OneUnit) hfs (by decide) ?_
    (regAll_str (parse_lang W) _ _ _ _ (by decide)) (publishable_of (by decide)) (by constructor <;> decide) fun w h hw => ?_
  · intro op ho
    rw [List.mem_singleton] at ho; subst ho
    exact ⟨by simp, trivial⟩
  refine Runs.loop (fun i w => At cf tmp (parseString W) true (path cf tmp b!"strings") w ∧
      Holds w.reg b!"language.users" Uint64Type (some b!"go") (.uint64 (BitVec.ofNat 64 (2 ^ i))) ∧
      Holds w.reg b!"language.users" Uint64Type (some b!"javascript") (.uint64 (BitVec.ofNat 64 (100 + 10 * i))) ∧
      Holds w.reg b!"language.users" Uint64Type (some b!"php") (.uint64 (BitVec.ofNat 64 (10 + i))))
    (fun i w k hi hk => ?_) n 0 w ⟨h, ?_⟩ fun w' hw => hk w' hw.1 ?_
  · obtain ⟨h, h1, h2, h3⟩ := hi
    refine bump_runs h h1 fun w1 g1 u1 => ?_
    refine bump_runs g1 (u1.2 _ _ _ _ (.inr (by decide)) h2) fun w2 g2 u2 => ?_
    refine bump_runs g2 (u2.2 _ _ _ _ (.inr (by decide)) (u1.2 _ _ _ _ (.inr (by decide)) h3)) fun w3 g3 u3 => hk w3 ⟨g3, ?_, ?_, ?_⟩
    · have := u3.2 _ _ _ _ (.inr (by decide)) (u2.2 _ _ _ _ (.inr (by decide)) u1.1)
      rw [Nat.pow_succ, BitVec.ofNat_mul]; exact this
    · have := u3.2 _ _ _ _ (.inr (by decide)) u2.1
      rw [Nat.mul_add, ← Nat.add_assoc, BitVec.ofNat_add]; exact this
    · rw [← Nat.add_assoc, BitVec.ofNat_add]; exact u3.1
  · rw [hw]; exact ⟨by decide, by decide, by decide⟩
  · rw [Nat.zero_add] at hw; exact ⟨hw.1.shows hw.2.1, hw.1.shows hw.2.2.1, hw.1.shows hw.2.2.2⟩

/-! ### acme -/

def acmeD : Indom := (newIndom 1 b!"Acme Products" products
  [b!"Acme products", b!"Most popular products produced by the Acme Corporation"]).get (by decide)
def acmeC : Metric := (newPCPInstanceMetric 2 (products.map fun p => (p, .int 0)) b!"products.count" acmeD Uint64Type CounterSemantics OneUnit
    [b!"Acme factory product throughput",
     b!"Monotonic increasing counter of products produced in the Acme Corporation\n\t\t factory since starting the Acme production application.  Quality guaranteed."]).get
    (by decide)
def acmeT : Metric := (newPCPInstanceMetric 3 (products.map fun p => (p, .int 0)) b!"products.time" acmeD Uint64Type CounterSemantics (Units.timeUnit 1)
    [b!"Machine time spent producing Acme products"]).get (by decide)
def acmeOps : List ROp := [.addIndom acmeD, .addMetric acmeC, .addMetric acmeT]

/-- C80: `acme` shows 42 anvils, and 0 everywhere else. -/
theorem C80_acme_serial (gen pid : BitVec 64) :
    Works cf tmp parse (acmeSerial gen pid) (fun fs => ∀ p ∈ products,
      FileShows fs (path cf tmp b!"acme") b!"products.count" Uint64Type (some p) (.uint64 (if p = b!"Anvils" then 42 else 0)) ∧
      FileShows fs (path cf tmp b!"acme") b!"products.time" Uint64Type (some p) (.uint64 0)) := by
  refine works (loc := path cf tmp b!"acme") (fun fs fs' h1 h2 h p hp => ⟨(h p hp).1.congr h1 h2, (h p hp).2.congr h1 h2⟩)
    fun fs hfs k Q hk => .orFatal (a := acmeD) rfl <| .orFatal (a := acmeC) rfl <| .orFatal (a := acmeT) rfl ?_
  have hd : MadeIndom acmeD := ⟨_, _, _, _, (Option.some_get (by decide)).symm⟩
  refine Runs.setup (ops := acmeOps) (r := regOf acmeOps) hfs (by decide) ?_ rfl (publishable_of (by decide +kernel))
    (by constructor <;> decide +kernel) fun w h hw => ?_
  · intro op ho
    simp only [acmeOps, List.mem_cons, List.not_mem_nil, or_false] at ho
    rcases ho with rfl | rfl | rfl
    · exact ⟨by simp, hd⟩
    · exact ⟨by simp, MadeMetric.instance_ hd (Option.some_get (by decide)).symm⟩
    · exact ⟨by simp, MadeMetric.instance_ hd (Option.some_get (by decide)).symm⟩
  have h0 : ∀ p ∈ products, Holds w.reg b!"products.count" Uint64Type (some p) (.uint64 0) ∧
      Holds w.reg b!"products.time" Uint64Type (some p) (.uint64 0) := by rw [hw]; decide +kernel
  refine .setInst h (h0 _ (by decide)).1 rfl trivial fun w' h' hu => hk w' h' fun p hp => ⟨?_, ?_⟩
  · split
    · rename_i he; subst he; exact h'.shows hu.1
    · rename_i he
      exact h'.shows (hu.2 _ _ _ _ (.inr (fun hx => he (Option.some.inj hx))) (h0 p hp).1)
  · exact h'.shows (hu.2 _ _ _ _ (.inl (by decide)) (h0 p hp).2)

/-- Number of times that a builder of `p` completed a product. -/
def ups (p : Str) (l : List Build) : Nat := l.countP (fun | .up q => decide (q = p) | .time _ _ => false)
/-- The machine times of the builders of `p`. -/
def times (p : Str) (l : List Build) : List (BitVec 64) := l.filterMap (fun | .up _ => none | .time q x => if q = p then some x else none)
/-- The product of an event. -/
def Build.product : Build → Str
  | .time p _ => p
  | .up p => p

/-- acme/main.go:172-180 -/
def builders : List Str := [b!"Rockets", b!"Anvils", b!"Giant_Rubber_Bands"]

theorem builder_names : ∀ p ∈ builders, ∀ q ∈ builders, countName p ≠ timeName q ∧
    (p ≠ q → countName p ≠ countName q ∧ timeName p ≠ timeName q) := by decide

/-- What the metrics of a product hold after the events. -/
def Builders (F : Flops) (r : Reg) (l : List Build) : Prop :=
  ∀ p ∈ builders, Holds r (countName p) Int64Type none (.int64 (BitVec.ofNat 64 (ups p l))) ∧
    ∃ c, sameF c ((times p l).foldl F.add 0) ∧ Holds r (timeName p) DoubleType none (.float64 c)

theorem build_runs {on loc w Q} {F : Flops} (hF : F.Lawful) {pre : List Build} {a : Build} {k : Prog} (ha : a.product ∈ builders)
    (h : At cf tmp parse on loc w) (hb : Builders F w.reg pre)
    (hk : ∀ w', At cf tmp parse on loc w' → Frozen w.reg w'.reg → Builders F w'.reg (pre ++ [a]) → Runs cf tmp parse k w' Q) :
    Runs cf tmp parse (build F a k) w Q := by
  cases a with
  | up q =>
    obtain ⟨h1, h2⟩ := hb q ha
    refine .up h h1 fun w' h' hu => hk w' h' hu.3 fun p hp => ⟨?_, ?_⟩
    · by_cases he : p = q
      · subst he
        have : ups p (pre ++ [.up p]) = ups p pre + 1 := by simp [ups]
        rw [this, BitVec.ofNat_add]; exact hu.1
      · have : ups p (pre ++ [.up q]) = ups p pre := by simp [ups, Ne.symm he]
        rw [this]
        exact hu.2 _ _ _ _ (.inl ((builder_names p hp q ha).2 he).1) (hb p hp).1
    · obtain ⟨c, c1, c2⟩ := (hb p hp).2
      have : times p (pre ++ [.up q]) = times p pre := by simp [times]
      exact ⟨c, by rw [this]; exact c1, hu.2 _ _ _ _ (.inl (builder_names q ha p hp).1.symm) c2⟩
  | time q x =>
    obtain ⟨_, c, c1, c2⟩ := hb q ha
    refine .inc F h c2 fun w' h' hu => hk w' h' hu.3 fun p hp => ⟨?_, ?_⟩
    · have : ups p (pre ++ [.time q x]) = ups p pre := by simp [ups]
      rw [this]
      exact hu.2 _ _ _ _ (.inl (builder_names p hp q ha).1) (hb p hp).1
    · by_cases he : p = q
      · subst he
        have : times p (pre ++ [.time p x]) = times p pre ++ [x] := by simp [times]
        refine ⟨_, ?_, hu.1⟩
        rw [this, List.foldl_append]
        exact (sameF_gaugeNext hF c x).trans (hF.congr _ _ _ c1)
      · obtain ⟨c, c1, c2⟩ := (hb p hp).2
        have : times p (pre ++ [.time q x]) = times p pre := by simp [times, Ne.symm he]
        exact ⟨c, by rw [this]; exact c1, hu.2 _ _ _ _ (.inl ((builder_names p hp q ha).2 he).2) c2⟩

def builderOps : List ROp :=
  [.addMetric ((newPCPCounter 1 0 (countName b!"Rockets") []).get (by decide)), .addMetric ((newPCPGauge 2 0 (timeName b!"Rockets") []).get (by decide)),
   .addMetric ((newPCPCounter 3 0 (countName b!"Anvils") []).get (by decide)), .addMetric ((newPCPGauge 4 0 (timeName b!"Anvils") []).get (by decide)),
   .addMetric ((newPCPCounter 5 0 (countName b!"Giant_Rubber_Bands") []).get (by decide)),
   .addMetric ((newPCPGauge 6 0 (timeName b!"Giant_Rubber_Bands") []).get (by decide))]

/-- C80: `acme` with its goroutines, in any interleaving of their operations with each other and with `MustStart`: the file
shows for each product how many were completed, and the sum of the times. -/
theorem C80_acme_forever {F : Flops} (hF : F.Lawful) (gen pid : BitVec 64) (pre post : List Build)
    (hpre : ∀ b ∈ pre, b.product ∈ builders) (hpost : ∀ b ∈ post, b.product ∈ builders) :
    Works cf tmp parse (acmeForever F gen pid pre post) (fun fs => ∀ p ∈ builders,
      FileShows fs (path cf tmp b!"acme") (countName p) Int64Type none (.int64 (BitVec.ofNat 64 (ups p (pre ++ post)))) ∧
      ∃ c, sameF c ((times p (pre ++ post)).foldl F.add 0) ∧
        FileShows fs (path cf tmp b!"acme") (timeName p) DoubleType none (.float64 c)) := by
  refine works (loc := path cf tmp b!"acme") (fun fs fs' h1 h2 h p hp => ?_) fun fs hfs k Q hk => ?_
  · obtain ⟨g1, c, g2, g3⟩ := h p hp
    exact ⟨g1.congr h1 h2, c, g2, g3.congr h1 h2⟩
  refine Runs.newC hfs (by decide) fun w h hw => Runs.regs (ops := builderOps) (r := regOf builderOps) h ?_ (by rw [hw]; rfl) fun w h hw => ?_
  · intro op ho
    simp only [builderOps, List.mem_cons, List.not_mem_nil, or_false] at ho
    rcases ho with rfl | rfl | rfl | rfl | rfl | rfl
    · exact ⟨by simp, MadeMetric.counter (Option.some_get (by decide)).symm⟩
    · exact ⟨by simp, MadeMetric.gauge (Option.some_get (by decide)).symm⟩
    · exact ⟨by simp, MadeMetric.counter (Option.some_get (by decide)).symm⟩
    · exact ⟨by simp, MadeMetric.gauge (Option.some_get (by decide)).symm⟩
    · exact ⟨by simp, MadeMetric.counter (Option.some_get (by decide)).symm⟩
    · exact ⟨by simp, MadeMetric.gauge (Option.some_get (by decide)).symm⟩
  have h0 : Builders F w.reg [] := by
    have : ∀ p ∈ builders, Holds (regOf builderOps) (countName p) Int64Type none (.int64 0) ∧
      Holds (regOf builderOps) (timeName p) DoubleType none (.float64 0) := by decide +kernel
    rw [hw]
    exact fun p hp => ⟨(this p hp).1, 0, .refl _, (this p hp).2⟩
  have hf : ∀ {on : Bool} (r0 : Reg) (l pre : List Build) (w : Sys) (k : Prog), (∀ b ∈ l, b.product ∈ builders) →
      At cf tmp parse on (path cf tmp b!"acme") w → Frozen r0 w.reg → Builders F w.reg pre →
      (∀ w', At cf tmp parse on (path cf tmp b!"acme") w' → Frozen r0 w'.reg → Builders F w'.reg (pre ++ l) → Runs cf tmp parse k w' Q) →
      Runs cf tmp parse (each (build F) l k) w Q := by
    intro on r0 l
    induction l with
    | nil => intro pre w k _ h1 h2 h3 hk; exact hk w h1 h2 (by rw [List.append_nil]; exact h3)
    | cons a l ih =>
      intro pre w k hl h1 h2 h3 hk
      refine build_runs hF (hl a (by simp)) h1 h3 fun w' g1 g2 g3 => ?_
      refine ih (pre ++ [a]) w' k (fun b hb => hl b (by simp [hb])) g1 (h2.trans g2) g3 fun w'' j1 j2 j3 => hk w'' j1 j2 ?_
      rw [List.append_assoc] at j3; exact j3
  refine hf w.reg pre [] w _ hpre h (.refl _) h0 fun w1 h1 f1 b1 => ?_
  rw [hw] at f1
  refine .start h1 (publishable_frozen f1 (publishable_of (by decide +kernel)) (fun m hm => h1.hist.inv.built.built.inv.metrics m hm) ?_)
    (small_frozen f1 (by constructor <;> decide +kernel)) fun w2 h2 hw2 => ?_
  · decide +kernel
  refine hf w2.reg post pre w2 _ hpost h2 (.refl _) (by rw [hw2]; exact b1) fun w3 h3 _ b3 => hk w3 h3 fun p hp => ?_
  obtain ⟨g1, c, g2, g3⟩ := b3 p hp
  exact ⟨h3.shows g1, c, g2, h3.shows g3⟩

/-- Two rockets and an anvil, one rocket before `MustStart`: the file shows 2, 1 and 0. -/
example : (builders.map fun p => ups p ([.up b!"Rockets"] ++ [.time b!"Rockets" 7, .up b!"Anvils", .up b!"Rockets"])) = [2, 1, 0] := by decide

/-! ### runtime -/

def cpuD : Indom := (newIndom 1 b!"CPU Metrics" [b!"CGoCalls", b!"Goroutines"] []).get (by decide)
def cpuM : Metric := (newPCPInstanceMetric 2 [(b!"CGoCalls", .int 0), (b!"Goroutines", .int 0)] b!"cpu" cpuD Int64Type CounterSemantics OneUnit []).get
  (by decide)
def memD : Indom := (newIndom 3 b!"Memory Metrics" memInstances []).get (by decide +kernel)
def memM : Metric := (newPCPInstanceMetric 4 (memInstances.map fun n => (n, .int 0)) b!"mem" memD Uint64Type CounterSemantics OneUnit []).get
  (by decide +kernel)
def runtimeOps : List ROp := [.addMetric cpuM, .addMetric memM]

/-- The statistics that are in the registry. -/
structure Shown (r : Reg) (st : Stats) : Prop where
  cgo : Holds r b!"cpu" Int64Type (some b!"CGoCalls") (.int64 st.cgo)
  goroutines : Holds r b!"cpu" Int64Type (some b!"Goroutines") (.int64 st.goroutines)
  mem : ∀ n ∈ memInstances, Holds r b!"mem" Uint64Type (some n) (.uint64 (if n = b!"Lookups" then 0 else st.mem n))

theorem memSet_iff : ∀ n ∈ memInstances, n ∈ memSet ↔ n ≠ b!"Lookups" := by decide +kernel
theorem memSet_sub : ∀ n ∈ memSet, n ∈ memInstances := by decide +kernel

theorem mem_runs {loc Q} {st : Stats} {k : Prog} : ∀ (l : List Str) (w : Sys), (∀ n ∈ l, n ∈ memInstances) → At cf tmp parse true loc w →
    ∀ f : Str → BitVec 64, (∀ n ∈ memInstances, Holds w.reg b!"mem" Uint64Type (some n) (.uint64 (f n))) →
    Holds w.reg b!"cpu" Int64Type (some b!"CGoCalls") (.int64 st.cgo) →
    Holds w.reg b!"cpu" Int64Type (some b!"Goroutines") (.int64 st.goroutines) →
    (∀ w', At cf tmp parse true loc w' →
      (∀ n ∈ memInstances, Holds w'.reg b!"mem" Uint64Type (some n) (.uint64 (if n ∈ l then st.mem n else f n))) →
      Holds w'.reg b!"cpu" Int64Type (some b!"CGoCalls") (.int64 st.cgo) →
      Holds w'.reg b!"cpu" Int64Type (some b!"Goroutines") (.int64 st.goroutines) → Runs cf tmp parse k w' Q) →
    Runs cf tmp parse (each (fun n k => setInst b!"mem" n (.uint64 (st.mem n)) k) l k) w Q := by
  intro l
  induction l with
  | nil => intro w _ h f h1 h2 h3 hk; exact hk w h (by simpa using h1) h2 h3
  | cons a l ih =>
    intro w hl h f h1 h2 h3 hk
    refine .setInst h (h1 a (hl a (by simp))) rfl trivial fun w' h' hu => ?_
    rw [store_exact (fun _ h => by cases h) (fun _ h => by cases h)] at hu
    refine ih w' (fun n hn => hl n (by simp [hn])) h' (fun n => if n = a then st.mem a else f n) (fun n hn => ?_)
      (hu.2 _ _ _ _ (.inl (by decide)) h2) (hu.2 _ _ _ _ (.inl (by decide)) h3) fun w'' g1 g2 g3 g4 => hk w'' g1 (fun n hn => ?_) g3 g4
    · split
      · rename_i he; subst he; exact hu.1
      · rename_i he
        exact hu.2 _ _ _ _ (.inr (fun hx => he (Option.some.inj hx))) (h1 n hn)
    · have := g2 n hn
      by_cases ha : n = a
      · subst ha; simpa using this
      · simpa [ha] using this

theorem tick_runs {loc w Q} {st0 st : Stats} {k : Prog} (h : At cf tmp parse true loc w) (h0 : Shown w.reg st0)
    (hk : ∀ w', At cf tmp parse true loc w' → Shown w'.reg st → Runs cf tmp parse k w' Q) : Runs cf tmp parse (tick st k) w Q := by
  refine .setInst h h0.cgo rfl trivial fun w1 h1 u1 => ?_
  rw [store_exact (fun _ h => by cases h) (fun _ h => by cases h)] at u1
  refine .setInst h1 (u1.2 _ _ _ _ (.inr (by decide)) h0.goroutines) rfl trivial fun w2 h2 u2 => ?_
  rw [store_exact (fun _ h => by cases h) (fun _ h => by cases h)] at u2
  refine mem_runs memSet w2 memSet_sub h2 (fun n => if n = b!"Lookups" then 0 else st0.mem n) (fun n hn => ?_)
    (u2.2 _ _ _ _ (.inr (by decide)) u1.1) u2.1 fun w3 h3 g1 g2 g3 => hk w3 h3 ⟨g2, g3, fun n hn => ?_⟩
  · exact u2.2 _ _ _ _ (.inl (by decide)) (u1.2 _ _ _ _ (.inl (by decide)) (h0.mem n hn))
  · have := g1 n hn
    by_cases hl : n = b!"Lookups"
    · rw [if_neg (fun hx => (memSet_iff n hn).1 hx hl), if_pos hl] at this
      rw [if_pos hl]; exact this
    · rw [if_pos ((memSet_iff n hn).2 hl)] at this
      rw [if_neg hl]; exact this

/-- The statistics before the first tick. -/
def noStats : Stats := ⟨0, 0, fun _ => 0⟩

theorem runtime_runs (gen pid : BitVec 64) (ticks : List Stats) {fs : FS} (hfs : fs.OK) {k Q}
    (hk : ∀ w, At cf tmp parse true (path cf tmp b!"runtime") w → Shown w.reg (ticks.getLast?.getD noStats) → Runs cf tmp parse k w Q) :
    Runs cf tmp parse (runtime gen pid ticks k) (Sys.init fs) Q := by
  refine .orFatal (a := cpuD) rfl <| .orFatal (a := cpuM) rfl <| .orFatal (a := memD) rfl <| .orFatal (a := memM) rfl ?_
  have hd : MadeIndom cpuD := ⟨_, _, _, _, (Option.some_get (by decide)).symm⟩
  have hd' : MadeIndom memD := ⟨_, _, _, _, (Option.some_get (by decide +kernel)).symm⟩
  refine Runs.setup (ops := runtimeOps) (r := regOf runtimeOps) hfs (by decide) ?_ rfl (publishable_of (by decide +kernel))
    (by constructor <;> decide +kernel) fun w h hw => ?_
  · intro op ho
    simp only [runtimeOps, List.mem_cons, List.not_mem_nil, or_false] at ho
    rcases ho with rfl | rfl
    · exact ⟨by simp, MadeMetric.instance_ hd (Option.some_get (by decide)).symm⟩
    · exact ⟨by simp, MadeMetric.instance_ hd' (Option.some_get (by decide +kernel)).symm⟩
  have h0 : Shown w.reg noStats := by
    rw [hw]
    refine ⟨by decide +kernel, by decide +kernel, ?_⟩
    have : ∀ n ∈ memInstances, Holds { regOf runtimeOps with mapped := true } b!"mem" Uint64Type (some n) (.uint64 0) := by decide +kernel
    intro n hn
    rw [show (if n = b!"Lookups" then (0 : BitVec 64) else noStats.mem n) = 0 from by split <;> rfl]
    exact this n hn
  refine Runs.each (fun pre w => At cf tmp parse true (path cf tmp b!"runtime") w ∧ Shown w.reg (pre.getLast?.getD noStats))
    (fun pre a w k hi hk => tick_runs hi.1 hi.2 fun w' h1 h2 => hk w' ⟨h1, ?_⟩) ticks [] w ⟨h, h0⟩ fun w' hw => hk w' hw.1 ?_
  · rw [List.getLast?_append]; exact h2
  · rw [List.nil_append] at hw; exact hw.2

/-- C80 (partial): `runtime` shows the statistics of the last tick, but "Lookups" is always 0. Missing: what happens after
`MustStop`, where the program can be killed (`C80_refuted_runtime`). -/
theorem C80_runtime_partial (gen pid : BitVec 64) (ticks : List Stats) (st : Stats) :
    Works cf tmp parse (runtime gen pid (ticks ++ [st])) (fun fs =>
      FileShows fs (path cf tmp b!"runtime") b!"cpu" Int64Type (some b!"CGoCalls") (.int64 st.cgo) ∧
      FileShows fs (path cf tmp b!"runtime") b!"cpu" Int64Type (some b!"Goroutines") (.int64 st.goroutines) ∧
      ∀ n ∈ memInstances, FileShows fs (path cf tmp b!"runtime") b!"mem" Uint64Type (some n)
        (.uint64 (if n = b!"Lookups" then 0 else st.mem n))) := by
  refine works (loc := path cf tmp b!"runtime")
    (fun fs fs' h1 h2 h => ⟨h.1.congr h1 h2, h.2.1.congr h1 h2, fun n hn => (h.2.2 n hn).congr h1 h2⟩) fun fs hfs k Q hk => ?_
  refine runtime_runs gen pid _ hfs fun w h hs => hk w h ?_
  rw [List.getLast?_append] at hs
  exact ⟨h.shows hs.cgo, h.shows hs.goroutines, fun n hn => h.shows (hs.mem n hn)⟩

/-- C80 is false of `runtime`: the goroutine with the ticker goes on after `MustStop`. If there is a tick then, and the number
of cgo calls is not the published one, the process is killed. -/
theorem C80_refuted_runtime (gen pid : BitVec 64) (ticks : List Stats) (st : Stats) (hne : st.cgo ≠ (ticks.getLast?.getD noStats).cgo)
    {fs : FS} (hfs : fs.OK) :
    (∃ w' b, Exec cf tmp parse (Sys.init fs) (runtime gen pid ticks <| stop <| tick st .done) w' b) ∧
    ∀ w' b, Exec cf tmp parse (Sys.init fs) (runtime gen pid ticks <| stop <| tick st .done) w' b → b = false ∧ w'.crashed = true := by
  refine runtime_runs (Q := fun w b => b = false ∧ w.crashed = true) gen pid ticks hfs fun w h hs => ?_
  obtain ⟨c, hcl, _⟩ := h.client
  have hc0 : w.clients[0]? = some c := by rw [hcl]; rfl
  refine .op ⟨_, _, .stop h.alive hc0⟩ fun w1 res hst => ?_
  obtain ⟨_, _, _, _, h1, _, _, _, _, _, _, _, h5⟩ := C37_stop_partial h.hist h.mapped hst
  refine ⟨h5 rfl (by simp), ?_⟩
  obtain ⟨m, m1, m2, m3⟩ := hs.cgo.metric
  obtain ⟨m4, m5⟩ := get_some m1
  have hwf : m.WF := h.hist.inv.built.built.inv.metrics m m4
  have key := C38_refuted h.hist h.mapped hst rfl (m := m) (by rw [h1]; exact m4) (s := some b!"CGoCalls")
    ((WF.slot_iff hwf _).2 (by rw [m3]; rfl)) (v := .int64 st.cgo) trivial (by rw [m2]; rfl) m3
    (by rw [m2, show resolve Int64Type (.int64 st.cgo) = .int64 st.cgo from rfl]; simp [goEq, hne])
  rw [m5] at key
  obtain ⟨⟨w2, g1, _⟩, g2⟩ := key
  refine .op_panic ⟨w2, _, g1⟩ fun w3 res hs3 => ?_
  have hcr := g2 w3 res hs3
  refine ⟨?_, rfl, hcr⟩
  cases hs3 with
  | call_free => exact absurd hcr (by simp_all)
  | call_live => exact absurd hcr (by simp_all)
  | call_dead => exact absurd hcr (by simp_all)
  | call_crash => rfl

/-! ### basic_histogram -/

/-- The library records all values. -/
def recordAll (L : Hdr) : L.H → List (BitVec 64) → Option L.H
  | h, [] => some h
  | h, v :: vs => (L.record h v 1).bind fun h' => recordAll L h' vs

def histM : Metric := ((newPCPHistogram ⟨Unit, fun _ _ _ => (), fun _ _ _ => none, fun _ => 0, fun _ => 0, fun _ => 0, fun _ => 0, fun _ => 0, fun _ => 0⟩
  1 2 b!"hist" 0 100 5 OneUnit [b!"a sample histogram"]).map (·.1)).get (by decide)

/-- The library state of a new histogram (basic_histogram/main.go:19). -/
def histNew (L : Hdr) : L.H := L.new (.ofInt 64 (normalize 0 100 5).1) (.ofInt 64 (normalize 0 100 5).2.1) (.ofInt 64 (normalize 0 100 5).2.2)

/-- The statistics of the library state are in the registry. -/
def StatsIn (F : Flops) (L : Hdr) (h : L.H) (r : Reg) : Prop :=
  ∀ n ∈ histogramInstances, ∃ c, sameF c (statOf F L h n) ∧ Holds r b!"hist" DoubleType (some n) (.float64 c)

theorem records_runs {loc Q} {F : Flops} {L : Hdr} {k : Prog} : ∀ (vs : List (BitVec 64)) (h h' : L.H) (w : Sys), recordAll L h vs = some h' →
    At cf tmp parse true loc w → (∀ n ∈ histogramInstances, ∃ x, Holds w.reg b!"hist" DoubleType (some n) (.float64 x)) →
    ∀ P : Prop, (P → StatsIn F L h w.reg) →
    (∀ w', At cf tmp parse true loc w' → (P ∨ vs ≠ [] → StatsIn F L h' w'.reg) → Runs cf tmp parse k w' Q) →
    Runs cf tmp parse (records F L h vs k) w Q := by
  intro vs
  induction vs with
  | nil => intro h h' w hr ha _ P hP hk
           cases hr
           exact hk w ha (fun hn => hP (hn.resolve_right (fun h => h rfl)))
  | cons v vs ih =>
    intro h h' w hr ha hc P _ hk
    obtain ⟨h1, hr1, hr2⟩ := Option.bind_eq_some_iff.1 hr
    refine .orFatal hr1 ?_
    obtain ⟨_, hx⟩ := hc sMin (by decide)
    obtain ⟨m, m1, m2, _⟩ := hx.metric
    obtain ⟨g1, g2⟩ := ha.step (c := .histUpdate F L h1) m1 trivial
    refine .op g1 fun w1 res hs => ?_
    obtain ⟨u, mem, hg, e1, e2, e3⟩ := g2 w1 res hs
    have hih : IsHist u ⟨m, mem⟩ := ⟨hg, m2, fun n hn => by
      obtain ⟨x, hx⟩ := hc n hn
      have := hx.read
      rw [m1] at this
      show (m.cur (some n)).isSome
      rw [show m.cur (some n) = some (.float64 x) from this]; rfl⟩
    obtain ⟨st', j1, j2, j3⟩ := histUpdate_eq F L h1 hih
    have j1' : (Call.histUpdate F L h1).op u ⟨m, mem⟩ = (st', .ok ()) := j1
    have hsh := (Call.histUpdate F L h1).shape u ⟨m, mem⟩
    rw [j1'] at e1 e2 hsh
    have hget : w1.reg.get b!"hist" = some st'.m := by
      rw [e2, get_replace m1 (by rw [shape_desc hsh]; exact (get_some m1).2), if_pos rfl]
    have hsho : StatsIn F L h1 w1.reg := by
      intro n hn
      obtain ⟨c, c1, c2⟩ := j3 n hn
      exact ⟨c, c2, .mk hget j2.t c1⟩
    refine ⟨e1, ih h1 h' w1 hr2 e3 (fun n hn => ?_) True (fun _ => hsho) fun w2 h2 hh => hk w2 h2 fun _ => hh (.inl trivial)⟩
    obtain ⟨c, _, c2⟩ := hsho n hn
    exact ⟨c, c2⟩

/-- C80: `basic_histogram`, if the library records all values: the file shows the library's statistics. -/
theorem C80_histogram (F : Flops) (L : Hdr) (gen pid : BitVec 64) {vs : List (BitVec 64)} (hvs : vs ≠ []) {h : L.H}
    (hr : recordAll L (histNew L) vs = some h) :
    Works cf tmp parse (histogram F L gen pid vs) (fun fs => ∀ n ∈ histogramInstances, ∃ c, sameF c (statOf F L h n) ∧
      FileShows fs (path cf tmp b!"histogram_test") b!"hist" DoubleType (some n) (.float64 c)) := by
  refine works (loc := path cf tmp b!"histogram_test") (fun fs fs' h1 h2 g n hn => ?_) fun fs hfs k Q hk => ?_
  · obtain ⟨c, c1, c2⟩ := g n hn
    exact ⟨c, c1, c2.congr h1 h2⟩
  have hm : newPCPHistogram L 1 2 b!"hist" 0 100 5 OneUnit [b!"a sample histogram"] = some (histM, histNew L) := rfl
  have key : ∀ k, histogram F L gen pid vs k = (newC b!"histogram_test" <| each (fun o k => .op true (fun _ => .reg o) k) [.addMetric histM] <|
      start gen pid <| records F L (histNew L) vs k) := fun k => by unfold histogram; rw [hm]; rfl
  rw [key]
  refine Runs.setup (r := regOf [.addMetric histM]) hfs (by decide) ?_ rfl (publishable_of (by decide))
    (by constructor <;> decide) fun w ha hw => ?_
  · intro op ho
    rw [List.mem_singleton] at ho; subst ho
    exact ⟨by simp, MadeMetric.histogram hm⟩
  refine records_runs vs (histNew L) h w hr ha ?_ False False.elim fun w' h1 h2 => hk w' h1 fun n hn => ?_
  · have : ∀ n ∈ histogramInstances, Holds { regOf [.addMetric histM] with mapped := true } b!"hist" DoubleType (some n) (.float64 0) := by decide +kernel
    intro n hn
    rw [hw]; exact ⟨0, this n hn⟩
  · obtain ⟨c, c1, c2⟩ := h2 (.inr hvs) n hn
    exact ⟨c, c1, h1.shows c2⟩

/-- A library that records every value. -/
example : recordAll exHdr (histNew exHdr) [7, 9] ≠ none := by decide

/-! ### download -/

def speedU : BitVec 32 := (Units.addTime (Units.spaceUnit 2) (Units.timeUnit 3) (-1)).get (by decide)
def speedM : Metric := (newPCPSingletonMetric 1 (.float64 0) b!"download_speed" DoubleType InstantSemantics speedU []).get (by decide)
def timeM : Metric := (newPCPTimer 2 b!"download_time" (Units.timeUnit 3) []).get (by decide)
def downloadOps : List ROp := [.addMetric timeM, .addMetric speedM]

/-- What is published after a download: the time, and the speed computed from it. -/
def Downloaded (F : Flops) (speed : Nat → BitVec 64 → BitVec 64) (d : Download) (P : Str → BitVec 64 → Prop) : Prop :=
  ∃ y, sameF y (F.add 0 (F.dur (Units.timeUnit 3) (d.t1 - d.t0))) ∧
    (∃ c, sameF c y ∧ P b!"download_time" c) ∧ ∃ c, sameF c (speed d.n y) ∧ P b!"download_speed" c

theorem unit_frozen {r : Reg} (hf : Frozen { regOf downloadOps with mapped := true } r) {m : Metric} (hm : r.get b!"download_time" = some m) :
    m.desc.unit = Units.timeUnit 3 := by
  obtain ⟨h1, h2⟩ := get_some hm
  obtain ⟨x, hx, he⟩ := Frozen.back hf h1
  rw [← shape_desc he] at h2 ⊢
  have : ∀ x ∈ (regOf downloadOps).metrics, x.desc.name = b!"download_time" → x.desc.unit = Units.timeUnit 3 := by decide
  exact this x hx h2

theorem downloads_runs {loc Q} {F : Flops} (hF : F.Lawful) {speed : Nat → BitVec 64 → BitVec 64} {k : Prog} :
    ∀ (ds : List Download) (x : BitVec 64) (w : Sys), At cf tmp parse true loc w →
    Frozen { regOf downloadOps with mapped := true } w.reg →
    (∃ v, Holds w.reg b!"download_time" DoubleType none (.float64 v)) →
    (∃ v, Holds w.reg b!"download_speed" DoubleType none (.float64 v)) →
    ∀ last : Option Download, (∀ d, last = some d → Downloaded F speed d fun n c => Holds w.reg n DoubleType none (.float64 c)) →
    (∀ w', At cf tmp parse true loc w' →
      (∀ d, (ds.getLast?).or last = some d → Downloaded F speed d fun n c => Holds w'.reg n DoubleType none (.float64 c)) →
      Runs cf tmp parse k w' Q) →
    Runs cf tmp parse (downloads F speed ⟨false, x⟩ ds k) w Q := by
  intro ds
  induction ds with
  | nil => intro x w h _ _ _ last hl hk; exact hk w h (by simpa using hl)
  | cons d ds ih =>
    rintro x w h hf ⟨v, hv⟩ ⟨s, hs⟩ last - hk
    refine Runs.call1 (v := .float64 (fstore v 0)) h hv trivial (fun u st hg _ ht ho => ?_) fun w1 h1 u1 => ?_
    · obtain ⟨b, e, _⟩ := gaugeSet_eq hg ht ho 0
      have e' : Speed.set (.float64 0) u st = _ := e
      have : timerReset ⟨false, x⟩ u st = (⟨st.m.put none (.float64 (fstore v 0)), b⟩, .ok ⟨false, x⟩) := by
        unfold timerReset
        rw [if_neg (by simp), bind_ok e']; rfl
      exact ⟨b, by show ((timerReset ⟨false, x⟩).bind fun _ => MOp.pure ()) u st = _; rw [bind_ok this]; rfl⟩
    refine Runs.call1 (v := .float64 (fstore v 0)) h1 u1.1 trivial (fun u st hg _ ht ho => ?_) fun w2 h2 u2 => ?_
    · have hp := put_same hg.wf ho (WF.cur_typed hg.wf ho)
      rw [hp]
      exact ⟨st.mem, rfl⟩
    refine .read ?_
    rw [u2.1.read]
    have f2 := (hf.trans u1.3).trans u2.3
    have hs2 := u2.2 _ _ _ _ (.inl (by decide)) (u1.2 _ _ _ _ (.inl (by decide)) hs)
    refine Runs.call1 (v := .float64 (fstore (fstore v 0) (F.add (fstore v 0) (F.dur (Units.timeUnit 3) (d.t1 - d.t0))))) h2 u2.1 trivial
      (fun u st hg hm ht ho => ?_) fun w3 h3 u3 => ?_
    · have hu := unit_frozen f2 hm
      obtain ⟨b, e, _⟩ := gaugeSet_eq hg ht ho (F.add (fstore v 0) (F.dur (Units.timeUnit 3) (d.t1 - d.t0)))
      have e' : Speed.set (.float64 (F.add (fstore v 0) (F.dur (Units.timeUnit 3) (d.t1 - d.t0)))) u st = _ := e
      have hval : (Speed.val.bind asFloat64) u st = (st, .ok (fstore v 0)) := by rw [bind_ok (val_ok ho)]; rfl
      have : timerStop F d.t1 ⟨true, d.t0⟩ u st = (⟨st.m.put none (.float64 (fstore (fstore v 0) (F.add (fstore v 0)
          (F.dur (Units.timeUnit 3) (d.t1 - d.t0))))), b⟩, .ok (⟨false, d.t0⟩, F.add (fstore v 0) (F.dur (Units.timeUnit 3) (d.t1 - d.t0)))) := by
        unfold timerStop
        rw [if_neg (by simp), bind_ok hval]
        dsimp only
        rw [hu, bind_ok e']; rfl
      exact ⟨b, by show ((timerStop F d.t1 ⟨true, d.t0⟩).bind fun _ => MOp.pure ()) u st = _; rw [bind_ok this]; rfl⟩
    refine Runs.call1 (v := .float64 (fstore s (speed d.n (F.add (fstore v 0) (F.dur (Units.timeUnit 3) (d.t1 - d.t0)))))) h3
      (u3.2 _ _ _ _ (.inl (by decide)) hs2) trivial (fun u st hg _ ht ho => ?_) fun w4 h4 u4 => ?_
    · obtain ⟨b, e, _⟩ := gaugeSet_eq hg ht ho (speed d.n (F.add (fstore v 0) (F.dur (Units.timeUnit 3) (d.t1 - d.t0))))
      exact ⟨b, e⟩
    have ht4 := u4.2 _ _ _ _ (.inl (by decide)) u3.1
    refine ih d.t0 w4 h4 ((f2.trans u3.3).trans u4.3) ⟨_, ht4⟩ ⟨_, u4.1⟩ (some d) ?_ fun w5 h5 hd => hk w5 h5 ?_
    · rintro _ ⟨⟩
      exact ⟨_, hF.congr _ _ _ (sameF_fstore v 0), ⟨_, sameF_fstore _ _, ht4⟩, _, sameF_fstore _ _, u4.1⟩
    · intro d' hd'
      refine hd d' ?_
      cases ds with
      | nil => simpa using hd'
      | cons a l => rw [List.getLast?_cons_cons] at hd'; rw [← hd']; cases hx : (a :: l).getLast? <;> simp_all

/-- C80: `download` shows the time and the speed of the last download. -/
theorem C80_download {F : Flops} (hF : F.Lawful) (speed : Nat → BitVec 64 → BitVec 64) (gen pid : BitVec 64) (ds : List Download) (d : Download) :
    Works cf tmp parse (download F speed gen pid (ds ++ [d])) (fun fs => Downloaded F speed d fun n c =>
      FileShows fs (path cf tmp b!"download") n DoubleType none (.float64 c)) := by
  refine works (loc := path cf tmp b!"download") (fun fs fs' h1 h2 g => ?_) fun fs hfs k Q hk => ?_
  · obtain ⟨y, hy, ⟨c, c1, c2⟩, c', c3, c4⟩ := g
    exact ⟨y, hy, ⟨c, c1, c2.congr h1 h2⟩, c', c3, c4.congr h1 h2⟩
  refine Runs.setup (ops := downloadOps) (r := regOf downloadOps) hfs (by decide) ?_ rfl (publishable_of (by decide))
    (by constructor <;> decide) fun w ha hw => ?_
  · intro op ho
    simp only [downloadOps, List.mem_cons, List.not_mem_nil, or_false] at ho
    rcases ho with rfl | rfl
    · exact ⟨by simp, MadeMetric.timer (Option.some_get (by decide)).symm⟩
    · exact ⟨by simp, MadeMetric.singleton (Option.some_get (by decide)).symm⟩
  refine downloads_runs hF (ds ++ [d]) 0 w ha (by rw [hw]; exact .refl _) ⟨0, by rw [hw]; decide⟩ ⟨0, by rw [hw]; decide⟩ none
    (fun _ h => by cases h) fun w' h' hd => hk w' h' ?_
  obtain ⟨y, hy, ⟨c, c1, c2⟩, c', c3, c4⟩ := hd d (by simp)
  exact ⟨y, hy, ⟨c, c1, h'.shows c2⟩, c', c3, h'.shows c4⟩

end
end Speed.Examples
