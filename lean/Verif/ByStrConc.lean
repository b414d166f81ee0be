import Verif.RegConc
/-
Concurrent calls of `AddMetricByString` (registry.go:322-333): any number of goroutines register metrics by string in
one registry. The call of `AddMetric` in which a registration ends is that of `RegConc`, access by access.

Simplifications: those of `RegConc`; `HasInstanceDomain` before `AddMetric` is one step, possible when nobody writes
(its read lock is held for one lookup); the lookups of registry.go:302 and 303, which take no lock, are one step each
(in Go they are data races, see C74).
-/
namespace Speed

/-- The arguments of a call; `uid` and `duid` are the addresses of the metric and the domain it may create. -/
structure BCall where
  uid : Nat
  duid : Nat
  str : Str
  val : ByStrVal
  t : MetricType
  s : BitVec 32
  u : BitVec 32
  deriving DecidableEq

/-- What `addInstanceMetricByString` (registry.go:285-319) is called with. -/
structure BArgs where
  call : BCall
  name : Str
  dom : Str
  ins : List Str
  mp : List (Str × GoVal)
  deriving DecidableEq

/-- Where a goroutine is in a registration, before `AddMetric`. -/
inductive BPc where
  /-- between registrations, or in `AddMetric` -/
  | rest
  /-- `HasInstanceDomain` in registry.go:297 -/
  | look (a : BArgs)
  /-- the lookup of registry.go:302 -/
  | match1 (a : BArgs)
  /-- the lookup of registry.go:303 -/
  | match2 (a : BArgs)
  /-- `HasInstanceDomain` in `AddInstanceDomainByName` (registry.go:224) -/
  | byName (a : BArgs)
  /-- `HasInstanceDomain` in `AddInstanceDomain` (registry.go:136) -/
  | addI (a : BArgs) (d : Indom)
  /-- registry.go:140-165 -/
  | lockI (a : BArgs) (d : Indom)
  | mappedI (a : BArgs) (d : Indom)
  | failI (a : BArgs)
  | csI (a : BArgs) (d : Indom) (ops : List Mic) (x : Option Nat)
  deriving DecidableEq

/-- A goroutine: the calls to come, and where it is. -/
structure BG where
  calls : List BCall
  pc : BPc

/-- The registry with its locks and the `AddMetric` calls under way (`r.thr[i]` is that of goroutine `i`, `idle []` if it is
not in one), the goroutines, and the calls that failed before `AddMetric`. -/
structure BSt where
  r : RSt
  gs : List BG
  failed : List BCall

def BSt.go (s : BSt) (i : Nat) (cs : List BCall) (pc : BPc) : BSt := { s with gs := s.gs.set i ⟨cs, pc⟩ }

/-- An error return before `AddMetric`. -/
def BSt.fail (s : BSt) (i : Nat) (cs : List BCall) (c : BCall) : BSt :=
  { s with gs := s.gs.set i ⟨cs, .rest⟩, failed := s.failed ++ [c] }

/-- `m, err := New…; if err != nil { return }; r.AddMetric(m)` (registry.go:272-277, 308-313) -/
def BSt.made (s : BSt) (i : Nat) (cs : List BCall) (c : BCall) : Option Metric → BSt
  | none => s.fail i cs c
  | some m => { s with r := { s.r with thr := s.r.thr.set i (.idle [m]) }, gs := s.gs.set i ⟨cs, .rest⟩ }

/-- `NewPCPSingletonMetric` as called in registry.go:272. -/
def BCall.single (c : BCall) (name : Str) : Option Metric :=
  newPCPSingletonMetric c.uid (match c.val with | .plain v => v | .insts _ => .other) name c.t c.s c.u []

/-- `NewPCPInstanceMetric` as called in registry.go:308. -/
def BArgs.inst (a : BArgs) (d : Indom) : Option Metric :=
  newPCPInstanceMetric a.call.uid a.mp a.name d a.call.t a.call.s a.call.u []

def Reg.indomNamed (r : Reg) (n : Str) : Option Indom := r.indoms.find? (fun d => d.name = n)

/-- One step of goroutine `i`; `none`: it is finished or blocked. -/
def bstep (parse : Str → Option (Str × Str × Option (List Str))) (s : BSt) (i : Nat) : Option BSt :=
  match s.gs[i]?, s.r.thr[i]? with
  | some ⟨cs, .rest⟩, some (.idle []) =>
    match cs with
    | [] => none
    | c :: cs =>
      match parse c.str with
      | none => some (s.fail i cs c)
      | some (name, _, none) => some (s.made i cs c (c.single name))
      | some (name, dom, some ins) =>
        match c.val with
        | .plain _ => some (s.fail i cs c)
        | .insts mp => some (s.go i cs (.look ⟨c, name, dom, ins, mp⟩))
  | some ⟨_, .rest⟩, some _ => (rstep s.r i).map fun r => { s with r := r }
  | some ⟨cs, pc⟩, some _ =>
    match pc with
    | .rest => none
    | .look a =>
      if s.r.li.writer then none
      else some (s.go i cs (if s.r.reg.hasIndom a.dom then .match1 a else .byName a))
    | .match1 a =>
      match s.r.reg.indomNamed a.dom with
      | none => none
      | some d => some (if d.matchInstances a.ins then s.go i cs (.match2 a) else s.fail i cs a.call)
    | .match2 a =>
      match s.r.reg.indomNamed a.dom with
      | none => none
      | some d => some (s.made i cs a.call (a.inst d))
    | .byName a =>
      if s.r.li.writer then none
      else if s.r.reg.hasIndom a.dom then some (s.fail i cs a.call)
      else match newIndom a.call.duid a.dom a.ins [] with
        | none => some (s.fail i cs a.call)
        | some d => some (s.go i cs (.addI a d))
    | .addI a d =>
      if s.r.li.writer then none
      else some (if s.r.reg.hasIndom d.name then s.fail i cs a.call else s.go i cs (.lockI a d))
    | .lockI a d =>
      if s.r.li.writer || s.r.li.readers ≠ 0 then none
      else some ({ s with r := { s.r with li := ⟨true, 0⟩ } }.go i cs (.mappedI a d))
    | .mappedI a d => some (s.go i cs (if s.r.reg.mapped then .failI a else .csI a d (bodyI d) none))
    | .failI a => some ({ s with r := { s.r with li := ⟨false, s.r.li.readers⟩ } }.fail i cs a.call)
    | .csI a d ops x =>
      match csStep s.r.reg ops x with
      | some (r, ops', x') => some ({ s with r := { s.r with reg := r } }.go i cs (.csI a d ops' x'))
      | none => some ({ s with r := { s.r with li := ⟨false, s.r.li.readers⟩ } }.made i cs a.call (a.inst d))
  | _, _ => none

def BStep (parse : Str → Option (Str × Str × Option (List Str))) (s t : BSt) : Prop := ∃ i, bstep parse s i = some t

inductive BReach (parse : Str → Option (Str × Str × Option (List Str))) (s : BSt) : BSt → Prop where
  | refl : BReach parse s s
  | tail {t u : BSt} : BReach parse s t → BStep parse t u → BReach parse s u

/-- Goroutine `i` makes the calls `progs[i]`, one after the other. -/
def binit (r : Reg) (progs : List (List BCall)) : BSt :=
  ⟨rinit r (progs.map fun _ => []), progs.map (fun cs => ⟨cs, .rest⟩), []⟩

/-- All goroutines have finished. -/
def BSt.finished (s : BSt) : Prop := s.r.finished ∧ ∀ g ∈ s.gs, g.calls = [] ∧ g.pc = .rest

/-- Run a schedule. -/
def brun (parse : Str → Option (Str × Str × Option (List Str))) (s : BSt) : List Nat → Option BSt
  | [] => some s
  | i :: l => match bstep parse s i with
    | none => none
    | some t => brun parse t l

theorem BReach.trans {parse} {s t u : BSt} (h1 : BReach parse s t) (h2 : BReach parse t u) : BReach parse s u := by
  induction h2 with
  | refl => exact h1
  | tail _ hs ih => exact ih.tail hs

theorem reach_brun {parse} {s t : BSt} {l : List Nat} (h : brun parse s l = some t) : BReach parse s t := by
  induction l generalizing s with
  | nil => cases h; exact .refl
  | cons i l ih =>
    unfold brun at h
    split at h
    · cases h
    · rename_i u hu
      exact BReach.trans (.tail .refl ⟨i, hu⟩) (ih h)

end Speed
