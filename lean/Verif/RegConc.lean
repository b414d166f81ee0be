import Verif.History
import Verif.Mutex
/-
Concurrent calls of `AddMetric` (registry.go:196-220): any number of goroutines register metrics in one
registry, each lock operation and each access to a field of the registry is a step of its own.

Simplifications: memory is sequentially consistent; a waiting `Lock` does not keep new readers out; a map
access is one step (it happens with the lock of the map held, so no access runs concurrently with a write).
-/
namespace Speed

/-- The counters of the registry (registry.go:64-66). -/
inductive Ctr where
  | inst | val | str
  deriving DecidableEq, Repr

/-- The statements inside the critical sections of `AddInstanceDomain` and `addMetric`. -/
inductive Mic where
  /-- `r.metrics[m.Name()] = m` -/
  | putM (m : Metric)
  /-- `r.instanceDomains[indom.Name()] = indom` -/
  | putI (d : Indom)
  /-- `c += n`: a read and a write -/
  | add (c : Ctr) (n : Nat)
  /-- `if !r.version2 { if long { r.version2 = true } }`: a read and perhaps a write -/
  | flag (long : Bool)
  deriving DecidableEq, Repr

def Reg.ctr (r : Reg) : Ctr → Nat
  | .inst => r.instanceCount
  | .val => r.valueCount
  | .str => r.stringcount

def Reg.setCtr (r : Reg) (v : Nat) : Ctr → Reg
  | .inst => { r with instanceCount := v }
  | .val => { r with valueCount := v }
  | .str => { r with stringcount := v }

/-- Assignment to a map: an entry with the same key is replaced. -/
def Reg.putMetric (r : Reg) (m : Metric) : Reg :=
  { r with metrics := r.metrics.filter (fun x => x.desc.name ≠ m.desc.name) ++ [m] }

def Reg.putIndom (r : Reg) (d : Indom) : Reg :=
  { r with indoms := r.indoms.filter (fun x => x.name ≠ d.name) ++ [d] }

/-- `if s != "" { r.stringcount++ }` (registry.go:157-163, 185-191) -/
def textMic (s : Str) : List Mic := if s ≠ [] then [.add .str 1] else []

/-- `addMetric` (registry.go:169-193) -/
def bodyM (m : Metric) : List Mic :=
  [.putM m] ++ (if m.desc.name.length > MaxV1NameLength then [.flag true] else []) ++ [.add .val m.valueCount] ++
  (if m.desc.t = StringType then [.add .str m.valueCount] else []) ++ textMic m.desc.short ++ textMic m.desc.long

/-- `AddInstanceDomain` after the check of `r.mapped` (registry.go:146-165); the loop over the instances
sets the flag if one of them is long (`r.version2` is read once, before the loop). -/
def bodyI (d : Indom) : List Mic :=
  [.putI d, .add .inst d.insts.length, .flag (d.insts.any (fun i => decide (i.name.length > MaxV1NameLength)))] ++
  textMic d.short ++ textMic d.long

/-- One access in a critical section; `x` is the value that the current statement has read. -/
def csStep (r : Reg) : List Mic → Option Nat → Option (Reg × List Mic × Option Nat)
  | [], _ => none
  | .putM m :: k, _ => some (r.putMetric m, k, none)
  | .putI d :: k, _ => some (r.putIndom d, k, none)
  | .add c n :: k, none => some (r, .add c n :: k, some (r.ctr c))
  | .add c n :: k, some x => some (r.setCtr (x + n) c, k, none)
  | .flag b :: k, none => some (r, .flag b :: k, some (if r.version2 then 1 else 0))
  | .flag b :: k, some x => some (if x = 0 ∧ b = true then { r with version2 := true } else r, k, none)

/-- Where a goroutine is inside `AddMetric`. -/
inductive RPc where
  /-- before `if r.mapped` (registry.go:197) -/
  | start
  /-- `HasMetric` (registry.go:126-132, called in 201): `RLock`, lookup, `RUnlock` with the result -/
  | hasM0 | hasM1 | hasM2 (b : Bool)
  /-- `HasInstanceDomain` (registry.go:117-123), called in 208 and `again` in 136 -/
  | hasI0 (d : Indom) (again : Bool) | hasI1 (d : Indom) (again : Bool) | hasI2 (d : Indom) (again b : Bool)
  /-- `r.indomlock.Lock()` (registry.go:140) -/
  | lockI (d : Indom)
  /-- `if r.mapped` (registry.go:143) -/
  | mappedI (d : Indom)
  /-- registry.go:147-165, then `Unlock` -/
  | csI (d : Indom) (ops : List Mic) (x : Option Nat)
  /-- the error return of registry.go:144 -/
  | failI
  /-- `r.metricslock.Lock()` (registry.go:215) -/
  | lockM
  /-- registry.go:218, then `Unlock` -/
  | csM (ops : List Mic) (x : Option Nat)
  deriving DecidableEq, Repr

/-- A goroutine: the metrics it still has to register, and the call it is in. -/
inductive RTh where
  | idle (ms : List Metric)
  | busy (m : Metric) (pc : RPc) (ms : List Metric)
  deriving DecidableEq, Repr

/-- The registry, its two locks, the goroutines, and the results of the finished calls. -/
structure RSt where
  reg : Reg
  lm : RW
  li : RW
  thr : List RTh
  log : List (Metric × Bool)

def RW.rlock (l : RW) : RW := { l with readers := l.readers + 1 }
def RW.runlock (l : RW) : RW := { l with readers := l.readers - 1 }

/-- `AddMetric` returns. -/
def RSt.fin (s : RSt) (i : Nat) (m : Metric) (ms : List Metric) (ok : Bool) : RSt :=
  { s with thr := s.thr.set i (.idle ms), log := s.log ++ [(m, ok)] }

def RSt.go (s : RSt) (i : Nat) (m : Metric) (ms : List Metric) (pc : RPc) : RSt :=
  { s with thr := s.thr.set i (.busy m pc ms) }

/-- One step of goroutine `i`; `none`: it is finished or blocked. -/
def rstep (s : RSt) (i : Nat) : Option RSt :=
  match s.thr[i]? with
  | none => none
  | some (.idle []) => none
  | some (.idle (m :: ms)) => some (s.go i m ms .start)
  | some (.busy m pc ms) =>
    match pc with
    | .start => some (if s.reg.mapped then s.fin i m ms false else s.go i m ms .hasM0)
    | .hasM0 => if s.lm.writer then none else some ({ s with lm := s.lm.rlock }.go i m ms .hasM1)
    | .hasM1 => some (s.go i m ms (.hasM2 (s.reg.hasMetric m.desc.name)))
    | .hasM2 b =>
      let s := { s with lm := s.lm.runlock }
      some (if b then s.fin i m ms false else
        match m.indom with
        | none => s.go i m ms .lockM
        | some d => s.go i m ms (.hasI0 d false))
    | .hasI0 d again => if s.li.writer then none else some ({ s with li := s.li.rlock }.go i m ms (.hasI1 d again))
    | .hasI1 d again => some (s.go i m ms (.hasI2 d again (s.reg.hasIndom d.name)))
    | .hasI2 d again b =>
      let s := { s with li := s.li.runlock }
      some (match again, b with
        | false, true => s.go i m ms .lockM
        | false, false => s.go i m ms (.hasI0 d true)
        | true, true => s.fin i m ms false
        | true, false => s.go i m ms (.lockI d))
    | .lockI d =>
      if s.li.writer || s.li.readers ≠ 0 then none
      else some ({ s with li := ⟨true, 0⟩ }.go i m ms (.mappedI d))
    | .mappedI d => some (s.go i m ms (if s.reg.mapped then .failI else .csI d (bodyI d) none))
    | .failI => some ({ s with li := ⟨false, s.li.readers⟩ }.fin i m ms false)
    | .csI d ops x =>
      match csStep s.reg ops x with
      | some (r, ops', x') => some ({ s with reg := r }.go i m ms (.csI d ops' x'))
      | none => some ({ s with li := ⟨false, s.li.readers⟩ }.go i m ms .lockM)
    | .lockM =>
      if s.lm.writer || s.lm.readers ≠ 0 then none
      else some ({ s with lm := ⟨true, 0⟩ }.go i m ms (.csM (bodyM m) none))
    | .csM ops x =>
      match csStep s.reg ops x with
      | some (r, ops', x') => some ({ s with reg := r }.go i m ms (.csM ops' x'))
      | none => some ({ s with lm := ⟨false, s.lm.readers⟩ }.fin i m ms true)

def RStep (s t : RSt) : Prop := ∃ i, rstep s i = some t

inductive RReach (s : RSt) : RSt → Prop where
  | refl : RReach s s
  | tail {t u : RSt} : RReach s t → RStep t u → RReach s u

/-- Goroutine `i` registers the metrics `progs[i]`, one after the other. -/
def rinit (r : Reg) (progs : List (List Metric)) : RSt :=
  ⟨r, ⟨false, 0⟩, ⟨false, 0⟩, progs.map .idle, []⟩

/-- All goroutines have finished. -/
def RSt.finished (s : RSt) : Prop := ∀ t ∈ s.thr, t = .idle []

/-- Run a schedule. -/
def rrun (s : RSt) : List Nat → Option RSt
  | [] => some s
  | i :: l => match rstep s i with
    | none => none
    | some t => rrun t l

theorem RReach.trans {s t u : RSt} (h1 : RReach s t) (h2 : RReach t u) : RReach s u := by
  induction h2 with
  | refl => exact h1
  | tail _ hs ih => exact ih.tail hs

theorem reach_rrun {s t : RSt} {l : List Nat} (h : rrun s l = some t) : RReach s t := by
  induction l generalizing s with
  | nil => cases h; exact .refl
  | cons i l ih =>
    unfold rrun at h
    split at h
    · cases h
    · rename_i u hu
      exact RReach.trans (.tail .refl ⟨i, hu⟩) (ih h)

end Speed
