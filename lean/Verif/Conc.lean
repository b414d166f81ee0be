import Verif.Bytes
/-
Operational semantics for the goroutines that `(*PCPClient).start` (client.go:212-274) spawns.

A goroutine is a process tree (`Proc`), written in continuation-passing style. A program state is a
pool of goroutines together with the byte buffer of the memory-mapped writer, the channels, the
WaitGroups and the two kinds of heap cells that `start` assigns: `pcpInstance.offset`
(instance.go:16-20) and the `update` closures (metrics.go:557-561, 950-953).

Simplifications, stated once here:
* memory is sequentially consistent at byte granularity; one step = one store of one byte, one
  channel operation, one WaitGroup operation, one `go` statement or one cell access;
* buffer offsets are natural numbers (Go `int`, no overflow: a buffer has fewer than 2^63 bytes);
* an update closure is represented by the offset it captured (metrics.go:543-552).
-/
namespace Speed

/-- The channels of `start`: the five offset channels of the client (client.go:114-118, capacity 1,
`nil` when not made) and the two unbuffered channels `genc`, `g2offc` (client.go:248). -/
inductive Chan where
  | inst | indom | metric | value | str | gen | g2
  deriving DecidableEq, Repr

/-- Heap cells assigned during `start`: `off d i` is the `offset` field of instance `i` of the
instance-domain object `d` (client.go:443); `upd m i` is the `update` field of the (instance `i`
of the) metric object `m` (client.go:517, 543). Objects are identified by a number standing for
their address. -/
inductive Cell where
  | off (d : Nat) (i : Str)
  | upd (m : Nat) (i : Option Str)
  deriving DecidableEq, Repr

/-- A goroutine's remaining program. -/
inductive Proc where
  /-- the goroutine's function has returned -/
  | done
  /-- a Go panic: kills the whole process -/
  | panic
  /-- `buffer[a] = b` (one iteration of bytewriter/bytewriter.go:41-43) -/
  | store (a : Nat) (b : Byte) (k : Proc)
  /-- `v := <-c` -/
  | recv (c : Chan) (k : Nat → Proc)
  /-- `c <- v` -/
  | send (c : Chan) (v : Nat) (k : Proc)
  /-- `go p` -/
  | fork (p : Proc) (k : Proc)
  /-- `var wg sync.WaitGroup; wg.Add(n)` -/
  | wgNew (n : Nat) (k : Nat → Proc)
  /-- `wg.Done()` -/
  | wgDone (w : Nat) (k : Proc)
  /-- `wg.Wait()` -/
  | wgWait (w : Nat) (k : Proc)
  /-- assignment to a heap cell -/
  | setCell (c : Cell) (v : Nat) (k : Proc)
  /-- read of a heap cell (0 if never assigned: Go zero value) -/
  | getCell (c : Cell) (k : Nat → Proc)

/-- State of a channel: `nil` (never made; all operations block), capacity 1, or unbuffered. -/
inductive ChSt where
  | nil
  | buf (v : Option Nat)
  | unbuf
  deriving DecidableEq, Repr

/-- Program state. -/
structure St where
  mem : Buf
  thr : List Proc
  ch : Chan → ChSt
  wgs : List Nat
  cells : Cell → Option Nat
  crashed : Bool

/-- Function update. -/
def fset {α β} [DecidableEq α] (f : α → β) (a : α) (b : β) : α → β :=
  fun x => if x = a then b else f x

/-- The process has crashed (Go panic in some goroutine). -/
def St.crash (s : St) : St := { s with crashed := true }

/-- One step of goroutine `i`; `j` is the partner goroutine, used only for a rendezvous on an
unbuffered channel (where `i` is the sender and `j` the receiver). `none`: goroutine `i` cannot
step (blocked, finished, or the process has crashed). -/
def step (s : St) (i j : Nat) : Option St :=
  if s.crashed then none else
  match s.thr[i]? with
  | none => none
  | some .done => none
  | some .panic => some s.crash
  | some (.store a b k) =>
      if a < s.mem.length then some { s with mem := s.mem.set a b, thr := s.thr.set i k }
      else some s.crash
  | some (.recv c k) =>
      match s.ch c with
      | .buf (some v) => some { s with ch := fset s.ch c (.buf none), thr := s.thr.set i (k v) }
      | _ => none
  | some (.send c v k) =>
      match s.ch c with
      | .buf none => some { s with ch := fset s.ch c (.buf (some v)), thr := s.thr.set i k }
      | .unbuf =>
          match s.thr[j]? with
          | some (.recv c' k') =>
              if c' = c ∧ j ≠ i then some { s with thr := (s.thr.set i k).set j (k' v) } else none
          | _ => none
      | _ => none
  | some (.fork p k) => some { s with thr := s.thr.set i k ++ [p] }
  | some (.wgNew n k) =>
      some { s with wgs := s.wgs ++ [n], thr := s.thr.set i (k s.wgs.length) }
  | some (.wgDone w k) =>
      match s.wgs[w]? with
      | some (n + 1) => some { s with wgs := s.wgs.set w n, thr := s.thr.set i k }
      | some 0 => some s.crash      -- "sync: negative WaitGroup counter"
      | none => none
  | some (.wgWait w k) =>
      match s.wgs[w]? with
      | some 0 => some { s with thr := s.thr.set i k }
      | _ => none
  | some (.setCell c v k) =>
      some { s with cells := fset s.cells c (some v), thr := s.thr.set i k }
  | some (.getCell c k) =>
      some { s with thr := s.thr.set i (k ((s.cells c).getD 0)) }

/-- `s` can step to `t`: some goroutine is scheduled. -/
def Step (s t : St) : Prop := ∃ i j, step s i j = some t

/-- States reachable under some schedule. -/
inductive Reach (s : St) : St → Prop where
  | refl : Reach s s
  | tail {t u : St} : Reach s t → Step t u → Reach s u

/-- Run a fixed schedule (list of goroutine/partner choices); used for concrete witnesses. -/
def run (s : St) : List (Nat × Nat) → Option St
  | [] => some s
  | (i, j) :: rest =>
    match step s i j with
    | none => none
    | some t => run t rest

theorem Reach.trans {s t u : St} (h1 : Reach s t) (h2 : Reach t u) : Reach s u := by
  induction h2 with
  | refl => exact h1
  | tail _ hs ih => exact ih.tail hs

theorem reach_of_run {s t : St} {l : List (Nat × Nat)} (h : run s l = some t) : Reach s t := by
  induction l generalizing s with
  | nil => simp [run] at h; subst h; exact .refl
  | cons c l ih =>
    obtain ⟨i, j⟩ := c
    simp only [run] at h
    split at h
    · simp at h
    · rename_i u hu
      exact Reach.trans (Reach.tail .refl ⟨i, j, hu⟩) (ih h)

/-- No goroutine can ever step again. -/
def Stuck (s : St) : Prop := ∀ t, ¬ Step s t

/-- The first goroutine (the caller of `start`) has returned. -/
def Returned (s : St) : Prop := s.thr[0]? = some .done

/-- Every goroutine has returned. -/
def AllDone (s : St) : Prop := ∀ p ∈ s.thr, p = .done

end Speed
