import Verif.Units
/-
Programs that make units and metrics. A metric keeps the `MetricUnit` it was given (metrics.go:502-506), which may be a pointer,
and `Start` asks it for its bits (client.go:573).
-/
namespace Speed
namespace Units

/-- The unit structures; the units the program has in variables; the metrics, each with its unit. -/
structure UState where
  heap : Heap
  vars : List MUnit
  metrics : List MUnit

def UState.init : UState := ⟨[], [], []⟩

/-- What a program can do: `NewMetricUnit()`, use a constant, extend the unit in variable `i` and keep the result as a new
variable, make a metric with the unit in variable `i` (metrics.go:160-197, 286-299, 322-335, 351-364, 476-507). -/
inductive UOp where
  | new
  | const (u : MUnit)
  | space (i : Nat) (s : BitVec 32) (d : BitVec 8)
  | time (i : Nat) (s : BitVec 32) (d : BitVec 8)
  | count (i : Nat) (s : BitVec 32) (d : BitVec 8)
  | metric (i : Nat)

/-- Keep the result of a method in a new variable. -/
def UState.keep (s : UState) : Option (Heap × MUnit) → Option UState
  | none => none
  | some (h, u) => some { s with heap := h, vars := s.vars ++ [u] }

/-- One operation; `none` is a panic, or a variable that does not exist. -/
def UState.step (s : UState) : UOp → Option UState
  | .new => s.keep (some (newUnit s.heap))
  | .const (.ref _) => none
  | .const u => s.keep (some (s.heap, u))
  | .space i c d => (s.vars[i]?).bind fun u => s.keep (u.addSpace s.heap c d)
  | .time i c d => (s.vars[i]?).bind fun u => s.keep (u.addTime s.heap c d)
  | .count i c d => (s.vars[i]?).bind fun u => s.keep (u.addCount s.heap c d)
  | .metric i => (s.vars[i]?).map fun u => { s with metrics := s.metrics ++ [u] }

def UState.run (s : UState) : List UOp → Option UState
  | [] => some s
  | op :: ops => (s.step op).bind fun s => s.run ops

/-- The unit bits that `Start` writes for metric `m` (client.go:573). -/
def UState.published (s : UState) (m : Nat) : Option (BitVec 32) := (s.metrics[m]?).bind fun u => u.pmapi s.heap

/-- The variable that an operation extends. -/
def UOp.extends : UOp → Option Nat
  | .space i _ _ => some i
  | .time i _ _ => some i
  | .count i _ _ => some i
  | _ => none

end Units
end Speed
