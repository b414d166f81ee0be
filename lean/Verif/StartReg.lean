import Verif.StartLen
import Verif.PropsStart
import Verif.ClientLemmas
/-
`Start` (client.go:195-210) and registrations by other goroutines at the same time. `Start` holds the mutex of the client,
registration does not take it; `mapped`, which makes registration fail, is set after `start` has returned.

Three moments of `Start` are told apart: taking the length, `start`, and setting `mapped`. Registry calls can come between
any two steps. Simplification: a registry call is one step, and `start` reads the registry when it begins (in Go also later,
while its goroutines run). The runs of this model are runs of the program; it has more.
-/
namespace Speed

/-- How far `Start` is: not called; `l := c.Length()` done and the file made (client.go:199-204); in `start`; returned, with
the file it left. -/
inductive Phase where
  | idle
  | sized (len : Nat)
  | running (s : St)
  | active (file : Buf)

structure RegStart where
  reg : Reg
  phase : Phase

/-- `start` begins on a zeroed buffer of `len` bytes with the registry as it is now (client.go:207, 212-248). -/
def beginSt (len : Nat) (r : Reg) (e : Env) (o : Ord) (cells : Cell → Option Nat) : St :=
  { mem := newByteWriter len
    thr := [StartLen.startProg len r e o]
    ch := initCh r
    wgs := []
    cells := cells
    crashed := false }

/-- One step; the label tells a registry call by another goroutine from the steps of `Start`. -/
inductive SRStep (parse : Str → Option (Str × Str × Option (List Str))) (e : Env) : RegStart → Option ROp → RegStart → Prop
  | call {r p op} : (∀ b, op ≠ .mapped b) → HOp.Made (.reg op) →
      SRStep parse e ⟨r, p⟩ (some op) ⟨(op.apply parse r).reg, p⟩
  | size {r} : SRStep parse e ⟨r, .idle⟩ none ⟨r, .sized r.Length⟩
  | begin {r len o cells} : o.OK r → SRStep parse e ⟨r, .sized len⟩ none ⟨r, .running (beginSt len r e o cells)⟩
  | go {r s t} : Step s t → SRStep parse e ⟨r, .running s⟩ none ⟨r, .running t⟩
  | finish {r s} : Returned s → SRStep parse e ⟨r, .running s⟩ none ⟨{ r with mapped := true }, .active s.mem⟩

/-- `Start` is between taking the length and setting `mapped`. -/
def Phase.inside : Phase → Prop
  | .sized _ => True
  | .running _ => True
  | _ => False

/-- States reachable with `Q` true of every registry call. -/
inductive SRReach (parse : Str → Option (Str × Str × Option (List Str))) (e : Env) (Q : RegStart → ROp → Prop) (w0 : RegStart) :
    RegStart → Prop
  | refl : SRReach parse e Q w0 w0
  | tail {w l w'} : SRReach parse e Q w0 w → SRStep parse e w l w' → (∀ op, l = some op → Q w op) → SRReach parse e Q w0 w'

/-- No restriction. -/
abbrev anyCall (_ : RegStart) (_ : ROp) : Prop := True

/-- The call comes before or after `Start`, or it does not change the registry. -/
def ApartCall (parse : Str → Option (Str × Str × Option (List Str))) (w : RegStart) (op : ROp) : Prop :=
  w.phase.inside → (op.apply parse w.reg).reg = w.reg

end Speed
