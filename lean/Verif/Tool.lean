import Verif.Print
/-
Model of the command line tool (mmvdump/cmd/mmvdump/main.go) on top of `Dump` and `Write`.

The file is read at one moment (`rd`); what `panic` and package `flag` print goes to stderr and is not modelled.
-/
namespace Speed
open Dump

/-- `flag.Parse` without any defined flag (flag/flag.go, `parseOne`): arguments of at least two bytes that begin with `-`
are flags and end the program, whatever they are (`-h` and `-help` print a help text); `--` ends the flags.
`none`: the program ends. -/
def parseFlags : List Str → Option (List Str)
  | [] => some []
  | s :: l =>
    if s.length < 2 ∨ s.head? ≠ some 0x2D then some (s :: l)
    else if s = [0x2D, 0x2D] then some l
    else none

/-- How the program ends: `main` returns, exit by `flag`, a panic, or all goroutines are blocked. -/
inductive TEnd where
  | ok
  | exit
  | panic
  | hang
  deriving DecidableEq, Repr

/-- main.go:27-34: after `Dump`. The result of `fmt.Printf` is ignored. -/
def toolShow (P : FloatFmt) (file : Str) (D : Result) (k : Sink) : Sink × TEnd :=
  let k1 := (fprintf (b!"File      = " ++ file ++ b!"\n") k).1
  match pWrite P D k1 with
  | (k2, .ok) => (k2, .ok)
  | (k2, _) => (k2, .panic)

/-- A run of `main` (main.go:12-35) with arguments `args` and standard output `k`. `Dump` runs under any schedule. -/
inductive Tool (P : FloatFmt) (rd : Str → Option Buf) (args : List Str) (k : Sink) : Sink × TEnd → Prop where
  | flags : parseFlags args = none → Tool P rd args k (k, .exit)
  | usage : parseFlags args = some [] → Tool P rd args k ((fprintf b!"usage: mmvdump <file>\n" k).1, .ok)
  | noFile {f l} : parseFlags args = some (f :: l) → rd f = none → Tool P rd args k (k, .panic)
  | err {f l d} : parseFlags args = some (f :: l) → rd f = some d → Dumps d .err → Tool P rd args k (k, .panic)
  | crash {f l d} : parseFlags args = some (f :: l) → rd f = some d → Dumps d .panic → Tool P rd args k (k, .panic)
  | hang {f l d} : parseFlags args = some (f :: l) → rd f = some d → Dumps d .hang → Tool P rd args k (k, .hang)
  | shown {f l d D} : parseFlags args = some (f :: l) → rd f = some d → Dumps d (.ok D) →
      Tool P rd args k (toolShow P f D k)

end Speed
