import Verif.DumpWrite
import Verif.Units
/-
Model of the text output of `mmvdump` (mmvdump/writer.go, mmvdump/pcp.go, the `stringer` files):
every `fmt.Fprintf` is one call of the output writer, which may fail and then may have accepted a part
of the bytes. `DumpWrite.lean` has the same functions on the level of printed lines, without a writer.
-/
namespace Speed.Dump

/-- A byte list given as a string literal. -/
macro:max "b!" s:str : term => do
  let elems ← s.getString.toUTF8.toList.toArray.mapM fun b =>
    `((BitVec.ofNat 8 $(Lean.quote b.toNat) : Byte))
  `(([$elems,*] : List Byte))

/-! ### Numbers (`fmt`, verbs %v, %d and %x on integers) -/

/-- A digit, lower case (fmt/format.go, `ldigits`). -/
def digit (d : Nat) : Byte := if d < 10 then BitVec.ofNat 8 (0x30 + d) else BitVec.ofNat 8 (0x61 + (d - 10))

/-- The loop of `fmtInteger` (fmt/format.go): digits are put in front of `acc`, the least significant
first; `f` is the room in the buffer. -/
def fmtLoop (b : Nat) : Nat → Nat → List Byte → List Byte
  | 0, _, acc => acc
  | f + 1, u, acc => if u < b then digit u :: acc else fmtLoop b f (u / b) (digit (u % b) :: acc)

/-- An unsigned number in base `b`; the buffer has 68 bytes. -/
def fmtUint (b u : Nat) : List Byte := fmtLoop b 68 u []

/-- A signed number in base `b`. -/
def fmtInt (b : Nat) (i : Int) : List Byte := if i < 0 then 0x2D :: fmtUint b i.natAbs else fmtUint b i.natAbs

/-- %v or %d of a uint32 or uint64. -/
def decU {n : Nat} (x : BitVec n) : List Byte := fmtUint 10 x.toNat
/-- %v or %d of an int32 or int64. -/
def decI {n : Nat} (x : BitVec n) : List Byte := fmtInt 10 x.toInt
/-- %x of an unsigned number. -/
def hexU {n : Nat} (x : BitVec n) : List Byte := fmtUint 16 x.toNat
/-- %x of a signed number. -/
def hexI {n : Nat} (x : BitVec n) : List Byte := fmtInt 16 x.toInt

/-- %v of float32 and float64: not modelled, any function of the bits. -/
structure FloatFmt where
  f32 : BitVec 32 → List Byte
  f64 : BitVec 64 → List Byte

/-- %v of a value returned by `FixedVal`, or of a string. -/
def fmtVal (P : FloatFmt) : GoVal → List Byte
  | .int32 v => decI v
  | .uint32 v => decU v
  | .int64 v => decI v
  | .uint64 v => decU v
  | .float32 v => P.f32 v
  | .float64 v => P.f64 v
  | .str s => s
  | .int v => decI v
  | .uint v => decU v
  | .other => []

/-! ### `String()` methods -/

/-- `name[index[i]:index[i+1]]` of the generated files. -/
def slice (name : List Byte) (index : List Nat) (i : Nat) : List Byte :=
  (name.take (index.getD (i + 1) 0)).drop (index.getD i 0)

/-- `Type.String` (mmvdump/type_string.go:7-27); the constants are those of mmvdump/pcp.go:170-180. -/
def typeString (t : BitVec 32) : List Byte :=
  if -1 ≤ t.toInt ∧ t.toInt ≤ 6 then
    slice b!"NoSupportTypeInt32TypeUint32TypeInt64TypeUint64TypeFloatTypeDoubleTypeStringType"
      [0, 13, 22, 32, 41, 51, 60, 70, 80] (t.toInt + 1).toNat
  else if t.toInt = 255 then b!"UnknownType"
  else b!"Type(" ++ decI t ++ b!")"

/-- mmvdump/pcp.go:374-380: the constants of type `Semantics`. `CounterSemantics` and those after it have no
expression of their own, and the first one does not use `iota`: Go repeats the first expression, so all of
them are 0. In order: `NoSemantics`, `CounterSemantics`, `InstantSemantics`, `DiscreteSemantics`. -/
def semConsts : List (BitVec 32) := [0, 0, 0, 0]

/-- `Semantics.String` (mmvdump/semantics_string.go:11-16), generated from those constants. -/
def semString (s : BitVec 32) : List Byte :=
  if s.toInt < 0 ∨ s.toInt ≥ 1 then b!"Semantics(" ++ decI s ++ b!")" else b!"NoSemantics"

/-- `abs` (mmvdump/pcp.go:261-267), on the range of the dimensions. -/
def absDim (d : BitVec 8) : BitVec 8 := if d.slt 0 then -d else d

/-- The suffix for the dimension (mmvdump/pcp.go:270-273, 296-299, 320-323). -/
def dimSuffix (d : BitVec 8) : List Byte := if (1 : BitVec 8).slt (absDim d) then 0x5E :: decI d else []

/-- `stringSpaceDim` (mmvdump/pcp.go:269-293). -/
def stringSpaceDim (scale dim : BitVec 8) : List Byte :=
  if scale = 0 then b!"B" ++ dimSuffix dim
  else if scale = 1 then b!"KiB" ++ dimSuffix dim
  else if scale = 2 then b!"MiB" ++ dimSuffix dim
  else if scale = 3 then b!"GiB" ++ dimSuffix dim
  else if scale = 4 then b!"TiB" ++ dimSuffix dim
  else if scale = 5 then b!"PiB" ++ dimSuffix dim
  else if scale = 6 then b!"EiB" ++ dimSuffix dim
  else b!"<invalid>"

/-- `stringTimeDim` (mmvdump/pcp.go:295-317). -/
def stringTimeDim (scale dim : BitVec 8) : List Byte :=
  if scale = 0 then b!"nsec" ++ dimSuffix dim
  else if scale = 1 then b!"usec" ++ dimSuffix dim
  else if scale = 2 then b!"msec" ++ dimSuffix dim
  else if scale = 3 then b!"sec" ++ dimSuffix dim
  else if scale = 4 then b!"min" ++ dimSuffix dim
  else if scale = 5 then b!"hr" ++ dimSuffix dim
  else b!"<invalid>"

/-- `stringCountDim` (mmvdump/pcp.go:319-331). -/
def stringCountDim (scale dim : BitVec 8) : List Byte :=
  if scale = 0 then b!"count" ++ dimSuffix dim else b!"<invalid>"

/-- `Unit.String` (mmvdump/pcp.go:334-368). -/
def unitString (u : BitVec 32) : List Byte :=
  let ss := Units.dumpSpaceScale u
  let sd := Units.spaceDim u
  let ts := Units.dumpTimeScale u
  let td := Units.timeDim u
  let cs := Units.dumpCountScale u
  let cd := Units.countDim u
  (if (0 : BitVec 8).slt sd then stringSpaceDim ss sd else []) ++
  (if (0 : BitVec 8).slt td then stringTimeDim ts td else []) ++
  (if (0 : BitVec 8).slt cd then stringCountDim cs cd else []) ++
  (if sd.slt 0 ∨ td.slt 0 ∨ cd.slt 0 then
    b!" / " ++
    (if sd.slt 0 then stringSpaceDim ss sd else []) ++
    (if td.slt 0 then stringTimeDim ts td else []) ++
    (if cd.slt 0 then stringCountDim cs cd else [])
   else [])

/-! ### The output writer -/

/-- An `io.Writer`: what it has accepted so far, and the outcomes of the coming calls of `Write`:
`none` accepts all bytes, `some n` accepts the first `n` and returns an error. When the list is
used up all calls succeed. -/
structure Sink where
  out : List Byte
  script : List (Option Nat)
  deriving DecidableEq

/-- How a function ends: nil, the error of the output writer, an error of its own, or a panic. -/
inductive PEnd where
  | ok
  | werr
  | err
  | panic
  deriving DecidableEq, Repr

/-- A function that writes to the output writer. -/
abbrev Pr := Sink → Sink × PEnd

/-- `fmt.Fprintf(w, …)` with the text `s`: one call of `Write`. The caller returns the error. -/
def fprintf (s : List Byte) : Pr := fun k =>
  match k.script with
  | [] => (⟨k.out ++ s, []⟩, .ok)
  | none :: l => (⟨k.out ++ s, l⟩, .ok)
  | some n :: l => (⟨k.out ++ s.take n, l⟩, .werr)

/-- Statement sequence: `if err := p; err != nil { return err }; q`. -/
def Pr.seq (p q : Pr) : Pr := fun k =>
  match p k with
  | (k', .ok) => q k'
  | r => r

/-- A nil dereference. -/
def pPanic : Pr := fun k => (k, .panic)
/-- `return nil`. -/
def pDone : Pr := fun k => (k, .ok)
/-- `return errors.New(…)`. -/
def pErr : Pr := fun k => (k, .err)

@[inherit_doc] infixr:60 " ;; " => Pr.seq

/-! ### mmvdump/writer.go -/

/-- `writeInstance` (mmvdump/writer.go:17-30). -/
def pInstance (D : Result) (off : Nat) : Pr :=
  match mget D.instances off with
  | none => pPanic
  | some i =>
    match printName D i.external, mget D.indoms i.indom.toNat with
    | some n, some d =>
      fprintf (b!"\t[" ++ decU d.serial ++ b!"/" ++ fmtUint 10 off ++ b!"] instance = [" ++ decI i.internal ++ b!"/" ++
        n ++ b!"]\n")
    | _, _ => pPanic

/-- The part for the short text (mmvdump/writer.go:44-52, 107-115). -/
def pShort (D : Result) (off : BitVec 64) : Pr :=
  if off = 0 then fprintf b!"\t\t(no shorttext)\n"
  else match payload D off with
    | none => pPanic
    | some p => fprintf (b!"\t\tshorttext=" ++ p ++ b!"\n")

/-- The part for the long text (mmvdump/writer.go:54-62, 117-125). -/
def pLong (D : Result) (off : BitVec 64) : Pr :=
  if off = 0 then fprintf b!"\t\t(no longtext)\n"
  else match payload D off with
    | none => pPanic
    | some p => fprintf (b!"\t\tlongtext=" ++ p ++ b!"\n")

/-- `writeInstanceDomain` (mmvdump/writer.go:32-65). -/
def pIndom (D : Result) (off : Nat) : Pr :=
  match mget D.indoms off with
  | none => pPanic
  | some d =>
    fprintf (b!"\t[" ++ decU d.serial ++ b!"/" ++ fmtUint 10 off ++ b!"] " ++ decU d.count ++
      b!" instances, starting at offset " ++ decU d.offset ++ b!"\n") ;;
    pShort D d.shorttext ;;
    pLong D d.longtext ;;
    pDone

/-- `writeMetric` (mmvdump/writer.go:74-128). -/
def pMetric (D : Result) (off : Nat) : Pr :=
  match mget D.metrics off with
  | none => pPanic
  | some m =>
    match printName D m.name with
    | none => pPanic
    | some n =>
      fprintf (b!"\t[" ++ decU m.item ++ b!"/" ++ fmtUint 10 off ++ b!"] " ++ n ++ b!"\n") ;;
      fprintf (b!"\t\ttype=" ++ typeString m.typ ++ b!" (0x" ++ hexI m.typ ++ b!"), sem=" ++ semString m.sem ++ b!" (0x" ++
        hexI m.sem ++ b!"), pad=0x" ++ hexU m.padding ++ b!"\n") ;;
      fprintf (b!"\t\tunits=" ++ unitString m.unit ++ b!"\n") ;;
      (if m.indom = -1 then fprintf b!"\t\t(no indom)\n"
       else fprintf (b!"\t\tindom=" ++ decI m.indom ++ b!"\n")) ;;
      pShort D m.shorttext ;;
      pLong D m.longtext ;;
      pDone

/-- `writeValue` (mmvdump/writer.go:130-173). -/
def pValue (P : FloatFmt) (D : Result) (off : Nat) : Pr :=
  match mget D.values off with
  | none => pPanic
  | some v =>
    match mget D.metrics v.metric.toNat with
    | none => pPanic
    | some m =>
      match printName D m.name with
      | none => pPanic
      | some n =>
        fprintf (b!"\t[" ++ decU m.item ++ b!"/" ++ fmtUint 10 off ++ b!"] " ++ n) ;;
        (match if m.typ ≠ 6 then fixedVal v.val m.typ else (payload D v.extra).map GoVal.str with
         | none => pErr
         | some a =>
           (if m.indom ≠ -1 ∧ m.indom ≠ 0 then
              match mget D.instances v.inst.toNat with
              | none => pPanic
              | some i =>
                match printName D i.external with
                | none => pPanic
                | some iname => fprintf (b!"[" ++ decI i.internal ++ b!" or \"" ++ iname ++ b!"\"]")
            else pDone) ;;
           fprintf (b!" = " ++ fmtVal P a ++ b!"\n"))

/-- `writeString` (mmvdump/writer.go:175-178). -/
def pString (D : Result) (off : Nat) : Pr :=
  match mget D.strings off with
  | none => pPanic
  | some s => fprintf (b!"\t[" ++ fmtUint 10 off ++ b!"] " ++ s.payload ++ b!"\n")

/-- What the switch sets (mmvdump/writer.go:207-228): the word for the items, their size and their function. -/
def pChoose (P : FloatFmt) (D : Result) (t : BitVec 32) (prev : List Byte × Nat × (Nat → Pr)) :
    List Byte × Nat × (Nat → Pr) :=
  if t = 2 then (b!"instances", if D.header.version = 1 then 80 else 24, pInstance D)
  else if t = 1 then (b!"indoms", 32, pIndom D)
  else if t = 3 then (b!"metric", if D.header.version = 1 then 104 else 48, pMetric D)
  else if t = 4 then (b!"values", 32, pValue P D)
  else if t = 5 then (b!"strings", 256, pString D)
  else prev

/-- The loop over the items (mmvdump/writer.go:234-238). -/
def pItems (f : Nat → Pr) (size : Nat) : Nat → Nat → Pr
  | 0, _ => pDone
  | n + 1, off => f off ;; pItems f size n ((off + size) % 2 ^ 64)

/-- The loop over the sections (mmvdump/writer.go:206-245). -/
def pSections (P : FloatFmt) (D : Result) : List Toc → Nat → Nat → List Byte × Nat × (Nat → Pr) → Pr
  | [], _, _, _ => pDone
  | t :: ts, ti, toff, prev =>
    let c := pChoose P D t.type prev
    fprintf (b!"TOC[" ++ fmtUint 10 ti ++ b!"], offset: " ++ fmtUint 10 toff ++ b!", " ++ c.1 ++ b!" offset: " ++
      decU t.offset ++ b!" (" ++ decI t.count ++ b!" entries)\n") ;;
    pItems c.2.2 c.2.1 t.count.toInt.toNat t.offset.toNat ;;
    fprintf b!"\n" ;;
    pSections P D ts (ti + 1) (toff + 16) c

/-- `Write` (mmvdump/writer.go:252-274); before the first section the word is empty, the size 0 and the
function nil (mmvdump/writer.go:190-196). -/
def pWrite (P : FloatFmt) (D : Result) : Pr :=
  fprintf (b!"Version   = " ++ decI D.header.version ++ b!"\nGenerated = " ++ decU D.header.g1 ++ b!"\nToc Count = " ++
    decI D.header.toc ++ b!"\nCluster   = " ++ decI D.header.cluster ++ b!"\nProcess   = " ++ decI D.header.process ++
    b!"\nFlags     = 0x" ++ hexI D.header.flag ++ b!"\n\n") ;;
  pSections P D D.tocs 0 40 ([], 0, fun _ => pPanic)

end Speed.Dump
