import Verif.Bytes
/-
Model of all methods of `ByteWriter` (bytewriter/bytewriter.go) and of writers that share memory.
-/
namespace Speed

/-- `(*ByteWriter).MustWrite` (bytewriter/bytewriter.go:49-55). -/
def bwMustWrite (b : Buf) (data : List Byte) (off : Int) : WRes := must (bwWrite b data off)

/-- `(*ByteWriter).MustWriteVal` (bytewriter/bytewriter.go:74-80). -/
def bwMustWriteVal (b : Buf) (v : GoVal) (off : Int) : WRes := must (bwWriteVal b v off)

/-- `(*ByteWriter).MustWriteString` (bytewriter/bytewriter.go:89-95). -/
def bwMustWriteString (b : Buf) (s : Str) (off : Int) : WRes := must (bwWriteString b s off)

/-- The writing methods of interface `Writer` with their first argument (bytewriter/writer.go:32-40). -/
inductive WMethod where
  | write (data : List Byte)
  | writeVal (v : GoVal)
  | writeString (s : Str)
  | writeInt32 (v : BitVec 32)
  | writeInt64 (v : BitVec 64)
  | writeUint32 (v : BitVec 32)
  | writeUint64 (v : BitVec 64)
  | writeFloat32 (v : BitVec 32)
  | writeFloat64 (v : BitVec 64)
  deriving DecidableEq, Repr

/-- A call of the method (bytewriter/bytewriter.go:34-46, 58-71, 83-86, 98-100, 108-110, 118-120, 128-130, 138-140,
148-150): the methods for numbers call `WriteVal`. -/
def WMethod.run (b : Buf) (off : Int) : WMethod → WRes
  | .write d => bwWrite b d off
  | .writeVal v => bwWriteVal b v off
  | .writeString s => bwWriteString b s off
  | .writeInt32 v => bwWriteVal b (.int32 v) off
  | .writeInt64 v => bwWriteVal b (.int64 v) off
  | .writeUint32 v => bwWriteVal b (.uint32 v) off
  | .writeUint64 v => bwWriteVal b (.uint64 v) off
  | .writeFloat32 v => bwWriteVal b (.float32 v) off
  | .writeFloat64 v => bwWriteVal b (.float64 v) off

/-- The `Must` method of the same name (bytewriter/bytewriter.go:49-55, 74-80, 89-95, 103-105, 113-115, 123-125, 133-135,
143-145, 153-155): those for numbers call `MustWriteVal`. -/
def WMethod.mustRun (b : Buf) (off : Int) : WMethod → WRes
  | .write d => bwMustWrite b d off
  | .writeVal v => bwMustWriteVal b v off
  | .writeString s => bwMustWriteString b s off
  | .writeInt32 v => bwMustWriteVal b (.int32 v) off
  | .writeInt64 v => bwMustWriteVal b (.int64 v) off
  | .writeUint32 v => bwMustWriteVal b (.uint32 v) off
  | .writeUint64 v => bwMustWriteVal b (.uint64 v) off
  | .writeFloat32 v => bwMustWriteVal b (.float32 v) off
  | .writeFloat64 v => bwMustWriteVal b (.float64 v) off

/-- A `ByteWriter` is a slice of an array: the array, kept apart, is shared by all writers made from slices of it
(`NewByteWriterSlice`, bytewriter/bytewriter.go:24-26, and `NewByteWriterSlice(w.Bytes())`, 32). -/
structure SliceWriter where
  base : Nat
  len : Nat
  deriving DecidableEq, Repr

/-- `NewByteWriterSlice(a[lo:hi])` (bytewriter/bytewriter.go:24-26): nothing is copied. The slice expression panics unless
`lo ≤ hi ≤ cap`; the capacity reaches to the end of the array. -/
def newSliceWriter (a : Buf) (lo hi : Nat) : Option SliceWriter :=
  if lo ≤ hi ∧ hi ≤ a.length then some ⟨lo, hi - lo⟩ else none

/-- `(*ByteWriter).Len` (bytewriter/bytewriter.go:29). -/
def SliceWriter.Len (w : SliceWriter) : Nat := w.len

/-- What `(*ByteWriter).Bytes` (bytewriter/bytewriter.go:32) shows: that part of the array. -/
def SliceWriter.Bytes (a : Buf) (w : SliceWriter) : Buf := (a.drop w.base).take w.len

/-- A call through one of the writers: the method sees and changes its slice of the array. -/
def SliceWriter.call (a : Buf) (w : SliceWriter) (m : WMethod) (off : Int) : Buf :=
  a.take w.base ++ (m.run (w.Bytes a) off).buf ++ a.drop (w.base + w.len)

end Speed
