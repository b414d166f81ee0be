import Verif.PropsLive
import Verif.Config
/-
The life of a client: creation, registration, `Start`, value operations and `Stop`, in any order, with any
failures of the system calls that `Start` and `Stop` make.

Calls are sequential here: each runs to its end before the next one begins. (The goroutines inside one
`Start` are interleaved arbitrarily; concurrent calls are the subject of `Mutex`, `RegConc`, `SetStart` and `Clients`.)
-/
namespace Speed

/-! ### Files -/

/-- What the library uses of the file system: directory entries (path to file number), contents of files,
open handles and live mappings (each given by the number of its file; the library maps a file at most
once). A shared mapping and its file have the same bytes. A file outlives its name. -/
structure FS where
  names : Str → Option Nat
  data : Nat → Buf
  next : Nat
  handles : List Nat
  maps : List Nat

/-- Results of the system calls of one `NewMemoryMappedWriter`. `written` is the number of bytes that
`f.Write` writes. -/
structure StartOS where
  statErr : Bool
  removeErr : Bool
  mkdirErr : Bool
  openErr : Bool
  written : Nat
  writeErr : Bool
  mmapErr : Bool

/-- All calls succeed. -/
def StartOS.fine (size : Nat) : StartOS := ⟨false, false, false, false, size, false, false⟩

/-- `os.Remove(loc)`, when it succeeds. -/
def FS.remove (fs : FS) (loc : Str) : FS := { fs with names := fset fs.names loc none }

/-- `os.OpenFile(loc, O_CREATE|O_RDWR|O_EXCL, 0644)`, when it succeeds: a new empty file and a handle. -/
def FS.create (fs : FS) (loc : Str) : FS :=
  { fs with
    names := fset fs.names loc (some fs.next)
    data := fset fs.data fs.next []
    next := fs.next + 1
    handles := fs.next :: fs.handles }

/-- The rest of `NewMemoryMappedWriter` (bytewriter/memorymappedwriter.go:28-59), once an old file has been
removed. `O_EXCL` makes the open fail if the path exists. The handle of a file whose writing or mapping
failed is not closed. (Go would close it when the garbage collector finalizes the `os.File`, which is not
modelled.) -/
def openMMW (fs : FS) (loc : Str) (size : Nat) (os : StartOS) : FS × Option Nat :=
  if os.mkdirErr then (fs, none)
  else if os.openErr || (fs.names loc).isSome then (fs, none)
  else
    let n := fs.next
    let fs := fs.create loc
    let fs := { fs with data := fset fs.data n (zeros (min os.written size)) }
    if os.writeErr then (fs, none)
    else if os.written < size then (fs, none)
    else if os.mmapErr then (fs, none)
    else ({ fs with maps := n :: fs.maps }, some n)

/-- `NewMemoryMappedWriter` (bytewriter/memorymappedwriter.go:20-60): the files after it and the mapped
file, `none` if it returned an error. -/
def newMMW (fs : FS) (loc : Str) (size : Nat) (os : StartOS) : FS × Option Nat :=
  if !os.statErr && (fs.names loc).isSome then
    if os.removeErr then (fs, none) else openMMW (fs.remove loc) loc size os
  else openMMW fs loc size os

/-- Results of the system calls of one `Unmap`. -/
structure StopOS where
  munmapErr : Bool
  closeErr : Bool
  removeErr : Bool
  deriving DecidableEq

/-- `(*MemoryMappedWriter).Unmap(removefile)` (bytewriter/memorymappedwriter.go:62-79): the files after it
and whether it succeeded. -/
def FS.unmap (fs : FS) (n : Nat) (loc : Str) (erase : Bool) (os : StopOS) : FS × Bool :=
  if os.munmapErr then (fs, false)
  else
    let fs := { fs with maps := fs.maps.erase n }
    if os.closeErr then (fs, false)
    else
      let fs := { fs with handles := fs.handles.erase n }
      if erase then
        if os.removeErr || (fs.names loc).isNone then (fs, false) else (fs.remove loc, true)
      else (fs, true)

/-! ### Clients -/

/-- `PCPClient` (client.go:102-118). The registry is shared, so it is not in here; the channels exist only
during `start`. `writer` is the file of the mapped writer. -/
structure Client where
  loc : Str
  clusterID : BitVec 32
  flag : BitVec 64
  writer : Option Nat
  deriving DecidableEq

/-- `NewPCPClientWithRegistry` (client.go:127-139). -/
def newClient (cf : Conf) (tmp name : Str) : Option Client :=
  (mmvFileLocation cf tmp name).map fun loc => ⟨loc, hash name PCPClusterIDBitLength, 2, none⟩

/-- A registry, the clients made for it, and the files. `upd` gives for a metric object the writer and the
offsets that its `update` closures hold, if a `Start` has set them (metrics.go:543, client.go:517, 543).
`crashed`: the process has died. -/
structure Sys where
  fs : FS
  reg : Reg
  clients : List Client
  upd : Nat → Option (Nat × Upd)
  crashed : Bool

/-- No clients, an empty registry, and any files. -/
def Sys.init (fs : FS) : Sys := ⟨fs, Reg.empty, [], fun _ => none, false⟩

/-- `SetFlag` (client.go:147-157). -/
def Sys.setFlag (w : Sys) (i : Nat) (c : Client) (flag : BitVec 64) : Sys × Ans Unit :=
  if w.reg.mapped then (w, .err) else ({ w with clients := w.clients.set i { c with flag := flag } }, .ok ())

/-- The system after `start` has returned in a client whose writer has mapped file `n`: the file has the
bytes that `start` wrote, and the `update` closures of the published metrics write to it
(client.go:206-209). -/
def Sys.started (w : Sys) (i : Nat) (c : Client) (fs : FS) (n : Nat) (s : St) : Sys :=
  { w with
    fs := { fs with data := fset fs.data n s.mem }
    reg := { w.reg with mapped := true }
    clients := w.clients.set i { c with writer := some n }
    upd := fun uid => if uid ∈ w.reg.metrics.map (·.uid) then some (n, fun sl => s.cells (.upd uid sl)) else w.upd uid }

/-- `Stop` (client.go:627-646). The type assertion on a nil writer panics, after `mapped` is reset. -/
def Sys.stop (w : Sys) (i : Nat) (c : Client) (erase : Bool) (os : StopOS) : Sys × Ans Unit :=
  if w.reg.mapped = false then (w, .err)
  else
    let w := { w with reg := { w.reg with mapped := false } }
    match c.writer with
    | none => (w, .panic)
    | some n =>
      let x := w.fs.unmap n c.loc erase os
      ({ w with fs := x.1, clients := w.clients.set i { c with writer := none } }, if x.2 then .ok () else .err)

/-- The registry after the object of the metric registered as `name` has changed. -/
def Reg.replace (r : Reg) (name : Str) (m' : Metric) : Reg :=
  { r with metrics := r.metrics.map (fun x => if x.desc.name = name then m' else x) }

/-- The operation neither reads nor writes the mapped memory. -/
def NoTouch {α : Type} (op : MOp α) (u : Upd) (m : Metric) (m' : Metric) (a : Ans α) : Prop :=
  ∀ mem, op u ⟨m, mem⟩ = (⟨m', mem⟩, a)

/-- The calls of a program. `start` carries the generation stamp (time), the process id and the results of
system calls; `stop` the value of `EraseFileOnStop`. -/
inductive COp where
  | new (name : Str)
  | setFlag (i : Nat) (flag : BitVec 64)
  | reg (op : ROp)
  | call (name : Str) (c : Call)
  | start (i : Nat) (gen pid : BitVec 64) (os : StartOS)
  | stop (i : Nat) (erase : Bool) (os : StopOS)

/-- One call and its result. Not a function because of the schedule and the map orders in `start`. A `start`
that does not return has no step. Registration goes through the registry only (client.go:662-686), so it
does not matter which client does it; `.mapped` is not a call. -/
inductive CStep (cf : Conf) (tmp : Str) (parse : Str → Option (Str × Str × Option (List Str))) :
    Sys → COp → Sys → Ans Unit → Prop
  | new_err {w name} : w.crashed = false → newClient cf tmp name = none → CStep cf tmp parse w (.new name) w .err
  | new_ok {w name c} : w.crashed = false → newClient cf tmp name = some c →
      CStep cf tmp parse w (.new name) { w with clients := w.clients ++ [c] } (.ok ())
  | setFlag {w i c flag} : w.crashed = false → w.clients[i]? = some c →
      CStep cf tmp parse w (.setFlag i flag) (w.setFlag i c flag).1 (w.setFlag i c flag).2
  | reg {w op} : w.crashed = false → (∀ b, op ≠ .mapped b) → HOp.Made (.reg op) →
      CStep cf tmp parse w (.reg op) { w with reg := (op.apply parse w.reg).reg } (if (op.apply parse w.reg).ok then .ok () else .err)
  /- a metric that was never published has no closures -/
  | call_free {w name m c} : w.crashed = false → m ∈ w.reg.metrics → m.desc.name = name → w.upd m.uid = none →
      CStep cf tmp parse w (.call name c)
        { w with reg := w.reg.replace name (c.op (fun _ => none) ⟨m, []⟩).1.m } (c.op (fun _ => none) ⟨m, []⟩).2
  /- the closures write to the file of the last `start` -/
  | call_live {w name m c n u} : w.crashed = false → m ∈ w.reg.metrics → m.desc.name = name →
      w.upd m.uid = some (n, u) → n ∈ w.fs.maps →
      CStep cf tmp parse w (.call name c)
        { w with
          reg := w.reg.replace name (c.op u ⟨m, w.fs.data n⟩).1.m
          fs := { w.fs with data := fset w.fs.data n (c.op u ⟨m, w.fs.data n⟩).1.mem } } (c.op u ⟨m, w.fs.data n⟩).2
  /- the mapping is gone, but the operation does not use it -/
  | call_dead {w name m c n u m' a} : w.crashed = false → m ∈ w.reg.metrics → m.desc.name = name →
      w.upd m.uid = some (n, u) → n ∉ w.fs.maps → NoTouch c.op u m m' a →
      CStep cf tmp parse w (.call name c) { w with reg := w.reg.replace name m' } a
  /- an access to unmapped memory kills the process -/
  | call_crash {w name m c n u} : w.crashed = false → m ∈ w.reg.metrics → m.desc.name = name →
      w.upd m.uid = some (n, u) → n ∉ w.fs.maps → (∀ m' a, ¬ NoTouch c.op u m m' a) →
      CStep cf tmp parse w (.call name c) { w with crashed := true } .panic
  | start_err {w i c gen pid os fs} : w.crashed = false → w.clients[i]? = some c →
      newMMW w.fs c.loc w.reg.Length os = (fs, none) →
      CStep cf tmp parse w (.start i gen pid os) { w with fs := fs } .err
  | start_ok {w i c gen pid os fs n o cells s} : w.crashed = false → w.clients[i]? = some c →
      newMMW w.fs c.loc w.reg.Length os = (fs, some n) → o.OK w.reg →
      Reach (initSt w.reg ⟨c.flag, c.clusterID, gen, pid⟩ o cells) s → Returned s →
      CStep cf tmp parse w (.start i gen pid os) (w.started i c fs n s) (.ok ())
  | start_crash {w i c gen pid os fs n o cells s} : w.crashed = false → w.clients[i]? = some c →
      newMMW w.fs c.loc w.reg.Length os = (fs, some n) → o.OK w.reg →
      Reach (initSt w.reg ⟨c.flag, c.clusterID, gen, pid⟩ o cells) s → s.crashed = true →
      CStep cf tmp parse w (.start i gen pid os) { w with crashed := true } .panic
  | stop {w i c erase os} : w.crashed = false → w.clients[i]? = some c →
      CStep cf tmp parse w (.stop i erase os) (w.stop i c erase os).1 (w.stop i c erase os).2

/-- A history. -/
inductive CSteps (cf : Conf) (tmp : Str) (parse : Str → Option (Str × Str × Option (List Str))) :
    Sys → List COp → Sys → Prop
  | nil {w} : CSteps cf tmp parse w [] w
  | cons {w op w1 res ops w2} : CStep cf tmp parse w op w1 res → CSteps cf tmp parse w1 ops w2 →
      CSteps cf tmp parse w (op :: ops) w2

end Speed
