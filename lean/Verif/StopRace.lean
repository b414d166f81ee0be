import Verif.PropsConc
/-
`Stop` of a client while goroutines call operations of its metrics.

`Stop` (client.go:627-646) holds the mutex of the client, and unmaps the memory
(bytewriter/memorymappedwriter.go:70-87). The operations of metrics hold the mutex of their metric (`Mutex`). No
mutex is common to both, so the unmapping can come between any two accesses. The mapped memory is read and
written by `MProc.byte` only: a goroutine about to do so when the memory is gone faults, and the process dies.

Simplification: everything else that `Stop` does concerns the client, its writer and the file, which the
operations do not use.
-/
namespace Speed

section
variable {H R Me : Type}

/-- The goroutines, and whether the memory is still mapped. -/
structure USt (H R Me : Type) where
  s : LSt H R Me
  mapped : Bool

/-- One step of a goroutine, or the unmapping by `Stop` (client.go:639). -/
inductive UStep (M : Meths H R Me) (u : Nat → Upd) : USt H R Me → USt H R Me → Prop
  | op {S S' b} : LStep M u S S' → UStep M u ⟨S, b⟩ ⟨S', b⟩
  | unmap {S} : UStep M u ⟨S, true⟩ ⟨S, false⟩

inductive UReach (M : Meths H R Me) (u : Nat → Upd) (s : USt H R Me) : USt H R Me → Prop
  | refl : UReach M u s s
  | tail {t t'} : UReach M u s t → UStep M u t t' → UReach M u s t'

/-- A goroutine is about to write to memory that is not mapped any more. -/
def USt.Faults (T : USt H R Me) : Prop :=
  T.mapped = false ∧ ∃ (i : Nat) (m : Nat) (w : Bool) (a : Nat) (b : Byte) (p : MProc H R) (k : Ans R → Cli R Me),
    T.s.thr[i]? = some (.inn m w (.byte a b p) k)

/-- A goroutine that only reads values from now on. -/
def Thr.Reads (wr : Me → Bool) : Thr H R Me → Prop
  | .out c => c.All fun _ me => wr me = false
  | .inn _ w _ k => w = false ∧ ∀ a, (k a).All fun _ me => wr me = false

theorem LStep.reads {M : Meths H R Me} {u : Nat → Upd} {S S' : LSt H R Me} (h : LStep M u S S')
    (hr : ∀ t ∈ S.thr, t.Reads M.wr) : ∀ t ∈ S'.thr, t.Reads M.wr := by
  have key : ∀ (i : Nat) (x : Thr H R Me), x.Reads M.wr → ∀ t ∈ S.thr.set i x, t.Reads M.wr := by
    intro i x hx t ht
    rcases List.mem_or_eq_of_mem_set ht with ht | rfl
    · exact hr t ht
    · exact hx
  cases h with
  | lock hi hw hl =>
    have := hr _ (List.mem_of_getElem? hi)
    rw [Thr.Reads, Cli.All, hw] at this
    cases this.1
  | rlock hi hw hl =>
    have := hr _ (List.mem_of_getElem? hi)
    exact key _ _ ⟨rfl, this.2⟩
  | access hi hp =>
    have := hr _ (List.mem_of_getElem? hi)
    exact key _ _ this
  | unlock hi => exact key _ _ ((hr _ (List.mem_of_getElem? hi)).2 _)
  | runlock hi hl => exact key _ _ ((hr _ (List.mem_of_getElem? hi)).2 _)

theorem LReach.reads {M : Meths H R Me} {u : Nat → Upd} {S S' : LSt H R Me} (h : LReach M u S S')
    (hr : ∀ t ∈ S.thr, t.Reads M.wr) : ∀ t ∈ S'.thr, t.Reads M.wr := by
  induction h with
  | refl => exact hr
  | tail _ hs ih => exact hs.reads ih

theorem UReach.of_ops {M : Meths H R Me} {u : Nat → Upd} {a : LSt H R Me} {s : USt H R Me} (h : UReach M u s ⟨a, b⟩)
    {c : LSt H R Me} (h' : LReach M u a c) : UReach M u s ⟨c, b⟩ := by
  induction h' with
  | refl => exact h
  | tail _ hs ih => exact .tail ih (.op hs)

/-- Before the unmapping the goroutines do what they do without `Stop`. -/
theorem UReach.before {M : Meths H R Me} {u : Nat → Upd} {a : LSt H R Me} {T : USt H R Me} (h : UReach M u ⟨a, true⟩ T)
    (hm : T.mapped = true) : LReach M u a T.s := by
  induction h with
  | refl => exact .refl
  | tail h hs ih =>
    cases hs with
    | op hs => exact .tail (ih hm) hs
    | unmap => cases hm

/-- And after it, as long as nobody faults. -/
theorem UReach.after {M : Meths H R Me} {u : Nat → Upd} {a : LSt H R Me} {T : USt H R Me} (h : UReach M u ⟨a, false⟩ T) :
    T.mapped = false ∧ LReach M u a T.s := by
  generalize hx : (⟨a, false⟩ : USt H R Me) = x at h
  induction h with
  | refl => subst hx; exact ⟨rfl, .refl⟩
  | tail h hs ih =>
    cases hs with
    | op hs => exact ⟨ih.1, .tail ih.2 hs⟩
    | unmap => cases ih.1

/-- A run that ends after the unmapping consists of a run before it and a run after it. -/
theorem UReach.split {M : Meths H R Me} {u : Nat → Upd} {a : LSt H R Me} {T : USt H R Me} (h : UReach M u ⟨a, true⟩ T)
    (hm : T.mapped = false) : ∃ S, LReach M u a S ∧ UReach M u ⟨S, false⟩ T := by
  induction h with
  | refl => cases hm
  | tail h hs ih =>
    cases hs with
    | op hs =>
      obtain ⟨S, h1, h2⟩ := ih hm
      exact ⟨S, h1, .tail h2 (.op hs)⟩
    | unmap => exact ⟨_, h.before rfl, .refl⟩

end

end Speed
