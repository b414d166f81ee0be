import Verif.Cut
/-
Files that are cut off, and bytes after the end of a file (C91).
-/
namespace Speed
open Dump

/-- C91: A file of a running client that is cut off anywhere is refused: `Dump` returns an error,
whatever the order in which its goroutines run. -/
theorem C91_cut {e o w} (h : Active e o w) {n : Nat} (hn : n < w.mem.length) {out : DumpOut}
    (hd : Dumps (w.mem.take n) out) : out = .err := by
  obtain ⟨σ, hl, _⟩ := h.liveAt
  exact (tight_file hl.ok hl.small hl.file).cut hn hd

/-- C91: Bytes after the end of the file of a running client change nothing. -/
theorem C91_extra {e o w} (h : Active e o w) (x : List Byte) (hx : (w.mem ++ x).length < 2 ^ 63) (out : DumpOut) :
    Dumps (w.mem ++ x) out ↔ Dumps w.mem out := by
  obtain ⟨σ, hl, _⟩ := h.liveAt
  exact (tight_file hl.ok hl.small hl.file).whole.extra x hx out

/-- C91: For any bytes: a file whose sections lie within it and are listed once, and that ends with its
last section, is refused when cut off anywhere. -/
theorem C91_any {data : List Byte} (h : Tight data) {n : Nat} (hn : n < data.length) {out : DumpOut}
    (hd : Dumps (data.take n) out) : out = .err := h.cut hn hd

/-- C91: for any bytes: what follows the sections is ignored. -/
theorem C91_any_extra {data : List Byte} (h : Whole data) (x : List Byte) (hx : (data ++ x).length < 2 ^ 63) (out : DumpOut) :
    Dumps (data ++ x) out ↔ Dumps data out := h.extra x hx out

/-- The file of a client with a counter and a string metric: as it is, without its last byte, and with one byte more. -/
example : ∃ e o w, Active e o w ∧ (∃ D, Dumps w.mem (.ok D) ∧ Dumps (w.mem ++ [7]) (.ok D)) ∧ 0 < w.mem.length ∧
    Dumps (w.mem.take (w.mem.length - 1)) .err := by
  obtain ⟨e, o, w, m, m2, D, h, hm, hm2, hs, hs2, _, _, hd⟩ := active_cases
  obtain ⟨σ, hl, _⟩ := h.liveAt
  have h1 := hl.file.len
  have h2 := hl.small.length
  have h3 := Length_eq w.reg
  have hp : 0 < w.mem.length := by omega
  obtain ⟨out, ho⟩ := dumps_exists (w.mem.take (w.mem.length - 1))
  obtain rfl := C91_cut h (by omega) ho
  exact ⟨e, o, w, h, ⟨D, hd, (C91_extra h [7] (by simp only [List.length_append, List.length_singleton]; omega) _).2 hd⟩, hp, ho⟩

/-- A file with two values: whole, one byte short, and one byte too long. -/
example : fits (oneToc 4 2 56 ++ zeros 64) = true ∧ fits ((oneToc 4 2 56 ++ zeros 64).take 119) = false ∧
    fits (oneToc 4 2 56 ++ zeros 65) = true := by decide +kernel

end Speed
