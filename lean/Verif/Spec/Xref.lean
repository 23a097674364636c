/-
What cross-reference entries are expected to mean (C13-C16).
-/
import Verif.Model.Xref

namespace Pdf.Spec

/-- The meaning of an element handed to the writer: position in file (rank for an embedded object,
next free object number for a free one), envelope, object number, generation, keyword. -/
def entryOf (nf : List (Nat × Nat)) (e : XElem) : Nat × Option Nat × Int × Nat × Bytes :=
  if e.free then ((nf.lookup e.num).getD 0, none, e.num, e.gen + 1, b!"f")
  else if e.env.getD 0 ≠ 0 then (e.counter.getD 0, e.env, e.num, 0, b!"n")
  else (e.counter.getD 0, none, e.num, e.gen, b!"n")

/-- The row of a cross-reference table expected for an element (a table has no embedded objects). -/
def tableRow (nf : List (Nat × Nat)) (e : XElem) : XRow :=
  if e.free then .entry (((nf.lookup e.num).getD 0 : Nat) : Int) e.num ((e.gen + 1 : Nat) : Int) b!"f"
  else .entry ((e.counter.getD 0 : Nat) : Int) e.num e.gen b!"n"

/-- A run of consecutive object numbers. -/
def IsRun (block : List XElem) : Prop :=
  ∃ first, block ≠ [] ∧ block.map (·.num) = List.range' first block.length

/-- A subsection: header with the first number and the count, then the entries. -/
def subsection (nf : List (Nat × Nat)) (block : List XElem) : List XRow :=
  .sub ((block.head?.map (·.num)).getD 0 : Nat) block.length :: block.map (tableRow nf)

end Pdf.Spec
