/-
The index of a document: entries, slots, revisions.
-/
import Verif.Model.Objects

namespace Pdf

/-- Values of the key `abs_pos`: a position in the file; the pair `(env_num, rank)` of an embedded
object before the index is built (filestruct.py:222); afterwards the float
`loc + (rank + 1) / 10000` (filestruct.py:375), kept as a pair. -/
inductive Pos
  | at (n : Int)
  | tup (env : Nat) (rank : Nat)
  | emb (loc : Int) (rank : Nat)
  deriving DecidableEq, Repr

/-- An index entry, a Python dict whose keys are `o_num`, `o_gen`, `o_ver`, `doc_ver` and a subset of
`abs_pos`, `abs_next`, `env_num`, `o_pos`, `xref_table_pos`, `xref_stream_pos`, `xref_stream_num`,
`startxref_pos`, `xref_stm`, `DELETED`, `OLD_REF` (filestruct.py:178-191, 219-237, 297; docstruct.py:555, 564,
639-646, 660, 819-842). The end marker (filestruct.py:297) has `num = -1` and, here, `gen = 0`. -/
structure Entry where
  num : Int
  gen : Nat := 0
  ver : Nat := 0
  docVer : Nat := 0
  absPos : Option Pos := none
  absNext : Option Int := none
  envNum : Option Nat := none
  oPos : Option Nat := none
  xrefTablePos : Option Int := none
  xrefStreamPos : Option Int := none
  xrefStreamNum : Option Int := none
  startxrefPos : Option Int := none
  xrefStm : Bool := false
  deleted : Bool := false
  oldRef : Option Ref := none
  deriving DecidableEq, Repr

/-- A cell of the index: `None`, an entry, or (only in cell 0) a list of entries. -/
inductive Slot
  | hole
  | one (e : Entry)
  | many (es : List Entry)
  deriving DecidableEq, Repr

/-- One column of the index: the cells of a revision, by object number. -/
abbrev Rev := List Slot

/-- `slot[...]`, an access that needs a dict. -/
def Slot.entry : Slot → Py Entry
  | .one e => .ok e
  | _ => .error .typeError

/-- `'DELETED' in slot`. -/
def Slot.isDeleted : Slot → Py Bool
  | .hole => .error .typeError
  | .one e => .ok e.deleted
  | .many _ => .ok false

/-- `rev[num]`. -/
def slotAt (rev : Rev) (num : Nat) : Py Slot := orRaise .indexError rev[num]?

/-- `rev[num]`, used as a dict. -/
def entryAt (rev : Rev) (num : Nat) : Py Entry := do
  let s ← slotAt rev num
  s.entry

/-- `cache[num]`. -/
def cacheAt (cache : List Obj) (num : Nat) : Py Obj := orRaise .indexError cache[num]?

/-- `'xref_stream_num' in slot` / `slot['xref_stream_num']`. Cell 0 is never `None`. -/
def Slot.xrefStreamNum? : Slot → Option Int
  | .one e => e.xrefStreamNum
  | _ => none

end Pdf
