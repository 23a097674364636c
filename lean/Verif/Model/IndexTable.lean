/-
The table of the index, printed for the user: docstruct.py:72-141 `pprint_index`. A text is the list of its lines.
-/
import Verif.Model.Pprint
import Verif.Model.Display

namespace Pdf

/-- docstruct.py:84-85: what the row has shown last: `o_gen`, `o_ver` and `doc_ver`; `abs_pos`; `env_num` and `o_pos`. The empty
texts are `none`; `'-'` (no position) is `some none`. -/
structure RowSeen where
  ids : Option (Int × Nat × Nat) := none
  pos : Option (Option Pos) := none
  env : Option Nat × Option Nat := (none, none)

/-- `x.get('o_gen')`; that of the end marker, which is not kept in the model (filestruct.py:297), is -1. -/
def Entry.genShown (e : Entry) : Int := if e.num = -1 then -1 else e.gen

/-- `f"{x.get('abs_pos', '-')}"`. -/
def posShown [FloatText] : Option Pos → Bytes
  | none => b!"-"
  | some (.at n) => intDec n
  | some (.tup env rank) => b!"(" ++ natDec env ++ b!", " ++ natDec rank ++ b!")"
  | some (.emb loc rank) => FloatText.text loc rank

/-- docstruct.py:106. -/
def idsText (x : Int × Nat × Nat) : Bytes := intDec x.1 ++ b!"/" ++ natDec x.2.1 ++ b!"/" ++ natDec x.2.2

/-- docstruct.py:102-106: the version. -/
def cellIds (s : RowSeen) (e : Entry) : Bytes × RowSeen :=
  let ids := (e.genShown, e.ver, e.docVer)
  if e.deleted then (b!"Deleted ", s)
  else if s.ids ≠ some ids then (idsText ids, { s with ids := some ids })
  else (b!"idem", s)

/-- docstruct.py:107-109: the position. Two positions are compared as pairs when they are floats (`Pos`). -/
def cellPos [FloatText] (e : Entry) (c : Bytes × RowSeen) : Bytes × RowSeen :=
  if c.2.pos ≠ some e.absPos then (c.1 ++ b!" " ++ posShown e.absPos, { c.2 with pos := some e.absPos }) else c

/-- docstruct.py:110-112: the object stream. -/
def cellEnv (e : Entry) (c : Bytes × RowSeen) : Bytes × RowSeen :=
  if c.2.env ≠ (e.envNum, e.oPos) then
    (c.1 ++ b!" " ++ (match e.envNum with | some n => natDec n | none => []), { c.2 with env := (e.envNum, e.oPos) })
  else c

/-- docstruct.py:95-112: the cell of an entry. -/
def entryCell [FloatText] (s : RowSeen) (e : Entry) : Bytes × RowSeen := cellEnv e (cellPos e (cellIds s e))

/-- docstruct.py:87-113: the cell of the object `i` in a revision. -/
def indexCell [FloatText] (s : RowSeen) (rev : Rev) (i : Nat) : Bytes × RowSeen :=
  match rev[i]? with
  | none => (b!"-", s)
  | some .hole => (b!"idem", s)
  | some (.one e) => entryCell s e
  | some (.many []) => (b!"idem", s)
  | some (.many (e :: _)) => entryCell s e

/-- docstruct.py:86-113: the row of the object `i`, revision by revision. -/
def indexRow [FloatText] (i : Nat) : RowSeen → List Rev → List Bytes
  | _, [] => []
  | s, rev :: revs => let (c, s) := indexCell s rev i; c :: indexRow i s revs

/-- docstruct.py:81, 114-115: the width of each column. -/
def tableWidths (ver : Nat) (rows : List (List Bytes)) : List Nat :=
  (List.range ver).map fun j => rows.foldl (fun m r => max m (r.getD j []).length) 1

/-- docstruct.py:119, 126: `f"| {cell:{max}} "` for each column. -/
def indexColumns : List Nat → List Bytes → Bytes
  | w :: ws, c :: cs => b!"| " ++ padRight w c ++ b!" " ++ indexColumns ws cs
  | _, _ => []

/-- docstruct.py:121-127, 129-139: the lines of the trailer: the label, then (on a line of its own when `compact`) the columns. -/
def trailerLines (compact : Bool) (label columns : Bytes) : List Bytes :=
  if compact then [padRight 7 label, List.replicate 7 32 ++ columns] else [padRight 17 label ++ columns]

/-- docstruct.py:134-137: the value of a key of the trailer of a revision; `get` is the text of the value, if any. -/
def trailerValue (get : Entry → Option Bytes) (rev : Rev) : Py Bytes :=
  match (rev[0]? : Option Slot) with
  | none => .error .indexError
  | some .hole => .error .attributeError
  | some (.many _) => .ok b!"multiple "
  | some (.one e) => .ok ((get e).getD b!"-" ++ b!" ")

/-- docstruct.py:129: the keys. -/
def trailerKeys [FloatText] : List (Bytes × (Entry → Option Bytes)) :=
  [(b!"abs_pos", fun e => e.absPos.map fun p => posShown (some p)), (b!"startxref_pos", fun e => e.startxrefPos.map intDec),
    (b!"xref_table_pos", fun e => e.xrefTablePos.map intDec), (b!"xref_stream_pos", fun e => e.xrefStreamPos.map intDec),
    (b!"xref_stream_num", fun e => e.xrefStreamNum.map intDec)]

/-- docstruct.py:72-141 `pprint_index`: the lines. -/
def indexTable [FloatText] (compact : Bool) (doc : Doc) : Py (List Bytes) := do
  let w := if compact then 7 else 17
  let nb := doc.cur.length
  let rows := (List.range nb).map fun i => indexRow i {} doc.index
  let maxs := tableWidths doc.index.length rows
  let row0 ← orRaise .indexError rows[0]?
  let keys ← trailerKeys.mapM fun k => do
    let vals ← doc.index.mapM (trailerValue k.2)
    .ok (trailerLines compact k.1 (indexColumns maxs vals))
  .ok (((List.range nb).zip rows).tail.map (fun r => padRight w (natDec r.1) ++ indexColumns maxs r.2) ++ [[]] ++
    trailerLines compact b!"0 (trailer)" (indexColumns maxs row0) ++ keys.flatten)

end Pdf
