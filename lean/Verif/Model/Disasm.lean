/-
The command `disasm`: the lines of the disassembly of a file and their layout in columns.
-/
import Verif.Model.FileMap
import Verif.Model.Load

namespace Pdf

/-- The value of a column of a line: missing or `None`, an `int`, a `str`. -/
inductive Cell
  | none_
  | int (n : Int)
  | str (s : Bytes)
  deriving DecidableEq, Repr

/-- A line built by `dump_disasm`, without the last column `detail` (keys of dictionaries, begin of comments). -/
structure DLine where
  macroInd : Cell
  pos : Cell := .none_
  size : Cell := .none_
  ratio : Cell := .none_
  filters : Cell := .none_
  seqNum : Cell := .none_
  envIref : Cell := .none_
  st : Cell := .none_
  regionType : Cell
  iref : Cell := .none_
  addrMode : Cell := .none_
  addr : Cell := .none_
  cl : Cell := .none_
  deriving DecidableEq, Repr

/-- cli.py:119-139: the text of one filter. -/
def filterInLine (f : Obj) : Bytes :=
  b!"_" ++
  match f with
  | .str s =>
    if s = b!"/ASCIIHexDecode" then b!"AHex"
    else if s = b!"/ASCII85Decode" then b!"A85"
    else if s = b!"/LZWDecode" then b!"LZW"
    else if s = b!"/FlateDecode" then b!"Flate"
    else if s = b!"/RunLengthDecode" then b!"RunL"
    else if s = b!"/CCITTFaxDecode" then b!"Fax"
    else if s = b!"/JBIG2Decode" then b!"JBIG2"
    else if s = b!"/DCTDecode" then b!"DCT"
    else if s = b!"/JPXDecode" then b!"JPX"
    else if s = b!"/Crypt" then b!"Crypt"
    else []
  | _ => []

/-- cli.py:113-140 `filters_in_line`; `none` (no `/Filter`) is `None`, which matches no name. -/
def filtersInLine : Option Obj → Bytes
  | some (.list l) => l.flatMap filterInLine
  | some o => filterInLine o
  | none => filterInLine .null

/-- cli.py:201: the positions of the direct objects which are not indexed. -/
def dirNotIndexed (un : List (Option Target)) : List Int :=
  un.filterMap fun t => match t with | some (.dir _ _ p) => some p | _ => none

/-- cli.py:202: the pairs envelope, object number of the embedded objects which are not indexed. (A number which is
not an integer equals none.) -/
def embNotIndexed (un : List (Option Target)) : List (Int × Int) :=
  un.filterMap fun t => match t with | some (.emb n e _) => some (e, n) | _ => none

/-- cli.py:241-244, 313-316: the last items of the wrong targets of a section. -/
def wrongAddrs (wrong : Option Int → Option (List Target)) (pos : Option Int) : List Int :=
  match wrong pos with
  | some l => l.map fun t => match t with | .dir _ _ p => p | .emb _ _ r => r
  | none => []

/-- cli.py:209-214, with positions: the size of a region, `None` when its begin is. -/
def sizeCell (b : Option Nat) (e : Nat) : Cell :=
  match b with
  | none => .none_
  | some b => .int ((e : Int) - b)

/-- A position, or `None`. -/
def posCell : Option Nat → Cell
  | none => .none_
  | some b => .int b

/-- cli.py:245-264: the line of an entry of a table. -/
def tableLine (wt : List Int) : XRow → List DLine
  | .sub _ _ => []
  | .entry offset num gen kw =>
    [{ macroInd := .str b!"-", regionType := .str b!"xref", iref := .str (intDec num ++ b!"," ++ intDec gen),
       addr := .int offset, cl := .str (if kw = b!"n" then b!"inuse" else b!"free"),
       st := .str (if offset ∈ wt then b!"-?" else b!"-@") }]

/-- cli.py:317-338: the line of an entry of a cross-reference stream. -/
def streamLine (wt : List Int) (x : XSRow) : DLine :=
  { macroInd := .str b!"-", regionType := .str b!"xref", iref := .str (intDec x.num ++ b!"," ++ natDec x.gen),
    addrMode := .str (match x.env with | none => b!"abs" | some e => natDec e ++ b!","),
    addr := .int x.offset, cl := .str (if x.kw = b!"n" then b!"inuse" else b!"free"),
    st := .str (if (x.offset : Int) ∈ wt then b!"-?" else b!"-@") }

/-- cli.py:287-303: the kind of an object. -/
def classOf : Obj → Bytes
  | .dict _ => b!"dict"
  | .stream _ _ _ => b!"stream"
  | .list _ => b!"array"
  | .int _ => b!"int"
  | _ => b!"other"

/-- cli.py:292-297: the compression ratio, computed with floats: `pct encoded plain` is the text of
`int(encoded / plain * 100)` followed by `%`. -/
def ratioOf (pct : Nat → Nat → Bytes) : Obj → Bytes
  | .stream _ data enc => if data.length = 0 then b!"!!" else pct enc.length data.length
  | _ => []

/-- cli.py:298: the filters of a stream. -/
def filtersOf : Obj → Bytes
  | .stream d _ _ => filtersInLine (Dict.get? d b!"/Filter")
  | _ => []

/-- cli.py:206-343: the lines of one item of the file map. Not modelled: trailers which are not dictionaries,
object streams numbered 0, embedded objects whose number is not an integer. -/
def itemLines (pct : Nat → Nat → Bytes) (wrong : Option Int → Option (List Target)) (un : List (Option Target)) :
    MapItem → Py (List DLine)
  | .region (.void b e _) _ =>
    .ok [{ macroInd := .str b!"+", pos := .int b, size := sizeCell (some b) e, regionType := .str b!"void" }]
  | .region (.comment b e t) _ =>
    if t.take 4 = b!"%PDF" ∧ ¬ isAscii (t.take 8) then .error .unicodeError
    else .ok [{ macroInd := .str b!"+", pos := .int b, size := sizeCell (some b) e, regionType := .str b!"comment" }]
  | .region (.startxref b e t) _ => do
    let addr ← orRaise .valueError (pyInt t)
    .ok [{ macroInd := .str b!"+", pos := .int b, size := sizeCell (some b) e, regionType := .str b!"startxref",
           addr := .int addr }]
  | .region (.xrefTable b e _ trailer) rows =>
    match trailer with
    | .dict _ =>
      .ok ({ macroInd := .str b!"+", pos := .int b, size := sizeCell (some b) e, regionType := .str b!"xreftable" } ::
        rows.flatMap fun x => tableLine (wrongAddrs wrong (some (b : Int))) x.2.2)
    | _ => .error .outside
  | .region (.indObj b e num gen o) _ =>
    .ok [{ macroInd := .str b!"+", pos := posCell b, size := sizeCell b e, ratio := .str (ratioOf pct o),
           filters := .str (filtersOf o), seqNum := .str [], envIref := .str [], regionType := .str b!"ind_obj",
           iref := .str (intDec num ++ b!"," ++ intDec gen), cl := .str (classOf o),
           st := .str (if b.any fun (p : Nat) => decide ((p : Int) ∈ dirNotIndexed un) then b!"?-" else b!"@-") }]
  | .embedded _ actual j num o env =>
    if env = 0 then .error .outside
    else match num with
    | .int n =>
      .ok [{ macroInd := .str b!"-", pos := .int actual, ratio := .str (ratioOf pct o),
             filters := .str (filtersOf o), seqNum := .int j, envIref := .str (intDec env ++ b!","),
             regionType := .str b!"ind_obj", iref := .str (intDec n ++ b!","), cl := .str (classOf o),
             st := .str (if (env, (j : Int)) ∈ embNotIndexed un then b!"?-" else b!"@-") }]
    | _ => .error .outside
  | .xrefStream b rows _ =>
    .ok (rows.map fun x => streamLine (wrongAddrs wrong (b.map fun n => (n : Int))) x.2.2)

/-- cli.py:200-343: the lines, from the file map and the cross-reference sections. -/
def markedLines (pct : Nat → Nat → Bytes) (m : List MapItem) (seq : List (List Entry)) : Py (List DLine) := do
  let wrong ← checkIndexTargets m seq
  let un ← checkNotIndexed m seq
  let ls ← m.mapM (itemLines pct wrong un)
  .ok ls.flatten

/-- cli.py:193-345 `dump_disasm`, up to the printing of the lines. -/
def disasmLines [Zlib] (pct : Nat → Nat → Bytes) (F : Bytes) : Py (List DLine) := do
  let m ← fileObjectMap F
  let seq ← xrefSequence F
  markedLines pct m seq

/-! ### Columns -/

/-- cli.py:145-160: the columns of a line, in order, without `detail`. -/
def DLine.cells (l : DLine) : List Cell :=
  [l.macroInd, l.pos, l.size, l.ratio, l.filters, l.seqNum, l.envIref, l.st, l.regionType, l.iref, l.addrMode,
    l.addr, l.cl]

/-- cli.py:166-173: the width needed by a value. The number of digits of an `int` is computed with a logarithm,
which raises on negative numbers; it is taken to be exact. -/
def Cell.width : Cell → Py Nat
  | .none_ => .ok 0
  | .int n => if n < 0 then .error .valueError else .ok (natDec n.toNat).length
  | .str s => .ok s.length

/-- cli.py:162-173: the widths of the columns, from the widths `ws`. -/
def growWidths : List Nat → List Cell → Py (List Nat)
  | w :: ws, c :: cs => do
    let n ← c.width
    let rest ← growWidths ws cs
    .ok ((if w < n then n else w) :: rest)
  | ws, _ => .ok ws

/-- cli.py:162-173: the loop over the lines. -/
def columnWidths : List DLine → List Nat → Py (List Nat)
  | [], ws => .ok ws
  | l :: ls, ws => do
    let ws ← growWidths ws l.cells
    columnWidths ls ws

/-- Blanks. -/
def blanks (n : Nat) : Bytes := List.replicate n 32

/-- `f"{v:{sz}}"`: a `str` is aligned on the left, an `int` on the right. -/
def cellText (w : Nat) : Cell → Bytes
  | .none_ => blanks w
  | .int n => blanks (w - (intDec n).length) ++ intDec n
  | .str s => s ++ blanks (w - s.length)

/-- `f"{v:0{sz}d}"`, or blanks; the values are `int`s which are not negative. -/
def numText (w : Nat) : Cell → Bytes
  | .int n => natPad w n.toNat
  | _ => blanks w

/-- cli.py:174-189: the text of one line, `detail` left out. -/
def lineText (ws : List Nat) (l : DLine) : List Bytes :=
  match ws with
  | [w0, w1, w2, w3, w4, w5, w6, w7, w8, w9, w10, w11, w12] =>
    [cellText w0 l.macroInd ++ b!" ", numText w1 l.pos ++ b!" ",
      (match l.size with
       | .int n => b!"[" ++ intDec n ++ blanks (w2 - (intDec n).length) ++ b!"] "
       | _ => blanks (w2 + 3)),
      cellText w3 l.ratio ++ b!" ", cellText w4 l.filters ++ b!" ", cellText w5 l.seqNum ++ b!" ",
      cellText w6 l.envIref ++ b!" ", cellText w7 l.st ++ b!" ", cellText w8 l.regionType ++ b!" ",
      cellText w9 l.iref ++ b!" ", cellText w10 l.addrMode ++ b!" ", numText w11 l.addr ++ b!" ",
      cellText w12 l.cl ++ b!" "]
  | _ => []

/-- cli.py:143-190 `print_disasm_columns`, in the default mode: the texts of the columns of each line, `detail` left
out. -/
def disasmColumns (ls : List DLine) : Py (List (List Bytes)) := do
  let ws ← columnWidths ls (List.replicate 13 1)
  .ok (ls.map (lineText ws))

end Pdf
