/-
Texts printed for the user: the table of fonts of cli.py, the matrix of the cache, the history of the data and the
tree of pages of docstruct.py. A text is the list of its lines.
-/
import Verif.Model.Fonts
import Verif.Model.Provider
import Verif.Model.Pages

namespace Pdf
open Prog

/-- cli.py:361-362: `f"{line[i][:w]:{w}} "` for each column. -/
def tableCells : List Nat → List Bytes → Py Bytes
  | [], _ => .ok []
  | _ :: _, [] => .error .indexError
  | w :: ws, c :: cs => do
    let rest ← tableCells ws cs
    .ok (padRight w (c.take w) ++ b!" " ++ rest)

/-- cli.py:358-366 `print_generic_table`: the lines. -/
def genericTable (lines : List (List Bytes)) (widths : List Nat) : Py (List Bytes) := lines.mapM (tableCells widths)

/-- cli.py:375-379: the row of a font. -/
def fontRow (x : Ref × FontInfo) : List Bytes :=
  [x.2.name, x.2.type, x.2.encoding, intDec x.1.2 ++ b!"," ++ intDec x.1.1, natDec x.2.pages.length]

/-- cli.py:369-381 `print_fonts`, after the document is read. -/
def printFonts [Zlib] (lim : Nat) (leak : Dict) (doc : Doc) : Py (List Bytes) := do
  let ((fs, _), _) ← (fontsP lim leak).run doc
  genericTable ([b!"Name", b!"Type", b!"Encoding", b!"Obj", b!"Pages"] :: fs.map fontRow) [30, 10, 16, 8, 6]

/-- The letter of an action. -/
def actLetter : Act → UInt8
  | .a => 97
  | .u => 117
  | .d => 100

/-- docstruct.py:146-148, 154: `idx.get(i)`: the last change of the object `i`. -/
def changeLetter (cs : List Change) (i : Nat) : Option UInt8 :=
  (cs.reverse.find? fun c => c.num = i).map fun c => actLetter c.act

/-- docstruct.py:154-156: the mark of the object `i`. -/
def cacheMark (doc : Doc) (i : Nat) (o : Obj) : UInt8 :=
  match changeLetter (changes doc) i with
  | some c => c
  | none => if o = .null then 45 else 120

/-- `f"{s:>{w}}"`. -/
def padLeft (w : Nat) (s : Bytes) : Bytes := List.replicate (w - s.length) 32 ++ s

/-- docstruct.py:153-162: the loop over the cache, `line` being the text of the current line, `n` the length of the cache. -/
def cacheLoop (doc : Doc) (n : Nat) : Nat → Bytes → List Obj → List Bytes
  | _, line, [] => [line]
  | i, line, o :: os =>
    let line := line ++ [cacheMark doc i o]
    if i % 10 = 9 ∨ i = n - 1 then (padLeft 5 (natDec ((i - i % 10) / 10) ++ b!"_") ++ b!" " ++ line) :: cacheLoop doc n (i + 1) [] os
    else cacheLoop doc n (i + 1) line os

/-- docstruct.py:144-164 `pprint_cache`: the lines. -/
def cacheMatrix (doc : Doc) : List Bytes := (List.replicate 6 32 ++ b!"0123456789") :: cacheLoop doc doc.cache.length 0 [] doc.cache

/-- docstruct.py:178-179: the beginning of the name of the provider (filestruct.py:31, 44, 62; docstruct.py:525). -/
def providerName : Provider → Bytes
  | .single _ => b!"single"
  | .continuous _ => b!"continuous"
  | .dummy _ => b!"dummy"
  | .merged _ _ _ => b!"composite"

/-- docstruct.py:181-182: a length or a position, `"None"` when it is absent or 0. -/
def orNone : Option Nat → Bytes
  | some (n + 1) => natDec (n + 1)
  | _ => b!"None"

/-- docstruct.py:173-182: the four values of revision `i`. The length of an added part is shown as `"None"` when it is empty or absent,
and the cut is that of `doc.data[-i]`. -/
def historyColumn (data : List Data) (i : Nat) : Py (List Bytes) := do
  let d ← orRaise .indexError data[i]?
  let c ← orRaise .indexError data[(data.length - i) % data.length]?
  let sz ← d.fdata.size
  .ok [providerName d.fdata, natDec sz, orNone (d.bdata.map List.length), orNone c.eofCut]

/-- docstruct.py:167-188 `pprint_data_history`: the lines. -/
def dataHistory (doc : Doc) : Py (List Bytes) := do
  let hist ← (List.range doc.data.length).mapM (historyColumn doc.data)
  .ok ([(0, b!"data_f()"), (1, b!"data_sz"), (2, b!"add_data"), (3, b!"eof_cut")].map fun k =>
    padRight 10 k.2 ++ hist.flatMap fun h => b!"| " ++ padRight 10 (h.getD k.1 []) ++ b!" ")

/-- docstruct.py:206-207: the loop over the kids, `sub` being the recursive call. -/
def hierarchyKids (sub : Obj → Nat → Bytes → Prog (Bytes × Nat)) : List Obj → Nat → Bytes → Prog (Bytes × Nat)
  | [], n, accu => return (accu, n)
  | kid :: kids, n, accu => do
    let (accu, n) ← sub kid n accu
    hierarchyKids sub kids n accu

/-- docstruct.py:201: the node of an inner call. -/
def hierarchySub (iref : Obj) (accu : Bytes) : Prog (Obj × Obj × Bytes) := do
  let node ← fetch iref
  return (node, iref, accu)

/-- docstruct.py:194-199: the node of the outermost call, and the first line. -/
def hierarchyRoot (txt : Obj → Bytes) (accu : Bytes) : Prog (Obj × Obj × Bytes) := do
  let (cat, _) ← catalogP
  let r ← lift (getKey cat b!"/Pages")
  let pages ← fetch r
  let c ← lift (getKey pages b!"/Count")
  let pcount ← fetch c
  return (pages, r, accu ++ b!"Page count = " ++ txt pcount ++ b!"\n")

/-- docstruct.py:191-215 `pprint_page_hierarchy`: the text, which the outermost call prints, and the number of pages. `txt` is the text that
Python gives to an object in an f-string. `lim` is the limit on nested calls. -/
def pageHierarchy (txt : Obj → Bytes) : Nat → Obj → Nat → Nat → Bytes → Prog (Bytes × Nat)
  | 0, _, _, _, _ => .raise .recursionError
  | lim + 1, iref, n, level, accu => do
    let (node, iref, accu) ← (if truthy iref then hierarchySub iref accu else hierarchyRoot txt accu)
    let level := level + 1
    let offset := List.replicate (4 * level) 32
    let t ← lift (getKey node b!"/Type")
    if t = .str b!"/Pages" then                                                           -- 204-207
      let kids ← lift (getKey node b!"/Kids")
      let kids ← lift (iterate kids)
      hierarchyKids (fun kid n accu => pageHierarchy txt lim kid n level accu) kids n
        (accu ++ offset ++ b!" /Pages node at " ++ txt iref ++ b!", kids count = " ++ natDec kids.length ++ b!":\n")
    else if t = .str b!"/Page" then                                                       -- 208-210
      let contents ← lift (getOr node b!"/Contents")
      return (accu ++ offset ++ b!" /Page [" ++ natDec n ++ b!"] at " ++ txt iref ++ b!" with content(s) at " ++ txt contents ++ b!"\n", n + 1)
    else return (accu, n)

end Pdf
