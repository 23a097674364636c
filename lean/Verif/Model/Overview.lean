/-
The overview of a file: its structure and its metadata (command `overview`).
-/
import Verif.Model.Pages
import Verif.Model.Load
import Verif.Model.Text

namespace Pdf
open Prog

/-- docstruct.py:448-451 `updates`. -/
def updates (doc : Doc) : Nat := doc.index.length - 1

/-- docstruct.py:459-466 `encrypted`. -/
def encryptedP : Prog Bool := do
  let trail ← fetch (.ref 0 0)
  let e ← lift (getOr trail b!"/Encrypt")
  return truthy e

/-- docstruct.py:469-474 `hybrid`: `doc.index[1][0].get('xref_stm')`. A cell without entry has no `get`; nor has the
list of a revision with two trailers. -/
def hybrid (doc : Doc) : Py Bool :=
  match (doc.index[1]? : Option Rev) with
  | none => .ok false
  | some rev =>
    match (rev[0]? : Option Slot) with
    | none => .error .indexError
    | some (.one e) => .ok e.xrefStm
    | some _ => .error .attributeError

/-- filestruct.py:607-611: five tokens in a row; the positions of the fifth and its type. -/
def fifthToken (b : Bytes) (a0 : Nat) : Tok :=
  let (_, j, _) := nextToken b a0
  let (_, j, _) := nextToken b j
  let (_, j, _) := nextToken b j
  let (_, j, _) := nextToken b j
  nextToken b j

/-- filestruct.py:602-616 `linearized`. -/
def linearized [Zlib] (fdata : Provider) : Py (Option Dict) := do
  let (b, a0, _, _) ← fdata.read 8 (1024 - 8)
  if a0 < 0 then .error .outside
  match fifthToken b a0.toNat with
  | (i, j, some .dict) => do
    match ← parseObj (slice b i j) 0 with
    | .dict d => return if Dict.has d b!"/Linearized" then some d else none
    | _ => return none
  | _ => return none

/-- docstruct.py:483-488 `info`, `None` when there is none. -/
def infoP : Prog Obj := do
  let trail ← fetch (.ref 0 0)
  let i ← lift (getOr trail b!"/Info")
  if truthy i then fetch i else return .null

/-- api.py:14 and 162-164: the entries of the metadata. -/
def metadataKeys : List Bytes :=
  [b!"/Title", b!"/Author", b!"/Subject", b!"/Keywords", b!"/Creator", b!"/Producer", b!"/CreationDate", b!"/ModDate"]

/-- `text_string(v) or None` (text.py:28-49). A value that is neither a string nor `None` is outside the model. -/
def metaText : Obj → Py (Option Str)
  | .null => .ok none
  | .bytes s => do
    let t ← textString s
    return if t = [] then none else some t
  | _ => .error .outside

/-- api.py:161-164, one entry. -/
def metaEntry (i : Obj) (k : Bytes) : Prog (Bytes × Option Str) := do
  let v ← lift (getOr i k)
  let v ← fetch v
  let t ← lift (metaText v)
  return (k.drop 1, t)

def metaLoop (i : Obj) : List Bytes → Prog (List (Bytes × Option Str))
  | [] => return []
  | k :: ks => do
    let e ← metaEntry i k
    let l ← metaLoop i ks
    return e :: l

/-- api.py:157-165 `metadata`. -/
def metadataP : Prog (List (Bytes × Option Str)) := do
  let i ← infoP
  metaLoop (if truthy i then i else .dict []) metadataKeys

/-- api.py:16-18 `in2pt`, of a number of half inches. -/
def in2pt (halves : Nat) : Int := halves * 36

/-- api.py:20-22 `mm2pt`: `round(millimeters/25.4*72)`. The quotient is taken exactly; no size of the table is near a half. -/
def mm2pt (mm : Nat) : Int := (mm * 1440 + 254) / 508

/-- api.py:25-39 `PAPER_SIZES`. -/
def paperSizes : List (Bytes × Int × Int) :=
  [(b!"US Tabloid", in2pt 22, in2pt 34), (b!"US Legal", in2pt 17, in2pt 28), (b!"US Letter", in2pt 17, in2pt 22),
   (b!"A0", mm2pt 841, mm2pt 1189), (b!"A1", mm2pt 594, mm2pt 841), (b!"A2", mm2pt 420, mm2pt 594),
   (b!"A3", mm2pt 297, mm2pt 420), (b!"A4", mm2pt 210, mm2pt 297), (b!"A5", mm2pt 148, mm2pt 210),
   (b!"A6", mm2pt 105, mm2pt 148), (b!"A7", mm2pt 74, mm2pt 105), (b!"A8", mm2pt 52, mm2pt 74),
   (b!"A9", mm2pt 37, mm2pt 52), (b!"A10", mm2pt 26, mm2pt 37)]

/-- `mediabox[i] - mediabox[j]`. Only integers are modelled. -/
def boxSide (box : List Obj) (i j : Nat) : Py Int := do
  let a ← orRaise .indexError box[i]?
  let b ← orRaise .indexError box[j]?
  match a, b with
  | .int a, .int b => .ok (a - b)
  | _, _ => .error .outside

/-- api.py:168-176 `paper`: the name between parentheses at the end. The dimensions printed before it, computed with floats,
are left out. -/
def paperName : Obj → Py Bytes
  | .list box => do
    let x ← boxSide box 2 0
    let y ← boxSide box 3 1
    return paperSizes.foldl (fun ptype t => if t.2 = (x, y) then t.1 else ptype) b!"unknown"
  | .str _ => .error .outside
  | .bytes _ => .error .outside
  | .dict _ => .error .keyError
  | .stream _ _ _ => .error .outside
  | _ => .error .typeError

/-- The result of `structure`. -/
structure Structure where
  version : Bytes
  pages : Obj
  revisions : Nat
  encrypted : Bool
  hybrid : Bool
  linearized : Bool
  paper : Bytes

/-- api.py:133-146 `structure`; also returns the document after the reads. -/
def structureOf [Zlib] (lim : Nat) (leak : Dict) (doc : Doc) : Py (Structure × Doc) := do
  let (v, doc) ← version doc
  let (pages, doc) ← numberPages.run doc
  let (enc, doc) ← encryptedP.run doc
  let hyb ← hybrid doc
  let lin ← linearized doc.firstData.fdata
  let ((l, _), doc) ← (pageLayouts lim leak (some 1)).run doc
  let box ← orRaise .indexError l.head?
  let paper ← paperName box.1
  return (⟨v, pages, updates doc, enc, hyb, lin.isSome, paper⟩, doc)

/-- What `overview` prints for an entry of the metadata. -/
inductive ShownText
  | nothing
  | hidden
  | text (t : Str)

/-- cli.py:394-397. -/
def showText (encrypted : Bool) : Option Str → ShownText
  | none => .nothing
  | some t => if encrypted then .hidden else .text t

/-- cli.py:384-398 `overview`: what is printed. -/
def overview [Zlib] (lim : Nat) (F : Bytes) : Py (Structure × List (Bytes × ShownText)) := do
  let doc ← loads F
  let (s, doc) ← structureOf lim [] doc
  let (m, _) ← metadataP.run doc
  return (s, m.map fun e => (e.1, showText s.encrypted e.2))

end Pdf
