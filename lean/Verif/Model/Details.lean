/-
The command `disasm`: the last column of the listing, and the lines that are printed.
-/
import Verif.Model.Disasm
import Verif.Model.Display

namespace Pdf

/-- cli.py:100, 109 `f"{value}"`. Lists, dictionaries, streams, references as `/Type` and the floats which Python writes
with an exponent are not modelled. -/
def formatted : Obj → Py Bytes
  | .str s => .ok s
  | .int n => .ok (intDec n)
  | .bool b => .ok (if b then b!"True" else b!"False")
  | .real neg ip frac => if realOk ip frac then .ok (realStr neg ip frac) else .error .outside
  | .bytes s => .ok (b!"b" ++ reprBytes s)
  | _ => .error .outside

/-- cli.py:97-100: the type of a dictionary. -/
def typeInLine (target : Dict) : Py Bytes :=
  match Dict.get? target b!"/Type" with
  | none => .ok []
  | some .null => .ok []
  | some v => do
    let t ← formatted v
    .ok (t ++ b!"  ")

/-- cli.py:103-109: one key. -/
def keyInLine (target : Dict) (key : Bytes) : Py Bytes :=
  match Dict.get? target key with
  | none => .ok []
  | some .null => .ok []
  | some (.ref g n) => .ok (key ++ b!"=" ++ intDec n ++ b!"," ++ intDec g ++ b!"  ")
  | some v => do
    let t ← formatted v
    .ok (key ++ b!"=" ++ t ++ b!"  ")

/-- cli.py:94-110 `keys_in_line`. -/
def keysInLine (target : Dict) (keys : List Bytes) : Py Bytes := do
  let t ← typeInLine target
  let ks ← keys.mapM (keyInLine target)
  .ok (t ++ (if Dict.has target b!"/JS" then b!"!/JS!  " else []) ++ ks.flatten)

/-- cli.py:286-303: the detail of an object. -/
def objectDetail : Obj → Py Bytes
  | .dict d => keysInLine d [b!"/Linearized"]
  | .stream d _ _ => keysInLine d [b!"/Root", b!"/Prev", b!"/N", b!"/First"]
  | _ => .ok []

/-- cli.py:216-224: the detail of a comment. -/
def commentDetail (t : Bytes) : Bytes :=
  if t.take 4 = b!"%PDF" then t.take 8
  else if t.take 5 = b!"%%EOF" then t.take 5
  else if isAscii (t.take 10) then t.take 10
  else b!"<" ++ hexText (t.take 10) ++ b!">"

/-- cli.py:231-236: the detail of a table. -/
def tableDetail (trailer : Dict) : Py Bytes :=
  if Dict.has trailer b!"/XRefStm" then keysInLine trailer [b!"/XRefStm", b!"/Prev"]
  else keysInLine trailer [b!"/Root", b!"/Prev"]

/-- cli.py:206-343: the details of the lines of one item of the file map. -/
def itemDetails : MapItem → Py (List Cell)
  | .region (.void _ _ _) _ => .ok [.none_]
  | .region (.comment _ _ t) _ => .ok [.str (commentDetail t)]
  | .region (.startxref _ _ _) _ => .ok [.none_]
  | .region (.xrefTable _ _ _ trailer) rows =>
    match trailer with
    | .dict t => do
      let d ← tableDetail t
      .ok (.str d :: rows.flatMap fun x => (tableLine [] x.2.2).map fun _ => .none_)
    | _ => .error .outside
  | .region (.indObj _ _ _ _ o) _ => do
    let d ← objectDetail o
    .ok [.str d]
  | .embedded _ _ _ _ o _ => do
    let d ← objectDetail o
    .ok [.str d]
  | .xrefStream _ rows _ => .ok (rows.map fun _ => .none_)

/-- cli.py:193-345: the lines with their details. (When both the lines and the details raise, the first of the two
exceptions is not told apart.) -/
def detailedLines [Zlib] (pct : Nat → Nat → Bytes) (F : Bytes) : Py (List (DLine × Cell)) := do
  let ls ← disasmLines pct F
  let m ← fileObjectMap F
  let ds ← m.mapM itemDetails
  .ok (ls.zip ds.flatten)

/-- cli.py:162-173: the width of the last column. -/
def detailWidth (ls : List (DLine × Cell)) : Py Nat :=
  ls.foldlM (fun w l => do
    let n ← l.2.width
    .ok (if w < n then n else w)) 1

/-- cli.py:143-190 `print_disasm_columns`: the lines that are printed. -/
def printedLines (ls : List (DLine × Cell)) : Py (List Bytes) := do
  let ws ← columnWidths (ls.map Prod.fst) (List.replicate 13 1)
  let w ← detailWidth ls
  .ok (ls.map fun l => (lineText ws l.1).flatten ++ (cellText w l.2 ++ b!" "))

/-- cli.py:193-345 `dump_disasm`: what is printed. -/
def dumpDisasm [Zlib] (pct : Nat → Nat → Bytes) (F : Bytes) : Py (List Bytes) := do
  let ls ← detailedLines pct F
  printedLines ls

end Pdf
