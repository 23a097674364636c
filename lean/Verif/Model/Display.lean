/-
The HTML view of a file (display.py). The generated text is modelled with its provenance: each character carries a flag,
which tells whether it was interpolated from the file or written by the program.
-/
import Verif.Model.FileMap

namespace Pdf

/-- Generated text: code points (below 256) with `true` when taken from the file. -/
abbrev Html := List (UInt8 × Bool)

/-- Text of the program. -/
def lit (s : Bytes) : Html := s.map (·, false)

/-- Interpolated text. -/
def txt (s : Bytes) : Html := s.map (·, true)

/-- The text itself. -/
def Html.raw (h : Html) : Bytes := h.map Prod.fst

/-- `str.replace` of one character. -/
def replaceChar (c : UInt8) (by_ : Bytes) (s : Bytes) : Bytes :=
  s.flatMap fun x => if x = c then by_ else [x]

/-- graphics.py:138-149 `printable_stream_content`, with its default `escape`; `none` is `None`. -/
def printableStreamContent (c : Bytes) : Option Bytes :=
  if c.any (fun x => x < 20 && x != 10 && x != 13) then none
  else some (replaceChar 62 b!"&gt;" (replaceChar 60 b!"&lt;" c))

/-- `html.escape` (standard library, `quote=True`). -/
def htmlEscape (s : Bytes) : Bytes :=
  replaceChar 39 b!"&#x27;" (replaceChar 34 b!"&quot;" (replaceChar 62 b!"&gt;" (replaceChar 60 b!"&lt;"
    (replaceChar 38 b!"&amp;" s))))

/-- A lower case hexadecimal digit. -/
def hexLow (n : Nat) : UInt8 := if n < 10 then UInt8.ofNat (48 + n) else UInt8.ofNat (87 + n)

/-- `bytes.hex()`. -/
def hexText (s : Bytes) : Bytes := s.flatMap fun c => [hexLow (c.toNat / 16), hexLow (c.toNat % 16)]

/-- `repr` of bytes, without the prefix `b`. -/
def reprBytes (s : Bytes) : Bytes :=
  let q : UInt8 := if 39 ∈ s ∧ 34 ∉ s then 34 else 39
  [q] ++ s.flatMap (fun c =>
    if c = q ∨ c = 92 then [92, c]
    else if c = 9 then b!"\\t" else if c = 10 then b!"\\n" else if c = 13 then b!"\\r"
    else if c < 32 ∨ 127 ≤ c then b!"\\x" ++ [hexLow (c.toNat / 16), hexLow (c.toNat % 16)]
    else [c]) ++ [q]

/-- display.py:203 `TRUNCATED`. -/
def truncated : Html := lit b!"<em> ...(truncated) </em>"

/-- display.py:467-473 `move_list_item`, on the keys with their values. -/
def moveItem (l : List (Bytes × Html)) (k : Bytes) (newPos : Nat) : List (Bytes × Html) :=
  match l.find? (fun p => p.1 = k) with
  | none => l
  | some p =>
    let rest := l.eraseP (fun q => q.1 = k)
    rest.take newPos ++ p :: rest.drop newPos

/-- `f'{name:20}'`. -/
def padName (name : Bytes) : Html := txt (name ++ List.replicate (20 - name.length) 32)

/-- display.py:499-509, one line of a dictionary. -/
def entryLine (depth : Nat) (name : Bytes) (value : Html) : Html :=
  lit (List.replicate (22 * depth) 32) ++
  if name = b!"/Type" ∨ name = b!"/Subtype" then
    lit b!"  " ++ padName name ++ lit b!"<span class=\"important\">" ++ value ++ lit b!"</span>\n"
  else if name = b!"/JS" then
    lit b!"  <span class=\"warning\">" ++ padName name ++ lit b!"</span>" ++ value ++ lit b!"\n"
  else if value.raw = b!"/JavaScript" then
    lit b!"  " ++ padName name ++ lit b!"<span class=\"warning\">" ++ value ++ lit b!"</span>\n"
  else if name = b!"/Prev" then
    lit b!"  " ++ padName name ++ lit b!"<a class=\"obj-link\" href=\"#idx" ++ value ++ lit b!"\">" ++ value ++
      lit b!"</a>\n"
  else lit b!"  " ++ padName name ++ value ++ lit b!"\n"

/-- display.py:492-511, a dictionary, given the text of its values. -/
def dictText (depth : Nat) (values : List (Bytes × Html)) : Html :=
  let keys := moveItem (moveItem values b!"/Type" 0) b!"/Subtype" 1
  lit b!"&lt;&lt;\n" ++ keys.flatMap (fun p => entryLine depth p.1 p.2) ++
    lit (List.replicate (22 * depth) 32) ++ lit b!"&gt;&gt;"

/-- display.py:512-522, the content of a stream. -/
def streamText (content : Bytes) (displayStream : Bool) : Html :=
  if content ≠ [] ∧ displayStream = true then
    lit b!"  \nstream\n" ++
    (match printableStreamContent content with
      | some (c :: p) =>
        lit b!"<details>\n<summary class=\"stream-content\">see content</summary>\n" ++
          lit b!"<pre class=\"detail\">" ++ txt (c :: p) ++ lit b!"</pre>\n</details>\n"
      | _ => (lit b!"&lt;" ++ txt (hexText content) ++ lit b!"&gt;").take 60 ++ truncated ++ lit b!"\n") ++
    lit b!"endstream\n"
  else []

/-- How Python writes the float `loc + (rank + 1) / 10000`, which is the position of an embedded object. Floats are not
modelled: nothing is known of the text but its characters. -/
class FloatText where
  text : Int → Nat → Bytes
  plain : ∀ loc rank, ∀ c ∈ text loc rank, isDigit c = true ∨ c ∈ b!".e+-"

/-- Values of `abs_pos`, printed. -/
def posText [FloatText] : Option Pos → Py Bytes
  | none => .ok b!"None"
  | some (.at n) => .ok (intDec n)
  | some (.tup env rank) => .ok (b!"(" ++ natDec env ++ b!", " ++ natDec rank ++ b!")")
  | some (.emb loc rank) => .ok (FloatText.text loc rank)

/-- display.py:480-487, a reference. Negative numbers (which count from the end) are not modelled. -/
def refText [FloatText] (rev : Rev) (gen num : Int) : Py Html := do
  if num < 0 then .error .outside
  match ← slotAt rev num.toNat with
  | .hole => .error .attributeError
  | .many _ => .error .attributeError
  | .one e => do
    let p ← posText e.absPos
    .ok (lit b!"<a href=\"#idx" ++ txt p ++ lit b!"\"><span class=\"obj-link\">" ++
      txt (intDec num ++ b!" " ++ intDec gen ++ b!" R") ++ lit b!"</span></a>")

/-- display.py:531-547, the other objects. -/
def scalarText : Obj → Py Html
  | .int n => .ok (txt (htmlEscape (intDec n)))
  | .real neg ip frac => .ok (txt (htmlEscape (realStr neg ip frac)))
  | .bool b => .ok (txt (htmlEscape (if b then b!"True" else b!"False")))
  | .str s => .ok (txt (htmlEscape s))
  | .null => .ok (txt (htmlEscape b!"None"))
  | .bytes s =>
    if s.take 1 = b!"(" then
      let t := if 30 < s.length then s.take 30 else s
      .ok (txt (htmlEscape ((reprBytes t).drop 1).dropLast) ++ (if 30 < s.length then truncated else []))
    else if isAscii s then .ok (txt (htmlEscape s)) else .error .unicodeError
  | _ => .error .outside

mutual
/-- display.py:476-548 `follow_obj`. The values of a dictionary are computed before its keys are reordered. -/
def followObj [FloatText] (rev : Rev) : Nat → Bool → Obj → Py Html
  | _, _, .ref gen num => refText rev gen num
  | depth, _, .dict d => do
    let values ← followEntries rev depth d
    .ok (dictText depth values)
  | depth, disp, .stream d content _ => do
    let values ← followEntries rev depth d
    .ok (dictText depth values ++ streamText content disp)
  | _, _, .list l => do
    let body ← followItems rev l
    let ret := lit b!"[ " ++ body
    .ok ((if 30 < ret.length ∧ (find ret.raw b!"href" 0) = none then ret.take 30 ++ truncated else ret) ++
      lit b!"]")
  | _, _, o => scalarText o
/-- display.py:496-498, the values of a dictionary. -/
def followEntries [FloatText] (rev : Rev) : Nat → List (Bytes × Obj) → Py (List (Bytes × Html))
  | _, [] => .ok []
  | depth, (k, v) :: d => do
    let value ← followObj rev (depth + 1) true v
    let rest ← followEntries rev depth d
    .ok ((k, value) :: rest)
/-- display.py:525-527, the items of a list. -/
def followItems [FloatText] (rev : Rev) : List Obj → Py Html
  | [] => .ok []
  | o :: l => do
    let value ← followObj rev 0 true o
    let rest ← followItems rev l
    .ok (value ++ lit b!" " ++ rest)
end

/-- display.py:389-404 `add_comment`. -/
def addComment (pos : Nat) (comment : Bytes) : Html :=
  let detail := if isAscii (comment.take 10) then txt (comment.take 10)
    else lit b!"&lt;" ++ txt (hexText comment) ++ lit b!"&gt;"
  lit b!"<div class=\"block\" id=\"idx" ++ txt (natDec pos) ++ lit b!"\">\n<div>\n<pre class=\"comment\">\n<span class=\"c1\">" ++
    txt (natPad 10 pos) ++ lit b!"</span><span class=\"obj-header b0\">" ++ detail ++
    lit b!"</span>\n</pre>\n</div>\n</div>\n"

/-- display.py:422-439 `build_xref_table`: one entry of the table (`file_object_map` keeps in the table the rows of two
items, and replaces the others). Negative numbers are not modelled. -/
def xrefRowText (x : XRow) : Py Html :=
  match x with
  | .sub num nb => .ok (txt (intDec num) ++ lit b!"  " ++ txt (intDec nb) ++ lit b!"\n")
  | .entry offset num gen kw =>
    if offset < 0 ∨ gen < 0 then .error .outside
    else if ¬ isAscii kw then .error .unicodeError
    else .ok (txt (natPad 10 offset.toNat) ++ lit b!" " ++ txt (natPad 5 gen.toNat) ++ lit b!" " ++ txt kw ++
      (if kw = b!"f" then []
       else lit b!"    <a href=\"#idx" ++ txt (intDec offset) ++ lit b!"\"><span class=\"obj-link\">#" ++
         txt (intDec num ++ b!" " ++ intDec gen) ++ lit b!"</span></a>") ++ lit b!"\n")

/-- `f'{t}'` of the value of `/Type` (display.py:291-293), for the strings and names; other values are not modelled. -/
def typeText : Option Obj → Py Html
  | none => .ok []
  | some (.str s) => .ok (txt s)
  | some (.bytes s) => .ok (lit b!"b" ++ txt (reprBytes s))
  | some _ => .error .outside

/-- display.py:285-294, the line of an object in the minimap; its position and its number as they are written. -/
def minimapLine (pos num : Bytes) (o : Obj) : Py Html := do
  let t ← match o with
    | .dict d => typeText (Dict.get? d b!"/Type")
    | .stream d _ _ => typeText (Dict.get? d b!"/Type")
    | _ => .ok []
  .ok (lit b!"<li><a class=\"nav-idx\" href=\"#idx" ++ txt pos ++ lit b!"\">" ++ txt num ++
    lit b!"</a> " ++ t ++ lit b!"</li>\n")

end Pdf
