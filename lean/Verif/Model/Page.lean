/-
The command `browse`: the page of HTML that shows a file (display.py:207-627, cli.py:414-425).
-/
import Verif.Model.Browse
import Verif.Model.Overview

namespace Pdf

/-- display.py:15-191, the style sheet of `HEADER`. -/
def styleSheet : Bytes :=
  b!"        .content {\n            font-family: monospace;\n            background: linear-gradient(to right, #cccccc 10ch, transparent 5ch);\n        }\n\t.s {\n\t    position: relative;\n\t    left: 11ch;\n\t    background-color: green;\n\t}\n        pre {\n            margin-top: 0;\n            margin-bottom: 0;\n        }\n        ul {\n           padding-left: 1em;\n           list-style: none;\n           line-height: 0.9em;\n        }\n        nav {\n            position: fixed;\n            right: 1em;\n            width: 22em;\n            top: 4em;\n            max-height: 80%;\n            overflow-x: scroll;\n            border: 2px dotted grey;\n        }\n        p {\n            line-height: 2em;\n            padding-top: 1em;\n            padding-bottom: 1em;\n            padding-left: 1em;\n        }\n        .nav-x {\n            overflow-x: scroll;\n        }\n        .nav-y {\n            overflow-y: scroll;\n        }\n        .block {\n            margin-top: 0.5em;\n            margin-bottom: 0.5em;\n            padding-top: 1em;\n            padding-bottom: 1em;\n        }\n        .xref-item {\n\t    position: relative;\n\t    left: 11ch;\n            margin: 0 0 0 0;\n        }\n        .obj-body {\n\t    position: relative;\n\t    left: 12ch;\n            margin: 0 0 0 0;\n        }\n        .obj-header {\n\t    position: relative;\n\t    left: 2ch;\n            margin: 0 0 0 0;\n        }\n        .header {\n            position: fixed;\n            top: 0;\n            right: 1em;\n            height: 2em;\n            padding: 0.2em 1em 0 1em;\n            border: 2px dotted Grey;\n        }\n        .title {\n            position: sticky;\n            top: 0;\n            left: 0;\n            height: 1.8em;\n            padding: 0.3em 1em 0.1em 1em;\n            margin-bottom: 0.5em;\n        }\n        .nav-idx {\n            display: inline-block;\n            width: 4em;\n            padding-left: 0.5em;\n        }\n        .b0 {\n            background-color: white;\n        }\n        .b1 {\n            background-color: #dddddd;\n        }\n        .b2 {\n            background-color: #cccccc;\n        }\n        .b3 {\n            background-color: #bbbbbb;\n        }\n        .c0 {\n            color: black;\n        }\n        .c1 {\n            color: #555555;\n        }\n        :target {\n            background-color: lightyellow;\n        }\n        .important {\n            background-color: antiquewhite;\n        }\n        .warning {\n            background-color: crimson;\n        }\n        a {\n            color: blue;\n        }\n        .stream-content {\n            color: blue;\n            text-decoration: underline;\n            font-style: italic;\n        }\n        :visited {\n            color: blue;\n        }\n\n@media (prefers-color-scheme: dark) {\n       body {\n            background-color: black;\n            color: white;\n        }\n        .content {\n            font-family: monospace;\n            background: linear-gradient(to right, #333333 10ch, transparent 5ch);\n        }\n        .b0 {\n            background-color: black;\n        }\n        .b1 {\n            background-color: #222222;\n        }\n        .b2 {\n            background-color: #333333;\n        }\n        .b3 {\n            background-color: #444444;\n        }\n        .c0 {\n            color: #dddddd;\n        }\n        .c1 {\n            color: grey;\n        }\n        :target {\n            background-color: #222200;\n        }\n        .important {\n            background-color: olive;\n        }\n        .warning {\n            background-color: firebrick;\n        }\n        a {\n            color: deepskyblue;\n        }\n        .stream-content {\n            color: deepskyblue;\n            text-decoration: underline;\n            font-style: italic;\n        }\n        :visited {\n            color: deepskyblue;\n        }\n}\n\n"

/-- display.py:15-194 `HEADER`. -/
def pageHeader : Bytes :=
  b!"<!DOCTYPE html>\n<html lang=\"en\">\n<head>\n    <meta charset=\"UTF-8\">\n    <meta http-equiv=\"X-UA-Compatible\" content=\"IE=edge\">\n    <meta name=\"viewport\" content=\"width=device-width, initial-scale=1.0\">\n    <title>PDFSyntax</title>\n    <style>\n" ++ styleSheet ++
    b!"    </style>\n</head>\n<body class=\"b1 c0\">\n<div class=\"content\">\n"

/-- display.py:196-201 `TRAILER`. -/
def pageTrailer : Bytes := b!"\n<div id=\"end\"><code><em>endoffile</em></code></div>\n</div>\n</body>\n"

/-- The number of an object as it is written; that of an embedded object is a parsed value, of which only integers are
modelled. -/
def numberText : Obj → Py Bytes
  | .int n => .ok (intDec n)
  | _ => .error .outside

/-- display.py:370-386 `add_startxref`. `xref` is text, which never equals 0. -/
def addStartxref (pos : Nat) (xref : Bytes) : Py Html := do
  let n ← orRaise .valueError (pyInt xref)
  .ok (lit b!"<div class=\"block\" id=\"idx" ++ txt (natDec pos) ++ lit b!"\">\n<div>\n<pre>\n<span class=\"c1\">" ++
    txt (natPad 10 pos) ++ lit b!"</span><span class=\"obj-header b0\">startxref</span>\n<div class=\"obj-body b0\">\n" ++
    (lit b!"<a class=\"obj-link\" href=\"#idx" ++ txt (intDec n) ++ lit b!"\">" ++ txt (intDec n) ++ lit b!"</a>\n") ++
    lit b!"</div>\n\n</pre>\n</div>\n</div>\n")

/-- display.py:407-419 `add_eof`. -/
def addEof (pos : Nat) : Html :=
  lit b!"\n<div class=\"block\" id=\"idx" ++ txt (natDec pos) ++ lit b!"\">\n<div>\n<pre class=\"eof\">\n<span class=\"c1\">" ++
    txt (natPad 10 pos) ++ lit b!"</span><span class=\"obj-header b0\">%%EOF</span>\n</pre>\n</div>\n</div>\n"

/-- display.py:422-439 `build_xref_table`. -/
def xrefTableText (rows : List XRow) : Py Html := do
  let l ← rows.mapM xrefRowText
  .ok l.flatten

/-- display.py:447-463, one row of a cross-reference stream. -/
def xsRowText (x : XSRow) : Html :=
  if x.num = 0 then []
  else
    match x.env with
    | some (e + 1) =>
      lit b!"<a href=\"#obj" ++ txt (intDec x.num ++ b!"." ++ natDec x.gen) ++ lit b!".0\"><span class=\"obj-link\">#" ++
        txt (intDec x.num ++ b!" " ++ natDec x.gen) ++ lit b!"</span></a>    In object stream " ++ txt (natDec (e + 1)) ++
        lit b!" at " ++ txt (natPad 10 x.offset ++ b!" " ++ x.kw) ++ lit b!"\n"
    | _ =>
      lit b!"<a href=\"#idx" ++ txt (natDec x.offset) ++ lit b!"\"><span class=\"obj-link\">#" ++
        txt (intDec x.num ++ b!" " ++ natDec x.gen) ++ lit b!"</span></a>    At absolute position " ++
        txt (natPad 10 x.offset ++ b!" " ++ x.kw) ++ lit b!"\n"

/-- display.py:442-464 `build_xref_stream`. -/
def xrefStreamText (rows : List XSRow) : Html :=
  lit b!"\nstream\n\n" ++ rows.flatMap xsRowText ++ lit b!"\nendstream\n"

/-- display.py:587-592, 606-611: one use of an object. -/
def useText [FloatText] (u : Obj × BlockKey) : Py Html := do
  let p ← posText u.2
  let n ← numberText u.1
  .ok (lit b!"<a href=\"#idx" ++ txt p ++ lit b!"\">" ++ (if u.1 = .int 0 then lit b!"trailer" else txt n) ++ lit b!"</a> ")

/-- display.py:585-593, 604-612: the uses of an object. -/
def usesText [FloatText] (uses : List (Obj × BlockKey)) : Py Html :=
  if uses = [] then .ok []
  else do
    let l ← uses.mapM useText
    .ok (lit b!"<em><span class=\"c1\">                 used in " ++ l.flatten ++ lit b!"</span></em>")

/-- display.py:576-593, 596-612: the opening elements of the block of an object, given what is written in the column of
positions. -/
def openBlock [FloatText] (h : Header) (column : Bytes) : Py Html := do
  let p ← posText h.key
  let n ← numberText h.num
  let uses ← usesText h.usedBy
  .ok (lit b!"\n<div class=\"block\" id=\"idx" ++ txt p ++ lit b!"\">\n<div id=\"obj" ++
    txt (n ++ b!"." ++ natDec h.gen ++ b!"." ++ natDec h.ver) ++ lit b!"\">\n<pre>\n<span class=\"c1\">" ++ txt column ++
    lit b!"</span><span class=\"obj-header b0\"><strong>" ++ txt n ++ lit b!"</strong> " ++ txt (natDec h.gen) ++
    lit b!" obj</span>" ++ uses)

/-- display.py:560-613: the opening elements of the block of an item. -/
def objHeadText [FloatText] (index : List Rev) (cross : List (BlockKey × Cross)) (x : MapItem) : Py Html :=
  match x with
  | .region (.xrefTable b _ _ _) _ =>
    .ok (lit b!"\n<div class=\"block\" id=\"idx" ++ txt (natDec b) ++ lit b!"\">\n<div>\n<pre>\n<span class=\"c1\">" ++
      txt (natPad 10 b) ++ lit b!"</span><span class=\"obj-header b0\"><strong>XREF table & trailer</strong></span>")
  | .region (.indObj (some b) _ _ _ _) _ => do
    match ← objHeader index cross x with
    | some h => openBlock h (natPad 10 b)
    | none => .ok []
  | .embedded _ _ j _ _ env => do
    match ← objHeader index cross x with
    | some h => openBlock h (padRight 10 (intDec env ++ b!" #" ++ natDec j))
    | none => .ok []
  | _ => .ok []

/-- display.py:558-615 `build_obj_header`. Of an object the begin of which is `None`, only the last element is opened. -/
def objHeaderText [FloatText] (index : List Rev) (cross : List (BlockKey × Cross)) (x : MapItem) : Py Html := do
  let head ← objHeadText index cross x
  .ok (head ++ lit b!"<div class=\"obj-body b0\">\n")

/-- display.py:618-624 `build_obj_trailer`. -/
def objTrailerText : Html := lit b!"\n</div></pre>\n</div>\n</div>\n"

/-- Does the object show its rows apart (display.py:226)? -/
def isXrefStream : Obj → Bool
  | .stream d _ _ => Dict.get? d b!"/Type" = some (.str b!"/XRef")
  | _ => false

/-- display.py:221-232: an object, and the local `ver`. -/
def objArticle [FloatText] (index : List Rev) (cross : List (BlockKey × Cross)) (x : MapItem) (k : BlockKey) (o : Obj) :
    Py (Html × Nat) := do
  let head ← objHeaderText index cross x
  let c ← crossAt cross k
  let (_, ver) ← orRaise .typeError c.rel
  let rev ← orRaise .indexError index[ver]?
  if isXrefStream o then do
    let body ← followObj rev 0 false o
    .ok (head ++ body, ver)
  else do
    let body ← followObj rev 0 true o
    .ok (head ++ body ++ lit b!"\n\nendobj" ++ objTrailerText, ver)

/-- display.py:210-242: what an item of the map adds to the page, and the local `ver`, which only an object sets. -/
def article [FloatText] (index : List Rev) (cross : List (BlockKey × Cross)) (ver : Option Nat) (x : MapItem) : Py (Html × Option Nat) :=
  match x with
  | .region (.startxref b _ t) _ => do
    let h ← addStartxref b t
    .ok (h, ver)
  | .region (.comment b _ t) _ => .ok (if t = b!"%%EOF" then addEof b else addComment b t, ver)
  | .region (.indObj b _ _ _ o) _ => do
    let (h, v) ← objArticle index cross x (b.map fun (p : Nat) => .at p) o
    .ok (h, some v)
  | .embedded bo _ j _ o _ => do
    let (h, v) ← objArticle index cross x (some (.emb bo j)) o
    .ok (h, some v)
  | .region (.xrefTable _ _ rows trailer) _ => do
    let head ← objHeaderText index cross x
    let table ← xrefTableText rows
    let v ← orRaise .unboundLocal ver
    let rev ← orRaise .indexError index[v]?
    let t ← followObj rev 0 true trailer
    .ok (head ++ table ++ lit b!"\ntrailer\n" ++ t ++ objTrailerText, ver)
  | .xrefStream _ rows _ => .ok (xrefStreamText (rows.map (·.2.2)) ++ lit b!"\n\nendobj" ++ objTrailerText, ver)
  | .region (.void _ _ _) _ => .ok ([], ver)

/-- display.py:210-242: the loop over the items of the map. -/
def articles [FloatText] (index : List Rev) (cross : List (BlockKey × Cross)) : Option Nat → List MapItem → Py Html
  | _, [] => .ok []
  | ver, x :: m => do
    let (h, ver) ← article index cross ver x
    let rest ← articles index cross ver m
    .ok (h ++ rest)

/-- `os.path.basename`. -/
def basename (path : Bytes) : Bytes := (path.reverse.takeWhile (· ≠ 47)).reverse

/-- display.py:357-367 `build_header`. -/
def headerText (filename : Bytes) : Html :=
  lit b!"<div class=\"header b3\">\n<pre>\n" ++ txt (basename filename) ++
    lit b!" - internal view generated by <a href=\"https://pdfsyntax.dev\">PDFSyntax</a>\n</pre>\n</div>\n"

/-- api.py:149-154 `bool2yesno`. -/
def yesNo (b : Bool) : Bytes := if b then b!"yes" else b!"no"

/-- display.py:335-336: one line of the information. -/
def infoLine (label value : Bytes) : Html := lit b!" <li class=\"\">" ++ txt (padRight 15 label ++ value) ++ lit b!"</li>"

/-- display.py:318-338 `build_nav_info`; a number of pages that is not an integer is not modelled. -/
def navInfo (s : Structure) (size : Nat) : Py Html := do
  let pages ← numberText s.pages
  .ok (lit b!"\n<details class=\"b3\">\n<summary class=\"title b3\"><code> Info</code></summary>\n<pre class=\"b2\">\n<ul>" ++
    (infoLine b!"Version: " s.version ++ infoLine b!"Page(s): " pages ++ infoLine b!"Revision(s): " (natDec s.revisions) ++
      infoLine b!"Hybrid: " (yesNo s.hybrid) ++ infoLine b!"Linearized: " (yesNo s.linearized) ++
      infoLine b!"File size: " (natDec size ++ b!" bytes")) ++
    lit b!"</ul>\n</pre>\n</details>\n\n")

/-- display.py:257-262: the link to the page of rank `i`. -/
def pageLinkText (x : (Nat × Int × Nat) × Nat) : Html :=
  lit b!" <a class=\"nav-idx\" href=\"#obj" ++ txt (natDec x.1.1 ++ b!"." ++ intDec x.1.2.1 ++ b!"." ++ natDec x.1.2.2) ++ lit b!"\">" ++
    txt (natDec (x.2 + 1)) ++ lit b!"</a>"

/-- display.py:251-266 `build_nav_pages`. -/
def navPages (index : List Rev) (pages : List Ref) : Py Html := do
  let links ← pageLinks index pages
  .ok (lit b!"\n<details class=\"b3\">\n<summary class=\"title b3\"><code> Pages</code></summary>\n<p class=\"nav-y b2\">\n" ++
    links.zipIdx.flatMap pageLinkText ++ lit b!"</p>\n</details>\n\n")

/-- display.py:276-294: the line of an item of the map in the minimap; none for the items that are neither objects nor
tables. -/
def minimapItem [FloatText] : MapItem → Py Html
  | .region (.xrefTable b _ _ _) _ =>
    .ok (lit b!"<li><a class=\"nav-idx\" href=\"#idx" ++ txt (natDec b) ++ lit b!"\">xref</a> XREF table & trailer</li>\n")
  | .region (.indObj b _ num _ o) _ => do
    let p ← posText (b.map fun (p : Nat) => .at p)
    minimapLine p (intDec num) o
  | .embedded bo _ j num o _ => do
    let p ← posText (some (.emb bo j))
    let n ← numberText num
    minimapLine p n o
  | _ => .ok []

/-- display.py:269-299 `build_nav_objects`. -/
def navObjects [FloatText] (m : List MapItem) : Py Html := do
  let l ← m.mapM minimapItem
  .ok (lit b!"\n<details class=\"b3\">\n<summary class=\"title b3\"><code> Minimap</code></summary>\n<pre class=\"nav-y b2\">\n<ul>\n" ++
    l.flatten ++ lit b!"</ul>\n</pre>\n</details>\n\n")

/-- display.py:302-315 `build_nav_quick`. -/
def navQuick : Html :=
  lit b!"\n<details class=\"b3\">\n<summary class=\"title b3\"><code> Quick access</code></summary>\n<pre class=\"b2\">\n<ul>\n<li>&UpArrowBar; <a class=\"header-button\" href=\"#idx0\">Beginning</a></li>\n<li>&DownArrowBar; <a class=\"header-button\" href=\"#end\">End of file</a></li>\n</ul></pre>\n</details>\n\n"

/-- display.py:207-248 `build_html`. -/
def buildHtml [FloatText] (m : List MapItem) (index : List Rev) (cross : List (BlockKey × Cross)) (filename : Bytes)
    (pages : List Ref) (s : Structure) (size : Nat) : Py Html := do
  let body ← articles index cross none m
  let info ← navInfo s size
  let np ← navPages index pages
  let no ← navObjects m
  .ok (lit pageHeader ++ body ++ headerText filename ++ lit b!"\n<nav class=\"b2\">\n\n" ++ info ++ np ++ no ++ navQuick ++
    lit b!"\n</nav>\n\n" ++ lit pageTrailer)

/-- The reference of a page; other values are not modelled. -/
def pageRef : Obj × Dict → Py Ref
  | (.ref gen num, _) => .ok (gen, num)
  | _ => .error .outside

/-- cli.py:414-425 `browse`: the page that is printed. The attributes inherited by the pages, which the calls to
`flat_page_tree` share, are not shown. -/
def browse [Zlib] [FloatText] (lim : Nat) (filename F : Bytes) : Py Html := do
  let index ← fileIndex F
  let m ← fileObjectMap F
  let cross ← crossMap (withoutVoid m) index
  let doc ← loads F
  let (s, doc) ← structureOf lim [] doc
  let ((l, _), _) ← (flatPageTree lim .null [] none).run doc
  let pages ← l.mapM pageRef
  buildHtml (withoutVoid m) index cross filename pages s F.length

end Pdf
