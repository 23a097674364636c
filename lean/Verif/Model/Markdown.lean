/-
Model of the rendering of markdown, pdfsyntax/markdown.py:1-298 (`render_html` and what it calls). The second renderer of
the same file, `transform` (301-792), which nothing calls, is not modelled. Texts are lists of characters below 256.
-/
import Verif.Model.Basic

namespace Pdf

/-- A bound of a Python slice: negative bounds count from the end. -/
def sliceBound (n : Nat) (x : Int) : Nat := if x < 0 then (n + x).toNat else x.toNat

/-- `l[a:b]`, for any bounds. -/
def pySlice {α : Type} (l : List α) (a b : Int) : List α := slice l (sliceBound l.length a) (sliceBound l.length b)

/-- `l[k]`, for any `k`; `none` when out of range. -/
def pyItem {α : Type} (l : List α) (k : Int) : Option α :=
  if k < 0 then (if (l.length : Int) + k < 0 then none else l[((l.length : Int) + k).toNat]?) else l[k.toNat]?

/-- `s.strip('\r')`. -/
def stripCR (s : Bytes) : Bytes := ((s.dropWhile (· == 13)).reverse.dropWhile (· == 13)).reverse

/-- `s.split(c)` for one character. -/
def splitOn (c : UInt8) : Bytes → List Bytes
  | [] => [[]]
  | x :: s => if x = c then [] :: splitOn c s else match splitOn c s with
    | w :: ws => (x :: w) :: ws
    | [] => [[x]]

/-- markdown.py:10-22: the loop; `skip` characters are jumped over after a tabulation. -/
def indentLoop : Bytes → Nat → Bool → Nat → Nat
  | [], _, _, i => i
  | _ :: s, skip + 1, quote, i => indentLoop s skip quote i
  | c :: s, 0, quote, i =>
    if c = 32 then indentLoop s 0 quote (i + 1)
    else if c = 62 then indentLoop s 0 true (i + 1)
    else if c = 9 then indentLoop s 3 quote (i + 4)
    else if quote then i - 1
    else i

/-- markdown.py:5-23 `indentation_and_first_token`. -/
def indentFirst (s : Bytes) : Nat × Bytes :=
  let i := indentLoop s 0 false 0
  (i, (s.drop i).takeWhile (· != 32))

/-- The state of `link`: `i`, `j` and `res`. -/
structure LinkState where
  i : Nat := 0
  j : Nat := 0
  res : Bytes := []

/-- markdown.py:31-50: one turn of the loop; `none` when it stops. -/
def linkStep (s : Bytes) (st : LinkState) : Option LinkState :=
  if st.i < s.length then
    match find s b!"](" st.i with
    | none => none
    | some f =>
      let b1 : Int := match find s b!"[" st.i with | some x => x + 1 | none => 0
      let p1 : Int := f + 2
      let p2 : Nat := match find s b!")" f with | some x => x + 1 | none => 0
      let text := pySlice s b1 f
      if pyItem s (b1 - 2) = some 33 then
        some { i := p2, j := p2,
               res := st.res ++ pySlice s st.i (b1 - 2) ++
                 (b!"<img src='" ++ pySlice s p1 (p2 - 1) ++ b!"' alt='" ++ text ++ b!"'>") }
      else
        let l := pySlice s p1 (p2 - 1)
        let l := if lastN l 3 = b!".md" then pySlice l 0 (-3) ++ b!".html" else l
        some { i := p2, j := p2,
               res := st.res ++ pySlice s st.i (b1 - 1) ++ (b!"<a href='" ++ l ++ b!"'>" ++ text ++ b!"</a>") }
  else none

/-- markdown.py:31-52: the loop, for at most so many turns. -/
def linkLoop (s : Bytes) : Nat → LinkState → Py Bytes
  | 0, _ => .error .nonterm
  | fuel + 1, st => match linkStep s st with
    | some st' => linkLoop s fuel st'
    | none => .ok (st.res ++ s.drop st.j)

/-- markdown.py:26-52 `link`. C87 shows that the fuel is enough whenever the code stops. -/
def link (s : Bytes) : Py Bytes := linkLoop s (s.length + 1) {}

/-- The state of `style`; `search` is `none` for `'TBD'`. -/
structure StyleState where
  i : Nat := 0
  current : Nat := 0
  accu : Bool := false
  search : Option Bytes := none
  res : Bytes := []

/-- markdown.py:67-101: what the loop does with the character `c`, which follows `p`. -/
def styleChar (s : Bytes) (c p : UInt8) (st : StyleState) : StyleState :=
  match st.search with
  | none =>
    if c = 96 then { st with search := some [c], res := st.res ++ slice s st.current st.i, current := st.i }
    else if c = 42 ∨ ((p = 32 ∨ p = 91 ∨ p = 62) ∧ c = 95) then
      { st with accu := true, search := some [c], res := st.res ++ slice s st.current st.i, current := st.i }
    else st
  | some q =>
    if q = [96] then
      if c = 96 then
        { st with res := st.res ++ (b!"<code>" ++ slice s (st.current + 1) st.i ++ b!"</code>"), current := st.i + 1,
                  search := none }
      else st
    else if st.accu then
      if c = 42 ∨ c = 95 then { st with search := some (q ++ [c]) } else { st with accu := false }
    else if 42 ∈ q ∨ 95 ∈ q then
      if c = 42 ∨ c = 95 then
        let text := slice s (st.current + q.length) st.i
        let shown :=
          if q.length = 1 then b!"<em>" ++ text ++ b!"</em>"
          else if q.length = 2 then b!"<strong>" ++ text ++ b!"</strong>"
          else if q.length = 3 then b!"<em><strong>" ++ text ++ b!"</strong></em>"
          else []
        -- line 99 adds `len('TBD') - 1`: `search` has just been reset
        { st with res := st.res ++ shown, current := st.i + q.length, search := none, i := st.i + 2 }
      else st
    else { st with accu := false }

/-- markdown.py:63-104: the loop. -/
def styleLoop (s : Bytes) : Nat → StyleState → Bytes
  | 0, st => st.res
  | fuel + 1, st => match s[st.i]? with
    | none => st.res
    | some c =>
      let p := if 0 < st.i then s.getD (st.i - 1) 0 else 32
      let st := styleChar s c p st
      let st := { st with i := st.i + 1 }
      let st := if st.i = s.length then { st with res := st.res ++ slice s st.current st.i } else st
      styleLoop s fuel st

/-- markdown.py:55-105 `style`: each turn goes forward, so that one for each character is enough. -/
def style (s : Bytes) : Bytes := styleLoop s s.length {}

/-- A tree of blocks: a text, or a type with its items. -/
inductive Md
  | text (s : Bytes)
  | node (typ : Bytes) (items : List Md)

/-- markdown.py:112-126, on the lines that are left: the lines of the block. -/
def codeLines (fenced : Bool) : List Bytes → List Bytes
  | [] => []
  | l :: ls =>
    let ln := stripCR l
    if fenced then (if (ln ++ b!"\n").take 3 = b!"```" then [] else (ln ++ b!"\n") :: codeLines fenced ls)
    else if (indentFirst ln).1 = 4 then (ln ++ b!"\n") :: codeLines fenced ls else []

/-- markdown.py:108-127 `parse_code_block`. -/
def parseCodeBlock (lines : List Bytes) (start : Nat) (fenced : Bool) : Nat × Md :=
  let res := codeLines fenced (lines.drop start)
  (start + res.length, .node b!"PRE" (res.map .text))

/-- markdown.py:130-147 `parse_title`, underlined: `start` is -1 when the underline is the first line. -/
def parseUnderlined (lines : List Bytes) (start : Int) : Py (Int × Md) := do
  let line ← match pyItem lines start with | some l => .ok l | none => .error .indexError
  let under ← match pyItem lines (start + 1) with | some l => .ok l | none => .error .indexError
  let typ := if under.take 2 = b!"==" then b!"H1" else if under.take 2 = b!"--" then b!"H2" else []
  .ok (start + 1, .node typ [.text (stripCR line)])

/-- markdown.py:130-147 `parse_title`, prefixed. -/
def parsePrefixed (ln bs : Bytes) : Md :=
  .node (b!"H" ++ natDec bs.length) [.text (ln.drop (bs.length + 1))]

/-- markdown.py:159-171: the items of a list, from the lines that are left. -/
def listItems (ordered : Bool) (ref : Nat) : List Bytes → List Md
  | [] => []
  | l :: ls =>
    let ln := stripCR l
    let (indent, bs) := indentFirst ln
    if (if ordered then bs.getLast? ≠ some 46 else bs ≠ b!"*" ∧ bs ≠ b!"+" ∧ bs ≠ b!"-") then []
    else if indent ≠ ref then []
    else .node b!"LI" [.text (ln.drop (indent + bs.length + 1))] :: listItems ordered ref ls

/-- markdown.py:150-172 `parse_list`. -/
def parseList (lines : List Bytes) (start : Nat) (ordered : Bool) : Nat × Md :=
  let ref := (indentFirst (lines.getD start [])).1
  let res := listItems ordered ref (lines.drop start)
  (start + res.length, .node (if ordered then b!"OL" else b!"UL") res)

/-- markdown.py:191, 194: the cells of a row. -/
def rowCells (typ : Bytes) (ln : Bytes) (indent : Nat) : List Md :=
  (pySlice (splitOn 124 (ln.drop indent)) 1 (-1)).map fun td => .node typ [.text td]

/-- markdown.py:182-197: the rows of a table, from the lines that are left: the number of lines, the head, the body. -/
def tableRows (ref : Nat) : List Bytes → Bool → Py (Nat × List Md × List Md)
  | [], _ => .ok (0, [], [])
  | l :: ls, header => do
    let ln := stripCR l
    let (indent, bs) := indentFirst ln
    if bs.head? ≠ some 124 then .ok (0, [], [])
    else if indent ≠ ref then .ok (0, [], [])
    else if header then
      let (n, h, b) ← tableRows ref ls false
      .ok (n + 1, .node b!"THEAD" [.node b!"TR" (rowCells b!"TH" ln indent)] :: h, b)
    else
      match pySlice (splitOn 124 (ln.drop indent)) 1 (-1) with
      | [] => .error .indexError
      | td :: _ =>
        let (n, h, b) ← tableRows ref ls false
        .ok (n + 1, h, if slice td 1 3 ≠ b!"--" then .node b!"TR" (rowCells b!"TD" ln indent) :: b else b)

/-- markdown.py:175-199 `parse_table`. -/
def parseTable (lines : List Bytes) (start : Nat) : Py (Nat × Md) := do
  let ref := (indentFirst (lines.getD start [])).1
  let (n, h, b) ← tableRows ref (lines.drop start) true
  .ok (start + n, .node b!"TABLE" (h ++ [.node b!"TBODY" b]))

/-- markdown.py:202-207 `flush_p`. -/
def flushP (blocks : List Md) (b : List Bytes) : List Md :=
  if b = [] then blocks else blocks ++ [.node b!"P" [.text b.flatten]]

/-- markdown.py:210-262 `parse_markdown`, from the line `i`, with the blocks and the paragraph in progress. -/
def parseMd (lines : List Bytes) : Nat → Nat → Nat → List Md → List Bytes → Py (List Md × Nat)
  | 0, _, _, _, _ => .error .nonterm
  | fuel + 1, i, start, blocks, b =>
    match lines[i]? with
    | none => .ok (blocks, i)
    | some line =>
      let ln := stripCR line
      let (indent, bs) := indentFirst ln
      if indent + 1 < start then .ok (flushP blocks b, i)
      else if bs = [] ∧ 0 < indent ∧ start < indent + 1 then do
        let (sub, i') ← parseMd lines fuel i (indent + 1) [] []
        parseMd lines fuel (i' + 1) start (flushP blocks b ++ [.node b!"BLOCKQUOTE" sub]) []
      else if bs.take 3 = b!"```" then
        let (i', m) := parseCodeBlock lines (i + 1) true
        parseMd lines fuel (i' + 1) start (flushP blocks b ++ [m]) []
      else if bs ≠ [] ∧ 4 ≤ indent then
        let (i', m) := parseCodeBlock lines i false
        parseMd lines fuel (i' + 1) start (flushP blocks b ++ [m]) []
      else if ln ≠ [] ∧ (ln = List.replicate ln.length 61 ∨ ln = List.replicate ln.length 45) then do
        let (i', m) ← parseUnderlined lines ((i : Int) - 1)
        parseMd lines fuel ((i' + 1).toNat) start (blocks ++ [m]) []
      else if bs ≠ [] ∧ bs = List.replicate bs.length 35 then
        parseMd lines fuel (i + 1) start (flushP blocks b ++ [parsePrefixed ln bs]) []
      else if bs = b!"*" ∨ bs = b!"+" ∨ bs = b!"-" then
        let (i', m) := parseList lines i false
        parseMd lines fuel (i' + 1) start (flushP blocks b ++ [m]) []
      else if bs.getLast? = some 46 ∧ bs.head?.any (fun c => 48 ≤ c && c ≤ 57) then
        let (i', m) := parseList lines i true
        parseMd lines fuel (i' + 1) start (flushP blocks b ++ [m]) []
      else if bs = b!"|" then do
        let (i', m) ← parseTable lines i
        parseMd lines fuel (i' + 1) start (flushP blocks b ++ [m]) []
      else if b ≠ [] ∧ ln = [] then parseMd lines fuel (i + 1) start (flushP blocks b) []
      else parseMd lines fuel (i + 1) start blocks
        (b ++ [line.drop indent] ++ if lastN ln 2 = b!"  " then [b!"<br>"] else [])

/-- markdown.py:296: the call of `render_html`. -/
def parseMarkdown (lines : List Bytes) : Py (List Md × Nat) := parseMd lines (2 * lines.length + 1) 0 0 [] []

/-- markdown.py:265-267 `tags`. -/
def mdTags (s : Bytes) : Py Bytes := (link s).map style

/-- markdown.py:270-274 `entities`. -/
def mdEntities (s : Bytes) : Bytes :=
  (s.flatMap fun c => if c = 60 then b!"&lt;" else [c]).flatMap fun c => if c = 62 then b!"&gt;" else [c]

/-- `str.lower`, for the types of blocks. -/
def lowerText (s : Bytes) : Bytes := s.map fun c => if 65 ≤ c ∧ c ≤ 90 then c + 32 else c

mutual
/-- markdown.py:277-290 `assemble_html`, for the items of a block of type `typ`. -/
def assembleItems (typ : Bytes) : List Md → Py Bytes
  | [] => .ok []
  | m :: l => do
    let x ← assembleItem typ m
    let r ← assembleItems typ l
    .ok (x ++ r)

/-- markdown.py:281-288: one item. -/
def assembleItem (typ : Bytes) : Md → Py Bytes
  | .text s => if typ ≠ b!"PRE" then mdTags s else .ok (mdEntities s)
  | .node t items => do
    let x ← assembleItems t items
    .ok (b!"<" ++ lowerText t ++ b!">" ++ x ++ (b!"</" ++ lowerText t ++ b!">\n"))
end

/-- markdown.py:277-290 `assemble_html`: the blocks are nodes, so that the outer type does not matter. -/
def assembleHtml (blocks : List Md) : Py Bytes := assembleItems [] blocks

/-- markdown.py:293-298 `render_html`. -/
def renderHtml (md : Bytes) : Py Bytes := do
  let (ast, _) ← parseMarkdown (splitOn 10 md)
  assembleHtml ast

end Pdf
