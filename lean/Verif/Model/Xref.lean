/-
Cross-reference sections: writing and reading tables and streams, the circular free list.
-/
import Verif.Model.Objects
import Verif.Model.Text

namespace Pdf

/-- What happened to an object in the current revision (docstruct.py `changes`): added, updated,
deleted. -/
inductive Act
  | a | u | d
  deriving DecidableEq, Repr

/-- An item of the change list: the complex reference and the action. -/
structure Change where
  gen : Nat
  num : Nat
  act : Act
  deriving DecidableEq, Repr

/-- `res[k] = v` on a dict of integers. -/
def natSet : List (Nat × Nat) → Nat → Nat → List (Nat × Nat)
  | [], k, v => [(k, v)]
  | (k', v') :: d, k, v => if k' = k then (k', v) :: d else (k', v') :: natSet d k v

/-- The loop of `circular_deleted` (filestruct.py:396-402): `e` is the current object, the list is
what remains of `deleted`. -/
def circLoop : List (Nat × Nat) → Nat → List Nat → List (Nat × Nat)
  | res, e, [] => natSet res e 0
  | res, e, t :: rest => circLoop (natSet res e t) t rest

/-- filestruct.py:392-403 `circular_deleted`. -/
def circularDeleted (changes : List Change) : List (Nat × Nat) :=
  circLoop [] 0 ((changes.filter (·.act == .d)).map (·.num))

/-- An element of the `xref_table` list of `build_revision_byte_stream` (filestruct.py:557, 565,
575, 587): `(use, num, o_gen, counter, env_num)`. -/
structure XElem where
  free : Bool
  num : Nat
  gen : Nat
  counter : Option Nat
  env : Option Nat
  deriving DecidableEq, Repr

/-- `next_free[num]`. -/
def nextFree (nf : List (Nat × Nat)) (num : Nat) : Py Nat := orRaise .keyError (nf.lookup num)

/-- filestruct.py:410-415: the text of one table entry. -/
def xrefLine (nf : List (Nat × Nat)) (e : XElem) : Py Bytes := do
  if e.free then
    let n ← nextFree nf e.num
    return natPad 10 n ++ b!" " ++ natPad 5 (e.gen + 1) ++ b!" f"
  else
    let c ← orRaise .typeError e.counter
    return natPad 10 c ++ b!" " ++ natPad 5 e.gen ++ b!" n"

/-- filestruct.py:425, 429: a subsection header. -/
def subHeader (num nb : Nat) : Bytes := natDec num ++ b!" " ++ natDec nb

/-- filestruct.py:420-430, the loop from the end that inserts subsection headers: the items before
`i` in reverse order, the number at `i`, the count, and the lines from `i` on. -/
def subLoop : List (Bytes × Nat) → Nat → Nat → List Bytes → List Bytes
  | [], num, nb, acc => subHeader num nb :: acc
  | (x, n) :: p, num, nb, acc =>
    if n + 1 = num then subLoop p n (nb + 1) (x :: acc)
    else subLoop p n 1 (x :: subHeader num nb :: acc)

/-- filestruct.py:416-430. -/
def addSubsections (rows : List (Bytes × Nat)) : Py (List Bytes) :=
  match rows.reverse with
  | [] => .error .indexError
  | (x, n) :: p => .ok (subLoop p n 1 [x])

/-- filestruct.py:406-439 `format_xref_table`. -/
def formatXrefTable (elems : List XElem) (trailer : Dict) (nf : List (Nat × Nat)) : Py Bytes := do
  let rows ← elems.mapM fun e => do
    let x ← xrefLine nf e
    return (x, e.num)
  let ls ← addSubsections rows
  let ser0 ← serialize 0 (.dict trailer)
  return b!"xref\n" ++ ls.flatMap (· ++ b!"\n") ++ b!"trailer\n" ++ ser0 ++ b!"\n"

/-- Big-endian bytes of `n`, exactly `b` of them. -/
def beBytes : Nat → Nat → Bytes
  | 0, _ => []
  | b + 1, n => beBytes b (n / 256) ++ [UInt8.ofNat (n % 256)]

/-- `n.to_bytes(b, "big")`. -/
def toBytes (b n : Nat) : Py Bytes :=
  if n < 256 ^ b then .ok (beBytes b n) else .error .overflowError

/-- filestruct.py:452-461: the bytes of one row of an xref stream. -/
def xrefRow (nf : List (Nat × Nat)) (b : Nat) (e : XElem) : Py Bytes := do
  if e.free then
    let n ← nextFree nf e.num
    let x ← toBytes b n
    let y ← toBytes b (e.gen + 1)
    return 0 :: x ++ y
  else
    let env := e.env.getD 0
    let c ← orRaise .attributeError e.counter
    if env ≠ 0 then
      let x ← toBytes b env
      let y ← toBytes b c
      return 2 :: x ++ y
    else
      let x ← toBytes b c
      let y ← toBytes b e.gen
      return 1 :: x ++ y

/-- filestruct.py:466-474, the loop from the end that groups consecutive numbers. -/
def idxLoop : List Nat → Nat → Nat → List Nat → List Nat
  | [], num, nb, acc => num :: nb :: acc
  | n :: p, num, nb, acc =>
    if n + 1 = num then idxLoop p n (nb + 1) acc else idxLoop p n 1 (num :: nb :: acc)

/-- filestruct.py:462-475: the `/Index` array for a list of object numbers. -/
def indexPairs (nums : List Nat) : Py (List Nat) :=
  match nums.reverse with
  | [] => .error .indexError
  | n :: p => .ok (idxLoop p n 1 [])

/-- filestruct.py:448-449: the column width. `math.log2` is modelled by the exact integer logarithm;
the two agree for file positions below 2^47. -/
def xrefWidth (maxCounter : Nat) : Nat := Nat.log2 (maxCounter + 1) / 8 + 1

/-- `max([...])`. -/
def pyMax : List Nat → Py Nat
  | [] => .error .valueError
  | a :: l => .ok (l.foldl max a)

/-- filestruct.py:442-487 `format_xref_stream`: the text and the trailer dictionary as mutated. -/
def formatXrefStream [Zlib] (elems : List XElem) (trailer : Dict) (nf : List (Nat × Nat))
    (oNum : Nat) : Py (Bytes × Dict) := do
  let trailer := Dict.set trailer b!"/Type" (.str b!"/XRef")
  let trailer := Dict.set trailer b!"/Length" (.int (-1))
  let maxCounter ← pyMax (elems.filterMap (·.counter))
  let b := xrefWidth maxCounter
  let trailer := Dict.set trailer b!"/W" (.list [.int 1, .int b, .int b])
  let rows ← elems.mapM (xrefRow nf b)
  let index ← indexPairs (elems.map (·.num))
  let trailer := Dict.set trailer b!"/Index" (.list (index.map fun (n : Nat) => .int n))
  let (s, _) ← forgeStream trailer rows.flatten
  let ser0 ← serialize 0 s
  let trailer := match s with
    | .stream d _ _ => d
    | _ => trailer
  return (natDec oNum ++ b!" 0 obj\n" ++ ser0 ++ b!"\n" ++ b!"endobj\n", trailer)

/-- Rows of a parsed cross-reference table (objects.py:343, 348). -/
inductive XRow
  | sub (num nb : Int)
  | entry (offset num gen : Int) (keyword : Bytes)
  deriving DecidableEq, Repr

/-- objects.py:339-350, the loop over lines. `oNum` is the local variable of that name, `none` when
unbound. Leading and trailing blanks make no difference to `split()`. Out of fuel is unreachable
when the fuel exceeds the number of remaining bytes. -/
def xrefTableLoop (bdata : Bytes) : Nat → Nat → Nat → Option Int → List XRow →
    Py (Nat × List XRow)
  | 0, _, _, _, _ => .error .nonterm
  | fuel + 1, bl, el, oNum, res =>
    if (slice bdata bl (bl + 1)).any isDigit then do
      let items := pySplit (slice bdata bl el)
      let (oNum, res) ← match items with
        | [x, y] => do
          let n ← orRaise .valueError (pyInt x)
          let nb ← orRaise .valueError (pyInt y)
          .ok (some n, res ++ [.sub n nb])
        | [x, y, z] => do
          let offset ← orRaise .valueError (pyInt x)
          let ver ← orRaise .valueError (pyInt y)
          let n ← orRaise .unboundLocal oNum
          .ok (some (n + 1), res ++ [.entry offset n ver z])
        | _ => .ok (oNum, res)
      match nextLine bdata el with
      | none => .error .typeError
      | some (bl, el) => xrefTableLoop bdata fuel bl el oNum res
    else .ok (el, res)

/-- A parsed cross-reference section (objects.py:353): start, end, rows, trailer. -/
abbrev XTable := Nat × Nat × List XRow × Obj

/-- objects.py:331-353 `parse_xref_table_raw`; `none` is `None`. -/
def parseXrefTableRaw [Zlib] (bdata : Bytes) (start : Nat) : Py (Option XTable) :=
  if slice bdata start (start + 4) ≠ b!"xref" then .ok none
  else
    match nextLine bdata (start + 4) with
    | none => .error .typeError
    | some (bl, el) => do
      let (el, res) ← xrefTableLoop bdata (bdata.length + 1) bl el none []
      let (bl, bf, _) := nextToken bdata el
      let trailer ← parseObj bdata bl
      return some (start, bf, res, trailer)

/-- objects.py:356-369 `expand_xref_index`. -/
def expandXrefIndex : List Int → Nat → Py (List (Int × Nat))
  | [], _ => .ok []
  | [_], _ => .error .indexError
  | s :: n :: rest, k => do
    let tail ← expandXrefIndex rest (k + 1)
    .ok ((s, k) :: (List.range (n - 1).toNat).map (fun (j : Nat) => (s + j + 1, k)) ++ tail)

/-- A row of a parsed xref stream (objects.py:395, 399, 403):
`(offset, env_num, obj_num, o_gen, keyword, raw, subsection)`. -/
structure XSRow where
  offset : Nat
  env : Option Nat
  num : Int
  gen : Nat
  kw : Bytes
  raw : Bytes
  sub : Nat
  deriving DecidableEq, Repr

/-- objects.py:386-391, reading the columns of one row: values, hexadecimal text, new position. -/
def readCols (st : Bytes) : List Nat → Nat → List Nat × Bytes × Nat
  | [], i => ([], [], i)
  | col :: cols, i =>
    let x := slice st i (i + col)
    let (ps, ppr, i') := readCols st cols (i + col)
    (fromBytesBig x :: ps, asciihex x ++ b!" " ++ ppr, i')

/-- objects.py:392-403: what one row denotes (nothing for an unknown type). -/
def rowOf (params : List Nat) (num : Int) (raw : Bytes) (sub : Nat) : Py (List XSRow) :=
  match params with
  | [] => .error .indexError
  | t :: ps =>
    if t ≤ 2 then
      match ps with
      | x :: y :: _ =>
        if t = 0 then .ok [⟨x, none, num, y, b!"f", raw, sub⟩]
        else if t = 1 then .ok [⟨x, none, num, y, b!"n", raw, sub⟩]
        else .ok [⟨y, some x, num, 0, b!"n", raw, sub⟩]
      | _ => .error .indexError
    else .ok []

/-- objects.py:382-403, the loop over rows, which consumes `obj_nums`. -/
def xrefStreamLoop (st : Bytes) (cols : List Nat) : List (Int × Nat) → Nat → Py (List XSRow)
  | [], i => if i < st.length then .error .indexError else .ok []
  | (num, sub) :: nums, i =>
    if i < st.length then do
      let (params, ppr, i') := readCols st cols i
      let row ← rowOf params num ppr sub
      let rest ← xrefStreamLoop st cols nums i'
      .ok (row ++ rest)
    else .ok []

/-- A list of integers out of a list of objects (`int(x)`). -/
def intList : Obj → Py (List Int)
  | .list l => l.mapM fun o => orRaise .typeError (intOf o)
  | _ => .error .typeError

/-- A list of Python integers (`/Index` entries are used without conversion). -/
def strictInts : Obj → Py (List Int)
  | .list l => l.mapM fun o => match o with
    | .int n => .ok n
    | _ => .error .typeError
  | _ => .error .typeError

/-- objects.py:372-404 `parse_xref_stream_raw`: the table. Negative columns are not modelled. -/
def parseXrefStreamRaw (entries : Dict) (st : Bytes) : Py (List XSRow) := do
  let w ← orRaise .keyError (Dict.get? entries b!"/W")
  let cols ← intList w
  if cols.any (· < 0) then .error .outside
  let objRange ← match Dict.get? entries b!"/Index" with
    | some o => strictInts o
    | none => do
      let size ← orRaise .keyError (Dict.get? entries b!"/Size")
      match size with
      | .int n => .ok [0, n]
      | _ => .error .typeError
  let nums ← expandXrefIndex objRange 0
  xrefStreamLoop st (cols.map Int.toNat) nums 0

end Pdf
