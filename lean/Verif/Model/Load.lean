/-
Loading a file: the chain of cross-reference sections, the index, the document.
-/
import Verif.Model.Doc

namespace Pdf

/-- A list of entries built from a cross-reference section (filestruct.py:161-193 and 196-241): the
trailer entry, the entries of the objects, and (filestruct.py:297) the position of the `%%EOF` that
follows. -/
structure Section where
  trailer : Entry
  objs : List Entry
  eofPos : Int
  deriving Repr

/-- `b.find(...)` as an integer. -/
def posOf : Option Nat → Int
  | some n => n
  | none => -1

/-- filestruct.py:175-183: the entries of a table. Free entries and object 0 are skipped. Negative
numbers are not modelled. -/
def tableEntries : List XRow → Py (List Entry)
  | [] => .ok []
  | .sub _ _ :: rows => tableEntries rows
  | .entry offset num gen kw :: rows => do
    if !isAscii kw then .error .unicodeError
    if gen < 0 ∨ num < 0 then .error .outside
    let rest ← tableEntries rows
    if kw ≠ b!"f" ∧ num ≠ 0 then
      .ok ({ num := num, gen := gen.toNat, absPos := some (.at offset) } :: rest)
    else .ok rest

/-- filestruct.py:161-193 `parse_xref_table`, when the text starts with `xref`; `general_offset` is 0 for
every provider. -/
def parseXrefTable [Zlib] (bdata : Bytes) (start : Nat) : Py (Entry × List Entry) := do
  match ← parseXrefTableRaw bdata start with
  | none => .error .typeError
  | some (_, _, rows, _) =>
    let trailerPos := posOf (find bdata b!"trailer" start)
    let objs ← tableEntries rows
    .ok ({ num := 0, absPos := some (.at trailerPos), xrefTablePos := some start }, objs)

/-- filestruct.py:214-231: the entries of a stream. -/
def streamEntries : List XSRow → Py (List Entry)
  | [] => .ok []
  | row :: rows => do
    let rest ← streamEntries rows
    if row.num = 0 ∨ row.kw = b!"f" then .ok rest
    else if row.num < 0 then .error .outside
    else match row.env with
      | some env =>
        if env ≠ 0 then
          .ok ({ num := row.num, gen := row.gen, envNum := some env, oPos := some row.offset,
                 absPos := some (.tup env row.offset) } :: rest)
        else .ok ({ num := row.num, gen := row.gen, absPos := some (.at row.offset) } :: rest)
      | none => .ok ({ num := row.num, gen := row.gen, absPos := some (.at row.offset) } :: rest)

/-- filestruct.py:196-241 `parse_xref_stream`. -/
def parseXrefStream (entries : Dict) (st : Bytes) (trailerPos oNum : Int) :
    Py (Entry × List Entry) := do
  let rows ← parseXrefStreamRaw entries st
  let objs ← streamEntries rows
  .ok ({ num := 0, absPos := some (.at trailerPos), xrefStreamPos := some trailerPos,
         xrefStreamNum := some oNum }, objs)

/-- A position that must not be negative. -/
def natPos (i : Int) : Py Nat := if i < 0 then .error .outside else .ok i.toNat

/-- filestruct.py:277-283: a section that is a table, and its trailer. -/
def readTableSection [Zlib] (bdata : Bytes) (a0 : Nat) : Py (Entry × List Entry × Obj) := do
  let (t, objs) ← parseXrefTable bdata a0
  let p ← match t.absPos with
    | some (.at p) => natPos p
    | _ => .error .outside
  let (_, j, _) := nextToken bdata p
  let (i, j, _) := nextToken bdata j
  let trailer ← parseObj (slice bdata i j) 0
  return (t, objs, trailer)

/-- filestruct.py:284-295: a section that is a stream, and its dictionary. With anything else, the first access of
`parse_xref_stream_raw` (objects.py:375), `xref_stream['entries']`, raises: the keys of a parsed dictionary are names. -/
def readStreamSection [Zlib] (bdata : Bytes) (a0 : Nat) (xrefPos : Int) :
    Py (Entry × List Entry × Obj) := do
  let (i, j, _) := nextToken bdata a0
  let oNum ← parseObj bdata i
  let (_, j, _) := nextToken bdata j
  let (_, j, _) := nextToken bdata j
  let (i, _, _) := nextToken bdata j
  match ← parseObj bdata i with
  | .stream entries st _ =>
    match oNum with
    | .int n => do
      let (t, objs) ← parseXrefStream entries st xrefPos n
      return (t, objs, .dict entries)
    | _ => .error .outside
  | .dict _ => .error .keyError
  | _ => .error .typeError

/-- filestruct.py:276-297: the section at `xrefPos`, its trailer dictionary, and the buffer. -/
def readSection [Zlib] (fdata : Provider) (xrefPos startxrefPos eofPos last : Int) :
    Py (Section × Dict × Bytes) := do
  let (bdata, a0, _, _) ← fdata.read xrefPos (last - xrefPos)
  let a ← natPos a0
  let (bdata, t, objs, trailer) ←
    (if slice bdata a (a + 4) = b!"xref" then do
      let r ← readTableSection bdata a
      .ok (bdata, r)
    else do
      let (bdata, a0, _, _) ← fdata.read xrefPos (startxrefPos - xrefPos)
      let a ← natPos a0
      let r ← readStreamSection bdata a xrefPos
      .ok (bdata, r))
  match trailer with
  | .dict d => .ok (⟨{ t with startxrefPos := some startxrefPos }, objs, eofPos⟩, d, bdata)
  | _ => .error .outside

/-- filestruct.py:300-305: the positions of the next sections, 0 standing for `False`. -/
def nextSections (trailer : Dict) (prev xrefstm : Int) : Py (Bool × Int × Int) := do
  if xrefstm = 0 ∧ prev = 0 then
    let xs ← match Dict.get? trailer b!"/XRefStm" with
      | none => .ok none
      | some o => do
        let n ← orRaise .typeError (intOf o)
        .ok (some n)
    let pv ← match Dict.get? trailer b!"/Prev" with
      | none => .ok 0
      | some o => orRaise .typeError (intOf o)
    return (xs.isSome, pv, xs.getD 0)
  else return (false, prev, xrefstm)

/-- filestruct.py:264-305: a turn of the loop of `build_xref_sequence` after the first one: the section read
from the pending positions `prev` and `xrefstm` (0 standing for `False`), the new buffer, and the new
pending positions. -/
def chainTurn [Zlib] (fdata : Provider) (bdata : Bytes) (prev xrefstm : Int) :
    Py (Section × Bytes × Int × Int) := do
  let xrefPos := if xrefstm ≠ 0 then xrefstm else prev
  let prev' := if xrefstm ≠ 0 then prev else 0
  let x ← natPos xrefPos
  let startxrefPos := posOf (find bdata b!"startxref" x)
  let eofPos := posOf (find bdata b!"%%EOF" x)
  let (s, trailer, bdata) ← readSection fdata xrefPos startxrefPos eofPos eofPos
  let (stm, prev, xrefstm) ← nextSections trailer prev' 0
  .ok ({ s with trailer := { s.trailer with xrefStm := stm } }, bdata, prev, xrefstm)

/-- filestruct.py:258-305: the loop of `build_xref_sequence` after its first turn.

A file of `n` bytes has at most `n` positions modulo its size, and what is read at a position (in mode
"SINGLE") depends only on the position modulo the size; a chain of more than `4 * n + 4` sections is
therefore periodic, and the loop does not terminate. -/
def chainLoop [Zlib] (fdata : Provider) : Nat → Bytes → Int → Int → Py (List Section)
  | 0, _, _, _ => .error .nonterm
  | fuel + 1, bdata, prev, xrefstm =>
    if prev = 0 ∧ xrefstm = 0 then .ok []
    else do
      let (s, bdata, prev, xrefstm) ← chainTurn fdata bdata prev xrefstm
      let rest ← chainLoop fdata fuel bdata prev xrefstm
      .ok (s :: rest)

/-- filestruct.py:244-306: the list `chrono`. -/
def xrefSections [Zlib] (fdata : Provider) (size : Nat) : Py (List Section) := do
  let (bdata, a0, _, _) ← fdata.read (-100) (-1)
  let a ← natPos a0
  let eofPos := posOf (rfind bdata b!"%%EOF" a)
  let startxrefPos := posOf (rfind bdata b!"startxref" a)
  let (i, j, _) := nextToken bdata (startxrefPos + 9).toNat
  let xrefPos ← orRaise .valueError (pyInt (slice bdata i j))
  let (s, trailer, bdata) ← readSection fdata xrefPos startxrefPos eofPos startxrefPos
  let (stm, prev, xrefstm) ← nextSections trailer 0 0
  let rest ← chainLoop fdata (4 * size + 4) bdata prev xrefstm
  .ok ({ s with trailer := { s.trailer with xrefStm := stm } } :: rest)

/-- The `abs_pos` of an entry that is not embedded. -/
def directPos (e : Entry) : Py Int :=
  match e.absPos with
  | some (.at p) => .ok p
  | _ => .error .outside

/-- filestruct.py:299: the pairs `(abs_pos, o_num)` of a section. -/
def seqOf (s : Section) : Py (List (Int × Int)) := do
  let t ← directPos s.trailer
  let os ← (s.objs.filter (·.envNum.isNone)).mapM fun e => do
    let p ← directPos e
    return (p, e.num)
  return (t, 0) :: os ++ [(s.eofPos, -1)]

/-- Insertion into a sorted list. -/
def insertInt (x : Int) : List Int → List Int
  | [] => [x]
  | y :: l => if x ≤ y then x :: y :: l else y :: insertInt x l

/-- `sorted(l)` on integers. -/
def sortInts : List Int → List Int
  | [] => []
  | x :: l => insertInt x (sortInts l)

/-- filestruct.py:306-310: `nxt[p]`, over the sorted positions followed by the size of the file. -/
def nxtOf : List Int → Int → Option Int
  | a :: b :: l, p => if a = p ∧ a < b then some b else nxtOf (b :: l) p
  | _, _ => none

/-- filestruct.py:306-312: the positions followed by the size, and the greatest object number. -/
def nextMap (fdata : Provider) (secs : List Section) : Py (List Int × Int) := do
  let seqs ← secs.mapM seqOf
  let seq := seqs.flatten
  let sz ← fdata.size
  return (sortInts (seq.map Prod.fst) ++ [(sz : Int)], (seq.map Prod.snd).foldl max (-1))

/-- filestruct.py:325-334: merging the section of an `/XRefStm` with the table that mentions it; the
sections are in file order. The objects of the table are dropped. -/
def mergeHybrid : List Section → List Section → Py (List Section)
  | acc, [] => .ok acc.reverse
  | acc, x :: xs =>
    if x.trailer.xrefStm then
      match acc with
      | [] => .error .indexError
      | p :: acc =>
        mergeHybrid ({ p with trailer := { p.trailer with xrefStm := true, absPos := x.trailer.absPos } } :: acc) xs
    else mergeHybrid (x :: acc) xs

/-- filestruct.py:348-359: an entry is recorded in the current column `m`; `i` is its index. -/
def placeEntry (docVer : Nat) (m : Rev) (i : Nat) (e : Entry) : Py Rev := do
  match ← slotAt m i with
  | .hole => .ok (m.set i (.one { e with ver := 0, docVer := docVer }))
  | .one old =>
    if old.absPos.isSome ∧ e.absPos.isSome ∧ old.absPos = e.absPos then
      .ok m
    else .ok (m.set i (.one { e with ver := old.ver + 1, docVer := docVer }))
  | .many _ => .error .typeError

/-- filestruct.py:347-359: the entries of a section. -/
def placeAll (docVer : Nat) : Rev → List Entry → Py Rev
  | m, [] => .ok m
  | m, e :: es => do
    let m ← placeEntry docVer m (if e.num < 0 then m.length - 1 else e.num.toNat) e
    placeAll docVer m es

/-- The end marker of a section. -/
def eofEntry (s : Section) : Entry := { num := -1, absPos := some (.at s.eofPos) }

/-- filestruct.py:335-359: the columns, newest first, the last one being given apart. A first section
at a position that is not positive, or a third trailer in the same revision, is outside the model. -/
def columns : List Section → Int → List Rev → Rev → Py (List Rev)
  | [], _, done, m => .ok (m :: done)
  | s :: ss, prevPos, done, m => do
    let p ← directPos s.trailer
    if p > prevPos then
      let docVer := done.length + 1
      let m' ← placeAll docVer (m.set 0 (.one { s.trailer with ver := docVer, docVer := docVer }))
        (s.objs ++ [eofEntry s])
      columns ss p (m :: done) m'
    else
      let docVer := done.length
      match m.head? with
      | some (.one t) =>
        let m' ← placeAll docVer (m.set 0 (.many [t, { s.trailer with ver := docVer, docVer := docVer }]))
          (s.objs ++ [eofEntry s])
        columns ss prevPos done m'
      | _ => .error .outside

/-- filestruct.py:315-359: the columns, newest first, before positions are completed. -/
def buildColumns (secs : List Section) (nb : Int) : Py (List Rev) := do
  let size := (nb + 2).toNat
  match ← mergeHybrid [] secs.reverse with
  | [] => .error .outside
  | s :: ss => do
    let p ← directPos s.trailer
    if p ≤ 0 then .error .outside
    let m ← placeAll 0 ((List.replicate size Slot.hole).set 0 (.one { s.trailer with ver := 0, docVer := 0 }))
      (s.objs ++ [eofEntry s])
    columns ss p [] m

/-- filestruct.py:366-377: completing an entry: the position of an embedded object, `abs_next`. -/
def completeEntry (nxt : List Int) (current : Rev) (e : Entry) : Py Entry := do
  match e.absPos with
  | some (.at p) =>
    let n ← orRaise .keyError (nxtOf nxt p)
    return { e with absNext := some n }
  | some (.tup env rank) =>
    let ce ← entryAt current env
    let loc ← directPos ce
    let n ← orRaise .keyError (nxtOf nxt loc)
    return { e with absPos := some (.emb loc rank), absNext := some n }
  | _ => .error .outside

/-- filestruct.py:361-377: completing a cell. A cell that was already in the previous column (`before`, as
completed in `done`) is the same Python object and is completed once. -/
def completeCell (nxt : List Int) (before done current : Rev) (i : Nat) : Py Slot := do
  let s ← slotAt current i
  if before[i]? = some s then
    orRaise .indexError done[i]?
  else match s with
    | .hole => .ok .hole
    | .one e => do
      let e ← completeEntry nxt current e
      .ok (.one e)
    | .many es => do
      let es ← es.mapM (completeEntry nxt current)
      .ok (.many es)

/-- filestruct.py:360-377: completing the columns, given oldest first; the result is newest first. -/
def completeAll (nxt : List Int) : Rev → List Rev → List Rev → Py (List Rev)
  | _, acc, [] => .ok acc
  | before, acc, current :: rest => do
    let col ← (List.range current.length).mapM (completeCell nxt before (acc.head?.getD []) current)
    completeAll nxt current (col :: acc) rest

/-- api.py:46, for one column: `{'eof_cut': ..., 'fdata': fdata}`. -/
def fileData (fdata : Provider) (rev : Rev) : Py Data := do
  match rev.getLast? with
  | some (.one e) => do
    let p ← directPos e
    let p ← natPos p
    let cut ← eofCut p fdata
    return { fdata := fdata, eofCut := some cut }
  | _ => .error .outside

/-- api.py:42-52 `doc_constructor`, before the commit. -/
def initialDoc [Zlib] (fdata : Provider) : Py Doc := do
  let size ← fdata.size
  let secs ← xrefSections fdata size
  let (nxt, nb) ← nextMap fdata secs
  let cols ← buildColumns secs nb
  let revs ← completeAll nxt [] [] cols.reverse
  let datas ← revs.mapM (fileData fdata)
  match revs.map List.dropLast, datas with
  | cur :: past, d :: ds => do
    let cache ← buildCache fdata cur
    return { cur := cur, past := past, cache := cache, curData := d, pastData := ds }
  | _, _ => .error .outside

/-- api.py:42-52 `doc_constructor`. -/
def docConstructor [Zlib] (fdata : Provider) : Py Doc := do
  let doc ← initialDoc fdata
  commit doc

/-- api.py:84-87 `loads`. -/
def loads [Zlib] (bdata : Bytes) : Py Doc := docConstructor (.single bdata)

/-- api.py:55-75 `blank`, with the size of the page. -/
def blank [Zlib] (x y : Int) : Py Doc := do
  let doc : Doc :=
    { cur := [.one { num := 0 }], past := [], cache := [.null]
      curData := { fdata := .dummy b!"%PDF-1.4" }, pastData := [] }
  let (doc, _) ← addObject doc (.dict [(b!"/Type", .str b!"/Catalog"), (b!"/Pages", .ref 0 2)])
  let (doc, _) ← addObject doc (.dict [(b!"/Type", .str b!"/Pages"), (b!"/Kids", .list [.ref 0 3]), (b!"/Count", .int 1)])
  let (doc, _) ← addObject doc (.dict [(b!"/Type", .str b!"/Page"), (b!"/Parent", .ref 0 2),
    (b!"/MediaBox", .list [.int 0, .int 0, .int x, .int y]), (b!"/Resources", .dict [])])
  commit { doc with cache := doc.cache.set 0 (.dict [(b!"/Root", .ref 0 1)]) }

/-- filestruct.py:240-313 `build_xref_sequence`, its first result: the sections of the file as lists of entries, which
`dump_disasm` (cli.py:198-202) hands to the checks. -/
def xrefSequence [Zlib] (F : Bytes) : Py (List (List Entry)) := do
  let xs ← xrefSections (.single F) F.length
  .ok (xs.map fun x => x.trailer :: (x.objs ++ [eofEntry x]))

end Pdf
