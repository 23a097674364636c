/-
The disassembler: the file read in sequential order without the index, and the checks of the index against it.
-/
import Verif.Model.Doc

namespace Pdf

/-- What `parse_region` returns (objects.py:407-438): begin, end, kind and content. The begin of an indirect
object is the result of `next_line`, which may be `None` (objects.py:292-293). -/
inductive Region
  | void (b e : Nat) (text : Bytes)
  | comment (b e : Nat) (text : Bytes)
  | startxref (b e : Nat) (text : Bytes)
  | indObj (b : Option Nat) (e : Nat) (num gen : Int) (obj : Obj)
  | xrefTable (b e : Nat) (rows : List XRow) (trailer : Obj)
  deriving DecidableEq, Repr

/-- `bo`, the first item of the tuple. -/
def Region.begin : Region → Option Nat
  | .void b _ _ => some b
  | .comment b _ _ => some b
  | .startxref b _ _ => some b
  | .indObj b _ _ _ _ => b
  | .xrefTable b _ _ _ => some b

/-- `eo`, the second item of the tuple. -/
def Region.fin : Region → Nat
  | .void _ e _ => e
  | .comment _ e _ => e
  | .startxref _ e _ => e
  | .indObj _ e _ _ _ => e
  | .xrefTable _ e _ _ => e

/-- objects.py:290-303 `parse_indirect_obj`. -/
def parseIndirectObj [Zlib] (text : Bytes) (start : Nat) : Py Region := do
  let bo := (nextLine text start).map (·.1)
  let (i1, j1, _) := nextToken text start
  let (i2, j2, _) := nextToken text j1
  let num ← orRaise .valueError (pyInt (slice text i1 j1))
  let gen ← orRaise .valueError (pyInt (slice text i2 j2))
  let (_, j, _) := nextToken text j2
  let (i, j, _) := nextToken text j
  let o ← parseObj text i
  let (_, j, t) := nextToken text j
  let j := if t = some .stream then (nextToken text j).2.1 else j
  .ok (.indObj bo j num gen o)

/-- objects.py:407-438 `parse_region`; `none` is `None`. (`bl is None` never holds: `next_token` always returns
positions.) -/
def parseRegion [Zlib] (text : Bytes) (start : Nat) : Py (Option Region) :=
  let (bl, el, typ) := nextToken text start
  if bl ≠ start then .ok (some (.void start bl (slice text start bl)))
  else if typ = none then .ok (some (.void start el (slice text start el)))
  else if slice text bl (bl + 1) = b!"%" then .ok (some (.comment bl el (slice text bl el)))
  else if slice text bl (bl + 9) = b!"startxref" then
    let (_, j1, _) := nextToken text bl
    let (i2, j2, _) := nextToken text j1
    .ok (some (.startxref bl j2 (slice text i2 j2)))
  else if typ = some .integer then
    let (_, j1, _) := nextToken text bl
    let (_, j2, _) := nextToken text j1
    let (i3, j3, t) := nextToken text j2
    if t = some .keyword ∧ slice text i3 j3 = b!"obj" then (parseIndirectObj text bl).map some
    else .ok none
  else if slice text (el - 4) el = b!"xref" then do
    match ← parseXrefTableRaw text bl with
    | none => .ok none
    | some (b, e, rows, trailer) => .ok (some (.xrefTable b e rows trailer))
  else .ok none

/-- An item of the list returned by `file_object_map`: a region, an unfolded cross-reference stream (its begin is
that of the region of the stream, its end is `None`), or an object of an object stream. The begin of the latter
is the float `bo + (j + 1) / 10000` and its end the triple `(bo, actual_pos, j)`: here `bo`, `j` and `actual_pos`
are kept as they are. -/
inductive MapItem
  | region (r : Region) (rows : List (Nat × Nat × XRow))
  | xrefStream (b : Option Nat) (rows : List (Nat × Nat × XSRow)) (trailer : Dict)
  | embedded (bo actual j : Nat) (num obj : Obj) (env : Int)

/-- filestruct.py:121-132: the entries of a table with their subsection and rank in it (`sub + 1` subsections
seen so far; the locals `subsection` and `ln` before the first subsection are -1 and unbound). -/
def numberRows : Option (Nat × Nat) → List XRow → Py (List (Nat × Nat × XRow))
  | _, [] => .ok []
  | none, .sub _ _ :: rest => numberRows (some (0, 0)) rest
  | some (s, _), .sub _ _ :: rest => numberRows (some (s + 1, 0)) rest
  | none, .entry _ _ _ _ :: _ => .error .unboundLocal
  | some (s, ln), x :: rest => do
    let l ← numberRows (some (s, ln + 1)) rest
    .ok ((s, ln, x) :: l)

/-- filestruct.py:140-148: the same for the rows of a cross-reference stream. -/
def numberXSRows : Option (Nat × Nat) → List XSRow → List (Nat × Nat × XSRow)
  | _, [] => []
  | cur, x :: rest =>
    let ln := match cur with
      | none => 0
      | some (s, ln) => if x.sub = s then ln + 1 else 0
    (x.sub, ln, x) :: numberXSRows (some (x.sub, ln)) rest

/-- filestruct.py:151-158: the objects of an object stream. -/
def embeddedItems (bo : Nat) (env : Int) : Nat → List Embedded → List MapItem
  | _, [] => []
  | j, x :: rest => .embedded bo x.actual j x.num x.obj env :: embeddedItems bo env (j + 1) rest

/-- filestruct.py:119-158: what one region adds to the list. When the begin of an object stream is `None` the
addition `bo + (j + 1) / 10000` raises TypeError, unless the stream holds no object. -/
def regionItems [Zlib] (r : Region) : Py (List MapItem) :=
  match r with
  | .xrefTable _ _ rows _ => do
    let l ← numberRows none rows
    .ok [.region r l]
  | .indObj bo _ num _ (.stream entries data enc) =>
    match Dict.get? entries b!"/Type" with
    | some (.str ty) =>
      if ty = b!"/XRef" then do
        let rows ← parseXrefStreamRaw entries data
        .ok [.region r [], .xrefStream bo (numberXSRows none rows) entries]
      else if ty = b!"/ObjStm" then do
        let embs ← parseObjectStream (.stream entries data enc)
        match bo, embs with
        | some b, embs => .ok (.region r [] :: embeddedItems b num 0 embs)
        | none, [] => .ok [.region r []]
        | none, _ => .error .typeError
      else .ok [.region r []]
    | _ => .ok [.region r []]
  | _ => .ok [.region r []]

/-- filestruct.py:113-159, the loop. Out of fuel stands for a loop which does not advance. -/
def fileMapLoop [Zlib] (bdata : Bytes) : Nat → Nat → Py (List MapItem)
  | 0, _ => .error .nonterm
  | fuel + 1, i =>
    if i < bdata.length then do
      match ← parseRegion bdata i with
      | none => .ok []
      | some r => do
        let items ← regionItems r
        let rest ← fileMapLoop bdata fuel r.fin
        .ok (items ++ rest)
    else .ok []

/-- filestruct.py:108-159 `file_object_map`, given the bytes of the file. -/
def fileObjectMap [Zlib] (bdata : Bytes) : Py (List MapItem) := fileMapLoop bdata (bdata.length + 1) 0

/-! ### Checks of the index -/

/-- The tuples `('DIR', o_num, o_gen, pos)` and `('EMB', o_num, env_num, rank)`. -/
inductive Target
  | dir (num gen pos : Int)
  | emb (num env rank : Int)
  deriving DecidableEq, Repr

/-- The tuple of a scanned object (filestruct.py:623-624, 665-668): items which are not indirect objects or
whose begin is neither int nor float give nothing. The number of an embedded object is a parsed value: a list
or a dictionary is not hashable (TypeError), and a value which is not an integer is equal to no number of the
index; `None` stands for the tuple in that case. Booleans and floats, which Python may identify with integers,
are not modelled. -/
def MapItem.target : MapItem → Py (Option (Option Target))
  | .region (.indObj (some b) _ num gen _) _ => .ok (some (some (.dir num gen b)))
  | .embedded _ _ j num _ env =>
    match num with
    | .int n => .ok (some (some (.emb n env j)))
    | .list _ | .dict _ => .error .typeError
    | .bool _ | .real _ _ _ => .error .outside
    | _ => .ok (some none)
  | _ => .ok none

/-- The tuples of all scanned objects, in order. -/
def scanned (m : List MapItem) : Py (List (Option Target)) := do
  let l ← m.mapM MapItem.target
  .ok (l.filterMap id)

/-- The tuple of an entry of the index (filestruct.py:635-638, 656-659). The position of an entry of a file is an
integer, except that of embedded objects. -/
def Entry.target (e : Entry) : Py Target :=
  match e.envNum with
  | some env => do
    let p ← orRaise .keyError e.oPos
    .ok (.emb e.num env p)
  | none =>
    match e.absPos with
    | none => .error .keyError
    | some (.at n) => .ok (.dir e.num e.gen n)
    | some _ => .error .outside

/-- filestruct.py:627-641: the loop over the entries of one section: the entries without target, and the local
`pos`, which survives from one section to the next (`none` when unbound). -/
def sectionErrors (objs : List (Option Target)) :
    Option (Option Int) → List Entry → Py (List Target × Option (Option Int))
  | pos, [] => .ok ([], pos)
  | pos, o :: rest =>
    if o.num = 0 then
      sectionErrors objs (some (match o.xrefTablePos with | some p => some p | none => o.xrefStreamPos)) rest
    else if o.num < 0 then sectionErrors objs pos rest
    else do
      let k ← o.target
      let (errs, pos') ← sectionErrors objs pos rest
      if some k ∈ objs then .ok (errs, pos') else .ok (k :: errs, pos')

/-- filestruct.py:626-643: the loop over the sections, which fills a dictionary by position (a function here,
`none` where there is no key). -/
def targetsLoop (objs : List (Option Target)) :
    Option (Option Int) → List (List Entry) → (Option Int → Option (List Target)) →
      Py (Option Int → Option (List Target))
  | _, [], ret => .ok ret
  | pos, xref :: rest, ret => do
    let (errs, pos') ← sectionErrors objs pos xref
    let p ← orRaise .unboundLocal pos'
    targetsLoop objs pos' rest fun q => if q = p then some errs else ret q

/-- filestruct.py:619-644 `check_index_targets`. -/
def checkIndexTargets (m : List MapItem) (seq : List (List Entry)) :
    Py (Option Int → Option (List Target)) := do
  let objs ← scanned m
  targetsLoop objs none seq fun _ => none

/-- filestruct.py:650-660: the set of what is indexed. -/
def indexedTargets : List Entry → Py (List Target)
  | [] => .ok []
  | o :: rest =>
    if o.num ≤ 0 then indexedTargets rest
    else do
      let k ← o.target
      let l ← indexedTargets rest
      .ok (k :: l)

/-- filestruct.py:647-671 `check_not_indexed_objects`. -/
def checkNotIndexed (m : List MapItem) (seq : List (List Entry)) : Py (List (Option Target)) := do
  let indexed ← indexedTargets seq.flatten
  let objs ← scanned m
  .ok (objs.filter fun o => match o with
    | some t => t ∉ indexed
    | none => true)

end Pdf
