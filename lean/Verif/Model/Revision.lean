/-
Writing a revision: object streams, `build_revision_byte_stream`.
-/
import Verif.Model.Index
import Verif.Model.Xref

namespace Pdf

/-- filestruct.py:490-496 `serialize_fragment`. -/
def serializeFragment (num gen : Nat) (obj : Obj) : Py Bytes := do
  let ser ← serialize 0 obj
  return natDec num ++ b!" " ++ natDec gen ++ b!" obj\n" ++ (ser ++ b!"\n") ++ b!"endobj\n"

/-- filestruct.py:499-510 `append_to_stream_fragment`. The temporary stream has no encoded form
(`None`), here an empty one. -/
def appendToStream (num : Nat) (obj envelope : Obj) : Py Obj := do
  let ser ← serialize 0 obj
  match envelope with
  | .stream entries st _ =>
    let firstLine ← match Dict.get? entries b!"/FirstLine" with
      | none => .ok []
      | some (.list l) => .ok l
      | some _ => .error .attributeError
    return .stream (Dict.set entries b!"/FirstLine"
      (.list (firstLine ++ [.int num, .int st.length]))) (st ++ (ser ++ b!"\n")) []
  | _ => .error .typeError

/-- filestruct.py:513-517 `get_pos_in_stream`. -/
def posInStream : Obj → Py Nat
  | .stream entries _ _ =>
    match Dict.get? entries b!"/FirstLine" with
    | some (.list l) => .ok (l.length / 2 - 1)
    | _ => .error .keyError
  | _ => .error .typeError

/-- `f'{i} '` for the items of `/FirstLine`. -/
def headerItem : Obj → Py Bytes
  | .int n => .ok (intDec n ++ b!" ")
  | _ => .error .outside

/-- filestruct.py:524-531: the header of an object stream and the updated entries. -/
def streamHeader (entries : Dict) : Py (Bytes × Dict) :=
  if !Dict.has entries b!"/First" && !Dict.has entries b!"/N" then
    match Dict.get? entries b!"/FirstLine" with
    | some (.list tokens) => do
      let items ← tokens.mapM headerItem
      let header := items.flatten ++ b!"\n"
      let entries := Dict.set entries b!"/First" (.int header.length)
      let entries := Dict.set entries b!"/N" (.int (tokens.length / 2 : Nat))
      .ok (header, Dict.del entries b!"/FirstLine")
    | some _ => .error .outside
    | none => .error .keyError
  else .ok ([], entries)

/-- filestruct.py:520-535 `finalize_stream`. -/
def finalizeStream [Zlib] : Obj → Py Obj
  | .stream entries st _ => do
    let (header, entries) ← streamHeader entries
    let (envelope, _) ← forgeStream (Dict.set entries b!"/Length" (.int (-1))) (header ++ st)
    return envelope
  | _ => .error .typeError

/-- filestruct.py:550-557: objects that go into object streams. -/
def envPass (rev : Rev) : List Change → List Obj → List XElem → Py (List Obj × List XElem)
  | [], cache, xref => .ok (cache, xref)
  | c :: cs, cache, xref => do
    let e ← entryAt rev c.num
    if c.act ≠ .d ∧ e.envNum.getD 0 ≠ 0 then
      let obj ← cacheAt cache c.num
      let old ← cacheAt cache (e.envNum.getD 0)
      let newEnv ← appendToStream c.num obj old
      let pos ← posInStream newEnv
      envPass rev cs (cache.set (e.envNum.getD 0) newEnv)
        (xref ++ [⟨false, c.num, e.gen, some pos, e.envNum⟩])
    else envPass rev cs cache xref

/-- filestruct.py:571. -/
def isObjStm : Obj → Bool
  | .stream entries _ _ => Dict.get? entries b!"/Type" == some (.str b!"/ObjStm")
  | _ => false

/-- `new_index[num]['abs_pos'] = pos; new_index[num]['abs_next'] = next`. -/
def setAbs (rev : Rev) (num : Nat) (pos next : Int) : Py Rev := do
  let e ← entryAt rev num
  return rev.set num (.one { e with absPos := some (.at pos), absNext := some next })

/-- Local variables of `build_revision_byte_stream` in its second loop: the concatenation of the
fragments, `xref_table`, `counter`, `new_index`, and `block` (`none` when unbound). -/
structure Build where
  frags : Bytes
  xref : List XElem
  counter : Nat
  index : Rev
  block : Option Bytes
  deriving Repr

/-- filestruct.py:561-564: generation of a deleted object, before it is incremented. -/
def freeGen (rev : Rev) (num : Nat) : Py Nat :=
  if num = 0 then .ok 65534 else do
    let e ← entryAt rev num
    return e.gen

/-- filestruct.py:571-572: the object as it has to be written. -/
def toWrite [Zlib] (obj : Obj) : Py Obj := if isObjStm obj then finalizeStream obj else .ok obj

/-- filestruct.py:558-578: the second loop. -/
def mainPass [Zlib] (rev : Rev) (cache : List Obj) : List Change → Build → Py Build
  | [], st => .ok st
  | c :: cs, st =>
    if c.act = .d then do
      let gen ← freeGen rev c.num
      mainPass rev cache cs { st with xref := st.xref ++ [⟨true, c.num, gen, none, none⟩] }
    else do
      let e ← entryAt rev c.num
      if e.envNum.getD 0 = 0 then
        let obj ← cacheAt cache c.num
        let obj ← toWrite obj
        let block ← serializeFragment c.num e.gen obj
        let index ← setAbs st.index c.num st.counter (st.counter + block.length : Nat)
        mainPass rev cache cs
          { frags := st.frags ++ block
            xref := st.xref ++ [⟨false, c.num, e.gen, some st.counter, e.envNum⟩]
            counter := st.counter + block.length
            index := index
            block := some block }
      else mainPass rev cache cs st

/-- Insertion into a list sorted by object number, after equal ones. -/
def insertElem (x : XElem) : List XElem → List XElem
  | [] => [x]
  | y :: l => if x.num < y.num then x :: y :: l else y :: insertElem x l

/-- `xref_table.sort(key=lambda xr: xr[1])` (a stable sort). -/
def sortElems (l : List XElem) : List XElem := l.foldl (fun acc x => insertElem x acc) []

/-- `cache[0]`, used as a dict. -/
def cacheDict (cache : List Obj) : Py Dict := do
  match ← cacheAt cache 0 with
  | .dict d => .ok d
  | _ => .error .typeError

/-- filestruct.py:580-585: the xref table and the index. -/
def writeTable (st : Build) (cache : List Obj) (nextFree : List (Nat × Nat)) :
    Py (Bytes × Rev × List Obj) := do
  let trailer ← cacheDict cache
  let built ← formatXrefTable (sortElems st.xref) trailer nextFree
  let e ← entryAt st.index 0
  let k : Int := match rfind built b!"trailer" 0 with
    | some k => k
    | none => -1
  let e := { e with
    xrefTablePos := some st.counter
    absPos := some (.at (st.counter + k))
    absNext := some (st.counter + built.length) }
  return (built, st.index.set 0 (.one e), cache)

/-- filestruct.py:587-593: the xref stream, the index, and the trailer as mutated. -/
def writeStream [Zlib] (st : Build) (cache : List Obj) (nextFree : List (Nat × Nat))
    (xnum : Nat) : Py (Bytes × Rev × List Obj) := do
  let trailer ← cacheDict cache
  let (built, trailer) ← formatXrefStream
    (sortElems st.xref ++ [⟨false, xnum, 0, some st.counter, none⟩]) trailer nextFree xnum
  let _ ← entryAt st.index xnum
  let block ← orRaise .unboundLocal st.block
  let index ← setAbs st.index xnum st.counter (st.counter + block.length)
  let e ← entryAt index 0
  let e := { e with
    xrefStreamPos := some st.counter
    absPos := some (.at st.counter)
    absNext := some (st.counter + built.length) }
  return (built, index.set 0 (.one e), cache.set 0 (.dict trailer))

/-- filestruct.py:538-599 `build_revision_byte_stream`: the bytes, the new index, and the cache as
mutated (envelopes, and the trailer when an xref stream is written). `xrefStreamNum = 0` stands for
both `None` and 0. -/
def buildRevision [Zlib] (changes : List Change) (rev : Rev) (cache : List Obj)
    (startingPos xrefStreamNum : Nat) : Py (Bytes × Rev × List Obj) := do
  let margin : Bytes := b!"\n"
  let nextFree := circularDeleted changes
  let l : List Change := ⟨0, 0, .d⟩ :: changes
  let (cache, xref) ← envPass rev l cache []
  let st ← mainPass rev cache l
    { frags := margin, xref := xref, counter := startingPos + margin.length, index := rev,
      block := none }
  let (built, index, cache) ←
    (if xrefStreamNum = 0 then writeTable st cache nextFree
     else writeStream st cache nextFree xrefStreamNum)
  return (st.frags ++ built ++ (b!"startxref\n" ++ natDec st.counter ++ b!"\n") ++ b!"%%EOF\n",
    index, cache)

end Pdf
