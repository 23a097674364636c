/-
Documents in memory: which lists and dicts are shared by which documents, and what each operation
writes in place.

A `Doc` of the code is a tuple of three lists (docstruct.py:17): `index` (a list of lists of dicts),
`cache` (a list of objects, the first one being the dict of the trailer) and `data` (a list of dicts).
Those lists and dicts are the mutable cells of the heap below; there is one table per kind of cell, and
an address is a rank in its table. Cells are never freed. The functional model of `Verif.Model.Doc`
ignores sharing; `abs` reads a functional document from the heap.

Simplifications: the objects in the cache other than the trailer are values here, as no operation below
writes into them (`get_object` gives deep copies, docstruct.py:292; the exception is the list
`/FirstLine` of an object stream under construction, filestruct.py:505, which is out of this model). The
lists of entries in cell 0 of linearized files are values as well. `deepcopy` (filestruct.py:545) makes
one new dict for each cell of the revision. An operation that raises stops the program.
-/
import Verif.Model.Doc

namespace Pdf

/-- A cell of a revision: `None`, (the address of) an entry, or a list of entries. -/
inductive HSlot
  | hole
  | one (a : Nat)
  | many (l : List Nat)
  deriving DecidableEq, Repr

/-- A cell of the cache: an object, or (the address of) the dict of the trailer. -/
inductive HCell
  | val (o : Obj)
  | dict (a : Nat)
  deriving DecidableEq, Repr

/-- The memory. `outs`: the lists `index` (most recent revision first, as in `Doc`); `revs`: the
revisions; `ents`: the entries; `caches`; `dicts`: the trailers; `datas`: the lists `data` (most recent
first); `recs`: the records in them. -/
structure Heap where
  outs : List (List Nat)
  revs : List (List HSlot)
  ents : List Entry
  caches : List (List HCell)
  dicts : List Dict
  datas : List (List Nat)
  recs : List Data
  deriving DecidableEq, Repr

/-- docstruct.py:17 `Doc`: the addresses of `index`, `cache`, `data`. -/
structure HDoc where
  index : Nat
  cache : Nat
  data : Nat
  deriving DecidableEq, Repr

/-! ### Reading the heap -/

/-- `l` through `f`, when `f` is defined everywhere on `l`. -/
def allSome {α β : Type} (f : α → Option β) : List α → Option (List β)
  | [] => some []
  | a :: l =>
    match f a, allSome f l with
    | some b, some r => some (b :: r)
    | _, _ => none

def absSlot (H : Heap) : HSlot → Option Slot
  | .hole => some .hole
  | .one a => (H.ents[a]?).map .one
  | .many l => (allSome (fun a => H.ents[a]?) l).map .many

def absRev (H : Heap) (a : Nat) : Option Rev := (H.revs[a]?).bind (allSome (absSlot H))

def absCell (H : Heap) : HCell → Option Obj
  | .val o => some o
  | .dict a => (H.dicts[a]?).map .dict

def absIndex (H : Heap) (a : Nat) : Option (List Rev) := (H.outs[a]?).bind (allSome (absRev H))

def absCache (H : Heap) (a : Nat) : Option (List Obj) := (H.caches[a]?).bind (allSome (absCell H))

def absData (H : Heap) (a : Nat) : Option (List Data) :=
  (H.datas[a]?).bind (allSome fun r => H.recs[r]?)

/-- The document as seen by its user: `none` when an address is dangling, or when `index` or `data` is
empty. -/
def abs (H : Heap) (d : HDoc) : Option Doc :=
  match absIndex H d.index, absCache H d.cache, absData H d.data with
  | some (cur :: past), some cache, some (cd :: pd) => some ⟨cur, past, cache, cd, pd⟩
  | _, _, _ => none

/-! ### Writing cells -/

/-- `index[-1]`, with the rest of the list. -/
def lastRev (H : Heap) (d : HDoc) : Py (Nat × List Nat) :=
  match H.outs[d.index]? with
  | some (r :: rs) => .ok (r, rs)
  | _ => .error .outside

/-- `data[-1]`, with the rest of the list. -/
def lastData (H : Heap) (d : HDoc) : Py (Nat × List Nat) :=
  match H.datas[d.data]? with
  | some (r :: rs) => .ok (r, rs)
  | _ => .error .outside

/-- A new cell for cell 0 of a cache: a dict gets an address of its own. -/
def mkCell (H : Heap) : Obj → HCell × Heap
  | .dict d => (.dict H.dicts.length, { H with dicts := H.dicts ++ [d] })
  | o => (.val o, H)

/-- The cells of a cache after the reads of docstruct.py:218-284, given the objects in it: cell 0 is left
as it is unless its content has changed (it is written only when it was `None`). -/
def refill (H : Heap) (old : List HCell) : List Obj → List HCell × Heap
  | [] => ([], H)
  | o :: os =>
    match old with
    | c :: _ =>
      if absCell H c = some o then (c :: os.map .val, H)
      else ((mkCell H o).1 :: os.map .val, (mkCell H o).2)
    | [] => ((mkCell H o).1 :: os.map .val, (mkCell H o).2)

/-- The list `cache` of the document, written in place. -/
def fillCache (H : Heap) (d : HDoc) (cache : List Obj) : Heap :=
  let r := refill H ((H.caches[d.cache]?).getD []) cache
  { r.2 with caches := r.2.caches.set d.cache r.1 }

/-- New cells for the entries of a revision (`deepcopy`). -/
def allocEntries (H : Heap) : List Entry → List Nat × Heap
  | [] => ([], H)
  | e :: es =>
    let r := allocEntries { H with ents := H.ents ++ [e] } es
    (H.ents.length :: r.1, r.2)

/-- New cells for a revision (`deepcopy`). -/
def allocSlots (H : Heap) : Rev → List HSlot × Heap
  | [] => ([], H)
  | .hole :: s =>
    let r := allocSlots H s
    (.hole :: r.1, r.2)
  | .one e :: s =>
    let r := allocSlots { H with ents := H.ents ++ [e] } s
    (.one H.ents.length :: r.1, r.2)
  | .many es :: s =>
    let m := allocEntries H es
    let r := allocSlots m.2 s
    (.many m.1 :: r.1, r.2)

/-! ### Operations -/

/-- docstruct.py:618-620 `copy_doc(doc, 'SAME')`. -/
def copySame (H : Heap) (d : HDoc) : Py (HDoc × Heap) := do
  let (r, rs) ← lastRev H d
  let cells ← orRaise .outside H.revs[r]?
  let cache ← orRaise .outside H.caches[d.cache]?
  let data ← orRaise .outside H.datas[d.data]?
  .ok (⟨H.outs.length, H.caches.length, H.datas.length⟩,
    { H with outs := H.outs ++ [H.revs.length :: rs]
             revs := H.revs ++ [cells]
             caches := H.caches ++ [cache]
             datas := H.datas ++ [data] })

/-- docstruct.py:625-629 `copy_doc(doc, 'NEXT')`: in addition, the dict of the trailer and the last record
are copied. -/
def copyNext (H : Heap) (d : HDoc) : Py (HDoc × Heap) := do
  let (nd, H) ← copySame H d
  let cells ← orRaise .outside H.caches[nd.cache]?
  let trailer ← (match cells with
    | c :: _ => orRaise .outside (absCell H c)
    | [] => .error .indexError)
  let t ← (match trailer with
    | .dict t => .ok t
    | _ => .error .typeError)
  let (r, rs) ← lastData H nd
  let record ← orRaise .outside H.recs[r]?
  .ok (nd, { H with dicts := H.dicts ++ [t]
                    caches := H.caches.set nd.cache (.dict H.dicts.length :: cells.drop 1)
                    recs := H.recs ++ [record]
                    datas := H.datas.set nd.data (H.recs.length :: rs) })

/-- `doc.cache[num] = o`, on the list of the document. -/
def putCache (H : Heap) (d : HDoc) (num : Nat) (o : Obj) : Py Heap := do
  let cells ← orRaise .outside H.caches[d.cache]?
  if num < cells.length then
    let r := if num = 0 then mkCell H o else (.val o, H)
    .ok { r.2 with caches := r.2.caches.set d.cache (cells.set num r.1) }
  else .error .indexError

/-- docstruct.py:635-653 `update_object`, with `immut=True`. -/
def hUpdate (H : Heap) (d : HDoc) (num : Nat) (o : Obj) : Py (HDoc × Heap) := do
  let doc ← orRaise .outside (abs H d)
  let old ← entryAt doc.cur num
  let (nd, H) ← copySame H d
  let (r, _) ← lastRev H nd
  let cells ← orRaise .outside H.revs[r]?
  let H : Heap := { H with
    ents := H.ents ++ [newEntry old num doc.past.length o]
    revs := H.revs.set r (cells.set num (.one H.ents.length)) }
  let H ← putCache H nd num o
  .ok (nd, H)

/-- docstruct.py:656-669 `add_object`, with `immut=True`. -/
def hAdd (H : Heap) (d : HDoc) (o : Obj) : Py (HDoc × Heap) := do
  let doc ← orRaise .outside (abs H d)
  let num := doc.cur.length
  let (nd, H) ← copySame H d
  let (r, _) ← lastRev H nd
  let cells ← orRaise .outside H.revs[r]?
  let cache ← orRaise .outside H.caches[nd.cache]?
  let H : Heap := { H with
    ents := H.ents ++ [{ num := num, docVer := doc.past.length }]
    revs := H.revs.set r (cells ++ [.one H.ents.length])
    caches := H.caches.set nd.cache (cache ++ [.val .null]) }
  let H ← putCache H nd num o
  .ok (nd, H)

/-- docstruct.py:287-294 `get_object`: the value, and the memory after the cache has been filled. -/
def hGet [Zlib] (H : Heap) (d : HDoc) (r : Obj) : Py (Obj × Heap) := do
  let doc ← orRaise .outside (abs H d)
  let (o, doc') ← getObject doc r
  .ok (o, fillCache H d doc'.cache)

/-- docstruct.py:562-566: `new_doc.index[-1].append(new_index_xs)`, and the number of the xref stream
written in the entry of cell 0, in place. -/
def hXrefEntry (H : Heap) (nd : HDoc) (nbRev : Nat) : Py (Nat × Heap) := do
  let (r, _) ← lastRev H nd
  let cells ← orRaise .outside H.revs[r]?
  let H : Heap := { H with
    ents := H.ents ++ [{ num := cells.length, docVer := nbRev - 1 }]
    revs := H.revs.set r (cells ++ [.one H.ents.length]) }
  let slot ← orRaise .indexError cells[0]?
  let a ← (match slot with
    | .one a => .ok a
    | _ => .error .typeError)
  let e ← orRaise .outside H.ents[a]?
  .ok (cells.length, { H with ents := H.ents.set a { e with xrefStreamNum := some cells.length } })

/-- docstruct.py:560-566. -/
def hXref (H : Heap) (nd : HDoc) (nbRev : Nat) (x : Int) : Py (Nat × Heap) :=
  if x = 0 then .ok (0, H)
  else if x = -1 then hXrefEntry H nd nbRev
  else if x < 0 then .error .outside
  else .ok (x.toNat, H)

/-- The dict in cell 0 of the cache, written in place by `f`. -/
def onTrailer (H : Heap) (d : HDoc) (f : Dict → Dict) : Py Heap := do
  let cells ← orRaise .outside H.caches[d.cache]?
  match cells with
  | .dict a :: _ => do
    let t ← orRaise .outside H.dicts[a]?
    .ok { H with dicts := H.dicts.set a (f t) }
  | _ => .error .typeError

/-- docstruct.py:567-569. -/
def hSize (H : Heap) (nd : HDoc) (x : Int) : Py Heap := do
  let (r, _) ← lastRev H nd
  let cells ← orRaise .outside H.revs[r]?
  onTrailer H nd fun t =>
    Dict.set (if x = 0 then t else delDecodeParms t) b!"/Size" (.int cells.length)

/-- The cache given to `build_revision_byte_stream`, written in place: the cells of object streams, and
the dict of the trailer (filestruct.py:438-475). -/
def hStoreCache (H : Heap) (nd : HDoc) (cache : List Obj) : Heap :=
  match H.caches[nd.cache]?, cache with
  | some (.dict a :: _), .dict t :: os =>
    { H with dicts := H.dicts.set a t
             caches := H.caches.set nd.cache (.dict a :: os.map .val) }
  | _, os => { H with caches := H.caches.set nd.cache (os.map .val) }

/-- docstruct.py:579, 582, 584-587: the record and the last revision, with the bytes `new`, the provider,
the cache and the index that have been built. -/
def hBuilt (H : Heap) (nd : HDoc) (new : Bytes) (fdata : Provider) (rev : Rev) (cache : List Obj) :
    Py Heap := do
  let s := allocSlots H rev
  let H := hStoreCache s.2 nd cache
  let (b, _) ← lastData H nd
  let record ← orRaise .outside H.recs[b]?
  let (_, rs) ← lastRev H nd
  .ok { H with recs := H.recs.set b { record with bdata := some new, fdata := fdata }
               revs := H.revs ++ [s.1]
               outs := H.outs.set nd.index (H.revs.length :: rs) }

/-- docstruct.py:570-587: writing the revision. `version(doc)` reads objects of the document `d` that is
committed. -/
def hWrite [Zlib] (H : Heap) (d nd : HDoc) (doc : Doc) (chg : List Change) (xnum : Nat) : Py Heap := do
  let (b, _) ← lastData H nd
  let record ← orRaise .outside H.recs[b]?
  let (r, _) ← lastRev H nd
  let rev ← orRaise .outside (absRev H r)
  let cache ← orRaise .outside (absCache H nd.cache)
  match record.eofCut with
  | some _ => .ok H
  | none =>
    match doc.past with
    | [] => do
      let (v, doc') ← version doc
      let header := b!"%PDF-" ++ v
      let H := fillCache H d doc'.cache
      let (new, rev, cache) ← buildRevision chg rev cache header.length xnum
      hBuilt H nd (header ++ new) (.dummy (header ++ new)) rev cache
    | _ :: _ => do
      let idx ← revisionIndex doc
      let (new, rev, cache) ← buildRevision chg rev cache idx xnum
      hBuilt H nd new (.merged record.fdata idx new) rev cache

/-- docstruct.py:588-597: the next record, the next revision (which shares its entries with the last
one), and its trailer. -/
def hNext (H : Heap) (nd : HDoc) (index0 : Entry) : Py (HDoc × Heap) := do
  let (b, bs) ← lastData H nd
  let record ← orRaise .outside H.recs[b]?
  let (r, rs) ← lastRev H nd
  let cells ← orRaise .outside H.revs[r]?
  let rev ← orRaise .outside (absRev H r)
  let cache ← orRaise .outside (absCache H nd.cache)
  let _ ← cacheDict cache
  let e ← prevEntry rev
  let H : Heap := { H with
    recs := H.recs ++ [{ fdata := record.fdata }]
    datas := H.datas.set nd.data (H.recs.length :: b :: bs)
    ents := H.ents ++ [index0]
    revs := H.revs ++ [.one H.ents.length :: cells.drop 1]
    outs := H.outs.set nd.index (H.revs.length :: r :: rs) }
  let H ← onTrailer H nd fun t => Dict.del (Dict.set t b!"/Prev" (prevPos e)) b!"/XRefStm"
  .ok (nd, H)

/-- docstruct.py:547-597 `commit`. -/
def hCommit [Zlib] (H : Heap) (d : HDoc) : Py (HDoc × Heap) := do
  let doc ← orRaise .outside (abs H d)
  if changes doc = [] then .ok (d, H)
  else do
    let (nd, H) ← copyNext H d
    let x ← firstXrefStreamNum doc
    let (xnum, H) ← hXref H nd (doc.past.length + 1) (x.getD 0)
    let H ← hSize H nd (x.getD 0)
    let H ← hWrite H d nd doc (changes doc) xnum
    hNext H nd (nextIndex0 (doc.past.length + 1) (x.getD 0))

/-- docstruct.py:600-613 `rewind`, with docstruct.py:621-624 `copy_doc(doc, 'PREVIOUS')`: the lists
`index` and `data` are copied, and so are the last-but-one revision and record, which become the last
ones; the list `cache` is new. -/
def hRewind [Zlib] (H : Heap) (d : HDoc) : Py (HDoc × Heap) := do
  let doc ← orRaise .outside (abs H d)
  let (_, rs) ← lastRev H d
  let (_, bs) ← lastData H d
  match rs, bs with
  | [], _ => .ok (d, H)
  | _ :: _, [] => .error .indexError
  | r :: rs, b :: bs => do
    let cells ← orRaise .outside H.revs[r]?
    let record ← orRaise .outside H.recs[b]?
    let new ← rewind doc
    let nd : HDoc := ⟨H.outs.length, H.caches.length, H.datas.length⟩
    let H : Heap := { H with
      outs := H.outs ++ [H.revs.length :: rs]
      revs := H.revs ++ [cells]
      caches := H.caches ++ [[]]
      recs := H.recs ++ [{ record with eofCut := none }]
      datas := H.datas ++ [H.recs.length :: bs] }
    .ok (nd, fillCache H nd new.cache)

/-- docstruct.py:681-688: the number of the xref stream in a new copy of the entry of cell 0. -/
def hSetXref (H : Heap) (nd : HDoc) (x : Int) : Py Heap := do
  let (r, _) ← lastRev H nd
  let cells ← orRaise .outside H.revs[r]?
  let rev ← orRaise .outside (absRev H r)
  let e ← entryAt rev 0
  .ok { H with ents := H.ents ++ [{ e with xrefStreamNum := some x }]
               revs := H.revs.set r (cells.set 0 (.one H.ents.length)) }

/-- docstruct.py:689-690: `new_doc.cache[0]['/Filter'] = filt`, in place. -/
def hSetFilter (H : Heap) (nd : HDoc) (filt : Bytes) : Py Heap :=
  if filt = [] then .ok H else onTrailer H nd fun t => Dict.set t b!"/Filter" (.str filt)

/-- docstruct.py:672-690 `force_xref_stream`. -/
def hForce (H : Heap) (d : HDoc) (placeholder : Bool) (filt : Bytes) : Py (HDoc × Heap) := do
  let doc ← orRaise .outside (abs H d)
  match (doc.cur[0]?).bind Slot.xrefStreamNum? with
  | some _ => do
    let t ← cacheDict doc.cache
    if Dict.get? t b!"/Filter" = some (.str filt) then .ok (d, H)
    else do
      let (nd, H) ← copySame H d
      let H ← hSetFilter H nd filt
      .ok (nd, H)
  | none =>
    if placeholder then do
      let (nd, H) ← hAdd H d (.dict [])
      let H ← hSetXref H nd doc.cur.length
      let H ← hSetFilter H nd filt
      .ok (nd, H)
    else do
      let (nd, H) ← copySame H d
      let H ← hSetXref H nd (-1)
      let H ← hSetFilter H nd filt
      .ok (nd, H)

/-! ### Programs -/

/-- A step of a program, on the document of rank `i` among those made so far. -/
inductive HOp
  | set (i n : Nat) (o : Obj)
  | add (i : Nat) (o : Obj)
  | get (i : Nat) (r : Obj)
  | commit (i : Nat)
  | rewind (i : Nat)
  deriving DecidableEq, Repr

/-- The memory and the documents held by the program, after one more step. -/
def HOp.run [Zlib] (H : Heap) (env : List HDoc) : HOp → Py (Heap × List HDoc)
  | .set i n o => do
    let d ← orRaise .outside env[i]?
    let (nd, H) ← hUpdate H d n o
    .ok (H, env ++ [nd])
  | .add i o => do
    let d ← orRaise .outside env[i]?
    let (nd, H) ← hAdd H d o
    .ok (H, env ++ [nd])
  | .get i r => do
    let d ← orRaise .outside env[i]?
    let (_, H) ← hGet H d r
    .ok (H, env)
  | .commit i => do
    let d ← orRaise .outside env[i]?
    let (nd, H) ← hCommit H d
    .ok (H, env ++ [nd])
  | .rewind i => do
    let d ← orRaise .outside env[i]?
    let (nd, H) ← hRewind H d
    .ok (H, env ++ [nd])

def hRun [Zlib] : List HOp → Heap → List HDoc → Py (Heap × List HDoc)
  | [], H, env => .ok (H, env)
  | o :: os, H, env => do
    let (H, env) ← o.run H env
    hRun os H env

end Pdf
