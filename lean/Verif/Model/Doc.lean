/-
Documents: reading objects through the index, edits, commit, rewind, writing.
-/
import Verif.Model.Revision
import Verif.Model.Provider

namespace Pdf

/-! ### Object streams (reading) -/

/-- objects.py:312-317: the starts of all tokens of an object stream. When a token has no length the
Python loop never ends. -/
def tokenStarts (data : Bytes) : Nat → Nat → Py (List Nat)
  | 0, _ => .error .nonterm
  | fuel + 1, i =>
    if i < data.length then do
      let (bo, eo, _) := nextToken data i
      let rest ← tokenStarts data fuel eo
      .ok (bo :: rest)
    else .ok []

/-- objects.py:321: `[y+offset for j, y in enumerate(y_array) if j % 2]`. -/
def oddPlus (offset : Int) : List Obj → Py (List Int)
  | [] => .ok []
  | [_] => .ok []
  | _ :: .int y :: rest => do
    let l ← oddPlus offset rest
    .ok ((y + offset) :: l)
  | _ :: _ :: _ => .error .typeError

/-- An object found in an object stream: number, value, position as announced in the header (if it
agrees), position. -/
structure Embedded where
  num : Obj
  obj : Obj
  theorical : Option Nat
  actual : Nat

/-- objects.py:322-327: the objects, at rank `x`. -/
def embeddedAt [Zlib] (data : Bytes) (tokens : List Nat) (n : Nat) (ypos : List Int) (x : Nat) :
    Py Embedded := do
  let actual ← orRaise .indexError tokens[2 * n + x]?
  let t ← orRaise .indexError tokens[2 * x]?
  let num ← parseObj data t
  let obj ← parseObj data actual
  return ⟨num, obj, if (actual : Int) ∈ ypos then some actual else none, actual⟩

/-- objects.py:306-328 `parse_object_stream`. -/
def parseObjectStream [Zlib] : Obj → Py (List Embedded)
  | .stream entries data _ => do
    let first ← orRaise .keyError (Dict.get? entries b!"/First")
    let offset ← orRaise .typeError (intOf first)
    let n ← orRaise .keyError (Dict.get? entries b!"/N")
    let _ ← orRaise .typeError (intOf n)
    if offset < 0 then .error .outside
    let tokens ← tokenStarts data (data.length + 1) 0
    let nb := tokens.length / 3
    let _ ← orRaise .indexError tokens[2 * nb]?
    let yArray ← parseObj (91 :: data.take offset.toNat ++ [93]) 0
    let ypos ← match yArray with
      | .list l => oddPlus offset l
      | _ => .error .outside
    (List.range nb).mapM (embeddedAt data tokens nb ypos)
  | _ => .error .typeError

/-! ### Documents -/

/-- A record of `doc.data`. -/
structure Data where
  fdata : Provider
  bdata : Option Bytes := none
  eofCut : Option Nat := none
  deriving DecidableEq, Repr

/-- docstruct.py:17 `Doc(index, cache, data)`. The lists `index` and `data` are never empty; here
`cur` is `index[-1]` and `past` holds the other revisions, the most recent first (so that
`index = past.reverse ++ [cur]`), and the same for `data`. `Obj.null` stands for `None` in the
cache. -/
structure Doc where
  cur : Rev
  past : List Rev
  cache : List Obj
  curData : Data
  pastData : List Data
  deriving DecidableEq, Repr

/-- `doc.index`. -/
def Doc.index (doc : Doc) : List Rev := doc.past.reverse ++ [doc.cur]

/-- `doc.data`. -/
def Doc.data (doc : Doc) : List Data := doc.pastData.reverse ++ [doc.curData]

/-- The `n+1`-th token from position `j`: its start and end. -/
def nthToken (b : Bytes) : Nat → Nat → Nat × Nat
  | 0, j => let (i, j, _) := nextToken b j; (i, j)
  | n + 1, j => let (_, j, _) := nextToken b j; nthToken b n j

/-- `fdata(abs_pos, abs_next - abs_pos)`: the buffer and the index in it. -/
def readEntry (fdata : Provider) (e : Entry) : Py (Bytes × Nat) := do
  let pos ← match e.absPos with
    | none => .error .keyError
    | some (.at n) => .ok n
    | some (.tup _ _) => .error .typeError
    | some (.emb _ _) => .error .outside
  let next ← orRaise .keyError e.absNext
  let (b, a0, _, _) ← fdata.read pos (next - pos)
  if a0 < 0 then .error .outside
  return (b, a0.toNat)

/-- docstruct.py:255-262, 268-275: the object after the header `num gen obj`. -/
def parseIndirect [Zlib] (fdata : Provider) (e : Entry) : Py Obj := do
  let (b, a0) ← readEntry fdata e
  parseObj b (nthToken b 3 a0).1

/-- docstruct.py:239-252: one trailer dictionary. -/
def parseTrailer [Zlib] (fdata : Provider) (e : Entry) : Py Dict := do
  let (b, a0) ← readEntry fdata e
  let (i, j) := nthToken b 0 a0
  let k := if slice b i j = b!"trailer" then (nthToken b 0 j).1 else (nthToken b 2 j).1
  match ← parseObj b k with
  | .stream d _ _ => return d
  | .dict d => return d
  | _ => .error .outside

/-- `cache += (n-len(cache)+1) * [None]` when `n` is out of range, then `cache[n] = o`. -/
def growSet (cache : List Obj) (n : Nat) (o : Obj) : List Obj :=
  (cache ++ List.replicate (n + 1 - cache.length) Obj.null).set n o

/-- docstruct.py:280-283: storing the objects of a stream in the cache. -/
def storeAll : List Embedded → List Obj → Py (List Obj)
  | [], cache => .ok cache
  | e :: es, cache =>
    match e.num with
    | .int n => if n < 0 then .error .outside else storeAll es (growSet cache n.toNat e.obj)
    | _ => .error .typeError

/-- docstruct.py:235-239: the cell 0 as a list of trailer entries. -/
def Slot.entries : Slot → List Entry
  | .one e => [e]
  | .many es => es
  | .hole => []

/-- docstruct.py:240-262: the trailers of a revision, the later ones overriding. -/
def mergeTrailers [Zlib] (fdata : Provider) (es : List Entry) : Py Dict :=
  es.foldlM (fun d e => do
    let t ← parseTrailer fdata e
    return Dict.update d t) []

/-- docstruct.py:218-284 `memoize_obj_in_cache`, on the last revision. -/
def memoize [Zlib] (rev : Rev) (fdata : Provider) (key : Nat) (cache : List Obj) :
    Py (List Obj) := do
  let slot ← slotAt rev key
  if ← slot.isDeleted then return cache
  let c ← cacheAt cache key
  if c ≠ .null then return cache
  if key = 0 then
    let obj ← mergeTrailers fdata slot.entries
    return cache.set key (.dict obj)
  else
    let e ← slot.entry
    match e.envNum with
    | none =>
      let obj ← parseIndirect fdata e
      return cache.set key obj
    | some container =>
      let ce ← entryAt rev container
      let stream ← parseIndirect fdata ce
      let cache := growSet cache container stream
      let objs ← parseObjectStream stream
      storeAll objs cache

/-- docstruct.py:287-294 `get_object`: the result, and the document whose cache was filled. -/
def getObject [Zlib] (doc : Doc) : Obj → Py (Obj × Doc)
  | .ref _ n => do
    if n < 0 then .error .outside
    let cache ← memoize doc.cur doc.curData.fdata n.toNat doc.cache
    let o ← cacheAt cache n.toNat
    return (o, { doc with cache := cache })
  | o => .ok (o, doc)

/-- docstruct.py:297-302 `obj`. -/
def objAt [Zlib] (doc : Doc) (num : Nat) : Py (Obj × Doc) := do
  let e ← entryAt doc.cur num
  getObject doc (.ref e.gen num)

/-- docstruct.py:324-329 `build_cache`. -/
def buildCache [Zlib] (fdata : Provider) (rev : Rev) : Py (List Obj) :=
  memoize rev fdata 0 (List.replicate rev.length .null)

/-- docstruct.py:332-339 `get_iref`, at a cell of the current revision. -/
def irefOf (slot : Slot) (num : Nat) : Option Ref :=
  match slot with
  | .one e => some ((e.gen : Int), (num : Int))
  | _ => none

/-- docstruct.py:342-350 `in_use`. -/
def inUse (doc : Doc) : List Ref :=
  (List.range' 1 (doc.cur.length - 1)).filterMap fun (i : Nat) =>
    match doc.cur[i]? with
    | some (Slot.one e) => if e.deleted then none else irefOf (.one e) i
    | _ => none

/-- docstruct.py:367-376: how the cell of number `i` differs from the previous revision; `previous`
is the list of cells of the previous revision. -/
def changeOf (previous : Rev) (i : Nat) (e : Entry) : Option Act :=
  match previous[i]? with
  | none => some .a
  | some p =>
    if p = .one e then none
    else match p with
      | .hole => some .a
      | .many _ => some .u
      | .one p => if !p.deleted && e.deleted then some .d else some .u

/-- docstruct.py:357-360: the revision to compare with. -/
def prevRev (doc : Doc) : Rev :=
  match doc.past with
  | [] => List.replicate doc.cur.length Slot.hole
  | p :: _ => p

/-- docstruct.py:353-377 `changes`. -/
def changes (doc : Doc) : List Change :=
  let xs := (doc.cur[0]?).bind Slot.xrefStreamNum?
  (List.range' 1 (doc.cur.length - 1)).filterMap fun (i : Nat) =>
    match doc.cur[i]? with
    | some (Slot.one e) =>
      if xs = some (i : Int) then none
      else (changeOf (prevRev doc) i e).map fun act => ⟨e.gen, i, act⟩
    | _ => none

/-- docstruct.py:639-646: the entry of an updated object. -/
def newEntry (old : Entry) (num : Nat) (docVer : Nat) (o : Obj) : Entry :=
  { num := num, gen := old.gen, ver := old.ver + 1, docVer := docVer, deleted := o = .null }

/-- docstruct.py:635-653 `update_object` (the document returned; `Obj.null` is `None`). -/
def updateObject (doc : Doc) (num : Nat) (o : Obj) : Py Doc := do
  let old ← entryAt doc.cur num
  let _ ← cacheAt doc.cache num
  return { doc with cur := doc.cur.set num (.one (newEntry old num doc.past.length o)),
                    cache := doc.cache.set num o }

/-- docstruct.py:656-669 `add_object`: the document and the number of the new object. -/
def addObject (doc : Doc) (o : Obj) : Py (Doc × Nat) :=
  let num := doc.cur.length
  let e : Entry := { num := num, docVer := doc.past.length }
  let cache := doc.cache ++ [.null]
  if num < cache.length then
    .ok ({ doc with cur := doc.cur ++ [.one e], cache := cache.set num o }, num)
  else .error .indexError

/-- Setting `xref_stream_num` in cell 0. -/
def setXrefStreamNum (rev : Rev) (n : Int) : Py Rev := do
  let e ← entryAt rev 0
  return rev.set 0 (.one { e with xrefStreamNum := some n })

/-- `new_doc.cache[0]['/Filter'] = filt`. -/
def setFilter (doc : Doc) (filt : Bytes) : Py Doc := do
  if filt = [] then return doc
  let d ← cacheDict doc.cache
  return { doc with cache := doc.cache.set 0 (.dict (Dict.set d b!"/Filter" (.str filt))) }

/-- docstruct.py:672-690 `force_xref_stream`. -/
def forceXrefStream (doc : Doc) (placeholder : Bool) (filt : Bytes) : Py Doc := do
  match (doc.cur[0]?).bind Slot.xrefStreamNum? with
  | some _ =>
    let d ← cacheDict doc.cache
    if Dict.get? d b!"/Filter" = some (.str filt) then return doc
    else setFilter doc filt
  | none =>
    if placeholder then
      let (doc, num) ← addObject doc (.dict [])
      let cur ← setXrefStreamNum doc.cur num
      setFilter { doc with cur := cur } filt
    else
      let cur ← setXrefStreamNum doc.cur (-1)
      setFilter { doc with cur := cur } filt

/-- docstruct.py:454-456 `trailer`. -/
def trailerOf [Zlib] (doc : Doc) : Py (Obj × Doc) := getObject doc (.ref 0 0)

/-- `o[k]` for a string `k` starting with `/` (on a `Stream`, objects.py:20, it is an attribute). -/
def getKey (o : Obj) (k : Bytes) : Py Obj :=
  match o with
  | .dict d => orRaise .keyError (Dict.get? d k)
  | .stream _ _ _ => .error .attributeError
  | _ => .error .typeError

/-- docstruct.py:477-480 `catalog`: the catalog, its reference, the document. -/
def catalog [Zlib] (doc : Doc) : Py (Obj × Obj × Doc) := do
  let (t, doc) ← trailerOf doc
  let root ← getKey t b!"/Root"
  let (cat, doc) ← getObject doc root
  return (cat, root, doc)

/-- `a < b` on Python strings. -/
def strLt : Bytes → Bytes → Bool
  | _, [] => false
  | [], _ :: _ => true
  | a :: s, b :: t => a < b || (a == b && strLt s t)

/-- `cat['/Version'][1:]`. -/
def versionOf : Obj → Py Bytes
  | .str s => .ok (s.drop 1)
  | _ => .error .typeError

/-- `doc.data[0]['fdata']`. -/
def Doc.firstData (doc : Doc) : Data := doc.pastData.getLastD doc.curData

/-- docstruct.py:425-427: the version in the header. -/
def headerVersion (doc : Doc) : Py Bytes := do
  let (b, a0, _, _) ← doc.firstData.fdata.read 5 3
  if a0 < 0 then .error .outside
  let ver := slice b a0.toNat (a0.toNat + 3)
  if isAscii ver then .ok ver else .error .unicodeError

/-- docstruct.py:423-431 `version`. -/
def version [Zlib] (doc : Doc) : Py (Bytes × Doc) := do
  let ver ← headerVersion doc
  let (cat, _, doc) ← catalog doc
  match cat with
  | .dict d =>
    match Dict.get? d b!"/Version" with
    | some v =>
      let v ← versionOf v
      if strLt ver v then return (v, doc) else return (ver, doc)
    | none => return (ver, doc)
  | _ => .error .typeError

/-- `int(i_ref.imag)`. -/
def refNum : Obj → Py Nat
  | .ref _ n => if n < 0 then .error .outside else .ok n.toNat
  | _ => .error .attributeError

/-- docstruct.py:434-445 `update_version`. -/
def updateVersion [Zlib] (doc : Doc) (ver : Bytes) : Py Doc := do
  let (cat, root, doc) ← catalog doc
  match cat with
  | .dict d =>
    let new := Obj.dict (Dict.set d b!"/Version" (.str (47 :: ver)))
    match Dict.get? d b!"/Version" with
    | some v =>
      let v ← versionOf v
      if strLt v ver then
        let num ← refNum root
        updateObject doc num new
      else return doc
    | none =>
      let num ← refNum root
      updateObject doc num new
  | _ => .error .typeError

/-- docstruct.py:509-520 `revision_index`: over the records before the last one, oldest first. -/
def revisionIndexLoop : Nat → List Data → Py Nat
  | idx, [] => .ok idx
  | idx, d :: ds =>
    match d.eofCut with
    | some cut => revisionIndexLoop cut ds
    | none =>
      match d.bdata with
      | some b => revisionIndexLoop (idx + b.length) ds
      | none => .error .keyError

def revisionIndex (doc : Doc) : Py Nat := revisionIndexLoop 0 doc.pastData.reverse

/-- `doc.index[0]`. -/
def Doc.firstRev (doc : Doc) : Rev := doc.past.getLastD doc.cur

/-- docstruct.py:556-559: `xref_stream_num` of the first revision. -/
def firstXrefStreamNum (doc : Doc) : Py (Option Int) := do
  match ← slotAt doc.firstRev 0 with
  | .one e => return e.xrefStreamNum
  | .many (e :: _) => return e.xrefStreamNum
  | .many [] => .error .indexError
  | .hole => .error .typeError

/-- `x.get('xref_table_pos') or x.get('xref_stream_pos')`, as a trailer value. -/
def prevPos (e : Entry) : Obj :=
  match e.xrefTablePos with
  | some n => if n ≠ 0 then .int n else
    match e.xrefStreamPos with
    | some n => .int n
    | none => .null
  | none =>
    match e.xrefStreamPos with
    | some n => .int n
    | none => .null

/-- docstruct.py:567-568, `if d.get('/DecodeParms'): del d['/DecodeParms']`. -/
def delDecodeParms (d : Dict) : Dict :=
  match Dict.get? d b!"/DecodeParms" with
  | none => d
  | some o => if truthy o then Dict.del d b!"/DecodeParms" else d

/-- What `commit` has prepared before writing: the last revision (with the entry of a new xref
stream), the cache, cell 0 of the next revision, the number of the xref stream (0 for none).
docstruct.py:552-569. -/
structure Prepared where
  cur : Rev
  cache : List Obj
  index0 : Entry
  xnum : Nat

/-- docstruct.py:562-566: the number of the xref stream, and the last revision, extended with a new
entry when the stream has no number yet. -/
def xrefStreamEntry (cur : Rev) (nbRev : Nat) (x : Int) : Py (Rev × Nat) :=
  if x = -1 then do
    let cur' ← setXrefStreamNum (cur ++ [.one { num := cur.length, docVer := nbRev - 1 }]) cur.length
    .ok (cur', cur.length)
  else if x < 0 then .error .outside
  else .ok (cur, x.toNat)

/-- Cell 0 of the next revision. -/
def nextIndex0 (nbRev : Nat) (x : Int) : Entry :=
  { num := 0, ver := nbRev, docVer := nbRev,
    xrefStreamNum := if x = 0 then none else some (-1) }

def prepareCommit (doc : Doc) : Py Prepared := do
  let d0 ← cacheDict doc.cache
  let x ← firstXrefStreamNum doc
  let (cur, xnum) ← (if x.getD 0 = 0 then .ok (doc.cur, 0)
    else xrefStreamEntry doc.cur (doc.past.length + 1) (x.getD 0))
  let d0 := Dict.set (if x.getD 0 = 0 then d0 else delDecodeParms d0) b!"/Size" (.int cur.length)
  return { cur := cur, cache := doc.cache.set 0 (.dict d0),
           index0 := nextIndex0 (doc.past.length + 1) (x.getD 0), xnum := xnum }

/-- docstruct.py:570-586: writing the revision, unless it comes from the file: the last revision,
the cache and the last data record. -/
def writeRevision [Zlib] (doc : Doc) (chg : List Change) (p : Prepared) :
    Py (Rev × List Obj × Data) :=
  match doc.curData.eofCut with
  | some _ => .ok (p.cur, p.cache, doc.curData)
  | none =>
    match doc.past with
    | [] => do
      let (v, _) ← version doc
      let header := b!"%PDF-" ++ v
      let (new, cur, cache) ← buildRevision chg p.cur p.cache header.length p.xnum
      let new := header ++ new
      .ok (cur, cache, { doc.curData with bdata := some new, fdata := .dummy new })
    | _ :: _ => do
      let idx ← revisionIndex doc
      let (new, cur, cache) ← buildRevision chg p.cur p.cache idx p.xnum
      .ok (cur, cache,
        { doc.curData with bdata := some new, fdata := .merged doc.curData.fdata idx new })

/-- docstruct.py:591-594: the entry that holds the position of the previous xref section. -/
def prevEntry (cur : Rev) : Py Entry := do
  match ← slotAt cur 0 with
  | .one e => .ok e
  | .many _ =>
    match ← slotAt cur 1 with
    | .one e => .ok e
    | _ => .error .attributeError
  | .hole => .error .attributeError

/-- docstruct.py:590-596: the trailer of the next revision. -/
def nextTrailer (cur : Rev) (d0 : Dict) : Py Dict := do
  let e ← prevEntry cur
  let d0 := Dict.set d0 b!"/Prev" (prevPos e)
  return Dict.del d0 b!"/XRefStm"

/-- docstruct.py:547-597 `commit`. -/
def commit [Zlib] (doc : Doc) : Py Doc :=
  if changes doc = [] then .ok doc
  else do
    let p ← prepareCommit doc
    let (cur, cache, data) ← writeRevision doc (changes doc) p
    let d0 ← cacheDict cache
    let d1 ← nextTrailer cur d0
    .ok { cur := .one p.index0 :: cur.drop 1
          past := cur :: doc.past
          cache := cache.set 0 (.dict d1)
          curData := { fdata := data.fdata }
          pastData := data :: doc.pastData }

/-- Reading several objects in sequence. -/
def getAll [Zlib] : List Ref → Doc → Py Doc
  | [], doc => .ok doc
  | (g, n) :: rs, doc => do
    let (_, doc) ← getObject doc (.ref g n)
    getAll rs doc

/-- docstruct.py:600-613 `rewind`. -/
def rewind [Zlib] (doc : Doc) : Py Doc :=
  match doc.past with
  | [] => .ok doc
  | rev :: past =>
    match doc.pastData with
    | [] => .error .indexError
    | d :: ds => do
      let cache ← buildCache doc.curData.fdata rev
      let new : Doc := { cur := rev, past := past, cache := cache,
                         curData := { d with eofCut := none }, pastData := ds }
      getAll (inUse new) new

/-- api.py:97-121: the leading records that carry an `eof_cut`: how many, and the last cut. -/
def leadingCuts : List Data → Nat × Option Nat
  | [] => (0, none)
  | d :: ds =>
    match d.eofCut with
    | none => (0, none)
    | some cut =>
      let (n, last) := leadingCuts ds
      (n + 1, some (last.getD cut))

/-- api.py:112-115: concatenation of the later fragments. -/
def allFragments : List Data → Py Bytes
  | [] => .ok []
  | d :: ds => do
    let b ← orRaise .keyError d.bdata
    let rest ← allFragments ds
    return b ++ rest

/-- api.py:94-123 `writefile`: the bytes written, and the committed document. -/
def writeFile [Zlib] (doc : Doc) : Py (Bytes × Doc) := do
  let doc ← commit doc
  let nbRev := doc.past.length + 1
  let (n, cut) := leadingCuts (doc.data.take nbRev)
  let pre ← match cut with
    | some cut => do
      let (b, a0, _, _) ← doc.firstData.fdata.read 0 cut
      if a0 < 0 then .error .outside
      .ok (slice b a0.toNat cut)
    | none => .ok []
  let rest ← allFragments ((doc.data.drop n).take (nbRev - 1 - n))
  return (pre ++ rest, doc)

/-- docstruct.py:380-390 `envelopes`, and docstruct.py:418-420 `envelope_objects`: the numbers of
the object streams, in order of first appearance. A hole in the index raises. -/
def envelopeNums : Rev → Py (List Nat)
  | [] => .ok []
  | s :: rev => do
    let rest ← envelopeNums rev
    match s with
    | .one e =>
      match e.envNum with
      | some n => if n = 0 then .ok rest else .ok (n :: rest.filter (· ≠ n))
      | none => .ok rest
    | _ => .error .attributeError

/-- docstruct.py:404-413: the loop of `group_obj_into_stream`. -/
def groupLoop [Zlib] (env : Nat) : List Nat → Doc → Py Doc
  | [], doc => .ok doc
  | n :: ns, doc => do
    let (x, doc) ← objAt doc n
    let skip := match x with
      | .stream _ _ _ => true
      | .dict d => Dict.has d b!"Length"
      | _ => false
    let e ← entryAt doc.cur n
    if skip || e.gen ≠ 0 then groupLoop env ns doc
    else groupLoop env ns { doc with cur := doc.cur.set n (.one { e with envNum := some env }) }

/-- docstruct.py:393-415 `group_obj_into_stream`; `envNum = 0` stands for `None`, `nums = []` for
an absent set. -/
def groupObjIntoStream [Zlib] (doc : Doc) (envNum : Nat) (nums : List Nat) : Py Doc := do
  let (new, env) ← if envNum = 0 then addObject doc (.bytes []) else .ok (doc, envNum)
  let nums := if nums = [] then (changes doc).map (·.num) else nums
  let new ← groupLoop env nums new
  let _ ← cacheAt new.cache env
  return { new with cache := new.cache.set env <|
    (.stream [(b!"/Type", .str b!"/ObjStm")] [] []) }

end Pdf
