/-
Grouping the revisions of a document, and joining two documents.

Python renumbers the references in place (objects.py:506-510), in the very objects of the cache of the document that
is squashed: `squash` below also returns that document as it has become.
-/
import Verif.Model.Prog
import Verif.Model.Pages

namespace Pdf

/-- docstruct.py:829-838: the entry of an object in the new index. Its `o_num` is not changed. -/
def defragEntry (e : Entry) : Entry :=
  { e with gen := 0, ver := 0, docVer := 0, oldRef := some ((e.gen : Int), e.num), absPos := none, absNext := none }

/-- docstruct.py:840-842: the mapping with one more object. -/
def mapRef (old new : Ref) (m : RefMap) : RefMap := if old = new then m else (old, new) :: m

/-- docstruct.py:822-842: the loop of `defragment_map` (`excluded` is empty), from the cell of number 1 on; `nb`
objects have been kept. The later of two entries for the same reference comes first in the mapping. -/
def defragLoop : Rev → Nat → RefMap → Py (List Entry × RefMap)
  | [], _, m => .ok ([], m)
  | .hole :: _, _, _ => .error .typeError
  | .many _ :: _, _, _ => .error .typeError
  | .one e :: rev, nb, m =>
    if e.deleted then defragLoop rev nb m
    else do
      let (es, m) ← defragLoop rev (nb + 1) (mapRef ((e.gen : Int), e.num) (0, ((nb + 1 : Nat) : Int)) m)
      return (defragEntry e :: es, m)

/-- A dict or a list of the cache is renumbered in place. -/
def renumberCache (doc : Doc) (r : Obj) (o : Obj) : Doc :=
  match r, o with
  | .ref _ n, .dict _ => { doc with cache := doc.cache.set n.toNat o }
  | .ref _ n, .list _ => { doc with cache := doc.cache.set n.toNat o }
  | _, _ => doc

/-- docstruct.py:861-865: the objects of the new cache. -/
def squashLoop [Zlib] (m : RefMap) : List Entry → Doc → Py (List Obj × Doc)
  | [], doc => .ok ([], doc)
  | e :: es, doc => do
    let old := match e.oldRef with
      | some r => Obj.ref r.1 r.2
      | none => .null
    let (o, doc) ← getObject doc old
    let o := deepRefRetarget m o
    let (os, doc) ← squashLoop m es (renumberCache doc old o)
    return (o :: os, doc)

/-- docstruct.py:846-873 `squash`: the new document (`b''` when it would be empty), and the document that was given,
afterwards. -/
def squash [Zlib] (doc : Doc) : Py (Option Doc × Doc) := do
  let _ ← envelopeNums doc.cur
  let x ← firstXrefStreamNum doc
  let (es, m) ← defragLoop (doc.cur.drop 1) 0 []
  let x := if x = some 0 then none else x
  let zero : Entry := { num := 0, xrefStreamNum := x }
  let (t, doc) ← trailerOf doc
  let root ← getKey t b!"/Root"
  let cache0 := deepRefRetarget m (.dict [(b!"/Root", root)])
  let (os, doc) ← squashLoop m es doc
  let new : Doc := { cur := .one zero :: es.map Slot.one, past := [], cache := cache0 :: os,
                     curData := { fdata := .dummy [] }, pastData := [] }
  if changes new = [] then return (none, doc)
  let (v, doc) ← version doc
  return (some { new with curData := { fdata := .dummy (b!"%PDF-" ++ v) } }, doc)

/-- docstruct.py:723-726: the mapping of the copied objects. -/
def copyMap (start : Nat) : List Ref → RefMap
  | [] => []
  | r :: rs => (r, (0, (start : Int))) :: copyMap (start + 1) rs

/-- docstruct.py:727-730: the copy of the objects. -/
def copyLoop [Zlib] (m : RefMap) : List Ref → Doc → Doc → Py Doc
  | [], _, target => .ok target
  | r :: rs, source, target => do
    let (o, source) ← getObject source (.ref r.1 r.2)
    let (target, _) ← addObject target (deepRefRetarget m o)
    copyLoop m rs source target

/-- `pcount + source_pcount`. -/
def addCounts (a b : Obj) : Py Obj :=
  match a, b with
  | .int a, .int b => .ok (.int (a + b))
  | _, _ => .error .outside

/-- docstruct.py:734-737: `kids` with one more element, at the end or at the beginning. -/
def addKid (atEnd : Bool) (kids : Obj) (r : Ref) : Py Obj :=
  match kids with
  | .list l => .ok (.list (if atEnd then l ++ [.ref r.1 r.2] else .ref r.1 r.2 :: l))
  | _ => .error .attributeError

/-- docstruct.py:719-721: the deletion of the cross-reference stream, according to its number in cell 0. -/
def dropXrefStream (doc : Doc) : Py Doc :=
  match (doc.cur[0]?).bind Slot.xrefStreamNum? with
  | some x => if x > 0 then updateObject doc x.toNat .null else .ok doc
  | none => .ok doc

/-- docstruct.py:712-722: what is copied: the document, its root page node, its page count. -/
def prepareSource [Zlib] (doc : Doc) : Py (Doc × Ref × Obj) := do
  let (source, _) ← squash doc
  let source ← orRaise .attributeError source
  let (cat, root, source) ← catalog source
  let pagesRef ← getKey cat b!"/Pages"
  let (pages, source) ← getObject source pagesRef
  let count ← getKey pages b!"/Count"
  let (count, source) ← getObject source count
  let num ← refNum root
  let source ← updateObject source num .null
  let source ← dropXrefStream source
  let r ← hashRef pagesRef
  return (source, r, count)

/-- docstruct.py:731-740: hooking the copied pages to the root node. An indirect `/Kids` is also extended in place. -/
def hookPages [Zlib] (atEnd : Bool) (doc : Doc) (pagesRef : Obj) (kid : Ref) (count : Obj) : Py Doc := do
  let (pages, doc) ← getObject doc pagesRef
  let c ← getKey pages b!"/Count"
  let (c, doc) ← getObject doc c
  let k ← getKey pages b!"/Kids"
  let (kids, doc) ← getObject doc k
  let kids ← addKid atEnd kids kid
  let doc := renumberCache doc k kids
  let sum ← addCounts c count
  let pages ← setEntry pages b!"/Kids" kids
  let pages ← setEntry pages b!"/Count" sum
  let num ← refNum pagesRef
  updateObject doc num pages

/-- docstruct.py:698-741 `concat`: the returned document. -/
def concat [Zlib] (left right : Doc) (targetLeft : Bool := true) : Py Doc := do
  let (target, source) := if targetLeft then (left, right) else (right, left)
  let start := target.cur.length
  let (cat, _, target) ← catalog target
  let (source, pagesRef, count) ← prepareSource source
  let objs := inUse source
  let m := copyMap start objs
  let target ← copyLoop m objs source target
  let r ← getKey cat b!"/Pages"
  let kid ← orRaise .keyError (List.lookup pagesRef m)
  hookPages targetLeft target r kid count

/-- An object of the given document that is in its cache is the very object of the cache of the copy (docstruct.py:600-633
copies the list only), and shows what was done in place to it. -/
def shareCell (given res : Doc) (n : Nat) : Doc :=
  match given.cache[n]?, res.cache[n]? with
  | some .null, _ => given
  | some _, some o => { given with cache := given.cache.set n o }
  | _, _ => given

/-- docstruct.py:698-741: the target document that was given, afterwards: its root page node, and its `/Kids` when
they are indirect, were changed in place. -/
def concatGiven [Zlib] (left right : Doc) (targetLeft : Bool := true) : Py Doc := do
  let res ← concat left right targetLeft
  let given := if targetLeft then left else right
  let (cat, _, _) ← catalog given
  let r ← getKey cat b!"/Pages"
  let (pages, _) ← getObject given r
  let kids ← getKey pages b!"/Kids"
  let num ← refNum r
  let given := shareCell given res num
  match kids with
  | .ref _ n => return shareCell given res n.toNat
  | _ => return given

end Pdf
