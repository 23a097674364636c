/-
Pages: listing, rotation, removal, annotations.

`lim` is the number of nested calls that Python allows to a recursive function (`sys.getrecursionlimit()`, less
the frames in use); beyond it `RecursionError` is raised. `inherited`, the default argument of `flat_page_tree`,
is a single dict that survives from one call to the next: the functions below take its content and return it.
-/
import Verif.Model.Prog

namespace Pdf
open Prog

/-- docstruct.py:14. -/
def inheritableAttrs : List Bytes := [b!"/Resources", b!"/MediaBox", b!"/CropBox", b!"/Rotate"]

/-- docstruct.py:477-480 `catalog`. -/
def catalogP : Prog (Obj × Obj) := do
  let t ← fetch (.ref 0 0)
  let root ← lift (getKey t b!"/Root")
  let cat ← fetch root
  return (cat, root)

/-- The root of the page tree: `get_object(doc, catalog(doc)[0]['/Pages'])`. -/
def pagesRoot : Prog Obj := do
  let (cat, _) ← catalogP
  let r ← lift (getKey cat b!"/Pages")
  fetch r

/-- docstruct.py:491-494 `number_pages`. -/
def numberPages : Prog Obj := do
  let p ← pagesRoot
  lift (getKey p b!"/Count")

/-- `for kid in kids`. Iterating over strings and dicts is not modelled. -/
def iterate : Obj → Py (List Obj)
  | .list l => .ok l
  | .str _ => .error .outside
  | .bytes _ => .error .outside
  | .dict _ => .error .outside
  | .stream _ _ _ => .error .outside
  | _ => .error .typeError

/-- `node.get(k)` when it is not `None`. -/
def attrOf (node : Obj) (k : Bytes) : Option Obj :=
  match node with
  | .dict d =>
    match Dict.get? d k with
    | some .null => none
    | o => o
  | _ => none

/-- docstruct.py:314: the inheritable attributes of a node. -/
def nodeAttrs (node : Obj) : Dict :=
  inheritableAttrs.filterMap fun k => (attrOf node k).map fun v => (k, v)

/-- docstruct.py:313-318: the loop over the kids; `sub` is the recursive call, `e` the attributes of the node.
Returns the pages and the final content of `inherited`. -/
def kidsLoop (sub : Obj → Dict → Prog (List (Obj × Dict) × Dict)) (e : Dict) (maxNb : Option Int) :
    List Obj → List (Obj × Dict) → Dict → Prog (List (Obj × Dict) × Dict)
  | [], accu, inherited => return (accu, inherited)
  | kid :: kids, accu, inherited => do
    let inherited := Dict.update inherited e
    let (l, _) ← sub kid inherited
    let accu := accu ++ l
    if maxNb = some (accu.length : Int) then return (accu, inherited)
    else kidsLoop sub e maxNb kids accu inherited

/-- docstruct.py:305-321 `flat_page_tree`: the pages and the final content of `inherited`. A node that is neither
`/Pages` nor `/Page` gives `None`, to which the caller fails to add a list. -/
def flatPageTree : Nat → Obj → Dict → Option Int → Prog (List (Obj × Dict) × Dict)
  | 0, _, _, _ => .raise .recursionError
  | lim + 1, num, inherited, maxNb => do
    let node ← (if truthy num then fetch num else pagesRoot)
    let t ← lift (getKey node b!"/Type")
    if t = .str b!"/Pages" then
      let kids ← lift (getKey node b!"/Kids")
      let kids ← lift (iterate kids)
      kidsLoop (fun kid inh => flatPageTree lim kid inh maxNb) (nodeAttrs node) maxNb kids [] inherited
    else if t = .str b!"/Page" then return ([(num, inherited)], inherited)
    else .raise .typeError

/-- docstruct.py:502-504: the attributes that the page does not have. -/
def fillAttrs (temp : Obj) (inAttr : Dict) : Py Obj :=
  match temp with
  | .dict d => .ok (.dict (inAttr.foldl (fun d p => if Dict.has d p.1 then d else Dict.set d p.1 p.2) d))
  | t => if inAttr = [] then .ok t else .error .typeError

/-- docstruct.py:499-506: the loop of `pages`. -/
def pagesLoop : List (Obj × Dict) → Prog (List Obj)
  | [] => return []
  | (num, inAttr) :: rest => do
    let temp ← fetch num
    let temp ← lift (fillAttrs temp inAttr)
    let l ← pagesLoop rest
    return temp :: l

/-- docstruct.py:497-506 `pages`; also returns the content of `inherited`. -/
def pagesP (lim : Nat) (leak : Dict) (maxNb : Option Int) : Prog (List Obj × Dict) := do
  let (l, leak) ← flatPageTree lim .null leak maxNb
  let pl ← pagesLoop l
  return (pl, leak)

/-- `p.get(k)`, `None` when absent. -/
def getOr (o : Obj) (k : Bytes) : Py Obj :=
  match o with
  | .dict d => .ok ((Dict.get? d k).getD .null)
  | _ => .error .attributeError

/-- api.py:182: the box and the rotation of a page. -/
def layoutOf (p : Obj) : Py (Obj × Obj) := do
  let box ← getKey p b!"/MediaBox"
  let rot ← getOr p b!"/Rotate"
  return (box, rot)

/-- api.py:179-183 `page_layouts`. -/
def pageLayouts (lim : Nat) (leak : Dict) (maxNb : Option Int) : Prog (List (Obj × Obj) × Dict) := do
  let (pl, leak) ← pagesP lim leak maxNb
  let l ← lift (pl.mapM layoutOf)
  return (l, leak)

/-- `(old_degrees + degrees) % 360` after `old_degrees = old_degrees or 0`. Floats are not modelled. -/
def addDegrees (old : Obj) (degrees : Int) : Py Obj :=
  match old with
  | .null => .ok (.int (degrees % 360))
  | .bool b => .ok (.int (((if b then 1 else 0) + degrees) % 360))
  | .int n => .ok (.int ((n + degrees) % 360))
  | .real _ _ _ => .error .outside
  | .ref g n => if g = 0 ∧ n = 0 then .ok (.int (degrees % 360)) else .error .typeError
  | o => if truthy o then .error .typeError else .ok (.int (degrees % 360))

/-- `obj[k] = v`. -/
def setEntry (o : Obj) (k : Bytes) (v : Obj) : Py Obj :=
  match o with
  | .dict d => .ok (.dict (Dict.set d k v))
  | _ => .error .typeError

/-- `int(iref.imag)`; integers and booleans have an imaginary part too. -/
def numOf : Obj → Py Nat
  | .ref _ n => if n < 0 then .error .outside else .ok n.toNat
  | .int _ => .ok 0
  | .bool _ => .ok 0
  | .real _ _ _ => .ok 0
  | _ => .error .attributeError

/-- api.py:195-200: the loop of `rotate`; `c` is the list of pages, `a` the selected ones, with their rotation. -/
def rotateLoop (degrees : Int) (c : List (Obj × Dict)) : List (Nat × Obj) → Prog Unit
  | [] => return ()
  | (nb, old) :: a => do
    let p ← lift (orRaise .indexError c[nb]?)
    let obj ← fetch p.1
    let v ← lift (addDegrees old degrees)
    let obj ← lift (setEntry obj b!"/Rotate" v)
    let n ← lift (numOf p.1)
    update n obj
    rotateLoop degrees c a

/-- api.py:186-201 `rotate`. The content of `inherited` is returned. -/
def rotate (lim : Nat) (leak : Dict) (degrees : Int) (pages : List Int) : Prog Dict := do
  let (pl, leak) ← pageLayouts lim leak none
  let work := if pages = [] then (List.range pl.length).map (fun (i : Nat) => (i : Int)) else pages
  let a := (List.range pl.length).filterMap fun (i : Nat) =>
    if (i : Int) ∈ work then (pl[i]?).map fun x => (i, x.2) else none
  let (c, leak) ← flatPageTree lim .null leak none
  rotateLoop degrees c a
  return leak

/-- `a | b` on sets of references. -/
def refUnion (a b : List Ref) : List Ref := a ++ b.filter (· ∉ a)

def depsItems (sub : Obj → Prog (List Ref)) : List Obj → Prog (List Ref)
  | [] => return []
  | o :: l => do
    let r ← sub o
    let rest ← depsItems sub l
    return refUnion r rest

/-- The values of a dict, without those of `/Parent` and `/P`. -/
def downValues (d : Dict) : List Obj :=
  (d.filter fun p => p.1 ≠ b!"/Parent" && p.1 ≠ b!"/P").map Prod.snd

/-- docstruct.py:744-763 `dependencies`. The content of a stream (and its dictionary) is not visited. -/
def dependencies : Nat → Obj → Prog (List Ref)
  | 0, _ => .raise .recursionError
  | lim + 1, .dict d => depsItems (dependencies lim) (downValues d)
  | lim + 1, .list l => depsItems (dependencies lim) l
  | lim + 1, .ref g n => do
    let o ← fetch (.ref g n)
    let r ← dependencies lim o
    return refUnion [(g, n)] r
  | _ + 1, _ => return []

/-- `l[i]` with a possibly negative index. -/
def pyIndex {α : Type} (l : List α) (i : Int) : Py α :=
  if 0 ≤ i then orRaise .indexError l[i.toNat]?
  else if -i ≤ l.length then orRaise .indexError l[(l.length + i).toNat]?
  else .error .indexError

/-- Putting a page reference in a set: dicts and lists are not hashable. -/
def hashRef : Obj → Py Ref
  | .ref g n => .ok (g, n)
  | .dict _ => .error .typeError
  | .list _ => .error .typeError
  | .stream _ _ _ => .error .typeError
  | _ => .error .outside

/-- A set, from a list of references. -/
def refSet (l : List Ref) : List Ref := l.foldl refAdd []

/-- docstruct.py:785-788: the union of the dependencies of some references. -/
def depsAll (lim : Nat) (l : List Ref) : Prog (List Ref) :=
  depsItems (dependencies lim) (l.map fun r => .ref r.1 r.2)

/-- `kids.remove(ref)`. -/
def removeKid (kids : Obj) (ref : Ref) : Py Obj :=
  match kids with
  | .list l => if .ref ref.1 ref.2 ∈ l then .ok (.list (l.erase (.ref ref.1 ref.2))) else .error .valueError
  | _ => .error .attributeError

/-- `x - 1`; a reference is a complex number, whose real part is the generation. -/
def minusOne : Obj → Py Obj
  | .int n => .ok (.int (n - 1))
  | .bool b => .ok (.int ((if b then 1 else 0) - 1))
  | .ref g n => .ok (.ref (g - 1) n)
  | .real _ _ _ => .error .outside
  | _ => .error .typeError

/-- `new_parent['/Count'] = new_parent['/Count'] - 1`. -/
def decCount (node : Obj) : Py Obj := do
  let c ← getKey node b!"/Count"
  let c ← minusOne c
  setEntry node b!"/Count" c

/-- `'/Parent' in new_parent`, and the value. -/
def parentOf : Obj → Py (Option Obj)
  | .dict d => .ok (Dict.get? d b!"/Parent")
  | _ => .error .outside

/-- docstruct.py:796-800: the loop over the ancestors. The loop has no bound in Python; `fuel` exceeds the number
of ancestors unless they form a cycle. -/
def climb : Nat → Obj → Prog Unit
  | 0, _ => .raise .nonterm
  | fuel + 1, node => do
    match ← lift (parentOf node) with
    | none => return ()
    | some p => do
      let new ← fetch p
      let new ← lift (decCount new)
      let n ← lift (numOf p)
      update n new
      climb fuel new

/-- docstruct.py:789-800: taking a page out of the tree. -/
def detachPage (fuel : Nat) (ref : Ref) : Prog Unit := do
  let page ← fetch (.ref ref.1 ref.2)
  let parent ← lift (getKey page b!"/Parent")
  let node ← fetch parent
  let kids ← lift (getKey node b!"/Kids")
  let kids ← lift (removeKid kids ref)
  let node ← lift (setEntry node b!"/Kids" kids)
  let node ← lift (decCount node)
  let n ← lift (numOf parent)
  update n node
  climb fuel node

def detachAll (fuel : Nat) : List Ref → Prog Unit
  | [] => return ()
  | r :: rs => do
    detachPage fuel r
    detachAll fuel rs

/-- docstruct.py:801-802. -/
def deleteAll : List Ref → Prog Unit
  | [] => return ()
  | r :: rs => do
    let n ← lift (numOf (.ref r.1 r.2))
    update n .null
    deleteAll rs

/-- docstruct.py:776-803 `remove_pages`. Python goes through a set in an unspecified order: `ord` is that order.
The content of `inherited` is returned. -/
def removePages (lim : Nat) (ord : List Ref → List Ref) (leak : Dict) (delPages : List Int) : Prog Dict := do
  let (pages, leak) ← flatPageTree lim .null leak none
  let sel ← lift (delPages.mapM fun p => pyIndex pages p)
  let delRef ← lift (sel.mapM fun p => hashRef p.1)
  let delRef := refSet delRef
  let all ← lift (pages.mapM fun p => hashRef p.1)
  let keepRef := (refSet all).filter (· ∉ delRef)
  let delDep ← depsAll lim (ord delRef)
  let keepDep ← depsAll lim (ord keepRef)
  detachAll lim (ord delRef)
  deleteAll (ord ((refSet delDep).filter (· ∉ keepDep)))
  return leak

/-- `set(range(n))`. -/
def rangeOf : Obj → Py (List Int)
  | .int n => .ok ((List.range n.toNat).map fun (i : Nat) => (i : Int))
  | .bool b => .ok (if b then [0] else [])
  | _ => .error .typeError

/-- docstruct.py:766-773 `keep_pages`. -/
def keepPages (lim : Nat) (ord : List Ref → List Ref) (leak : Dict) (pages : List Int) : Prog Dict := do
  let n ← numberPages
  let all ← lift (rangeOf n)
  removePages lim ord leak (all.filter (· ∉ pages))

/-- The argument of `doc[...]`. -/
inductive Key where
  | at (i : Int)
  | slice (start stop step : Option Int)

/-- One bound of `slice.indices(n)`: `dflt` when it is `None`, else clamped between `lo` and `hi`. -/
def clamp (lo hi n : Int) (dflt : Int) : Option Int → Int
  | none => dflt
  | some a =>
    if a < 0 then (if a + n < lo then lo else a + n)
    else if a > hi then hi else a

/-- Python `slice(start, stop, step).indices(n)` (CPython `PySlice_GetLongIndices`). -/
def sliceIndices (start stop step : Option Int) (n : Int) : Py (Int × Int × Int) :=
  let st := step.getD 1
  if st = 0 then .error .valueError
  else if n < 0 then .error .valueError
  else
    let (lo, hi) := if st < 0 then (-1, n - 1) else (0, n)
    let a := clamp lo hi n (if st < 0 then hi else lo) start
    let b := clamp lo hi n (if st < 0 then lo else hi) stop
    .ok (a, b, st)

/-- `range(a, b, c)`. -/
def pyRange (a b c : Int) : List Int :=
  if c > 0 then (List.range ((b - a + c - 1) / c).toNat).map fun (i : Nat) => a + c * i
  else if c < 0 then (List.range ((a - b + (-c) - 1) / (-c)).toNat).map fun (i : Nat) => a + c * i
  else []

/-- The set of pages of `doc[key]`, docstruct.py:30-37, for a page count `n`. A reference is a complex number, which
neither `%` nor `slice.indices` accepts. -/
def keyPages (key : Key) (n : Obj) : Py (List Int) :=
  match n with
  | .int n =>
    match key with
    | .at i => if n = 0 then .error .zeroDivision else .ok [i.fmod n]
    | .slice a b c => do
      let (start, stop, step) ← sliceIndices a b c n
      .ok (pyRange start stop step)
  | .ref _ _ => .error .typeError
  | _ => .error .outside

/-- docstruct.py:28-39 `Doc.__getitem__`. -/
def getItem (lim : Nat) (ord : List Ref → List Ref) (leak : Dict) (key : Key) : Prog Dict := do
  let n ← numberPages
  let pages ← lift (keyPages key n)
  keepPages lim ord leak pages

/-- api.py:236-242: the annotation. The text is put between parentheses as it is (ASCII text only here). -/
def textAnnot (text : Bytes) (rect : List Obj) (opened : Bool) : Obj :=
  .dict [(b!"/Type", .str b!"/Annot"), (b!"/Subtype", .str b!"/Text"), (b!"/Rect", .list rect),
    (b!"/Contents", .str (40 :: text ++ [41])), (b!"/Open", .bool opened)]

/-- `new_array.append(a_iref)`. -/
def appendRef (arr : Obj) (n : Nat) : Py Obj :=
  match arr with
  | .list l => .ok (.list (l ++ [.ref 0 n]))
  | _ => .error .attributeError

/-- api.py:247-257: hooking the annotation `n` to the page. -/
def hookAnnot (pageRef page : Obj) (n : Nat) : Prog Unit :=
  match page with
  | .dict d =>
    match Dict.get? d b!"/Annots" with
    | some annots => do
      let arr ← fetch annots
      let arr ← lift (appendRef arr n)
      let m ← lift (numOf annots)
      update m arr
    | none => do
      let m ← create (.list [.ref 0 n])
      let p ← lift (numOf pageRef)
      update p (.dict (Dict.set d b!"/Annots" (.ref 0 m)))
  | _ => .raise .outside

/-- api.py:236-258 `add_text_annotation`. The content of `inherited` is returned. -/
def addTextAnnotation (lim : Nat) (leak : Dict) (pageNum : Int) (text : Bytes) (rect : List Obj) (opened : Bool) :
    Prog Dict := do
  let n ← create (textAnnot text rect opened)
  let (pages, leak) ← flatPageTree lim .null leak none
  let p ← lift (pyIndex pages pageNum)
  let page ← fetch p.1
  hookAnnot p.1 page n
  return leak

end Pdf
