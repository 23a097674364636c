/-
The command `browse`: which objects are used by which, the headers of the blocks, the links to pages.
-/
import Verif.Model.Display
import Verif.Model.Load

namespace Pdf

/-- cli.py:401-411 `file_map`, its second result: the index of the file, oldest revision first. The last cell of each
revision is the end marker. -/
def fileIndex [Zlib] (F : Bytes) : Py (List Rev) := do
  let secs ← xrefSections (.single F) F.length
  let (nxt, nb) ← nextMap (.single F) secs
  let cols ← buildColumns secs nb
  let revs ← completeAll nxt [] [] cols.reverse
  return revs.reverse

/-- cli.py:401-411 `file_map`, its first result: the map of the file without the white space. -/
def withoutVoid (m : List MapItem) : List MapItem :=
  m.filter fun x => match x with
    | .region (.void _ _ _) _ => false
    | _ => true

/-- The begin of an item of the map, which is a key of the dict of `cross_map_index`; an embedded object has a float,
kept as a pair. -/
abbrev BlockKey := Option Pos

/-- api.py:403-409: `found`, after the trailers of the first revision. -/
def firstTrailers (p : Nat) : List Entry → Option (Nat × Nat) → Option (Nat × Nat)
  | [], found => found
  | e :: es, found => firstTrailers p es (if e.xrefTablePos = some (p : Int) then some (0, 0) else found)

/-- api.py:410-415: `found`, after the trailers of the revisions from `ver` on. Cell 0 is a list in a revision other than
the first one only in files the index of which is outside the model. -/
def laterTrailers (p : Nat) : Nat → List Rev → Option (Nat × Nat) → Py (Option (Nat × Nat))
  | _, [], found => .ok found
  | ver, rev :: revs, found => do
    match ← slotAt rev 0 with
    | .hole => laterTrailers p (ver + 1) revs found
    | .one e => laterTrailers p (ver + 1) revs (if e.xrefTablePos = some (p : Int) then some (0, ver) else found)
    | .many _ => .error .attributeError

/-- api.py:399-416 `find_xref_table_pos_in_index`. -/
def findXrefTablePos (p : Nat) : List Rev → Py (Option (Nat × Nat))
  | [] => .error .indexError
  | rev :: revs => do
    match ← slotAt rev 0 with
    | .hole => .error .typeError
    | .one e => laterTrailers p 1 revs (firstTrailers p [e] none)
    | .many es => laterTrailers p 1 revs (firstTrailers p es none)

/-- api.py:424-431: the last revision, from `ver` on, where the object `num` is at the position `k`. -/
def lastVersionAt (k : BlockKey) (num : Nat) : Nat → List Rev → Option (Nat × Nat) → Py (Option (Nat × Nat))
  | _, [], found => .ok found
  | ver, rev :: revs, found =>
    match rev[num]? with
    | none => lastVersionAt k num (ver + 1) revs found
    | some .hole => lastVersionAt k num (ver + 1) revs found
    | some (.one e) => lastVersionAt k num (ver + 1) revs (if e.absPos = k then some (num, ver) else found)
    | some (.many _) => .error .attributeError

/-- api.py:423-434: the loop over the numbers. -/
def firstNumberAt (k : BlockKey) (index : List Rev) : List Nat → Py (Option (Nat × Nat))
  | [] => .ok none
  | num :: nums => do
    match ← lastVersionAt k num 0 index none with
    | some f => .ok (some f)
    | none => firstNumberAt k index nums

/-- api.py:419-434 `find_abs_pos_in_index`. -/
def findAbsPos (k : BlockKey) (index : List Rev) : Py (Option (Nat × Nat)) :=
  match index.getLast? with
  | none => .error .indexError
  | some last => firstNumberAt k index ((List.range last.length).drop 1)

/-- The tuple `(o_num, relevance, targets, used_by)` of a block (api.py:447, 453). The number of an embedded object is a
parsed value; `targets` is a set, without order here, or `None` for an object that is a reference (objects.py:513-530). -/
structure Cross where
  num : Obj
  rel : Option (Nat × Nat)
  targets : Option (List Ref)
  usedBy : List (Obj × BlockKey) := []
  deriving DecidableEq

/-- `ret[k] = c`. -/
def crossSet (k : BlockKey) (c : Cross) : List (BlockKey × Cross) → List (BlockKey × Cross)
  | [] => [(k, c)]
  | (k', c') :: l => if k' = k then (k, c) :: l else (k', c') :: crossSet k c l

/-- The key and the tuple of an item of the map (api.py:440-453). -/
def crossItem (index : List Rev) : MapItem → Py (Option (BlockKey × Cross))
  | .region (.xrefTable b _ _ trailer) _ => do
    let rel ← findXrefTablePos b index
    .ok (some (some (.at b), { num := .int 0, rel, targets := deepRefDetect trailer }))
  | .region (.indObj b _ num _ o) _ => do
    let k : BlockKey := b.map fun (p : Nat) => .at p
    let rel ← findAbsPos k index
    .ok (some (k, { num := .int num, rel, targets := deepRefDetect o }))
  | .embedded bo _ j num o _ => do
    let rel ← findAbsPos (some (.emb bo j)) index
    .ok (some (some (.emb bo j), { num, rel, targets := deepRefDetect o }))
  | _ => .ok none

/-- api.py:439-453: the first loop of `cross_map_index`. -/
def crossItems (index : List Rev) : List MapItem → List (BlockKey × Cross) → Py (List (BlockKey × Cross))
  | [], ret => .ok ret
  | x :: m, ret => do
    match ← crossItem index x with
    | none => crossItems index m ret
    | some (k, c) => crossItems index m (crossSet k c ret)

/-- `target_used_by.append(u)` (api.py:462-463), for the block at `k`. -/
def addUse (k : BlockKey) (u : Obj × BlockKey) : List (BlockKey × Cross) → Option (List (BlockKey × Cross))
  | [] => none
  | (k', c) :: l => if k' = k then some ((k', { c with usedBy := c.usedBy ++ [u] }) :: l) else (addUse k u l).map ((k', c) :: ·)

/-- api.py:460-461: `index[-1][int(target.imag)]['abs_pos']`; a number may count from the end. -/
def targetPos (last : Rev) (num : Int) : Py Pos := do
  let i ← if 0 ≤ num then .ok num.toNat
    else if -(last.length : Int) ≤ num then .ok (last.length - (-num).toNat) else .error .indexError
  let e ← entryAt last i
  orRaise .keyError e.absPos

/-- api.py:459-463: the targets of one block. -/
def addUses (last : Rev) (u : Obj × BlockKey) : List Ref → List (BlockKey × Cross) → Py (List (BlockKey × Cross))
  | [], ret => .ok ret
  | t :: ts, ret => do
    let p ← targetPos last t.2
    let ret ← orRaise .keyError (addUse (some p) u ret)
    addUses last u ts ret

/-- api.py:454-463: the second loop of `cross_map_index`. Unpacking the relevance of a block that is not in the index raises
TypeError, as does the loop over the targets of a bare reference. -/
def crossUses (last : Rev) (lastVer : Nat) : List (BlockKey × Cross) → List (BlockKey × Cross) → Py (List (BlockKey × Cross))
  | [], ret => .ok ret
  | (k, c) :: todo, ret =>
    match c.rel with
    | none => .error .typeError
    | some (_, ver) =>
      if ver < lastVer then crossUses last lastVer todo ret
      else match c.targets with
        | none => .error .typeError
        | some ts => do
          let ret ← addUses last (c.num, k) ts ret
          crossUses last lastVer todo ret

/-- api.py:437-464 `cross_map_index`. The targets are visited in the order of a set: it only decides which exception is
raised first. -/
def crossMap (m : List MapItem) (index : List Rev) : Py (List (BlockKey × Cross)) := do
  let ret ← crossItems index m []
  match index.getLast? with
  | none => if ret = [] then .ok [] else .error .indexError
  | some last => crossUses last (index.length - 1) ret ret

/-! ### Headers and links -/

/-- The opening elements of the block of an object: the id `idx…` of the block, the id `obj<num>.<gen>.<ver>` of the object, the
number and generation that it shows are the same, then the uses. -/
structure Header where
  key : BlockKey
  num : Obj
  gen : Nat
  ver : Nat
  usedBy : List (Obj × BlockKey)
  deriving DecidableEq

/-- `cross[k]`. -/
def crossAt (cross : List (BlockKey × Cross)) (k : BlockKey) : Py Cross := orRaise .keyError (cross.lookup k)

/-- display.py:558-613 `build_obj_header`, for the objects, their content: `none` when no block is opened (the begin of
the object is `None`, display.py:577). The numbers are those of the index for an object of the file, those of the
object stream for an embedded object. -/
def objHeader (index : List Rev) (cross : List (BlockKey × Cross)) : MapItem → Py (Option Header)
  | .region (.indObj (some b) _ _ _ _) _ => do
    let k : BlockKey := some (.at b)
    let c ← crossAt cross k
    let (num, ver) ← orRaise .typeError c.rel
    let rev ← orRaise .indexError index[ver]?
    let e ← entryAt rev num
    .ok (some { key := k, num := .int num, gen := e.gen, ver := e.ver, usedBy := c.usedBy })
  | .embedded bo _ j num _ _ => do
    let k : BlockKey := some (.emb bo j)
    let c ← crossAt cross k
    .ok (some { key := k, num, gen := 0, ver := 0, usedBy := c.usedBy })
  | _ => .ok none

/-- The headers of all the blocks of objects (display.py:219-221). -/
def objHeaders (index : List Rev) (cross : List (BlockKey × Cross)) (m : List MapItem) : Py (List Header) := do
  let l ← m.mapM (objHeader index cross)
  .ok (l.filterMap id)

/-- display.py:251-266 `build_nav_pages`, its links `#obj<num>.<gen>.<ver>` by page; numbers that are not positive are not
modelled. -/
def pageLinks (index : List Rev) (pages : List Ref) : Py (List (Nat × Int × Nat)) :=
  pages.mapM fun (gen, num) =>
    match index.getLast? with
    | none => .error .indexError
    | some last =>
      if num ≤ 0 then .error .outside
      else do
        let e ← entryAt last num.toNat
        .ok (num.toNat, gen, e.ver)

end Pdf
