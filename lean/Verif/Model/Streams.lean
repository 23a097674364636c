/-
Filters of the streams of a document, and compression (api.py).
-/
import Verif.Model.Concat

namespace Pdf

/-- api.py:206-210: the loop of `list_streams`. -/
def listStreamsLoop [Zlib] : List Ref → Doc → Py (List Nat × Doc)
  | [], doc => .ok ([], doc)
  | (g, n) :: rs, doc => do
    let (o, doc) ← getObject doc (.ref g n)
    let (l, doc) ← listStreamsLoop rs doc
    match o with
    | .stream _ _ _ => return (n.toNat :: l, doc)
    | _ => return (l, doc)

/-- api.py:204-211 `list_streams`. -/
def listStreams [Zlib] (doc : Doc) : Py (List Nat × Doc) := listStreamsLoop (inUse doc) doc

/-- api.py:221-225: a filter other than the requested one. The `continue` of line 225 is that of the inner loop and
has no effect; `split` exists on strings only. -/
def checkFilter : Option Obj → Py Unit
  | none => .ok ()
  | some (.str _) => .ok ()
  | some (.bytes _) => .ok ()
  | some _ => .error .attributeError

/-- api.py:226-230: the new entries. -/
def filterEntries (entries : Dict) (flt : Bytes) : Dict :=
  if Dict.has entries b!"/Filter" ∧ flt = [] then Dict.del entries b!"/Filter"
  else Dict.set entries b!"/Filter" (.str flt)

/-- api.py:217-232: the loop of `apply_filter`, for one number. -/
def applyFilterTo [Zlib] (doc : Doc) (num : Nat) (flt : Bytes) : Py Doc := do
  let (o, doc) ← objAt doc num
  match o with
  | .stream entries content _ =>
    if Dict.get? entries b!"/Filter" = some (.str flt) then .ok doc
    else do
      checkFilter (Dict.get? entries b!"/Filter")
      let (s, _) ← forgeStream (filterEntries entries flt) content
      updateObject doc num s
  | .dict d => if Dict.has d b!"entries" then .error .outside else .error .keyError
  | _ => .error .typeError

/-- api.py:214-233 `apply_filter`. -/
def applyFilter [Zlib] (flt : Bytes) : List Nat → Doc → Py Doc
  | [], doc => .ok doc
  | n :: ns, doc => do
    let doc ← applyFilterTo doc n flt
    applyFilter flt ns doc

/-- api.py:303-305: raising the version to 1.5. -/
def raiseVersion [Zlib] (doc : Doc) : Py Doc := do
  let (v, doc) ← version doc
  if strLt v b!"1.5" then updateVersion doc b!"1.5" else .ok doc

/-- api.py:309-315: grouping the objects, in the first object stream if there is one. -/
def groupAll [Zlib] (doc : Doc) : Py Doc := do
  let envs ← envelopeNums doc.cur
  groupObjIntoStream doc (envs.headD 0) []

/-- api.py:300-320 `compress`. -/
def compress [Zlib] (doc : Doc) : Py Doc := do
  let (doc, _) ← squash doc
  let doc ← orRaise .attributeError doc
  let doc ← raiseVersion doc
  let doc ← forceXrefStream doc false b!"/FlateDecode"
  let doc ← groupAll doc
  let (s, doc) ← listStreams doc
  let doc ← applyFilter b!"/FlateDecode" s doc
  commit doc

end Pdf
