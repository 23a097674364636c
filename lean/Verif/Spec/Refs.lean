/-
Occurrences of references and access paths in an object.
-/
import Verif.Model.Objects

namespace Pdf.Spec

/-- The reference `r` occurs somewhere in the object. -/
inductive Occurs (r : Int × Int) : Obj → Prop
  | here : Occurs r (.ref r.1 r.2)
  | item {l o} : o ∈ l → Occurs r o → Occurs r (.list l)
  | entry {d k o} : (k, o) ∈ d → Occurs r o → Occurs r (.dict d)
  | streamEntry {d k o s e} : (k, o) ∈ d → Occurs r o → Occurs r (.stream d s e)

/-- The sub-object at a path of positions in arrays and dictionaries (including stream dictionaries). -/
def at? : List Nat → Obj → Option Obj
  | [], o => some o
  | i :: p, .list l => (l[i]?).bind (at? p)
  | i :: p, .dict d => (d[i]?).bind (fun e => at? p e.2)
  | i :: p, .stream d _ _ => (d[i]?).bind (fun e => at? p e.2)
  | _ :: _, _ => none

/-- The object has no stream in it. -/
def NoStream (o : Obj) : Prop := ∀ p d s e, at? p o ≠ some (.stream d s e)

/-- `y` is what `x` must become at one node: references are mapped (left alone when not mapped); arrays keep their
length; dictionaries keep their keys in order; everything else is the same. -/
def NodeRetargeted (m : Int × Int → Option (Int × Int)) : Obj → Obj → Prop
  | .ref g n, y => y = match m (g, n) with | some (g', n') => .ref g' n' | none => .ref g n
  | .list l, .list l' => l.length = l'.length
  | .dict d, .dict d' => d.map Prod.fst = d'.map Prod.fst
  | .list _, _ => False
  | .dict _, _ => False
  | x, y => y = x

end Pdf.Spec
