/-
What reading a document shows (C23, C25).
-/
import Verif.Spec.Doc

namespace Pdf.Spec
variable [Zlib]

/-- What `get_object` returns for a reference (or any object), or the exception it raises. -/
def view (d : Doc) (r : Obj) : Py Obj := (getObject d r).map Prod.fst

/-- The document after a sequence of reads; a read that raises leaves the document unchanged (an
exception while an object stream is read may leave the stream itself in the cache; see `C25`). -/
def reads : List Obj → Doc → Doc
  | [], d => d
  | r :: rs, d =>
    match getObject d r with
    | .ok (_, d') => reads rs d'
    | .error _ => reads rs d

/-- The object streams of the current revision that are still to be read are coherent with its index:
when the object `n` of a stream is not in the cache, every object found in that stream is indexed as a
live member of it, the numbers in the stream are distinct, and whatever is already in the cache is what
the stream says. Nothing is asked of a stream whose objects have all been read: they can be changed. -/
def Coherent (d : Doc) : Prop :=
  ∀ (n : Nat) (e : Entry) (c : Nat), n ≠ 0 → d.cur[n]? = some (.one e) → e.deleted = false →
    e.envNum = some c → d.cache[n]? = some .null →
    ∀ (ce : Entry) (stream : Obj) (objs : List Embedded), d.cur[c]? = some (.one ce) →
      parseIndirect d.curData.fdata ce = .ok stream → parseObjectStream stream = .ok objs →
      c ≠ 0 ∧ ce.envNum = none ∧ ce.deleted = false ∧
      (∃ o, d.cache[c]? = some o ∧ (o = .null ∨ o = stream)) ∧
      (objs.map (·.num)).Nodup ∧
      ∀ x ∈ objs, ∃ (k : Nat) (e' : Entry) (o : Obj), x.num = .int k ∧ k ≠ 0 ∧
        d.cur[k]? = some (.one e') ∧ e'.deleted = false ∧ e'.envNum = some c ∧
        d.cache[k]? = some o ∧ (o = .null ∨ o = x.obj)

/-- One operation on a document. -/
inductive Op
  | add (o : Obj)
  | set (n : Nat) (o : Obj)
  | get (r : Obj)
  | commit

/-- The operation, performed by the code. -/
def Op.run (d : Doc) : Op → Py Doc
  | .add o => (addObject d o).map Prod.fst
  | .set n o => updateObject d n o
  | .get r => .ok (reads [r] d)
  | .commit => Pdf.commit d

def ops : List Op → Doc → Py Doc
  | [], d => .ok d
  | o :: os, d => do
    let d ← o.run d
    ops os d

/-- The effect of an operation on what has been written: reads and commits have none. -/
def Written.op (w : Written) : Op → Written
  | .add o => w.step (.add o)
  | .set n o => w.step (.set n o)
  | .get _ => w
  | .commit => w

end Pdf.Spec
