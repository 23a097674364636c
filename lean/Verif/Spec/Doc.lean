/-
Edit histories of a document (C21, C22, C23).
-/
import Verif.Model.Doc

namespace Pdf.Spec

/-- One edit. `set n .null` is a deletion. -/
inductive Edit
  | add (o : Obj)
  | set (n : Nat) (o : Obj)

/-- What has been written: the next free number, and the last value given to each number. -/
structure Written where
  next : Nat
  val : Nat → Option Obj

/-- The effect of an edit on what has been written. -/
def Written.step (w : Written) : Edit → Written
  | .add o => ⟨w.next + 1, fun n => if n = w.next then some o else w.val n⟩
  | .set k o => ⟨w.next, fun n => if n = k then some o else w.val n⟩

/-- What a list of edits has written, when `next` is the first free number. -/
def written (next : Nat) (es : List Edit) : Written := es.foldl Written.step ⟨next, fun _ => none⟩

/-- The edits, performed by the code. -/
def edit (d : Doc) : Edit → Py Doc
  | .add o => (addObject d o).map Prod.fst
  | .set n o => updateObject d n o

def edits : List Edit → Doc → Py Doc
  | [], d => .ok d
  | e :: es, d => do
    let d ← edit d e
    edits es d

/-- A document without pending edit: its cells are those of the previous revision (cell 0, the
trailer, excepted). -/
def Synced (d : Doc) : Prop :=
  0 < d.cur.length ∧ ∃ p ps, d.past = p :: ps ∧ ∀ i, 1 ≤ i → d.cur[i]? = p[i]?

/-- The generation of a number. -/
def genOf (d : Doc) (n : Nat) : Nat :=
  match d.cur[n]? with
  | some (.one e) => e.gen
  | _ => 0

/-- The number is in use: it has an entry, which is not marked deleted. -/
def Live (d : Doc) (n : Nat) : Prop :=
  ∃ e, d.cur[n]? = some (.one e) ∧ e.deleted = false

end Pdf.Spec
