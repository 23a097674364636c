/-
Programs that read and edit one document.

The functions of docstruct.py and api.py about pages only touch the document through `get_object`,
`update_object` and `add_object`. They are written here as sequences of such steps (`Prog`), so that what they
do on a document (`Prog.run`) follows from the three functions of `Verif.Model.Doc`.
-/
import Verif.Model.Doc

namespace Pdf

/-- A computation that ends with a value or an exception, after some steps on a document. -/
inductive Prog (α : Type) where
  | ret (a : α)
  | raise (e : PyErr)
  | get (r : Obj) (k : Obj → Prog α)
  | set (n : Nat) (o : Obj) (k : Prog α)
  | add (o : Obj) (k : Nat → Prog α)

namespace Prog
variable {α β : Type}

def bind : Prog α → (α → Prog β) → Prog β
  | .ret a, f => f a
  | .raise e, _ => .raise e
  | .get r k, f => .get r fun o => (k o).bind f
  | .set n o k, f => .set n o (k.bind f)
  | .add o k, f => .add o fun n => (k n).bind f

instance : Monad Prog where
  pure := .ret
  bind := bind

/-- A step that does not depend on the document. -/
def lift : Py α → Prog α
  | .ok a => .ret a
  | .error e => .raise e

/-- docstruct.py:287-294 `get_object`. -/
def fetch (r : Obj) : Prog Obj := .get r .ret

/-- docstruct.py:635-653 `update_object`. -/
def update (n : Nat) (o : Obj) : Prog Unit := .set n o (.ret ())

/-- docstruct.py:656-669 `add_object`. -/
def create (o : Obj) : Prog Nat := .add o .ret

/-- What a program does to a document. -/
def run [Zlib] : Prog α → Doc → Py (α × Doc)
  | .ret a, d => .ok (a, d)
  | .raise e, _ => .error e
  | .get r k, d => do
    let (o, d) ← Pdf.getObject d r
    (k o).run d
  | .set n o k, d => do
    let d ← Pdf.updateObject d n o
    k.run d
  | .add o k, d => do
    let (d, n) ← Pdf.addObject d o
    (k n).run d

end Prog
end Pdf
