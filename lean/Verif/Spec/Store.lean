/-
Documents seen as maps from numbers to objects (C29-C37, C57).
-/
import Verif.Model.Prog
import Verif.Spec.Reads

namespace Pdf.Spec

/-- A map from object numbers to objects (`None` for a deleted one), or the exception raised by reading; number 0
is the trailer; `next` is the first number that is not used. -/
structure Store where
  next : Nat
  val : Nat → Py Obj

/-- The target of a reference, or the object itself. -/
def Store.get (s : Store) : Obj → Py Obj
  | .ref _ n => if n < 0 then .error .outside else s.val n.toNat
  | o => .ok o

def Store.set (s : Store) (n : Nat) (o : Obj) : Store :=
  { s with val := fun m => if m = n then .ok o else s.val m }

def Store.add (s : Store) (o : Obj) : Store :=
  ⟨s.next + 1, fun m => if m = s.next then .ok o else s.val m⟩

/-- What a program does to a map. Only objects that can be read are updated, and `None` is not added. -/
def eval {α : Type} : Prog α → Store → Py (α × Store)
  | .ret a, s => .ok (a, s)
  | .raise e, _ => .error e
  | .get r k, s => do
    let o ← s.get r
    eval (k o) s
  | .set n o k, s =>
    if n = 0 then .error .outside else do
      let _ ← s.val n
      eval k (s.set n o)
  | .add o k, s => if o = .null then .error .outside else eval (k s.next) (s.add o)

/-- The map shown by a document. -/
def storeOf [Zlib] (d : Doc) : Store := ⟨d.cur.length, fun n => view d (.ref 0 n)⟩

end Pdf.Spec
