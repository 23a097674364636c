/-
Iteration over the pages of a document: docstruct.py:41-69.
-/
import Verif.Model.Pages

namespace Pdf

/-- docstruct.py:62-69 `DocIterator.__next__`, called until `StopIteration`: `k` calls from the page `i` on. Each call works on a
copy of the document, but the attributes inherited by the pages (`leak`) pass from one call to the next. -/
def iterFrom [Zlib] (lim : Nat) (ord : List Ref → List Ref) (doc : Doc) : Nat → Nat → Dict → Py (List Doc)
  | 0, _, _ => .ok []
  | k + 1, i, leak => do
    let (leak, d) ← (keepPages lim ord leak [(i : Int)]).run doc
    let rest ← iterFrom lim ord doc k (i + 1) leak
    .ok (d :: rest)

/-- docstruct.py:45-69: `list(iter(doc))`. `self.current < self.end` refuses a reference, which is a complex number; other values
that are not integers are not modelled. -/
def iterDoc [Zlib] (lim : Nat) (ord : List Ref → List Ref) (leak : Dict) (doc : Doc) : Py (List Doc) := do
  let (n, doc) ← numberPages.run doc
  match n with
  | .int n => iterFrom lim ord doc n.toNat 0 leak
  | .ref _ _ => .error .typeError
  | _ => .error .outside

end Pdf
