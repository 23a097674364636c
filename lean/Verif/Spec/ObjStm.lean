/-
Filling an object stream (C56).
-/
import Verif.Model.Revision

namespace Pdf.Spec

/-- Append objects one after the other, as `build_revision_byte_stream` does for the changed objects
assigned to a stream. -/
def appendAll : List (Nat × Obj) → Obj → Py Obj
  | [], env => .ok env
  | (n, o) :: rest, env => do
    let env ← appendToStream n o env
    appendAll rest env

end Pdf.Spec
