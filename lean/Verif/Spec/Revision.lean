/-
What the bytes of a revision are expected to contain (C18, C19).
-/
import Verif.Model.Revision

namespace Pdf.Spec

/-- The text of an indirect object whose serialised value is `ser`. -/
def indirect (num gen : Nat) (ser : Bytes) : Bytes :=
  natDec num ++ b!" " ++ natDec gen ++ b!" obj\n" ++ ser ++ b!"\nendobj\n"

/-- The bytes of `file` at `off` are the indirect object `num gen` with value `obj`. -/
def PointsAt (file : Bytes) (off num gen : Nat) (obj : Obj) : Prop :=
  ∃ ser, serialize 0 obj = .ok ser ∧ indirect num gen ser <+: file.drop off

/-- The value that has to be written for a number, given the cache: the cached object, except for
an object stream, which receives its header first. -/
def ToWrite [Zlib] (cache : List Obj) (num : Nat) (obj : Obj) : Prop :=
  ∃ o, cache[num]? = some o ∧ if isObjStm o then finalizeStream o = .ok obj else obj = o

/-- The end of a file whose last cross-reference section is at `n`. -/
def fileEnd (n : Nat) : Bytes := b!"startxref\n" ++ natDec n ++ b!"\n%%EOF\n"

/-- The cell of the index for an object written at `off`. -/
def IndexedAt (idx : Rev) (num gen off : Nat) : Prop :=
  ∃ e, idx[num]? = some (.one e) ∧ e.gen = gen ∧ e.absPos = some (.at off)

end Pdf.Spec
