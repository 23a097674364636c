/-
Objects that can be written and read again (C26, C28).
-/
import Verif.Spec.Objects
import Verif.Model.Filters

namespace Pdf.Spec

/-- Objects that survive writing and reading: well-formed ones (C01), and streams with a well-formed
dictionary whose bytes are not empty, do not contain `endstream`, do not end with a carriage return
(C02), and decode to the content. -/
def Storable [Zlib] : Obj → Prop
  | .stream d content enc => WF false false (.dict d) = true ∧ enc ≠ [] ∧ ¬ b!"endstream" <:+: enc ∧
      enc.getLast? ≠ some 13 ∧ decodeStream enc d = .ok content
  | .ref _ _ => False
  | o => WF false false o = true

end Pdf.Spec
