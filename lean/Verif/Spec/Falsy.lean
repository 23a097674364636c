/-
The values that are false in a condition.
-/
import Verif.Model.Value

namespace Pdf

/-- The values that Python takes for false. -/
def Spec.Falsy : Obj → Prop
  | .null => True
  | .bool b => b = false
  | .int n => n = 0
  | .real _ ip frac => ip = 0 ∧ ∀ c ∈ frac, c = 48
  | .str s => s = []
  | .bytes s => s = []
  | .ref g n => g = 0 ∧ n = 0
  | .list l => l = []
  | .dict d => d = []
  | .stream _ _ _ => False

end Pdf
