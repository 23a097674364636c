/-
The conditions of the code on objects.
-/
import Verif.Spec.Falsy
import Verif.Model.Filters

namespace Pdf

theorem truthy_false (o : Obj) : truthy o = false ↔ Spec.Falsy o := by
  cases o <;> simp [truthy, Spec.Falsy]

theorem hasPredictor_falsy {o : Obj} (h : Spec.Falsy o) : hasPredictor (some o) = some false := by
  have ht := (truthy_false o).2 h
  cases o with
  | real a b c => simp [hasPredictor, ht]
  | stream a b c => exact absurd h (by simp [Spec.Falsy])
  | str s =>
    have : s = [] := h
    subst this
    decide
  | dict d =>
    have : d = [] := h
    subst this
    decide
  | list d =>
    have : d = [] := h
    subst this
    decide
  | _ => simp_all [hasPredictor, Spec.Falsy]

end Pdf
