/-
`kernel_rfl` closes `a = b` with `Eq.refl a`, leaving the conversion check to the kernel alone (the
elaborator's own check is too slow on evaluations of the parser).
-/
import Lean

namespace Pdf

open Lean Meta Elab Tactic in
elab "kernel_rfl" : tactic => do
  let g ← getMainGoal
  g.withContext do
    let t ← instantiateMVars (← g.getType)
    match t.eq? with
    | some (_, a, _) => g.assign (← mkEqRefl a)
    | none => throwError "not an equality"

end Pdf
