/-
The helpers of the parser do not diverge.
-/
import Verif.Lemmas.Parse

namespace Pdf
open Spec

/-- Not divergence. -/
def Term {α : Type} (x : Py α) : Prop := x ≠ .error .nonterm

theorem Term.bind {α β : Type} {x : Py α} {f : α → Py β} (hx : Term x) (hf : ∀ a, Term (f a)) :
    Term (x >>= f) := by
  unfold Term at *
  cases x with
  | error e => exact fun h => hx (by cases h; rfl)
  | ok a => exact hf a

theorem Term.map {α β : Type} {x : Py α} {f : α → β} (hx : Term x) : Term (x.map f) := by
  unfold Term at *
  cases x with
  | error e => exact fun h => hx (by cases h; rfl)
  | ok a => simp [Except.map]

theorem Term.ite {α : Type} {p : Prop} [Decidable p] {x y : Py α} (hx : Term x) (hy : Term y) :
    Term (if p then x else y) := by split <;> assumption

theorem Term.ok {α : Type} (a : α) : Term (.ok a) := by simp [Term]
theorem Term.error {α : Type} {e : PyErr} (h : e ≠ .nonterm) : Term (.error e : Py α) := by
  simpa [Term] using h

theorem pyFloat_term (s : Bytes) : Term (pyFloat s) := by
  unfold pyFloat
  simp only
  split
  · exact .ite (.ite (.ok _) (.error (by simp))) (.ite (.error (by simp)) (.error (by simp)))
  · exact .ite (.error (by simp)) (.error (by simp))

theorem dedicatedType_term (s : Bytes) (t : Option TokT) : Term (dedicatedType s t) := by
  unfold dedicatedType
  split
  · apply Term.map; unfold orRaise; split
    · exact .ok _
    · exact .error (by simp)
  · exact pyFloat_term s
  · exact .ok _
  · exact .ok _
  · exact .ite (.ok _) (.error (by simp))
  · exact .ite (.ok _) (.error (by simp))
  · exact .ok _

theorem complexOf_term (o : Obj) : Term (complexOf o) := by
  unfold complexOf
  split
  · exact .ite (.ok _) (.error (by simp))
  · exact .ok _
  · exact .ite (.ok _) (.error (by simp))
  · exact .ok _
  · exact .error (by simp)

theorem replaceRef_term : ∀ (n : Nat) (l : List Obj), l.length ≤ n → Term (replaceRef l) := by
  intro n
  induction n with
  | zero => intro l hl; cases l with | nil => exact .ok _ | cons => simp at hl
  | succ n ih =>
    intro l hl
    rw [replaceRef.eq_def]
    split
    · rename_i a b c rest
      simp only [List.length_cons] at hl
      exact .ite (.bind (complexOf_term _) fun _ => .bind (ih _ (by omega)) fun _ => .ok _)
        (.bind (ih _ (by simp; omega)) fun _ => .ok _)
    · exact .ok _

theorem setKey_term (d : Dict) (k v : Obj) : Term (setKey d k v) := by
  unfold setKey
  split
  · exact .ok _
  · exact .error (by simp)
  · exact .error (by simp)
  · exact .error (by simp)
  · exact .error (by simp)

theorem pairUp_term : ∀ (n : Nat) (l : List Obj) (d : Dict), l.length ≤ n → Term (pairUp d l) := by
  intro n
  induction n with
  | zero => intro l d hl; cases l with | nil => exact .ok _ | cons => simp at hl
  | succ n ih =>
    intro l d hl
    rw [pairUp.eq_def]
    split
    · simp only [List.length_cons] at hl
      exact .bind (setKey_term _ _ _) fun _ => ih _ _ (by omega)
    · exact .ok _

end Pdf
