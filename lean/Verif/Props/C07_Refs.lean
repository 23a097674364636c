/-
C07, C08: references inside objects.
-/
import Verif.Lemmas.KernelRfl
import Verif.Lemmas.Refs

namespace Pdf
open Spec

/-- C07. The result of `deep_ref_retarget` has exactly the paths of the original object, and at the end of
each path the node is the original one up to the mapping.
Partial: the object must not contain a Stream: `C07_stream_counterexample`. -/
theorem C07_retarget_partial (m : RefMap) (o : Obj) (hns : NoStream o) (p : List Nat) :
    match at? p o, at? p (deepRefRetarget m o) with
    | some x, some y => NodeRetargeted (fun r => List.lookup r m) x y
    | none, none => True
    | _, _ => False := by
  induction p generalizing o with
  | nil => exact nodeRetargeted_self m o
  | cons i p ih =>
    cases o with
    | list l =>
      simp only [deepRefRetarget, at?, retargetItems_get]
      cases hl : l[i]? with
      | none => simp
      | some x =>
        simp only [Option.map_some, Option.bind_some]
        exact ih x (fun q d s e h => hns (i :: q) d s e (by simpa [at?, hl] using h))
    | dict d =>
      simp only [deepRefRetarget, at?, retargetEntries_get]
      cases hl : d[i]? with
      | none => simp
      | some x =>
        simp only [Option.map_some, Option.bind_some]
        exact ih x.2 (fun q d' s e h => hns (i :: q) d' s e (by simpa [at?, hl] using h))
    | stream d s e => exact absurd rfl (hns [] d s e)
    | ref g n =>
      have : ∀ o' : Obj, (∃ a b, o' = .ref a b) → at? (i :: p) o' = none := by
        rintro _ ⟨a, b, rfl⟩; rfl
      rw [this _ ⟨g, n, rfl⟩, this]
      · trivial
      · simp only [deepRefRetarget]
        split <;> exact ⟨_, _, rfl⟩
    | _ => simp [deepRefRetarget, at?]

example : at? [1, 0] (.dict [(b!"/A", .int 1), (b!"/B", .list [.ref 0 4])]) = some (.ref 0 4) ∧
    at? [1, 0] (deepRefRetarget [((0, 4), (0, 9))] (.dict [(b!"/A", .int 1), (b!"/B", .list [.ref 0 4])])) =
      some (.ref 0 9) := by decide

example : NoStream (.dict [(b!"/A", .int 1), (b!"/B", .list [.ref 0 4])]) := by
  intro p d s e h
  match p with
  | [] => simp [at?] at h
  | 0 :: [] => simp [at?] at h
  | 0 :: _ :: _ => simp [at?] at h
  | 1 :: [] => simp [at?] at h
  | 1 :: 0 :: [] => simp [at?] at h
  | 1 :: 0 :: _ :: _ => simp [at?] at h
  | 1 :: (_ + 1) :: _ => simp [at?] at h
  | (_ + 2) :: _ => simp [at?] at h

/-- References in a stream dictionary are not rewritten. -/
theorem C07_stream_counterexample :
    at? [0] (deepRefRetarget [((0, 4), (0, 9))] (.stream [(b!"/A", .ref 0 4)] [] [])) = some (.ref 0 4) := by
  decide

/-- C08. On everything but a bare reference, `deep_ref_detect` returns the set (no duplicates) of exactly the
references that occur in the object. -/
theorem C08_detect (o : Obj) (ho : ∀ g n, o ≠ .ref g n) :
    ∃ l, deepRefDetect o = some l ∧ l.Nodup ∧ ∀ r, r ∈ l ↔ Occurs r o := by
  refine ⟨deepRefCollect [] o, ?_, collect_nodup o [] (by simp), fun r => by simp [collect_mem r o []]⟩
  cases o <;> first | rfl | exact absurd rfl (ho _ _)

example : (∀ g n, Obj.list [.ref 0 4] ≠ .ref g n) ∧ Occurs (0, 4) (.list [.ref 0 4]) :=
  ⟨by simp, .item (by simp) .here⟩

example : deepRefDetect (.dict [(b!"/A", .ref 0 4), (b!"/B", .list [.ref 0 5, .ref 0 4])]) =
    some [(0, 4), (0, 5)] := by decide

/-- On a bare reference the result is `None`, not a set: the claim is about containers. -/
theorem C08_bare_reference (g n : Int) : deepRefDetect (.ref g n) = none := rfl

/-- A boolean before the end of a reference: the text `true 0 R`, which is no reference, is read as a reference to the
object 1 (`complex(0, True)`), and `false 0 R` as one to the object 0. -/
theorem C08_boolean [Zlib] : parseObj b!"[ true 0 R false 0 R ]" 0 = .ok (.list [.ref 0 1, .ref 0 0]) := by kernel_rfl

end Pdf
