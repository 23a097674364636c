/-
Well-formed markup: elements that are closed in the order in which they are opened, with their attributes.
-/
import Verif.Model.Basic

namespace Pdf.Spec

/-- Attributes: names and values. -/
abbrev Attrs := List (Bytes × Bytes)

/-- An attribute, as it is written. -/
def attrText (a : Bytes × Bytes) : Bytes := b!" " ++ a.1 ++ b!"=\"" ++ a.2 ++ b!"\""

/-- An opening tag. -/
def openTag (name : Bytes) (attrs : Attrs) : Bytes := b!"<" ++ name ++ attrs.flatMap attrText ++ b!">"

/-- A closing tag. -/
def closeTag (name : Bytes) : Bytes := b!"</" ++ name ++ b!">"

/-- Names of elements and attributes: lower case letters and hyphens. -/
def IsName (s : Bytes) : Prop := s ≠ [] ∧ ∀ c ∈ s, (97 ≤ c ∧ c ≤ 122) ∨ c = 45

/-- The elements that have no closing tag. -/
def voids : List Bytes := [b!"meta"]

/-- Text without angle bracket. -/
def IsText (s : Bytes) : Prop := ∀ c ∈ s, c ≠ 60 ∧ c ≠ 62

/-- The value of an attribute has neither quote nor angle bracket. -/
def IsValue (s : Bytes) : Prop := ∀ c ∈ s, c ≠ 34 ∧ c ≠ 60 ∧ c ≠ 62

/-- Well-formed attributes. -/
def AttrsOk (attrs : Attrs) : Prop := ∀ a ∈ attrs, IsName a.1 ∧ IsValue a.2

/-- `Markup s els`: the text `s` is well formed, and its elements are `els`, in the order in which they are opened. -/
inductive Markup : Bytes → List (Bytes × Attrs) → Prop
  | text {s : Bytes} : IsText s → Markup s []
  | elem {name body : Bytes} {attrs : Attrs} {els : List (Bytes × Attrs)} : IsName name → name ∉ voids → AttrsOk attrs →
      Markup body els → Markup (openTag name attrs ++ body ++ closeTag name) ((name, attrs) :: els)
  | void {name : Bytes} {attrs : Attrs} : name ∈ voids → AttrsOk attrs → Markup (openTag name attrs) [(name, attrs)]
  | append {s t : Bytes} {els els' : List (Bytes × Attrs)} : Markup s els → Markup t els' → Markup (s ++ t) (els ++ els')

/-- The values of an attribute, in the order of the elements. -/
def vals (k : Bytes) (els : List (Bytes × Attrs)) : List Bytes :=
  els.flatMap fun e => e.2.filterMap fun a => if a.1 = k then some a.2 else none

end Pdf.Spec
