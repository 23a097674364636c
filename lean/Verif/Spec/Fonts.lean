/-
Contents and fonts of a page (C77, C78).
-/
import Verif.Spec.PageTree
import Verif.Spec.Text
import Verif.Model.Fonts

namespace Pdf.Spec

def IsStream (o : Obj) : Prop := ∃ e b c, o = .stream e b c

/-- The references lead to these streams. -/
inductive Streams (s : Store) : List Obj → List Obj → Prop
  | nil : Streams s [] []
  | cons {r st rs sts} : s.get r = .ok st → IsStream st → Streams s rs sts → Streams s (r :: rs) (st :: sts)

/-- The streams of a value of `/Contents`: a stream or an array of streams (ISO 32000 table 31). The value is
a reference, or a direct array. -/
inductive Contents (s : Store) : Obj → List Obj → Prop
  | one {g n st} : s.get (.ref g n) = .ok st → IsStream st → Contents s (.ref g n) [st]
  | named {g n l sts} : s.get (.ref g n) = .ok (.list l) → Streams s l sts → Contents s (.ref g n) sts
  | direct {l sts} : Streams s l sts → Contents s (.list l) sts

/-- The value of a key, behind a reference or not. -/
def Leads (s : Store) (d : Dict) (k : Bytes) (o : Obj) : Prop :=
  ∃ v, Dict.get? d k = some v ∧ v ≠ .ref 0 0 ∧ s.get v = .ok o

/-- The widths of a simple font: the array and the first code. -/
structure SimpleFont (s : Store) (d : Dict) (first : Int) (ws : List Obj) : Prop where
  some : ws ≠ []
  widths : Leads s d b!"/Widths" (.list ws)
  firstChar : Leads s d b!"/FirstChar" (.int first)

/-- The widths of a composite font: its descendant has these groups and this default width. -/
structure CidFont (s : Store) (d : Dict) (gs : List WGroup) (dw : Obj) : Prop where
  noWidths : Dict.get? d b!"/Widths" = none
  descendant : ∃ r rest cid, Leads s d b!"/DescendantFonts" (.list (r :: rest)) ∧ s.get r = .ok (.dict cid) ∧
    Leads s cid b!"/W" (.list (wArray gs)) ∧
    (Leads s cid b!"/DW" dw ∨ Dict.get? cid b!"/DW" = none ∧ dw = .int 1000)

/-- The width of a code, in thousandths, as the font gives it; the codes of composite fonts are CIDs. -/
inductive GlyphWidth (s : Store) (d : Dict) : Nat → Rat → Prop
  | simple {c : Nat} {first ws w x} {k : Nat} : SimpleFont s d first ws → (c : Int) = first + k → ws[k]? = some w →
      objRat w = some x → GlyphWidth s d c x
  | cid {c : Nat} {gs dw w x} : CidFont s d gs dw → WidthOf gs dw c w → objRat w = some x → GlyphWidth s d c x

/-- A font dictionary with a name, a type, and widths of one of the two kinds, or no widths at all (standard
fonts). -/
structure IsFont (s : Store) (d : Dict) : Prop where
  name : ∃ n, Dict.get? d b!"/BaseFont" = some n
  type : ∃ t, Dict.get? d b!"/Subtype" = some t
  widths : (∃ first ws, SimpleFont s d first ws) ∨ (∃ gs dw, CidFont s d gs dw ∧ gs ≠ []) ∨
    Dict.get? d b!"/Widths" = none ∧ Dict.get? d b!"/DescendantFonts" = none

/-- How the strings of a font are decoded: with the objects of its ToUnicode CMap, or with its encoding. -/
inductive Decoder [Zlib] (s : Store) (d : Dict) : (Bytes → Py (Str × List Nat)) → Prop
  | cmap {g n e b c l} : Dict.get? d b!"/ToUnicode" = some (.ref g n) → 0 < n → s.get (.ref g n) = .ok (.stream e b c) →
      parseObj (b!"[" ++ b ++ b!"]") 0 = .ok (.list l) → Decoder s d (applyToUnicode l)
  | encoding : Dict.get? d b!"/ToUnicode" = none →
      Decoder s d (applyEncoding ((Dict.get? d b!"/Encoding").getD .null))

end Pdf.Spec
