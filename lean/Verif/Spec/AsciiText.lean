/-
ASCII texts of binary data (ISO 32000-1, 7.4.2 and 7.4.3).
-/
import Verif.Model.Basic

namespace Pdf.Spec

/-- The number with these digits in base 85. -/
def value85 (q : List Nat) : Nat := q.foldl (fun a d => 85 * a + d) 0

/-- The number with these bytes in base 256. -/
def value256 (b : Bytes) : Nat := b.foldl (fun a c => 256 * a + c.toNat) 0

/-- The characters of these digits, from `!` to `u`. -/
def chars85 (q : List Nat) : Bytes := q.map fun d => UInt8.ofNat (33 + d)

/-- The ASCII85 text of some data, without white space and without its end mark: groups of four bytes as five digits or,
for zeros, as the letter `z`, then a last group of `n` bytes, completed with zeros, as its first `n + 1` digits. -/
inductive A85Text : Bytes → Bytes → Prop
  | nil : A85Text [] []
  | zero {x t : Bytes} : A85Text x t → A85Text ([0, 0, 0, 0] ++ x) (122 :: t)
  | full {g x t : Bytes} {q : List Nat} : g.length = 4 → q.length = 5 → (∀ d ∈ q, d < 85) → value85 q = value256 g → A85Text x t →
      A85Text (g ++ x) (chars85 q ++ t)
  | last {g : Bytes} {q : List Nat} : 1 ≤ g.length → g.length ≤ 3 → q.length = 5 → (∀ d ∈ q, d < 85) →
      value85 q = value256 (g ++ List.replicate (4 - g.length) 0) → A85Text g (chars85 (q.take (g.length + 1)))

/-- A hexadecimal digit and its value. -/
def HexDigit (c : UInt8) (v : Nat) : Prop :=
  (48 ≤ c ∧ c ≤ 57 ∧ c.toNat = 48 + v) ∨ (65 ≤ c ∧ c ≤ 70 ∧ c.toNat + 10 = 65 + v) ∨ (97 ≤ c ∧ c ≤ 102 ∧ c.toNat + 10 = 97 + v)

/-- The hexadecimal text of some data, without white space and without its end mark: two digits for each byte. -/
inductive HexText : Bytes → Bytes → Prop
  | nil : HexText [] []
  | byte {b c c' : UInt8} {v v' : Nat} {x t : Bytes} : HexDigit c v → HexDigit c' v' → b.toNat = 16 * v + v' → HexText x t →
      HexText (b :: x) (c :: c' :: t)

/-- A text with white space added anywhere. -/
def Spaced (s t : Bytes) : Prop := t.filter (fun c => c ∉ ([9, 10, 13, 32] : Bytes)) = s

end Pdf.Spec
