/-
Lexical shapes of PDF tokens, written from ISO 32000 (and docs), independently of the tokenizer.
-/
import Verif.Model.Objects

namespace Pdf.Spec

/-- White space: NUL, tab, LF, FF, CR, space. -/
def white : Bytes := [0, 9, 10, 12, 13, 32]

/-- Delimiters. -/
def delims : Bytes := b!"()<>[]{}/%"

/-- A byte that ends a name, number or keyword. -/
def Ends (c : UInt8) : Prop := c ∈ white ∨ c ∈ delims

/-- Bytes a number starts with. -/
def numStart : Bytes := b!"+-.0123456789"

/-- ASCII letters. -/
def letters : Bytes := b!"abcdefghijklmnopqrstuvwxyzABCDEFGHIJKLMNOPQRSTUVWXYZ"

/-- A byte that starts no token: what may be skipped in front of one. A lone `>` or `)` or braces and
bytes outside the PDF grammar are skipped like white space. -/
def Skipped (c : UInt8) : Prop :=
  c ∉ numStart ∧ c ∉ letters ∧ c ∉ b!"/([<%]"

/-- A run of regular characters starting with a byte of `first`, delimited on the right by `after`. -/
def Word (first : Bytes) (s after : Bytes) : Prop :=
  (∃ c body, s = c :: body ∧ c ∈ first ∧ ∀ x ∈ body, ¬ Ends x) ∧
  ∃ b rest, after = b :: rest ∧ Ends b

/-- `Shape t s after`: the bytes `s`, followed by `after`, look like a token of type `t`. -/
def Shape : TokT → Bytes → Bytes → Prop
  | .name, s, after => Word b!"/" s after
  | .integer, s, after => Word numStart s after ∧ 46 ∉ s
  | .real, s, after => Word numStart s after ∧ 46 ∈ s
  | .true, s, after => s = b!"true" ∧ ∃ b rest, after = b :: rest ∧ Ends b
  | .false, s, after => s = b!"false" ∧ ∃ b rest, after = b :: rest ∧ Ends b
  | .keyword, s, after =>
    Word letters s after ∧ s ≠ b!"true" ∧ s ≠ b!"false" ∧ ¬ b!"stream" <+: s
  | .comment, s, after =>
    (∃ body, s = 37 :: body ∧ ∀ x ∈ body, x ≠ 13 ∧ x ≠ 10) ∧
    ∃ b rest, after = b :: rest ∧ (b = 13 ∨ b = 10)
  | .dict, s, _ => ∃ body, s = b!"<<" ++ body ++ b!">>"
  | .array, s, _ => ∃ body, s = b!"[" ++ body ++ b!"]"
  | .string, s, _ =>
    (∃ body, s = b!"(" ++ body ++ b!")") ∨
    (∃ body, s = b!"<" ++ body ++ b!">" ∧ body.head? ≠ some 60)
  | .stream, s, _ =>
    ∃ body, s = b!"stream" ++ body ++ b!"endstream" ∧
      ∀ a b, body ++ b!"endstream" = a ++ b!"endstream" ++ b → b = []

end Pdf.Spec
