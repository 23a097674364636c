/-
What a reader sees of a page: the text without its tags, with its entities replaced.
-/
import Verif.Spec.Objects

namespace Pdf.Spec

/-- The text without what is between angle brackets; the flag tells that a tag is open. -/
def untag : Bool → Bytes → Bytes
  | _, [] => []
  | true, c :: s => if c = 62 then untag false s else untag true s
  | false, c :: s => if c = 60 then untag true s else c :: untag false s

/-- The text with the characters that `&amp;`, `&lt;`, `&gt;`, `&quot;` and `&#x27;` stand for. -/
def unentity : Bytes → Bytes
  | [] => []
  | 38 :: 97 :: 109 :: 112 :: 59 :: s => 38 :: unentity s
  | 38 :: 108 :: 116 :: 59 :: s => 60 :: unentity s
  | 38 :: 103 :: 116 :: 59 :: s => 62 :: unentity s
  | 38 :: 113 :: 117 :: 111 :: 116 :: 59 :: s => 34 :: unentity s
  | 38 :: 35 :: 120 :: 50 :: 55 :: 59 :: s => 39 :: unentity s
  | c :: s => c :: unentity s

/-- What is seen of a text with markup. -/
def visible (s : Bytes) : Bytes := unentity (untag false s)

mutual
/-- Objects whose text is shown as it is: neither a boolean nor a null; in the literal strings, printable characters, no backslash and not both kinds of
quotes; keys of less than twenty characters and without `&`; the values of `/Prev` are integers; no negative number in references.
See the counterexamples of C101. -/
def Legible : Obj → Prop
  | .bool _ => False
  | .null => False
  | .bytes s => s.take 1 = b!"(" → (∀ c ∈ s, 32 ≤ c ∧ c < 127 ∧ c ≠ 92) ∧ ¬ (39 ∈ s ∧ 34 ∈ s)
  | .ref _ n => 0 ≤ n
  | .list l => LegibleItems l
  | .dict d => LegibleEntries d
  | _ => True
def LegibleItems : List Obj → Prop
  | [] => True
  | o :: l => Legible o ∧ LegibleItems l
def LegibleEntries : List (Bytes × Obj) → Prop
  | [] => True
  | (k, v) :: d => (k.length < 20 ∧ 38 ∉ k ∧ (k = b!"/Prev" → ∃ n, v = .int n)) ∧ Legible v ∧ LegibleEntries d
end

/-- The entries of a dictionary with `/Type` in the first place, `/Subtype` in the second, and the others as they were. -/
def typeFirst {α : Type} (l : List (Bytes × α)) : List (Bytes × α) :=
  let t := l.filter (·.1 = b!"/Type")
  let u := l.filter (·.1 = b!"/Subtype")
  let r := l.filter fun p => p.1 ≠ b!"/Type" ∧ p.1 ≠ b!"/Subtype"
  t ++ r.take (1 - t.length) ++ u ++ r.drop (1 - t.length)

end Pdf.Spec
