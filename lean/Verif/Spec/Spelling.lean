/-
The texts of an object in PDF files, whatever program wrote them (ISO 32000 7.2 and 7.3).
-/
import Verif.Spec.Objects
import Verif.Model.Objects

namespace Pdf.Spec

/-- What separates tokens: white space and comments (7.2.3), each of them ended by an end of line.
Restrictions (see `C98_comment_counterexample`): inside a dictionary (`inD`) a comment has no `<<` and no `>>`, inside an array (`inA`) no
bracket and no parenthesis. -/
inductive Gap (inD inA : Bool) : Bytes → Prop
  | nil : Gap inD inA []
  | white {c : UInt8} {g : Bytes} : c ∈ white → Gap inD inA g → Gap inD inA (c :: g)
  | comment {body g : Bytes} {e : UInt8} : (∀ c ∈ body, c ≠ 10 ∧ c ≠ 13) → (inD = true → noDoubleAngle body = true) →
      (inA = true → ∀ c ∈ body, c ∉ b!"()[]") → (e = 10 ∨ e = 13) → Gap inD inA g → Gap inD inA (37 :: (body ++ e :: g))

/-- The value of decimal digits. -/
def numVal (ds : Bytes) : Nat := ds.foldl (fun a c => 10 * a + (c.toNat - 48)) 0

def Digits (ds : Bytes) : Prop := ∀ c ∈ ds, c ∈ b!"0123456789"

/-- The signs that a number may have (7.3.3). -/
inductive Sign : Bytes → Bool → Prop
  | none : Sign [] false
  | plus : Sign b!"+" false
  | minus : Sign b!"-" true

/-- An integer: digits, leading zeros allowed, and maybe a sign. -/
def IntText (s : Bytes) (n : Int) : Prop :=
  ∃ sg neg ds, s = sg ++ ds ∧ Sign sg neg ∧ Digits ds ∧ ds ≠ [] ∧ n = if neg then -(numVal ds : Int) else numVal ds

/-- A real number: digits with a decimal point anywhere and maybe a sign; `frac` is what follows the point without the final zeros.
Restriction: at most fifteen significant digits, see `isDecimal`. -/
def RealText (s : Bytes) (neg : Bool) (ip : Nat) (frac : Bytes) : Prop :=
  ∃ sg ids fds k, s = sg ++ ids ++ b!"." ++ fds ∧ Sign sg neg ∧ Digits ids ∧ Digits fds ∧ (ids ≠ [] ∨ fds ≠ []) ∧
    ip = numVal ids ∧ fds = frac ++ List.replicate k 48 ∧ isDecimal ip frac = true

/-- Keys and values in a single list. -/
def inLine : List (Bytes × Obj) → List Obj
  | [] => []
  | (k, v) :: d => .str k :: v :: inLine d

/-- Strings, arrays and dictionaries show where they end; after another object there must be white space or a delimiter. -/
def selfEnded : Obj → Bool
  | .bytes _ => true
  | .list _ => true
  | .dict _ => true
  | _ => false

mutual
/-- `s` is a text of the object `o`, inside a dictionary if `inD`, inside an array if `inA`.
Names are kept as they are written, `#` escapes included; strings too. The generation of a reference is not kept
(`C01_generation_counterexample`). -/
inductive Spells : Bool → Bool → Obj → Bytes → Prop
  | true {inD inA} : Spells inD inA (.bool true) b!"true"
  | false {inD inA} : Spells inD inA (.bool false) b!"false"
  | int {inD inA s n} : IntText s n → Spells inD inA (.int n) s
  | real {inD inA s neg ip frac} : RealText s neg ip frac → Spells inD inA (.real neg ip frac) s
  | name {inD inA s} : isName s = true → Spells inD inA (.str s) s
  | keyword {inD inA s} : isKeyword s = true → Spells inD inA (.str s) s
  | literal {inD inA s} : isLiteral s = true → (inD = true → noDoubleAngle s = true) → (inA = true → bracketSafe false s = true) →
      Spells inD inA (.bytes s) s
  | hex {inD inA s} : isHexString s = true → Spells inD inA (.bytes s) s
  | ref {inD inA} {s t g g' : Bytes} {n m : Int} : IntText s n → IntText t m → n.natAbs ≤ 9007199254740992 → Gap inD inA g → g ≠ [] → Gap inD inA g' → g' ≠ [] →
      Spells inD inA (.ref 0 n) (s ++ (g ++ (t ++ (g' ++ b!"R"))))
  | array {inD inA l t} : SpellsAll inD true l t → Spells inD inA (.list l) (b!"[" ++ (t ++ b!"]"))
  | dict {inD inA d t} : SpellsAll true inA (inLine d) t → (∀ p ∈ d, isName p.1 = true) → (d.map Prod.fst).Nodup →
      Spells inD inA (.dict d) (b!"<<" ++ (t ++ b!">>"))
/-- `t` is a text of the objects of a list, one after the other, with what separates them. -/
inductive SpellsAll : Bool → Bool → List Obj → Bytes → Prop
  | nil {inD inA g} : Gap inD inA g → SpellsAll inD inA [] g
  | cons {inD inA o l g s t} : Gap inD inA g → Spells inD inA o s → SpellsAll inD inA l t →
      (selfEnded o = true ∨ t = [] ∨ ∃ c r, t = c :: r ∧ Ends c) → SpellsAll inD inA (o :: l) (g ++ (s ++ t))
end

/-- `s` is a text of the data `enc` of a stream (7.3.8): an end of line after `stream`, and maybe one before `endstream`.
Restrictions: `endstream` is not in the data, and the data do not end with what would be taken for the end of line
before `endstream` (`C98_endstream_counterexample`: the entry `/Length` is not looked at). -/
def DataText (enc s : Bytes) : Prop :=
  ∃ b e, s = b!"stream" ++ b ++ enc ++ e ++ b!"endstream" ∧ (b = b!"\n" ∨ b = b!"\r\n") ∧ ¬ b!"endstream" <:+: enc ∧
    (e = b!"\r\n" ∨ e = b!"\r" ∨ (e = b!"\n" ∧ enc.getLast? ≠ some 13) ∨
      (e = [] ∧ enc.getLast? ≠ some 10 ∧ enc.getLast? ≠ some 13))

/-- `s` is a text of the object `o`, at the top of an indirect object: as `Spells` or a stream, with white space before the
keyword `stream` (no comment there, `C98_comment_counterexample`). -/
inductive SpellsTop [Zlib] : Obj → Bytes → Prop
  | obj {o : Obj} {s : Bytes} : Spells false false o s → (∀ g n, o ≠ .ref g n) → SpellsTop o s
  | stream {d : List (Bytes × Obj)} {s ws t enc content : Bytes} : Spells false false (.dict d) s → (∀ c ∈ ws, c ∈ white) → DataText enc t →
      decodeStream enc d = .ok content → SpellsTop (.stream d content enc) (s ++ (ws ++ t))

/-- `s` is a text of the indirect object `num gen` (7.3.10).
Restriction: white space only, no comment, between the words of the first line. -/
def IndirectText [Zlib] (num gen : Nat) (o : Obj) (s : Bytes) : Prop :=
  ∃ n g w1 w2 w3 v w4, s = n ++ (w1 ++ (g ++ (w2 ++ (b!"obj" ++ (w3 ++ (v ++ (w4 ++ b!"endobj"))))))) ∧ IntText n num ∧ IntText g gen ∧
    SpellsTop o v ∧ w1 ≠ [] ∧ w2 ≠ [] ∧ (∀ c ∈ w1 ++ w2 ++ w3, c ∈ white) ∧ Gap false false w4 ∧
    (w3 ≠ [] ∨ ∃ c r, v = c :: r ∧ Ends c) ∧ (w4 ≠ [] ∨ selfEnded o = true)

end Pdf.Spec
