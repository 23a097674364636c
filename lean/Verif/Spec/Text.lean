/-
Independent descriptions of escaped strings, UTF-16BE, hexadecimal strings and width arrays
(ISO 32000-1, 7.3.4, 7.9.2 and 9.7.4.3).
-/
import Verif.Model.Value

namespace Pdf.Spec

/-- Table 3 of 7.3.4.2: the character after the backslash, and the byte it stands for. -/
def namedEscapes : List (UInt8 × UInt8) :=
  [(110, 10), (114, 13), (116, 9), (98, 8), (102, 12), (40, 40), (41, 41), (92, 92)]

/-- `Escapes e s`: `e` is a way of writing `s` with escape sequences. -/
inductive Escapes : Bytes → Bytes → Prop
  | nil : Escapes [] []
  | plain (c : UInt8) {e s : Bytes} : c ≠ 92 → Escapes e s → Escapes (c :: e) (c :: s)
  | named (k c : UInt8) {e s : Bytes} : (k, c) ∈ namedEscapes → Escapes e s →
      Escapes (92 :: k :: e) (c :: s)
  | octal (x y z : Nat) {e s : Bytes} : x < 4 → y < 8 → z < 8 → Escapes e s →
      Escapes (92 :: UInt8.ofNat (48 + x) :: UInt8.ofNat (48 + y) :: UInt8.ofNat (48 + z) :: e)
        (UInt8.ofNat (64 * x + 8 * y + z) :: s)
  | ignored (k : UInt8) {e s : Bytes} : (∀ c, (k, c) ∉ namedEscapes) → k ∉ b!"0123456789\r\n" →
      Escapes e s → Escapes (92 :: k :: e) (k :: s)

/-- Escaping, with a choice of the bytes written in octal. -/
def escape (oct : UInt8 → Bool) : Bytes → Bytes
  | [] => []
  | c :: s =>
    (if oct c then
      [92, UInt8.ofNat (48 + c.toNat / 64), UInt8.ofNat (48 + c.toNat / 8 % 8), UInt8.ofNat (48 + c.toNat % 8)]
    else if c = 40 ∨ c = 41 ∨ c = 92 then [92, c]
    else [c]) ++ escape oct s

/-- Unicode scalar values: code points that are not surrogates. -/
def IsScalar (n : Nat) : Prop := n < 0xD800 ∨ (0xE000 ≤ n ∧ n < 0x110000)

/-- UTF-16BE encoding of one scalar value. -/
def utf16Char (n : Nat) : Bytes :=
  if n < 0x10000 then [UInt8.ofNat (n / 256), UInt8.ofNat (n % 256)]
  else
    let m := n - 0x10000
    let hi := 0xD800 + m / 0x400
    let lo := 0xDC00 + m % 0x400
    [UInt8.ofNat (hi / 256), UInt8.ofNat (hi % 256), UInt8.ofNat (lo / 256), UInt8.ofNat (lo % 256)]

/-- UTF-16BE encoding of a text. -/
def utf16 (t : List Nat) : Bytes := t.flatMap utf16Char

/-- `c` is a digit (of either case) for `n`. -/
def HexDigitOf (c : UInt8) (n : Nat) : Prop :=
  (b!"0123456789ABCDEF")[n]? = some c ∨ (b!"0123456789abcdef")[n]? = some c

/-- `Hex h s`: `h` is a hexadecimal form of `s`: two digits per byte, any case, white space
(not NUL) between bytes. -/
inductive Hex : Bytes → Bytes → Prop
  | nil : Hex [] []
  | space (c : UInt8) {h s : Bytes} : c ∈ [9, 10, 12, 13, 32] → Hex h s → Hex (c :: h) s
  | byte (c d b : UInt8) {h s : Bytes} : HexDigitOf c (b.toNat / 16) → HexDigitOf d (b.toNat % 16) →
      Hex h s → Hex (c :: d :: h) (b :: s)

/-- 9.7.4.3: the two forms of a group of the `/W` array. -/
inductive WGroup
  | each (first : Int) (widths : List Obj)
  | range (first last : Int) (width : Obj)

/-- The `/W` array made of these groups. -/
def wArray : List WGroup → List Obj
  | [] => []
  | .each c ws :: gs => .int c :: .list ws :: wArray gs
  | .range a b w :: gs => .int a :: .int b :: w :: wArray gs

/-- `Covers g c w`: the group gives the width `w` to the code `c`. -/
def Covers : WGroup → Int → Obj → Prop
  | .each first ws, c, w => ∃ k : Nat, c = first + k ∧ ws[k]? = some w
  | .range a b w', c, w => a ≤ c ∧ c ≤ b ∧ w = w'

/-- `w` is the width of `c`: given by the last group that covers it, else the default. -/
def WidthOf (gs : List WGroup) (dw : Obj) (c : Int) (w : Obj) : Prop :=
  (∃ pre g post, gs = pre ++ g :: post ∧ Covers g c w ∧ ∀ g' ∈ post, ∀ w', ¬ Covers g' c w') ∨
  ((∀ g ∈ gs, ∀ w', ¬ Covers g c w') ∧ w = dw)

/-- `TextOf s t`: the string object `s`, as it is in the file, stands for the text `t`: literal or hexadecimal, in UTF-16BE after
its mark, or in PDFDocEncoding (given by `dec`, byte by byte). -/
inductive TextOf (dec : UInt8 → Nat) : Bytes → List Nat → Prop
  | literal16 (e : Bytes) (t : List Nat) : (∀ n ∈ t, IsScalar n) → Escapes e ([0xfe, 0xff] ++ utf16 t) →
      TextOf dec (b!"(" ++ e ++ b!")") t
  | hex16 (h : Bytes) (t : List Nat) : (∀ n ∈ t, IsScalar n) → Hex h ([0xfe, 0xff] ++ utf16 t) → TextOf dec (b!"<" ++ h ++ b!">") t
  | literal8 (e s : Bytes) : Escapes e s → ¬ [0xfe, 0xff] <+: s → TextOf dec (b!"(" ++ e ++ b!")") (s.map dec)
  | hex8 (h s : Bytes) : Hex h s → ¬ [0xfe, 0xff] <+: s → TextOf dec (b!"<" ++ h ++ b!">") (s.map dec)

end Pdf.Spec
