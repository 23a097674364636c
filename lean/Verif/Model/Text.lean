/-
Model of pdfsyntax/text.py (string decoding) and of the glyph width tables of docstruct.py.
A Python `str` is the list of its code points.
-/
import Verif.Model.Filters

namespace Pdf

/-- Python `str`: code points. -/
abbrev Str := List Nat

/-- `list(range(a, b))` on non-negative bounds. -/
def natRange (a b : Nat) : List Nat := (List.range (b - a)).map (a + ·)

/-- text.py:6-19 `prepare_pdfdoc_charset`, `PDFDOC_CHARSET`. -/
def pdfdocCharset : List Nat :=
  natRange 0 0x18 ++
  [0x02d8, 0x02c7, 0x02c6, 0x02d9, 0x02dd, 0x02db, 0x02da, 0x02dc] ++
  natRange 0x20 0x80 ++
  [0x2022, 0x2020, 0x2021, 0x2026, 0x2014, 0x2013, 0x0192, 0x2044] ++
  [0x2039, 0x203a, 0x2212, 0x2030, 0x201e, 0x201c, 0x201d, 0x2018] ++
  [0x2019, 0x201a, 0x2122, 0xfb01, 0xfb02, 0x0141, 0x0152, 0x0160] ++
  [0x0178, 0x017d, 0x0131, 0x0142, 0x0153, 0x0161, 0x017e, 0x009f, 0x20ac] ++
  natRange 0xa1 256

/-- text.py:22-25 `decode_pdfdoc`; an index outside the table would raise. -/
def decodePdfdoc (s : Bytes) : Py Str :=
  s.mapM (fun x => match pdfdocCharset[x.toNat]? with
    | some c => .ok c
    | none => .error .indexError)

/-- Octal digit. -/
def isOctal (c : UInt8) : Bool := 48 ≤ c && c ≤ 55

/-- Octal digits with single underscores between digits. -/
def octalVal (acc : Nat) : Bytes → Option Nat
  | [] => some acc
  | c :: cs =>
    if isOctal c then octalVal (acc * 8 + (c.toNat - 48)) cs
    else if c = 95 then
      match cs with
      | [] => none
      | d :: cs' => if isOctal d then octalVal (acc * 8 + (d.toNat - 48)) cs' else none
    else none

/-- An octal literal that starts with a digit. -/
def octalNat : Bytes → Option Nat
  | [] => none
  | c :: cs => if isOctal c then octalVal (c.toNat - 48) cs else none

/-- `int(s, 8)` for a byte string that is empty or starts with a digit (the only calls made):
trailing white space is ignored and a `0o` prefix accepted; `none` is `ValueError`. -/
def pyOct (s : Bytes) : Option Nat :=
  match stripRight s with
  | 48 :: c :: cs => if c = 111 ∨ c = 79 then octalNat cs else octalNat (48 :: c :: cs)
  | t => octalNat t

/-- text.py:55-64, the table `sequences` of `unescape_literal_string`. -/
def escSequence (c : UInt8) : Option UInt8 :=
  if c = 40 then some 40
  else if c = 41 then some 41
  else if c = 110 then some 10
  else if c = 114 then some 13
  else if c = 116 then some 9
  else if c = 98 then some 8
  else if c = 102 then some 12
  else if c = 92 then some 92
  else none

/-- text.py:66-80, the loop of `unescape_literal_string` on `rest = string[i:]`; the first argument is
the number of further bytes `i` has already been advanced by. The test `second in b'0123456789'` is
a substring test, so it also holds when `second` is empty. -/
def unescapeLoop : Nat → Bytes → Py Bytes
  | _, [] => .ok []
  | k + 1, _ :: rest => unescapeLoop k rest
  | 0, c :: rest =>
    if c = 92 then
      match rest with
      | [] => .error .valueError
      | d :: _ =>
        if isDigit d then
          match pyOct (rest.take 3) with
          | none => .error .valueError
          | some v =>
            if v < 256 then (unescapeLoop 3 rest).map (UInt8.ofNat v :: ·) else .error .valueError
        else match escSequence d with
          | some e => (unescapeLoop 1 rest).map (e :: ·)
          | none => unescapeLoop 0 rest
    else (unescapeLoop 0 rest).map (c :: ·)

/-- text.py:52-80 `unescape_literal_string`. -/
def unescapeLiteral (s : Bytes) : Py Bytes := unescapeLoop 0 s

/-- A 16-bit code unit, big-endian. -/
def unit16 (a b : UInt8) : Nat := a.toNat * 256 + b.toNat

/-- `bytes.decode('utf-16be')`; `none` is `UnicodeDecodeError` (odd length, unpaired surrogate). -/
def decodeUtf16be : Bytes → Option Str
  | [] => some []
  | [_] => none
  | [a, b] =>
    let u := unit16 a b
    if u < 0xD800 ∨ 0xE000 ≤ u then some [u] else none
  | [a, b, _] => let _ := unit16 a b; none
  | a :: b :: c :: d :: rest =>
    let u := unit16 a b
    if u < 0xD800 ∨ 0xE000 ≤ u then (decodeUtf16be (c :: d :: rest)).map (u :: ·)
    else if u < 0xDC00 then
      let v := unit16 c d
      if 0xDC00 ≤ v ∧ v < 0xE000 then
        (decodeUtf16be rest).map ((0x10000 + (u - 0xD800) * 0x400 + (v - 0xDC00)) :: ·)
      else none
    else none

/-- Value of a hexadecimal character of a `str`. -/
def hexChar (c : Nat) : Option Nat := if c < 128 then hexVal (UInt8.ofNat c) else none

/-- White space skipped by `bytes.fromhex`. -/
def isHexSpace (c : Nat) : Bool := c == 32 || (9 ≤ c && c ≤ 13)

/-- `bytes.fromhex(s)`: pairs of digits, white space allowed between pairs; `none` is `ValueError`. -/
def fromHex : Str → Option Bytes
  | [] => some []
  | [c] => if isHexSpace c then some [] else none
  | c :: d :: rest =>
    if isHexSpace c then fromHex (d :: rest)
    else
      match hexChar c, hexChar d with
      | some x, some y => (fromHex rest).map (UInt8.ofNat (16 * x + y) :: ·)
      | _, _ => none

/-- `bytes.decode('ascii')`. -/
def decodeAscii (s : Bytes) : Py Str :=
  s.mapM (fun x => if x.toNat < 128 then .ok x.toNat else .error .unicodeError)

/-- text.py:33-49, `text_string` once its argument is unescaped. -/
def textStringBody (string : Bytes) : Py Str :=
  if string.take 1 = b!"(" then
    if slice string 1 3 = [0xfe, 0xff] then
      orRaise .unicodeError (decodeUtf16be (sliceNeg string 3 1))
    else decodePdfdoc (sliceNeg string 1 1)
  else if string.take 1 = b!"<" then
    if slice string 1 5 = b!"FEFF" then do
      let t ← decodeAscii (sliceNeg string 5 1)
      let b ← orRaise .valueError (fromHex t)
      orRaise .unicodeError (decodeUtf16be b)
    else do
      let t ← decodePdfdoc (sliceNeg string 1 1)
      let b ← orRaise .valueError (fromHex t)
      decodePdfdoc b
  else .ok []

/-- text.py:28-49 `text_string`, on a string (`None` is returned unchanged by the code). -/
def textString (string : Bytes) : Py Str := do
  let string ← unescapeLiteral string
  textStringBody string

/-- docstruct.py:879-899: the `width` dict of `prepare_w`, only ever read with `.get`. -/
abbrev WidthTable := Int → Option Obj

/-- `width[k] = x`. -/
def WidthTable.set (t : WidthTable) (k : Int) (x : Obj) : WidthTable := fun j => if j = k then some x else t j

/-- docstruct.py:886-889: consecutive codes from `current`. -/
def setEach (t : WidthTable) (current : Int) : List Obj → WidthTable
  | [] => t
  | x :: xs => setEach (t.set current x) (current + 1) xs

/-- docstruct.py:895-896: `for j in range(first, last+1): width[j] = x`; `n` iterations left. -/
def setRange (t : WidthTable) (j : Int) (x : Obj) : Nat → WidthTable
  | 0 => t
  | n + 1 => setRange (t.set j x) (j + 1) x n

/-- docstruct.py:884-897, the loop of `prepare_w` on `w[i:]`. A code that is not an `int` is outside
the model. -/
def prepareWLoop (t : WidthTable) : List Obj → Py WidthTable
  | [] => .ok t
  | [_] => .error .indexError
  | .int first :: .list ws :: rest => prepareWLoop (setEach t first ws) rest
  | _ :: .list _ :: _ => .error .outside
  | [_, _] => .error .indexError
  | .int first :: .int last :: x :: rest =>
    prepareWLoop (setRange t first x (last + 1 - first).toNat) rest
  | _ :: _ :: _ :: _ => .error .outside

/-- docstruct.py:876-900 `prepare_w` on a list. -/
def prepareW (w : List Obj) (defaultW : Obj) : Py (Int → Obj) :=
  if w = [] then .ok (fun _ => .int 500)
  else (prepareWLoop (fun _ => none) w).map (fun t c => (t c).getD defaultW)

/-- docstruct.py:903-911 `prepare_widths`. -/
def prepareWidths (widths : List Obj) (firstChar : Int) (c : Int) : Py Obj :=
  let offset := c - firstChar
  if offset < 0 ∨ offset ≥ widths.length then .ok (.int 500)
  else match widths[offset.toNat]? with
    | some w => .ok w
    | none => .error .indexError

/-- `int.from_bytes(s, "big")`. -/
def fromBytesBig (s : Bytes) : Nat := s.foldl (fun acc c => acc * 256 + c.toNat) 0

/-- Successive chunks `s[j:j+n]` for `j` in `range(0, len(s), n)`; fuel is the length. -/
def chunks (n : Nat) : Nat → Bytes → List Bytes
  | 0, _ => []
  | fuel + 1, s => if s = [] then [] else s.take n :: chunks n fuel (s.drop n)

end Pdf
