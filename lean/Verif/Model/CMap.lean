/-
Model of the decoding of shown strings, pdfsyntax/text.py:82-170.
-/
import Verif.Model.Text

namespace Pdf

/-- `int(s, 16)` on bytes made of hexadecimal digits. The other forms that Python accepts (sign, prefix,
underscores, spaces around) are outside the model. -/
def intHex (s : Bytes) : Py Nat :=
  if s = [] then .error .valueError
  else match s.mapM hexVal with
    | some ds => .ok (ds.foldl (fun acc d => acc * 16 + d) 0)
    | none => .error .outside

/-- text.py:82-89 `tokenize_string`; `range` refuses a step of zero. -/
def tokenizeString (string : Bytes) (wordL : Nat) : Py (List Nat) :=
  let s := sliceNeg string 1 1
  if string.take 1 = b!"(" then do
    let s ← unescapeLiteral s
    if wordL = 0 then .error .valueError
    else pure ((chunks wordL s.length s).map fromBytesBig)
  else if wordL = 0 then .error .valueError
  else (chunks (wordL * 2) s.length s).mapM intHex

/-- An upper case hexadecimal digit. -/
def hexDig (n : Nat) : Nat := if n < 10 then 48 + n else 55 + n

/-- The last `k` hexadecimal digits. -/
def cmapHexLow : Nat → Nat → Str
  | 0, _ => []
  | k + 1, x => cmapHexLow k (x / 16) ++ [hexDig (x % 16)]

/-- `f'{x:0wX}'`: at least `w` digits. -/
def formatHex (w x : Nat) : Str := cmapHexLow (max w (Nat.log2 x / 4 + 1)) x

/-- text.py:108, an element of `tokens`: a code not yet mapped, or a text. -/
inductive CTok
  | code (n : Nat)
  | text (s : Str)
  deriving DecidableEq, Repr

/-- text.py:107 `section`. -/
inductive CSection | char | range
  deriving DecidableEq, Repr

/-- Local variables of `apply_tounicode`; `backup` is unbound at first. -/
structure CState where
  tokens : List CTok
  backup : Option (List Nat)
  wordL : Nat
  section_ : Option CSection
  deriving DecidableEq, Repr

/-- `x == 'kw'` for an element of the CMap. -/
def isKw (kw : Bytes) : Obj → Bool
  | .str s => s == kw
  | _ => false

/-- `x[1:-1]` for an element that is a byte string; the rest is outside the model. -/
def strBody : Obj → Py Bytes
  | .bytes s => .ok (sliceNeg s 1 1)
  | _ => .error .outside

/-- `int(x[1:-1], 16)`. -/
def codeOf (o : Obj) : Py Nat := do
  let s ← strBody o
  intHex s

/-- `bytes.fromhex(x[1:-1].decode('ascii')).decode('utf-16be')`. -/
def targetText (o : Obj) : Py Str := do
  let s ← strBody o
  let t ← decodeAscii s
  let b ← orRaise .valueError (fromHex t)
  orRaise .unicodeError (decodeUtf16be b)

/-- text.py:123-128, one token and one entry of a `bfchar` section. -/
def mapChar (src : Obj) (dst : Option Obj) (t : CTok) : Py CTok := do
  let c ← codeOf src
  match t with
  | .text s => pure (.text s)
  | .code n =>
    if n = c then do
      let d ← orRaise .indexError dst
      let s ← targetText d
      pure (.text s)
    else pure (.code n)

/-- text.py:146-157, the target of a code in a range. -/
def rangeTarget (wordL : Nat) (dst : Obj) (k : Nat) : Py Str :=
  match dst with
  | .list l => do
    let d ← orRaise .indexError l[k]?
    targetText d
  | dst => do
    let x ← codeOf dst
    let b ← orRaise .valueError (fromHex (formatHex (if wordL = 2 then 4 else 2) (x + k)))
    orRaise .unicodeError (decodeUtf16be b)

/-- text.py:141-157, one token and one entry of a `bfrange` section. -/
def mapRange (wordL : Nat) (lo : Obj) (hi dst : Option Obj) (t : CTok) : Py CTok := do
  let a ← codeOf lo
  let hi ← orRaise .indexError hi
  let z ← codeOf hi
  match t with
  | .text s => pure (.text s)
  | .code n =>
    if a ≤ n ∧ n ≤ z then do
      let d ← orRaise .indexError dst
      let s ← rangeTarget wordL d (n - a)
      pure (.text s)
    else pure (.code n)

/-- text.py:115-122 and 133-140: start of a section. The length of anything else than a byte string with its
delimiters is outside the model. -/
def beginSection (string : Bytes) (sec : CSection) (next : Option Obj) (st : CState) : Py CState :=
  if st.tokens = [] then do
    let o ← orRaise .indexError next
    match o with
    | .bytes s =>
      if s.length < 2 then .error .outside
      let w := (s.length - 2) / 2
      let tokens ← tokenizeString string w
      pure ⟨tokens.map .code, some tokens, w, some sec⟩
    | _ => .error .outside
  else pure { st with section_ := some sec }

/-- text.py:109-164, the loop of `apply_tounicode` on `cmap[i:]`; the first number counts the elements
that `i` has already passed. -/
def cmapLoop (string : Bytes) : Nat → List Obj → CState → Py CState
  | _, [], st => .ok st
  | k + 1, _ :: rest, st => cmapLoop string k rest st
  | 0, o :: rest, st =>
    if isKw b!"begincodespacerange" o then cmapLoop string 3 rest st
    else if isKw b!"beginbfchar" o then do
      let st ← beginSection string .char rest[0]? st
      cmapLoop string 0 rest st
    else if st.section_ = some .char then
      if isKw b!"endbfchar" o then cmapLoop string 0 rest { st with section_ := none }
      else do
        let tokens ← st.tokens.mapM (mapChar o rest[0]?)
        cmapLoop string 1 rest { st with tokens := tokens }
    else if isKw b!"beginbfrange" o then do
      let st ← beginSection string .range rest[0]? st
      cmapLoop string 0 rest st
    else if st.section_ = some .range then
      if isKw b!"endbfrange" o then cmapLoop string 0 rest { st with section_ := none }
      else do
        let tokens ← st.tokens.mapM (mapRange st.wordL o rest[0]? rest[1]?)
        cmapLoop string 2 rest { st with tokens := tokens }
    else cmapLoop string 0 rest st

/-- text.py:165-169: what is left of a token. -/
def CTok.out : CTok → Str
  | .code _ => []
  | .text s => s

/-- text.py:103-170 `apply_tounicode`. -/
def applyToUnicode (cmap : List Obj) (string : Bytes) : Py (Str × List Nat) := do
  let st ← cmapLoop string 0 cmap ⟨[], none, 2, none⟩
  let codes ← orRaise .unboundLocal st.backup
  pure (st.tokens.flatMap CTok.out, codes)

/-- The codec `mac_roman` from byte 128 on. -/
def macRomanHigh : List Nat :=
  [0x00c4, 0x00c5, 0x00c7, 0x00c9, 0x00d1, 0x00d6, 0x00dc, 0x00e1,
   0x00e0, 0x00e2, 0x00e4, 0x00e3, 0x00e5, 0x00e7, 0x00e9, 0x00e8,
   0x00ea, 0x00eb, 0x00ed, 0x00ec, 0x00ee, 0x00ef, 0x00f1, 0x00f3,
   0x00f2, 0x00f4, 0x00f6, 0x00f5, 0x00fa, 0x00f9, 0x00fb, 0x00fc,
   0x2020, 0x00b0, 0x00a2, 0x00a3, 0x00a7, 0x2022, 0x00b6, 0x00df,
   0x00ae, 0x00a9, 0x2122, 0x00b4, 0x00a8, 0x2260, 0x00c6, 0x00d8,
   0x221e, 0x00b1, 0x2264, 0x2265, 0x00a5, 0x00b5, 0x2202, 0x2211,
   0x220f, 0x03c0, 0x222b, 0x00aa, 0x00ba, 0x03a9, 0x00e6, 0x00f8,
   0x00bf, 0x00a1, 0x00ac, 0x221a, 0x0192, 0x2248, 0x2206, 0x00ab,
   0x00bb, 0x2026, 0x00a0, 0x00c0, 0x00c3, 0x00d5, 0x0152, 0x0153,
   0x2013, 0x2014, 0x201c, 0x201d, 0x2018, 0x2019, 0x00f7, 0x25ca,
   0x00ff, 0x0178, 0x2044, 0x20ac, 0x2039, 0x203a, 0xfb01, 0xfb02,
   0x2021, 0x00b7, 0x201a, 0x201e, 0x2030, 0x00c2, 0x00ca, 0x00c1,
   0x00cb, 0x00c8, 0x00cd, 0x00ce, 0x00cf, 0x00cc, 0x00d3, 0x00d4,
   0xf8ff, 0x00d2, 0x00da, 0x00db, 0x00d9, 0x0131, 0x02c6, 0x02dc,
   0x00af, 0x02d8, 0x02d9, 0x02da, 0x00b8, 0x02dd, 0x02db, 0x02c7]

/-- The codec `cp1252` from byte 128 on; 0 where it has no character. -/
def cp1252High : List Nat :=
  [0x20ac, 0, 0x201a, 0x0192, 0x201e, 0x2026, 0x2020, 0x2021,
   0x02c6, 0x2030, 0x0160, 0x2039, 0x0152, 0, 0x017d, 0,
   0, 0x2018, 0x2019, 0x201c, 0x201d, 0x2022, 0x2013, 0x2014,
   0x02dc, 0x2122, 0x0161, 0x203a, 0x0153, 0, 0x017e, 0x0178,
   0x00a0, 0x00a1, 0x00a2, 0x00a3, 0x00a4, 0x00a5, 0x00a6, 0x00a7,
   0x00a8, 0x00a9, 0x00aa, 0x00ab, 0x00ac, 0x00ad, 0x00ae, 0x00af,
   0x00b0, 0x00b1, 0x00b2, 0x00b3, 0x00b4, 0x00b5, 0x00b6, 0x00b7,
   0x00b8, 0x00b9, 0x00ba, 0x00bb, 0x00bc, 0x00bd, 0x00be, 0x00bf,
   0x00c0, 0x00c1, 0x00c2, 0x00c3, 0x00c4, 0x00c5, 0x00c6, 0x00c7,
   0x00c8, 0x00c9, 0x00ca, 0x00cb, 0x00cc, 0x00cd, 0x00ce, 0x00cf,
   0x00d0, 0x00d1, 0x00d2, 0x00d3, 0x00d4, 0x00d5, 0x00d6, 0x00d7,
   0x00d8, 0x00d9, 0x00da, 0x00db, 0x00dc, 0x00dd, 0x00de, 0x00df,
   0x00e0, 0x00e1, 0x00e2, 0x00e3, 0x00e4, 0x00e5, 0x00e6, 0x00e7,
   0x00e8, 0x00e9, 0x00ea, 0x00eb, 0x00ec, 0x00ed, 0x00ee, 0x00ef,
   0x00f0, 0x00f1, 0x00f2, 0x00f3, 0x00f4, 0x00f5, 0x00f6, 0x00f7,
   0x00f8, 0x00f9, 0x00fa, 0x00fb, 0x00fc, 0x00fd, 0x00fe, 0x00ff]

/-- `s.decode(codec)` for a codec that extends ASCII; `none` is `UnicodeDecodeError`. -/
def decodeTable (high : List Nat) (s : Bytes) : Py Str :=
  s.mapM (fun x =>
    if x.toNat < 128 then .ok x.toNat
    else match high[x.toNat - 128]? with
      | some c => if c = 0 then .error .unicodeError else .ok c
      | none => .error .unicodeError)

/-- text.py:96-99. -/
def decodeSimple (encoding : Obj) (s : Bytes) : Py Str :=
  if isKw b!"/MacRomanEncoding" encoding then decodeTable macRomanHigh s else decodeTable cp1252High s

/-- text.py:92-100 `apply_encoding`. -/
def applyEncoding (encoding : Obj) (string : Bytes) : Py (Str × List Nat) := do
  let s ← unescapeLiteral (sliceNeg string 1 1)
  let us ← decodeSimple encoding s
  pure (us, s.map UInt8.toNat)

end Pdf
