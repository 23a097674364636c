/-
Model of pdfsyntax/filters.py.
-/
import Verif.Model.Value

namespace Pdf

/-- `zlib.compress` / `zlib.decompress` are external: any pair of functions.
`none` is an exception of `decompress`. The round-trip law is a separate hypothesis
(`ZlibLaw`) of the theorems that need it. -/
class Zlib where
  compress : Bytes → Bytes
  decompress : Bytes → Option Bytes

/-- What the theorems assume of zlib when they assume anything. -/
def ZlibLaw [Zlib] : Prop := ∀ x, Zlib.decompress (Zlib.compress x) = some x

/-- filters.py:19 `[(val + prev_row[index]) & 0xff for (index, val) in enumerate(row)]`.
`prev_row` is at least as long as `row` in every call. -/
def upRow (prev row : Bytes) : Bytes := List.zipWith (fun v p => v + p) row prev

/-- filters.py:16-22, the loop of `decode_predictor`, on `rest = bdata[i:]`; `columns` is already
incremented. Fuel: one unit per row. -/
def predictorLoop (columns : Nat) : Nat → Bytes → Bytes → Bytes
  | 0, _, _ => []
  | fuel + 1, prev, rest =>
    if rest = [] then []
    else
      let row := rest.take columns
      let decoded := upRow prev row
      decoded.drop 1 ++ predictorLoop columns fuel decoded (rest.drop columns)

/-- filters.py:9-23 `decode_predictor`. The `predictor` argument is ignored by the code.
With `columns = -1` no row is ever consumed; with `columns < -1` the first slice `bdata[0:columns+1]`
counts from the end, so it is indexed into an empty `prev_row` (IndexError) or empty, in which case
`i` decreases forever. -/
def decodePredictor (bdata : Bytes) (columns : Int) : Py Bytes :=
  let columns := columns + 1
  if bdata = [] then .ok []
  else if columns < 0 ∧ columns.natAbs < bdata.length then .error .indexError
  else if columns ≤ 0 then .error .nonterm
  else .ok (predictorLoop columns.toNat bdata.length (List.replicate columns.toNat 0) bdata)

/-- One hexadecimal digit, upper case. -/
def hexDigit (n : Nat) : UInt8 := if n < 10 then UInt8.ofNat (48 + n) else UInt8.ofNat (55 + n)

/-- filters.py:95-98 `asciihex` with `columns=None`: `binascii.hexlify(stream).upper()`. -/
def asciihex : Bytes → Bytes
  | [] => []
  | c :: rest => hexDigit (c.toNat / 16) :: hexDigit (c.toNat % 16) :: asciihex rest

/-- Value of a hexadecimal digit, either case. -/
def hexVal (c : UInt8) : Option Nat :=
  if 48 ≤ c ∧ c ≤ 57 then some (c.toNat - 48)
  else if 65 ≤ c ∧ c ≤ 70 then some (c.toNat - 55)
  else if 97 ≤ c ∧ c ≤ 102 then some (c.toNat - 87)
  else none

/-- `binascii.unhexlify`: pairs of digits, odd length or another character raises. -/
def unhexlify : Bytes → Option Bytes
  | [] => some []
  | [_] => none
  | c :: d :: rest =>
    match hexVal c, hexVal d with
    | some x, some y => (unhexlify rest).map (fun r => UInt8.ofNat (16 * x + y) :: r)
    | _, _ => none

/-- The five ASCII85 digits of a 32-bit word (`base64._85encode`, `chars2[word // 614125] +
chars2[word // 85 % 7225] + chars[word % 85]`). -/
def a85Digits (w : Nat) : Bytes :=
  [UInt8.ofNat (33 + w / 614125 / 85), UInt8.ofNat (33 + w / 614125 % 85),
   UInt8.ofNat (33 + w / 85 % 7225 / 85), UInt8.ofNat (33 + w / 85 % 7225 % 85),
   UInt8.ofNat (33 + w % 85)]

/-- Big-endian value of four bytes. -/
def word32 (a b c d : UInt8) : Nat :=
  ((a.toNat * 256 + b.toNat) * 256 + c.toNat) * 256 + d.toNat

/-- A full group: the all-zero group is abbreviated `z`. -/
def a85Group (a b c d : UInt8) : Bytes :=
  if word32 a b c d = 0 then [122] else a85Digits (word32 a b c d)

/-- `base64._85encode(b, ..., pad=False, foldnuls=True)`: full groups, then a zero-padded last group
of which `padding` digits are removed (a folded `z` is expanded first). -/
def a85Body : Bytes → Bytes
  | [] => []
  | [a] => (a85Digits (word32 a 0 0 0)).take 2
  | [a, b] => (a85Digits (word32 a b 0 0)).take 3
  | [a, b, c] => (a85Digits (word32 a b c 0)).take 4
  | a :: b :: c :: d :: rest => a85Group a b c d ++ a85Body rest

/-- `base64.a85encode(b, adobe=True)`. -/
def a85encode (s : Bytes) : Bytes := b!"<~" ++ a85Body s ++ b!"~>"

/-- `struct.Struct('!I').pack(acc)`; out of range raises. -/
def packI (acc : Nat) : Option Bytes :=
  if acc < 4294967296 then
    some [UInt8.ofNat (acc / 16777216 % 256), UInt8.ofNat (acc / 65536 % 256),
          UInt8.ofNat (acc / 256 % 256), UInt8.ofNat (acc % 256)]
  else none

/-- The loop of `base64.a85decode`: `curr` holds the digits of the current group. Returns the decoded
bytes and the pending digits. -/
def a85Loop : Bytes → Bytes → Option (Bytes × Bytes)
  | curr, [] => some ([], curr)
  | curr, x :: rest =>
    if 33 ≤ x ∧ x ≤ 117 then
      if curr.length = 4 then
        match packI ((curr ++ [x]).foldl (fun acc y => 85 * acc + (y.toNat - 33)) 0) with
        | none => none
        | some w => (a85Loop [] rest).map (fun (d, c) => (w ++ d, c))
      else a85Loop (curr ++ [x]) rest
    else if x = 122 then
      if curr ≠ [] then none
      else (a85Loop [] rest).map (fun (d, c) => ([0, 0, 0, 0] ++ d, c))
    else if x = 32 ∨ x = 9 ∨ x = 10 ∨ x = 13 ∨ x = 11 then a85Loop curr rest
    else none

/-- `base64.a85decode(b, adobe=True)`; `none` is `ValueError`. -/
def a85decode (b : Bytes) : Option Bytes :=
  if lastN b 2 = b!"~>" then
    let b := if startsWith b!"<~" b then sliceNeg b 2 2 else sliceNeg b 0 2
    match a85Loop [] (b ++ List.replicate 4 117) with
    | none => none
    | some (decoded, curr) =>
      let padding := 4 - curr.length
      some (if padding = 0 then decoded else decoded.take (decoded.length - padding))
  else none

/-- filters.py:50, 55, 60, 62: the byte strings returned in place of undecodable data. -/
def errFlate : Bytes := b!"#PDFSyntaxException: cannot decode Flate"
def errHex : Bytes := b!"#PDFSyntaxException: cannot decode ASCIIHex"
def err85 : Bytes := b!"#PDFSyntaxException: cannot decode ASCII85"
def errUnsupported : Bytes := b!"#PDFSyntaxException: unsupported filter"

/-- `int(o)`; `none` raises (TypeError or ValueError). -/
def intOf : Obj → Option Int
  | .int n => some n
  | .bool b => some (if b then 1 else 0)
  | .real neg ip _ => some (if neg then -(ip : Int) else ip)
  | .str s => pyInt s
  | .bytes s => pyInt s
  | _ => none

/-- What filters.py:45 `parms[i] and '/Predictor' in parms[i]` does: `some true`/`some false`, or
`none` when it raises. `parms[i]` is `none` for Python's `None`. -/
def hasPredictor : Option Obj → Option Bool
  | none => some false
  | some .null => some false
  | some (.dict d) => some (Dict.has d b!"/Predictor")
  | some (.str s) => some (find s b!"/Predictor" 0).isSome
  | some (.list l) => some (l.any fun o => match o with | .str s => s = b!"/Predictor" | _ => false)
  | some (.bytes s) => if s = [] then some false else none
  | some (.int n) => if n = 0 then some false else none
  | some (.bool b) => if b then none else some false
  | some (.real neg ip frac) => if truthy (.real neg ip frac) then none else some false
  | some (.ref g n) => if g = 0 ∧ n = 0 then some false else none
  | some (.stream _ _ _) => none

/-- filters.py:43-50, the /FlateDecode stage on `s` with parameter list `parms` at index `i`.
`.ok none` is the `except` branch, reached by every exception; a non-terminating predictor
stays non-terminating. -/
def flateStage [Zlib] (s : Bytes) (parms : List (Option Obj)) (i : Nat) : Py (Option Bytes) :=
  match Zlib.decompress s with
  | none => .ok none
  | some res =>
    match parms[i]? with
    | none => .ok none
    | some parm =>
      match hasPredictor parm with
      | none => .ok none
      | some false => .ok (some res)
      | some true =>
        match parm with
        | some (.dict p) =>
          match (Dict.get? p b!"/Predictor").bind intOf, (Dict.get? p b!"/Columns").bind intOf with
          | some _, some c =>
            match decodePredictor res c with
            | .ok r => .ok (some r)
            | .error .nonterm => .error .nonterm
            | .error _ => .ok none
          | _, _ => .ok none
        | _ => .ok none

/-- filters.py:41-63, the loop of `decode_stream`. As in the code every stage reads the original `s`,
not the result of the previous stage; `res` is the last stage's result. -/
def decodeLoop [Zlib] (s : Bytes) (parms : List (Option Obj)) :
    Nat → List Obj → Option Bytes → Py Bytes
  | _, [], none => .error .unboundLocal
  | _, [], some res => .ok res
  | i, f :: fs, _ =>
    match f with
    | .str f =>
      if f = b!"/FlateDecode" then
        match flateStage s parms i with
        | .error e => .error e
        | .ok none => .ok errFlate
        | .ok (some r) => decodeLoop s parms (i + 1) fs (some r)
      else if f = b!"/ASCIIHexDecode" then
        match unhexlify s with
        | none => .ok errHex
        | some r => decodeLoop s parms (i + 1) fs (some r)
      else if f = b!"/ASCII85Decode" then
        match a85decode s with
        | none => .ok err85
        | some r => decodeLoop s parms (i + 1) fs (some r)
      else .ok errUnsupported
    | _ => .ok errUnsupported

/-- filters.py:26-63 `decode_stream`. A /Filter that is neither a str nor an array, and a /DecodeParms
that is neither a dict nor an array, are outside the model. -/
def decodeStream [Zlib] (s : Bytes) (d : Dict) : Py Bytes :=
  match Dict.get? d b!"/Filter" with
  | none => .ok s
  | some flt =>
    let filters : Option (List Obj) :=
      match flt with
      | .str f => some ((strSplit f).map .str)
      | .list l => some l
      | _ => none
    match filters with
    | none => .error .outside
    | some filters =>
      match Dict.get? d b!"/DecodeParms" with
      | none => decodeLoop s (List.replicate filters.length none) 0 filters none
      | some (.dict p) => decodeLoop s [some (.dict p)] 0 filters none
      | some (.list l) => decodeLoop s (l.map some) 0 filters none
      | some _ => .error .outside

/-- filters.py:74-91, the loop of `encode_stream`. The `except` branches are unreachable for bytes. -/
def encodeLoop [Zlib] : List Obj → Bytes → Bytes
  | [], res => res
  | f :: fs, res =>
    match f with
    | .str f =>
      if f = b!"/FlateDecode" then encodeLoop fs (Zlib.compress res)
      else if f = b!"/ASCIIHexDecode" then encodeLoop fs (asciihex res)
      else if f = b!"/ASCII85Decode" then encodeLoop fs (a85encode res)
      else errUnsupported
    | _ => errUnsupported

/-- filters.py:66-92 `encode_stream`. -/
def encodeStream [Zlib] (s : Bytes) (d : Dict) : Py Bytes :=
  match Dict.get? d b!"/Filter" with
  | none => .ok s
  | some (.str f) => .ok (encodeLoop [.str f] s)
  | some (.list l) => .ok (encodeLoop l s)
  | some _ => .error .outside

/-- filters.py:112-117 `ascii_hexdump_printable`. -/
def asciiHexdumpPrintable (c : UInt8) : UInt8 := if 0x20 ≤ c ∧ c ≤ 0x7e then c else 0x2e

end Pdf
