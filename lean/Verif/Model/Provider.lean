/-
Access to file bytes: data providers, hexdump, revision cut.
-/
import Verif.Model.Objects

namespace Pdf

/-- The closures built by `bdata_provider` (filestruct.py:14-56, both modes), `bdata_dummy`
(filestruct.py:59-71) and `merge_fdata` (docstruct.py:523-544), by what they capture. -/
inductive Provider
  | single (bdata : Bytes)
  | continuous (file : Bytes)
  | dummy (bdata : Bytes)
  | merged (fdata : Provider) (index : Nat) (bdata : Bytes)
  deriving DecidableEq, Repr

/-- What a provider answers: the buffer, the index into the buffer, the offset from the beginning
of the file to the buffer, the number of readable bytes. -/
abbrev Answer := Bytes × Int × Int × Int

/-- `file_obj.read(n)` at position `i`: everything up to the end when `n` is negative. -/
def fileRead (file : Bytes) (i : Nat) (n : Int) : Bytes :=
  if n < 0 then file.drop i else (file.drop i).take n.toNat

/-- A request `fdata(start_pos, length)` with an integer `start_pos`. -/
def Provider.read : Provider → Int → Int → Py Answer
  | .single bdata, start, length =>                     -- filestruct.py:34-39
    if bdata.length = 0 then .error .zeroDivision
    else
      let i := (start + bdata.length) % (bdata.length : Int)
      let nbRead := if length = -1 then bdata.length - i else min (bdata.length - i) length
      .ok (bdata, i, 0, nbRead)
  | .continuous file, start, length =>                  -- filestruct.py:44-55
    if file.length = 0 then .error .zeroDivision
    else
      let i := (start + file.length) % (file.length : Int)
      let nbRead := if length = -1 then file.length - i else min (file.length - i) length
      .ok (fileRead file i.toNat nbRead, i, 0, nbRead)
  | .dummy bdata, start, length =>                      -- filestruct.py:62-70
    if start = -1 ∧ length = 0 then .error .outside     -- answers (None, None, None, size)
    else
      let length := if length = -1 then bdata.length - start else length
      let i := if start = -1 then bdata.length - length else start
      .ok (bdata, i, 0, min (bdata.length - start) length)
  | .merged fdata index bdata, start, length =>         -- docstruct.py:530-543
    if start > index then
      let start := start - index
      let length := if length = -1 then bdata.length - start else length
      let i := if start = -1 then bdata.length - length else start
      .ok (bdata, i, 0, min (bdata.length - start) length)
    else fdata.read start length

/-- filestruct.py:74-77 `bdata_length`: the request `fdata(None, -1)`. -/
def Provider.size : Provider → Py Nat
  | .single bdata => .ok bdata.length                   -- filestruct.py:32-33
  | .continuous file => .ok file.length                 -- filestruct.py:46-47
  | .dummy _ => .error .typeError                       -- filestruct.py:65, `int - None`
  | .merged _ index bdata => .ok (index + bdata.length) -- docstruct.py:526-529

/-- filestruct.py:80-83 `bdata_all`. -/
def Provider.all (p : Provider) : Py Bytes := do
  let (b, _, _, _) ← p.read 0 (-1)
  return b

/-- The loop of `eof_cut` (filestruct.py:385-388) on `rest = bdata[i:start+n]`. -/
def skipEol : Nat → Bytes → Nat
  | i, [] => i
  | i, c :: rest => if isEol c then skipEol (i + 1) rest else i

/-- filestruct.py:381-389 `eof_cut`, for a position inside the file. -/
def eofCut (eofIndex : Nat) (fdata : Provider) : Py Nat := do
  let sz ← fdata.size
  let (bdata, start, _, n) ← fdata.read eofIndex ((sz : Int) - eofIndex)
  let i := start.toNat + 5
  return skipEol i (slice bdata i (start.toNat + n.toNat))

/-- A lower case hexadecimal digit, as printed by `bytes.hex`. -/
def lowHexDigit (n : Nat) : UInt8 := if n < 10 then UInt8.ofNat (48 + n) else UInt8.ofNat (87 + n)

/-- `bytes.hex(l, ' ')`. -/
def hexSep : Bytes → Bytes
  | [] => []
  | [c] => [lowHexDigit (c.toNat / 16), lowHexDigit (c.toNat % 16)]
  | c :: c' :: l =>
    lowHexDigit (c.toNat / 16) :: lowHexDigit (c.toNat % 16) :: 32 :: hexSep (c' :: l)

/-- `f'{s:{w}}'` for a string: left aligned, padded with spaces. -/
def padRight (w : Nat) (s : Bytes) : Bytes := s ++ List.replicate (w - s.length) 32

/-- One line of `hexdump` (filestruct.py:100-103), labelled `i`. -/
def hexdumpLine (i : Nat) (l : Bytes) : Bytes :=
  natPad 10 i ++ b!"  " ++ padRight 29 (hexSep l) ++ b!"  |" ++ l.map asciiHexdumpPrintable ++ b!"|\n"

/-- The loop of `hexdump` (filestruct.py:99-104); `fuel` is at least the number of lines. -/
def hexdumpLoop (buf : Bytes) (stop : Nat) : Nat → Nat → Bytes
  | 0, _ => []
  | fuel + 1, i =>
    if i < stop then hexdumpLine i (slice buf i (i + 10)) ++ hexdumpLoop buf stop fuel (i + 10)
    else []

/-- filestruct.py:86-105 `hexdump`, for non-negative bounds. -/
def hexdump (bdata : Provider) (start stop : Option Nat) : Py Bytes := do
  let sz ← bdata.size
  let start := start.getD 0
  let stop := match stop with
    | none => sz
    | some s => if s > sz then sz else s
  let length : Int := stop - start
  let idx := start / 10 * 10
  let (buf, d0, i0, sz0) ← bdata.read idx (length + (start - idx))
  let i := (d0 + i0).toNat
  return hexdumpLoop buf (d0 + i0 + sz0).toNat ((d0 + i0 + sz0).toNat + 1) i

end Pdf
