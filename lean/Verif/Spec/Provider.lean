/-
Independent vocabulary for the properties of data access (C49-C52): how a reader of a hex dump
recovers the bytes, and the file made of a base and appended chunks.
-/
import Verif.Model.Basic

namespace Pdf.Spec

/-- The lines of a text: pieces ended by a line feed (a last unended piece is dropped). -/
def linesAux : List UInt8 → List UInt8 → List (List UInt8)
  | _, [] => []
  | cur, c :: rest => if c = 10 then cur :: linesAux [] rest else linesAux (cur ++ [c]) rest

def lines (s : List UInt8) : List (List UInt8) := linesAux [] s

/-- Value of a hexadecimal digit, either case. -/
def hexVal (c : UInt8) : Nat :=
  if 48 ≤ c ∧ c ≤ 57 then c.toNat - 48
  else if 97 ≤ c ∧ c ≤ 102 then c.toNat - 87
  else if 65 ≤ c ∧ c ≤ 70 then c.toNat - 55
  else 0

/-- Pair up hexadecimal digits. -/
def hexPairs : List UInt8 → List UInt8
  | a :: b :: rest => UInt8.ofNat (hexVal a * 16 + hexVal b) :: hexPairs rest
  | _ => []

/-- Value of a decimal numeral. -/
def decVal (s : List UInt8) : Nat := s.foldl (fun acc c => acc * 10 + (c.toNat - 48)) 0

/-- Reading one line of a hex dump: a decimal label, two blanks, a column of 29 characters holding
space-separated hexadecimal pairs (what follows is ignored). -/
def readHexLine (l : List UInt8) : Nat × List UInt8 :=
  let label := l.takeWhile fun c => decide (48 ≤ c ∧ c ≤ 57)
  (decVal label, hexPairs (((l.drop (label.length + 2)).take 29).filter (· ≠ 32)))

/-- The part of the data a request `(start, length)` designates: `start` counts from the end when
negative, and `length = -1` asks for everything up to the end. -/
def requested (data : Bytes) (start length : Int) : Bytes :=
  let s := if start < 0 then (data.length + start).toNat else start.toNat
  if length = -1 then data.drop s else (data.drop s).take length.toNat

/-- A request that lies inside the data. -/
def Inside (data : Bytes) (start length : Int) : Prop :=
  -(data.length : Int) ≤ start ∧ start < data.length ∧ -1 ≤ length

/-- The file obtained by keeping the first `cut` bytes of `base` and appending chunks in order. -/
def appended (base : List UInt8) (cut : Nat) (chunks : List (List UInt8)) : List UInt8 :=
  base.take cut ++ chunks.flatten

end Pdf.Spec
