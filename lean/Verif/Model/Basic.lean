/-
Basic vocabulary of the model: bytes, Python exceptions as values, Python slices,
integers to and from decimal text.

No pdfsyntax code is modelled here, only the Python built-ins it calls.
-/
import Lean

namespace Pdf

/-- Python `bytes`. -/
abbrev Bytes := List UInt8

/-- Python exceptions, as values.
`nonterm` is not an exception: it is the model's value for a computation that ran out of fuel.
`outside` marks behaviour the model does not cover (see DESIGN.md). -/
inductive PyErr
  | typeError | valueError | indexError | keyError | attributeError | overflowError
  | zeroDivision | unboundLocal | unicodeError | recursionError
  | nonterm
  | outside
  deriving DecidableEq, Repr

deriving instance DecidableEq for Except

/-- A Python computation that may raise. -/
abbrev Py (α : Type) := Except PyErr α

/-- `b!"abc"` is the Python literal `b'abc'`, as an explicit list of bytes. -/
syntax:max "b!" str : term

open Lean in
macro_rules
  | `(b! $s:str) => do
    let elems ← s.getString.toUTF8.toList.toArray.mapM fun (c : UInt8) =>
      `(term| $(Syntax.mkNatLit c.toNat))
    `(([$elems,*] : List UInt8))

/-- `l[a:b]` for non-negative bounds. -/
def slice {α : Type} (l : List α) (a b : Nat) : List α := (l.take b).drop a

/-- `l[a:-k]` for `k > 0`: drop the last `k` items, then the first `a`. -/
def sliceNeg {α : Type} (l : List α) (a k : Nat) : List α := (l.take (l.length - k)).drop a

/-- `l[-k:]`: the last `k` items (all of them when shorter). -/
def lastN {α : Type} (l : List α) (k : Nat) : List α := l.drop (l.length - k)

/-- `text[i:i+len(p)] == p` where `rest = text[i:]`. -/
def startsWith (p rest : Bytes) : Bool := p.isPrefixOf rest

/-- First index `≥ from` at which `p` occurs in `text`, scanning `rest = text[i:]`
(`bytes.find`). -/
def findAux (p : Bytes) : Nat → Bytes → Option Nat
  | i, [] => if p = [] then some i else none
  | i, c :: rest => if startsWith p (c :: rest) then some i else findAux p (i + 1) rest

/-- `text.find(p, start)`, `none` for Python's `-1`. -/
def find (text p : Bytes) (start : Nat) : Option Nat := findAux p start (text.drop start)

/-- Last index at which `p` occurs, scanning `rest = text[i:]` (`bytes.rfind`). -/
def rfindAux (p : Bytes) : Nat → Bytes → Option Nat
  | i, [] => if p = [] then some i else none
  | i, c :: rest =>
    match rfindAux p (i + 1) rest with
    | some k => some k
    | none => if startsWith p (c :: rest) then some i else none

/-- `text.rfind(p, start)`, `none` for Python's `-1`. -/
def rfind (text p : Bytes) (start : Nat) : Option Nat := rfindAux p start (text.drop start)

/-- ASCII digit `0`–`9`. -/
def isDigit (c : UInt8) : Bool := 48 ≤ c && c ≤ 57

/-- The digit character of a number below ten. -/
def digitChar (n : Nat) : UInt8 := UInt8.ofNat (48 + n)

/-- Decimal digits of `n`, most significant first; `fuel > n` is always enough. -/
def natDecAux : Nat → Nat → Bytes
  | 0, _ => []
  | fuel + 1, n => if n < 10 then [digitChar n] else natDecAux fuel (n / 10) ++ [digitChar (n % 10)]

/-- `str(n).encode('ascii')` for a non-negative `int`. -/
def natDec (n : Nat) : Bytes := natDecAux (n + 1) n

/-- `str(n).encode('ascii')` for an `int`. -/
def intDec : Int → Bytes
  | .ofNat n => natDec n
  | .negSucc n => 45 :: natDec (n + 1)

/-- `f'{n:0w}'` for a non-negative `int`. -/
def natPad (w n : Nat) : Bytes := List.replicate (w - (natDec n).length) 48 ++ natDec n

/-- White space skipped by `int(bytes)`, `bytes.strip()` and `bytes.split()`. -/
def isPySpace (c : UInt8) : Bool := c == 32 || (9 ≤ c && c ≤ 13)

def stripLeft (s : Bytes) : Bytes := s.dropWhile isPySpace
def stripRight (s : Bytes) : Bytes := (s.reverse.dropWhile isPySpace).reverse

/-- Digits, with single underscores allowed between digits (as `int()` accepts). -/
def digitsVal (acc : Nat) : Bytes → Option Nat
  | [] => some acc
  | c :: cs =>
    if isDigit c then digitsVal (acc * 10 + (c.toNat - 48)) cs
    else if c = 95 then
      match cs with
      | [] => none
      | d :: cs' => if isDigit d then digitsVal (acc * 10 + (d.toNat - 48)) cs' else none
    else none

/-- Unsigned decimal literal (must start with a digit). -/
def pyNat : Bytes → Option Nat
  | [] => none
  | c :: cs => if isDigit c then digitsVal (c.toNat - 48) cs else none

/-- `int(b)` for a `bytes` argument, base 10; `none` is `ValueError`.
Not modelled: the 4300-digit limit of recent interpreters. -/
def pyInt (s : Bytes) : Option Int :=
  match stripRight (stripLeft s) with
  | [] => none
  | c :: cs =>
    if c = 45 then (pyNat cs).map fun n => -(n : Int)
    else if c = 43 then (pyNat cs).map fun n => (n : Int)
    else (pyNat (c :: cs)).map fun n => (n : Int)

/-- ASCII white space of `str.split()`: also the separators 0x1c-0x1f. -/
def isStrSpace (c : UInt8) : Bool := isPySpace c || (28 ≤ c && c ≤ 31)

/-- Maximal runs of characters that do not satisfy `sp`; `cur` is the run being read. -/
def splitAux (sp : UInt8 → Bool) : Bytes → Bytes → List Bytes
  | cur, [] => if cur = [] then [] else [cur]
  | cur, c :: rest =>
    if sp c then
      if cur = [] then splitAux sp [] rest else cur :: splitAux sp [] rest
    else splitAux sp (cur ++ [c]) rest

/-- `bytes.split()`. -/
def pySplit (s : Bytes) : List Bytes := splitAux isPySpace [] s

/-- `str.split()` of an ASCII string. -/
def strSplit (s : Bytes) : List Bytes := splitAux isStrSpace [] s

/-- Raise `e` when an optional result is absent. -/
def orRaise {α : Type} (e : PyErr) : Option α → Py α
  | some a => .ok a
  | none => .error e

end Pdf
