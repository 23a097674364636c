/-
Which objects are expected to survive serialisation, and Python equality.
-/
import Verif.Spec.Token

namespace Pdf.Spec

/-- A regular character (neither white space nor delimiter), ASCII. -/
def regular (c : UInt8) : Bool := c ∉ white && c ∉ delims && c < 128

/-- `/` followed by regular characters. -/
def isName (s : Bytes) : Bool :=
  match s with
  | c :: body => c = 47 && body.all regular
  | [] => false

/-- A bare word (`null`, operators...): a letter followed by regular characters. The words with another
meaning (`true`, `false`, `R`, anything starting with `stream`) are excluded. -/
def isKeyword (s : Bytes) : Bool :=
  match s with
  | c :: body =>
    c ∈ letters && body.all regular && s ≠ b!"true" && s ≠ b!"false" && s ≠ b!"R" &&
    !(b!"stream").isPrefixOf s
  | [] => false

/-- The inside of a literal string, read per ISO 32000 7.3.4.2 at parenthesis depth `d`: a backslash
escapes the next byte, unescaped parentheses balance.
Restriction (see `C01_backslash_counterexample`): an escaped backslash is not followed by
a parenthesis nor by the end of the string. -/
def litBody : Nat → Bytes → Bool
  | d, [] => d = 0
  | _, [92] => false
  | d, 92 :: c :: rest =>
    (c ≠ 92 || match rest with | [] => false | x :: _ => x ≠ 40 && x ≠ 41) && litBody d rest
  | d, c :: rest =>
    if c = 40 then litBody (d + 1) rest
    else if c = 41 then d ≠ 0 && litBody (d - 1) rest
    else litBody d rest

/-- No `<<` and no `>>` inside (see `C01_angle_counterexample`). -/
def noDoubleAngle : Bytes → Bool
  | a :: b :: rest => !(a = 60 && b = 60) && !(a = 62 && b = 62) && noDoubleAngle (b :: rest)
  | _ => true

/-- No square bracket after a `)` unless a later `(` precedes it: `open_` tells that the last
parenthesis read was `(` (see `C01_bracket_counterexample`). -/
def bracketSafe : Bool → Bytes → Bool
  | _, [] => true
  | open_, c :: rest =>
    if c = 40 then bracketSafe true rest
    else if c = 41 then bracketSafe false rest
    else (open_ || (c ≠ 91 && c ≠ 93)) && bracketSafe open_ rest

/-- A literal string `( ... )`. -/
def isLiteral (s : Bytes) : Bool :=
  match s with
  | 40 :: rest => rest.getLast? = some 41 && litBody 0 rest.dropLast
  | _ => false

/-- A hexadecimal string `< ... >`: hexadecimal digits and white space. -/
def isHexString (s : Bytes) : Bool :=
  match s with
  | 60 :: rest =>
    rest.getLast? = some 62 && rest.dropLast.all (fun c => c ∈ b!"0123456789ABCDEFabcdef" || c ∈ white)
  | _ => false

/-- Decimals covered: `ip.frac` with `frac` digits not ending in zero, at most fifteen digits in all,
zero or at least 0.0001. -/
def isDecimal (ip : Nat) (frac : Bytes) : Bool :=
  frac.all (· ∈ b!"0123456789") && frac.getLast? ≠ some 48 &&
  frac.length < 15 && ip < 10 ^ (15 - frac.length) &&
  (ip ≠ 0 || frac = [] || (frac.take 4).any (· ≠ 48))

mutual
/-- Well-formed objects, in a context: `inD` (resp. `inA`) tells that a dictionary (resp. an array)
encloses the object. -/
def WF (inD inA : Bool) : Obj → Bool
  | .bool _ => true
  | .int _ => true
  | .real _ ip frac => isDecimal ip frac
  | .str s => isName s || isKeyword s
  | .bytes s =>
    (isLiteral s && (!inD || noDoubleAngle s) && (!inA || bracketSafe false s)) || isHexString s
  | .ref g n => g = 0 && n.natAbs ≤ 9007199254740992
  | .list l => WFItems inD true l
  | .dict d => WFEntries true inA d && (d.map Prod.fst).Nodup
  | _ => false
def WFItems (inD inA : Bool) : List Obj → Bool
  | [] => true
  | o :: l => WF inD inA o && WFItems inD inA l
def WFEntries (inD inA : Bool) : List (Bytes × Obj) → Bool
  | [] => true
  | (k, v) :: d => isName k && WF inD inA v && WFEntries inD inA d
end

mutual
/-- Python's `==`: arrays item by item, dictionaries as maps (entry order is irrelevant). Stricter
than Python on numbers: 1, 1.0 and True are different here. -/
def pyEq : Obj → Obj → Bool
  | .list l, .list l' => pyEqItems l l'
  | .dict d, .dict d' => d.length = d'.length && pyEqEntries d d'
  | .stream d s e, .stream d' s' e' => d.length = d'.length && pyEqEntries d d' && s = s' && e = e'
  | .list _, _ => false
  | .dict _, _ => false
  | .stream _ _ _, _ => false
  | a, b => a = b
def pyEqItems : List Obj → List Obj → Bool
  | [], [] => true
  | a :: l, b :: l' => pyEq a b && pyEqItems l l'
  | _, _ => false
/-- Every entry of the first dictionary is in the second with an equal value. -/
def pyEqEntries : List (Bytes × Obj) → List (Bytes × Obj) → Bool
  | [], _ => true
  | (k, v) :: d, d' =>
    (match List.lookup k d' with
     | some v' => pyEq v v'
     | none => false) && pyEqEntries d d'
end

/-- The next token of `post` is not the keyword `stream`. -/
def NoStreamNext (post : Bytes) : Prop :=
  ∀ gap rest, (∀ c ∈ gap, Skipped c) → post ≠ gap ++ b!"stream" ++ rest

end Pdf.Spec
