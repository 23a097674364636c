/-
Model of pdfsyntax/objects.py: tokenizer, object parser, serializer, reference walks.
-/
import Verif.Model.Filters

namespace Pdf

/-- objects.py:9 `EOL`. -/
def isEol (c : UInt8) : Bool := c == 13 || c == 10

/-- objects.py:10 `SPACE`: EOL, NUL, tab, form feed, space. -/
def isSpace (c : UInt8) : Bool := isEol c || c == 0 || c == 9 || c == 12 || c == 32

/-- objects.py:11 `DELIMITERS`: `<>[]/(){}%`. -/
def isDelim (c : UInt8) : Bool :=
  c == 60 || c == 62 || c == 91 || c == 93 || c == 47 || c == 40 || c == 41 || c == 123 ||
  c == 125 || c == 37

/-- `single in (SPACE + DELIMITERS)`. -/
def isBreak (c : UInt8) : Bool := isSpace c || isDelim c

/-- objects.py:94 `b"+-.0123456789"`. -/
def isNumStart (c : UInt8) : Bool := c == 43 || c == 45 || c == 46 || isDigit c

/-- objects.py:96 ASCII letters. -/
def isAlpha (c : UInt8) : Bool := (97 ≤ c && c ≤ 122) || (65 ≤ c && c ≤ 90)

/-- objects.py:50-63 `next_line`, on `rest = bdata[cursor:]`: skip EOL characters, ... -/
def nextLineStart : Nat → Bytes → Option (Nat × Bytes)
  | _, [] => none
  | i, c :: rest => if isEol c then nextLineStart (i + 1) rest else some (i, c :: rest)

/-- ... then find the next EOL character. -/
def nextLineEnd : Nat → Bytes → Option Nat
  | _, [] => none
  | j, c :: rest => if isEol c then some j else nextLineEnd (j + 1) rest

/-- objects.py:50-63 `next_line`; `none` is `(None, None)`. -/
def nextLine (bdata : Bytes) (start : Nat) : Option (Nat × Nat) :=
  match nextLineStart start (bdata.drop start) with
  | none => none
  | some (i, rest) => (nextLineEnd i rest).map fun j => (i, j)

/-- Token types returned by `next_token` (Python's `None` is `Option.none`). -/
inductive TokT
  | dict | array | name | stream | string | true | false | keyword | integer | real | comment
  deriving DecidableEq, Repr

/-- The `search` variable of `next_token`. -/
inductive Search
  | tbd | dict | name | comment | lstring | hstring | keyword | value | stream | array
  deriving DecidableEq, Repr

/-- Result of `next_token`: start, end, type. -/
abbrev Tok := Nat × Nat × Option TokT

/-- Local variables of `next_token`: search, nested, text_in_array, h, i (objects.py:68-71). -/
structure TokSt where
  search : Search
  nested : Nat
  inText : Bool
  h : Nat
  i : Nat
  deriving DecidableEq, Repr

/-- Outcome of one iteration: return, or go on with the next character, or skip one more character
(the branches which execute an extra `i += 1`). -/
inductive TokOut
  | ret (t : Tok)
  | next (st : TokSt)
  | next2 (st : TokSt)

/-- objects.py:73-171, one iteration of the loop of `next_token` at index `st.i`, where
`text[i:] = c :: rest`. -/
def tokStep (text : Bytes) (st : TokSt) (c : UInt8) (rest : Bytes) : TokOut :=
  let i := st.i
  let cs := c :: rest
  match st.search with
  | .tbd =>
    let go (s : Search) : TokOut := .next { st with search := s, h := i, i := i + 1 }
    if c = 93 then .ret (st.h, i, none)
    else if startsWith b!">>" cs then .ret (st.h, i + 1, none)
    else if startsWith b!"<<" cs then go .dict
    else if c = 91 then go .array
    else if c = 47 then go .name
    else if startsWith b!"stream" cs then go .stream
    else if isNumStart c then go .value
    else if isAlpha c then go .keyword
    else if c = 40 then go .lstring
    else if c = 60 then go .hstring
    else if c = 37 then go .comment
    else go .tbd
  | .dict =>
    if startsWith b!"<<" cs then .next2 { st with nested := st.nested + 1, i := i + 2 }
    else if startsWith b!">>" cs then
      if st.nested - 1 = 0 then .ret (st.h, i + 2, some .dict)
      else .next2 { st with nested := st.nested - 1, i := i + 2 }
    else .next { st with i := i + 1 }
  | .name =>
    if isBreak c then .ret (st.h, i, some .name) else .next { st with i := i + 1 }
  | .comment =>
    if isEol c then .ret (st.h, i, some .comment) else .next { st with i := i + 1 }
  | .lstring =>
    if startsWith b!"\\(" cs || startsWith b!"\\)" cs then .next2 { st with i := i + 2 }
    else if c = 40 then .next { st with nested := st.nested + 1, i := i + 1 }
    else if c = 41 then
      if st.nested - 1 = 0 then .ret (st.h, i + 1, some .string)
      else .next { st with nested := st.nested - 1, i := i + 1 }
    else .next { st with i := i + 1 }
  | .hstring =>
    if startsWith b!"\\<" cs || startsWith b!"\\>" cs then .next2 { st with i := i + 2 }
    else if c = 62 then .ret (st.h, i + 1, some .string)
    else .next { st with i := i + 1 }
  | .keyword =>
    if isBreak c then
      if slice text st.h i = b!"true" then .ret (st.h, i, some .true)
      else if slice text st.h i = b!"false" then .ret (st.h, i, some .false)
      else .ret (st.h, i, some .keyword)
    else .next { st with i := i + 1 }
  | .value =>
    if isBreak c then
      if (slice text st.h i).contains 46 then .ret (st.h, i, some .real)
      else .ret (st.h, i, some .integer)
    else .next { st with i := i + 1 }
  | .stream =>
    if startsWith b!"\r\nendstream" cs then .ret (st.h, i + 11, some .stream)
    else if startsWith b!"\nendstream" cs then .ret (st.h, i + 10, some .stream)
    else if startsWith b!"\rendstream" cs then .ret (st.h, i + 10, some .stream)
    else if startsWith b!"endstream" cs then .ret (st.h, i + 9, some .stream)
    else .next { st with i := i + 1 }
  | .array =>
    if c = 40 then .next { st with inText := true, i := i + 1 }
    else if c = 41 then .next { st with inText := false, i := i + 1 }
    else if !st.inText && c = 91 then .next { st with nested := st.nested + 1, i := i + 1 }
    else if !st.inText && c = 93 then
      if st.nested - 1 = 0 then .ret (st.h, i + 1, some .array)
      else .next { st with nested := st.nested - 1, i := i + 1 }
    else .next { st with i := i + 1 }

/-- objects.py:72-172, the loop of `next_token` on `rest = text[i:]`. -/
def tokLoop (text : Bytes) : TokSt → Bytes → Tok
  | st, [] => (st.h, st.i, none)
  | st, c :: rest =>
    match tokStep text st c rest with
    | .ret t => t
    | .next st' => tokLoop text st' rest
    | .next2 st' =>
      match rest with
      | [] => (st'.h, st'.i, none)
      | _ :: rest' => tokLoop text st' rest'

/-- objects.py:66-172 `next_token`. -/
def nextToken (text : Bytes) (i : Nat) : Tok :=
  tokLoop text { search := .tbd, nested := 1, inText := false, h := i, i := i } (text.drop i)

/-- The largest object number a Python `complex` holds exactly. -/
def maxExact : Nat := 9007199254740992

/-- `complex(0, tokens[i])` in objects.py:182. -/
def complexOf : Obj → Py Obj
  | .int n => if n.natAbs ≤ maxExact then .ok (.ref 0 n) else .error .outside
  | .bool b => .ok (.ref 0 (if b then 1 else 0))
  | .real neg ip frac =>
    if frac = [] then .ok (.ref 0 (if neg then -(ip : Int) else ip)) else .error .outside
  | .ref g n => .ok (.ref (-n) g)
  | _ => .error .typeError

/-- objects.py:175-187 `replace_ref`. -/
def replaceRef : List Obj → Py (List Obj)
  | a :: b :: c :: rest =>
    if c = .str b!"R" then do
      let r ← complexOf a
      let l ← replaceRef rest
      .ok (r :: l)
    else do
      let l ← replaceRef (b :: c :: rest)
      .ok (a :: l)
  | l => .ok l

/-- Drop trailing zeros. -/
def trimZeros (s : Bytes) : Bytes := (s.reverse.dropWhile (· = 48)).reverse

/-- The decimals the model covers (see DESIGN.md): fraction digits without trailing zero, at most 15
digits in total, not below 1e-4. For these `str(float(x))` is the canonical decimal form of `x`. -/
def realOk (ip : Nat) (frac : Bytes) : Bool :=
  frac.all isDigit && frac.getLast? != some 48 &&
  (natDec ip ++ frac).length ≤ 15 &&
  (ip != 0 || frac == [] || (frac.take 4).any (· != 48))

/-- Sign of a numeric literal, and the rest. -/
def signSplit : Bytes → Bool × Bytes
  | [] => (false, [])
  | c :: r => if c = 45 then (true, r) else if c = 43 then (false, r) else (false, c :: r)

/-- `float(text)` for plain decimals. Text with an exponent or underscore is outside the model,
as are decimals that fail `realOk`; anything else raises ValueError. -/
def pyFloat (s : Bytes) : Py Obj :=
  let ns := signSplit (stripRight (stripLeft s))
  let neg := ns.1
  let s := ns.2
  let ipd := s.takeWhile isDigit
  let r := s.drop ipd.length
  match r with
  | 46 :: r =>
    if r.all isDigit && (ipd != [] || r != []) then
      let ip := (digitsVal 0 ipd).getD 0
      let frac := trimZeros r
      if realOk ip frac then .ok (.real neg ip frac) else .error .outside
    else if (ipd ++ r).any fun c => c == 69 || c == 101 || c == 95 then .error .outside
    else .error .valueError
  | r =>
    if (ipd ++ r).any fun c => c == 69 || c == 101 || c == 95 then .error .outside
    else .error .valueError

/-- `text.decode('ascii')` / `s.encode('ascii')`. -/
def isAscii (s : Bytes) : Bool := s.all (· < 128)

/-- objects.py:190-203 `dedicated_type`. -/
def dedicatedType (text : Bytes) : Option TokT → Py Obj
  | some .integer => (orRaise .valueError (pyInt text)).map .int
  | some .real => pyFloat text
  | some .true => .ok (.bool true)
  | some .false => .ok (.bool false)
  | some .keyword | some .name => if isAscii text then .ok (.str text) else .error .unicodeError
  | _ => .ok (.bytes text)

/-- `res[key] = val` in objects.py:241: keys that are lists, dicts or Streams are unhashable;
other non-string keys are outside the model. -/
def setKey (d : Dict) (key val : Obj) : Py Dict :=
  match key with
  | .str k => .ok (Dict.set d k val)
  | .list _ | .dict _ | .stream _ _ _ => .error .typeError
  | _ => .error .outside

/-- objects.py:232-243 on the *reversed* `res_array`: values and keys alternate from the end. -/
def pairUp (d : Dict) : List Obj → Py Dict
  | val :: key :: rest => do
    let d' ← setKey d key val
    pairUp d' rest
  | _ => .ok d

/-- objects.py:259-282: strip the `stream` / `endstream` markers of a stream token;
`none` is the `None` returned when a marker is missing. -/
def streamContent (obj : Bytes) : Option Bytes :=
  let b := if startsWith b!"stream\r\n" obj then some 8
    else if startsWith b!"stream\n" obj then some 7 else none
  let e := if lastN obj 11 = b!"\r\nendstream" then some 11
    else if lastN obj 10 = b!"\nendstream" then some 10
    else if lastN obj 10 = b!"\rendstream" then some 10
    else if lastN obj 9 = b!"endstream" then some 9 else none
  match b, e with
  | some b, some e => some (sliceNeg obj b e)
  | _, _ => none

mutual
/-- objects.py:206-286 `parse_obj`, with fuel (see `parseObj`). A stream whose marker is not followed
by an end of line (so that `parse_obj` returns `None` for its content) is outside the model. -/
def parseObjF [Zlib] : Nat → Bytes → Nat → Py Obj
  | 0, _, _ => .error .nonterm
  | fuel + 1, text, start =>
    match nextToken text start with
    | (h1, j1, some .dict) =>
      match nextToken text j1 with
      | (h2, j2, some .stream) =>
        match parseObjF fuel (slice text h1 j1) 0 with
        | .error e => .error e
        | .ok (.dict def_) =>
          match streamContent (slice text h2 j2) with
          | none => .error .outside
          | some enc =>
            match decodeStream enc def_ with
            | .error e => .error e
            | .ok content => .ok (.stream def_ content enc)
        | .ok _ => .error .outside
      | _ =>
        match dictItemsF fuel text (start + 2) j1 with
        | .error e => .error e
        | .ok items =>
          match replaceRef items with
          | .error e => .error e
          | .ok items => (pairUp [] items.reverse).map .dict
    | (_, j1, some .array) =>
      match arrayItemsF fuel text (start + 1) j1 with
      | .error e => .error e
      | .ok items => (replaceRef items).map .list
    | (h1, j1, some .stream) =>
      .ok (match streamContent (slice text h1 j1) with
        | none => .null
        | some s => .bytes s)
    | (_, _, some .comment) => .ok (.str [])
    | (h1, j1, t1) => dedicatedType (slice text h1 j1) t1
  termination_by structural fuel => fuel

/-- objects.py:222-231, the item loop of a dictionary. A token that does not advance is met again
forever. -/
def dictItemsF [Zlib] : Nat → Bytes → Nat → Nat → Py (List Obj)
  | 0, _, _, _ => .error .nonterm
  | fuel + 1, text, i, j1 =>
    if i < j1 - 1 then
      match nextToken text i with
      | (_, i', none) => if i' ≤ i then .error .nonterm else dictItemsF fuel text i' j1
      | (_, i', some .comment) => dictItemsF fuel text i' j1
      | (h, i', some t) =>
        if i' < j1 then
          match (if t = .dict ∨ t = .array then parseObjF fuel (slice text h i') 0
                 else dedicatedType (slice text h i') (some t)) with
          | .error e => .error e
          | .ok obj =>
            match dictItemsF fuel text i' j1 with
            | .error e => .error e
            | .ok l => .ok (obj :: l)
        else dictItemsF fuel text i' j1
    else .ok []
  termination_by structural fuel => fuel

/-- objects.py:247-255, the item loop of an array. -/
def arrayItemsF [Zlib] : Nat → Bytes → Nat → Nat → Py (List Obj)
  | 0, _, _, _ => .error .nonterm
  | fuel + 1, text, i, j1 =>
    if i < j1 - 1 then
      match nextToken text i with
      | (_, i', none) => if i' ≤ i then .error .nonterm else arrayItemsF fuel text i' j1
      | (_, i', some .comment) => arrayItemsF fuel text i' j1
      | (h, i', some t) =>
        match (if t = .dict ∨ t = .array then parseObjF fuel (slice text h i') 0
               else dedicatedType (slice text h i') (some t)) with
        | .error e => .error e
        | .ok obj =>
          match arrayItemsF fuel text i' j1 with
          | .error e => .error e
          | .ok l => .ok (obj :: l)
    else .ok []
  termination_by structural fuel => fuel
end

/-- Fuel that is enough for every text (theorem `parseObjF_stable`). -/
def parseFuel (text : Bytes) : Nat := 2 * text.length + 4

/-- objects.py:206-286 `parse_obj`. -/
def parseObj [Zlib] (text : Bytes) (start : Nat) : Py Obj := parseObjF (parseFuel text) text start

/-- `str(x)` of a float. -/
def realStr (neg : Bool) (ip : Nat) (frac : Bytes) : Bytes :=
  (if neg then [45] else []) ++ natDec ip ++ [46] ++ (if frac = [] then [48] else frac)

/-- objects.py:441-460 `to_str`. Containers and `None` have no `encode` attribute. -/
def toStr : Obj → Py Bytes
  | .bool b => .ok (if b then b!"true" else b!"false")
  | .int n => .ok (intDec n)
  | .real neg ip frac => if realOk ip frac then .ok (realStr neg ip frac) else .error .outside
  | .str s => if isAscii s then .ok s else .error .unicodeError
  | .ref g n => .ok (intDec n ++ b!" " ++ intDec g ++ b!" R")
  | .bytes s => .ok s
  | _ => .error .attributeError

mutual
/-- objects.py:463-497 `serialize`. -/
def serialize : Nat → Obj → Py Bytes
  | depth, .dict d => do
    let body ← serializeEntries depth d
    .ok (b!"<< " ++ body ++ List.replicate depth 32 ++ b!">>")
  | depth, .stream d _ encoded => do
    let body ← serializeEntries depth d
    .ok (b!"<< " ++ body ++ List.replicate depth 32 ++ b!">>" ++
      (if encoded = [] then [] else b!"\nstream\n" ++ encoded ++ b!"\nendstream"))
  | _, .list l => do
    let body ← serializeItems l
    .ok (b!"[ " ++ body ++ b!"]")
  | _, o => toStr o
/-- objects.py:473-480, the loop over the keys. -/
def serializeEntries : Nat → List (Bytes × Obj) → Py Bytes
  | _, [] => .ok []
  | depth, (k, v) :: d => do
    let value ← serialize (depth + 1) v
    let name ← toStr (.str k)
    let rest ← serializeEntries depth d
    .ok (List.replicate depth 32 ++ name ++ b!" " ++ value ++ b!" " ++ rest)
/-- objects.py:490-493, the loop over the items. -/
def serializeItems : List Obj → Py Bytes
  | [] => .ok []
  | o :: l => do
    let value ← serialize 0 o
    let rest ← serializeItems l
    .ok (value ++ b!" " ++ rest)
end

/-- objects.py:32-39 `update_internal_stream_length`: the returned length and the updated entries
(`type(...) == int` excludes booleans). -/
def updateStreamLength (entries : Dict) (encoded : Bytes) : Dict × Nat :=
  let length := encoded.length + 1
  match Dict.get? entries b!"/Length" with
  | some (.int _) => (Dict.set entries b!"/Length" (.int length), length)
  | _ => (entries, length)

/-- objects.py:42-47 `forge_stream`. -/
def forgeStream [Zlib] (entries : Dict) (content : Bytes) : Py (Obj × Nat) := do
  let encoded ← encodeStream content entries
  let (entries', length) := updateStreamLength entries encoded
  .ok (.stream entries' content encoded, length)

/-- An indirect reference `(gen, num)`. -/
abbrev Ref := Int × Int

/-- The `mapping` argument of `deep_ref_retarget`, a dict from references to references. -/
abbrev RefMap := List (Ref × Ref)

mutual
/-- objects.py:500-511 `deep_ref_retarget`. Streams are returned unchanged by the code. -/
def deepRefRetarget (m : RefMap) : Obj → Obj
  | .ref g n =>
    match List.lookup (g, n) m with
    | some (g', n') => .ref g' n'
    | none => .ref g n
  | .dict d => .dict (deepRefRetargetEntries m d)
  | .list l => .list (deepRefRetargetItems m l)
  | o => o
def deepRefRetargetEntries (m : RefMap) : List (Bytes × Obj) → List (Bytes × Obj)
  | [] => []
  | (k, v) :: d => (k, deepRefRetarget m v) :: deepRefRetargetEntries m d
def deepRefRetargetItems (m : RefMap) : List Obj → List Obj
  | [] => []
  | o :: l => deepRefRetarget m o :: deepRefRetargetItems m l
end

/-- `set.add`. -/
def refAdd (l : List Ref) (r : Ref) : List Ref := if r ∈ l then l else l ++ [r]

mutual
/-- objects.py:514-528 `deep_ref_detect(obj, l)`: the updated set `l`, in insertion order. -/
def deepRefCollect : List Ref → Obj → List Ref
  | l, .ref g n => refAdd l (g, n)
  | l, .stream d _ _ => deepRefCollectEntries l d
  | l, .dict d => deepRefCollectEntries l d
  | l, .list os => deepRefCollectItems l os
  | l, _ => l
def deepRefCollectEntries : List Ref → List (Bytes × Obj) → List Ref
  | l, [] => l
  | l, (_, v) :: d => deepRefCollectEntries (deepRefCollect l v) d
def deepRefCollectItems : List Ref → List Obj → List Ref
  | l, [] => l
  | l, o :: os => deepRefCollectItems (deepRefCollect l o) os
end

/-- objects.py:514-528 `deep_ref_detect(obj)`: the result is `None` for a bare reference (the value of
`set.add`). -/
def deepRefDetect (o : Obj) : Option (List Ref) :=
  match o with
  | .ref _ _ => none
  | o => some (deepRefCollect [] o)

end Pdf
