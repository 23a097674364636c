/-
Model of the text of a page: text.py:173-199, api.py:340-370. Numbers are rational (floats are not
modelled).
-/
import Verif.Model.CMap
import Verif.Model.Graphics
import Mathlib.Algebra.Field.Rat

namespace Pdf

/-- Value of decimal digits. -/
def decVal (s : Bytes) : Nat := s.foldl (fun acc c => acc * 10 + (c.toNat - 48)) 0

/-- The number that an `int` or a `float` object stands for. -/
def objRat : Obj → Option Rat
  | .int n => some n
  | .real neg ip frac =>
    let x : Rat := ip + (decVal frac : Rat) / (10 ^ frac.length : Nat)
    some (if neg then -x else x)
  | _ => none

/-- `int(x)`: truncation towards zero. -/
def ratTrunc (x : Rat) : Int := x.num.tdiv x.den

/-- docstruct.py:914-954, the two functions of a font: `dec_fun` and `char_width`. -/
structure FontFns where
  dec : Bytes → Py (Str × List Nat)
  width : Nat → Py Rat

/-- text.py:182-183, 190-191: `width += fonts[font]['char_width'](c) / 1000` for each code. -/
def addWidths (f : FontFns) (width : Rat) : List Nat → Py Rat
  | [] => .ok width
  | c :: cs => do
    let w ← f.width c
    addWidths f (width + w / 1000) cs

/-- text.py:179-183 and 187-191, a string. -/
def showString (f : FontFns) (t : Bytes) (acc : Str × Rat) : Py (Str × Rat) := do
  let (us, chars) ← f.dec t
  let width ← addWidths f acc.2 chars
  pure (acc.1 ++ us, width)

/-- `n` spaces (none if negative). -/
def spaces (n : Int) : Str := List.replicate n.toNat 32

/-- text.py:194-196: spaces for a gap of `t` (already reduced) if it is large enough. -/
def gapText (ustring : Str) (sp t : Rat) : Py Str :=
  if t ≤ -sp then
    if ratTrunc sp = 0 then .error .zeroDivision
    else .ok (ustring ++ spaces ((ratTrunc (-t)).fdiv (ratTrunc sp)))
  else .ok ustring

/-- text.py:192-197, a number between the strings of `TJ`. -/
def showGap (f : FontFns) (t : Rat) (acc : Str × Rat) : Py (Str × Rat) := do
  let sp ← f.width 32
  let us ← gapText acc.1 sp (t - sp * (1 / 5))
  pure (us, acc.2 - (t - sp * (1 / 5)) / 1000)

/-- text.py:185-197, the loop of `TJ`. Arithmetic on anything else than a number is outside the model. -/
def showItems (font : Py FontFns) (acc : Str × Rat) : List Obj → Py (Str × Rat)
  | [] => .ok acc
  | o :: rest => do
    let f ← font
    let acc ← match o with
      | .bytes t => showString f t acc
      | o => match objRat o with
        | some t => showGap f t acc
        | none => .error .outside
    showItems font acc rest

/-- `fonts[font]` for the value of `ts['Tf']`. -/
def fontAt (fonts : Bytes → Option FontFns) : Arg Rat → Py FontFns
  | .oth (.str n) => orRaise .keyError (fonts n)
  | .op n => orRaise .keyError (fonts n)
  | .oth .null => .error .keyError
  | _ => .error .outside

/-- `element[-2]`. -/
def operand (element : List Obj) : Py Obj := orRaise .indexError element.reverse[1]?

/-- text.py:173-199 `text_element_to_unicode`. A `Tj` whose operand is not a string, a `TJ` whose
operand is not an array are outside the model. -/
def elementText (fonts : Bytes → Option FontFns) (element : List Obj) (tf : Arg Rat) : Py (Str × Rat) :=
  match element.getLast? with
  | none => .error .indexError
  | some last =>
    if isKw b!"Tj" last then do
      match ← operand element with
      | .bytes t => do
        let f ← fontAt fonts tf
        showString f t ([], 0)
      | _ => .error .outside
    else if isKw b!"TJ" last then do
      match ← operand element with
      | .list l => showItems (fontAt fonts tf) ([], 0) l
      | _ => .error .outside
    else .ok ([], 0)

/-- An element of a command, as graphics.py sees it. -/
def argOf (o : Obj) : Arg Rat :=
  match objRat o with
  | some r => .num r
  | none => match o with
    | .str s => if s.take 1 = b!"/" then .oth o else .op s
    | o => .oth o

/-- api.py:369, an item of `tfs`. -/
structure Fragment where
  old : Mat Rat
  text : Str
  new : Mat Rat

/-- api.py:361-369: the fragment of a command that shows text, and the displacement of the text matrix. -/
def showFragment (fonts : Bytes → Option FontFns) (te : List Obj) (top : Mat Rat) (ts : TextState Rat) :
    Py (TextState Rat × Fragment) := do
  let old ← trm ts top
  let (uc, displacement) ← elementText fonts te ts.Tf
  match ts.Tfs, ts.Tc, ts.Tw, ts.Th with
  | .num tfs, .num tc, .num tw, .num th => do
    let tx := (displacement * tfs + tc + tw) * th / 100
    let ts := { ts with tm := Mat.mul ⟨1, 0, 0, 1, tx, 0⟩ ts.tm }
    let new ← trm ts top
    pure (ts, ⟨old, uc, new⟩)
  | _, _, _, _ => .error .outside

/-- api.py:355-369, one command. The test of `te[-1]` against a string raises if `te[-1]` is not a
string. -/
def fragmentStep (fonts : Bytes → Option FontFns) (s : GState Rat) (te : List Obj) :
    Py (GState Rat × List Fragment) :=
  match te.getLast? with
  | none => .error .indexError
  | some (.str op) => do
    let s ← applyCommand (te.map argOf) s
    if op = b!"TJ" ∨ op = b!"Tj" then
      match s.stack, s.text with
      | top :: _, some ts => do
        let (ts, fr) ← showFragment fonts te top ts
        pure (⟨s.stack, some ts⟩, [fr])
      | _, _ => .error .outside
    else pure (s, [])
  | some _ => .error .typeError

/-- api.py:355-369, the loop. -/
def fragmentLoop (fonts : Bytes → Option FontFns) (s : GState Rat) : List (List Obj) → Py (List Fragment)
  | [] => .ok []
  | te :: rest => do
    let (s, fr) ← fragmentStep fonts s te
    let frs ← fragmentLoop fonts s rest
    pure (fr ++ frs)

/-- api.py:351-353: `c['stream']`. -/
def streamOf : Obj → Py Bytes
  | .stream _ s _ => .ok s
  | .dict _ => .error .keyError
  | _ => .error .typeError

/-- api.py:340-370 `build_text_fragments`, with the fonts of the page (`f[0]`). -/
def buildTextFragments [Zlib] (contents : List Obj) (fonts : Bytes → Option FontFns) : Py (List Fragment) := do
  let cs ← contents.mapM streamOf
  let t ← parseStreamContent cs.flatten
  fragmentLoop fonts ⟨[], none⟩ t

end Pdf
