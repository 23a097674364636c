/-
Model of pdfsyntax/graphics.py. Coordinates are elements of a commutative ring: the theorems are about
exact arithmetic, floating point rounding is not modelled.
-/
import Verif.Model.Objects
import Mathlib.Algebra.Field.Defs
import Mathlib.Algebra.Ring.Defs

namespace Pdf

/-- graphics.py:9-16, a transformation matrix `[a, b, c, d, e, f]`. -/
@[ext] structure Mat (R : Type) where
  (a b c d e f : R)
  deriving DecidableEq

/-- One element of a command: a number, a keyword (operator), or something else. -/
inductive Arg (R : Type)
  | num (r : R)
  | op (s : Bytes)
  | oth (o : Obj)

/-- graphics.py:39-50 `text_state`, once filled. -/
structure TextState (R : Type) where
  tm : Mat R
  tlm : Mat R
  Tc : Arg R
  Tw : Arg R
  Th : Arg R
  Tl : Arg R
  Tf : Arg R
  Tfs : Arg R
  Tmode : Arg R
  Trise : Arg R

/-- What a command acts on: the graphics state stack (the head of the list is Python's last element,
the current state; a state has the single key 'ctm') and the text state dict (`none` when empty). -/
structure GState (R : Type) where
  stack : List (Mat R)
  text : Option (TextState R)

section
variable {R : Type} [CommRing R]

/-- graphics.py:6 `IDENTITY_MATRIX`. -/
def Mat.identity : Mat R := ⟨1, 0, 0, 1, 0, 0⟩

/-- graphics.py:9-25 `multiply_matrices`. -/
def Mat.mul (m1 m2 : Mat R) : Mat R :=
  { a := m1.a * m2.a + m1.b * m2.c
    b := m1.a * m2.b + m1.b * m2.d
    c := m1.c * m2.a + m1.d * m2.c
    d := m1.c * m2.b + m1.d * m2.d
    e := m1.e * m2.a + m1.f * m2.c + m2.e
    f := m1.e * m2.b + m1.f * m2.d + m2.f }

/-- graphics.py:40-50, initial text state. -/
def TextState.init : TextState R :=
  { tm := .identity, tlm := .identity, Tc := .num 0, Tw := .num 0, Th := .num 100, Tl := .num 0,
    Tf := .oth .null, Tfs := .oth .null, Tmode := .num 0, Trise := .num 0 }

/-- `command[i]`. -/
def argAt (command : List (Arg R)) (i : Nat) : Py (Arg R) := orRaise .indexError command[i]?

/-- `command[i]` used as a number. Arithmetic on anything else is outside the model (mostly TypeError). -/
def numAt (command : List (Arg R)) (i : Nat) : Py R :=
  match command[i]? with
  | some (.num r) => .ok r
  | some _ => .error .outside
  | none => .error .indexError

/-- The six operands of `cm` and `Tm`. -/
def matAt (command : List (Arg R)) : Py (Mat R) := do
  let f ← numAt command 5
  let a ← numAt command 0
  let b ← numAt command 1
  let c ← numAt command 2
  let d ← numAt command 3
  let e ← numAt command 4
  pure ⟨a, b, c, d, e, f⟩

/-- graphics.py:80-86, operator `Td`. -/
def opTd (tx ty : R) (ts : TextState R) : TextState R :=
  let m := Mat.mul ⟨1, 0, 0, 1, tx, ty⟩ ts.tlm
  { ts with tm := m, tlm := m }

/-- graphics.py:97-98, operator `T*`. -/
def opTstar (ts : TextState R) : Py (TextState R) :=
  match ts.Tl with
  | .num l => .ok (opTd 0 (-l) ts)
  | _ => .error .outside

/-- graphics.py:51-105, `apply_command` once the two states are initialised. The recursive calls of
the code (`TD`, `T*`, `'`, `"`) are replaced by what they do; their initialisation steps do nothing. -/
def applyOp (command : List (Arg R)) (op : Bytes) (top : Mat R) (below : List (Mat R)) (ts : TextState R) :
    Py (GState R) :=
  let stack := top :: below
  let keep (ts : TextState R) : GState R := ⟨stack, some ts⟩
  if op = b!"q" then .ok ⟨top :: stack, some ts⟩
  else if op = b!"Q" then .ok ⟨below, some ts⟩
  else if op = b!"cm" then do
    let m ← matAt command
    pure ⟨m.mul top :: below, some ts⟩
  else if op = b!"Tc" then do let x ← argAt command 0; pure (keep { ts with Tc := x })
  else if op = b!"Tw" then do let x ← argAt command 0; pure (keep { ts with Tw := x })
  else if op = b!"Tz" then do let x ← argAt command 0; pure (keep { ts with Th := x })
  else if op = b!"TL" then do let x ← argAt command 0; pure (keep { ts with Tl := x })
  else if op = b!"Tf" then do
    let x ← argAt command 0
    let y ← argAt command 1
    pure (keep { ts with Tf := x, Tfs := y })
  else if op = b!"Tr" then do let x ← argAt command 0; pure (keep { ts with Tmode := x })
  else if op = b!"Ts" then do let x ← argAt command 0; pure (keep { ts with Trise := x })
  else if op = b!"BT" then .ok (keep { ts with tm := .identity, tlm := .identity })
  else if op = b!"Td" then do
    let ty ← numAt command 1
    let tx ← numAt command 0
    pure (keep (opTd tx ty ts))
  else if op = b!"TD" then do
    let ty ← numAt command 1
    let tx ← numAt command 0
    pure (keep (opTd tx ty { ts with Tl := .num (-ty) }))
  else if op = b!"Tm" then do
    let m ← matAt command
    let m := m.mul .identity
    pure (keep { ts with tm := m, tlm := m })
  else if op = b!"T*" then do let ts ← opTstar ts; pure (keep ts)
  else if op = b!"'" then do let ts ← opTstar ts; pure (keep ts)
  else if op = [34] then do
    let x ← argAt command 0
    let y ← argAt command 1
    let ts ← opTstar { ts with Tw := x, Tc := y }
    pure (keep ts)
  else .ok (keep ts)

/-- graphics.py:36-105 `apply_command`. -/
def applyCommand (command : List (Arg R)) (s : GState R) : Py (GState R) :=
  let ts := s.text.getD .init
  let (top, below) := match s.stack with
    | [] => (Mat.identity, [])
    | top :: below => (top, below)
  match command.getLast? with
  | none => .error .indexError
  | some (.op op) => applyOp command op top below ts
  | some _ => .ok ⟨top :: below, some ts⟩

/-- Executing commands one after the other (api.py:358-359). -/
def runCommands (s : GState R) : List (List (Arg R)) → Py (GState R)
  | [] => .ok s
  | c :: cs => do
    let s' ← applyCommand c s
    runCommands s' cs

end

/-- graphics.py:28-33 `trm`, text rendering matrix. -/
def trm {K : Type} [Field K] (ts : TextState K) (top : Mat K) : Py (Mat K) :=
  match ts.Tfs, ts.Th, ts.Trise with
  | .num tfs, .num th, .num trise =>
    .ok ((Mat.mul ⟨tfs * th / 100, 0, 0, tfs, 0, trise⟩ ts.tm).mul top)
  | _, _, _ => .error .outside

/-- graphics.py:119, 125: is the token an operator (a `str` that is not a name)? -/
def isOperator : Obj → Bool
  | .str s => s.take 1 ≠ b!"/"
  | _ => false

/-- graphics.py:115-133, the loop of `parse_stream_content`, on the tokens in reverse order (`i` goes
down). -/
def splitLoop : List Obj → List Obj → List (List Obj) → List (List Obj)
  | [], current, ret => if current ≠ [] then current :: ret else ret
  | t :: rest, current, ret =>
    if isOperator t then
      splitLoop rest [t] (if current ≠ [] then current :: ret else ret)
    else
      let current := t :: current
      splitLoop rest current (if rest = [] then current :: ret else ret)

/-- graphics.py:113-134: tokens to commands. -/
def splitCommands (tokens : List Obj) : List (List Obj) := splitLoop tokens.reverse [] []

/-- graphics.py:108-134 `parse_stream_content`. Anything else than a list is outside the model
(`len` of a token). -/
def parseStreamContent [Zlib] (content : Bytes) : Py (List (List Obj)) := do
  match ← parseObj (b!"[" ++ content ++ b!"]") 0 with
  | .list tokens => pure (splitCommands tokens)
  | _ => .error .outside

end Pdf
