/-
Model of pdfsyntax/layout.py. Coordinates are rational numbers (floats are not
modelled).
-/
import Verif.Model.Shown

namespace Pdf

/-- layout.py:54-60, a text block. -/
structure Block where
  x : Rat
  y : Rat
  width : Rat
  scaling : Rat
  text : Str

/-- layout.py:68-71, the loop of `most_frequent`; a dict is the list of its items in insertion order. -/
def mostFrequentLoop {K : Type} (most : K) (maxOccur : Nat) : List (K × Nat) → K
  | [] => most
  | (s, n) :: rest => if n > maxOccur then mostFrequentLoop s n rest else mostFrequentLoop most maxOccur rest

/-- layout.py:64-72 `most_frequent`; `zero` is the initial value 0. -/
def mostFrequent {K : Type} (zero : K) (distrib : List (K × Nat)) : K := mostFrequentLoop zero 0 distrib

/-- `if k not in d: d[k] = 0` then `d[k] += n`. -/
def bump {K : Type} [DecidableEq K] (k : K) (n : Nat) : List (K × Nat) → List (K × Nat)
  | [] => [(k, n)]
  | (k', m) :: rest => if k' = k then (k', m + n) :: rest else (k', m) :: bump k n rest

/-- layout.py:77-83, the distribution built by `typical_font_size`. -/
def fontDistrib (blocks : List Block) : List (Rat × Nat) :=
  blocks.foldl (fun d b => bump b.scaling b.text.length d) []

/-- layout.py:75-84 `typical_font_size`. -/
def typicalFontSize (blocks : List Block) : Rat := mostFrequent 0 (fontDistrib blocks)

/-- layout.py:89-92, the loop of `minimum_x`. -/
def minimumXLoop (minX : Rat) : List Block → Rat
  | [] => minX
  | b :: rest => minimumXLoop (if minX = -1 ∨ b.x < minX then b.x else minX) rest

/-- layout.py:87-93 `minimum_x`. -/
def minimumX (blocks : List Block) : Rat := minimumXLoop (-1) blocks

/-- layout.py:52-61 `simplify_horizontal_text_elements`, one fragment. -/
def blockOf (fr : Fragment) : Block := ⟨fr.old.e, fr.old.f, fr.new.e - fr.old.e, fr.old.a, fr.text⟩

/-- Stable insertion. -/
def insertBy {α : Type} (le : α → α → Bool) (x : α) : List α → List α
  | [] => [x]
  | y :: l => if le x y then x :: y :: l else y :: insertBy le x l

/-- `list.sort` (stable), `le x y` comparing the keys. -/
def sortBy {α : Type} (le : α → α → Bool) : List α → List α
  | [] => []
  | x :: l => insertBy le x (sortBy le l)

/-- layout.py:100-105: `columns[x].append(y)`, a dict being the list of its items in insertion order. -/
def addColumn (x y : Rat) : List (Rat × List Rat) → List (Rat × List Rat)
  | [] => [(x, [y])]
  | (x', ys) :: rest => if x' = x then (x', ys ++ [y]) :: rest else (x', ys) :: addColumn x y rest

/-- layout.py:100-105, the columns of the blocks of the typical size. -/
def columnsOf (blocks : List Block) (size : Rat) : List (Rat × List Rat) :=
  (blocks.filter (fun b => b.scaling = size)).foldl (fun cols b => addColumn b.x b.y cols) []

/-- layout.py:110-116: differences of successive ordinates, in tenths. -/
def deltas : List Rat → List Rat
  | a :: b :: rest => (ratTrunc ((b - a) * 10) : Rat) / 10 :: deltas (b :: rest)
  | _ => []

/-- layout.py:106-116: the distribution of the differences. -/
def spacingDistrib (cols : List (Rat × List Rat)) : List (Rat × Nat) :=
  (cols.filter (fun c => ¬ c.2.length < 3)).foldl
    (fun d c => (deltas (sortBy (fun a b => decide (a ≤ b)) c.2)).foldl (fun d x => bump x 1 d) d) []

/-- layout.py:96-121 `typical_line_spacing`. -/
def typicalLineSpacing (blocks : List Block) (size : Rat) : Rat :=
  let tls := mostFrequent 0 (spacingDistrib (columnsOf blocks size))
  if tls ≠ 0 then tls else size

/-- layout.py:124-134 `typical_char_width`. -/
def typicalCharWidth (blocks : List Block) (size : Rat) : Rat :=
  let distrib := (blocks.filter (fun b => ¬ (b.scaling ≠ size ∨ b.text.length < 2))).map
    (fun b => b.width / (b.text.length : Rat))
  if distrib ≠ [] then distrib.sum / (distrib.length : Rat) else 0

/-- layout.py:36, 42: `(int(x) - min_x) // char_w`. -/
def column (minX charW x : Rat) : Py Int :=
  if charW = 0 then .error .zeroDivision else .ok (((ratTrunc x : Rat) - minX) / charW).floor

/-- layout.py:39-46, the items of a line after the first one; `prev` is the item before. -/
def lineLoop (minX charW : Rat) (prev : Block) (line : Str) : List Block → Py Str
  | [] => .ok line
  | b :: rest => do
    if b.x > prev.x + prev.width + 5 then
      let n ← column minX charW b.x
      lineLoop minX charW b (line ++ spaces (n - line.length) ++ b.text) rest
    else lineLoop minX charW b (line ++ b.text) rest

/-- layout.py:34-46: the text of a line whose items are sorted. -/
def lineString (minX charW : Rat) : List Block → Py Str
  | [] => .error .indexError
  | b :: rest => do
    let n ← column minX charW b.x
    lineLoop minX charW b (spaces n ++ b.text) rest

/-- layout.py:23-25: empty lines before a line at `y`. -/
def interLines (spacing prevY y : Rat) : Py Str :=
  if prevY ≠ -1 then
    if spacing = 0 then .error .zeroDivision
    else .ok (List.replicate (ratTrunc ((prevY - y - spacing / 3) / spacing)).toNat 10)
  else .ok []

/-- layout.py:29-32: does a block at `y'` belong to the line at `y`? -/
def sameLine (spacing y y' : Rat) : Bool := !decide (spacing * (9 / 10) < |y - y'|)

/-- layout.py:18-49, the loop of `basic_spatial_layout`; the number bounds the iterations. -/
def layoutLoop (minX spacing charW : Rat) : Nat → Rat → List Block → Py Str
  | 0, _, _ => .ok []
  | _ + 1, _, [] => .ok []
  | fuel + 1, prevY, b :: rest => do
    let gap ← interLines spacing prevY b.y
    let same := rest.takeWhile (fun c => sameLine spacing b.y c.y)
    let line ← lineString minX charW (sortBy (fun p q => decide (p.x ≤ q.x)) (b :: same))
    let after ← layoutLoop minX spacing charW fuel b.y (rest.drop same.length)
    pure (gap ++ (if line ≠ [32] then line ++ [10] else []) ++ after)

/-- layout.py:8-49 `basic_spatial_layout`. -/
def basicSpatialLayout (blocks : List Block) : Py Str :=
  let blocks := sortBy (fun p q => decide (q.y ≤ p.y)) blocks
  let minX := minimumX blocks
  let size := typicalFontSize blocks
  let spacing := typicalLineSpacing blocks size
  let charW := typicalCharWidth blocks size
  layoutLoop minX spacing charW blocks.length (-1) blocks

/-- api.py:378-384, the end of `extract_page_text`. -/
def layoutText (frs : List Fragment) : Py Str := basicSpatialLayout (frs.map blockOf)

end Pdf
