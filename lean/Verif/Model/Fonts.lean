/-
Model of the fonts and contents of pages: docstruct.py:914-973, api.py:261-297, 323-337, 373-384.
-/
import Verif.Model.Pages
import Verif.Model.Layout

namespace Pdf
open Prog

/-- docstruct.py:914-954, the dict returned by `prepare_font`. -/
structure FontDesc where
  iref : Obj
  name : Obj
  type : Obj
  descriptor : Obj
  toUnicode : Obj
  encoding : Obj
  fns : FontFns

/-- docstruct.py:903-911, the function returned by `prepare_widths`. Without `/FirstChar`, the subtraction
fails when a width is asked for. Other types, and widths that are not numbers, are outside the model. -/
def simpleWidths (widths first : Obj) : Nat → Py Rat :=
  match widths, first with
  | .list ws, .int f => fun c => do
    let o ← prepareWidths ws f c
    orRaise .outside (objRat o)
  | .list _, .null => fun _ => .error .typeError
  | _, _ => fun _ => .error .outside

/-- docstruct.py:876-900, `prepare_w` and the function it returns. -/
def cidWidths (w dw : Obj) : Py (Nat → Py Rat) :=
  if truthy w = false then .ok fun _ => .ok 500
  else match w with
    | .list ws => do
      let f ← prepareW ws dw
      pure fun c => orRaise .outside (objRat (f c))
    | _ => .error .outside

/-- `x[0]`. -/
def firstItem : Obj → Py Obj
  | .list l => orRaise .indexError l[0]?
  | .dict _ => .error .keyError
  | .str _ => .error .outside
  | .bytes _ => .error .outside
  | _ => .error .typeError

/-- `d.get('/DW', 1000)`. -/
def defaultWidth : Obj → Py Obj
  | .dict d => .ok ((Dict.get? d b!"/DW").getD (.int 1000))
  | _ => .error .attributeError

/-- docstruct.py:928-939: the widths of the glyphs. -/
def fontWidths (widths firstChar descendant : Obj) : Prog (Nat → Py Rat) := do
  if truthy widths then do
    let w ← fetch widths
    let f ← fetch firstChar
    return simpleWidths w f
  else if truthy descendant then do
    let l ← fetch descendant
    let iref ← lift (firstItem l)
    let d ← fetch iref
    let w ← lift (getOr d b!"/W")
    let dw ← lift (defaultWidth d)
    let w ← fetch w
    let dw ← fetch dw
    lift (cidWidths w dw)
  else return simpleWidths (.list (List.replicate 256 (.int 500))) (.int 0)

/-- docstruct.py:945-947: the objects of a CMap, `parse_obj(b'[' + cmap_stream['stream'] + b']')`. -/
def cmapObjects [Zlib] (cmapStream : Obj) : Py (List Obj) := do
  let s ← streamOf cmapStream
  match ← parseObj (b!"[" ++ s ++ b!"]") 0 with
  | .list l => pure l
  | _ => .error .outside

/-- docstruct.py:944-953: the decoding function. -/
def fontDecoder [Zlib] (toUnicode encoding : Obj) : Prog (Bytes → Py (Str × List Nat)) := do
  if truthy toUnicode then do
    let st ← fetch toUnicode
    let cmap ← lift (cmapObjects st)
    return applyToUnicode cmap
  else return applyEncoding encoding

/-- docstruct.py:914-954 `prepare_font`. -/
def prepareFont [Zlib] (iref : Obj) : Prog FontDesc := do
  let o ← fetch iref
  let name ← lift (getKey o b!"/BaseFont")
  let type ← lift (getKey o b!"/Subtype")
  let descriptor ← lift (getOr o b!"/FontDescriptor")
  let toUnicode ← lift (getOr o b!"/ToUnicode")
  let encoding ← lift (getOr o b!"/Encoding")
  let firstChar ← lift (getOr o b!"/FirstChar")
  let widths ← lift (getOr o b!"/Widths")
  let descendant ← lift (getOr o b!"/DescendantFonts")
  let width ← fontWidths widths firstChar descendant
  let dec ← fontDecoder toUnicode encoding
  return ⟨iref, name, type, descriptor, toUnicode, encoding, ⟨dec, width⟩⟩

/-- docstruct.py:970-971: the fonts of a dict of resources. -/
def prepareFonts [Zlib] : Dict → Prog (List (Bytes × FontDesc))
  | [] => return []
  | (k, r) :: rest => do
    let f ← prepareFont r
    let fs ← prepareFonts rest
    return (k, f) :: fs

/-- `for font in fonts`. Iterating over strings and lists is not modelled. -/
def fontItems : Obj → Py Dict
  | .dict d => .ok d
  | .list [] => .ok []
  | .list _ => .error .outside
  | .str _ => .error .outside
  | .bytes _ => .error .outside
  | _ => .error .typeError

/-- docstruct.py:967-969: the dict of the fonts of a page. -/
def fontDict (resources : Obj) : Prog Dict := do
  if truthy resources then do
    let res ← fetch resources
    let fonts ← lift (getKey res b!"/Font")
    lift (fontItems fonts)
  else return []

/-- docstruct.py:963-972: the fonts of a page; also returns the content of `inherited`. -/
def pageFonts [Zlib] (lim : Nat) (leak : Dict) (pageNum : Int) : Prog (List (Bytes × FontDesc) × Dict) := do
  let (l, leak) ← flatPageTree lim .null leak none
  let p ← lift (pyIndex l pageNum)
  let page ← fetch p.1
  let resources ← lift (getKey page b!"/Resources")
  let fonts ← fontDict resources
  let fs ← prepareFonts fonts
  return (fs, leak)

/-- docstruct.py:957-973 `get_page_fonts`. -/
def getPageFonts [Zlib] (lim : Nat) : Dict → List Int → Prog (List (List (Bytes × FontDesc)) × Dict)
  | leak, [] => return ([], leak)
  | leak, p :: ps => do
    let (fs, leak) ← pageFonts lim leak p
    let (rest, leak) ← getPageFonts lim leak ps
    return (fs :: rest, leak)

/-- api.py:334-336: the streams of an item of `/Contents`. -/
def contentStreams : List Obj → Prog (List Obj)
  | [] => return []
  | c :: cs => do
    let c3 ← fetch c
    let l ← contentStreams cs
    return c3 :: l

/-- api.py:331-333: an item that leads to an array stands for its items. -/
def asList : Obj → List Obj
  | .list l => l
  | o => [o]

/-- api.py:330-336: the loop of `get_page_contents`. -/
def contentsLoop : List Obj → Prog (List Obj)
  | [] => return []
  | c :: cs => do
    let c2 ← fetch c
    let l ← contentStreams (asList c2)
    let rest ← contentsLoop cs
    return l ++ rest

/-- api.py:328-329. -/
def contentsItems : Obj → Py (List Obj)
  | .ref g n => .ok [.ref g n]
  | o => iterate o

/-- api.py:323-337 `get_page_contents`. -/
def getPageContents (lim : Nat) (leak : Dict) (pageNum : Int) : Prog (List Obj × Dict) := do
  let (l, leak) ← flatPageTree lim .null leak none
  let p ← lift (pyIndex l pageNum)
  let page ← fetch p.1
  let c ← lift (getKey page b!"/Contents")
  let items ← lift (contentsItems c)
  let cs ← contentsLoop items
  return (cs, leak)

/-- `f[0]`, as `text_element_to_unicode` uses it. -/
def fontTable (fs : List (Bytes × FontDesc)) (name : Bytes) : Option FontFns :=
  (fs.lookup name).map FontDesc.fns

/-- api.py:373-384 `extract_page_text`. -/
def extractPageText [Zlib] (lim : Nat) (leak : Dict) (pageNum : Int) : Prog (Str × Dict) := do
  let (fs, leak) ← pageFonts lim leak pageNum
  let (pcs, leak) ← getPageContents lim leak pageNum
  let tfs ← lift (buildTextFragments pcs (fontTable fs))
  let s ← lift (layoutText tfs)
  return (s, leak)

/-- api.py:286-292, an item of the result of `fonts`. -/
structure FontInfo where
  name : Bytes
  type : Bytes
  encoding : Bytes
  toUnicode : Bool
  pages : List Nat
deriving DecidableEq

/-- `x[1:]` on a string. -/
def tailOf : Obj → Py Bytes
  | .str s => .ok (s.drop 1)
  | .bytes _ => .error .outside
  | .list _ => .error .outside
  | _ => .error .typeError

/-- api.py:269-283: the name given to an encoding. -/
def encodingName (t : Bytes) (e : Obj) : Bytes :=
  match e with
  | .str s => s.drop 1
  | .null => if t = b!"Type1" then b!"built-in" else b!"other"
  | _ => b!"other"

/-- api.py:286-293: the page `i` where the font is used. -/
def noteFont (o : Ref) (info : FontInfo) (i : Nat) : List (Ref × FontInfo) → List (Ref × FontInfo)
  | [] => [(o, { info with pages := [i] })]
  | (r, inf) :: l => if r = o then (r, { inf with pages := inf.pages ++ [i] }) :: l else (r, inf) :: noteFont o info i l

/-- api.py:266-293, the fonts of page `i`. -/
def notePage (i : Nat) : List (Bytes × FontDesc) → List (Ref × FontInfo) → Py (List (Ref × FontInfo))
  | [], found => .ok found
  | (_, f) :: fs, found => do
    let n ← tailOf f.name
    let t ← tailOf f.type
    let o ← hashRef f.iref
    notePage i fs (noteFont o ⟨n, t, encodingName t f.encoding, truthy f.toUnicode, []⟩ i found)

/-- api.py:265-293, the loop of `fonts` from page `i` on. -/
def notePages (i : Nat) : List (List (Bytes × FontDesc)) → List (Ref × FontInfo) → Py (List (Ref × FontInfo))
  | [], found => .ok found
  | fs :: rest, found => do
    let found ← notePage i fs found
    notePages (i + 1) rest found

/-- api.py:261-294 `fonts`. -/
def fontsP [Zlib] (lim : Nat) (leak : Dict) : Prog (List (Ref × FontInfo) × Dict) := do
  let nb ← numberPages
  let ps ← lift (rangeOf nb)
  let (index, leak) ← getPageFonts lim leak ps
  let found ← lift (notePages 0 index [])
  return (found, leak)

end Pdf
