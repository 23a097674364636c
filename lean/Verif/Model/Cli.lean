/-
The commands of the command line, and what they do to the files and to the standard output.

The parsing of the arguments (argparse) is not modelled: a command is given as its name, its input file and the
value of `-o`. What is printed is kept as values, not as encoded text. A write is modelled as all or nothing: a
disk that is full in the middle of a write is not modelled.
-/
import Verif.Model.Page
import Verif.Model.Details
import Verif.Model.Overview
import Verif.Model.Pprint
import Verif.Model.Fonts
import Verif.Model.Streams
import Verif.Model.Provider

namespace Pdf

/-- cli.py:11-54, the keys of `COMMANDS`. -/
inductive Command
  | browse | disasm | overview | fonts | text | compress | hexdump
deriving DecidableEq

/-- What is sent to the standard output by one `print`, or by one write of bytes. -/
inductive Printed
  | html (h : Html)
  | lines (l : List Bytes)
  | info (s : Structure) (m : List (Bytes × ShownText))
  | text (s : Str)
  | bytes (b : Bytes)

/-- The part of the machine that the commands can see: the files, those that can be opened for writing, and what was
printed. -/
structure World where
  files : Bytes → Option Bytes
  writable : Bytes → Bool
  out : List Printed

/-- How a command fails: `open` raises, a name is not defined, or another exception. -/
inductive CmdErr
  | cannotOpen
  | undefinedName
  | raised (e : PyErr)
deriving DecidableEq

def World.print (w : World) (p : Printed) : World := { w with out := w.out ++ [p] }

def World.write (w : World) (name b : Bytes) : World :=
  { w with files := fun n => if n = name then some b else w.files n }

/-- Effects stay when an exception is raised. -/
abbrev Cmd := World → Except CmdErr Unit × World

/-- A command that reads its file, computes, and prints at the end. -/
def report (F : Option Bytes) (f : Bytes → Py Printed) : Cmd := fun w =>
  match F with
  | none => (.error .cannotOpen, w)
  | some F =>
    match f F with
    | .error e => (.error (.raised e), w)
    | .ok p => (.ok (), w.print p)

/-- cli.py:353-354: the loop of `spatial`, which prints each page as soon as it is laid out. -/
def printPages [Zlib] (lim : Nat) : List Nat → Dict → Doc → Cmd
  | [], _, _, w => (.ok (), w)
  | i :: is, leak, doc, w =>
    match (extractPageText lim leak (i : Int)).run doc with
    | .error e => (.error (.raised e), w)
    | .ok ((s, leak), doc) => printPages lim is leak doc (w.print (.text s))

/-- cli.py:350-355 `spatial`. -/
def spatial [Zlib] (lim : Nat) (F : Option Bytes) : Cmd := fun w =>
  match F with
  | none => (.error .cannotOpen, w)
  | some F =>
    match (do let doc ← loads F; (pagesP lim [] none).run doc) with
    | .error e => (.error (.raised e), w)
    | .ok ((l, leak), doc) => printPages lim (List.range l.length) leak doc w

/-- api.py:115-122, the end of `writefile`: `if filename` is false of `None` and of the empty name. -/
def deliver (output : Option Bytes) (b : Bytes) : Cmd := fun w =>
  match output with
  | none => (.ok (), w.print (.bytes b))
  | some [] => (.ok (), w.print (.bytes b))
  | some name =>
    if w.writable name then (.ok (), w.write name b)
    else (.error .cannotOpen, w)

/-- cli.py:428-433 `compress_file`, with api.py:91-95 `readfile` and api.py:98-123 `writefile`. -/
def compressFile [Zlib] (F : Option Bytes) (output : Option Bytes) : Cmd := fun w =>
  match F with
  | none => (.error .cannotOpen, w)
  | some F =>
    match (do let doc ← loads F; let doc ← compress doc; writeFile doc) with
    | .error e => (.error (.raised e), w)
    | .ok (b, _) => deliver output b w

/-- cli.py:77-91, the end of `main`. Each command opens its input by its name (`open(filename, 'rb')`); the options
`lim` (the recursion limit) and `pct` (the ratio of `disasm`) are those of the other models. -/
def runCommand [Zlib] [FloatText] (lim : Nat) (pct : Nat → Nat → Bytes) (c : Command) (input : Bytes)
    (output : Option Bytes) : Cmd := fun w =>
  match c with
  | .browse => report (w.files input) (fun F => do let h ← browse lim input F; .ok (.html h)) w
  | .disasm => report (w.files input) (fun F => do let l ← dumpDisasm pct F; .ok (.lines l)) w
  | .overview => report (w.files input) (fun F => do let (s, m) ← overview lim F; .ok (.info s m)) w
  | .fonts => report (w.files input) (fun F => do
      let doc ← loads F
      let l ← printFonts lim [] doc
      .ok (.lines l)) w
  | .text => spatial lim (w.files input) w
  | .compress => compressFile (w.files input) output w
  | .hexdump => report (w.files input) (fun F => do let b ← hexdump (.single F) none none; .ok (.bytes b)) w

/-- api.py:387-396 `pprint_page_contents`. The function `format_stream_content` that it calls on each stream is
defined nowhere in the package, hence NameError at the first stream. -/
def pprintPageContents [Zlib] (lim : Nat) (leak : Dict) (pageNum : Int) (doc : Doc) : Cmd := fun w =>
  match (getPageContents lim leak pageNum).run doc with
  | .error e => (.error (.raised e), w)
  | .ok (([], _), _) => (.ok (), w.print (.text []))
  | .ok ((_ :: _, _), _) => (.error .undefinedName, w)

end Pdf
