/-
The parts of a PDF file around its objects, whatever program wrote them (ISO 32000 7.5).
-/
import Verif.Spec.Spelling

namespace Pdf.Spec

/-- A natural number: digits, leading zeros allowed. -/
def NatText (s : Bytes) (n : Nat) : Prop := Digits s ∧ s ≠ [] ∧ numVal s = n

/-- One or more ends of lines. -/
def Eols (s : Bytes) : Prop := s ≠ [] ∧ ∀ c ∈ s, c = 10 ∨ c = 13

/-- Blanks inside a line. -/
def Blanks (s : Bytes) : Prop := ∀ c ∈ s, c = 32 ∨ c = 9

/-- The end of a file whose newest cross-reference section is at `pos` (7.5.5).
Restriction: at most 100 bytes, and nothing but ends of lines at the end. -/
def EndText (pos : Nat) (s : Bytes) : Prop :=
  ∃ w1 ds w2 w3, s = b!"startxref" ++ (w1 ++ (ds ++ (w2 ++ (b!"%%EOF" ++ w3)))) ∧ NatText ds pos ∧ w1 ≠ [] ∧ w2 ≠ [] ∧
    (∀ c ∈ w1 ++ w2, c ∈ white) ∧ (∀ c ∈ w3, c = 10 ∨ c = 13) ∧ s.length ≤ 100

/-- What an entry of a section says of an object: where it is, or in which object stream and at which rank, or that it is free. -/
inductive Mark
  | inUse (pos gen : Nat)
  | inside (env rank : Nat)
  | free (next gen : Nat)
  deriving DecidableEq, Repr

/-- A run of consecutive numbers with their marks. -/
structure Run where
  first : Nat
  marks : List Mark
  deriving DecidableEq, Repr

/-- The numbers of a run with their marks. -/
def Run.listing (r : Run) : List (Nat × Mark) := (r.marks.zipIdx r.first).map fun x => (x.2, x.1)

/-- The line of an entry in a table (7.5.4), with its end. -/
inductive MarkText : Mark → Bytes → Prop
  | inUse {p g : Nat} {x y b1 b2 b3 e : Bytes} : NatText x p → NatText y g → Blanks (b1 ++ b2 ++ b3) → b1 ≠ [] → b2 ≠ [] → Eols e →
      MarkText (.inUse p g) (x ++ (b1 ++ (y ++ (b2 ++ (b!"n" ++ (b3 ++ e))))))
  | free {p g : Nat} {x y b1 b2 b3 e : Bytes} : NatText x p → NatText y g → Blanks (b1 ++ b2 ++ b3) → b1 ≠ [] → b2 ≠ [] → Eols e →
      MarkText (.free p g) (x ++ (b1 ++ (y ++ (b2 ++ (b!"f" ++ (b3 ++ e))))))

inductive MarksText : List Mark → Bytes → Prop
  | nil : MarksText [] []
  | cons {m l s t} : MarkText m s → MarksText l t → MarksText (m :: l) (s ++ t)

/-- The runs of a table: a line with the first number and how many entries there are, and the entries. -/
inductive RunsText : List Run → Bytes → Prop
  | nil : RunsText [] []
  | cons {r : Run} {l : List Run} {x y b1 b2 e s t : Bytes} : NatText x r.first → NatText y r.marks.length → Blanks (b1 ++ b2) → b1 ≠ [] →
      Eols e → MarksText r.marks s → RunsText l t → RunsText (r :: l) (x ++ (b1 ++ (y ++ (b2 ++ (e ++ (s ++ t))))))

/-- A table with its trailer (7.5.4, 7.5.5), up to the keyword `startxref`, the word `trailer` being alone on its line. -/
def TableAlone (runs : List Run) (tr : List (Bytes × Obj)) (s : Bytes) : Prop :=
  ∃ e rows b e' w d w', s = b!"xref" ++ (e ++ (rows ++ (b!"trailer" ++ (b ++ (e' ++ (w ++ (d ++ (w' ++ b!"startxref")))))))) ∧
    Eols e ∧ RunsText runs rows ∧ Blanks b ∧ Eols e' ∧ (∀ c ∈ w ++ w', c ∈ white) ∧ Spells false false (.dict tr) d

/-- A table with its trailer, up to the byte that follows the keyword `startxref`, the word `trailer` and the whole dictionary being
on one line. -/
def TableOneLine (runs : List Run) (tr : List (Bytes × Obj)) (s : Bytes) : Prop :=
  ∃ e rows b d b' e' w c, s = b!"xref" ++ (e ++ (rows ++ (b!"trailer" ++ (b ++ (d ++ (b' ++ (e' ++ (w ++ (b!"startxref" ++ [c]))))))))) ∧
    Eols e ∧ RunsText runs rows ∧ Blanks b ∧ (∀ c ∈ d, c ≠ 10 ∧ c ≠ 13) ∧ Blanks b' ∧ Eols e' ∧ (∀ c ∈ w, c ∈ white) ∧ c ∈ white ∧
    Spells false false (.dict tr) d

/-- A table with its trailer.
Restrictions: a dictionary that begins on the line of the word `trailer` ends on it; no comment. -/
def TableText (runs : List Run) (tr : List (Bytes × Obj)) (s : Bytes) : Prop := TableAlone runs tr s ∨ TableOneLine runs tr s

/-- A number whose first byte counts most. -/
def bigVal (s : Bytes) : Nat := s.foldl (fun a c => 256 * a + c.toNat) 0

/-- The columns of an entry in a cross-reference stream (7.5.8.2), of widths `a`, `b`, `c`.
Restriction: the three types that the standard defines; no object is in an object stream of number 0. -/
inductive ColsText (a b c : Nat) : Mark → Bytes → Prop
  | free {x y z : Bytes} : x.length = a → y.length = b → z.length = c → bigVal x = 0 → ColsText a b c (.free (bigVal y) (bigVal z)) (x ++ (y ++ z))
  | inUse {x y z : Bytes} : x.length = a → y.length = b → z.length = c → bigVal x = 1 → ColsText a b c (.inUse (bigVal y) (bigVal z)) (x ++ (y ++ z))
  | inside {x y z : Bytes} : x.length = a → y.length = b → z.length = c → bigVal x = 2 → bigVal y ≠ 0 →
      ColsText a b c (.inside (bigVal y) (bigVal z)) (x ++ (y ++ z))

inductive AllCols (a b c : Nat) : List Mark → Bytes → Prop
  | nil : AllCols a b c [] []
  | cons {m l s t} : ColsText a b c m s → AllCols a b c l t → AllCols a b c (m :: l) (s ++ t)

/-- The value of `/Index` for these runs. -/
def indexOf (runs : List Run) : List Obj := runs.flatMap fun r => [.int r.first, .int r.marks.length]

/-- A cross-reference stream of number `num` (7.5.8).
Restrictions: the first column is not left out; no run is empty; the numbers of `/W` and `/Index` are direct. -/
def XStreamText [Zlib] (num : Nat) (runs : List Run) (tr : List (Bytes × Obj)) (s : Bytes) : Prop :=
  ∃ (gen : Nat) (content enc : Bytes) (a b c : Nat), IndirectText num gen (.stream tr content enc) s ∧ 1 ≤ a ∧
    Dict.get? tr b!"/W" = some (.list [.int a, .int b, .int c]) ∧
    (Dict.get? tr b!"/Index" = some (.list (indexOf runs)) ∨
      Dict.get? tr b!"/Index" = none ∧ ∃ marks, runs = [⟨0, marks⟩] ∧ Dict.get? tr b!"/Size" = some (.int marks.length)) ∧
    (∀ r ∈ runs, r.marks ≠ []) ∧ AllCols a b c (runs.flatMap (·.marks)) content

/-- A section of a file: where it is, its text, its runs, its trailer and the number of its stream if it is one. -/
structure FileSec where
  pos : Nat
  text : Bytes
  num : Option Nat
  runs : List Run
  tr : List (Bytes × Obj)

def FileSec.Text [Zlib] (s : FileSec) : Prop := match s.num with
  | none => TableText s.runs s.tr s.text
  | some n => XStreamText n s.runs s.tr s.text

/-- What the section says of the numbers. -/
def FileSec.listing (s : FileSec) : List (Nat × Mark) := s.runs.flatMap Run.listing

/-- The numbers with their marks, from the oldest section to the newest one. -/
def listings (secs : List FileSec) : List (Nat × Mark) := secs.reverse.flatMap FileSec.listing

/-- What the newest section that lists the number says of it. -/
def newest (secs : List FileSec) (n : Nat) : Option Mark := ((listings secs).reverse.find? (·.1 == n)).map Prod.snd

/-- Each trailer leads to the section before. A section comes after the ones that it updates, except in linearized files
(Annex F), where the newer one of the two oldest sections, for the first page, comes first. -/
def Linked : List FileSec → Prop
  | [] => True
  | s :: l => Dict.get? s.tr b!"/XRefStm" = none ∧ Dict.get? s.tr b!"/Prev" = l.head?.map (fun s' => .int s'.pos) ∧
      ((∀ s' ∈ l, s'.pos + s'.text.length ≤ s.pos) ∨ ∃ main, l = [main] ∧ s.pos + s.text.length ≤ main.pos) ∧ Linked l

/-- The newest section comes after the others: it is not the one of the first page of a linearized file. -/
def NewestLast (secs : List FileSec) : Prop := ∀ s l, secs = s :: l → ∀ s' ∈ l, s'.pos ≤ s.pos

/-- A file made of these sections, newest first (7.5.6).
Restrictions: the sections are in the order of the file, but for the two sections of a linearized file; no hybrid section
(`/XRefStm`); an object stream is listed at the latest in the section that lists its objects (`streams`), no object stream is ever in another one
(`direct`), and some object of the file that is not in an object stream has a number at least as large (`bound`). -/
structure FileText [Zlib] (F : Bytes) (secs : List FileSec) : Prop where
  ends : ∃ A t s, secs.head? = some s ∧ F = A ++ t ∧ EndText s.pos t
  sections : ∀ s ∈ secs, s.Text ∧ 0 < s.pos ∧ ∃ r, F.drop s.pos = s.text ++ r
  placed : ∀ n p g, (n, .inUse p g) ∈ listings secs → p < F.length
  linked : Linked secs
  streams : ∀ newer s older, secs = newer ++ s :: older → ∀ n c k, (n, .inside c k) ∈ s.listing → ∃ p g, (c, .inUse p g) ∈ listings (s :: older)
  direct : ∀ n c k c' k', (n, .inside c k) ∈ listings secs → (c, .inside c' k') ∉ listings secs
  bound : ∀ n c k, (n, .inside c k) ∈ listings secs → ∃ m p g, (m, .inUse p g) ∈ listings secs ∧ n ≤ m
  min : 100 ≤ F.length
  max : F.length < 10 ^ 80

/-- Objects one after the other with white space between them, the first one at `k`, and where they start. -/
inductive BodyText : Nat → List Obj → List Nat → Bytes → Prop
  | nil {k : Nat} : BodyText k [] [] []
  | cons {k : Nat} {o : Obj} {l : List Obj} {offs : List Nat} {s w t : Bytes} : Spells false false o s → (∀ g n, o ≠ .ref g n) → (∀ c ∈ w, c ∈ white) →
      (w ≠ [] ∨ selfEnded o = true) → BodyText (k + s.length + w.length) l offs t → BodyText k (o :: l) (k :: offs) (s ++ (w ++ t))

/-- Pairs of numbers, with white space between them and after them. -/
inductive HeadText : List (Nat × Nat) → Bytes → Prop
  | nil : HeadText [] []
  | cons {n k : Nat} {l : List (Nat × Nat)} {x y w1 w2 t : Bytes} : NatText x n → NatText y k → (∀ c ∈ w1 ++ w2, c ∈ white) → w1 ≠ [] → w2 ≠ [] →
      HeadText l t → HeadText ((n, k) :: l) (x ++ (w1 ++ (y ++ (w2 ++ t))))

/-- The dictionary and the content of an object stream with these numbers and objects (7.5.7).
Restrictions: the objects are in the order of the header, with nothing between them but white space; none of them is a reference. -/
def ObjStmText (objs : List (Nat × Obj)) (d : List (Bytes × Obj)) (content : Bytes) : Prop :=
  ∃ head body offs, content = head ++ body ∧ objs ≠ [] ∧ HeadText ((objs.map Prod.fst).zip offs) head ∧
    BodyText 0 (objs.map Prod.snd) offs body ∧ Dict.get? d b!"/First" = some (.int head.length) ∧ Dict.get? d b!"/N" = some (.int objs.length)

/-- Some section says that the number is in use. -/
def Used (secs : List FileSec) (n : Nat) : Prop := ∃ m, (n, m) ∈ listings secs ∧ ∀ next gen, m ≠ .free next gen

/-- At `p` the file has the text of the indirect object `n`. -/
def TextAt [Zlib] (F : Bytes) (p n g : Nat) (o : Obj) : Prop := ∃ s r, F.drop p = s ++ r ∧ IndirectText n g o s

/-- What the file gives for the number `n`: the object that its newest entry leads to.
Restriction: the numbers of the objects of an object stream are different from each other and are all in use. -/
inductive Gives [Zlib] (F : Bytes) (secs : List FileSec) (n : Nat) : Obj → Prop
  | direct {p g : Nat} {o : Obj} : newest secs n = some (.inUse p g) → TextAt F p n g o → Gives F secs n o
  | inside {c k p g : Nat} {objs : List (Nat × Obj)} {d : List (Bytes × Obj)} {content enc : Bytes} {o : Obj} : newest secs n = some (.inside c k) →
      newest secs c = some (.inUse p g) → TextAt F p c g (.stream d content enc) → ObjStmText objs d content → (objs.map Prod.fst).Nodup →
      (∀ x ∈ objs, 1 ≤ x.1 ∧ Used secs x.1) → objs[k]? = some (n, o) → Gives F secs n o

/-- The number of the oldest section if it is a stream (0: a table). -/
def oldestOf (secs : List FileSec) : Nat := (secs.getLast?.bind (·.num)).getD 0

/-- A file where every number in use can be read, and where each object stream holds exactly the objects that the newest
entries place in it. The oldest cross-reference stream, which the library replaces when it writes, is an object of its own. -/
structure Whole [Zlib] (F : Bytes) (secs : List FileSec) : Prop where
  given : ∀ n, 1 ≤ n → n ≠ oldestOf secs → Used secs n → ∃ o, Gives F secs n o
  own : oldestOf secs ≠ 0 → ∃ p g, newest secs (oldestOf secs) = some (.inUse p g)
  apart : ∀ n c k, newest secs n = some (.inside c k) → c ≠ oldestOf secs
  exact : ∀ n c k, newest secs n = some (.inside c k) → ∃ p g objs d content enc, newest secs c = some (.inUse p g) ∧
    TextAt F p c g (.stream d content enc) ∧ ObjStmText objs d content ∧ ∀ x ∈ objs, 1 ≤ x.1 ∧ ∃ k', newest secs x.1 = some (.inside c k')

end Pdf.Spec
