/-
C107: the table of the index.
-/
import Verif.Model.IndexTable
import Verif.Lemmas.Dec
import Verif.Lemmas.Reload
import Verif.Props.C33_Remove

namespace Pdf
namespace Spec

/-- The words of a text. -/
def blankWords : Bytes → Bytes → List Bytes
  | [], [] => []
  | [], w => [w.reverse]
  | c :: s, w => if c = 32 then (if w = [] then blankWords s [] else w.reverse :: blankWords s []) else blankWords s (c :: w)

/-- The text of column `j` of a line: `label` characters come first, and the columns are `ws` wide, with a bar and a blank before,
and a blank after. -/
def tableColumn (label : Nat) (ws : List Nat) (line : Bytes) (j : Nat) : Bytes :=
  (line.drop (label + ((ws.take j).map (· + 3)).sum + 2)).take (ws.getD j 0)

/-- The words of the columns up to `j`, the last one first. -/
def columnsUpTo (label : Nat) (ws : List Nat) (line : Bytes) (j : Nat) : List (List Bytes) :=
  ((List.range (j + 1)).map fun k => blankWords (tableColumn label ws line k) []).reverse

/-- How a reader finds the version of an object in a column: the first word of the nearest column, to the left, whose first word is
not `idem`, `Deleted` or `-`. -/
def readVersion (cols : List (List Bytes)) : Option Bytes :=
  cols.findSome? fun ws => ws.head?.bind fun w => if w = b!"idem" ∨ w = b!"Deleted" ∨ w = b!"-" then none else some w

/-- How a reader finds its position: the second word of the nearest column that has one. -/
def readPosition (cols : List (List Bytes)) : Option Bytes := cols.findSome? fun ws => ws[1]?

/-- The entry of a number in a revision. -/
def entryIn (rev : Rev) (i : Nat) : Option Entry :=
  match rev[i]? with
  | some (.one e) => some e
  | some (.many (e :: _)) => some e
  | _ => none

end Spec
open Spec

/-! ### Words -/

theorem blankWords_fill (n : Nat) : ∀ (s w : Bytes), blankWords (s ++ List.replicate n 32) w = blankWords s w
  | [], w => by
    induction n generalizing w with
    | zero => simp
    | succ n ih =>
      have h0 : blankWords (List.replicate n 32) [] = [] := by simpa [blankWords] using ih []
      rw [List.nil_append, List.replicate_succ]
      cases w with
      | nil => simp [blankWords, h0]
      | cons a w => simp [blankWords, h0]
  | c :: s, w => by
    rw [List.cons_append, blankWords, blankWords]
    split
    · rw [blankWords_fill n s []]
    · rw [blankWords_fill n s]

theorem blankWords_pad (n : Nat) (s : Bytes) : blankWords (padRight n s) [] = blankWords s [] := blankWords_fill _ s []

theorem blankWords_word (b : Bytes) : ∀ (a w : Bytes), 32 ∉ a → (w ≠ [] ∨ a ≠ []) → blankWords (a ++ 32 :: b) w = (w.reverse ++ a) :: blankWords b []
  | [], w, _, h => by
    have hw : w ≠ [] := by simpa using h
    simp [blankWords, hw]
  | c :: a, w, hn, _ => by
    rw [List.cons_append, blankWords, if_neg (fun e => hn (by simp [e]))]
    rw [blankWords_word b a (c :: w) (fun e => hn (by simp [e])) (.inl (by simp))]
    simp

theorem blankWords_last : ∀ (a w : Bytes), 32 ∉ a → (w ≠ [] ∨ a ≠ []) → blankWords a w = [w.reverse ++ a]
  | [], w, _, h => by
    have hw : w ≠ [] := by simpa using h
    cases w with
    | nil => exact absurd rfl hw
    | cons x w => simp [blankWords]
  | c :: a, w, hn, _ => by
    rw [blankWords, if_neg (fun e => hn (by simp [e]))]
    rw [blankWords_last a (c :: w) (fun e => hn (by simp [e])) (.inl (by simp))]
    simp

/-- A text that begins with a word. -/
theorem blankWords_head {a more : Bytes} (ha : 32 ∉ a) (hne : a ≠ []) (hm : more = [] ∨ ∃ m, more = 32 :: m) :
    ∃ r, blankWords (a ++ more) [] = a :: r := by
  rcases hm with rfl | ⟨m, rfl⟩
  · rw [List.append_nil, blankWords_last a [] ha (.inr hne)]
    exact ⟨[], rfl⟩
  · rw [blankWords_word m a [] ha (.inr hne)]
    exact ⟨_, rfl⟩

theorem digits_no_blank {s : Bytes} (h : s.all isDigit = true) : 32 ∉ s := fun hc => absurd (List.all_eq_true.1 h _ hc) (by decide)

theorem intDec_no_blank (n : Int) : 32 ∉ intDec n ∧ intDec n ≠ [] := by
  cases n with
  | ofNat n => exact ⟨digits_no_blank (natDec_all n), natDec_ne_nil n⟩
  | negSucc n =>
    refine ⟨?_, by simp [intDec]⟩
    intro hc
    simp only [intDec, List.mem_cons] at hc
    rcases hc with hc | hc
    · cases hc
    · exact digits_no_blank (natDec_all _) hc

theorem idsText_word (x : Int × Nat × Nat) : 32 ∉ idsText x ∧ 47 ∈ idsText x := by
  have h1 := (intDec_no_blank x.1).1
  have h2 := digits_no_blank (natDec_all x.2.1)
  have h3 := digits_no_blank (natDec_all x.2.2)
  unfold idsText
  simp [List.mem_append, h1, h2, h3]

/-! ### Cells -/

/-- The first word of the cell of an entry. -/
def cellHead (s : RowSeen) (e : Entry) : Bytes :=
  if e.deleted then b!"Deleted" else if s.ids ≠ some (e.genShown, e.ver, e.docVer) then idsText (e.genShown, e.ver, e.docVer) else b!"idem"

theorem cellHead_word (s : RowSeen) (e : Entry) : 32 ∉ cellHead s e ∧ cellHead s e ≠ [] := by
  unfold cellHead
  split
  · decide
  · split
    · exact ⟨(idsText_word _).1, fun h => by have := (idsText_word (e.genShown, e.ver, e.docVer)).2; rw [h] at this; simp at this⟩
    · decide

theorem entryCell_head [FloatText] (s : RowSeen) (e : Entry) :
    ∃ more, (more = [] ∨ ∃ m, more = 32 :: m) ∧ (entryCell s e).1 = cellHead s e ++ more := by
  have key : ∀ c : Bytes, (∃ more, (more = [] ∨ ∃ m, more = 32 :: m) ∧ c = cellHead s e ++ more) → ∀ x : Bytes,
      ∃ more, (more = [] ∨ ∃ m, more = 32 :: m) ∧ c ++ b!" " ++ x = cellHead s e ++ more := by
    rintro c ⟨more, hm, rfl⟩ x
    refine ⟨more ++ b!" " ++ x, .inr ?_, by simp [List.append_assoc]⟩
    rcases hm with rfl | ⟨m, rfl⟩
    · exact ⟨x, rfl⟩
    · exact ⟨m ++ b!" " ++ x, rfl⟩
  have h0 : ∃ more, (more = [] ∨ ∃ m, more = 32 :: m) ∧ (cellIds s e).1 = cellHead s e ++ more := by
    unfold cellHead cellIds
    simp only
    split
    · exact ⟨[32], .inr ⟨[], rfl⟩, rfl⟩
    · split
      · exact ⟨[], .inl rfl, by simp⟩
      · exact ⟨[], .inl rfl, by simp⟩
  unfold entryCell
  have h1 : ∃ more, (more = [] ∨ ∃ m, more = 32 :: m) ∧ (cellPos e (cellIds s e)).1 = cellHead s e ++ more := by
    unfold cellPos
    split
    · exact key _ h0 _
    · exact h0
  unfold cellEnv
  split
  · exact key _ h1 _
  · exact h1

theorem cellEnv_rest (e : Entry) (c : Bytes × RowSeen) : (cellEnv e c).2.ids = c.2.ids ∧ (cellEnv e c).2.pos = c.2.pos := by
  unfold cellEnv
  split <;> exact ⟨rfl, rfl⟩

theorem cellPos_rest [FloatText] (e : Entry) (c : Bytes × RowSeen) : (cellPos e c).2.ids = c.2.ids ∧ (cellPos e c).2.env = c.2.env := by
  unfold cellPos
  split <;> exact ⟨rfl, rfl⟩

theorem entryCell_ids [FloatText] (s : RowSeen) (e : Entry) :
    (entryCell s e).2.ids = if e.deleted then s.ids else some (e.genShown, e.ver, e.docVer) := by
  unfold entryCell
  rw [(cellEnv_rest _ _).1, (cellPos_rest _ _).1]
  unfold cellIds
  simp only
  split
  · rfl
  · split
    · rfl
    · rename_i hi
      simpa using hi

/-- What the columns so far say of the version is what the loop keeps of it. -/
def SaysIds (s : RowSeen) (cols : List (List Bytes)) : Prop := readVersion cols = s.ids.map idsText

theorem readVersion_skip {w : Bytes} {r : List Bytes} {cols : List (List Bytes)} (h : w = b!"idem" ∨ w = b!"Deleted" ∨ w = b!"-") :
    readVersion ((w :: r) :: cols) = readVersion cols := by
  unfold readVersion
  simp [h]

theorem readVersion_word {w : Bytes} {r : List Bytes} {cols : List (List Bytes)} (h : ¬ (w = b!"idem" ∨ w = b!"Deleted" ∨ w = b!"-")) :
    readVersion ((w :: r) :: cols) = some w := by
  unfold readVersion
  simp [h]

theorem idsText_other (x : Int × Nat × Nat) : ¬ (idsText x = b!"idem" ∨ idsText x = b!"Deleted" ∨ idsText x = b!"-") := by
  have h := (idsText_word x).2
  rintro (e | e | e) <;> rw [e] at h <;> exact absurd h (by decide)

theorem entryCell_says [FloatText] {s : RowSeen} {cols : List (List Bytes)} (h : SaysIds s cols) (e : Entry) :
    SaysIds (entryCell s e).2 (blankWords (entryCell s e).1 [] :: cols) ∧ ∃ r, blankWords (entryCell s e).1 [] = cellHead s e :: r := by
  obtain ⟨more, hm, hc⟩ := entryCell_head s e
  obtain ⟨r, hr⟩ := blankWords_head (cellHead_word s e).1 (cellHead_word s e).2 hm
  rw [← hc] at hr
  refine ⟨?_, r, hr⟩
  unfold SaysIds at *
  rw [hr, entryCell_ids]
  unfold cellHead
  split
  · rw [readVersion_skip (by simp), h]
  · split
    · rw [readVersion_word (idsText_other _)]
      rfl
    · rename_i hi
      rw [readVersion_skip (by simp), h]
      have : s.ids = some (e.genShown, e.ver, e.docVer) := by simpa using hi
      rw [this]

/-- What the columns up to one of them say of an object in its revision. -/
def CellSays (rev : Rev) (i : Nat) (cols : List (List Bytes)) : Prop :=
  match entryIn rev i with
  | some e => if e.deleted then ∃ r, cols.head? = some (b!"Deleted" :: r)
    else readVersion cols = some (intDec e.genShown ++ b!"/" ++ natDec e.ver ++ b!"/" ++ natDec e.docVer)
  | none => cols.head? = some [if i < rev.length then b!"idem" else b!"-"]

theorem indexCell_says [FloatText] {s : RowSeen} {cols : List (List Bytes)} (h : SaysIds s cols) (rev : Rev) (i : Nat) :
    SaysIds (indexCell s rev i).2 (blankWords (indexCell s rev i).1 [] :: cols) ∧ CellSays rev i (blankWords (indexCell s rev i).1 [] :: cols) := by
  have hent : ∀ e, entryIn rev i = some e → indexCell s rev i = entryCell s e →
      SaysIds (indexCell s rev i).2 (blankWords (indexCell s rev i).1 [] :: cols) ∧ CellSays rev i (blankWords (indexCell s rev i).1 [] :: cols) := by
    intro e he hx
    rw [hx]
    obtain ⟨h1, r, h2⟩ := entryCell_says h e
    refine ⟨h1, ?_⟩
    unfold CellSays
    rw [he]
    simp only
    split
    · rename_i hd
      refine ⟨r, ?_⟩
      rw [h2]
      simp [cellHead, hd]
    · rename_i hd
      unfold SaysIds at h1
      rw [h1, entryCell_ids, if_neg hd]
      rfl
  have hskip : ∀ w : Bytes, 32 ∉ w → w ≠ [] → (w = b!"idem" ∨ w = b!"Deleted" ∨ w = b!"-") → indexCell s rev i = (w, s) → entryIn rev i = none →
      w = (if i < rev.length then b!"idem" else b!"-") →
      SaysIds (indexCell s rev i).2 (blankWords (indexCell s rev i).1 [] :: cols) ∧ CellSays rev i (blankWords (indexCell s rev i).1 [] :: cols) := by
    intro w h1 h2 h3 h4 h5 h6
    rw [h4]
    simp only
    have hw := blankWords_last w [] h1 (.inr h2)
    simp only [List.reverse_nil, List.nil_append] at hw
    rw [hw]
    refine ⟨?_, ?_⟩
    · unfold SaysIds at *
      rw [readVersion_skip h3, h]
    · unfold CellSays
      rw [h5]
      simp [h6]
  cases hr : rev[i]? with
  | none =>
    have hl : ¬ i < rev.length := by simpa using hr
    exact hskip b!"-" (by decide) (by decide) (by simp) (by unfold indexCell; rw [hr]) (by unfold entryIn; rw [hr]) (by rw [if_neg hl])
  | some x =>
    have hl : i < rev.length := (List.getElem?_eq_some_iff.1 hr).1
    have hi : (if i < rev.length then b!"idem" else b!"-") = b!"idem" := if_pos hl
    cases x with
    | hole => exact hskip b!"idem" (by decide) (by decide) (by simp) (by unfold indexCell; rw [hr]) (by unfold entryIn; rw [hr]) hi.symm
    | one e => exact hent e (by unfold entryIn; rw [hr]) (by unfold indexCell; rw [hr])
    | many es =>
      cases es with
      | nil => exact hskip b!"idem" (by decide) (by decide) (by simp) (by unfold indexCell; rw [hr]) (by unfold entryIn; rw [hr]) hi.symm
      | cons e es => exact hent e (by unfold entryIn; rw [hr]) (by unfold indexCell; rw [hr])

theorem indexRow_says [FloatText] (i : Nat) : ∀ (revs : List Rev) (s : RowSeen) (cols : List (List Bytes)), SaysIds s cols →
    ∀ j rev, revs[j]? = some rev → CellSays rev i ((((indexRow i s revs).take (j + 1)).map (blankWords · [])).reverse ++ cols)
  | [], _, _, _, j, rev, h => by simp at h
  | r :: revs, s, cols, hs, 0, rev, h => by
    simp only [List.getElem?_cons_zero, Option.some.injEq] at h
    subst h
    simpa [indexRow] using (indexCell_says hs r i).2
  | r :: revs, s, cols, hs, j + 1, rev, h => by
    rw [List.getElem?_cons_succ] at h
    have := indexRow_says i revs _ _ (indexCell_says hs r i).1 j rev h
    simpa [indexRow, List.append_assoc] using this

/-! ### Positions -/

/-- An entry outside object streams, with its position in the file, if any. -/
def PlainEntry (e : Entry) : Prop := e.envNum = none ∧ e.oPos = none ∧ (e.absPos = none ∨ ∃ n, e.absPos = some (.at n))

/-- The text of a position. -/
def positionText (e : Entry) : Bytes :=
  match e.absPos with
  | some (.at n) => intDec n
  | _ => b!"-"

theorem posShown_plain [FloatText] {e : Entry} (h : PlainEntry e) : posShown e.absPos = positionText e ∧ 32 ∉ posShown e.absPos ∧ posShown e.absPos ≠ [] := by
  obtain ⟨-, -, h | ⟨n, h⟩⟩ := h
  · unfold positionText
    rw [h]
    exact ⟨rfl, by show 32 ∉ b!"-"; decide, by show b!"-" ≠ []; decide⟩
  · unfold positionText
    rw [h]
    exact ⟨rfl, intDec_no_blank n⟩

def SaysPos [FloatText] (s : RowSeen) (cols : List (List Bytes)) : Prop :=
  s.env = (none, none) ∧ readPosition cols = s.pos.map posShown

theorem cellIds_rest (s : RowSeen) (e : Entry) : (cellIds s e).2.pos = s.pos ∧ (cellIds s e).2.env = s.env := by
  unfold cellIds
  simp only
  split
  · exact ⟨rfl, rfl⟩
  · split <;> exact ⟨rfl, rfl⟩

theorem cellIds_words (s : RowSeen) (e : Entry) (x : Bytes) (hx : 32 ∉ x) (hn : x ≠ []) :
    blankWords (cellIds s e).1 [] = [cellHead s e] ∧ blankWords ((cellIds s e).1 ++ b!" " ++ x) [] = [cellHead s e, x] := by
  have hh := cellHead_word s e
  have hl := blankWords_last x [] hx (.inr hn)
  simp only [List.reverse_nil, List.nil_append] at hl
  by_cases hd : e.deleted = true
  · have h1 : (cellIds s e).1 = b!"Deleted" ++ [32] := by
      unfold cellIds
      simp [hd]
    have h2 : cellHead s e = b!"Deleted" := by simp [cellHead, hd]
    rw [h1, h2]
    refine ⟨by decide, ?_⟩
    rw [show b!"Deleted" ++ [32] ++ b!" " ++ x = b!"Deleted" ++ 32 :: (32 :: x) by rfl, blankWords_word _ _ [] (by decide) (.inr (by decide))]
    rw [show blankWords (32 :: x) [] = blankWords x [] by simp [blankWords], hl]
    rfl
  · have h1 : (cellIds s e).1 = cellHead s e := by
      unfold cellIds cellHead
      simp only [hd]
      split
      · rename_i h; cases h
      · split <;> rfl
    rw [h1]
    refine ⟨by simpa using blankWords_last _ [] hh.1 (.inr hh.2), ?_⟩
    rw [List.append_assoc, show b!" " ++ x = 32 :: x by rfl, blankWords_word _ _ [] hh.1 (.inr hh.2), hl]
    rfl

theorem entryCell_pos [FloatText] {s : RowSeen} {cols : List (List Bytes)} (h : SaysPos s cols) {e : Entry} (he : PlainEntry e) :
    SaysPos (entryCell s e).2 (blankWords (entryCell s e).1 [] :: cols) ∧ readPosition (blankWords (entryCell s e).1 [] :: cols) = some (positionText e) := by
  obtain ⟨p1, p2, p3⟩ := posShown_plain he
  obtain ⟨w1, w2⟩ := cellIds_words s e _ p2 p3
  obtain ⟨r1, r2⟩ := cellIds_rest s e
  obtain ⟨he1, he2, -⟩ := he
  have henv : entryCell s e = cellPos e (cellIds s e) := by
    unfold entryCell cellEnv
    rw [if_neg]
    rw [(cellPos_rest _ _).2, r2, h.1, he1, he2]
    simp
  have hall : (cellPos e (cellIds s e)).2.env = (none, none) := by rw [(cellPos_rest _ _).2, r2, h.1]
  rw [henv]
  suffices key : readPosition (blankWords (cellPos e (cellIds s e)).1 [] :: cols) = some (posShown e.absPos) ∧ (cellPos e (cellIds s e)).2.pos = some e.absPos by
    rw [key.1, ← p1]
    exact ⟨⟨hall, by rw [key.1, key.2]; rfl⟩, rfl⟩
  unfold cellPos
  split
  · refine ⟨?_, rfl⟩
    simp only [w2]
    unfold readPosition
    simp
  · rename_i hp
    have hp : (cellIds s e).2.pos = some e.absPos := by simpa using hp
    refine ⟨?_, hp⟩
    rw [w1]
    have := h.2
    rw [← r1, hp] at this
    unfold readPosition at *
    simpa [List.findSome?_cons] using this

theorem indexRow_pos [FloatText] (i : Nat) : ∀ (revs : List Rev) (s : RowSeen) (cols : List (List Bytes)), SaysPos s cols →
    ∀ j rev e, revs[j]? = some rev → entryIn rev i = some e → (∀ r ∈ revs.take (j + 1), ∀ e, entryIn r i = some e → PlainEntry e) →
    readPosition ((((indexRow i s revs).take (j + 1)).map (blankWords · [])).reverse ++ cols) = some (positionText e)
  | [], _, _, _, j, rev, e, h, _, _ => by simp at h
  | r :: revs, s, cols, hs, j, rev, e, h, he, hp => by
    have hcell : SaysPos (indexCell s r i).2 (blankWords (indexCell s r i).1 [] :: cols) ∧
        ∀ e, entryIn r i = some e → readPosition (blankWords (indexCell s r i).1 [] :: cols) = some (positionText e) := by
      have hpl := hp r (by simp)
      have skip : ∀ w : Bytes, blankWords w [] = [w] → SaysPos s (blankWords w [] :: cols) := by
        intro w hw
        refine ⟨hs.1, ?_⟩
        rw [hw, ← hs.2]
        unfold readPosition
        simp
      unfold entryIn at hpl ⊢
      unfold indexCell
      cases hr : r[i]? with
      | none => exact ⟨skip b!"-" (by decide), by simp⟩
      | some x =>
        rw [hr] at hpl
        cases x with
        | hole => exact ⟨skip b!"idem" (by decide), by simp⟩
        | one e1 =>
          have := entryCell_pos hs (hpl e1 rfl)
          refine ⟨this.1, ?_⟩
          intro e2 h2
          cases h2
          exact this.2
        | many es =>
          cases es with
          | nil => exact ⟨skip b!"idem" (by decide), by simp⟩
          | cons e1 es =>
            have := entryCell_pos hs (hpl e1 rfl)
            refine ⟨this.1, ?_⟩
            intro e2 h2
            cases h2
            exact this.2
    cases j with
    | zero =>
      simp only [List.getElem?_cons_zero, Option.some.injEq] at h
      subst h
      simpa [indexRow] using hcell.2 e he
    | succ j =>
      rw [List.getElem?_cons_succ] at h
      have := indexRow_pos i revs _ _ hcell.1 j rev e h he (fun r' hr' => hp r' (by rw [List.take_succ_cons]; exact List.mem_cons_of_mem _ hr'))
      simpa [indexRow, List.append_assoc] using this

/-! ### Lines -/

theorem indexRow_length [FloatText] (i : Nat) : ∀ (revs : List Rev) (s : RowSeen), (indexRow i s revs).length = revs.length
  | [], _ => rfl
  | _ :: revs, _ => by simp [indexRow, indexRow_length i revs]

theorem padRight_length {w : Nat} {s : Bytes} (h : s.length ≤ w) : (padRight w s).length = w := by
  simp [padRight]
  omega

theorem columns_at : ∀ (ws : List Nat) (cs : List Bytes), cs.length = ws.length → (∀ j, (cs.getD j []).length ≤ ws.getD j 0) →
    (indexColumns ws cs).length = (ws.map (· + 3)).sum ∧ ∀ j, j < ws.length →
      b!"| " <+: (indexColumns ws cs).drop ((ws.take j).map (· + 3)).sum ∧
      ((indexColumns ws cs).drop (((ws.take j).map (· + 3)).sum + 2)).take (ws.getD j 0) = padRight (ws.getD j 0) (cs.getD j [])
  | [], [], _, _ => by simp [indexColumns]
  | [], _ :: _, h, _ => by simp at h
  | _ :: _, [], h, _ => by simp at h
  | w :: ws, c :: cs, hl, hw => by
    obtain ⟨h1, h2⟩ := columns_at ws cs (by simpa using hl) (fun j => by simpa using hw (j + 1))
    have hp := padRight_length (by simpa using hw 0 : c.length ≤ w)
    have hlen : (b!"| " ++ padRight w c ++ b!" ").length = w + 3 := by
      simp [hp]
    rw [indexColumns]
    refine ⟨by rw [List.length_append, hlen, h1]; simp, ?_⟩
    intro j hj
    cases j with
    | zero =>
      refine ⟨⟨padRight w c ++ b!" " ++ indexColumns ws cs, by simp⟩, ?_⟩
      simp only [List.take_zero, List.map_nil, List.sum_nil, Nat.zero_add, List.getD_cons_zero]
      rw [List.append_assoc, List.append_assoc, List.drop_append_of_le_length (by simp)]
      simp only [show List.drop 2 b!"| " = [] by rfl, List.nil_append]
      rw [List.take_append_of_le_length (by omega), List.take_of_length_le (by omega)]
    | succ j =>
      obtain ⟨k1, k2⟩ := h2 j (by simpa using hj)
      simp only [List.take_succ_cons, List.map_cons, List.sum_cons, List.getD_cons_succ]
      refine ⟨?_, ?_⟩
      · rw [← hlen, List.drop_append, List.drop_eq_nil_of_le (by omega), List.nil_append, Nat.add_sub_cancel_left]
        exact k1
      · rw [Nat.add_assoc, ← hlen, List.drop_append, List.drop_eq_nil_of_le (by omega), List.nil_append, Nat.add_sub_cancel_left]
        exact k2

theorem tableMax_ge (f : List Bytes → Nat) : ∀ (rows : List (List Bytes)) (m : Nat), m ≤ rows.foldl (fun m r => max m (f r)) m ∧
    ∀ r ∈ rows, f r ≤ rows.foldl (fun m r => max m (f r)) m
  | [], m => by simp
  | r :: rows, m => by
    obtain ⟨h1, h2⟩ := tableMax_ge f rows (max m (f r))
    rw [List.foldl_cons]
    refine ⟨by omega, ?_⟩
    intro x hx
    rcases List.mem_cons.1 hx with rfl | hx
    · omega
    · exact h2 x hx

/-- The width of the labels. -/
def labelWidth (compact : Bool) : Nat := if compact then 7 else 17

/-- The lines of the objects, with their rows. -/
theorem indexTable_lines [FloatText] {compact : Bool} {doc : Doc} {lines : List Bytes} (h : indexTable compact doc = .ok lines) :
    ∃ ws : List Nat, ws.length = doc.index.length ∧ ∀ i, 1 ≤ i → i < doc.cur.length →
      (∀ j, ((indexRow i {} doc.index).getD j []).length ≤ ws.getD j 0) ∧
      lines[i - 1]? = some (padRight (labelWidth compact) (natDec i) ++ indexColumns ws (indexRow i {} doc.index)) := by
  unfold indexTable at h
  simp only at h
  obtain ⟨row0, -, h⟩ := bind_eq_ok h
  obtain ⟨keys, -, h⟩ := bind_eq_ok h
  generalize hr : (List.range doc.cur.length).map (fun i => indexRow i {} doc.index) = rows at h
  generalize hw : tableWidths doc.index.length rows = ws at h
  have hwl : ws.length = doc.index.length := by rw [← hw]; simp [tableWidths]
  refine ⟨ws, hwl, ?_⟩
  intro i h1 hi
  have hrow : rows[i]? = some (indexRow i {} doc.index) := by
    rw [← hr]
    simp [hi]
  refine ⟨?_, ?_⟩
  · intro j
    by_cases hj : j < doc.index.length
    · have hwj : ws.getD j 0 = rows.foldl (fun m r => max m (r.getD j []).length) 1 := by
        rw [← hw, List.getD_eq_getElem?_getD]
        simp [tableWidths, hj]
      rw [hwj]
      exact (tableMax_ge (fun r => (r.getD j []).length) rows 1).2 _ (List.mem_of_getElem? hrow)
    · rw [List.getD_eq_getElem?_getD, List.getElem?_eq_none (by rw [indexRow_length]; omega)]
      simp
  · cases h
    have hz : ((List.range doc.cur.length).zip rows)[i]? = some (i, indexRow i {} doc.index) := by
      rw [List.getElem?_zip_eq_some]
      exact ⟨by simp [hi], hrow⟩
    have hzt : ((List.range doc.cur.length).zip rows).tail[i - 1]? = some (i, indexRow i {} doc.index) := by
      rw [List.getElem?_tail, show i - 1 + 1 = i by omega, hz]
    rw [List.append_assoc, List.append_assoc, List.getElem?_append_left (by
      rw [List.length_map]
      exact (List.getElem?_eq_some_iff.1 hzt).1), List.getElem?_map, hzt]
    rfl

theorem columnAt_line {label : Bytes} {ws : List Nat} {cs : List Bytes} (hl : cs.length = ws.length)
    (hw : ∀ j, (cs.getD j []).length ≤ ws.getD j 0) {j : Nat} (hj : j < ws.length) :
    tableColumn label.length ws (label ++ indexColumns ws cs) j = padRight (ws.getD j 0) (cs.getD j []) := by
  unfold tableColumn
  rw [Nat.add_assoc, List.drop_append, List.drop_eq_nil_of_le (by omega), List.nil_append, Nat.add_sub_cancel_left]
  exact ((columns_at ws cs hl hw).2 j hj).2

theorem columnsUpTo_line {label : Bytes} {ws : List Nat} {cs : List Bytes} (hl : cs.length = ws.length)
    (hw : ∀ j, (cs.getD j []).length ≤ ws.getD j 0) {j : Nat} (hj : j < ws.length) :
    columnsUpTo label.length ws (label ++ indexColumns ws cs) j = ((cs.take (j + 1)).map (blankWords · [])).reverse := by
  unfold columnsUpTo
  congr 1
  apply List.ext_getElem
  · simp
    omega
  · intro k h1 h2
    have hk : k < j + 1 := by simpa using h1
    simp only [List.getElem_map, List.getElem_range, List.getElem_take]
    rw [columnAt_line hl hw (by omega), blankWords_pad, List.getD_eq_getElem?_getD, List.getElem?_eq_getElem (by omega)]
    rfl

/-- **C107.** The lines of the objects in the table of the index: all have the same length, with the bars at the same places, and each
begins with the number of its object. In the column of a revision, an object that is deleted there has the word `Deleted`, one
that is not used there `idem`, and one that does not exist yet `-`. For an object that exists there, the first word of the nearest
column, to the left, that is neither of these words gives its generation, its version and the version of the document. When the
object is not in an object stream, in this revision and in the older ones, the second word of the nearest column that has one gives
its position in the file, or `-` when it is not in a file. -/
theorem C107_table_partial [FloatText] {compact : Bool} {doc : Doc} {lines : List Bytes} (h : indexTable compact doc = .ok lines) :
    ∃ ws : List Nat, ws.length = doc.index.length ∧ ∀ i, 1 ≤ i → i < doc.cur.length → (natDec i).length ≤ labelWidth compact →
      ∃ line, lines[i - 1]? = some line ∧ line.length = labelWidth compact + (ws.map (· + 3)).sum ∧
        blankWords (line.take (labelWidth compact)) [] = [natDec i] ∧
        ∀ j rev, doc.index[j]? = some rev →
          b!"| " <+: line.drop (labelWidth compact + ((ws.take j).map (· + 3)).sum) ∧
          CellSays rev i (columnsUpTo (labelWidth compact) ws line j) ∧
          ∀ e, entryIn rev i = some e → (∀ r ∈ doc.index.take (j + 1), ∀ e, entryIn r i = some e → PlainEntry e) →
            readPosition (columnsUpTo (labelWidth compact) ws line j) = some (positionText e) := by
  obtain ⟨ws, hl, hlines⟩ := indexTable_lines h
  refine ⟨ws, hl, ?_⟩
  intro i h1 hi hlab
  obtain ⟨hw, hline⟩ := hlines i h1 hi
  have hrl : (indexRow i {} doc.index).length = ws.length := by rw [indexRow_length, hl]
  have hpl := padRight_length hlab
  obtain ⟨c1, c2⟩ := columns_at ws _ hrl hw
  refine ⟨_, hline, by rw [List.length_append, hpl, c1], ?_, ?_⟩
  · rw [List.take_append_of_le_length (by omega), List.take_of_length_le (by omega), blankWords_pad]
    simpa using blankWords_last (natDec i) [] (digits_no_blank (natDec_all i)) (.inr (natDec_ne_nil i))
  · intro j rev hj
    have hjl : j < ws.length := by rw [hl]; exact (List.getElem?_eq_some_iff.1 hj).1
    have hcols := columnsUpTo_line (label := padRight (labelWidth compact) (natDec i)) hrl hw hjl
    rw [hpl] at hcols
    refine ⟨?_, ?_, ?_⟩
    · rw [List.drop_append, List.drop_eq_nil_of_le (by omega), List.nil_append, hpl, Nat.add_sub_cancel_left]
      exact (c2 j hjl).1
    · rw [hcols]
      have := indexRow_says i doc.index {} [] rfl j rev hj
      rwa [List.append_nil] at this
    · intro e he hp
      rw [hcols]
      have := indexRow_pos i doc.index {} [] ⟨rfl, rfl⟩ j rev e hj he hp
      rwa [List.append_nil] at this

/-- **C107**: the table is printed whenever each revision has a trailer. -/
theorem C107_printed [FloatText] (compact : Bool) {doc : Doc} (h : ∀ rev ∈ doc.index, ∃ x, rev[0]? = some x ∧ x ≠ .hole) :
    ∃ lines, indexTable compact doc = .ok lines := by
  have hcur := h doc.cur (by simp [Doc.index])
  obtain ⟨x0, hx0, -⟩ := hcur
  have hlen : 0 < doc.cur.length := (List.getElem?_eq_some_iff.1 hx0).1
  have hvals : ∀ get, ∃ vals, doc.index.mapM (trailerValue get) = .ok vals := by
    intro get
    have : ∀ revs : List Rev, (∀ rev ∈ revs, ∃ x, rev[0]? = some x ∧ x ≠ .hole) → ∃ vals, revs.mapM (trailerValue get) = .ok vals := by
      intro revs
      induction revs with
      | nil => exact fun _ => ⟨[], rfl⟩
      | cons r revs ih =>
        intro hr
        obtain ⟨vals, hv⟩ := ih (fun x hx => hr x (by simp [hx]))
        obtain ⟨x, hx, hne⟩ := hr r (by simp)
        have : ∃ v, trailerValue get r = .ok v := by
          unfold trailerValue
          rw [hx]
          cases x with
          | hole => exact absurd rfl hne
          | one e => exact ⟨_, rfl⟩
          | many es => exact ⟨_, rfl⟩
        obtain ⟨v, hv1⟩ := this
        exact ⟨v :: vals, by rw [List.mapM_cons, hv1, hv]; rfl⟩
    exact this _ h
  have hkeys : ∀ (f : Bytes → List Bytes → List Bytes) (ks : List (Bytes × (Entry → Option Bytes))),
      ∃ keys, ks.mapM (fun k => (do let vals ← doc.index.mapM (trailerValue k.2); .ok (f k.1 vals) : Py (List Bytes))) = .ok keys := by
    intro f ks
    induction ks with
    | nil => exact ⟨[], rfl⟩
    | cons k ks ih =>
      obtain ⟨keys, hk⟩ := ih
      obtain ⟨vals, hv⟩ := hvals k.2
      exact ⟨_ :: keys, by rw [List.mapM_cons, hk, hv]; rfl⟩
  unfold indexTable
  simp only
  rw [show ((List.range doc.cur.length).map fun i => indexRow i {} doc.index)[0]? = some (indexRow 0 {} doc.index) by simp [hlen]]
  obtain ⟨keys, hk⟩ := hkeys (fun l vals => trailerLines compact l (indexColumns (tableWidths doc.index.length
    ((List.range doc.cur.length).map fun i => indexRow i {} doc.index)) vals)) trailerKeys
  simp only [orRaise]
  rw [hk]
  exact ⟨_, rfl⟩

/-- Two revisions: object 1 is kept, object 2 is changed, object 3 is deleted, number 4 is not used, object 5 is new. -/
def tableDoc : Doc :=
  { cur := [.one { num := 0, ver := 1, docVer := 1, absPos := some (.at 300) }, .one { num := 1, absPos := some (.at 9) },
      .one { num := 2, ver := 1, docVer := 1, absPos := some (.at 250) }, .one { num := 3, gen := 1, absPos := some (.at 63), deleted := true }, .hole,
      .one { num := 5, docVer := 1 }]
    past := [[.one { num := 0, absPos := some (.at 99), startxrefPos := some 140, xrefTablePos := some 80 }, .one { num := 1, absPos := some (.at 9) },
      .one { num := 2, absPos := some (.at 45) }, .one { num := 3, absPos := some (.at 63) }, .hole]]
    cache := [], curData := { fdata := .dummy [] }, pastData := [] }

/-- The hypotheses are met; the whole table. -/
example [FloatText] : indexTable false tableDoc = .ok [
    b!"1                | 0/0/0 9  | idem      ",
    b!"2                | 0/0/0 45 | 0/1/1 250 ",
    b!"3                | 0/0/0 63 | Deleted   ",
    b!"4                | idem     | idem      ",
    b!"5                | -        | 0/0/1 -   ",
    b!"",
    b!"0 (trailer)      | 0/0/0 99 | 0/1/1 300 ",
    b!"abs_pos          | 99       | 300       ",
    b!"startxref_pos    | 140      | -         ",
    b!"xref_table_pos   | 80       | -         ",
    b!"xref_stream_pos  | -        | -         ",
    b!"xref_stream_num  | -        | -         "] := by kernel_rfl

/-- The position of an object that waits in an object stream. -/
example [FloatText] : posShown (some (.tup 5 2)) = b!"(5, 2)" := by
  kernel_rfl

/-- **C107 is false** of the word `idem` alone: the number 4 of this document is shown like an object that did not change, though no object
has this number. -/
theorem C107_counterexample [FloatText] : ∃ lines line, indexTable false tableDoc = .ok lines ∧ lines[3]? = some line ∧
    entryIn tableDoc.cur 4 = none ∧ blankWords line [] = [b!"4", b!"|", b!"idem", b!"|", b!"idem"] := by
  obtain ⟨lines, h⟩ := C107_printed (doc := tableDoc) false (by decide)
  have h3 : (indexTable false tableDoc).map (fun l => l[3]?) = .ok (some b!"4                | idem     | idem      ") := by kernel_rfl
  rw [h] at h3
  exact ⟨lines, _, h, by simpa [Except.map] using h3, rfl, by decide⟩

end Pdf
