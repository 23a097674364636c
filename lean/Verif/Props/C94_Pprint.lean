/-
C94 to C96: the tables printed for the user.
-/
import Verif.Model.Pprint
import Verif.Props.C78_Fonts
import Verif.Lemmas.Reload

namespace Pdf
open Spec PageTree

/-! ### Columns -/

/-- Where the column `i` begins: each column is followed by a space. -/
def Spec.columnAt (widths : List Nat) (i : Nat) : Nat := ((widths.take i).map (· + 1)).sum

/-- A line shows the cells of a row in its columns: at the place of each column are the first characters of the cell, as many as
the width, then spaces. -/
def Spec.InColumns (widths : List Nat) (row : List Bytes) (line : Bytes) : Prop :=
  line.length = columnAt widths widths.length ∧ ∀ (i w : Nat) (c : Bytes), widths[i]? = some w → row[i]? = some c →
    (line.drop (columnAt widths i)).take w = c.take w ++ List.replicate (w - c.length) 32 ∧ line[columnAt widths i + w]? = some 32

theorem padRight_length {w : Nat} {s : Bytes} (h : s.length ≤ w) : (padRight w s).length = w := by
  simp only [padRight, List.length_append, List.length_replicate]
  omega

theorem tableCells_columns : ∀ (widths : List Nat) (row : List Bytes), widths.length ≤ row.length →
    ∃ line, tableCells widths row = .ok line ∧ InColumns widths row line
  | [], row, _ => ⟨[], by cases row <;> rfl, rfl, fun i w c h => by simp at h⟩
  | w :: ws, [], h => by simp at h
  | w :: ws, c :: cs, h => by
    obtain ⟨line, h1, h2, h3⟩ := tableCells_columns ws cs (by simpa using h)
    have hp : (padRight w (c.take w)).length = w := padRight_length (by simp)
    have hlen : (padRight w (c.take w) ++ b!" ").length = w + 1 := by simp [hp]
    refine ⟨padRight w (c.take w) ++ b!" " ++ line, by rw [tableCells, h1]; rfl, ?_, ?_⟩
    · rw [List.length_append, hlen, h2]
      simp [columnAt]
    · intro i v d hi hd
      cases i with
      | zero =>
        simp only [List.getElem?_cons_zero, Option.some.injEq] at hi hd
        subst hi hd
        constructor
        · simp only [columnAt, List.take_zero, List.map_nil, List.sum_nil, List.drop_zero]
          rw [List.append_assoc, List.take_append_of_le_length (by omega), List.take_of_length_le (by omega), padRight]
          congr 2
          simp only [List.length_take]
          omega
        · simp only [columnAt, List.take_zero, List.map_nil, List.sum_nil, Nat.zero_add]
          rw [List.append_assoc, List.getElem?_append_right (by omega), hp, Nat.sub_self]
          rfl
      | succ i =>
        simp only [List.getElem?_cons_succ] at hi hd
        obtain ⟨g1, g2⟩ := h3 i v d hi hd
        have hc : columnAt (w :: ws) (i + 1) = w + 1 + columnAt ws i := by simp [columnAt]
        rw [hc]
        constructor
        · rw [← g1, List.drop_append, List.drop_of_length_le (by omega), hlen, List.nil_append,
            show w + 1 + columnAt ws i - (w + 1) = columnAt ws i by omega]
        · rw [← g2, List.getElem?_append_right (by omega), hlen, show w + 1 + columnAt ws i + v - (w + 1) = columnAt ws i + v by omega]

/-- **C94**, the columns. A table whose rows have a cell for each column is printed with one line for each row, in order, and the cells
of the row in the columns of the line. -/
theorem C94_columns (lines : List (List Bytes)) (widths : List Nat) (h : ∀ row ∈ lines, widths.length ≤ row.length) :
    ∃ out, genericTable lines widths = .ok out ∧ All₂ (InColumns widths) lines out := by
  induction lines with
  | nil => exact ⟨[], rfl, .nil⟩
  | cons row lines ih =>
    obtain ⟨line, h1, h2⟩ := tableCells_columns widths row (h row List.mem_cons_self)
    obtain ⟨out, h3, h4⟩ := ih fun r hr => h r (List.mem_cons_of_mem _ hr)
    refine ⟨line :: out, ?_, .cons h2 h4⟩
    unfold genericTable at h3 ⊢
    rw [List.mapM_cons, h1, h3]
    rfl

example : genericTable [[b!"Name", b!"Pages"], [b!"Helvetica-Bold", b!"12"]] [9, 5] = .ok [b!"Name      Pages ", b!"Helvetica 12    "] := by
  kernel_rfl

/-! ### Fonts -/

theorem countP_lt_succ (n : Nat) : ∀ (l : List Nat), l.countP (· < n + 1) = l.countP (· < n) + l.count n
  | [] => rfl
  | a :: l => by
    rw [List.countP_cons, List.countP_cons, List.count_cons, countP_lt_succ n l]
    by_cases h : a < n
    · have h1 : a < n + 1 := by omega
      have h2 : a ≠ n := by omega
      simp [h, h1, h2]
      omega
    · by_cases h2 : a = n
      · subst h2
        simp
        omega
      · have h1 : ¬ a < n + 1 := by omega
        simp [h, h1, h2]

theorem sum_counts (l : List Nat) : ∀ (n : Nat), ((List.range n).map fun i => l.count i).sum = l.countP (· < n)
  | 0 => by simp
  | n + 1 => by
    rw [List.range_succ, List.map_append, List.sum_append, sum_counts l n, countP_lt_succ]
    simp

theorem length_of_counts {l : List Nat} {rss : List (List Ref)} {f : Ref} (h : ∀ i ∈ l, i < rss.length)
    (h' : ∀ i rs, rss[i]? = some rs → l.count i = rs.count f) : l.length = (rss.map (List.count f)).sum := by
  have h1 : l.countP (· < rss.length) = l.length := List.countP_eq_length.2 fun i hi => by simpa using h i hi
  rw [← h1, ← sum_counts]
  congr 1
  apply List.ext_getElem?
  intro i
  rw [List.getElem?_map, List.getElem?_map]
  by_cases hi : i < rss.length
  · rw [List.getElem?_range hi, List.getElem?_eq_getElem hi, Option.map_some, Option.map_some,
      h' i _ (List.getElem?_eq_getElem hi)]
  · rw [List.getElem?_eq_none (by rw [List.length_range]; omega), List.getElem?_eq_none (by omega)]
    rfl

theorem sum_nodup (f : Ref) : ∀ (rss : List (List Ref)), (∀ rs ∈ rss, rs.Nodup) →
    (rss.map (List.count f)).sum = (rss.filter (f ∈ ·)).length
  | [], _ => rfl
  | rs :: rss, h => by
    rw [List.map_cons, List.sum_cons, sum_nodup f rss fun r hr => h r (List.mem_cons_of_mem _ hr), List.filter_cons]
    by_cases hf : f ∈ rs
    · rw [if_pos (by simpa using hf), List.length_cons, (h rs List.mem_cons_self).count, if_pos hf]
      omega
    · rw [if_neg (by simpa using hf), List.count_eq_zero.2 hf, Nat.zero_add]

/-- **C94**, the fonts. For the documents of `C78_fonts_partial`, the command `fonts` prints a line for each font used in a page, with its
name, type, encoding, the number and generation of the object, and the number of pages where it appears.
Partial: as for C78, and when no page has two names for one font (`C94_twice_counterexample`). -/
theorem C94_fonts_partial [Zlib] {d : Doc} (hc : Coherent d) {r : Ref} {root : Dict} {kids : List PageTree}
    (ht : IsRoot (storeOf d) (.node r root kids)) {lim : Nat} (hl : depth (.node r root kids) ≤ lim) (leak : Dict)
    (hn : Dict.get? root b!"/Count" = some (.int (leaves [] (.node r root kids)).length)) {rss : List (List Ref)}
    (hp : Pointwise (fun b rs => Spec.PageFontRefs (storeOf d) b.2.1 rs) (leaves [] (.node r root kids)) rss)
    (hnd : ∀ rs ∈ rss, rs.Nodup) :
    ∃ fonts head out, printFonts lim leak d = .ok (head :: out) ∧ (fonts.map Prod.fst).Nodup ∧
      (∀ f, f ∈ fonts.map Prod.fst ↔ ∃ rs ∈ rss, f ∈ rs) ∧
      All₂ (fun (x : Ref × FontInfo) line => Describes (storeOf d) x.1 x.2 ∧
        InColumns [30, 10, 16, 8, 6] [x.2.name, x.2.type, x.2.encoding, intDec x.1.2 ++ b!"," ++ intDec x.1.1,
          natDec (rss.filter (x.1 ∈ ·)).length] line) fonts out := by
  obtain ⟨found, leak', d', h1, h2, h3, h4, h5⟩ := C78_fonts_partial hc ht hl leak hn hp
  obtain ⟨out, o1, o2⟩ := C94_columns ([b!"Name", b!"Type", b!"Encoding", b!"Obj", b!"Pages"] :: found.map fontRow) [30, 10, 16, 8, 6] (by
    intro row hr
    rcases List.mem_cons.1 hr with rfl | hr
    · decide
    · obtain ⟨x, -, rfl⟩ := List.mem_map.1 hr
      simp [fontRow])
  cases o2 with
  | @cons _ head _ out hhead htail =>
    refine ⟨found, head, out, ?_, h3, h4, ?_⟩
    · exact (show printFonts lim leak d = _ from by unfold printFonts; rw [h1]; exact o1)
    · have : ∀ (l : List (Ref × FontInfo)) (o : List Bytes), (∀ x ∈ l, x ∈ found) → All₂ (InColumns [30, 10, 16, 8, 6]) (l.map fontRow) o →
          All₂ (fun (x : Ref × FontInfo) line => Describes (storeOf d) x.1 x.2 ∧
            InColumns [30, 10, 16, 8, 6] [x.2.name, x.2.type, x.2.encoding, intDec x.1.2 ++ b!"," ++ intDec x.1.1,
            natDec (rss.filter (x.1 ∈ ·)).length] line) l o := by
        intro l
        induction l with
        | nil => intro o _ h; cases h; exact .nil
        | cons x l ih =>
          intro o hm h
          cases h with
          | cons h h' =>
            refine .cons ?_ (ih _ (fun y hy => hm y (List.mem_cons_of_mem _ hy)) h')
            obtain ⟨f, info⟩ := x
            obtain ⟨a1, -, a3, a4⟩ := h5 f info (hm _ List.mem_cons_self)
            refine ⟨a1, ?_⟩
            have := length_of_counts a3 a4
            rw [sum_nodup f rss hnd] at this
            rw [← this]
            exact h
      exact this _ _ (fun _ h => h) htail

/-- The number of pages of a font is that of its names: 2 for a document of one page. -/
theorem C94_twice_counterexample [Zlib] : printFonts 1000 [] (memDoc twoNames) =
    .ok [b!"Name                           Type       Encoding         Obj      Pages  ",
      b!"Helvetica                      Type1      WinAnsiEncoding  4,0      2      "] := by kernel_rfl

end Pdf
