/-
Reading the tables and trailers of any program (`Spec/FileText.lean`).
-/
import Verif.Lemmas.SpellStream
import Verif.Lemmas.MixWrite

namespace Pdf
open Spec

set_option linter.unusedSectionVars false

variable [Zlib]

/-! ### Lines -/

theorem splitAux_blanks {b rest : Bytes} (h : ∀ c ∈ b, isPySpace c = true) : splitAux isPySpace [] (b ++ rest) = splitAux isPySpace [] rest := by
  induction b with
  | nil => rfl
  | cons c b ih =>
    rw [List.cons_append, splitAux, if_pos (h c (by simp)), if_pos rfl]
    exact ih fun x hx => h x (by simp [hx])

theorem pySplit_word {w b rest : Bytes} (hne : w ≠ []) (h : ∀ c ∈ w, isPySpace c = false) (hb : ∀ c ∈ b, isPySpace c = true) (hbn : b ≠ []) :
    pySplit (w ++ (b ++ rest)) = w :: pySplit rest := by
  unfold pySplit
  rw [splitAux_word w [] _ h, List.nil_append]
  cases b with
  | nil => exact absurd rfl hbn
  | cons c b =>
    rw [List.cons_append, splitAux, if_pos (hb c (by simp)), if_neg hne, splitAux_blanks fun x hx => hb x (by simp [hx])]

theorem pySplit_end {w b : Bytes} (hne : w ≠ []) (h : ∀ c ∈ w, isPySpace c = false) (hb : ∀ c ∈ b, isPySpace c = true) :
    pySplit (w ++ b) = [w] := by
  by_cases hbn : b = []
  · subst hbn
    rw [List.append_nil]
    exact pySplit_last hne h
  · have := pySplit_word (rest := []) hne h hb hbn
    rw [List.append_nil] at this
    rw [this]; rfl

theorem blank_space {b : Bytes} (h : Blanks b) : ∀ c ∈ b, isPySpace c = true := by
  intro c hc
  rcases h c hc with rfl | rfl <;> rfl

theorem blank_not_eol {b : Bytes} (h : Blanks b) : ∀ c ∈ b, isEol c = false := by
  intro c hc
  rcases h c hc with rfl | rfl <;> rfl

theorem eols_eol {e : Bytes} (h : Eols e) : ∀ c ∈ e, isEol c = true := by
  intro c hc
  rcases h.2 c hc with rfl | rfl <;> rfl

theorem natText_all {s : Bytes} {n : Nat} (h : NatText s n) : s.all isDigit = true := digits_all h.1

theorem blanks_left {a b : Bytes} (h : Blanks (a ++ b)) : Blanks a := fun c hc => h c (by simp [hc])
theorem blanks_right {a b : Bytes} (h : Blanks (a ++ b)) : Blanks b := fun c hc => h c (by simp [hc])

/-- The text of a line, without its end. -/
inductive LineText : TLine → Bytes → Prop
  | hdr {n k : Nat} {x y b1 b2 : Bytes} : NatText x n → NatText y k → Blanks b1 → Blanks b2 → b1 ≠ [] →
      LineText (.hdr n k) (x ++ (b1 ++ (y ++ b2)))
  | ent {p g : Nat} {kw : UInt8} {x y b1 b2 b3 : Bytes} : NatText x p → NatText y g → (kw = 102 ∨ kw = 110) → Blanks b1 → Blanks b2 → Blanks b3 →
      b1 ≠ [] → b2 ≠ [] → LineText (.ent p g kw) (x ++ (b1 ++ (y ++ (b2 ++ ([kw] ++ b3)))))

theorem LineText.facts {l : TLine} {s : Bytes} (h : LineText l s) :
    s ≠ [] ∧ (∀ c ∈ s, isEol c = false) ∧ (s.take 1).any isDigit = true ∧ 116 ∉ s := by
  have hd : ∀ (s : Bytes) (n : Nat), NatText s n → ∀ r : Bytes, s ++ r ≠ [] ∧ ((s ++ r).take 1).any isDigit = true := by
    intro s n h r
    have ha := natText_all h
    have hne := h.2.1
    cases s with
    | nil => exact absurd rfl hne
    | cons c s => simp only [List.all_cons, Bool.and_eq_true] at ha; simp [ha.1]
  have h1 : ∀ {s : Bytes} {n : Nat}, NatText s n → ∀ c ∈ s, isEol c = false ∧ c ≠ 116 := by
    intro s n h c hc
    refine ⟨digits_not_eol (natText_all h) c hc, ?_⟩
    rintro rfl
    have := h.1 _ hc
    revert this; decide
  have h2 : ∀ {s : Bytes}, Blanks s → ∀ c ∈ s, isEol c = false ∧ c ≠ 116 := by
    intro s h c hc
    rcases h c hc with rfl | rfl <;> decide
  suffices H : (∀ c ∈ s, isEol c = false ∧ c ≠ 116) ∧ s ≠ [] ∧ (s.take 1).any isDigit = true from
    ⟨H.2.1, fun c hc => (H.1 c hc).1, H.2.2, fun hc => (H.1 _ hc).2 rfl⟩
  cases h with
  | hdr hx hy hb1 hb2 hn =>
    refine ⟨?_, hd _ _ hx _⟩
    intro c hc
    simp only [List.mem_append] at hc
    rcases hc with hc | hc | hc | hc
    · exact h1 hx c hc
    · exact h2 hb1 c hc
    · exact h1 hy c hc
    · exact h2 hb2 c hc
  | ent hx hy hk hb1 hb2 hb3 hn hn' =>
    refine ⟨?_, hd _ _ hx _⟩
    intro c hc
    simp only [List.mem_append, List.mem_singleton] at hc
    rcases hc with hc | hc | hc | hc | hc | hc
    · exact h1 hx c hc
    · exact h2 hb1 c hc
    · exact h1 hy c hc
    · exact h2 hb2 c hc
    · subst hc
      rcases hk with rfl | rfl <;> decide
    · exact h2 hb3 c hc

/-- Lines with their ends. -/
inductive LinesText : List TLine → Bytes → Prop
  | nil : LinesText [] []
  | cons {l ls s e t} : LineText l s → Eols e → LinesText ls t → LinesText (l :: ls) (s ++ (e ++ t))

theorem LinesText.append {l l' : List TLine} {s t : Bytes} (h : LinesText l s) (h' : LinesText l' t) : LinesText (l ++ l') (s ++ t) := by
  induction h with
  | nil => exact h'
  | cons h1 h2 h3 ih =>
    rw [List.cons_append, List.append_assoc, List.append_assoc]
    exact .cons h1 h2 ih

theorem LinesText.not116 {l : List TLine} {s : Bytes} (h : LinesText l s) : 116 ∉ s := by
  induction h with
  | nil => simp
  | cons h1 h2 h3 ih =>
    simp only [List.mem_append, not_or]
    refine ⟨h1.facts.2.2.2, ?_, ih⟩
    intro hc
    rcases h2.2 _ hc with h | h <;> revert h <;> decide

theorem LinesText.length {l : List TLine} {s : Bytes} (h : LinesText l s) : l.length ≤ s.length := by
  induction h with
  | nil => simp
  | cons h1 h2 h3 ih =>
    have := List.length_pos_iff.2 h1.facts.1
    simp only [List.length_cons, List.length_append]
    omega

/-- The loop over the lines, from the end of a line. -/
theorem loop_lines {text tail rest : Bytes} {nl : UInt8} (htne : tail ≠ []) (htd : (tail.take 1).any isDigit = false)
    (hte : ∀ c ∈ tail, isEol c = false) (hnl : isEol nl = true) {ls : List TLine} {t : Bytes} (h : LinesText ls t) :
    ∀ (i : Nat) (w : Bytes) (oNum : Option Int) (res : List XRow) (fuel : Nat) (rows : List XRow),
      (∀ c ∈ w, isEol c = true) → text.drop i = w ++ (t ++ (tail ++ nl :: rest)) → interp oNum ls = some rows → ls.length < fuel →
      (match nextLine text i with
      | none => Except.error PyErr.typeError
      | some (bl, el) => xrefTableLoop text fuel bl el oNum res) = .ok (i + w.length + t.length + tail.length, res ++ rows) := by
  induction h with
  | nil =>
    intro i w oNum res fuel rows hw hd hi hf
    obtain ⟨fuel, rfl⟩ : ∃ k, fuel = k + 1 := ⟨fuel - 1, by simp at hf; omega⟩
    rw [List.nil_append] at hd
    rw [nextLine_at hd hw htne hte hnl]
    simp only
    have hd' := drop_add_of hd
    rw [xrefTableLoop, if_neg (by rw [slice_head hd' htne, htd]; simp)]
    simp only [interp, Option.some.injEq] at hi
    subst hi
    simp
  | @cons l ls s e t h1 h2 h3 ih =>
    intro i w oNum res fuel rows hw hd hi hf
    obtain ⟨fuel, rfl⟩ : ∃ k, fuel = k + 1 := ⟨fuel - 1, by simp at hf; omega⟩
    obtain ⟨f1, f2, f3, -⟩ := h1.facts
    obtain ⟨e0, e1, rfl⟩ : ∃ a b, e = a :: b := by
      cases e with
      | nil => exact absurd rfl h2.1
      | cons a b => exact ⟨a, b, rfl⟩
    have hd0 : text.drop i = w ++ (s ++ e0 :: (e1 ++ (t ++ (tail ++ nl :: rest)))) := by rw [hd]; simp
    rw [nextLine_at hd0 hw f1 f2 (eols_eol h2 e0 (by simp))]
    simp only
    have hd1 := drop_add_of hd0
    have hd2 : text.drop (i + w.length + s.length) = (e0 :: e1) ++ (t ++ (tail ++ nl :: rest)) := by
      have := drop_add_of hd1
      rw [this]; simp
    have hsl : slice text (i + w.length) (i + w.length + s.length) = s := slice_of_drop hd1
    rw [xrefTableLoop, if_pos (by rw [slice_head hd1 f1]; exact f3), hsl]
    have key : ∀ o r rows', interp o ls = some rows' → (match nextLine text (i + w.length + s.length) with
        | none => Except.error PyErr.typeError
        | some (bl, el) => xrefTableLoop text fuel bl el o r) =
          .ok (i + w.length + (s ++ (e0 :: e1 ++ t)).length + tail.length, r ++ rows') := by
      intro o r rows' hi
      rw [ih (i + w.length + s.length) (e0 :: e1) o r fuel rows' (eols_eol h2) hd2 hi (by simp at hf; omega)]
      simp only [List.length_append, List.length_cons]
      congr 2
      omega
    cases h1 with
    | @hdr n k x y b1 b2 hx hy hb1 hb2 hn =>
      obtain ⟨rows', hr, rfl⟩ := Option.map_eq_some_iff.1 hi
      rw [pySplit_word hx.2.1 (digits_not_space (natText_all hx)) (blank_space hb1) hn,
        pySplit_end hy.2.1 (digits_not_space (natText_all hy)) (blank_space hb2)]
      simp only [pyInt_intText (natText_int hx), pyInt_intText (natText_int hy), orRaise, bind, Except.bind]
      have := key _ (res ++ [.sub n k]) rows' hr
      simp only [List.append_assoc, List.singleton_append] at this ⊢
      exact this
    | @ent p g kw x y b1 b2 b3 hx hy hk hb1 hb2 hb3 hn hn' =>
      cases oNum with
      | none => simp [interp] at hi
      | some o =>
        obtain ⟨rows', hr, rfl⟩ := Option.map_eq_some_iff.1 hi
        rw [pySplit_word hx.2.1 (digits_not_space (natText_all hx)) (blank_space hb1) hn,
          pySplit_word hy.2.1 (digits_not_space (natText_all hy)) (blank_space hb2) hn',
          pySplit_end (by simp) (by intro c hc; rw [List.mem_singleton.1 hc]; rcases hk with rfl | rfl <;> rfl) (blank_space hb3)]
        simp only [pyInt_intText (natText_int hx), pyInt_intText (natText_int hy), orRaise, bind, Except.bind]
        have := key _ (res ++ [.entry p o g [kw]]) rows' hr
        simp only [List.append_assoc, List.singleton_append] at this ⊢
        exact this

/-! ### Runs -/

/-- The entry of a mark in a table. -/
def markLine : Mark → TLine
  | .inUse p g => .ent p g 110
  | .inside _ _ => .ent 0 0 102
  | .free p g => .ent p g 102

def markRow (n : Nat) : Mark → XRow
  | .inUse p g => .entry p n g b!"n"
  | .inside _ _ => .entry 0 n 0 b!"f"
  | .free p g => .entry p n g b!"f"

def runLines (r : Run) : List TLine := .hdr r.first r.marks.length :: r.marks.map markLine

def runRows (r : Run) : List XRow := .sub r.first r.marks.length :: r.listing.map fun x => markRow x.1 x.2

theorem marks_lines {l : List Mark} {s : Bytes} (h : MarksText l s) : LinesText (l.map markLine) s := by
  induction h with
  | nil => exact .nil
  | @cons m l s t h1 h2 ih =>
    cases h1 with
    | @inUse p g x y b1 b2 b3 e hx hy hb hn1 hn2 he =>
      have := LinesText.cons (LineText.ent hx hy (.inr rfl) (blanks_left (blanks_left hb)) (blanks_right (blanks_left hb)) (blanks_right hb) hn1 hn2) he ih
      simpa [markLine] using this
    | @free p g x y b1 b2 b3 e hx hy hb hn1 hn2 he =>
      have := LinesText.cons (LineText.ent hx hy (.inl rfl) (blanks_left (blanks_left hb)) (blanks_right (blanks_left hb)) (blanks_right hb) hn1 hn2) he ih
      simpa [markLine] using this

theorem runs_lines {l : List Run} {s : Bytes} (h : RunsText l s) : LinesText (l.flatMap runLines) s := by
  induction h with
  | nil => exact .nil
  | @cons r l x y b1 b2 e s t hx hy hb hn he hm h ih =>
    have h1 := LinesText.cons (LineText.hdr hx hy (blanks_left hb) (blanks_right hb) hn) he ((marks_lines hm).append ih)
    simpa [runLines] using h1

theorem interp_marks : ∀ (l : List Mark) (n : Nat) (ls : List TLine) (rows : List XRow), (∀ o, interp o ls = some rows) →
    interp (some (n : Int)) (l.map markLine ++ ls) = some ((l.zipIdx n).map (fun x => markRow x.2 x.1) ++ rows)
  | [], n, ls, rows, h => by simpa using h _
  | m :: l, n, ls, rows, h => by
    have := interp_marks l (n + 1) ls rows h
    rw [show ((n + 1 : Nat) : Int) = (n : Int) + 1 by omega] at this
    cases m <;> simp [markLine, interp, this, markRow]

theorem interp_runs : ∀ (l : List Run) (o : Option Int), interp o (l.flatMap runLines) = some (l.flatMap runRows)
  | [], _ => by cases ‹Option Int› <;> rfl
  | r :: l, o => by
    have h := interp_marks r.marks r.first (l.flatMap runLines) _ (interp_runs l)
    have h2 : r.listing.map (fun x => markRow x.1 x.2) = (r.marks.zipIdx r.first).map (fun x => markRow x.2 x.1) := by
      simp [Run.listing, Function.comp_def]
    rw [List.flatMap_cons, List.flatMap_cons, runLines, runRows, h2, List.cons_append, List.cons_append]
    simp [interp, h]

/-- The entries that a listing gives, as the library keeps them: the free ones and those of the number 0 are left out. -/
def listed1 : Nat × Mark → List Entry
  | (n, .inUse p g) => if n = 0 then [] else [{ num := n, gen := g, absPos := some (.at p) }]
  | (n, .inside c k) => if n = 0 then [] else [{ num := n, gen := 0, envNum := some c, oPos := some k, absPos := some (.tup c k) }]
  | (_, .free _ _) => []

/-- No entry of a table is in an object stream. -/
def noInside (l : List Run) : Prop := ∀ r ∈ l, ∀ m ∈ r.marks, ∀ c k, m ≠ .inside c k

theorem marks_noInside {l : List Mark} {s : Bytes} (h : MarksText l s) : ∀ m ∈ l, ∀ c k, m ≠ .inside c k := by
  induction h with
  | nil => simp
  | cons h1 h2 ih =>
    intro m hm
    rcases List.mem_cons.1 hm with rfl | hm
    · cases h1 <;> simp
    · exact ih m hm

theorem runs_noInside {l : List Run} {s : Bytes} (h : RunsText l s) : noInside l := by
  induction h with
  | nil => simp [noInside]
  | cons hx hy hb hn he hm h ih =>
    intro r hr
    rcases List.mem_cons.1 hr with rfl | hr
    · exact marks_noInside hm
    · exact ih r hr

theorem tableEntries_listing : ∀ (l : List (Nat × Mark)) (rows : List XRow) (es : List Entry), (∀ x ∈ l, ∀ c k, x.2 ≠ .inside c k) →
    tableEntries rows = .ok es → tableEntries (l.map (fun x => markRow x.1 x.2) ++ rows) = .ok (l.flatMap listed1 ++ es)
  | [], rows, es, _, h => by simpa using h
  | (n, m) :: l, rows, es, hno, h => by
    have ih := tableEntries_listing l rows es (fun x hx => hno x (by simp [hx])) h
    cases m with
    | inside c k => exact absurd rfl (hno (n, .inside c k) (by simp) c k)
    | inUse p g =>
      simp only [List.map_cons, markRow, List.cons_append, tableEntries, bind, Except.bind, List.flatMap_cons, listed1]
      rw [if_neg (by decide), if_neg (by omega)]
      simp only [markRow] at ih
      simp only [ih]
      by_cases hn : n = 0
      · subst hn
        rw [if_neg (by simp)]
        simp
      · rw [if_pos ⟨by decide, by omega⟩, if_neg hn]
        simp
    | free p g =>
      simp only [List.map_cons, markRow, List.cons_append, tableEntries, bind, Except.bind, List.flatMap_cons, listed1]
      rw [if_neg (by decide), if_neg (by omega)]
      simp only [markRow] at ih
      simp only [ih]
      rw [if_neg (by simp)]
      simp

theorem tableEntries_runs : ∀ (l : List Run), noInside l → tableEntries (l.flatMap runRows) = .ok ((l.flatMap Run.listing).flatMap listed1)
  | [], _ => rfl
  | r :: l, h => by
    have ih := tableEntries_runs l (fun r hr => h r (by simp [hr]))
    rw [List.flatMap_cons, runRows, List.cons_append, tableEntries, List.flatMap_cons, List.flatMap_append]
    refine tableEntries_listing _ _ _ ?_ ih
    intro x hx c k
    obtain ⟨y, hy, rfl⟩ := List.mem_map.1 hx
    exact h r (by simp) y.1 (List.fst_mem_of_mem_zipIdx hy) c k

/-! ### A table with its trailer -/

theorem startxref_tok (rest : Bytes) : ∀ {w : Bytes}, (∀ c ∈ w, c ∈ white) → NoStreamNext (w ++ (b!"startxref" ++ rest)) := by
  intro w hw gap r hg he
  have hs : ∀ c, Skipped c → c ≠ 115 := by
    intro c hc h
    subst h
    have : (115 : UInt8) ∈ letters := by decide
    exact hc.2.1 this
  induction w generalizing gap with
  | nil =>
    cases gap with
    | nil => simp at he
    | cons c gap =>
      simp only [List.nil_append, List.cons_append, List.cons.injEq] at he
      exact hs c (hg c (by simp)) he.1.symm
  | cons x w ih =>
    cases gap with
    | nil =>
      simp only [List.cons_append, List.nil_append, List.cons.injEq] at he
      have := hw x (by simp)
      rw [he.1] at this
      revert this; decide
    | cons c gap =>
      simp only [List.cons_append, List.cons.injEq] at he
      exact ih (fun c hc => hw c (by simp [hc])) gap (fun c hc => hg c (by simp [hc])) (by simpa using he.2)

/-- What is read of a table and of its trailer, from the parts of its text. -/
theorem table_core {F s r A ws d w' q0 : Bytes} {pos : Nat} {runs : List Run} {tr : List (Bytes × Obj)} {bf : Nat} {o : Obj}
    (hd : F.drop pos = s ++ r) (hs : s ++ r = A ++ (b!"trailer" ++ (ws ++ (d ++ (w' ++ (b!"startxref" ++ q0)))))) (hls : A.length < s.length)
    (hfs : find s b!"trailer" 0 = some A.length) (hx4 : A.take 4 = b!"xref") (h116 : 116 ∉ A)
    (hws : ∀ c ∈ ws, isSpace c = true) (hbr : ∀ c, ws.head? = some c → isBreak c = true) (hw' : ∀ c ∈ w', c ∈ white)
    (hsp : Spells false false (.dict tr) d) (hrows : noInside runs)
    (hraw : parseXrefTableRaw F pos = .ok (some (pos, bf, runs.flatMap runRows, o))) :
    ∃ tp, tp = pos + (find s b!"trailer" 0).getD 0 ∧ pos < tp ∧ tp < F.length ∧ slice F pos (pos + 4) = b!"xref" ∧
      tp < pos + s.length ∧ s.head? = some 120 ∧ ((normEntries tr).reverse.map Prod.fst).Nodup ∧
      readTableSection F pos = .ok ({ num := 0, absPos := some (.at tp), xrefTablePos := some pos },
        (runs.flatMap Run.listing).flatMap listed1, .dict (normEntries tr).reverse) ∧
      (∀ e next, e.absPos = some (.at tp) → e.absNext = some next → parseTrailer (.single F) e = .ok (normEntries tr).reverse) := by
  have hdA0 : F.drop pos = A ++ (b!"trailer" ++ (ws ++ (d ++ (w' ++ (b!"startxref" ++ q0))))) := hd.trans hs
  have hns := startxref_tok q0 (w := w') hw'
  have hA4 : 4 ≤ A.length := by
    have := congrArg List.length hx4
    simp only [List.length_take] at this
    simp only [List.length_cons, List.length_nil] at this
    omega
  have hlenA : pos + A.length < F.length := by
    have h2 : (F.drop pos).length = F.length - pos := List.length_drop
    rw [hd, List.length_append] at h2
    omega
  obtain ⟨A', rfl⟩ : ∃ A', A = b!"xref" ++ A' := ⟨A.drop 4, by rw [← hx4, List.take_append_drop]⟩
  have hxref : slice F pos (pos + 4) = b!"xref" := slice_of_drop (post := A' ++ (b!"trailer" ++ (ws ++ (d ++ (w' ++ (b!"startxref" ++ q0)))))) (by rw [hdA0, List.append_assoc])
  have hhead : s.head? = some 120 := by
    cases s with
    | nil => simp at hls
    | cons c s =>
      simp only [List.cons_append, List.cons.injEq] at hs
      rw [hs.1]; rfl
  generalize hAe : b!"xref" ++ A' = A at *
  cases hsp with
  | @dict _ _ _ t h hk hn =>
    obtain ⟨tok, x, hx, hx2, htok, hptok, -⟩ := dict_tokens h hk hn (SpellsAll.reads h)
    have hdA : F.drop pos = A ++ (b!"trailer" ++ (ws ++ (tok ++ (x ++ (w' ++ (b!"startxref" ++ q0)))))) := by
      rw [hdA0, hx]; simp
    have hdel : F.drop (pos + A.length + (b!"trailer").length) = ws ++ ((b!"<<" ++ (t ++ b!">>")) ++ (w' ++ (b!"startxref" ++ q0))) :=
      drop_add_of (drop_add_of hdA0)
    have hparse : parseObj F (pos + A.length + (b!"trailer").length + ws.length) = .ok (.dict (normEntries tr).reverse) := by
      obtain ⟨p1, p2⟩ := drop_split hdel (by simp)
      have := parse_spells (Spells.dict (inD := false) h hk hn) (by simp) (F.take (pos + A.length + (b!"trailer").length) ++ ws) (w' ++ (b!"startxref" ++ q0)) (.inl rfl) (fun _ => hns)
      rw [List.length_append, p2, List.append_assoc, ← p1] at this
      exact this
    have hfind : find F b!"trailer" pos = some (pos + A.length) := by
      unfold find
      rw [hdA]
      exact findAux_first (x := 116) (q := b!"railer") rfl A _ _ h116
    obtain ⟨c, q, hc, hcb⟩ : ∃ c q, ws ++ (tok ++ (x ++ (w' ++ (b!"startxref" ++ q0)))) = c :: q ∧ isBreak c = true := by
      cases ws with
      | nil =>
        refine ⟨60, 60 :: (t ++ b!">>" ++ (w' ++ (b!"startxref" ++ q0))), ?_, by decide⟩
        have : tok ++ (x ++ (w' ++ (b!"startxref" ++ q0))) = (tok ++ x) ++ (w' ++ (b!"startxref" ++ q0)) := by simp
        rw [List.nil_append, this, ← hx]; simp
      | cons c b => exact ⟨c, _, rfl, hbr c rfl⟩
    have d0 : F.drop (pos + A.length) = [] ++ (b!"trailer" ++ c :: q) := by
      rw [drop_add_of hdA, ← hc]; simp
    have t0 := nextToken_at (tokAt_keyword (s := b!"trailer") (by decide) hcb q) (by simp) d0
    simp only [List.length_nil, Nat.add_zero] at t0
    have d1 : F.drop (pos + A.length + (b!"trailer").length) = ws ++ (tok ++ (x ++ (w' ++ (b!"startxref" ++ q0)))) :=
      drop_add_of (drop_add_of hdA)
    have t1 := nextToken_at (htok _) hws d1
    have hsl := slice_of_drop (drop_add_of d1)
    refine ⟨pos + A.length, by rw [hfs]; rfl, by omega, hlenA, hxref, by omega, hhead, ?_, ?_, ?_⟩
    · rw [List.map_reverse, normEntries_keys]
      exact (List.reverse_perm _).nodup_iff.2 hn
    · unfold readTableSection parseXrefTable
      rw [hraw]
      have hn' : natPos ((pos + A.length : Nat) : Int) = .ok (pos + A.length) := by
        unfold natPos
        rw [if_neg (by omega), Int.toNat_natCast]
      simp only [bind, Except.bind, hfind, posOf, tableEntries_runs runs hrows, hn', t0, t1]
      rw [hsl, hptok]
      rfl
    · intro en next h1 h2
      unfold parseTrailer
      rw [readEntry_single h1 h2 hlenA]
      have h0 : nthToken F 0 (pos + A.length) = (pos + A.length, pos + A.length + (b!"trailer").length) := by simp [nthToken, t0]
      have h1 : (nthToken F 0 (pos + A.length + (b!"trailer").length)).1 = pos + A.length + (b!"trailer").length + ws.length := by
        simp only [nthToken, t1]
      have hsl0 : slice F (pos + A.length) (pos + A.length + (b!"trailer").length) = b!"trailer" := slice_of_drop (drop_add_of hdA)
      simp only [bind, Except.bind, h0, hsl0, if_true, h1, hparse]
      rfl

/-- The rows are read and, after the line of the word `trailer`, whatever is there. -/
theorem table_raw {F e rows tail rest : Bytes} {nl : UInt8} {pos : Nat} {runs : List Run} {o : Obj}
    (hd : F.drop pos = b!"xref" ++ (e ++ (rows ++ (tail ++ nl :: rest)))) (he : Eols e) (hrows : RunsText runs rows)
    (ht : tail.take 1 = b!"t") (hte : ∀ c ∈ tail, isEol c = false) (hnl : isEol nl = true)
    (hp : ∀ el, F.drop el = nl :: rest → parseObj F (nextToken F el).1 = .ok o) :
    ∃ bf, parseXrefTableRaw F pos = .ok (some (pos, bf, runs.flatMap runRows, o)) := by
  have hlines := runs_lines hrows
  have hd1 := drop_add_of hd
  have htne : tail ≠ [] := by
    rintro rfl
    simp at ht
  have hloop := loop_lines (text := F) (tail := tail) (nl := nl) (rest := rest) htne (by rw [ht]; rfl) hte hnl hlines (pos + 4) e none []
    (F.length + 1) _ (eols_eol he) (by rw [show pos + 4 = pos + (b!"xref").length from rfl, hd1]) (interp_runs runs none)
    (by
      have h1 := hlines.length
      have h2 : (F.drop pos).length = F.length - pos := List.length_drop
      rw [hd] at h2
      simp only [List.length_append] at h2
      omega)
  generalize hel : pos + 4 + e.length + rows.length + tail.length = el at hloop
  have hdel : F.drop el = nl :: rest := by
    have h2 := drop_add_of (drop_add_of (drop_add_of hd1))
    rw [← h2, ← hel]
    rfl
  refine ⟨(nextToken F el).2.1, ?_⟩
  unfold parseXrefTableRaw
  rw [if_neg (fun hx => hx (slice_of_drop hd))]
  revert hloop
  cases nextLine F (pos + 4) with
  | none => simp
  | some q =>
    intro hloop
    simp only at hloop
    simp only [hloop, bind, Except.bind, hp el hdel]
    rfl

theorem rows_not116 {e rows : Bytes} {runs : List Run} (he : Eols e) (hrows : RunsText runs rows) : 116 ∉ b!"xref" ++ (e ++ rows) := by
  simp only [List.mem_append, not_or]
  refine ⟨by decide, ?_, (runs_lines hrows).not116⟩
  intro hc
  rcases he.2 _ hc with h | h <;> revert h <;> decide

theorem find_trailer {A x : Bytes} (h : 116 ∉ A) : find (A ++ (b!"trailer" ++ x)) b!"trailer" 0 = some A.length := by
  unfold find
  rw [List.drop_zero, findAux_first (x := 116) (q := b!"railer") rfl A _ _ h, Nat.zero_add]

theorem table_at {F s r : Bytes} {pos : Nat} {runs : List Run} {tr : List (Bytes × Obj)} (h : TableText runs tr s)
    (hd : F.drop pos = s ++ r) : ∃ tp, tp = pos + (find s b!"trailer" 0).getD 0 ∧ pos < tp ∧ tp < F.length ∧ slice F pos (pos + 4) = b!"xref" ∧
      tp < pos + s.length ∧ s.head? = some 120 ∧ ((normEntries tr).reverse.map Prod.fst).Nodup ∧
      readTableSection F pos = .ok ({ num := 0, absPos := some (.at tp), xrefTablePos := some pos },
        (runs.flatMap Run.listing).flatMap listed1, .dict (normEntries tr).reverse) ∧
      (∀ e next, e.absPos = some (.at tp) → e.absNext = some next → parseTrailer (.single F) e = .ok (normEntries tr).reverse) := by
  rcases h with ⟨e, rows, b, e', w, d, w', hs, he, hrows, hb, he', hw, hsp⟩ | ⟨e, rows, b, d, b', e', w, c0, hs, he, hrows, hb, hde, hb', he', hw, hc0, hsp⟩
  · have h116 := rows_not116 he hrows
    have hs' : s = (b!"xref" ++ (e ++ rows)) ++ (b!"trailer" ++ ((b ++ (e' ++ w)) ++ (d ++ (w' ++ b!"startxref")))) := by rw [hs]; simp
    obtain ⟨nl, e1, rfl⟩ : ∃ x y, e' = x :: y := by
      cases e' with
      | nil => exact absurd rfl he'.1
      | cons a b => exact ⟨a, b, rfl⟩
    have hws : ∀ c ∈ nl :: (e1 ++ w), isSpace c = true := by
      intro c hc
      have : c ∈ (nl :: e1) ++ w := hc
      rcases List.mem_append.1 this with hc | hc
      · rcases he'.2 c hc with rfl | rfl <;> rfl
      · exact isSpace_of_white (hw c (by simp [hc]))
    have hw' : ∀ c ∈ w', c ∈ white := fun c hc => hw c (by simp [hc])
    have hns := startxref_tok r (w := w') hw'
    have hraw : ∃ bf, parseXrefTableRaw F pos = .ok (some (pos, bf, runs.flatMap runRows, .dict (normEntries tr).reverse)) := by
      refine table_raw (e := e) (rows := rows) (tail := b!"trailer" ++ b) (nl := nl) (rest := e1 ++ (w ++ (d ++ (w' ++ (b!"startxref" ++ r)))))
        (by rw [hd, hs]; simp) he hrows rfl ?_ (eols_eol he' nl (by simp)) ?_
      · intro c hc
        rcases List.mem_append.1 hc with hc | hc
        · have : ∀ c ∈ b!"trailer", isEol c = false := by decide
          exact this c hc
        · exact blank_not_eol hb c hc
      · intro el hel
        cases hsp with
        | @dict _ _ _ t h hk hn =>
          obtain ⟨tok, x, hx, hx2, htok, hptok, -⟩ := dict_tokens h hk hn (SpellsAll.reads h)
          have hdel : F.drop el = (nl :: (e1 ++ w)) ++ ((b!"<<" ++ (t ++ b!">>")) ++ (w' ++ (b!"startxref" ++ r))) := by rw [hel]; simp
          have hdel' : F.drop el = (nl :: (e1 ++ w)) ++ (tok ++ (x ++ (w' ++ (b!"startxref" ++ r)))) := by
            rw [hdel, hx]; simp
          rw [nextToken_at (htok _) hws hdel']
          obtain ⟨p1, p2⟩ := drop_split hdel (by simp)
          have := parse_spells (Spells.dict (inD := false) h hk hn) (by simp) (F.take el ++ (nl :: (e1 ++ w))) (w' ++ (b!"startxref" ++ r)) (.inl rfl) (fun _ => hns)
          rw [List.length_append, p2, List.append_assoc, ← p1] at this
          exact this
    obtain ⟨bf, hraw⟩ := hraw
    refine table_core (A := b!"xref" ++ (e ++ rows)) (ws := b ++ (nl :: e1 ++ w)) (w' := w') (q0 := r) hd ?_ ?_ ?_ rfl h116 ?_ ?_ hw' hsp (runs_noInside hrows) hraw
    · rw [hs]; simp
    · rw [hs']; simp only [List.length_append, List.length_cons]; omega
    · rw [hs']; exact find_trailer h116
    · intro c hc
      rcases List.mem_append.1 hc with hc | hc
      · rcases hb c hc with rfl | rfl <;> rfl
      · exact hws c hc
    · intro c hc
      cases b with
      | nil =>
        simp only [List.nil_append, List.cons_append, List.head?_cons, Option.some.injEq] at hc
        subst hc
        rcases he'.2 nl (by simp) with rfl | rfl <;> rfl
      | cons c' b =>
        simp only [List.cons_append, List.head?_cons, Option.some.injEq] at hc
        subst hc
        rcases hb c' (by simp) with rfl | rfl <;> rfl
  · have h116 := rows_not116 he hrows
    have hs' : s = (b!"xref" ++ (e ++ rows)) ++ (b!"trailer" ++ (b ++ (d ++ ((b' ++ (e' ++ w)) ++ (b!"startxref" ++ [c0]))))) := by rw [hs]; simp
    obtain ⟨nl, e1, rfl⟩ : ∃ x y, e' = x :: y := by
      cases e' with
      | nil => exact absurd rfl he'.1
      | cons a b => exact ⟨a, b, rfl⟩
    have hws : ∀ c ∈ nl :: (e1 ++ w), isSpace c = true := by
      intro c hc
      have : c ∈ (nl :: e1) ++ w := hc
      rcases List.mem_append.1 this with hc | hc
      · rcases he'.2 c hc with rfl | rfl <;> rfl
      · exact isSpace_of_white (hw c hc)
    have hbk : isBreak c0 = true := by
      have : ∀ c ∈ white, isBreak c = true := by decide
      exact this c0 hc0
    have hraw : ∃ bf, parseXrefTableRaw F pos = .ok (some (pos, bf, runs.flatMap runRows, .str b!"startxref")) := by
      refine table_raw (e := e) (rows := rows) (tail := b!"trailer" ++ (b ++ (d ++ b'))) (nl := nl) (rest := e1 ++ (w ++ (b!"startxref" ++ c0 :: r)))
        (by rw [hd, hs]; simp) he hrows rfl ?_ (eols_eol he' nl (by simp)) ?_
      · intro c hc
        simp only [List.mem_append] at hc
        rcases hc with hc | hc | hc | hc
        · have : ∀ c ∈ b!"trailer", isEol c = false := by decide
          exact this c hc
        · exact blank_not_eol hb c hc
        · have := hde c hc
          simp [isEol, this.1, this.2]
        · exact blank_not_eol hb' c hc
      · intro el hel
        have hdel : F.drop el = (nl :: (e1 ++ w)) ++ (b!"startxref" ++ c0 :: r) := by rw [hel]; simp
        rw [nextToken_at (tokAt_keyword (s := b!"startxref") (by decide) hbk r) hws hdel]
        obtain ⟨p1, p2⟩ := drop_split hdel (by simp)
        have := parse_spells (Spells.keyword (inD := false) (inA := false) (s := b!"startxref") (by decide)) (by simp) (F.take el ++ (nl :: (e1 ++ w))) (c0 :: r)
          (.inr ⟨_, _, rfl, hbk⟩) (by simp)
        rw [List.length_append, p2, List.append_assoc, ← p1] at this
        exact this
    obtain ⟨bf, hraw⟩ := hraw
    refine table_core (A := b!"xref" ++ (e ++ rows)) (ws := b) (w' := b' ++ (nl :: e1 ++ w)) (q0 := c0 :: r) hd ?_ ?_ ?_ rfl h116 ?_ ?_ ?_ hsp (runs_noInside hrows) hraw
    · rw [hs]; simp
    · rw [hs']; simp only [List.length_append, List.length_cons]; omega
    · rw [hs']; exact find_trailer h116
    · intro c hc
      rcases hb c hc with rfl | rfl <;> rfl
    · intro c hc
      cases b with
      | nil => simp at hc
      | cons c' b =>
        simp only [List.head?_cons, Option.some.injEq] at hc
        subst hc
        rcases hb c' (by simp) with rfl | rfl <;> rfl
    · intro c hc
      rcases List.mem_append.1 hc with hc | hc
      · rcases hb' c hc with rfl | rfl <;> decide
      · rcases List.mem_append.1 hc with hc | hc
        · rcases he'.2 c hc with rfl | rfl <;> decide
        · exact hw c hc

end Pdf
