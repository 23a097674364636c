/-
C90: the rendering of markdown ends, and makes balanced HTML (markdown.py:5-298).
-/
import Verif.Lemmas.MarkdownBlocks
import Verif.Lemmas.Reload
import Verif.Lemmas.KernelRfl
import Verif.Props.C87_Links
import Verif.Props.C88_Emphasis

namespace Pdf

/-- The texts and the types of a tree. -/
inductive MdAll (C : UInt8 → Prop) (K : Bytes → Prop) : Md → Prop
  | text {s : Bytes} : (∀ c ∈ s, C c) → MdAll C K (.text s)
  | node {t : Bytes} {items : List Md} : K t → (∀ m ∈ items, MdAll C K m) → MdAll C K (.node t items)

theorem mem_stripCR {l : Bytes} {c : UInt8} (h : c ∈ stripCR l) : c ∈ l := by
  unfold stripCR at h
  rw [List.mem_reverse] at h
  have h := (List.dropWhile_sublist _).subset h
  rw [List.mem_reverse] at h
  exact (List.dropWhile_sublist _).subset h

theorem mem_slice {α : Type} {l : List α} {i j : Nat} {x : α} (h : x ∈ slice l i j) : x ∈ l :=
  List.mem_of_mem_take (List.mem_of_mem_drop h)

theorem mem_pySlice {α : Type} {l : List α} {i j : Int} {x : α} (h : x ∈ pySlice l i j) : x ∈ l := mem_slice h

theorem mem_splitOn {c : UInt8} : ∀ {s w : Bytes} {x : UInt8}, w ∈ splitOn c s → x ∈ w → x ∈ s
  | [], w, x, h, hx => by
    rw [splitOn, List.mem_singleton] at h
    rw [h] at hx; cases hx
  | y :: s, w, x, h, hx => by
    rw [splitOn] at h
    split at h
    · rcases List.mem_cons.1 h with rfl | h
      · cases hx
      · exact List.mem_cons_of_mem _ (mem_splitOn h hx)
    · split at h
      · rename_i w' ws e
        rcases List.mem_cons.1 h with rfl | h
        · rcases List.mem_cons.1 hx with rfl | hx
          · exact List.mem_cons_self ..
          · exact List.mem_cons_of_mem _ (mem_splitOn (e ▸ List.mem_cons_self ..) hx)
        · exact List.mem_cons_of_mem _ (mem_splitOn (e ▸ List.mem_cons_of_mem _ h) hx)
      · rw [List.mem_singleton] at h
        rw [h, List.mem_singleton] at hx
        rw [hx]; exact List.mem_cons_self ..

theorem mem_ite_nil {α : Type} {p : Prop} [Decidable p] {l : List α} {x : α} (h : x ∈ if p then [] else l) : x ∈ l := by
  split at h
  · cases h
  · exact h

theorem mem_ite_nil' {α : Type} {p : Prop} [Decidable p] {l : List α} {x : α} (h : x ∈ if p then l else []) : x ∈ l := by
  split at h
  · exact h
  · cases h

/-- What is asked of the lines of a document, for trees with these characters and these types. -/
structure LinesOk (C : UInt8 → Prop) (K : Bytes → Prop) (lines : List Bytes) : Prop where
  chars : ∀ l ∈ lines, ∀ c ∈ l, C c
  newline : C 10
  breaks : (∃ l ∈ lines, lastN (stripCR l) 2 = b!"  ") → ∀ c ∈ b!"<br>", C c
  tags : K b!"PRE" ∧ K b!"H1" ∧ K b!"H2" ∧ K b!"LI" ∧ K b!"OL" ∧ K b!"UL" ∧ K b!"TH" ∧ K b!"TD" ∧ K b!"TR" ∧ K b!"THEAD" ∧ K b!"TBODY" ∧ K b!"TABLE" ∧
    K b!"P" ∧ K b!"BLOCKQUOTE"
  heads : ∀ n, K (b!"H" ++ natDec n)
  rules : (∃ l ∈ lines, ∃ c, (c = 61 ∨ c = 45) ∧ stripCR l ≠ [] ∧ stripCR l = List.replicate (stripCR l).length c ∧ l.take 2 ≠ [c, c]) → K []

section
variable {C : UInt8 → Prop} {K : Bytes → Prop} {lines : List Bytes}

theorem codeLines_chars (hn : C 10) (fenced : Bool) : ∀ (ls : List Bytes), (∀ l ∈ ls, ∀ c ∈ l, C c) → ∀ l ∈ codeLines fenced ls, ∀ c ∈ l, C c
  | [], _ => by intro l h; cases h
  | l :: ls, h => by
    have ih := codeLines_chars hn fenced ls fun x hx => h x (List.mem_cons_of_mem _ hx)
    have h0 : ∀ c ∈ stripCR l ++ b!"\n", C c := by
      intro c hc
      rcases List.mem_append.1 hc with hc | hc
      · exact h l (List.mem_cons_self ..) c (mem_stripCR hc)
      · rw [List.mem_singleton] at hc; rw [hc]; exact hn
    intro x hx
    have hx : x ∈ (stripCR l ++ b!"\n") :: codeLines fenced ls := by
      unfold codeLines at hx
      cases fenced with
      | true => exact mem_ite_nil hx
      | false => exact mem_ite_nil' hx
    rcases List.mem_cons.1 hx with rfl | hx
    · exact h0
    · exact ih x hx

theorem code_all (ok : LinesOk C K lines) (i : Nat) (fenced : Bool) : MdAll C K (parseCodeBlock lines i fenced).2 ∧ i ≤ (parseCodeBlock lines i fenced).1 := by
  refine ⟨.node ok.tags.1 ?_, Nat.le_add_right ..⟩
  intro m hm
  obtain ⟨l, hl, rfl⟩ := List.mem_map.1 hm
  exact .text (codeLines_chars ok.newline fenced _ (fun l hl => ok.chars l (List.mem_of_mem_drop hl)) l hl)

theorem listItems_all (hk : K b!"LI") (ordered : Bool) (ref : Nat) : ∀ (ls : List Bytes), (∀ l ∈ ls, ∀ c ∈ l, C c) →
    ∀ m ∈ listItems ordered ref ls, MdAll C K m
  | [], _ => by intro m h; cases h
  | l :: ls, h => by
    have ih := listItems_all hk ordered ref ls fun x hx => h x (List.mem_cons_of_mem _ hx)
    intro m hm
    rw [listItems] at hm
    rcases List.mem_cons.1 (mem_ite_nil (mem_ite_nil hm)) with rfl | hm
    · refine .node hk ?_
      intro m hm
      rw [List.mem_singleton] at hm
      subst hm
      exact .text fun c hc => h l (List.mem_cons_self ..) c (mem_stripCR (List.mem_of_mem_drop hc))
    · exact ih m hm

theorem list_all (ok : LinesOk C K lines) (i : Nat) (ordered : Bool) : MdAll C K (parseList lines i ordered).2 ∧ i ≤ (parseList lines i ordered).1 := by
  obtain ⟨_, _, _, t4, t5, t6, _⟩ := ok.tags
  refine ⟨.node (by cases ordered; exact t6; exact t5) ?_, Nat.le_add_right ..⟩
  exact listItems_all t4 ordered _ _ fun l hl => ok.chars l (List.mem_of_mem_drop hl)

theorem rowCells_all {typ ln : Bytes} {indent : Nat} (hk : K typ) (h : ∀ c ∈ ln, C c) : ∀ m ∈ rowCells typ ln indent, MdAll C K m := by
  intro m hm
  obtain ⟨td, htd, rfl⟩ := List.mem_map.1 hm
  refine .node hk ?_
  intro m hm
  rw [List.mem_singleton] at hm
  subst hm
  exact .text fun c hc => h c (List.mem_of_mem_drop (mem_splitOn (mem_pySlice htd) hc))

theorem tableRows_all (h1 : K b!"TH") (h2 : K b!"TD") (h3 : K b!"TR") (h4 : K b!"THEAD") (ref : Nat) : ∀ (ls : List Bytes) (header : Bool),
    (∀ l ∈ ls, ∀ c ∈ l, C c) →
    (∃ n h b, tableRows ref ls header = .ok (n, h, b) ∧ (∀ m ∈ h, MdAll C K m) ∧ ∀ m ∈ b, MdAll C K m) ∨
      ((∃ l ∈ ls, 124 ∈ l) ∧ tableRows ref ls header = .error .indexError)
  | [], _, _ => .inl ⟨0, [], [], rfl, by simp, by simp⟩
  | l :: ls, header, h => by
    have ih := tableRows_all h1 h2 h3 h4 ref ls false fun x hx => h x (List.mem_cons_of_mem _ hx)
    have hl : ∀ c ∈ stripCR l, C c := fun c hc => h l (List.mem_cons_self ..) c (mem_stripCR hc)
    rw [tableRows]
    simp only
    split
    · exact .inl ⟨0, [], [], rfl, by simp, by simp⟩
    · rename_i hb
      have h124 : 124 ∈ l := by
        have hb : (indentFirst (stripCR l)).2.head? = some 124 := Classical.byContradiction fun hh => hb hh
        have := List.mem_of_mem_head? hb
        exact mem_stripCR (List.mem_of_mem_drop ((List.takeWhile_sublist _).subset this))
      split
      · exact .inl ⟨0, [], [], rfl, by simp, by simp⟩
      · split
        · rcases ih with ⟨n, hd, b, e, a1, a2⟩ | ⟨⟨x, hx, hx'⟩, e⟩
          · rw [e]
            refine .inl ⟨_, _, _, rfl, ?_, a2⟩
            intro m hm
            rcases List.mem_cons.1 hm with rfl | hm
            · refine .node h4 ?_
              intro m hm
              rw [List.mem_singleton] at hm
              subst hm
              exact .node h3 (rowCells_all h1 hl)
            · exact a1 m hm
          · rw [e]
            exact .inr ⟨⟨x, List.mem_cons_of_mem _ hx, hx'⟩, rfl⟩
        · split
          · exact .inr ⟨⟨l, List.mem_cons_self .., h124⟩, rfl⟩
          · rcases ih with ⟨n, hd, b, e, a1, a2⟩ | ⟨⟨x, hx, hx'⟩, e⟩
            · rw [e]
              refine .inl ⟨_, _, _, rfl, a1, ?_⟩
              intro m hm
              split at hm
              · rcases List.mem_cons.1 hm with rfl | hm
                · exact .node h3 (rowCells_all h2 hl)
                · exact a2 m hm
              · exact a2 m hm
            · rw [e]
              exact .inr ⟨⟨x, List.mem_cons_of_mem _ hx, hx'⟩, rfl⟩

theorem table_all (ok : LinesOk C K lines) (i : Nat) :
    (∃ j m, parseTable lines i = .ok (j, m) ∧ i ≤ j ∧ MdAll C K m) ∨ ((∃ l ∈ lines, 124 ∈ l) ∧ parseTable lines i = .error .indexError) := by
  obtain ⟨_, _, _, _, _, _, t7, t8, t9, t10, t11, t12, _⟩ := ok.tags
  unfold parseTable
  simp only
  rcases tableRows_all t7 t8 t9 t10 (indentFirst (lines.getD i [])).1 (lines.drop i) true fun l hl => ok.chars l (List.mem_of_mem_drop hl) with
    ⟨n, h, b, e, a1, a2⟩ | ⟨⟨x, hx, hx'⟩, e⟩
  · rw [e]
    refine .inl ⟨_, _, rfl, Nat.le_add_right .., .node t12 ?_⟩
    intro m hm
    rcases List.mem_append.1 hm with hm | hm
    · exact a1 m hm
    · rw [List.mem_singleton] at hm
      subst hm
      exact .node t11 a2
  · rw [e]
    exact .inr ⟨⟨x, List.mem_of_mem_drop hx, hx'⟩, rfl⟩

/-- The line `i` opens a quotation. -/
def OpensQuote (lines : List Bytes) (i start : Nat) : Prop :=
  (indentFirst (stripCR (lines.getD i []))).2 = [] ∧ 0 < (indentFirst (stripCR (lines.getD i []))).1 ∧ start < (indentFirst (stripCR (lines.getD i []))).1 + 1

theorem flushP_all (ok : LinesOk C K lines) {blocks : List Md} {b : List Bytes} (h1 : ∀ m ∈ blocks, MdAll C K m) (h2 : ∀ l ∈ b, ∀ c ∈ l, C c) :
    ∀ m ∈ flushP blocks b, MdAll C K m := by
  intro m hm
  unfold flushP at hm
  split at hm
  · exact h1 m hm
  · rcases List.mem_append.1 hm with hm | hm
    · exact h1 m hm
    · rw [List.mem_singleton] at hm
      subst hm
      refine .node ok.tags.2.2.2.2.2.2.2.2.2.2.2.2.1 ?_
      intro m hm
      rw [List.mem_singleton] at hm
      subst hm
      refine .text ?_
      intro c hc
      obtain ⟨l, hl, hc⟩ := List.mem_flatten.1 hc
      exact h2 l hl c hc

theorem all_snoc {blocks : List Md} {m : Md} (h1 : ∀ m ∈ blocks, MdAll C K m) (h2 : MdAll C K m) : ∀ x ∈ blocks ++ [m], MdAll C K x := by
  intro x hx
  rcases List.mem_append.1 hx with hx | hx
  · exact h1 x hx
  · rw [List.mem_singleton] at hx; rw [hx]; exact h2

/-- How the parser ends. -/
def Ends (C : UInt8 → Prop) (K : Bytes → Prop) (lines : List Bytes) (i : Nat) (r : Py (List Md × Nat)) : Prop :=
  (∃ ms j, r = .ok (ms, j) ∧ i ≤ j ∧ ∀ m ∈ ms, MdAll C K m) ∨ ((∃ l ∈ lines, 124 ∈ l) ∧ r = .error .indexError)

theorem Ends.weaken {i j : Nat} {r : Py (List Md × Nat)} (h : Ends C K lines j r) (hij : i ≤ j) : Ends C K lines i r := by
  rcases h with ⟨ms, k, e, h1, h2⟩ | h
  · exact .inl ⟨ms, k, e, by omega, h2⟩
  · exact .inr h

theorem pyItem_last {l : List Bytes} (h : l ≠ []) : ∃ x ∈ l, pyItem l (-1) = some x := by
  have hl : 0 < l.length := List.length_pos_iff.2 h
  refine ⟨l[l.length - 1], List.getElem_mem _, ?_⟩
  unfold pyItem
  rw [if_pos (by omega), if_neg (by omega), show ((l.length : Int) + -1).toNat = l.length - 1 by omega, List.getElem?_eq_getElem]

theorem ends_ite {i : Nat} {p : Prop} [Decidable p] {a b : Py (List Md × Nat)} (h1 : p → Ends C K lines i a) (h2 : ¬ p → Ends C K lines i b) :
    Ends C K lines i (if p then a else b) := by
  by_cases h : p
  · rw [if_pos h]; exact h1 h
  · rw [if_neg h]; exact h2 h

theorem parseMd_ends (ok : LinesOk C K lines) : ∀ (fuel i start : Nat) (blocks : List Md) (b : List Bytes),
    2 * (lines.length - i) + 1 ≤ fuel ∨ (¬ OpensQuote lines i start ∧ 2 * (lines.length - i) ≤ fuel ∧ i < lines.length) →
    (∀ m ∈ blocks, MdAll C K m) → (∀ l ∈ b, ∀ c ∈ l, C c) → Ends C K lines i (parseMd lines fuel i start blocks b)
  | 0, i, start, blocks, b, hf, _, _ => by omega
  | fuel + 1, i, start, blocks, b, hf, hbl, hb => by
    rw [parseMd]
    cases hi : lines[i]? with
    | none => exact .inl ⟨blocks, i, rfl, by omega, hbl⟩
    | some line =>
      have hil : i < lines.length := (List.getElem?_eq_some_iff.1 hi).1
      have hmem : line ∈ lines := List.mem_of_getElem? hi
      have hD : lines.getD i [] = line := by rw [List.getD_eq_getElem?_getD, hi]; rfl
      have hfl := flushP_all ok hbl hb
      have hnil : ∀ l ∈ ([] : List Bytes), ∀ c ∈ l, C c := by intro l h; cases h
      -- after the line, or further on
      have next : ∀ (j : Nat) (blocks : List Md) (b : List Bytes), i < j → (∀ m ∈ blocks, MdAll C K m) → (∀ l ∈ b, ∀ c ∈ l, C c) →
          Ends C K lines i (parseMd lines fuel j start blocks b) := by
        intro j blocks b hj h1 h2
        exact (parseMd_ends ok fuel j start blocks b (.inl (by omega)) h1 h2).weaken (by omega)
      dsimp only
      refine ends_ite (fun _ => ?_) fun h1 => ?_
      · exact .inl ⟨_, i, rfl, by omega, hfl⟩
      · refine ends_ite (fun h2 => ?_) fun _ => ?_
        · -- a quotation
          have hopen : OpensQuote lines i start := by unfold OpensQuote; rw [hD]; exact h2
          have hsub := parseMd_ends ok fuel i ((indentFirst (stripCR line)).1 + 1) [] [] (.inr ⟨by
            unfold OpensQuote; rw [hD]; omega, by
            rcases hf with hf | hf
            · omega
            · exact absurd hopen hf.1, hil⟩) (by intro m h; cases h) hnil
          rcases hsub with ⟨ms, j, e, hj, ha⟩ | ⟨hp, e⟩
          · rw [e]
            exact next (j + 1) _ _ (by omega) (all_snoc hfl (.node ok.tags.2.2.2.2.2.2.2.2.2.2.2.2.2 ha)) hnil
          · rw [e]
            exact .inr ⟨hp, rfl⟩
        · refine ends_ite (fun _ => ?_) fun _ => ?_
          · have := code_all ok (i + 1) true
            exact next _ _ _ (by have := this.2; omega) (all_snoc hfl this.1) hnil
          · refine ends_ite (fun _ => ?_) fun _ => ?_
            · have := code_all ok i false
              exact next _ _ _ (by have := this.2; omega) (all_snoc hfl this.1) hnil
            · refine ends_ite (fun hu => ?_) fun _ => ?_
              · -- a title above
                obtain ⟨x, hx, hxe⟩ : ∃ x ∈ lines, pyItem lines ((i : Int) - 1) = some x := by
                  cases i with
                  | zero => exact pyItem_last (by intro e; rw [e] at hil; simp at hil)
                  | succ i =>
                    refine ⟨lines[i], List.getElem_mem _, ?_⟩
                    unfold pyItem
                    rw [if_neg (by omega), show (((i + 1 : Nat) : Int) - 1).toNat = i by omega, List.getElem?_eq_getElem]
                have hu2 : pyItem lines ((i : Int) - 1 + 1) = some line := by
                  unfold pyItem
                  rw [if_neg (by omega), show ((i : Int) - 1 + 1).toNat = i by omega]
                  exact hi
                unfold parseUnderlined
                rw [hxe, hu2]
                show Ends C K lines i (parseMd lines fuel (((i : Int) - 1 + 1 + 1).toNat) start _ [])
                refine next _ _ _ (by omega) (all_snoc hbl (.node ?_ ?_)) hnil
                · split
                  · exact ok.tags.2.1
                  · split
                    · exact ok.tags.2.2.1
                    · rename_i g1 g2
                      refine ok.rules ⟨line, hmem, ?_⟩
                      rcases hu.2 with h | h
                      · exact ⟨61, .inl rfl, hu.1, h, g1⟩
                      · exact ⟨45, .inr rfl, hu.1, h, g2⟩
                · intro m hm
                  rw [List.mem_singleton] at hm
                  subst hm
                  exact .text fun c hc => ok.chars x hx c (mem_stripCR hc)
              · refine ends_ite (fun _ => ?_) fun _ => ?_
                · refine next _ _ _ (by omega) (all_snoc hfl (.node (ok.heads _) ?_)) hnil
                  intro m hm
                  rw [List.mem_singleton] at hm
                  subst hm
                  exact .text fun c hc => ok.chars line hmem c (mem_stripCR (List.mem_of_mem_drop hc))
                · refine ends_ite (fun _ => ?_) fun _ => ?_
                  · have := list_all ok i false
                    exact next _ _ _ (by have := this.2; omega) (all_snoc hfl this.1) hnil
                  · refine ends_ite (fun _ => ?_) fun _ => ?_
                    · have := list_all ok i true
                      exact next _ _ _ (by have := this.2; omega) (all_snoc hfl this.1) hnil
                    · refine ends_ite (fun _ => ?_) fun _ => ?_
                      · rcases table_all ok i with ⟨j, m, e, hj, ha⟩ | ⟨hp, e⟩
                        · rw [e]
                          exact next (j + 1) _ _ (by omega) (all_snoc hfl ha) hnil
                        · rw [e]
                          exact .inr ⟨hp, rfl⟩
                      · refine ends_ite (fun _ => ?_) fun _ => ?_
                        · exact next _ _ _ (by omega) hfl hnil
                        · refine next _ _ _ (by omega) hbl ?_
                          intro l hl c hc
                          rcases List.mem_append.1 hl with hl | hl
                          · rcases List.mem_append.1 hl with hl | hl
                            · exact hb l hl c hc
                            · rw [List.mem_singleton] at hl
                              subst hl
                              exact ok.chars line hmem c (List.mem_of_mem_drop hc)
                          · split at hl
                            · rename_i h2
                              rw [List.mem_singleton] at hl
                              subst hl
                              exact ok.breaks ⟨line, hmem, h2⟩ c hc
                            · cases hl

end

theorem linesOk_true (lines : List Bytes) : LinesOk (fun _ => True) (fun _ => True) lines :=
  ⟨fun _ _ _ _ => trivial, trivial, fun _ _ _ => trivial, by simp, fun _ => trivial, fun _ => trivial⟩

/-- **C90.** The parser of markdown ends on every document: it makes a tree, or ends with an error, for which a bar of a table is
needed (`C89_table_counterexample` shows such a document). -/
theorem C90_parses (lines : List Bytes) : (∃ ms j, parseMarkdown lines = .ok (ms, j)) ∨
    ((∃ l ∈ lines, 124 ∈ l) ∧ parseMarkdown lines = .error .indexError) := by
  rcases parseMd_ends (linesOk_true lines) (2 * lines.length + 1) 0 0 [] [] (.inl (by omega)) (by intro m h; cases h) (by intro m h; cases h) with
    ⟨ms, j, e, _⟩ | h
  · exact .inl ⟨ms, j, e⟩
  · exact .inr h

/-! ### The whole -/

theorem link_plain {s : Bytes} (h : 93 ∉ s) : link s = .ok s := by
  have hn : ∀ f, ¬ b!"](" <+: s.drop f := by
    rintro f ⟨t, e⟩
    exact h (List.mem_of_mem_drop (i := f) (e ▸ by simp))
  unfold link linkLoop
  have : linkStep s {} = none := by
    unfold linkStep
    split
    · rw [find_eq_none (by simp) (fun j _ => hn j)]
    · rfl
  rw [this]
  rfl

mutual
theorem assembleItems_ok {C : UInt8 → Prop} {K : Bytes → Prop} (hC : ¬ C 93) (typ : Bytes) : ∀ (ms : List Md), (∀ m ∈ ms, MdAll C K m) →
    ∃ H, assembleItems typ ms = .ok H
  | [], _ => ⟨[], rfl⟩
  | m :: ms, h => by
    obtain ⟨x, hx⟩ := assembleItem_ok hC typ m (h m (List.mem_cons_self ..))
    obtain ⟨y, hy⟩ := assembleItems_ok hC typ ms fun a ha => h a (List.mem_cons_of_mem _ ha)
    exact ⟨x ++ y, by rw [assembleItems, hx, hy]; rfl⟩

theorem assembleItem_ok {C : UInt8 → Prop} {K : Bytes → Prop} (hC : ¬ C 93) (typ : Bytes) : ∀ (m : Md), MdAll C K m →
    ∃ H, assembleItem typ m = .ok H
  | .text s, h => by
    cases h with
    | text h =>
      rw [assembleItem]
      split
      · rw [mdTags, link_plain (fun hm => hC (h 93 hm))]; exact ⟨_, rfl⟩
      · exact ⟨_, rfl⟩
  | .node t items, h => by
    cases h with
    | node h1 h2 =>
      obtain ⟨x, hx⟩ := assembleItems_ok hC t items h2
      rw [assembleItem, hx]
      exact ⟨_, rfl⟩
end

/-- **C90.** Without `]`, for which `link` may not end (C87), the whole ends; without `|` too, it makes a text. -/
theorem C90_renders (md : Bytes) (h : 93 ∉ md) : (∃ H, renderHtml md = .ok H) ∨ (124 ∈ md ∧ renderHtml md = .error .indexError) := by
  have ok : LinesOk (fun c => c ≠ 93) (fun _ => True) (splitOn 10 md) :=
    ⟨fun l hl c hc => by rintro rfl; exact h (mem_splitOn hl hc), by decide, fun _ => by decide, by simp, fun _ => trivial, fun _ => trivial⟩
  unfold renderHtml parseMarkdown
  rcases parseMd_ends ok (2 * (splitOn 10 md).length + 1) 0 0 [] [] (.inl (by omega)) (by intro m h; cases h) (by intro m h; cases h) with
    ⟨ms, j, e, _, ha⟩ | ⟨⟨l, hl, hl'⟩, e⟩
  · rw [e]
    exact .inl (assembleItems_ok (by simp) [] ms ha)
  · rw [e]
    exact .inr ⟨mem_splitOn hl hl', rfl⟩

/-! ### Balanced tags -/

/-- A name of an element: letters and digits. -/
def TagName (t : Bytes) : Prop := t ≠ [] ∧ ∀ c ∈ t, (97 ≤ c ∧ c ≤ 122) ∨ (48 ≤ c ∧ c ≤ 57)

/-- Texts where every opening tag is closed, in the right order: a text without `<`, an element around such a text, and the
succession of two of them. -/
inductive Balanced : Bytes → Prop
  | text {t : Bytes} : 60 ∉ t → Balanced t
  | elem {tag x : Bytes} : TagName tag → Balanced x → Balanced (b!"<" ++ tag ++ b!">" ++ x ++ b!"</" ++ tag ++ b!">")
  | append {x y : Bytes} : Balanced x → Balanced y → Balanced (x ++ y)

theorem Balanced.of_tags {op cl tag x : Bytes} (h1 : op = b!"<" ++ tag ++ b!">") (h2 : cl = b!"</" ++ tag ++ b!">") (ht : TagName tag) (hx : Balanced x) :
    Balanced (op ++ x ++ cl) := by
  have := Balanced.elem ht hx
  rw [h1, h2]
  simpa using this

theorem balanced_slice {s : Bytes} (h : 60 ∉ s) (i j : Nat) : Balanced (slice s i j) := .text fun hm => h (mem_slice hm)

theorem styleChar_balanced {s : Bytes} (h : 60 ∉ s) (c p : UInt8) (st : StyleState) (hb : Balanced st.res) : Balanced (styleChar s c p st).res := by
  unfold styleChar
  split
  · split
    · exact .append hb (balanced_slice h _ _)
    · split
      · exact .append hb (balanced_slice h _ _)
      · exact hb
  · split
    · split
      · exact .append hb (.of_tags (tag := b!"code") rfl rfl ⟨by simp, by decide⟩ (balanced_slice h _ _))
      · exact hb
    · split
      · split <;> exact hb
      · split
        · split
          · refine .append hb ?_
            split
            · exact .of_tags (tag := b!"em") rfl rfl ⟨by simp, by decide⟩ (balanced_slice h _ _)
            · split
              · exact .of_tags (tag := b!"strong") rfl rfl ⟨by simp, by decide⟩ (balanced_slice h _ _)
              · split
                · have := Balanced.elem (tag := b!"em") ⟨by simp, by decide⟩ (.elem (tag := b!"strong") ⟨by simp, by decide⟩ (balanced_slice h (st.current + List.length ‹Bytes›) st.i))
                  simpa using this
                · exact .text (by simp)
          · exact hb
        · exact hb

theorem styleLoop_balanced {s : Bytes} (h : 60 ∉ s) : ∀ (fuel : Nat) (st : StyleState), Balanced st.res → Balanced (styleLoop s fuel st)
  | 0, _, hb => hb
  | fuel + 1, st, hb => by
    rw [styleLoop]
    split
    · exact hb
    · refine styleLoop_balanced h fuel _ ?_
      rename_i c _
      have := styleChar_balanced h c (if 0 < st.i then s.getD (st.i - 1) 0 else 32) st hb
      generalize styleChar s c (if 0 < st.i then s.getD (st.i - 1) 0 else 32) st = st' at this ⊢
      dsimp only
      split
      · exact .append this (balanced_slice h _ _)
      · exact this

/-- Types of blocks: capitals and digits. -/
def BlockType (t : Bytes) : Prop := t ≠ [] ∧ ∀ c ∈ t, (65 ≤ c ∧ c ≤ 90) ∨ (48 ≤ c ∧ c ≤ 57)

theorem lower_type {t : Bytes} (h : BlockType t) : TagName (lowerText t) := by
  obtain ⟨h1, h2⟩ := h
  refine ⟨by simpa [lowerText] using h1, ?_⟩
  intro c hc
  obtain ⟨d, hd, rfl⟩ := List.mem_map.1 hc
  have h2 := h2 d hd
  by_cases hc : 65 ≤ d ∧ d ≤ 90
  · rw [if_pos hc]
    left
    simp only [UInt8.le_iff_toNat_le, UInt8.toNat_add] at hc ⊢
    have e1 : (65 : UInt8).toNat = 65 := rfl
    have e2 : (90 : UInt8).toNat = 90 := rfl
    have e3 : (97 : UInt8).toNat = 97 := rfl
    have e4 : (122 : UInt8).toNat = 122 := rfl
    have e5 : (32 : UInt8).toNat = 32 := rfl
    omega
  · rw [if_neg hc]
    exact .inr (h2.resolve_left hc)

mutual
theorem assembleItems_balanced (typ : Bytes) : ∀ (ms : List Md), (∀ m ∈ ms, MdAll (fun c => c ≠ 60 ∧ c ≠ 93) BlockType m) →
    ∀ H, assembleItems typ ms = .ok H → Balanced H
  | [], _, H, e => by
    rw [assembleItems] at e
    cases e
    exact .text (by simp)
  | m :: ms, h, H, e => by
    rw [assembleItems] at e
    obtain ⟨x, hx, e⟩ := bind_eq_ok e
    obtain ⟨y, hy, e⟩ := bind_eq_ok e
    cases e
    exact .append (assembleItem_balanced typ m (h m (List.mem_cons_self ..)) x hx)
      (assembleItems_balanced typ ms (fun a ha => h a (List.mem_cons_of_mem _ ha)) y hy)

theorem assembleItem_balanced (typ : Bytes) : ∀ (m : Md), MdAll (fun c => c ≠ 60 ∧ c ≠ 93) BlockType m →
    ∀ H, assembleItem typ m = .ok H → Balanced H
  | .text s, h, H, e => by
    cases h with
    | text h =>
      rw [assembleItem] at e
      split at e
      · rw [mdTags, link_plain (fun hm => (h 93 hm).2 rfl)] at e
        cases e
        exact styleLoop_balanced (fun hm => (h 60 hm).1 rfl) _ _ (.text (by simp))
      · cases e
        refine .text ?_
        rw [entities_eq]
        intro hm
        obtain ⟨c, hc, hm⟩ := List.mem_flatMap.1 hm
        rw [if_neg (h c hc).1] at hm
        split at hm
        · revert hm; decide
        · rw [List.mem_singleton] at hm
          exact (h c hc).1 hm.symm
  | .node t items, h, H, e => by
    cases h with
    | node h1 h2 =>
      rw [assembleItem] at e
      obtain ⟨x, hx, e⟩ := bind_eq_ok e
      cases e
      have := Balanced.append (.elem (lower_type h1) (assembleItems_balanced t items h2 x hx)) (.text (t := b!"\n") (by decide))
      simpa using this
end

/-- **C90.** What is made of a document is balanced, whatever its marks, its blocks and their order.

Missing from the full claim: documents with `<` or `]`, with lines that end with two blanks, and with underlines of one
character, for which it is false (see below). -/
theorem C90_balanced_partial (md H : Bytes) (h60 : 60 ∉ md) (h93 : 93 ∉ md) (hbr : ∀ l ∈ splitOn 10 md, ¬ b!"  " <:+ stripCR l)
    (hr : ∀ l ∈ splitOn 10 md, NoCR l ∧ l ≠ b!"=" ∧ l ≠ b!"-") (h : renderHtml md = .ok H) : Balanced H := by
  have ok : LinesOk (fun c => c ≠ 60 ∧ c ≠ 93) BlockType (splitOn 10 md) := by
    refine ⟨fun l hl c hc => ⟨?_, ?_⟩, by decide, ?_, ?_, ?_, ?_⟩
    · rintro rfl; exact h60 (mem_splitOn hl hc)
    · rintro rfl; exact h93 (mem_splitOn hl hc)
    · rintro ⟨l, hl, h2⟩
      exact absurd (lastN_two.1 h2) (hbr l hl)
    · refine ⟨?_, ?_, ?_, ?_, ?_, ?_, ?_, ?_, ?_, ?_, ?_, ?_, ?_, ?_⟩ <;> exact ⟨by simp, by decide⟩
    · intro n
      refine ⟨by simp, ?_⟩
      intro c hc
      rcases List.mem_append.1 hc with hc | hc
      · rw [List.mem_singleton] at hc; subst hc; decide
      · right
        have := List.all_eq_true.1 (natDec_all n) c hc
        simpa [isDigit] using this
    · rintro ⟨l, hl, c, hc, k1, k2, k3⟩
      obtain ⟨g1, g2, g3⟩ := hr l hl
      rw [stripCR_id g1] at k1 k2
      exfalso
      match l, k1, k2, k3, g2, g3 with
      | [a], _, k2, _, g2, g3 =>
        simp at k2
        rcases hc with rfl | rfl
        · exact g2 (by rw [k2])
        · exact g3 (by rw [k2])
      | a :: b :: l, _, k2, k3, _, _ =>
        simp [List.replicate_succ] at k2
        exact k3 (by rw [k2.1, k2.2.1]; rfl)
  unfold renderHtml parseMarkdown at h
  rcases parseMd_ends ok (2 * (splitOn 10 md).length + 1) 0 0 [] [] (.inl (by omega)) (by intro m h; cases h) (by intro m h; cases h) with
    ⟨ms, j, e, _, ha⟩ | ⟨_, e⟩
  · rw [e] at h
    exact assembleItems_balanced [] ms ha H h
  · rw [e] at h; cases h

/-- A document with marks that do not match. -/
def wildSample : Bytes := b!"> * _a** `b\n>> c ***\nd\n\n    x\ny\n# *t\n* `u *v* _w_\n"

example : ∃ H, renderHtml wildSample = .ok H ∧ Balanced H ∧
    H = b!"<blockquote><p> <em> </em>a** `b</p>\n<blockquote><p> c ***</p>\n</blockquote>\n</blockquote>\n<pre>    x\n</pre>\n<h1>*t</h1>\n<ul><li>`u *v* _w_</li>\n</ul>\n" := by
  have e : renderHtml wildSample = .ok b!"<blockquote><p> <em> </em>a** `b</p>\n<blockquote><p> c ***</p>\n</blockquote>\n</blockquote>\n<pre>    x\n</pre>\n<h1>*t</h1>\n<ul><li>`u *v* _w_</li>\n</ul>\n" := by
    kernel_rfl
  refine ⟨_, e, C90_balanced_partial wildSample _ (by decide) (by decide) ?_ ?_ e, rfl⟩
  · have : splitOn 10 wildSample = [b!"> * _a** `b", b!">> c ***", b!"d", [], b!"    x", b!"y", b!"# *t", b!"* `u *v* _w_", []] := by kernel_rfl
    rw [this]
    decide
  · have : splitOn 10 wildSample = [b!"> * _a** `b", b!">> c ***", b!"d", [], b!"    x", b!"y", b!"# *t", b!"* `u *v* _w_", []] := by kernel_rfl
    rw [this]
    unfold NoCR
    decide

/-- The marks of an address are taken for those of the text: the elements overlap. -/
theorem C90_url_counterexample : renderHtml b!"[a](b*c) d*e f\n" = .ok b!"<p><a href='b<em>c'>a</a> d</em>e f</p>\n" := by kernel_rfl

/-- An underline of one character makes an element without a name. -/
theorem C90_rule_counterexample : renderHtml b!"a\n-\n" = .ok b!"<>a</>\n" := by kernel_rfl

/-- Lost text can be a part of a tag. -/
theorem C90_break_counterexample : renderHtml b!"****a*  \nb\n" = .ok b!"<p>br>b</p>\n" := by kernel_rfl

end Pdf
