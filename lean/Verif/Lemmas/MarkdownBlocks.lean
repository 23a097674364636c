/-
The steps of the parser of markdown documents, by kind of line (markdown.py:210-262).
-/
import Verif.Model.Markdown
import Verif.Lemmas.Markdown

namespace Pdf

/-- No carriage return at the ends of a line. -/
def NoCR (l : Bytes) : Prop := l.head? ≠ some 13 ∧ l.getLast? ≠ some 13

/-- The text of a line starts at once: neither a blank nor a quote. -/
def Flush (l : Bytes) : Prop := ∃ c t, l = c :: t ∧ c ≠ 32 ∧ c ≠ 9 ∧ c ≠ 62

theorem dropWhile_head {p : UInt8 → Bool} {l : Bytes} (h : ∀ c, l.head? = some c → p c = false) : l.dropWhile p = l := by
  cases l with
  | nil => rfl
  | cons c t => rw [List.dropWhile_cons_of_neg (by simp [h c rfl])]

theorem stripCR_id {l : Bytes} (h : NoCR l) : stripCR l = l := by
  obtain ⟨h1, h2⟩ := h
  unfold stripCR
  rw [dropWhile_head (l := l), dropWhile_head (l := l.reverse), List.reverse_reverse]
  · intro c hc
    rw [List.head?_reverse] at hc
    simp only [beq_eq_false_iff_ne, ne_eq]
    rintro rfl
    exact h2 hc
  · intro c hc
    simp only [beq_eq_false_iff_ne, ne_eq]
    rintro rfl
    exact h1 hc

theorem indentFirst_flush {l : Bytes} (h : Flush l) : indentFirst l = (0, l.takeWhile (· != 32)) := by
  obtain ⟨c, t, rfl, h1, h2, h3⟩ := h
  unfold indentFirst indentLoop
  rw [if_neg h1, if_neg h3, if_neg h2]
  rfl

theorem indentFirst_nil : indentFirst [] = (0, []) := rfl

/-- The first word of a line. -/
def firstWord (l : Bytes) : Bytes := l.takeWhile (· != 32)

theorem firstWord_append {w t : Bytes} (h : 32 ∉ w) : firstWord (w ++ 32 :: t) = w := by
  unfold firstWord
  rw [List.takeWhile_append_of_pos (by intro a ha; simp only [bne_iff_ne, ne_eq]; rintro rfl; exact h ha)]
  simp

theorem firstWord_ne {l : Bytes} (h : Flush l) : firstWord l ≠ [] := by
  obtain ⟨c, t, rfl, h1, _, _⟩ := h
  simp [firstWord, h1]

/-- A line that starts none of the special blocks. -/
structure PlainLine (l : Bytes) : Prop where
  flush : Flush l
  nocr : NoCR l
  fence : (firstWord l).take 3 ≠ b!"```"
  eqs : l ≠ List.replicate l.length 61
  dashes : l ≠ List.replicate l.length 45
  hashes : firstWord l ≠ List.replicate (firstWord l).length 35
  bullet : firstWord l ≠ b!"*" ∧ firstWord l ≠ b!"+" ∧ firstWord l ≠ b!"-"
  number : ¬ ((firstWord l).getLast? = some 46 ∧ (firstWord l).head?.any (fun c => 48 ≤ c && c ≤ 57))
  pipe : firstWord l ≠ b!"|"

/-- What a line adds to its paragraph. -/
def paraText (l : Bytes) : Bytes := if b!"  " <:+ l then l ++ b!"<br>" else l

theorem lastN_two {l : Bytes} : lastN l 2 = b!"  " ↔ b!"  " <:+ l := by
  unfold lastN
  constructor
  · intro h
    rw [← h]
    exact List.drop_suffix _ _
  · rintro ⟨t, rfl⟩
    simp

variable {lines : List Bytes} {fuel i : Nat} {blocks : List Md} {b : List Bytes} {l : Bytes}

theorem step_end (h : lines[i]? = none) (start : Nat) : parseMd lines (fuel + 1) i start blocks b = .ok (blocks, i) := by
  unfold parseMd
  simp only [h]

theorem step_plain (h : lines[i]? = some l) (hl : PlainLine l) : ∃ x, x.flatten = paraText l ∧ x ≠ [] ∧
    parseMd lines (fuel + 1) i 0 blocks b = parseMd lines fuel (i + 1) 0 blocks (b ++ x) := by
  refine ⟨[l] ++ if lastN l 2 = b!"  " then [b!"<br>"] else [], ?_, by simp, ?_⟩
  · unfold paraText
    by_cases h2 : lastN l 2 = b!"  "
    · rw [if_pos h2, if_pos (lastN_two.1 h2)]; simp
    · rw [if_neg h2, if_neg (fun hn => h2 (lastN_two.2 hn))]; simp
  · have hw := firstWord_ne hl.flush
    have hn : l ≠ [] := by obtain ⟨c, t, rfl, _⟩ := hl.flush; simp
    have hi : indentFirst l = (0, firstWord l) := indentFirst_flush hl.flush
    rw [parseMd]
    simp only [h, stripCR_id hl.nocr, hi]
    rw [if_neg (by omega), if_neg (by simp), if_neg hl.fence, if_neg (by simp),
      if_neg (by rintro ⟨_, h | h⟩; exact hl.eqs h; exact hl.dashes h), if_neg (fun h => hl.hashes h.2),
      if_neg (by rintro (h | h | h); exact hl.bullet.1 h; exact hl.bullet.2.1 h; exact hl.bullet.2.2 h), if_neg hl.number, if_neg hl.pipe,
      if_neg (fun h => hn h.2)]
    simp

theorem step_blank (h : lines[i]? = some []) : parseMd lines (fuel + 1) i 0 blocks b =
    if b = [] then parseMd lines fuel (i + 1) 0 blocks [[]] else parseMd lines fuel (i + 1) 0 (flushP blocks b) [] := by
  rw [parseMd]
  simp only [h, show stripCR [] = [] from rfl, indentFirst_nil]
  rw [if_neg (by omega), if_neg (by simp), if_neg (by simp), if_neg (by simp), if_neg (by simp), if_neg (by simp), if_neg (by simp), if_neg (by simp), if_neg (by simp)]
  by_cases hb : b = []
  · rw [if_neg (fun h => h.1 hb), if_pos hb, hb]; rfl
  · rw [if_pos ⟨hb, trivial⟩, if_neg hb]

/-- The lines of a paragraph. -/
theorem steps_plain : ∀ (ls : List Bytes) (i fuel : Nat) (b : List Bytes), (∀ k l, ls[k]? = some l → lines[i + k]? = some l) →
    (∀ l ∈ ls, PlainLine l) → ∃ x, x.flatten = ls.flatMap paraText ∧ (ls ≠ [] → x ≠ []) ∧
      parseMd lines (fuel + ls.length) i 0 blocks b = parseMd lines fuel (i + ls.length) 0 blocks (b ++ x)
  | [], i, fuel, b, _, _ => ⟨[], rfl, by simp, by simp⟩
  | l :: ls, i, fuel, b, h, hp => by
    obtain ⟨x, x1, x2, x3⟩ := step_plain (fuel := fuel + ls.length) (blocks := blocks) (b := b) (h 0 l rfl) (hp l (List.mem_cons_self ..))
    obtain ⟨y, y1, y2, y3⟩ := steps_plain ls (i + 1) fuel (b ++ x) (fun k l' h' => by
      have := h (k + 1) l' (by simpa using h')
      rwa [show i + (k + 1) = i + 1 + k by omega] at this) (fun l' h' => hp l' (List.mem_cons_of_mem _ h'))
    refine ⟨x ++ y, by rw [List.flatten_append, x1, y1]; rfl, fun _ h0 => x2 (List.append_eq_nil_iff.1 h0).1, ?_⟩
    rw [show fuel + (l :: ls).length = fuel + ls.length + 1 by rw [List.length_cons]; omega]
    rw [show (i + 0) = i from rfl] at x3
    rw [x3, y3, List.length_cons, show i + 1 + ls.length = i + (ls.length + 1) by omega, List.append_assoc]

theorem step_heading {k : Nat} {t : Bytes} (hk : 1 ≤ k) (ht : t.getLast? ≠ some 13) (h : lines[i]? = some (List.replicate k 35 ++ 32 :: t)) :
    parseMd lines (fuel + 1) i 0 blocks b = parseMd lines fuel (i + 1) 0 (flushP blocks b ++ [.node (b!"H" ++ natDec k) [.text t]]) [] := by
  obtain ⟨n, rfl⟩ : ∃ n, k = n + 1 := ⟨k - 1, by omega⟩
  have hf : Flush (List.replicate (n + 1) 35 ++ 32 :: t) := ⟨35, List.replicate n 35 ++ 32 :: t, by rw [List.replicate_succ]; rfl, by decide, by decide, by decide⟩
  have hn : NoCR (List.replicate (n + 1) 35 ++ 32 :: t) := by
    refine ⟨by rw [List.replicate_succ]; simp, ?_⟩
    rw [List.getLast?_append]
    cases t with
    | nil => simp
    | cons c t => rw [List.getLast?_cons_cons]; rw [List.getLast?_eq_some_getLast (by simp)] at ht ⊢; simpa using ht
  have hw : firstWord (List.replicate (n + 1) 35 ++ 32 :: t) = List.replicate (n + 1) 35 := firstWord_append (by simp)
  have hi : indentFirst (List.replicate (n + 1) 35 ++ 32 :: t) = (0, List.replicate (n + 1) 35) := by
    rw [indentFirst_flush hf]; exact congrArg _ hw
  rw [parseMd]
  simp only [h, stripCR_id hn, hi]
  have h61 : ∀ m, List.replicate (n + 1) 35 ++ 32 :: t ≠ List.replicate m (61 : UInt8) := by
    intro m h
    have := List.eq_of_mem_replicate (h ▸ (by simp : (32 : UInt8) ∈ List.replicate (n + 1) 35 ++ 32 :: t))
    cases this
  have h45 : ∀ m, List.replicate (n + 1) 35 ++ 32 :: t ≠ List.replicate m (45 : UInt8) := by
    intro m h
    have := List.eq_of_mem_replicate (h ▸ (by simp : (32 : UInt8) ∈ List.replicate (n + 1) 35 ++ 32 :: t))
    cases this
  rw [if_neg (by omega), if_neg (by simp), if_neg (by simp [List.replicate_succ]), if_neg (by simp),
    if_neg (by rintro ⟨_, h | h⟩; exact h61 _ h; exact h45 _ h), if_pos ⟨by simp, by rw [List.length_replicate]⟩]
  rw [parsePrefixed, List.length_replicate, List.drop_append, List.length_replicate]
  simp

/-- A line with a blank in it is not an underline. -/
theorem no_underline {c : UInt8} (h : 32 ∈ l) (hc : c ≠ 32) (m : Nat) : l ≠ List.replicate m c := by
  intro e
  exact hc (List.eq_of_mem_replicate (e ▸ h)).symm

theorem noCR_append {w t : Bytes} (hw : w ≠ []) (h1 : w.head? ≠ some 13) (ht : t.getLast? ≠ some 13) : NoCR (w ++ 32 :: t) := by
  constructor
  · cases w with
    | nil => exact absurd rfl hw
    | cons c w => exact h1
  · rw [List.getLast?_append]
    cases t with
    | nil => simp
    | cons c t => rw [List.getLast?_cons_cons]; rw [List.getLast?_eq_some_getLast (by simp)] at ht ⊢; simpa using ht

theorem word_head {w t : Bytes} {c : UInt8} {w' : Bytes} (h : w = c :: w') (h1 : c ≠ 32) (h2 : c ≠ 9) (h3 : c ≠ 62) : Flush (w ++ 32 :: t) :=
  ⟨c, w' ++ 32 :: t, by rw [h]; rfl, h1, h2, h3⟩

/-- The character escaped as HTML. -/
def escapeHtml (s : Bytes) : Bytes := s.flatMap fun c => if c = 60 then b!"&lt;" else if c = 62 then b!"&gt;" else [c]

theorem entities_eq (s : Bytes) : mdEntities s = escapeHtml s := by
  induction s with
  | nil => rfl
  | cons c s ih =>
    unfold mdEntities escapeHtml at ih ⊢
    rw [List.flatMap_cons, List.flatMap_append, ih, List.flatMap_cons]
    by_cases h1 : c = 60
    · rw [if_pos h1, if_pos h1]; rfl
    · rw [if_neg h1, if_neg h1, List.flatMap_cons, List.flatMap_nil, List.append_nil]

theorem codeLines_fenced {rest : List Bytes} {cl : Bytes} (hc : cl.take 3 = b!"```") (hcr : NoCR cl) : ∀ (ls : List Bytes),
    (∀ l ∈ ls, NoCR l ∧ l.take 3 ≠ b!"```") → codeLines true (ls ++ cl :: rest) = ls.map (· ++ b!"\n")
  | [], _ => by
    rw [List.nil_append, codeLines, stripCR_id hcr]
    simp only [if_true]
    rw [if_pos]
    · rfl
    · rw [List.take_append_of_le_length (by have := congrArg List.length hc; simp at this; omega), hc]
  | l :: ls, h => by
    obtain ⟨h1, h2⟩ := h l (List.mem_cons_self ..)
    rw [List.cons_append, codeLines, stripCR_id h1]
    simp only [if_true]
    rw [if_neg, codeLines_fenced hc hcr ls (fun l' h' => h l' (List.mem_cons_of_mem _ h')), List.map_cons]
    intro h3
    by_cases hl : 3 ≤ l.length
    · rw [List.take_append_of_le_length hl] at h3; exact h2 h3
    · have := congrArg (fun x : Bytes => x.getLast?) h3
      rw [List.take_of_length_le (by simp; omega)] at this
      simp at this

theorem step_fence {op cl : Bytes} {ls rest : List Bytes} (ho : op.take 3 = b!"```") (hocr : NoCR op) (hc : cl.take 3 = b!"```") (hcr : NoCR cl)
    (hl : ∀ l ∈ ls, NoCR l ∧ l.take 3 ≠ b!"```") (h : lines.drop i = op :: (ls ++ cl :: rest)) :
    parseMd lines (fuel + 1) i 0 blocks b =
      parseMd lines fuel (i + (ls.length + 2)) 0 (flushP blocks b ++ [.node b!"PRE" (ls.map fun l => .text (l ++ b!"\n"))]) [] := by
  have hi0 : lines[i]? = some op := by
    have := congrArg (·[0]?) h
    simpa using this
  have hdrop : lines.drop (i + 1) = ls ++ cl :: rest := by
    have := congrArg (List.drop 1) h
    rwa [List.drop_drop] at this
  obtain ⟨u, hu⟩ : ∃ u, op = b!"```" ++ u := ⟨op.drop 3, by rw [← ho, List.take_append_drop]⟩
  have hf : Flush op := ⟨96, b!"``" ++ u, by rw [hu]; rfl, by decide, by decide, by decide⟩
  have hw : (firstWord op).take 3 = b!"```" := by rw [hu]; rfl
  rw [parseMd]
  simp only [hi0, stripCR_id hocr, indentFirst_flush hf]
  rw [if_neg (by omega), if_neg (by simp), if_pos (show List.take 3 (List.takeWhile (fun x => x != 32) op) = b!"```" from hw)]
  unfold parseCodeBlock
  simp only [hdrop, codeLines_fenced hc hcr ls hl, List.length_map]
  rw [show i + 1 + ls.length + 1 = i + (ls.length + 2) by omega, List.map_map]
  rfl

theorem indentFirst_four {t : Bytes} (h : Flush t) : indentFirst (b!"    " ++ t) = (4, firstWord t) := by
  obtain ⟨c, t, rfl, h1, h2, h3⟩ := h
  simp [indentFirst, indentLoop, h1, h2, h3, firstWord]

theorem noCR_indent (h1 : NoCR l) (h2 : Flush l) : NoCR (b!"    " ++ l) := by
  refine ⟨by simp, ?_⟩
  obtain ⟨c, t, rfl, _⟩ := h2
  have := h1.2
  rw [List.getLast?_eq_some_getLast (by simp)] at this
  rw [List.getLast?_append, List.getLast?_eq_some_getLast (by simp)]
  simpa using this

theorem codeLines_indented {rest : List Bytes} {cl : Bytes} (hc : (indentFirst (stripCR cl)).1 ≠ 4) : ∀ (ls : List Bytes),
    (∀ l ∈ ls, NoCR l ∧ Flush l) → codeLines false (ls.map (b!"    " ++ ·) ++ cl :: rest) = ls.map (b!"    " ++ · ++ b!"\n")
  | [], _ => by
    rw [List.map_nil, List.nil_append, codeLines]
    simp only [Bool.false_eq_true, if_false]
    rw [if_neg hc]
    rfl
  | l :: ls, h => by
    obtain ⟨h1, h2⟩ := h l (List.mem_cons_self ..)
    have hn : NoCR (b!"    " ++ l) := noCR_indent h1 h2
    rw [List.map_cons, List.cons_append, codeLines, stripCR_id hn]
    simp only [Bool.false_eq_true, if_false]
    rw [if_pos (by rw [indentFirst_four h2]), codeLines_indented hc ls (fun l' h' => h l' (List.mem_cons_of_mem _ h')), List.map_cons]

theorem step_indented {cl l0 : Bytes} {ls rest : List Bytes} (hc : (indentFirst (stripCR cl)).1 ≠ 4)
    (hl : ∀ l ∈ l0 :: ls, NoCR l ∧ Flush l) (hf : l0.take 3 ≠ b!"```") (h : lines.drop i = (l0 :: ls).map (b!"    " ++ ·) ++ cl :: rest) :
    parseMd lines (fuel + 1) i 0 blocks b =
      parseMd lines fuel (i + (ls.length + 2)) 0 (flushP blocks b ++ [.node b!"PRE" ((l0 :: ls).map fun l => .text (b!"    " ++ l ++ b!"\n"))]) [] := by
  have hi0 : lines[i]? = some (b!"    " ++ l0) := by
    have := congrArg (·[0]?) h
    simpa using this
  obtain ⟨h1, h2⟩ := hl l0 (List.mem_cons_self ..)
  have hn : NoCR (b!"    " ++ l0) := noCR_indent h1 h2
  have hw : (firstWord l0).take 3 ≠ b!"```" := by
    intro e
    apply hf
    rw [← e]
    have hp : firstWord l0 <+: l0 := List.takeWhile_prefix _
    have h3 : 3 ≤ (firstWord l0).length := by
      have := congrArg List.length e
      simp at this; omega
    obtain ⟨u, hu⟩ := hp
    conv => lhs; rw [← hu]
    rw [List.take_append_of_le_length h3]
  rw [parseMd]
  simp only [hi0, stripCR_id hn, indentFirst_four h2]
  rw [if_neg (by omega), if_neg (fun h => firstWord_ne h2 h.1), if_neg hw, if_pos ⟨firstWord_ne h2, by omega⟩]
  unfold parseCodeBlock
  simp only [h, codeLines_indented hc (l0 :: ls) hl, List.length_map, List.length_cons]
  rw [show i + (ls.length + 1) + 1 = i + (ls.length + 2) by omega, List.map_map]
  rfl

theorem step_under {t : Bytes} {n : Nat} {c : UInt8} (hn : 2 ≤ n) (hc : c = 61 ∨ c = 45) (ht : NoCR t) (h0 : lines[i]? = some t)
    (h1 : lines[i + 1]? = some (List.replicate n c)) :
    parseMd lines (fuel + 1) (i + 1) 0 blocks b =
      parseMd lines fuel (i + 2) 0 (blocks ++ [.node (if c = 61 then b!"H1" else b!"H2") [.text t]]) [] := by
  obtain ⟨m, rfl⟩ : ∃ m, n = m + 2 := ⟨n - 2, by omega⟩
  have hc' : c ≠ 32 ∧ c ≠ 9 ∧ c ≠ 62 ∧ c ≠ 13 ∧ c ≠ 96 := by rcases hc with rfl | rfl <;> decide
  have hf : Flush (List.replicate (m + 2) c) := ⟨c, List.replicate (m + 1) c, rfl, hc'.1, hc'.2.1, hc'.2.2.1⟩
  have hcr : NoCR (List.replicate (m + 2) c) := by
    constructor
    · simp [List.replicate_succ, hc'.2.2.2.1]
    · rw [List.getLast?_replicate]; simp [hc'.2.2.2.1]
  rw [parseMd]
  simp only [h1, stripCR_id hcr, indentFirst_flush hf]
  rw [if_neg (by omega), if_neg (by simp), if_neg (by
      intro e
      have := congrArg List.head? e
      simp [List.replicate_succ, hc'.1] at this
      exact hc'.2.2.2.2 this), if_neg (by simp), if_pos ⟨by simp, by
      rcases hc with rfl | rfl
      · exact .inl (by rw [List.length_replicate])
      · exact .inr (by rw [List.length_replicate])⟩]
  have p0 : pyItem lines (((i + 1 : Nat) : Int) - 1) = some t := by
    unfold pyItem
    rw [if_neg (by omega), show (((i + 1 : Nat) : Int) - 1).toNat = i by omega]
    exact h0
  have p1 : pyItem lines (((i + 1 : Nat) : Int) - 1 + 1) = some (List.replicate (m + 2) c) := by
    unfold pyItem
    rw [if_neg (by omega), show (((i + 1 : Nat) : Int) - 1 + 1).toNat = i + 1 by omega]
    exact h1
  unfold parseUnderlined
  rw [p0, p1]
  show parseMd lines fuel ((((i + 1 : Nat) : Int) - 1 + 1 + 1).toNat) 0 _ [] = _
  rw [show ((((i + 1 : Nat) : Int) - 1 + 1 + 1).toNat) = i + 2 by omega]
  rw [stripCR_id ht]
  rcases hc with rfl | rfl <;> rfl

/-- The items of a list, up to a blank line. -/
theorem listItems_words {rest : List Bytes} {ordered : Bool} : ∀ (ls : List (Bytes × Bytes)),
    (∀ l ∈ ls, 32 ∉ l.1 ∧ Flush l.1 ∧ l.1.head? ≠ some 13 ∧ l.2.getLast? ≠ some 13 ∧
      (if ordered then l.1.getLast? = some 46 else l.1 = b!"*" ∨ l.1 = b!"+" ∨ l.1 = b!"-")) →
    listItems ordered 0 (ls.map (fun l => l.1 ++ 32 :: l.2) ++ [] :: rest) = ls.map fun l => .node b!"LI" [.text l.2]
  | [], _ => by
    rw [List.map_nil, List.nil_append, listItems]
    simp only [show stripCR [] = [] from rfl, indentFirst_nil]
    cases ordered <;> rfl
  | (w, t) :: ls, h => by
    obtain ⟨h1, h2, h3, h4, h5⟩ := h _ (List.mem_cons_self ..)
    obtain ⟨c, w', hw, g1, g2, g3⟩ := h2
    simp only at h1 hw h3 h4 h5
    have hcr : NoCR (w ++ 32 :: t) := noCR_append (by simp [hw]) h3 h4
    have hi : indentFirst (w ++ 32 :: t) = (0, w) := by
      rw [indentFirst_flush (word_head hw g1 g2 g3)]
      exact congrArg _ (firstWord_append h1)
    rw [List.map_cons, List.cons_append, listItems, stripCR_id hcr, hi]
    simp only
    rw [if_neg, if_neg (by simp), listItems_words ls (fun l' h' => h l' (List.mem_cons_of_mem _ h')), List.map_cons]
    · rw [List.drop_append, List.drop_of_length_le (by omega)]
      simp
    · cases ordered with
      | true => simpa using h5
      | false =>
        simp only [Bool.false_eq_true, if_false] at h5 ⊢
        rintro ⟨k1, k2, k3⟩
        rcases h5 with h | h | h
        · exact k1 h
        · exact k2 h
        · exact k3 h

theorem parseList_words {l0 : Bytes × Bytes} {ls : List (Bytes × Bytes)} {rest : List Bytes} {ordered : Bool}
    (hl : ∀ l ∈ l0 :: ls, 32 ∉ l.1 ∧ Flush l.1 ∧ l.1.head? ≠ some 13 ∧ l.2.getLast? ≠ some 13 ∧
      (if ordered then l.1.getLast? = some 46 else l.1 = b!"*" ∨ l.1 = b!"+" ∨ l.1 = b!"-"))
    (h : lines.drop i = (l0 :: ls).map (fun l => l.1 ++ 32 :: l.2) ++ [] :: rest) :
    parseList lines i ordered = (i + (ls.length + 1), .node (if ordered then b!"OL" else b!"UL") ((l0 :: ls).map fun l => .node b!"LI" [.text l.2])) := by
  obtain ⟨h1, h2, h3, h4, h5⟩ := hl _ (List.mem_cons_self ..)
  obtain ⟨c, w', hw, g1, g2, g3⟩ := h2
  have hi0 : lines.getD i [] = l0.1 ++ 32 :: l0.2 := by
    have := congrArg (·[0]?) h
    rw [List.getD_eq_getElem?_getD]
    simp at this
    rw [this]; rfl
  unfold parseList
  simp only [hi0, indentFirst_flush (word_head hw g1 g2 g3), h, listItems_words (l0 :: ls) hl, List.length_map, List.length_cons]

theorem step_bullets {l0 : Bytes × Bytes} {ls : List (Bytes × Bytes)} {rest : List Bytes}
    (hl : ∀ l ∈ l0 :: ls, (l.1 = b!"*" ∨ l.1 = b!"+" ∨ l.1 = b!"-") ∧ l.2.getLast? ≠ some 13)
    (h : lines.drop i = (l0 :: ls).map (fun l => l.1 ++ 32 :: l.2) ++ [] :: rest) :
    parseMd lines (fuel + 1) i 0 blocks b =
      parseMd lines fuel (i + (ls.length + 2)) 0 (flushP blocks b ++ [.node b!"UL" ((l0 :: ls).map fun l => .node b!"LI" [.text l.2])]) [] := by
  have hl' : ∀ l ∈ l0 :: ls, 32 ∉ l.1 ∧ Flush l.1 ∧ l.1.head? ≠ some 13 ∧ l.2.getLast? ≠ some 13 ∧
      (if false then l.1.getLast? = some 46 else l.1 = b!"*" ∨ l.1 = b!"+" ∨ l.1 = b!"-") := by
    intro l hm
    obtain ⟨k1, k2⟩ := hl l hm
    refine ⟨?_, ?_, ?_, k2, by simpa using k1⟩
    · rcases k1 with h | h | h <;> rw [h] <;> decide
    · rcases k1 with h | h | h <;> rw [h] <;> exact ⟨_, _, rfl, by decide, by decide, by decide⟩
    · rcases k1 with h | h | h <;> rw [h] <;> decide
  obtain ⟨h1, h2, h3, h4, h5⟩ := hl' _ (List.mem_cons_self ..)
  simp only [Bool.false_eq_true, if_false] at h5
  obtain ⟨c, w', hw, g1, g2, g3⟩ := h2
  have hi0 : lines[i]? = some (l0.1 ++ 32 :: l0.2) := by
    have := congrArg (·[0]?) h
    simpa using this
  have hcr : NoCR (l0.1 ++ 32 :: l0.2) := noCR_append (by simp [hw]) h3 h4
  have hi : indentFirst (l0.1 ++ 32 :: l0.2) = (0, l0.1) := by
    rw [indentFirst_flush (word_head hw g1 g2 g3)]
    exact congrArg _ (firstWord_append h1)
  have h32 : (32 : UInt8) ∈ l0.1 ++ 32 :: l0.2 := by simp
  rw [parseMd]
  simp only [hi0, stripCR_id hcr, hi, parseList_words hl' h]
  rw [if_neg (by omega), if_neg (by simp), if_neg (by rcases h5 with h | h | h <;> rw [h] <;> decide), if_neg (by simp),
    if_neg (by rintro ⟨_, h | h⟩; exact no_underline h32 (by decide) _ h; exact no_underline h32 (by decide) _ h),
    if_neg (by rcases h5 with h | h | h <;> rw [h] <;> decide), if_pos h5]
  rw [show i + (ls.length + 1) + 1 = i + (ls.length + 2) by omega]
  simp

theorem step_numbers {l0 : Bytes × Bytes} {ls : List (Bytes × Bytes)} {rest : List Bytes}
    (hl : ∀ l ∈ l0 :: ls, (∃ c w, l.1 = c :: w ∧ 48 ≤ c ∧ c ≤ 57) ∧ l.1.getLast? = some 46 ∧ 32 ∉ l.1 ∧ l.2.getLast? ≠ some 13)
    (h : lines.drop i = (l0 :: ls).map (fun l => l.1 ++ 32 :: l.2) ++ [] :: rest) :
    parseMd lines (fuel + 1) i 0 blocks b =
      parseMd lines fuel (i + (ls.length + 2)) 0 (flushP blocks b ++ [.node b!"OL" ((l0 :: ls).map fun l => .node b!"LI" [.text l.2])]) [] := by
  have dig : ∀ c : UInt8, 48 ≤ c → c ≤ 57 → c ≠ 32 ∧ c ≠ 9 ∧ c ≠ 62 ∧ c ≠ 13 ∧ c ≠ 96 ∧ c ≠ 35 ∧ c ≠ 42 ∧ c ≠ 43 ∧ c ≠ 45 := by
    intro c a1 a2
    refine ⟨?_, ?_, ?_, ?_, ?_, ?_, ?_, ?_, ?_⟩ <;> rintro rfl <;> revert a1 a2 <;> decide
  have hl' : ∀ l ∈ l0 :: ls, 32 ∉ l.1 ∧ Flush l.1 ∧ l.1.head? ≠ some 13 ∧ l.2.getLast? ≠ some 13 ∧
      (if true then l.1.getLast? = some 46 else l.1 = b!"*" ∨ l.1 = b!"+" ∨ l.1 = b!"-") := by
    intro l hm
    obtain ⟨⟨c, w, k1, k2, k3⟩, k4, k5, k6⟩ := hl l hm
    obtain ⟨d1, d2, d3, d4, _⟩ := dig c k2 k3
    exact ⟨k5, ⟨c, w, k1, d1, d2, d3⟩, by rw [k1]; simpa using d4, k6, by simpa using k4⟩
  obtain ⟨h1, h2, h3, h4, h5⟩ := hl' _ (List.mem_cons_self ..)
  obtain ⟨⟨c, w, k1, k2, k3⟩, k4, _, _⟩ := hl _ (List.mem_cons_self ..)
  obtain ⟨d1, d2, d3, d4, d5, d6, d7, d8, d9⟩ := dig c k2 k3
  have hi0 : lines[i]? = some (l0.1 ++ 32 :: l0.2) := by
    have := congrArg (·[0]?) h
    simpa using this
  have hcr : NoCR (l0.1 ++ 32 :: l0.2) := noCR_append (by simp [k1]) h3 h4
  have hi : indentFirst (l0.1 ++ 32 :: l0.2) = (0, l0.1) := by
    rw [indentFirst_flush (word_head k1 d1 d2 d3)]
    exact congrArg _ (firstWord_append h1)
  have h32 : (32 : UInt8) ∈ l0.1 ++ 32 :: l0.2 := by simp
  rw [parseMd]
  simp only [hi0, stripCR_id hcr, hi, parseList_words hl' h]
  rw [if_neg (by omega), if_neg (by simp), if_neg (by rw [k1]; simp [d5]), if_neg (by simp),
    if_neg (by rintro ⟨_, h | h⟩; exact no_underline h32 (by decide) _ h; exact no_underline h32 (by decide) _ h),
    if_neg (by rw [k1]; simp [List.replicate_succ, d6]), if_neg (by rw [k1]; simp [d7, d8, d9]), if_pos ⟨k4, by rw [k1]; simp [k2, k3]⟩]
  rw [show i + (ls.length + 1) + 1 = i + (ls.length + 2) by omega]
  simp

/-- The line of a row of a table. -/
def rowLine (cells : List Bytes) : Bytes := b!"|" ++ cells.flatMap (· ++ b!"|")

theorem splitOn_word {c : UInt8} {r : Bytes} : ∀ (w : Bytes), c ∉ w → splitOn c (w ++ c :: r) = w :: splitOn c r
  | [], _ => by simp [splitOn]
  | x :: w, h => by
    simp only [List.mem_cons, not_or] at h
    rw [List.cons_append, splitOn, if_neg (fun e => h.1 e.symm), splitOn_word w h.2]

theorem splitOn_cells {c : UInt8} : ∀ (cells : List Bytes), (∀ w ∈ cells, c ∉ w) → splitOn c (cells.flatMap (· ++ [c])) = cells ++ [[]]
  | [], _ => rfl
  | w :: cells, h => by
    rw [List.flatMap_cons, List.append_assoc, List.singleton_append, splitOn_word w (h w (List.mem_cons_self ..)),
      splitOn_cells cells (fun x hx => h x (List.mem_cons_of_mem _ hx))]
    rfl

theorem row_cells {cells : List Bytes} (h : ∀ w ∈ cells, 124 ∉ w) : pySlice (splitOn 124 (rowLine cells)) 1 (-1) = cells := by
  have e : splitOn 124 (rowLine cells) = [] :: (cells ++ [[]]) := by
    rw [rowLine, List.singleton_append, splitOn, if_pos rfl, splitOn_cells cells h]
  rw [e]
  unfold pySlice sliceBound
  rw [if_neg (by omega), if_pos (by omega)]
  rw [show (([] :: (cells ++ [[]]) : List Bytes).length + (-1 : Int)).toNat = cells.length + 1 by
    simp only [List.length_cons, List.length_append, List.length_nil]; omega]
  simp [slice]

theorem rowLine_flush (cells : List Bytes) : Flush (rowLine cells) := ⟨124, _, rfl, by decide, by decide, by decide⟩

theorem rowLine_nocr (cells : List Bytes) : NoCR (rowLine cells) := by
  refine ⟨by simp [rowLine], ?_⟩
  rcases List.eq_nil_or_concat cells with rfl | ⟨a, x, rfl⟩
  · decide
  · rw [rowLine, List.concat_eq_append, List.flatMap_append, List.flatMap_cons, List.flatMap_nil, List.append_nil, ← List.append_assoc,
      ← List.append_assoc, List.getLast?_concat]
    decide

/-- A row that is not a rule such as `|---|`. -/
def isBody (r : List Bytes) : Bool := slice (r.headD []) 1 3 ≠ b!"--"

theorem tableRows_body {rest : List Bytes} : ∀ (rows : List (List Bytes)), (∀ r ∈ rows, r ≠ [] ∧ ∀ w ∈ r, 124 ∉ w) →
    tableRows 0 (rows.map rowLine ++ [] :: rest) false =
      .ok (rows.length, [], (rows.filter isBody).map fun r => .node b!"TR" (r.map fun td => .node b!"TD" [.text td]))
  | [], _ => by
    rw [List.map_nil, List.nil_append, tableRows]
    simp only [show stripCR [] = [] from rfl, indentFirst_nil]
    rw [if_pos (by simp)]
    rfl
  | r :: rows, h => by
    obtain ⟨h1, h2⟩ := h r (List.mem_cons_self ..)
    have ih := tableRows_body (rest := rest) rows (fun x hx => h x (List.mem_cons_of_mem _ hx))
    have hw : (List.takeWhile (fun x => x != 32) (rowLine r)).head? = some 124 := rfl
    rw [List.map_cons, List.cons_append, tableRows, stripCR_id (rowLine_nocr r), indentFirst_flush (rowLine_flush r)]
    simp only [hw]
    rw [if_neg (by simp), if_neg (by simp), if_neg (by simp), List.drop_zero, row_cells h2, ih]
    obtain ⟨td, r', rfl⟩ : ∃ td r', r = td :: r' := by
      cases r with
      | nil => exact absurd rfl h1
      | cons td r' => exact ⟨td, r', rfl⟩
    unfold rowCells
    rw [List.drop_zero, row_cells h2]
    by_cases hd : slice td 1 3 ≠ b!"--"
    · rw [List.filter_cons_of_pos (p := isBody) (a := td :: r') (decide_eq_true hd), List.map_cons, List.length_cons]
      simp only [if_pos hd]
      rfl
    · rw [List.filter_cons_of_neg (p := isBody) (by simpa [isBody] using hd), List.length_cons]
      simp only [if_neg hd]
      rfl

theorem step_table {head : List Bytes} {rows : List (List Bytes)} {rest : List Bytes} {w0 : Bytes} (hh : head = (32 :: w0) :: head.tail)
    (h1 : ∀ w ∈ head, 124 ∉ w) (h2 : ∀ r ∈ rows, r ≠ [] ∧ ∀ w ∈ r, 124 ∉ w)
    (h : lines.drop i = rowLine head :: (rows.map rowLine ++ [] :: rest)) :
    parseMd lines (fuel + 1) i 0 blocks b =
      parseMd lines fuel (i + (rows.length + 2)) 0 (flushP blocks b ++ [.node b!"TABLE"
        [.node b!"THEAD" [.node b!"TR" (head.map fun td => .node b!"TH" [.text td])],
         .node b!"TBODY" ((rows.filter isBody).map fun r => .node b!"TR" (r.map fun td => .node b!"TD" [.text td]))]]) [] := by
  have hi0 : lines[i]? = some (rowLine head) := by
    have := congrArg (·[0]?) h
    simpa using this
  have hD : lines.getD i [] = rowLine head := by
    rw [List.getD_eq_getElem?_getD, hi0]; rfl
  have hw : List.takeWhile (fun x => x != 32) (rowLine head) = b!"|" := by rw [hh]; rfl
  have h32 : (32 : UInt8) ∈ rowLine head := by rw [hh]; simp [rowLine]
  have ht : parseTable lines i = .ok (i + (rows.length + 1), .node b!"TABLE"
        [.node b!"THEAD" [.node b!"TR" (head.map fun td => .node b!"TH" [.text td])],
         .node b!"TBODY" ((rows.filter isBody).map fun r => .node b!"TR" (r.map fun td => .node b!"TD" [.text td]))]) := by
    unfold parseTable
    simp only [hD, indentFirst_flush (rowLine_flush head), h]
    rw [tableRows, stripCR_id (rowLine_nocr head), indentFirst_flush (rowLine_flush head)]
    simp only [hw]
    rw [if_neg (by simp), if_neg (by simp), if_pos trivial, tableRows_body rows h2]
    unfold rowCells
    rw [List.drop_zero, row_cells h1]
    rfl
  rw [parseMd]
  simp only [hi0, stripCR_id (rowLine_nocr head), indentFirst_flush (rowLine_flush head), hw, ht]
  rw [if_neg (by omega), if_neg (by simp), if_neg (by simp), if_neg (by simp),
    if_neg (by rintro ⟨_, h | h⟩; exact no_underline h32 (by decide) _ h; exact no_underline h32 (by decide) _ h),
    if_neg (by decide), if_neg (by decide), if_neg (by decide), if_pos trivial]
  show parseMd lines fuel (i + (rows.length + 1) + 1) 0 _ [] = _
  rw [show i + (rows.length + 1) + 1 = i + (rows.length + 2) by omega]

/-- The line of a quotation. -/
def quoteLine (l : Bytes) : Bytes := b!"> " ++ l

theorem indentFirst_quote (h : Flush l) : indentFirst (quoteLine l) = (1, []) := by
  obtain ⟨c, t, rfl, h1, h2, h3⟩ := h
  simp [quoteLine, indentFirst, indentLoop, h1, h2, h3]

theorem quoteLine_nocr (h1 : NoCR l) (h2 : Flush l) : NoCR (quoteLine l) := by
  refine ⟨by simp [quoteLine], ?_⟩
  obtain ⟨c, t, rfl, _⟩ := h2
  have := h1.2
  rw [List.getLast?_eq_some_getLast (by simp)] at this
  rw [quoteLine, List.getLast?_append, List.getLast?_eq_some_getLast (by simp)]
  simpa using this

theorem quote_two (h : Flush l) : b!"  " <:+ quoteLine l ↔ b!"  " <:+ 32 :: l := by
  obtain ⟨c, t, rfl, h1, _⟩ := h
  have e : quoteLine (c :: t) = b!">" ++ (32 :: c :: t) := rfl
  constructor
  · intro h
    rw [← lastN_two] at h ⊢
    rw [e] at h
    unfold lastN at h ⊢
    simpa using h
  · intro h
    rw [e]
    exact h.trans (List.suffix_append _ _)

/-- One line of a quotation, inside it. -/
theorem step_quoted (h : lines[i]? = some (quoteLine l)) (h1 : NoCR l) (h2 : Flush l) : ∃ x, x.flatten = paraText (32 :: l) ∧ x ≠ [] ∧
    parseMd lines (fuel + 1) i 2 blocks b = parseMd lines fuel (i + 1) 2 blocks (b ++ x) := by
  refine ⟨[32 :: l] ++ if lastN (quoteLine l) 2 = b!"  " then [b!"<br>"] else [], ?_, by simp, ?_⟩
  · unfold paraText
    by_cases h3 : lastN (quoteLine l) 2 = b!"  "
    · rw [if_pos h3, if_pos ((quote_two h2).1 (lastN_two.1 h3))]; simp
    · rw [if_neg h3, if_neg (fun hn => h3 (lastN_two.2 ((quote_two h2).2 hn)))]; simp
  · have h62 : (quoteLine l).head? = some 62 := rfl
    rw [parseMd]
    simp only [h, stripCR_id (quoteLine_nocr h1 h2), indentFirst_quote h2]
    rw [if_neg (by omega), if_neg (by omega), if_neg (by simp), if_neg (by simp),
      if_neg (by rintro ⟨_, h | h⟩ <;> · rw [h] at h62; simp [List.head?_replicate] at h62),
      if_neg (by simp), if_neg (by simp), if_neg (by simp), if_neg (by simp), if_neg (by simp [quoteLine])]
    simp [quoteLine]

theorem steps_quoted : ∀ (ls : List Bytes) (i fuel : Nat) (b : List Bytes), (∀ k l, ls[k]? = some l → lines[i + k]? = some (quoteLine l)) →
    (∀ l ∈ ls, NoCR l ∧ Flush l) → ∃ x, x.flatten = ls.flatMap (fun l => paraText (32 :: l)) ∧ (ls ≠ [] → x ≠ []) ∧
      parseMd lines (fuel + ls.length) i 2 blocks b = parseMd lines fuel (i + ls.length) 2 blocks (b ++ x)
  | [], i, fuel, b, _, _ => ⟨[], rfl, by simp, by simp⟩
  | l :: ls, i, fuel, b, h, hp => by
    obtain ⟨p1, p2⟩ := hp l (List.mem_cons_self ..)
    obtain ⟨x, x1, x2, x3⟩ := step_quoted (fuel := fuel + ls.length) (blocks := blocks) (b := b) (h 0 l rfl) p1 p2
    obtain ⟨y, y1, y2, y3⟩ := steps_quoted ls (i + 1) fuel (b ++ x) (fun k l' h' => by
      have := h (k + 1) l' (by simpa using h')
      rwa [show i + (k + 1) = i + 1 + k by omega] at this) (fun l' h' => hp l' (List.mem_cons_of_mem _ h'))
    refine ⟨x ++ y, by rw [List.flatten_append, x1, y1]; rfl, fun _ h0 => x2 (List.append_eq_nil_iff.1 h0).1, ?_⟩
    rw [show fuel + (l :: ls).length = fuel + ls.length + 1 by rw [List.length_cons]; omega]
    rw [show (i + 0) = i from rfl] at x3
    rw [x3, y3, List.length_cons, show i + 1 + ls.length = i + (ls.length + 1) by omega, List.append_assoc]

theorem step_quote {l0 : Bytes} {ls rest : List Bytes} (hl : ∀ l ∈ l0 :: ls, NoCR l ∧ Flush l)
    (h : lines.drop i = (l0 :: ls).map quoteLine ++ [] :: rest) (hf : ls.length + 2 ≤ fuel) :
    parseMd lines (fuel + 1) i 0 blocks b =
      parseMd lines fuel (i + (ls.length + 2)) 0
        (flushP blocks b ++ [.node b!"BLOCKQUOTE" [.node b!"P" [.text ((l0 :: ls).flatMap fun l => paraText (32 :: l))]]]) [] := by
  have hk : ∀ k, lines[i + k]? = ((l0 :: ls).map quoteLine ++ [] :: rest)[k]? := by
    intro k
    rw [← h, List.getElem?_drop]
  obtain ⟨p1, p2⟩ := hl l0 (List.mem_cons_self ..)
  obtain ⟨m, rfl⟩ : ∃ m, fuel = m + 1 + (l0 :: ls).length := ⟨fuel - (ls.length + 2), by rw [List.length_cons]; omega⟩
  obtain ⟨x, x1, x2, x3⟩ := steps_quoted (lines := lines) (blocks := []) (l0 :: ls) i (m + 1) [] (fun k l hl' => by
    rw [hk, List.getElem?_append_left (by rw [List.length_map]; exact (List.getElem?_eq_some_iff.1 hl').1), List.getElem?_map, hl']; rfl) hl
  have x2 := x2 (by simp)
  have hend : parseMd lines (m + 1) (i + (l0 :: ls).length) 2 [] ([] ++ x) =
      .ok ([.node b!"P" [.text ((l0 :: ls).flatMap fun l => paraText (32 :: l))]], i + (l0 :: ls).length) := by
    have hb : lines[i + (l0 :: ls).length]? = some [] := by
      rw [hk, List.getElem?_append_right (by simp)]; simp
    rw [parseMd]
    simp only [hb, show stripCR [] = [] from rfl, indentFirst_nil]
    rw [if_pos (by omega), flushP, List.nil_append, if_neg x2, x1]
    rfl
  have hi0 : lines[i]? = some (quoteLine l0) := by
    have := hk 0
    simpa using this
  rw [parseMd]
  simp only [hi0, stripCR_id (quoteLine_nocr p1 p2), indentFirst_quote p2]
  rw [if_neg (by omega), if_pos ⟨trivial, by omega, by omega⟩, x3, hend]
  show parseMd lines _ (i + (l0 :: ls).length + 1) 0 _ [] = _
  rw [show i + (l0 :: ls).length + 1 = i + (ls.length + 2) by rw [List.length_cons]; omega]

end Pdf
