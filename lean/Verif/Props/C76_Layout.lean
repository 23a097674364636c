/-
C76: from text blocks to lines of text (layout.py:8-49).
-/
import Verif.Model.Layout
import Verif.Lemmas.KernelRfl
import Verif.Props.C75_Fragments
import Mathlib.Algebra.Order.Ring.Abs
import Mathlib.Tactic.Linarith
import Mathlib.Tactic.FieldSimp

namespace Pdf

/-! Sorting -/

theorem insertBy_perm {α : Type} (le : α → α → Bool) (x : α) : ∀ l : List α, (insertBy le x l).Perm (x :: l)
  | [] => List.Perm.refl _
  | y :: l => by
    rw [insertBy]
    split
    · exact List.Perm.refl _
    · exact ((insertBy_perm le x l).cons y).trans (List.Perm.swap x y l)

theorem sortBy_perm {α : Type} (le : α → α → Bool) : ∀ l : List α, (sortBy le l).Perm l
  | [] => List.Perm.refl _
  | x :: l => by
    rw [sortBy]
    exact (insertBy_perm le x _).trans ((sortBy_perm le l).cons x)

theorem insertBy_sorted {α : Type} {le : α → α → Bool} (trans : ∀ a b c, le a b → le b c → le a c)
    (total : ∀ a b, le a b ∨ le b a) (x : α) : ∀ l : List α, l.Pairwise (fun a b => le a b) →
      (insertBy le x l).Pairwise (fun a b => le a b)
  | [], _ => by simp [insertBy]
  | y :: l, h => by
    rw [insertBy]
    rw [List.pairwise_cons] at h
    split
    · rename_i hxy
      rw [List.pairwise_cons, List.pairwise_cons]
      refine ⟨?_, h⟩
      intro z hz
      rcases List.mem_cons.1 hz with rfl | hz
      · exact hxy
      · exact trans _ _ _ hxy (h.1 z hz)
    · rename_i hxy
      rw [List.pairwise_cons]
      refine ⟨?_, insertBy_sorted trans total x l h.2⟩
      intro z hz
      rcases List.mem_cons.1 ((insertBy_perm le x l).mem_iff.1 hz) with rfl | hz
      · rcases total z y with h1 | h1
        · exact absurd h1 hxy
        · exact h1
      · exact h.1 z hz

theorem sortBy_sorted {α : Type} {le : α → α → Bool} (trans : ∀ a b c, le a b → le b c → le a c)
    (total : ∀ a b, le a b ∨ le b a) : ∀ l : List α, (sortBy le l).Pairwise (fun a b => le a b)
  | [] => by simp [sortBy]
  | x :: l => by
    rw [sortBy]
    exact insertBy_sorted trans total x _ (sortBy_sorted trans total l)

/-! Specification -/

/-- The lines of a page: every block is in one line, lines are sorted from top to bottom, the blocks of a
line from left to right; a line holds the blocks that are within 9/10 of the line spacing below its
highest block. -/
structure Spec.Reading (spacing : Rat) (blocks : List Block) (lines : List (List Block)) : Prop where
  all : lines.flatten.Perm blocks
  left : ∀ l ∈ lines, l.Pairwise (fun b c => b.x ≤ c.x)
  top : ∀ l ∈ lines, ∃ b ∈ l, ∀ c ∈ l, c.y ≤ b.y ∧ b.y - c.y ≤ spacing * (9 / 10)
  apart : lines.Pairwise (fun l m => ∃ b ∈ l, ∀ c ∈ m, spacing * (9 / 10) < b.y - c.y)

/-- `Row col prev n blocks s`: after `n` characters, `s` shows the blocks. A block that is more than 5
units to the right of the end of the previous one, or that begins the line, starts at its column if this
column is not passed yet; the other ones follow the previous one. -/
inductive Spec.Row (col : Rat → Int) : Option Block → Nat → List Block → Str → Prop
  | nil {prev} {n : Nat} : Row col prev n [] []
  | glued {p b rest} {n : Nat} {s} : b.x ≤ p.x + p.width + 5 → Row col (some b) (n + b.text.length) rest s →
      Row col (some p) n (b :: rest) (b.text ++ s)
  | apart {prev b rest} {n : Nat} {s} (pad : Nat) : (∀ p, prev = some p → p.x + p.width + 5 < b.x) →
      pad = (col b.x - (n : Int)).toNat → Row col (some b) (n + pad + b.text.length) rest s →
      Row col prev n (b :: rest) (List.replicate pad 32 ++ b.text ++ s)

/-- The text of a page: empty lines, then the row of each line. A row that is a single space is left
out. -/
inductive Spec.Page (col : Rat → Int) : List (List Block) → Str → Prop
  | nil : Page col [] []
  | line {l lines row s} (k : Nat) : Spec.Row col none 0 l row → Page col lines s →
      Page col (l :: lines) (List.replicate k 10 ++ (if row = [32] then [] else row ++ [10]) ++ s)

/-- What is printed. -/
def Spec.ink (s : Str) : Str := s.filter (fun c => c ≠ 32 ∧ c ≠ 10)

/-- Column of an abscissa. -/
def Spec.colOf (minX charW x : Rat) : Int := (((ratTrunc x : Rat) - minX) / charW).floor

/-! Lines -/

theorem lineLoop_row {minX charW : Rat} (hc : charW ≠ 0) : ∀ (rest : List Block) (prev : Block) (line : Str),
    ∃ s, Spec.Row (Spec.colOf minX charW) (some prev) line.length rest s ∧
      lineLoop minX charW prev line rest = .ok (line ++ s)
  | [], prev, line => ⟨[], .nil, by simp [lineLoop]⟩
  | b :: rest, prev, line => by
    by_cases h : b.x > prev.x + prev.width + 5
    · obtain ⟨s, h1, h2⟩ := lineLoop_row hc rest b
        (line ++ spaces (Spec.colOf minX charW b.x - line.length) ++ b.text)
      refine ⟨_, .apart (s := s) _ (by rintro p ⟨⟩; exact h) rfl ?_, ?_⟩
      · simpa [spaces, Nat.add_assoc] using h1
      · rw [lineLoop]
        simp only [h, if_true, column, hc, if_false]
        show lineLoop minX charW b (line ++ spaces (Spec.colOf minX charW b.x - line.length) ++ b.text) rest = _
        rw [h2]
        simp [spaces]
    · obtain ⟨s, h1, h2⟩ := lineLoop_row hc rest b (line ++ b.text)
      refine ⟨_, .glued (s := s) (not_lt.1 h) ?_, ?_⟩
      · simpa using h1
      · rw [lineLoop]
        simp only [h, if_false]
        rw [h2]
        simp

theorem lineString_row {minX charW : Rat} (hc : charW ≠ 0) {l : List Block} (hl : l ≠ []) :
    ∃ s, Spec.Row (Spec.colOf minX charW) none 0 l s ∧ lineString minX charW l = .ok s := by
  cases l with
  | nil => exact absurd rfl hl
  | cons b rest =>
    obtain ⟨s, h1, h2⟩ := lineLoop_row hc rest b (spaces (Spec.colOf minX charW b.x) ++ b.text)
    refine ⟨_, .apart (s := s) _ (by rintro p ⟨⟩) rfl ?_, ?_⟩
    · simpa [spaces] using h1
    · rw [lineString]
      simp only [column, hc, if_false]
      show lineLoop minX charW b (spaces (Spec.colOf minX charW b.x) ++ b.text) rest = _
      rw [h2]
      simp [spaces]

theorem interLines_ok {spacing : Rat} (hs : spacing ≠ 0) (p y : Rat) :
    ∃ k, interLines spacing p y = .ok (List.replicate k 10) := by
  unfold interLines
  by_cases h : p ≠ -1
  · rw [if_pos h, if_neg hs]
    exact ⟨_, rfl⟩
  · rw [if_neg h]
    exact ⟨0, rfl⟩

theorem drop_takeWhile_length {α : Type} (p : α → Bool) (l : List α) :
    l.drop (l.takeWhile p).length = l.dropWhile p := by
  induction l with
  | nil => rfl
  | cons x l ih =>
    by_cases h : p x
    · simp [h, ih]
    · simp [h]

/-- A list from which blocks are taken from top to bottom. -/
def TopDown (l : List Block) : Prop := l.Pairwise (fun b c => c.y ≤ b.y)

theorem sameLine_iff {spacing y y' : Rat} (h : y' ≤ y) :
    sameLine spacing y y' = true ↔ y - y' ≤ spacing * (9 / 10) := by
  unfold sameLine
  rw [abs_of_nonneg (by linarith)]
  simp

theorem mem_takeWhile {α : Type} {p : α → Bool} {l : List α} {x : α} (h : x ∈ l.takeWhile p) : p x = true := by
  induction l with
  | nil => simp at h
  | cons y l ih =>
    by_cases hy : p y
    · rw [List.takeWhile_cons, if_pos hy] at h
      rcases List.mem_cons.1 h with rfl | h
      · exact hy
      · exact ih h
    · rw [List.takeWhile_cons, if_neg hy] at h
      simp at h

theorem dropWhile_far {spacing y : Rat} : ∀ l : List Block, TopDown l → (∀ c ∈ l, c.y ≤ y) →
    ∀ c ∈ l.dropWhile (fun c => sameLine spacing y c.y), spacing * (9 / 10) < y - c.y
  | [], _, _ => by simp
  | b :: l, ht, hy => by
    intro c hc
    by_cases hb : sameLine spacing y b.y = true
    · rw [List.dropWhile_cons, if_pos hb] at hc
      exact dropWhile_far l (List.Pairwise.of_cons ht) (fun c hc => hy c (by simp [hc])) c hc
    · rw [List.dropWhile_cons, if_neg hb] at hc
      rw [sameLine_iff (hy b (by simp))] at hb
      rcases List.mem_cons.1 hc with rfl | hc
      · linarith
      · have := (List.pairwise_cons.1 ht).1 c hc
        linarith

theorem layoutLoop_page {minX spacing charW : Rat} (hc : charW ≠ 0) (hs : 0 < spacing) : ∀ (fuel : Nat) (prevY : Rat)
    (blocks : List Block), blocks.length ≤ fuel → TopDown blocks →
    ∃ lines s, Spec.Reading spacing blocks lines ∧ Spec.Page (Spec.colOf minX charW) lines s ∧
      layoutLoop minX spacing charW fuel prevY blocks = .ok s
  | 0, prevY, blocks, hl, _ => by
    have : blocks = [] := List.length_eq_zero_iff.1 (by omega)
    subst this
    exact ⟨[], [], ⟨List.Perm.refl _, by simp, by simp, by simp⟩, .nil, rfl⟩
  | fuel + 1, prevY, [], _, _ =>
    ⟨[], [], ⟨List.Perm.refl _, by simp, by simp, by simp⟩, .nil, rfl⟩
  | fuel + 1, prevY, b :: rest, hl, ht => by
    have ht' := List.pairwise_cons.1 ht
    obtain ⟨k, hk⟩ := interLines_ok (ne_of_gt hs) prevY b.y
    let q : Block → Bool := fun c => sameLine spacing b.y c.y
    have hdrop : rest.drop (rest.takeWhile q).length = rest.dropWhile q := drop_takeWhile_length _ _
    have hlen : (rest.dropWhile q).length ≤ fuel := by
      have := (List.dropWhile_sublist q (l := rest)).length_le
      simp only [List.length_cons] at hl
      omega
    have hsub : (rest.dropWhile q).Sublist rest := List.dropWhile_sublist _
    have hfar := dropWhile_far (spacing := spacing) (y := b.y) rest ht'.2 ht'.1
    obtain ⟨lines, s, h1, h2, h3⟩ := layoutLoop_page hc hs fuel b.y (rest.dropWhile q) hlen
      (List.Pairwise.sublist hsub ht'.2)
    let line := sortBy (fun p q => decide (p.x ≤ q.x)) (b :: rest.takeWhile q)
    have hperm : line.Perm (b :: rest.takeWhile q) := sortBy_perm _ _
    have hne : line ≠ [] := by
      intro e
      have := hperm.length_eq
      rw [e] at this
      simp at this
    obtain ⟨row, hrow, hrow'⟩ := lineString_row (minX := minX) hc hne
    refine ⟨line :: lines, _, ⟨?_, ?_, ?_, ?_⟩, .line k hrow h2, ?_⟩
    · rw [List.flatten_cons]
      refine (hperm.append h1.all).trans ?_
      rw [List.cons_append, List.takeWhile_append_dropWhile]
    · intro l hl
      rcases List.mem_cons.1 hl with rfl | hl
      · have := sortBy_sorted (le := fun p q : Block => decide (p.x ≤ q.x))
          (by intro a b c h h'; simp only [decide_eq_true_eq] at *; exact le_trans h h')
          (by intro a b; simp only [decide_eq_true_eq]; exact le_total _ _) (b :: rest.takeWhile q)
        exact this.imp (fun h => by simpa using h)
      · exact h1.left l hl
    · intro l hl
      rcases List.mem_cons.1 hl with rfl | hl
      · refine ⟨b, hperm.mem_iff.2 (by simp), ?_⟩
        intro c hc
        rcases List.mem_cons.1 (hperm.mem_iff.1 hc) with rfl | hc
        · exact ⟨le_refl _, by linarith⟩
        · have hcr : c ∈ rest := (List.takeWhile_sublist _).mem hc
          have hle := ht'.1 c hcr
          exact ⟨hle, (sameLine_iff hle).1 (mem_takeWhile (p := q) hc)⟩
      · exact h1.top l hl
    · rw [List.pairwise_cons]
      refine ⟨?_, h1.apart⟩
      intro m hm
      refine ⟨b, hperm.mem_iff.2 (by simp), ?_⟩
      intro c hc
      exact hfar c (h1.all.mem_iff.1 (List.mem_flatten.2 ⟨m, hm, hc⟩))
    · rw [layoutLoop, hk]
      show (lineString minX charW line >>= fun row => _) = _
      rw [hrow']
      show (layoutLoop minX spacing charW fuel b.y (rest.drop (rest.takeWhile q).length) >>= fun after => _) = _
      rw [hdrop, h3]
      show Except.ok _ = Except.ok _
      congr 1
      by_cases h : row = [32] <;> simp [h]

theorem ink_append (s t : Str) : Spec.ink (s ++ t) = Spec.ink s ++ Spec.ink t := List.filter_append ..

theorem ink_spaces (k : Nat) : Spec.ink (List.replicate k 32) = [] := by
  simp [Spec.ink]

theorem ink_newlines (k : Nat) : Spec.ink (List.replicate k 10) = [] := by
  simp [Spec.ink]

theorem row_ink {col : Rat → Int} {prev : Option Block} {n : Nat} {l : List Block} {s : Str}
    (h : Spec.Row col prev n l s) : Spec.ink s = l.flatMap (fun b => Spec.ink b.text) := by
  induction h with
  | nil => rfl
  | glued _ _ ih => rw [ink_append, ih, List.flatMap_cons]
  | apart pad _ _ _ ih => rw [ink_append, ink_append, ink_spaces, ih, List.flatMap_cons, List.nil_append]

theorem page_ink {col : Rat → Int} {lines : List (List Block)} {s : Str} (h : Spec.Page col lines s) :
    Spec.ink s = lines.flatten.flatMap (fun b => Spec.ink b.text) := by
  induction h with
  | nil => rfl
  | line k hr _ ih =>
    rename_i l lines row s _
    rw [ink_append, ink_append, ink_newlines, ih, List.flatten_cons, List.flatMap_append, ← row_ink hr, List.nil_append]
    congr 1
    by_cases h : row = [32]
    · simp [h, Spec.ink]
    · simp only [h, if_false, ink_append]
      simp [Spec.ink]

/-- C76. The text of a page whose typical character width is not 0 and whose line spacing is positive:
the blocks in reading order, each at its column, and nothing else is printed.
Missing from the full claim: pages where each block holds one character or none, which raise
(`C76_single_characters`), and pages set with a scaling of 0 or below. -/
theorem C76_layout_partial (blocks : List Block)
    (hc : typicalCharWidth (sortBy (fun p q => decide (q.y ≤ p.y)) blocks)
      (typicalFontSize (sortBy (fun p q => decide (q.y ≤ p.y)) blocks)) ≠ 0)
    (hs : 0 < typicalLineSpacing (sortBy (fun p q => decide (q.y ≤ p.y)) blocks)
      (typicalFontSize (sortBy (fun p q => decide (q.y ≤ p.y)) blocks))) :
    ∃ lines s, basicSpatialLayout blocks = .ok s ∧
      Spec.Reading (typicalLineSpacing (sortBy (fun p q => decide (q.y ≤ p.y)) blocks)
        (typicalFontSize (sortBy (fun p q => decide (q.y ≤ p.y)) blocks))) blocks lines ∧
      Spec.Page (Spec.colOf (minimumX (sortBy (fun p q => decide (q.y ≤ p.y)) blocks))
        (typicalCharWidth (sortBy (fun p q => decide (q.y ≤ p.y)) blocks)
          (typicalFontSize (sortBy (fun p q => decide (q.y ≤ p.y)) blocks)))) lines s ∧
      Spec.ink s = lines.flatten.flatMap (fun b => Spec.ink b.text) := by
  have hsort := sortBy_sorted (le := fun p q : Block => decide (q.y ≤ p.y))
    (by intro a b c h h'; simp only [decide_eq_true_eq] at *; exact le_trans h' h)
    (by intro a b; simp only [decide_eq_true_eq]; exact le_total _ _) blocks
  obtain ⟨lines, s, h1, h2, h3⟩ := layoutLoop_page (minX := minimumX (sortBy (fun p q => decide (q.y ≤ p.y)) blocks))
    hc hs _ (-1) _ (Nat.le_refl _) (hsort.imp (fun h => by simpa using h))
  refine ⟨lines, s, h3, ?_, h2, page_ink h2⟩
  exact ⟨h1.all.trans (sortBy_perm _ _), h1.left, h1.top, h1.apart⟩

/-- Empty lines: a line that is about `m` line spacings below the previous one comes after `m - 1` empty
lines. -/
theorem C76_blank_lines (spacing prevY y : Rat) (m : Nat) (hm : 0 < m) (hs : 0 < spacing) (hp : prevY ≠ -1)
    (h1 : ((m : Rat) - 2 / 3) * spacing ≤ prevY - y) (h2 : prevY - y < ((m : Rat) + 1 / 3) * spacing) :
    interLines spacing prevY y = .ok (List.replicate (m - 1) 10) := by
  have e : (prevY - y - spacing / 3) / spacing = (prevY - y) / spacing - 1 / 3 := by
    field_simp
  have h3 : (m : Rat) - 2 / 3 ≤ (prevY - y) / spacing := by rw [le_div_iff₀ hs]; exact h1
  have h4 : (prevY - y) / spacing < (m : Rat) + 1 / 3 := by rw [div_lt_iff₀ hs]; exact h2
  have hm1 : (1 : Rat) ≤ m := by exact_mod_cast hm
  have h0 : (0 : Rat) ≤ (prevY - y) / spacing - 1 / 3 := by linarith
  have hfl : ((prevY - y) / spacing - 1 / 3).floor = (m : Int) - 1 := by
    apply le_antisymm
    · have := (Rat.floor_lt_iff (a := (prevY - y) / spacing - 1 / 3) (x := (m : Int))).2 (by push_cast; linarith)
      omega
    · apply Rat.le_floor_iff.2
      push_cast
      linarith
  simp only [interLines, hp, ne_eq, not_false_eq_true, if_true, ne_of_gt hs, if_false]
  rw [e, ratTrunc_nonneg h0, hfl]
  congr 2
  omega

/-- Pages where no block has two characters raise. -/
theorem C76_single_characters (blocks : List Block) (hne : blocks ≠ []) (h : ∀ b ∈ blocks, b.text.length < 2) :
    basicSpatialLayout blocks = .error .zeroDivision := by
  have hperm := sortBy_perm (fun p q : Block => decide (q.y ≤ p.y)) blocks
  have hall : ∀ b ∈ sortBy (fun p q : Block => decide (q.y ≤ p.y)) blocks, b.text.length < 2 :=
    fun b hb => h b (hperm.mem_iff.1 hb)
  unfold basicSpatialLayout
  simp only
  have hw : ∀ l : List Block, (∀ b ∈ l, b.text.length < 2) → ∀ size, typicalCharWidth l size = 0 := by
    intro l hl size
    have : l.filter (fun b => ¬ (b.scaling ≠ size ∨ b.text.length < 2)) = [] := by
      rw [List.filter_eq_nil_iff]
      intro b hb
      simp [hl b hb]
    simp only [typicalCharWidth, this]
    rfl
  rw [hw _ hall]
  cases hb : sortBy (fun p q : Block => decide (q.y ≤ p.y)) blocks with
  | nil => rw [hb] at hperm; exact absurd (List.Perm.nil_eq hperm).symm hne
  | cons b rest =>
    simp only [List.length_cons]
    rw [layoutLoop]
    have h0 : ∀ l : List Block, l ≠ [] → ∀ minX, lineString minX 0 l = .error .zeroDivision := by
      intro l hl minX
      cases l with
      | nil => exact absurd rfl hl
      | cons b l => rfl
    have hi : ∀ sp, interLines sp (-1) b.y = .ok [] := by intro sp; simp [interLines]
    rw [hi]
    show (lineString _ 0 _ >>= fun row => _) = _
    rw [h0]
    · rfl
    · intro e
      have := congrArg List.length e
      rw [(sortBy_perm _ _).length_eq] at this
      simp at this

theorem ratSorted_unique {l m : List Rat} (h : l.Perm m) (hl : l.Pairwise (· ≤ ·)) (hm : m.Pairwise (· ≤ ·)) : l = m :=
  h.eq_of_pairwise (fun _ _ _ _ h1 h2 => le_antisymm h1 h2) hl hm

/-- An arithmetic progression. -/
def Spec.steps (y d : Rat) : Nat → List Rat
  | 0 => []
  | n + 1 => y :: Spec.steps (y + d) d n

theorem steps_ge {d : Rat} (hd : 0 ≤ d) : ∀ (n : Nat) (y : Rat), ∀ z ∈ Spec.steps y d n, y ≤ z
  | 0, _ => by simp [Spec.steps]
  | n + 1, y => by
    intro z hz
    rcases List.mem_cons.1 hz with rfl | hz
    · exact le_refl _
    · have := steps_ge hd n (y + d) z hz
      linarith

theorem steps_sorted {d : Rat} (hd : 0 ≤ d) : ∀ (n : Nat) (y : Rat), (Spec.steps y d n).Pairwise (· ≤ ·)
  | 0, _ => by simp [Spec.steps]
  | n + 1, y => by
    rw [Spec.steps, List.pairwise_cons]
    refine ⟨?_, steps_sorted hd n (y + d)⟩
    intro z hz
    have := steps_ge hd n (y + d) z hz
    linarith

theorem steps_length (y d : Rat) (n : Nat) : (Spec.steps y d n).length = n := by
  induction n generalizing y with
  | zero => rfl
  | succ n ih => simp [Spec.steps, ih]

theorem ratTrunc_int (k : Int) : ratTrunc (k : Rat) = k := by
  simp [ratTrunc]

theorem deltas_steps {d : Rat} {k : Int} (hk : d * 10 = k) : ∀ (n : Nat) (y : Rat),
    deltas (Spec.steps y d (n + 1)) = List.replicate n d
  | 0, y => rfl
  | n + 1, y => by
    rw [Spec.steps, Spec.steps, deltas]
    have ih := deltas_steps hk n (y + d)
    rw [Spec.steps] at ih
    rw [ih, List.replicate_succ]
    congr 1
    have : (y + d - y) * 10 = (k : Rat) := by rw [← hk]; ring
    rw [this, ratTrunc_int, ← hk]
    ring

theorem bump_replicate (d : Rat) : ∀ (n c : Nat),
    (List.replicate n d).foldl (fun t x => bump x 1 t) [(d, c)] = [(d, c + n)]
  | 0, c => rfl
  | n + 1, c => by
    rw [List.replicate_succ, List.foldl_cons]
    have : bump d 1 [(d, c)] = [(d, c + 1)] := by simp [bump]
    rw [this, bump_replicate d n (c + 1)]
    congr 2
    omega

theorem columns_one (x : Rat) : ∀ (bs : List Block) (ys : List Rat), (∀ b ∈ bs, b.x = x) →
    bs.foldl (fun cols b => addColumn b.x b.y cols) [(x, ys)] = [(x, ys ++ bs.map Block.y)]
  | [], ys, _ => by simp
  | b :: bs, ys, h => by
    rw [List.foldl_cons, h b (by simp)]
    have : addColumn x b.y [(x, ys)] = [(x, ys ++ [b.y])] := by simp [addColumn]
    rw [this, columns_one x bs _ (fun c hc => h c (by simp [hc]))]
    simp

/-- Line spacing of a column of at least three blocks regularly spaced. -/
theorem C76_line_spacing (blocks : List Block) (size x y d : Rat) (n : Nat) (k : Int) (hn : 3 ≤ n) (hd : 0 < d)
    (hk : d * 10 = k) (hb : ∀ b ∈ blocks, b.scaling = size ∧ b.x = x)
    (hy : (blocks.map Block.y).Perm (Spec.steps y d n)) : typicalLineSpacing blocks size = d := by
  have hlen : blocks.length = n := by
    have := hy.length_eq
    rwa [List.length_map, steps_length] at this
  have hfil : blocks.filter (fun b => b.scaling = size) = blocks := by
    rw [List.filter_eq_self]
    intro b h
    simpa using (hb b h).1
  have hcol : columnsOf blocks size = [(x, blocks.map Block.y)] := by
    rw [columnsOf, hfil]
    cases blocks with
    | nil => simp at hlen; omega
    | cons b bs =>
      rw [List.foldl_cons, (hb b (by simp)).2]
      have : addColumn x b.y [] = [(x, [b.y])] := rfl
      rw [this, columns_one x bs _ (fun c hc => (hb c (by simp [hc])).2)]
      simp
  have hsort : sortBy (fun a b : Rat => decide (a ≤ b)) (blocks.map Block.y) = Spec.steps y d n := by
    apply ratSorted_unique
    · exact (sortBy_perm _ _).trans hy
    · have := sortBy_sorted (le := fun a b : Rat => decide (a ≤ b))
        (by intro a b c h h'; simp only [decide_eq_true_eq] at *; exact le_trans h h')
        (by intro a b; simp only [decide_eq_true_eq]; exact le_total _ _) (blocks.map Block.y)
      exact this.imp (fun h => by simpa using h)
    · exact steps_sorted (le_of_lt hd) _ _
  obtain ⟨m, rfl⟩ : ∃ m, n = m + 3 := ⟨n - 3, by omega⟩
  have hdis : spacingDistrib (columnsOf blocks size) = [(d, m + 2)] := by
    rw [hcol, spacingDistrib]
    have : ¬ (blocks.map Block.y).length < 3 := by rw [List.length_map]; omega
    simp only [List.filter_cons, this, not_false_eq_true, decide_true, if_true, List.filter_nil, List.foldl_cons,
      List.foldl_nil]
    rw [hsort, deltas_steps hk (m + 2) y, List.replicate_succ, List.foldl_cons]
    have : bump d 1 [] = [(d, 1)] := rfl
    rw [this, bump_replicate]
    congr 2
    omega
  have hm : mostFrequent 0 [(d, m + 2)] = d := by
    simp [mostFrequent, mostFrequentLoop]
  simp only [typicalLineSpacing, hdis, hm, ne_eq, ne_of_gt hd, not_false_eq_true, if_true]

/-- Character width of a text whose blocks of the typical size all have characters of `k` units on
average. -/
theorem C76_char_width (blocks : List Block) (size k : Rat)
    (hw : ∀ b ∈ blocks, b.scaling = size → 2 ≤ b.text.length → b.width = k * b.text.length)
    (hex : ∃ b ∈ blocks, b.scaling = size ∧ 2 ≤ b.text.length) : typicalCharWidth blocks size = k := by
  have key : ∀ l : List Rat, l ≠ [] → (∀ x ∈ l, x = k) → l.sum / (l.length : Rat) = k := by
    intro l hl h
    have hs : l.sum = k * l.length := by
      clear hl
      induction l with
      | nil => simp
      | cons x l ih =>
        rw [List.sum_cons, ih (fun x hx => h x (by simp [hx])), h x (by simp), List.length_cons]
        push_cast
        ring
    have hpos : (l.length : Rat) ≠ 0 := by
      have : 0 < l.length := List.length_pos_iff.2 hl
      exact_mod_cast ne_of_gt this
    rw [hs]
    field_simp
  obtain ⟨b, hb, hb1, hb2⟩ := hex
  have hmem : b ∈ blocks.filter (fun b => ¬ (b.scaling ≠ size ∨ b.text.length < 2)) := by
    rw [List.mem_filter]
    refine ⟨hb, ?_⟩
    simp only [hb1, ne_eq, not_true_eq_false, false_or, decide_eq_true_eq]
    omega
  have hne : (blocks.filter (fun b => ¬ (b.scaling ≠ size ∨ b.text.length < 2))).map
      (fun b => b.width / (b.text.length : Rat)) ≠ [] := by
    intro e
    rw [List.map_eq_nil_iff] at e
    rw [e] at hmem
    cases hmem
  unfold typicalCharWidth
  simp only
  rw [if_pos hne]
  apply key _ hne
  intro x hx
  obtain ⟨c, hc, rfl⟩ := List.mem_map.1 hx
  rw [List.mem_filter] at hc
  have h2 := hc.2
  simp only [ne_eq, not_or, not_not, not_lt, decide_eq_true_eq] at h2
  rw [hw c hc.1 h2.1 h2.2]
  have : (c.text.length : Rat) ≠ 0 := by
    have : 0 < c.text.length := by omega
    exact_mod_cast ne_of_gt this
  field_simp

/-- The same from the fragments of a page: the width of a fragment is the distance from its origin to its end, its size
the horizontal scaling, its text and its place those of the fragment. -/
theorem C76_fragments (frs : List Fragment) (size k : Rat)
    (hw : ∀ fr ∈ frs, fr.old.a = size → 2 ≤ fr.text.length → fr.new.e = fr.old.e + k * fr.text.length)
    (hex : ∃ fr ∈ frs, fr.old.a = size ∧ 2 ≤ fr.text.length) :
    ∃ blocks : List Block, layoutText frs = basicSpatialLayout blocks ∧ typicalCharWidth blocks size = k ∧
      blocks.map (fun b => (b.x, b.y, b.text)) =
        frs.map (fun fr => ((Spec.mapPoint fr.old (0, 0)).1, (Spec.mapPoint fr.old (0, 0)).2, fr.text)) := by
  refine ⟨frs.map blockOf, rfl, C76_char_width _ _ _ ?_ ?_, ?_⟩
  · intro b hb h1 h2
    obtain ⟨fr, hfr, rfl⟩ := List.mem_map.1 hb
    have := hw fr hfr h1 h2
    simp only [blockOf]
    rw [this]
    ring
  · obtain ⟨fr, h1, h2, h3⟩ := hex
    exact ⟨blockOf fr, List.mem_map.2 ⟨fr, h1, rfl⟩, h2, h3⟩
  · rw [List.map_map]
    apply List.map_congr_left
    intro fr _
    simp [blockOf, Spec.mapPoint]

/-- Three lines, the last one in two parts; the blocks are not in order. -/
def samplePage : List Block :=
  [⟨72, 700, 20, 10, [79, 110, 101, 33]⟩, ⟨72, 676, 15, 10, [65, 108, 108]⟩, ⟨72, 688, 15, 10, [84, 119, 111]⟩,
   ⟨122, 676, 20, 10, [100, 111, 110, 101]⟩]

/-- The hypotheses of `C76_layout_partial` hold of the sample. -/
example : typicalCharWidth (sortBy (fun p q => decide (q.y ≤ p.y)) samplePage)
      (typicalFontSize (sortBy (fun p q => decide (q.y ≤ p.y)) samplePage)) = 5 ∧
    typicalLineSpacing (sortBy (fun p q => decide (q.y ≤ p.y)) samplePage)
      (typicalFontSize (sortBy (fun p q => decide (q.y ≤ p.y)) samplePage)) = 12 := by decide +kernel

example : basicSpatialLayout samplePage = .ok ("One!\nTwo\nAll       done\n".toList.map Char.toNat) := by
  decide +kernel

end Pdf
