/-
C54 layout statistics.
-/
import Verif.Model.Layout

namespace Pdf

/-- `k` is the first key with the maximal count. -/
def Spec.FirstMax {K : Type} (d : List (K × Nat)) (k : K) : Prop :=
  ∃ pre n post, d = pre ++ (k, n) :: post ∧ (∀ p ∈ pre, p.2 < n) ∧ (∀ p ∈ post, p.2 ≤ n)

theorem mostFrequentLoop_spec {K : Type} : ∀ (d : List (K × Nat)) (most : K) (m : Nat),
    ((∀ p ∈ d, p.2 ≤ m) ∧ mostFrequentLoop most m d = most) ∨
    (∃ pre k n post, d = pre ++ (k, n) :: post ∧ m < n ∧ (∀ p ∈ pre, p.2 < n) ∧ (∀ p ∈ post, p.2 ≤ n) ∧
      mostFrequentLoop most m d = k)
  | [], most, m => Or.inl ⟨by simp, rfl⟩
  | (s, n) :: rest, most, m => by
    rw [mostFrequentLoop]
    split
    · rename_i hn
      rcases mostFrequentLoop_spec rest s n with ⟨h1, h2⟩ | ⟨pre, k, n', post, rfl, h1, h2, h3, h4⟩
      · exact Or.inr ⟨[], s, n, rest, rfl, hn, by simp, h1, h2⟩
      · refine Or.inr ⟨(s, n) :: pre, k, n', post, rfl, by omega, ?_, h3, h4⟩
        intro p hp
        rcases List.mem_cons.1 hp with rfl | hp
        · exact h1
        · exact h2 p hp
    · rename_i hn
      rcases mostFrequentLoop_spec rest most m with ⟨h1, h2⟩ | ⟨pre, k, n', post, rfl, h1, h2, h3, h4⟩
      · refine Or.inl ⟨?_, h2⟩
        intro p hp
        rcases List.mem_cons.1 hp with rfl | hp
        · simpa using hn
        · exact h1 p hp
      · refine Or.inr ⟨(s, n) :: pre, k, n', post, rfl, h1, ?_, h3, h4⟩
        intro p hp
        rcases List.mem_cons.1 hp with rfl | hp
        · show n < n'; omega
        · exact h2 p hp

/-- When some count is positive, the first key with the maximal count is returned. -/
theorem C54_most_frequent {K : Type} (zero : K) (d : List (K × Nat)) (h : ∃ p ∈ d, 0 < p.2) :
    Spec.FirstMax d (mostFrequent zero d) := by
  rcases mostFrequentLoop_spec d zero 0 with ⟨h1, _⟩ | ⟨pre, k, n, post, e, _, h2, h3, h4⟩
  · obtain ⟨p, hp, hp'⟩ := h
    have := h1 p hp
    omega
  · exact ⟨pre, n, post, by rw [mostFrequent, h4]; exact e, h2, h3⟩

/-- Otherwise 0 is returned, which need not be a key. -/
theorem C54_most_frequent_zero {K : Type} (zero : K) (d : List (K × Nat)) (h : ∀ p ∈ d, p.2 = 0) :
    mostFrequent zero d = zero := by
  rcases mostFrequentLoop_spec d zero 0 with ⟨_, h2⟩ | ⟨pre, k, n, post, rfl, h1, _⟩
  · exact h2
  · have := h (k, n) (by simp); simp only at this; omega

/-- Total number of characters set in the size `s`. -/
def Spec.charsOf (blocks : List Block) (s : Rat) : Nat :=
  ((blocks.filter (fun b => b.scaling = s)).map (fun b => b.text.length)).sum

/-- The count recorded for a key. -/
def countOf (d : List (Rat × Nat)) (s : Rat) : Nat := (d.lookup s).getD 0

theorem countOf_bump (d : List (Rat × Nat)) (k s : Rat) (n : Nat) :
    countOf (bump k n d) s = countOf d s + if k = s then n else 0 := by
  induction d with
  | nil =>
    by_cases h : k = s
    · simp [bump, countOf, List.lookup, h]
    · have : (s == k) = false := by simpa using fun e => h e.symm
      simp [bump, countOf, List.lookup, h, this]
  | cons p d ih =>
    obtain ⟨k', m⟩ := p
    rw [bump]
    split
    · rename_i hk
      subst hk
      by_cases h : k' = s
      · subst h; simp [countOf, List.lookup]
      · have : (s == k') = false := by simpa using fun e => h e.symm
        simp [countOf, List.lookup, h, this]
    · rename_i hk
      unfold countOf at ih ⊢
      by_cases h : k' = s
      · subst h
        have : ¬ k = k' := fun e => hk e.symm
        simp [List.lookup, this]
      · have : (s == k') = false := by simpa using fun e => h e.symm
        simpa [List.lookup, this] using ih

theorem bump_nodup (d : List (Rat × Nat)) (k : Rat) (n : Nat) (h : (d.map Prod.fst).Nodup) :
    ((bump k n d).map Prod.fst).Nodup ∧ ∀ x ∈ (bump k n d).map Prod.fst, x = k ∨ x ∈ d.map Prod.fst := by
  induction d with
  | nil => simp [bump]
  | cons p d ih =>
    obtain ⟨k', m⟩ := p
    simp only [List.map_cons, List.nodup_cons] at h
    obtain ⟨ih1, ih2⟩ := ih h.2
    rw [bump]
    split
    · refine ⟨by simpa using h, ?_⟩
      intro x hx; exact Or.inr (by simpa using hx)
    · rename_i hk
      refine ⟨?_, ?_⟩
      · simp only [List.map_cons, List.nodup_cons]
        refine ⟨fun hm => ?_, ih1⟩
        rcases ih2 _ hm with e | e
        · exact hk e
        · exact h.1 e
      · intro x hx
        simp only [List.map_cons, List.mem_cons] at hx ⊢
        rcases hx with rfl | hx
        · exact Or.inr (Or.inl rfl)
        · rcases ih2 x hx with e | e
          · exact Or.inl e
          · exact Or.inr (Or.inr e)

theorem foldl_bump (blocks : List Block) : ∀ (d : List (Rat × Nat)), (d.map Prod.fst).Nodup →
    ((blocks.foldl (fun d b => bump b.scaling b.text.length d) d).map Prod.fst).Nodup ∧
    ∀ s, countOf (blocks.foldl (fun d b => bump b.scaling b.text.length d) d) s =
      countOf d s + Spec.charsOf blocks s := by
  induction blocks with
  | nil => intro d h; exact ⟨h, by simp [Spec.charsOf]⟩
  | cons b blocks ih =>
    intro d h
    obtain ⟨h1, h2⟩ := ih (bump b.scaling b.text.length d) (bump_nodup d _ _ h).1
    refine ⟨h1, ?_⟩
    intro s
    rw [List.foldl_cons, h2, countOf_bump]
    unfold Spec.charsOf
    by_cases hs : b.scaling = s
    · simp [hs]; omega
    · simp [hs]

theorem lookup_mem {d : List (Rat × Nat)} (h : (d.map Prod.fst).Nodup) {k : Rat} {n : Nat} (hm : (k, n) ∈ d) :
    countOf d k = n := by
  induction d with
  | nil => simp at hm
  | cons p d ih =>
    obtain ⟨k', m⟩ := p
    simp only [List.map_cons, List.nodup_cons] at h
    rcases List.mem_cons.1 hm with e | hm'
    · cases e; simp [countOf, List.lookup]
    · have : (k == k') = false := by
        simp only [beq_eq_false_iff_ne, ne_eq]
        rintro rfl
        exact h.1 (List.mem_map.2 ⟨(k, n), hm', rfl⟩)
      have ih := ih h.2 hm'
      unfold countOf at ih ⊢
      simpa [List.lookup, this] using ih

theorem mem_of_countOf {d : List (Rat × Nat)} {k : Rat} (h : 0 < countOf d k) : (k, countOf d k) ∈ d := by
  induction d with
  | nil => simp [countOf] at h
  | cons p d ih =>
    obtain ⟨k', m⟩ := p
    by_cases e : k = k'
    · subst e; simp [countOf, List.lookup]
    · have : (k == k') = false := by simpa using e
      unfold countOf at ih h ⊢
      simp only [List.lookup, this] at h ⊢
      exact List.mem_cons_of_mem _ (ih h)

theorem le_sum_of_mem {l : List Nat} {n : Nat} (h : n ∈ l) : n ≤ l.sum := by
  induction l with
  | nil => simp at h
  | cons m l ih =>
    rw [List.sum_cons]
    rcases List.mem_cons.1 h with rfl | h
    · omega
    · have := ih h; omega

/-- Hence the typical font size is a size that sets the most characters. -/
theorem C54_typical_font_size (blocks : List Block) (h : ∃ b ∈ blocks, b.text ≠ []) :
    ∀ s, Spec.charsOf blocks s ≤ Spec.charsOf blocks (typicalFontSize blocks) := by
  obtain ⟨hnd, hc⟩ := foldl_bump blocks [] (by simp)
  have hc' : ∀ s, countOf (fontDistrib blocks) s = Spec.charsOf blocks s := by
    intro s; rw [fontDistrib, hc]; simp [countOf]
  have hnd' : ((fontDistrib blocks).map Prod.fst).Nodup := hnd
  obtain ⟨b, hb, hbt⟩ := h
  have hpos : 0 < countOf (fontDistrib blocks) b.scaling := by
    rw [hc', Spec.charsOf]
    have : b.text.length ∈ (blocks.filter (fun b' => b'.scaling = b.scaling)).map (fun b => b.text.length) :=
      List.mem_map.2 ⟨b, List.mem_filter.2 ⟨hb, by simp⟩, rfl⟩
    have h1 := List.length_pos_iff.2 hbt
    have h2 := le_sum_of_mem this
    omega
  obtain ⟨pre, n, post, e, h1, h2⟩ := C54_most_frequent (0 : Rat) (fontDistrib blocks) ⟨_, mem_of_countOf hpos, hpos⟩
  have hn : countOf (fontDistrib blocks) (typicalFontSize blocks) = n :=
    lookup_mem hnd' (by rw [e]; simp [typicalFontSize])
  intro s
  rw [← hc', ← hc', hn]
  by_cases hs : 0 < countOf (fontDistrib blocks) s
  · have hm := mem_of_countOf hs
    generalize countOf (fontDistrib blocks) s = c at hm
    rw [e] at hm
    rcases List.mem_append.1 hm with hm | hm
    · exact Nat.le_of_lt (h1 _ hm)
    · rcases List.mem_cons.1 hm with hm | hm
      · cases hm; exact Nat.le_refl _
      · exact h2 _ hm
  · omega

/-- The smallest abscissa of the blocks. -/
def Spec.IsMinX (blocks : List Block) (m : Rat) : Prop := (∃ b ∈ blocks, b.x = m) ∧ ∀ b ∈ blocks, m ≤ b.x

theorem minimumXLoop_spec : ∀ (blocks : List Block) (m : Rat), m ≠ -1 → (∀ b ∈ blocks, b.x ≠ -1) →
    (minimumXLoop m blocks ≤ m ∧ ∀ b ∈ blocks, minimumXLoop m blocks ≤ b.x) ∧
    (minimumXLoop m blocks = m ∨ ∃ b ∈ blocks, b.x = minimumXLoop m blocks)
  | [], m, _, _ => ⟨⟨Rat.le_refl, by simp⟩, Or.inl rfl⟩
  | b :: rest, m, hm, h => by
    have hb := h b (by simp)
    have hr : ∀ b' ∈ rest, b'.x ≠ -1 := fun b' hb' => h b' (by simp [hb'])
    rw [minimumXLoop]
    by_cases hlt : b.x < m
    · rw [if_pos (Or.inr hlt)]
      obtain ⟨⟨h1, h2⟩, h3⟩ := minimumXLoop_spec rest b.x hb hr
      refine ⟨⟨Rat.le_trans h1 (Rat.le_of_lt hlt), ?_⟩, ?_⟩
      · intro b' hb'
        rcases List.mem_cons.1 hb' with rfl | hb'
        · exact h1
        · exact h2 b' hb'
      · right
        rcases h3 with h3 | ⟨b', hb', h3⟩
        · exact ⟨b, by simp, h3.symm⟩
        · exact ⟨b', by simp [hb'], h3⟩
    · rw [if_neg (fun e => e.elim hm hlt)]
      obtain ⟨⟨h1, h2⟩, h3⟩ := minimumXLoop_spec rest m hm hr
      refine ⟨⟨h1, ?_⟩, ?_⟩
      · intro b' hb'
        rcases List.mem_cons.1 hb' with rfl | hb'
        · exact Rat.le_trans h1 (Rat.not_lt.1 hlt)
        · exact h2 b' hb'
      · rcases h3 with h3 | ⟨b', hb', h3⟩
        · exact Or.inl h3
        · exact Or.inr ⟨b', by simp [hb'], h3⟩

/-- The minimum is right when no block is at abscissa -1 (the value the code uses as a marker). -/
theorem C54_minimum_x_partial (blocks : List Block) (hne : blocks ≠ []) (h : ∀ b ∈ blocks, b.x ≠ -1) :
    Spec.IsMinX blocks (minimumX blocks) := by
  cases blocks with
  | nil => exact absurd rfl hne
  | cons b rest =>
    rw [minimumX, minimumXLoop, if_pos (Or.inl rfl)]
    obtain ⟨⟨h1, h2⟩, h3⟩ := minimumXLoop_spec rest b.x (h b (by simp)) (fun b' hb' => h b' (by simp [hb']))
    refine ⟨?_, ?_⟩
    · rcases h3 with h3 | ⟨b', hb', h3⟩
      · exact ⟨b, by simp, h3.symm⟩
      · exact ⟨b', by simp [hb'], h3⟩
    · intro b' hb'
      rcases List.mem_cons.1 hb' with rfl | hb'
      · exact h1
      · exact h2 b' hb'

/-- It is wrong otherwise: blocks at -1 and 3 give 3. -/
theorem C54_minimum_x_counterexample :
    ∃ blocks : List Block, blocks ≠ [] ∧ ¬ Spec.IsMinX blocks (minimumX blocks) := by
  refine ⟨[⟨-1, 0, 1, 1, [65]⟩, ⟨3, 0, 1, 1, [65]⟩], by simp, ?_⟩
  intro h
  have := h.2 ⟨-1, 0, 1, 1, [65]⟩ (by simp)
  exact absurd this (by decide)

example : minimumX [⟨5, 0, 1, 1, [65]⟩, ⟨2, 0, 1, 1, [65]⟩, ⟨7, 0, 1, 1, [65]⟩] = 2 := by decide
example : typicalFontSize [⟨5, 0, 1, 10, [65]⟩, ⟨2, 0, 1, 12, [65, 66]⟩, ⟨7, 0, 1, 10, [65]⟩] = 10 := by decide

end Pdf
