/-
Forward scanning lemmas: what the tokenizer does on given text.
-/
import Verif.Lemmas.Shift
import Verif.Lemmas.Dec

namespace Pdf
open Spec

/-! ### Words -/

theorem scan_name (text : Bytes) (n : Nat) (b : Bool) (h : Nat) (c : UInt8) (post : Bytes)
    (hc : isBreak c = true) : ∀ (body : Bytes) (i : Nat), (∀ x ∈ body, isBreak x = false) →
    tokLoop text ⟨.name, n, b, h, i⟩ (body ++ c :: post) = (h, i + body.length, some .name) := by
  intro body
  induction body with
  | nil => intro i _; simp [tokLoop, tokStep, hc]
  | cons x body ih =>
    intro i hb
    have hx := hb x (by simp)
    simp only [List.cons_append, tokLoop, tokStep, hx]
    have := ih (i + 1) (fun y hy => hb y (by simp [hy]))
    simp only [Bool.false_eq_true, if_false, this, List.length_cons]
    congr 2; omega

theorem scan_keyword (text : Bytes) (n : Nat) (b : Bool) (h : Nat) (c : UInt8) (post : Bytes)
    (hc : isBreak c = true) : ∀ (body : Bytes) (i : Nat), (∀ x ∈ body, isBreak x = false) →
    tokLoop text ⟨.keyword, n, b, h, i⟩ (body ++ c :: post) = (h, i + body.length,
      if slice text h (i + body.length) = b!"true" then some .true
      else if slice text h (i + body.length) = b!"false" then some .false
      else some .keyword) := by
  intro body
  induction body with
  | nil =>
    intro i _
    simp only [List.nil_append, tokLoop, tokStep, hc, if_true, List.length_nil, Nat.add_zero]
    split <;> rename_i heq <;> split at heq <;> try split at heq
    all_goals simp_all
    all_goals exact heq.symm
  | cons x body ih =>
    intro i hb
    have hx := hb x (by simp)
    simp only [List.cons_append, tokLoop, tokStep, hx]
    have := ih (i + 1) (fun y hy => hb y (by simp [hy]))
    simp only [Bool.false_eq_true, if_false, this, List.length_cons]
    rw [show i + 1 + body.length = i + (body.length + 1) by omega]

theorem scan_value (text : Bytes) (n : Nat) (b : Bool) (h : Nat) (c : UInt8) (post : Bytes)
    (hc : isBreak c = true) : ∀ (body : Bytes) (i : Nat), (∀ x ∈ body, isBreak x = false) →
    tokLoop text ⟨.value, n, b, h, i⟩ (body ++ c :: post) = (h, i + body.length,
      if (slice text h (i + body.length)).contains 46 then some .real else some .integer) := by
  intro body
  induction body with
  | nil =>
    intro i _
    simp only [List.nil_append, tokLoop, tokStep, hc, if_true, List.length_nil, Nat.add_zero]
    split <;> rename_i heq <;> split at heq
    all_goals simp_all
    all_goals exact heq.symm
  | cons x body ih =>
    intro i hb
    have hx := hb x (by simp)
    simp only [List.cons_append, tokLoop, tokStep, hx]
    have := ih (i + 1) (fun y hy => hb y (by simp [hy]))
    simp only [Bool.false_eq_true, if_false, this, List.length_cons]
    rw [show i + 1 + body.length = i + (body.length + 1) by omega]

/-! ### Strings -/

theorem litBody_cons {d : Nat} {c : UInt8} {rest : Bytes} (hc : c ≠ 92) :
    litBody d (c :: rest) = (if c = 40 then litBody (d + 1) rest
      else if c = 41 then decide (d ≠ 0) && litBody (d - 1) rest
      else litBody d rest) := by
  rw [litBody.eq_def]
  split <;> simp_all

theorem litBody_esc {d : Nat} {x : UInt8} {rest : Bytes} :
    litBody d (92 :: x :: rest) =
      ((x ≠ 92 || match rest with | [] => false | y :: _ => y ≠ 40 && y ≠ 41) && litBody d rest) := by
  rw [litBody.eq_def]
  cases rest <;> rfl

theorem scan_lstring (text : Bytes) (b : Bool) (h : Nat) (post : Bytes) :
    ∀ (n : Nat) (body : Bytes) (d i : Nat), body.length ≤ n → litBody d body = true →
    tokLoop text ⟨.lstring, d + 1, b, h, i⟩ (body ++ 41 :: post) =
      (h, i + body.length + 1, some .string) := by
  intro n
  induction n with
  | zero =>
    intro body d i hn hl
    have : body = [] := List.eq_nil_of_length_eq_zero (by omega)
    subst this
    simp [litBody] at hl
    subst hl
    simp [tokLoop, tokStep, startsWith]
  | succ n ih =>
    intro body d i hn hl
    cases body with
    | nil =>
      simp [litBody] at hl
      subst hl
      simp [tokLoop, tokStep, startsWith]
    | cons c rest =>
      by_cases hc : c = 92
      · subst hc
        cases rest with
        | nil => simp [litBody] at hl
        | cons x rest =>
          simp only [litBody_esc, Bool.and_eq_true] at hl
          obtain ⟨h1, h2⟩ := hl
          simp only [List.length_cons] at hn
          have hrec := ih rest d (i + 2) (by omega) h2
          simp only [List.length_cons]
          rw [show i + (rest.length + 1 + 1) + 1 = i + 2 + rest.length + 1 by omega, ← hrec]
          by_cases hx : x = 40 ∨ x = 41
          · rcases hx with rfl | rfl <;> simp [tokLoop, tokStep, startsWith]
          · rw [not_or] at hx
            by_cases hx2 : x = 92
            · subst hx2
              cases rest with
              | nil => simp at h1
              | cons y rest =>
                simp at h1
                simp only [List.cons_append, tokLoop, tokStep]
                simp [startsWith, Ne.symm h1.1, Ne.symm h1.2]
            · simp only [List.cons_append, tokLoop, tokStep]
              simp [startsWith, Ne.symm hx.1, Ne.symm hx.2, Ne.symm hx2, hx.1, hx.2]
      · rw [litBody_cons hc] at hl
        simp only [List.length_cons] at hn ⊢
        have hns : ∀ x y : UInt8, startsWith [92, x] (c :: (rest ++ 41 :: post)) = false := by
          intro x y; exact startsWith_ne hc
        simp only [List.cons_append, tokLoop, tokStep, hns _ 0, Bool.or_false]
        by_cases h40 : c = 40
        · simp only [h40, if_true] at hl ⊢
          have := ih rest (d + 1) (i + 1) (by omega) hl
          simp [this]; omega
        · by_cases h41 : c = 41
          · subst h41
            simp at hl
            obtain ⟨d, rfl⟩ : ∃ k, d = k + 1 := ⟨d - 1, by omega⟩
            have := ih rest d (i + 1) (by omega) (by simpa using hl.2)
            simp [this]; omega
          · simp only [h40, h41, if_false] at hl ⊢
            have := ih rest d (i + 1) (by omega) hl
            simp [this]; omega

theorem scan_hstring (text : Bytes) (n : Nat) (b : Bool) (h : Nat) (post : Bytes) :
    ∀ (body : Bytes) (i : Nat), (∀ x ∈ body, x ≠ 62 ∧ x ≠ 92) →
    tokLoop text ⟨.hstring, n, b, h, i⟩ (body ++ 62 :: post) =
      (h, i + body.length + 1, some .string) := by
  intro body
  induction body with
  | nil => intro i _; simp [tokLoop, tokStep, startsWith]
  | cons x body ih =>
    intro i hb
    have hx := hb x (by simp)
    have := ih (i + 1) (fun y hy => hb y (by simp [hy]))
    simp only [List.cons_append, tokLoop, tokStep]
    simp [startsWith, Ne.symm hx.2, hx.1, this]
    omega

/-! ### Tokens at a position -/

/-- Wherever `s ++ post` is found, the next token is `s`, of type `t`. -/
def TokAt (s post : Bytes) (t : TokT) : Prop :=
  ∀ (text : Bytes) (h i : Nat), text.drop i = s ++ post →
    tokLoop text ⟨.tbd, 1, false, h, i⟩ (s ++ post) = (i, i + s.length, some t)

theorem slice_of_drop {text s post : Bytes} {i : Nat} (h : text.drop i = s ++ post) :
    slice text i (i + s.length) = s := by
  have := slice_drop text i 0 s.length
  rw [Nat.add_zero] at this
  rw [← this, h, slice_zero]; simp

theorem isSpace_facts {c : UInt8} (h : isSpace c = true) :
    c ≠ 93 ∧ c ≠ 62 ∧ c ≠ 60 ∧ c ≠ 91 ∧ c ≠ 47 ∧ c ≠ 115 ∧ isNumStart c = false ∧
      isAlpha c = false ∧ c ≠ 40 ∧ c ≠ 37 := by
  revert c; apply forall_byte; decide +kernel

theorem scan_ws (text : Bytes) (rest : Bytes) : ∀ (ws : Bytes) (h i : Nat),
    (∀ c ∈ ws, isSpace c = true) →
    ∃ h', tokLoop text ⟨.tbd, 1, false, h, i⟩ (ws ++ rest) =
      tokLoop text ⟨.tbd, 1, false, h', i + ws.length⟩ rest := by
  intro ws
  induction ws with
  | nil => intro h i _; exact ⟨h, rfl⟩
  | cons c ws ih =>
    intro h i hws
    obtain ⟨h1, h2, h3, h4, h5, h6, h7, h8, h9, h10⟩ := isSpace_facts (hws c (by simp))
    obtain ⟨h', e⟩ := ih i (i + 1) (fun x hx => hws x (by simp [hx]))
    refine ⟨h', ?_⟩
    rw [List.length_cons, show i + (ws.length + 1) = i + 1 + ws.length by omega, ← e]
    simp only [List.cons_append, tokLoop, tokStep]
    simp [startsWith, h1, Ne.symm h2, Ne.symm h3, h3, h4, h5, Ne.symm h6, h7, h8, h9, h10]

theorem nextToken_at {s post : Bytes} {t : TokT} (ht : TokAt s post t) {text ws : Bytes} {i : Nat}
    (hws : ∀ c ∈ ws, isSpace c = true) (hd : text.drop i = ws ++ (s ++ post)) :
    nextToken text i = (i + ws.length, i + ws.length + s.length, some t) := by
  unfold nextToken
  rw [hd]
  obtain ⟨h', e⟩ := scan_ws text (s ++ post) ws i i hws
  rw [e]
  apply ht
  rw [← List.drop_drop, hd]; simp

theorem regular_break {c : UInt8} (h : regular c = true) : isBreak c = false := by
  rw [isBreak_false_iff]
  simp only [regular, Bool.and_eq_true, decide_eq_true_eq] at h
  rintro (h' | h')
  · exact h.1.1 h'
  · exact h.1.2 h'

theorem tokAt_name {s : Bytes} (hs : isName s = true) {c : UInt8} (hc : isBreak c = true)
    (post : Bytes) : TokAt s (c :: post) .name := by
  cases s with
  | nil => simp [isName] at hs
  | cons x body =>
    simp only [isName, Bool.and_eq_true, decide_eq_true_eq, List.all_eq_true] at hs
    obtain ⟨rfl, hb⟩ := hs
    intro text h i _
    rw [List.cons_append, tokLoop]
    simp only [tokStep]
    simp only [startsWith, List.isPrefixOf]
    simp [scan_name text 1 false i c post hc body (i + 1) (fun x hx => regular_break (hb x hx))]
    omega

theorem alpha_facts {c : UInt8} (h : isAlpha c = true) :
    c ≠ 93 ∧ c ≠ 62 ∧ c ≠ 60 ∧ c ≠ 91 ∧ c ≠ 47 ∧ isNumStart c = false := by
  revert c; apply forall_byte; decide +kernel

theorem num_facts {c : UInt8} (h : isNumStart c = true) :
    c ≠ 93 ∧ c ≠ 62 ∧ c ≠ 60 ∧ c ≠ 91 ∧ c ≠ 47 ∧ c ≠ 115 := by
  revert c; apply forall_byte; decide +kernel

/-- A run of regular characters starting with a letter. -/
theorem tokAt_word {x : UInt8} {body : Bytes} (hx : isAlpha x = true)
    (hb : ∀ y ∈ body, isBreak y = false) {c : UInt8} (hc : isBreak c = true) (post : Bytes)
    (hns : (b!"stream").isPrefixOf (x :: body ++ c :: post) = false) :
    TokAt (x :: body) (c :: post)
      (if x :: body = b!"true" then .true else if x :: body = b!"false" then .false
       else .keyword) := by
  obtain ⟨h1, h2, h3, h4, h5, h6⟩ := alpha_facts hx
  intro text h i hd
  have hsl := slice_of_drop hd
  have hns' : startsWith b!"stream" (x :: (body ++ c :: post)) = false := hns
  rw [List.cons_append, tokLoop]
  simp only [tokStep, hns']
  have e := scan_keyword text 1 false i c post hc body (i + 1) hb
  rw [show i + 1 + body.length = i + (x :: body).length by simp; omega, hsl] at e
  simp only [h1, h4, h5, h6, hx, if_false, if_true, Bool.false_eq_true,
    show startsWith b!">>" (x :: (body ++ c :: post)) = false from startsWith_ne h2,
    show startsWith b!"<<" (x :: (body ++ c :: post)) = false from startsWith_ne h3]
  rw [e]
  congr 2
  split
  · rfl
  · split <;> rfl

theorem stream_not_prefix {s post : Bytes} {c : UInt8} (hc : isBreak c = true)
    (h : (b!"stream").isPrefixOf s = false) : (b!"stream").isPrefixOf (s ++ c :: post) = false := by
  have hne : ∀ d ∈ b!"stream", d ≠ c := by
    intro d hd he
    subst he
    revert hc
    revert hd
    revert d
    apply forall_byte
    decide +kernel
  rw [Bool.eq_false_iff] at h ⊢
  intro hp
  apply h
  rw [List.isPrefixOf_iff_prefix] at hp ⊢
  by_cases hl : (b!"stream").length ≤ s.length
  · exact (List.prefix_append_right_inj []).1 (by
      simpa using List.prefix_of_prefix_length_le hp (List.prefix_append s _) hl)
  · exfalso
    have hp2 : s <+: b!"stream" :=
      List.prefix_of_prefix_length_le (List.prefix_append s (c :: post)) hp (by omega)
    obtain ⟨t, ht⟩ := hp2
    rw [← ht] at hp
    rw [List.prefix_append_right_inj] at hp
    cases t with
    | nil => simp at ht; rw [ht] at hl; simp at hl
    | cons d t =>
      obtain ⟨u, hu⟩ := hp
      simp at hu
      exact hne d (by rw [← ht]; simp) hu.1

theorem tokAt_keyword {s : Bytes} (hs : isKeyword s = true) {c : UInt8} (hc : isBreak c = true)
    (post : Bytes) : TokAt s (c :: post) .keyword := by
  cases s with
  | nil => simp [isKeyword] at hs
  | cons x body =>
    simp only [isKeyword, Bool.and_eq_true, decide_eq_true_eq, List.all_eq_true,
      Bool.not_eq_true'] at hs
    obtain ⟨⟨⟨⟨⟨h1, h2⟩, h3⟩, h4⟩, h5⟩, h6⟩ := hs
    have hx : isAlpha x = true := (isAlpha_iff x).2 h1
    have hb : ∀ y ∈ body, isBreak y = false := fun y hy => regular_break (h2 y hy)
    have := tokAt_word hx hb hc post (stream_not_prefix hc h6)
    simpa only [h3, h4, if_false] using this

theorem tokAt_true {c : UInt8} (hc : isBreak c = true) (post : Bytes) :
    TokAt b!"true" (c :: post) .true := by
  have := tokAt_word (x := 116) (body := b!"rue") (by decide) (by decide) hc post (by simp [List.isPrefixOf])
  simpa using this

theorem tokAt_false {c : UInt8} (hc : isBreak c = true) (post : Bytes) :
    TokAt b!"false" (c :: post) .false := by
  have := tokAt_word (x := 102) (body := b!"alse") (by decide) (by decide) hc post (by simp [List.isPrefixOf])
  simpa using this

theorem tokAt_value {x : UInt8} {body : Bytes} (hx : isNumStart x = true)
    (hb : ∀ y ∈ body, isBreak y = false) {c : UInt8} (hc : isBreak c = true) (post : Bytes) :
    TokAt (x :: body) (c :: post) (if (x :: body).contains 46 then .real else .integer) := by
  obtain ⟨h1, h2, h3, h4, h5, h6⟩ := num_facts hx
  intro text h i hd
  have hsl := slice_of_drop hd
  rw [List.cons_append, tokLoop]
  have e := scan_value text 1 false i c post hc body (i + 1) hb
  rw [show i + 1 + body.length = i + (x :: body).length by simp; omega, hsl] at e
  simp only [tokStep]
  simp only [h1, h4, h5, hx, if_false, if_true, Bool.false_eq_true,
    show startsWith b!">>" (x :: (body ++ c :: post)) = false from startsWith_ne h2,
    show startsWith b!"<<" (x :: (body ++ c :: post)) = false from startsWith_ne h3,
    show startsWith b!"stream" (x :: (body ++ c :: post)) = false from startsWith_ne h6]
  rw [e]
  congr 2
  split <;> rfl

theorem digit_facts {c : UInt8} (h : isDigit c = true) :
    isNumStart c = true ∧ isBreak c = false ∧ c ≠ 46 := by
  revert c; apply forall_byte; decide +kernel

theorem tokAt_int (n : Int) {c : UInt8} (hc : isBreak c = true) (post : Bytes) :
    TokAt (intDec n) (c :: post) .integer := by
  have key : ∀ (x : UInt8) (s : Bytes), isNumStart x = true → x ≠ 46 → s.all isDigit = true →
      TokAt (x :: s) (c :: post) .integer := by
    intro x s hx hx2 hs
    rw [List.all_eq_true] at hs
    have := tokAt_value hx (body := s) (fun y hy => (digit_facts (hs y hy)).2.1) hc post
    rwa [if_neg] at this
    simp only [List.contains_cons, Bool.or_eq_true, not_or]
    refine ⟨by simpa using Ne.symm hx2, ?_⟩
    intro hmem
    rw [List.contains_iff_mem] at hmem
    exact (digit_facts (hs _ hmem)).2.2 rfl
  cases n with
  | ofNat n =>
    obtain ⟨x, s, hn, hx, hs⟩ := natDec_cons n
    simp only [intDec, hn]
    exact key x s (digit_facts hx).1 (digit_facts hx).2.2 hs
  | negSucc n =>
    simp only [intDec]
    exact key 45 _ (by decide) (by decide) (natDec_all _)

theorem tokAt_real (neg : Bool) (ip : Nat) (frac : Bytes) (h : realOk ip frac = true) {c : UInt8}
    (hc : isBreak c = true) (post : Bytes) : TokAt (realStr neg ip frac) (c :: post) .real := by
  obtain ⟨r, h1, h2, h3, h4⟩ := pyFloat_body neg ip frac h
  rw [List.all_eq_true] at h1
  have hn := natDec_all ip
  rw [List.all_eq_true] at hn
  have key : ∀ (x : UInt8) (s : Bytes), isNumStart x = true →
      (∀ y ∈ s, isDigit y = true ∨ y = 46) → 46 ∈ s →
      TokAt (x :: s) (c :: post) .real := by
    intro x s hx hs h46
    have := tokAt_value hx (body := s) (by
      intro y hy
      rcases hs y hy with h | rfl
      · exact (digit_facts h).2.1
      · decide) hc post
    rwa [if_pos] at this
    simp [h46]
  rw [h4]
  cases neg with
  | true =>
    simp only [if_true, List.cons_append, List.nil_append]
    refine key 45 _ (by decide) ?_ (by simp)
    intro y hy
    simp at hy
    rcases hy with hy | hy | hy
    · exact .inl (hn y hy)
    · exact .inr hy
    · exact .inl (h1 y hy)
  | false =>
    obtain ⟨x, s, he, hx, hs⟩ := natDec_cons ip
    rw [he]
    simp only [Bool.false_eq_true, if_false, List.nil_append, List.cons_append]
    rw [List.all_eq_true] at hs
    refine key x _ (digit_facts hx).1 ?_ (by simp)
    intro y hy
    simp at hy
    rcases hy with hy | hy | hy
    · exact .inl (hs y hy)
    · exact .inr hy
    · exact .inl (h1 y hy)

theorem getLast?_append_dropLast {s : Bytes} {c : UInt8} (h : s.getLast? = some c) :
    s = s.dropLast ++ [c] := by
  obtain ⟨hne, he⟩ := List.getLast?_eq_some_iff.1 h
  rw [he]; simp

theorem tokAt_literal {s : Bytes} (hs : isLiteral s = true) (post : Bytes) :
    TokAt s post .string := by
  unfold isLiteral at hs
  split at hs
  · rename_i rest
    simp only [Bool.and_eq_true, decide_eq_true_eq] at hs
    obtain ⟨h1, h2⟩ := hs
    have e := getLast?_append_dropLast h1
    intro text h i _
    rw [e]
    simp only [List.cons_append, List.append_assoc, List.nil_append]
    rw [tokLoop]
    simp only [tokStep]
    have := scan_lstring text false i post _ rest.dropLast 0 (i + 1) (Nat.le_refl _) h2
    simp [startsWith, isNumStart, isAlpha, isDigit]
    rw [this]
    simp; omega
  · simp at hs

theorem tokAt_hex {s : Bytes} (hs : isHexString s = true) (post : Bytes) :
    TokAt s post .string := by
  unfold isHexString at hs
  split at hs
  · rename_i rest
    simp only [Bool.and_eq_true, decide_eq_true_eq] at hs
    obtain ⟨h1, h2⟩ := hs
    have e := getLast?_append_dropLast h1
    have hb : ∀ x ∈ rest.dropLast, x ≠ 62 ∧ x ≠ 92 ∧ x ≠ 60 := by
      rw [List.all_eq_true] at h2
      intro x hx
      have := h2 x hx
      revert this
      clear hx
      revert x; apply forall_byte; decide +kernel
    intro text h i _
    rw [e]
    simp only [List.cons_append, List.append_assoc, List.nil_append]
    rw [tokLoop]
    have h60 : startsWith b!"<<" (60 :: (rest.dropLast ++ 62 :: post)) = false := by
      cases hh : rest.dropLast with
      | nil => simp [startsWith, List.isPrefixOf]
      | cons y ys =>
        rw [hh] at hb
        simp [startsWith, List.isPrefixOf, Ne.symm (hb y (by simp)).2.2]
    simp only [tokStep, h60]
    have := scan_hstring text 1 false i post rest.dropLast (i + 1) (fun x hx => ⟨(hb x hx).1, (hb x hx).2.1⟩)
    simp [startsWith, isNumStart, isAlpha, isDigit]
    rw [this]
    simp; omega
  · simp at hs

end Pdf
