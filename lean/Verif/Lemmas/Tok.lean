/-
Invariants of the tokenizer loop.
-/
import Verif.Lemmas.Basic
import Verif.Spec.Token

namespace Pdf
open Spec

theorem isBreak_iff (c : UInt8) : isBreak c = true ↔ Ends c := by
  simp [isBreak, isSpace, isEol, isDelim, Ends, white, delims]
  grind

theorem isBreak_false_iff (c : UInt8) : isBreak c = false ↔ ¬ Ends c := by
  rw [← isBreak_iff]; simp

theorem isNumStart_iff (c : UInt8) : isNumStart c = true ↔ c ∈ numStart := by
  simp only [isNumStart, numStart, isDigit]
  revert c; apply forall_byte; decide +kernel

theorem isAlpha_iff (c : UInt8) : isAlpha c = true ↔ c ∈ letters := by
  simp only [isAlpha, letters]
  revert c; apply forall_byte; decide +kernel

theorem isEol_iff (c : UInt8) : isEol c = true ↔ c = 13 ∨ c = 10 := by simp [isEol]

/-- Induction principle for the tokenizer loop. -/
theorem tokLoop_induct (text : Bytes) (P : TokSt → Bytes → Prop) (Q : Tok → Prop)
    (hnil : ∀ st, P st [] → Q (st.h, st.i, none))
    (hstep : ∀ st c rest, P st (c :: rest) →
      match tokStep text st c rest with
      | .ret t => Q t
      | .next st' => P st' rest
      | .next2 st' => ∃ d rest', rest = d :: rest' ∧ P st' rest') :
    ∀ rest st, P st rest → Q (tokLoop text st rest) := by
  intro rest
  induction hn : rest.length using Nat.strongRecOn generalizing rest with
  | _ n ih =>
    intro st hP
    cases rest with
    | nil => simpa [tokLoop] using hnil st hP
    | cons c rest =>
      have h := hstep st c rest hP
      rw [tokLoop]
      split at h <;> rename_i heq <;> rw [heq]
      · exact h
      · exact ih _ (by simp at hn; omega) rest rfl _ h
      · obtain ⟨d, rest', rfl, h'⟩ := h
        exact ih _ (by simp at hn; omega) rest' rfl _ h'

/-- What is known of the bytes read so far in each mode. -/
def ModeInv (text : Bytes) (st : TokSt) : Prop :=
  let w := slice text st.h st.i
  match st.search with
  | .tbd => True
  | .name => ∃ c body, w = c :: body ∧ c ∈ b!"/" ∧ ∀ x ∈ body, ¬ Ends x
  | .comment => ∃ body, w = 37 :: body ∧ ∀ x ∈ body, x ≠ 13 ∧ x ≠ 10
  | .keyword => (∃ c body, w = c :: body ∧ c ∈ letters ∧ ∀ x ∈ body, ¬ Ends x) ∧
      ¬ b!"stream" <+: text.drop st.h
  | .value => ∃ c body, w = c :: body ∧ c ∈ numStart ∧ ∀ x ∈ body, ¬ Ends x
  | .lstring => ∃ body, w = 40 :: body
  | .hstring => (∃ body, w = 60 :: body) ∧ ∃ l, text.drop st.h = 60 :: l ∧ l.head? ≠ some 60
  | .array => ∃ body, w = 91 :: body
  | .dict => (w = [60] ∧ b!"<<" <+: text.drop st.h) ∨ ∃ body, w = 60 :: 60 :: body
  | .stream => b!"stream" <+: text.drop st.h ∧ st.h < st.i ∧
      ∀ k, st.h < k → k < st.i → ¬ b!"endstream" <+: text.drop k

structure TokInv (text : Bytes) (start : Nat) (st : TokSt) (rest : Bytes) : Prop where
  len : st.i + rest.length = text.length
  rst : text.drop st.i = rest
  hs : start ≤ st.h
  hi : st.h ≤ st.i
  nest : 1 ≤ st.nested
  gap : ∀ c ∈ slice text start (if st.search = .tbd then st.i else st.h), Skipped c
  mode : ModeInv text st

/-- What `next_token` guarantees of its result. -/
def TokGood (text : Bytes) (start : Nat) : Tok → Prop
  | (h, j, t) =>
    start ≤ h ∧ h ≤ j ∧ j ≤ text.length ∧
    match t with
    | some t => h < j ∧ Shape t (slice text h j) (text.drop j) ∧ ∀ c ∈ slice text start h, Skipped c
    | none => j = text.length ∨
        (text[j]? = some 93 ∧ ∀ c ∈ slice text start j, Skipped c) ∨
        (b!">>" <+: text.drop (j - 1) ∧ start < j ∧ ∀ c ∈ slice text start (j - 1), Skipped c)

/-- What one iteration guarantees. -/
def OutGood (text : Bytes) (start : Nat) (rest : Bytes) : TokOut → Prop
  | .ret t => TokGood text start t
  | .next st' => TokInv text start st' rest
  | .next2 st' => ∃ d rest', rest = d :: rest' ∧ TokInv text start st' rest'

theorem ite_ind {α : Type} {P : α → Prop} {p : Prop} [Decidable p] {a b : α} (h1 : p → P a)
    (h2 : ¬ p → P b) : P (if p then a else b) := by
  split
  · exact h1 ‹_›
  · exact h2 ‹_›

set_option maxHeartbeats 1000000 in
theorem tokStep_good (text : Bytes) (start : Nat) (st : TokSt) (c : UInt8) (rest : Bytes)
    (inv : TokInv text start st (c :: rest)) :
    OutGood text start rest (tokStep text st c rest) := by
  obtain ⟨len, rst, hs, hi, nest, gap, mode⟩ := inv
  obtain ⟨search, nested, inText, h, i⟩ := st
  simp only at *
  have hlt := drop_cons_lt rst
  have rst' := drop_succ_of_cons rst
  have hsl := slice_succ hi rst
  simp only [List.length_cons] at len
  have e1 : slice text i (i + 1) = [c] := by
    have := slice_succ (Nat.le_refl i) rst; rw [this, slice_self]; rfl
  have hgi : text[i]? = some c := by
    have := List.getElem?_drop (xs := text) (i := i) (j := 0)
    rw [rst] at this; simpa using this.symm
  cases search
  case tbd =>
    simp only [if_true] at gap
    have go : ∀ s : Search, s ≠ .tbd →
        ModeInv text ⟨s, nested, inText, i, i + 1⟩ →
        TokInv text start ⟨s, nested, inText, i, i + 1⟩ rest := by
      intro s hne hm
      exact ⟨by simp; omega, rst', by simp; omega, by simp, nest, by simpa [hne] using gap, hm⟩
    simp only [tokStep]
    refine ite_ind (fun h1 => ?_) (fun h1 => ?_)
    · exact ⟨hs, hi, by omega, .inr (.inl ⟨by rw [hgi, h1], gap⟩)⟩
    refine ite_ind (fun h2 => ?_) (fun h2 => ?_)
    · rw [startsWith_iff, ← rst] at h2
      have := h2.length_le
      simp at this
      exact ⟨hs, by omega, by omega, .inr (.inr ⟨by simpa using h2, by omega, by simpa using gap⟩)⟩
    refine ite_ind (fun h3 => ?_) (fun h3 => ?_)
    · rw [startsWith_iff, ← rst] at h3
      refine go _ (by simp) (.inl ⟨?_, h3⟩)
      obtain ⟨t, ht⟩ := h3
      rw [rst] at ht
      rw [e1]; simp at ht; rw [← ht.1]
    refine ite_ind (fun h4 => ?_) (fun h4 => ?_)
    · exact go _ (by simp) ⟨[], by simp [e1, h4]⟩
    refine ite_ind (fun h5 => ?_) (fun h5 => ?_)
    · exact go _ (by simp) ⟨c, [], by simp [e1, h5]⟩
    refine ite_ind (fun h6 => ?_) (fun h6 => ?_)
    · rw [startsWith_iff, ← rst] at h6
      exact go _ (by simp) ⟨h6, by simp, by intros; simp at *; omega⟩
    refine ite_ind (fun h7 => ?_) (fun h7 => ?_)
    · exact go _ (by simp) ⟨c, [], by simpa [e1] using (isNumStart_iff c).1 h7⟩
    refine ite_ind (fun h8 => ?_) (fun h8 => ?_)
    · refine go _ (by simp) ⟨⟨c, [], by simpa [e1] using (isAlpha_iff c).1 h8⟩, ?_⟩
      rw [startsWith_iff, ← rst] at h6
      exact h6
    refine ite_ind (fun h9 => ?_) (fun h9 => ?_)
    · exact go _ (by simp) ⟨[], by simp [e1, h9]⟩
    refine ite_ind (fun h10 => ?_) (fun h10 => ?_)
    · refine go _ (by simp) ⟨⟨[], by simp [e1, h10]⟩, rest, by rw [← h10]; exact rst, ?_⟩
      intro hh
      apply h3
      cases rest with
      | nil => simp at hh
      | cons d r => simp at hh; simp [startsWith, h10, hh]
    refine ite_ind (fun h11 => ?_) (fun h11 => ?_)
    · exact go _ (by simp) ⟨[], by simp [e1, h11]⟩
    · refine ⟨by simp; omega, rst', by simp; omega, by simp, nest, ?_, trivial⟩
      simp only [if_true]
      rw [slice_succ (by omega) rst]
      intro x hx
      rw [List.mem_append] at hx
      rcases hx with hx | hx
      · exact gap x hx
      · simp at hx; subst hx
        simp only [Skipped, ← isNumStart_iff, ← isAlpha_iff]
        exact ⟨h7, h8, by simp [h1, h4, h5, h9, h10, h11]⟩
  case name =>
    simp only [tokStep]
    obtain ⟨a, body, hw, ha, hb⟩ := mode
    simp only at hw
    have hlt' : h < i := by
      have := congrArg List.length hw; rw [slice_length] at this; simp at this; omega
    split
    · rename_i hbr
      exact ⟨hs, hi, by omega, hlt', ⟨⟨a, body, hw, ha, hb⟩, c, rest, rst, (isBreak_iff c).1 hbr⟩,
        by simpa using gap⟩
    · rename_i hbr
      refine ⟨by simp; omega, rst', hs, by simp; omega, nest, by simpa using gap,
        ⟨a, body ++ [c], ?_, ha, ?_⟩⟩
      · simp only [hsl, hw]; rfl
      · intro x hx
        rw [List.mem_append] at hx
        rcases hx with hx | hx
        · exact hb x hx
        · simp at hx; subst hx; rw [← isBreak_iff]; exact hbr
  case comment =>
    simp only [tokStep]
    obtain ⟨body, hw, hb⟩ := mode
    simp only at hw
    have hlt' : h < i := by
      have := congrArg List.length hw; rw [slice_length] at this; simp at this; omega
    split
    · rename_i hbr
      exact ⟨hs, hi, by omega, hlt', ⟨⟨body, hw, hb⟩, c, rest, rst, (isEol_iff c).1 hbr⟩,
        by simpa using gap⟩
    · rename_i hbr
      refine ⟨by simp; omega, rst', hs, by simp; omega, nest, by simpa using gap,
        ⟨body ++ [c], ?_, ?_⟩⟩
      · simp only [hsl, hw]; rfl
      · intro x hx
        rw [List.mem_append] at hx
        rcases hx with hx | hx
        · exact hb x hx
        · simp at hx; subst hx; simpa [isEol] using hbr
  case keyword =>
    simp only [tokStep]
    obtain ⟨⟨a, body, hw, ha, hb⟩, hns⟩ := mode
    simp only at hw hns
    have hlt' : h < i := by
      have := congrArg List.length hw; rw [slice_length] at this; simp at this; omega
    split
    · rename_i hbr
      have hE := (isBreak_iff c).1 hbr
      split
      · rename_i ht; exact ⟨hs, hi, by omega, hlt', ⟨ht, c, rest, rst, hE⟩, by simpa using gap⟩
      split
      · rename_i ht; exact ⟨hs, hi, by omega, hlt', ⟨ht, c, rest, rst, hE⟩, by simpa using gap⟩
      · rename_i h1 h2
        refine ⟨hs, hi, by omega, hlt', ⟨⟨⟨a, body, hw, ha, hb⟩, c, rest, rst, hE⟩, h1, h2, ?_⟩,
          by simpa using gap⟩
        intro hp
        apply hns
        refine List.IsPrefix.trans hp ?_
        unfold slice
        rw [List.drop_take]
        exact List.take_prefix _ _
    · rename_i hbr
      refine ⟨by simp; omega, rst', hs, by simp; omega, nest, by simpa using gap,
        ⟨a, body ++ [c], ?_, ha, ?_⟩, hns⟩
      · simp only [hsl, hw]; rfl
      · intro x hx
        rw [List.mem_append] at hx
        rcases hx with hx | hx
        · exact hb x hx
        · simp at hx; subst hx; rw [← isBreak_iff]; exact hbr
  case value =>
    simp only [tokStep]
    obtain ⟨a, body, hw, ha, hb⟩ := mode
    simp only at hw
    have hlt' : h < i := by
      have := congrArg List.length hw; rw [slice_length] at this; simp at this; omega
    split
    · rename_i hbr
      have hE := (isBreak_iff c).1 hbr
      split
      · rename_i ht
        exact ⟨hs, hi, by omega, hlt', ⟨⟨⟨a, body, hw, ha, hb⟩, c, rest, rst, hE⟩, by simpa using ht⟩,
          by simpa using gap⟩
      · rename_i ht
        exact ⟨hs, hi, by omega, hlt', ⟨⟨⟨a, body, hw, ha, hb⟩, c, rest, rst, hE⟩, by simpa using ht⟩,
          by simpa using gap⟩
    · rename_i hbr
      refine ⟨by simp; omega, rst', hs, by simp; omega, nest, by simpa using gap,
        ⟨a, body ++ [c], ?_, ha, ?_⟩⟩
      · simp only [hsl, hw]; rfl
      · intro x hx
        rw [List.mem_append] at hx
        rcases hx with hx | hx
        · exact hb x hx
        · simp at hx; subst hx; rw [← isBreak_iff]; exact hbr
  case lstring =>
    simp only [tokStep]
    obtain ⟨body, hw⟩ := mode
    simp only at hw
    have hlt' : h < i := by
      have := congrArg List.length hw; rw [slice_length] at this; simp at this; omega
    split
    · rename_i hd
      cases rest with
      | nil => simp [startsWith] at hd
      | cons d rest =>
        refine ⟨d, rest, rfl, ?_⟩
        have r2 := drop_succ_of_cons rst'
        refine ⟨by simp at len; simp; omega, r2, hs, by simp; omega, nest, by simpa using gap,
          ⟨body ++ [c, d], ?_⟩⟩
        simp only
        rw [show i + 2 = i + 1 + 1 from rfl, slice_succ (by omega) rst', hsl, hw]; simp
    have nxt : ∀ n, 1 ≤ n → TokInv text start ⟨.lstring, n, inText, h, i + 1⟩ rest := by
      intro n hn
      exact ⟨by simp; omega, rst', hs, by simp; omega, hn, by simpa using gap,
        ⟨body ++ [c], by simp [hsl, hw]⟩⟩
    split
    · exact nxt _ (by omega)
    split
    · rename_i hc
      split
      · exact ⟨hs, by omega, by omega, by omega, .inl ⟨body, by simp [hsl, hw, hc]⟩, by simpa using gap⟩
      · exact nxt _ (by simp at *; omega)
    · exact nxt _ nest
  case hstring =>
    simp only [tokStep]
    obtain ⟨⟨body, hw⟩, l, hl, hl2⟩ := mode
    simp only at hw hl
    have hlt' : h < i := by
      have := congrArg List.length hw; rw [slice_length] at this; simp at this; omega
    split
    · rename_i hd
      cases rest with
      | nil => simp [startsWith] at hd
      | cons d rest =>
        refine ⟨d, rest, rfl, ?_⟩
        have r2 := drop_succ_of_cons rst'
        refine ⟨by simp at len; simp; omega, r2, hs, by simp; omega, nest, by simpa using gap,
          ⟨body ++ [c, d], ?_⟩, l, hl, hl2⟩
        simp only
        rw [show i + 2 = i + 1 + 1 from rfl, slice_succ (by omega) rst', hsl, hw]; simp
    split
    · rename_i hc
      refine ⟨hs, by omega, by omega, by omega, .inr ⟨body, by simp [hsl, hw, hc], ?_⟩,
        by simpa using gap⟩
      intro hbd
      apply hl2
      have hpre : (60 :: body) <+: (60 :: l) := by
        rw [← hw, ← hl]
        unfold slice
        rw [List.drop_take]
        exact List.take_prefix _ _
      obtain ⟨t, ht⟩ := hpre
      simp at ht
      rw [← ht]
      cases body with
      | nil => simp at hbd
      | cons x y => simpa using hbd
    · exact ⟨by simp; omega, rst', hs, by simp; omega, nest, by simpa using gap,
        ⟨body ++ [c], by simp [hsl, hw]⟩, l, hl, hl2⟩
  case array =>
    simp only [tokStep]
    obtain ⟨body, hw⟩ := mode
    simp only at hw
    have hlt' : h < i := by
      have := congrArg List.length hw; rw [slice_length] at this; simp at this; omega
    have nxt : ∀ n b, 1 ≤ n → TokInv text start ⟨.array, n, b, h, i + 1⟩ rest := by
      intro n b hn
      exact ⟨by simp; omega, rst', hs, by simp; omega, hn, by simpa using gap,
        ⟨body ++ [c], by simp [hsl, hw]⟩⟩
    split
    · exact nxt _ _ nest
    split
    · exact nxt _ _ nest
    split
    · exact nxt _ _ (by omega)
    split
    · rename_i hc
      simp only [Bool.and_eq_true, decide_eq_true_eq] at hc
      split
      · exact ⟨hs, by omega, by omega, by omega, ⟨body, by simp [hsl, hw, hc.2]⟩, by simpa using gap⟩
      · exact nxt _ _ (by simp at *; omega)
    · exact nxt _ _ nest
  case dict =>
    simp only [tokStep]
    have hlt' : h < i := by
      rcases mode with ⟨hw, _⟩ | ⟨body, hw⟩ <;>
      · have := congrArg List.length hw; rw [slice_length] at this; simp at this; omega
    -- the bytes read so far start with `<<` once one more byte is read
    have hw2 : ∃ body, slice text h (i + 1) = 60 :: 60 :: body := by
      rcases mode with ⟨hw, hp⟩ | ⟨body, hw⟩
      · simp only at hw hp
        have hi1 : i = h + 1 := by
          have := congrArg List.length hw; rw [slice_length] at this; simp at this; omega
        obtain ⟨t, ht⟩ := hp
        have hc : c = 60 := by
          have : text.drop (h + 1) = 60 :: t := drop_succ_of_cons (c := 60) (by simpa using ht.symm)
          rw [← hi1, rst] at this
          exact (List.cons.inj this).1
        exact ⟨[], by rw [hsl, hw, hc]; rfl⟩
      · exact ⟨body ++ [c], by simp only at hw; rw [hsl, hw]; rfl⟩
    obtain ⟨body, hw2⟩ := hw2
    have two : ∀ d r, rest = d :: r → slice text h (i + 2) = 60 :: 60 :: (body ++ [d]) := by
      intro d r e; subst e
      rw [show i + 2 = i + 1 + 1 from rfl, slice_succ (by omega) rst', hw2]; simp
    split
    · rename_i hd
      cases rest with
      | nil => simp [startsWith] at hd
      | cons d rest =>
        refine ⟨d, rest, rfl, ?_⟩
        exact ⟨by simp at len; simp; omega, drop_succ_of_cons rst', hs, by simp; omega, by simp,
          by simpa using gap, .inr ⟨_, two d rest rfl⟩⟩
    split
    · rename_i hd
      cases rest with
      | nil => simp [startsWith] at hd
      | cons d rest =>
        simp [startsWith] at hd
        obtain ⟨hc, hd⟩ := hd
        split
        · refine ⟨hs, by omega, by simp at len; omega, by omega, ?_, by simpa using gap⟩
          -- `<<` then `>>`
          have t2 := two d rest rfl
          rcases mode with ⟨hw, hp⟩ | ⟨body', hw⟩
          · exfalso
            simp only at hw
            rw [hw] at hsl
            rw [hsl] at hw2
            simp at hw2
            rw [hw2.1] at hc
            exact absurd hc (by decide)
          · simp only at hw
            refine ⟨body', ?_⟩
            rw [hsl, hw] at hw2
            simp at hw2
            rw [t2, ← hw2, ← hc, ← hd]; simp
        · refine ⟨d, rest, rfl, ?_⟩
          exact ⟨by simp at len; simp; omega, drop_succ_of_cons rst', hs, by simp; omega,
            by simp at *; omega, by simpa using gap, .inr ⟨_, two d rest rfl⟩⟩
    · exact ⟨by simp; omega, rst', hs, by simp; omega, nest, by simpa using gap, .inr ⟨_, hw2⟩⟩
  case stream =>
    obtain ⟨hp, hlt', hno⟩ := mode
    simp only at hp hlt' hno
    -- the word `endstream` cannot overlap the word `stream` at `h`
    obtain ⟨t, ht⟩ := hp
    have hover : ∀ k, h < k → b!"endstream" <+: text.drop k → h + 6 ≤ k := by
      intro k hk hpk
      by_cases h6 : h + 6 ≤ k
      · exact h6
      exfalso
      obtain ⟨t', ht'⟩ := hpk
      have hdk : text.drop k = (text.drop h).drop (k - h) := by
        rw [List.drop_drop]; congr 1; omega
      rw [← ht, ← ht'] at hdk
      have : k = h + 1 ∨ k = h + 2 ∨ k = h + 3 ∨ k = h + 4 ∨ k = h + 5 := by omega
      rcases this with rfl | rfl | rfl | rfl | rfl <;>
        simp [Nat.add_sub_cancel_left] at hdk
    -- a match of `endstream` at `k ≥ i` which is the first one
    have fin : ∀ k, i ≤ k → b!"endstream" <+: text.drop k →
        (∀ m, i ≤ m → m < k → ¬ b!"endstream" <+: text.drop m) →
        TokGood text start (h, k + 9, some .stream) := by
      intro k hk hpk hfirst
      have h6 := hover k (by omega) hpk
      have hkl := hpk.length_le
      simp at hkl
      refine ⟨hs, by omega, by omega, by omega, ⟨slice text (h + 6) k, ?_, ?_⟩, by simpa using gap⟩
      · have s1 : slice text h (h + 6) = b!"stream" := by
          have := startsWith_slice (p := b!"stream") (l := text) (i := h)
            (by rw [startsWith_iff]; exact ⟨t, ht⟩)
          simpa using this
        have s2 : slice text k (k + 9) = b!"endstream" := by
          have := startsWith_slice (p := b!"endstream") (l := text) (i := k)
            (by rw [startsWith_iff]; exact hpk)
          simpa using this
        rw [← s2, ← s1, slice_append_slice _ (by omega) (by omega),
          slice_append_slice _ (by omega) (by omega)]
      · intro a b hab
        -- an occurrence at offset |a| of text[h+6:]
        have s2 : slice text k (k + 9) = b!"endstream" := by
          have := startsWith_slice (p := b!"endstream") (l := text) (i := k)
            (by rw [startsWith_iff]; exact hpk)
          simpa using this
        have hwhole : slice text (h + 6) (k + 9) = a ++ b!"endstream" ++ b := by
          rw [← hab, ← s2, slice_append_slice _ (by omega) (by omega)]
        have hlen := congrArg List.length hwhole
        rw [slice_length] at hlen
        simp at hlen
        have hocc : b!"endstream" <+: text.drop (h + 6 + a.length) := by
          have e : text.drop (h + 6 + a.length) = (text.drop (h + 6)).drop a.length := by
            rw [List.drop_drop]
          have e2 : slice text (h + 6) (k + 9) <+: text.drop (h + 6) := by
            unfold slice; rw [List.drop_take]; exact List.take_prefix _ _
          rw [hwhole] at e2
          obtain ⟨u, hu⟩ := e2
          rw [e, ← hu]
          refine ⟨b ++ u, ?_⟩
          simp
        by_cases hb : b = []
        · exact hb
        have hbl : 0 < b.length := List.length_pos_iff.2 hb
        exfalso
        by_cases hm : i ≤ h + 6 + a.length
        · exact hfirst _ hm (by omega) hocc
        · exact hno _ (by omega) (by omega) hocc
    have notE : ∀ m, text.drop m = c :: rest → c ≠ 101 → ¬ b!"endstream" <+: text.drop m := by
      intro m hm hc hpm
      rw [hm] at hpm
      obtain ⟨u, hu⟩ := hpm
      simp at hu
      exact hc hu.1.symm
    simp only [tokStep]
    split
    · rename_i hm
      rw [startsWith_iff] at hm
      obtain ⟨u, hu⟩ := hm
      have hc : c = 13 := by simp at hu; exact hu.1.symm
      have hrest : rest = 10 :: (b!"endstream" ++ u) := by simp at hu; simp [← hu.2]
      have d1 : text.drop (i + 1) = 10 :: (b!"endstream" ++ u) := by rw [rst', hrest]
      have d2 := drop_succ_of_cons d1
      refine fin (i + 2) (by omega) ⟨u, d2.symm⟩ ?_
      intro m h1 h2
      have : m = i ∨ m = i + 1 := by omega
      rcases this with rfl | rfl
      · exact notE _ rst (by rw [hc]; decide)
      · rw [d1]; intro hpm; obtain ⟨v, hv⟩ := hpm; simp at hv
    split
    · rename_i hm
      rw [startsWith_iff] at hm
      obtain ⟨u, hu⟩ := hm
      have hc : c = 10 := by simp at hu; exact hu.1.symm
      have hrest : rest = b!"endstream" ++ u := by simp at hu; simp [← hu.2]
      refine fin (i + 1) (by omega) ⟨u, by rw [rst', hrest]⟩ ?_
      intro m h1 h2
      have : m = i := by omega
      subst this
      exact notE _ rst (by rw [hc]; decide)
    split
    · rename_i hm
      rw [startsWith_iff] at hm
      obtain ⟨u, hu⟩ := hm
      have hc : c = 13 := by simp at hu; exact hu.1.symm
      have hrest : rest = b!"endstream" ++ u := by simp at hu; simp [← hu.2]
      refine fin (i + 1) (by omega) ⟨u, by rw [rst', hrest]⟩ ?_
      intro m h1 h2
      have : m = i := by omega
      subst this
      exact notE _ rst (by rw [hc]; decide)
    split
    · rename_i hm
      rw [startsWith_iff, ← rst] at hm
      exact fin i (by omega) hm (by intros; omega)
    · rename_i hm
      rw [startsWith_iff, ← rst] at hm
      refine ⟨by simp; omega, rst', hs, by simp; omega, nest, by simpa using gap,
        ⟨t, ht⟩, by simp; omega, ?_⟩
      intro k h1 h2
      simp only at h1 h2
      by_cases hk : k = i
      · subst hk; exact hm
      · exact hno k h1 (by omega)

theorem nextToken_good (text : Bytes) (start : Nat) (hs : start ≤ text.length) :
    TokGood text start (nextToken text start) := by
  unfold nextToken
  refine tokLoop_induct text (TokInv text start) (TokGood text start) ?_ ?_ _ _ ?_
  rotate_left
  · intro st c rest inv
    have h := tokStep_good text start st c rest inv
    unfold OutGood at h
    split at h <;> exact h
  rotate_left
  · rintro st ⟨len, rst, hs, hi, -, -, -⟩
    simp at len
    exact ⟨hs, hi, by omega, .inl len⟩
  · exact ⟨by simp; omega, rfl, by simp, by simp, by simp, by simp [slice_self], trivial⟩

end Pdf
