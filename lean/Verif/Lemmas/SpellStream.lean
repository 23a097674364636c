/-
The stream token in the texts that other programs write.
-/
import Verif.Lemmas.Spelling2
import Verif.Lemmas.StreamRT
import Verif.Lemmas.Indirect

namespace Pdf
open Spec

theorem endstream_straddle {w post : Bytes} (hw : w ≠ []) (h : ¬ b!"endstream" <:+: w) :
    startsWith b!"endstream" (w ++ (b!"endstream" ++ post)) = false := by
  rw [Bool.eq_false_iff]
  intro hp
  have hp := (startsWith_iff _ _).1 hp
  by_cases hl : 9 ≤ w.length
  · exact h (List.prefix_of_prefix_length_le hp (List.prefix_append _ _) hl).isInfix
  · have hpos := List.length_pos_iff.2 hw
    obtain ⟨t, ht⟩ := hp
    have h1 : (b!"endstream").drop w.length <+: b!"endstream" ++ post := by
      have := congrArg (List.drop w.length) ht
      rw [List.drop_append_of_le_length (by simp; omega), List.drop_left] at this
      exact ⟨t, this⟩
    have h2 : (b!"endstream").drop w.length <+: b!"endstream" :=
      List.prefix_of_prefix_length_le h1 (List.prefix_append _ _) (by rw [List.length_drop]; omega)
    have : w.length = 1 ∨ w.length = 2 ∨ w.length = 3 ∨ w.length = 4 ∨ w.length = 5 ∨ w.length = 6 ∨ w.length = 7 ∨
      w.length = 8 := by omega
    rcases this with k | k | k | k | k | k | k | k <;> rw [k] at h2 <;> revert h2 <;> decide

/-- The ends of line that may come before `endstream`, after the data `w`. -/
def EndOk (e w : Bytes) : Prop :=
  e = b!"\r\n" ∨ e = b!"\r" ∨ (e = b!"\n" ∧ w.getLast? ≠ some 13) ∨ (e = [] ∧ w.getLast? ≠ some 10 ∧ w.getLast? ≠ some 13)

theorem endstream_before {w e post : Bytes} (h : ¬ b!"endstream" <:+: w) (he : EndOk e w) (hw : w ≠ [] ∨ e ≠ []) :
    startsWith b!"endstream" (w ++ (e ++ (b!"endstream" ++ post))) = false := by
  have stop : ∀ (c : UInt8) (r : Bytes), c ∉ b!"endstream" → startsWith b!"endstream" (w ++ c :: r) = false :=
    fun c r hc => startsWith_stop hc (fun hp => h hp.isInfix)
  rcases he with rfl | rfl | ⟨rfl, _⟩ | ⟨rfl, _⟩
  · exact stop _ _ (by decide)
  · exact stop _ _ (by decide)
  · exact stop _ _ (by decide)
  · exact endstream_straddle (hw.resolve_right (by simp)) h

theorem endOk_tail {c : UInt8} {e w : Bytes} (h : EndOk e (c :: w)) (hw : w ≠ []) : EndOk e w := by
  cases w with
  | nil => exact absurd rfl hw
  | cons x w => simpa [EndOk, List.getLast?_cons_cons] using h

theorem scan_data (text : Bytes) (n : Nat) (b : Bool) (h : Nat) (post e : Bytes) :
    ∀ (w : Bytes) (i : Nat), ¬ b!"endstream" <:+: w → EndOk e w →
      tokLoop text ⟨.stream, n, b, h, i⟩ (w ++ (e ++ (b!"endstream" ++ post))) =
        (h, i + w.length + e.length + 9, some .stream) := by
  intro w
  induction w with
  | nil =>
    intro i _ he
    rcases he with rfl | rfl | ⟨rfl, _⟩ | ⟨rfl, _⟩ <;> simp [tokLoop, tokStep, startsWith, List.isPrefixOf]
  | cons c w ih =>
    intro i hno he
    have hno' : ¬ b!"endstream" <:+: w := fun ⟨a, b, e⟩ => hno ⟨c :: a, b, by rw [← e]; simp⟩
    have he' : EndOk e w := by
      by_cases hw : w = []
      · subst hw
        rcases he with h | h | h | h
        · exact .inl h
        · exact .inr (.inl h)
        · exact .inr (.inr (.inl ⟨h.1, by simp⟩))
        · exact .inr (.inr (.inr ⟨h.1, by simp, by simp⟩))
      · exact endOk_tail he hw
    have cons_eq : ∀ (a x : UInt8) (p l : Bytes), startsWith (a :: p) (x :: l) = (a == x && startsWith p l) :=
      fun _ _ _ _ => rfl
    have p4 : startsWith b!"endstream" (c :: (w ++ (e ++ (b!"endstream" ++ post)))) = false :=
      endstream_before (w := c :: w) hno he (.inl (by simp))
    have p0 : (w ≠ [] ∨ e ≠ []) → startsWith b!"endstream" (w ++ (e ++ (b!"endstream" ++ post))) = false :=
      endstream_before hno' he'
    -- the last byte of the data is no end of line when nothing comes before `endstream`
    have plast : w = [] → e = [] → c ≠ 10 ∧ c ≠ 13 := by
      rintro rfl rfl
      rcases he with h | h | h | h
      · simp at h
      · simp at h
      · simp at h
      · simpa using h.2
    have p23 : ∀ a : UInt8, (a = 10 ∨ a = 13) → startsWith (a :: b!"endstream") (c :: (w ++ (e ++ (b!"endstream" ++ post)))) = false := by
      intro a ha
      rw [cons_eq]
      by_cases hw : w ≠ [] ∨ e ≠ []
      · rw [p0 hw, Bool.and_false]
      · rw [not_or, Classical.not_not, Classical.not_not] at hw
        have := plast hw.1 hw.2
        have : (a == c) = false := by
          rw [beq_eq_false_iff_ne]
          rintro rfl
          rcases ha with h | h
          · exact this.1 h
          · exact this.2 h
        rw [this, Bool.false_and]
    have p1 : startsWith b!"\r\nendstream" (c :: (w ++ (e ++ (b!"endstream" ++ post)))) = false := by
      rw [cons_eq]
      cases w with
      | nil =>
        rcases he with rfl | rfl | ⟨rfl, hc⟩ | ⟨rfl, hc⟩
        · simp [startsWith, List.isPrefixOf]
        · simp [startsWith, List.isPrefixOf]
        · have : c ≠ 13 := by simpa using hc
          have : ((13 : UInt8) == c) = false := by simpa using Ne.symm this
          rw [this, Bool.false_and]
        · have : c ≠ 13 := by simpa using hc.2
          have : ((13 : UInt8) == c) = false := by simpa using Ne.symm this
          rw [this, Bool.false_and]
      | cons x w =>
        have hno'' : ¬ b!"endstream" <:+: w := fun h => hno' (h.trans (List.suffix_cons x w).isInfix)
        have : startsWith b!"\nendstream" (x :: w ++ (e ++ (b!"endstream" ++ post))) = false := by
          rw [List.cons_append, cons_eq]
          by_cases hw : w ≠ [] ∨ e ≠ []
          · have he'' : EndOk e w := by
              by_cases hw0 : w = []
              · subst hw0
                rcases he' with h | h | h | h
                · exact .inl h
                · exact .inr (.inl h)
                · exact .inr (.inr (.inl ⟨h.1, by simp⟩))
                · exact .inr (.inr (.inr ⟨h.1, by simp, by simp⟩))
              · exact endOk_tail he' hw0
            rw [endstream_before hno'' he'' hw, Bool.and_false]
          · rw [not_or, Classical.not_not, Classical.not_not] at hw
            obtain ⟨rfl, rfl⟩ := hw
            have : x ≠ 10 := by
              rcases he' with h | h | h | h
              · simp at h
              · simp at h
              · simp at h
              · simpa using h.2.1
            have : ((10 : UInt8) == x) = false := by simpa using Ne.symm this
            rw [this, Bool.false_and]
        rw [this, Bool.and_false]
    rw [List.cons_append, tokLoop]
    simp only [tokStep, p1, p23 10 (.inl rfl), p23 13 (.inr rfl), p4, Bool.false_eq_true, if_false]
    rw [ih (i + 1) hno' he']
    simp only [List.length_cons]
    congr 2; omega

theorem infix_after {a enc : Bytes} (ha : 101 ∉ a) (h : b!"endstream" <:+: a ++ enc) : b!"endstream" <:+: enc := by
  induction a with
  | nil => exact h
  | cons c a ih =>
    obtain ⟨x, y, e⟩ := h
    cases x with
    | nil => simp at e; simp [e.1] at ha
    | cons d x =>
      refine ih (by simp at ha; exact ha.2) ⟨x, y, ?_⟩
      simp only [List.cons_append, List.cons.injEq, List.append_assoc] at e ⊢
      exact e.2

theorem tokAt_data {enc s : Bytes} (h : DataText enc s) (post : Bytes) : TokAt s post .stream := by
  obtain ⟨b, e, rfl, hb, hno, he⟩ := h
  intro text h i _
  have hs : ∀ r : Bytes, tokLoop text ⟨.tbd, 1, false, h, i⟩ (b!"stream" ++ r) = tokLoop text ⟨.stream, 1, false, i, i + 1⟩ (b!"tream" ++ r) := by
    intro r
    have : tokStep text ⟨.tbd, 1, false, h, i⟩ 115 (b!"tream" ++ r) = .next ⟨.stream, 1, false, i, i + 1⟩ := by
      simp [tokStep, startsWith, List.isPrefixOf]
    rw [show b!"stream" ++ r = 115 :: (b!"tream" ++ r) from rfl, tokLoop, this]
  -- `stream` is not followed by `endstream` only
  by_cases hz : enc = [] ∧ e = []
  · obtain ⟨rfl, rfl⟩ := hz
    rcases hb with rfl | rfl
    · have h0 := scan_data text 1 false i post b!"\n" b!"tream" (i + 1) (by decide) (by unfold EndOk; decide)
      simp only [List.append_assoc, List.nil_append]
      rw [hs]
      exact h0
    · have h0 := scan_data text 1 false i post b!"\r\n" b!"tream" (i + 1) (by decide) (by unfold EndOk; decide)
      simp only [List.append_assoc, List.nil_append]
      rw [hs]
      exact h0
  · have key : ¬ b!"endstream" <:+: b!"tream" ++ b ++ enc := by
      intro hi
      -- the word cannot start in `tream`
      have h1 : b!"endstream" <:+: b!"am" ++ b ++ enc := by
        obtain ⟨x, y, e0⟩ := hi
        rcases x with _ | ⟨x0, _ | ⟨x1, _ | ⟨x2, x⟩⟩⟩
        · simp at e0
        · simp at e0
        · simp at e0
        · refine ⟨x, y, ?_⟩
          simp only [List.cons_append, List.cons.injEq, List.append_assoc] at e0 ⊢
          exact e0.2.2.2
      exact hno (infix_after (a := b!"am" ++ b) (by rcases hb with rfl | rfl <;> decide) h1)
    have hend : EndOk e (b!"tream" ++ b ++ enc) := by
      have hl : enc ≠ [] → (b!"tream" ++ b ++ enc).getLast? = enc.getLast? := by
        intro hne
        rw [List.getLast?_append]
        cases hx : enc.getLast? with
        | none => rw [List.getLast?_eq_none_iff] at hx; exact absurd hx hne
        | some x => simp
      have hl0 : enc = [] → (b!"tream" ++ b ++ enc).getLast? = some 10 := by
        rintro rfl
        rcases hb with rfl | rfl <;> rfl
      rcases he with h | h | ⟨h1, h2⟩ | ⟨h1, h2, h3⟩
      · exact .inl h
      · exact .inr (.inl h)
      · refine .inr (.inr (.inl ⟨h1, ?_⟩))
        by_cases hne : enc = []
        · rw [hl0 hne]; decide
        · rw [hl hne]; exact h2
      · have hne : enc ≠ [] := fun h => hz ⟨h, h1⟩
        rw [← hl hne] at h2 h3
        exact .inr (.inr (.inr ⟨h1, h2, h3⟩))
    have h0 := scan_data text 1 false i post e _ (i + 1) key hend
    rw [show b!"stream" ++ b ++ enc ++ e ++ b!"endstream" ++ post = b!"stream" ++ (b ++ (enc ++ (e ++ (b!"endstream" ++ post)))) by simp,
      hs]
    rw [show b!"tream" ++ (b ++ (enc ++ (e ++ (b!"endstream" ++ post)))) = b!"tream" ++ b ++ enc ++ (e ++ (b!"endstream" ++ post)) by simp, h0]
    simp
    omega

theorem sliceNeg_parts (a m z : Bytes) : sliceNeg (a ++ (m ++ z)) a.length z.length = m := by
  unfold sliceNeg
  rw [show (a ++ (m ++ z)).length - z.length = (a ++ m).length by simp; omega, ← List.append_assoc, List.take_left']
  · simp
  · rfl

theorem lastN_eq {t a b : Bytes} {k : Nat} (ht : t = a ++ b) (hk : b.length = k) : lastN t k = b := by
  rw [ht]; exact lastN_append hk

theorem streamContent_data {enc s : Bytes} (h : DataText enc s) : streamContent s = some enc := by
  obtain ⟨b, e, rfl, hb, hno, he⟩ := h
  by_cases hz : enc = [] ∧ e = []
  · obtain ⟨rfl, rfl⟩ := hz
    rcases hb with rfl | rfl <;> decide
  have hsplit : b!"stream" ++ b ++ enc ++ e ++ b!"endstream" = (b!"stream" ++ b) ++ (enc ++ (e ++ b!"endstream")) := by simp
  have hstart : (if startsWith b!"stream\r\n" (b!"stream" ++ b ++ enc ++ e ++ b!"endstream") then some 8
      else if startsWith b!"stream\n" (b!"stream" ++ b ++ enc ++ e ++ b!"endstream") then some 7 else none) =
      some (b!"stream" ++ b).length := by
    rcases hb with rfl | rfl <;> simp [startsWith, List.isPrefixOf]
  -- the last byte before the end of line
  have hlast : ∃ y c, b!"stream" ++ b ++ enc = y ++ [c] ∧ (enc = [] ∧ c = 10 ∨ enc.getLast? = some c) := by
    by_cases hne : enc = []
    · subst hne
      rcases hb with rfl | rfl
      · exact ⟨b!"stream", 10, rfl, .inl ⟨rfl, rfl⟩⟩
      · exact ⟨b!"stream\r", 10, rfl, .inl ⟨rfl, rfl⟩⟩
    · refine ⟨b!"stream" ++ b ++ enc.dropLast, enc.getLast hne, ?_, .inr (List.getLast?_eq_some_getLast hne)⟩
      rw [List.append_assoc _ enc.dropLast, List.dropLast_concat_getLast]
  obtain ⟨y, c, hy, hc⟩ := hlast
  have hend : (if lastN (b!"stream" ++ b ++ enc ++ e ++ b!"endstream") 11 = b!"\r\nendstream" then some 11
      else if lastN (b!"stream" ++ b ++ enc ++ e ++ b!"endstream") 10 = b!"\nendstream" then some 10
      else if lastN (b!"stream" ++ b ++ enc ++ e ++ b!"endstream") 10 = b!"\rendstream" then some 10
      else if lastN (b!"stream" ++ b ++ enc ++ e ++ b!"endstream") 9 = b!"endstream" then some 9 else none) =
      some (e ++ b!"endstream").length := by
    rw [hy]
    rcases he with rfl | rfl | ⟨rfl, h2⟩ | ⟨rfl, h2, h3⟩
    · have h11 := lastN_eq (t := y ++ [c] ++ b!"\r\n" ++ b!"endstream") (a := y ++ [c]) (b := b!"\r\nendstream") (k := 11) (by simp) rfl
      rw [if_pos h11]
      rfl
    · have h11 := lastN_eq (t := y ++ [c] ++ b!"\r" ++ b!"endstream") (a := y) (b := c :: b!"\rendstream") (k := 11) (by simp) rfl
      have h10 := lastN_eq (t := y ++ [c] ++ b!"\r" ++ b!"endstream") (a := y ++ [c]) (b := b!"\rendstream") (k := 10) (by simp) rfl
      rw [h11, h10]
      simp
    · have hc13 : c ≠ 13 := by
        rcases hc with ⟨_, rfl⟩ | hc
        · decide
        · rw [hc] at h2; simpa using h2
      have h11 := lastN_eq (t := y ++ [c] ++ b!"\n" ++ b!"endstream") (a := y) (b := c :: b!"\nendstream") (k := 11) (by simp) rfl
      have h10 := lastN_eq (t := y ++ [c] ++ b!"\n" ++ b!"endstream") (a := y ++ [c]) (b := b!"\nendstream") (k := 10) (by simp) rfl
      rw [h11, h10]
      simp [hc13]
    · have hne : enc ≠ [] := fun h => hz ⟨h, rfl⟩
      have hcc : c ≠ 10 ∧ c ≠ 13 := by
        rcases hc with ⟨h, _⟩ | hc
        · exact absurd h hne
        · rw [hc] at h2 h3
          exact ⟨by simpa using h2, by simpa using h3⟩
      have hy0 : ∃ y' d, y = y' ++ [d] := by
        by_cases hyy : y = []
        · subst hyy
          have := congrArg List.length hy
          simp at this
        · exact ⟨y.dropLast, y.getLast hyy, (List.dropLast_concat_getLast hyy).symm⟩
      obtain ⟨y', d, rfl⟩ := hy0
      have h11 := lastN_eq (t := y' ++ [d] ++ [c] ++ [] ++ b!"endstream") (a := y') (b := d :: c :: b!"endstream") (k := 11) (by simp) rfl
      have h10 := lastN_eq (t := y' ++ [d] ++ [c] ++ [] ++ b!"endstream") (a := y' ++ [d]) (b := c :: b!"endstream") (k := 10) (by simp) rfl
      have h9 := lastN_eq (t := y' ++ [d] ++ [c] ++ [] ++ b!"endstream") (a := y' ++ [d] ++ [c]) (b := b!"endstream") (k := 9) (by simp) rfl
      rw [h11, h10, h9]
      simp [hcc.1, hcc.2]
  unfold streamContent
  simp only [hstart, hend]
  rw [hsplit, sliceNeg_parts]

set_option linter.unusedSectionVars false

variable [Zlib]

/-- The object read at the top of an indirect object. -/
def normTop : Obj → Obj
  | .stream d content enc => .stream (normEntries d).reverse content enc
  | o => norm o

theorem pyEq_normTop {o : Obj} {s : Bytes} (h : SpellsTop o s) : pyEq o (normTop o) = true := by
  cases h with
  | obj h hr =>
    have := pyEq_norm _ _ _ (Spells.wf h)
    cases o with
    | stream => cases h
    | _ => exact this
  | stream h _ _ _ =>
    have := pyEq_norm _ _ _ (Spells.wf h)
    simp only [norm, pyEq, Bool.and_eq_true, decide_eq_true_eq] at this
    simp only [normTop, pyEq, Bool.and_eq_true, decide_eq_true_eq, and_true]
    exact this

theorem parse_spells_stream {d : List (Bytes × Obj)} {s ws t enc content : Bytes} (h : Spells false false (.dict d) s)
    (hws : ∀ c ∈ ws, c ∈ white) (ht : DataText enc t) (hdec : decodeStream enc d = .ok content) (pre post : Bytes) :
    parseObj (pre ++ ((s ++ (ws ++ t)) ++ post)) pre.length = .ok (.stream (normEntries d).reverse content enc) := by
  have := parseObj_shift pre ((s ++ (ws ++ t)) ++ post) 0
  rw [Nat.add_zero] at this
  rw [this]
  have hwf := Spells.wf h
  simp only [WF, Bool.and_eq_true, decide_eq_true_eq] at hwf
  cases h with
  | @dict _ _ _ body h hk hn =>
    obtain ⟨tok, x, h1, h2, h3, h4, _⟩ := dict_tokens h hk hn (SpellsAll.reads h)
    rw [h1]
    have htext : (tok ++ x ++ (ws ++ t)) ++ post = tok ++ ((x ++ ws) ++ (t ++ post)) := by simp
    rw [htext]
    have e1 := nextToken_at (text := tok ++ ((x ++ ws) ++ (t ++ post))) (ws := []) (i := 0) (h3 _) (by simp) rfl
    simp only [List.length_nil, Nat.zero_add] at e1
    have hlead : Lead (x ++ ws) := ⟨x, ws, rfl, h2, fun c hc => isSpace_of_white (hws c hc)⟩
    have hd : (tok ++ ((x ++ ws) ++ (t ++ post))).drop tok.length = (x ++ ws) ++ (t ++ post) := by simp
    have ht0 : (t ++ post).head? ≠ some 62 := by
      obtain ⟨b, e, rfl, _⟩ := ht
      simp
    have e2 := nextToken_lead (tokAt_data ht post) hlead (fun _ => ht0) hd
    rw [parseObj_stream e1 e2]
    have s1 : slice (tok ++ ((x ++ ws) ++ (t ++ post))) 0 tok.length = tok := by
      have := slice_of_drop (text := tok ++ ((x ++ ws) ++ (t ++ post))) (s := tok) (i := 0) rfl
      rwa [Nat.zero_add] at this
    have s2 := slice_of_drop (drop_add_of hd)
    rw [s1, s2, h4, streamContent_data ht]
    simp only
    rw [decodeStream_norm hwf.1 hwf.2, hdec]

theorem parse_top {o : Obj} {s : Bytes} (h : SpellsTop o s) (pre post : Bytes)
    (hpost : selfEnded o = true ∨ ∃ c r, post = c :: r ∧ isBreak c = true) (hns : NoStreamNext post) :
    parseObj (pre ++ (s ++ post)) pre.length = .ok (normTop o) := by
  cases h with
  | obj h hr =>
    have := parse_spells h hr pre post hpost (fun _ => hns)
    cases o with
    | stream => cases h
    | _ => exact this
  | stream h hws ht hdec => exact parse_spells_stream h hws ht hdec pre post

theorem noStream_endobj {g : Bytes} (hg : Gap false false g) (rest : Bytes) : NoStreamNext (g ++ (b!"endobj" ++ rest)) := by
  induction hg with
  | nil =>
    intro gap r hs e
    cases gap with
    | nil => simp at e
    | cons c gap =>
      have := hs c (by simp)
      simp only [List.cons_append, List.nil_append, List.cons.injEq, List.append_assoc] at e
      rw [← e.1] at this
      exact absurd this.2.1 (by decide)
  | @white c g hc _ ih =>
    intro gap r hs e
    cases gap with
    | nil =>
      simp only [List.cons_append, List.nil_append, List.cons.injEq] at e
      rw [e.1] at hc
      exact absurd hc (by decide)
    | cons d gap =>
      simp only [List.cons_append, List.nil_append, List.cons.injEq, List.append_assoc] at e
      exact ih gap r (fun y hy => hs y (by simp [hy])) (by simpa using e.2)
  | comment _ _ _ _ _ _ =>
    intro gap r hs e
    cases gap with
    | nil => simp at e
    | cons d gap =>
      have := hs d (by simp)
      simp only [List.cons_append, List.cons.injEq] at e
      rw [← e.1] at this
      exact absurd this.2.2 (by decide)

/-- The token that comes after `obj` is found at the start of the value. -/
theorem top_token {o : Obj} {s : Bytes} (h : SpellsTop o s) {post : Bytes}
    (hpost : selfEnded o = true ∨ ∃ c r, post = c :: r ∧ isBreak c = true) : ∃ tok t r, s ++ post = tok ++ r ∧ TokAt tok r t := by
  have key : ∀ {o : Obj} {s post : Bytes}, Spells false false o s → (∀ g n, o ≠ .ref g n) →
      (selfEnded o = true ∨ ∃ c r, post = c :: r ∧ isBreak c = true) → ∃ tok t r, s ++ post = tok ++ r ∧ TokAt tok r t := by
    intro o s post h hr hpost
    obtain ⟨tok, x, rfl, _, h3, _⟩ := Spells.elem h hr
    exact ⟨tok, _, x ++ post, by simp, h3 post hpost⟩
  cases h with
  | obj h hr => exact key h hr hpost
  | @stream d s ws t enc content h hws ht hdec =>
    have := key (post := (ws ++ t) ++ post) h (by simp) (.inl rfl)
    simpa using this

theorem nthToken_indirect {text n g w1 w2 w3 tok r : Bytes} {num gen : Int} {t : TokT} {i : Nat} (hn : IntText n num) (hg : IntText g gen)
    (h1 : w1 ≠ []) (h2 : w2 ≠ []) (hw : ∀ c ∈ w1 ++ w2 ++ w3, c ∈ white) (h3 : w3 ≠ [] ∨ ∃ c q, tok ++ r = c :: q ∧ isBreak c = true)
    (ht : TokAt tok r t) (hd : text.drop i = n ++ (w1 ++ (g ++ (w2 ++ (b!"obj" ++ (w3 ++ (tok ++ r))))))) :
    (nthToken text 3 i).1 = i + (n ++ (w1 ++ (g ++ (w2 ++ (b!"obj" ++ w3))))).length := by
  have hw1 : ∀ c ∈ w1, isSpace c = true := fun c hc => isSpace_of_white (hw c (by simp [hc]))
  have hw2 : ∀ c ∈ w2, isSpace c = true := fun c hc => isSpace_of_white (hw c (by simp [hc]))
  have hw3 : ∀ c ∈ w3, isSpace c = true := fun c hc => isSpace_of_white (hw c (by simp [hc]))
  have brk : ∀ {w x : Bytes}, w ≠ [] → (∀ c ∈ w, isSpace c = true) → ∃ c q, w ++ x = c :: q ∧ isBreak c = true := by
    intro w x hne hs
    cases w with
    | nil => exact absurd rfl hne
    | cons c w => exact ⟨c, w ++ x, rfl, by simp [isBreak, hs c (by simp)]⟩
  obtain ⟨c1, q1, e1, b1⟩ := brk (x := g ++ (w2 ++ (b!"obj" ++ (w3 ++ (tok ++ r))))) h1 hw1
  have t0 := nextToken_at (ws := []) (text := text) (i := i) (hd := by rw [hd]; rfl) (e1 ▸ tokAt_intText hn b1 q1) (by simp)
  simp only [List.length_nil, Nat.add_zero] at t0
  have d1 := drop_add_of hd
  obtain ⟨c2, q2, e2, b2⟩ := brk (x := b!"obj" ++ (w3 ++ (tok ++ r))) h2 hw2
  have t1 := nextToken_at (e2 ▸ tokAt_intText hg b2 q2) hw1 d1
  have d2 := drop_add_of (drop_add_of d1)
  have h3' : ∃ c q, w3 ++ (tok ++ r) = c :: q ∧ isBreak c = true := by
    by_cases hne : w3 = []
    · subst hne
      obtain ⟨c, q, e, b⟩ := h3.resolve_left (by simp)
      exact ⟨c, q, e, b⟩
    · exact brk hne hw3
  obtain ⟨c3, q3, e3, b3⟩ := h3'
  have t2 := nextToken_at (e3 ▸ tokAt_keyword (s := b!"obj") (by decide) b3 q3) hw2 d2
  have d3 := drop_add_of (drop_add_of d2)
  have t3 := nextToken_at ht hw3 d3
  simp only [nthToken, t0, t1, t2, t3, List.length_append]
  omega

theorem parse_indirectText {text s rest : Bytes} {i num gen : Nat} {o : Obj} (h : IndirectText num gen o s)
    (hd : text.drop i = s ++ rest) : parseObj text (nthToken text 3 i).1 = .ok (normTop o) := by
  obtain ⟨n, g, w1, w2, w3, v, w4, rfl, hn, hg, hv, h1, h2, hw, h4, h5, h6⟩ := h
  have hpost : selfEnded o = true ∨ ∃ c r, w4 ++ (b!"endobj" ++ rest) = c :: r ∧ isBreak c = true := by
    rcases h6 with h6 | h6
    · obtain ⟨c, r, rfl, hc, _⟩ := gap_break h4 h6
      exact .inr ⟨c, _, rfl, hc⟩
    · exact .inl h6
  obtain ⟨tok, t, r, e0, ht⟩ := top_token hv hpost
  have hd' : text.drop i = n ++ (w1 ++ (g ++ (w2 ++ (b!"obj" ++ (w3 ++ (v ++ (w4 ++ (b!"endobj" ++ rest)))))))) := by
    rw [hd]; simp
  have hk := nthToken_indirect (text := text) (i := i) hn hg h1 h2 hw (tok := tok) (r := r)
    (by
      rcases h5 with h5 | ⟨c, q, rfl, hc⟩
      · exact .inl h5
      · exact .inr ⟨c, _, e0.symm, isBreak_of_ends hc⟩) ht (by rw [hd', e0])
  obtain ⟨p1, p2⟩ := drop_split hd' (by simp [intText_ne hn])
  rw [hk]
  have hlen : i + (n ++ (w1 ++ (g ++ (w2 ++ (b!"obj" ++ w3))))).length =
      (text.take i ++ (n ++ (w1 ++ (g ++ (w2 ++ (b!"obj" ++ w3)))))).length := by
    rw [List.length_append (as := text.take i), p2]
  have htext : text = (text.take i ++ (n ++ (w1 ++ (g ++ (w2 ++ (b!"obj" ++ w3)))))) ++ (v ++ (w4 ++ (b!"endobj" ++ rest))) := by
    conv => lhs; rw [p1]
    simp
  rw [hlen]
  conv => lhs; arg 1; rw [htext]
  exact parse_top hv _ _ hpost (noStream_endobj h4 rest)

end Pdf
