/-
The tokenizer and the parser do not look at what precedes the start position;
the parser's fuel is sufficient.
-/
import Verif.Lemmas.Tok

namespace Pdf

def TokSt.shift (k : Nat) (st : TokSt) : TokSt := { st with h := k + st.h, i := k + st.i }

def shiftTok (k : Nat) : Tok → Tok
  | (h, j, t) => (k + h, k + j, t)

def TokOut.shift (k : Nat) : TokOut → TokOut
  | .ret t => .ret (shiftTok k t)
  | .next st => .next (st.shift k)
  | .next2 st => .next2 (st.shift k)

theorem TokOut.shift_ite (k : Nat) (p : Prop) [Decidable p] (a b : TokOut) :
    TokOut.shift k (if p then a else b) = if p then a.shift k else b.shift k := by
  split <;> rfl

theorem tokStep_shift (pre text : Bytes) (st : TokSt) (c : UInt8) (rest : Bytes) :
    tokStep (pre ++ text) (st.shift pre.length) c rest =
      (tokStep text st c rest).shift pre.length := by
  obtain ⟨search, nested, inText, h, i⟩ := st
  cases search <;>
    simp only [tokStep, TokSt.shift, slice_append_left, TokOut.shift_ite] <;>
    simp only [TokOut.shift, shiftTok, TokSt.shift, Nat.add_assoc]

theorem tokLoop_shift (pre text : Bytes) : ∀ (rest : Bytes) (st : TokSt),
    tokLoop (pre ++ text) (st.shift pre.length) rest =
      shiftTok pre.length (tokLoop text st rest) := by
  intro rest
  induction hn : rest.length using Nat.strongRecOn generalizing rest with
  | _ n ih =>
    intro st
    cases rest with
    | nil => simp [tokLoop, TokSt.shift, shiftTok]
    | cons c rest =>
      rw [tokLoop, tokLoop, tokStep_shift]
      cases tokStep text st c rest with
      | ret t => rfl
      | next st' => exact ih _ (by simp at hn; omega) rest rfl _
      | next2 st' =>
        cases rest with
        | nil => rfl
        | cons d rest => exact ih _ (by simp at hn; omega) rest rfl _

theorem nextToken_shift (pre text : Bytes) (i : Nat) :
    nextToken (pre ++ text) (pre.length + i) = shiftTok pre.length (nextToken text i) := by
  have h := tokLoop_shift pre text (text.drop i) ⟨.tbd, 1, false, i, i⟩
  unfold nextToken
  rw [← h]
  simp [TokSt.shift]

/-- The result of `next_token` at `i` in terms of the remaining text. -/
theorem nextToken_drop (text : Bytes) (i : Nat) (hi : i ≤ text.length) :
    nextToken text i = shiftTok i (nextToken (text.drop i) 0) := by
  have h := nextToken_shift (text.take i) (text.drop i) 0
  rw [List.take_append_drop, List.length_take, Nat.min_eq_left hi] at h
  simpa using h

theorem nextToken_end (text : Bytes) (i : Nat) (hi : text.length ≤ i) :
    nextToken text i = (i, i, none) := by
  unfold nextToken
  rw [List.drop_of_length_le hi]; rfl

/-- Bounds in a form convenient for the parser. -/
theorem nextToken_typed {text : Bytes} {i h j : Nat} {t : TokT}
    (e : nextToken text i = (h, j, some t)) : i ≤ h ∧ h < j ∧ j ≤ text.length := by
  by_cases hi : i ≤ text.length
  · have := nextToken_good text i hi
    rw [e] at this
    obtain ⟨a, b, c, d, _⟩ := this
    exact ⟨a, d, c⟩
  · rw [nextToken_end _ _ (by omega)] at e
    simp at e

theorem nextToken_le {text : Bytes} {i h j : Nat} {t : Option TokT}
    (e : nextToken text i = (h, j, t)) (hi : i ≤ text.length) :
    i ≤ h ∧ h ≤ j ∧ j ≤ text.length := by
  have := nextToken_good text i hi
  rw [e] at this
  obtain ⟨a, b, c, _⟩ := this
  exact ⟨a, b, c⟩

section parser
variable [Zlib]

/-- With enough fuel the result does not depend on the fuel. -/
theorem fuel_stable : ∀ n : Nat,
    (∀ m text start, 2 * text.length + 1 ≤ n → 2 * text.length + 1 ≤ m →
      parseObjF n text start = parseObjF m text start) ∧
    (∀ m text i j1, 2 * (text.length - i) + 2 ≤ n → 2 * (text.length - i) + 2 ≤ m →
      dictItemsF n text i j1 = dictItemsF m text i j1) ∧
    (∀ m text i j1, 2 * (text.length - i) + 2 ≤ n → 2 * (text.length - i) + 2 ≤ m →
      arrayItemsF n text i j1 = arrayItemsF m text i j1) := by
  intro n
  induction n with
  | zero => refine ⟨?_, ?_, ?_⟩ <;> intros <;> omega
  | succ n ih =>
    obtain ⟨ihP, ihD, ihA⟩ := ih
    refine ⟨?_, ?_, ?_⟩
    · intro m text start hn hm
      obtain ⟨m, rfl⟩ : ∃ k, m = k + 1 := ⟨m - 1, by omega⟩
      rw [parseObjF, parseObjF]
      rcases hnt : nextToken text start with ⟨h1, j1, t1⟩
      cases t1 with
      | none => rfl
      | some t1 =>
        have b1 := nextToken_typed hnt
        cases t1 <;> try rfl
        · simp only
          rcases hnt2 : nextToken text j1 with ⟨h2, j2, t2⟩
          have hD := ihD m text (start + 2) j1 (by omega) (by omega)
          cases t2 with
          | none => simp only; rw [hD]
          | some t2 =>
            have b2 := nextToken_typed hnt2
            have hP := ihP m (slice text h1 j1) 0 (by rw [slice_length]; omega)
              (by rw [slice_length]; omega)
            cases t2 <;> simp only <;> first | rw [hD] | rw [hP]
        · simp only
          rw [ihA m text (start + 1) j1 (by omega) (by omega)]
    · intro m text i j1 hn hm
      obtain ⟨m, rfl⟩ : ∃ k, m = k + 1 := ⟨m - 1, by omega⟩
      rw [dictItemsF, dictItemsF]
      by_cases hij : ¬ i < j1 - 1
      · simp [hij]
      rw [Decidable.not_not] at hij
      simp only [hij, if_true]
      rcases hnt : nextToken text i with ⟨h, i', t⟩
      have hi : i' ≤ i ∨ i < i' := by omega
      cases t with
      | none =>
        simp only
        rcases hi with hi | hi
        · simp [hi]
        · by_cases hl : i ≤ text.length
          · have := nextToken_le hnt hl
            rw [ihD m text i' j1 (by omega) (by omega)]
          · rw [nextToken_end _ _ (by omega)] at hnt; simp at hnt; omega
      | some t =>
        have b := nextToken_typed hnt
        have hD := ihD m text i' j1 (by omega) (by omega)
        have hP := ihP m (slice text h i') 0 (by rw [slice_length]; omega)
              (by rw [slice_length]; omega)
        cases t <;> simp only [hD, hP]
    · intro m text i j1 hn hm
      obtain ⟨m, rfl⟩ : ∃ k, m = k + 1 := ⟨m - 1, by omega⟩
      rw [arrayItemsF, arrayItemsF]
      by_cases hij : ¬ i < j1 - 1
      · simp [hij]
      rw [Decidable.not_not] at hij
      simp only [hij, if_true]
      rcases hnt : nextToken text i with ⟨h, i', t⟩
      have hi : i' ≤ i ∨ i < i' := by omega
      cases t with
      | none =>
        simp only
        rcases hi with hi | hi
        · simp [hi]
        · by_cases hl : i ≤ text.length
          · have := nextToken_le hnt hl
            rw [ihA m text i' j1 (by omega) (by omega)]
          · rw [nextToken_end _ _ (by omega)] at hnt; simp at hnt; omega
      | some t =>
        have b := nextToken_typed hnt
        have hD := ihA m text i' j1 (by omega) (by omega)
        have hP := ihP m (slice text h i') 0 (by rw [slice_length]; omega)
              (by rw [slice_length]; omega)
        cases t <;> simp only [hD, hP]

theorem parseObjF_stable (text : Bytes) (start n : Nat) (hn : parseFuel text ≤ n) :
    parseObjF n text start = parseObj text start := by
  unfold parseObj parseFuel at *
  exact (fuel_stable n).1 _ _ _ (by omega) (by omega)

theorem parseObjF_eq (text : Bytes) (start n : Nat) (hn : 2 * text.length + 1 ≤ n) :
    parseObjF n text start = parseObj text start := by
  unfold parseObj parseFuel
  exact (fuel_stable n).1 _ _ _ (by omega) (by omega)

theorem parse_shift (pre : Bytes) : ∀ n : Nat,
    (∀ text start, parseObjF n (pre ++ text) (pre.length + start) = parseObjF n text start) ∧
    (∀ text i j1, dictItemsF n (pre ++ text) (pre.length + i) (pre.length + j1)
        = dictItemsF n text i j1) ∧
    (∀ text i j1, arrayItemsF n (pre ++ text) (pre.length + i) (pre.length + j1)
        = arrayItemsF n text i j1) := by
  intro n
  induction n with
  | zero => exact ⟨fun _ _ => rfl, fun _ _ _ => rfl, fun _ _ _ => rfl⟩
  | succ n ih =>
    obtain ⟨ihP, ihD, ihA⟩ := ih
    refine ⟨?_, ?_, ?_⟩
    · intro text start
      rw [parseObjF, parseObjF, nextToken_shift]
      rcases nextToken text start with ⟨h1, j1, t1⟩
      cases t1 with
      | none => simp only [shiftTok, slice_append_left]
      | some t1 =>
        cases t1 <;> simp only [shiftTok, slice_append_left]
        · rw [nextToken_shift]
          rcases nextToken text j1 with ⟨h2, j2, t2⟩
          cases t2 with
          | none => simp only [shiftTok, Nat.add_assoc, ihD]
          | some t2 =>
            cases t2 <;> simp only [shiftTok, slice_append_left, Nat.add_assoc, ihD]
        · simp only [Nat.add_assoc, ihA]
    · intro text i j1
      rw [dictItemsF, dictItemsF, nextToken_shift]
      by_cases hij : ¬ i < j1 - 1
      · rw [if_neg hij, if_neg (by omega)]
      rw [Decidable.not_not] at hij
      rw [if_pos hij, if_pos (by omega)]
      rcases nextToken text i with ⟨h, i', t⟩
      cases t with
      | none => simp only [shiftTok, ihD, Nat.add_le_add_iff_left]
      | some t =>
        cases t <;> simp only [shiftTok, ihD, slice_append_left, Nat.add_lt_add_iff_left]
    · intro text i j1
      rw [arrayItemsF, arrayItemsF, nextToken_shift]
      by_cases hij : ¬ i < j1 - 1
      · rw [if_neg hij, if_neg (by omega)]
      rw [Decidable.not_not] at hij
      rw [if_pos hij, if_pos (by omega)]
      rcases nextToken text i with ⟨h, i', t⟩
      cases t with
      | none => simp only [shiftTok, ihA, Nat.add_le_add_iff_left]
      | some t =>
        cases t <;> simp only [shiftTok, ihA, slice_append_left]

theorem parseObj_shift (pre text : Bytes) (start : Nat) :
    parseObj (pre ++ text) (pre.length + start) = parseObj text start := by
  rw [← parseObjF_eq text start (parseFuel (pre ++ text)) (by simp [parseFuel]; omega)]
  exact (parse_shift pre _).1 text start

end parser

end Pdf
