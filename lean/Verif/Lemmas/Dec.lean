/-
Decimal text of numbers and back.
-/
import Verif.Lemmas.Basic
import Verif.Spec.Objects

namespace Pdf

theorem digitChar_isDigit {n : Nat} (h : n < 10) : isDigit (digitChar n) = true := by
  have : ∀ n, n < 10 → isDigit (digitChar n) = true := by decide
  exact this n h

theorem digitChar_toNat {n : Nat} (h : n < 10) : (digitChar n).toNat - 48 = n := by
  have : ∀ n, n < 10 → (digitChar n).toNat - 48 = n := by decide
  exact this n h

theorem natDecAux_all : ∀ fuel n, (natDecAux fuel n).all isDigit = true := by
  intro fuel
  induction fuel with
  | zero => intro n; rfl
  | succ f ih =>
    intro n
    rw [natDecAux]
    split
    · simp [digitChar_isDigit ‹_›]
    · rw [List.all_append, ih]; simp [digitChar_isDigit (Nat.mod_lt n (by decide : 0 < 10))]

theorem natDec_all (n : Nat) : (natDec n).all isDigit = true := natDecAux_all _ _

theorem natDec_ne_nil (n : Nat) : natDec n ≠ [] := by
  unfold natDec; rw [natDecAux]; split <;> simp

theorem digitsVal_digit {c : UInt8} (h : isDigit c = true) (s : Bytes) (acc : Nat) :
    digitsVal acc (c :: s) = digitsVal (acc * 10 + (c.toNat - 48)) s := by
  rw [digitsVal.eq_def]; simp [h]

theorem digitsVal_append : ∀ (a b : Bytes) (acc : Nat), a.all isDigit = true →
    digitsVal acc (a ++ b) = (digitsVal acc a).bind (fun v => digitsVal v b) := by
  intro a
  induction a with
  | nil => intro b acc _; simp [digitsVal]
  | cons c a ih =>
    intro b acc h
    simp only [List.all_cons, Bool.and_eq_true] at h
    simp only [List.cons_append, digitsVal_digit h.1]
    exact ih b _ h.2

theorem digitsVal_natDecAux : ∀ fuel n, n < fuel → digitsVal 0 (natDecAux fuel n) = some n := by
  intro fuel
  induction fuel with
  | zero => intro n h; omega
  | succ f ih =>
    intro n h
    rw [natDecAux]
    split
    · rw [digitsVal_digit (digitChar_isDigit ‹_›)]; simp [digitsVal, digitChar_toNat ‹_›]
    · have hm := Nat.mod_lt n (by decide : 0 < 10)
      rw [digitsVal_append _ _ _ (natDecAux_all _ _), ih _ (by omega)]
      rw [Option.bind_some, digitsVal_digit (digitChar_isDigit hm)]
      simp [digitsVal, digitChar_toNat hm]
      omega

theorem digitsVal_natDec (n : Nat) : digitsVal 0 (natDec n) = some n :=
  digitsVal_natDecAux _ _ (by omega)

theorem pyNat_eq_digitsVal {c : UInt8} {s : Bytes} (h : isDigit c = true) :
    pyNat (c :: s) = digitsVal 0 (c :: s) := by
  rw [digitsVal_digit h]; simp [pyNat, h]

theorem natDec_cons (n : Nat) : ∃ c s, natDec n = c :: s ∧ isDigit c = true ∧ s.all isDigit = true := by
  have h1 := natDec_all n
  cases h : natDec n with
  | nil => exact absurd h (natDec_ne_nil n)
  | cons c s =>
    rw [h] at h1
    simp at h1
    exact ⟨c, s, rfl, h1.1, by simpa using h1.2⟩

theorem pyNat_natDec (n : Nat) : pyNat (natDec n) = some n := by
  obtain ⟨c, s, h, hd, _⟩ := natDec_cons n
  rw [h, pyNat_eq_digitsVal hd, ← h, digitsVal_natDec]

theorem isDigit_not_space {c : UInt8} (h : isDigit c = true) : isPySpace c = false := by
  revert c
  apply forall_byte
  decide +kernel

theorem digit_ne {c : UInt8} (h : isDigit c = true) : c ≠ 45 ∧ c ≠ 43 ∧ c ≠ 46 ∧ c ≠ 95 := by
  revert c
  apply forall_byte
  decide +kernel

theorem stripLeft_cons {c : UInt8} {s : Bytes} (h : isPySpace c = false) :
    stripLeft (c :: s) = c :: s := by
  simp [stripLeft, h]

theorem stripRight_append {c : UInt8} {s : Bytes} (h : isPySpace c = false) :
    stripRight (s ++ [c]) = s ++ [c] := by
  simp [stripRight, h]

/-- A text whose first and last bytes are not white space is not changed by `strip`. -/
theorem strip_id {s : Bytes} (h : s.all (fun c => !isPySpace c) = true) :
    stripRight (stripLeft s) = s := by
  have h1 : stripLeft s = s := by
    cases s with
    | nil => rfl
    | cons c s => simp at h; exact stripLeft_cons h.1
  rw [h1]
  by_cases hs : s = []
  · subst hs; rfl
  · obtain ⟨t, c, rfl⟩ : ∃ t c, s = t ++ [c] :=
      ⟨s.dropLast, s.getLast hs, (List.dropLast_concat_getLast hs).symm⟩
    exact stripRight_append (by simp at h; exact h.2)

theorem all_digit_not_space {s : Bytes} (h : s.all isDigit = true) :
    s.all (fun c => !isPySpace c) = true := by
  simp only [List.all_eq_true, Bool.not_eq_true'] at *
  exact fun c hc => isDigit_not_space (h c hc)

theorem pyInt_natDec (n : Nat) : pyInt (natDec n) = some (n : Int) := by
  unfold pyInt
  rw [strip_id (all_digit_not_space (natDec_all n))]
  obtain ⟨c, s, h, hd, _⟩ := natDec_cons n
  have hp := pyNat_natDec n
  rw [h] at hp ⊢
  have hne := digit_ne hd
  simp [hne.1, hne.2.1, hp]

theorem pyInt_intDec (n : Int) : pyInt (intDec n) = some n := by
  cases n with
  | ofNat n => exact pyInt_natDec n
  | negSucc n =>
    unfold pyInt intDec
    rw [strip_id (by
      rw [List.all_cons, all_digit_not_space (natDec_all (n + 1))]; rfl)]
    simp [pyNat_natDec]
    omega

theorem getLast?_trimZeros {s : Bytes} (h : s.getLast? ≠ some 48) : trimZeros s = s := by
  by_cases hs : s = []
  · subst hs; rfl
  · obtain ⟨t, c, rfl⟩ : ∃ t c, s = t ++ [c] :=
      ⟨s.dropLast, s.getLast hs, (List.dropLast_concat_getLast hs).symm⟩
    simp at h
    simp [trimZeros, h]

theorem takeWhile_digits (a : Bytes) (c : UInt8) (b : Bytes) (ha : a.all isDigit = true)
    (hc : isDigit c = false) : (a ++ c :: b).takeWhile isDigit = a := by
  induction a with
  | nil => simp [hc]
  | cons x a ih =>
    simp at ha
    simp [ha.1]
    exact ih (by simpa using ha.2)

theorem pyFloat_body (neg : Bool) (ip : Nat) (frac : Bytes) (h : realOk ip frac = true) :
    ∃ r, r.all isDigit = true ∧ r ≠ [] ∧ trimZeros r = frac ∧
      realStr neg ip frac = (if neg then [45] else []) ++ (natDec ip ++ 46 :: r) := by
  simp only [realOk, Bool.and_eq_true, bne_iff_ne] at h
  obtain ⟨⟨⟨h1, h2⟩, -⟩, -⟩ := h
  by_cases hf : frac = []
  · subst hf
    exact ⟨[48], by decide, by simp, by decide, by simp [realStr]⟩
  · exact ⟨frac, h1, hf, getLast?_trimZeros h2, by simp [realStr, hf]⟩

theorem pyFloat_realStr (neg : Bool) (ip : Nat) (frac : Bytes) (h : realOk ip frac = true) :
    pyFloat (realStr neg ip frac) = .ok (.real neg ip frac) := by
  obtain ⟨r, h1, h2, h3, h4⟩ := pyFloat_body neg ip frac h
  have hall : (natDec ip ++ 46 :: r).all (fun c => !isPySpace c) = true := by
    rw [List.all_append, List.all_cons, all_digit_not_space (natDec_all ip), all_digit_not_space h1]
    rfl
  have hd : ∀ {l : Bytes}, (l.drop (List.takeWhile isDigit (natDec ip ++ 46 :: r)).length = l.drop (natDec ip).length) := by
    intro l; rw [takeWhile_digits _ _ _ (natDec_all ip) (by decide)]
  obtain ⟨c, s, hc, hcd, _⟩ := natDec_cons ip
  have hne := digit_ne hcd
  unfold pyFloat
  rw [h4]
  cases neg with
  | false =>
    simp only [Bool.false_eq_true, if_false, List.nil_append]
    rw [strip_id hall]
    have hm : signSplit (natDec ip ++ 46 :: r) = (false, natDec ip ++ 46 :: r) := by
      rw [hc]; simp [signSplit, hne.1, hne.2.1]
    rw [hm]
    simp only
    rw [hd, takeWhile_digits _ _ _ (natDec_all ip) (by decide)]
    simp [h1, h2, h3, natDec_ne_nil, digitsVal_natDec, h]
  | true =>
    simp only [if_true]
    rw [show ([45] : Bytes) ++ (natDec ip ++ 46 :: r) = 45 :: (natDec ip ++ 46 :: r) from rfl]
    rw [strip_id (by rw [List.all_cons, hall]; rfl)]
    simp only [signSplit, if_true]
    rw [hd, takeWhile_digits _ _ _ (natDec_all ip) (by decide)]
    simp [h1, h2, h3, natDec_ne_nil, digitsVal_natDec, h]

theorem natDecAux_length_le : ∀ fuel n k, n < fuel → 1 ≤ k →
    ((natDecAux fuel n).length ≤ k ↔ n < 10 ^ k) := by
  intro fuel
  induction fuel with
  | zero => intro n k h; omega
  | succ f ih =>
    intro n k h hk
    obtain ⟨k, rfl⟩ : ∃ m, k = m + 1 := ⟨k - 1, by omega⟩
    have hp : 0 < 10 ^ k := Nat.pow_pos (by decide)
    rw [natDecAux]
    split
    · simp only [List.length_singleton, Nat.pow_succ]; omega
    · rw [List.length_append, List.length_singleton, Nat.pow_succ]
      by_cases hk0 : k = 0
      · subst hk0
        have : 0 < (natDecAux f (n / 10)).length := by
          cases f with
          | zero => omega
          | succ f => rw [natDecAux]; split <;> simp
        simp only [Nat.pow_zero]; omega
      · have := ih (n / 10) k (by omega) (by omega)
        have h2 : n / 10 < 10 ^ k ↔ n < 10 ^ k * 10 := by
          rw [Nat.div_lt_iff_lt_mul (by decide)]
        omega

theorem natDec_length_le (n k : Nat) (hk : 1 ≤ k) : (natDec n).length ≤ k ↔ n < 10 ^ k :=
  natDecAux_length_le _ _ _ (by omega) hk

theorem natDec_length_pos (n : Nat) : 0 < (natDec n).length :=
  List.length_pos_iff.2 (natDec_ne_nil n)

theorem isDigit_iff (c : UInt8) : isDigit c = true ↔ c ∈ b!"0123456789" := by
  revert c; apply forall_byte; decide +kernel

theorem isDecimal_eq (ip : Nat) (frac : Bytes) : Spec.isDecimal ip frac = realOk ip frac := by
  rw [Bool.eq_iff_iff]
  have h1 : (frac.all fun x => decide (x ∈ b!"0123456789")) = frac.all isDigit := by
    congr 1; funext c; rw [Bool.eq_iff_iff, isDigit_iff]; simp
  have h2 : (frac.length < 15 ∧ ip < 10 ^ (15 - frac.length)) ↔
      (natDec ip ++ frac).length ≤ 15 := by
    rw [List.length_append]
    have hp := natDec_length_pos ip
    by_cases hl : frac.length < 15
    · have := natDec_length_le ip (15 - frac.length) (by omega)
      omega
    · omega
  have h2' : (natDec ip ++ frac).length ≤ 15 ↔ (natDec ip).length + frac.length ≤ 15 := by
    rw [List.length_append]
  unfold Spec.isDecimal realOk
  rw [h1]
  simp only [Bool.and_eq_true, decide_eq_true_eq, ← h2]
  simp only [and_assoc]
  simp

end Pdf
