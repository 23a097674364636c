/-
Lists, slices.
-/
import Verif.Model.Basic

namespace Pdf

/-- Exhaustive case analysis on a byte. -/
theorem forall_byte {P : UInt8 → Prop} (h : ∀ n, n < 256 → P (UInt8.ofNat n)) (c : UInt8) : P c := by
  have := h c.toNat c.toNat_lt
  simpa using this

variable {α : Type}

theorem slice_length (l : List α) (a b : Nat) : (slice l a b).length = min b l.length - a := by
  simp [slice]

theorem slice_self (l : List α) (a : Nat) : slice l a a = [] := by
  apply List.eq_nil_of_length_eq_zero; rw [slice_length]; omega

theorem slice_zero (l : List α) (b : Nat) : slice l 0 b = l.take b := by simp [slice]

theorem slice_append_left (pre l : List α) (a b : Nat) :
    slice (pre ++ l) (pre.length + a) (pre.length + b) = slice l a b := by
  simp [slice, List.take_append, List.drop_append]

theorem slice_prefix (l post : List α) (b : Nat) (h : b ≤ l.length) (a : Nat) :
    slice (l ++ post) a b = slice l a b := by
  simp [slice, List.take_append_of_le_length h]

theorem slice_full (l : List α) (b : Nat) (h : l.length ≤ b) : slice l 0 b = l := by
  simp [slice, List.take_of_length_le h]

/-- The slice between two positions of `pre ++ mid ++ post`. -/
theorem slice_mid (pre mid post : List α) :
    slice (pre ++ mid ++ post) pre.length (pre.length + mid.length) = mid := by
  rw [List.append_assoc]
  have := slice_append_left pre (mid ++ post) 0 mid.length
  simp only [Nat.add_zero] at this
  rw [this, slice_prefix _ _ _ (Nat.le_refl _), slice_full _ _ (Nat.le_refl _)]

theorem drop_cons_lt {l : List α} {i : Nat} {c : α} {rest : List α} (h : l.drop i = c :: rest) :
    i < l.length := by
  by_cases hi : i < l.length
  · exact hi
  · rw [List.drop_of_length_le (by omega)] at h; cases h

theorem drop_succ_of_cons {l : List α} {i : Nat} {c : α} {rest : List α}
    (h : l.drop i = c :: rest) : l.drop (i + 1) = rest := by
  have : l.drop (i + 1) = (l.drop i).drop 1 := by rw [List.drop_drop]
  rw [this, h]; rfl

theorem slice_succ {l : List α} {i h : Nat} {c : α} {rest : List α} (hh : h ≤ i)
    (hd : l.drop i = c :: rest) : slice l h (i + 1) = slice l h i ++ [c] := by
  have hi := drop_cons_lt hd
  have hc : l[i] = c := by
    have := List.drop_eq_getElem_cons hi
    rw [hd] at this
    exact (List.cons.inj this).1.symm
  unfold slice
  rw [List.take_succ_eq_append_getElem hi, hc, List.drop_append_of_le_length (by simp; omega)]

theorem slice_drop (l : List α) (k a b : Nat) :
    slice (l.drop k) a b = slice l (k + a) (k + b) := by
  unfold slice
  rw [List.take_drop, List.drop_drop]

theorem slice_slice (l : List α) (a b c d : Nat) (h : a + d ≤ b) :
    slice (slice l a b) c d = slice l (a + c) (a + d) := by
  unfold slice
  rw [List.take_drop, List.drop_drop, List.take_take]
  congr 2; omega

theorem startsWith_iff (p l : Bytes) : startsWith p l = true ↔ p <+: l := by
  simp [startsWith]

theorem startsWith_ne {a c : UInt8} {p l : Bytes} (h : c ≠ a) :
    startsWith (a :: p) (c :: l) = false := by
  simp [startsWith, List.isPrefixOf, Ne.symm h]

theorem startsWith_append (p l : Bytes) : startsWith p (p ++ l) = true := by
  simp [startsWith]

theorem startsWith_slice {p l : Bytes} {i : Nat} (h : startsWith p (l.drop i) = true) :
    slice l i (i + p.length) = p := by
  rw [startsWith_iff] at h
  obtain ⟨t, ht⟩ := h
  have := slice_drop l i 0 p.length
  rw [Nat.add_zero] at this
  rw [← this, ← ht, slice_zero]; simp

theorem startsWith_length {p l : Bytes} (h : startsWith p l = true) : p.length ≤ l.length := by
  rw [startsWith_iff] at h; exact h.length_le

theorem slice_append_slice (l : List α) {a b c : Nat} (h1 : a ≤ b) (h2 : b ≤ c) :
    slice l a b ++ slice l b c = slice l a c := by
  unfold slice
  have e : l.take c = l.take b ++ (l.take c).drop b := by
    conv => lhs; rw [← List.take_append_drop b (l.take c)]
    rw [List.take_take, Nat.min_eq_left h2]
  by_cases hb : b ≤ l.length
  · conv => rhs; rw [e]
    rw [List.drop_append_of_le_length (by simp; omega)]
  · rw [List.take_of_length_le (by omega : l.length ≤ b),
      List.take_of_length_le (by omega : l.length ≤ c),
      List.drop_of_length_le (by omega : l.length ≤ b)]
    simp

end Pdf
