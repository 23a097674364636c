/-
Searching and slicing, for the model of markdown.py.
-/
import Verif.Model.Markdown

namespace Pdf

theorem findAux_spec {p : Bytes} (hp : p ≠ []) : ∀ (rest : Bytes) (i : Nat),
    (∀ k, findAux p i rest = some k → ∃ m, k = i + m ∧ p <+: rest.drop m ∧ ∀ j, j < m → ¬ p <+: rest.drop j) ∧
    (findAux p i rest = none → ∀ j, ¬ p <+: rest.drop j)
  | [], i => by
    unfold findAux
    rw [if_neg hp]
    refine ⟨fun k h => (by cases h), fun _ j h => hp ?_⟩
    rw [List.drop_nil] at h
    exact List.prefix_nil.1 h
  | c :: rest, i => by
    unfold findAux
    obtain ⟨h1, h2⟩ := findAux_spec hp rest (i + 1)
    split
    · rename_i hs
      refine ⟨?_, fun h => (by cases h)⟩
      intro k h
      cases h
      exact ⟨0, rfl, List.isPrefixOf_iff_prefix.1 hs, fun j hj => by omega⟩
    · rename_i hs
      have hs' : ¬ p <+: c :: rest := fun h => hs (List.isPrefixOf_iff_prefix.2 h)
      constructor
      · intro k h
        obtain ⟨m, rfl, h3, h4⟩ := h1 k h
        refine ⟨m + 1, by omega, h3, ?_⟩
        intro j hj
        cases j with
        | zero => exact hs'
        | succ j => exact h4 j (by omega)
      · intro h j
        cases j with
        | zero => exact hs'
        | succ j => exact h2 h j

theorem find_some {s p : Bytes} (hp : p ≠ []) {i k : Nat} (h : find s p i = some k) :
    i ≤ k ∧ p <+: s.drop k ∧ ∀ j, i ≤ j → j < k → ¬ p <+: s.drop j := by
  obtain ⟨m, rfl, h1, h2⟩ := (findAux_spec hp (s.drop i) i).1 k h
  rw [List.drop_drop] at h1
  refine ⟨by omega, h1, ?_⟩
  intro j hj hk
  have := h2 (j - i) (by omega)
  rw [List.drop_drop, Nat.add_sub_cancel' hj] at this
  exact this

theorem find_none {s p : Bytes} (hp : p ≠ []) {i : Nat} (h : find s p i = none) (j : Nat) (hj : i ≤ j) : ¬ p <+: s.drop j := by
  have := (findAux_spec hp (s.drop i) i).2 h (j - i)
  rw [List.drop_drop, Nat.add_sub_cancel' hj] at this
  exact this

/-- The first occurrence. -/
theorem find_eq {s p : Bytes} (hp : p ≠ []) {i k : Nat} (hi : i ≤ k) (hk : p <+: s.drop k)
    (hno : ∀ j, i ≤ j → j < k → ¬ p <+: s.drop j) : find s p i = some k := by
  cases h : find s p i with
  | none => exact absurd hk (find_none hp h k hi)
  | some m =>
    obtain ⟨h1, h2, h3⟩ := find_some hp h
    rcases Nat.lt_trichotomy m k with h | h | h
    · exact absurd h2 (hno m h1 h)
    · rw [h]
    · exact absurd hk (h3 k hi h)

theorem find_eq_none {s p : Bytes} (hp : p ≠ []) {i : Nat} (hno : ∀ j, i ≤ j → ¬ p <+: s.drop j) : find s p i = none := by
  cases h : find s p i with
  | none => rfl
  | some m =>
    obtain ⟨h1, h2, -⟩ := find_some hp h
    exact absurd h2 (hno m h1)

theorem single_prefix {c : UInt8} {s : Bytes} {k : Nat} : [c] <+: s.drop k ↔ s[k]? = some c := by
  constructor
  · rintro ⟨t, h⟩
    have : (s.drop k)[0]? = some c := by rw [← h]; rfl
    simpa using this
  · intro h
    have hlt : k < s.length := by
      rcases Nat.lt_or_ge k s.length with h' | h'
      · exact h'
      · rw [List.getElem?_eq_none h'] at h; cases h
    rw [List.getElem?_eq_getElem hlt] at h
    cases h
    exact ⟨s.drop (k + 1), by rw [List.singleton_append]; exact (List.drop_eq_getElem_cons hlt).symm⟩

theorem findAux_skip {p : Bytes} {x : UInt8} {q : Bytes} (hp : p = x :: q) : ∀ (A rest : Bytes) (i : Nat), x ∉ A →
    findAux p i (A ++ (p ++ rest)) = some (i + A.length)
  | [], rest, i, _ => by
    subst hp
    simp [findAux, startsWith]
  | c :: A, rest, i, h => by
    simp only [List.mem_cons, not_or] at h
    rw [List.cons_append, findAux, if_neg, findAux_skip hp A rest (i + 1) h.2]
    · simp only [List.length_cons, Option.some.injEq]
      omega
    · intro hh
      have := List.isPrefixOf_iff_prefix.1 hh
      rw [hp] at this
      exact h.1 (List.cons_prefix_cons.1 this).1

theorem find_skip {p : Bytes} {x : UInt8} {q : Bytes} (hp : p = x :: q) {s D A rest : Bytes} (hs : s = D ++ (A ++ (p ++ rest)))
    (hx : x ∉ A) : find s p D.length = some (D.length + A.length) := by
  unfold find
  rw [hs, List.drop_left]
  exact findAux_skip hp A rest _ hx

theorem pySlice_mid {α : Type} {s A B C : List α} {i k : Int} (hs : s = A ++ (B ++ C)) (hi : i = A.length) (hk : k = A.length + B.length) :
    pySlice s i k = B := by
  unfold pySlice slice sliceBound
  rw [hs, hi, hk, if_neg (by omega), if_neg (by omega), show ((A.length : Int) + B.length).toNat = A.length + B.length by omega,
    Int.toNat_natCast, ← List.append_assoc, List.take_left' (by simp), List.drop_left]

end Pdf
