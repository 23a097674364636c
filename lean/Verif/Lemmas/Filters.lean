/-
Lemmas on the filters.
-/
import Verif.Model.Filters
import Verif.Lemmas.Basic

namespace Pdf

theorem hexVal_hexDigit : ∀ n, n < 16 → hexVal (hexDigit n) = some n := by decide

theorem unhexlify_asciihex : ∀ s : Bytes, unhexlify (asciihex s) = some s
  | [] => rfl
  | c :: rest => by
    have hc := c.toNat_lt
    rw [asciihex, unhexlify, hexVal_hexDigit _ (by omega), hexVal_hexDigit _ (by omega)]
    simp only [unhexlify_asciihex rest, Option.map_some]
    rw [show 16 * (c.toNat / 16) + c.toNat % 16 = c.toNat by omega, UInt8.ofNat_toNat]

theorem digit85 {q : Nat} (h : q < 85) : (33 : UInt8) ≤ UInt8.ofNat (33 + q) ∧ UInt8.ofNat (33 + q) ≤ 117 ∧
    (UInt8.ofNat (33 + q)).toNat - 33 = q := by
  have e : (UInt8.ofNat (33 + q)).toNat = 33 + q := by
    rw [UInt8.toNat_ofNat']; omega
  refine ⟨?_, ?_, by omega⟩
  · rw [UInt8.le_iff_toNat_le, e]; simp
  · rw [UInt8.le_iff_toNat_le, e]; simp; omega

/-- The loop on one complete group of digits. -/
theorem a85Loop_group {q0 q1 q2 q3 q4 : Nat} (h0 : q0 < 85) (h1 : q1 < 85) (h2 : q2 < 85) (h3 : q3 < 85)
    (h4 : q4 < 85) (rest : Bytes)
    (hw : (((q0 * 85 + q1) * 85 + q2) * 85 + q3) * 85 + q4 < 4294967296) :
    a85Loop [] (UInt8.ofNat (33 + q0) :: UInt8.ofNat (33 + q1) :: UInt8.ofNat (33 + q2) ::
      UInt8.ofNat (33 + q3) :: UInt8.ofNat (33 + q4) :: rest) =
    (a85Loop [] rest).map (fun (d, c) =>
      ([UInt8.ofNat (((((q0 * 85 + q1) * 85 + q2) * 85 + q3) * 85 + q4) / 16777216 % 256),
        UInt8.ofNat (((((q0 * 85 + q1) * 85 + q2) * 85 + q3) * 85 + q4) / 65536 % 256),
        UInt8.ofNat (((((q0 * 85 + q1) * 85 + q2) * 85 + q3) * 85 + q4) / 256 % 256),
        UInt8.ofNat (((((q0 * 85 + q1) * 85 + q2) * 85 + q3) * 85 + q4) % 256)] ++ d, c)) := by
  have e : ((((0 * 85 + q0) * 85 + q1) * 85 + q2) * 85 + q3) * 85 + q4 =
    (((q0 * 85 + q1) * 85 + q2) * 85 + q3) * 85 + q4 := by omega
  simp only [a85Loop, digit85 h0, digit85 h1, digit85 h2, digit85 h3, digit85 h4, and_self, if_true,
    List.nil_append, List.cons_append, List.length_cons, List.length_nil, List.foldl, packI]
  simp only [Nat.mul_comm 85] at *
  rw [e]
  simp [hw]

/-- The five digits of a word, as numbers. -/
theorem a85Digits_eq (w : Nat) (hw : w < 4294967296) :
    ∃ q0 q1 q2 q3 q4, q0 < 85 ∧ q1 < 85 ∧ q2 < 85 ∧ q3 < 85 ∧ q4 < 85 ∧
      w = (((q0 * 85 + q1) * 85 + q2) * 85 + q3) * 85 + q4 ∧
      a85Digits w = [UInt8.ofNat (33 + q0), UInt8.ofNat (33 + q1), UInt8.ofNat (33 + q2),
        UInt8.ofNat (33 + q3), UInt8.ofNat (33 + q4)] := by
  refine ⟨w / 614125 / 85, w / 614125 % 85, w / 85 % 7225 / 85, w / 85 % 7225 % 85, w % 85, ?_, ?_, ?_,
    ?_, ?_, ?_, rfl⟩ <;> omega

theorem word32_lt (a b c d : UInt8) : word32 a b c d < 4294967296 := by
  have := a.toNat_lt; have := b.toNat_lt; have := c.toNat_lt; have := d.toNat_lt
  unfold word32; omega

theorem word32_bytes (a b c d : UInt8) :
    UInt8.ofNat (word32 a b c d / 16777216 % 256) = a ∧ UInt8.ofNat (word32 a b c d / 65536 % 256) = b ∧
    UInt8.ofNat (word32 a b c d / 256 % 256) = c ∧ UInt8.ofNat (word32 a b c d % 256) = d := by
  have := a.toNat_lt; have := b.toNat_lt; have := c.toNat_lt; have := d.toNat_lt
  unfold word32
  refine ⟨?_, ?_, ?_, ?_⟩
  · rw [show (((a.toNat * 256 + b.toNat) * 256 + c.toNat) * 256 + d.toNat) / 16777216 % 256 = a.toNat by omega]
    simp
  · rw [show (((a.toNat * 256 + b.toNat) * 256 + c.toNat) * 256 + d.toNat) / 65536 % 256 = b.toNat by omega]
    simp
  · rw [show (((a.toNat * 256 + b.toNat) * 256 + c.toNat) * 256 + d.toNat) / 256 % 256 = c.toNat by omega]
    simp
  · rw [show (((a.toNat * 256 + b.toNat) * 256 + c.toNat) * 256 + d.toNat) % 256 = d.toNat by omega]
    simp

theorem a85Loop_full (a b c d : UInt8) (rest : Bytes) :
    a85Loop [] (a85Group a b c d ++ rest) =
      (a85Loop [] rest).map (fun (x, y) => ([a, b, c, d] ++ x, y)) := by
  unfold a85Group
  have hb := word32_bytes a b c d
  split
  · rename_i h0
    rw [h0] at hb
    obtain ⟨rfl, rfl, rfl, rfl⟩ := hb
    simp [a85Loop]
  · obtain ⟨q0, q1, q2, q3, q4, h0, h1, h2, h3, h4, e, ed⟩ := a85Digits_eq _ (word32_lt a b c d)
    rw [ed]
    have := a85Loop_group h0 h1 h2 h3 h4 rest (by rw [← e]; exact word32_lt a b c d)
    simp only [List.cons_append, List.nil_append]
    rw [this, ← e, hb.1, hb.2.1, hb.2.2.1, hb.2.2.2]
    rfl

theorem u117 : (117 : UInt8) = UInt8.ofNat (33 + 84) := rfl

theorem a85Loop_u1 : a85Loop [] [117] = some ([], [117]) := by decide
theorem a85Loop_u2 : a85Loop [] [117, 117] = some ([], [117, 117]) := by decide
theorem a85Loop_u3 : a85Loop [] [117, 117, 117] = some ([], [117, 117, 117]) := by decide
theorem a85Loop_u4 : a85Loop [] [117, 117, 117, 117] = some ([], [117, 117, 117, 117]) := by decide

/-- The padded loop. -/
theorem a85Loop_body : ∀ s : Bytes, ∃ r curr, a85Loop [] (a85Body s ++ List.replicate 4 117) = some (r, curr) ∧
    curr.length ≤ 4 ∧ 4 - curr.length ≤ r.length ∧
    r.take (r.length - (4 - curr.length)) = s
  | [] => ⟨[], List.replicate 4 117, by decide, by decide, by decide, rfl⟩
  | [a] => by
    have ha := a.toNat_lt
    obtain ⟨q0, q1, q2, q3, q4, h0, h1, h2, h3, h4, e, ed⟩ := a85Digits_eq _ (word32_lt a 0 0 0)
    have e' : word32 a 0 0 0 = a.toNat * 16777216 := by unfold word32; simp; omega
    rw [e'] at e
    have key := a85Loop_group h0 h1 (q2 := 84) (q3 := 84) (q4 := 84) (by decide) (by decide) (by decide)
        [117] (by omega)
    rw [← u117, a85Loop_u1, Option.map_some] at key
    refine ⟨_, [117], (?_ : _ = _).trans key, by simp, by simp, ?_⟩
    · rw [a85Body, ed]
      rfl
    · simp
      rw [show (((q0 * 85 + q1) * 85 + 84) * 85 + 84) * 85 + 84 = q0 * 52200625 + q1 * 614125 + 614124 by omega]
      rw [show (q0 * 52200625 + q1 * 614125 + 614124) / 16777216 = a.toNat by omega]
      simp
  | [a, b] => by
    have ha := a.toNat_lt
    have hb := b.toNat_lt
    obtain ⟨q0, q1, q2, q3, q4, h0, h1, h2, h3, h4, e, ed⟩ := a85Digits_eq _ (word32_lt a b 0 0)
    have e' : word32 a b 0 0 = a.toNat * 16777216 + b.toNat * 65536 := by unfold word32; simp; omega
    rw [e'] at e
    have key := a85Loop_group h0 h1 h2 (q3 := 84) (q4 := 84) (by decide) (by decide)
        [117, 117] (by omega)
    rw [← u117, a85Loop_u2, Option.map_some] at key
    refine ⟨_, [117, 117], (?_ : _ = _).trans key, by simp, by simp, ?_⟩
    · rw [a85Body, ed]
      rfl
    · simp
      constructor
      · rw [show ((((q0 * 85 + q1) * 85 + q2) * 85 + 84) * 85 + 84) / 16777216 = a.toNat by omega]
        simp
      · rw [show ((((q0 * 85 + q1) * 85 + q2) * 85 + 84) * 85 + 84) / 65536 = a.toNat * 256 + b.toNat by omega]
        apply UInt8.toNat_inj.1
        simp
  | [a, b, c] => by
    have ha := a.toNat_lt
    have hb := b.toNat_lt
    have hc := c.toNat_lt
    obtain ⟨q0, q1, q2, q3, q4, h0, h1, h2, h3, h4, e, ed⟩ := a85Digits_eq _ (word32_lt a b c 0)
    have e' : word32 a b c 0 = a.toNat * 16777216 + b.toNat * 65536 + c.toNat * 256 := by
      unfold word32; simp; omega
    rw [e'] at e
    have key := a85Loop_group h0 h1 h2 h3 (q4 := 84) (by decide)
        [117, 117, 117] (by omega)
    rw [← u117, a85Loop_u3, Option.map_some] at key
    refine ⟨_, [117, 117, 117], (?_ : _ = _).trans key, by simp, by simp, ?_⟩
    · rw [a85Body, ed]
      rfl
    · simp
      refine ⟨?_, ?_, ?_⟩
      · rw [show ((((q0 * 85 + q1) * 85 + q2) * 85 + q3) * 85 + 84) / 16777216 = a.toNat by omega]
        simp
      · rw [show ((((q0 * 85 + q1) * 85 + q2) * 85 + q3) * 85 + 84) / 65536 = a.toNat * 256 + b.toNat by omega]
        apply UInt8.toNat_inj.1
        simp
      · rw [show ((((q0 * 85 + q1) * 85 + q2) * 85 + q3) * 85 + 84) / 256 =
          a.toNat * 65536 + b.toNat * 256 + c.toNat by omega]
        apply UInt8.toNat_inj.1
        simp
        omega
  | a :: b :: c :: d :: rest => by
    obtain ⟨r, curr, h1, h2, h3, h4⟩ := a85Loop_body rest
    refine ⟨[a, b, c, d] ++ r, curr, ?_, h2, by simp; omega, ?_⟩
    · rw [a85Body, List.append_assoc, a85Loop_full, h1]
      rfl
    · rw [show ([a, b, c, d] ++ r).length - (4 - curr.length) =
        (r.length - (4 - curr.length)) + 1 + 1 + 1 + 1 by simp; omega]
      simp [h4]

theorem a85decode_a85encode (s : Bytes) : a85decode (a85encode s) = some s := by
  obtain ⟨r, curr, h1, h2, h3, h4⟩ := a85Loop_body s
  have e1 : lastN (a85encode s) 2 = b!"~>" := by
    unfold lastN a85encode
    simp
  have e2 : startsWith b!"<~" (a85encode s) = true := by
    simp [a85encode, startsWith, List.isPrefixOf]
  have e3 : sliceNeg (a85encode s) 2 2 = a85Body s := by
    unfold sliceNeg a85encode
    rw [show (b!"<~" ++ a85Body s ++ b!"~>").length - 2 = (b!"<~" ++ a85Body s).length by simp]
    rw [List.take_left' rfl]
    simp
  unfold a85decode
  rw [if_pos e1, e2]
  simp only [if_true, e3, h1]
  split
  · rename_i hp
    rw [hp] at h4
    simp at h4
    rw [h4]
  · rw [h4]

/-- One row of the predictor. -/
theorem upRow_sub : ∀ (row prev : Bytes), row.length = prev.length →
    upRow prev (List.zipWith (fun v p => v - p) row prev) = row
  | [], [], _ => rfl
  | v :: row, p :: prev, h => by
    simp only [upRow, List.zipWith_cons_cons] at *
    have := upRow_sub row prev (by simpa using h)
    simp only [upRow] at this
    rw [this]
    congr 1
    exact UInt8.sub_add_cancel v p
  | [], _ :: _, h => by simp at h
  | _ :: _, [], h => by simp at h

theorem Dict.get?_set (d : Dict) (k k' : Bytes) (v : Obj) :
    Dict.get? (Dict.set d k v) k' = if k' = k then some v else Dict.get? d k' := by
  induction d with
  | nil =>
    simp only [Dict.set, Dict.get?, List.lookup]
    by_cases h : k' = k
    · simp [h]
    · have : (k' == k) = false := by simpa using h
      simp [h, this]
  | cons p d ih =>
    obtain ⟨k0, v0⟩ := p
    simp only [Dict.set, Dict.get?] at ih ⊢
    by_cases h0 : k0 = k
    · subst h0
      by_cases h : k' = k0
      · simp [h]
      · have : (k' == k0) = false := by simpa using h
        simp [List.lookup, this, h]
    · rw [if_neg h0]
      by_cases h : k' = k0
      · subst h; simp [List.lookup, h0]
      · have : (k' == k0) = false := by simpa using h
        simp [List.lookup, this, ih]

end Pdf
