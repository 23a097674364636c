/-
Lemmas on the decoding of shown strings.
-/
import Verif.Model.CMap
import Verif.Spec.CMap
import Verif.Lemmas.Text
import Verif.Lemmas.Xref

namespace Pdf

open Spec

theorem beValue_eq (s : Bytes) : fromBytesBig s = beValue s := by
  have key : ∀ (s : Bytes) (a : Nat), s.foldl (fun acc c => acc * 256 + c.toNat) a = a * 256 ^ s.length + beValue s := by
    intro s
    induction s with
    | nil => intro a; simp [beValue]
    | cons c s ih =>
      intro a
      rw [List.foldl_cons, ih, beValue, List.length_cons, Nat.pow_succ]
      rw [Nat.add_mul, Nat.mul_assoc, Nat.mul_comm 256, Nat.add_assoc]
  have := key s 0
  rw [Nat.zero_mul, Nat.zero_add] at this
  exact this

theorem hexVal_digit {c : UInt8} {n : Nat} (h : HexDigitOf c n) : hexVal c = some n := by
  obtain ⟨_, h1, _, h2, _⟩ := hexDigitOf_spec h
  simp only [hexChar, h1, if_true] at h2
  simpa using h2

theorem hexForm_length {h s : Bytes} (hh : Hex h s) : 2 * s.length ≤ h.length := by
  induction hh with
  | nil => simp
  | space _ _ _ ih => simp only [List.length_cons]; omega
  | byte _ _ _ _ _ _ ih => simp only [List.length_cons]; omega

/-- Digits of a form without white space. -/
theorem tight_digits {h s : Bytes} (hh : Hex h s) (hl : h.length = 2 * s.length) :
    ∃ ds, h.mapM hexVal = some ds ∧ ∀ a, ds.foldl (fun acc d => acc * 16 + d) a = a * 256 ^ s.length + beValue s := by
  induction hh with
  | nil => exact ⟨[], rfl, by simp [beValue]⟩
  | space c _ hh ih =>
    have := hexForm_length hh
    simp only [List.length_cons] at hl
    omega
  | byte c d b hc hd hh ih =>
    rename_i h s
    obtain ⟨ds, h1, h2⟩ := ih (by simp only [List.length_cons] at hl; omega)
    refine ⟨b.toNat / 16 :: b.toNat % 16 :: ds, ?_, ?_⟩
    · rw [List.mapM_cons, List.mapM_cons, hexVal_digit hc, hexVal_digit hd, h1]; rfl
    · intro a
      rw [List.foldl_cons, List.foldl_cons, h2, beValue, List.length_cons, Nat.pow_succ]
      have : (a * 16 + b.toNat / 16) * 16 + b.toNat % 16 = a * 256 + b.toNat := by omega
      rw [this, Nat.add_mul, Nat.mul_assoc, Nat.mul_comm 256, Nat.add_assoc]

theorem intHex_tight {h s : Bytes} (hh : Hex h s) (hl : h.length = 2 * s.length) (hs : s ≠ []) :
    intHex h = .ok (beValue s) := by
  obtain ⟨ds, h1, h2⟩ := tight_digits hh hl
  have hne : h ≠ [] := by
    intro e; subst e
    cases s with
    | nil => exact hs rfl
    | cons c s => simp at hl
  simp [intHex, hne, h1, h2]

theorem strBody_delim (a b : UInt8) (h : Bytes) : strBody (.bytes ([a] ++ h ++ [b])) = .ok h := by
  simp [strBody, sliceNeg]

theorem codeOf_hexObj {s : Bytes} {o : Obj} (ho : HexObj s o) (hs : s ≠ []) : codeOf o = .ok (beValue s) := by
  obtain ⟨h, rfl, h1, h2⟩ := ho
  simp only [codeOf]
  rw [strBody_delim]
  exact intHex_tight h1 h2 hs

theorem codeOf_codeObj {w n : Nat} {o : Obj} (hw : 0 < w) (ho : CodeObj w n o) : codeOf o = .ok n := by
  obtain ⟨s, h1, h2, h3⟩ := ho
  rw [codeOf_hexObj h3, h2]
  rintro rfl
  simp at h1; omega

theorem targetText_textObj {t : List Nat} {o : Obj} (ho : TextObj t o) : targetText o = .ok t := by
  obtain ⟨ht, h, rfl, hh⟩ := ho
  simp only [targetText]
  rw [strBody_delim]
  show (decodeAscii h >>= fun t => _) = _
  rw [decodeAscii_eq (fun c hc => (hexForm_chars hh c hc).1)]
  show (orRaise .valueError (fromHex (h.map UInt8.toNat)) >>= fun b => _) = _
  rw [fromHex_hex hh]
  show orRaise .unicodeError (decodeUtf16be (utf16 t)) = _
  rw [decodeUtf16be_utf16 t ht]
  rfl

theorem hex_append {h s h' s' : Bytes} (hh : Hex h s) (hh' : Hex h' s') : Hex (h ++ h') (s ++ s') := by
  induction hh with
  | nil => exact hh'
  | space c hc _ ih => exact .space c hc ih
  | byte c d b hc hd _ ih => exact .byte c d b hc hd ih

theorem hexDig_digit : ∀ n, n < 16 → HexDigitOf (UInt8.ofNat (hexDig n)) n ∧ (UInt8.ofNat (hexDig n)).toNat = hexDig n := by
  unfold HexDigitOf
  decide +kernel

theorem hexLow_hex (m x : Nat) : ∃ h, Hex h (beBytes m x) ∧ h.map UInt8.toNat = cmapHexLow (2 * m) x := by
  induction m generalizing x with
  | zero => exact ⟨[], .nil, rfl⟩
  | succ m ih =>
    obtain ⟨h, h1, h2⟩ := ih (x / 256)
    have d1 := hexDig_digit (x / 16 % 16) (by omega)
    have d2 := hexDig_digit (x % 16) (by omega)
    have hb : (UInt8.ofNat (x % 256)).toNat = x % 256 := by simp
    refine ⟨h ++ [UInt8.ofNat (hexDig (x / 16 % 16)), UInt8.ofNat (hexDig (x % 16))], ?_, ?_⟩
    · rw [beBytes]
      refine hex_append h1 (.byte _ _ _ ?_ ?_ .nil)
      · rw [hb, show x % 256 / 16 = x / 16 % 16 by omega]; exact d1.1
      · rw [hb, show x % 256 % 16 = x % 16 by omega]; exact d2.1
    · rw [show 2 * (m + 1) = (2 * m + 1) + 1 by omega, cmapHexLow, cmapHexLow, List.map_append, h2]
      simp only [List.map_cons, List.map_nil, d1.2, d2.2, List.append_assoc, List.singleton_append]
      rw [show x / 16 / 16 = x / 256 by omega]

theorem fromHex_hexLow (m x : Nat) : fromHex (cmapHexLow (2 * m) x) = some (beBytes m x) := by
  obtain ⟨h, h1, h2⟩ := hexLow_hex m x
  rw [← h2]
  exact fromHex_hex h1

/-- Formatting on two bytes. -/
theorem format_two {v x : Nat} (hx : x < 0x10000) (hv : v = 4 ∨ v = 2 ∧ 0x1000 ≤ x) :
    fromHex (formatHex v x) = some (beBytes 2 x) := by
  have h1 : x.log2 < 16 := by
    by_cases h0 : x = 0
    · subst h0; decide
    · exact (Nat.log2_lt h0).2 hx
  have h2 : max v (x.log2 / 4 + 1) = 2 * 2 := by
    rcases hv with rfl | ⟨rfl, h⟩
    · omega
    · have : 12 ≤ x.log2 := (Nat.le_log2 (by omega)).2 h
      omega
  rw [formatHex, h2, fromHex_hexLow]

/-- Formatting on four bytes. -/
theorem format_four {v x : Nat} (hx : x < 0x100000000) (hx' : 0x10000000 ≤ x) (hv : v = 4 ∨ v = 2) :
    fromHex (formatHex v x) = some (beBytes 4 x) := by
  have h1 : x.log2 < 32 := (Nat.log2_lt (by omega)).2 hx
  have h3 : 28 ≤ x.log2 := (Nat.le_log2 (by omega)).2 hx'
  have h2 : max v (x.log2 / 4 + 1) = 2 * 4 := by rcases hv with rfl | rfl <;> omega
  rw [formatHex, h2, fromHex_hexLow]

theorem beBytes_two {n : Nat} (h : n < 0x10000) : beBytes 2 n = utf16Char n := by
  have : n / 256 % 256 = n / 256 := by omega
  simp [beBytes, utf16Char, h, this]

theorem utf16Char_value {n : Nat} (h : n < 0x10000) : beValue (utf16Char n) = n := by
  simp [utf16Char, h, beValue]
  omega

theorem utf16Char_value_high {n : Nat} (h : 0x10000 ≤ n) (h' : n < 0x110000) :
    beValue (utf16Char n) = (0xD800 + (n - 0x10000) / 0x400) * 65536 + (0xDC00 + (n - 0x10000) % 0x400) := by
  have hn : ¬ n < 0x10000 := by omega
  simp only [utf16Char, hn, if_false, beValue, List.length_cons, List.length_nil, UInt8.toNat_ofNat']
  omega

theorem beBytes_four {n : Nat} (h : 0x10000 ≤ n) (h' : n < 0x110000) :
    beBytes 4 ((0xD800 + (n - 0x10000) / 0x400) * 65536 + (0xDC00 + (n - 0x10000) % 0x400)) = utf16Char n := by
  have hn : ¬ n < 0x10000 := by omega
  have key : ∀ hi lo : Nat, hi < 65536 → lo < 65536 →
      beBytes 4 (hi * 65536 + lo)
        = [UInt8.ofNat (hi / 256), UInt8.ofNat (hi % 256), UInt8.ofNat (lo / 256), UInt8.ofNat (lo % 256)] := by
    intro hi lo h1 h2
    have e1 : (hi * 65536 + lo) / 256 / 256 / 256 % 256 = hi / 256 := by omega
    have e2 : (hi * 65536 + lo) / 256 / 256 % 256 = hi % 256 := by omega
    have e3 : (hi * 65536 + lo) / 256 % 256 = lo / 256 := by omega
    have e4 : (hi * 65536 + lo) % 256 = lo % 256 := by omega
    simp only [beBytes, e1, e2, e3, e4, List.nil_append, List.cons_append]
  rw [key _ _ (by omega) (by omega)]
  simp only [utf16Char, hn, if_false]

theorem rangeTarget_hexObj {w f k : Nat} {o : Obj} (hk : Consecutive f k)
    (hw : w = 2 ∨ 0x1000 ≤ f) (ho : HexObj (utf16Char f) o) : rangeTarget w o k = .ok [f + k] := by
  have hne : utf16Char f ≠ [] := by unfold utf16Char; split <;> simp
  have hc := codeOf_hexObj ho hne
  obtain ⟨h, rfl, _, _⟩ := ho
  simp only [rangeTarget, hc]
  show (orRaise .valueError (fromHex (formatHex (if w = 2 then 4 else 2) (beValue (utf16Char f) + k))) >>= fun b => _) = _
  have hfin : fromHex (formatHex (if w = 2 then 4 else 2) (beValue (utf16Char f) + k)) = some (utf16Char (f + k)) := by
    by_cases h16 : f < 0x10000
    · have hfk : f + k < 0x10000 := by
        rcases hk.2 with h | h
        · exact h
        · omega
      rw [utf16Char_value h16, ← beBytes_two hfk]
      apply format_two hfk
      rcases hw with rfl | hw
      · simp
      · by_cases w2 : w = 2
        · simp [w2]
        · right; simp only [w2, if_false, true_and]; omega
    · have hfk : f + k < 0x110000 := by rcases hk.1 with h | h <;> omega
      have hf2 : f < 0x110000 := by omega
      have hdiv : (f + k) / 0x400 = f / 0x400 := by rcases hk.2 with h | h <;> omega
      rw [← beBytes_four (n := f + k) (by omega) hfk, utf16Char_value_high (by omega) hf2]
      have he : (0xD800 + (f - 0x10000) / 0x400) * 65536 + (0xDC00 + (f - 0x10000) % 0x400) + k
          = (0xD800 + (f + k - 0x10000) / 0x400) * 65536 + (0xDC00 + (f + k - 0x10000) % 0x400) := by omega
      rw [he]
      apply format_four
      · omega
      · omega
      · by_cases w2 : w = 2 <;> simp [w2]
  rw [hfin]
  show orRaise .unicodeError (decodeUtf16be (utf16Char (f + k))) = _
  have := decodeUtf16be_utf16 [f + k] (by intro n hn; simp at hn; subst hn; exact hk.1)
  rw [show utf16 [f + k] = utf16Char (f + k) by simp [utf16]] at this
  rw [this]
  rfl

end Pdf
