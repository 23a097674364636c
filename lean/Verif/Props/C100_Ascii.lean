/-
C100: data in ASCII, written by any program.
-/
import Verif.Props.C09_Filters
import Verif.Spec.AsciiText

namespace Pdf
open Spec

theorem hexDigit_val {c : UInt8} {v : Nat} (h : HexDigit c v) : hexVal c = some v := by
  unfold hexVal
  rcases h with ⟨h1, h2, h3⟩ | ⟨h1, h2, h3⟩ | ⟨h1, h2, h3⟩
  · rw [if_pos ⟨h1, h2⟩, h3]
    simp
  · have : ¬ (48 ≤ c ∧ c ≤ 57) := by
      rintro ⟨-, h⟩
      have := UInt8.le_iff_toNat_le.1 h
      have := UInt8.le_iff_toNat_le.1 h1
      simp at *
      omega
    rw [if_neg this, if_pos ⟨h1, h2⟩]
    simp
    omega
  · have k := UInt8.le_iff_toNat_le.1 h1
    have a : ¬ (48 ≤ c ∧ c ≤ 57) := by
      rintro ⟨-, h⟩
      have := UInt8.le_iff_toNat_le.1 h
      simp at *
      omega
    have b : ¬ (65 ≤ c ∧ c ≤ 70) := by
      rintro ⟨-, h⟩
      have := UInt8.le_iff_toNat_le.1 h
      simp at *
      omega
    rw [if_neg a, if_neg b, if_pos ⟨h1, h2⟩]
    simp
    omega

theorem unhexlify_text {x s : Bytes} (h : HexText x s) : unhexlify s = some x := by
  induction h with
  | nil => rfl
  | byte h1 h2 h3 _ ih =>
    unfold unhexlify
    rw [hexDigit_val h1, hexDigit_val h2, ih]
    simp only [Option.map_some, ← h3, UInt8.ofNat_toNat]

theorem unhexlify_none : ∀ {s : Bytes} {c : UInt8}, c ∈ s → hexVal c = none → unhexlify s = none
  | [], _, h, _ => by simp at h
  | [_], _, _, _ => rfl
  | a :: b :: s, c, h, hc => by
    unfold unhexlify
    rcases List.mem_cons.1 h with rfl | h
    · rw [hc]
    rcases List.mem_cons.1 h with rfl | h
    · rw [hc]
      cases hexVal a <;> rfl
    · rw [unhexlify_none h hc]
      cases hexVal a <;> cases hexVal b <;> rfl

/-! ### ASCII85 -/

theorem a85Loop_spaced : ∀ (t curr : Bytes), a85Loop curr t = a85Loop curr (t.filter (fun c => c ∉ ([9, 10, 13, 32] : Bytes)))
  | [], _ => rfl
  | c :: t, curr => by
    by_cases h : c ∈ ([9, 10, 13, 32] : Bytes)
    · rw [List.filter_cons_of_neg (by simp only [h, not_true_eq_false, decide_false]; decide), ← a85Loop_spaced t]
      conv => lhs; unfold a85Loop
      simp only [List.mem_cons, List.not_mem_nil, or_false] at h
      rcases h with rfl | rfl | rfl | rfl <;> simp +decide
    · rw [List.filter_cons_of_pos (by simpa using h)]
      conv => lhs; unfold a85Loop
      conv => rhs; unfold a85Loop
      simp only [← a85Loop_spaced t]

theorem list5 {α : Type} {q : List α} (h : q.length = 5) : ∃ a b c d e, q = [a, b, c, d, e] := by
  match q, h with
  | [a, b, c, d, e], _ => exact ⟨a, b, c, d, e, rfl⟩

theorem list4 {α : Type} {q : List α} (h : q.length = 4) : ∃ a b c d, q = [a, b, c, d] := by
  match q, h with
  | [a, b, c, d], _ => exact ⟨a, b, c, d, rfl⟩

/-- The digits of a word are those that are written for it. -/
theorem digits_unique {w q0 q1 q2 q3 q4 : Nat} (h1 : q1 < 85) (h2 : q2 < 85) (h3 : q3 < 85) (h4 : q4 < 85)
    (e : w = (((q0 * 85 + q1) * 85 + q2) * 85 + q3) * 85 + q4) : a85Digits w =
      [UInt8.ofNat (33 + q0), UInt8.ofNat (33 + q1), UInt8.ofNat (33 + q2), UInt8.ofNat (33 + q3), UInt8.ofNat (33 + q4)] := by
  unfold a85Digits
  rw [show w / 614125 / 85 = q0 by omega, show w / 614125 % 85 = q1 by omega, show w / 85 % 7225 / 85 = q2 by omega,
    show w / 85 % 7225 % 85 = q3 by omega, show w % 85 = q4 by omega]

theorem digits_chars {g : Bytes} {q : List Nat} {a b c d : UInt8} (hg : g = [a, b, c, d]) (hq : q.length = 5) (hd : ∀ d ∈ q, d < 85)
    (e : value85 q = value256 g) : chars85 q = a85Digits (word32 a b c d) := by
  obtain ⟨q0, q1, q2, q3, q4, rfl⟩ := list5 hq
  subst hg
  rw [digits_unique (hd q1 (by simp)) (hd q2 (by simp)) (hd q3 (by simp)) (hd q4 (by simp)) ?_]
  · rfl
  · simp only [value85, value256, List.foldl_cons, List.foldl_nil] at e
    unfold word32
    omega

/-- The loop on a text, completed. -/
theorem a85Loop_text {x s : Bytes} (h : A85Text x s) : ∃ r curr, a85Loop [] (s ++ List.replicate 4 117) = some (r, curr) ∧
    curr.length ≤ 4 ∧ 4 - curr.length ≤ r.length ∧ r.take (r.length - (4 - curr.length)) = x := by
  induction h with
  | nil => exact a85Loop_body []
  | @zero x t _ ih =>
    obtain ⟨r, curr, h1, h2, h3, h4⟩ := ih
    refine ⟨[0, 0, 0, 0] ++ r, curr, ?_, h2, by simp; omega, ?_⟩
    · rw [List.cons_append]
      conv => lhs; unfold a85Loop
      rw [h1]
      rfl
    · rw [show (([0, 0, 0, 0] : Bytes) ++ r).length - (4 - curr.length) = (r.length - (4 - curr.length)) + 1 + 1 + 1 + 1 by simp; omega]
      simp [h4]
  | @full g x t q hg hq hd e _ ih =>
    obtain ⟨r, curr, h1, h2, h3, h4⟩ := ih
    obtain ⟨a, b, c, d, rfl⟩ := list4 hg
    have hc := digits_chars rfl hq hd e
    refine ⟨[a, b, c, d] ++ r, curr, ?_, h2, by simp; omega, ?_⟩
    · rw [List.append_assoc, hc]
      obtain ⟨q0, q1, q2, q3, q4, h0, h1', h2', h3', h4', e, ed⟩ := a85Digits_eq _ (word32_lt a b c d)
      have hb := word32_bytes a b c d
      have := a85Loop_group h0 h1' h2' h3' h4' (t ++ List.replicate 4 117) (by rw [← e]; exact word32_lt a b c d)
      rw [ed]
      simp only [List.cons_append, List.nil_append] at this ⊢
      rw [this, ← e, hb.1, hb.2.1, hb.2.2.1, hb.2.2.2, h1]
      rfl
    · rw [show ([a, b, c, d] ++ r).length - (4 - curr.length) = (r.length - (4 - curr.length)) + 1 + 1 + 1 + 1 by simp; omega]
      simp [h4]
  | @last g q l1 l2 hq hd e =>
    have : chars85 (q.take (g.length + 1)) = a85Body g := by
      have ht : chars85 (q.take (g.length + 1)) = (chars85 q).take (g.length + 1) := by simp [chars85, List.map_take]
      rw [ht]
      match g, l1, l2 with
      | [a], _, _ => rw [digits_chars (g := [a] ++ List.replicate 3 0) rfl hq hd e]; rfl
      | [a, b], _, _ => rw [digits_chars (g := [a, b] ++ List.replicate 2 0) rfl hq hd e]; rfl
      | [a, b, c], _, _ => rw [digits_chars (g := [a, b, c] ++ List.replicate 1 0) rfl hq hd e]; rfl
    rw [this]
    exact a85Loop_body g

/-- The characters of a text. -/
theorem a85Text_chars {x s : Bytes} (h : A85Text x s) : (∀ c ∈ s, (33 ≤ c ∧ c ≤ 117) ∨ c = 122) ∧ s ≠ [60] := by
  have hch : ∀ q : List Nat, (∀ d ∈ q, d < 85) → ∀ c ∈ chars85 q, 33 ≤ c ∧ c ≤ 117 := by
    intro q hq c hc
    obtain ⟨d, hd, rfl⟩ := List.mem_map.1 hc
    have := digit85 (hq d hd)
    exact ⟨this.1, this.2.1⟩
  induction h with
  | nil => exact ⟨by simp, by simp⟩
  | zero _ ih =>
    refine ⟨?_, by simp⟩
    intro c hc
    rcases List.mem_cons.1 hc with rfl | hc
    · exact .inr rfl
    · exact ih.1 c hc
  | @full g x t q hg hq hd e _ ih =>
    refine ⟨?_, ?_⟩
    · intro c hc
      rcases List.mem_append.1 hc with hc | hc
      · exact .inl (hch q hd c hc)
      · exact ih.1 c hc
    · intro h
      have := congrArg List.length h
      simp [chars85, hq] at this
      omega
  | @last g q l1 l2 hq hd e =>
    refine ⟨fun c hc => .inl (hch _ (fun d hd' => hd d (List.mem_of_mem_take hd')) c hc), ?_⟩
    intro h
    have := congrArg List.length h
    simp [chars85, hq] at this
    omega

theorem a85decode_text {x s t p : Bytes} (h : A85Text x s) (ht : Spaced s t) (hp : p = [] ∨ p = b!"<~") :
    a85decode (p ++ (t ++ b!"~>")) = some x := by
  obtain ⟨hc, hne⟩ := a85Text_chars h
  have hno : ∀ c ∈ t, c ≠ 126 := by
    rintro c hc' rfl
    have : (126 : UInt8) ∈ s := by
      rw [← ht]
      exact List.mem_filter.2 ⟨hc', by decide⟩
    rcases hc _ this with h | h <;> revert h <;> decide
  have e1 : lastN (p ++ (t ++ b!"~>")) 2 = b!"~>" := by
    unfold lastN
    rw [← List.append_assoc, show (p ++ t ++ b!"~>").length - 2 = (p ++ t).length by simp only [List.length_append, List.length_cons, List.length_nil]; omega]
    simp
  have hloop : a85Loop [] (t ++ List.replicate 4 117) = a85Loop [] (s ++ List.replicate 4 117) := by
    rw [a85Loop_spaced, List.filter_append, ht]
    rfl
  obtain ⟨r, curr, h1, h2, h3, h4⟩ := a85Loop_text h
  have key : (if startsWith b!"<~" (p ++ (t ++ b!"~>")) then sliceNeg (p ++ (t ++ b!"~>")) 2 2 else sliceNeg (p ++ (t ++ b!"~>")) 0 2) = t := by
    rcases hp with rfl | rfl
    · have : startsWith b!"<~" ([] ++ (t ++ b!"~>")) = false := by
        match t, ht, hno with
        | [], _, _ => rfl
        | [a], ht, hno =>
          by_cases ha : a = 60
          · subst ha
            exact absurd ht.symm hne
          · simp only [startsWith, List.nil_append, List.cons_append, List.isPrefixOf, Bool.and_eq_false_iff, beq_eq_false_iff_ne]
            exact .inl (Ne.symm ha)
        | a :: b :: t, _, hno =>
          simp only [startsWith, List.nil_append, List.cons_append, List.isPrefixOf, Bool.and_eq_false_iff, beq_eq_false_iff_ne, Bool.and_true]
          exact .inr (Ne.symm (hno b (by simp)))
      rw [this]
      unfold sliceNeg
      simp
    · have : startsWith b!"<~" (b!"<~" ++ (t ++ b!"~>")) = true := by simp [startsWith, List.isPrefixOf]
      rw [this]
      unfold sliceNeg
      rw [if_pos rfl, ← List.append_assoc, show (b!"<~" ++ t ++ b!"~>").length - 2 = (b!"<~" ++ t).length by simp, List.take_left' rfl]
      simp
  unfold a85decode
  rw [if_pos e1]
  simp only [key, hloop, h1]
  split
  · rename_i hp
    rw [hp] at h4
    simp at h4
    rw [h4]
  · rw [h4]

/-- A stream with one filter of ASCII data. -/
theorem decode_one [Zlib] {d : Dict} {f s : Bytes} (hf : f = b!"/ASCIIHexDecode" ∨ f = b!"/ASCII85Decode") (hd : Filtered d f) :
    decodeStream s d = .ok (if f = b!"/ASCIIHexDecode" then (unhexlify s).getD errHex else (a85decode s).getD err85) := by
  obtain ⟨h1, h2⟩ := hd
  have key : ∀ parms, decodeLoop s parms 0 [.str f] none =
      .ok (if f = b!"/ASCIIHexDecode" then (unhexlify s).getD errHex else (a85decode s).getD err85) := by
    intro parms
    rcases hf with rfl | rfl
    · simp only [decodeLoop]
      cases unhexlify s <;> simp
    · simp only [decodeLoop]
      cases a85decode s <;> simp
  have hs : strSplit f = [f] := by rcases hf with rfl | rfl <;> decide
  unfold decodeStream
  rcases h1 with h1 | h1 <;> rw [h1] <;> rcases h2 with h2 | ⟨p, h2, -⟩ | ⟨p, h2, -⟩ <;> rw [h2] <;> simp only [hs, List.map_cons, List.map_nil] <;> exact key _

/-- **C100, ASCII85.** Data in ASCII85, whatever program wrote it, is decoded: with or without the first mark, with white
space anywhere before the end mark, with zeros written in full or as `z`, and with a last group of any length.

Missing from the full claim: the white space that is not a blank, a tabulation or an end of line, and what follows the
end mark (`C100_a85_counterexample`). -/
theorem C100_a85_partial [Zlib] (d : Dict) (x s t p : Bytes) (hd : Filtered d b!"/ASCII85Decode") (hs : A85Text x s) (ht : Spaced s t)
    (hp : p = [] ∨ p = b!"<~") : decodeStream (p ++ (t ++ b!"~>")) d = .ok x := by
  rw [decode_one (.inr rfl) hd, if_neg (by decide), a85decode_text hs ht hp]
  rfl

/-- A text with two lines, a group of zeros in full, another one as `z`, and three bytes. -/
example : A85Text ([0, 0, 0, 0] ++ ([0, 0, 0, 0] ++ [104, 105, 33])) b!"!!!!!zBPAU" ∧ Spaced b!"!!!!!zBPAU" b!"!!!!!\r\n z BP\n\tAU " :=
  ⟨.full (q := [0, 0, 0, 0, 0]) rfl rfl (by decide) rfl (.zero (.last (q := [33, 47, 32, 52, 72]) (by decide) (by decide) rfl (by decide) (by decide))),
    by unfold Spaced; decide⟩

/-- The other white space of ISO 32000, and what follows the end mark, make the data unreadable. -/
theorem C100_a85_counterexample [Zlib] : let d : Dict := [(b!"/Filter", .str b!"/ASCII85Decode")]
    decodeStream b!"BPAU~>" d = .ok b!"hi!" ∧ decodeStream b!"BP\x0cAU~>" d = .ok b!"#PDFSyntaxException: cannot decode ASCII85" ∧
    decodeStream b!"BP\x00AU~>" d = .ok b!"#PDFSyntaxException: cannot decode ASCII85" ∧
    decodeStream b!"BPAU~>\n" d = .ok b!"#PDFSyntaxException: cannot decode ASCII85" ∧
    decodeStream b!"BPAU~\n>" d = .ok b!"#PDFSyntaxException: cannot decode ASCII85" := by
  exact ⟨rfl, rfl, rfl, rfl, rfl⟩

/-- **C100, hexadecimal.** Data in hexadecimal without white space and without end mark is decoded, whatever the case of its digits.

Missing from the full claim: white space and the end mark, which ISO 32000 requires (`C100_hex_counterexample`). -/
theorem C100_hex_partial [Zlib] (d : Dict) (x s : Bytes) (hd : Filtered d b!"/ASCIIHexDecode") (hs : HexText x s) :
    decodeStream s d = .ok x := by
  rw [decode_one (.inl rfl) hd, if_pos rfl, unhexlify_text hs]
  rfl

example : HexText [10, 255, 171] b!"0AffAb" :=
  .byte (v := 0) (v' := 10) (.inl (by decide)) (.inr (.inl (by decide))) rfl (.byte (v := 15) (v' := 15) (.inr (.inr (by decide))) (.inr (.inr (by decide))) rfl
    (.byte (v := 10) (v' := 11) (.inr (.inl (by decide))) (.inr (.inr (by decide))) rfl .nil))

/-- No data in hexadecimal that follows ISO 32000 is decoded: it ends with the mark `>`, and this mark, like white space, makes
the data unreadable. -/
theorem C100_hex_counterexample [Zlib] (d : Dict) (s : Bytes) (hd : Filtered d b!"/ASCIIHexDecode")
    (hc : ∃ c ∈ s, c = 62 ∨ c = 32 ∨ c = 9 ∨ c = 10 ∨ c = 13) :
    decodeStream s d = .ok b!"#PDFSyntaxException: cannot decode ASCIIHex" := by
  obtain ⟨c, hc, hv⟩ := hc
  rw [decode_one (.inl rfl) hd, if_pos rfl, unhexlify_none hc (by rcases hv with rfl | rfl | rfl | rfl | rfl <;> rfl)]
  rfl

example : ∃ c ∈ b!"0AFF>", c = 62 ∨ c = 32 ∨ c = 9 ∨ c = 10 ∨ c = 13 := by decide

end Pdf
