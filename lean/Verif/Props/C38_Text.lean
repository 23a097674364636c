/-
C38 PDFDocEncoding, C39 escapes, C40 text strings, C41 glyph width tables.
-/
import Verif.Lemmas.Text

namespace Pdf

/-! ## C38 -/

/-- Every byte string is accepted and gives one character per byte. -/
theorem C38_total (s : Bytes) : ∃ t, decodePdfdoc s = .ok t ∧ t.length = s.length :=
  ⟨_, decodePdfdoc_eq s, by simp⟩

/-- Printable ASCII is decoded to itself. -/
theorem C38_ascii (s : Bytes) (h : ∀ c ∈ s, 0x20 ≤ c.toNat ∧ c.toNat ≤ 0x7e) :
    decodePdfdoc s = .ok (s.map UInt8.toNat) := by
  rw [decodePdfdoc_eq]
  congr 1
  apply List.map_congr_left
  intro c hc
  have := h c hc
  exact docChar_ascii c (by omega)

/-- Different byte strings never give the same text. -/
theorem C38_injective (s s' : Bytes) (h : decodePdfdoc s = decodePdfdoc s') : s = s' := by
  rw [decodePdfdoc_eq, decodePdfdoc_eq, Except.ok.injEq] at h
  exact (List.map_inj_right (fun _ _ => docChar_inj)).1 h

/-- Decoding is character by character. -/
theorem C38_append (s s' : Bytes) (t t' : Str) (h : decodePdfdoc s = .ok t) (h' : decodePdfdoc s' = .ok t') :
    decodePdfdoc (s ++ s') = .ok (t ++ t') := by
  rw [decodePdfdoc_eq, Except.ok.injEq] at h h'
  rw [decodePdfdoc_eq, List.map_append, h, h']

example : decodePdfdoc [72, 0xa0, 0x80] = .ok [72, 0x20ac, 0x2022] := by decide +kernel

/-! ## C39 -/

/-- Any way of writing `s` with plain bytes, named escapes, three-digit octal escapes and backslashes to
be ignored (before a byte that is neither a named escape, nor a digit, nor an end of line) unescapes to
`s`. -/
theorem C39_unescape_escapes (e s : Bytes) (h : Spec.Escapes e s) : unescapeLiteral e = .ok s :=
  unescape_escapes h

/-- In particular for the standard escaping, whatever the bytes chosen to be written in octal. -/
theorem C39_unescape_escape (oct : UInt8 → Bool) (s : Bytes) : unescapeLiteral (Spec.escape oct s) = .ok s :=
  unescape_escapes (escapes_escape oct s)

example : unescapeLiteral b!"\\A\\q" = .ok b!"Aq" :=
  C39_unescape_escapes _ _ (.ignored 65 (by simp [Spec.namedEscapes]) (by decide)
    (.ignored 113 (by simp [Spec.namedEscapes]) (by decide) .nil))

example : Spec.escape (fun c => c = 200) [65, 40, 92, 200, 10] = b!"A\\(\\\\\\310\n" := by decide
example : unescapeLiteral b!"A\\(\\\\\\310\\n" = .ok [65, 40, 92, 200, 10] := by decide +kernel

/-- Outside these forms: a final backslash, an octal escape of one digit followed by another character
and an octal value above 255 raise, although ISO 32000-1 7.3.4.2 allows them. -/
theorem C39_not_total :
    unescapeLiteral b!"a\\" = .error .valueError ∧ unescapeLiteral b!"\\0ab" = .error .valueError ∧
    unescapeLiteral b!"\\777" = .error .valueError ∧ unescapeLiteral b!"\\9" = .error .valueError := by
  decide +kernel

/-- The three characters after a backslash are given to `int`, which accepts an underscore between two digits: the escape
of one digit `\\1` before `_2` is read as the byte 10 (ISO 32000-1 7.3.4.2: the byte 1, then `_2`). -/
theorem C39_underscore : unescapeLiteral b!"a\\1_2" = .ok [97, 10] := by decide +kernel

/-- A backslash at the end of a line should remove the end of line (ISO 32000-1 7.3.4.2); it is kept. -/
theorem C39_line_continuation : unescapeLiteral b!"a\\\nb" = .ok b!"a\nb" := by decide +kernel

/-! ## C40 -/

theorem sliceNeg_one {α : Type} (l : List α) (x : α) (k : Nat) :
    sliceNeg (l ++ [x]) k 1 = l.drop k := by
  rw [sliceNeg, List.length_append, List.length_singleton, Nat.add_sub_cancel, List.take_left]

theorem textString_of {s u : Bytes} (h : unescapeLiteral s = .ok u) : textString s = textStringBody u := by
  rw [textString, h]; rfl

theorem utf16Char_unit {a b : UInt8} (h : unit16 a b < 0xD800 ∨ 0xE000 ≤ unit16 a b) :
    Spec.IsScalar (unit16 a b) ∧ Spec.utf16Char (unit16 a b) = [a, b] := by
  have ha := a.toNat_lt
  have hb := b.toNat_lt
  unfold unit16 at *
  refine ⟨by unfold Spec.IsScalar; omega, ?_⟩
  unfold Spec.utf16Char
  rw [if_pos (by omega), show (a.toNat * 256 + b.toNat) / 256 = a.toNat by omega, show (a.toNat * 256 + b.toNat) % 256 = b.toNat by omega]
  simp

theorem utf16Char_pair {a b c d : UInt8} (h : ¬ (unit16 a b < 0xD800 ∨ 0xE000 ≤ unit16 a b)) (h1 : unit16 a b < 0xDC00)
    (h2 : 0xDC00 ≤ unit16 c d ∧ unit16 c d < 0xE000) :
    Spec.IsScalar (0x10000 + (unit16 a b - 0xD800) * 0x400 + (unit16 c d - 0xDC00)) ∧
      Spec.utf16Char (0x10000 + (unit16 a b - 0xD800) * 0x400 + (unit16 c d - 0xDC00)) = [a, b, c, d] := by
  have ha := a.toNat_lt
  have hb := b.toNat_lt
  have hc := c.toNat_lt
  have hd := d.toNat_lt
  generalize hu : unit16 a b = u at *
  generalize hv : unit16 c d = v at *
  unfold unit16 at hu hv
  refine ⟨by unfold Spec.IsScalar; omega, ?_⟩
  unfold Spec.utf16Char
  rw [if_neg (by omega)]
  have e1 : 0xD800 + (0x10000 + (u - 0xD800) * 0x400 + (v - 0xDC00) - 0x10000) / 0x400 = u := by omega
  have e2 : 0xDC00 + (0x10000 + (u - 0xD800) * 0x400 + (v - 0xDC00) - 0x10000) % 0x400 = v := by omega
  simp only [e1, e2]
  rw [show u / 256 = a.toNat by omega, show u % 256 = b.toNat by omega, show v / 256 = c.toNat by omega, show v % 256 = d.toNat by omega]
  simp

theorem decodeUtf16be_only : ∀ (k : Nat) (s : Bytes) (t : Str), s.length ≤ k → decodeUtf16be s = some t → (∀ n ∈ t, Spec.IsScalar n) ∧ s = Spec.utf16 t
  | _, [], t, _, h => by cases h; exact ⟨by simp, rfl⟩
  | _, [_], t, _, h => by cases h
  | _, [a, b], t, _, h => by
    unfold decodeUtf16be at h
    simp only at h
    split at h
    · rename_i hu
      cases h
      obtain ⟨k1, k2⟩ := utf16Char_unit hu
      exact ⟨by simpa using k1, by simp [Spec.utf16, k2]⟩
    · cases h
  | _, [a, b, c], t, _, h => by cases h
  | 0, a :: b :: c :: d :: rest, t, hl, h => by simp at hl
  | k + 1, a :: b :: c :: d :: rest, t, hl, h => by
    unfold decodeUtf16be at h
    simp only [List.length_cons] at hl
    simp only at h
    split at h
    · rename_i hu
      obtain ⟨t', h1, rfl⟩ := Option.map_eq_some_iff.1 h
      obtain ⟨k1, k2⟩ := utf16Char_unit hu
      obtain ⟨j1, j2⟩ := decodeUtf16be_only k _ t' (by simp only [List.length_cons]; omega) h1
      refine ⟨by simpa using ⟨k1, j1⟩, ?_⟩
      unfold Spec.utf16 at *
      rw [List.flatMap_cons, k2, ← j2]
      rfl
    · rename_i hu
      split at h
      · rename_i hlo
        split at h
        · rename_i hhi
          obtain ⟨t', h1, rfl⟩ := Option.map_eq_some_iff.1 h
          obtain ⟨k1, k2⟩ := utf16Char_pair hu hlo hhi
          obtain ⟨j1, j2⟩ := decodeUtf16be_only k _ t' (by omega) h1
          refine ⟨by simpa using ⟨k1, j1⟩, ?_⟩
          unfold Spec.utf16 at *
          rw [List.flatMap_cons, k2, ← j2]
          rfl
        · cases h
      · cases h

/-- **C40, the UTF-16BE texts.** What is decoded is exactly the encodings of texts: unpaired surrogates and odd lengths are rejected. -/
theorem C40_utf16_exact (s : Bytes) (t : Str) : decodeUtf16be s = some t ↔ (∀ n ∈ t, Spec.IsScalar n) ∧ s = Spec.utf16 t := by
  constructor
  · exact decodeUtf16be_only _ s t (Nat.le_refl _)
  · rintro ⟨h, rfl⟩
    exact decodeUtf16be_utf16 t h

/-- An unpaired surrogate; the greatest scalar value. -/
example : decodeUtf16be [0xd8, 0x00, 0x00, 0x41] = none ∧ decodeUtf16be [0xdb, 0xff, 0xdf, 0xff] = some [0x10ffff] := by decide

/-- Hexadecimal form of a UTF-16BE text: any mix of cases and white space after the mark `FEFF`. -/
theorem C40_hex_utf16 (t : Str) (ht : ∀ n ∈ t, Spec.IsScalar n) (h : Bytes) (hh : Spec.Hex h (Spec.utf16 t)) :
    textString (b!"<FEFF" ++ h ++ b!">") = .ok t := by
  have hu : unescapeLiteral (b!"<FEFF" ++ h ++ b!">") = .ok (b!"<FEFF" ++ h ++ b!">") := by
    apply unescape_escapes
    apply escapes_refl
    simp only [List.mem_append, not_or]
    exact ⟨⟨by decide, fun hc => (hexForm_chars hh _ hc).2.1 rfl⟩, by decide⟩
  rw [textString_of hu]
  unfold textStringBody
  rw [if_neg (by simp), if_pos (by rfl), if_pos (by rfl)]
  rw [sliceNeg_one]
  show (decodeAscii h >>= _) = _
  rw [decodeAscii_eq (fun c hc => (hexForm_chars hh c hc).1)]
  show (orRaise _ _ >>= _) = _
  rw [fromHex_hex hh]
  show orRaise _ _ = _
  rw [decodeUtf16be_utf16 t ht]; rfl

/-- Escaped literal form of a UTF-16BE text. -/
theorem C40_literal_utf16 (t : Str) (ht : ∀ n ∈ t, Spec.IsScalar n) (e : Bytes)
    (he : Spec.Escapes e ([0xfe, 0xff] ++ Spec.utf16 t)) :
    textString (b!"(" ++ e ++ b!")") = .ok t := by
  have hu : unescapeLiteral (b!"(" ++ e ++ b!")") = .ok (b!"(" ++ ([0xfe, 0xff] ++ Spec.utf16 t) ++ b!")") :=
    unescape_escapes (escapes_append (escapes_append (escapes_refl _ (by decide)) he) (escapes_refl _ (by decide)))
  rw [textString_of hu]
  unfold textStringBody
  rw [if_pos (by rfl), if_pos (by rfl)]
  rw [sliceNeg_one]
  show orRaise _ (decodeUtf16be (Spec.utf16 t)) = _
  rw [decodeUtf16be_utf16 t ht]; rfl

/-- Escaped literal form of a PDFDocEncoding text (one that does not start with the UTF-16 mark). -/
theorem C40_literal_pdfdoc (e s : Bytes) (he : Spec.Escapes e s) (hs : ¬ [0xfe, 0xff] <+: s) :
    textString (b!"(" ++ e ++ b!")") = decodePdfdoc s := by
  have hu : unescapeLiteral (b!"(" ++ e ++ b!")") = .ok (b!"(" ++ s ++ b!")") :=
    unescape_escapes (escapes_append (escapes_append (escapes_refl _ (by decide)) he) (escapes_refl _ (by decide)))
  rw [textString_of hu]
  unfold textStringBody
  rw [if_pos (by rfl), if_neg]
  · rw [sliceNeg_one]; rfl
  · intro h
    apply hs
    match s, h with
    | [], h => simp [slice] at h
    | [a], h => simp [slice] at h
    | a :: b :: s, h =>
      have : a = 0xfe ∧ b = 0xff := by simpa [slice] using h
      rw [this.1, this.2]; exact ⟨s, rfl⟩

/-- Hexadecimal form of PDFDocEncoding bytes. -/
theorem C40_hex_pdfdoc (h s : Bytes) (hh : Spec.Hex h s) (hs : ¬ b!"FEFF" <+: h) :
    textString (b!"<" ++ h ++ b!">") = decodePdfdoc s := by
  have hu : unescapeLiteral (b!"<" ++ h ++ b!">") = .ok (b!"<" ++ h ++ b!">") := by
    apply unescape_escapes
    apply escapes_refl
    simp only [List.mem_append, not_or]
    exact ⟨⟨by decide, fun hc => (hexForm_chars hh _ hc).2.1 rfl⟩, by decide⟩
  rw [textString_of hu]
  unfold textStringBody
  rw [if_neg (by simp), if_pos (by rfl), if_neg]
  · rw [sliceNeg_one]
    show (decodePdfdoc h >>= _) = _
    rw [decodePdfdoc_eq, map_congr_on (fun c hc => (hexForm_chars hh c hc).2.2)]
    show (orRaise _ _ >>= _) = _
    rw [fromHex_hex hh]; rfl
  · intro h'
    apply hs
    have h4 : (h ++ [62]).take 4 = b!"FEFF" := by simpa [slice] using h'
    match h, h4 with
    | [], h4 => simp at h4
    | [a], h4 => simp at h4
    | [a, b], h4 => simp at h4
    | [a, b, c], h4 => simp at h4
    | a :: b :: c :: d :: r, h4 =>
      have e4 : [a, b, c, d] = b!"FEFF" := h4
      exact ⟨r, by rw [← e4]; rfl⟩

/-- The hypothesis of `C40_hex_pdfdoc` and the mark of `C40_hex_utf16` are about the upper case mark:
the same mark in lower case is not recognised, and the text comes out as PDFDocEncoding. -/
theorem C40_lower_case_mark :
    textString b!"<feff0041>" = .ok [0xfe, 0xff, 0, 0x41] ∧ textString b!"<FEFF0041>" = .ok [0x41] := by
  decide +kernel

example : Spec.utf16 [0x1F600, 0x41] = [0xD8, 0x3D, 0xDE, 0x00, 0x00, 0x41] ∧
    textString b!"<FEFFD83d DE000041>" = .ok [0x1F600, 0x41] := by decide +kernel
example : textString ([40, 0xfe, 0xff, 0] ++ b!"\\(\\000\\051)") = .ok [40, 41] := by decide +kernel
example : textString b!"<48 69>" = .ok [72, 105] := by decide +kernel

/-! ## C41 -/

/-- A non-empty `/W` array: the function returned gives every code the width of the last group that
covers it, or the default width. -/
theorem C41_cid_widths_partial (gs : List Spec.WGroup) (hne : gs ≠ []) (dw : Obj) :
    ∃ f, prepareW (Spec.wArray gs) dw = .ok f ∧ ∀ c w, Spec.WidthOf gs dw c w → f c = w := by
  have hw : Spec.wArray gs ≠ [] := by
    cases gs with
    | nil => exact absurd rfl hne
    | cons g gs => cases g <;> simp [Spec.wArray]
  refine ⟨_, by unfold prepareW; rw [if_neg hw, prepareWLoop_groups]; rfl, ?_⟩
  intro c w h
  rcases h with ⟨pre, g, post, rfl, hc, hpost⟩ | ⟨hno, rfl⟩
  · show Option.getD _ _ = _
    rw [List.foldl_append, List.foldl_cons, foldl_groupTable_not post hpost, groupTable_covers hc]; rfl
  · show Option.getD _ _ = _
    rw [foldl_groupTable_not gs hno]; rfl

/-- Every code has a width in the sense of `Spec.WidthOf`, so the theorem above determines the function. -/
theorem C41_width_exists (gs : List Spec.WGroup) (dw : Obj) (c : Int) : ∃ w, Spec.WidthOf gs dw c w := by
  induction gs with
  | nil => exact ⟨dw, Or.inr ⟨by simp, rfl⟩⟩
  | cons g gs ih =>
    obtain ⟨w, h | h⟩ := ih
    · obtain ⟨pre, g', post, rfl, hc, hp⟩ := h
      exact ⟨w, Or.inl ⟨g :: pre, g', post, rfl, hc, hp⟩⟩
    · by_cases hg : ∃ w', Spec.Covers g c w'
      · obtain ⟨w', hw'⟩ := hg
        exact ⟨w', Or.inl ⟨[], g, gs, rfl, hw', h.1⟩⟩
      · refine ⟨dw, Or.inr ⟨?_, rfl⟩⟩
        intro g' hg' w' hc
        rcases List.mem_cons.1 hg' with rfl | hg'
        · exact hg ⟨w', hc⟩
        · exact h.1 g' hg' w' hc

/-- What is missing above: with an empty `/W` array the default width of the font is ignored. -/
theorem C41_empty_counterexample :
    ∃ f, prepareW [] (.int 1000) = .ok f ∧ f 65 = .int 500 ∧ Spec.WidthOf [] (.int 1000) 65 (.int 1000) :=
  ⟨_, rfl, rfl, Or.inr ⟨by simp, rfl⟩⟩

/-- And an array that is not a sequence of complete groups raises. -/
theorem C41_malformed_counterexample (dw : Obj) :
    (∀ f, prepareW [.int 1, .int 2] dw ≠ .ok f) ∧ (∀ f, prepareW [.int 1] dw ≠ .ok f) := by
  constructor <;> intro f h <;> simp [prepareW, prepareWLoop, Except.map] at h

example : ∃ f, prepareW (Spec.wArray [.each 1 [.int 10, .int 20], .range 2 5 (.int 30)]) (.int 7) = .ok f ∧
    [f 1, f 2, f 5, f 6] = [.int 10, .int 30, .int 30, .int 7] := ⟨_, rfl, by decide⟩

/-- Simple fonts: the width listed for the code, 500 outside the list; never an exception. -/
theorem C41_simple_widths (widths : List Obj) (first c : Int) :
    (∀ k : Nat, c = first + k → ∀ w, widths[k]? = some w → prepareWidths widths first c = .ok w) ∧
    (c < first ∨ first + widths.length ≤ c → prepareWidths widths first c = .ok (.int 500)) := by
  constructor
  · rintro k rfl w hw
    have hk := (List.getElem?_eq_some_iff.1 hw).1
    unfold prepareWidths
    rw [if_neg (by omega)]
    have : (first + (k : Int) - first).toNat = k := by omega
    rw [this, hw]
  · intro h
    unfold prepareWidths
    rw [if_pos (by omega)]

/-- The two cases cover all codes. -/
theorem C41_simple_total (widths : List Obj) (first c : Int) : ∃ w, prepareWidths widths first c = .ok w := by
  by_cases h : c < first ∨ first + widths.length ≤ c
  · exact ⟨_, (C41_simple_widths widths first c).2 h⟩
  · have hk : (c - first).toNat < widths.length := by omega
    exact ⟨_, (C41_simple_widths widths first c).1 (c - first).toNat (by omega) _ (List.getElem?_eq_getElem hk)⟩

end Pdf
