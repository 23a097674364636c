/-
C73 strings of fonts without CMap, C74 text and displacement of `Tj` and `TJ`, C75 fragments of a page.
-/
import Verif.Model.Shown
import Verif.Spec.Text
import Verif.Spec.Provider
import Verif.Lemmas.Text
import Verif.Lemmas.KernelRfl
import Verif.Props.C42_Graphics
import Mathlib.Tactic.Ring
import Mathlib.Tactic.Linarith
import Mathlib.Tactic.FieldSimp
import Mathlib.Tactic.Positivity

namespace Pdf

open Spec

/-! ## C73 -/

/-- ISO 32000-1, D.2, WinAnsiEncoding: the codes that are neither ASCII nor Latin-1. -/
def Spec.winAnsiSpecial : List (Nat × Nat) :=
  [(0x80, 0x20AC), (0x82, 0x201A), (0x83, 0x0192), (0x84, 0x201E), (0x85, 0x2026), (0x86, 0x2020), (0x87, 0x2021),
   (0x88, 0x02C6), (0x89, 0x2030), (0x8A, 0x0160), (0x8B, 0x2039), (0x8C, 0x0152), (0x8E, 0x017D), (0x91, 0x2018),
   (0x92, 0x2019), (0x93, 0x201C), (0x94, 0x201D), (0x95, 0x2022), (0x96, 0x2013), (0x97, 0x2014), (0x98, 0x02DC),
   (0x99, 0x2122), (0x9A, 0x0161), (0x9B, 0x203A), (0x9C, 0x0153), (0x9E, 0x017E), (0x9F, 0x0178)]

/-- The character of a code in WinAnsiEncoding; the codes 0x81, 0x8D, 0x8F, 0x90 and 0x9D have none. -/
def Spec.WinAnsi (c : UInt8) (u : Nat) : Prop :=
  (c.toNat, u) ∈ Spec.winAnsiSpecial ∨ ((c.toNat < 0x80 ∨ 0xA0 ≤ c.toNat) ∧ u = c.toNat)

instance (c : UInt8) (u : Nat) : Decidable (Spec.WinAnsi c u) := by unfold Spec.WinAnsi; infer_instance

/-- One byte decoded with a table. -/
def tableChar (high : List Nat) (x : UInt8) : Py Nat :=
  if x.toNat < 128 then .ok x.toNat
  else match high[x.toNat - 128]? with
    | some c => if c = 0 then .error .unicodeError else .ok c
    | none => .error .unicodeError

theorem decodeTable_eq (high : List Nat) (s : Bytes) : decodeTable high s = s.mapM (tableChar high) := rfl

/-- What `cp1252` makes of a byte. -/
def cpChar (x : UInt8) : Nat := (tableChar cp1252High x).toOption.getD 0

theorem cp_char : ∀ x : UInt8, (tableChar cp1252High x = .ok (cpChar x) ∧ Spec.WinAnsi x (cpChar x)) ∨
    (tableChar cp1252High x = .error .unicodeError ∧ x ∈ [0x81, 0x8D, 0x8F, 0x90, 0x9D]) := by
  apply forall_byte; decide +kernel

/-- What `mac_roman` makes of a byte. -/
def macChar (x : UInt8) : Nat := (tableChar macRomanHigh x).toOption.getD 0

theorem mac_char : ∀ x : UInt8, tableChar macRomanHigh x = .ok (macChar x) := by
  apply forall_byte; decide +kernel

theorem mac_ascii : ∀ x : UInt8, x.toNat < 128 → macChar x = x.toNat := by
  apply forall_byte; decide +kernel

theorem mac_inj : ∀ x y : UInt8, macChar x = macChar y → x = y := by
  have h : ((List.range 256).map (fun n => macChar (UInt8.ofNat n))).Nodup := by decide +kernel
  intro x y hxy
  have hx := UInt8.toNat_lt x
  have hy := UInt8.toNat_lt y
  have hx' : x.toNat < ((List.range 256).map (fun n => macChar (UInt8.ofNat n))).length := by simpa using hx
  have := (List.getElem?_inj hx' h (j := y.toNat)).1 (by
    rw [List.getElem?_map, List.getElem?_map, List.getElem?_range (by omega), List.getElem?_range (by omega)]
    simpa using hxy)
  exact UInt8.toNat_inj.1 this

theorem encoding_body {enc : Obj} {a b : UInt8} {e s : Bytes} (h : Escapes e s) :
    applyEncoding enc ([a] ++ e ++ [b]) =
      (decodeSimple enc s).map (fun us => (us, s.map UInt8.toNat)) := by
  have hb : sliceNeg ([a] ++ e ++ [b]) 1 1 = e := by simp [sliceNeg]
  rw [applyEncoding, hb, unescapeLiteral, unescape_escapes h]
  show (decodeSimple enc s >>= fun us => _) = _
  cases decodeSimple enc s <;> rfl

/-- C73. A literal string shown with a font that has no CMap and whose encoding is not MacRomanEncoding:
each byte gives its character in WinAnsiEncoding, provided it has one; the bytes are returned as codes.
Missing from the full claim: hexadecimal strings (`C73_hex`), the other encodings and /Differences
(`C73_differences_counterexample`), bytes without character (`C73_undefined`). -/
theorem C73_winansi_partial {enc : Obj} (henc : enc ≠ .str b!"/MacRomanEncoding") {e s : Bytes} (h : Escapes e s)
    (hs : ∀ c ∈ s, c ∉ [0x81, 0x8D, 0x8F, 0x90, 0x9D]) :
    ∃ f : UInt8 → Nat, (∀ c ∈ s, Spec.WinAnsi c (f c)) ∧
      applyEncoding enc (b!"(" ++ e ++ b!")") = .ok (s.map f, s.map UInt8.toNat) := by
  refine ⟨cpChar, ?_, ?_⟩
  · intro c hc
    rcases cp_char c with h1 | h1
    · exact h1.2
    · exact absurd h1.2 (hs c hc)
  · have hk : isKw b!"/MacRomanEncoding" enc = false := by
      cases enc with
      | str t => simp only [isKw, beq_eq_false_iff_ne, ne_eq]; intro e; exact henc (by rw [e])
      | _ => rfl
    rw [encoding_body h, decodeSimple, hk]
    have : decodeTable cp1252High s = .ok (s.map cpChar) := by
      rw [decodeTable_eq]
      apply mapM_ok
      intro c hc
      rcases cp_char c with h1 | h1
      · exact h1.1
      · exact absurd h1.2 (hs c hc)
    simp only [Bool.false_eq_true, if_false, this]
    rfl

/-- WinAnsi characters are determined. -/
theorem C73_winansi_unique (c : UInt8) (u v : Nat) (hu : Spec.WinAnsi c u) (hv : Spec.WinAnsi c v) : u = v := by
  have key : ∀ p ∈ Spec.winAnsiSpecial, ∀ q ∈ Spec.winAnsiSpecial, p.1 = q.1 → p.2 = q.2 := by decide +kernel
  have key2 : ∀ p ∈ Spec.winAnsiSpecial, 0x80 ≤ p.1 ∧ p.1 < 0xA0 := by decide +kernel
  rcases hu with hu | ⟨hu, rfl⟩ <;> rcases hv with hv | ⟨hv, rfl⟩
  · exact key _ hu _ hv rfl
  · have := key2 _ hu; simp only at this; omega
  · have := key2 _ hv; simp only at this; omega
  · rfl

/-- A byte without character makes the whole string fail. -/
theorem C73_undefined {enc : Obj} (henc : enc ≠ .str b!"/MacRomanEncoding") {e s : Bytes} (h : Escapes e s)
    {c : UInt8} (hc : c ∈ s) (hc' : c ∈ [0x81, 0x8D, 0x8F, 0x90, 0x9D]) :
    applyEncoding enc (b!"(" ++ e ++ b!")") = .error .unicodeError := by
  have hk : isKw b!"/MacRomanEncoding" enc = false := by
    cases enc with
    | str t => simp only [isKw, beq_eq_false_iff_ne, ne_eq]; intro e; exact henc (by rw [e])
    | _ => rfl
  have hbad : ∀ c : UInt8, c ∈ [0x81, 0x8D, 0x8F, 0x90, 0x9D] → tableChar cp1252High c = .error .unicodeError := by
    decide +kernel
  have : decodeTable cp1252High s = .error .unicodeError := by
    rw [decodeTable_eq]
    clear h
    induction s with
    | nil => cases hc
    | cons x s ih =>
      rw [List.mapM_cons]
      rcases cp_char x with h1 | h1
      · rw [h1.1]
        rcases List.mem_cons.1 hc with rfl | hc
        · rw [hbad _ hc'] at h1; cases h1.1
        · show (s.mapM (tableChar cp1252High) >>= fun r => _) = _
          rw [ih hc]
          rfl
      · rw [h1.1]; rfl
  rw [encoding_body h, decodeSimple, hk]
  simp only [Bool.false_eq_true, if_false, this]
  rfl

/-- C73, MacRomanEncoding: every byte gives one character, bytes of ASCII give themselves, different
bytes give different characters. -/
theorem C73_mac : ∃ f : UInt8 → Nat, (∀ c, c.toNat < 128 → f c = c.toNat) ∧ (∀ c d, f c = f d → c = d) ∧
    ∀ e s, Escapes e s → applyEncoding (.str b!"/MacRomanEncoding") (b!"(" ++ e ++ b!")")
      = .ok (s.map f, s.map UInt8.toNat) := by
  refine ⟨macChar, mac_ascii, mac_inj, ?_⟩
  intro e s h
  rw [encoding_body h, decodeSimple]
  have hk : isKw b!"/MacRomanEncoding" (.str b!"/MacRomanEncoding") = true := by decide
  have : decodeTable macRomanHigh s = .ok (s.map macChar) := by
    rw [decodeTable_eq]
    exact mapM_ok _ _ s (fun c _ => mac_char c)
  simp only [hk, if_true, this]
  rfl

/-- The digits of a hexadecimal string come out instead of the characters they write: for every
encoding and every hexadecimal string. -/
theorem C73_hex (enc : Obj) {h s : Bytes} (hh : Hex h s) :
    applyEncoding enc (b!"<" ++ h ++ b!">") = .ok (h.map UInt8.toNat, h.map UInt8.toNat) := by
  have h1 := hexForm_chars hh
  have he : Escapes h h := escapes_refl h (fun hc => (h1 _ hc).2.1 rfl)
  rw [encoding_body he, decodeSimple]
  have ht : ∀ high, decodeTable high h = .ok (h.map UInt8.toNat) := by
    intro high
    rw [decodeTable_eq]
    apply mapM_ok
    intro c hc
    rw [tableChar, if_pos (h1 c hc).1]
  simp only [ht, ite_self]
  rfl

/-- `<48>` is the letter H. -/
theorem C73_hex_counterexample : applyEncoding (.str b!"/WinAnsiEncoding") b!"<48>" = .ok ([52, 56], [52, 56]) := by
  kernel_rfl

/-- /Differences are ignored: the code 65 is said to be the letter Z. -/
theorem C73_differences_counterexample :
    applyEncoding (.dict [(b!"/Differences", .list [.int 65, .str b!"/Z"])]) b!"(A)" = .ok ([65], [65]) := by
  kernel_rfl

example : Escapes b!"caf\\351" [99, 97, 102, 0xE9] ∧ Spec.WinAnsi 0xE9 0xE9 :=
  ⟨.plain _ (by decide) (.plain _ (by decide) (.plain _ (by decide)
    (.octal 3 5 1 (by decide) (by decide) (by decide) .nil))), by decide⟩

/-! ## C74 -/

/-- ISO 32000-1, 9.4.3 and 9.4.4: what an array of strings and numbers shows, and the displacement in
thousandths divided out (`w0 - Tj / 1000`, before the font size). A number that moves to the right by at
least 4/5 of a space may be rendered by spaces. -/
inductive Spec.ShowsArray (dec : Bytes → Py (Str × List Nat)) (W : Nat → Rat) : List Obj → Str → Rat → Prop
  | nil : ShowsArray dec W [] [] 0
  | str {t us cs rest s w} : dec t = .ok (us, cs) → ShowsArray dec W rest s w →
      ShowsArray dec W (.bytes t :: rest) (us ++ s) ((cs.map W).sum / 1000 + w)
  | gap {o t rest s w} (k : Nat) : objRat o = some t → (0 < k ↔ t ≤ - (4 / 5) * W 32) →
      ShowsArray dec W rest s w → ShowsArray dec W (o :: rest) (List.replicate k 32 ++ s) (w - t / 1000)

theorem addWidths_eq (f : FontFns) (W : Nat → Rat) (hW : ∀ c, f.width c = .ok (W c)) : ∀ (cs : List Nat) (w : Rat),
    addWidths f w cs = .ok (w + (cs.map W).sum / 1000)
  | [], w => by simp [addWidths]
  | c :: cs, w => by
    rw [addWidths, hW]
    show addWidths f (w + W c / 1000) cs = _
    rw [addWidths_eq f W hW]
    congr 1
    simp only [List.map_cons, List.sum_cons]
    ring

theorem ratTrunc_nonneg {x : Rat} (h : 0 ≤ x) : ratTrunc x = x.floor := by
  rw [ratTrunc, Rat.floor_def, Int.tdiv_eq_ediv_of_nonneg (Rat.num_nonneg.2 h)]

theorem ratTrunc_mono {x y : Rat} (h : 0 ≤ x) (hxy : x ≤ y) : ratTrunc x ≤ ratTrunc y := by
  rw [ratTrunc_nonneg h, ratTrunc_nonneg (le_trans h hxy)]
  exact Rat.floor_monotone hxy

theorem showGap_eq (f : FontFns) (W : Nat → Rat) (hW : ∀ c, f.width c = .ok (W c)) (hsp : 1 ≤ W 32) (t : Rat)
    (acc : Str × Rat) : ∃ k : Nat, (0 < k ↔ t ≤ - (4 / 5) * W 32) ∧
      showGap f t acc = .ok (acc.1 ++ List.replicate k 32, acc.2 - t / 1000 + W 32 / 5000) := by
  have h0 : (0 : Rat) ≤ W 32 := by linarith
  have h1 : 1 ≤ ratTrunc (W 32) := by
    have := ratTrunc_mono (x := 1) (by norm_num) hsp
    have e : ratTrunc 1 = 1 := by decide +kernel
    rw [e] at this
    exact this
  have hw : acc.2 - (t - W 32 * (1 / 5)) / 1000 = acc.2 - t / 1000 + W 32 / 5000 := by ring
  by_cases ht : t - W 32 * (1 / 5) ≤ - W 32
  · have h2 : ratTrunc (W 32) ≤ ratTrunc (-(t - W 32 * (1 / 5))) := ratTrunc_mono h0 (by linarith)
    refine ⟨((ratTrunc (-(t - W 32 * (1 / 5)))).fdiv (ratTrunc (W 32))).toNat, ?_, ?_⟩
    · have hpos : 1 ≤ (ratTrunc (-(t - W 32 * (1 / 5)))).fdiv (ratTrunc (W 32)) := by
        rw [Int.fdiv_eq_ediv_of_nonneg _ (by omega)]
        exact Int.le_ediv_of_mul_le (by omega) (by omega)
      constructor
      · intro _; linarith
      · intro _; omega
    · rw [showGap, hW]
      show (gapText acc.1 (W 32) (t - W 32 * (1 / 5)) >>= fun us => _) = _
      rw [gapText, if_pos ht, if_neg (by omega)]
      show Except.ok _ = Except.ok _
      rw [hw]
      rfl
  · refine ⟨0, ?_, ?_⟩
    · constructor
      · intro h; omega
      · intro h; exact absurd (by linarith) ht
    · rw [showGap, hW]
      show (gapText acc.1 (W 32) (t - W 32 * (1 / 5)) >>= fun us => _) = _
      rw [gapText, if_neg ht]
      show Except.ok _ = Except.ok _
      rw [hw]
      simp

theorem elementText_Tj (fonts : Bytes → Option FontFns) (before : List Obj) (t : Bytes) (tf : Arg Rat) :
    elementText fonts (before ++ [.bytes t, .str b!"Tj"]) tf = (fontAt fonts tf >>= fun f => showString f t ([], 0)) := by
  have h1 : (before ++ [Obj.bytes t, .str b!"Tj"]).getLast? = some (.str b!"Tj") := by simp
  have h2 : operand (before ++ [Obj.bytes t, .str b!"Tj"]) = .ok (.bytes t) := by simp [operand, orRaise]
  have h3 : isKw b!"Tj" (.str b!"Tj") = true := by decide
  simp only [elementText, h1, h2, h3, if_true]
  rfl

theorem elementText_TJ (fonts : Bytes → Option FontFns) (before items : List Obj) (tf : Arg Rat) :
    elementText fonts (before ++ [.list items, .str b!"TJ"]) tf = showItems (fontAt fonts tf) ([], 0) items := by
  have h1 : (before ++ [Obj.list items, .str b!"TJ"]).getLast? = some (.str b!"TJ") := by simp
  have h2 : operand (before ++ [Obj.list items, .str b!"TJ"]) = .ok (.list items) := by simp [operand, orRaise]
  have h3 : isKw b!"Tj" (.str b!"TJ") = false := by decide
  have h4 : isKw b!"TJ" (.str b!"TJ") = true := by decide
  simp only [elementText, h1, h2, h3, h4, if_true]
  rfl

/-- C74. The numbers of an array: `d.f` is `d` plus `f` divided by ten to the number of its digits. -/
theorem C74_number (neg : Bool) (ip : Nat) (frac : Bytes) : ∃ x : Rat, objRat (.real neg ip frac) = some x ∧
    x * (10 : Rat) ^ frac.length = (if neg then -1 else 1) * ((ip * 10 ^ frac.length + Spec.decVal frac : Nat) : Rat) := by
  refine ⟨_, rfl, ?_⟩
  have h10 : ((10 : Rat) ^ frac.length) ≠ 0 := by positivity
  have hd : (decVal frac : Rat) = (Spec.decVal frac : Nat) := rfl
  cases neg <;> simp only [hd, if_true, Bool.false_eq_true, if_false] <;> push_cast <;> field_simp

/-- Number of adjustments in the operand of `TJ`. -/
def Spec.gaps (items : List Obj) : Nat := (items.filter (fun o => (objRat o).isSome)).length

theorem showItems_eq (f : FontFns) (W : Nat → Rat) (hW : ∀ c, f.width c = .ok (W c)) (hsp : 1 ≤ W 32) :
    ∀ (items : List Obj), (∀ o ∈ items, (∃ t r, o = .bytes t ∧ f.dec t = .ok r) ∨ ∃ t, objRat o = some t) →
    ∀ acc : Str × Rat, ∃ s w, ShowsArray f.dec W items s w ∧
      showItems (.ok f) acc items = .ok (acc.1 ++ s, acc.2 + (w + Spec.gaps items * (W 32 / 5000)))
  | [], _, acc => ⟨[], 0, .nil, by simp [showItems, Spec.gaps]⟩
  | o :: items, h, acc => by
    rcases h o (by simp) with ⟨t, ⟨us, cs⟩, rfl, hd⟩ | ⟨t, ht⟩
    · obtain ⟨s, w, h1, h2⟩ := showItems_eq f W hW hsp items (fun o ho => h o (by simp [ho]))
        (acc.1 ++ us, acc.2 + (cs.map W).sum / 1000)
      refine ⟨us ++ s, (cs.map W).sum / 1000 + w, .str hd h1, ?_⟩
      rw [showItems]
      show (showString f t acc >>= fun acc => _) = _
      rw [showString, hd]
      show ((addWidths f acc.2 cs >>= fun width => _) >>= fun acc => _) = _
      rw [addWidths_eq f W hW]
      show showItems (.ok f) (acc.1 ++ us, acc.2 + (cs.map W).sum / 1000) items = _
      rw [h2, List.append_assoc]
      congr 2
      have : Spec.gaps (Obj.bytes t :: items) = Spec.gaps items := rfl
      rw [this]
      ring
    · obtain ⟨k, hk, hg⟩ := showGap_eq f W hW hsp t acc
      obtain ⟨s, w, h1, h2⟩ := showItems_eq f W hW hsp items (fun o ho => h o (by simp [ho]))
        (acc.1 ++ List.replicate k 32, acc.2 - t / 1000 + W 32 / 5000)
      refine ⟨List.replicate k 32 ++ s, w - t / 1000, .gap k ht hk h1, ?_⟩
      have hstep : showItems (.ok f) acc (o :: items) = (showGap f t acc >>= fun acc => showItems (.ok f) acc items) := by
        cases o with
        | bytes t => simp [objRat] at ht
        | _ =>
          rw [showItems]
          simp only [ht]
          rfl
      rw [hstep, hg]
      show showItems (.ok f) (acc.1 ++ List.replicate k 32, acc.2 - t / 1000 + W 32 / 5000) items = _
      rw [h2, List.append_assoc]
      congr 2
      have : Spec.gaps (o :: items) = Spec.gaps items + 1 := by
        simp [Spec.gaps, ht]
      rw [this]
      push_cast
      ring

/-- C74. `TJ` with a font whose space has a width of at least 1: every string is decoded, in order, with
spaces for the large gaps only. The displacement is the one of the standard plus 1/5 of a space for each
number of the array: the code subtracts this margin from the number before using it.
Missing from the full claim: the exact displacement (`C74_displacement_counterexample`), spaces of width
0 (`C74_zero_space`). -/
theorem C74_TJ_partial (fonts : Bytes → Option FontFns) (name : Bytes) (f : FontFns) (hf : fonts name = some f)
    (W : Nat → Rat) (hW : ∀ c, f.width c = .ok (W c)) (hsp : 1 ≤ W 32) (items : List Obj)
    (hi : ∀ o ∈ items, (∃ t r, o = .bytes t ∧ f.dec t = .ok r) ∨ ∃ t, objRat o = some t) :
    ∃ s w, ShowsArray f.dec W items s w ∧
      ∀ before, elementText fonts (before ++ [.list items, .str b!"TJ"]) (.oth (.str name))
        = .ok (s, w + Spec.gaps items * (W 32 / 5000)) := by
  obtain ⟨s, w, h1, h2⟩ := showItems_eq f W hW hsp items hi ([], 0)
  refine ⟨s, w, h1, fun before => ?_⟩
  rw [elementText_TJ]
  rw [fontAt, hf]
  show showItems (.ok f) ([], 0) items = _
  rw [h2]
  simp

/-- C74. `Tj`: the text of the string and the sum of the widths, for any font. -/
theorem C74_Tj (fonts : Bytes → Option FontFns) (name : Bytes) (f : FontFns) (hf : fonts name = some f)
    (W : Nat → Rat) (hW : ∀ c, f.width c = .ok (W c)) (t : Bytes) (us : Str) (cs : List Nat)
    (hd : f.dec t = .ok (us, cs)) (before : List Obj) :
    elementText fonts (before ++ [.bytes t, .str b!"Tj"]) (.oth (.str name)) = .ok (us, (cs.map W).sum / 1000) := by
  rw [elementText_Tj]
  rw [fontAt, hf]
  show showString f t ([], 0) = _
  rw [showString, hd]
  show (addWidths f 0 cs >>= fun width => _) = _
  rw [addWidths_eq f W hW]
  simp only [zero_add]
  rfl

/-- A space of width 0, as in fonts that do not contain it: every number that is not positive raises. -/
theorem C74_zero_space (f : FontFns) (h0 : f.width 32 = .ok 0) (t : Rat) (ht : t ≤ 0) (acc : Str × Rat) :
    showGap f t acc = .error .zeroDivision := by
  rw [showGap, h0]
  show (gapText acc.1 0 (t - 0 * (1 / 5)) >>= fun us => _) = _
  rw [gapText, if_pos (by simpa using ht)]
  rfl

/-- A font of 500 units per character, for examples. -/
def plainFont : FontFns := ⟨applyEncoding (.str b!"/WinAnsiEncoding"), fun _ => .ok 500⟩

/-- `[(A) 100 (B)] TJ`: the standard gives a displacement of 1 - 1/10 = 9/10. -/
theorem C74_displacement_counterexample :
    elementText (fun _ => some plainFont) [.list [.bytes b!"(A)", .int 100, .bytes b!"(B)"], .str b!"TJ"]
      (.oth (.str b!"/F1")) = .ok ([65, 66], 1) ∧
    ShowsArray plainFont.dec (fun _ => 500) [.bytes b!"(A)", .int 100, .bytes b!"(B)"] [65, 66] (9 / 10) := by
  have hdA : plainFont.dec b!"(A)" = .ok ([65], [65]) := by decide +kernel
  have hdB : plainFont.dec b!"(B)" = .ok ([66], [66]) := by decide +kernel
  refine ⟨by decide +kernel, ?_⟩
  have h := ShowsArray.str (W := fun _ => 500) hdA (.gap 0 (o := .int 100) (t := 100) rfl (by norm_num)
    (.str hdB .nil))
  norm_num at h
  exact h

/-- The hypotheses of `C74_TJ_partial` hold of an array with a gap, rendered by two spaces. -/
example : (∀ o ∈ [Obj.bytes b!"(A)", .int (-1000), .bytes b!"(B)"],
      (∃ t r, o = .bytes t ∧ plainFont.dec t = .ok r) ∨ ∃ t, objRat o = some t) ∧
    elementText (fun _ => some plainFont) [.list [.bytes b!"(A)", .int (-1000), .bytes b!"(B)"], .str b!"TJ"]
      (.oth (.str b!"/F1")) = .ok ([65, 32, 32, 66], 2 + 1 / 10) := by
  refine ⟨?_, by decide +kernel⟩
  intro o ho
  simp only [List.mem_cons, List.not_mem_nil, or_false] at ho
  rcases ho with rfl | rfl | rfl
  · exact .inl ⟨_, ([65], [65]), rfl, by decide +kernel⟩
  · exact .inr ⟨_, rfl⟩
  · exact .inl ⟨_, ([66], [66]), rfl, by decide +kernel⟩

end Pdf
