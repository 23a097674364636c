/-
Lemmas on text decoding.
-/
import Verif.Model.Text
import Verif.Spec.Text
import Verif.Lemmas.Basic

namespace Pdf

theorem charset_length : pdfdocCharset.length = 256 := by decide +kernel

theorem charset_nodup : pdfdocCharset.Nodup := by decide +kernel

/-- The character of one byte. -/
def docChar (x : UInt8) : Nat := pdfdocCharset.getD x.toNat 0

theorem charset_get (x : UInt8) : pdfdocCharset[x.toNat]? = some (docChar x) := by
  have h : x.toNat < pdfdocCharset.length := by rw [charset_length]; exact x.toNat_lt
  rw [docChar, List.getD, List.getElem?_eq_getElem h]; rfl

theorem docChar_inj {x y : UInt8} (h : docChar x = docChar y) : x = y := by
  have hx := charset_get x; have hy := charset_get y
  rw [h, ← hy] at hx
  have := (List.getElem?_inj (by rw [charset_length]; exact x.toNat_lt) charset_nodup).1 hx
  exact UInt8.toNat_inj.1 this

theorem mapM_ok {α β : Type} (f : α → Py β) (g : α → β) : ∀ l : List α, (∀ x ∈ l, f x = .ok (g x)) →
    l.mapM f = .ok (l.map g)
  | [], _ => rfl
  | x :: l, h => by
    rw [List.mapM_cons, h x (by simp), mapM_ok f g l (fun y hy => h y (by simp [hy]))]
    rfl

theorem decodePdfdoc_eq (s : Bytes) : decodePdfdoc s = .ok (s.map docChar) := by
  unfold decodePdfdoc
  apply mapM_ok
  intro x _
  rw [charset_get]

theorem docChar_ascii : ∀ x : UInt8, (x.toNat < 0x18 ∨ (0x20 ≤ x.toNat ∧ x.toNat < 0x80)) → docChar x = x.toNat := by
  apply forall_byte; decide +kernel

/-! Escapes -/

theorem unescapeLoop_skip (k : Nat) (s : Bytes) : unescapeLoop k s = unescapeLoop 0 (s.drop k) := by
  induction k generalizing s with
  | zero => rfl
  | succ k ih => cases s with
    | nil => rfl
    | cons c s => rw [unescapeLoop, ih]; rfl

theorem unescapeLoop_plain {c : UInt8} (h : c ≠ 92) (s : Bytes) :
    unescapeLoop 0 (c :: s) = (unescapeLoop 0 s).map (c :: ·) := by
  rw [unescapeLoop.eq_def]; simp [h]

theorem unescapeLoop_named {k c : UInt8} (h : (k, c) ∈ Spec.namedEscapes) (s : Bytes) :
    unescapeLoop 0 (92 :: k :: s) = (unescapeLoop 0 s).map (c :: ·) := by
  have hk : isDigit k = false ∧ escSequence k = some c := by
    revert h; simp only [Spec.namedEscapes, List.mem_cons, Prod.mk.injEq, List.not_mem_nil, or_false]
    rintro (⟨rfl, rfl⟩ | ⟨rfl, rfl⟩ | ⟨rfl, rfl⟩ | ⟨rfl, rfl⟩ | ⟨rfl, rfl⟩ | ⟨rfl, rfl⟩ | ⟨rfl, rfl⟩ |
      ⟨rfl, rfl⟩) <;> decide
  rw [unescapeLoop]
  simp only [hk.1, hk.2]
  rw [unescapeLoop_skip 1]; simp

theorem pyOct_three : ∀ x, x < 4 → ∀ y, y < 8 → ∀ z, z < 8 →
    pyOct [UInt8.ofNat (48 + x), UInt8.ofNat (48 + y), UInt8.ofNat (48 + z)] = some (64 * x + 8 * y + z) := by
  decide +kernel

theorem unescapeLoop_octal {x y z : Nat} (hx : x < 4) (hy : y < 8) (hz : z < 8) (s : Bytes) :
    unescapeLoop 0 (92 :: UInt8.ofNat (48 + x) :: UInt8.ofNat (48 + y) :: UInt8.ofNat (48 + z) :: s) =
    (unescapeLoop 0 s).map (UInt8.ofNat (64 * x + 8 * y + z) :: ·) := by
  have hd : isDigit (UInt8.ofNat (48 + x)) = true := by
    have : ∀ x, x < 4 → isDigit (UInt8.ofNat (48 + x)) = true := by decide
    exact this x hx
  have h := pyOct_three x hx y hy z hz
  rw [unescapeLoop]
  simp only [hd, if_true, List.take_succ_cons, List.take_zero, h]
  rw [if_pos (by omega), unescapeLoop_skip 3]; simp

theorem unescapeLoop_ignored {k : UInt8} (h : ∀ c, (k, c) ∉ Spec.namedEscapes)
    (hd : k ∉ b!"0123456789\r\n") (s : Bytes) :
    unescapeLoop 0 (92 :: k :: s) = (unescapeLoop 0 s).map (k :: ·) := by
  have key : ∀ k : UInt8, (∀ p ∈ Spec.namedEscapes, p.1 ≠ k) → k ∉ b!"0123456789\r\n" →
      isDigit k = false ∧ escSequence k = none ∧ k ≠ 92 := by
    apply forall_byte; decide +kernel
  obtain ⟨h1, h2, h3⟩ := key k (fun p hp hk => h p.2 (by rw [← hk]; exact hp)) hd
  rw [unescapeLoop]
  simp only [h1, h2, if_true, Bool.false_eq_true, if_false]
  exact unescapeLoop_plain h3 s

theorem unescape_escapes {e s : Bytes} (h : Spec.Escapes e s) : unescapeLoop 0 e = .ok s := by
  induction h with
  | nil => rfl
  | plain c hc _ ih => rw [unescapeLoop_plain hc, ih]; rfl
  | named k c hk _ ih => rw [unescapeLoop_named hk, ih]; rfl
  | octal x y z hx hy hz _ ih => rw [unescapeLoop_octal hx hy hz, ih]; rfl
  | ignored k hk hd _ ih => rw [unescapeLoop_ignored hk hd, ih]; rfl

theorem escapes_escape (oct : UInt8 → Bool) : ∀ s, Spec.Escapes (Spec.escape oct s) s
  | [] => .nil
  | c :: s => by
    have ih := escapes_escape oct s
    rw [Spec.escape]
    split
    · have hc := c.toNat_lt
      have h := Spec.Escapes.octal (c.toNat / 64) (c.toNat / 8 % 8) (c.toNat % 8) (by omega) (by omega)
        (by omega) ih
      rw [show 64 * (c.toNat / 64) + 8 * (c.toNat / 8 % 8) + c.toNat % 8 = c.toNat by omega,
        UInt8.ofNat_toNat] at h
      exact h
    · split
      · rename_i h
        refine Spec.Escapes.named c c ?_ ih
        rcases h with rfl | rfl | rfl <;> decide
      · rename_i h
        exact Spec.Escapes.plain c (fun e => h (Or.inr (Or.inr e))) ih

theorem escapes_append {e s e' s' : Bytes} (h : Spec.Escapes e s) (h' : Spec.Escapes e' s') :
    Spec.Escapes (e ++ e') (s ++ s') := by
  induction h with
  | nil => exact h'
  | plain c hc _ ih => exact .plain c hc ih
  | named k c hk _ ih => exact .named k c hk ih
  | octal x y z hx hy hz _ ih => exact .octal x y z hx hy hz ih
  | ignored k hk hd _ ih => exact .ignored k hk hd ih

theorem escapes_refl : ∀ s : Bytes, (92 : UInt8) ∉ s → Spec.Escapes s s
  | [], _ => .nil
  | c :: s, h => .plain c (fun e => h (by simp [e])) (escapes_refl s (fun e => h (by simp [e])))

/-! UTF-16 -/

theorem unit16_ofNat {a b : Nat} (ha : a < 256) (hb : b < 256) :
    unit16 (UInt8.ofNat a) (UInt8.ofNat b) = a * 256 + b := by
  unfold unit16
  rw [UInt8.toNat_ofNat', UInt8.toNat_ofNat']
  omega

theorem decodeUtf16be_bmp (a b : UInt8) (h : unit16 a b < 0xD800 ∨ 0xE000 ≤ unit16 a b) (rest : Bytes)
    {t : Str} (hr : decodeUtf16be rest = some t) :
    decodeUtf16be (a :: b :: rest) = some (unit16 a b :: t) := by
  match rest, hr with
  | [], hr => simp only [decodeUtf16be, Option.some.injEq] at hr; subst hr; simp [decodeUtf16be, h]
  | [c], hr => simp [decodeUtf16be] at hr
  | c :: d :: rest, hr => rw [decodeUtf16be]; simp [h, hr]

theorem decodeUtf16be_char {n : Nat} (h : Spec.IsScalar n) (rest : Bytes) {t : Str}
    (hr : decodeUtf16be rest = some t) :
    decodeUtf16be (Spec.utf16Char n ++ rest) = some (n :: t) := by
  unfold Spec.utf16Char
  unfold Spec.IsScalar at h
  split
  · rename_i hn
    have e := unit16_ofNat (a := n / 256) (b := n % 256) (by omega) (by omega)
    have e' : n / 256 * 256 + n % 256 = n := by omega
    rw [e'] at e
    have := decodeUtf16be_bmp (UInt8.ofNat (n / 256)) (UInt8.ofNat (n % 256)) (by rw [e]; omega) rest hr
    rw [e] at this
    exact this
  · rename_i hn
    simp only
    generalize hm : n - 0x10000 = m
    have hm' : m < 0x100000 := by omega
    have e1 := unit16_ofNat (a := (0xD800 + m / 0x400) / 256) (b := (0xD800 + m / 0x400) % 256) (by omega) (by omega)
    have e2 := unit16_ofNat (a := (0xDC00 + m % 0x400) / 256) (b := (0xDC00 + m % 0x400) % 256) (by omega) (by omega)
    rw [show (0xD800 + m / 0x400) / 256 * 256 + (0xD800 + m / 0x400) % 256 = 0xD800 + m / 0x400 by omega] at e1
    rw [show (0xDC00 + m % 0x400) / 256 * 256 + (0xDC00 + m % 0x400) % 256 = 0xDC00 + m % 0x400 by omega] at e2
    show decodeUtf16be (_ :: _ :: _ :: _ :: rest) = _
    rw [decodeUtf16be, e1, e2]
    simp only
    rw [if_neg (by omega), if_pos (by omega), if_pos (by omega), hr]
    simp only [Option.map_some, Option.some.injEq, List.cons.injEq, and_true]
    omega

theorem decodeUtf16be_utf16 : ∀ t : Str, (∀ n ∈ t, Spec.IsScalar n) → decodeUtf16be (Spec.utf16 t) = some t
  | [], _ => rfl
  | n :: t, h => by
    rw [Spec.utf16, List.flatMap_cons]
    exact decodeUtf16be_char (h n (by simp)) _ (decodeUtf16be_utf16 t (fun m hm => h m (by simp [hm])))

/-! Hexadecimal strings -/

theorem hexDigitOf_spec {c : UInt8} {n : Nat} (h : Spec.HexDigitOf c n) :
    n < 16 ∧ c.toNat < 128 ∧ c ≠ 92 ∧ hexChar c.toNat = some n ∧ isHexSpace c.toNat = false ∧
      docChar c = c.toNat := by
  have hn : n < 16 := by
    rcases h with h | h <;> have := (List.getElem?_eq_some_iff.1 h).1 <;> simpa using this
  have key : ∀ n, n < 16 → ∀ c ∈ [(b!"0123456789ABCDEF")[n]?, (b!"0123456789abcdef")[n]?], ∀ d, c = some d →
      d.toNat < 128 ∧ d ≠ 92 ∧ hexChar d.toNat = some n ∧ isHexSpace d.toNat = false := by decide +kernel
  have := key n hn (some c) (by rcases h with h | h <;> simp [h]) c rfl
  refine ⟨hn, this.1, this.2.1, this.2.2.1, this.2.2.2, ?_⟩
  apply docChar_ascii
  have h1 := this.2.2.1
  have h2 := this.1
  revert h1 h2
  have key2 : ∀ c : UInt8, c.toNat < 128 → (hexChar c.toNat).isSome → 0x20 ≤ c.toNat := by
    apply forall_byte; decide +kernel
  intro h1 h2
  have := key2 c h2 (by simp [h1])
  omega

theorem fromHex_space {c : Nat} (h : isHexSpace c = true) (t : Str) : fromHex (c :: t) = fromHex t := by
  cases t with
  | nil => simp [fromHex, h]
  | cons d t => rw [fromHex]; simp [h]

theorem fromHex_hex {h s : Bytes} (hh : Spec.Hex h s) : fromHex (h.map UInt8.toNat) = some s := by
  induction hh with
  | nil => rfl
  | space c hc _ ih =>
    rw [List.map_cons, fromHex_space _, ih]
    revert hc; revert c; decide
  | byte c d b hc hd _ ih =>
    obtain ⟨_, _, _, hc1, hc2, _⟩ := hexDigitOf_spec hc
    obtain ⟨_, _, _, hd1, _, _⟩ := hexDigitOf_spec hd
    rw [List.map_cons, List.map_cons, fromHex]
    simp only [hc2, hc1, hd1, ih]
    have : 16 * (b.toNat / 16) + b.toNat % 16 = b.toNat := by omega
    simp [this]

theorem hexForm_chars {h s : Bytes} (hh : Spec.Hex h s) :
    ∀ c ∈ h, c.toNat < 128 ∧ c ≠ 92 ∧ docChar c = c.toNat := by
  induction hh with
  | nil => simp
  | space c hc _ ih =>
    intro x hx
    rcases List.mem_cons.1 hx with rfl | hx
    · have : ∀ x ∈ ([9, 10, 12, 13, 32] : Bytes), x.toNat < 128 ∧ x ≠ 92 ∧ docChar x = x.toNat := by
        decide +kernel
      exact this x hc
    · exact ih x hx
  | byte c d b hc hd _ ih =>
    intro x hx
    rcases List.mem_cons.1 hx with rfl | hx
    · have := hexDigitOf_spec hc; exact ⟨this.2.1, this.2.2.1, this.2.2.2.2.2⟩
    rcases List.mem_cons.1 hx with rfl | hx
    · have := hexDigitOf_spec hd; exact ⟨this.2.1, this.2.2.1, this.2.2.2.2.2⟩
    · exact ih x hx

theorem map_congr_on {α β : Type} {f g : α → β} {l : List α} (h : ∀ x ∈ l, f x = g x) : l.map f = l.map g :=
  List.map_congr_left h

theorem decodeAscii_eq {s : Bytes} (h : ∀ c ∈ s, c.toNat < 128) : decodeAscii s = .ok (s.map UInt8.toNat) := by
  unfold decodeAscii
  apply mapM_ok
  intro x hx
  rw [if_pos (h x hx)]

/-! Width tables -/

theorem setEach_get (t : WidthTable) (ws : List Obj) : ∀ (first c : Int),
    setEach t first ws c =
      if first ≤ c then (match ws[(c - first).toNat]? with | some w => some w | none => t c) else t c := by
  induction ws generalizing t with
  | nil => intro first c; simp [setEach]
  | cons x ws ih =>
    intro first c
    rw [setEach, ih]
    by_cases h : first + 1 ≤ c
    · rw [if_pos h, if_pos (by omega)]
      have : (c - first).toNat = (c - (first + 1)).toNat + 1 := by omega
      rw [this, List.getElem?_cons_succ]
      simp only [WidthTable.set]
      rw [if_neg (by omega)]
    · rw [if_neg h]
      by_cases h' : c = first
      · subst h'; simp [WidthTable.set]
      · rw [if_neg (by omega)]; simp [WidthTable.set, h']

theorem setRange_get (x : Obj) (n : Nat) : ∀ (t : WidthTable) (first c : Int),
    setRange t first x n c = if first ≤ c ∧ c < first + n then some x else t c := by
  induction n with
  | zero => intro t first c; rw [setRange, if_neg (by omega)]
  | succ n ih =>
    intro t first c
    rw [setRange, ih]
    by_cases h : first + 1 ≤ c ∧ c < first + 1 + n
    · rw [if_pos h, if_pos (by omega)]
    · rw [if_neg h]
      by_cases h' : c = first
      · subst h'; simp [WidthTable.set]; omega
      · rw [if_neg (by omega)]; simp [WidthTable.set, h']

/-- The table after one group. -/
def groupTable (t : WidthTable) : Spec.WGroup → WidthTable
  | .each first ws => setEach t first ws
  | .range a b w => setRange t a w (b + 1 - a).toNat

theorem prepareWLoop_groups (gs : List Spec.WGroup) : ∀ t : WidthTable,
    prepareWLoop t (Spec.wArray gs) = .ok (gs.foldl groupTable t) := by
  induction gs with
  | nil => intro t; rfl
  | cons g gs ih =>
    intro t
    cases g with
    | each first ws => rw [Spec.wArray, prepareWLoop, ih]; rfl
    | range a b w => rw [Spec.wArray, prepareWLoop, ih]; rfl

theorem groupTable_covers {g : Spec.WGroup} {c : Int} {w : Obj} (h : Spec.Covers g c w) (t : WidthTable) :
    groupTable t g c = some w := by
  cases g with
  | each first ws =>
    obtain ⟨k, rfl, hk⟩ := h
    rw [groupTable, setEach_get, if_pos (by omega)]
    have : (first + (k : Int) - first).toNat = k := by omega
    rw [this, hk]
  | range a b w' =>
    obtain ⟨h1, h2, rfl⟩ := h
    rw [groupTable, setRange_get, if_pos (by omega)]

theorem groupTable_not {g : Spec.WGroup} {c : Int} (h : ∀ w, ¬ Spec.Covers g c w) (t : WidthTable) :
    groupTable t g c = t c := by
  cases g with
  | each first ws =>
    rw [groupTable, setEach_get]
    split
    · rename_i hc
      split
      · rename_i w hw
        exact absurd ⟨(c - first).toNat, by omega, hw⟩ (h w)
      · rfl
    · rfl
  | range a b w' =>
    rw [groupTable, setRange_get]
    split
    · exact absurd ⟨by omega, by omega, rfl⟩ (h w')
    · rfl

theorem foldl_groupTable_not (gs : List Spec.WGroup) {c : Int} (h : ∀ g ∈ gs, ∀ w, ¬ Spec.Covers g c w) :
    ∀ t : WidthTable, gs.foldl groupTable t c = t c := by
  induction gs with
  | nil => intro t; rfl
  | cons g gs ih =>
    intro t
    rw [List.foldl_cons, ih (fun g' hg' => h g' (by simp [hg'])), groupTable_not (h g (by simp))]

end Pdf
