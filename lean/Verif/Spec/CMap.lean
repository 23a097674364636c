/-
Independent description of ToUnicode CMaps (ISO 32000-1, 9.10.3) and of strings of codes.
-/
import Verif.Spec.Text

namespace Pdf.Spec

/-- Value of a big-endian sequence of bytes. -/
def beValue : Bytes → Nat
  | [] => 0
  | c :: s => c.toNat * 256 ^ s.length + beValue s

/-- An entry of a ToUnicode CMap. -/
inductive UEntry
  /-- `<code> <text>` between beginbfchar and endbfchar. -/
  | char (code : Nat) (t : List Nat)
  /-- `<lo> <hi> <first>` between beginbfrange and endbfrange: consecutive characters. -/
  | range (lo hi first : Nat)
  /-- `<lo> <hi> [<t0> <t1> …]`. -/
  | each (lo hi : Nat) (ts : List (List Nat))

/-- The entry maps the code to the text. -/
def UEntry.Maps : UEntry → Nat → List Nat → Prop
  | .char c t, n, s => n = c ∧ s = t
  | .range lo hi f, n, s => lo ≤ n ∧ n ≤ hi ∧ s = [f + (n - lo)]
  | .each lo hi ts, n, s => lo ≤ n ∧ n ≤ hi ∧ ts[n - lo]? = some s

/-- `s` is the text of the code `n`: given by the first entry that maps it; nothing if there is none. -/
def UnicodeOf (es : List UEntry) (n : Nat) (s : List Nat) : Prop :=
  (∃ pre e post, es = pre ++ e :: post ∧ e.Maps n s ∧ ∀ e' ∈ pre, ∀ s', ¬ e'.Maps n s') ∨
  ((∀ e ∈ es, ∀ s', ¬ e.Maps n s') ∧ s = [])

/-- The object is the hexadecimal string of these bytes, without white space. -/
def HexObj (s : Bytes) (o : Obj) : Prop :=
  ∃ h, o = .bytes (b!"<" ++ h ++ b!">") ∧ Hex h s ∧ h.length = 2 * s.length

/-- The object writes the code `n` on `w` bytes. -/
def CodeObj (w n : Nat) (o : Obj) : Prop := ∃ s, s.length = w ∧ beValue s = n ∧ HexObj s o

/-- The object writes the text in UTF-16BE; white space is allowed. -/
def TextObj (t : List Nat) (o : Obj) : Prop :=
  (∀ n ∈ t, IsScalar n) ∧ ∃ h, o = .bytes (b!"<" ++ h ++ b!">") ∧ Hex h (utf16 t)

/-- The objects of a bfchar section. -/
inductive CharItems (w : Nat) : List Obj → List UEntry → Prop
  | nil : CharItems w [] []
  | cons {n t a b r es} : CodeObj w n a → TextObj t b → CharItems w r es →
      CharItems w (a :: b :: r) (.char n t :: es)

/-- The characters `first`, `first + 1`, … of a range, as far as the format of the target allows: the
second half of a surrogate pair is incremented, not the first one. -/
def Consecutive (first k : Nat) : Prop :=
  IsScalar (first + k) ∧ (first + k < 0x10000 ∨ 0x10000 ≤ first ∧ (first + k) / 0x400 = first / 0x400)

/-- The objects of a bfrange section. -/
inductive RangeItems (w : Nat) : List Obj → List UEntry → Prop
  | nil : RangeItems w [] []
  | range {lo hi f a z b r es} : CodeObj w lo a → CodeObj w hi z →
      (∀ k, lo + k ≤ hi → Consecutive f k) → HexObj (utf16Char f) b →
      RangeItems w r es → RangeItems w (a :: z :: b :: r) (.range lo hi f :: es)
  | each {lo hi a z ts l r es} : CodeObj w lo a → CodeObj w hi z → hi < lo + ts.length →
      l.length = ts.length → (∀ (k : Nat) t o, ts[k]? = some t → l[k]? = some o → TextObj t o) →
      RangeItems w r es → RangeItems w (a :: z :: .list l :: r) (.each lo hi ts :: es)

/-- The tokens of a CMap and the entries they write, the codes being on `w` bytes. -/
inductive CMapTokens (w : Nat) : List Obj → List UEntry → Prop
  | nil : CMapTokens w [] []
  | other {o r es} : (∀ k ∈ [b!"begincodespacerange", b!"beginbfchar", b!"beginbfrange"], o ≠ .str k) →
      CMapTokens w r es → CMapTokens w (o :: r) es
  | codespace {a b more r es} : (∀ o ∈ more, ∀ k, o ≠ Obj.str k) → CMapTokens w r es →
      CMapTokens w (.str b!"begincodespacerange" :: a :: b :: (more ++ .str b!"endcodespacerange" :: r)) es
  | chars {items es r es'} : CharItems w items es → es ≠ [] → CMapTokens w r es' →
      CMapTokens w (.str b!"beginbfchar" :: (items ++ .str b!"endbfchar" :: r)) (es ++ es')
  | ranges {items es r es'} : RangeItems w items es → es ≠ [] → CMapTokens w r es' →
      CMapTokens w (.str b!"beginbfrange" :: (items ++ .str b!"endbfrange" :: r)) (es ++ es')

/-- `Shown s codes`: `s` is a string, literal or hexadecimal, made of the codes one after the other. -/
inductive Shown : Bytes → List Bytes → Prop
  | literal {e codes} : Escapes e codes.flatten → Shown (b!"(" ++ e ++ b!")") codes
  | hex {h codes} : Hex h codes.flatten → h.length = 2 * codes.flatten.length →
      Shown (b!"<" ++ h ++ b!">") codes

end Pdf.Spec
