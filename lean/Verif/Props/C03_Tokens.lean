/-
C03, C04, C05: the tokenizer.
-/
import Verif.Lemmas.Shift

namespace Pdf
open Spec

/-- C03. `next_token` (a total function: it terminates) stays in bounds and advances: a typed token is
not empty; an untyped result means that the text is exhausted, or that the scan stopped at `]`, or at the
second byte of `>>`, having skipped only bytes that start no token. -/
theorem C03_bounds (text : Bytes) (start : Nat) (hs : start ≤ text.length) (h j : Nat) (t : Option TokT)
    (e : nextToken text start = (h, j, t)) :
    start ≤ h ∧ h ≤ j ∧ j ≤ text.length ∧ (t ≠ none → h < j) ∧
    (t = none → j = text.length ∨
      (text[j]? = some 93 ∧ ∀ c ∈ slice text start j, Skipped c) ∨
      (b!">>" <+: text.drop (j - 1) ∧ start < j ∧ ∀ c ∈ slice text start (j - 1), Skipped c)) := by
  have hg := nextToken_good text start hs
  rw [e] at hg
  obtain ⟨a, b, c, d⟩ := hg
  refine ⟨a, b, c, ?_, ?_⟩
  · intro ht
    cases t with
    | none => exact absurd rfl ht
    | some t => exact d.1
  · rintro rfl; exact d

/-- The three kinds of untyped results and a typed one do occur. -/
example : nextToken b!" /A ]" 0 = (1, 3, some .name) ∧ nextToken b!" /A ]" 3 = (3, 4, none) ∧
    nextToken b!" >>" 0 = (0, 2, none) ∧ nextToken b!"/A" 0 = (0, 2, none) := by decide

/-- C04. A token has the lexical shape of its type (`Spec.Shape`), and what was skipped before it starts no
token. -/
theorem C04_shape (text : Bytes) (start : Nat) (hs : start ≤ text.length) (h j : Nat) (t : TokT)
    (e : nextToken text start = (h, j, some t)) :
    Shape t (slice text h j) (text.drop j) ∧ ∀ c ∈ slice text start h, Skipped c := by
  have hg := nextToken_good text start hs
  rw [e] at hg
  exact ⟨hg.2.2.2.2.1, hg.2.2.2.2.2⟩

example : nextToken b!"  -1.5]" 0 = (2, 6, some .real) ∧
    nextToken b!" stream\n x\r\nendstream" 0 = (1, 21, some .stream) := by decide

/-- C05. Tokens are found at shifted positions after any prefix. -/
theorem C05_next_token (pre text : Bytes) (start h j : Nat) (t : Option TokT)
    (e : nextToken text start = (h, j, t)) :
    nextToken (pre ++ text) (pre.length + start) = (pre.length + h, pre.length + j, t) := by
  rw [nextToken_shift, e]
  rfl

/-- C05. Parsing does not depend on what precedes. -/
theorem C05_parse_obj [Zlib] (pre text : Bytes) :
    parseObj (pre ++ text) pre.length = parseObj text 0 := parseObj_shift pre text 0

/-- A case where the result is a whole object. -/
example [Zlib] : parseObj (b!"xref >> stream (" ++ b!"[ 1 /A ] ") 16 = .ok (.list [.int 1, .str b!"/A"]) :=
  (C05_parse_obj b!"xref >> stream (" b!"[ 1 /A ] ").trans rfl

end Pdf
