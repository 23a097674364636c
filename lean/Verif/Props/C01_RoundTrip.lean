/-
C01: serialised objects parse back to the same object.
-/
import Verif.Lemmas.PyEq

namespace Pdf
open Spec

/-- C01. For every well-formed object (`Spec.WF`: booleans, integers, decimals, names, keywords, literal and
hexadecimal strings, arrays and dictionaries nested to any depth, references inside them) at any
indentation `depth`, `serialize` succeeds, and `parse_obj`, started where the serialisation was
written, in a file with anything before and anything after it, returns an object equal to the original
in Python's sense. What follows must be: a delimiter or white space when the object is not
self-delimited; not the keyword `stream` after a dictionary.

Partial: the full claim has no `WF` restriction. `C01_backslash_counterexample`,
`C01_angle_counterexample`, `C01_bracket_counterexample`, `C01_bare_ref_counterexample`,
`C01_generation_counterexample` and `C01_null_counterexample` show that the code falsifies it without
the restrictions of `WF`. -/
theorem C01_roundtrip_partial [Zlib] (v : Obj) (hv : WF false false v = true)
    (href : ∀ g n, v ≠ .ref g n) (depth : Nat) (pre post : Bytes)
    (hpost : (∃ c rest, post = c :: rest ∧ Ends c) ∨
      (∃ l, v = .list l) ∨ (∃ d, v = .dict d) ∨ (∃ s, v = .bytes s))
    (hstream : (∃ d, v = .dict d) → NoStreamNext post) :
    ∃ s v', serialize depth v = .ok s ∧
      parseObj (pre ++ s ++ post) pre.length = .ok v' ∧ pyEq v v' = true := by
  refine ⟨ser depth v, norm v, serialize_eq v _ _ depth hv, ?_, pyEq_norm v _ _ hv⟩
  rw [List.append_assoc]
  refine parse_ser hv href depth pre post ?_ (fun hd => noStreamNext (hstream hd))
  rcases hpost with ⟨c, rest, e, hc⟩ | h
  · exact .inl ⟨c, rest, e, (isBreak_iff c).2 hc⟩
  · exact .inr h

/-- The object of the non-vacuity example: nested containers with every kind of leaf. -/
def sampleObj : Obj :=
  .dict [(b!"/Type", .str b!"/Page"), (b!"/Parent", .ref 0 3), (b!"/X", .str b!"null"),
    (b!"/Box", .list [.int 0, .int (-5), .real true 612 b!"25", .list [.bool true, .ref 0 7, .ref 0 8]]),
    (b!"/T", .bytes b!"(a\\)b(c))"), (b!"/H", .bytes b!"<0A fF>"),
    (b!"/D", .dict [(b!"/E", .bool false)])]

example : WF false false sampleObj = true := by decide
example : ∀ g n, sampleObj ≠ .ref g n := by simp [sampleObj]
example : NoStreamNext b!"\nendobj\n" := by
  rintro gap rest hg e
  have h := congrArg (fun l => (l.head?, l.tail.head?)) e
  cases gap with
  | nil => simp at h
  | cons c gap =>
    cases gap with
    | nil => simp at h
    | cons d gap =>
      simp at h
      exact (hg d (by simp)).2.1 (by rw [← h.2]; decide)

/-- A dictionary value that is a reference is really read as one: `C01_roundtrip_partial` is not about
opaque leaves. -/
theorem C01_reference_in_array [Zlib] (n : Nat) (hn : n ≤ 9007199254740992) (pre post : Bytes) :
    ∃ s, serialize 0 (.list [.ref 0 n]) = .ok s ∧
      parseObj (pre ++ s ++ post) pre.length = .ok (.list [.ref 0 n]) := by
  have hv : WF false false (.list [.ref 0 n]) = true := by
    simp only [WF, WFItems, Int.natAbs_natCast, decide_true, Bool.true_and, Bool.and_true,
      decide_eq_true_eq]
    exact hn
  refine ⟨_, serialize_eq _ _ _ 0 hv, ?_⟩
  rw [List.append_assoc]
  exact parse_ser hv (by simp) 0 pre post (.inr (.inl ⟨_, rfl⟩)) (by simp)

example : (12 : Nat) ≤ 9007199254740992 := by decide

/-- `serialize(b'(a\\\\)')` (a string ending with an escaped backslash, a valid literal string)
is not read back: the tokenizer takes `\)` as an escaped parenthesis, so that the string, and the array
around it, have no end. -/
theorem C01_backslash_counterexample [Zlib] :
    ∃ s, serialize 0 (.list [.bytes b!"(a\\\\)"]) = .ok s ∧
      ∀ v', parseObj (s ++ b!" ") 0 = .ok v' → pyEq (.list [.bytes b!"(a\\\\)"]) v' = false :=
  ⟨_, rfl, by
    intro v' h
    have : parseObj (b!"[ (a\\\\) ]" ++ b!" ") 0 = .ok (.list []) := rfl
    cases h.symm.trans this
    rfl⟩

/-- A literal string containing `>>` ends the dictionary around it. -/
theorem C01_angle_counterexample [Zlib] :
    ∃ s, serialize 0 (.dict [(b!"/A", .bytes b!"(>>)")]) = .ok s ∧
      ∀ v', parseObj (s ++ b!" ") 0 = .ok v' → pyEq (.dict [(b!"/A", .bytes b!"(>>)")]) v' = false :=
  ⟨_, rfl, by
    intro v' h
    have : parseObj (b!"<< /A (>>) >>" ++ b!" ") 0 = .ok (.dict []) := rfl
    cases h.symm.trans this
    rfl⟩

/-- A closing bracket after a nested parenthesis ends the array: the items after the string are lost. -/
theorem C01_bracket_counterexample [Zlib] :
    ∃ s, serialize 0 (.list [.bytes b!"((a)])", .int 1]) = .ok s ∧
      ∀ v', parseObj (s ++ b!" ") 0 = .ok v' → pyEq (.list [.bytes b!"((a)])", .int 1]) v' = false :=
  ⟨_, rfl, by
    intro v' h
    have : parseObj (b!"[ ((a)]) 1 ]" ++ b!" ") 0 = .ok (.list [.bytes b!"((a)])"]) := rfl
    cases h.symm.trans this
    rfl⟩

/-- A bare reference is read as its number. -/
theorem C01_bare_ref_counterexample [Zlib] :
    ∃ s, serialize 0 (.ref 0 5) = .ok s ∧
      ∀ v', parseObj (s ++ b!" ") 0 = .ok v' → pyEq (.ref 0 5) v' = false :=
  ⟨_, rfl, by
    intro v' h
    have : parseObj (b!"5 0 R" ++ b!" ") 0 = .ok (.int 5) := rfl
    cases h.symm.trans this
    rfl⟩

/-- The generation of a reference is lost. -/
theorem C01_generation_counterexample [Zlib] :
    ∃ s, serialize 0 (.list [.ref 3 5]) = .ok s ∧
      ∀ v', parseObj (s ++ b!" ") 0 = .ok v' → pyEq (.list [.ref 3 5]) v' = false :=
  ⟨_, rfl, by
    intro v' h
    have : parseObj (b!"[ 5 3 R ]" ++ b!" ") 0 = .ok (.list [.ref 0 5]) := rfl
    cases h.symm.trans this
    rfl⟩

/-- `None`, which `parse_obj` and `get_object` may return, cannot be serialised. -/
theorem C01_null_counterexample : serialize 0 (.list [.null]) = .error .attributeError := rfl

end Pdf
