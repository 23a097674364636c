/-
C02: stream objects survive writing and reading.
-/
import Verif.Lemmas.StreamRT

namespace Pdf
open Spec

/-- C02. A stream object with well-formed dictionary `d` and encoded bytes `enc`, written anywhere in a file, is
read back as a stream with an equal dictionary and the same encoded bytes, its content being
`decode_stream` of them (whatever that gives).

Partial: the full claim has no hypothesis on `enc`; `C02_empty_counterexample`, `C02_cr_counterexample` and
`C02_endstream_counterexample` show that each hypothesis is necessary. -/
theorem C02_stream_roundtrip_partial [Zlib] (d : List (Bytes × Obj)) (content enc : Bytes)
    (hd : WF false false (.dict d) = true)
    (hne : enc ≠ []) (hno : ¬ b!"endstream" <:+: enc) (hcr : enc.getLast? ≠ some 13)
    (depth : Nat) (pre post : Bytes) :
    ∃ s d', serialize depth (.stream d content enc) = .ok s ∧
      pyEq (.dict d) (.dict d') = true ∧
      parseObj (pre ++ s ++ post) pre.length =
        (decodeStream enc d).map (fun content' => .stream d' content' enc) := by
  have hd0 := hd
  simp only [WF, Bool.and_eq_true, decide_eq_true_eq] at hd
  refine ⟨ser depth (.dict d) ++ b!"\n" ++ streamPart enc, (normEntries d).reverse, ?_,
    pyEq_norm (.dict d) _ _ hd0, ?_⟩
  · rw [serialize, serializeEntries_eq d _ _ depth hd.1]
    simp [bind, Except.bind, hne, ser, streamPart]
  · rw [List.append_assoc]
    have := parseObj_shift pre (ser depth (.dict d) ++ b!"\n" ++ streamPart enc ++ post) 0
    rw [Nat.add_zero] at this
    rw [this, parse_stream hd.1 hd.2 hno hcr depth post, decodeStream_norm hd.1 hd.2]

/-- Unfiltered content in particular. -/
theorem C02_unfiltered_partial [Zlib] (d : List (Bytes × Obj)) (enc : Bytes)
    (hd : WF false false (.dict d) = true) (hf : Dict.get? d b!"/Filter" = none)
    (hne : enc ≠ []) (hno : ¬ b!"endstream" <:+: enc) (hcr : enc.getLast? ≠ some 13)
    (depth : Nat) (pre post : Bytes) :
    ∃ s v', serialize depth (.stream d enc enc) = .ok s ∧
      parseObj (pre ++ s ++ post) pre.length = .ok v' ∧ pyEq (.stream d enc enc) v' = true := by
  obtain ⟨s, d', h1, h2, h3⟩ := C02_stream_roundtrip_partial d enc enc hd hne hno hcr depth pre post
  have hdec : decodeStream enc d = .ok enc := by simp [decodeStream, hf]
  rw [hdec] at h3
  refine ⟨s, .stream d' enc enc, h1, h3, ?_⟩
  simp only [pyEq, Bool.and_eq_true, decide_eq_true_eq] at h2 ⊢
  exact ⟨⟨⟨h2.1, h2.2⟩, trivial⟩, trivial⟩

/-- Binary content, which looks like the end of a stream, meets the hypotheses. -/
example : WF false false (.dict [(b!"/Length", .int 13), (b!"/X", .dict [(b!"/Y", .ref 0 4)])]) = true ∧
    b!"q\r\nendstrea\r\n" ≠ [] ∧ ¬ b!"endstream" <:+: b!"q\r\nendstrea\r\n" ∧
    (b!"q\r\nendstrea\r\n").getLast? ≠ some 13 ∧
    Dict.get? [(b!"/Length", .int 13), (b!"/X", .dict [(b!"/Y", .ref 0 4)])] b!"/Filter" = none := by
  decide

/-- A stream without content is written as a plain dictionary. -/
theorem C02_empty_counterexample [Zlib] :
    ∃ s, serialize 0 (.stream [(b!"/Length", .int 1)] [] []) = .ok s ∧
      parseObj (s ++ b!"\n") 0 = .ok (.dict [(b!"/Length", .int 1)]) :=
  ⟨_, rfl, rfl⟩

/-- Content ending with a carriage return loses it. -/
theorem C02_cr_counterexample [Zlib] :
    ∃ s, serialize 0 (.stream [] b!"q\r" b!"q\r") = .ok s ∧
      parseObj (s ++ b!"\n") 0 = .ok (.stream [] b!"q" b!"q") :=
  ⟨_, rfl, rfl⟩

/-- Content containing the word `endstream` is cut there, although /Length says otherwise. -/
theorem C02_endstream_counterexample [Zlib] :
    ∃ s, serialize 0 (.stream [(b!"/Length", .int 16)] b!"q endstream Q x" b!"q endstream Q x") = .ok s ∧
      parseObj (s ++ b!"\n") 0 = .ok (.stream [(b!"/Length", .int 16)] b!"q " b!"q ") :=
  ⟨_, rfl, rfl⟩

end Pdf
