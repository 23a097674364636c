/-
C06: termination of the parser.
-/
import Verif.Lemmas.StuckText
import Verif.Lemmas.KernelRfl

namespace Pdf
open Spec

/-- C06 is false: `parse_obj(b'<< ] >>')` loops forever. The token is a DICT ending at 7, and at index 3
(below the bound 6 of the loop) `next_token` returns index 3 and no type, so that the loop state never
changes. The model reports `.nonterm`. -/
theorem C06_diverges [Zlib] :
    nextToken b!"<< ] >>" 0 = (0, 7, some .dict) ∧ nextToken b!"<< ] >>" 2 = (2, 3, none) ∧
    nextToken b!"<< ] >>" 3 = (3, 3, none) ∧ 3 < 7 - 1 ∧
    parseObj b!"<< ] >>" 0 = .error .nonterm := ⟨rfl, rfl, rfl, by decide, rfl⟩

/-- The same with a legal file content: the tokenizer does not see that the parenthesis belongs to a comment, so
that the first bracket does not end the array. -/
theorem C06_diverges_array [Zlib] :
    nextToken b!"[ %(\n ] ) ]" 0 = (0, 11, some .array) ∧ nextToken b!"[ %(\n ] ) ]" 6 = (6, 6, none) ∧
    parseObj b!"[ %(\n ] ) ]" 0 = .error .nonterm := ⟨rfl, rfl, rfl⟩

/-- A stream under a predictor with -1 columns. -/
def noColumns : Bytes :=
  b!"<< /Filter /FlateDecode /DecodeParms << /Predictor 12 /Columns -1 >> >>\nstream\nx\nendstream"

/-- The second cause: a predictor with -1 columns reads rows of no byte, forever. -/
theorem C06_diverges_predictor [Zlib] (hz : Zlib.decompress b!"x" = some b!"abc") :
    parseObj noColumns 0 = .error .nonterm := by
  refine (stuck_iff _ _).mpr (Stuck.data (h := 0) (j := 71) (h2 := 72) (j2 := 90)
    (d := [(b!"/DecodeParms", .dict [(b!"/Columns", .int (-1)), (b!"/Predictor", .int 12)]),
      (b!"/Filter", .str b!"/FlateDecode")]) (enc := b!"x") (by kernel_rfl) (by kernel_rfl)
    (by kernel_rfl) (by kernel_rfl) ?_)
  have hs : (strSplit b!"/FlateDecode").map Obj.str = [.str b!"/FlateDecode"] := by kernel_rfl
  show decodeLoop b!"x" [some (.dict [(b!"/Columns", .int (-1)), (b!"/Predictor", .int 12)])] 0
    ((strSplit b!"/FlateDecode").map Obj.str) none = _
  rw [hs]
  simp [decodeLoop, flateStage, hz, hasPredictor, Dict.get?, Dict.has, List.lookup, intOf, decodePredictor]

/-- C06, exactly. The parser diverges on the texts that are `Stuck`, and on no other: an item loop reaches a
closing bracket where an item is expected (`StuckAmong.bracket`; at any depth), or the data of a stream are
never decoded (`Stuck.data`). -/
theorem C06_exact [Zlib] (text : Bytes) (start : Nat) :
    parseObj text start = .error .nonterm ↔ Stuck text start := stuck_iff text start

/-- The decoding diverges only under a predictor with a negative number of columns, on data that are not
empty. -/
theorem C06_decoding [Zlib] (s : Bytes) (d : Dict) (h : decodeStream s d = .error .nonterm) :
    ∃ o p, Dict.get? d b!"/DecodeParms" = some o ∧ (o = .dict p ∨ ∃ l, o = .list l ∧ .dict p ∈ l) ∧
      ∃ res oc c, Zlib.decompress s = some res ∧ res ≠ [] ∧ Dict.has p b!"/Predictor" = true ∧
        Dict.get? p b!"/Columns" = some oc ∧ intOf oc = some c ∧ c ≤ -1 := by
  obtain ⟨o, p, ho, hp, res, oc, c, h1, h2, h3, h4, h5, h6⟩ := decodeStream_stuck h
  exact ⟨o, p, ho, hp, res, oc, c, h1, h2, h3, h4, h5, by omega⟩

/-- C06. Texts without `]` and without the name `/Columns`, malformed or not, are parsed, or an exception is
raised, in finitely many steps, whatever the fuel given above a bound.
Partial: `C06_diverges` and `C06_diverges_predictor` show that some of the other texts make the parser loop
forever; `C06_exact` tells which (the serialised arrays of `C01_roundtrip_partial` do not). -/
theorem C06_terminates_partial [Zlib] (text : Bytes) (start : Nat)
    (h1 : 93 ∉ text) (h2 : ¬ b!"/Columns" <:+: text) :
    ∃ r, r ≠ .error .nonterm ∧ ∀ fuel, 2 * text.length + 1 ≤ fuel → parseObjF fuel text start = r :=
  ⟨parseObj text start, fun h => (stuck_suspect ((stuck_iff _ _).mp h)).elim h1 h2,
    fun fuel hf => parseObjF_eq text start fuel hf⟩

/-- Malformed texts, one with a stream, which meet the hypotheses. -/
example : 93 ∉ b!"<< /A << (x >> [ } 1 >" ∧ ¬ b!"/Columns" <:+: b!"<< /A << (x >> [ } 1 >" ∧
    93 ∉ b!"<< /Filter /FlateDecode /Predictor >> stream\nendstream" ∧
    ¬ b!"/Columns" <:+: b!"<< /Filter /FlateDecode /Predictor >> stream\nendstream" := by decide

/-- A text that is `Stuck` in a nested dictionary. -/
example [Zlib] : Stuck b!"<< /A << ] >> >>" 0 :=
  .dict (h := 0) (j := 16) (by kernel_rfl) (by decide)
    (.after (h := 3) (i' := 5) (t := .name) (o := .str b!"/A") (by decide) (by kernel_rfl) (by decide)
      (by kernel_rfl)
      (.inside (h := 6) (i' := 13) (t := .dict) (by decide) (by kernel_rfl) (.inl rfl) (fun _ => by decide)
        (.dict (h := 0) (j := 7) (by kernel_rfl) (by decide)
          (.skip (h := 2) (i' := 3) (t := none) (by decide) (by kernel_rfl) (.inl rfl) (by decide)
            (.bracket (by decide) (by kernel_rfl))))))

end Pdf
