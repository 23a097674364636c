/-
C99: a file that meets the hypotheses, with a table, a cross-reference stream and an object stream.
-/
import Verif.Props.C99_Foreign
import Verif.Props.C98_Spelling

namespace Pdf
open Spec


def foreignFile : Bytes := [37, 80, 68, 70, 45, 49, 46, 53, 10, 49, 32, 48, 32, 111, 98, 106, 60, 60, 47, 84, 121, 112, 101, 47, 67, 97, 116, 97, 108, 111, 103, 47, 80, 97, 103, 101, 115, 32, 50, 32, 48, 32, 82, 62, 62, 101, 110, 100, 111, 98, 106, 13, 10, 120, 114, 101, 102, 13, 10, 48, 32, 50, 13, 10, 48, 48, 48, 48, 48, 48, 48, 48, 48, 48, 32, 54, 53, 53, 51, 53, 32, 102, 13, 10, 48, 48, 48, 48, 48, 48, 48, 48, 48, 57, 32, 48, 48, 48, 48, 48, 32, 110, 13, 10, 116, 114, 97, 105, 108, 101, 114, 13, 10, 60, 60, 47, 83, 105, 122, 101, 32, 50, 47, 82, 111, 111, 116, 32, 49, 32, 48, 32, 82, 62, 62, 13, 10, 115, 116, 97, 114, 116, 120, 114, 101, 102, 13, 10, 53, 51, 13, 10, 37, 37, 69, 79, 70, 13, 10, 51, 32, 48, 32, 111, 98, 106, 10, 60, 60, 47, 84, 121, 112, 101, 47, 79, 98, 106, 83, 116, 109, 47, 78, 32, 49, 47, 70, 105, 114, 115, 116, 32, 52, 47, 76, 101, 110, 103, 116, 104, 32, 50, 51, 62, 62, 115, 116, 114, 101, 97, 109, 10, 50, 32, 48, 32, 60, 60, 47, 75, 105, 100, 115, 91, 93, 47, 67, 111, 117, 110, 116, 32, 48, 62, 62, 10, 101, 110, 100, 115, 116, 114, 101, 97, 109, 32, 101, 110, 100, 111, 98, 106, 10, 52, 32, 48, 32, 111, 98, 106, 10, 60, 60, 47, 84, 121, 112, 101, 47, 88, 82, 101, 102, 47, 83, 105, 122, 101, 32, 53, 47, 87, 91, 49, 32, 50, 32, 49, 93, 47, 73, 110, 100, 101, 120, 91, 50, 32, 51, 93, 47, 82, 111, 111, 116, 32, 49, 32, 48, 32, 82, 47, 80, 114, 101, 118, 32, 53, 51, 47, 76, 101, 110, 103, 116, 104, 32, 49, 50, 62, 62, 115, 116, 114, 101, 97, 109, 13, 10, 2, 0, 3, 0, 1, 0, 159, 0, 1, 0, 253, 0, 10, 101, 110, 100, 115, 116, 114, 101, 97, 109, 10, 101, 110, 100, 111, 98, 106, 10, 115, 116, 97, 114, 116, 120, 114, 101, 102, 10, 50, 53, 51, 10, 37, 37, 69, 79, 70]

def fsTable : FileSec := ⟨53, b!"xref\r\n0 2\r\n0000000000 65535 f\r\n0000000009 00000 n\r\ntrailer\r\n<</Size 2/Root 1 0 R>>\r\nstartxref", none, [⟨0, [.free 0 65535, .inUse 9 0]⟩], [(b!"/Size", .int 2), (b!"/Root", .ref 0 1)]⟩

def fsStream : FileSec := ⟨253, [52, 32, 48, 32, 111, 98, 106, 10, 60, 60, 47, 84, 121, 112, 101, 47, 88, 82, 101, 102, 47, 83, 105, 122, 101, 32, 53, 47, 87, 91, 49, 32, 50, 32, 49, 93, 47, 73, 110, 100, 101, 120, 91, 50, 32, 51, 93, 47, 82, 111, 111, 116, 32, 49, 32, 48, 32, 82, 47, 80, 114, 101, 118, 32, 53, 51, 47, 76, 101, 110, 103, 116, 104, 32, 49, 50, 62, 62, 115, 116, 114, 101, 97, 109, 13, 10, 2, 0, 3, 0, 1, 0, 159, 0, 1, 0, 253, 0, 10, 101, 110, 100, 115, 116, 114, 101, 97, 109, 10, 101, 110, 100, 111, 98, 106], some 4, [⟨2, [.inside 3 0, .inUse 159 0, .inUse 253 0]⟩], [(b!"/Type", .str b!"/XRef"), (b!"/Size", .int 5), (b!"/W", .list [.int 1, .int 2, .int 1]), (b!"/Index", .list [.int 2, .int 3]), (b!"/Root", .ref 0 1), (b!"/Prev", .int 53), (b!"/Length", .int 12)]⟩

theorem fsTable_text [Zlib] : fsTable.Text := by
  have hd : Spells false false (.dict [(b!"/Size", .int 2), (b!"/Root", .ref 0 1)]) b!"<</Size 2/Root 1 0 R>>" := (.dict (t := b!"/Size 2/Root 1 0 R") (.cons (g := []) (s := b!"/Size") (t := b!" 2/Root 1 0 R") .nil (.name (s := b!"/Size") (by decide)) (.cons (g := b!" ") (s := b!"2") (t := b!"/Root 1 0 R") (white_gap (by decide)) (.int (s := b!"2") ⟨[], false, b!"2", rfl, .none, by decide, by decide, by decide⟩) (.cons (g := []) (s := b!"/Root") (t := b!" 1 0 R") .nil (.name (s := b!"/Root") (by decide)) (.cons (g := b!" ") (s := b!"1 0 R") (t := b!"") (white_gap (by decide)) (.ref (s := b!"1") (t := b!"0") (g := b!" ") (g' := b!" ") (n := 1) (m := 0) ⟨[], false, b!"1", rfl, .none, by decide, by decide, by decide⟩ ⟨[], false, b!"0", rfl, .none, by decide, by decide, by decide⟩ (by decide) (white_gap (by decide)) (by decide) (white_gap (by decide)) (by decide)) (.nil .nil) (.inr (.inl rfl))) (.inr (.inr ⟨_, _, rfl, by decide⟩))) (.inr (.inr ⟨_, _, rfl, by decide⟩))) (.inr (.inr ⟨_, _, rfl, by decide⟩))) (by decide) (by decide))
  have hr : RunsText [⟨0, [.free 0 65535, .inUse 9 0]⟩] b!"0 2\r\n0000000000 65535 f\r\n0000000009 00000 n\r\n" :=
    .cons (r := ⟨0, [.free 0 65535, .inUse 9 0]⟩) (x := b!"0") (y := b!"2") (b1 := b!" ") (b2 := []) (e := b!"\r\n") (s := b!"0000000000 65535 f\r\n0000000009 00000 n\r\n") (t := [])
      ⟨by decide, by decide, by decide⟩ ⟨by decide, by decide, by decide⟩ (by unfold Blanks; decide) (by decide) ⟨by decide, by decide⟩
      (.cons (s := b!"0000000000 65535 f\r\n") (t := b!"0000000009 00000 n\r\n")
        (.free (x := b!"0000000000") (y := b!"65535") (b1 := b!" ") (b2 := b!" ") (b3 := []) (e := b!"\r\n") ⟨by decide, by decide, by decide⟩ ⟨by decide, by decide, by decide⟩ (by unfold Blanks; decide) (by decide) (by decide) ⟨by decide, by decide⟩)
        (.cons (s := b!"0000000009 00000 n\r\n") (t := [])
          (.inUse (x := b!"0000000009") (y := b!"00000") (b1 := b!" ") (b2 := b!" ") (b3 := []) (e := b!"\r\n") ⟨by decide, by decide, by decide⟩ ⟨by decide, by decide, by decide⟩ (by unfold Blanks; decide) (by decide) (by decide) ⟨by decide, by decide⟩) .nil)) .nil
  exact .inl ⟨b!"\r\n", b!"0 2\r\n0000000000 65535 f\r\n0000000009 00000 n\r\n", [], b!"\r\n", [], b!"<</Size 2/Root 1 0 R>>", b!"\r\n", rfl, ⟨by decide, by decide⟩, hr, by unfold Blanks; decide, ⟨by decide, by decide⟩, by decide, hd⟩

theorem fsObjStm_text [Zlib] : IndirectText 3 0 (.stream [(b!"/Type", .str b!"/ObjStm"), (b!"/N", .int 1), (b!"/First", .int 4), (b!"/Length", .int 23)] b!"2 0 <</Kids[]/Count 0>>" b!"2 0 <</Kids[]/Count 0>>") b!"3 0 obj\n<</Type/ObjStm/N 1/First 4/Length 23>>stream\n2 0 <</Kids[]/Count 0>>\nendstream endobj" := by
  have hd : Spells false false (.dict [(b!"/Type", .str b!"/ObjStm"), (b!"/N", .int 1), (b!"/First", .int 4), (b!"/Length", .int 23)]) b!"<</Type/ObjStm/N 1/First 4/Length 23>>" := (.dict (t := b!"/Type/ObjStm/N 1/First 4/Length 23") (.cons (g := []) (s := b!"/Type") (t := b!"/ObjStm/N 1/First 4/Length 23") .nil (.name (s := b!"/Type") (by decide)) (.cons (g := []) (s := b!"/ObjStm") (t := b!"/N 1/First 4/Length 23") .nil (.name (s := b!"/ObjStm") (by decide)) (.cons (g := []) (s := b!"/N") (t := b!" 1/First 4/Length 23") .nil (.name (s := b!"/N") (by decide)) (.cons (g := b!" ") (s := b!"1") (t := b!"/First 4/Length 23") (white_gap (by decide)) (.int (s := b!"1") ⟨[], false, b!"1", rfl, .none, by decide, by decide, by decide⟩) (.cons (g := []) (s := b!"/First") (t := b!" 4/Length 23") .nil (.name (s := b!"/First") (by decide)) (.cons (g := b!" ") (s := b!"4") (t := b!"/Length 23") (white_gap (by decide)) (.int (s := b!"4") ⟨[], false, b!"4", rfl, .none, by decide, by decide, by decide⟩) (.cons (g := []) (s := b!"/Length") (t := b!" 23") .nil (.name (s := b!"/Length") (by decide)) (.cons (g := b!" ") (s := b!"23") (t := b!"") (white_gap (by decide)) (.int (s := b!"23") ⟨[], false, b!"23", rfl, .none, by decide, by decide, by decide⟩) (.nil .nil) (.inr (.inl rfl))) (.inr (.inr ⟨_, _, rfl, by decide⟩))) (.inr (.inr ⟨_, _, rfl, by decide⟩))) (.inr (.inr ⟨_, _, rfl, by decide⟩))) (.inr (.inr ⟨_, _, rfl, by decide⟩))) (.inr (.inr ⟨_, _, rfl, by decide⟩))) (.inr (.inr ⟨_, _, rfl, by decide⟩))) (.inr (.inr ⟨_, _, rfl, by decide⟩))) (by decide) (by decide))
  refine ⟨b!"3", b!"0", b!" ", b!" ", b!"\n", b!"<</Type/ObjStm/N 1/First 4/Length 23>>stream\n2 0 <</Kids[]/Count 0>>\nendstream", b!" ", rfl, ⟨[], false, b!"3", rfl, .none, by decide, by decide, by decide⟩, ⟨[], false, b!"0", rfl, .none, by decide, by decide, by decide⟩, ?_, by decide, by decide, by decide, white_gap (by decide), .inl (by decide), .inl (by decide)⟩
  refine .stream (s := b!"<</Type/ObjStm/N 1/First 4/Length 23>>") (ws := []) (t := b!"stream\n2 0 <</Kids[]/Count 0>>\nendstream") hd (by decide) ⟨b!"\n", b!"\n", rfl, .inl rfl, ?_, .inr (.inr (.inl ⟨rfl, by decide⟩))⟩ rfl
  decide

theorem fsXref_text [Zlib] : IndirectText 4 0 (.stream [(b!"/Type", .str b!"/XRef"), (b!"/Size", .int 5), (b!"/W", .list [.int 1, .int 2, .int 1]), (b!"/Index", .list [.int 2, .int 3]), (b!"/Root", .ref 0 1), (b!"/Prev", .int 53), (b!"/Length", .int 12)] [2, 0, 3, 0, 1, 0, 159, 0, 1, 0, 253, 0] [2, 0, 3, 0, 1, 0, 159, 0, 1, 0, 253, 0]) [52, 32, 48, 32, 111, 98, 106, 10, 60, 60, 47, 84, 121, 112, 101, 47, 88, 82, 101, 102, 47, 83, 105, 122, 101, 32, 53, 47, 87, 91, 49, 32, 50, 32, 49, 93, 47, 73, 110, 100, 101, 120, 91, 50, 32, 51, 93, 47, 82, 111, 111, 116, 32, 49, 32, 48, 32, 82, 47, 80, 114, 101, 118, 32, 53, 51, 47, 76, 101, 110, 103, 116, 104, 32, 49, 50, 62, 62, 115, 116, 114, 101, 97, 109, 13, 10, 2, 0, 3, 0, 1, 0, 159, 0, 1, 0, 253, 0, 10, 101, 110, 100, 115, 116, 114, 101, 97, 109, 10, 101, 110, 100, 111, 98, 106] := by
  have hd : Spells false false (.dict [(b!"/Type", .str b!"/XRef"), (b!"/Size", .int 5), (b!"/W", .list [.int 1, .int 2, .int 1]), (b!"/Index", .list [.int 2, .int 3]), (b!"/Root", .ref 0 1), (b!"/Prev", .int 53), (b!"/Length", .int 12)]) b!"<</Type/XRef/Size 5/W[1 2 1]/Index[2 3]/Root 1 0 R/Prev 53/Length 12>>" := (.dict (t := b!"/Type/XRef/Size 5/W[1 2 1]/Index[2 3]/Root 1 0 R/Prev 53/Length 12") (.cons (g := []) (s := b!"/Type") (t := b!"/XRef/Size 5/W[1 2 1]/Index[2 3]/Root 1 0 R/Prev 53/Length 12") .nil (.name (s := b!"/Type") (by decide)) (.cons (g := []) (s := b!"/XRef") (t := b!"/Size 5/W[1 2 1]/Index[2 3]/Root 1 0 R/Prev 53/Length 12") .nil (.name (s := b!"/XRef") (by decide)) (.cons (g := []) (s := b!"/Size") (t := b!" 5/W[1 2 1]/Index[2 3]/Root 1 0 R/Prev 53/Length 12") .nil (.name (s := b!"/Size") (by decide)) (.cons (g := b!" ") (s := b!"5") (t := b!"/W[1 2 1]/Index[2 3]/Root 1 0 R/Prev 53/Length 12") (white_gap (by decide)) (.int (s := b!"5") ⟨[], false, b!"5", rfl, .none, by decide, by decide, by decide⟩) (.cons (g := []) (s := b!"/W") (t := b!"[1 2 1]/Index[2 3]/Root 1 0 R/Prev 53/Length 12") .nil (.name (s := b!"/W") (by decide)) (.cons (g := []) (s := b!"[1 2 1]") (t := b!"/Index[2 3]/Root 1 0 R/Prev 53/Length 12") .nil (.array (t := b!"1 2 1") (.cons (g := []) (s := b!"1") (t := b!" 2 1") .nil (.int (s := b!"1") ⟨[], false, b!"1", rfl, .none, by decide, by decide, by decide⟩) (.cons (g := b!" ") (s := b!"2") (t := b!" 1") (white_gap (by decide)) (.int (s := b!"2") ⟨[], false, b!"2", rfl, .none, by decide, by decide, by decide⟩) (.cons (g := b!" ") (s := b!"1") (t := b!"") (white_gap (by decide)) (.int (s := b!"1") ⟨[], false, b!"1", rfl, .none, by decide, by decide, by decide⟩) (.nil .nil) (.inr (.inl rfl))) (.inr (.inr ⟨_, _, rfl, by decide⟩))) (.inr (.inr ⟨_, _, rfl, by decide⟩)))) (.cons (g := []) (s := b!"/Index") (t := b!"[2 3]/Root 1 0 R/Prev 53/Length 12") .nil (.name (s := b!"/Index") (by decide)) (.cons (g := []) (s := b!"[2 3]") (t := b!"/Root 1 0 R/Prev 53/Length 12") .nil (.array (t := b!"2 3") (.cons (g := []) (s := b!"2") (t := b!" 3") .nil (.int (s := b!"2") ⟨[], false, b!"2", rfl, .none, by decide, by decide, by decide⟩) (.cons (g := b!" ") (s := b!"3") (t := b!"") (white_gap (by decide)) (.int (s := b!"3") ⟨[], false, b!"3", rfl, .none, by decide, by decide, by decide⟩) (.nil .nil) (.inr (.inl rfl))) (.inr (.inr ⟨_, _, rfl, by decide⟩)))) (.cons (g := []) (s := b!"/Root") (t := b!" 1 0 R/Prev 53/Length 12") .nil (.name (s := b!"/Root") (by decide)) (.cons (g := b!" ") (s := b!"1 0 R") (t := b!"/Prev 53/Length 12") (white_gap (by decide)) (.ref (s := b!"1") (t := b!"0") (g := b!" ") (g' := b!" ") (n := 1) (m := 0) ⟨[], false, b!"1", rfl, .none, by decide, by decide, by decide⟩ ⟨[], false, b!"0", rfl, .none, by decide, by decide, by decide⟩ (by decide) (white_gap (by decide)) (by decide) (white_gap (by decide)) (by decide)) (.cons (g := []) (s := b!"/Prev") (t := b!" 53/Length 12") .nil (.name (s := b!"/Prev") (by decide)) (.cons (g := b!" ") (s := b!"53") (t := b!"/Length 12") (white_gap (by decide)) (.int (s := b!"53") ⟨[], false, b!"53", rfl, .none, by decide, by decide, by decide⟩) (.cons (g := []) (s := b!"/Length") (t := b!" 12") .nil (.name (s := b!"/Length") (by decide)) (.cons (g := b!" ") (s := b!"12") (t := b!"") (white_gap (by decide)) (.int (s := b!"12") ⟨[], false, b!"12", rfl, .none, by decide, by decide, by decide⟩) (.nil .nil) (.inr (.inl rfl))) (.inr (.inr ⟨_, _, rfl, by decide⟩))) (.inr (.inr ⟨_, _, rfl, by decide⟩))) (.inr (.inr ⟨_, _, rfl, by decide⟩))) (.inr (.inr ⟨_, _, rfl, by decide⟩))) (.inr (.inr ⟨_, _, rfl, by decide⟩))) (.inl rfl)) (.inr (.inr ⟨_, _, rfl, by decide⟩))) (.inl rfl)) (.inr (.inr ⟨_, _, rfl, by decide⟩))) (.inr (.inr ⟨_, _, rfl, by decide⟩))) (.inr (.inr ⟨_, _, rfl, by decide⟩))) (.inr (.inr ⟨_, _, rfl, by decide⟩))) (.inr (.inr ⟨_, _, rfl, by decide⟩))) (by decide) (by decide))
  refine ⟨b!"4", b!"0", b!" ", b!" ", b!"\n", [60, 60, 47, 84, 121, 112, 101, 47, 88, 82, 101, 102, 47, 83, 105, 122, 101, 32, 53, 47, 87, 91, 49, 32, 50, 32, 49, 93, 47, 73, 110, 100, 101, 120, 91, 50, 32, 51, 93, 47, 82, 111, 111, 116, 32, 49, 32, 48, 32, 82, 47, 80, 114, 101, 118, 32, 53, 51, 47, 76, 101, 110, 103, 116, 104, 32, 49, 50, 62, 62, 115, 116, 114, 101, 97, 109, 13, 10, 2, 0, 3, 0, 1, 0, 159, 0, 1, 0, 253, 0, 10, 101, 110, 100, 115, 116, 114, 101, 97, 109], b!"\n", rfl, ⟨[], false, b!"4", rfl, .none, by decide, by decide, by decide⟩, ⟨[], false, b!"0", rfl, .none, by decide, by decide, by decide⟩, ?_, by decide, by decide, by decide, white_gap (by decide), .inl (by decide), .inl (by decide)⟩
  refine .stream (s := b!"<</Type/XRef/Size 5/W[1 2 1]/Index[2 3]/Root 1 0 R/Prev 53/Length 12>>") (ws := []) (t := [115, 116, 114, 101, 97, 109, 13, 10, 2, 0, 3, 0, 1, 0, 159, 0, 1, 0, 253, 0, 10, 101, 110, 100, 115, 116, 114, 101, 97, 109]) hd (by decide) ⟨b!"\r\n", b!"\n", rfl, .inr rfl, ?_, .inr (.inr (.inl ⟨rfl, by decide⟩))⟩ rfl
  decide

theorem fsStream_text [Zlib] : fsStream.Text := by
  refine ⟨0, [2, 0, 3, 0, 1, 0, 159, 0, 1, 0, 253, 0], [2, 0, 3, 0, 1, 0, 159, 0, 1, 0, 253, 0], 1, 2, 1, fsXref_text, by decide, rfl, .inl rfl, by decide, ?_⟩
  exact .cons (s := b!"\x02\x00\x03\x00") (t := [1, 0, 159, 0, 1, 0, 253, 0]) (.inside (x := b!"\x02") (y := b!"\x00\x03") (z := b!"\x00") rfl rfl rfl (by decide) (by decide))
    (.cons (s := [1, 0, 159, 0]) (t := [1, 0, 253, 0]) (.inUse (x := b!"\x01") (y := [0, 159]) (z := b!"\x00") rfl rfl rfl (by decide))
    (.cons (s := [1, 0, 253, 0]) (t := []) (.inUse (x := b!"\x01") (y := [0, 253]) (z := b!"\x00") rfl rfl rfl (by decide)) .nil))

theorem fsCatalog_text [Zlib] : IndirectText 1 0 (.dict [(b!"/Type", .str b!"/Catalog"), (b!"/Pages", .ref 0 2)]) b!"1 0 obj<</Type/Catalog/Pages 2 0 R>>endobj" := by
  have hd : Spells false false (.dict [(b!"/Type", .str b!"/Catalog"), (b!"/Pages", .ref 0 2)]) b!"<</Type/Catalog/Pages 2 0 R>>" := (.dict (t := b!"/Type/Catalog/Pages 2 0 R") (.cons (g := []) (s := b!"/Type") (t := b!"/Catalog/Pages 2 0 R") .nil (.name (s := b!"/Type") (by decide)) (.cons (g := []) (s := b!"/Catalog") (t := b!"/Pages 2 0 R") .nil (.name (s := b!"/Catalog") (by decide)) (.cons (g := []) (s := b!"/Pages") (t := b!" 2 0 R") .nil (.name (s := b!"/Pages") (by decide)) (.cons (g := b!" ") (s := b!"2 0 R") (t := b!"") (white_gap (by decide)) (.ref (s := b!"2") (t := b!"0") (g := b!" ") (g' := b!" ") (n := 2) (m := 0) ⟨[], false, b!"2", rfl, .none, by decide, by decide, by decide⟩ ⟨[], false, b!"0", rfl, .none, by decide, by decide, by decide⟩ (by decide) (white_gap (by decide)) (by decide) (white_gap (by decide)) (by decide)) (.nil .nil) (.inr (.inl rfl))) (.inr (.inr ⟨_, _, rfl, by decide⟩))) (.inr (.inr ⟨_, _, rfl, by decide⟩))) (.inr (.inr ⟨_, _, rfl, by decide⟩))) (by decide) (by decide))
  exact ⟨b!"1", b!"0", b!" ", b!" ", [], b!"<</Type/Catalog/Pages 2 0 R>>", [], rfl, ⟨[], false, b!"1", rfl, .none, by decide, by decide, by decide⟩, ⟨[], false, b!"0", rfl, .none, by decide, by decide, by decide⟩, .obj hd (by simp), by decide, by decide, by decide, .nil, .inr ⟨_, _, rfl, by decide⟩, .inr rfl⟩

theorem fsPages_text : ObjStmText [(2, .dict [(b!"/Kids", .list []), (b!"/Count", .int 0)])] [(b!"/Type", .str b!"/ObjStm"), (b!"/N", .int 1), (b!"/First", .int 4), (b!"/Length", .int 23)] b!"2 0 <</Kids[]/Count 0>>" := by
  have hd : Spells false false (.dict [(b!"/Kids", .list []), (b!"/Count", .int 0)]) b!"<</Kids[]/Count 0>>" := (.dict (t := b!"/Kids[]/Count 0") (.cons (g := []) (s := b!"/Kids") (t := b!"[]/Count 0") .nil (.name (s := b!"/Kids") (by decide)) (.cons (g := []) (s := b!"[]") (t := b!"/Count 0") .nil (.array (t := b!"") (.nil .nil)) (.cons (g := []) (s := b!"/Count") (t := b!" 0") .nil (.name (s := b!"/Count") (by decide)) (.cons (g := b!" ") (s := b!"0") (t := b!"") (white_gap (by decide)) (.int (s := b!"0") ⟨[], false, b!"0", rfl, .none, by decide, by decide, by decide⟩) (.nil .nil) (.inr (.inl rfl))) (.inr (.inr ⟨_, _, rfl, by decide⟩))) (.inl rfl)) (.inr (.inr ⟨_, _, rfl, by decide⟩))) (by decide) (by decide))
  refine ⟨b!"2 0 ", b!"<</Kids[]/Count 0>>", [0], rfl, by decide, ?_, ?_, rfl, rfl⟩
  · exact .cons (x := b!"2") (y := b!"0") (w1 := b!" ") (w2 := b!" ") (t := []) ⟨by decide, by decide, by decide⟩ ⟨by decide, by decide, by decide⟩ (by decide) (by decide) (by decide) .nil
  · exact .cons (s := b!"<</Kids[]/Count 0>>") (w := []) (t := []) hd (by simp) (by decide) (.inr rfl) .nil

theorem fsCatalog_at [Zlib] : TextAt foreignFile 9 1 0 (.dict [(b!"/Type", .str b!"/Catalog"), (b!"/Pages", .ref 0 2)]) := ⟨_, foreignFile.drop 51, by decide +kernel, fsCatalog_text⟩

theorem fsObjStm_at [Zlib] : TextAt foreignFile 159 3 0 (.stream [(b!"/Type", .str b!"/ObjStm"), (b!"/N", .int 1), (b!"/First", .int 4), (b!"/Length", .int 23)] b!"2 0 <</Kids[]/Count 0>>" b!"2 0 <</Kids[]/Count 0>>") := ⟨_, foreignFile.drop 252, by decide +kernel, fsObjStm_text⟩

theorem fsXref_at [Zlib] : TextAt foreignFile 253 4 0 (.stream [(b!"/Type", .str b!"/XRef"), (b!"/Size", .int 5), (b!"/W", .list [.int 1, .int 2, .int 1]), (b!"/Index", .list [.int 2, .int 3]), (b!"/Root", .ref 0 1), (b!"/Prev", .int 53), (b!"/Length", .int 12)] [2, 0, 3, 0, 1, 0, 159, 0, 1, 0, 253, 0] [2, 0, 3, 0, 1, 0, 159, 0, 1, 0, 253, 0]) := ⟨_, foreignFile.drop 368, by decide +kernel, fsXref_text⟩

theorem fs_listings : listings [fsStream, fsTable] = [(0, .free 0 65535), (1, .inUse 9 0), (2, .inside 3 0), (3, .inUse 159 0), (4, .inUse 253 0)] := by decide

theorem fs_inside {n c k : Nat} (h : (n, Mark.inside c k) ∈ listings [fsStream, fsTable]) : n = 2 ∧ c = 3 ∧ k = 0 := by
  rw [fs_listings] at h
  simpa using h

/-- The file meets the specification. -/
theorem C99_sample [Zlib] : FileText foreignFile [fsStream, fsTable] := by
  refine ⟨⟨foreignFile.take 369, b!"startxref\n253\n%%EOF", fsStream, rfl, by decide +kernel, ?_⟩, ?_, ?_, ?_, ?_, ?_, ?_, by decide +kernel, by decide +kernel⟩
  · exact ⟨b!"\n", b!"253", b!"\n", [], rfl, ⟨by decide, by decide, by decide⟩, by decide, by decide, by decide, by decide, by decide⟩
  · intro s hs
    simp only [List.mem_cons, List.not_mem_nil, or_false] at hs
    rcases hs with rfl | rfl
    · exact ⟨fsStream_text, by decide, foreignFile.drop 368, by decide +kernel⟩
    · exact ⟨fsTable_text, by decide, foreignFile.drop 146, by decide +kernel⟩
  · intro n p g h
    rw [fs_listings] at h
    have hl : foreignFile.length = 388 := by decide +kernel
    simp only [List.mem_cons, Prod.mk.injEq, Mark.inUse.injEq, reduceCtorEq, and_false, false_or, List.not_mem_nil, or_false] at h
    omega
  · exact ⟨rfl, rfl, .inl (by simp; decide), rfl, rfl, .inl (by simp), trivial⟩
  · intro newer s older hs n c k h
    have hmem : (n, Mark.inside c k) ∈ listings [fsStream, fsTable] := mem_listings.2 ⟨s, by rw [hs]; simp, h⟩
    obtain ⟨rfl, rfl, rfl⟩ := fs_inside hmem
    cases newer with
    | nil =>
      simp only [List.nil_append, List.cons.injEq] at hs
      obtain ⟨rfl, rfl⟩ := hs
      exact ⟨159, 0, by rw [fs_listings]; decide⟩
    | cons x newer =>
      simp only [List.cons_append, List.cons.injEq] at hs
      cases newer with
      | nil =>
        simp only [List.nil_append, List.cons.injEq] at hs
        obtain ⟨-, rfl, -⟩ := hs
        exact absurd h (by decide)
      | cons y newer => simp at hs
  · intro n c k c' k' h h'
    obtain ⟨rfl, rfl, rfl⟩ := fs_inside h
    have := fs_inside h'
    omega
  · intro n c k h
    obtain ⟨rfl, rfl, rfl⟩ := fs_inside h
    exact ⟨3, 159, 0, by rw [fs_listings]; decide, by decide⟩

/-- The newest section is the last one of the file. -/
theorem C99_sample_last : NewestLast [fsStream, fsTable] := by
  intro s l h
  cases h
  decide

/-- What it gives. -/
theorem C99_sample_gives [Zlib] : Gives foreignFile [fsStream, fsTable] 1 (.dict [(b!"/Type", .str b!"/Catalog"), (b!"/Pages", .ref 0 2)]) ∧
    Gives foreignFile [fsStream, fsTable] 2 (.dict [(b!"/Kids", .list []), (b!"/Count", .int 0)]) :=
  ⟨.direct (by decide) fsCatalog_at, .inside (c := 3) (k := 0) (by decide) (by decide) fsObjStm_at fsPages_text (by decide)
    (fun x hx => by
      simp only [List.mem_singleton] at hx
      subst hx
      exact ⟨by decide, .inside 3 0, by rw [fs_listings]; decide, by simp⟩) rfl⟩

/-- The whole file can be edited. -/
theorem C99_sample_whole [Zlib] : Whole foreignFile [fsStream, fsTable] := by
  refine ⟨?_, fun h => absurd rfl h, ?_, ?_⟩
  · intro n hn hne hu
    obtain ⟨m, h1, h2⟩ := hu
    rw [fs_listings] at h1
    have : n = 1 ∨ n = 2 ∨ n = 3 ∨ n = 4 := by
      simp only [List.mem_cons, Prod.mk.injEq, List.not_mem_nil, or_false] at h1
      omega
    rcases this with rfl | rfl | rfl | rfl
    · exact ⟨_, C99_sample_gives.1⟩
    · exact ⟨_, C99_sample_gives.2⟩
    · exact ⟨_, .direct (by decide) fsObjStm_at⟩
    · exact ⟨_, .direct (by decide) fsXref_at⟩
  · intro n c k h
    obtain ⟨rfl, rfl, rfl⟩ := fs_inside (newest_mem h)
    decide
  · intro n c k h
    obtain ⟨rfl, rfl, rfl⟩ := fs_inside (newest_mem h)
    refine ⟨159, 0, _, _, _, _, by decide, fsObjStm_at, fsPages_text, ?_⟩
    intro x hx
    simp only [List.mem_singleton] at hx
    subst hx
    exact ⟨by decide, 0, by decide⟩

end Pdf
