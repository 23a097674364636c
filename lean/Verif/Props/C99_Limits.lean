/-
C99: a session on the sample file, and files that the specification leaves out.
-/
import Verif.Props.C99_Sample

namespace Pdf
open Spec

/-! ### A session -/

/-- A session: reading, two revisions and a change that is not committed. -/
def foreignSession : List Op :=
  [.get (.ref 0 2), .set 2 (.dict [(b!"/Kids", .list []), (b!"/Count", .int 7)]), .add (.str b!"/New"), .commit,
   .set 5 (.str b!"/Newer"), .commit, .set 5 (.int 12)]

/-- Every hypothesis of `C99_session_partial` that is about results of the functions. -/
def foreignTest [Zlib] : Bool :=
  match loads foreignFile with
  | .ok d0 => decide (d0.curData.eofCut = none) && fitOpsB 0 d0 foreignSession &&
    match ops foreignSession d0 with
    | .ok d => match writeFile d with
      | .ok (out, _) => decide (out.length < 3000) && decide (foreignFile.length < out.length) && decide (d.past.length = 4) &&
          decide (d0.cur.length = 5)
      | .error _ => false
    | .error _ => false
  | .error _ => false

theorem foreignTest_true [Zlib] : foreignTest = true := by kernel_rfl

/-- The hypotheses can be met: the sample file gets three revisions more. -/
example [Zlib] : ∃ d0 d d' out dl, loads foreignFile = .ok d0 ∧ ops foreignSession d0 = .ok d ∧ d.past.length = 4 ∧
    writeFile d = .ok (out, d') ∧ foreignFile <+: out ∧ foreignFile.length < out.length ∧ loads out = .ok dl ∧
    (∃ v, view dl (.ref 0 1) = .ok v ∧ pyEq (.dict [(b!"/Type", .str b!"/Catalog"), (b!"/Pages", .ref 0 2)]) v = true) ∧
    view d (.ref 0 2) = .ok (.dict [(b!"/Kids", .list []), (b!"/Count", .int 7)]) := by
  have h := foreignTest_true
  unfold foreignTest at h
  split at h
  · rename_i d0 h4
    simp only [Bool.and_eq_true, decide_eq_true_eq] at h
    obtain ⟨⟨k5, k6⟩, h⟩ := h
    split at h
    · rename_i d h5
      split at h
      · rename_i out d' h6
        simp only [Bool.and_eq_true, decide_eq_true_eq] at h
        obtain ⟨⟨⟨k7, k8⟩, k9⟩, k10⟩ := h
        obtain ⟨r1, dl, r2, r3, r4⟩ := C99_session_partial C99_sample C99_sample_last C99_sample_whole h4 k5 (fitOps_of_test k6) h5 h6
          (Nat.lt_trans k7 (by decide)) (xsOk_table _ _)
        obtain ⟨v, v', -, -, r5, r6⟩ := r3 1 _ (by decide) (by decide) (by simp [foreignSession, Written.op, Written.step, k10]) C99_sample_gives.1 0
        refine ⟨d0, d, d', out, dl, h4, h5, k9, h6, r1, k8, r2, ⟨v', r5, r6⟩, (r4 2 _ (by decide) (by decide) ?_ 0).1⟩
        simp [foreignSession, Written.op, Written.step, k10]
      · cases h
    · cases h
  · cases h

/-! ### A number that is freed -/

def freedFile : Bytes := b!"%PDF-1.5\n1 0 obj <</Type/Catalog/Pages 2 0 R>> endobj\n2 0 obj <</Kids[]/Count 0>> endobj\n3 0 obj 5 endobj\nxref\n0 4\n0000000000 65535 f \n0000000009 00000 n \n0000000054 00000 n \n0000000089 00000 n \ntrailer\n<</Size 4/Root 1 0 R>>\nstartxref\n106\n%%EOF\nxref\n3 1\n0000000000 00001 f \ntrailer <</Size 4/Root 1 0 R/Prev 106>>\nstartxref\n246\n%%EOF\n"

def freedOld : FileSec := ⟨106, b!"xref\n0 4\n0000000000 65535 f \n0000000009 00000 n \n0000000054 00000 n \n0000000089 00000 n \ntrailer\n<</Size 4/Root 1 0 R>>\nstartxref", none, [⟨0, [.free 0 65535, .inUse 9 0, .inUse 54 0, .inUse 89 0]⟩], [(b!"/Size", .int 4), (b!"/Root", .ref 0 1)]⟩

def freedNew : FileSec := ⟨246, b!"xref\n3 1\n0000000000 00001 f \ntrailer <</Size 4/Root 1 0 R/Prev 106>>\nstartxref\n", none, [⟨3, [.free 0 1]⟩], [(b!"/Size", .int 4), (b!"/Root", .ref 0 1), (b!"/Prev", .int 106)]⟩

theorem freedOld_text [Zlib] : freedOld.Text := by
  have hd : Spells false false (.dict [(b!"/Size", .int 4), (b!"/Root", .ref 0 1)]) b!"<</Size 4/Root 1 0 R>>" := (.dict (t := b!"/Size 4/Root 1 0 R") (.cons (g := []) (s := b!"/Size") (t := b!" 4/Root 1 0 R") .nil (.name (s := b!"/Size") (by decide)) (.cons (g := b!" ") (s := b!"4") (t := b!"/Root 1 0 R") (white_gap (by decide)) (.int (s := b!"4") ⟨[], false, b!"4", rfl, .none, by decide, by decide, by decide⟩) (.cons (g := []) (s := b!"/Root") (t := b!" 1 0 R") .nil (.name (s := b!"/Root") (by decide)) (.cons (g := b!" ") (s := b!"1 0 R") (t := b!"") (white_gap (by decide)) (.ref (s := b!"1") (t := b!"0") (g := b!" ") (g' := b!" ") (n := 1) (m := 0) ⟨[], false, b!"1", rfl, .none, by decide, by decide, by decide⟩ ⟨[], false, b!"0", rfl, .none, by decide, by decide, by decide⟩ (by decide) (white_gap (by decide)) (by decide) (white_gap (by decide)) (by decide)) (.nil .nil) (.inr (.inl rfl))) (.inr (.inr ⟨_, _, rfl, by decide⟩))) (.inr (.inr ⟨_, _, rfl, by decide⟩))) (.inr (.inr ⟨_, _, rfl, by decide⟩))) (by decide) (by decide))
  have hr : RunsText [⟨0, [.free 0 65535, .inUse 9 0, .inUse 54 0, .inUse 89 0]⟩] b!"0 4\n0000000000 65535 f \n0000000009 00000 n \n0000000054 00000 n \n0000000089 00000 n \n" :=
    .cons (r := ⟨0, [.free 0 65535, .inUse 9 0, .inUse 54 0, .inUse 89 0]⟩) (x := b!"0") (y := b!"4") (b1 := b!" ") (b2 := []) (e := b!"\n") (s := b!"0000000000 65535 f \n0000000009 00000 n \n0000000054 00000 n \n0000000089 00000 n \n") (t := [])
      ⟨by decide, by decide, by decide⟩ ⟨by decide, by decide, by decide⟩ (by unfold Blanks; decide) (by decide) ⟨by decide, by decide⟩
      (.cons (s := b!"0000000000 65535 f \n") (t := b!"0000000009 00000 n \n0000000054 00000 n \n0000000089 00000 n \n") (.free (x := b!"0000000000") (y := b!"65535") (b1 := b!" ") (b2 := b!" ") (b3 := b!" ") (e := b!"\n") ⟨by decide, by decide, by decide⟩ ⟨by decide, by decide, by decide⟩ (by unfold Blanks; decide) (by decide) (by decide) ⟨by decide, by decide⟩)
        (.cons (s := b!"0000000009 00000 n \n") (t := b!"0000000054 00000 n \n0000000089 00000 n \n") (.inUse (x := b!"0000000009") (y := b!"00000") (b1 := b!" ") (b2 := b!" ") (b3 := b!" ") (e := b!"\n") ⟨by decide, by decide, by decide⟩ ⟨by decide, by decide, by decide⟩ (by unfold Blanks; decide) (by decide) (by decide) ⟨by decide, by decide⟩)
        (.cons (s := b!"0000000054 00000 n \n") (t := b!"0000000089 00000 n \n") (.inUse (x := b!"0000000054") (y := b!"00000") (b1 := b!" ") (b2 := b!" ") (b3 := b!" ") (e := b!"\n") ⟨by decide, by decide, by decide⟩ ⟨by decide, by decide, by decide⟩ (by unfold Blanks; decide) (by decide) (by decide) ⟨by decide, by decide⟩)
        (.cons (s := b!"0000000089 00000 n \n") (t := b!"") (.inUse (x := b!"0000000089") (y := b!"00000") (b1 := b!" ") (b2 := b!" ") (b3 := b!" ") (e := b!"\n") ⟨by decide, by decide, by decide⟩ ⟨by decide, by decide, by decide⟩ (by unfold Blanks; decide) (by decide) (by decide) ⟨by decide, by decide⟩)
        .nil)))) .nil
  exact .inl ⟨b!"\n", b!"0 4\n0000000000 65535 f \n0000000009 00000 n \n0000000054 00000 n \n0000000089 00000 n \n", [], b!"\n", [], b!"<</Size 4/Root 1 0 R>>", b!"\n", rfl, ⟨by decide, by decide⟩, hr, by unfold Blanks; decide, ⟨by decide, by decide⟩, by decide, hd⟩

theorem freedNew_text [Zlib] : freedNew.Text := by
  have hd : Spells false false (.dict [(b!"/Size", .int 4), (b!"/Root", .ref 0 1), (b!"/Prev", .int 106)]) b!"<</Size 4/Root 1 0 R/Prev 106>>" := (.dict (t := b!"/Size 4/Root 1 0 R/Prev 106") (.cons (g := []) (s := b!"/Size") (t := b!" 4/Root 1 0 R/Prev 106") .nil (.name (s := b!"/Size") (by decide)) (.cons (g := b!" ") (s := b!"4") (t := b!"/Root 1 0 R/Prev 106") (white_gap (by decide)) (.int (s := b!"4") ⟨[], false, b!"4", rfl, .none, by decide, by decide, by decide⟩) (.cons (g := []) (s := b!"/Root") (t := b!" 1 0 R/Prev 106") .nil (.name (s := b!"/Root") (by decide)) (.cons (g := b!" ") (s := b!"1 0 R") (t := b!"/Prev 106") (white_gap (by decide)) (.ref (s := b!"1") (t := b!"0") (g := b!" ") (g' := b!" ") (n := 1) (m := 0) ⟨[], false, b!"1", rfl, .none, by decide, by decide, by decide⟩ ⟨[], false, b!"0", rfl, .none, by decide, by decide, by decide⟩ (by decide) (white_gap (by decide)) (by decide) (white_gap (by decide)) (by decide)) (.cons (g := []) (s := b!"/Prev") (t := b!" 106") .nil (.name (s := b!"/Prev") (by decide)) (.cons (g := b!" ") (s := b!"106") (t := b!"") (white_gap (by decide)) (.int (s := b!"106") ⟨[], false, b!"106", rfl, .none, by decide, by decide, by decide⟩) (.nil .nil) (.inr (.inl rfl))) (.inr (.inr ⟨_, _, rfl, by decide⟩))) (.inr (.inr ⟨_, _, rfl, by decide⟩))) (.inr (.inr ⟨_, _, rfl, by decide⟩))) (.inr (.inr ⟨_, _, rfl, by decide⟩))) (.inr (.inr ⟨_, _, rfl, by decide⟩))) (by decide) (by decide))
  have hr : RunsText [⟨3, [.free 0 1]⟩] b!"3 1\n0000000000 00001 f \n" :=
    .cons (r := ⟨3, [.free 0 1]⟩) (x := b!"3") (y := b!"1") (b1 := b!" ") (b2 := []) (e := b!"\n") (s := b!"0000000000 00001 f \n") (t := [])
      ⟨by decide, by decide, by decide⟩ ⟨by decide, by decide, by decide⟩ (by unfold Blanks; decide) (by decide) ⟨by decide, by decide⟩
      (.cons (s := b!"0000000000 00001 f \n") (t := b!"") (.free (x := b!"0000000000") (y := b!"00001") (b1 := b!" ") (b2 := b!" ") (b3 := b!" ") (e := b!"\n") ⟨by decide, by decide, by decide⟩ ⟨by decide, by decide, by decide⟩ (by unfold Blanks; decide) (by decide) (by decide) ⟨by decide, by decide⟩)
        .nil) .nil
  exact .inr ⟨b!"\n", b!"3 1\n0000000000 00001 f \n", b!" ", b!"<</Size 4/Root 1 0 R/Prev 106>>", [], b!"\n", [], 10, rfl, ⟨by decide, by decide⟩, hr, by unfold Blanks; decide, by decide,
    by unfold Blanks; decide, ⟨by decide, by decide⟩, by decide, by decide, hd⟩

theorem freed_listings : listings [freedNew, freedOld] = [(0, .free 0 65535), (1, .inUse 9 0), (2, .inUse 54 0), (3, .inUse 89 0), (3, .free 0 1)] := by decide

theorem freed_inside {n c k : Nat} (h : (n, Mark.inside c k) ∈ listings [freedNew, freedOld]) : False := by
  rw [freed_listings] at h
  simp at h

set_option maxRecDepth 10000 in
theorem freed_text [Zlib] : FileText freedFile [freedNew, freedOld] := by
  refine ⟨⟨freedFile.take 315, b!"startxref\n246\n%%EOF\n", freedNew, rfl, by decide +kernel, ?_⟩, ?_, ?_, ?_, ?_, ?_, ?_, by decide +kernel, by decide +kernel⟩
  · exact ⟨b!"\n", b!"246", b!"\n", b!"\n", rfl, ⟨by decide, by decide, by decide⟩, by decide, by decide, by decide, by decide, by decide⟩
  · intro s hs
    simp only [List.mem_cons, List.not_mem_nil, or_false] at hs
    rcases hs with rfl | rfl
    · exact ⟨freedNew_text, by decide, freedFile.drop 325, by decide +kernel⟩
    · exact ⟨freedOld_text, by decide, freedFile.drop 235, by decide +kernel⟩
  · intro n p g h
    rw [freed_listings] at h
    have hl : freedFile.length = 335 := by decide +kernel
    simp only [List.mem_cons, Prod.mk.injEq, Mark.inUse.injEq, reduceCtorEq, and_false, false_or, List.not_mem_nil, or_false] at h
    omega
  · exact ⟨rfl, rfl, .inl (by simp; decide), rfl, rfl, .inl (by simp), trivial⟩
  · intro newer s older hs n c k h
    exact (freed_inside (mem_listings.2 ⟨s, by rw [hs]; simp, h⟩)).elim
  · intro n c k c' k' h h'
    exact (freed_inside h).elim
  · intro n c k h
    exact (freed_inside h).elim

/-- The result of a load: what numbers show. -/
def shows [Zlib] (F : Bytes) (g n : Int) : Py Obj := loads F >>= fun d => view d (.ref g n)

/-- **C99, freed numbers.** The newest section of a file may say that a number is free. The number still shows the object
that an older section gives for it: `build_xref` skips the free entries, so the older entry stays in the index. -/
theorem C99_freed_counterexample [Zlib] : ∃ (F : Bytes) (secs : List FileSec) (n : Nat) (o : Obj), FileText F secs ∧ 1 ≤ n ∧
    newest secs n = some (.free 0 1) ∧ shows F 0 n = .ok o :=
  ⟨freedFile, [freedNew, freedOld], 3, .int 5, freed_text, by decide, by decide, by kernel_rfl⟩

/-! ### Files that the specification leaves out -/

/-- A file with two objects and a table, as the specification has it; the number 1 shows the catalog. -/
def plainFile : Bytes := b!"%PDF-1.5\n1 0 obj <</Type/Catalog/Pages 2 0 R>> endobj\n2 0 obj <</Kids[]/Count 0>> endobj\nxref\n0 3\n0000000000 65535 f \n0000000009 00000 n \n0000000054 00000 n \ntrailer\n<</Size 3/Root 1 0 R>>\nstartxref\n89\n%%EOF"

/-- The same file with a blank after the word `xref`. -/
def blankXref : Bytes := b!"%PDF-1.5\n1 0 obj <</Type/Catalog/Pages 2 0 R>> endobj\n2 0 obj <</Kids[]/Count 0>> endobj\nxref \n0 3\n0000000000 65535 f \n0000000009 00000 n \n0000000054 00000 n \ntrailer\n<</Size 3/Root 1 0 R>>\nstartxref\n89\n%%EOF"

/-- The same file followed by more than one hundred bytes. -/
def longEnd : Bytes := b!"%PDF-1.5\n1 0 obj <</Type/Catalog/Pages 2 0 R>> endobj\n2 0 obj <</Kids[]/Count 0>> endobj\nxref\n0 3\n0000000000 65535 f \n0000000009 00000 n \n0000000054 00000 n \ntrailer\n<</Size 3/Root 1 0 R>>\nstartxref\n89\n%%EOF\n\x00\x00\x00\x00\x00\x00\x00\x00\x00\x00\x00\x00\x00\x00\x00\x00\x00\x00\x00\x00\x00\x00\x00\x00\x00\x00\x00\x00\x00\x00\x00\x00\x00\x00\x00\x00\x00\x00\x00\x00\x00\x00\x00\x00\x00\x00\x00\x00\x00\x00\x00\x00\x00\x00\x00\x00\x00\x00\x00\x00\x00\x00\x00\x00\x00\x00\x00\x00\x00\x00\x00\x00\x00\x00\x00\x00\x00\x00\x00\x00\x00\x00\x00\x00\x00\x00\x00\x00\x00\x00\x00\x00\x00\x00\x00\x00\x00\x00\x00\x00\x00"

/-- The same file after some bytes that are not part of it; the positions count from the header. -/
def lateHeader : Bytes := b!"junk\n%PDF-1.5\n1 0 obj <</Type/Catalog/Pages 2 0 R>> endobj\n2 0 obj <</Kids[]/Count 0>> endobj\nxref\n0 3\n0000000000 65535 f \n0000000009 00000 n \n0000000054 00000 n \ntrailer\n<</Size 3/Root 1 0 R>>\nstartxref\n89\n%%EOF"

/-- The same file with a trailer whose dictionary begins on the line of the word `trailer` and does not end on it: a text of the
identifier has an end of line. -/
def brokenLine : Bytes := b!"%PDF-1.5\n1 0 obj <</Type/Catalog/Pages 2 0 R>> endobj\n2 0 obj <</Kids[]/Count 0>> endobj\nxref\n0 3\n0000000000 65535 f \n0000000009 00000 n \n0000000054 00000 n \ntrailer <</Size 3/Root 1 0 R/ID[(a\n7e)(b)]>>\nstartxref\n89\n%%EOF"

/-- **C99, what is left out.** The catalog of a file with a table is shown. With a blank after `xref`, the file is loaded and every
object is lost: the lines of the table are read from the end of the word, and the first "line" is the blank. With more than
one hundred bytes after the mark of the end, or with bytes before the header, the file cannot be loaded. Nor can it be when what
follows the line of the word `trailer` is not the beginning of an object that can be read: `parse_xref_table_raw` reads an object there. -/
theorem C99_left_out_counterexample [Zlib] :
    shows plainFile 0 1 = .ok (.dict [(b!"/Pages", .ref 0 2), (b!"/Type", .str b!"/Catalog")]) ∧
    shows plainFile 0 2 = .ok (.dict [(b!"/Count", .int 0), (b!"/Kids", .list [])]) ∧
    shows blankXref 0 1 = .error .indexError ∧ shows blankXref 0 2 = .error .indexError ∧
    loads longEnd = .error .typeError ∧ loads lateHeader = .error .typeError ∧
    loads brokenLine = .error .valueError :=
  ⟨by kernel_rfl, by kernel_rfl, by kernel_rfl, by kernel_rfl, by kernel_rfl, by kernel_rfl, by kernel_rfl⟩

/-- A file with a cross-reference stream, as the specification has it. -/
def plainStream : Bytes := b!"%PDF-1.5\n1 0 obj <</Type/Catalog/Pages 2 0 R>> endobj\n2 0 obj <</Kids[]/Count 0>> endobj\n3 0 obj <</Type/XRef/Size 4/Root 1 0 R/W[1 2 1]/Index[1 3]/Length 12>>stream\n\x01\x00\x09\x00\x01\x006\x00\x01\x00Y\x00\nendstream\nendobj\nstartxref\n89\n%%EOF"

/-- The same rows without the column of types, which ISO 32000 gives the value 1. -/
def noTypes : Bytes := b!"%PDF-1.5\n1 0 obj <</Type/Catalog/Pages 2 0 R>> endobj\n2 0 obj <</Kids[]/Count 0>> endobj\n3 0 obj <</Type/XRef/Size 4/Root 1 0 R/W[0 2 1]/Index[1 3]/Length 9>>stream\n\x00\x09\x00\x006\x00\x00Y\x00\nendstream\nendobj\nstartxref\n89\n%%EOF"

/-- The same file with an empty run of numbers before the others. -/
def emptyRun : Bytes := b!"%PDF-1.5\n1 0 obj <</Type/Catalog/Pages 2 0 R>> endobj\n2 0 obj <</Kids[]/Count 0>> endobj\n3 0 obj <</Type/XRef/Size 4/Root 1 0 R/W[1 2 1]/Index[9 0 1 3]/Length 12>>stream\n\x01\x00\x09\x00\x01\x006\x00\x01\x00Y\x00\nendstream\nendobj\nstartxref\n89\n%%EOF"

/-- **C99, cross-reference streams left out.** Without a column of types every object is lost (a column of no byte is read as
zero, not as its default). After an empty run, each number of the next run shows the object of the number after it. -/
theorem C99_stream_left_out_counterexample [Zlib] :
    shows plainStream 0 1 = .ok (.dict [(b!"/Pages", .ref 0 2), (b!"/Type", .str b!"/Catalog")]) ∧
    shows plainStream 0 2 = .ok (.dict [(b!"/Count", .int 0), (b!"/Kids", .list [])]) ∧
    shows noTypes 0 1 = .error .indexError ∧ shows noTypes 0 2 = .error .indexError ∧
    shows emptyRun 0 1 = .ok (.dict [(b!"/Count", .int 0), (b!"/Kids", .list [])]) ∧ shows emptyRun 0 9 = .ok (.dict [(b!"/Pages", .ref 0 2), (b!"/Type", .str b!"/Catalog")]) :=
  ⟨by kernel_rfl, by kernel_rfl, by kernel_rfl, by kernel_rfl, by kernel_rfl, by kernel_rfl⟩

/-- The members of an object stream are read one after the other; the offsets of its head are not used. A stream that lists
its members in another order than that of its body, as ISO 32000 allows, has its members exchanged. -/
theorem C99_offsets_counterexample [Zlib] : (parseObjectStream (.stream [(b!"/Type", .str b!"/ObjStm"), (b!"/N", .int 2), (b!"/First", .int 8)]
      b!"4 3 5 0 /A /B " b!"4 3 5 0 /A /B ")).map (·.map fun x => (x.num, x.obj)) = Except.ok [(.int 4, .str b!"/A"), (.int 5, .str b!"/B")] := by
  kernel_rfl

/-- A number, a name or a keyword at the very end of an object stream is read as raw bytes: no token is recognized there
without a byte after it. -/
theorem C99_last_counterexample [Zlib] : (parseObjectStream (.stream [(b!"/Type", .str b!"/ObjStm"), (b!"/N", .int 1), (b!"/First", .int 4)]
      b!"4 0 78" b!"4 0 78")).map (·.map fun x => (x.num, x.obj)) = Except.ok [(.int 4, .bytes b!"78")] := by
  kernel_rfl

end Pdf
