/-
C57: adding a text annotation.
-/
import Verif.Lemmas.Annot

namespace Pdf
open Spec Spec.PageTree

/-- **C57** for pages without annotations, or whose annotation array is an indirect object: the annotation is added
to the document as a new object, its reference is put at the end of the annotations of the page, the other entries of
the page are the same, and so is every other object that was in the document (other than the page if it had no
annotations, and than the array if it had one). -/
theorem C57_annotation_partial [Zlib] {d : Doc} {x : Option Int} (hed : Editable d x) {leak : Dict} {lim : Nat}
    {t : PageTree} (hd : depth t ≤ lim) (h : IsRoot (storeOf d) t) {p : Int} {j : Nat}
    (hp : Position (leaves [] t).length p j) {b : Ref × Dict × List Dict} (hb : (leaves [] t)[j]? = some b)
    (hi : AnnotsIndirect b.2.1) {old : List Obj} (ho : annotsOf (storeOf d) b.2.1 = some old) (text : Bytes)
    (rect : List Obj) (opened : Bool) :
    ∃ leak' d' a page', (addTextAnnotation lim leak p text rect opened).run d = .ok (leak', d') ∧
      Editable d' x ∧ IsTextAnnot a text rect opened ∧ (storeOf d').val (storeOf d).next = .ok (.dict a) ∧
      (storeOf d').get (refObj b.1) = .ok (.dict page') ∧
      annotsOf (storeOf d') page' = some (old ++ [.ref 0 (storeOf d).next]) ∧
      (∀ k, k ≠ b!"/Annots" → Dict.get? page' k = Dict.get? b.2.1 k) ∧
      ∀ n, n < (storeOf d).next → (n = b.1.2.toNat → Dict.get? b.2.1 b!"/Annots" ≠ none) →
        (∀ g m, Dict.get? b.2.1 b!"/Annots" = some (.ref g m) → n ≠ m.toNat) →
        (storeOf d').val n = (storeOf d).val n := by
  obtain ⟨J, s', a, page', e1, e2, e3, e4, e5, e6, e7⟩ :=
    annot_eval (storeOf_fresh d) (leak := leak) hd h hp hb hi ho text rect opened
  obtain ⟨d', r1, r2, rfl, -⟩ := run_eval _ hed e1
  exact ⟨J, d', a, page', r1, r2, e2, e3, e4, e5, e6, e7⟩

/-- Two pages, the second one with an annotation in an indirect array. -/
def annotObjs : List Obj :=
  [.dict [(b!"/Root", .ref 0 1)],
   .dict [(b!"/Type", .str b!"/Catalog"), (b!"/Pages", .ref 0 2)],
   .dict [(b!"/Type", .str b!"/Pages"), (b!"/Kids", .list [.ref 0 3, .ref 0 4])],
   .dict [(b!"/Type", .str b!"/Page")],
   .dict [(b!"/Type", .str b!"/Page"), (b!"/Annots", .ref 0 5)],
   .list [.ref 0 6],
   .dict [(b!"/Type", .str b!"/Annot")]]
def annotTree : PageTree :=
  .node (0, 2) [(b!"/Type", .str b!"/Pages"), (b!"/Kids", .list [.ref 0 3, .ref 0 4])]
    [.page (0, 3) [(b!"/Type", .str b!"/Page")],
     .page (0, 4) [(b!"/Type", .str b!"/Page"), (b!"/Annots", .ref 0 5)]]

example [Zlib] : Editable (memDoc annotObjs) none ∧ IsRoot (storeOf (memDoc annotObjs)) annotTree ∧
    (leaves [] annotTree)[1]?.map (fun b => annotsOf (storeOf (memDoc annotObjs)) b.2.1) = some (some [.ref 0 6]) := by
  rw [memDoc_store (by simp [annotObjs])]
  exact ⟨memDoc_editable (by simp [annotObjs]) rfl,
    ⟨⟨by decide, rfl, rfl, rfl, ⟨by decide, rfl, rfl⟩, ⟨by decide, rfl, rfl⟩, trivial⟩, ⟨_, _, _, rfl⟩,
      _, _, _, rfl, rfl, rfl, rfl⟩, rfl⟩
example : Position (leaves [] annotTree).length (-1) 1 ∧
    AnnotsIndirect [(b!"/Type", .str b!"/Page"), (b!"/Annots", .ref 0 5)] :=
  ⟨⟨by decide, .inr rfl⟩, .inr ⟨0, 5, by decide, rfl⟩⟩
example [Zlib] : ((addTextAnnotation 1000 [] (-1) b!"hello" [] false).run (memDoc annotObjs)).map
    (fun r => r.2.cache[5]?) = .ok (some (.list [.ref 0 6, .ref 0 7])) := by kernel_rfl

/-- **C57 is false for a page with a direct annotation array**, the usual case: the code takes the imaginary part of
the array, and a list has none. -/
theorem C57_counterexample [Zlib] :
    ((addTextAnnotation 1000 [] 0 b!"hello" [] false).run (memDoc
      [.dict [(b!"/Root", .ref 0 1)],
       .dict [(b!"/Type", .str b!"/Catalog"), (b!"/Pages", .ref 0 2)],
       .dict [(b!"/Type", .str b!"/Pages"), (b!"/Kids", .list [.ref 0 3])],
       .dict [(b!"/Type", .str b!"/Page"), (b!"/Annots", .list [.ref 0 4])],
       .dict [(b!"/Type", .str b!"/Annot")]])).map (fun _ => ()) = .error .attributeError := by
  kernel_rfl

end Pdf
