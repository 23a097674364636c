/-
C93: the iteration over a document gives one document for each page.
-/
import Verif.Model.Iterate
import Verif.Props.C35_Slice
import Verif.Lemmas.Reload

namespace Pdf
open Spec PageTree

theorem keepAt_one {α : Type} : ∀ (l : List α) (k i : Nat) (hi : i < l.length),
    ((l.zipIdx k).filter fun p => decide ((p.2 : Int) ∈ [((k + i : Nat) : Int)])).map Prod.fst = [l[i]]
  | [], _, _, hi => absurd hi (Nat.not_lt_zero _)
  | a :: l, k, 0, _ => by
    have : ((l.zipIdx (k + 1)).filter fun p => decide ((p.2 : Int) ∈ [((k + 0 : Nat) : Int)])) = [] := by
      rw [List.filter_eq_nil_iff]
      intro p hp
      have := (List.mem_zipIdx hp).1
      simp only [List.mem_singleton, decide_eq_true_eq]
      omega
    rw [List.zipIdx_cons, List.filter_cons, if_pos (by simp), this]
    rfl
  | a :: l, k, i + 1, hi => by
    have := keepAt_one l (k + 1) i (by simpa using hi)
    rw [List.zipIdx_cons, List.filter_cons, if_neg (by simp only [List.mem_singleton, decide_eq_true_eq]; omega)]
    rw [show k + (i + 1) = k + 1 + i by omega]
    exact this

/-- A document and its tree of pages, which has one page. -/
def Spec.OnePage [Zlib] (x : Option Int) (page : Ref × Dict × List (Option Obj)) (d : Doc) : Prop :=
  Editable d x ∧ ∃ t', IsRoot (storeOf d) t' ∧ Linked none t' ∧ (leaves [] t').map shownPage = [page]

theorem iterFrom_spec [Zlib] {doc : Doc} {x : Option Int} (hed : Editable doc x) {t : PageTree} {lim : Nat}
    {ord : List Ref → List Ref} (hord : ∀ l, (ord l).Perm l) {n : Nat}
    (h : Removable (storeOf doc) t lim (allPages n)) (hn : n = (leaves [] t).length) {r : Ref} {d : Dict}
    {kids : List PageTree} (ht : t = .node r d kids) (hc : Dict.get? d b!"/Count" = some (.int n)) :
    ∀ (k i : Nat) (leak : Dict), i + k = n → ∃ docs, iterFrom lim ord doc k i leak = .ok docs ∧
      All₂ (OnePage x) (((leaves [] t).map shownPage).drop i) docs
  | 0, i, leak, hi => by
    refine ⟨[], rfl, ?_⟩
    rw [List.drop_eq_nil_of_le (by rw [List.length_map]; omega)]
    exact .nil
  | k + 1, i, leak, hi => by
    obtain ⟨leak', doc', t', h1, h2, h3, h4, h5⟩ := C35_keep_partial hed hord (leak := leak) h hn ht hc [(i : Int)]
    obtain ⟨docs, g1, g2⟩ := iterFrom_spec hed hord h hn ht hc k (i + 1) leak' (by omega)
    have hlt : i < ((leaves [] t).map shownPage).length := by rw [List.length_map]; omega
    refine ⟨doc' :: docs, ?_, ?_⟩
    · unfold iterFrom
      rw [h1]
      show (iterFrom lim ord doc k (i + 1) leak' >>= _) = _
      rw [g1]
      rfl
    · rw [List.drop_eq_getElem_cons hlt]
      refine .cons ⟨h2, t', h3, h4, ?_⟩ g2
      rw [h5]
      have := keepAt_one ((leaves [] t).map shownPage) 0 i hlt
      rw [Nat.zero_add] at this
      exact this

/-- **C93.** Iterating over a document gives, in order, one document for each page, which shows this page and no other, with the
attributes it inherits.
Partial: for the documents of C33 whose root has the number of pages as `/Count` (`C93_counterexample`). -/
theorem C93_iterate_partial [Zlib] {doc : Doc} {x : Option Int} (hed : Editable doc x) {t : PageTree} {lim : Nat}
    {ord : List Ref → List Ref} (hord : ∀ l, (ord l).Perm l) {n : Nat}
    (h : Removable (storeOf doc) t lim (allPages n)) (hn : n = (leaves [] t).length) {r : Ref} {d : Dict}
    {kids : List PageTree} (ht : t = .node r d kids) (hc : Dict.get? d b!"/Count" = some (.int n)) (leak : Dict) :
    ∃ docs, iterDoc lim ord leak doc = .ok docs ∧ All₂ (OnePage x) ((leaves [] t).map shownPage) docs := by
  obtain ⟨doc', r1, r2, r3, -⟩ := run_eval _ hed (eval_numberPages h.root ht hc)
  obtain ⟨docs, g1, g2⟩ := iterFrom_spec r2 hord (r3 ▸ h) hn ht hc n 0 leak (by omega)
  exact ⟨docs, by unfold iterDoc; rw [r1]; exact g1, g2⟩

example [Zlib] : Editable (memDoc removeObjs) none ∧
    Removable (storeOf (memDoc removeObjs)) removeTree 10 (allPages 3) ∧ 3 = (leaves [] removeTree).length ∧
    (iterDoc 10 id [] (memDoc removeObjs)).map (fun l => l.map fun d => ((flatPageTree 10 .null [] none).run d).toOption.map fun r => r.1.1.map Prod.fst) =
      .ok [some [.ref 0 5], some [.ref 0 6], some [.ref 0 4]] := by
  refine ⟨memDoc_editable (by simp [removeObjs, removeObjsWith]) rfl, ?_, rfl, by kernel_rfl⟩
  rw [memDoc_store (by simp [removeObjs, removeObjsWith])]
  refine removeTree_removable ?_
  intro i hi
  obtain ⟨j, hj, rfl⟩ := mem_allPages.1 hi
  exact ⟨j, hj, .inl rfl⟩

/-- No iteration when `/Count` is a reference, though this is valid. -/
theorem C93_counterexample [Zlib] :
    (iterDoc 1000 id [] (memDoc
      [.dict [(b!"/Root", .ref 0 1)],
       .dict [(b!"/Type", .str b!"/Catalog"), (b!"/Pages", .ref 0 2)],
       .dict [(b!"/Type", .str b!"/Pages"), (b!"/Kids", .list [.ref 0 3]), (b!"/Count", .ref 0 4)],
       .dict [(b!"/Type", .str b!"/Page"), (b!"/Parent", .ref 0 2)],
       .int 1])).map (fun _ => ()) = .error .typeError := by
  kernel_rfl

end Pdf
