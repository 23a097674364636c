/-
C97: the tree of pages as it is printed (`pprint_page_hierarchy`).
-/
import Verif.Model.Pprint
import Verif.Props.C29_Pages

namespace Pdf
open Spec Spec.PageTree

namespace Spec.PageTree

mutual
/-- The nodes and pages of a tree with their levels, each node before its kids. -/
def preorder : Nat → PageTree → List (Nat × PageTree)
  | level, .page r d => [(level, .page r d)]
  | level, .node r d kids => (level, .node r d kids) :: preorders (level + 1) kids
def preorders : Nat → List PageTree → List (Nat × PageTree)
  | _, [] => []
  | level, t :: ts => preorder level t ++ preorders level ts
end

def isPage : Nat × PageTree → Bool
  | (_, .page _ _) => true
  | _ => false

/-- The line of a node or page, before which there are `n` pages: indentation by four spaces for each level; for a node its reference and
the number of its kids; for a page its number, its reference and its contents. -/
def outlineLine (txt : Obj → Bytes) (n : Nat) : Nat × PageTree → Bytes
  | (level, .node r _ kids) =>
    List.replicate (4 * level) 32 ++ b!" /Pages node at " ++ txt (refObj r) ++ b!", kids count = " ++ natDec kids.length ++ b!":\n"
  | (level, .page r d) =>
    List.replicate (4 * level) 32 ++ b!" /Page [" ++ natDec n ++ b!"] at " ++ txt (refObj r) ++ b!" with content(s) at " ++
      txt ((Dict.get? d b!"/Contents").getD .null) ++ b!"\n"

/-- The lines of a list of nodes and pages. -/
def outline (txt : Obj → Bytes) (l : List (Nat × PageTree)) : Bytes :=
  (List.range l.length).flatMap fun i => match l[i]? with
    | some x => outlineLine txt ((l.take i).countP isPage) x
    | none => []

end Spec.PageTree

/-- The lines, the first being after `n` pages. -/
def outlineFrom (txt : Obj → Bytes) : Nat → List (Nat × PageTree) → Bytes
  | _, [] => []
  | n, x :: l => outlineLine txt n x ++ outlineFrom txt (if isPage x then n + 1 else n) l

theorem outlineFrom_eq (txt : Obj → Bytes) : ∀ (l : List (Nat × PageTree)) (n : Nat), outlineFrom txt n l =
    (List.range l.length).flatMap fun i => match l[i]? with
      | some x => outlineLine txt (n + (l.take i).countP isPage) x
      | none => [] := by
  intro l
  induction l with
  | nil => intro n; rfl
  | cons x l ih =>
    intro n
    rw [List.length_cons, List.range_succ_eq_map, List.flatMap_cons, List.flatMap_map, outlineFrom, ih]
    congr 1
    congr 1
    funext i
    simp only [List.getElem?_cons_succ, List.take_succ_cons, List.countP_cons]
    cases l[i]? with
    | none => rfl
    | some y =>
      simp only
      congr 1
      split <;> omega

theorem outline_eq (txt : Obj → Bytes) (l : List (Nat × PageTree)) : outline txt l = outlineFrom txt 0 l := by
  rw [outlineFrom_eq]
  simp only [outline, Nat.zero_add]

theorem outlineFrom_append (txt : Obj → Bytes) : ∀ (l m : List (Nat × PageTree)) (n : Nat),
    outlineFrom txt n (l ++ m) = outlineFrom txt n l ++ outlineFrom txt (n + l.countP isPage) m := by
  intro l m
  induction l with
  | nil => intro n; rfl
  | cons x l ih =>
    intro n
    rw [List.cons_append, outlineFrom, ih, outlineFrom, List.append_assoc, List.countP_cons]
    congr 3
    split <;> omega

theorem hierarchyKids_spec {s : Store} {txt : Obj → Bytes} {level : Nat} {sub : Obj → Nat → Bytes → Prog (Bytes × Nat)} :
    ∀ (ts : List PageTree) (n : Nat) (accu : Bytes),
    (∀ t ∈ ts, ∀ n accu, eval (sub (refObj t.ref) n accu) s =
      .ok ((accu ++ outlineFrom txt n (preorder level t), n + (preorder level t).countP isPage), s)) →
    eval (hierarchyKids sub (ts.map fun t => refObj t.ref) n accu) s =
      .ok ((accu ++ outlineFrom txt n (preorders level ts), n + (preorders level ts).countP isPage), s) := by
  intro ts
  induction ts with
  | nil => intro n accu _; simp [hierarchyKids, preorders, outlineFrom]
  | cons t ts ih =>
    intro n accu h
    rw [List.map_cons, hierarchyKids, eval_bind_ok (h t List.mem_cons_self n accu)]
    simp only
    rw [ih _ _ fun u hu => h u (List.mem_cons_of_mem _ hu)]
    simp only [preorders, outlineFrom_append, List.countP_append, List.append_assoc, Nat.add_assoc]

theorem pageHierarchy_spec {s : Store} {txt : Obj → Bytes} : ∀ (lim : Nat) (t : PageTree) (n level : Nat) (accu : Bytes),
    depth t ≤ lim → Shown s t → eval (pageHierarchy txt lim (refObj t.ref) n level accu) s =
      .ok ((accu ++ outlineFrom txt n (preorder (level + 1) t), n + (preorder (level + 1) t).countP isPage), s) := by
  intro lim
  induction lim with
  | zero => intro t n level accu hd; cases t <;> simp [depth] at hd
  | succ lim ih =>
    intro t n level accu hd hs
    unfold pageHierarchy
    cases t with
    | page r d =>
      obtain ⟨h1, h2, h3⟩ := hs
      have he : eval (hierarchySub (refObj r) accu) s = .ok ((.dict d, refObj r, accu), s) := by
        unfold hierarchySub; rw [eval_bind_ok (eval_fetch h2)]; rfl
      rw [PageTree.ref, if_pos (truthy_ref h1), eval_bind_ok he]
      simp only [getKey, h3, orRaise]
      rw [eval_bind_ok (eval_lift_ok _ _), if_neg (by decide), if_pos rfl]
      simp only [getOr]
      rw [eval_bind_ok (eval_lift_ok _ _)]
      simp [preorder, outlineFrom, outlineLine, isPage, eval_pure]
    | node r d kids =>
      obtain ⟨h1, h2, h3, h4, h5⟩ := hs
      have he : eval (hierarchySub (refObj r) accu) s = .ok ((.dict d, refObj r, accu), s) := by
        unfold hierarchySub; rw [eval_bind_ok (eval_fetch h2)]; rfl
      rw [PageTree.ref, if_pos (truthy_ref h1), eval_bind_ok he]
      simp only [getKey, h3, h4, orRaise]
      rw [eval_bind_ok (eval_lift_ok _ _), if_pos rfl, eval_bind_ok (eval_lift_ok _ _)]
      simp only [iterate]
      rw [eval_bind_ok (eval_lift_ok _ _)]
      simp only [depth] at hd
      rw [hierarchyKids_spec (level := level + 2) (txt := txt) kids _ _ fun t ht n accu =>
        ih t n (level + 1) accu (by have := depths_mem t ht; omega) (shownAll_mem h5 t ht)]
      simp [preorder, outlineFrom, outlineLine, isPage]

mutual
theorem preorder_leaves (level : Nat) (anc : List Dict) : ∀ t : PageTree, (preorder level t).countP isPage = (leaves anc t).length
  | .page r d => by simp [preorder, leaves, isPage]
  | .node r d kids => by simp [preorder, leaves, isPage, preorders_leaves (level + 1) (d :: anc) kids]
theorem preorders_leaves (level : Nat) (anc : List Dict) : ∀ ts : List PageTree, (preorders level ts).countP isPage = (leavesAll anc ts).length
  | [] => rfl
  | t :: ts => by simp [preorders, leavesAll, preorder_leaves level anc t, preorders_leaves level anc ts]
end

/-- The number of a page among those of its kind, its reference and its dictionary. -/
def pageOf : Nat × PageTree → Option (Ref × Dict)
  | (_, .page r d) => some (r, d)
  | _ => none

mutual
theorem preorder_pages (level : Nat) (anc : List Dict) : ∀ t : PageTree, (preorder level t).filterMap pageOf = (leaves anc t).map fun p => (p.1, p.2.1)
  | .page r d => by simp [preorder, leaves, pageOf]
  | .node r d kids => by simp [preorder, leaves, List.filterMap_cons, pageOf, preorders_pages (level + 1) (d :: anc) kids]
theorem preorders_pages (level : Nat) (anc : List Dict) : ∀ ts : List PageTree, (preorders level ts).filterMap pageOf = (leavesAll anc ts).map fun p => (p.1, p.2.1)
  | [] => rfl
  | t :: ts => by simp [preorders, leavesAll, preorder_pages level anc t, preorders_pages level anc ts]
end

theorem readOnly_hierarchyKids {sub : Obj → Nat → Bytes → Prog (Bytes × Nat)} (h : ∀ o n a, ReadOnly (sub o n a)) :
    ∀ kids n accu, ReadOnly (hierarchyKids sub kids n accu) := by
  intro kids
  induction kids with
  | nil => intro n accu; exact .ret _
  | cons k kids ih => intro n accu; exact (h _ _ _).bind fun r => ih _ _

theorem readOnly_pageHierarchy (txt : Obj → Bytes) : ∀ lim iref n level accu, ReadOnly (pageHierarchy txt lim iref n level accu) := by
  intro lim
  induction lim with
  | zero => intro iref n level accu; exact .raise _
  | succ lim ih =>
    intro iref n level accu
    unfold pageHierarchy
    refine ReadOnly.bind ?_ fun x => ?_
    · split
      · exact (ReadOnly.fetch _).bind fun _ => .ret _
      · unfold hierarchyRoot catalogP
        exact ((ReadOnly.fetch _).bind fun _ => (ReadOnly.lift _).bind fun _ => (ReadOnly.fetch _).bind fun _ => .ret _).bind fun _ =>
          (ReadOnly.lift _).bind fun _ => (ReadOnly.fetch _).bind fun _ => (ReadOnly.lift _).bind fun _ => (ReadOnly.fetch _).bind fun _ => .ret _
    · refine (ReadOnly.lift _).bind fun t => ?_
      split
      · exact (ReadOnly.lift _).bind fun _ => (ReadOnly.lift _).bind fun _ => readOnly_hierarchyKids (fun _ _ _ => ih _ _ _ _) _ _ _
      · split
        · exact (ReadOnly.lift _).bind fun _ => .ret _
        · exact .ret _

/-- **C97.** The tree of pages is printed in full: the count that the root announces, then a line for each node and each page, every node before
its kids and its kids in order, indented according to their levels; the pages are numbered from 0 in the order of the list of pages, and the
number that the call returns is their number. The document shows the same objects as before.
Partial: for page trees as ISO 32000 describes them, with direct arrays of kids (`C97_counterexample`), less deep than the recursion limit. -/
theorem C97_hierarchy_partial [Zlib] (txt : Obj → Bytes) {d : Doc} (hc : Coherent d) {t : PageTree} (ht : IsRoot (storeOf d) t) {lim : Nat} (hl : depth t ≤ lim)
    {r : Ref} {top : Dict} {kids : List PageTree} (hroot : t = .node r top kids) {c v : Obj} (hcount : Dict.get? top b!"/Count" = some c)
    (hv : (storeOf d).get c = .ok v) :
    ∃ d', (pageHierarchy txt lim .null 0 0 []).run d =
        .ok ((b!"Page count = " ++ txt v ++ b!"\n" ++ outline txt (preorder 1 t), (leaves [] t).length), d') ∧
      storeOf d' = storeOf d := by
  have he : eval (pageHierarchy txt lim .null 0 0 []) (storeOf d) =
      .ok ((b!"Page count = " ++ txt v ++ b!"\n" ++ outline txt (preorder 1 t), (leaves [] t).length), storeOf d) := by
    generalize storeOf d = s at *
    subst hroot
    obtain ⟨tr, root, cat, h1, h2, h3, h4⟩ := ht.named
    obtain ⟨g1, g2, g3, g4, g5⟩ := ht.shown
    have h0 : s.get (.ref 0 0) = .ok (.dict tr) := by simpa [Store.get] using h1
    have hcat : eval catalogP s = .ok ((.dict cat, root), s) := by
      unfold catalogP
      rw [eval_bind_ok (eval_fetch h0)]
      simp only [getKey, h2, orRaise]
      rw [eval_bind_ok (eval_lift_ok _ _), eval_bind_ok (eval_fetch h3)]
      rfl
    cases lim with
    | zero => simp [depth] at hl
    | succ lim =>
      have hr : eval (hierarchyRoot txt []) s = .ok ((.dict top, refObj r, b!"Page count = " ++ txt v ++ b!"\n"), s) := by
        unfold hierarchyRoot
        rw [eval_bind_ok hcat]
        simp only [getKey, h4, orRaise]
        rw [eval_bind_ok (eval_lift_ok _ _), PageTree.ref, eval_bind_ok (eval_fetch g2)]
        simp only [hcount]
        rw [eval_bind_ok (eval_lift_ok _ _), eval_bind_ok (eval_fetch hv)]
        rfl
      unfold pageHierarchy
      rw [if_neg (by decide), eval_bind_ok hr]
      simp only [getKey, g3, g4, orRaise]
      rw [eval_bind_ok (eval_lift_ok _ _), if_pos rfl, eval_bind_ok (eval_lift_ok _ _)]
      simp only [iterate]
      rw [eval_bind_ok (eval_lift_ok _ _)]
      simp only [depth] at hl
      rw [hierarchyKids_spec (level := 2) (txt := txt) kids _ _ fun t ht n accu =>
        pageHierarchy_spec lim t n 1 accu (by have := depths_mem t ht; omega) (shownAll_mem g5 t ht)]
      rw [outline_eq]
      simp [preorder, outlineFrom, outlineLine, isPage, leaves, preorders_leaves 2 [top]]
  obtain ⟨d', h1, -, h2⟩ := run_readOnly_ok (readOnly_pageHierarchy _ _ _ _ _ _) hc he
  exact ⟨d', h1, h2⟩

/-- The text of references and numbers, for the examples. -/
def plainText : Obj → Bytes
  | .ref _ n => intDec n ++ b!"j"
  | .int n => intDec n
  | _ => b!"None"

example [Zlib] : ∃ d', (pageHierarchy plainText 1000 .null 0 0 []).run (memDoc treeObjs) =
      .ok ((b!"Page count = " ++ plainText (.int 4) ++ b!"\n" ++ outline plainText (preorder 1 tree), (leaves [] tree).length), d') ∧
    storeOf d' = storeOf (memDoc treeObjs) :=
  C97_hierarchy_partial plainText (memDoc_coherent _) tree_isRoot (by decide) rfl (c := .int 4) rfl rfl
example : outline plainText (preorder 1 tree) = b!"     /Pages node at 2j, kids count = 3:
         /Page [0] at 3j with content(s) at None
         /Pages node at 4j, kids count = 2:
             /Page [1] at 5j with content(s) at None
             /Page [2] at 6j with content(s) at None
         /Page [3] at 7j with content(s) at None
" := by kernel_rfl

/-- An indirect array of kids makes the display fail. -/
theorem C97_counterexample [Zlib] :
    ((pageHierarchy plainText 1000 .null 0 0 []).run (memDoc
      [.dict [(b!"/Root", .ref 0 1)],
       .dict [(b!"/Type", .str b!"/Catalog"), (b!"/Pages", .ref 0 2)],
       .dict [(b!"/Type", .str b!"/Pages"), (b!"/Count", .int 1), (b!"/Kids", .ref 0 4)],
       .dict [(b!"/Type", .str b!"/Page"), (b!"/Parent", .ref 0 2)],
       .list [.ref 0 3]])).map (fun _ => ()) = .error .typeError := by
  kernel_rfl

/-- **C97**, the numbers: the line of a page shows its position in the list of pages (`C29_pages_partial`). -/
theorem C97_numbers (t : PageTree) (level i : Nat) (x : Nat × PageTree) (r : Ref) (d : Dict) (h : (preorder level t)[i]? = some x) (hx : x.2 = .page r d) :
    ((leaves [] t).map fun p => (p.1, p.2.1))[((preorder level t).take i).countP isPage]? = some (r, d) := by
  rw [← preorder_pages level [] t]
  generalize preorder level t = l at *
  induction l generalizing i with
  | nil => simp at h
  | cons y l ih =>
    cases i with
    | zero =>
      simp only [List.getElem?_cons_zero, Option.some.injEq] at h
      subst h
      obtain ⟨lv, y⟩ := y
      simp only at hx
      subst hx
      simp [pageOf]
    | succ i =>
      rw [List.getElem?_cons_succ] at h
      have := ih i h
      obtain ⟨lv, y⟩ := y
      cases y with
      | page r' d' => simpa [List.filterMap_cons, List.countP_cons, pageOf, isPage] using this
      | node r' d' k => simpa [List.filterMap_cons, List.countP_cons, pageOf, isPage] using this

end Pdf
