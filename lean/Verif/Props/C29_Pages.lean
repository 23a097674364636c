/-
C29: the list of pages. C30: it depends on what was listed before.
-/
import Verif.Lemmas.Pages
import Verif.Lemmas.MemDoc

namespace Pdf
open Spec Spec.PageTree

/-- **C29** for page trees as ISO 32000 describes them (references to the nodes, `/Kids` a direct array), when
nothing was listed before: `flat_page_tree` lists the leaves from left to right, and each of them comes with the
inheritable attributes of its ancestors and nothing else, the nearest ancestor winning. The document shows the same
objects as before. `lim`, the recursion limit, must exceed the depth of the tree. -/
theorem C29_pages_partial [Zlib] {d : Doc} (hc : Coherent d) {t : PageTree} (ht : IsRoot (storeOf d) t)
    {lim : Nat} (hl : depth t ≤ lim) :
    ∃ l leak d', (flatPageTree lim .null [] none).run d = .ok ((l, leak), d') ∧ storeOf d' = storeOf d ∧
      Pointwise (fun a b => a.1 = refObj b.1 ∧
        ∀ k, Dict.get? a.2 k = if k ∈ inheritable then nearest k b.2.2 else none) l (leaves [] t) := by
  obtain ⟨l, J, h1, h2, -⟩ := flatPageTree_root (leak := []) hl ht
  obtain ⟨d', h3, -, h4⟩ := run_readOnly_ok (readOnly_flatPageTree _ _ _ _) hc h1
  refine ⟨l, J, d', h3, h4, h2.mono fun a b h => ⟨h.1, fun k => ?_⟩⟩
  rw [h.2]
  unfold inh
  split
  · cases nearest k b.2.2 <;> rfl
  · rfl

/-- **C29** for `pages`: the dictionaries of the leaves from left to right, where the attributes that the page
does not have are those of the nearest ancestor that has them. -/
theorem C29_effective_partial [Zlib] {d : Doc} (hc : Coherent d) {t : PageTree} (ht : IsRoot (storeOf d) t)
    {lim : Nat} (hl : depth t ≤ lim) :
    ∃ l leak d', (pagesP lim [] none).run d = .ok ((l, leak), d') ∧ storeOf d' = storeOf d ∧
      Pointwise (fun o b => ∃ e, o = .dict e ∧ ∀ k, Dict.get? e k =
        (Dict.get? b.2.1 k).or (if k ∈ inheritable then nearest k b.2.2 else none)) l (leaves [] t) := by
  obtain ⟨l, J, h1, h2, -⟩ := flatPageTree_root (leak := []) hl ht
  obtain ⟨pl, h3, h4⟩ := pagesLoop_spec h2 (leaves_shown t [] ht.shown)
  have he : eval (pagesP lim [] none) (storeOf d) = .ok ((pl, J), storeOf d) := by
    unfold pagesP
    rw [eval_bind_ok h1]
    show eval (pagesLoop l >>= _) _ = _
    rw [eval_bind_ok h3]; rfl
  obtain ⟨d', h5, -, h6⟩ := run_readOnly_ok (readOnly_pagesP _ _ _) hc he
  refine ⟨pl, J, d', h5, h6, h4.mono fun o b h => ?_⟩
  obtain ⟨e, h7, h8⟩ := h
  refine ⟨e, h7, fun k => ?_⟩
  rw [h8]
  congr 1
  unfold inh
  split
  · cases nearest k b.2.2 <;> rfl
  · rfl

/-- Objects: trailer, catalog, root (3 kids: a page, a node with two pages, a page), with a rotation on the root
and on the node. -/
def treeObjs : List Obj :=
  [.dict [(b!"/Root", .ref 0 1)],
   .dict [(b!"/Type", .str b!"/Catalog"), (b!"/Pages", .ref 0 2)],
   .dict [(b!"/Type", .str b!"/Pages"), (b!"/Count", .int 4), (b!"/Rotate", .int 90),
     (b!"/Kids", .list [.ref 0 3, .ref 0 4, .ref 0 7])],
   .dict [(b!"/Type", .str b!"/Page"), (b!"/Parent", .ref 0 2)],
   .dict [(b!"/Type", .str b!"/Pages"), (b!"/Count", .int 2), (b!"/Rotate", .int 180), (b!"/Parent", .ref 0 2),
     (b!"/Kids", .list [.ref 0 5, .ref 0 6])],
   .dict [(b!"/Type", .str b!"/Page"), (b!"/Parent", .ref 0 4)],
   .dict [(b!"/Type", .str b!"/Page"), (b!"/Parent", .ref 0 4), (b!"/Rotate", .int 270)],
   .dict [(b!"/Type", .str b!"/Page"), (b!"/Parent", .ref 0 2)]]

/-- Its page tree. -/
def tree : PageTree :=
  .node (0, 2) [(b!"/Type", .str b!"/Pages"), (b!"/Count", .int 4), (b!"/Rotate", .int 90),
      (b!"/Kids", .list [.ref 0 3, .ref 0 4, .ref 0 7])]
    [.page (0, 3) [(b!"/Type", .str b!"/Page"), (b!"/Parent", .ref 0 2)],
     .node (0, 4) [(b!"/Type", .str b!"/Pages"), (b!"/Count", .int 2), (b!"/Rotate", .int 180),
         (b!"/Parent", .ref 0 2), (b!"/Kids", .list [.ref 0 5, .ref 0 6])]
       [.page (0, 5) [(b!"/Type", .str b!"/Page"), (b!"/Parent", .ref 0 4)],
        .page (0, 6) [(b!"/Type", .str b!"/Page"), (b!"/Parent", .ref 0 4), (b!"/Rotate", .int 270)]],
     .page (0, 7) [(b!"/Type", .str b!"/Page"), (b!"/Parent", .ref 0 2)]]

theorem tree_isRoot [Zlib] : IsRoot (storeOf (memDoc treeObjs)) tree := by
  rw [memDoc_store (by simp [treeObjs])]
  refine ⟨?_, ⟨_, _, _, rfl⟩, _, _, _, rfl, rfl, rfl, rfl⟩
  refine ⟨by decide, rfl, rfl, rfl, ?_⟩
  refine ⟨⟨by decide, rfl, rfl⟩, ⟨by decide, rfl, rfl, rfl, ?_⟩, ⟨by decide, rfl, rfl⟩, trivial⟩
  exact ⟨⟨by decide, rfl, rfl⟩, ⟨by decide, rfl, rfl⟩, trivial⟩

example [Zlib] : Coherent (memDoc treeObjs) ∧ IsRoot (storeOf (memDoc treeObjs)) tree ∧ depth tree ≤ 1000 :=
  ⟨memDoc_coherent _, tree_isRoot, by decide⟩
/-- What it gives: numbers and inherited rotations. -/
example : (leaves [] tree).map (fun b => (b.1.2, nearest b!"/Rotate" b.2.2)) =
    [(3, some (.int 90)), (5, some (.int 180)), (6, some (.int 180)), (7, some (.int 90))] := rfl

/-- **C29 is false for an indirect `/Kids`**, which ISO 32000 7.3.10 allows: `for kid in node['/Kids']` iterates over
the reference, and a complex number is not iterable. -/
theorem C29_counterexample [Zlib] :
    ((flatPageTree 1000 .null [] none).run (memDoc
      [.dict [(b!"/Root", .ref 0 1)],
       .dict [(b!"/Type", .str b!"/Catalog"), (b!"/Pages", .ref 0 2)],
       .dict [(b!"/Type", .str b!"/Pages"), (b!"/Count", .int 1), (b!"/Kids", .ref 0 4)],
       .dict [(b!"/Type", .str b!"/Page"), (b!"/Parent", .ref 0 2)],
       .list [.ref 0 3]])).map (fun _ => ()) = .error .typeError := by
  kernel_rfl

/-! ### C30 -/

/-- A document with a rotated root. -/
def rotatedObjs : List Obj :=
  [.dict [(b!"/Root", .ref 0 1)],
   .dict [(b!"/Type", .str b!"/Catalog"), (b!"/Pages", .ref 0 2)],
   .dict [(b!"/Type", .str b!"/Pages"), (b!"/Count", .int 1), (b!"/Kids", .list [.ref 0 3]), (b!"/Rotate", .int 90)],
   .dict [(b!"/Type", .str b!"/Page"), (b!"/Parent", .ref 0 2)]]

/-- The same without rotation. -/
def uprightObjs : List Obj :=
  [.dict [(b!"/Root", .ref 0 1)],
   .dict [(b!"/Type", .str b!"/Catalog"), (b!"/Pages", .ref 0 2)],
   .dict [(b!"/Type", .str b!"/Pages"), (b!"/Count", .int 1), (b!"/Kids", .list [.ref 0 3])],
   .dict [(b!"/Type", .str b!"/Page"), (b!"/Parent", .ref 0 2)]]

/-- **C30 is false.** The default argument `inherited={}` is a single dict: once the first document has been listed,
it holds `/Rotate 90`, and the page of the second document, which has no rotation, is then listed with it. -/
theorem C30_counterexample [Zlib] :
    ((flatPageTree 1000 .null [] none).run (memDoc uprightObjs)).map (fun r => r.1.1) = .ok [(.ref 0 3, [])] ∧
    ((flatPageTree 1000 .null [] none).run (memDoc rotatedObjs)).map (fun r => r.1.2) =
      .ok [(b!"/Rotate", .int 90)] ∧
    ((flatPageTree 1000 .null [(b!"/Rotate", .int 90)] none).run (memDoc uprightObjs)).map (fun r => r.1.1) =
      .ok [(.ref 0 3, [(b!"/Rotate", .int 90)])] :=
  ⟨by kernel_rfl, by kernel_rfl, by kernel_rfl⟩

/-- The content of the shared dict after a document was listed. -/
inductive Leaked [Zlib] (lim : Nat) : Dict → Prop
  | start : Leaked lim []
  | step {leak leak' : Dict} {d d' : Doc} {t : PageTree} {l : List (Obj × Dict)} : Leaked lim leak → Coherent d →
      IsRoot (storeOf d) t → depth t ≤ lim →
      (flatPageTree lim .null leak none).run d = .ok ((l, leak'), d') → Leaked lim leak'

theorem Leaked.only [Zlib] {lim : Nat} {leak : Dict} (h : Leaked lim leak) :
    ∀ k, k ∉ inheritable → Dict.get? leak k = none := by
  induction h with
  | start => intro k _; rfl
  | step _ hc ht hl hrun ih =>
    intro k hk
    obtain ⟨l', J, h1, -, h2, -⟩ := flatPageTree_root hl ht
    obtain ⟨d', h3, -, -⟩ := run_readOnly_ok (readOnly_flatPageTree _ _ _ _) hc h1
    rw [hrun] at h3
    cases h3
    rw [h2 k hk, ih k hk]

/-- **C30** in the case that holds: when every page inherits all four attributes from the ancestors it has in
its own document, what was listed before makes no difference. (Dicts are compared by what their keys give.) -/
theorem C30_defined_partial [Zlib] {lim : Nat} {leak : Dict} (hleak : Leaked lim leak) {d : Doc} (hc : Coherent d)
    {t : PageTree} (ht : IsRoot (storeOf d) t) (hl : depth t ≤ lim)
    (hdef : ∀ b ∈ leaves [] t, ∀ k ∈ inheritable, (nearest k b.2.2).isSome) :
    ∃ l l' J J' d1 d2, (flatPageTree lim .null [] none).run d = .ok ((l, J), d1) ∧
      (flatPageTree lim .null leak none).run d = .ok ((l', J'), d2) ∧
      Pointwise (fun a b => a.1 = b.1 ∧ ∀ k, Dict.get? a.2 k = Dict.get? b.2 k) l l' := by
  obtain ⟨l, J, h1, h2, -⟩ := flatPageTree_root (leak := []) hl ht
  obtain ⟨l', J', h1', h2', -⟩ := flatPageTree_root (leak := leak) hl ht
  obtain ⟨d1, h3, -, -⟩ := run_readOnly_ok (readOnly_flatPageTree _ _ _ _) hc h1
  obtain ⟨d2, h4, -, -⟩ := run_readOnly_ok (readOnly_flatPageTree _ _ _ _) hc h1'
  refine ⟨l, l', J, J', d1, d2, h3, h4, ?_⟩
  generalize leaves [] t = ls at h2 h2' hdef
  clear h1 h1' h3 h4
  induction h2 generalizing l' with
  | nil => cases h2'; exact .nil
  | @cons a b l m hab hlm ih =>
    cases h2' with
    | @cons a' _ l'' _ hab' hlm' =>
      refine .cons ⟨hab.1.trans hab'.1.symm, fun k => ?_⟩ (ih _ hlm' fun b hb => hdef b (by simp [hb]))
      rw [hab.2, hab'.2]
      unfold inh
      by_cases hk : k ∈ inheritable
      · simp only [if_pos hk]
        have := hdef b (by simp) k hk
        cases hn : nearest k b.2.2 with
        | none => rw [hn] at this; cases this
        | some v => rfl
      · simp only [if_neg hk, hleak.only k hk]; rfl

/-- All four attributes are on the root. -/
def definedTree : PageTree :=
  .node (0, 2) [(b!"/Type", .str b!"/Pages"), (b!"/Kids", .list [.ref 0 3]), (b!"/Rotate", .int 0),
      (b!"/MediaBox", .list []), (b!"/CropBox", .list []), (b!"/Resources", .dict [])]
    [.page (0, 3) [(b!"/Type", .str b!"/Page")]]
def definedObjs : List Obj :=
  [.dict [(b!"/Root", .ref 0 1)],
   .dict [(b!"/Type", .str b!"/Catalog"), (b!"/Pages", .ref 0 2)],
   .dict [(b!"/Type", .str b!"/Pages"), (b!"/Kids", .list [.ref 0 3]), (b!"/Rotate", .int 0),
      (b!"/MediaBox", .list []), (b!"/CropBox", .list []), (b!"/Resources", .dict [])],
   .dict [(b!"/Type", .str b!"/Page")]]
example [Zlib] : IsRoot (storeOf (memDoc definedObjs)) definedTree ∧
    ∀ b ∈ leaves [] definedTree, ∀ k ∈ inheritable, (nearest k b.2.2).isSome := by
  refine ⟨?_, by decide⟩
  rw [memDoc_store (by simp [definedObjs])]
  exact ⟨⟨by decide, rfl, rfl, rfl, ⟨by decide, rfl, rfl⟩, trivial⟩, ⟨_, _, _, rfl⟩, _, _, _, rfl, rfl, rfl, rfl⟩
/-- The rotated document was listed before. -/
example [Zlib] : Leaked 1000 [(b!"/Rotate", .int 90)] := by
  have ht : IsRoot (storeOf (memDoc rotatedObjs)) (.node (0, 2)
      [(b!"/Type", .str b!"/Pages"), (b!"/Count", .int 1), (b!"/Kids", .list [.ref 0 3]), (b!"/Rotate", .int 90)]
      [.page (0, 3) [(b!"/Type", .str b!"/Page"), (b!"/Parent", .ref 0 2)]]) := by
    rw [memDoc_store (by simp [rotatedObjs])]
    exact ⟨⟨by decide, rfl, rfl, rfl, ⟨by decide, rfl, rfl⟩, trivial⟩, ⟨_, _, _, rfl⟩, _, _, _, rfl, rfl, rfl, rfl⟩
  refine .step (l := [(.ref 0 3, [(b!"/Rotate", .int 90)])]) (d' := memDoc rotatedObjs) .start
    (memDoc_coherent _) ht (by decide) ?_
  kernel_rfl

/-! The references, on the other hand, never depend on it. -/

theorem kidsLoop_refs {s : Store} {sub : Obj → Dict → Prog (List (Obj × Dict) × Dict)} {m : Option Int}
    (e e' : Dict)
    (hsub : ∀ o i i', (eval (sub o i) s).map (fun r => r.1.1.map Prod.fst) =
      (eval (sub o i') s).map (fun r => r.1.1.map Prod.fst)) (hro : ∀ o i, ReadOnly (sub o i)) :
    ∀ kids accu accu' i i', accu.map Prod.fst = accu'.map Prod.fst →
    (eval (kidsLoop sub e m kids accu i) s).map (fun r => r.1.1.map Prod.fst) =
      (eval (kidsLoop sub e' m kids accu' i') s).map (fun r => r.1.1.map Prod.fst) := by
  intro kids
  induction kids with
  | nil => intro accu accu' i i' h; simpa [kidsLoop, Except.map] using h
  | cons k kids ih =>
    intro accu accu' i i' h
    have hk := hsub k (Dict.update i e) (Dict.update i' e')
    unfold kidsLoop
    rw [eval_bind, eval_bind]
    rcases h1 : eval (sub k (Dict.update i e)) s with x | ⟨⟨l, J⟩, s1⟩ <;>
      rcases h2 : eval (sub k (Dict.update i' e')) s with x' | ⟨⟨l', J'⟩, s2⟩ <;>
      rw [h1, h2] at hk <;> simp only [Except.map] at hk
    · have : x = x' := by simpa using hk
      rw [this]; rfl
    · cases hk
    · cases hk
    · have e1 := eval_readOnly (hro _ _) h1
      have e2 := eval_readOnly (hro _ _) h2
      subst e1 e2
      have hk : l.map Prod.fst = l'.map Prod.fst := by simpa using hk
      have hl : (accu ++ l).map Prod.fst = (accu' ++ l').map Prod.fst := by simp [h, hk]
      have hlen : (accu ++ l).length = (accu' ++ l').length := by
        have := congrArg List.length hl
        simpa only [List.length_map] using this
      simp only [bind, Except.bind, hlen]
      split
      · simp [Except.map, h, hk]
      · exact ih _ _ _ _ hl

theorem flatPageTree_refs {s : Store} {m : Option Int} : ∀ (lim : Nat) (o : Obj) (i i' : Dict),
    (eval (flatPageTree lim o i m) s).map (fun r => r.1.1.map Prod.fst) =
      (eval (flatPageTree lim o i' m) s).map (fun r => r.1.1.map Prod.fst) := by
  intro lim
  induction lim with
  | zero => intro o i i'; rfl
  | succ lim ih =>
    intro o i i'
    unfold flatPageTree
    have hro : ReadOnly (if truthy o then Prog.fetch o else pagesRoot) := by
      split
      · exact ReadOnly.fetch _
      · exact readOnly_pagesRoot
    rw [eval_bind, eval_bind]
    rcases h1 : eval (if truthy o then Prog.fetch o else pagesRoot) s with x | ⟨node, s1⟩
    · rfl
    · have e1 := eval_readOnly hro h1
      subst e1
      simp only [bind, Except.bind]
      show (eval (Prog.lift _ >>= _) _).map _ = (eval (Prog.lift _ >>= _) _).map _
      rcases getKey node b!"/Type" with x | t
      · rfl
      · rw [eval_bind_ok (eval_lift_ok _ _), eval_bind_ok (eval_lift_ok _ _)]
        by_cases ht : t = .str b!"/Pages"
        · rw [if_pos ht, if_pos ht]
          show (eval (Prog.lift _ >>= _) _).map _ = (eval (Prog.lift _ >>= _) _).map _
          rcases getKey node b!"/Kids" with x | kids
          · rfl
          · rw [eval_bind_ok (eval_lift_ok _ _), eval_bind_ok (eval_lift_ok _ _)]
            show (eval (Prog.lift _ >>= _) _).map _ = (eval (Prog.lift _ >>= _) _).map _
            rcases iterate kids with x | kids
            · rfl
            · rw [eval_bind_ok (eval_lift_ok _ _), eval_bind_ok (eval_lift_ok _ _)]
              exact kidsLoop_refs _ _ ih (fun o i => readOnly_flatPageTree _ _ _ _) _ _ _ _ _ rfl
        · rw [if_neg ht, if_neg ht]
          by_cases ht : t = .str b!"/Page"
          · rw [if_pos ht, if_pos ht]; rfl
          · rw [if_neg ht, if_neg ht]

/-- **C30** for the references: which pages are listed, and in which order, depends on the document only
(and so does whether the listing raises). This holds of any document, even ill-formed. -/
theorem C30_references_partial [Zlib] {d : Doc} (hc : Coherent d) (lim : Nat) (leak : Dict) (m : Option Int) :
    ((flatPageTree lim .null leak m).run d).map (fun r => r.1.1.map Prod.fst) =
      ((flatPageTree lim .null [] m).run d).map (fun r => r.1.1.map Prod.fst) := by
  have h := flatPageTree_refs (s := storeOf d) (m := m) lim .null leak []
  have h1 := run_readOnly (readOnly_flatPageTree m lim .null leak) hc
  have h2 := run_readOnly (readOnly_flatPageTree m lim .null []) hc
  rcases e1 : eval (flatPageTree lim .null leak m) (storeOf d) with x | ⟨r, s1⟩ <;>
    rcases e2 : eval (flatPageTree lim .null [] m) (storeOf d) with x' | ⟨r', s2⟩ <;>
    rw [e1] at h1 <;> rw [e2] at h2 <;> rw [e1, e2] at h <;> simp only [Except.map] at h
  · rw [h1, h2]; exact h
  · cases h
  · cases h
  · obtain ⟨-, d1, r1, -⟩ := h1
    obtain ⟨-, d2, r2, -⟩ := h2
    rw [r1, r2]; exact h

end Pdf
