/-
The tree without a page.
-/
import Verif.Lemmas.Detach

namespace Pdf
open Spec Spec.PageTree

theorem refObj_inj {a b : Ref} (h : refObj a = refObj b) : a = b := by
  obtain ⟨a1, a2⟩ := a
  obtain ⟨b1, b2⟩ := b
  simp only [refObj, Obj.ref.injEq] at h
  rw [h.1, h.2]

theorem erase_refs {ks : List Ref} (h : ks.Nodup) (r : Ref) :
    (ks.map refObj).erase (refObj r) = (ks.filter (· ≠ r)).map refObj := by
  induction ks with
  | nil => rfl
  | cons k ks ih =>
    rw [List.nodup_cons] at h
    rw [List.map_cons, List.erase_cons]
    by_cases hk : k = r
    · subst hk
      rw [if_pos (by simp), List.filter_cons_of_neg (by simp), List.filter_eq_self.2]
      intro a ha
      have : a ≠ k := fun he => h.1 (he ▸ ha)
      simpa using this
    · have : ¬ (refObj k == refObj r) = true := by
        simpa using fun he => hk (refObj_inj he)
      rw [if_neg this, List.filter_cons_of_pos (by simpa using hk), List.map_cons, ih h.2]

theorem filter_refs {ks : List Ref} {r : Ref} (h : r ∉ ks) : ks.filter (· ≠ r) = ks := by
  rw [List.filter_eq_self]
  intro a ha
  have : a ≠ r := fun he => h (he ▸ ha)
  simpa using this

/-- What is known of a node. -/
structure NodeOk (s : Store) (x : Ref × Dict × List Ref) : Prop where
  pos : 0 < x.1.2
  get : s.get (refObj x.1) = .ok (.dict x.2.1)
  type : Dict.get? x.2.1 b!"/Type" = some (.str b!"/Pages")
  count : ∃ c, Dict.get? x.2.1 b!"/Count" = some (.int c)
  kids : ∃ ks : List Ref, Dict.get? x.2.1 b!"/Kids" = some (.list (ks.map refObj)) ∧ ks.Nodup ∧
    ∀ k ∈ ks, 0 < k.2 ∧ ∃ dk, s.get (refObj k) = .ok (.dict dk) ∧ Dict.get? dk b!"/Parent" = some (refObj x.1)

theorem ref_mem_nums : ∀ t : PageTree, t.ref.2.toNat ∈ nums t
  | .page _ _ => by simp [nums, PageTree.ref]
  | .node _ _ _ => by simp [nums, PageTree.ref]

theorem refs_nodup : ∀ ts : List PageTree, (numsAll ts).Nodup → (ts.map PageTree.ref).Nodup
  | [], _ => List.nodup_nil
  | t :: ts, h => by
    simp only [numsAll] at h
    obtain ⟨h1, h2, h3⟩ := List.nodup_append.1 h
    rw [List.map_cons, List.nodup_cons]
    refine ⟨?_, refs_nodup ts h2⟩
    intro hmem
    obtain ⟨u, hu, heq⟩ := List.mem_map.1 hmem
    have hu' : u.ref.2.toNat ∈ numsAll ts := by
      clear h h1 h2 h3 hmem
      induction ts with
      | nil => cases hu
      | cons v vs ih =>
        simp only [numsAll, List.mem_append]
        rcases List.mem_cons.1 hu with rfl | hu
        · exact .inl (ref_mem_nums _)
        · exact .inr (ih hu)
    exact h3 _ (ref_mem_nums t) _ hu' (by rw [heq])

theorem shownAll_kids {s : Store} {par : Option Ref} : ∀ ts : List PageTree, ShownAll s ts → LinkedAll par ts →
    ∀ t ∈ ts, 0 < t.ref.2 ∧ ∃ dk, s.get (refObj t.ref) = .ok (.dict dk) ∧
      Dict.get? dk b!"/Parent" = par.map refObj
  | [], _, _, t, ht => by cases ht
  | u :: us, hs, hl, t, ht => by
    rcases List.mem_cons.1 ht with rfl | ht
    · cases t with
      | page r d => exact ⟨hs.1.1, d, hs.1.2.1, hl.1⟩
      | node r d kids => exact ⟨hs.1.1, d, hs.1.2.1, hl.1.1⟩
    · exact shownAll_kids us hs.2 hl.2 t ht

mutual
theorem nodes_ok {s : Store} : ∀ (t : PageTree) (par : Option Ref), Shown s t → Linked par t → (nums t).Nodup →
    ∀ x ∈ nodes t, NodeOk s x
  | .page _ _, _, _, _, _, x, hx => by cases hx
  | .node r d kids, par, hs, hl, hn, x, hx => by
    obtain ⟨h1, h2, h3, h4, h5⟩ := hs
    obtain ⟨l1, l2, l3⟩ := hl
    simp only [nums, List.nodup_cons] at hn
    simp only [nodes, List.mem_cons] at hx
    rcases hx with rfl | hx
    · refine ⟨h1, h2, h3, l2, kids.map PageTree.ref, ?_, refs_nodup kids hn.2, ?_⟩
      · rw [List.map_map]; exact h4
      · intro k hk
        obtain ⟨u, hu, rfl⟩ := List.mem_map.1 hk
        exact shownAll_kids kids h5 l3 u hu
    · exact nodesAll_ok kids (some r) h5 l3 hn.2 x hx
theorem nodesAll_ok {s : Store} : ∀ (ts : List PageTree) (par : Option Ref), ShownAll s ts → LinkedAll par ts →
    (numsAll ts).Nodup → ∀ x ∈ nodesAll ts, NodeOk s x
  | [], _, _, _, _, x, hx => by cases hx
  | t :: ts, par, hs, hl, hn, x, hx => by
    simp only [numsAll] at hn
    obtain ⟨h1, h2, -⟩ := List.nodup_append.1 hn
    simp only [nodesAll, List.mem_append] at hx
    rcases hx with hx | hx
    · exact nodes_ok t par hs.1 hl.1 h1 x hx
    · exact nodesAll_ok ts par hs.2 hl.2 h2 x hx
end

mutual
theorem nodes_below : ∀ (t : PageTree), ∀ x ∈ nodes t, x.1.2.toNat ∈ nums t ∧ ∀ r ∈ x.2.2, r.2.toNat ∈ nums t
  | .page _ _, x, hx => by cases hx
  | .node r d kids, x, hx => by
    simp only [nodes, List.mem_cons] at hx
    rcases hx with rfl | hx
    · refine ⟨by simp [nums], fun r' hr => ?_⟩
      obtain ⟨b, hb, rfl⟩ := List.mem_map.1 hr
      exact List.mem_cons_of_mem _ ((mem_numsAll kids [] _).2 (.inr ⟨b, hb, rfl⟩))
    · obtain ⟨h1, h2⟩ := nodesAll_below kids x hx
      exact ⟨List.mem_cons_of_mem _ h1, fun r hr => List.mem_cons_of_mem _ (h2 r hr)⟩
theorem nodesAll_below : ∀ (ts : List PageTree), ∀ x ∈ nodesAll ts, x.1.2.toNat ∈ numsAll ts ∧
    ∀ r ∈ x.2.2, r.2.toNat ∈ numsAll ts
  | [], x, hx => by cases hx
  | t :: ts, x, hx => by
    simp only [nodesAll, List.mem_append] at hx
    simp only [numsAll, List.mem_append]
    rcases hx with hx | hx
    · obtain ⟨h1, h2⟩ := nodes_below t x hx
      exact ⟨.inl h1, fun r hr => .inl (h2 r hr)⟩
    · obtain ⟨h1, h2⟩ := nodesAll_below ts x hx
      exact ⟨.inr h1, fun r hr => .inr (h2 r hr)⟩
end

mutual
/-- The pages below a node are those that have it as an ancestor. -/
theorem below_iff : ∀ (t : PageTree) (c : List (Ref × Dict)), (nums t ++ c.map num).Nodup →
    ∀ b ∈ chains c t, ∀ x ∈ nodes t, b.1 ∈ x.2.2 ↔ x.1.2.toNat ∈ b.2.2.map num
  | .page _ _, _, _, _, _, x, hx => by cases hx
  | .node r d kids, c, hn, b, hb, x, hx => by
    have hn' : (numsAll kids ++ ((r, d) :: c).map num).Nodup := by
      simp only [nums, List.cons_append, List.map_cons] at hn ⊢
      exact (List.perm_middle.nodup_iff).2 hn
    simp only [nodes, List.mem_cons] at hx
    rcases hx with rfl | hx
    · have h1 : b.1 ∈ (leavesAll [] kids).map Prod.fst := by
        rw [← chainsAll_refs kids ((r, d) :: c)]
        exact List.mem_map_of_mem hb
      have h2 : r.2.toNat ∈ b.2.2.map num := by
        have h3 : ∃ l, b.2.2 = l ++ (r, d) :: c := chainsAll_suffix kids _ b hb
        obtain ⟨l, hl⟩ := h3
        rw [hl]
        simp [num]
      exact ⟨fun _ => h2, fun _ => h1⟩
    · exact belowAll_iff kids ((r, d) :: c) hn' b hb x hx
theorem belowAll_iff : ∀ (ts : List PageTree) (c : List (Ref × Dict)), (numsAll ts ++ c.map num).Nodup →
    ∀ b ∈ chainsAll c ts, ∀ x ∈ nodesAll ts, b.1 ∈ x.2.2 ↔ x.1.2.toNat ∈ b.2.2.map num
  | [], _, _, _, _, x, hx => by cases hx
  | t :: ts, c, hn, b, hb, x, hx => by
    simp only [chainsAll, List.mem_append] at hb
    simp only [nodesAll, List.mem_append] at hx
    simp only [numsAll, List.append_assoc] at hn
    have hts := (List.nodup_append.1 hn).2.1
    have hdis := (List.nodup_append.1 hn).2.2
    have hdis2 := (List.nodup_append.1 hts).2.2
    have ht : (nums t ++ c.map num).Nodup :=
      List.Nodup.sublist (List.Sublist.append_left (List.sublist_append_right _ _) _) hn
    rcases hb with hb | hb <;> rcases hx with hx | hx
    · exact below_iff t c ht b hb x hx
    · obtain ⟨-, -, k3, k4⟩ := chains_nums t c ht b hb
      obtain ⟨m1, m2⟩ := nodesAll_below ts x hx
      refine ⟨fun h => ?_, fun h => ?_⟩
      · exact absurd rfl (hdis _ k3 _ (List.mem_append_left _ (m2 _ h)))
      · rcases k4 _ h with h | h
        · exact absurd rfl (hdis _ h _ (List.mem_append_left _ m1))
        · exact absurd rfl (hdis2 _ m1 _ h)
    · obtain ⟨-, -, k3, k4⟩ := chainsAll_nums ts c hts b hb
      obtain ⟨m1, m2⟩ := nodes_below t x hx
      refine ⟨fun h => ?_, fun h => ?_⟩
      · exact absurd rfl (hdis _ (m2 _ h) _ (List.mem_append_left _ k3))
      · rcases k4 _ h with h | h
        · exact absurd rfl (hdis _ m1 _ (List.mem_append_left _ h))
        · exact absurd rfl (hdis _ m1 _ (List.mem_append_right _ h))
    · exact belowAll_iff ts c hts b hb x hx
end

/-! ### The pruned tree -/

/-- The dictionary found at a reference. -/
def dictAt (s : Store) (q : Ref) (d : Dict) : Dict :=
  match s.get (refObj q) with
  | .ok (.dict e) => e
  | _ => d

mutual
/-- The tree without the page `r`, with the nodes found in the document. -/
def prune (s : Store) (r : Ref) : PageTree → PageTree
  | .page q d => .page q d
  | .node q d kids => .node q (dictAt s q d) (pruneAll s r kids)
def pruneAll (s : Store) (r : Ref) : List PageTree → List PageTree
  | [] => []
  | t :: ts => if t.ref = r then pruneAll s r ts else prune s r t :: pruneAll s r ts
end

/-- A node after the removal of `r`. -/
structure NodeAfter (s' : Store) (r : Ref) (x : Ref × Dict × List Ref) (e : Dict) : Prop where
  get : s'.get (refObj x.1) = .ok (.dict e)
  kids : ∀ ks : List Ref, Dict.get? x.2.1 b!"/Kids" = some (.list (ks.map refObj)) →
    Dict.get? e b!"/Kids" = some (.list ((ks.filter (· ≠ r)).map refObj))
  other : ∀ k, k ≠ b!"/Kids" → k ≠ b!"/Count" → Dict.get? e k = Dict.get? x.2.1 k
  count : Dict.get? e b!"/Count" = some (.int (countOf x.2.1 - if r ∈ x.2.2 then 1 else 0))

theorem ref_prune (s : Store) (r : Ref) (t : PageTree) : (prune s r t).ref = t.ref := by cases t <;> rfl

theorem refs_pruneAll (s : Store) (r : Ref) : ∀ ts : List PageTree,
    (pruneAll s r ts).map (fun t => refObj t.ref) = ((ts.map PageTree.ref).filter (· ≠ r)).map refObj
  | [] => rfl
  | t :: ts => by
    rw [pruneAll, List.map_cons]
    by_cases h : t.ref = r
    · rw [if_pos h, List.filter_cons_of_neg (by simpa using h), refs_pruneAll s r ts]
    · rw [if_neg h, List.filter_cons_of_pos (by simpa using h), List.map_cons, List.map_cons, refs_pruneAll s r ts,
        ref_prune]

theorem dictAt_eq {s : Store} {q : Ref} {d e : Dict} (h : s.get (refObj q) = .ok (.dict e)) : dictAt s q d = e := by
  unfold dictAt; rw [h]

mutual
theorem shown_prune {s s' : Store} {r : Ref} : ∀ (t : PageTree), Shown s t →
    (∀ x ∈ nodes t, ∃ e, NodeAfter s' r x e) →
    (∀ b ∈ leaves [] t, s'.get (refObj b.1) = s.get (refObj b.1)) → Shown s' (prune s' r t)
  | .page q d, ⟨h1, h2, h3⟩, _, hp => ⟨h1, by rw [hp (q, d, []) (by simp [leaves])]; exact h2, h3⟩
  | .node q d kids, ⟨h1, h2, h3, h4, h5⟩, hx, hp => by
    obtain ⟨e, he⟩ := hx (q, d, (leavesAll [] kids).map Prod.fst) (by simp [nodes])
    have hd := dictAt_eq (d := d) he.get
    refine ⟨h1, ?_, ?_, ?_, shownAll_prune kids h5 (fun x h => hx x (by simp [nodes, h])) ?_⟩
    · rw [hd]; exact he.get
    · rw [hd, he.other _ (by decide) (by decide)]; exact h3
    · rw [hd, refs_pruneAll]
      refine he.kids _ ?_
      rw [List.map_map]; exact h4
    · intro b hb
      have : b.1 ∈ (leavesAll [d] kids).map Prod.fst := by
        rw [leavesAll_refs kids [d] []]; exact List.mem_map_of_mem hb
      obtain ⟨b', hb', heq⟩ := List.mem_map.1 this
      rw [← heq]
      exact hp b' hb'
theorem shownAll_prune {s s' : Store} {r : Ref} : ∀ (ts : List PageTree), ShownAll s ts →
    (∀ x ∈ nodesAll ts, ∃ e, NodeAfter s' r x e) →
    (∀ b ∈ leavesAll [] ts, s'.get (refObj b.1) = s.get (refObj b.1)) → ShownAll s' (pruneAll s' r ts)
  | [], _, _, _ => trivial
  | t :: ts, hs, hx, hp => by
    have h2 := shownAll_prune ts hs.2 (fun x h => hx x (by simp [nodesAll, h]))
      (fun b hb => hp b (by simp [leavesAll, hb]))
    unfold pruneAll
    split
    · exact h2
    · exact ⟨shown_prune t hs.1 (fun x h => hx x (by simp [nodesAll, h]))
        (fun b hb => hp b (by simp [leavesAll, hb])), h2⟩
end

mutual
theorem linked_prune {s' : Store} {r : Ref} : ∀ (t : PageTree) (par : Option Ref), Linked par t →
    (∀ x ∈ nodes t, ∃ e, NodeAfter s' r x e) → Linked par (prune s' r t)
  | .page _ _, _, h, _ => h
  | .node q d kids, par, ⟨h1, _, h3⟩, hx => by
    obtain ⟨e, he⟩ := hx (q, d, (leavesAll [] kids).map Prod.fst) (by simp [nodes])
    have hd := dictAt_eq (d := d) he.get
    refine ⟨?_, ?_, linkedAll_prune kids (some q) h3 (fun x h => hx x (by simp [nodes, h]))⟩
    · rw [hd, he.other _ (by decide) (by decide)]; exact h1
    · rw [hd]; exact ⟨_, he.count⟩
theorem linkedAll_prune {s' : Store} {r : Ref} : ∀ (ts : List PageTree) (par : Option Ref), LinkedAll par ts →
    (∀ x ∈ nodesAll ts, ∃ e, NodeAfter s' r x e) → LinkedAll par (pruneAll s' r ts)
  | [], _, _, _ => trivial
  | t :: ts, par, h, hx => by
    have h2 := linkedAll_prune ts par h.2 (fun x h => hx x (by simp [nodesAll, h]))
    unfold pruneAll
    split
    · exact h2
    · exact ⟨linked_prune t par h.1 (fun x h => hx x (by simp [nodesAll, h])), h2⟩
end

mutual
theorem nums_prune (s' : Store) (r : Ref) : ∀ (t : PageTree), (nums (prune s' r t)).Sublist (nums t)
  | .page _ _ => List.Sublist.refl _
  | .node _ _ kids => (numsAll_prune s' r kids).cons_cons _
theorem numsAll_prune (s' : Store) (r : Ref) : ∀ (ts : List PageTree),
    (numsAll (pruneAll s' r ts)).Sublist (numsAll ts)
  | [] => List.Sublist.refl _
  | t :: ts => by
    unfold pruneAll
    split
    · exact (numsAll_prune s' r ts).trans (List.sublist_append_right _ _)
    · exact (nums_prune s' r t).append (numsAll_prune s' r ts)
end

mutual
theorem depth_prune (s' : Store) (r : Ref) : ∀ (t : PageTree), depth (prune s' r t) ≤ depth t
  | .page _ _ => Nat.le_refl _
  | .node _ _ kids => Nat.succ_le_succ (depths_prune s' r kids)
theorem depths_prune (s' : Store) (r : Ref) : ∀ (ts : List PageTree), depths (pruneAll s' r ts) ≤ depths ts
  | [] => Nat.le_refl _
  | t :: ts => by
    have h1 := depth_prune s' r t
    have h2 := depths_prune s' r ts
    unfold pruneAll
    split
    · simp only [depths]; omega
    · simp only [depths]; omega
end

/-- Ancestors that give the same attributes. -/
def SameAnc (a a' : List Dict) : Prop := ∀ k ∈ inheritable, nearest k a = nearest k a'

theorem SameAnc.cons {a a' : List Dict} (h : SameAnc a a') {d e : Dict}
    (he : ∀ k, k ≠ b!"/Kids" → k ≠ b!"/Count" → Dict.get? e k = Dict.get? d k) : SameAnc (d :: a) (e :: a') := by
  intro k hk
  have : entry? e k = entry? d k := by
    unfold entry?
    rw [he k (by rintro rfl; exact absurd hk (by decide)) (by rintro rfl; exact absurd hk (by decide))]
  have ha := h k hk
  unfold nearest at ha ⊢
  rw [List.findSome?_cons, List.findSome?_cons, this, ha]

mutual
theorem leaves_prune {s' : Store} {r : Ref} : ∀ (t : PageTree) (a a' : List Dict), SameAnc a a' →
    (∀ x ∈ nodes t, x.1 ≠ r ∧ ∃ e, NodeAfter s' r x e) → t.ref ≠ r →
    (leaves a' (prune s' r t)).map shownPage = ((leaves a t).filter fun b => b.1 ≠ r).map shownPage
  | .page q d, a, a', ha, _, hr => by
    have hr : q ≠ r := hr
    simp only [prune, leaves]
    rw [List.filter_cons_of_pos (by simpa using hr), List.filter_nil, List.map_singleton, List.map_singleton]
    unfold shownPage
    simp only
    congr 3
    exact List.map_congr_left fun k hk => (ha k hk).symm
  | .node q d kids, a, a', ha, hx, _ => by
    obtain ⟨-, e, he⟩ := hx (q, d, (leavesAll [] kids).map Prod.fst) (by simp [nodes])
    have hd := dictAt_eq (d := d) he.get
    simp only [prune, leaves]
    exact leavesAll_prune kids _ _ (ha.cons (by rw [hd]; exact he.other)) fun x h => hx x (by simp [nodes, h])
theorem leavesAll_prune {s' : Store} {r : Ref} : ∀ (ts : List PageTree) (a a' : List Dict), SameAnc a a' →
    (∀ x ∈ nodesAll ts, x.1 ≠ r ∧ ∃ e, NodeAfter s' r x e) →
    (leavesAll a' (pruneAll s' r ts)).map shownPage = ((leavesAll a ts).filter fun b => b.1 ≠ r).map shownPage
  | [], _, _, _, _ => rfl
  | t :: ts, a, a', ha, hx => by
    have h2 := leavesAll_prune ts a a' ha fun x h => hx x (by simp [nodesAll, h])
    unfold pruneAll
    simp only [leavesAll, List.filter_append, List.map_append]
    split
    · rename_i hr
      rw [h2]
      cases t with
      | page q d =>
        have hr : q = r := hr
        simp only [leaves]
        rw [List.filter_cons_of_neg (by simpa using hr)]
        rfl
      | node q d kids =>
        exact absurd hr (hx (q, d, (leavesAll [] kids).map Prod.fst) (by simp [nodes, nodesAll])).1
    · rename_i hr
      simp only [leavesAll, List.map_append]
      rw [h2, leaves_prune t a a' ha (fun x h => hx x (by simp [nodesAll, h])) hr]
end

theorem refs_prune {l l' : List (Ref × Dict × List Dict)} {r : Ref}
    (h : l'.map shownPage = (l.filter fun b => b.1 ≠ r).map shownPage) :
    l'.map Prod.fst = (l.map Prod.fst).filter (· ≠ r) := by
  have := congrArg (List.map Prod.fst) h
  rw [List.map_map, List.map_map] at this
  rw [List.filter_map]
  exact this

theorem count_one {l : List Ref} (h : l.Nodup) (r : Ref) :
    (l.filter (fun x => x = r)).length = if r ∈ l then 1 else 0 := by
  induction l with
  | nil => rfl
  | cons x l ih =>
    rw [List.nodup_cons] at h
    by_cases hx : x = r
    · subst hx
      rw [List.filter_cons_of_pos (by simp), List.length_cons, ih h.2, if_neg h.1, if_pos (by simp)]
    · rw [List.filter_cons_of_neg (by simpa using hx), ih h.2]
      simp [Ne.symm hx]

mutual
theorem nodes_prune {s' : Store} {r : Ref} : ∀ (t : PageTree), (nums t).Nodup →
    (∀ x ∈ nodes t, x.1 ≠ r ∧ x.2.2.Nodup ∧ ∃ e, NodeAfter s' r x e) →
    Pointwise (NodeStep (· = r)) (nodes t) (nodes (prune s' r t))
  | .page _ _, _, _ => .nil
  | .node q d kids, hn, hx => by
    obtain ⟨-, hb, e, he⟩ := hx (q, d, (leavesAll [] kids).map Prod.fst) (by simp [nodes])
    have hd := dictAt_eq (d := d) he.get
    simp only [nums, List.nodup_cons] at hn
    simp only [nodes, prune]
    refine .cons ⟨rfl, ?_, ?_, ?_⟩ (nodesAll_prune kids hn.2 fun x h => hx x (by simp [nodes, h]))
    · have := leavesAll_prune kids [] [] (fun _ _ => rfl) (s' := s') (r := r)
        fun x h => ⟨(hx x (by simp [nodes, h])).1, (hx x (by simp [nodes, h])).2.2⟩
      have := refs_prune this
      simpa using this
    · rw [hd, count_one hb, he.count]
      split <;> simp_all
    · rw [hd]; exact he.other
theorem nodesAll_prune {s' : Store} {r : Ref} : ∀ (ts : List PageTree), (numsAll ts).Nodup →
    (∀ x ∈ nodesAll ts, x.1 ≠ r ∧ x.2.2.Nodup ∧ ∃ e, NodeAfter s' r x e) →
    Pointwise (NodeStep (· = r)) (nodesAll ts) (nodesAll (pruneAll s' r ts))
  | [], _, _ => .nil
  | t :: ts, hn, hx => by
    simp only [numsAll] at hn
    obtain ⟨h1, h2, -⟩ := List.nodup_append.1 hn
    have hts := nodesAll_prune ts h2 fun x h => hx x (by simp [nodesAll, h])
    unfold pruneAll
    split
    · rename_i hr
      cases t with
      | page q d => exact hts
      | node q d kids =>
        exact absurd hr (hx (q, d, (leavesAll [] kids).map Prod.fst) (by simp [nodes, nodesAll])).1
    · exact (nodes_prune t h1 fun x h => hx x (by simp [nodesAll, h])).append hts
end

end Pdf
