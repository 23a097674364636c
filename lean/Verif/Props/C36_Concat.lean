/-
C36: `concat` joins the page trees of two documents.
-/
import Verif.Lemmas.Concat
import Verif.Props.C33_Remove
import Verif.Props.C29_Pages

namespace Pdf
open Spec Spec.PageTree

/-- The dictionary of the root node with one more kid, at the end or at the beginning, and another count. -/
def joinedDict (atEnd : Bool) (d : Dict) (kids : List PageTree) (kid : PageTree) (c : Int) : Dict :=
  Dict.set (Dict.set d b!"/Kids" (.list ((if atEnd then kids ++ [kid] else kid :: kids).map fun t => refObj t.ref)))
    b!"/Count" (.int c)

/-- The joined tree. -/
def joinedTree (atEnd : Bool) (r : Ref) (d : Dict) (kids : List PageTree) (kid : PageTree) (c : Int) : PageTree :=
  .node r (joinedDict atEnd d kids kid c) (if atEnd then kids ++ [kid] else kid :: kids)

/-- What is known of the document that results from the copy of `source` into `target`; `M` are the numbers of the
copied objects. -/
structure JoinOf [Zlib] (target source res : Doc) (r : Ref) (M : List Nat) (F : Ref → Ref) (tree : PageTree) : Prop where
  length : res.cur.length = target.cur.length + M.length
  kept : ∀ n, n < target.cur.length → n ≠ r.2.toNat → (storeOf res).val n = (storeOf target).val n
  copied : ∀ j n, M[j]? = some n →
    (storeOf res).val (target.cur.length + j) = ((storeOf source).val n).map (renumber F)
  pages : IsRoot (storeOf res) tree

theorem get_set_dict {s : Store} {m : Nat} {v w o : Obj} (hm : s.val m = .ok v) (ho : s.get o = .ok w) :
    ∀ new, (s.set m new).get o = .ok w ∨ (w = v ∧ (s.set m new).get o = .ok new) := by
  intro new
  cases o with
  | ref g n =>
    simp only [Store.get] at ho ⊢
    split at ho
    · cases ho
    · rename_i hn
      rw [if_neg hn]
      by_cases h : n.toNat = m
      · right
        rw [h, hm] at ho
        cases ho
        exact ⟨rfl, by rw [h, set_val_eq]⟩
      · left
        rw [set_val_ne h]
        exact ho
  | _ => exact .inl ho

theorem shownAll_append {s : Store} : ∀ {a b : List PageTree}, ShownAll s a → ShownAll s b → ShownAll s (a ++ b)
  | [], _, _, h => h
  | _ :: _, _, h1, h2 => ⟨h1.1, shownAll_append h1.2 h2⟩

theorem numsAll_append : ∀ (a b : List PageTree), numsAll (a ++ b) = numsAll a ++ numsAll b
  | [], _ => rfl
  | t :: a, b => by simp only [List.cons_append, numsAll, numsAll_append a b, List.append_assoc]

theorem hookPages_spec [Zlib] (atEnd : Bool) {d : Doc} {x : Option Int} (hd : Editable d x) {r : Ref} {dt : Dict}
    {kids : List PageTree} {kid : PageTree} {c c' : Int} (hroot : IsRoot (storeOf d) (.node r dt kids))
    (hr : r.2.toNat ∉ numsAll kids) (hc : Dict.get? dt b!"/Count" = some (.int c)) (hk : Shown (storeOf d) kid)
    (hkr : r.2.toNat ∉ nums kid) :
    ∃ res, hookPages atEnd d (refObj r) kid.ref (.int c') = .ok res ∧ Editable res x ∧
      storeOf res = (storeOf d).set r.2.toNat (.dict (joinedDict atEnd dt kids kid (c + c'))) ∧
      IsRoot (storeOf res) (joinedTree atEnd r dt kids kid (c + c')) := by
  obtain ⟨⟨p1, p2, p3, p4, p5⟩, -, tr, root, cat, n1, n2, n3, n4⟩ := hroot
  obtain ⟨d1, q1, q2, q3, -⟩ := get_step hd p2
  obtain ⟨d2, w1, w2, w3, -⟩ := get_step q2 (r := .int c) (o := .int c) rfl
  obtain ⟨d3, v1, v2, v3, -⟩ := get_step w2 (r := .list (kids.map fun t => refObj t.ref)) (o := .list _) rfl
  have hval : (storeOf d).val r.2.toNat = .ok (.dict dt) := by rw [← get_refObj p1]; exact p2
  obtain ⟨res, e, u1, u2, u3, -⟩ := set_step v2 (n := r.2.toNat) (by omega) (by rw [v3, w3, q3]; exact hval)
    (.dict (joinedDict atEnd dt kids kid (c + c')))
  have hst : storeOf res = (storeOf d).set r.2.toNat (.dict (joinedDict atEnd dt kids kid (c + c'))) := by
    rw [u3, v3, w3, q3]
  refine ⟨res, ?_, u2, hst, ?_⟩
  · unfold hookPages
    rw [q1]
    have e0 : addKid atEnd (.list (kids.map fun t => refObj t.ref)) kid.ref =
        .ok (.list ((if atEnd then kids ++ [kid] else kid :: kids).map fun t => refObj t.ref)) := by
      cases atEnd <;> simp [addKid, refObj]
    have e3 : refNum (refObj r) = .ok r.2.toNat := by
      simp only [refNum, refObj]
      rw [if_neg (by omega)]
    simp only [bind, Except.bind, getKey, hc, orRaise, w1, p4, v1, e0, renumberCache, addCounts, setEntry, e3]
    exact u1
  · rw [hst]
    have hagree : ∀ n, n ≠ r.2.toNat →
        ((storeOf d).set r.2.toNat (.dict (joinedDict atEnd dt kids kid (c + c')))).val n = (storeOf d).val n :=
      fun n hn => set_val_ne hn
    have k1 := shownAll_agree (s' := (storeOf d).set r.2.toNat (.dict (joinedDict atEnd dt kids kid (c + c')))) kids
      (fun n hn => hagree n (fun he => hr (he ▸ hn))) p5
    have k2 := shown_agree (s' := (storeOf d).set r.2.toNat (.dict (joinedDict atEnd dt kids kid (c + c')))) kid
      (fun n hn => hagree n (fun he => hkr (he ▸ hn))) hk
    refine ⟨⟨p1, ?_, ?_, ?_, ?_⟩, ⟨_, _, _, rfl⟩, ?_⟩
    · rw [get_refObj p1, set_val_eq]
    · unfold joinedDict
      rw [Dict.get?_set, if_neg (by decide), Dict.get?_set, if_neg (by decide)]
      exact p3
    · unfold joinedDict
      rw [Dict.get?_set, if_neg (by decide), Dict.get?_set, if_pos rfl]
    · cases atEnd
      · exact ⟨k2, k1⟩
      · exact shownAll_append k1 ⟨k2, trivial⟩
    · have h0 : ((storeOf d).set r.2.toNat (.dict (joinedDict atEnd dt kids kid (c + c')))).val 0 = .ok (.dict tr) := by
        rw [hagree 0 (by omega)]
        exact n1
      rcases get_set_dict hval n3 (.dict (joinedDict atEnd dt kids kid (c + c'))) with h | ⟨h, h'⟩
      · exact ⟨tr, root, cat, h0, n2, h, n4⟩
      · cases h
        refine ⟨tr, root, _, h0, n2, h', ?_⟩
        unfold joinedDict
        rw [Dict.get?_set, if_neg (by decide), Dict.get?_set, if_neg (by decide)]
        exact n4

/-- The numbers of a shown tree. -/
theorem renumberTree_nums {s : Store} {f : Ref → Ref} {P : Ref → Prop} {Q : Nat → Prop}
    (hget : ∀ r v, P r → s.get (refObj r) = .ok v → Q (f r).2.toNat ∧ ∀ q, Occurs q v → P q) :
    ∀ (t : PageTree), P t.ref → Shown s t → ∀ n ∈ nums (renumberTree f t), Q n := by
  have key : ∀ (k : Nat) (t : PageTree), depth t ≤ k → P t.ref → Shown s t → ∀ n ∈ nums (renumberTree f t), Q n := by
    intro k
    induction k with
    | zero => intro t hk; cases t <;> simp [depth] at hk
    | succ k ih =>
      intro t hk hp hs n hn
      cases t with
      | page r d =>
        simp only [renumberTree, nums, List.mem_singleton] at hn
        rw [hn]
        exact (hget r _ hp hs.2.1).1
      | node r d kids =>
        obtain ⟨-, h2, h3, h4, h5⟩ := hs
        obtain ⟨g1, g2⟩ := hget r _ hp h2
        simp only [renumberTree, nums, List.mem_cons] at hn
        rcases hn with rfl | hn
        · exact g1
        · have hall : ∀ (ts : List PageTree), ts ⊆ kids → depths ts ≤ k → ShownAll s ts → n ∈ numsAll (renumberTrees f ts) →
              Q n := by
            intro ts
            induction ts with
            | nil => intro _ _ _ h; simp [renumberTrees, numsAll] at h
            | cons a ts iht =>
              intro hsub hdep hsh hmem
              simp only [depths] at hdep
              simp only [renumberTrees, numsAll, List.mem_append] at hmem
              rcases hmem with hmem | hmem
              · refine ih a (by omega) ?_ hsh.1 n hmem
                exact g2 _ (.entry (Dict.mem_of_get? h4)
                  (.item (List.mem_map_of_mem (f := fun t => refObj t.ref) (hsub (by simp))) .here))
              · exact iht (fun q hq => hsub (by simp [hq])) (by omega) hsh.2 hmem
          simp only [depth] at hk
          exact hall kids (fun _ h => h) (by omega) h5 hn
  exact fun t => key _ t (Nat.le_refl _)

theorem concat_spec [Zlib] (atEnd : Bool) {target source : Doc} {x y : Option Int} {t1 t2 : PageTree} {c1 c2 : Int} {L : List Nat}
    {f F : Ref → Ref} {nr : Nat} (ht : Editable target x) (hs : Editable source y)
    (hroot : IsRoot (storeOf target) t1) (hrt : RootOk t1 c1)
    (hc : Copyable source y L f nr t2 c2)
    (hF : SentTo source target.cur.length (L.filter (· ≠ nr)) F) :
    ∃ r d kids res, t1 = .node r d kids ∧
      concat (if atEnd then target else source) (if atEnd then source else target) atEnd = .ok res ∧
      Editable res x ∧ JoinOf target source res r (L.filter (· ≠ nr)) F
        (joinedTree atEnd r d kids (renumberTree F t2) (c1 + c2)) ∧
      RootOk (joinedTree atEnd r d kids (renumberTree F t2) (c1 + c2)) (c1 + c2) := by
  obtain ⟨r, d, kids, rfl, hnum, hcount⟩ := hrt
  refine ⟨r, d, kids, ?_⟩
  obtain ⟨tr, root, cat, n1, n2, n3, n4⟩ := hroot.named
  obtain ⟨T1, a1, a2, a3, a4, -⟩ := catalog_step ht n1 n2 n3
  obtain ⟨S1, b1, b2, b3, b4⟩ := prepareSource_spec hs hc
  have hnd : (inUse S1).Nodup := by
    refine ((C58_in_use S1).2).imp ?_
    intro a b hab he
    rw [he] at hab
    omega
  -- the mapping
  have hmap : ∀ (j n : Nat), (L.filter (· ≠ nr))[j]? = some n →
      List.lookup (f (refTo source n)) (copyMap target.cur.length (inUse S1)) = some (F (refTo source n)) := by
    intro j n hj
    rw [show F (refTo source n) = _ from hF j n hj]
    refine copyMap_lookup _ _ hnd j _ ?_
    rw [b3, List.getElem?_map, hj]
    rfl
  have hin : ∀ n, n ∈ L → n ≠ nr → ∃ j : Nat, (L.filter (· ≠ nr))[j]? = some n := by
    intro n h1 h2
    exact List.mem_iff_getElem?.1 (List.mem_filter.2 ⟨h1, by simpa using h2⟩)
  have hret : ∀ n ∈ L, n ≠ nr → ∀ v, (storeOf source).val n = .ok v →
      deepRefRetarget (copyMap target.cur.length (inUse S1)) (renumber f v) = renumber F v := by
    intro n hn hne v hv
    obtain ⟨v', k1, k2, k3, k4⟩ := hc.squashable.vals n hn
    rw [hv] at k1
    cases k1
    have happ : ∀ q, Occurs q v → RefMap.apply (copyMap target.cur.length (inUse S1)) (f q) = F q := by
      intro q hq
      obtain ⟨m, m1, m2, rfl⟩ := copyable_ref hc hn hv hq
      obtain ⟨j, hj⟩ := hin m m1 m2
      unfold RefMap.apply
      rw [hmap j m hj]
      rfl
    rcases k4 with k4 | ⟨e, s, y', rfl, -⟩
    · rw [retarget_noStream _ _ (noStream_renumber k4), renumber_comp]
      exact renumber_congr v happ
    · have hno := hc.streams n hn e s y' hv
      rw [renumber_fixed (f := f) fun q hq => absurd hq (hno q), renumber_fixed (f := F) fun q hq => absurd hq (hno q)]
      rfl
  have hreads : ∀ q ∈ inUse S1, ∃ v, (storeOf S1).get (refObj q) = .ok v ∧ v ≠ .null := by
    intro q hq
    rw [b3, List.mem_map] at hq
    obtain ⟨n, hn, rfl⟩ := hq
    rw [List.mem_filter] at hn
    have hne : n ≠ nr := by simpa using hn.2
    obtain ⟨v, k1, k2, -⟩ := hc.squashable.vals n hn.1
    refine ⟨_, b4 n hn.1 hne v k1, ?_⟩
    cases v with
    | null => exact absurd rfl k2
    | _ => simp [renumber]
  obtain ⟨T2, w1, w2, w3, w4, w5⟩ := copyLoop_spec (copyMap target.cur.length (inUse S1)) (inUse S1) S1 T1 b2 a2 hreads
  rw [a3] at w3 w4 w5
  have hnext : (storeOf target).next = target.cur.length := rfl
  rw [hnext] at w3 w4 w5
  have hlen : (inUse S1).length = (L.filter (· ≠ nr)).length := by rw [b3, List.length_map]
  have hcop : ∀ (j n : Nat), (L.filter (· ≠ nr))[j]? = some n → ∀ v, (storeOf source).val n = .ok v →
      (storeOf T2).val (target.cur.length + j) = .ok (renumber F v) := by
    intro j n hj v hv
    have hmem := List.mem_of_getElem? hj
    rw [List.mem_filter] at hmem
    have hne : n ≠ nr := by simpa using hmem.2
    rw [← hret n hmem.1 hne v hv]
    refine w5 j (f (refTo source n)) _ ?_ (b4 n hmem.1 hne v hv)
    rw [b3, List.getElem?_map, hj]
    rfl
  -- the trees
  have hmono : ∀ n v, (storeOf target).val n = .ok v → (storeOf T2).val n = .ok v := by
    intro n v hv
    rw [w4 n (storeOf_fresh target n v hv)]
    exact hv
  have hroot2 := isRoot_mono hmono hroot
  have hP : ∀ q v, (∃ m, m ∈ L ∧ m ≠ nr ∧ q = refTo source m) → (storeOf source).get (refObj q) = .ok v →
      (∃ j : Nat, F q = (0, ((target.cur.length + j : Nat) : Int)) ∧
        (storeOf T2).val (target.cur.length + j) = .ok (renumber F v)) ∧
      ∀ q', Occurs q' v → ∃ m, m ∈ L ∧ m ≠ nr ∧ q' = refTo source m := by
    rintro q v ⟨m, m1, m2, rfl⟩ hq
    have hm := (hc.ranks.live m).1 m1
    rw [get_refObj (by show (0 : Int) < (m : Int); omega)] at hq
    have hq : (storeOf source).val m = .ok v := hq
    obtain ⟨j, hj⟩ := hin m m1 m2
    exact ⟨⟨j, hF j m hj, hcop j m hj v hq⟩, fun q' hq' => copyable_ref hc m1 hq hq'⟩
  have hshown : Shown (storeOf T2) (renumberTree F t2) := by
    refine shown_renumber (P := fun q => ∃ m, m ∈ L ∧ m ≠ nr ∧ q = refTo source m) ?_ t2 (copyable_root hc) hc.pages.shown
    intro q v hp hq
    obtain ⟨⟨j, j1, j2⟩, j3⟩ := hP q v hp hq
    have hpos : 0 < target.cur.length := ht.pos
    refine ⟨?_, ?_, j3⟩
    · rw [j1, get_refObj (by show (0 : Int) < ((target.cur.length + j : Nat) : Int); omega)]
      exact j2
    · rw [j1]
      show (0 : Int) < ((target.cur.length + j : Nat) : Int)
      omega
  have hnums : ∀ n ∈ nums (renumberTree F t2), target.cur.length ≤ n := by
    refine renumberTree_nums (P := fun q => ∃ m, m ∈ L ∧ m ≠ nr ∧ q = refTo source m)
      (Q := fun n => target.cur.length ≤ n) ?_ t2 (copyable_root hc) hc.pages.shown
    intro q v hp hq
    obtain ⟨⟨j, j1, j2⟩, j3⟩ := hP q v hp hq
    refine ⟨?_, j3⟩
    rw [j1]
    show target.cur.length ≤ (((target.cur.length + j : Nat) : Int)).toNat
    omega
  have hr1 : r.2.toNat < target.cur.length := by
    have h1 := hroot.shown.2.1
    rw [get_refObj hroot.shown.1] at h1
    exact storeOf_fresh target _ _ h1
  obtain ⟨res, z1, z2, z3, z4⟩ := hookPages_spec atEnd w2 (c' := c2) hroot2 hnum hcount hshown
    (fun hm => absurd (hnums _ hm) (by omega))
  refine ⟨res, rfl, ?_, z2, ⟨?_, ?_, ?_, z4⟩, ⟨_, _, _, rfl, ?_, ?_⟩⟩
  · have hpick : (if atEnd then ((if atEnd then target else source), (if atEnd then source else target))
        else ((if atEnd then source else target), (if atEnd then target else source))) = (target, source) := by
      cases atEnd <;> rfl
    obtain ⟨m, m1, m2, m3⟩ := copyable_root hc
    obtain ⟨j, hj⟩ := hin m m1 m2
    have e1 : List.lookup (f t2.ref) (copyMap target.cur.length (inUse S1)) = some (renumberTree F t2).ref := by
      rw [renumberTree_ref, m3]
      exact hmap j m hj
    have e2 : getKey (.dict cat) b!"/Pages" = .ok (refObj r) := by
      simp only [getKey, n4, orRaise]
      rfl
    unfold concat
    cases atEnd
    · simp only [Bool.false_eq_true, if_false, a1, bind, Except.bind, b1, w1, e1, e2, orRaise]
      exact z1
    · simp only [if_true, a1, bind, Except.bind, b1, w1, e1, e2, orRaise]
      exact z1
  · have : (storeOf res).next = target.cur.length + (inUse S1).length := by rw [z3]; exact w3
    rw [hlen] at this
    exact this
  · intro n hn hne
    rw [z3, set_val_ne hne, w4 n hn]
  · intro j n hj
    have hmem := List.mem_of_getElem? hj
    rw [List.mem_filter] at hmem
    obtain ⟨v, k1, -⟩ := hc.squashable.vals n hmem.1
    rw [z3, set_val_ne (by omega), hcop j n hj v k1, k1]
    rfl
  · have h2 : r.2.toNat ∉ nums (renumberTree F t2) := fun hm => absurd (hnums _ hm) (by omega)
    cases atEnd
    · simp only [Bool.false_eq_true, if_false, numsAll, List.mem_append, not_or]
      exact ⟨h2, hnum⟩
    · simp only [if_true, numsAll_append, List.mem_append, not_or, numsAll, List.append_nil]
      exact ⟨hnum, h2⟩
  · unfold joinedDict
    rw [Dict.get?_set, if_pos rfl]

/-! ### The pages of the joined tree -/

mutual
theorem leaves_pages : ∀ (t : PageTree) (anc anc' : List Dict),
    (leaves anc t).map (fun b => (b.1, b.2.1)) = (leaves anc' t).map (fun b => (b.1, b.2.1))
  | .page _ _, _, _ => rfl
  | .node _ d kids, anc, anc' => leavesAll_pages kids (d :: anc) (d :: anc')
theorem leavesAll_pages : ∀ (ts : List PageTree) (anc anc' : List Dict),
    (leavesAll anc ts).map (fun b => (b.1, b.2.1)) = (leavesAll anc' ts).map (fun b => (b.1, b.2.1))
  | [], _, _ => rfl
  | t :: ts, anc, anc' => by
    simp only [leavesAll, List.map_append, leaves_pages t anc anc', leavesAll_pages ts anc anc']
end

theorem leavesAll_append : ∀ (a b : List PageTree) (anc : List Dict),
    leavesAll anc (a ++ b) = leavesAll anc a ++ leavesAll anc b
  | [], _, _ => rfl
  | t :: a, b, anc => by
    simp only [List.cons_append, leavesAll, leavesAll_append a b anc, List.append_assoc]

theorem depths_append : ∀ (a b : List PageTree), depths (a ++ b) = max (depths a) (depths b)
  | [], b => by simp [depths]
  | t :: a, b => by
    simp only [List.cons_append, depths, depths_append a b]
    omega

mutual
theorem depth_renumber (f : Ref → Ref) : ∀ t : PageTree, depth (renumberTree f t) = depth t
  | .page _ _ => rfl
  | .node _ _ kids => by simp only [renumberTree, depth, depths_renumber f kids]
theorem depths_renumber (f : Ref → Ref) : ∀ ts : List PageTree, depths (renumberTrees f ts) = depths ts
  | [] => rfl
  | t :: ts => by simp only [renumberTrees, depths, depth_renumber f t, depths_renumber f ts]
end

/-- A page with other references. -/
def renumberPage (f : Ref → Ref) (p : Ref × Dict) : Ref × Dict := (f p.1, renumberEntries f p.2)

/-- The references and dictionaries of the pages, from left to right. -/
def pageList (t : PageTree) : List (Ref × Dict) := (leaves [] t).map fun b => (b.1, b.2.1)

theorem pageList_renumber (f : Ref → Ref) (t : PageTree) (anc : List Dict) :
    (leaves anc (renumberTree f t)).map (fun b => (b.1, b.2.1)) = (pageList t).map (renumberPage f) := by
  have h := leaves_renumber f t [] []
  simp only [List.map_nil, List.append_nil] at h
  rw [leaves_pages _ anc [], h]
  unfold pageList renumberPage
  simp only [List.map_map]
  rfl

theorem pageList_joined (atEnd : Bool) (r : Ref) (d : Dict) (kids : List PageTree) (t2 : PageTree) (c : Int)
    (f : Ref → Ref) : pageList (joinedTree atEnd r d kids (renumberTree f t2) c) =
      if atEnd then pageList (.node r d kids) ++ (pageList t2).map (renumberPage f)
      else (pageList t2).map (renumberPage f) ++ pageList (.node r d kids) := by
  unfold joinedTree
  cases atEnd
  · simp only [pageList, leaves, Bool.false_eq_true, if_false, leavesAll, List.map_append]
    rw [pageList_renumber, leavesAll_pages kids _ [d]]
    rfl
  · simp only [pageList, leaves, if_true, leavesAll_append, List.map_append, leavesAll, List.append_nil]
    rw [pageList_renumber, leavesAll_pages kids _ [d]]
    rfl

/-- **C36**, for a target document that may be edited and a source document that may be copied (`Copyable`: its
stream dictionaries have no reference, nothing refers to its catalog, it has no cross-reference stream; the three
restrictions are needed, see the counterexamples): the pages of the result are those of the target followed by those
of the source, renumbered; the page count is the sum; the objects of the target are unchanged except for the root page
node; the objects in use of the source, its catalog excepted, come after those of the target, all their references
renumbered by the same mapping. -/
theorem C36_concat_partial [Zlib] {target source : Doc} {x y : Option Int} {t1 t2 : PageTree} {c1 c2 : Int} {L : List Nat}
    {f F : Ref → Ref} {nr : Nat} (ht : Editable target x) (hs : Editable source y)
    (hroot : IsRoot (storeOf target) t1) (hrt : RootOk t1 c1)
    (hc : Copyable source y L f nr t2 c2)
    (hF : SentTo source target.cur.length (L.filter (· ≠ nr)) F) :
    ∃ res t, concat target source = .ok res ∧ Editable res x ∧ IsRoot (storeOf res) t ∧ RootOk t (c1 + c2) ∧
      pageList t = pageList t1 ++ (pageList t2).map (renumberPage F) ∧
      res.cur.length = target.cur.length + (L.filter (· ≠ nr)).length ∧
      (∀ n, n < target.cur.length → n ≠ t1.ref.2.toNat → (storeOf res).val n = (storeOf target).val n) ∧
      ∀ j n, (L.filter (· ≠ nr))[j]? = some n →
        (storeOf res).val (target.cur.length + j) = ((storeOf source).val n).map (renumber F) := by
  obtain ⟨r, d, kids, res, rfl, h1, h2, h3, hok⟩ := concat_spec true ht hs hroot hrt hc hF
  refine ⟨res, _, h1, h2, h3.pages, hok, ?_, h3.length, h3.kept, h3.copied⟩
  exact pageList_joined true r d kids t2 (c1 + c2) F

/-- **C36**, when the update is applied to the document on the right: the pages of the source come first. -/
theorem C36_right_partial [Zlib] {target source : Doc} {x y : Option Int} {t1 t2 : PageTree} {c1 c2 : Int} {L : List Nat}
    {f F : Ref → Ref} {nr : Nat} (ht : Editable target x) (hs : Editable source y)
    (hroot : IsRoot (storeOf target) t1) (hrt : RootOk t1 c1)
    (hc : Copyable source y L f nr t2 c2)
    (hF : SentTo source target.cur.length (L.filter (· ≠ nr)) F) :
    ∃ res t, concat source target false = .ok res ∧ Editable res x ∧ IsRoot (storeOf res) t ∧ RootOk t (c1 + c2) ∧
      pageList t = (pageList t2).map (renumberPage F) ++ pageList t1 ∧
      res.cur.length = target.cur.length + (L.filter (· ≠ nr)).length ∧
      (∀ n, n < target.cur.length → n ≠ t1.ref.2.toNat → (storeOf res).val n = (storeOf target).val n) ∧
      ∀ j n, (L.filter (· ≠ nr))[j]? = some n →
        (storeOf res).val (target.cur.length + j) = ((storeOf source).val n).map (renumber F) := by
  obtain ⟨r, d, kids, res, rfl, h1, h2, h3, hok⟩ := concat_spec false ht hs hroot hrt hc hF
  refine ⟨res, _, h1, h2, h3.pages, hok, ?_, h3.length, h3.kept, h3.copied⟩
  exact pageList_joined false r d kids t2 (c1 + c2) F

/-- The pages that `flat_page_tree` lists in the result. -/
theorem C36_listed_partial [Zlib] {target source : Doc} {x y : Option Int} {t1 t2 : PageTree} {c1 c2 : Int} {L : List Nat}
    {f F : Ref → Ref} {nr lim : Nat} (ht : Editable target x) (hs : Editable source y)
    (hroot : IsRoot (storeOf target) t1) (hrt : RootOk t1 c1)
    (hc : Copyable source y L f nr t2 c2)
    (hF : SentTo source target.cur.length (L.filter (· ≠ nr)) F) (h1 : depth t1 ≤ lim) (h2 : depth t2 + 1 ≤ lim) :
    ∃ res l leak d', concat target source = .ok res ∧ (flatPageTree lim .null [] none).run res = .ok ((l, leak), d') ∧
      l.map Prod.fst = (leaves [] t1).map (fun b => refObj b.1) ++ (leaves [] t2).map (fun b => refObj (F b.1)) := by
  obtain ⟨r, d, kids, res, rfl, e1, e2, e3, -⟩ := concat_spec true ht hs hroot hrt hc hF
  have hdep : depth (joinedTree true r d kids (renumberTree F t2) (c1 + c2)) ≤ lim := by
    simp only [joinedTree, depth, if_true, depths_append, depths, depth_renumber] at h1 ⊢
    omega
  obtain ⟨l, leak, d', l1, -, l2⟩ := C29_pages_partial e2.good.coherent e3.pages hdep
  refine ⟨res, l, leak, d', e1, l1, ?_⟩
  have hl : l.map Prod.fst = (leaves [] (joinedTree true r d kids (renumberTree F t2) (c1 + c2))).map fun b => refObj b.1 := by
    generalize leaves [] (joinedTree true r d kids (renumberTree F t2) (c1 + c2)) = ls at l2
    clear l1
    induction l2 with
    | nil => rfl
    | cons h _ ih => rw [List.map_cons, List.map_cons, ih, h.1]
  have hp := congrArg (List.map fun p => refObj p.1) (pageList_joined true r d kids t2 (c1 + c2) F)
  simp only [pageList, List.map_map, if_true, List.map_append] at hp
  rw [hl]
  exact hp

/-! ### A sample -/

/-- A document with one page. -/
def joinLeft : List Obj :=
  [.dict [(b!"/Root", .ref 0 1)],
   .dict [(b!"/Type", .str b!"/Catalog"), (b!"/Pages", .ref 0 2)],
   .dict [(b!"/Type", .str b!"/Pages"), (b!"/Kids", .list [.ref 0 3]), (b!"/Count", .int 1)],
   .dict [(b!"/Type", .str b!"/Page"), (b!"/Parent", .ref 0 2)]]

/-- A document with one page, that has contents; number 1 is free. -/
def joinRight : List Obj :=
  [.dict [(b!"/Root", .ref 0 3)], .null,
   .stream [(b!"/Length", .int 1)] b!"q" b!"q",
   .dict [(b!"/Type", .str b!"/Catalog"), (b!"/Pages", .ref 0 4)],
   .dict [(b!"/Type", .str b!"/Pages"), (b!"/Kids", .list [.ref 0 5]), (b!"/Count", .int 1)],
   .dict [(b!"/Type", .str b!"/Page"), (b!"/Parent", .ref 0 4), (b!"/Contents", .ref 0 2)]]

/-- The two joined. -/
example [Zlib] : (concat (gapDoc joinLeft) (gapDoc joinRight)).map Doc.cache = .ok
    [.dict [(b!"/Root", .ref 0 1)],
     .dict [(b!"/Type", .str b!"/Catalog"), (b!"/Pages", .ref 0 2)],
     .dict [(b!"/Type", .str b!"/Pages"), (b!"/Kids", .list [.ref 0 3, .ref 0 5]), (b!"/Count", .int 2)],
     .dict [(b!"/Type", .str b!"/Page"), (b!"/Parent", .ref 0 2)],
     .stream [(b!"/Length", .int 1)] b!"q" b!"q",
     .dict [(b!"/Type", .str b!"/Pages"), (b!"/Kids", .list [.ref 0 6]), (b!"/Count", .int 1)],
     .dict [(b!"/Type", .str b!"/Page"), (b!"/Parent", .ref 0 5), (b!"/Contents", .ref 0 4)]] := by kernel_rfl

def joinLeftTree : PageTree :=
  .node (0, 2) [(b!"/Type", .str b!"/Pages"), (b!"/Kids", .list [.ref 0 3]), (b!"/Count", .int 1)]
    [.page (0, 3) [(b!"/Type", .str b!"/Page"), (b!"/Parent", .ref 0 2)]]

def joinRightTree : PageTree :=
  .node (0, 4) [(b!"/Type", .str b!"/Pages"), (b!"/Kids", .list [.ref 0 5]), (b!"/Count", .int 1)]
    [.page (0, 5) [(b!"/Type", .str b!"/Page"), (b!"/Parent", .ref 0 4), (b!"/Contents", .ref 0 2)]]

theorem joinLeft_root [Zlib] : IsRoot (storeOf (gapDoc joinLeft)) joinLeftTree ∧ RootOk joinLeftTree 1 := by
  have hval : ∀ n o, joinLeft[n]? = some o → (storeOf (gapDoc joinLeft)).val n = .ok o := fun n o h => gapDoc_view h 0
  have hget : ∀ (n : Nat) o, joinLeft[n]? = some o → (storeOf (gapDoc joinLeft)).get (.ref 0 n) = .ok o := by
    intro n o h
    simp only [Store.get]
    rw [if_neg (by omega), Int.toNat_natCast]
    exact hval n o h
  exact ⟨⟨⟨by decide, hget 2 _ rfl, rfl, rfl, ⟨by decide, hget 3 _ rfl, rfl⟩, trivial⟩, ⟨_, _, _, rfl⟩,
    _, _, _, hval 0 _ rfl, rfl, hget 1 _ rfl, rfl⟩, _, _, _, rfl, by decide, rfl⟩

theorem joinRight_root [Zlib] : IsRoot (storeOf (gapDoc joinRight)) joinRightTree ∧ RootOk joinRightTree 1 := by
  have hval : ∀ n o, joinRight[n]? = some o → (storeOf (gapDoc joinRight)).val n = .ok o := fun n o h => gapDoc_view h 0
  have hget : ∀ (n : Nat) o, joinRight[n]? = some o → (storeOf (gapDoc joinRight)).get (.ref 0 n) = .ok o := by
    intro n o h
    simp only [Store.get]
    rw [if_neg (by omega), Int.toNat_natCast]
    exact hval n o h
  exact ⟨⟨⟨by decide, hget 4 _ rfl, rfl, rfl, ⟨by decide, hget 5 _ rfl, rfl⟩, trivial⟩, ⟨_, _, _, rfl⟩,
    _, _, _, hval 0 _ rfl, rfl, hget 3 _ rfl, rfl⟩, _, _, _, rfl, by decide, rfl⟩

theorem joinRight_ranks : Ranks (gapDoc joinRight) [2, 3, 4, 5] (fun r => (0, r.2 - 1)) := by
  refine ⟨by decide, ?_, ?_⟩
  · intro n
    rw [gapDoc_live]
    constructor
    · intro hn
      simp only [List.mem_cons, List.not_mem_nil, or_false] at hn
      rcases hn with rfl | rfl | rfl | rfl <;> exact ⟨by omega, _, rfl, by simp⟩
    · rintro ⟨h1, o, h2, h3⟩
      have hlt : n < 6 := lt_of_getElem? h2
      have : n ≠ 1 := by
        rintro rfl
        cases h2
        exact h3 rfl
      simp only [List.mem_cons, List.not_mem_nil, or_false]
      omega
  · intro k n h
    have hlt : k < 4 := lt_of_getElem? h
    have : n = k + 2 := by
      rcases k with _ | _ | _ | _ | k
      · cases h; rfl
      · cases h; rfl
      · cases h; rfl
      · cases h; rfl
      · omega
    subst this
    simp only [Prod.mk.injEq, true_and]
    omega

theorem joinRight_copyable [Zlib] :
    Copyable (gapDoc joinRight) none [2, 3, 4, 5] (fun r => (0, r.2 - 1)) 3 joinRightTree 1 := by
  have hval : ∀ n o, joinRight[n]? = some o → (storeOf (gapDoc joinRight)).val n = .ok o := fun n o h => gapDoc_view h 0
  have hd : ∀ v : Obj, (∀ r ∈ deepRefCollect [] v, r.1 = 0 ∧ r.2.toNat ∈ [2, 3, 4, 5] ∧ 0 ≤ r.2) →
      NoDangling (gapDoc joinRight) [2, 3, 4, 5] v := by
    intro v hv r hr
    obtain ⟨h1, h2, h3⟩ := hv r (occurs_collect.1 hr)
    refine ⟨_, h2, ?_⟩
    rw [gapDoc_gen]
    apply Prod.ext
    · exact h1
    · simp only
      omega
  refine ⟨joinRight_ranks, ⟨?_, rfl, ?_, ⟨b!"1.4", rfl⟩, ?_, Or.inl rfl⟩, .inl rfl, ⟨_, hval 0 _ rfl, rfl⟩, ?_, ?_,
    joinRight_root.1, joinRight_root.2⟩
  · intro n hn
    rw [gapDoc_cur]
    have hn : n < 6 := hn
    have : joinRight[n]? = some (joinRight[n]'hn) := List.getElem?_eq_getElem hn
    rw [this]
    exact ⟨_, rfl, rfl⟩
  · intro n hn
    simp only [List.mem_cons, List.not_mem_nil, or_false] at hn
    rcases hn with rfl | rfl | rfl | rfl
    · refine ⟨_, hval 2 _ rfl, by simp, hd _ (by decide), Or.inr ⟨_, _, _, rfl, ?_⟩⟩
      intro r hr
      exact absurd (occurs_collect.1 hr) (by simp [deepRefCollect, deepRefCollectEntries])
    · exact ⟨_, hval 3 _ rfl, by simp, hd _ (by decide), Or.inl (noStream_check rfl)⟩
    · exact ⟨_, hval 4 _ rfl, by simp, hd _ (by decide), Or.inl (noStream_check rfl)⟩
    · exact ⟨_, hval 5 _ rfl, by simp, hd _ (by decide), Or.inl (noStream_check rfl)⟩
  · refine ⟨_, 3, _, hval 0 _ rfl, by simp, rfl, hval 3 _ rfl, ?_⟩
    intro v hv
    cases hv
  · intro n hn e s y hv r hr
    simp only [List.mem_cons, List.not_mem_nil, or_false] at hn
    rcases hn with rfl | rfl | rfl | rfl
    · rw [hval 2 _ rfl] at hv
      cases hv
      exact absurd (occurs_collect.1 hr) (by simp [deepRefCollect, deepRefCollectEntries])
    · rw [hval 3 _ rfl] at hv; cases hv
    · rw [hval 4 _ rfl] at hv; cases hv
    · rw [hval 5 _ rfl] at hv; cases hv
  · intro n hn v hv hr
    have hr := occurs_collect.1 hr
    revert hr
    simp only [List.mem_cons, List.not_mem_nil, or_false] at hn
    rcases hn with rfl | rfl | rfl | rfl
    · rw [hval 2 _ rfl] at hv; cases hv; decide
    · rw [hval 3 _ rfl] at hv; cases hv; decide
    · rw [hval 4 _ rfl] at hv; cases hv; decide
    · rw [hval 5 _ rfl] at hv; cases hv; decide

/-- The hypotheses of `C36_concat_partial` are met by the sample: numbers 2, 4, 5 become 4, 5, 6. -/
example [Zlib] : Editable (gapDoc joinLeft) none ∧ Editable (gapDoc joinRight) none ∧
    IsRoot (storeOf (gapDoc joinLeft)) joinLeftTree ∧ RootOk joinLeftTree 1 ∧
    Copyable (gapDoc joinRight) none [2, 3, 4, 5] (fun r => (0, r.2 - 1)) 3 joinRightTree 1 ∧
    SentTo (gapDoc joinRight) (gapDoc joinLeft).cur.length ([2, 3, 4, 5].filter (· ≠ 3))
      (fun r => if r.2 = 2 then (0, 4) else (0, r.2 + 1)) := by
  refine ⟨gapDoc_editable rfl, gapDoc_editable rfl, joinLeft_root.1, joinLeft_root.2, joinRight_copyable, ?_⟩
  intro j n hj
  have hj : [2, 4, 5][j]? = some n := hj
  rcases j with _ | _ | _ | j
  · cases hj; rfl
  · cases hj; rfl
  · cases hj; rfl
  · simp at hj

/-! ### The cases that are left out -/

/-- **C36 is false of stream dictionaries**: `deep_ref_retarget` does not enter them. Here the length of the contents
is indirect (number 5), which is common; in the copy it still refers to number 5, which is now a page node. -/
theorem C36_stream_counterexample [Zlib] :
    (concat (gapDoc joinLeft) (gapDoc
      [.dict [(b!"/Root", .ref 0 1)],
       .dict [(b!"/Type", .str b!"/Catalog"), (b!"/Pages", .ref 0 2)],
       .dict [(b!"/Type", .str b!"/Pages"), (b!"/Kids", .list [.ref 0 3]), (b!"/Count", .int 1)],
       .dict [(b!"/Type", .str b!"/Page"), (b!"/Parent", .ref 0 2), (b!"/Contents", .ref 0 4)],
       .stream [(b!"/Length", .ref 0 5)] b!"q" b!"q",
       .int 1])).map (fun r => r.cache.drop 4) = .ok
      [.dict [(b!"/Type", .str b!"/Pages"), (b!"/Kids", .list [.ref 0 5]), (b!"/Count", .int 1)],
       .dict [(b!"/Type", .str b!"/Page"), (b!"/Parent", .ref 0 4), (b!"/Contents", .ref 0 6)],
       .stream [(b!"/Length", .ref 0 5)] b!"q" b!"q",
       .int 1] := by kernel_rfl

/-- **C36 is false of references to the catalog**, which is not copied: in the copy of the page, `/Owner` still is
number 1, which is the catalog of the other document. -/
theorem C36_catalog_counterexample [Zlib] :
    (concat (gapDoc joinLeft) (gapDoc
      [.dict [(b!"/Root", .ref 0 1)],
       .dict [(b!"/Type", .str b!"/Catalog"), (b!"/Pages", .ref 0 2), (b!"/Lang", .bytes b!"fr")],
       .dict [(b!"/Type", .str b!"/Pages"), (b!"/Kids", .list [.ref 0 3]), (b!"/Count", .int 1)],
       .dict [(b!"/Type", .str b!"/Page"), (b!"/Parent", .ref 0 2), (b!"/Owner", .ref 0 1)]])).map
        (fun r => (r.cache[1]?, r.cache[5]?)) = .ok
      (some (.dict [(b!"/Type", .str b!"/Catalog"), (b!"/Pages", .ref 0 2)]),
       some (.dict [(b!"/Type", .str b!"/Page"), (b!"/Parent", .ref 0 4), (b!"/Owner", .ref 0 1)])) := by kernel_rfl

/-- A document with a cross-reference stream, number 3; number 1 is free. -/
def xrefDoc : Doc :=
  let d := gapDoc
    [.dict [(b!"/Root", .ref 0 2)], .null,
     .dict [(b!"/Type", .str b!"/Catalog"), (b!"/Pages", .ref 0 5)],
     .stream [(b!"/Type", .str b!"/XRef")] [] [],
     .dict [(b!"/Type", .str b!"/Page"), (b!"/Parent", .ref 0 5)],
     .dict [(b!"/Type", .str b!"/Pages"), (b!"/Kids", .list [.ref 0 4]), (b!"/Count", .int 1)]]
  { d with cur := d.cur.set 0 (.one { num := 0, xrefStreamNum := some 3 }) }

/-- **C36 is false of documents with a cross-reference stream**: its number is that from before `squash`, so that
another object may be left out; here the only page, while the stream is copied (number 4). In the result the page
of the target is listed twice. -/
theorem C36_xref_counterexample [Zlib] :
    (concat (gapDoc joinLeft) xrefDoc).map (fun r => r.cache.drop 4) = .ok
      [.stream [(b!"/Type", .str b!"/XRef")] [] [],
       .dict [(b!"/Type", .str b!"/Pages"), (b!"/Kids", .list [.ref 0 3]), (b!"/Count", .int 1)]] ∧
    (concat (gapDoc joinLeft) xrefDoc >>= fun r => ((flatPageTree 1000 .null [] none).run r).map
        fun a => a.1.1.map Prod.fst) = .ok [.ref 0 3, .ref 0 3] :=
  ⟨by kernel_rfl, by kernel_rfl⟩

/-! ### C66: the attributes of the pages -/

mutual
theorem leaves_up : ∀ (t : PageTree) (anc up : List Dict),
    leaves (anc ++ up) t = (leaves anc t).map fun b => (b.1, b.2.1, b.2.2 ++ up)
  | .page r d, anc, up => rfl
  | .node r d kids, anc, up => by
    simp only [leaves]
    exact leavesAll_up kids (d :: anc) up
theorem leavesAll_up : ∀ (ts : List PageTree) (anc up : List Dict),
    leavesAll (anc ++ up) ts = (leavesAll anc ts).map fun b => (b.1, b.2.1, b.2.2 ++ up)
  | [], _, _ => rfl
  | t :: ts, anc, up => by simp only [leavesAll, List.map_append, leaves_up t anc up, leavesAll_up ts anc up]
end

/-- The values of an attribute for the pages, from left to right. -/
def effective (k : Bytes) (t : PageTree) : List (Option Obj) := (leaves [] t).map fun b => nearest k (b.2.1 :: b.2.2)

theorem entry?_renumber (f : Ref → Ref) (d : Dict) (k : Bytes) :
    entry? (renumberEntries f d) k = (entry? d k).map (renumber f) := by
  unfold entry?
  rw [renumberEntries_get]
  rcases Dict.get? d k with _ | o
  · rfl
  · cases o <;> rfl

theorem nearest_renumber (f : Ref → Ref) (k : Bytes) : ∀ (ds : List Dict),
    nearest k (ds.map (renumberEntries f)) = (nearest k ds).map (renumber f)
  | [] => rfl
  | d :: ds => by
    have ih := nearest_renumber f k ds
    unfold nearest at ih ⊢
    rw [List.map_cons, List.findSome?_cons, List.findSome?_cons, entry?_renumber, ih]
    cases entry? d k <;> rfl

theorem nearest_append (k : Bytes) (a b : List Dict) : nearest k (a ++ b) = (nearest k a).or (nearest k b) := by
  unfold nearest
  rw [List.findSome?_append]

theorem nearest_one (k : Bytes) (d : Dict) : nearest k [d] = entry? d k := by
  unfold nearest
  rw [List.findSome?_cons]
  cases entry? d k <;> rfl

theorem effective_joined (r : Ref) (d : Dict) (kids : List PageTree) (t2 : PageTree) (c : Int)
    (F : Ref → Ref) {k : Bytes} (h1 : k ≠ b!"/Kids") (h2 : k ≠ b!"/Count") :
    effective k (joinedTree true r d kids (renumberTree F t2) c) =
      effective k (.node r d kids) ++ (effective k t2).map fun o => (o.map (renumber F)).or (entry? d k) := by
  have hd : entry? (joinedDict true d kids (renumberTree F t2) c) k = entry? d k := by
    unfold entry? joinedDict
    rw [Dict.get?_set, if_neg h2, Dict.get?_set, if_neg h1]
  have e1 := leavesAll_up kids [] [joinedDict true d kids (renumberTree F t2) c]
  have e2 := leavesAll_up kids [] [d]
  have e3 := leaves_renumber F t2 [] [joinedDict true d kids (renumberTree F t2) c]
  simp only [List.nil_append, List.map_nil] at e1 e2 e3
  unfold effective joinedTree
  simp only [leaves, if_true, leavesAll_append, leavesAll, List.append_nil, e1, e2, e3, List.map_append, List.map_map]
  congr 1
  · refine List.map_congr_left fun b _ => ?_
    show nearest k ((b.2.1 :: b.2.2) ++ [_]) = nearest k ((b.2.1 :: b.2.2) ++ [d])
    rw [nearest_append, nearest_append, nearest_one, nearest_one, hd]
  · refine List.map_congr_left fun b _ => ?_
    show nearest k ((b.2.1 :: b.2.2).map (renumberEntries F) ++ [_]) = _
    rw [nearest_append, nearest_renumber, nearest_one, hd]
    rfl

/-- **C66, what happens**: the pages of the target keep the value of each inheritable attribute; those of the source that
have none get the one of the root node of the target. -/
theorem C66_attributes_partial [Zlib] {target source : Doc} {x y : Option Int} {t1 t2 : PageTree} {c1 c2 : Int} {L : List Nat}
    {f F : Ref → Ref} {nr : Nat} (ht : Editable target x) (hs : Editable source y)
    (hroot : IsRoot (storeOf target) t1) (hrt : RootOk t1 c1)
    (hc : Copyable source y L f nr t2 c2)
    (hF : SentTo source target.cur.length (L.filter (· ≠ nr)) F) :
    ∃ r d kids res t, t1 = .node r d kids ∧ concat target source = .ok res ∧ IsRoot (storeOf res) t ∧
      ∀ k ∈ inheritable, effective k t =
        effective k t1 ++ (effective k t2).map fun o => (o.map (renumber F)).or (entry? d k) := by
  obtain ⟨r, d, kids, res, rfl, e1, e2, e3, -⟩ := concat_spec true ht hs hroot hrt hc hF
  refine ⟨r, d, kids, res, _, rfl, e1, e3.pages, fun k hk => effective_joined r d kids t2 (c1 + c2) F ?_ ?_⟩
  · rintro rfl
    revert hk
    decide
  · rintro rfl
    revert hk
    decide

/-- **C66** when every page of the source has the attribute, or the root node of the target has not. -/
theorem C66_kept_partial [Zlib] {target source : Doc} {x y : Option Int} {t1 t2 : PageTree} {c1 c2 : Int} {L : List Nat}
    {f F : Ref → Ref} {nr : Nat} (ht : Editable target x) (hs : Editable source y)
    (hroot : IsRoot (storeOf target) t1) (hrt : RootOk t1 c1)
    (hc : Copyable source y L f nr t2 c2)
    (hF : SentTo source target.cur.length (L.filter (· ≠ nr)) F) {k : Bytes} (hk : k ∈ inheritable)
    (h : (∀ o ∈ effective k t2, o ≠ none) ∨ ∀ r d kids, t1 = .node r d kids → entry? d k = none) :
    ∃ res t, concat target source = .ok res ∧ IsRoot (storeOf res) t ∧
      effective k t = effective k t1 ++ (effective k t2).map (Option.map (renumber F)) := by
  obtain ⟨r, d, kids, res, t, h1, h2, h3, h4⟩ := C66_attributes_partial ht hs hroot hrt hc hF
  refine ⟨res, t, h2, h3, ?_⟩
  rw [h4 k hk]
  congr 1
  refine List.map_congr_left fun o ho => ?_
  rcases h with h | h
  · cases o with
    | none => exact absurd rfl (h _ ho)
    | some o => rfl
  · rw [h r d kids h1]
    cases o <;> rfl

/-- The sample meets the second condition. -/
example : ∀ r d kids, joinLeftTree = .node r d kids → entry? d b!"/Rotate" = none := by
  intro r d kids h
  cases h
  rfl

/-- **C66 is false of the code**: a page without rotation, added to a document whose root node has one, is then
rotated. -/
theorem C66_counterexample [Zlib] :
    (concat (gapDoc rotatedObjs) (gapDoc joinRight) >>= fun r => ((flatPageTree 1000 .null [] none).run r).map
        fun a => a.1.1) = .ok [(.ref 0 3, [(b!"/Rotate", .int 90)]), (.ref 0 6, [(b!"/Rotate", .int 90)])] ∧
    ((flatPageTree 1000 .null [] none).run (gapDoc joinRight)).map (fun a => a.1.1) = .ok [(.ref 0 5, [])] :=
  ⟨by kernel_rfl, by kernel_rfl⟩

/-! ### C67: the documents that were given -/

/-- **C67 is false of the code**: the root page node is changed in place, and it is shared with the document that was
given when that document had read it. Here the given document had one page; afterwards its pages cannot be listed
any more, because there is a reference to a number that only the result has. -/
theorem C67_counterexample [Zlib] :
    ((flatPageTree 1000 .null [] none).run (gapDoc joinLeft)).map (fun a => a.1.1) = .ok [(.ref 0 3, [])] ∧
    (concatGiven (gapDoc joinLeft) (gapDoc joinRight) >>= fun r => ((flatPageTree 1000 .null [] none).run r).map
        fun a => a.1.1) = .error .indexError :=
  ⟨by kernel_rfl, by kernel_rfl⟩

/-- Only the root page node differs (for direct `/Kids`). -/
theorem C67_others_partial [Zlib] {target source : Doc} {x y : Option Int} {t1 t2 : PageTree} {c1 c2 : Int} {L : List Nat}
    {f F : Ref → Ref} {nr : Nat} (ht : Editable target x) (hs : Editable source y)
    (hroot : IsRoot (storeOf target) t1) (hrt : RootOk t1 c1)
    (hc : Copyable source y L f nr t2 c2)
    (hF : SentTo source target.cur.length (L.filter (· ≠ nr)) F) :
    ∃ given, concatGiven target source = .ok given ∧ given.cur = target.cur ∧
      (∀ n, n ≠ t1.ref.2.toNat → given.cache[n]? = target.cache[n]?) ∧
      (target.cache[t1.ref.2.toNat]? = some .null → given = target) := by
  obtain ⟨r, d, kids, res, rfl, e1, e2, e3, -⟩ := concat_spec true ht hs hroot hrt hc hF
  obtain ⟨tr, root, cat, n1, n2, n3, n4⟩ := hroot.named
  obtain ⟨p1, p2, p3, p4, -⟩ := hroot.shown
  obtain ⟨T1, a1, -⟩ := catalog_step ht n1 n2 n3
  obtain ⟨T2, b1, -⟩ := get_step ht p2
  have hnum : refNum (refObj r) = .ok r.2.toNat := by
    simp only [refNum, refObj]
    rw [if_neg (by omega)]
  have hrun : concatGiven target source = .ok (shareCell target res r.2.toNat) := by
    unfold concatGiven
    have e1' : concat target source true = .ok res := e1
    have e2 : getKey (.dict cat) b!"/Pages" = .ok (refObj r) := by
      simp only [getKey, n4, orRaise]
      rfl
    have e3 : getKey (.dict d) b!"/Kids" = .ok (.list (kids.map fun t => refObj t.ref)) := by
      simp only [getKey, p4, orRaise]
    simp only [e1', bind, Except.bind, if_true, a1, e2, b1, e3, hnum]
    rfl
  refine ⟨_, hrun, ?_, ?_, ?_⟩
  · unfold shareCell
    split <;> rfl
  · intro n hn
    unfold shareCell
    split
    · rfl
    · exact List.getElem?_set_ne (Ne.symm hn)
    · rfl
  · intro hnull
    unfold shareCell
    simp only [show (PageTree.node r d kids).ref = r from rfl] at hnull
    rw [hnull]


end Pdf
