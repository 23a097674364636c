/-
C33, C34: removal of pages.
-/
import Verif.Lemmas.RemovalEval
import Verif.Lemmas.MemDoc
import Verif.Lemmas.KernelRfl

namespace Pdf
open Spec Spec.PageTree

theorem filter_zipIdx {α : Type} {P : α → Bool} {Q : α × Nat → Bool} : ∀ (l : List α) (k : Nat),
    (∀ j a, l[j]? = some a → P a = Q (a, k + j)) → l.filter P = ((l.zipIdx k).filter Q).map Prod.fst
  | [], _, _ => rfl
  | a :: l, k, h => by
    have h0 := h 0 a rfl
    have ih := filter_zipIdx (P := P) l (k + 1) (Q := Q) fun j b hb => by
      have := h (j + 1) b (by simpa using hb)
      rw [this]; congr 2; omega
    rw [List.zipIdx_cons, List.filter_cons, List.filter_cons, h0, ih]
    simp only [Nat.add_zero]
    split <;> rfl

theorem nodup_leaves {t : PageTree} (h : (nums t).Nodup) : ((leaves [] t).map Prod.fst).Nodup :=
  nodup_fst ((leaves_nums t []).nodup h)

/-- Pages left out by their reference or by their position. -/
theorem filter_dropAt {t : PageTree} {del : List Int} {rs : List Ref} (hn : (nums t).Nodup)
    (hrs : ∀ r, r ∈ rs ↔ PageAt t del r) :
    (((leaves [] t).map shownPage).filter fun b => b.1 ∉ rs) = dropAt ((leaves [] t).map shownPage) del := by
  unfold dropAt
  apply filter_zipIdx
  intro j a ha
  rw [List.getElem?_map] at ha
  obtain ⟨b, hb, rfl⟩ := Option.map_eq_some_iff.1 ha
  rw [Nat.zero_add, List.length_map]
  apply decide_eq_decide.2
  apply not_congr
  show b.1 ∈ rs ↔ _
  rw [hrs]
  constructor
  · rintro ⟨i, hi, j', b', hj', hb', he⟩
    have : j' = j := nodup_index (nodup_leaves hn) (x := b.1) (by rw [List.getElem?_map, hb']; simp [he])
      (by rw [List.getElem?_map, hb]; rfl)
    exact ⟨i, hi, this ▸ hj'⟩
  · rintro ⟨i, hi, hj⟩
    exact ⟨i, hi, j, b, hj, hb, rfl⟩

theorem get_agree {s s' : Store} {r : Ref} (hp : 0 < r.2) (h : s'.val r.2.toNat = s.val r.2.toNat) :
    s'.get (refObj r) = s.get (refObj r) := by
  rw [get_refObj hp, get_refObj hp, h]

mutual
theorem shown_agree {s s' : Store} : ∀ (t : PageTree), (∀ n ∈ nums t, s'.val n = s.val n) → Shown s t → Shown s' t
  | .page r d, hv, ⟨h1, h2, h3⟩ => ⟨h1, by rw [get_agree h1 (hv _ (by simp [nums]))]; exact h2, h3⟩
  | .node r d kids, hv, ⟨h1, h2, h3, h4, h5⟩ =>
    ⟨h1, by rw [get_agree h1 (hv _ (by simp [nums]))]; exact h2, h3, h4,
      shownAll_agree kids (fun n hn => hv n (by simp [nums, hn])) h5⟩
theorem shownAll_agree {s s' : Store} : ∀ (ts : List PageTree), (∀ n ∈ numsAll ts, s'.val n = s.val n) →
    ShownAll s ts → ShownAll s' ts
  | [], _, _ => trivial
  | t :: ts, hv, h => ⟨shown_agree t (fun n hn => hv n (by simp [numsAll, hn])) h.1,
      shownAll_agree ts (fun n hn => hv n (by simp [numsAll, hn])) h.2⟩
end

/-- A kept page. -/
def KeptPage (t : PageTree) (del : List Int) (r : Ref) : Prop := r ∈ (leaves [] t).map Prod.fst ∧ ¬ PageAt t del r

theorem remove_spec {s : Store} {t : PageTree} {lim : Nat} {ord : List Ref → List Ref} {leak : Dict}
    {del : List Int} (h : Removable s t lim del) (hord : ∀ l, (ord l).Perm l) :
    ∃ (J : Dict) (s' : Store) (t' : PageTree) (rs : List Ref), eval (removePages lim ord leak del) s = .ok (J, s') ∧ (∀ r, r ∈ rs ↔ PageAt t del r) ∧
      IsRoot s' t' ∧ Linked none t' ∧ (nums t').Nodup ∧
      (leaves [] t').map shownPage = dropAt ((leaves [] t).map shownPage) del ∧
      Pointwise (NodeStep (· ∈ rs)) (nodes t) (nodes t') ∧ (s'.next = s.next ∧ depth t' ≤ depth t) ∧
      (∀ x ∈ nodes t, ¬ UsedBy s (PageAt t del) x.1.2.toNat ∧ ∃ e, s'.val x.1.2.toNat = .ok (.dict e)) ∧
      ∀ n, (∀ x ∈ nodes t, x.1.2.toNat ≠ n) →
        (UsedBy s (PageAt t del) n → ¬ UsedBy s (KeptPage t del) n → s'.val n = .ok .null) ∧
        ((UsedBy s (PageAt t del) n → UsedBy s (KeptPage t del) n) → s'.val n = s.val n) := by
  obtain ⟨J, s', s1, t', rs, e1, e2, e3, e4, e0, e5, e6⟩ := remove_eval (leak := leak) h hord
  have hsound : Sound s t := ⟨h.root.shown, h.linked, h.nodup, h.root.isNode⟩
  have hnode : ∀ x ∈ nodes t, ¬ UsedBy s (PageAt t del) x.1.2.toNat := by
    rintro x hx ⟨q, hq, r, hu, he⟩
    have h1 := (hsound.ok x hx).pos
    have : r.2 = x.1.2 := by omega
    exact h.nodes q hq x hx r.1 (this ▸ hu)
  have hnodeval : ∀ x ∈ nodes t, s'.val x.1.2.toNat = s1.val x.1.2.toNat :=
    fun x hx => e6 _ fun hu => absurd hu (hnode x hx)
  have hvals : ∀ n ∈ nums t', s'.val n = s1.val n := by
    intro n hn
    rcases (mem_nums t' [] n).1 hn with ⟨y, hy, rfl⟩ | ⟨b, hb, rfl⟩
    · obtain ⟨x, hx, hxy⟩ := e3.nodes.mem' y hy
      rw [hxy.ref]
      exact hnodeval x hx
    · have hb1 : shownPage b ∈ (leaves [] t').map shownPage := List.mem_map_of_mem hb
      rw [e3.leaves, List.mem_filter] at hb1
      obtain ⟨hb1, hb2⟩ := hb1
      obtain ⟨b0, hb0, he⟩ := List.mem_map.1 hb1
      have he : b0.1 = b.1 := congrArg (fun p : Ref × Dict × List (Option Obj) => p.1) he
      have hb2 : b.1 ∉ rs := of_decide_eq_true hb2
      refine e6 _ fun _ => ⟨b.1, ⟨he ▸ List.mem_map_of_mem hb0, fun hp => hb2 ((e2 _).2 hp)⟩, b.1, ?_, rfl⟩
      exact .here _ _
  refine ⟨J, s', t', rs, e1, e2, ?_, e3.sound.linked, e3.sound.nodup, ?_, e3.nodes, ⟨e4.trans e3.next, e3.depth⟩, ?_, ?_⟩
  · refine ⟨shown_agree t' hvals e3.sound.shown, e3.sound.isNode, ?_⟩
    obtain ⟨tr, root, cat, n1, n2, n3, n4⟩ := h.root.named
    have hz : s'.val 0 = .ok (.dict tr) := by
      rw [e6 0 fun hu => absurd rfl (e0 0 hu), e3.kept 0 fun x hx => ?_]
      · exact n1
      · have := (hsound.ok x hx).pos
        omega
    have hcat : Uses false s (.dict cat) t.ref :=
      .entry (Dict.mem_of_get? n4) (by decide) (by decide) (.here _ _)
    suffices ∃ cat', s'.get root = .ok (.dict cat') ∧ Dict.get? cat' b!"/Pages" = some (refObj t'.ref) by
      obtain ⟨cat', c1, c2⟩ := this
      exact ⟨tr, root, cat', hz, n2, c1, c2⟩
    rw [e3.ref]
    cases root with
    | ref g n =>
      simp only [Store.get] at n3 ⊢
      by_cases hneg : n < 0
      · rw [if_pos hneg] at n3; cases n3
      rw [if_neg hneg] at n3 ⊢
      by_cases hx : ∃ x ∈ nodes t, x.1.2.toNat = n.toNat
      · obtain ⟨x, hx, he⟩ := hx
        obtain ⟨y, hy, hxy⟩ := e3.nodes.mem x hx
        have hy' := e3.sound.ok y hy
        have hok := hsound.ok x hx
        have hxd := hok.get
        rw [get_refObj hok.pos, he, n3] at hxd
        simp only [Except.ok.injEq, Obj.dict.injEq] at hxd
        refine ⟨y.2.1, ?_, ?_⟩
        · rw [← he, hnodeval x hx, ← hxy.ref, ← get_refObj hy'.pos]; exact hy'.get
        · rw [hxy.other _ (by decide) (by decide), ← hxd]; exact n4
      · refine ⟨cat, ?_, n4⟩
        rw [e6 n.toNat ?_, e3.kept _ fun x hx' he => hx ⟨x, hx', he⟩]
        · exact n3
        · rintro ⟨q, hq, r, hu, he⟩
          exfalso
          have hr : s.get (.ref r.1 r.2) = .ok (.dict cat) := by
            have h0 : 0 ≤ r.2 := by
              obtain ⟨i, hi, j, b, hj, hb, rfl⟩ := hq
              exact (within_uses hu (h.reads b (List.mem_of_getElem? hb))).1
            simp only [Store.get]
            rw [if_neg (by omega), he]; exact n3
          obtain ⟨tq, td, tk, ht⟩ := h.root.isNode
          have := uses_trans hu (.through hr hcat)
          exact h.nodes q hq (tq, td, (leavesAll [] tk).map Prod.fst) (by rw [ht]; simp [PageTree.nodes]) tq.1
            (by rw [ht] at this; exact this)
    | dict c => exact ⟨cat, n3, n4⟩
    | _ => simp [Store.get] at n3
  · rw [e3.leaves, filter_dropAt h.nodup e2]
  · intro x hx
    refine ⟨hnode x hx, ?_⟩
    obtain ⟨y, hy, hxy⟩ := e3.nodes.mem x hx
    have hy' := e3.sound.ok y hy
    refine ⟨y.2.1, ?_⟩
    rw [hnodeval x hx, ← hxy.ref, ← get_refObj hy'.pos]; exact hy'.get
  · intro n hn
    refine ⟨fun hu hk => e5 n hu hk, fun hu => ?_⟩
    rw [e6 n hu, e3.kept n hn]

/-- C33. The page list is the old one without the selected positions (each page with the same dictionary and the
same inherited attributes), the tree is well-formed again, and each node has lost as many from its `/Count` as
pages were removed below it; nothing else has changed in the nodes but `/Kids`. In whatever order sets are gone
through.

Partial: for documents without object streams, when `/Count` is a direct integer, and when no page that is removed
leads to a node of the tree otherwise than by `/Parent` or `/P`. -/
theorem C33_remove_partial [Zlib] {d : Doc} {x : Option Int} (hed : Editable d x) {t : PageTree} {lim : Nat}
    {ord : List Ref → List Ref} (hord : ∀ l, (ord l).Perm l) {leak : Dict} {del : List Int}
    (h : Removable (storeOf d) t lim del) :
    ∃ (leak' : Dict) (d' : Doc) (t' : PageTree) (rs : List Ref), (removePages lim ord leak del).run d = .ok (leak', d') ∧ Editable d' x ∧
      (∀ r, r ∈ rs ↔ PageAt t del r) ∧ IsRoot (storeOf d') t' ∧ Linked none t' ∧ (nums t').Nodup ∧
      (leaves [] t').map shownPage = dropAt ((leaves [] t).map shownPage) del ∧
      Pointwise (NodeStep (· ∈ rs)) (nodes t) (nodes t') := by
  obtain ⟨J, s', t', rs, e1, e2, e3, e4, e5, e6, e7, -⟩ := remove_spec (leak := leak) h hord
  obtain ⟨d', r1, r2, rfl, -⟩ := run_eval _ hed e1
  exact ⟨J, d', t', rs, r1, r2, e2, e3, e4, e5, e6, e7⟩

/-- C34. Every object that a kept page uses is unchanged, the nodes of the tree excepted, which remain; those that
only removed pages use are deleted; those that no removed page uses are unchanged.

Partial: the uses found in the dictionaries of streams are left aside (see the counterexample), and for the
documents of `C33_remove_partial`. -/
theorem C34_objects_partial [Zlib] {d : Doc} {x : Option Int} (hed : Editable d x) {t : PageTree} {lim : Nat}
    {ord : List Ref → List Ref} (hord : ∀ l, (ord l).Perm l) {leak : Dict} {del : List Int}
    (h : Removable (storeOf d) t lim del) :
    ∃ leak' d', (removePages lim ord leak del).run d = .ok (leak', d') ∧
      (∀ n, UsedBy (storeOf d) (KeptPage t del) n → (storeOf d').val n = .ok .null →
        (storeOf d).val n = .ok .null) ∧
      ∀ n, (∀ x ∈ nodes t, x.1.2.toNat ≠ n) →
        (UsedBy (storeOf d) (KeptPage t del) n → (storeOf d').val n = (storeOf d).val n) ∧
        (¬ UsedBy (storeOf d) (PageAt t del) n → (storeOf d').val n = (storeOf d).val n) ∧
        (UsedBy (storeOf d) (PageAt t del) n → ¬ UsedBy (storeOf d) (KeptPage t del) n →
          (storeOf d').val n = .ok .null) := by
  obtain ⟨J, s', t', rs, e1, e2, e3, e4, e5, e6, e7, -, e8, e9⟩ := remove_spec (leak := leak) h hord
  obtain ⟨d', r1, r2, rfl, -⟩ := run_eval _ hed e1
  refine ⟨J, d', r1, ?_, ?_⟩
  · intro n hu hnull
    by_cases hx : ∃ x ∈ nodes t, x.1.2.toNat = n
    · obtain ⟨x, hx, rfl⟩ := hx
      obtain ⟨e, he⟩ := (e8 x hx).2
      rw [hnull] at he
      cases he
    · rw [← (e9 n fun x hx' he => hx ⟨x, hx', he⟩).2 fun _ => hu]
      exact hnull
  · intro n hn
    obtain ⟨a1, a2⟩ := e9 n hn
    exact ⟨fun hk => a2 fun _ => hk, fun hu => a2 fun h => absurd h hu, a1⟩

/-- Three pages on two levels, with shared resources and a link. -/
def removeObjsWith (t : Dict) : List Obj :=
  [.dict t,
   .dict [(b!"/Type", .str b!"/Catalog"), (b!"/Pages", .ref 0 2)],
   .dict [(b!"/Type", .str b!"/Pages"), (b!"/Kids", .list [.ref 0 3, .ref 0 4]), (b!"/Count", .int 3)],
   .dict [(b!"/Type", .str b!"/Pages"), (b!"/Kids", .list [.ref 0 5, .ref 0 6]), (b!"/Count", .int 2),
     (b!"/Parent", .ref 0 2)],
   .dict [(b!"/Type", .str b!"/Page"), (b!"/Parent", .ref 0 2), (b!"/Contents", .ref 0 7)],
   .dict [(b!"/Type", .str b!"/Page"), (b!"/Parent", .ref 0 3), (b!"/Contents", .ref 0 8),
     (b!"/Resources", .ref 0 9), (b!"/Link", .list [.ref 0 4])],
   .dict [(b!"/Type", .str b!"/Page"), (b!"/Parent", .ref 0 3), (b!"/Resources", .ref 0 9)],
   .stream [(b!"/Length", .int 1)] b!"q" b!"q", .stream [(b!"/Length", .int 1)] b!"q" b!"q", .dict [(b!"/Font", .dict [])]]
def removeObjs : List Obj := removeObjsWith [(b!"/Root", .ref 0 1)]
def removeTree : PageTree :=
  .node (0, 2) [(b!"/Type", .str b!"/Pages"), (b!"/Kids", .list [.ref 0 3, .ref 0 4]), (b!"/Count", .int 3)]
    [.node (0, 3) [(b!"/Type", .str b!"/Pages"), (b!"/Kids", .list [.ref 0 5, .ref 0 6]), (b!"/Count", .int 2),
       (b!"/Parent", .ref 0 2)]
      [.page (0, 5) [(b!"/Type", .str b!"/Page"), (b!"/Parent", .ref 0 3), (b!"/Contents", .ref 0 8),
         (b!"/Resources", .ref 0 9), (b!"/Link", .list [.ref 0 4])],
       .page (0, 6) [(b!"/Type", .str b!"/Page"), (b!"/Parent", .ref 0 3), (b!"/Resources", .ref 0 9)]],
     .page (0, 4) [(b!"/Type", .str b!"/Page"), (b!"/Parent", .ref 0 2), (b!"/Contents", .ref 0 7)]]

theorem removeTree_uses (t : Dict) : ∀ b ∈ leaves [] removeTree, Within (memStore (removeObjsWith t)) 10 (refObj b.1) ∧
    ∀ g n, Uses false (memStore (removeObjsWith t)) (refObj b.1) (g, n) → g = 0 ∧ n ≠ 2 ∧ n ≠ 3 := by
  have hdep : ∀ r L, eval (dependencies 10 (refObj r)) (memStore (removeObjsWith t)) = .ok (L, memStore (removeObjsWith t)) →
      (∀ q ∈ L, q.1 = 0 ∧ q.2 ≠ 2 ∧ q.2 ≠ 3) → ∀ g n, Uses false (memStore (removeObjsWith t)) (refObj r) (g, n) →
        g = 0 ∧ n ≠ 2 ∧ n ≠ 3 := by
    intro r L hL hall g n hu
    exact hall (g, n) ((dependencies_spec _ _ _ _ hL _).2 hu)
  intro b hb
  simp only [removeTree, leaves, leavesAll, List.nil_append, List.append_nil, List.cons_append,
    List.mem_cons, List.not_mem_nil, or_false] at hb
  rcases hb with rfl | rfl | rfl
  · refine ⟨⟨_, rfl, ?_⟩, hdep _ [(0, 5), (0, 8), (0, 9), (0, 4), (0, 7)] (by kernel_rfl) (by decide)⟩
    intro k v hm h1 h2
    simp only [List.mem_cons, Prod.mk.injEq, List.not_mem_nil, or_false] at hm
    rcases hm with ⟨-, rfl⟩ | ⟨rfl, -⟩ | ⟨-, rfl⟩ | ⟨-, rfl⟩ | ⟨-, rfl⟩
    · trivial
    · exact absurd rfl h1
    · exact ⟨_, rfl, trivial⟩
    · refine ⟨_, rfl, ?_⟩
      intro k v hm _ _
      simp only [List.mem_cons, Prod.mk.injEq, List.not_mem_nil, or_false] at hm
      obtain ⟨-, rfl⟩ := hm
      intro k v hm
      cases hm
    · intro o ho
      simp only [List.mem_cons, List.not_mem_nil, or_false] at ho
      subst ho
      refine ⟨_, rfl, ?_⟩
      intro k v hm h1 _
      simp only [List.mem_cons, Prod.mk.injEq, List.not_mem_nil, or_false] at hm
      rcases hm with ⟨-, rfl⟩ | ⟨rfl, -⟩ | ⟨-, rfl⟩
      · trivial
      · exact absurd rfl h1
      · exact ⟨_, rfl, trivial⟩
  · refine ⟨⟨_, rfl, ?_⟩, hdep _ [(0, 6), (0, 9)] (by kernel_rfl) (by decide)⟩
    intro k v hm h1 h2
    simp only [List.mem_cons, Prod.mk.injEq, List.not_mem_nil, or_false] at hm
    rcases hm with ⟨-, rfl⟩ | ⟨rfl, -⟩ | ⟨-, rfl⟩
    · trivial
    · exact absurd rfl h1
    · refine ⟨_, rfl, ?_⟩
      intro k v hm _ _
      simp only [List.mem_cons, Prod.mk.injEq, List.not_mem_nil, or_false] at hm
      obtain ⟨-, rfl⟩ := hm
      intro k v hm
      cases hm
  · refine ⟨⟨_, rfl, ?_⟩, hdep _ [(0, 4), (0, 7)] (by kernel_rfl) (by decide)⟩
    intro k v hm h1 h2
    simp only [List.mem_cons, Prod.mk.injEq, List.not_mem_nil, or_false] at hm
    rcases hm with ⟨-, rfl⟩ | ⟨rfl, -⟩ | ⟨-, rfl⟩
    · trivial
    · exact absurd rfl h1
    · exact ⟨_, rfl, trivial⟩

theorem removeTree_removableWith {t : Dict} (ht : Dict.get? t b!"/Root" = some (.ref 0 1)) {del : List Int}
    (hdel : ∀ i ∈ del, ∃ j, Position (leaves [] removeTree).length i j) :
    Removable (memStore (removeObjsWith t)) removeTree 10 del := by
  refine ⟨⟨⟨by decide, rfl, rfl, rfl, ⟨by decide, rfl, rfl, rfl, ⟨by decide, rfl, rfl⟩, ⟨by decide, rfl, rfl⟩,
    trivial⟩, ⟨by decide, rfl, rfl⟩, trivial⟩, ⟨_, _, _, rfl⟩, _, _, _, rfl, ht, rfl, rfl⟩,
    ⟨rfl, ⟨_, rfl⟩, ⟨rfl, ⟨_, rfl⟩, rfl, rfl, trivial⟩, rfl, trivial⟩, by decide, by decide, hdel, ?_, ?_, ?_⟩
  · exact fun b hb => (removeTree_uses t b hb).1
  · intro b hb b' hb' g g' n hu hu'
    rw [((removeTree_uses t b hb).2 g n hu).1, ((removeTree_uses t b' hb').2 g' n hu').1]
  · rintro r ⟨i, hi, j, b, hj, hb, rfl⟩ x hx g hu
    have h1 := (removeTree_uses t b (List.mem_of_getElem? hb)).2 g _ hu
    simp only [removeTree, nodes, nodesAll, List.append_nil, List.mem_cons, List.not_mem_nil, or_false] at hx
    rcases hx with rfl | rfl
    · exact h1.2.1 rfl
    · exact h1.2.2 rfl

theorem removeTree_removable {del : List Int}
    (hdel : ∀ i ∈ del, ∃ j, Position (leaves [] removeTree).length i j) :
    Removable (memStore removeObjs) removeTree 10 del := removeTree_removableWith rfl hdel

example [Zlib] : Editable (memDoc removeObjs) none ∧ Removable (storeOf (memDoc removeObjs)) removeTree 10 [0, -1] := by
  rw [memDoc_store (by simp [removeObjs, removeObjsWith])]
  refine ⟨memDoc_editable (by simp [removeObjs, removeObjsWith]) rfl, removeTree_removable ?_⟩
  intro i hi
  simp only [List.mem_cons, List.not_mem_nil, or_false] at hi
  rcases hi with rfl | rfl
  · exact ⟨0, by decide⟩
  · exact ⟨2, by decide⟩

example [Zlib] : ((removePages 10 id [] [0, -1]).run (memDoc removeObjs)).map (fun r => r.2.cache.drop 2) = .ok
   [.dict [(b!"/Type", .str b!"/Pages"), (b!"/Kids", .list [.ref 0 3]), (b!"/Count", .int 1)],
    .dict [(b!"/Type", .str b!"/Pages"), (b!"/Kids", .list [.ref 0 6]), (b!"/Count", .int 1),
      (b!"/Parent", .ref 0 2)],
    .null, .null,
    .dict [(b!"/Type", .str b!"/Page"), (b!"/Parent", .ref 0 3), (b!"/Resources", .ref 0 9)],
    .null, .null, .dict [(b!"/Font", .dict [])]] := by kernel_rfl

/-- **C33 is false when a `/Count` is a reference**, which ISO 32000 7.3.10 allows: 1 is taken from the generation of
the reference, as references are complex numbers. -/
theorem C33_counterexample [Zlib] :
    ((removePages 1000 id [] [0]).run (memDoc
      [.dict [(b!"/Root", .ref 0 1)],
       .dict [(b!"/Type", .str b!"/Catalog"), (b!"/Pages", .ref 0 2)],
       .dict [(b!"/Type", .str b!"/Pages"), (b!"/Kids", .list [.ref 0 3, .ref 0 4]), (b!"/Count", .ref 0 5)],
       .dict [(b!"/Type", .str b!"/Page"), (b!"/Parent", .ref 0 2)],
       .dict [(b!"/Type", .str b!"/Page"), (b!"/Parent", .ref 0 2)],
       .int 2])).map (fun r => (r.2.cache[2]?, r.2.cache[5]?)) =
    .ok (some (.dict [(b!"/Type", .str b!"/Pages"), (b!"/Kids", .list [.ref 0 4]), (b!"/Count", .ref (-1) 5)]),
      some (.int 2)) := by
  kernel_rfl

/-- The page 3 draws a form (5) whose font is the object 6. The page 4 uses the same font. -/
def sharedObjs : List Obj :=
  [.dict [(b!"/Root", .ref 0 1)],
   .dict [(b!"/Type", .str b!"/Catalog"), (b!"/Pages", .ref 0 2)],
   .dict [(b!"/Type", .str b!"/Pages"), (b!"/Kids", .list [.ref 0 3, .ref 0 4]), (b!"/Count", .int 2)],
   .dict [(b!"/Type", .str b!"/Page"), (b!"/Parent", .ref 0 2),
     (b!"/Resources", .dict [(b!"/XObject", .dict [(b!"/X", .ref 0 5)])])],
   .dict [(b!"/Type", .str b!"/Page"), (b!"/Parent", .ref 0 2),
     (b!"/Resources", .dict [(b!"/Font", .dict [(b!"/F", .ref 0 6)])])],
   .stream [(b!"/Subtype", .str b!"/Form"), (b!"/Resources", .dict [(b!"/Font", .dict [(b!"/F", .ref 0 6)])])] [] [],
   .dict [(b!"/Type", .str b!"/Font")]]

/-- **C34 is false**: the dictionaries of streams are not searched, so that removing the second page deletes a font
that the first one uses. -/
theorem C34_counterexample [Zlib] :
    Uses true (storeOf (memDoc sharedObjs)) (.ref 0 3) (0, 6) ∧
    ((removePages 1000 id [] [1]).run (memDoc sharedObjs)).map (fun r => r.2.cache[6]?) = .ok (some .null) := by
  constructor
  · rw [memDoc_store (by simp [sharedObjs])]
    refine .through rfl (.entry (k := b!"/Resources") (.tail _ (.tail _ (.head _))) (by decide) (by decide) ?_)
    refine .entry (k := b!"/XObject") (.head _) (by decide) (by decide) ?_
    refine .entry (k := b!"/X") (.head _) (by decide) (by decide) ?_
    refine .through rfl (.stream rfl (k := b!"/Resources") (.tail _ (.head _)) (by decide) (by decide) ?_)
    refine .entry (k := b!"/Font") (.head _) (by decide) (by decide) ?_
    exact .entry (k := b!"/F") (.head _) (by decide) (by decide) (.here _ _)
  · kernel_rfl

end Pdf
