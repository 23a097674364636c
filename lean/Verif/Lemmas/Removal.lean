/-
Removal of pages from the tree, one after the other.
-/
import Verif.Lemmas.Prune

namespace Pdf
open Spec Spec.PageTree

mutual
theorem leaves_nums : ∀ (t : PageTree) (a : List Dict), ((leaves a t).map fun b => b.1.2.toNat).Sublist (nums t)
  | .page _ _, _ => List.Sublist.refl _
  | .node _ d kids, a => (leavesAll_nums kids (d :: a)).cons _
theorem leavesAll_nums : ∀ (ts : List PageTree) (a : List Dict),
    ((leavesAll a ts).map fun b => b.1.2.toNat).Sublist (numsAll ts)
  | [], _ => List.Sublist.refl _
  | t :: ts, a => by
    simp only [leavesAll, numsAll, List.map_append]
    exact (leaves_nums t a).append (leavesAll_nums ts a)
end

theorem nodup_of_map {α β : Type} (f : α → β) : ∀ {l : List α}, (l.map f).Nodup → l.Nodup
  | [], _ => List.nodup_nil
  | a :: l, h => by
    rw [List.map_cons, List.nodup_cons] at h
    exact List.nodup_cons.2 ⟨fun hm => h.1 (List.mem_map_of_mem hm), nodup_of_map f h.2⟩

theorem map_refObj_inj : ∀ {a b : List Ref}, a.map refObj = b.map refObj → a = b
  | [], [], _ => rfl
  | x :: xs, [], h => by cases h
  | [], x :: xs, h => by cases h
  | x :: xs, y :: ys, h => by
    simp only [List.map_cons, List.cons.injEq] at h
    rw [refObj_inj h.1, map_refObj_inj h.2]

theorem nodup_fst {l : List (Ref × Dict × List Dict)} (h : (l.map fun b => b.1.2.toNat).Nodup) :
    (l.map Prod.fst).Nodup := by
  have : l.map (fun b => b.1.2.toNat) = (l.map Prod.fst).map fun r => r.2.toNat := by rw [List.map_map]; rfl
  rw [this] at h
  exact nodup_of_map _ h

mutual
theorem nodes_nodup : ∀ (t : PageTree), (nums t).Nodup → ∀ x ∈ nodes t, x.2.2.Nodup
  | .page _ _, _, x, hx => by cases hx
  | .node r d kids, hn, x, hx => by
    simp only [nums, List.nodup_cons] at hn
    simp only [nodes, List.mem_cons] at hx
    rcases hx with rfl | hx
    · exact nodup_fst ((leavesAll_nums kids []).nodup hn.2)
    · exact nodesAll_nodup kids hn.2 x hx
theorem nodesAll_nodup : ∀ (ts : List PageTree), (numsAll ts).Nodup → ∀ x ∈ nodesAll ts, x.2.2.Nodup
  | [], _, x, hx => by cases hx
  | t :: ts, hn, x, hx => by
    simp only [numsAll] at hn
    obtain ⟨h1, h2, -⟩ := List.nodup_append.1 hn
    simp only [nodesAll, List.mem_append] at hx
    rcases hx with hx | hx
    · exact nodes_nodup t h1 x hx
    · exact nodesAll_nodup ts h2 x hx
end

mutual
/-- The first ancestor lists the page, and the ancestors are nodes. -/
theorem chains_head : ∀ (t : PageTree) (c : List (Ref × Dict)) {s : Store}, Shown s t → ∀ b ∈ chains c t,
    (b.2.2 = c ∧ b.1 = t.ref) ∨ ∃ p rest kids, b.2.2 = p :: rest ∧
      Dict.get? p.2 b!"/Kids" = some (.list kids) ∧ refObj b.1 ∈ kids
  | .page r d, c, s, _, b, hb => by
    simp only [chains, List.mem_singleton] at hb
    subst hb
    exact .inl ⟨rfl, rfl⟩
  | .node r d kids, c, s, hs, b, hb => by
    obtain ⟨h1, h2, h3, h4, h5⟩ := hs
    rcases chainsAll_head kids ((r, d) :: c) h5 b hb with ⟨k1, k2⟩ | h
    · refine .inr ⟨(r, d), c, _, k1, h4, ?_⟩
      obtain ⟨u, hu, he⟩ := k2
      rw [he]
      exact List.mem_map.2 ⟨u, hu, rfl⟩
    · exact .inr h
theorem chainsAll_head : ∀ (ts : List PageTree) (c : List (Ref × Dict)) {s : Store}, ShownAll s ts →
    ∀ b ∈ chainsAll c ts, (b.2.2 = c ∧ ∃ u ∈ ts, b.1 = u.ref) ∨ ∃ p rest kids, b.2.2 = p :: rest ∧
      Dict.get? p.2 b!"/Kids" = some (.list kids) ∧ refObj b.1 ∈ kids
  | [], _, _, _, b, hb => by cases hb
  | t :: ts, c, s, hs, b, hb => by
    simp only [chainsAll, List.mem_append] at hb
    rcases hb with hb | hb
    · rcases chains_head t c hs.1 b hb with ⟨k1, k2⟩ | h
      · exact .inl ⟨k1, t, by simp, k2⟩
      · exact .inr h
    · rcases chainsAll_head ts c hs.2 b hb with ⟨k1, u, hu, k2⟩ | h
      · exact .inl ⟨k1, u, by simp [hu], k2⟩
      · exact .inr h
end

mutual
theorem chains_nodes : ∀ (t : PageTree) (c : List (Ref × Dict)), ∀ b ∈ chains c t, ∀ p ∈ b.2.2,
    p ∈ c ∨ ∃ x ∈ nodes t, x.1 = p.1
  | .page _ _, c, b, hb, p, hp => by
    simp only [chains, List.mem_singleton] at hb
    subst hb
    exact .inl hp
  | .node r d kids, c, b, hb, p, hp => by
    rcases chainsAll_nodes kids ((r, d) :: c) b hb p hp with h | ⟨x, hx, h⟩
    · rcases List.mem_cons.1 h with rfl | h
      · exact .inr ⟨(r, d, (leavesAll [] kids).map Prod.fst), by simp [nodes], rfl⟩
      · exact .inl h
    · exact .inr ⟨x, by simp [nodes, hx], h⟩
theorem chainsAll_nodes : ∀ (ts : List PageTree) (c : List (Ref × Dict)), ∀ b ∈ chainsAll c ts, ∀ p ∈ b.2.2,
    p ∈ c ∨ ∃ x ∈ nodesAll ts, x.1 = p.1
  | [], _, b, hb, _, _ => by cases hb
  | t :: ts, c, b, hb, p, hp => by
    simp only [chainsAll, List.mem_append] at hb
    rcases hb with hb | hb
    · rcases chains_nodes t c b hb p hp with h | ⟨x, hx, h⟩
      · exact .inl h
      · exact .inr ⟨x, by simp [nodesAll, hx], h⟩
    · rcases chainsAll_nodes ts c b hb p hp with h | ⟨x, hx, h⟩
      · exact .inl h
      · exact .inr ⟨x, by simp [nodesAll, hx], h⟩
end

theorem chain_val {s : Store} : ∀ {c : List (Ref × Dict)}, Chain s c → ∀ p ∈ c, s.val (num p) = .ok (.dict p.2)
  | [], _, p, hp => by cases hp
  | (q, d) :: rest, ⟨h1, h2, _, _, _, h6⟩, p, hp => by
    rcases List.mem_cons.1 hp with rfl | hp
    · show s.val q.2.toNat = _
      rw [← get_refObj h1]; exact h2
    · exact chain_val h6 p hp

/-- Everything that is asked of the tree. -/
structure Sound (s : Store) (t : PageTree) : Prop where
  shown : Shown s t
  linked : Linked none t
  nodup : (nums t).Nodup
  isNode : ∃ r d kids, t = .node r d kids

theorem Sound.ok {s : Store} {t : PageTree} (h : Sound s t) : ∀ x ∈ nodes t, NodeOk s x :=
  nodes_ok t none h.shown h.linked h.nodup

theorem Sound.leaf {s : Store} {t : PageTree} (h : Sound s t) : ∀ b ∈ leaves [] t,
    0 < b.1.2 ∧ s.get (refObj b.1) = .ok (.dict b.2.1) ∧ Dict.get? b.2.1 b!"/Type" = some (.str b!"/Page") := by
  intro b hb
  have h1 := leaves_type t [] h.shown b hb
  exact ⟨h1.1, leaves_shown t [] h.shown b hb, h1.2⟩

/-- A page and a node have different numbers. -/
theorem Sound.apart {s : Store} {t : PageTree} (h : Sound s t) {x : Ref × Dict × List Ref} (hx : x ∈ nodes t)
    {r : Ref} (hr : r ∈ (leaves [] t).map Prod.fst) : x.1.2.toNat ≠ r.2.toNat := by
  obtain ⟨b, hb, rfl⟩ := List.mem_map.1 hr
  obtain ⟨h1, h2, h3⟩ := h.leaf b hb
  have hk := h.ok x hx
  intro he
  have e1 := hk.get
  rw [get_refObj hk.pos, he, ← get_refObj h1, h2] at e1
  simp only [Except.ok.injEq, Obj.dict.injEq] at e1
  have := hk.type
  rw [← e1, h3] at this
  exact absurd this (by decide)

/-- One page is taken out. -/
theorem detach_step {s : Store} {t : PageTree} {lim : Nat} {r : Ref} (h : Sound s t) (hd : depth t ≤ lim)
    (hr : r ∈ (leaves [] t).map Prod.fst) :
    ∃ s', eval (detachPage lim r) s = .ok ((), s') ∧ s'.next = s.next ∧
      (∀ n, (∀ x ∈ nodes t, x.1.2.toNat ≠ n) → s'.val n = s.val n) ∧
      ∀ x ∈ nodes t, ∃ e, NodeAfter s' r x e := by
  have hb0 := hr
  rw [← chains_refs t [] []] at hb0
  obtain ⟨⟨r', pd, c⟩, hb, he⟩ := List.mem_map.1 hb0
  have he : r' = r := he
  subst he
  have hnn : (nums t ++ ([] : List (Ref × Dict)).map num).Nodup := by simpa using h.nodup
  obtain ⟨k1, k2, -⟩ := chains_spec t [] h.shown h.linked trivial _ hb
  obtain ⟨n1, n2, n3, -⟩ := chains_nums t [] hnn _ hb
  simp only [List.length_nil, Nat.zero_add] at n2
  have hleaf : (r', pd, c.map Prod.snd) ∈ leaves [] t := by
    have := leaves_chains t []
    simp only [List.map_nil] at this
    rw [this]
    exact List.mem_map.2 ⟨_, hb, rfl⟩
  obtain ⟨p1, p2, p3⟩ := h.leaf _ hleaf
  rcases chains_head t [] h.shown _ hb with ⟨-, h0⟩ | ⟨⟨q1, d1⟩, rest, kids, hc, hkids, hmem⟩
  · obtain ⟨q, d, ks, rfl⟩ := h.isNode
    have h0 : r' = q := h0
    exact absurd (by rw [h0] : q.2.toNat = r'.2.toNat)
      (h.apart (x := (q, d, (leavesAll [] ks).map Prod.fst)) (by simp [nodes]) hr)
  simp only at hc k1 k2 n1 n2 hkids hmem
  subst hc
  obtain ⟨s', e1, e2, e3, e4, e5⟩ := detach_eval (fuel := lim) p2 k2 k1 n1 hkids hmem
    (by simp only [List.length_cons] at n2; omega)
  have hcn : ∀ n ∈ ((q1, d1) :: rest).map num, ∃ x ∈ nodes t, x.1.2.toNat = n := by
    intro n hn
    obtain ⟨p, hp, rfl⟩ := List.mem_map.1 hn
    rcases chains_nodes t [] _ hb p hp with h' | ⟨x, hx, hxe⟩
    · cases h'
    · exact ⟨x, hx, by rw [hxe]; rfl⟩
  refine ⟨s', e1, e2, ?_, ?_⟩
  · intro n hn
    refine e5 n fun hm => ?_
    obtain ⟨x, hx, hxe⟩ := hcn n hm
    exact hn x hx hxe
  · intro x hx
    have hk := h.ok x hx
    have hval : s.val x.1.2.toNat = .ok (.dict x.2.1) := by rw [← get_refObj hk.pos]; exact hk.get
    have hbel : r' ∈ x.2.2 ↔ x.1.2.toNat ∈ ((q1, d1) :: rest).map num := below_iff t [] hnn _ hb x hx
    obtain ⟨ks, hks, hnd, hpar⟩ := hk.kids
    have hkq : r' ∈ ks → x.1 = q1 := by
      intro hrk
      obtain ⟨-, dk, g1, g2⟩ := hpar r' hrk
      rw [p2] at g1
      cases g1
      rw [k2] at g2
      exact (refObj_inj (Option.some.inj g2)).symm
    by_cases h1 : x.1.2.toNat = q1.2.toNat
    · have hd1 : x.2.1 = d1 := by
        have := chain_val k1 (q1, d1) (by simp)
        have h2 : s.val q1.2.toNat = .ok (.dict d1) := this
        rw [← h1, hval] at h2
        cases h2; rfl
      have hin : r' ∈ x.2.2 := hbel.2 (by rw [h1]; simp [num])
      refine ⟨without d1 kids r', ?_, ?_, ?_, ?_⟩
      · rw [get_refObj hk.pos, h1]; exact e3
      · intro ks' hks'
        rw [hd1, hkids] at hks' hks
        simp only [Option.some.injEq, Obj.list.injEq] at hks hks'
        have : ks' = ks := by
          have := hks'.symm.trans hks
          exact map_refObj_inj this
        subst this
        rw [← erase_refs hnd, ← hks]
        unfold without
        rw [get?_dec (by decide), Dict.get?_set, if_pos rfl]
      · intro k k1 k2
        unfold without
        rw [get?_dec k2, Dict.get?_set, if_neg k1, hd1]
      · rw [if_pos hin, hd1]
        unfold without dec
        rw [Dict.get?_set, if_pos rfl]
        have : countOf (Dict.set d1 b!"/Kids" (.list (kids.erase (refObj r')))) = countOf d1 := by
          unfold countOf
          rw [Dict.get?_set, if_neg (by decide)]
        rw [this]
    · have hnk : r' ∉ ks := fun hrk => h1 (by rw [hkq hrk])
      have hkeep : ∀ ks' : List Ref, Dict.get? x.2.1 b!"/Kids" = some (.list (ks'.map refObj)) →
          Dict.get? x.2.1 b!"/Kids" = some (.list ((ks'.filter (· ≠ r')).map refObj)) := by
        intro ks' hks'
        have h2 := hks'
        rw [hks] at h2
        simp only [Option.some.injEq, Obj.list.injEq] at h2
        have : ks = ks' := map_refObj_inj h2
        subst this
        rw [filter_refs hnk]; exact hks
      by_cases h2 : x.1.2.toNat ∈ rest.map num
      · obtain ⟨p, hp, hpe⟩ := List.mem_map.1 h2
        have hdp : p.2 = x.2.1 := by
          have := chain_val k1 p (by simp [hp])
          rw [hpe, hval] at this
          simp only [Except.ok.injEq, Obj.dict.injEq] at this
          exact this.symm
        have hin : r' ∈ x.2.2 := hbel.2 (by rw [List.map_cons]; exact List.mem_cons_of_mem _ h2)
        refine ⟨dec x.2.1, ?_, ?_, ?_, ?_⟩
        · rw [get_refObj hk.pos, ← hpe, ← hdp]; exact e4 p hp
        · intro ks' hks'
          rw [get?_dec (by decide)]
          exact hkeep ks' hks'
        · intro k _ k2; exact get?_dec k2
        · rw [if_pos hin]; unfold dec
          rw [Dict.get?_set, if_pos rfl]
      · have hnot : x.1.2.toNat ∉ ((q1, d1) :: rest).map num := by
          rw [List.map_cons, List.mem_cons, not_or]; exact ⟨h1, h2⟩
        refine ⟨x.2.1, ?_, hkeep, fun _ _ _ => rfl, ?_⟩
        · rw [get_refObj hk.pos, e5 _ hnot]; exact hval
        · rw [if_neg (fun hh => hnot (hbel.1 hh))]
          obtain ⟨cc, hcc⟩ := hk.count
          rw [hcc]; unfold countOf; rw [hcc]; simp

theorem Pointwise.trans {α : Type} {P Q R : α → α → Prop} (h : ∀ x y z, P x y → Q y z → R x z) :
    ∀ {a b c : List α}, Pointwise P a b → Pointwise Q b c → Pointwise R a c
  | [], _, _, .nil, .nil => .nil
  | _ :: _, _, _, .cons h1 h2, .cons k1 k2 => .cons (h _ _ _ h1 k1) (Pointwise.trans h h2 k2)

theorem Pointwise.self {α : Type} {P : α → α → Prop} : ∀ {a : List α}, (∀ x ∈ a, P x x) → Pointwise P a a
  | [], _ => .nil
  | x :: _, h => .cons (h x (by simp)) (Pointwise.self fun y hy => h y (by simp [hy]))

theorem Pointwise.mem {α β : Type} {P : α → β → Prop} : ∀ {a : List α} {b : List β}, Pointwise P a b →
    ∀ x ∈ a, ∃ y ∈ b, P x y
  | [], _, .nil, x, hx => by cases hx
  | _ :: _, _, .cons h1 h2, x, hx => by
    rcases List.mem_cons.1 hx with rfl | hx
    · exact ⟨_, by simp, h1⟩
    · obtain ⟨y, hy, h⟩ := Pointwise.mem h2 x hx
      exact ⟨y, by simp [hy], h⟩

theorem Pointwise.mem' {α β : Type} {P : α → β → Prop} : ∀ {a : List α} {b : List β}, Pointwise P a b →
    ∀ y ∈ b, ∃ x ∈ a, P x y
  | [], _, .nil, y, hy => by cases hy
  | _ :: _, _, .cons h1 h2, y, hy => by
    rcases List.mem_cons.1 hy with rfl | hy
    · exact ⟨_, by simp, h1⟩
    · obtain ⟨x, hx, h⟩ := Pointwise.mem' h2 y hy
      exact ⟨x, by simp [hx], h⟩

theorem split_count (l : List Ref) (r : Ref) (rs : List Ref) (h : r ∉ rs) :
    (l.filter (fun x => x ∈ r :: rs)).length =
      (l.filter (fun x => x = r)).length + ((l.filter (fun x => ¬ x = r)).filter (fun x => x ∈ rs)).length := by
  induction l with
  | nil => rfl
  | cons a l ih =>
    by_cases h1 : a = r
    · subst h1
      simp at ih ⊢
      omega
    · by_cases h2 : a ∈ rs
      · simp [h1, h2] at ih ⊢
        omega
      · simp [h1, h2] at ih ⊢
        omega

/-- The tree `t'` is `t` without the pages `rs`. -/
structure Removed (s : Store) (t : PageTree) (rs : List Ref) (s' : Store) (t' : PageTree) : Prop where
  sound : Sound s' t'
  ref : t'.ref = t.ref
  depth : t'.depth ≤ t.depth
  next : s'.next = s.next
  leaves : (leaves [] t').map shownPage = ((leaves [] t).map shownPage).filter fun b => b.1 ∉ rs
  nodes : Pointwise (NodeStep (· ∈ rs)) (nodes t) (nodes t')
  kept : ∀ n, (∀ x ∈ PageTree.nodes t, x.1.2.toNat ≠ n) → s'.val n = s.val n

theorem nodeStep_nil {s : Store} {x : Ref × Dict × List Ref} (h : NodeOk s x) : NodeStep (· ∈ []) x x := by
  obtain ⟨c, hc⟩ := h.count
  refine ⟨rfl, (List.filter_eq_self.2 (by simp)).symm, ?_, fun _ _ _ => rfl⟩
  have : x.2.2.filter (fun r => r ∈ ([] : List Ref)) = [] := List.filter_eq_nil_iff.2 (by simp)
  rw [hc, this]; unfold countOf; rw [hc]; simp

theorem nodeStep_trans {r : Ref} {rs : List Ref} (h : r ∉ rs) {x y z : Ref × Dict × List Ref}
    (h1 : NodeStep (· = r) x y) (h2 : NodeStep (· ∈ rs) y z) : NodeStep (· ∈ r :: rs) x z := by
  refine ⟨h2.ref.trans h1.ref, ?_, ?_, ?_⟩
  · rw [h2.below, h1.below, List.filter_filter]
    congr 1
    funext a
    simp [Bool.and_comm]
  · rw [h2.count, h1.below, split_count _ _ _ h]
    have : countOf y.2.1 = countOf x.2.1 - (x.2.2.filter (fun a => a = r)).length := by
      unfold countOf
      rw [h1.count]
      rfl
    rw [this]
    simp only [Option.some.injEq, Obj.int.injEq]
    omega
  · intro k k1 k2
    rw [h2.other k k1 k2, h1.other k k1 k2]

theorem detachAll_eval {lim : Nat} : ∀ (rs : List Ref) {s : Store} {t : PageTree}, Sound s t → t.depth ≤ lim →
    rs.Nodup → (∀ r ∈ rs, r ∈ (leaves [] t).map Prod.fst) →
    ∃ s' t', eval (detachAll lim rs) s = .ok ((), s') ∧ Removed s t rs s' t'
  | [], s, t, h, _, _, _ => ⟨s, t, rfl, h, rfl, Nat.le_refl _, rfl, (List.filter_eq_self.2 (by simp)).symm,
      Pointwise.self fun x hx => nodeStep_nil (h.ok x hx), fun _ _ => rfl⟩
  | r :: rs, s, t, h, hd, hn, hm => by
    rw [List.nodup_cons] at hn
    have hr := hm r (by simp)
    obtain ⟨s1, e1, e2, e3, e4⟩ := detach_step h hd hr
    have hne : ∀ x ∈ nodes t, x.1 ≠ r := fun x hx he => h.apart hx hr (by rw [he])
    have hs1 : Sound s1 (prune s1 r t) := by
      refine ⟨shown_prune t h.shown e4 ?_, linked_prune t none h.linked e4, (nums_prune s1 r t).nodup h.nodup, ?_⟩
      · intro b hb
        have h1 := (h.leaf b hb).1
        rw [get_refObj h1, get_refObj h1]
        exact e3 _ fun x hx => h.apart hx (List.mem_map_of_mem hb)
      · obtain ⟨q, d, ks, rfl⟩ := h.isNode
        exact ⟨_, _, _, rfl⟩
    have htr : t.ref ≠ r := by
      obtain ⟨q, d, ks, rfl⟩ := h.isNode
      exact hne (q, d, (leavesAll [] ks).map Prod.fst) (by simp [nodes])
    have hl := leaves_prune t [] [] (fun _ _ => rfl) (fun x hx => ⟨hne x hx, e4 x hx⟩) htr
    have hp := nodes_prune t h.nodup fun x hx => ⟨hne x hx, nodes_nodup t h.nodup x hx, e4 x hx⟩
    obtain ⟨s2, t2, f1, f2⟩ := detachAll_eval rs hs1 (Nat.le_trans (depth_prune s1 r t) hd) hn.2 (by
      intro q hq
      rw [refs_prune hl, List.mem_filter]
      exact ⟨hm q (by simp [hq]), by simpa using fun he : q = r => hn.1 (he ▸ hq)⟩)
    have hpt : Pointwise (NodeStep (· ∈ r :: rs)) (nodes t) (nodes t2) :=
      Pointwise.trans (P := NodeStep (· = r)) (Q := NodeStep (· ∈ rs)) (R := NodeStep (· ∈ r :: rs))
        (fun x y z h1 h2 => nodeStep_trans hn.1 h1 h2) hp f2.nodes
    refine ⟨s2, t2, ?_, f2.sound, f2.ref.trans (ref_prune _ _ _), Nat.le_trans f2.depth (depth_prune s1 r t),
      f2.next.trans e2, ?_, hpt, ?_⟩
    · show eval (detachPage lim r >>= fun _ => detachAll lim rs) s = _
      rw [eval_bind_ok e1]; exact f1
    · rw [f2.leaves, hl]
      have : ((leaves [] t).filter fun b => b.1 ≠ r).map shownPage =
          ((leaves [] t).map shownPage).filter fun b => b.1 ≠ r := by
        rw [List.filter_map]; rfl
      rw [this, List.filter_filter]
      congr 1
      funext b
      simp [Bool.and_comm]
    · intro n hn'
      rw [f2.kept n, e3 n hn']
      intro y hy
      obtain ⟨x, hx, hxy⟩ := hp.mem' y hy
      rw [hxy.ref]
      exact hn' x hx

end Pdf
