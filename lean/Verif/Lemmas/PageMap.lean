/-
Page trees whose pages have changed.
-/
import Verif.Lemmas.Pages

namespace Pdf
open Spec Spec.PageTree

mutual
theorem leaves_mapPages (f : Ref → Dict → Dict) : ∀ (t : PageTree) (anc : List Dict),
    leaves anc (mapPages f t) = (leaves anc t).map fun b => (b.1, f b.1 b.2.1, b.2.2)
  | .page _ _, _ => rfl
  | .node _ d kids, anc => leavesAll_mapPages f kids (d :: anc)
theorem leavesAll_mapPages (f : Ref → Dict → Dict) : ∀ (ts : List PageTree) (anc : List Dict),
    leavesAll anc (mapPages.mapAll f ts) = (leavesAll anc ts).map fun b => (b.1, f b.1 b.2.1, b.2.2)
  | [], _ => rfl
  | t :: ts, anc => by
    simp only [mapPages.mapAll, leavesAll, List.map_append]
    rw [leaves_mapPages f t anc, leavesAll_mapPages f ts anc]
end

theorem ref_mapPages (f : Ref → Dict → Dict) (t : PageTree) : (mapPages f t).ref = t.ref := by
  cases t <;> rfl

theorem refs_mapAll (f : Ref → Dict → Dict) (ts : List PageTree) :
    ((mapPages.mapAll f ts).map fun t => refObj t.ref) = ts.map fun t => refObj t.ref := by
  induction ts with
  | nil => rfl
  | cons t ts ih => simp only [mapPages.mapAll, List.map_cons, ih, ref_mapPages]

theorem get_refObj {s : Store} {r : Ref} (h : 0 < r.2) : s.get (refObj r) = s.val r.2.toNat := by
  simp only [Store.get, refObj]
  rw [if_neg (by omega)]

mutual
theorem shown_map {s s' : Store} {f : Ref → Dict → Dict}
    (hnode : ∀ n d, s.val n = .ok (.dict d) → Dict.get? d b!"/Type" = some (.str b!"/Pages") →
      s'.val n = .ok (.dict d)) : ∀ (t : PageTree) (anc : List Dict), Shown s t →
    (∀ b ∈ leaves anc t, s'.get (refObj b.1) = .ok (.dict (f b.1 b.2.1)) ∧
      Dict.get? (f b.1 b.2.1) b!"/Type" = some (.str b!"/Page")) → Shown s' (mapPages f t)
  | .page r d, anc, h, hp => by
    have := hp (r, d, anc) (by simp [leaves])
    exact ⟨h.1, this⟩
  | .node r d kids, anc, h, hp => by
    obtain ⟨h1, h2, h3, h4, h5⟩ := h
    refine ⟨h1, ?_, h3, ?_, shownAll_map hnode kids (d :: anc) h5 hp⟩
    · rw [get_refObj h1] at h2 ⊢
      exact hnode _ _ h2 h3
    · rw [refs_mapAll]; exact h4
theorem shownAll_map {s s' : Store} {f : Ref → Dict → Dict}
    (hnode : ∀ n d, s.val n = .ok (.dict d) → Dict.get? d b!"/Type" = some (.str b!"/Pages") →
      s'.val n = .ok (.dict d)) : ∀ (ts : List PageTree) (anc : List Dict), ShownAll s ts →
    (∀ b ∈ leavesAll anc ts, s'.get (refObj b.1) = .ok (.dict (f b.1 b.2.1)) ∧
      Dict.get? (f b.1 b.2.1) b!"/Type" = some (.str b!"/Page")) → ShownAll s' (mapPages.mapAll f ts)
  | [], _, _, _ => trivial
  | t :: ts, anc, h, hp =>
    ⟨shown_map hnode t anc h.1 fun b hb => hp b (by simp [leavesAll, hb]),
     shownAll_map hnode ts anc h.2 fun b hb => hp b (by simp [leavesAll, hb])⟩
end

mutual
theorem leaves_type {s : Store} : ∀ (t : PageTree) (anc : List Dict), Shown s t →
    ∀ b ∈ leaves anc t, 0 < b.1.2 ∧ Dict.get? b.2.1 b!"/Type" = some (.str b!"/Page")
  | .page r d, anc, h, b, hb => by
    simp only [leaves, List.mem_singleton] at hb
    subst hb
    exact ⟨h.1, h.2.2⟩
  | .node r d kids, anc, h, b, hb => leavesAll_type kids (d :: anc) h.2.2.2.2 b hb
theorem leavesAll_type {s : Store} : ∀ (ts : List PageTree) (anc : List Dict), ShownAll s ts →
    ∀ b ∈ leavesAll anc ts, 0 < b.1.2 ∧ Dict.get? b.2.1 b!"/Type" = some (.str b!"/Page")
  | [], _, _, b, hb => by cases hb
  | t :: ts, anc, h, b, hb => by
    simp only [leavesAll, List.mem_append] at hb
    rcases hb with hb | hb
    · exact leaves_type t anc h.1 b hb
    · exact leavesAll_type ts anc h.2 b hb
end

/-- The tree is still that of the document when only pages have changed, and not in their type. -/
theorem isRoot_map {s s' : Store} {f : Ref → Dict → Dict} {t : PageTree} (h : IsRoot s t)
    (hnode : ∀ n d, s.val n = .ok (.dict d) → Dict.get? d b!"/Type" = some (.str b!"/Pages") →
      s'.val n = .ok (.dict d))
    (hcat : ∀ n d, s.val n = .ok (.dict d) → ∃ e, s'.val n = .ok (.dict e) ∧
      Dict.get? e b!"/Pages" = Dict.get? d b!"/Pages")
    (hzero : s'.val 0 = s.val 0)
    (hp : ∀ b ∈ leaves [] t, s'.get (refObj b.1) = .ok (.dict (f b.1 b.2.1)) ∧
      Dict.get? (f b.1 b.2.1) b!"/Type" = some (.str b!"/Page")) : IsRoot s' (mapPages f t) := by
  obtain ⟨hs, hn, tr, root, cat, n1, n2, n3, n4⟩ := h
  refine ⟨shown_map hnode t [] hs hp, ?_, tr, root, ?_⟩
  · obtain ⟨r, d, kids, rfl⟩ := hn
    exact ⟨r, d, _, rfl⟩
  · rw [ref_mapPages]
    cases root with
    | ref g n =>
      simp only [Store.get] at n3 ⊢
      by_cases hneg : n < 0
      · rw [if_pos hneg] at n3; cases n3
      · rw [if_neg hneg] at n3 ⊢
        obtain ⟨e, e1, e2⟩ := hcat _ _ n3
        exact ⟨e, hzero.trans n1, n2, e1, e2.trans n4⟩
    | _ => exact ⟨cat, hzero.trans n1, n2, n3, n4⟩

/-! ### The shared dict of `flat_page_tree` -/

/-- The shared dict holds nothing, or attributes of the root of this tree. -/
def Own (leak : Dict) (t : PageTree) : Prop :=
  ∀ r d kids, t = .node r d kids → (∀ k, k ∉ inheritable → Dict.get? leak k = none) ∧
    ∀ k ∈ inheritable, Dict.get? leak k = none ∨ Dict.get? leak k = entry? d k

theorem Own.nil (t : PageTree) : Own [] t := fun _ _ _ _ => ⟨fun _ _ => rfl, fun _ _ => .inl rfl⟩

theorem Own.map {leak : Dict} {t : PageTree} (h : Own leak t) (f : Ref → Dict → Dict) : Own leak (mapPages f t) := by
  intro r d kids heq
  cases t with
  | page r d => cases heq
  | node r' d' kids' => cases heq; exact h _ _ _ rfl

mutual
theorem leaves_anc : ∀ (t : PageTree) (anc : List Dict), ∀ b ∈ leaves anc t, ∃ l, b.2.2 = l ++ anc
  | .page r d, anc, b, hb => by
    simp only [leaves, List.mem_singleton] at hb
    subst hb
    exact ⟨[], rfl⟩
  | .node r d kids, anc, b, hb => by
    obtain ⟨l, hl⟩ := leavesAll_anc kids (d :: anc) b hb
    exact ⟨l ++ [d], by rw [hl]; simp⟩
theorem leavesAll_anc : ∀ (ts : List PageTree) (anc : List Dict), ∀ b ∈ leavesAll anc ts, ∃ l, b.2.2 = l ++ anc
  | [], _, b, hb => by cases hb
  | t :: ts, anc, b, hb => by
    simp only [leavesAll, List.mem_append] at hb
    rcases hb with hb | hb
    · exact leaves_anc t anc b hb
    · exact leavesAll_anc ts anc b hb
end

theorem nearest_none {k : Bytes} {l : List Dict} {d : Dict} (h : nearest k (l ++ [d]) = none) : entry? d k = none := by
  unfold nearest at h
  rw [List.findSome?_append, Option.or_eq_none_iff] at h
  simpa using h.2

theorem Own.inh {leak : Dict} {t : PageTree} (h : Own leak t) (ht : ∃ r d kids, t = .node r d kids) :
    ∀ b ∈ leaves [] t, ∀ k, inh leak b.2.2 k = if k ∈ inheritable then nearest k b.2.2 else none := by
  obtain ⟨r, d, kids, rfl⟩ := ht
  intro b hb k
  obtain ⟨l, hl⟩ := leavesAll_anc kids [d] b hb
  obtain ⟨h1, h2⟩ := h r d kids rfl
  unfold Pdf.inh
  by_cases hk : k ∈ inheritable
  · rw [if_pos hk, if_pos hk]
    cases hn : nearest k b.2.2 with
    | some v => rfl
    | none =>
      rw [hl] at hn
      have := nearest_none hn
      rcases h2 k hk with h2 | h2
      · rw [h2]; rfl
      · rw [h2, this]; rfl
  · rw [if_neg hk, if_neg hk, h1 k hk]

theorem eval_flat_own {s : Store} {leak : Dict} {lim : Nat} {t : PageTree} (hd : depth t ≤ lim) (h : IsRoot s t)
    (ho : Own leak t) : ∃ l J, eval (flatPageTree lim .null leak none) s = .ok ((l, J), s) ∧ Own J t ∧
      Pointwise (fun a b => a.1 = refObj b.1 ∧
        ∀ k, Dict.get? a.2 k = if k ∈ inheritable then nearest k b.2.2 else none) l (leaves [] t) := by
  obtain ⟨l, J, h1, h2, h3, h4⟩ := flatPageTree_root (leak := leak) hd h
  refine ⟨l, J, h1, ?_, ?_⟩
  · intro r d kids heq
    obtain ⟨o1, o2⟩ := ho r d kids heq
    refine ⟨fun k hk => ?_, fun k hk => ?_⟩
    · rw [h3 k hk, o1 k hk]
    · rcases h4 k hk r d kids heq with h | h
      · rw [h]; exact o2 k hk
      · rw [h]
        cases he : entry? d k with
        | some v => exact .inr rfl
        | none =>
          left
          rcases o2 k hk with o2 | o2
          · rw [o2]; rfl
          · rw [o2, he]; rfl
  · have := ho.inh h.isNode
    have hmem : ∀ b ∈ leaves [] t, ∀ k, Pdf.inh leak b.2.2 k = if k ∈ inheritable then nearest k b.2.2 else none :=
      this
    generalize leaves [] t = ls at h2 hmem
    clear this h1 h3 h4
    induction h2 with
    | nil => exact .nil
    | cons hab _ ih =>
      refine .cons ⟨hab.1, fun k => ?_⟩ (ih fun b hb => hmem b (by simp [hb]))
      rw [hab.2, hmem _ (by simp)]

end Pdf
