/-
Taking a page out of the tree.
-/
import Verif.Spec.Removal
import Verif.Lemmas.PageMap

namespace Pdf
open Spec Spec.PageTree

/-! ### Pages with their ancestors -/

mutual
/-- The pages, each with the references and dictionaries of its ancestors, the nearest first. -/
def chains : List (Ref × Dict) → PageTree → List (Ref × Dict × List (Ref × Dict))
  | c, .page r d => [(r, d, c)]
  | c, .node r d kids => chainsAll ((r, d) :: c) kids
def chainsAll : List (Ref × Dict) → List PageTree → List (Ref × Dict × List (Ref × Dict))
  | _, [] => []
  | c, t :: ts => chains c t ++ chainsAll c ts
end

mutual
theorem leaves_chains : ∀ (t : PageTree) (c : List (Ref × Dict)),
    leaves (c.map Prod.snd) t = (chains c t).map fun b => (b.1, b.2.1, b.2.2.map Prod.snd)
  | .page _ _, _ => rfl
  | .node r d kids, c => leavesAll_chains kids ((r, d) :: c)
theorem leavesAll_chains : ∀ (ts : List PageTree) (c : List (Ref × Dict)),
    leavesAll (c.map Prod.snd) ts = (chainsAll c ts).map fun b => (b.1, b.2.1, b.2.2.map Prod.snd)
  | [], _ => rfl
  | t :: ts, c => by
    simp only [leavesAll, chainsAll, List.map_append]
    rw [leaves_chains t c, leavesAll_chains ts c]
end

mutual
theorem leaves_refs : ∀ (t : PageTree) (a b : List Dict), (leaves a t).map Prod.fst = (leaves b t).map Prod.fst
  | .page _ _, _, _ => rfl
  | .node _ d kids, a, b => leavesAll_refs kids (d :: a) (d :: b)
theorem leavesAll_refs : ∀ (ts : List PageTree) (a b : List Dict),
    (leavesAll a ts).map Prod.fst = (leavesAll b ts).map Prod.fst
  | [], _, _ => rfl
  | t :: ts, a, b => by
    simp only [leavesAll, List.map_append]
    rw [leaves_refs t a b, leavesAll_refs ts a b]
end

theorem chains_refs (t : PageTree) (c : List (Ref × Dict)) (a : List Dict) :
    (chains c t).map Prod.fst = (leaves a t).map Prod.fst := by
  rw [leaves_refs t a (c.map Prod.snd), leaves_chains t c, List.map_map]
  rfl

theorem chainsAll_refs (ts : List PageTree) (c : List (Ref × Dict)) (a : List Dict) :
    (chainsAll c ts).map Prod.fst = (leavesAll a ts).map Prod.fst := by
  rw [leavesAll_refs ts a (c.map Prod.snd), leavesAll_chains ts c, List.map_map]
  rfl

/-- The nodes are in the document, with a count, each the parent of the one before. -/
def Chain (s : Store) : List (Ref × Dict) → Prop
  | [] => True
  | (q, d) :: rest => 0 < q.2 ∧ s.get (refObj q) = .ok (.dict d) ∧
      Dict.get? d b!"/Type" = some (.str b!"/Pages") ∧
      (∃ c, Dict.get? d b!"/Count" = some (.int c)) ∧
      Dict.get? d b!"/Parent" = rest.head?.map (fun p => refObj p.1) ∧ Chain s rest

mutual
theorem chains_spec {s : Store} : ∀ (t : PageTree) (c : List (Ref × Dict)), Shown s t →
    Linked (c.head?.map Prod.fst) t → Chain s c → ∀ b ∈ chains c t, Chain s b.2.2 ∧
      Dict.get? b.2.1 b!"/Parent" = b.2.2.head?.map (fun p => refObj p.1) ∧ ∃ l, b.2.2 = l ++ c
  | .page r d, c, hs, hl, hc, b, hb => by
    simp only [chains, List.mem_singleton] at hb
    subst hb
    refine ⟨hc, ?_, [], rfl⟩
    have : Dict.get? d b!"/Parent" = (c.head?.map Prod.fst).map refObj := hl
    rw [this, Option.map_map]; rfl
  | .node r d kids, c, hs, hl, hc, b, hb => by
    obtain ⟨h1, h2, h3, -, h5⟩ := hs
    obtain ⟨l1, l2, l3⟩ := hl
    obtain ⟨k1, k2, l, k3⟩ := chainsAll_spec kids ((r, d) :: c) h5 l3
      ⟨h1, h2, h3, l2, by rw [l1, Option.map_map]; rfl, hc⟩ b hb
    exact ⟨k1, k2, l ++ [(r, d)], by rw [k3]; simp⟩
theorem chainsAll_spec {s : Store} : ∀ (ts : List PageTree) (c : List (Ref × Dict)), ShownAll s ts →
    LinkedAll (c.head?.map Prod.fst) ts → Chain s c → ∀ b ∈ chainsAll c ts, Chain s b.2.2 ∧
      Dict.get? b.2.1 b!"/Parent" = b.2.2.head?.map (fun p => refObj p.1) ∧ ∃ l, b.2.2 = l ++ c
  | [], _, _, _, _, b, hb => by cases hb
  | t :: ts, c, hs, hl, hc, b, hb => by
    simp only [chainsAll, List.mem_append] at hb
    rcases hb with hb | hb
    · exact chains_spec t c hs.1 hl.1 hc b hb
    · exact chainsAll_spec ts c hs.2 hl.2 hc b hb
end

mutual
theorem chains_suffix : ∀ (t : PageTree) (c : List (Ref × Dict)), ∀ b ∈ chains c t, ∃ l, b.2.2 = l ++ c
  | .page r d, c, b, hb => by
    simp only [chains, List.mem_singleton] at hb
    subst hb
    exact ⟨[], rfl⟩
  | .node r d kids, c, b, hb => by
    obtain ⟨l, hl⟩ := chainsAll_suffix kids ((r, d) :: c) b hb
    exact ⟨l ++ [(r, d)], by rw [hl]; simp⟩
theorem chainsAll_suffix : ∀ (ts : List PageTree) (c : List (Ref × Dict)), ∀ b ∈ chainsAll c ts,
    ∃ l, b.2.2 = l ++ c
  | [], _, b, hb => by cases hb
  | t :: ts, c, b, hb => by
    simp only [chainsAll, List.mem_append] at hb
    rcases hb with hb | hb
    · exact chains_suffix t c b hb
    · exact chainsAll_suffix ts c b hb
end

def num (p : Ref × Dict) : Nat := p.1.2.toNat

mutual
theorem chains_nums : ∀ (t : PageTree) (c : List (Ref × Dict)), (nums t ++ c.map num).Nodup →
    ∀ b ∈ chains c t, (b.2.2.map num).Nodup ∧ b.2.2.length + 1 ≤ c.length + depth t ∧ b.1.2.toNat ∈ nums t ∧
      ∀ n ∈ b.2.2.map num, n ∈ nums t ∨ n ∈ c.map num
  | .page r d, c, hn, b, hb => by
    simp only [chains, List.mem_singleton] at hb
    subst hb
    exact ⟨(List.nodup_append.1 hn).2.1, by simp [depth], by simp [nums], fun n hn => .inr hn⟩
  | .node r d kids, c, hn, b, hb => by
    have hn' : (numsAll kids ++ ((r, d) :: c).map num).Nodup := by
      simp only [nums, List.cons_append, List.map_cons] at hn ⊢
      exact (List.perm_middle.nodup_iff).2 hn
    obtain ⟨k1, k2, k3, k4⟩ := chainsAll_nums kids ((r, d) :: c) hn' b hb
    refine ⟨k1, ?_, ?_, ?_⟩
    · simp only [depth, List.length_cons] at k2 ⊢; omega
    · simp only [nums, List.mem_cons]; exact .inr k3
    · intro n hn
      simp only [nums, List.mem_cons]
      rcases k4 n hn with h | h
      · exact .inl (.inr h)
      · rw [List.map_cons, List.mem_cons] at h
        rcases h with h | h
        · exact .inl (.inl h)
        · exact .inr h
theorem chainsAll_nums : ∀ (ts : List PageTree) (c : List (Ref × Dict)), (numsAll ts ++ c.map num).Nodup →
    ∀ b ∈ chainsAll c ts, (b.2.2.map num).Nodup ∧ b.2.2.length + 1 ≤ c.length + depths ts ∧
      b.1.2.toNat ∈ numsAll ts ∧ ∀ n ∈ b.2.2.map num, n ∈ numsAll ts ∨ n ∈ c.map num
  | [], _, _, b, hb => by cases hb
  | t :: ts, c, hn, b, hb => by
    simp only [chainsAll, List.mem_append] at hb
    simp only [numsAll, List.append_assoc] at hn
    have hts := (List.nodup_append.1 hn).2.1
    have ht : (nums t ++ c.map num).Nodup :=
      List.Nodup.sublist (List.Sublist.append_left (List.sublist_append_right _ _) _) hn
    simp only [numsAll, depths, List.mem_append]
    rcases hb with hb | hb
    · obtain ⟨k1, k2, k3, k4⟩ := chains_nums t c ht b hb
      exact ⟨k1, by omega, .inl k3, fun n hn => (k4 n hn).imp .inl id⟩
    · obtain ⟨k1, k2, k3, k4⟩ := chainsAll_nums ts c hts b hb
      exact ⟨k1, by omega, .inr k3, fun n hn => (k4 n hn).imp .inr id⟩
end

mutual
/-- The numbers of the nodes and pages. -/
theorem mem_nums : ∀ (t : PageTree) (a : List Dict) (n : Nat), n ∈ nums t ↔
    (∃ x ∈ nodes t, x.1.2.toNat = n) ∨ ∃ b ∈ leaves a t, b.1.2.toNat = n
  | .page r d, a, n => by
    simp only [nums, nodes, leaves, List.mem_singleton, List.not_mem_nil, false_and, exists_false, false_or]
    constructor
    · rintro rfl; exact ⟨_, rfl, rfl⟩
    · rintro ⟨b, rfl, rfl⟩; rfl
  | .node r d kids, a, n => by
    simp only [nums, nodes, leaves, List.mem_cons]
    rw [mem_numsAll kids (d :: a) n]
    constructor
    · rintro (rfl | ⟨x, hx, rfl⟩ | h)
      · exact .inl ⟨_, .inl rfl, rfl⟩
      · exact .inl ⟨x, .inr hx, rfl⟩
      · exact .inr h
    · rintro (⟨x, rfl | hx, rfl⟩ | h)
      · exact .inl rfl
      · exact .inr (.inl ⟨x, hx, rfl⟩)
      · exact .inr (.inr h)
theorem mem_numsAll : ∀ (ts : List PageTree) (a : List Dict) (n : Nat), n ∈ numsAll ts ↔
    (∃ x ∈ nodesAll ts, x.1.2.toNat = n) ∨ ∃ b ∈ leavesAll a ts, b.1.2.toNat = n
  | [], a, n => by simp [numsAll, nodesAll, leavesAll]
  | t :: ts, a, n => by
    simp only [numsAll, nodesAll, leavesAll, List.mem_append]
    rw [mem_nums t a n, mem_numsAll ts a n]
    constructor
    · rintro ((⟨x, hx, rfl⟩ | ⟨x, hx, rfl⟩) | (⟨x, hx, rfl⟩ | ⟨x, hx, rfl⟩))
      · exact .inl ⟨x, .inl hx, rfl⟩
      · exact .inr ⟨x, .inl hx, rfl⟩
      · exact .inl ⟨x, .inr hx, rfl⟩
      · exact .inr ⟨x, .inr hx, rfl⟩
    · rintro (⟨x, hx | hx, rfl⟩ | ⟨x, hx | hx, rfl⟩)
      · exact .inl (.inl ⟨x, hx, rfl⟩)
      · exact .inr (.inl ⟨x, hx, rfl⟩)
      · exact .inl (.inr ⟨x, hx, rfl⟩)
      · exact .inr (.inr ⟨x, hx, rfl⟩)
end

/-! ### Evaluation -/

/-- The dictionary with its count decremented. -/
def dec (d : Dict) : Dict := Dict.set d b!"/Count" (.int (countOf d - 1))

theorem decCount_eq {d : Dict} (h : ∃ c, Dict.get? d b!"/Count" = some (.int c)) :
    decCount (.dict d) = .ok (.dict (dec d)) := by
  obtain ⟨c, hc⟩ := h
  simp only [decCount, getKey, hc, orRaise, bind, Except.bind, minusOne, setEntry, dec, countOf]

theorem get?_dec {d : Dict} {k : Bytes} (hk : k ≠ b!"/Count") : Dict.get? (dec d) k = Dict.get? d k := by
  unfold dec; rw [Dict.get?_set, if_neg (by simpa using hk)]

theorem chain_set {s : Store} {n : Nat} {o : Obj} : ∀ {c : List (Ref × Dict)}, n ∉ c.map num → Chain s c →
    Chain (s.set n o) c
  | [], _, _ => trivial
  | (q, d) :: c, hn, ⟨h1, h2, h3, h4, h5, h6⟩ => by
    rw [List.map_cons, List.mem_cons, not_or] at hn
    refine ⟨h1, ?_, h3, h4, h5, chain_set hn.2 h6⟩
    rw [get_refObj h1] at h2 ⊢
    exact (set_val_ne (n := q.2.toNat) (Ne.symm hn.1)).trans h2

theorem climb_spec : ∀ (rest : List (Ref × Dict)) (s : Store) (fuel : Nat) (e : Dict), Chain s rest →
    (rest.map num).Nodup → Dict.get? e b!"/Parent" = rest.head?.map (fun p => refObj p.1) → rest.length < fuel →
    ∃ s', eval (climb fuel (.dict e)) s = .ok ((), s') ∧ s'.next = s.next ∧
      (∀ p ∈ rest, s'.val (num p) = .ok (.dict (dec p.2))) ∧ ∀ n, n ∉ rest.map num → s'.val n = s.val n := by
  intro rest
  induction rest with
  | nil =>
    intro s fuel e _ _ he hf
    obtain ⟨fuel, rfl⟩ : ∃ f, fuel = f + 1 := ⟨fuel - 1, by omega⟩
    refine ⟨s, ?_, rfl, by simp, fun _ _ => rfl⟩
    unfold climb
    simp only [parentOf, he]
    rfl
  | cons p rest ih =>
    intro s fuel e hc hnd he hf
    obtain ⟨q, d⟩ := p
    obtain ⟨fuel, rfl⟩ : ∃ f, fuel = f + 1 := ⟨fuel - 1, by omega⟩
    obtain ⟨h1, h2, h3, h4, h5, h6⟩ := hc
    rw [List.map_cons, List.nodup_cons] at hnd
    have hval : s.val q.2.toNat = .ok (.dict d) := by rw [← get_refObj h1]; exact h2
    obtain ⟨s', e1, e2, e3, e4⟩ := ih (s.set q.2.toNat (.dict (dec d))) fuel (dec d)
      (chain_set hnd.1 h6) hnd.2 (by rw [get?_dec (by decide)]; exact h5) (by simp at hf; omega)
    refine ⟨s', ?_, e2, ?_, ?_⟩
    · unfold climb
      simp only [parentOf, he, List.head?_cons, Option.map_some]
      rw [eval_bind_ok (eval_lift_ok _ _)]
      show eval (Prog.fetch (refObj q) >>= _) s = _
      rw [eval_bind_ok (eval_fetch h2), decCount_eq h4, eval_bind_ok (eval_lift_ok _ _)]
      simp only [numOf, refObj]
      rw [if_neg (by omega), eval_bind_ok (eval_lift_ok _ _), eval_bind_ok (eval_update (by omega) hval)]
      exact e1
    · intro p hp
      rcases List.mem_cons.1 hp with rfl | hp
      · rw [e4 _ hnd.1]
        exact set_val_eq _ _ _
      · exact e3 p hp
    · intro n hn
      rw [List.map_cons, List.mem_cons, not_or] at hn
      rw [e4 n hn.2]
      exact set_val_ne (m := q.2.toNat) hn.1

/-- The parent without the kid. -/
def without (d : Dict) (kids : List Obj) (r : Ref) : Dict :=
  dec (Dict.set d b!"/Kids" (.list (kids.erase (refObj r))))

theorem detach_eval {s : Store} {r : Ref} {pd : Dict} {q1 : Ref} {d1 : Dict} {rest : List (Ref × Dict)} {fuel : Nat}
    {kids : List Obj} (hpage : s.get (refObj r) = .ok (.dict pd))
    (hpar : Dict.get? pd b!"/Parent" = some (refObj q1)) (hc : Chain s ((q1, d1) :: rest))
    (hnd : (((q1, d1) :: rest).map num).Nodup) (hk : Dict.get? d1 b!"/Kids" = some (.list kids))
    (hmem : refObj r ∈ kids) (hf : rest.length < fuel) :
    ∃ s', eval (detachPage fuel r) s = .ok ((), s') ∧ s'.next = s.next ∧
      s'.val q1.2.toNat = .ok (.dict (without d1 kids r)) ∧
      (∀ p ∈ rest, s'.val (num p) = .ok (.dict (dec p.2))) ∧
      ∀ n, n ∉ ((q1, d1) :: rest).map num → s'.val n = s.val n := by
  obtain ⟨h1, h2, h3, h4, h5, h6⟩ := hc
  rw [List.map_cons, List.nodup_cons] at hnd
  have hval : s.val q1.2.toNat = .ok (.dict d1) := by rw [← get_refObj h1]; exact h2
  have hpw : Dict.get? (without d1 kids r) b!"/Parent" = Dict.get? d1 b!"/Parent" := by
    unfold without
    rw [get?_dec (by decide), Dict.get?_set, if_neg (by decide)]
  obtain ⟨s', e1, e2, e3, e4⟩ := climb_spec rest (s.set q1.2.toNat (.dict (without d1 kids r))) fuel
    (without d1 kids r) (chain_set hnd.1 h6) hnd.2 (by rw [hpw]; exact h5) hf
  refine ⟨s', ?_, e2, ?_, e3, ?_⟩
  · unfold detachPage
    show eval (Prog.fetch (refObj r) >>= _) s = _
    rw [eval_bind_ok (eval_fetch hpage)]
    simp only [getKey, hpar, orRaise]
    rw [eval_bind_ok (eval_lift_ok _ _), eval_bind_ok (eval_fetch h2)]
    simp only [hk]
    rw [eval_bind_ok (eval_lift_ok _ _)]
    simp only [removeKid]
    have hmem' : Obj.ref r.1 r.2 ∈ kids := hmem
    rw [if_pos hmem', eval_bind_ok (eval_lift_ok _ _)]
    simp only [setEntry]
    rw [eval_bind_ok (eval_lift_ok _ _), decCount_eq (by
      rw [Dict.get?_set, if_neg (by decide)]; exact h4), eval_bind_ok (eval_lift_ok _ _)]
    simp only [numOf, refObj]
    rw [if_neg (by omega), eval_bind_ok (eval_lift_ok _ _), eval_bind_ok (eval_update (by omega) hval)]
    exact e1
  · exact (e4 q1.2.toNat hnd.1).trans (set_val_eq _ _ _)
  · intro n hn
    rw [List.map_cons, List.mem_cons, not_or] at hn
    rw [e4 n hn.2]
    exact set_val_ne (m := q1.2.toNat) hn.1

end Pdf
