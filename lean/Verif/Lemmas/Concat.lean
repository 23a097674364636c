/-
`concat`: the copy of the objects.
-/
import Verif.Spec.Concat
import Verif.Props.C37_Squash
import Verif.Props.C57_Annot

namespace Pdf
open Spec Spec.PageTree

/-! ### Single operations on a document that may be edited -/

theorem get_step [Zlib] {d : Doc} {x : Option Int} (h : Editable d x) {r o : Obj} (hr : (storeOf d).get r = .ok o) :
    ∃ d', getObject d r = .ok (o, d') ∧ Editable d' x ∧ storeOf d' = storeOf d ∧ d'.cur = d.cur ∧ d'.past = d.past := by
  obtain ⟨d', h1, h2, h3, h4, -, -⟩ := run_eval (Prog.fetch r) h (eval_fetch hr)
  have h1' : (getObject d r >>= fun a => (Except.ok (a.1, a.2) : Py (Obj × Doc))) = .ok (o, d') := h1
  obtain ⟨⟨o', d''⟩, h5, h6⟩ := bind_eq_ok h1'
  cases h6
  refine ⟨_, h5, h2, h3, ?_, h4⟩
  rw [(getObject_filled h.good.coherent h5).eq]

theorem set_step [Zlib] {d : Doc} {x : Option Int} (h : Editable d x) {n : Nat} {v : Obj} (hn : n ≠ 0)
    (hv : (storeOf d).val n = .ok v) (o : Obj) :
    ∃ d' e, updateObject d n o = .ok d' ∧ Editable d' x ∧ storeOf d' = (storeOf d).set n o ∧
      d.cur[n]? = some (.one e) ∧ d'.cur = d.cur.set n (.one (newEntry e n d.past.length o)) ∧ d'.past = d.past := by
  obtain ⟨d', h1, h2, h3, h4, -, -⟩ := run_eval (Prog.update n o) h (eval_update hn hv)
  have h1' : (updateObject d n o >>= fun a => (Except.ok ((), a) : Py (Unit × Doc))) = .ok ((), d') := h1
  obtain ⟨d'', h5, h6⟩ := bind_eq_ok h1'
  cases h6
  obtain ⟨e, u1, u2, hd1⟩ := updateObject_inv h5
  obtain ⟨e', he'⟩ := view_live h hn hv
  have : e' = e := by
    rw [u1] at he'
    cases he'; rfl
  exact ⟨d', e, h5, h2, h3, u1, by rw [hd1], h4⟩

theorem add_step [Zlib] {d : Doc} {x : Option Int} (h : Editable d x) {o : Obj} (ho : o ≠ .null) :
    ∃ d' n, addObject d o = .ok (d', n) ∧ Editable d' x ∧ storeOf d' = (storeOf d).add o := by
  obtain ⟨d', h1, h2, h3, h4, -, -⟩ := run_eval (Prog.create o) h (eval_create ho)
  have h1' : (addObject d o >>= fun a => (Except.ok (a.2, a.1) : Py (Nat × Doc))) = .ok ((storeOf d).next, d') := h1
  obtain ⟨⟨d'', n⟩, h5, h6⟩ := bind_eq_ok h1'
  cases h6
  exact ⟨_, _, h5, h2, h3⟩

theorem catalog_step [Zlib] {d : Doc} {x : Option Int} (h : Editable d x) {tr cat : Dict} {root : Obj}
    (h1 : (storeOf d).val 0 = .ok (.dict tr)) (h2 : Dict.get? tr b!"/Root" = some root)
    (h3 : (storeOf d).get root = .ok (.dict cat)) :
    ∃ d', catalog d = .ok (.dict cat, root, d') ∧ Editable d' x ∧ storeOf d' = storeOf d ∧ d'.cur = d.cur ∧
      d'.past = d.past := by
  obtain ⟨d1, q1, q2, q3, q4, q5⟩ := get_step h (r := .ref 0 0) (o := .dict tr) h1
  obtain ⟨d2, k1, k2, k3, k4, k5⟩ := get_step q2 (r := root) (o := .dict cat) (by rw [q3]; exact h3)
  refine ⟨d2, ?_, k2, by rw [k3, q3], by rw [k4, q4], by rw [k5, q5]⟩
  unfold catalog trailerOf
  simp only [q1, bind, Except.bind, getKey, h2, orRaise, k1]
  rfl

/-! ### Renumbering twice -/

mutual
theorem renumber_comp (f g : Ref → Ref) : ∀ (o : Obj), renumber g (renumber f o) = renumber (fun r => g (f r)) o
  | .ref a n => rfl
  | .list l => by simp only [renumber, renumberItems_comp f g l]
  | .dict d => by simp only [renumber, renumberEntries_comp f g d]
  | .stream d _ _ => by simp only [renumber, renumberEntries_comp f g d]
  | .null => rfl
  | .bool _ => rfl
  | .int _ => rfl
  | .real _ _ _ => rfl
  | .str _ => rfl
  | .bytes _ => rfl
theorem renumberItems_comp (f g : Ref → Ref) : ∀ (l : List Obj),
    renumberItems g (renumberItems f l) = renumberItems (fun r => g (f r)) l
  | [] => rfl
  | o :: l => by simp only [renumberItems, renumber_comp f g o, renumberItems_comp f g l]
theorem renumberEntries_comp (f g : Ref → Ref) : ∀ (d : List (Bytes × Obj)),
    renumberEntries g (renumberEntries f d) = renumberEntries (fun r => g (f r)) d
  | [] => rfl
  | (k, o) :: d => by simp only [renumberEntries, renumber_comp f g o, renumberEntries_comp f g d]
end

theorem renumberEntries_idx (f : Ref → Ref) : ∀ (d : List (Bytes × Obj)) (i : Nat),
    (renumberEntries f d)[i]? = (d[i]?).map fun e => (e.1, renumber f e.2)
  | [], _ => by simp [renumberEntries]
  | (k, o) :: d, 0 => by simp [renumberEntries]
  | (k, o) :: d, i + 1 => by simp [renumberEntries, renumberEntries_idx f d i]

theorem at?_renumber (f : Ref → Ref) : ∀ (p : List Nat) (o : Obj), at? p (renumber f o) = (at? p o).map (renumber f)
  | [], o => by simp [at?]
  | i :: p, o => by
    cases o with
    | list l =>
      simp only [renumber, at?, renumberItems_get]
      rcases l[i]? with _ | x
      · rfl
      · exact at?_renumber f p x
    | dict l =>
      simp only [renumber, at?, renumberEntries_idx]
      rcases l[i]? with _ | x
      · rfl
      · exact at?_renumber f p x.2
    | stream l _ _ =>
      simp only [renumber, at?, renumberEntries_idx]
      rcases l[i]? with _ | x
      · rfl
      · exact at?_renumber f p x.2
    | _ => rfl

theorem noStream_renumber {f : Ref → Ref} {o : Obj} (h : NoStream o) : NoStream (renumber f o) := by
  intro p d s e hp
  rw [at?_renumber, Option.map_eq_some_iff] at hp
  obtain ⟨o', h1, h2⟩ := hp
  cases o' with
  | stream d' s' e' => exact h p d' s' e' h1
  | _ => cases h2

mutual
theorem occurs_renumber {f : Ref → Ref} {r : Ref} : ∀ (o : Obj), Occurs r (renumber f o) → ∃ q, Occurs q o ∧ f q = r
  | .ref a n, h => ⟨(a, n), .here, (occurs_ref h).symm⟩
  | .list l, h => by
    simp only [renumber] at h
    cases h with
    | item hm ho =>
      obtain ⟨o', q, h1, h2, h3⟩ := occurs_renumberItems l hm ho
      exact ⟨q, .item h1 h2, h3⟩
  | .dict d, h => by
    simp only [renumber] at h
    cases h with
    | entry hm ho =>
      obtain ⟨o', q, h1, h2, h3⟩ := occurs_renumberEntries d hm ho
      exact ⟨q, .entry h1 h2, h3⟩
  | .stream d s e, h => by
    simp only [renumber] at h
    cases h with
    | streamEntry hm ho =>
      obtain ⟨o', q, h1, h2, h3⟩ := occurs_renumberEntries d hm ho
      exact ⟨q, .streamEntry h1 h2, h3⟩
  | .null, h => by cases h
  | .bool _, h => by cases h
  | .int _, h => by cases h
  | .real _ _ _, h => by cases h
  | .str _, h => by cases h
  | .bytes _, h => by cases h
theorem occurs_renumberItems {f : Ref → Ref} {r : Ref} : ∀ (l : List Obj) {o : Obj}, o ∈ renumberItems f l → Occurs r o →
    ∃ o' q, o' ∈ l ∧ Occurs q o' ∧ f q = r
  | [], o, h, _ => by simp [renumberItems] at h
  | a :: l, o, h, ho => by
    simp only [renumberItems, List.mem_cons] at h
    rcases h with rfl | h
    · obtain ⟨q, h1, h2⟩ := occurs_renumber a ho
      exact ⟨a, q, by simp, h1, h2⟩
    · obtain ⟨o', q, h1, h2, h3⟩ := occurs_renumberItems l h ho
      exact ⟨o', q, by simp [h1], h2, h3⟩
theorem occurs_renumberEntries {f : Ref → Ref} {r : Ref} : ∀ (l : List (Bytes × Obj)) {k : Bytes} {o : Obj},
    (k, o) ∈ renumberEntries f l → Occurs r o → ∃ o' q, (k, o') ∈ l ∧ Occurs q o' ∧ f q = r
  | [], k, o, h, _ => by simp [renumberEntries] at h
  | (k', a) :: l, k, o, h, ho => by
    simp only [renumberEntries, List.mem_cons, Prod.mk.injEq] at h
    rcases h with ⟨rfl, rfl⟩ | h
    · obtain ⟨q, h1, h2⟩ := occurs_renumber a ho
      exact ⟨a, q, by simp, h1, h2⟩
    · obtain ⟨o', q, h1, h2, h3⟩ := occurs_renumberEntries l h ho
      exact ⟨o', q, by simp [h1], h2, h3⟩
end

/-! ### The copied page tree -/

theorem shown_ref_pos {s : Store} : ∀ {t : PageTree}, Shown s t → 0 < t.ref.2
  | .page _ _, h => h.1
  | .node _ _ _, h => h.1

theorem renumberTree_ref (f : Ref → Ref) : ∀ t : PageTree, (renumberTree f t).ref = f t.ref
  | .page _ _ => rfl
  | .node _ _ _ => rfl

theorem renumberItems_refs (f : Ref → Ref) : ∀ ts : List PageTree,
    renumberItems f (ts.map fun t => refObj t.ref) = (renumberTrees f ts).map fun t => refObj t.ref
  | [] => rfl
  | t :: ts => by
    simp only [List.map_cons, renumberItems, renumberTrees, renumberItems_refs f ts, renumberTree_ref]
    rfl

mutual
/-- A tree of a document is, renumbered, a tree of a document that holds the renumbered objects. -/
theorem shown_renumber {s s' : Store} {f : Ref → Ref} {P : Ref → Prop}
    (hget : ∀ r v, P r → s.get (refObj r) = .ok v → s'.get (refObj (f r)) = .ok (renumber f v) ∧ 0 < (f r).2 ∧
      ∀ q, Occurs q v → P q) : ∀ (t : PageTree), P t.ref → Shown s t → Shown s' (renumberTree f t)
  | .page r d, hp, ⟨_, h2, h3⟩ => by
    obtain ⟨k1, k2, -⟩ := hget r _ hp h2
    refine ⟨k2, k1, ?_⟩
    rw [renumberEntries_get, h3]
    rfl
  | .node r d kids, hp, ⟨_, h2, h3, h4, h5⟩ => by
    obtain ⟨k1, k2, k3⟩ := hget r _ hp h2
    refine ⟨k2, k1, ?_, ?_, ?_⟩
    · rw [renumberEntries_get, h3]
      rfl
    · rw [renumberEntries_get, h4, ← renumberItems_refs]
      rfl
    · refine shownAll_renumber hget kids ?_ h5
      intro t ht
      exact k3 _ (.entry (Dict.mem_of_get? h4) (.item (List.mem_map_of_mem (f := fun t => refObj t.ref) ht) .here))
theorem shownAll_renumber {s s' : Store} {f : Ref → Ref} {P : Ref → Prop}
    (hget : ∀ r v, P r → s.get (refObj r) = .ok v → s'.get (refObj (f r)) = .ok (renumber f v) ∧ 0 < (f r).2 ∧
      ∀ q, Occurs q v → P q) : ∀ (ts : List PageTree), (∀ t ∈ ts, P t.ref) → ShownAll s ts →
      ShownAll s' (renumberTrees f ts)
  | [], _, _ => trivial
  | t :: ts, hp, ⟨h1, h2⟩ =>
    ⟨shown_renumber hget t (hp t (by simp)) h1, shownAll_renumber hget ts (fun q hq => hp q (by simp [hq])) h2⟩
end

mutual
theorem leaves_renumber (f : Ref → Ref) : ∀ (t : PageTree) (anc up : List Dict),
    leaves (anc.map (renumberEntries f) ++ up) (renumberTree f t) =
      (leaves anc t).map fun b => (f b.1, renumberEntries f b.2.1, b.2.2.map (renumberEntries f) ++ up)
  | .page r d, anc, up => rfl
  | .node r d kids, anc, up => by
    simp only [renumberTree, leaves]
    exact leavesAll_renumber f kids (d :: anc) up
theorem leavesAll_renumber (f : Ref → Ref) : ∀ (ts : List PageTree) (anc up : List Dict),
    leavesAll (anc.map (renumberEntries f) ++ up) (renumberTrees f ts) =
      (leavesAll anc ts).map fun b => (f b.1, renumberEntries f b.2.1, b.2.2.map (renumberEntries f) ++ up)
  | [], _, _ => rfl
  | t :: ts, anc, up => by
    simp only [renumberTrees, leavesAll, List.map_append, leaves_renumber f t anc up, leavesAll_renumber f ts anc up]
end

/-! ### The copy -/

theorem copyMap_lookup : ∀ (refs : List Ref) (start : Nat), refs.Nodup → ∀ (j : Nat) (r : Ref), refs[j]? = some r →
    List.lookup r (copyMap start refs) = some (0, ((start + j : Nat) : Int))
  | [], _, _, j, r, h => by simp at h
  | a :: refs, start, hnd, j, r, h => by
    rw [List.nodup_cons] at hnd
    rcases j with _ | j
    · simp only [List.getElem?_cons_zero, Option.some.injEq] at h
      subst h
      simp [copyMap]
    · rw [List.getElem?_cons_succ] at h
      have hne : r ≠ a := fun heq => hnd.1 (heq ▸ List.mem_of_getElem? h)
      rw [copyMap, lookup_cons_ne hne, copyMap_lookup refs (start + 1) hnd.2 j r h]
      congr 3
      omega

theorem copyLoop_spec [Zlib] (m : RefMap) {x y : Option Int} : ∀ (refs : List Ref) (source target : Doc),
    Editable source y → Editable target x →
    (∀ r ∈ refs, ∃ v, (storeOf source).get (refObj r) = .ok v ∧ v ≠ .null) →
    ∃ target', copyLoop m refs source target = .ok target' ∧ Editable target' x ∧
      (storeOf target').next = (storeOf target).next + refs.length ∧
      (∀ n, n < (storeOf target).next → (storeOf target').val n = (storeOf target).val n) ∧
      ∀ j r v, refs[j]? = some r → (storeOf source).get (refObj r) = .ok v →
        (storeOf target').val ((storeOf target).next + j) = .ok (deepRefRetarget m v)
  | [], source, target, _, ht, _ => ⟨target, rfl, ht, rfl, fun _ _ => rfl, fun j r v h => by simp at h⟩
  | r :: refs, source, target, hs, ht, h => by
    obtain ⟨v, hv, hnull⟩ := h r (by simp)
    obtain ⟨source', q1, q2, q3, -⟩ := get_step hs hv
    obtain ⟨target1, n1, k1, k2, k3⟩ := add_step ht (retarget_ne_null (m := m) hnull)
    obtain ⟨target', p1, p2, p3, p4, p5⟩ := copyLoop_spec m refs source' target1 q2 k2 (by
      rw [q3]
      exact fun r hr => h r (by simp [hr]))
    have hnext : (storeOf target1).next = (storeOf target).next + 1 := by rw [k3]; rfl
    refine ⟨target', ?_, p2, ?_, ?_, ?_⟩
    · unfold copyLoop
      rw [show Obj.ref r.1 r.2 = refObj r from rfl, q1]
      simp only [bind, Except.bind, k1]
      exact p1
    · rw [p3, hnext, List.length_cons]
      omega
    · intro n hn
      rw [p4 n (by omega), k3, add_val_ne (by omega)]
    · intro j r' v' hj hr'
      rcases j with _ | j
      · simp only [List.getElem?_cons_zero, Option.some.injEq] at hj
        subst hj
        rw [hv] at hr'
        cases hr'
        rw [Nat.add_zero, p4 _ (by omega), k3, add_val_eq]
      · rw [List.getElem?_cons_succ] at hj
        have := p5 j r' v' hj (by rw [q3]; exact hr')
        rw [hnext] at this
        rw [← this]
        congr 1
        omega

/-! ### The source -/

/-- The reference to an object in use. -/
def refTo (d : Doc) (n : Nat) : Ref := ((genOf d n : Int), (n : Int))

theorem copyable_catalog [Zlib] {d : Doc} {x : Option Int} {L : List Nat} {f : Ref → Ref} {nr : Nat} {t : PageTree}
    {c : Int} (h : Copyable d x L f nr t c) :
    ∃ tr cat, nr ∈ L ∧ (storeOf d).val 0 = .ok (.dict tr) ∧ Dict.get? tr b!"/Root" = some (refObj (refTo d nr)) ∧
      (storeOf d).val nr = .ok (.dict cat) ∧ Dict.get? cat b!"/Pages" = some (refObj t.ref) := by
  obtain ⟨tr, h1, h2⟩ := h.root
  obtain ⟨tr', n, cat, k1, k2, k3, k4, -⟩ := h.squashable.root
  obtain ⟨tr'', root, cat', j1, j2, j3, j4⟩ := h.pages.named
  rw [h1] at k1 j1
  cases k1; cases j1
  rw [h2] at k3 j2
  cases j2
  have hn : n = nr := by
    simp only [Option.some.injEq, Obj.ref.injEq] at k3
    omega
  subst hn
  rw [show (storeOf d).get (.ref (genOf d n : Int) (n : Int)) = (storeOf d).val n from by
    simp only [Store.get]
    rw [if_neg (by omega), Int.toNat_natCast], k4] at j3
  cases j3
  exact ⟨_, _, k2, h1, h2, k4, j4⟩

theorem copyable_ref [Zlib] {d : Doc} {x : Option Int} {L : List Nat} {f : Ref → Ref} {nr : Nat} {t : PageTree}
    {c : Int} (h : Copyable d x L f nr t c) {n : Nat} (hn : n ∈ L) {v : Obj} (hv : (storeOf d).val n = .ok v) {r : Ref}
    (hr : Occurs r v) : ∃ m, m ∈ L ∧ m ≠ nr ∧ r = refTo d m := by
  obtain ⟨v', k1, -, k2, -⟩ := h.squashable.vals n hn
  rw [hv] at k1
  cases k1
  obtain ⟨m, h1, h2⟩ := k2 r hr
  refine ⟨m, h1, ?_, h2⟩
  rintro rfl
  exact h.noCatalog n hn v hv (h2 ▸ hr)

theorem copyable_root [Zlib] {d : Doc} {x : Option Int} {L : List Nat} {f : Ref → Ref} {nr : Nat} {t : PageTree}
    {c : Int} (h : Copyable d x L f nr t c) : ∃ m, m ∈ L ∧ m ≠ nr ∧ t.ref = refTo d m := by
  obtain ⟨tr, cat, h1, h2, h3, h4, h5⟩ := copyable_catalog h
  exact copyable_ref h h1 h4 (.entry (Dict.mem_of_get? h5) .here)

theorem ranks_ref {d : Doc} {L : List Nat} {f : Ref → Ref} (h : Ranks d L f) {n : Nat} (hn : n ∈ L) :
    ∃ k, L[k]? = some n ∧ f (refTo d n) = (0, ((k + 1 : Nat) : Int)) := by
  obtain ⟨k, hk⟩ := List.mem_iff_getElem?.1 hn
  exact ⟨k, hk, h.rank k n hk⟩

theorem ranks_pairwise {d : Doc} {L : List Nat} {f : Ref → Ref} (h : Ranks d L f) :
    (L.map fun n => f (refTo d n)).Pairwise (fun a b => a.2 < b.2) := by
  rw [List.pairwise_iff_getElem]
  intro i j hi hj hij
  rw [List.length_map] at hi hj
  rw [List.getElem_map, List.getElem_map]
  have h1 := h.rank i L[i] (List.getElem?_eq_getElem hi)
  have h2 := h.rank j L[j] (List.getElem?_eq_getElem hj)
  show (f (refTo d L[i])).2 < (f (refTo d L[j])).2
  unfold refTo
  rw [h1, h2]
  show ((i + 1 : Nat) : Int) < ((j + 1 : Nat) : Int)
  omega

theorem sorted_refs : ∀ {l l' : List Ref}, l.Pairwise (fun a b => a.2 < b.2) → l'.Pairwise (fun a b => a.2 < b.2) →
    (∀ n, n ∈ l ↔ n ∈ l') → l = l'
  | [], [], _, _, _ => rfl
  | [], b :: l', _, _, h => absurd ((h b).2 (by simp)) (by simp)
  | a :: l, [], _, _, h => absurd ((h a).1 (by simp)) (by simp)
  | a :: l, b :: l', h1, h2, h => by
    rw [List.pairwise_cons] at h1 h2
    have hab : a = b := by
      rcases List.mem_cons.1 ((h a).1 (by simp)) with k | k
      · exact k
      · rcases List.mem_cons.1 ((h b).2 (by simp)) with k' | k'
        · exact k'.symm
        · have := h1.1 b k'
          have := h2.1 a k
          omega
    subst hab
    congr 1
    refine sorted_refs h1.2 h2.2 fun n => ?_
    have hn := h n
    simp only [List.mem_cons] at hn
    constructor
    · intro hm
      rcases hn.1 (.inr hm) with rfl | k
      · exact absurd (h1.1 n hm) (by omega)
      · exact k
    · intro hm
      rcases hn.2 (.inr hm) with rfl | k
      · exact absurd (h2.1 n hm) (by omega)
      · exact k

theorem prepareSource_spec [Zlib] {d : Doc} {x : Option Int} {L : List Nat} {f : Ref → Ref} {nr : Nat} {t : PageTree}
    {c : Int} (hd : Editable d x) (h : Copyable d x L f nr t c) :
    ∃ src, prepareSource d = .ok (src, f t.ref, .int c) ∧ Editable src none ∧
      inUse src = (L.filter (· ≠ nr)).map (fun n => f (refTo d n)) ∧
      ∀ n ∈ L, n ≠ nr → ∀ v, (storeOf d).val n = .ok v →
        (storeOf src).get (refObj (f (refTo d n))) = .ok (renumber f v) := by
  obtain ⟨new, d', tr, root, s1, s2, s3, s4, s5⟩ := squash_spec hd h.ranks h.squashable
  obtain ⟨tr', cat, c1, c2, c3, c4, c5⟩ := copyable_catalog h
  rw [s3] at c2
  cases c2
  rw [s4] at c3
  cases c3
  have hx : (if x = some 0 then none else x) = none := by
    rcases h.noXref with rfl | rfl <;> rfl
  rw [hx] at s2
  have hval : ∀ n ∈ L, ∀ v, (storeOf d).val n = .ok v → ∃ k : Nat, L[k]? = some n ∧ f (refTo d n) = (0, ((k + 1 : Nat) : Int)) ∧
      (storeOf new).val (k + 1) = .ok (renumber f v) ∧
      (storeOf new).get (refObj (f (refTo d n))) = .ok (renumber f v) := by
    intro n hn v hv
    obtain ⟨k, hk, hf⟩ := ranks_ref h.ranks hn
    have hob := s5.objects k n hk
    rw [hv] at hob
    refine ⟨k, hk, hf, hob, ?_⟩
    rw [hf, get_refObj (by show (0 : Int) < ((k + 1 : Nat) : Int); omega)]
    exact hob
  obtain ⟨kr, r1, r2, r3, r4⟩ := hval nr c1 _ c4
  obtain ⟨nt, t1, t2, t3⟩ := copyable_root h
  obtain ⟨rt, dt, kids, ht, -, hcount⟩ := h.count
  have hshown := h.pages.shown
  rw [ht] at hshown
  obtain ⟨p1, p2, -⟩ := hshown
  have hrt : rt = refTo d nt := by rw [← t3, ht]; rfl
  rw [get_refObj p1, hrt] at p2
  obtain ⟨kt, k1, k2, k3, k4⟩ := hval nt t1 _ p2
  -- reading
  obtain ⟨d1, g1, g2, g3, g4, -⟩ := catalog_step s2 (root := refObj (f (refTo d nr))) s5.trailer
    (by simp [Dict.get?, renumber, refObj]) r4
  obtain ⟨d2, q1, q2, q3, q4, -⟩ := get_step g2 (r := refObj (f (refTo d nt))) (o := .dict (renumberEntries f dt))
    (by rw [g3]; exact k4)
  obtain ⟨d3, w1, w2, w3, w4, -⟩ := get_step q2 (r := .int c) (o := .int c) rfl
  obtain ⟨d4, e, u1, u2, u3, u4, u5, -⟩ := set_step w2 (n := kr + 1) (by omega) (by rw [w3, q3, g3]; exact r3) .null
  have hcur : d3.cur = new.cur := by rw [w4, q4, g4]
  have hstore : storeOf d4 = (storeOf new).set (kr + 1) .null := by rw [u3, w3, q3, g3]
  rw [hcur] at u4 u5
  have hsame : ∀ n, n ≠ kr + 1 → d4.cur[n]? = new.cur[n]? := by
    intro n hn
    rw [u5]
    exact List.getElem?_set_ne (by omega)
  have hx0 : (d4.cur[0]?).bind Slot.xrefStreamNum? = none := by
    have := s5.xnum h.squashable.first
    rw [hx] at this
    unfold firstXrefStreamNum Doc.firstRev at this
    rw [s5.past] at this
    obtain ⟨slot, y1, y2⟩ := bind_eq_ok this
    have y1 := slotAt_ok y1
    rw [hsame 0 (by omega)]
    have y1 : new.cur[0]? = some slot := y1
    rw [y1]
    cases slot with
    | one e =>
      simp only [pure, Except.pure, Except.ok.injEq] at y2
      exact y2
    | _ => rfl
  refine ⟨d4, ?_, u2, ?_, ?_⟩
  · unfold prepareSource
    rw [s1]
    simp only [bind, Except.bind, orRaise, g1]
    have e1 : getKey (.dict (renumberEntries f cat)) b!"/Pages" = .ok (refObj (f (refTo d nt))) := by
      simp only [getKey, renumberEntries_get, c5, Option.map, orRaise, t3]
      rfl
    have e2 : getKey (.dict (renumberEntries f dt)) b!"/Count" = .ok (.int c) := by
      simp only [getKey, renumberEntries_get, hcount, Option.map, orRaise]
      rfl
    have e3 : refNum (refObj (f (refTo d nr))) = .ok (kr + 1) := by
      rw [r2]
      simp only [refNum, refObj]
      rw [if_neg (by omega), Int.toNat_natCast]
    have e4 : dropXrefStream d4 = .ok d4 := by
      unfold dropXrefStream
      rw [hx0]
    rw [e1]
    simp only [q1, e2, w1, e3, u1, e4]
    rw [t3]
    rfl
  · refine sorted_refs (C58_in_use d4).2 ((ranks_pairwise h.ranks).sublist (List.filter_sublist.map _)) fun r => ?_
    rw [(C58_in_use d4).1 r]
    have hlen : d4.cur.length = L.length + 1 := by rw [u5, List.length_set, s5.length]
    constructor
    · rintro ⟨n, n1, ⟨e', n2, n3⟩, n4⟩
      have hlt := lt_of_getElem? n2
      have hne : n ≠ kr + 1 := by
        rintro rfl
        have hk : d4.cur[kr + 1]? = some (.one (newEntry e (kr + 1) d3.past.length .null)) := by
          rw [u5]
          exact List.getElem?_set_self (lt_of_getElem? u4)
        rw [hk] at n2
        cases n2
        simp [newEntry] at n3
      obtain ⟨m, rfl⟩ : ∃ m, n = m + 1 := ⟨n - 1, by omega⟩
      have hm : m < L.length := by omega
      have hg : genOf d4 (m + 1) = 0 := by
        have := (s5.cells (m + 1) (by rw [s5.length]; omega)).2
        unfold genOf at this ⊢
        rw [hsame _ (by omega)]
        exact this
      rw [List.mem_map]
      refine ⟨L[m], ?_, ?_⟩
      · rw [List.mem_filter]
        refine ⟨List.getElem_mem hm, ?_⟩
        have hL : L[m] ≠ nr := by
          intro heq
          have h1 := h.ranks.rank m L[m] (List.getElem?_eq_getElem hm)
          rw [heq, show ((genOf d nr : Int), (nr : Int)) = refTo d nr from rfl, r2] at h1
          have := (Prod.mk.inj h1).2
          omega
        simp [hL]
      · have h1 := h.ranks.rank m L[m] (List.getElem?_eq_getElem hm)
        unfold refTo
        rw [h1, n4, hg]
        rfl
    · intro hr
      rw [List.mem_map] at hr
      obtain ⟨n, n1, n2⟩ := hr
      rw [List.mem_filter] at n1
      have hne : n ≠ nr := by simpa using n1.2
      obtain ⟨k, j1, j2⟩ := ranks_ref h.ranks n1.1
      have hkk : k ≠ kr := by
        rintro rfl
        rw [r1] at j1
        exact hne (by cases j1; rfl)
      have hk := lt_of_getElem? j1
      obtain ⟨⟨e', e1, e2⟩, e3⟩ := s5.cells (k + 1) (by rw [s5.length]; omega)
      refine ⟨k + 1, by omega, ⟨e', ?_, e2⟩, ?_⟩
      · rw [hsame _ (by omega)]
        exact e1
      · have hg : genOf d4 (k + 1) = 0 := by
          unfold genOf at e3 ⊢
          rw [hsame _ (by omega)]
          exact e3
        rw [← n2, j2, hg]
        rfl
  · intro n hn hne v hv
    obtain ⟨k, j1, j2, j3, j4⟩ := hval n hn v hv
    have hkk : k ≠ kr := by
      rintro rfl
      rw [r1] at j1
      exact hne (by cases j1; rfl)
    rw [hstore, j2, get_refObj (by show (0 : Int) < ((k + 1 : Nat) : Int); omega)]
    show ((storeOf new).set (kr + 1) .null).val (((k + 1 : Nat) : Int)).toNat = _
    rw [Int.toNat_natCast, set_val_ne (by omega)]
    exact j3

end Pdf
