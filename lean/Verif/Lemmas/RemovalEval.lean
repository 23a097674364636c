/-
The effect of `remove_pages`.
-/
import Verif.Lemmas.Removal
import Verif.Lemmas.Deps
import Verif.Lemmas.Refs

namespace Pdf
open Spec Spec.PageTree

theorem mem_refAdd' {l : List Ref} {x r : Ref} : r ∈ refAdd l x ↔ r ∈ l ∨ r = x := by
  unfold refAdd
  split
  · rename_i h
    exact ⟨.inl, fun h' => h'.elim id (fun he => he ▸ h)⟩
  · simp

theorem refSet_aux : ∀ (l a : List Ref), a.Nodup → (l.foldl refAdd a).Nodup ∧
    ∀ r, r ∈ l.foldl refAdd a ↔ r ∈ a ∨ r ∈ l
  | [], a, h => ⟨h, by simp⟩
  | x :: l, a, h => by
    obtain ⟨h1, h2⟩ := refSet_aux l (refAdd a x) (refAdd_nodup h x)
    refine ⟨h1, fun r => ?_⟩
    rw [List.foldl_cons, h2, mem_refAdd', List.mem_cons, or_assoc]

theorem refSet_nodup (l : List Ref) : (refSet l).Nodup := (refSet_aux l [] List.nodup_nil).1
theorem mem_refSet {l : List Ref} {r : Ref} : r ∈ refSet l ↔ r ∈ l := by
  have := (refSet_aux l [] List.nodup_nil).2 r
  unfold refSet
  simpa using this

theorem mapM_pointwise {α β : Type} {f : α → Py β} : ∀ {l : List α} {m : List β},
    Pointwise (fun a b => f a = .ok b) l m → l.mapM f = .ok m
  | [], _, .nil => rfl
  | a :: l, _, .cons h1 h2 => by
    rw [List.mapM_cons, h1, mapM_pointwise h2]; rfl

theorem Pointwise.choose {α β : Type} {P : α → β → Prop} : ∀ {l : List α}, (∀ a ∈ l, ∃ b, P a b) →
    ∃ m, Pointwise P l m
  | [], _ => ⟨[], .nil⟩
  | a :: l, h => by
    obtain ⟨b, hb⟩ := h a (by simp)
    obtain ⟨m, hm⟩ := Pointwise.choose (l := l) fun x hx => h x (by simp [hx])
    exact ⟨b :: m, .cons hb hm⟩

/-! ### Dependencies are found when everything can be read -/

theorem depsItems_ok {s : Store} {sub : Obj → Prog (List Ref)} : ∀ (l : List Obj),
    (∀ o ∈ l, ∃ L, eval (sub o) s = .ok (L, s)) → ∃ L, eval (depsItems sub l) s = .ok (L, s)
  | [], _ => ⟨[], rfl⟩
  | o :: l, h => by
    obtain ⟨L, hL⟩ := h o (by simp)
    obtain ⟨M, hM⟩ := depsItems_ok l fun x hx => h x (by simp [hx])
    refine ⟨refUnion L M, ?_⟩
    unfold depsItems
    show eval (sub o >>= _) s = _
    rw [eval_bind_ok hL, eval_bind_ok hM]
    rfl

theorem dependencies_ok {s : Store} : ∀ (k : Nat) (o : Obj), Within s k o →
    ∃ L, eval (dependencies k o) s = .ok (L, s)
  | 0, _, h => by cases h
  | k + 1, .ref g n, ⟨o, h1, h2⟩ => by
    obtain ⟨L, hL⟩ := dependencies_ok k o h2
    refine ⟨refUnion [(g, n)] L, ?_⟩
    unfold dependencies
    show eval (Prog.fetch (.ref g n) >>= _) s = _
    rw [eval_bind_ok (eval_fetch h1), eval_bind_ok hL]
    rfl
  | k + 1, .list l, h => depsItems_ok l fun o ho => dependencies_ok k o (h o ho)
  | k + 1, .dict d, h => depsItems_ok (downValues d) fun o ho => by
      obtain ⟨key, k1, k2, k3⟩ := mem_downValues.1 ho
      exact dependencies_ok k o (h key o k1 k2 k3)
  | _ + 1, .null, _ => ⟨[], rfl⟩
  | _ + 1, .bool _, _ => ⟨[], rfl⟩
  | _ + 1, .int _, _ => ⟨[], rfl⟩
  | _ + 1, .real _ _ _, _ => ⟨[], rfl⟩
  | _ + 1, .str _, _ => ⟨[], rfl⟩
  | _ + 1, .bytes _, _ => ⟨[], rfl⟩
  | _ + 1, .stream _ _ _, _ => ⟨[], rfl⟩

theorem depsAll_ok {s : Store} {k : Nat} {l : List Ref} (h : ∀ r ∈ l, Within s k (refObj r)) :
    ∃ L, eval (depsAll k l) s = .ok (L, s) :=
  depsItems_ok _ fun o ho => by
    obtain ⟨r, hr, rfl⟩ := List.mem_map.1 ho
    exact dependencies_ok k _ (h r hr)

/-- What is reached can be read. -/
theorem within_uses {s : Store} {o : Obj} {r : Ref} (hu : Uses false s o r) : ∀ {k : Nat}, Within s k o →
    0 ≤ r.2 ∧ ∃ v, s.val r.2.toNat = .ok v := by
  have target : ∀ {g n : Int} {v : Obj}, s.get (.ref g n) = .ok v → 0 ≤ n ∧ s.val n.toNat = .ok v := by
    intro g n v h
    simp only [Store.get] at h
    by_cases hn : n < 0
    · rw [if_pos hn] at h; cases h
    · rw [if_neg hn] at h; exact ⟨by omega, h⟩
  induction hu with
  | here g n =>
    intro k h
    cases k with
    | zero => cases h
    | succ k =>
      obtain ⟨o, h1, -⟩ := h
      exact ⟨(target h1).1, o, (target h1).2⟩
  | through h1 _ ih =>
    intro k h
    cases k with
    | zero => cases h
    | succ k =>
      obtain ⟨o', h2, h3⟩ := h
      rw [h1] at h2
      cases h2
      exact ih h3
  | item hm _ ih =>
    intro k h
    cases k with
    | zero => cases h
    | succ k => exact ih (h _ hm)
  | entry hm h1 h2 _ ih =>
    intro k h
    cases k with
    | zero => cases h
    | succ k => exact ih (h _ _ hm h1 h2)
  | stream h => cases h

theorem uses_trans {s : Store} {o : Obj} {r q : Ref} (h1 : Uses false s o r)
    (h2 : Uses false s (refObj r) q) : Uses false s o q := by
  induction h1 with
  | here g n => exact h2
  | through h _ ih => exact .through h (ih h2)
  | item h _ ih => exact .item h (ih h2)
  | entry h a b _ ih => exact .entry h a b (ih h2)
  | stream h => cases h

theorem Dict.mem_of_get? {d : Dict} {k : Bytes} {v : Obj} (h : Dict.get? d k = some v) : (k, v) ∈ d := by
  unfold Dict.get? at h
  induction d with
  | nil => cases h
  | cons p d ih =>
    obtain ⟨a, b⟩ := p
    rw [List.lookup_cons] at h
    split at h
    · rename_i hk
      rw [beq_iff_eq] at hk
      cases h
      rw [hk]; simp
    · exact List.mem_cons_of_mem _ (ih h)

/-! ### Deletion -/

theorem deleteAll_eval : ∀ (L : List Ref) {s : Store}, (∀ r ∈ L, 0 < r.2 ∧ ∃ v, s.val r.2.toNat = .ok v) →
    ∃ s', eval (deleteAll L) s = .ok ((), s') ∧ s'.next = s.next ∧
      (∀ r ∈ L, s'.val r.2.toNat = .ok .null) ∧ ∀ n, (∀ r ∈ L, r.2.toNat ≠ n) → s'.val n = s.val n
  | [], s, _ => ⟨s, rfl, rfl, by simp, fun _ _ => rfl⟩
  | r :: L, s, h => by
    obtain ⟨h1, v, h2⟩ := h r (by simp)
    obtain ⟨s', e1, e2, e3, e4⟩ := deleteAll_eval L (s := s.set r.2.toNat .null) (by
      intro q hq
      obtain ⟨q1, w, q2⟩ := h q (by simp [hq])
      refine ⟨q1, ?_⟩
      by_cases he : q.2.toNat = r.2.toNat
      · rw [he]; exact ⟨_, set_val_eq _ _ _⟩
      · exact ⟨w, (set_val_ne he).trans q2⟩)
    refine ⟨s', ?_, e2, ?_, ?_⟩
    · unfold deleteAll
      simp only [numOf]
      rw [if_neg (by omega)]
      show eval (Prog.lift (.ok r.2.toNat) >>= _) s = _
      rw [eval_bind_ok (eval_lift_ok _ _), eval_bind_ok (eval_update (by omega) h2)]
      exact e1
    · intro q hq
      by_cases hm : ∃ p ∈ L, p.2.toNat = q.2.toNat
      · obtain ⟨p, hp, he⟩ := hm
        rw [← he]; exact e3 p hp
      · rw [e4 _ (fun p hp he => hm ⟨p, hp, he⟩)]
        rcases List.mem_cons.1 hq with rfl | hq
        · exact set_val_eq _ _ _
        · exact absurd ⟨q, hq, rfl⟩ hm
    · intro n hn
      rw [e4 n fun p hp => hn p (by simp [hp])]
      exact set_val_ne (Ne.symm (hn r (by simp)))

/-! ### The whole -/

theorem remove_eval {s : Store} {t : PageTree} {lim : Nat} {ord : List Ref → List Ref} {leak : Dict}
    {del : List Int} (h : Removable s t lim del) (hord : ∀ l, (ord l).Perm l) :
    ∃ J s' s1 t' rs, eval (removePages lim ord leak del) s = .ok (J, s') ∧ (∀ r, r ∈ rs ↔ PageAt t del r) ∧
      Removed s t rs s1 t' ∧ s'.next = s1.next ∧
      (∀ n, UsedBy s (PageAt t del) n → n ≠ 0) ∧
      (∀ n, UsedBy s (PageAt t del) n →
        ¬ UsedBy s (fun r => r ∈ (leaves [] t).map Prod.fst ∧ ¬ PageAt t del r) n → s'.val n = .ok .null) ∧
      ∀ n, (UsedBy s (PageAt t del) n →
        UsedBy s (fun r => r ∈ (leaves [] t).map Prod.fst ∧ ¬ PageAt t del r) n) → s'.val n = s1.val n := by
  obtain ⟨l, J, e1, e2, -⟩ := flatPageTree_root (leak := leak) h.depth h.root
  have hlen := e2.length
  obtain ⟨sel, hsel⟩ := Pointwise.choose (P := fun (i : Int) (a : Ref × Dict × List Dict) =>
    ∃ j, Position (leaves [] t).length i j ∧ (leaves [] t)[j]? = some a) (l := del) (by
      intro i hi
      obtain ⟨j, hj⟩ := h.inside i hi
      exact ⟨(leaves [] t)[j]'hj.1, j, hj, List.getElem?_eq_getElem hj.1⟩)
  have hPg : ∀ r, r ∈ sel.map Prod.fst ↔ PageAt t del r := by
    intro r
    constructor
    · intro hr
      obtain ⟨b, hb, rfl⟩ := List.mem_map.1 hr
      obtain ⟨i, hi, j, hj, hb'⟩ := hsel.mem' b hb
      exact ⟨i, hi, j, b, hj, hb', rfl⟩
    · rintro ⟨i, hi, j, b, hj, hb, rfl⟩
      obtain ⟨b', hb', j', hj', hbb⟩ := hsel.mem i hi
      have : j' = j := by
        obtain ⟨a1, a2⟩ := hj
        obtain ⟨c1, c2⟩ := hj'
        omega
      subst this
      rw [hb] at hbb
      cases hbb
      exact List.mem_map_of_mem hb'
  have hleaf : ∀ r, PageAt t del r → r ∈ (leaves [] t).map Prod.fst := by
    rintro r ⟨i, hi, j, b, hj, hb, rfl⟩
    exact List.mem_map_of_mem (List.mem_of_getElem? hb)
  have m1 : ∃ objs, del.mapM (fun p => pyIndex l p) = .ok objs ∧
      objs.mapM (fun p => hashRef p.1) = .ok (sel.map Prod.fst) := by
    clear hPg
    have : ∃ objs, Pointwise (fun p a => pyIndex l p = .ok a) del objs ∧
        Pointwise (fun (a : Obj × Dict) r => hashRef a.1 = .ok r) objs (sel.map Prod.fst) := by
      clear hleaf
      have hgo : ∀ {del : List Int} {sel : List (Ref × Dict × List Dict)},
          Pointwise (fun (i : Int) (a : Ref × Dict × List Dict) =>
            ∃ j, Position (leaves [] t).length i j ∧ (leaves [] t)[j]? = some a) del sel →
          ∃ objs, Pointwise (fun p a => pyIndex l p = .ok a) del objs ∧
            Pointwise (fun (a : Obj × Dict) r => hashRef a.1 = .ok r) objs (sel.map Prod.fst) := by
        intro del sel hp
        induction hp with
        | nil => exact ⟨[], .nil, .nil⟩
        | cons hj _ ih =>
          obtain ⟨objs, i1, i2⟩ := ih
          obtain ⟨j, j1, j2⟩ := hj
          obtain ⟨x, x1, x2⟩ := e2.get j _ j2
          refine ⟨x :: objs, .cons (pyIndex_position (hlen ▸ j1) x1) i1, .cons ?_ i2⟩
          rw [x2.1]; rfl
      exact hgo hsel
    obtain ⟨objs, o1, o2⟩ := this
    exact ⟨objs, mapM_pointwise o1, mapM_pointwise o2⟩
  obtain ⟨objs, m1, m2⟩ := m1
  have m3 : l.mapM (fun p => hashRef p.1) = .ok ((leaves [] t).map Prod.fst) := by
    apply mapM_pointwise
    clear e1 hlen hsel hPg hleaf m1 m2
    generalize leaves [] t = L at e2
    induction e2 with
    | nil => exact .nil
    | cons hx _ ih => exact .cons (by rw [hx.1]; rfl) ih
  let gone := refSet (sel.map Prod.fst)
  let kept := (refSet ((leaves [] t).map Prod.fst)).filter (· ∉ gone)
  have hgone : ∀ r, r ∈ ord gone ↔ PageAt t del r := fun r => by
    rw [(hord _).mem_iff, mem_refSet, hPg]
  have hkept : ∀ r, r ∈ ord kept ↔ r ∈ (leaves [] t).map Prod.fst ∧ ¬ PageAt t del r := fun r => by
    rw [(hord _).mem_iff, List.mem_filter, mem_refSet]
    simp only [decide_eq_true_eq, gone, mem_refSet, hPg]
  have hreads : ∀ r ∈ (leaves [] t).map Prod.fst, Within s lim (refObj r) := by
    intro r hr
    obtain ⟨b, hb, rfl⟩ := List.mem_map.1 hr
    exact h.reads b hb
  obtain ⟨D, hD⟩ := depsAll_ok (s := s) (k := lim) (l := ord gone) fun r hr => hreads r (hleaf r ((hgone r).1 hr))
  obtain ⟨K, hK⟩ := depsAll_ok (s := s) (k := lim) (l := ord kept) fun r hr => hreads r ((hkept r).1 hr).1
  have hDm := fun r => depsAll_spec hD r
  have hKm := fun r => depsAll_spec hK r
  have hsound : Sound s t := ⟨h.root.shown, h.linked, h.nodup, h.root.isNode⟩
  obtain ⟨s1, t', f1, f2⟩ := detachAll_eval (lim := lim) (ord gone) hsound h.depth
    ((hord _).nodup_iff.2 (refSet_nodup _)) fun r hr => hleaf r ((hgone r).1 hr)
  -- what is reached from a removed page
  have hpos : ∀ r, r ∈ D → 0 < r.2 ∧ ∃ v, s1.val r.2.toNat = .ok v := by
    intro r hr
    obtain ⟨q, hq, hu⟩ := (hDm r).1 hr
    have hq' := (hgone q).1 hq
    obtain ⟨p1, v, hv⟩ := within_uses hu (hreads q (hleaf q hq'))
    have hnode : ∀ x ∈ nodes t, x.1.2.toNat ≠ r.2.toNat := by
      intro x hx he
      have hxp := (hsound.ok x hx).pos
      have : x.1.2 = r.2 := by omega
      exact h.nodes q hq' x hx r.1 (this ▸ hu)
    refine ⟨?_, v, by rw [f2.kept _ hnode]; exact hv⟩
    -- not the trailer
    apply Classical.byContradiction
    intro hz
    have hr0 : r.2 = 0 := by omega
    obtain ⟨tr, root, cat, n1, n2, n3, n4⟩ := h.root.named
    have htarget : s.get (.ref r.1 r.2) = .ok (.dict tr) := by
      rw [hr0]; simp only [Store.get]; rw [if_neg (by omega)]; exact n1
    obtain ⟨tq, td, tk, ht⟩ := h.root.isNode
    have htree : Uses false s (.dict cat) t.ref :=
      .entry (Dict.mem_of_get? n4) (by decide) (by decide) (.here _ _)
    have hroot : Uses false s root t.ref := by
      cases root with
      | ref g n => exact .through n3 htree
      | dict c => simp only [Store.get, Except.ok.injEq] at n3; rw [n3]; exact htree
      | _ => simp [Store.get] at n3
    have : Uses false s (refObj q) t.ref :=
      uses_trans hu (.through htarget (.entry (Dict.mem_of_get? n2) (by decide) (by decide) hroot))
    exact h.nodes q hq' (tq, td, (leavesAll [] tk).map Prod.fst) (by rw [ht]; simp [PageTree.nodes]) tq.1
      (by rw [ht] at this; exact this)
  obtain ⟨s', g1, g2, g3, g4⟩ := deleteAll_eval (ord ((refSet D).filter (· ∉ K))) (s := s1) (by
    intro r hr
    rw [(hord _).mem_iff, List.mem_filter, mem_refSet] at hr
    exact hpos r hr.1)
  have hsame : ∀ r r' : Ref, r ∈ D → r' ∈ K → r.2.toNat = r'.2.toNat → r = r' := by
    intro r r' hr hr' he
    obtain ⟨q, hq, hu⟩ := (hDm r).1 hr
    obtain ⟨q', hq', hu'⟩ := (hKm r').1 hr'
    have hq := hleaf q ((hgone q).1 hq)
    have hq' := ((hkept q').1 hq').1
    have n1 := (within_uses hu (hreads q hq)).1
    have n2 := (within_uses hu' (hreads q' hq')).1
    have he2 : r.2 = r'.2 := by omega
    obtain ⟨b, hb, rfl⟩ := List.mem_map.1 hq
    obtain ⟨b', hb', rfl⟩ := List.mem_map.1 hq'
    have : r.1 = r'.1 := h.gens b hb b' hb' r.1 r'.1 r.2 hu (he2 ▸ hu')
    exact Prod.ext this he2
  refine ⟨J, s', s1, t', ord gone, ?_, hgone, f2, g2, ?_, ?_, ?_⟩
  · unfold removePages
    show eval (flatPageTree lim .null leak none >>= _) s = _
    rw [eval_bind_ok e1]
    simp only
    rw [m1, eval_bind_ok (eval_lift_ok _ _), m2, eval_bind_ok (eval_lift_ok _ _), m3,
      eval_bind_ok (eval_lift_ok _ _), eval_bind_ok hD, eval_bind_ok hK, eval_bind_ok f1, eval_bind_ok g1]
    rfl
  · rintro n ⟨q, hq, r, hu, rfl⟩
    have := (hpos r ((hDm r).2 ⟨q, (hgone q).2 hq, hu⟩)).1
    omega
  · rintro n ⟨q, hq, r, hu, rfl⟩ hnk
    refine g3 r ?_
    rw [(hord _).mem_iff, List.mem_filter, mem_refSet]
    refine ⟨(hDm r).2 ⟨q, (hgone q).2 hq, hu⟩, ?_⟩
    simp only [decide_eq_true_eq]
    intro hk
    obtain ⟨q', hq', hu'⟩ := (hKm r).1 hk
    exact hnk ⟨q', (hkept q').1 hq', r, hu', rfl⟩
  · intro n hn
    refine g4 n ?_
    rintro r hr rfl
    rw [(hord _).mem_iff, List.mem_filter, mem_refSet] at hr
    obtain ⟨hr1, hr2⟩ := hr
    simp only [decide_eq_true_eq] at hr2
    obtain ⟨q, hq, hu⟩ := (hDm r).1 hr1
    obtain ⟨q', hq', r', hu', he⟩ := hn ⟨q, (hgone q).1 hq, r, hu, rfl⟩
    have hk : r' ∈ K := (hKm r').2 ⟨q', (hkept q').2 hq', hu'⟩
    exact hr2 (hsame r r' hr1 hk he.symm ▸ hk)

end Pdf
