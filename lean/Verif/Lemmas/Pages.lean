/-
Listing the pages of a tree.
-/
import Verif.Model.Pages
import Verif.Spec.PageTree
import Verif.Lemmas.Prog

namespace Pdf
open Spec Spec.PageTree

/-- Two lists of the same length, related item by item. -/
inductive Pointwise {α β : Type} (R : α → β → Prop) : List α → List β → Prop
  | nil : Pointwise R [] []
  | cons {a b l m} : R a b → Pointwise R l m → Pointwise R (a :: l) (b :: m)

theorem Pointwise.append {α β : Type} {R : α → β → Prop} {l l' : List α} {m m' : List β}
    (h : Pointwise R l m) (h' : Pointwise R l' m') : Pointwise R (l ++ l') (m ++ m') := by
  induction h with
  | nil => exact h'
  | cons h _ ih => exact .cons h ih

theorem Pointwise.length {α β : Type} {R : α → β → Prop} {l : List α} {m : List β}
    (h : Pointwise R l m) : l.length = m.length := by
  induction h with
  | nil => rfl
  | cons h _ ih => simp [ih]

theorem Pointwise.get {α β : Type} {R : α → β → Prop} {l : List α} {m : List β}
    (h : Pointwise R l m) : ∀ (i : Nat) (b : β), m[i]? = some b → ∃ a, l[i]? = some a ∧ R a b := by
  induction h with
  | nil => intro i b hb; simp at hb
  | cons h _ ih =>
    intro i b hb
    cases i with
    | zero => simp at hb; subst hb; exact ⟨_, rfl, h⟩
    | succ i => simpa using ih i b (by simpa using hb)

theorem Pointwise.mono {α β : Type} {R R' : α → β → Prop} (hR : ∀ a b, R a b → R' a b) {l : List α}
    {m : List β} (h : Pointwise R l m) : Pointwise R' l m := by
  induction h with
  | nil => exact .nil
  | cons h _ ih => exact .cons (hR _ _ h) ih

theorem get?_update (e : Dict) : ∀ (D : Dict), (e.map Prod.fst).Nodup → ∀ k,
    Dict.get? (Dict.update D e) k = (Dict.get? e k).or (Dict.get? D k) := by
  induction e with
  | nil => intro D _ k; rfl
  | cons p e ih =>
    intro D hnd k
    obtain ⟨k1, v1⟩ := p
    rw [List.map_cons, List.nodup_cons] at hnd
    show Dict.get? (Dict.update (Dict.set D k1 v1) e) k = _
    rw [ih _ hnd.2, Dict.get?_set]
    by_cases hk : k = k1
    · subst hk
      have : Dict.get? e k = none := by
        unfold Dict.get?
        rw [List.lookup_eq_none_iff]
        intro p hp
        have : k ≠ p.1 := by
          intro h; apply hnd.1; show k ∈ _; rw [h]; exact List.mem_map_of_mem hp
        simpa using this
      rw [this]
      simp [Dict.get?, List.lookup]
    · rw [if_neg (by simpa using hk)]
      have : Dict.get? ((k1, v1) :: e) k = Dict.get? e k := by
        unfold Dict.get?
        rw [List.lookup_cons]
        have : (k == k1) = false := by simpa using hk
        rw [this]
      rw [this]

theorem lookup_filterMap (f : Bytes → Option Obj) (k : Bytes) : ∀ (ks : List Bytes),
    List.lookup k (ks.filterMap fun k => (f k).map fun v => (k, v)) = if k ∈ ks then f k else none := by
  intro ks
  induction ks with
  | nil => rfl
  | cons k' ks ih =>
    by_cases hk : k = k'
    · subst hk
      rw [if_pos (by simp)]
      cases hf : f k with
      | none =>
        rw [List.filterMap_cons, hf]
        simp only [Option.map_none]
        rw [ih, hf]
        split <;> rfl
      | some v => rw [List.filterMap_cons, hf]; simp
    · have hmem : (k ∈ k' :: ks) = (k ∈ ks) := by simp [hk]
      simp only [hmem]
      rw [← ih]
      cases hf : f k' with
      | none => rw [List.filterMap_cons, hf]; rfl
      | some v =>
        rw [List.filterMap_cons, hf]
        simp only [Option.map_some]
        rw [List.lookup_cons]
        have : (k == k') = false := by simpa using hk
        rw [this]

theorem get?_nodeAttrs (d : Dict) (k : Bytes) :
    Dict.get? (nodeAttrs (.dict d)) k = if k ∈ inheritable then entry? d k else none := by
  unfold Dict.get? nodeAttrs
  rw [lookup_filterMap]
  rfl

theorem nodeAttrs_nodup (o : Obj) : ((nodeAttrs o).map Prod.fst).Nodup := by
  have h : ∀ (f : Bytes → Option Obj) (ks : List Bytes),
      ((ks.filterMap fun k => (f k).map fun v => (k, v)).map Prod.fst).Sublist ks := by
    intro f ks
    induction ks with
    | nil => exact List.Sublist.slnil
    | cons k ks ih =>
      cases hf : f k with
      | none => simp only [List.filterMap_cons, hf, Option.map_none]; exact ih.cons k
      | some v => simp only [List.filterMap_cons, hf, Option.map_some, List.map_cons]; exact ih.cons_cons k
  exact (h _ inheritableAttrs).nodup (by decide)

/-- What a page must inherit, given what was in the shared dict. -/
def inh (leak : Dict) (anc : List Dict) (k : Bytes) : Option Obj :=
  if k ∈ inheritable then (nearest k anc).or (Dict.get? leak k) else Dict.get? leak k

theorem inh_cons {leak : Dict} {anc : List Dict} {d I : Dict} (h : ∀ k, Dict.get? I k = inh leak anc k) (k : Bytes) :
    Dict.get? (Dict.update I (nodeAttrs (.dict d))) k = inh leak (d :: anc) k := by
  rw [get?_update _ _ (nodeAttrs_nodup _), get?_nodeAttrs, h]
  unfold inh nearest
  by_cases hk : k ∈ inheritable
  · simp only [if_pos hk, List.findSome?_cons]
    cases entry? d k <;> rfl
  · simp only [if_neg hk]; rfl

theorem inh_idem {leak : Dict} {anc : List Dict} {d I : Dict} (h : ∀ k, Dict.get? I k = inh leak (d :: anc) k)
    (k : Bytes) : Dict.get? (Dict.update I (nodeAttrs (.dict d))) k = inh leak (d :: anc) k := by
  rw [get?_update _ _ (nodeAttrs_nodup _), get?_nodeAttrs, h]
  unfold inh nearest
  by_cases hk : k ∈ inheritable
  · simp only [if_pos hk, List.findSome?_cons]
    cases entry? d k <;> rfl
  · simp only [if_neg hk]; rfl

/-- A listed page: its reference and what it inherits. -/
def Listed (leak : Dict) (a : Obj × Dict) (b : Ref × Dict × List Dict) : Prop :=
  a.1 = refObj b.1 ∧ ∀ k, Dict.get? a.2 k = inh leak b.2.2 k

theorem kidsLoop_spec {s : Store} {sub : Obj → Dict → Prog (List (Obj × Dict) × Dict)} {leak d : Dict}
    {anc : List Dict} : ∀ (ts : List PageTree) (accu : List (Obj × Dict)) (I : Dict),
    (∀ t ∈ ts, ∀ I, (∀ k, Dict.get? I k = inh leak (d :: anc) k) →
      ∃ l J, eval (sub (refObj t.ref) I) s = .ok ((l, J), s) ∧
        Pointwise (Listed leak) l (leaves (d :: anc) t)) →
    (∀ k, Dict.get? (Dict.update I (nodeAttrs (.dict d))) k = inh leak (d :: anc) k) →
    ∃ l J, eval (kidsLoop sub (nodeAttrs (.dict d)) none (ts.map fun t => refObj t.ref) accu I) s =
        .ok ((accu ++ l, J), s) ∧
      Pointwise (Listed leak) l (leavesAll (d :: anc) ts) ∧
      (ts ≠ [] → ∀ k, Dict.get? J k = inh leak (d :: anc) k) ∧ (ts = [] → J = I) := by
  intro ts
  induction ts with
  | nil =>
    intro accu I _ _
    exact ⟨[], I, by simp [kidsLoop], .nil, by simp, fun _ => rfl⟩
  | cons t ts ih =>
    intro accu I hsub hI
    obtain ⟨l, J, h1, h2⟩ := hsub t (by simp) _ hI
    obtain ⟨l', J', h3, h4, h5, h6⟩ := ih (accu ++ l) (Dict.update I (nodeAttrs (.dict d)))
      (fun t ht => hsub t (by simp [ht])) (inh_idem hI)
    refine ⟨l ++ l', J', ?_, h2.append h4, ?_, by simp⟩
    · simp only [List.map_cons, kidsLoop]
      rw [eval_bind_ok h1]
      simp only [reduceCtorEq, if_false]
      rw [h3]
      simp
    · intro _
      by_cases hts : ts = []
      · rw [h6 hts]; exact hI
      · exact h5 hts

theorem truthy_ref {r : Ref} (h : 0 < r.2) : truthy (refObj r) = true := by
  simp [truthy, refObj]
  omega

theorem shownAll_mem {s : Store} {ts : List PageTree} (h : ShownAll s ts) : ∀ t ∈ ts, Shown s t := by
  induction ts with
  | nil => intro t ht; cases ht
  | cons u ts ih =>
    intro t ht
    rcases List.mem_cons.1 ht with rfl | ht
    · exact h.1
    · exact ih h.2 t ht

theorem depths_mem {ts : List PageTree} : ∀ t ∈ ts, depth t ≤ depths ts := by
  induction ts with
  | nil => intro t ht; cases ht
  | cons u ts ih =>
    intro t ht
    simp only [depths]
    rcases List.mem_cons.1 ht with rfl | ht
    · omega
    · have := ih t ht; omega

/-- The recursive call on a node or a page. -/
theorem flatPageTree_spec {s : Store} {leak : Dict} : ∀ (lim : Nat) (t : PageTree) (anc : List Dict) (I : Dict),
    depth t ≤ lim → Shown s t → (∀ k, Dict.get? I k = inh leak anc k) →
    ∃ l J, eval (flatPageTree lim (refObj t.ref) I none) s = .ok ((l, J), s) ∧
      Pointwise (Listed leak) l (leaves anc t) := by
  intro lim
  induction lim with
  | zero => intro t anc I hd; cases t <;> simp [depth] at hd
  | succ lim ih =>
    intro t anc I hd hs hI
    unfold flatPageTree
    cases t with
    | page r d =>
      obtain ⟨h1, h2, h3⟩ := hs
      rw [PageTree.ref, if_pos (truthy_ref h1), eval_bind_ok (eval_fetch h2)]
      simp only [getKey, h3, orRaise]
      rw [eval_bind_ok (eval_lift_ok _ _), if_neg (by decide), if_pos rfl]
      exact ⟨_, _, rfl, .cons ⟨rfl, hI⟩ .nil⟩
    | node r d kids =>
      obtain ⟨h1, h2, h3, h4, h5⟩ := hs
      rw [PageTree.ref, if_pos (truthy_ref h1), eval_bind_ok (eval_fetch h2)]
      simp only [getKey, h3, h4, orRaise]
      rw [eval_bind_ok (eval_lift_ok _ _), if_pos rfl, eval_bind_ok (eval_lift_ok _ _)]
      simp only [iterate]
      rw [eval_bind_ok (eval_lift_ok _ _)]
      simp only [depth] at hd
      obtain ⟨l, J, e1, e2, -, -⟩ := kidsLoop_spec (s := s) (leak := leak) (d := d) (anc := anc)
        (sub := fun kid inh => flatPageTree lim kid inh none) kids [] I
        (fun t ht I' hI' => ih t (d :: anc) I' (by have := depths_mem t ht; omega)
          (shownAll_mem h5 t ht) hI') (inh_cons hI)
      exact ⟨l, J, by simpa using e1, e2⟩

/-- `get_object(doc, catalog(doc)[0]['/Pages'])`. -/
theorem eval_pagesRoot {s : Store} {t : PageTree} (h : IsRoot s t) :
    ∃ r d kids, t = .node r d kids ∧ eval pagesRoot s = .ok (.dict d, s) := by
  obtain ⟨r, d, kids, rfl⟩ := h.isNode
  refine ⟨r, d, kids, rfl, ?_⟩
  obtain ⟨tr, root, cat, h1, h2, h3, h4⟩ := h.named
  unfold pagesRoot catalogP
  have h0 : s.get (.ref 0 0) = .ok (.dict tr) := by simpa [Store.get] using h1
  rw [eval_bind, eval_bind_ok (eval_fetch h0)]
  simp only [getKey, h2, orRaise]
  rw [eval_bind_ok (eval_lift_ok _ _), eval_bind_ok (eval_fetch h3), eval_pure]
  simp only [bind, Except.bind]
  simp only [h4]
  show eval (Prog.fetch _) s = _
  exact eval_fetch h.shown.2.1

/-- The call made by the users of `flat_page_tree`. -/
theorem flatPageTree_root {s : Store} {leak : Dict} {lim : Nat} {t : PageTree} (hd : depth t ≤ lim)
    (h : IsRoot s t) : ∃ l J, eval (flatPageTree lim .null leak none) s = .ok ((l, J), s) ∧
      Pointwise (Listed leak) l (leaves [] t) ∧
      (∀ k, k ∉ inheritable → Dict.get? J k = Dict.get? leak k) ∧
      ∀ k ∈ inheritable, ∀ r d kids, t = .node r d kids →
        Dict.get? J k = Dict.get? leak k ∨ Dict.get? J k = (entry? d k).or (Dict.get? leak k) := by
  obtain ⟨r, d, kids, rfl, hroot⟩ := eval_pagesRoot h
  have hs := h.shown
  cases lim with
  | zero => simp [depth] at hd
  | succ lim =>
    obtain ⟨h1, h2, h3, h4, h5⟩ := hs
    unfold flatPageTree
    rw [if_neg (by decide), eval_bind_ok hroot]
    simp only [getKey, h3, h4, orRaise]
    rw [eval_bind_ok (eval_lift_ok _ _), if_pos rfl, eval_bind_ok (eval_lift_ok _ _)]
    simp only [iterate]
    rw [eval_bind_ok (eval_lift_ok _ _)]
    simp only [depth] at hd
    have hI : ∀ k, Dict.get? leak k = inh leak [] k := by intro k; unfold inh nearest; split <;> rfl
    obtain ⟨l, J, e1, e2, e3, e4⟩ := kidsLoop_spec (s := s) (leak := leak) (d := d) (anc := [])
      (sub := fun kid inh => flatPageTree lim kid inh none) kids [] leak
      (fun t ht I' hI' => flatPageTree_spec lim t [d] I' (by have := depths_mem t ht; omega)
        (shownAll_mem h5 t ht) hI') (inh_cons hI)
    refine ⟨l, J, by simpa using e1, e2, ?_, ?_⟩
    · intro k hk
      by_cases hk0 : kids = []
      · rw [e4 hk0]
      · rw [e3 hk0]; unfold inh; rw [if_neg hk]
    · intro k hk r' d' kids' heq
      cases heq
      by_cases hk0 : kids = []
      · rw [e4 hk0]; exact .inl rfl
      · rw [e3 hk0]; unfold inh nearest; rw [if_pos hk]
        right
        simp only [List.findSome?_cons, List.findSome?_nil]
        cases entry? d k <;> rfl

theorem readOnly_pagesRoot : ReadOnly pagesRoot := by
  unfold pagesRoot catalogP
  exact ((ReadOnly.fetch _).bind fun _ => (ReadOnly.lift _).bind fun _ => (ReadOnly.fetch _).bind fun _ =>
    .ret _).bind fun _ => (ReadOnly.lift _).bind fun _ => ReadOnly.fetch _

theorem readOnly_kidsLoop {sub : Obj → Dict → Prog (List (Obj × Dict) × Dict)} (h : ∀ o i, ReadOnly (sub o i))
    (e : Dict) (m : Option Int) : ∀ kids accu i, ReadOnly (kidsLoop sub e m kids accu i) := by
  intro kids
  induction kids with
  | nil => intro accu i; exact .ret _
  | cons k kids ih =>
    intro accu i
    unfold kidsLoop
    refine (h _ _).bind fun r => ?_
    show ReadOnly (if _ then _ else _)
    split
    · exact .ret _
    · exact ih _ _

theorem readOnly_flatPageTree (m : Option Int) : ∀ lim num i, ReadOnly (flatPageTree lim num i m) := by
  intro lim
  induction lim with
  | zero => intro num i; exact .raise _
  | succ lim ih =>
    intro num i
    unfold flatPageTree
    refine ReadOnly.bind ?_ fun node => ?_
    · split
      · exact ReadOnly.fetch _
      · exact readOnly_pagesRoot
    · refine (ReadOnly.lift _).bind fun t => ?_
      split
      · exact (ReadOnly.lift _).bind fun _ => (ReadOnly.lift _).bind fun _ => readOnly_kidsLoop ih _ _ _ _ _
      · split
        · exact .ret _
        · exact .raise _

theorem readOnly_pagesLoop : ∀ l, ReadOnly (pagesLoop l) := by
  intro l
  induction l with
  | nil => exact .ret _
  | cons p l ih =>
    unfold pagesLoop
    exact (ReadOnly.fetch _).bind fun _ => (ReadOnly.lift _).bind fun _ => ih.bind fun _ => .ret _

theorem readOnly_pagesP (lim leak m) : ReadOnly (pagesP lim leak m) := by
  unfold pagesP
  exact (readOnly_flatPageTree _ _ _ _).bind fun _ => (readOnly_pagesLoop _).bind fun _ => .ret _

theorem eval_readOnly {α : Type} {p : Prog α} (hp : ReadOnly p) : ∀ {s s' : Store} {a : α},
    eval p s = .ok (a, s') → s' = s := by
  induction hp with
  | ret a => intro s s' b h; cases h; rfl
  | raise e => intro s s' b h; cases h
  | get r k _ ih =>
    intro s s' b h
    simp only [eval] at h
    obtain ⟨o, -, h⟩ := bind_eq_ok h
    exact ih o h

/-- A program that does not edit, on a document. -/
theorem run_readOnly_ok [Zlib] {α : Type} {p : Prog α} (hp : ReadOnly p) {d : Doc} (hc : Coherent d) {a : α}
    {s : Store} (h : eval p (storeOf d) = .ok (a, s)) :
    ∃ d', p.run d = .ok (a, d') ∧ Coherent d' ∧ storeOf d' = storeOf d := by
  have := run_readOnly hp hc
  rw [h] at this
  obtain ⟨-, d', h1, h2, h3, -⟩ := this
  exact ⟨d', h1, h2, h3⟩

theorem has_iff (d : Dict) (k : Bytes) : Dict.has d k = (Dict.get? d k).isSome := rfl

theorem get?_fill (k : Bytes) : ∀ (l : Dict) (d : Dict),
    Dict.get? (l.foldl (fun d p => if Dict.has d p.1 then d else Dict.set d p.1 p.2) d) k =
      (Dict.get? d k).or (Dict.get? l k) := by
  intro l
  induction l with
  | nil => intro d; show Dict.get? d k = (Dict.get? d k).or none; cases Dict.get? d k <;> rfl
  | cons p l ih =>
    intro d
    obtain ⟨k1, v1⟩ := p
    rw [List.foldl_cons, ih]
    have hl : Dict.get? ((k1, v1) :: l) k = if k = k1 then some v1 else Dict.get? l k := by
      unfold Dict.get?
      rw [List.lookup_cons]
      by_cases hk : k = k1
      · simp [hk]
      · have : (k == k1) = false := by simpa using hk
        simp [this, hk]
    rw [hl]
    by_cases hd : Dict.has d k1
    · rw [if_pos hd]
      by_cases hk : k = k1
      · subst hk
        rw [has_iff] at hd
        cases h : Dict.get? d k with
        | none => rw [h] at hd; cases hd
        | some v => rfl
      · rw [if_neg hk]
    · rw [if_neg hd, Dict.get?_set]
      by_cases hk : k = k1
      · subst hk
        rw [has_iff] at hd
        cases h : Dict.get? d k with
        | none => simp
        | some v => rw [h] at hd; exact absurd rfl hd
      · rw [if_neg hk, if_neg hk]

theorem pagesLoop_gen {s : Store} {g : Ref × Dict × List Dict → Bytes → Option Obj} {l : List (Obj × Dict)}
    {m : List (Ref × Dict × List Dict)}
    (h : Pointwise (fun a b => a.1 = refObj b.1 ∧ ∀ k, Dict.get? a.2 k = g b k) l m)
    (hs : ∀ b ∈ m, s.get (refObj b.1) = .ok (.dict b.2.1)) :
    ∃ pl, eval (pagesLoop l) s = .ok (pl, s) ∧
      Pointwise (fun o b => ∃ e, o = .dict e ∧ ∀ k, Dict.get? e k = (Dict.get? b.2.1 k).or (g b k)) pl m := by
  induction h with
  | nil => exact ⟨[], rfl, .nil⟩
  | @cons a b l m hab h ih =>
    obtain ⟨pl, h1, h2⟩ := ih fun b hb => hs b (by simp [hb])
    obtain ⟨o, at'⟩ := a
    obtain ⟨ho, hat⟩ := hab
    simp only at ho hat
    subst ho
    unfold pagesLoop
    rw [eval_bind_ok (eval_fetch (hs b (by simp)))]
    simp only [fillAttrs]
    rw [eval_bind_ok (eval_lift_ok _ _), eval_bind_ok h1]
    refine ⟨_, rfl, .cons ⟨_, rfl, fun k => ?_⟩ h2⟩
    rw [get?_fill, hat]

theorem pagesLoop_spec {s : Store} {leak : Dict} {l : List (Obj × Dict)} {m : List (Ref × Dict × List Dict)}
    (h : Pointwise (Listed leak) l m) (hs : ∀ b ∈ m, s.get (refObj b.1) = .ok (.dict b.2.1)) :
    ∃ pl, eval (pagesLoop l) s = .ok (pl, s) ∧
      Pointwise (fun o b => ∃ e, o = .dict e ∧ ∀ k, Dict.get? e k = (Dict.get? b.2.1 k).or (inh leak b.2.2 k))
        pl m :=
  pagesLoop_gen (g := fun b k => inh leak b.2.2 k) h hs

mutual
theorem leaves_shown {s : Store} : ∀ (t : PageTree) (anc : List Dict), Shown s t →
    ∀ b ∈ leaves anc t, s.get (refObj b.1) = .ok (.dict b.2.1)
  | .page r d, anc, h, b, hb => by
    simp only [leaves, List.mem_singleton] at hb
    subst hb
    exact h.2.1
  | .node r d kids, anc, h, b, hb => leavesAll_shown kids (d :: anc) h.2.2.2.2 b hb
theorem leavesAll_shown {s : Store} : ∀ (ts : List PageTree) (anc : List Dict), ShownAll s ts →
    ∀ b ∈ leavesAll anc ts, s.get (refObj b.1) = .ok (.dict b.2.1)
  | [], _, _, b, hb => by cases hb
  | t :: ts, anc, h, b, hb => by
    simp only [leavesAll, List.mem_append] at hb
    rcases hb with hb | hb
    · exact leaves_shown t anc h.1 b hb
    · exact leavesAll_shown ts anc h.2 b hb
end

theorem pyIndex_position {α : Type} {l : List α} {p : Int} {j : Nat} {a : α} (h : Position l.length p j)
    (ha : l[j]? = some a) : pyIndex l p = .ok a := by
  obtain ⟨h1, h2⟩ := h
  unfold pyIndex
  rcases h2 with h2 | h2
  · rw [if_pos (by omega), show p.toNat = j by omega, ha]; rfl
  · rw [if_neg (by omega), if_pos (by omega), show ((l.length : Int) + p).toNat = j by omega, ha]; rfl

theorem nodup_index {α : Type} {l : List α} (h : l.Nodup) {i j : Nat} {x : α} (hi : l[i]? = some x)
    (hj : l[j]? = some x) : i = j := by
  induction l generalizing i j with
  | nil => simp at hi
  | cons y l ih =>
    rw [List.nodup_cons] at h
    cases i with
    | zero =>
      cases j with
      | zero => rfl
      | succ j =>
        simp at hi hj
        subst hi
        exact absurd (List.mem_of_getElem? hj) h.1
    | succ i =>
      cases j with
      | zero =>
        simp at hi hj
        subst hj
        exact absurd (List.mem_of_getElem? hi) h.1
      | succ j => exact congrArg (· + 1) (ih h.2 (i := i) (j := j) (by simpa using hi) (by simpa using hj))

end Pdf
