/-
Reading functions on two maps of objects that are the same: when the reading succeeds on the first one, it succeeds on the second
one, with results that are the same.
-/
import Verif.Lemmas.SimRead
import Verif.Props.C103_PagesFile

namespace Pdf
open Spec Prog

/-! ### Values -/

/-- The reference leads to an object that is not null. -/
def LiveRef (s : Store) (r : Int × Int) : Prop := 1 ≤ r.2 ∧ ∃ v, s.val r.2.toNat = .ok v ∧ v ≠ .null

/-- The value has been written in the file: null, a stream, or a value whose dictionaries have distinct keys. -/
def Neat (o : Obj) : Prop := o = .null ∨ (∃ i j, WF i j o = true) ∨ (∃ d x e, o = .stream d x e) ∨ ∃ g n, o = .ref g n

/-- A value all of whose references lead to objects in use. -/
def FineVal (s : Store) (o : Obj) : Prop := Neat o ∧ ∀ r, Occurs r o → LiveRef s r

/-- The values that the two maps have in the same place. -/
def Rel (s : Store) (a b : Obj) : Prop := Same a b ∧ FineVal s a

theorem fine_leaf {s : Store} {o : Obj} (h : Neat o) (hn : ∀ r, ¬ Occurs r o) : FineVal s o := ⟨h, fun r hr => (hn r hr).elim⟩

theorem fine_null {s : Store} : FineVal s .null := fine_leaf (.inl rfl) (fun r h => by cases h)

theorem rel_null {s : Store} : Rel s .null .null := ⟨.inl rfl, fine_null⟩

theorem fine_int {s : Store} {n : Int} : FineVal s (.int n) := fine_leaf (.inr (.inl ⟨false, false, rfl⟩)) (fun r h => by cases h)

theorem wfItems_of_mem {i j : Bool} : ∀ {l : List Obj}, WFItems i j l = true → ∀ {o : Obj}, o ∈ l → WF i j o = true
  | a :: l, h, o, ho => by
    simp only [WFItems, Bool.and_eq_true] at h
    rcases List.mem_cons.1 ho with rfl | ho
    · exact h.1
    · exact wfItems_of_mem h.2 ho

theorem fine_item {s : Store} {l : List Obj} (h : FineVal s (.list l)) {o : Obj} (ho : o ∈ l) : FineVal s o := by
  obtain ⟨h1, h2⟩ := h
  refine ⟨?_, fun r hr => h2 r (.item ho hr)⟩
  rcases h1 with h1 | ⟨i, j, h1⟩ | ⟨_, _, _, h1⟩ | ⟨_, _, h1⟩
  · cases h1
  · simp only [WF] at h1
    exact .inr (.inl ⟨_, _, wfItems_of_mem h1 ho⟩)
  · cases h1
  · cases h1

theorem fine_nodup {s : Store} {d : Dict} (h : FineVal s (.dict d)) : (d.map Prod.fst).Nodup := by
  rcases h.1 with h1 | ⟨i, j, h1⟩ | ⟨_, _, _, h1⟩ | ⟨_, _, h1⟩
  · cases h1
  · simp only [WF, Bool.and_eq_true, decide_eq_true_eq] at h1
    exact h1.2
  · cases h1
  · cases h1

theorem fine_entry {s : Store} {d : Dict} (h : FineVal s (.dict d)) {k : Bytes} {o : Obj} (ho : Dict.get? d k = some o) : FineVal s o := by
  have hm := get?_mem ho
  obtain ⟨h1, h2⟩ := h
  refine ⟨?_, fun r hr => h2 r (.entry hm hr)⟩
  rcases h1 with h1 | ⟨i, j, h1⟩ | ⟨_, _, _, h1⟩ | ⟨_, _, h1⟩
  · cases h1
  · simp only [WF, Bool.and_eq_true, decide_eq_true_eq] at h1
    exact .inr (.inl ⟨_, _, (wfEntries_iff.1 h1.1 _ hm).2⟩)
  · cases h1
  · cases h1

theorem same_truthy {a b : Obj} (h : Same a b) : truthy b = truthy a := by
  rcases h with rfl | h
  · rfl
  · exact (pyEq_truthy h).symm

theorem same_leaf {a b : Obj} (h : Same a b) (h1 : ∀ l, a ≠ .list l) (h2 : ∀ l, a ≠ .dict l) (h3 : ∀ d s e, a ≠ .stream d s e) :
    a = b := by
  rcases h with rfl | h
  · rfl
  · cases a <;> first | exact absurd rfl (h1 _) | exact absurd rfl (h2 _) | exact absurd rfl (h3 _ _ _) | simpa [pyEq] using h

theorem perm_of_sub {α : Type} [DecidableEq α] : ∀ {l m : List α}, l.Nodup → (∀ x ∈ l, x ∈ m) → m.length ≤ l.length → m.Perm l
  | [], m, _, _, hl => by
    cases m with
    | nil => exact .nil
    | cons a m => simp at hl
  | a :: l, m, h, hs, hl => by
    rw [List.nodup_cons] at h
    have ha := hs a (by simp)
    refine (List.perm_cons_erase ha).trans (.cons a (perm_of_sub h.2 ?_ ?_))
    · intro x hx
      exact (List.mem_erase_of_ne (by rintro rfl; exact h.1 hx)).2 (hs x (by simp [hx]))
    · rw [List.length_erase_of_mem ha]
      simp only [List.length_cons] at hl
      omega

theorem get?_of_mem : ∀ {d : Dict}, (d.map Prod.fst).Nodup → ∀ {k : Bytes} {v : Obj}, (k, v) ∈ d → Dict.get? d k = some v
  | (k0, v0) :: d, hn, k, v, hm => by
    simp only [List.map_cons, List.nodup_cons] at hn
    rcases List.mem_cons.1 hm with e | hm'
    · obtain ⟨rfl, rfl⟩ := Prod.mk.inj e
      simp [Dict.get?, List.lookup]
    · have hne : k ≠ k0 := by
        rintro rfl
        exact hn.1 (List.mem_map.2 ⟨(k, v), hm', rfl⟩)
      have := get?_of_mem hn.2 hm'
      simp only [Dict.get?, List.lookup, beq_eq_false_iff_ne.2 hne] at this ⊢
      exact this

theorem rel_dict {s : Store} {d : Dict} {b : Obj} (h : Rel s (.dict d) b) :
    ∃ d', b = .dict d' ∧ (d.map Prod.fst).Nodup ∧ (d'.map Prod.fst).Nodup ∧ ∀ k,
      (∀ v, Dict.get? d k = some v → ∃ w, Dict.get? d' k = some w ∧ Rel s v w) ∧
      (Dict.get? d k = none → Dict.get? d' k = none) := by
  obtain ⟨hs, hf⟩ := h
  have hn := fine_nodup hf
  obtain ⟨d', rfl, hd⟩ := same_dict hs hn
  refine ⟨d', rfl, hn, ?_, fun k => ⟨?_, ?_⟩⟩
  · rcases hs with e | h
    · cases e; exact hn
    · simp only [pyEq, Bool.and_eq_true, decide_eq_true_eq] at h
      refine (perm_of_sub hn ?_ (by simp [h.1])).nodup_iff.2 hn
      intro x hx
      obtain ⟨⟨k', v⟩, h1, h2⟩ := List.mem_map.1 hx
      cases h2
      obtain ⟨w', h3, -⟩ := pyEqEntries_mem h.2 _ _ h1
      exact List.mem_map.2 ⟨(k', w'), get?_mem h3, rfl⟩
  · intro v hv
    obtain ⟨w, h1, h2⟩ := hd.some hv
    exact ⟨w, h1, h2, fine_entry hf hv⟩
  · intro hv
    have := hd k
    rw [hv] at this
    cases hw : Dict.get? d' k with
    | none => rfl
    | some w => rw [hw] at this; exact this.elim

theorem same_list {l : List Obj} {b : Obj} (h : Same (.list l) b) : ∃ l', b = .list l' ∧ Pointwise Same l l' := by
  rcases h with rfl | h
  · refine ⟨l, rfl, ?_⟩
    induction l with
    | nil => exact .nil
    | cons a l ih => exact .cons (.inl rfl) ih
  · cases b <;> simp [pyEq] at h
    rename_i m
    refine ⟨m, rfl, ?_⟩
    induction l generalizing m with
    | nil => cases m <;> simp [pyEqItems] at h; exact .nil
    | cons a l ih =>
      cases m with
      | nil => simp [pyEqItems] at h
      | cons b m =>
        simp only [pyEqItems, Bool.and_eq_true] at h
        exact .cons (.inr h.1) (ih m h.2)

theorem rel_items {s : Store} {l l' : List Obj} (h : Pointwise Same l l') (hf : ∀ o ∈ l, FineVal s o) : Pointwise (Rel s) l l' := by
  induction h with
  | nil => exact .nil
  | cons h _ ih => exact .cons ⟨h, hf _ (by simp)⟩ (ih fun o ho => hf o (by simp [ho]))

theorem rel_list {s : Store} {l : List Obj} {b : Obj} (h : Rel s (.list l) b) : ∃ l', b = .list l' ∧ Pointwise (Rel s) l l' := by
  obtain ⟨l', rfl, hl⟩ := same_list h.1
  exact ⟨l', rfl, rel_items hl fun o ho => fine_item h.2 ho⟩

theorem same_streamOf {a b : Obj} (h : Same a b) {x : Bytes} (hx : streamOf a = .ok x) : streamOf b = .ok x := by
  rcases h with rfl | h
  · exact hx
  · cases a <;> simp only [streamOf] at hx <;> cases hx
    cases b <;> simp [pyEq] at h
    simp [streamOf, h.1.2]

theorem same_objRat {a b : Obj} (h : Same a b) : objRat b = objRat a := by
  rcases h with rfl | h
  · rfl
  · cases a <;> cases b <;> simp [pyEq] at h <;> simp_all [objRat]

theorem same_isKw {a b : Obj} (h : Same a b) (k : Bytes) : isKw k b = isKw k a := by
  rcases h with rfl | h
  · rfl
  · cases a <;> cases b <;> simp [pyEq] at h <;> simp_all [isKw]

/-! ### Programs -/

/-- What is known of the two maps. -/
structure Tie (s s' : Store) : Prop where
  same : SameStore s s'
  fine : AllObjs (FineVal s) s
  trailer : ∃ t t', s.val 0 = .ok (.dict t) ∧ s'.val 0 = .ok (.dict t') ∧
    ∀ v, Dict.get? t b!"/Root" = some v → FineVal s v ∧ ∃ w, Dict.get? t' b!"/Root" = some w ∧ Same v w

variable {s s' : Store}

theorem sim_fetch (T : Tie s s') {a b : Obj} (h : Rel s a b) : Sim s s' (Rel s) (Prog.fetch a) (Prog.fetch b) := by
  intro v t hv
  obtain ⟨h1, rfl⟩ := eval_fetch_inv hv
  refine ⟨rfl, ?_⟩
  rcases Classical.em (∃ g n, a = .ref g n) with ⟨g, n, rfl⟩ | hn
  · rw [same_ref h.1]
    obtain ⟨hp, u, hu1, hu2⟩ := h.2.2 (g, n) .here
    simp only at hp hu1
    simp only [Store.get] at h1
    rw [if_neg (by omega)] at h1
    rw [hu1] at h1
    cases h1
    obtain ⟨w, w1, w2⟩ := T.same n.toNat v (by omega) hu1 hu2
    refine ⟨w, eval_fetch (by simp only [Store.get]; rw [if_neg (by omega), w1]), w2, T.fine n.toNat v (by omega) hu1⟩
  · have ha : v = a := by
      cases a <;> first | exact absurd ⟨_, _, rfl⟩ hn | (cases h1; rfl)
    subst ha
    refine ⟨b, eval_fetch ?_, h⟩
    have hb : ∀ g n, b ≠ .ref g n := by
      rintro g n rfl
      rcases h.1 with rfl | h
      · exact hn ⟨_, _, rfl⟩
      · cases v <;> simp [pyEq] at h
        exact hn ⟨_, _, rfl⟩
    cases b <;> first | exact absurd rfl (hb _ _) | rfl

theorem sim_getKey {a b : Obj} (h : Rel s a b) (k : Bytes) : Sim s s' (Rel s) (Prog.lift (getKey a k)) (Prog.lift (getKey b k)) := by
  refine Sim.lift ?_
  intro v hv
  cases a <;> simp only [getKey] at hv <;> try cases hv
  rename_i d
  obtain ⟨d', rfl, -, -, hd⟩ := rel_dict h
  cases hg : Dict.get? d k with
  | none => rw [hg] at hv; cases hv
  | some x =>
    rw [hg] at hv
    cases hv
    obtain ⟨w, h1, h2⟩ := (hd k).1 _ hg
    exact ⟨w, by simp only [getKey, h1]; rfl, h2⟩

theorem sim_iterate {a b : Obj} (h : Rel s a b) :
    Sim s s' (Pointwise (Rel s)) (Prog.lift (iterate a)) (Prog.lift (iterate b)) := by
  refine Sim.lift ?_
  intro v hv
  cases a <;> simp only [iterate] at hv <;> try (cases hv; done)
  cases hv
  obtain ⟨l', rfl, hl⟩ := rel_list h
  exact ⟨l', rfl, hl⟩

/-! ### The pages -/

/-- Pages listed on both sides. -/
def PageRel (s : Store) (p q : Obj × Dict) : Prop := Rel s p.1 q.1 ∧ (p.2 = [] → q.2 = [])

/-- The results of `flat_page_tree`. -/
def ListRel (s : Store) (r r' : List (Obj × Dict) × Dict) : Prop := Pointwise (PageRel s) r.1 r'.1 ∧ (r.2 = [] → r'.2 = [])

theorem set_ne_nil (d : Dict) (k : Bytes) (v : Obj) : Dict.set d k v ≠ [] := by
  cases d with
  | nil => simp [Dict.set]
  | cons p d => obtain ⟨a, b⟩ := p; unfold Dict.set; split <;> simp

theorem update_eq_nil : ∀ {e J : Dict}, Dict.update J e = [] → J = [] ∧ e = []
  | [], J, h => ⟨h, rfl⟩
  | p :: e, J, h => by
    have h' : Dict.update (Dict.set J p.1 p.2) e = [] := h
    exact absurd (update_eq_nil h').1 (set_ne_nil _ _ _)

theorem update_nil_nil {J J' e e' : Dict} (h1 : J = [] → J' = []) (h2 : e = [] → e' = []) (h : Dict.update J e = []) :
    Dict.update J' e' = [] := by
  obtain ⟨h3, h4⟩ := update_eq_nil h
  rw [h1 h3, h2 h4]
  rfl

theorem nodeAttrs_nil {a b : Obj} (h : Rel s a b) (hn : nodeAttrs a = []) : nodeAttrs b = [] := by
  cases b with
  | dict d' =>
    cases a with
    | dict d =>
      obtain ⟨d2, e, -, -, hd⟩ := rel_dict h
      cases e
      simp only [nodeAttrs, List.filterMap_eq_nil_iff, Option.map_eq_none_iff] at hn ⊢
      intro k hk
      have := hn k hk
      simp only [attrOf] at this ⊢
      cases hg : Dict.get? d k with
      | none => rw [(hd k).2 hg]
      | some v =>
        rw [hg] at this
        obtain ⟨w, h1, h2⟩ := (hd k).1 v hg
        cases v <;> simp at this
        rw [h1, same_null.1 h2.1]
    | _ => rcases h.1 with h | h <;> simp [pyEq] at h
  | _ => simp [nodeAttrs, attrOf, inheritableAttrs]

theorem sim_pagesRoot (T : Tie s s') : Sim s s' (Rel s) pagesRoot pagesRoot := by
  obtain ⟨t, t', h1, h2, h3⟩ := T.trailer
  unfold pagesRoot catalogP
  refine Sim.bind (R := fun x y => Rel s x.1 y.1) ?_ ?_
  · refine Sim.bind (R := fun x y => x = .dict t ∧ y = .dict t') ?_ ?_
    · intro v u hv
      obtain ⟨h4, rfl⟩ := eval_fetch_inv hv
      refine ⟨rfl, .dict t', eval_fetch h2, ?_, rfl⟩
      have h4 : u.val 0 = .ok v := h4
      rw [h1] at h4
      cases h4
      rfl
    · rintro _ _ ⟨rfl, rfl⟩
      refine Sim.bind (R := Rel s) (Sim.lift ?_) ?_
      · intro v hv
        simp only [getKey] at hv ⊢
        cases hg : Dict.get? t b!"/Root" with
        | none => rw [hg] at hv; cases hv
        | some x =>
          rw [hg] at hv
          cases hv
          obtain ⟨h4, w, h5, h6⟩ := h3 _ hg
          exact ⟨w, by rw [h5]; rfl, h6, h4⟩
      · intro a b hab
        exact Sim.bind (sim_fetch T hab) fun _ _ h => Sim.pure h
  · rintro ⟨a, _⟩ ⟨b, _⟩ hab
    exact Sim.bind (sim_getKey hab _) fun _ _ h => sim_fetch T h

theorem sim_kidsLoop {sub sub' : Obj → Dict → Prog (List (Obj × Dict) × Dict)} {m : Option Int}
    (hsub : ∀ k k' J J', Rel s k k' → (J = [] → J' = []) → Sim s s' (ListRel s) (sub k J) (sub' k' J')) {e e' : Dict}
    (he : e = [] → e' = []) : ∀ {l l' : List Obj} {A A' : List (Obj × Dict)} {J J' : Dict}, Pointwise (Rel s) l l' →
      Pointwise (PageRel s) A A' → (J = [] → J' = []) →
      Sim s s' (ListRel s) (kidsLoop sub e m l A J) (kidsLoop sub' e' m l' A' J')
  | _, _, A, A', J, J', .nil, hA, hJ => by
    unfold kidsLoop
    exact Sim.pure ⟨hA, hJ⟩
  | _, _, A, A', J, J', .cons h hl, hA, hJ => by
    unfold kidsLoop
    refine Sim.bind (hsub _ _ _ _ h (update_nil_nil hJ he)) ?_
    rintro ⟨x, _⟩ ⟨y, _⟩ ⟨hxy, -⟩
    have hA' := hA.append hxy
    simp only
    rw [hA'.len]
    split
    · exact Sim.pure ⟨hA', update_nil_nil hJ he⟩
    · exact sim_kidsLoop hsub he hl hA' (update_nil_nil hJ he)

theorem sim_flatPageTree (T : Tie s s') (m : Option Int) : ∀ (lim : Nat) {a b : Obj} {J J' : Dict}, Rel s a b → (J = [] → J' = []) →
    Sim s s' (ListRel s) (flatPageTree lim a J m) (flatPageTree lim b J' m)
  | 0, _, _, _, _, _, _ => Sim.raise
  | lim + 1, a, b, J, J', h, hJ => by
    unfold flatPageTree
    refine Sim.bind (R := Rel s) ?_ ?_
    · rw [same_truthy h.1]
      split
      · exact sim_fetch T h
      · exact sim_pagesRoot T
    · intro node node' hnode
      refine Sim.bind (sim_getKey hnode _) ?_
      intro t t' ht
      by_cases h1 : t = .str b!"/Pages"
      · subst h1
        rw [same_str ht.1, if_pos rfl, if_pos rfl]
        refine Sim.bind (sim_getKey hnode _) fun _ _ hk => Sim.bind (sim_iterate hk) fun _ _ hl => ?_
        exact sim_kidsLoop (fun k k' J J' hk hJ => sim_flatPageTree T m lim hk hJ) (nodeAttrs_nil hnode) hl .nil hJ
      · rw [if_neg h1]
        by_cases h2 : t = .str b!"/Page"
        · subst h2
          rw [same_str ht.1, if_pos rfl, if_neg (by decide), if_pos rfl]
          exact Sim.pure ⟨.cons ⟨h, hJ⟩ .nil, hJ⟩
        · rw [if_neg h2]
          exact Sim.raise

theorem sim_pagesLoop (T : Tie s s') : ∀ {l l' : List (Obj × Dict)}, Pointwise (PageRel s) l l' →
    Sim s s' (fun x y : List Obj => y.length = x.length) (pagesLoop l) (pagesLoop l')
  | _, _, .nil => Sim.pure rfl
  | (a, e) :: l, (b, e') :: l', .cons h hl => by
    unfold pagesLoop
    refine Sim.bind (sim_fetch T h.1) ?_
    intro v w hvw
    refine Sim.bind (R := fun _ _ => True) (Sim.lift ?_) ?_
    · intro x hx
      cases v with
      | dict d =>
        obtain ⟨d', rfl, -⟩ := rel_dict hvw
        exact ⟨_, rfl, trivial⟩
      | _ =>
        simp only [fillAttrs] at hx
        split at hx
        · rename_i h0
          have he' : e' = [] := h.2 h0
          subst he'
          cases w <;> exact ⟨_, rfl, trivial⟩
        · cases hx
    · intro _ _ _
      exact Sim.bind (sim_pagesLoop T hl) fun _ _ hxy => Sim.pure (by simp [hxy])

theorem sim_pagesP (T : Tie s s') (lim : Nat) (m : Option Int) :
    Sim s s' (fun x y => y.1.length = x.1.length) (pagesP lim [] m) (pagesP lim [] m) := by
  unfold pagesP
  refine Sim.bind (sim_flatPageTree T m lim rel_null fun h => h) ?_
  rintro ⟨l, J⟩ ⟨l', J'⟩ ⟨hl, -⟩
  exact Sim.bind (sim_pagesLoop T hl) fun _ _ h => Sim.pure h

theorem pyIndex_rel {l l' : List (Obj × Dict)} (h : Pointwise (PageRel s) l l') (p : Int) :
    ∀ a, pyIndex l p = .ok a → ∃ b, pyIndex l' p = .ok b ∧ PageRel s a b := by
  have hget : ∀ (i : Nat) a, orRaise .indexError l[i]? = .ok a → ∃ b, orRaise .indexError l'[i]? = .ok b ∧ PageRel s a b := by
    intro i a ha
    cases hi : l[i]? with
    | none => rw [hi] at ha; cases ha
    | some x =>
      rw [hi] at ha
      cases ha
      obtain ⟨b, h1, h2⟩ := h.at hi
      exact ⟨b, by rw [h1]; rfl, h2⟩
  intro a ha
  unfold pyIndex at ha ⊢
  rw [h.len]
  by_cases h1 : 0 ≤ p
  · rw [if_pos h1] at ha ⊢
    exact hget _ _ ha
  · rw [if_neg h1] at ha ⊢
    by_cases h2 : -p ≤ l.length
    · rw [if_pos h2] at ha ⊢
      exact hget _ _ ha
    · rw [if_neg h2] at ha
      cases ha

/-! ### Text -/

theorem rel_agree (T : Tie s s') : Agree s s' (Rel s) (Rel s) where
  up := fun h => h
  null := rel_null
  dw := ⟨.inl rfl, fine_int⟩
  truthy := fun h => same_truthy h.1
  fetch := by
    intro a b v h hv
    obtain ⟨-, w, h1, h2⟩ := sim_fetch T h v s (eval_fetch hv)
    exact ⟨w, (eval_fetch_inv h1).1, h2⟩
  dict := by
    intro d b h
    obtain ⟨d', h1, -, -, h2⟩ := rel_dict h
    exact ⟨d', h1, fun k _ => h2 k⟩
  list := rel_list
  list' := by
    intro a l h
    rcases h.1 with rfl | h
    · exact ⟨_, rfl⟩
    · cases a <;> simp [pyEq] at h
      exact ⟨_, rfl⟩
  ref := fun h => ⟨_, _, same_ref h.1⟩
  stream := fun h hx => same_streamOf h.1 hx
  rat := fun h => same_objRat h.1
  kw := fun h k => same_isKw h.1 k
  int := fun h => same_int.1 h.1
  int' := fun h => same_int' h.1
  isNull := fun h => same_null.1 h.1
  isNull' := fun h => same_null' h.1
  fonts := by
    intro d b v e h hv he
    obtain ⟨d', rfl, -, -, hd⟩ := rel_dict h
    obtain ⟨w, hw, hvw⟩ := (hd _).1 v hv
    refine ⟨d', w, ?_⟩
    cases v with
    | dict d0 =>
      cases he
      obtain ⟨e', rfl, -, hn, hk⟩ := rel_dict hvw
      refine ⟨e', rfl, hw, rfl, ?_, hk⟩
      intro k r' hm
      have hg := get?_of_mem hn hm
      cases hx : Dict.get? e k with
      | none => rw [(hk k).2 hx] at hg; cases hg
      | some r =>
        obtain ⟨w', h1, h2⟩ := (hk k).1 r hx
        rw [hg] at h1
        cases h1
        exact ⟨r, get?_mem hx, h2⟩
    | list l =>
      cases l with
      | nil =>
        cases he
        obtain ⟨l', rfl, hl⟩ := rel_list hvw
        cases hl
        exact ⟨[], rfl, hw, rfl, fun _ _ h => (List.not_mem_nil h).elim, fun k => ⟨fun v hv => (nomatch hv), fun _ => rfl⟩⟩
      | cons _ _ => cases he
    | _ => cases he

/-- The text of a page. -/
theorem sim_extract [Zlib] (T : Tie s s') (lim : Nat) {J J' : Dict} (hJ : J = [] → J' = []) (p : Int) :
    Sim s s' (fun x y => x.1 = y.1) (extractPageText lim J p) (extractPageText lim J' p) := by
  refine ag_extract (P := fun J J' => J = [] → J' = []) (rel_agree T) ?_ hJ
  intro J J' hJ a u ha
  obtain ⟨h1, b, h2, h3, h4⟩ := sim_flatPageTree T none lim rel_null hJ a u ha
  refine ⟨h1, b, h2, ?_, h4⟩
  intro x hx
  obtain ⟨y, h5, h6⟩ := pyIndex_rel h3 p x hx
  exact ⟨y, h5, h6.1⟩

end Pdf
