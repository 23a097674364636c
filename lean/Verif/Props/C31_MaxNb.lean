/-
C31: listing a limited number of pages.
-/
import Verif.Props.C29_Pages

namespace Pdf
open Spec Spec.PageTree

variable {α : Type}

/-- A bounded list: the full one, or at least `m` items of which the first `m` are right. -/
def Bounded (m : Nat) (r f : List α) : Prop := r = f ∨ (m ≤ r.length ∧ r.take m = f.take m)

theorem take_le {m k : Nat} (h : k ≤ m) {r f : List α} (he : r.take m = f.take m) : r.take k = f.take k := by
  have := congrArg (List.take k) he
  rwa [List.take_take, List.take_take, Nat.min_eq_left h] at this

theorem bounded_len {m : Nat} {r f : List α} (h : m ≤ r.length) (he : r.take m = f.take m) : m ≤ f.length := by
  have := congrArg List.length he
  simp only [List.length_take] at this
  omega

theorem Bounded.append_left {m : Nat} {a r f : List α} (h : Bounded m r f) : Bounded m (a ++ r) (a ++ f) := by
  rcases h with rfl | ⟨h1, h2⟩
  · exact .inl rfl
  · refine .inr ⟨by simp; omega, ?_⟩
    rw [List.take_append, List.take_append, take_le (by omega) h2]

theorem Bounded.append {m : Nat} {a a' r f : List α} (ha : Bounded m a a') (h : Bounded m r f) :
    Bounded m (a ++ r) (a' ++ f) := by
  rcases ha with rfl | ⟨h1, h2⟩
  · exact h.append_left
  · have := bounded_len h1 h2
    refine .inr ⟨by simp; omega, ?_⟩
    rw [List.take_append, List.take_append, Nat.sub_eq_zero_of_le h1, Nat.sub_eq_zero_of_le this, h2]
    rfl

theorem Bounded.stop {m : Nat} {a a' : List α} (ha : Bounded m a a') (hm : m = a.length) (x : List α) :
    Bounded m a (a' ++ x) := by
  rcases ha with rfl | ⟨h1, h2⟩
  · refine .inr ⟨by omega, ?_⟩
    rw [hm]; simp
  · have := bounded_len h1 h2
    refine .inr ⟨h1, ?_⟩
    rw [h2, List.take_append, Nat.sub_eq_zero_of_le this]
    simp

/-- The loop only adds to what it has. -/
theorem kidsLoop_prefix {s s' : Store} {sub : Obj → Dict → Prog (List (Obj × Dict) × Dict)} {e : Dict}
    {m : Option Int} : ∀ kids accu i F J, eval (kidsLoop sub e m kids accu i) s = .ok ((F, J), s') →
    ∃ x, F = accu ++ x := by
  intro kids
  induction kids generalizing s with
  | nil => intro accu i F J h; cases h; exact ⟨[], by simp⟩
  | cons k kids ih =>
    intro accu i F J h
    unfold kidsLoop at h
    rw [eval_bind] at h
    obtain ⟨⟨⟨l, J1⟩, s1⟩, h1, h⟩ := bind_eq_ok h
    simp only at h
    split at h
    · cases h; exact ⟨l, rfl⟩
    · obtain ⟨x, hx⟩ := ih _ _ _ _ h
      exact ⟨l ++ x, by rw [hx, List.append_assoc]⟩

theorem kidsLoop_bounded {s : Store} {sub subm : Obj → Dict → Prog (List (Obj × Dict) × Dict)} {e : Dict} {m : Nat}
    (hsub : ∀ o i F J, eval (sub o i) s = .ok ((F, J), s) → ∃ R J', eval (subm o i) s = .ok ((R, J'), s) ∧
      Bounded m R F) (hro : ∀ o i, ReadOnly (sub o i)) :
    ∀ kids accu accu' i F J, Bounded m accu' accu → eval (kidsLoop sub e none kids accu i) s = .ok ((F, J), s) →
    ∃ R J', eval (kidsLoop subm e (some m) kids accu' i) s = .ok ((R, J'), s) ∧ Bounded m R F := by
  intro kids
  induction kids with
  | nil => intro accu accu' i F J hb h; cases h; exact ⟨_, _, rfl, hb⟩
  | cons k kids ih =>
    intro accu accu' i F J hb h
    unfold kidsLoop at h
    rw [eval_bind] at h
    obtain ⟨⟨⟨l, J1⟩, s1⟩, h1, h⟩ := bind_eq_ok h
    have hs1 := eval_readOnly (hro _ _) h1
    subst hs1
    simp only [reduceCtorEq, if_false] at h
    obtain ⟨R, J', h2, h3⟩ := hsub _ _ _ _ h1
    unfold kidsLoop
    rw [eval_bind_ok h2]
    have hb' : Bounded m (accu' ++ R) (accu ++ l) := hb.append h3
    simp only
    by_cases hm : some (m : Int) = some ((accu' ++ R).length : Int)
    · rw [if_pos hm]
      obtain ⟨x, hx⟩ := kidsLoop_prefix _ _ _ _ _ h
      refine ⟨_, _, rfl, ?_⟩
      rw [hx]
      refine hb'.stop ?_ x
      have := Option.some.inj hm
      exact_mod_cast this
    · rw [if_neg hm]
      exact ih _ _ _ _ _ hb' h

theorem flatPageTree_bounded {s : Store} {m : Nat} : ∀ (lim : Nat) (o : Obj) (i : Dict) (F : List (Obj × Dict))
    (J : Dict), eval (flatPageTree lim o i none) s = .ok ((F, J), s) →
    ∃ R J', eval (flatPageTree lim o i (some m)) s = .ok ((R, J'), s) ∧ Bounded m R F := by
  intro lim
  induction lim with
  | zero => intro o i F J h; cases h
  | succ lim ih =>
    intro o i F J h
    unfold flatPageTree at h ⊢
    have hro : ReadOnly (if truthy o then Prog.fetch o else pagesRoot) := by
      split
      · exact ReadOnly.fetch _
      · exact readOnly_pagesRoot
    rw [eval_bind] at h
    obtain ⟨⟨node, s1⟩, h1, h⟩ := bind_eq_ok h
    have e1 := eval_readOnly hro h1
    subst e1
    rw [eval_bind_ok h1]
    simp only at h
    rw [eval_bind] at h
    obtain ⟨⟨t, s2⟩, h2, h⟩ := bind_eq_ok h
    have e2 := eval_readOnly (ReadOnly.lift _) h2
    subst e2
    rw [eval_bind_ok h2]
    simp only at h
    by_cases ht : t = .str b!"/Pages"
    · simp only [if_pos ht] at h ⊢
      rw [eval_bind] at h
      obtain ⟨⟨kids, s2⟩, h3, h⟩ := bind_eq_ok h
      have e2 := eval_readOnly (ReadOnly.lift _) h3
      subst e2
      rw [eval_bind_ok h3]
      simp only at h
      rw [eval_bind] at h
      obtain ⟨⟨kids', s2⟩, h4, h⟩ := bind_eq_ok h
      have e2 := eval_readOnly (ReadOnly.lift _) h4
      subst e2
      rw [eval_bind_ok h4]
      exact kidsLoop_bounded ih (fun o i => readOnly_flatPageTree _ _ _ _) _ _ _ _ _ _ (.inl rfl) h
    · simp only [if_neg ht] at h ⊢
      by_cases ht : t = .str b!"/Page"
      · simp only [if_pos ht] at h ⊢
        cases h
        exact ⟨_, _, rfl, .inl rfl⟩
      · simp only [if_neg ht] at h
        cases h

/-- **C31**, the first half, for any document, even ill-formed: when the full list can be made, so can the
bounded one, which agrees with it on the first `m` pages, references and inherited attributes. It has at least `m`
pages, or all of them. -/
theorem C31_prefix [Zlib] {d d1 : Doc} (hc : Coherent d) {lim m : Nat} {leak J : Dict} {full : List (Obj × Dict)}
    (h : (flatPageTree lim .null leak none).run d = .ok ((full, J), d1)) :
    ∃ l J' d2, (flatPageTree lim .null leak (some m)).run d = .ok ((l, J'), d2) ∧ storeOf d2 = storeOf d ∧
      l.take m = full.take m ∧ (l = full ∨ m ≤ l.length) := by
  have h1 := run_readOnly (readOnly_flatPageTree none lim .null leak) hc
  rcases he : eval (flatPageTree lim .null leak none) (storeOf d) with x | ⟨⟨f, j⟩, s⟩
  · rw [he] at h1; rw [h1] at h; cases h
  · rw [he] at h1
    obtain ⟨rfl, d', r1, -⟩ := h1
    rw [r1] at h
    cases h
    obtain ⟨R, J', h2, h3⟩ := flatPageTree_bounded (m := m) _ _ _ _ _ he
    obtain ⟨d2, h4, -, h5⟩ := run_readOnly_ok (readOnly_flatPageTree _ _ _ _) hc h2
    refine ⟨R, J', d2, h4, h5, ?_⟩
    rcases h3 with rfl | ⟨h6, h7⟩
    · exact ⟨rfl, .inl rfl⟩
    · exact ⟨h7, .inr h6⟩

/-- The full list exists for the sample of C29. -/
example [Zlib] : ((flatPageTree 1000 .null [] none).run (memDoc treeObjs)).map (fun r => r.1.1.map Prod.fst) =
    .ok [.ref 0 3, .ref 0 5, .ref 0 6, .ref 0 7] := by kernel_rfl

/-- **The second half of C31 is false.** `max_nb` is passed unchanged to the recursive call, and the caller only
stops when its own list has exactly that length: with `max_nb = 2` the four pages of the sample are returned. -/
theorem C31_counterexample [Zlib] :
    ((flatPageTree 1000 .null [] (some 2)).run (memDoc treeObjs)).map (fun r => r.1.1.map Prod.fst) =
      .ok [.ref 0 3, .ref 0 5, .ref 0 6, .ref 0 7] := by kernel_rfl

/-- A page, a node with three pages, a page. -/
def skippedObjs : List Obj :=
  [.dict [(b!"/Root", .ref 0 1)],
   .dict [(b!"/Type", .str b!"/Catalog"), (b!"/Pages", .ref 0 2)],
   .dict [(b!"/Type", .str b!"/Pages"), (b!"/Kids", .list [.ref 0 3, .ref 0 4, .ref 0 8])],
   .dict [(b!"/Type", .str b!"/Page")],
   .dict [(b!"/Type", .str b!"/Pages"), (b!"/Kids", .list [.ref 0 5, .ref 0 6, .ref 0 7])],
   .dict [(b!"/Type", .str b!"/Page")],
   .dict [(b!"/Type", .str b!"/Page")],
   .dict [(b!"/Type", .str b!"/Page")],
   .dict [(b!"/Type", .str b!"/Page")]]

/-- The list may even miss a page in the middle: here page 7, with `max_nb = 2`. -/
theorem C31_skips [Zlib] :
    ((flatPageTree 1000 .null [] none).run (memDoc skippedObjs)).map (fun r => r.1.1.map Prod.fst) =
      .ok [.ref 0 3, .ref 0 5, .ref 0 6, .ref 0 7, .ref 0 8] ∧
    ((flatPageTree 1000 .null [] (some 2)).run (memDoc skippedObjs)).map (fun r => r.1.1.map Prod.fst) =
      .ok [.ref 0 3, .ref 0 5, .ref 0 6, .ref 0 8] :=
  ⟨by kernel_rfl, by kernel_rfl⟩

/-! The bound holds for one page, and for trees with one level. -/

theorem kidsLoop_one {s : Store} {subm : Obj → Dict → Prog (List (Obj × Dict) × Dict)} {e : Dict} {m : Nat}
    (hro : ∀ o i, ReadOnly (subm o i)) :
    ∀ kids accu i R J, (∀ o ∈ kids, ∀ i R J, eval (subm o i) s = .ok ((R, J), s) → R.length ≤ 1) →
    accu.length < m →
    eval (kidsLoop subm e (some m) kids accu i) s = .ok ((R, J), s) → R.length ≤ m := by
  intro kids
  induction kids with
  | nil => intro accu i R J _ ha h; cases h; omega
  | cons k kids ih =>
    intro accu i R J hsub ha h
    unfold kidsLoop at h
    rw [eval_bind] at h
    obtain ⟨⟨⟨l, J1⟩, s1⟩, h1, h⟩ := bind_eq_ok h
    have hs1 := eval_readOnly (hro _ _) h1
    subst hs1
    have hl := hsub k (by simp) _ _ _ h1
    simp only at h
    have hlen : (accu ++ l).length = accu.length + l.length := by simp
    by_cases hm : some (m : Int) = some ((accu ++ l).length : Int)
    · rw [if_pos hm] at h
      cases h; omega
    · rw [if_neg hm] at h
      have hne : m ≠ (accu ++ l).length := fun h => hm (by rw [h])
      exact ih _ _ _ _ (fun o ho => hsub o (by simp [ho])) (by omega) h

/-- A program that reads, then goes on with what it found. -/
theorem flatPageTree_cases {s s' : Store} {lim : Nat} {o : Obj} {i : Dict} {m : Option Int}
    {R : List (Obj × Dict)} {J : Dict} (h : eval (flatPageTree (lim + 1) o i m) s = .ok ((R, J), s')) :
    R.length = 1 ∨ ∃ node kids, eval (if truthy o then Prog.fetch o else pagesRoot) s = .ok (node, s) ∧
      (∃ k, getKey node b!"/Kids" = .ok k ∧ iterate k = .ok kids) ∧
      eval (kidsLoop (fun kid inh => flatPageTree lim kid inh m) (nodeAttrs node) m kids [] i) s =
        .ok ((R, J), s') := by
  unfold flatPageTree at h
  have hro : ReadOnly (if truthy o then Prog.fetch o else pagesRoot) := by
    split
    · exact ReadOnly.fetch _
    · exact readOnly_pagesRoot
  rw [eval_bind] at h
  obtain ⟨⟨node, s1⟩, h1, ha⟩ := bind_eq_ok h
  clear h
  have e1 := eval_readOnly hro h1
  subst e1
  simp only at ha
  rw [eval_bind] at ha
  obtain ⟨⟨t, s2⟩, h2, h⟩ := bind_eq_ok ha
  clear ha
  have e2 := eval_readOnly (ReadOnly.lift _) h2
  subst e2
  simp only at h
  by_cases ht : t = .str b!"/Pages"
  · simp only [if_pos ht] at h
    rw [eval_bind] at h
    obtain ⟨⟨kids, s2⟩, h3, ha⟩ := bind_eq_ok h
    clear h
    have e2 := eval_readOnly (ReadOnly.lift _) h3
    subst e2
    simp only at ha
    rw [eval_bind] at ha
    obtain ⟨⟨kids', s2⟩, h4, h⟩ := bind_eq_ok ha
    clear ha
    have e2 := eval_readOnly (ReadOnly.lift _) h4
    subst e2
    refine .inr ⟨node, kids', h1, ⟨kids, ?_, ?_⟩, h⟩
    · cases hk : getKey node b!"/Kids" with
      | error x => rw [hk] at h3; cases h3
      | ok k => rw [hk] at h3; cases h3; rfl
    · cases hk : iterate kids with
      | error x => rw [hk] at h4; cases h4
      | ok k => rw [hk] at h4; cases h4; rfl
  · simp only [if_neg ht] at h
    by_cases ht : t = .str b!"/Page"
    · simp only [if_pos ht] at h
      cases h
      exact .inl rfl
    · simp only [if_neg ht] at h
      cases h

theorem flatPageTree_one {s : Store} : ∀ (lim : Nat) (o : Obj) (i : Dict) (R : List (Obj × Dict)) (J : Dict),
    eval (flatPageTree lim o i (some 1)) s = .ok ((R, J), s) → R.length ≤ 1 := by
  intro lim
  induction lim with
  | zero => intro o i R J h; cases h
  | succ lim ih =>
    intro o i R J h
    rcases flatPageTree_cases h with h | ⟨node, kids, -, -, h⟩
    · omega
    · exact kidsLoop_one (m := 1) (fun o i => readOnly_flatPageTree _ _ _ _) _ _ _ _ _ (fun o _ => ih o) (by simp) h

/-- **C31**, the second half, for `max_nb = 1`, in any document. -/
theorem C31_one_partial [Zlib] {d d1 : Doc} (hc : Coherent d) {lim : Nat} {leak J : Dict} {l : List (Obj × Dict)}
    (h : (flatPageTree lim .null leak (some 1)).run d = .ok ((l, J), d1)) : l.length ≤ 1 := by
  have h1 := run_readOnly (readOnly_flatPageTree (some 1) lim .null leak) hc
  rcases he : eval (flatPageTree lim .null leak (some 1)) (storeOf d) with x | ⟨⟨f, j⟩, s⟩
  · rw [he] at h1; rw [h1] at h; cases h
  · rw [he] at h1
    obtain ⟨rfl, d', r1, -⟩ := h1
    rw [r1] at h
    cases h
    exact flatPageTree_one _ _ _ _ _ he

example [Zlib] : ((flatPageTree 1000 .null [] (some 1)).run (memDoc treeObjs)).map (fun r => r.1.1.map Prod.fst) =
    .ok [.ref 0 3] := by kernel_rfl

theorem eval_page {s : Store} {r : Ref} {d i : Dict} {lim : Nat} {m : Option Int} (hs : Shown s (.page r d)) :
    eval (flatPageTree (lim + 1) (refObj r) i m) s = .ok (([(refObj r, i)], i), s) := by
  obtain ⟨h1, h2, h3⟩ := hs
  unfold flatPageTree
  rw [if_pos (truthy_ref h1), eval_bind_ok (eval_fetch h2)]
  simp only [getKey, h3, orRaise]
  rw [eval_bind_ok (eval_lift_ok _ _), if_neg (by decide), if_pos rfl]
  rfl

/-- **C31** for trees with one level (the root has only pages): with `max_nb = m ≥ 1` the first `m` pages are
returned, and nothing else. -/
theorem C31_flat_partial [Zlib] {d d1 : Doc} (hc : Coherent d) {r : Ref} {rd : Dict} {ps : List (Ref × Dict)}
    (ht : IsRoot (storeOf d) (.node r rd (ps.map fun p => .page p.1 p.2))) {lim m : Nat} {leak J : Dict}
    {full : List (Obj × Dict)} (hm : 1 ≤ m)
    (h : (flatPageTree lim .null leak none).run d = .ok ((full, J), d1)) :
    ∃ J' d2, (flatPageTree lim .null leak (some m)).run d = .ok ((full.take m, J'), d2) ∧
      storeOf d2 = storeOf d := by
  obtain ⟨l, J', d2, h1, h2, h3, -⟩ := C31_prefix (m := m) hc h
  have hlen : l.length ≤ m := by
    have h4 := run_readOnly (readOnly_flatPageTree (some m) lim .null leak) hc
    rcases he : eval (flatPageTree lim .null leak (some m)) (storeOf d) with x | ⟨⟨f, j⟩, s⟩
    · rw [he] at h4; rw [h4] at h1; cases h1
    · rw [he] at h4
      obtain ⟨rfl, d', r1, -⟩ := h4
      rw [r1] at h1
      cases h1
      obtain ⟨r', rd', kids, heq, hroot⟩ := eval_pagesRoot ht
      cases heq
      cases lim with
      | zero => cases he
      | succ lim =>
        rcases flatPageTree_cases he with h | ⟨node, kids, h5, ⟨k, h6, h7⟩, h8⟩
        · omega
        · rw [if_neg (by decide), hroot] at h5
          cases h5
          obtain ⟨-, -, -, s4, s5⟩ := ht.shown
          simp only [getKey, s4, orRaise] at h6
          cases h6
          cases h7
          refine kidsLoop_one (fun o i => readOnly_flatPageTree _ _ _ _) _ _ _ _ _ ?_ (by simp; omega) h8
          intro o ho i R J hR
          rw [List.map_map, List.mem_map] at ho
          obtain ⟨p, hp, rfl⟩ := ho
          have hsh := shownAll_mem s5 _ (List.mem_map_of_mem hp)
          cases lim with
          | zero => cases hR
          | succ lim =>
            simp only [Function.comp_apply, PageTree.ref] at hR
            rw [eval_page hsh] at hR
            cases hR; simp
  rw [List.take_of_length_le hlen] at h3
  exact ⟨J', d2, by rw [← h3]; exact h1, h2⟩

/-- Three pages below the root. -/
def flatObjs : List Obj :=
  [.dict [(b!"/Root", .ref 0 1)],
   .dict [(b!"/Type", .str b!"/Catalog"), (b!"/Pages", .ref 0 2)],
   .dict [(b!"/Type", .str b!"/Pages"), (b!"/Kids", .list [.ref 0 3, .ref 0 4, .ref 0 5])],
   .dict [(b!"/Type", .str b!"/Page")],
   .dict [(b!"/Type", .str b!"/Page"), (b!"/Rotate", .int 90)],
   .dict [(b!"/Type", .str b!"/Page")]]
example [Zlib] : IsRoot (storeOf (memDoc flatObjs)) (.node (0, 2)
    [(b!"/Type", .str b!"/Pages"), (b!"/Kids", .list [.ref 0 3, .ref 0 4, .ref 0 5])]
    ([((0, 3), [(b!"/Type", .str b!"/Page")]), ((0, 4), [(b!"/Type", .str b!"/Page"), (b!"/Rotate", .int 90)]),
      ((0, 5), [(b!"/Type", .str b!"/Page")])].map fun p => .page p.1 p.2)) := by
  rw [memDoc_store (by simp [flatObjs])]
  exact ⟨⟨by decide, rfl, rfl, rfl, ⟨by decide, rfl, rfl⟩, ⟨by decide, rfl, rfl⟩, ⟨by decide, rfl, rfl⟩, trivial⟩,
    ⟨_, _, _, rfl⟩, _, _, _, rfl, rfl, rfl, rfl⟩
example [Zlib] : ((flatPageTree 1000 .null [] none).run (memDoc flatObjs)).isOk = true := by kernel_rfl

end Pdf
