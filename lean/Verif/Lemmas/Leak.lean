/-
The attributes that calls to `flat_page_tree` share have no effect on which pages are listed, nor on the text of a page.
-/
import Verif.Props.C77_PageText

namespace Pdf
open Spec Prog

/-- Two results that agree on `f` of the value and on the map. -/
def SameBy {α β : Type} (f : α → β) (x y : Py (α × Store)) : Prop :=
  x.map (fun r => (f r.1, r.2)) = y.map (fun r => (f r.1, r.2))

theorem SameBy.refl {α β : Type} (f : α → β) (x : Py (α × Store)) : SameBy f x x := rfl

theorem SameBy.cases {α β : Type} {f : α → β} {x y : Py (α × Store)} (h : SameBy f x y) :
    (∃ e, x = .error e ∧ y = .error e) ∨ ∃ a b s, x = .ok (a, s) ∧ y = .ok (b, s) ∧ f a = f b := by
  unfold SameBy at h
  cases x with
  | error e =>
    cases y with
    | error e' =>
      simp only [Except.map, Except.error.injEq] at h
      exact .inl ⟨e, rfl, by rw [h]⟩
    | ok b => cases h
  | ok a =>
    cases y with
    | error e' => cases h
    | ok b =>
      obtain ⟨a, s⟩ := a
      obtain ⟨b, s'⟩ := b
      simp only [Except.map, Except.ok.injEq, Prod.mk.injEq] at h
      obtain ⟨h1, rfl⟩ := h
      exact .inr ⟨a, b, s, rfl, rfl, h1⟩

theorem SameBy.bind {α β γ δ : Type} {f : α → β} {g : γ → δ} {p q : Prog α} {k l : α → Prog γ} {s : Store}
    (h : SameBy f (eval p s) (eval q s)) (hk : ∀ a b s, f a = f b → SameBy g (eval (k a) s) (eval (l b) s)) :
    SameBy g (eval (p >>= k) s) (eval (q >>= l) s) := by
  rw [eval_bind, eval_bind]
  rcases h.cases with ⟨e, h1, h2⟩ | ⟨a, b, s', h1, h2, h3⟩
  · rw [h1, h2]; exact SameBy.refl _ _
  · rw [h1, h2]; exact hk a b s' h3

theorem kidsLoop_leak {sub : Obj → Dict → Prog (List (Obj × Dict) × Dict)} {m : Option Int}
    (hsub : ∀ kid J J' s, SameBy (fun r => r.1.map Prod.fst) (eval (sub kid J) s) (eval (sub kid J') s)) (e : Dict) :
    ∀ (kids : List Obj) (A A' : List (Obj × Dict)) (J J' : Dict) (s : Store), A.map Prod.fst = A'.map Prod.fst →
      SameBy (fun r => r.1.map Prod.fst) (eval (kidsLoop sub e m kids A J) s) (eval (kidsLoop sub e m kids A' J') s)
  | [], A, A', J, J', s, h => by
    unfold kidsLoop SameBy
    simp only [eval_pure, Except.map]
    rw [h]
  | kid :: kids, A, A', J, J', s, h => by
    unfold kidsLoop
    refine SameBy.bind (hsub kid _ _ s) ?_
    rintro ⟨l, _⟩ ⟨l', _⟩ s' hl
    have hA : (A ++ l).map Prod.fst = (A' ++ l').map Prod.fst := by
      simp only at hl
      rw [List.map_append, List.map_append, h, hl]
    have hlen : (A ++ l).length = (A' ++ l').length := by
      have := congrArg List.length hA
      simpa using this
    simp only
    rw [hlen]
    split
    · unfold SameBy
      simp only [eval_pure, Except.map]
      rw [hA]
    · exact kidsLoop_leak hsub e kids _ _ _ _ s' hA

/-- Which pages are listed does not depend on the attributes. -/
theorem flatPageTree_leak (m : Option Int) : ∀ (lim : Nat) (num : Obj) (J J' : Dict) (s : Store),
    SameBy (fun r => r.1.map Prod.fst) (eval (flatPageTree lim num J m) s) (eval (flatPageTree lim num J' m) s)
  | 0, _, _, _, _ => SameBy.refl _ _
  | lim + 1, num, J, J', s => by
    unfold flatPageTree
    refine SameBy.bind (SameBy.refl id _) ?_
    rintro node _ s rfl
    refine SameBy.bind (SameBy.refl id _) ?_
    rintro t _ s rfl
    simp only [id]
    split
    · refine SameBy.bind (SameBy.refl id _) ?_
      rintro kids _ s rfl
      refine SameBy.bind (SameBy.refl id _) ?_
      rintro kids _ s rfl
      exact kidsLoop_leak (fun kid J J' s => flatPageTree_leak m lim kid J J' s) _ _ _ _ _ _ _ rfl
    · split
      · rfl
      · rfl

theorem pyIndex_fst {l l' : List (Obj × Dict)} (h : l.map Prod.fst = l'.map Prod.fst) (p : Int) (s : Store) :
    SameBy Prod.fst (eval (lift (pyIndex l p)) s) (eval (lift (pyIndex l' p)) s) := by
  have hlen : l.length = l'.length := by
    have := congrArg List.length h
    simpa using this
  have hget : ∀ i : Nat, SameBy Prod.fst (eval (lift (orRaise .indexError l[i]?)) s)
      (eval (lift (orRaise .indexError l'[i]?)) s) := by
    intro i
    have h1 : (l.map Prod.fst)[i]? = (l'.map Prod.fst)[i]? := by rw [h]
    rw [List.getElem?_map, List.getElem?_map] at h1
    cases ha : l[i]? with
    | none =>
      cases hb : l'[i]? with
      | none => exact SameBy.refl _ _
      | some b => rw [ha, hb] at h1; cases h1
    | some a =>
      cases hb : l'[i]? with
      | none => rw [ha, hb] at h1; cases h1
      | some b =>
        rw [ha, hb] at h1
        simp only [Option.map_some, Option.some.injEq] at h1
        show Except.ok (a.1, s) = Except.ok (b.1, s)
        rw [h1]
  unfold pyIndex
  split
  · exact hget _
  · rw [hlen]
    split
    · exact hget _
    · exact SameBy.refl _ _

theorem pageFonts_leak [Zlib] (lim : Nat) (J J' : Dict) (p : Int) (s : Store) :
    SameBy Prod.fst (eval (pageFonts lim J p) s) (eval (pageFonts lim J' p) s) := by
  unfold pageFonts
  refine SameBy.bind (flatPageTree_leak none lim .null J J' s) ?_
  rintro ⟨l, _⟩ ⟨l', _⟩ s hl
  refine SameBy.bind (pyIndex_fst hl p s) ?_
  rintro ⟨a, _⟩ ⟨_, _⟩ s rfl
  refine SameBy.bind (SameBy.refl id _) ?_
  rintro page _ s rfl
  refine SameBy.bind (SameBy.refl id _) ?_
  rintro res _ s rfl
  refine SameBy.bind (SameBy.refl id _) ?_
  rintro fonts _ s rfl
  refine SameBy.bind (SameBy.refl id _) ?_
  rintro fs _ s rfl
  rfl

theorem getPageContents_leak (lim : Nat) (J J' : Dict) (p : Int) (s : Store) :
    SameBy Prod.fst (eval (getPageContents lim J p) s) (eval (getPageContents lim J' p) s) := by
  unfold getPageContents
  refine SameBy.bind (flatPageTree_leak none lim .null J J' s) ?_
  rintro ⟨l, _⟩ ⟨l', _⟩ s hl
  refine SameBy.bind (pyIndex_fst hl p s) ?_
  rintro ⟨a, _⟩ ⟨_, _⟩ s rfl
  refine SameBy.bind (SameBy.refl id _) ?_
  rintro page _ s rfl
  refine SameBy.bind (SameBy.refl id _) ?_
  rintro c _ s rfl
  refine SameBy.bind (SameBy.refl id _) ?_
  rintro items _ s rfl
  refine SameBy.bind (SameBy.refl id _) ?_
  rintro cs _ s rfl
  rfl

/-- The text of a page does not depend on the attributes. -/
theorem extractPageText_leak [Zlib] (lim : Nat) (J J' : Dict) (p : Int) (s : Store) :
    SameBy Prod.fst (eval (extractPageText lim J p) s) (eval (extractPageText lim J' p) s) := by
  unfold extractPageText
  refine SameBy.bind (pageFonts_leak lim J J' p s) ?_
  rintro ⟨fs, K⟩ ⟨_, K'⟩ s rfl
  refine SameBy.bind (getPageContents_leak lim K K' p s) ?_
  rintro ⟨cs, K⟩ ⟨_, K'⟩ s rfl
  refine SameBy.bind (SameBy.refl id _) ?_
  rintro tfs _ s rfl
  refine SameBy.bind (SameBy.refl id _) ?_
  rintro t _ s rfl
  rfl

/-- The text of a page is the same for every document that shows the same objects, and whatever was listed before. -/
theorem extract_same [Zlib] {d d' : Doc} (hc : Coherent d) (hc' : Coherent d') (hs : storeOf d' = storeOf d) (lim : Nat)
    (J J' : Dict) (p : Int) :
    (∃ e, (extractPageText lim J p).run d = .error e ∧ (extractPageText lim J' p).run d' = .error e) ∨
    ∃ t K K' d1 d2, (extractPageText lim J p).run d = .ok ((t, K), d1) ∧
      (extractPageText lim J' p).run d' = .ok ((t, K'), d2) ∧ Coherent d2 ∧ storeOf d2 = storeOf d := by
  rcases (extractPageText_leak lim J J' p (storeOf d)).cases with ⟨e, h1, h2⟩ | ⟨⟨t, K⟩, ⟨t', K'⟩, s, h1, h2, h3⟩
  · have r1 := run_readOnly (readOnly_extract lim J p) hc
    have r2 := run_readOnly (readOnly_extract lim J' p) hc'
    rw [h1] at r1
    rw [hs, h2] at r2
    exact .inl ⟨e, r1, r2⟩
  · obtain ⟨d1, k1, -, -⟩ := run_readOnly_ok (readOnly_extract lim J p) hc h1
    rw [← hs] at h2
    obtain ⟨d2, k2, k3, k4⟩ := run_readOnly_ok (readOnly_extract lim J' p) hc' h2
    simp only at h3
    subst h3
    exact .inr ⟨t, K, K', d1, d2, k1, k2, k3, k4.trans hs⟩

end Pdf
