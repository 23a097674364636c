/-
**C113** The operations on pages leave the text of the pages alone: rotation, removal of other pages, concatenation.
-/
import Verif.Props.C32_Rotate
import Verif.Props.C33_Remove
import Verif.Props.C35_Slice
import Verif.Props.C36_Concat
import Verif.Props.C112_TextFile
import Verif.Lemmas.SimEdit

namespace Pdf
open Spec PageTree Prog

/-! ### Documents -/

theorem sim_text [Zlib] {d d' : Doc} (hc : Coherent d) (hc' : Coherent d') {V R : Obj → Obj → Prop}
    (A : Agree (storeOf d) (storeOf d') V R) {lim lim' : Nat} {i j : Int}
    (hp : PagesAgree (storeOf d) (storeOf d') R (fun _ _ => True) lim lim' i j) (J J' : Dict) {T : Str}
    (h : ((extractPageText lim J i).run d).map (fun r => r.1.1) = .ok T) :
    ((extractPageText lim' J' j).run d').map (fun r => r.1.1) = .ok T := by
  have h1 := run_readOnly (readOnly_extract lim J i) hc
  cases he : eval (extractPageText lim J i) (storeOf d) with
  | error e =>
    rw [he] at h1
    simp only at h1
    rw [h1] at h
    cases h
  | ok r =>
    obtain ⟨a, t⟩ := r
    rw [he] at h1
    obtain ⟨rfl, d1, h2, -⟩ := h1
    rw [h2] at h
    cases h
    obtain ⟨-, b, h3, h4⟩ := ag_extract A hp (J := J) (J' := J') trivial a _ he
    obtain ⟨d2, h5, -⟩ := run_readOnly_ok (readOnly_extract lim' J' j) hc' h3
    rw [h5]
    exact congrArg Except.ok h4.symm

theorem near_symm {a b : Obj} (h : Near a b) : Near b a := by
  rcases h with rfl | ⟨d, d', rfl, rfl, h1, h2, h3⟩
  · exact .inl rfl
  · exact .inr ⟨d', d, rfl, rfl, h2, h1, fun k hk => (h3 k hk).symm⟩

/-- All the objects of the first map are about the same in the second one. -/
theorem safe_all {s s' : Store} (h : ∀ n v, s.val n = .ok v → ∃ w, s'.val n = .ok w ∧ Near v w) : Safe s s' (fun _ => True) where
  null := trivial
  dw := trivial
  entry := fun _ _ _ => trivial
  item := fun _ _ => trivial
  font := fun _ _ _ => trivial
  fetch := by
    intro a v _ hv
    refine ⟨trivial, ?_⟩
    cases a with
    | ref g n =>
      simp only [Store.get] at hv ⊢
      split at hv
      · cases hv
      · rename_i hn
        rw [if_neg hn]
        exact h _ _ hv
    | _ => cases hv; exact ⟨_, rfl, .inl rfl⟩

/-! ### Negative page numbers -/

theorem pyIndex_back {α : Type} {l : List α} {n k : Nat} (hl : l.length = n) (h1 : 1 ≤ k) (h2 : k ≤ n) :
    pyIndex l (-(k : Int)) = pyIndex l ((n - k : Nat) : Int) := by
  unfold pyIndex
  rw [if_neg (by omega), if_pos (by omega), if_pos (by omega)]
  congr 2
  omega

theorem eval_bind_congr {α β : Type} {p q : Prog α} (hp : ReadOnly p) {k l : α → Prog β} {s : Store} (hpq : eval p s = eval q s)
    (h : ∀ a, eval (k a) s = eval (l a) s) : eval (p >>= k) s = eval (q >>= l) s := by
  cases he : eval p s with
  | error e => rw [eval_bind, eval_bind, ← hpq, he]; rfl
  | ok r =>
    obtain ⟨a, t⟩ := r
    cases eval_readOnly hp he
    rw [eval_bind_ok he, eval_bind_ok (hpq ▸ he), h a]

theorem eval_pages_back {β : Type} {s : Store} {t : PageTree} {lim k : Nat} (hd : depth t ≤ lim) (h : IsRoot s t) (h1 : 1 ≤ k)
    (h2 : k ≤ (leaves [] t).length) (J : Dict) (f : List (Obj × Dict) × Dict → Obj × Dict → Prog β) :
    eval (flatPageTree lim .null J none >>= fun r => lift (pyIndex r.1 (-(k : Int))) >>= f r) s =
      eval (flatPageTree lim .null J none >>= fun r => lift (pyIndex r.1 (((leaves [] t).length - k : Nat) : Int)) >>= f r) s := by
  obtain ⟨l, K, e1, e2, -⟩ := flatPageTree_root (leak := J) hd h
  rw [eval_bind_ok e1, eval_bind_ok e1]
  simp only
  rw [pyIndex_back e2.len.symm h1 h2]

/-- **C113, negative page numbers.** The text of page `-k` is that of the page at `n - k`, for `n` pages: with this the theorems on the
texts hold of the negative page numbers too. -/
theorem C113_negative [Zlib] {d : Doc} (hc : Coherent d) {t : PageTree} (h : IsRoot (storeOf d) t) {lim k : Nat} (hd : depth t ≤ lim)
    (h1 : 1 ≤ k) (h2 : k ≤ (leaves [] t).length) (J : Dict) :
    ((extractPageText lim J (-(k : Int))).run d).map (fun r => r.1.1) =
      ((extractPageText lim J (((leaves [] t).length - k : Nat) : Int)).run d).map (fun r => r.1.1) := by
  have hf : ∀ J, eval (pageFonts lim J (-(k : Int))) (storeOf d) =
      eval (pageFonts lim J (((leaves [] t).length - k : Nat) : Int)) (storeOf d) := by
    intro J
    unfold pageFonts
    exact eval_pages_back hd h h1 h2 J _
  have hg : ∀ J, eval (getPageContents lim J (-(k : Int))) (storeOf d) =
      eval (getPageContents lim J (((leaves [] t).length - k : Nat) : Int)) (storeOf d) := by
    intro J
    unfold getPageContents
    exact eval_pages_back hd h h1 h2 J _
  have he : eval (extractPageText lim J (-(k : Int))) (storeOf d) =
      eval (extractPageText lim J (((leaves [] t).length - k : Nat) : Int)) (storeOf d) := by
    unfold extractPageText
    refine eval_bind_congr (readOnly_pageFonts _ _ _) (hf J) fun a => ?_
    exact eval_bind_congr (readOnly_getPageContents _ _ _) (hg a.2) fun _ => rfl
  have r1 := run_readOnly (readOnly_extract lim J (-(k : Int))) hc
  have r2 := run_readOnly (readOnly_extract lim J (((leaves [] t).length - k : Nat) : Int)) hc
  rw [he] at r1
  cases hx : eval (extractPageText lim J (((leaves [] t).length - k : Nat) : Int)) (storeOf d) with
  | error e =>
    rw [hx] at r1 r2
    simp only at r1 r2
    rw [r1, r2]
  | ok r =>
    obtain ⟨a, u⟩ := r
    rw [hx] at r1 r2
    obtain ⟨-, d1, q1, -⟩ := r1
    obtain ⟨-, d2, q2, -⟩ := r2
    rw [q1, q2]
    rfl

/-! ### Rotation -/

theorem near_turned {b : Dict} (hb : b ≠ []) (v : Obj) : Near (.dict b) (.dict (Dict.set b b!"/Rotate" v)) := by
  refine .inr ⟨_, _, rfl, rfl, hb, ?_, ?_⟩
  · intro h
    have := Dict.get?_set b b!"/Rotate" b!"/Rotate" v
    rw [h, if_pos rfl] at this
    cases this
  · intro k hk
    rw [Dict.get?_set, if_neg]
    rintro rfl
    revert hk
    decide

/-- **C113, rotation.** `rotate` leaves the text of each page as it was, for any angle and any selection; a page that could not be laid
out cannot be either afterwards.

Missing from the full claim: the documents that `C32_rotate_partial` leaves out. -/
theorem C113_rotate_partial [Zlib] {d : Doc} {x : Option Int} (hed : Editable d x) {t : PageTree}
    (h : IsRoot (storeOf d) t) {lim : Nat} (hd : depth t ≤ lim) (ht : Turnable t) {leak : Dict} (ho : Own leak t)
    (a : Int) (sel : List Int) :
    ∃ leak' d', (rotate lim leak a sel).run d = .ok (leak', d') ∧ ∀ (i : Nat) J J' T,
      ((extractPageText lim J i).run d).map (fun r => r.1.1) = .ok T ↔
      ((extractPageText lim J' i).run d').map (fun r => r.1.1) = .ok T := by
  obtain ⟨J, d', f, r1, r2, r3, -, -, r4, -, r5⟩ := C32_rotate_partial hed h hd ht ho a sel
  have hd' : depth (mapPages f t) ≤ lim := by rw [depth_mapPages]; exact hd
  have key : ∀ n, (storeOf d').val n = (storeOf d).val n ∨
      ∃ e e', (storeOf d).val n = .ok e ∧ (storeOf d').val n = .ok e' ∧ Near e e' := by
    intro n
    by_cases hn : ∃ i b, (leaves [] t)[i]? = some b ∧ Selected sel i ∧ n = b.1.2.toNat
    · obtain ⟨i, b, hb, hs, rfl⟩ := hn
      have k1 := leaves_type t [] h.shown b (List.mem_of_getElem? hb)
      have k2 := leaves_shown t [] h.shown b (List.mem_of_getElem? hb)
      have hb' : (leaves [] (mapPages f t))[i]? = some (b.1, Dict.set b.2.1 b!"/Rotate" (.int ((rotation b + a) % 360)), b.2.2) := by
        rw [r4, List.getElem?_mapIdx, hb]
        simp only [Option.map_some, if_pos hs]
      have k3 := leaves_shown _ [] r3.shown _ (List.mem_of_getElem? hb')
      simp only [refObj, Store.get] at k2 k3
      rw [if_neg (by omega)] at k2 k3
      refine .inr ⟨_, _, k2, k3, near_turned ?_ _⟩
      intro h0
      rw [h0] at k1
      cases k1.2
    · left
      refine r5 n fun i b hb hs he => hn ⟨i, b, hb, hs, he⟩
  have hrefs : ∀ (i : Nat), ((leaves [] (mapPages f t))[i]?).map Prod.fst = ((leaves [] t)[i]?).map Prod.fst := by
    intro i
    rw [r4, List.getElem?_mapIdx]
    cases (leaves [] t)[i]? with
    | none => rfl
    | some b =>
      simp only [Option.map_some]
      split <;> rfl
  refine ⟨J, d', r1, fun i J1 J2 T => ⟨?_, ?_⟩⟩
  · refine sim_text hed.good.coherent r2.good.coherent (safe_all ?_).agree (trees_agree hd h hd' r3 ?_) J1 J2
    · intro n v hv
      rcases key n with hk | ⟨e, e', h1, h2, h3⟩
      · exact ⟨v, hk ▸ hv, .inl rfl⟩
      · rw [h1] at hv
        cases hv
        exact ⟨e', h2, h3⟩
    · intro b hb
      have := hrefs i
      rw [hb] at this
      obtain ⟨b', hb', he⟩ := Option.map_eq_some_iff.1 this
      exact ⟨b', hb', trivial, .inl (by rw [he])⟩
  · refine sim_text r2.good.coherent hed.good.coherent (safe_all ?_).agree (trees_agree hd' r3 hd h ?_) J2 J1
    · intro n v hv
      rcases key n with hk | ⟨e, e', h1, h2, h3⟩
      · exact ⟨v, hk ▸ hv, .inl rfl⟩
      · rw [h2] at hv
        cases hv
        exact ⟨e, h1, near_symm h3⟩
    · intro b hb
      have := (hrefs i).symm
      rw [hb] at this
      obtain ⟨b', hb', he⟩ := Option.map_eq_some_iff.1 this
      exact ⟨b', hb', trivial, .inl (by rw [he])⟩

/-! ### Removal -/

/-- No font of the object has the name `/P` or `/Parent`. -/
def FontsNamed (o : Obj) : Prop :=
  ∀ p d f k r, at? p o = some (.dict d) → Dict.get? d b!"/Font" = some (.dict f) → (k, r) ∈ f → k ≠ b!"/Parent" ∧ k ≠ b!"/P"

theorem dropAt_map {α β : Type} (f : α → β) (l : List α) (del : List Int) : dropAt (l.map f) del = (dropAt l del).map f := by
  unfold dropAt
  rw [List.zipIdx_map, List.filter_map, List.map_map, List.map_map, List.length_map]
  rfl

theorem range_map_getElem? {α : Type} (l : List α) : (List.range l.length).map (fun i => l[i]?) = l.map some := by
  apply List.ext_getElem?
  intro i
  rw [List.getElem?_map, List.getElem?_map]
  by_cases h : i < l.length
  · rw [List.getElem?_range h, List.getElem?_eq_getElem h]
    simp [h]
  · rw [List.getElem?_eq_none (by simpa using h), List.getElem?_eq_none (by omega)]
    rfl

/-- The place of what is left. -/
theorem dropAt_place {α : Type} {l : List α} {del : List Int} {i j : Nat} (h : (dropAt (List.range l.length) del)[j]? = some i) :
    (∃ a, l[i]? = some a ∧ (dropAt l del)[j]? = some a) ∧ ¬ ∃ k ∈ del, Position l.length k i := by
  constructor
  · have h1 := dropAt_map (fun i => l[i]?) (List.range l.length) del
    rw [range_map_getElem?, dropAt_map] at h1
    have h2 := congrArg (fun m : List (Option α) => m[j]?) h1
    simp only [List.getElem?_map, h, Option.map_some] at h2
    obtain ⟨a, ha, he⟩ := Option.map_eq_some_iff.1 h2
    exact ⟨a, he.symm, ha⟩
  · have hm := List.mem_of_getElem? h
    unfold dropAt at hm
    obtain ⟨⟨x, n⟩, hx, rfl⟩ := List.mem_map.1 hm
    rw [List.mem_filter] at hx
    obtain ⟨h1, h2⟩ := hx
    have h3 := List.mem_zipIdx' h1
    have h4 : x = n := by
      have := h3.2
      simpa using this
    rw [List.length_range] at h2
    simp only [h4]
    exact of_decide_eq_true h2

theorem get?_at {d : Dict} {k : Bytes} {v : Obj} (h : (k, v) ∈ d) : ∃ i, ∀ p, at? (i :: p) (.dict d) = at? p v := by
  obtain ⟨i, hi⟩ := List.mem_iff_getElem?.1 h
  exact ⟨i, fun p => by simp [at?, hi]⟩

/-- What the removal changes and what is read below the pages that remain. -/
theorem remove_agree {s : Store} {t : PageTree} {lim : Nat}
    {ord : List Ref → List Ref} (hord : ∀ l, (ord l).Perm l) {leak : Dict} {del : List Int}
    (h : Removable s t lim del) (hf : ∀ n v, s.val n = .ok v → FontsNamed v) :
    ∃ J s' t', eval (removePages lim ord leak del) s = .ok (J, s') ∧ IsRoot s' t' ∧
      (leaves [] t').map shownPage = dropAt ((leaves [] t).map shownPage) del ∧
      ∀ (i j : Nat), (dropAt (List.range (leaves [] t).length) del)[j]? = some i →
        ∃ V R, Agree s s' V R ∧ PagesAgree s s' R (fun _ _ => True) lim lim i j := by
  obtain ⟨J, s', t', rs, e1, e2, e3, e4, e5, e6, e7, ⟨-, hdep⟩, e8, e9⟩ := remove_spec (leak := leak) h hord
  refine ⟨J, s', t', e1, e3, e6, fun i j hij => ?_⟩
  have hsound : Sound s t := ⟨h.root.shown, h.linked, h.nodup, h.root.isNode⟩
  have hsound' : Sound s' t' := ⟨e3.shown, e4, e5, e3.isNode⟩
  obtain ⟨⟨b, hb, hbj⟩, hkept⟩ := dropAt_place hij
  have hkp : KeptPage t del b.1 := by
    refine ⟨List.mem_map_of_mem (List.mem_of_getElem? hb), ?_⟩
    rintro ⟨k, hk, j', b', hj', hb', he⟩
    have : j' = i := nodup_index (nodup_leaves h.nodup) (x := b.1) (by rw [List.getElem?_map, hb']; simp [he])
      (by rw [List.getElem?_map, hb]; rfl)
    exact hkept ⟨k, hk, this ▸ hj'⟩
  have S : Safe s s' (fun a =>
      (∀ r, Uses false s a r → UsedBy s (KeptPage t del) r.2.toNat) ∧ FontsNamed a) := by
    have hpl : ∀ k ∈ textKeys, k ≠ b!"/Parent" ∧ k ≠ b!"/P" := by decide
    refine ⟨⟨?_, ?_⟩, ⟨?_, ?_⟩, ?_, ?_, ?_, ?_⟩
    · intro r hr; cases hr
    · intro p d f k r h0
      cases p <;> cases h0
    · intro r hr; cases hr
    · intro p d f k r h0
      cases p <;> cases h0
    · rintro e k v ⟨u1, u2⟩ hk hv
      obtain ⟨i, hi⟩ := get?_at (get?_mem hv)
      exact ⟨fun r hr => u1 r (.entry (get?_mem hv) (hpl k hk).1 (hpl k hk).2 hr),
        fun p e' f k' r h0 => u2 (i :: p) e' f k' r (by rw [hi]; exact h0)⟩
    · rintro l o ⟨u1, u2⟩ ho
      obtain ⟨i, hi⟩ := List.mem_iff_getElem?.1 ho
      exact ⟨fun r hr => u1 r (.item ho hr), fun p e' f k' r h0 => u2 (i :: p) e' f k' r (by simp [at?, hi, h0])⟩
    · rintro e f k r ⟨u1, u2⟩ hg hm
      obtain ⟨i1, hi1⟩ := get?_at (get?_mem hg)
      obtain ⟨i2, hi2⟩ := get?_at hm
      have hn := u2 [] e f k r rfl hg hm
      exact ⟨fun q hq => u1 q (.entry (get?_mem hg) (by decide) (by decide) (.entry hm hn.1 hn.2 hq)),
        fun p e' f k' r h0 => u2 (i1 :: i2 :: p) e' f k' r (by rw [hi1, hi2]; exact h0)⟩
    · rintro a v ⟨u1, u2⟩ hv
      cases a with
      | ref g n =>
        have hU : ∀ r, Uses false s v r → UsedBy s (KeptPage t del) r.2.toNat :=
          fun r hr => u1 r (.through hv hr)
        have hn1 := u1 (g, n) (.here _ _)
        simp only [Store.get] at hv ⊢
        split at hv
        · cases hv
        · rename_i hn
          rw [if_neg hn]
          refine ⟨⟨hU, hf _ _ hv⟩, ?_⟩
          by_cases hx : ∃ x ∈ nodes t, x.1.2.toNat = n.toNat
          · obtain ⟨x, hx, hxn⟩ := hx
            obtain ⟨y, hy, hxy⟩ := e7.mem x hx
            have k1 := hsound.ok x hx
            have k2 := hsound'.ok y hy
            have g1 := k1.get
            have g2 := k2.get
            have p1 := k1.pos
            rw [hxy.ref] at g2
            simp only [refObj, Store.get] at g1 g2
            rw [if_neg (by omega), hxn] at g1 g2
            rw [g1] at hv
            cases hv
            refine ⟨_, g2, .inr ⟨_, _, rfl, rfl, ?_, ?_, ?_⟩⟩
            · intro h0
              have := k1.type
              rw [h0] at this
              cases this
            · intro h0
              have := k2.type
              rw [h0] at this
              cases this
            · intro k hk
              refine hxy.other k ?_ ?_
              · rintro rfl
                revert hk
                decide
              · rintro rfl
                revert hk
                decide
          · refine ⟨v, ?_, .inl rfl⟩
            rw [(e9 n.toNat fun x hx' he => hx ⟨x, hx', he⟩).2 fun _ => hn1]
            exact hv
      | _ => cases hv; exact ⟨⟨u1, u2⟩, _, rfl, .inl rfl⟩
  refine ⟨_, _, S.agree, trees_agree h.depth h.root (Nat.le_trans hdep h.depth) e3 ?_⟩
  intro b0 hb0
  rw [hb] at hb0
  cases hb0
  have h1 := congrArg (fun m : List (Ref × Dict × List (Option Obj)) => m[j]?) e6
  simp only [dropAt_map, List.getElem?_map, hbj, Option.map_some] at h1
  obtain ⟨b', hb', he⟩ := Option.map_eq_some_iff.1 h1
  have he : b'.1 = b.1 := congrArg (fun p : Ref × Dict × List (Option Obj) => p.1) he
  refine ⟨b', hb', ⟨fun r hr => ⟨b.1, hkp, r, hr, rfl⟩, ?_⟩, .inl (by rw [he])⟩
  intro p e f k r h0
  cases p <;> cases h0

/-- **C113, removal.** The text of a page that remains is the text it had, at its new position.

Missing from the full claim: fonts named `/P` or `/Parent` (see the counterexample), and the documents that
`C33_remove_partial` leaves out. -/
theorem C113_remove_partial [Zlib] {d : Doc} {x : Option Int} (hed : Editable d x) {t : PageTree} {lim : Nat}
    {ord : List Ref → List Ref} (hord : ∀ l, (ord l).Perm l) {leak : Dict} {del : List Int}
    (h : Removable (storeOf d) t lim del) (hf : ∀ n v, (storeOf d).val n = .ok v → FontsNamed v) :
    ∃ leak' d' t', (removePages lim ord leak del).run d = .ok (leak', d') ∧ IsRoot (storeOf d') t' ∧
      (leaves [] t').map shownPage = dropAt ((leaves [] t).map shownPage) del ∧
      ∀ (i j : Nat), (dropAt (List.range (leaves [] t).length) del)[j]? = some i → ∀ J J' T,
        ((extractPageText lim J (i : Int)).run d).map (fun r => r.1.1) = .ok T →
        ((extractPageText lim J' (j : Int)).run d').map (fun r => r.1.1) = .ok T := by
  obtain ⟨J, s', t', e1, e3, e6, e7⟩ := remove_agree (leak := leak) hord h hf
  obtain ⟨d', r1, r2, rfl, -⟩ := run_eval _ hed e1
  refine ⟨J, d', t', r1, e3, e6, fun i j hij J1 J2 T => ?_⟩
  obtain ⟨V, R, A, hp⟩ := e7 i j hij
  exact sim_text hed.good.coherent r2.good.coherent A hp J1 J2

/-- **C113, slices.** The same of the pages that `doc[key]` keeps.

Missing from the full claim: as in `C113_remove_partial` and `C35_slice_partial`. -/
theorem C113_slice_partial [Zlib] {doc : Doc} {x : Option Int} (hed : Editable doc x) {t : PageTree} {lim : Nat}
    {ord : List Ref → List Ref} (hord : ∀ l, (ord l).Perm l) {leak : Dict} {n : Nat}
    (h : Removable (storeOf doc) t lim (allPages n)) (hn : n = (leaves [] t).length) (hpos : 0 < n) {r : Ref}
    {d : Dict} {kids : List PageTree} (ht : t = .node r d kids) (hc : Dict.get? d b!"/Count" = some (.int n))
    {key : Key} (hkey : ∀ a b, key ≠ .slice a b (some 0)) (hf : ∀ n v, (storeOf doc).val n = .ok v → FontsNamed v) :
    ∃ leak' doc', (getItem lim ord leak key).run doc = .ok (leak', doc') ∧
      ∀ (i j : Nat), (keepAt (List.range n) (Chosen n key))[j]? = some i → ∀ J J' T,
        ((extractPageText lim J (i : Int)).run doc).map (fun r => r.1.1) = .ok T →
        ((extractPageText lim J' (j : Int)).run doc').map (fun r => r.1.1) = .ok T := by
  obtain ⟨pages, p1, p2⟩ := keyPages_spec hpos hkey
  have hsub : Removable (storeOf doc) t lim ((allPages n).filter (· ∉ pages)) :=
    removable_sub h fun i hi => (List.mem_filter.1 hi).1
  obtain ⟨J, s', t', e1, e3, e6, e7⟩ := remove_agree (leak := leak) hord hsub hf
  have e0 : eval (getItem lim ord leak key) (storeOf doc) = .ok (J, s') := by
    unfold getItem
    show eval (numberPages >>= _) _ = _
    rw [eval_bind_ok (eval_numberPages h.root ht hc), p1, eval_bind_ok (eval_lift_ok _ _),
      keep_eval h ht hc pages]
    exact e1
  obtain ⟨d', r1, r2, rfl, -⟩ := run_eval _ hed e0
  refine ⟨J, d', r1, fun i j hij J1 J2 T => ?_⟩
  obtain ⟨V, R, A, hp⟩ := e7 i j (by
    rw [← hij, ← hn]
    congr 1
    have := dropAt_keep (l := List.range n) (pages := pages)
    rw [List.length_range] at this
    rw [this]
    unfold keepAt
    congr 1
    apply List.filter_congr
    intro p hp
    have hlt : p.2 < n := by
      have h1 := (List.mk_mem_zipIdx_iff_getElem? (x := p.1) (i := p.2) (l := List.range n)).1 hp
      have := lt_of_getElem? h1
      rwa [List.length_range] at this
    have := p2 p.2
    simp only [hlt, and_true] at this
    exact decide_eq_decide.2 this)
  exact sim_text hed.good.coherent r2.good.coherent A hp J1 J2

/-! ### Concatenation -/

/-- Every reference in the object satisfies `P`. -/
def AllRefs (P : Ref → Prop) (o : Obj) : Prop := ∀ r, Occurs r o → P r

theorem occurs_refObj {q r : Ref} (h : Occurs q (refObj r)) : q = r := by
  generalize hx : refObj r = z at h
  cases h with
  | here =>
    injection hx with h1 h2
    exact (Prod.ext h1 h2).symm
  | _ => cases hx

theorem renumberItems_pointwise {F : Ref → Ref} {P : Ref → Prop} : ∀ {l : List Obj}, AllRefs P (.list l) →
    Pointwise (fun a b => b = renumber F a ∧ AllRefs P a) l (renumberItems F l)
  | [], _ => .nil
  | _ :: _, h => .cons ⟨rfl, fun r hr => h r (.item (List.mem_cons_self ..) hr)⟩
      (renumberItems_pointwise fun r hr => by
        cases hr with
        | item h1 h2 => exact h r (.item (List.mem_cons_of_mem _ h1) h2))

theorem mem_renumberEntries {F : Ref → Ref} {k : Bytes} {r' : Obj} : ∀ {d : List (Bytes × Obj)}, (k, r') ∈ renumberEntries F d →
    ∃ r, (k, r) ∈ d ∧ r' = renumber F r
  | [], h => (List.not_mem_nil h).elim
  | (k0, v) :: d, h => by
    rcases List.mem_cons.1 h with h | h
    · cases h
      exact ⟨v, List.mem_cons_self .., rfl⟩
    · obtain ⟨r, h1, h2⟩ := mem_renumberEntries h
      exact ⟨r, List.mem_cons_of_mem _ h1, h2⟩

theorem renumber_agree {s s' : Store} {F : Ref → Ref} {P : Ref → Prop} (hpos : ∀ r, P r → 0 < r.2 ∧ 0 < (F r).2)
    (h : ∀ r v, P r → s.get (refObj r) = .ok v → s'.get (refObj (F r)) = .ok (renumber F v) ∧ AllRefs P v) :
    Agree s s' (fun a b => b = renumber F a ∧ AllRefs P a) (fun a b => b = renumber F a ∧ AllRefs P a) where
  up := fun h => h
  null := ⟨rfl, fun r hr => by cases hr⟩
  dw := ⟨rfl, fun r hr => by cases hr⟩
  truthy := by
    rintro a b ⟨rfl, ha⟩
    cases a with
    | list l => cases l <;> rfl
    | dict d => cases d <;> rfl
    | ref g n =>
      obtain ⟨h1, h2⟩ := hpos (g, n) (ha _ .here)
      have h3 : n ≠ 0 := by simp only at h1; omega
      have h4 : (F (g, n)).2 ≠ 0 := by omega
      simp only [renumber, truthy]
      rw [show (n != 0) = true from bne_iff_ne.2 h3, show ((F (g, n)).2 != 0) = true from bne_iff_ne.2 h4, Bool.or_true, Bool.or_true]
    | _ => rfl
  fetch := by
    rintro a b v ⟨rfl, ha⟩ hv
    cases a with
    | ref g n =>
      obtain ⟨h1, h2⟩ := h (g, n) v (ha _ .here) hv
      exact ⟨_, h1, rfl, h2⟩
    | _ => cases hv; exact ⟨_, rfl, rfl, ha⟩
  dict := by
    rintro d b ⟨rfl, ha⟩
    refine ⟨renumberEntries F d, rfl, fun k _ => ?_⟩
    rw [renumberEntries_get]
    exact ⟨fun v hv => ⟨renumber F v, by rw [hv]; rfl, rfl, fun r hr => ha r (.entry (get?_mem hv) hr)⟩, fun hn => by rw [hn]; rfl⟩
  list := by
    rintro l b ⟨rfl, ha⟩
    exact ⟨_, rfl, renumberItems_pointwise ha⟩
  list' := by
    rintro a l ⟨hb, -⟩
    cases a <;> cases hb
    exact ⟨_, rfl⟩
  ref := by
    rintro g n b ⟨rfl, -⟩
    exact ⟨_, _, rfl⟩
  stream := by
    rintro a b x ⟨rfl, -⟩ hx
    cases a <;> exact hx
  rat := by
    rintro a b ⟨rfl, -⟩
    cases a <;> rfl
  kw := by
    rintro a b ⟨rfl, -⟩ k
    cases a <;> rfl
  int := fun h => h.1
  int' := by
    rintro n a ⟨hb, -⟩
    cases a <;> cases hb
    rfl
  isNull := fun h => h.1
  isNull' := by
    rintro a ⟨hb, -⟩
    cases a <;> cases hb
    rfl
  fonts := by
    rintro d b v e ⟨rfl, ha⟩ hv he
    have hv' : Dict.get? (renumberEntries F d) b!"/Font" = some (renumber F v) := by rw [renumberEntries_get, hv]; rfl
    have ha' : AllRefs P v := fun r hr => ha r (.entry (get?_mem hv) hr)
    refine ⟨renumberEntries F d, renumber F v, ?_⟩
    cases v with
    | dict f =>
      cases he
      refine ⟨renumberEntries F e, rfl, hv', rfl, ?_, ?_⟩
      · intro k r' hm
        obtain ⟨r, h1, h2⟩ := mem_renumberEntries hm
        exact ⟨r, h1, h2, fun q hq => ha' q (.entry h1 hq)⟩
      · intro k
        rw [renumberEntries_get]
        exact ⟨fun w hw => ⟨renumber F w, by rw [hw]; rfl, rfl, fun r hr => ha' r (.entry (get?_mem hw) hr)⟩, fun hn => by rw [hn]; rfl⟩
    | list l =>
      cases l with
      | nil =>
        cases he
        exact ⟨[], rfl, hv', rfl, fun _ _ h => (List.not_mem_nil h).elim, fun k => ⟨fun v hv => (nomatch hv), fun _ => rfl⟩⟩
      | cons _ _ => cases he
    | _ => cases he

mutual
theorem leaves_allowed {s : Store} {P : Ref → Prop} (h : ∀ r v, P r → s.get (refObj r) = .ok v → AllRefs P v) :
    ∀ (t : PageTree) (anc : List Dict), P t.ref → Shown s t → ∀ b ∈ leaves anc t, P b.1
  | .page r d, anc, hp, _, b, hb => by
    simp only [leaves, List.mem_singleton] at hb
    subst hb
    exact hp
  | .node r d kids, anc, hp, hs, b, hb => by
    obtain ⟨h1, h2, h3, h4, h5⟩ := hs
    refine leavesAll_allowed h kids _ ?_ h5 b hb
    intro t ht
    refine h r _ hp h2 t.ref (.entry (get?_mem h4) (.item (o := refObj t.ref) ?_ .here))
    exact List.mem_map.2 ⟨t, ht, rfl⟩
theorem leavesAll_allowed {s : Store} {P : Ref → Prop} (h : ∀ r v, P r → s.get (refObj r) = .ok v → AllRefs P v) :
    ∀ (ts : List PageTree) (anc : List Dict), (∀ t ∈ ts, P t.ref) → ShownAll s ts → ∀ b ∈ leavesAll anc ts, P b.1
  | [], _, _, _, b, hb => by simp [leavesAll] at hb
  | t :: ts, anc, hp, hs, b, hb => by
    simp only [leavesAll, List.mem_append] at hb
    rcases hb with hb | hb
    · exact leaves_allowed h t anc (hp t (List.mem_cons_self ..)) hs.1 b hb
    · exact leavesAll_allowed h ts anc (fun t ht => hp t (List.mem_cons_of_mem _ ht)) hs.2 b hb
end

/-- **C113, concatenation.** The texts of the pages of the result are those of the first document followed by those of the second
one.

Missing from the full claim: the documents that `C36_concat_partial` leaves out. -/
theorem C113_concat_partial [Zlib] {target source : Doc} {x y : Option Int} {t1 t2 : PageTree} {c1 c2 : Int} {L : List Nat}
    {f F : Ref → Ref} {nr lim : Nat} (ht : Editable target x) (hs : Editable source y)
    (hroot : IsRoot (storeOf target) t1) (hrt : RootOk t1 c1)
    (hc : Copyable source y L f nr t2 c2)
    (hF : SentTo source target.cur.length (L.filter (· ≠ nr)) F) (h1 : depth t1 ≤ lim) (h2 : depth t2 + 1 ≤ lim) :
    ∃ res, concat target source = .ok res ∧
      (∀ (i : Nat) J J' T, ((extractPageText lim J (i : Int)).run target).map (fun r => r.1.1) = .ok T →
        ((extractPageText lim J' (i : Int)).run res).map (fun r => r.1.1) = .ok T) ∧
      ∀ (i : Nat) J J' T, ((extractPageText lim J (i : Int)).run source).map (fun r => r.1.1) = .ok T →
        ((extractPageText lim J' (((leaves [] t1).length + i : Nat) : Int)).run res).map (fun r => r.1.1) = .ok T := by
  obtain ⟨r, d, kids, res, rfl, e1, e2, e3, hok⟩ := concat_spec true ht hs hroot hrt hc hF
  have hdep : depth (joinedTree true r d kids (renumberTree F t2) (c1 + c2)) ≤ lim := by
    simp only [joinedTree, depth, if_true, depths_append, depths, depth_renumber] at h1 ⊢
    omega
  have hdep2 : depth t2 ≤ lim := by omega
  have hp := congrArg (List.map Prod.fst) (pageList_joined true r d kids t2 (c1 + c2) F)
  simp only [if_true, pageList, List.map_append, List.map_map] at hp
  have hrefs : (leaves [] (joinedTree true r d kids (renumberTree F t2) (c1 + c2))).map Prod.fst =
      (leaves [] (.node r d kids)).map Prod.fst ++ (leaves [] t2).map (fun b => F b.1) := hp
  refine ⟨res, e1, ?_, ?_⟩
  · intro i J J' T
    refine sim_text ht.good.coherent e2.good.coherent (safe_all ?_).agree (trees_agree h1 hroot hdep e3.pages ?_) J J'
    · intro n v hv
      by_cases hn : n = r.2.toNat
      · subst hn
        have g1 := hroot.shown.2.1
        have g2 := e3.pages.shown.2.1
        rw [get_refObj hroot.shown.1] at g1 g2
        rw [g1] at hv
        cases hv
        refine ⟨_, g2, .inr ⟨_, _, rfl, rfl, ?_, ?_, ?_⟩⟩
        · intro h0
          have := hroot.shown.2.2.1
          rw [h0] at this
          cases this
        · intro h0
          have := e3.pages.shown.2.2.1
          rw [h0] at this
          cases this
        · intro k hk
          unfold joinedDict
          rw [Dict.get?_set, if_neg, Dict.get?_set, if_neg]
          · rintro rfl
            revert hk
            decide
          · rintro rfl
            revert hk
            decide
      · exact ⟨v, by rw [e3.kept n (storeOf_fresh target n v hv) hn]; exact hv, .inl rfl⟩
    · intro b hb
      have := congrArg (fun m : List Ref => m[i]?) hrefs
      simp only [List.getElem?_map] at this
      rw [List.getElem?_append_left (by simpa using (List.getElem?_eq_some_iff.1 hb).1), List.getElem?_map, hb] at this
      obtain ⟨b', hb', he⟩ := Option.map_eq_some_iff.1 this
      exact ⟨b', hb', trivial, .inl (by rw [he])⟩
  · intro i J J' T
    have hP : ∀ q v, (∃ m, m ∈ L ∧ m ≠ nr ∧ q = refTo source m) → (storeOf source).get (refObj q) = .ok v →
        (storeOf res).get (refObj (F q)) = .ok (renumber F v) ∧
        AllRefs (fun q => ∃ m, m ∈ L ∧ m ≠ nr ∧ q = refTo source m) v := by
      rintro q v ⟨m, m1, m2, rfl⟩ hq
      have hm := (hc.ranks.live m).1 m1
      rw [get_refObj (by show (0 : Int) < (m : Int); omega)] at hq
      have hq : (storeOf source).val m = .ok v := hq
      obtain ⟨j, hj⟩ := List.mem_iff_getElem?.1 (List.mem_filter.2 ⟨m1, by simpa using m2⟩ : m ∈ L.filter (· ≠ nr))
      refine ⟨?_, fun q' hq' => copyable_ref hc m1 hq hq'⟩
      have hpos : 0 < target.cur.length := ht.pos
      rw [show F (refTo source m) = _ from hF j m hj,
        get_refObj (by show (0 : Int) < ((target.cur.length + j : Nat) : Int); omega)]
      have := e3.copied j m hj
      rw [hq] at this
      exact this
    have hpos : ∀ q, (∃ m, m ∈ L ∧ m ≠ nr ∧ q = refTo source m) → 0 < q.2 ∧ 0 < (F q).2 := by
      rintro q ⟨m, m1, m2, rfl⟩
      have hm := (hc.ranks.live m).1 m1
      obtain ⟨j, hj⟩ := List.mem_iff_getElem?.1 (List.mem_filter.2 ⟨m1, by simpa using m2⟩ : m ∈ L.filter (· ≠ nr))
      have hlen : 0 < target.cur.length := ht.pos
      rw [show F (refTo source m) = _ from hF j m hj]
      refine ⟨?_, ?_⟩
      · show (0 : Int) < (m : Int)
        omega
      · show (0 : Int) < ((target.cur.length + j : Nat) : Int)
        omega
    refine sim_text hs.good.coherent e2.good.coherent (renumber_agree hpos hP) (trees_agree hdep2 hc.pages hdep e3.pages ?_) J J'
    intro b hb
    have hb1 : ∃ m, m ∈ L ∧ m ≠ nr ∧ b.1 = refTo source m :=
      leaves_allowed (fun q v hq hv => (hP q v hq hv).2) t2 [] (copyable_root hc) hc.pages.shown b (List.mem_of_getElem? hb)
    have := congrArg (fun m : List Ref => m[(leaves [] (.node r d kids)).length + i]?) hrefs
    simp only [List.getElem?_map] at this
    rw [List.getElem?_append_right (by simp), List.length_map, Nat.add_sub_cancel_left, List.getElem?_map, hb] at this
    obtain ⟨b', hb', he⟩ := Option.map_eq_some_iff.1 this
    refine ⟨b', hb', by rw [he]; rfl, ?_⟩
    intro q hq
    rw [occurs_refObj hq]
    exact hb1

/-! ### Samples -/

/-- Three pages with text; the last two share a font. `k` is its name in the second page. -/
def paperObjs (k : Bytes) : List Obj :=
  [.dict [(b!"/Root", .ref 0 1)],
   .dict [(b!"/Type", .str b!"/Catalog"), (b!"/Pages", .ref 0 2)],
   .dict [(b!"/Type", .str b!"/Pages"), (b!"/Kids", .list [.ref 0 3, .ref 0 4, .ref 0 5]), (b!"/Count", .int 3),
     (b!"/MediaBox", .list [.int 0, .int 0, .int 595, .int 842])],
   .dict [(b!"/Type", .str b!"/Page"), (b!"/Parent", .ref 0 2), (b!"/Resources", .dict [(b!"/Font", .dict [(b!"/F1", .ref 0 6)])]),
     (b!"/Contents", .ref 0 8)],
   .dict [(b!"/Type", .str b!"/Page"), (b!"/Parent", .ref 0 2), (b!"/Resources", .dict [(b!"/Font", .dict [(k, .ref 0 7)])]),
     (b!"/Contents", .ref 0 9)],
   .dict [(b!"/Type", .str b!"/Page"), (b!"/Parent", .ref 0 2), (b!"/Resources", .dict [(b!"/Font", .dict [(b!"/F1", .ref 0 7)])]),
     (b!"/Contents", .ref 0 8)],
   .dict [(b!"/Subtype", .str b!"/Type1"), (b!"/BaseFont", .str b!"/Helvetica"), (b!"/FirstChar", .int 72), (b!"/Widths", .list [.int 722, .int 278])],
   .dict [(b!"/Subtype", .str b!"/Type1"), (b!"/BaseFont", .str b!"/Times"), (b!"/FirstChar", .int 72), (b!"/Widths", .list [.int 722, .int 278])],
   .stream [(b!"/Length", .int 33)] b!"BT /F1 10 Tf 72 700 Td (HI) Tj ET" b!"BT /F1 10 Tf 72 700 Td (HI) Tj ET",
   .stream [(b!"/Length", .int 32)] (b!"BT " ++ k ++ b!" 10 Tf 72 700 Td (IH) Tj ET") (b!"BT " ++ k ++ b!" 10 Tf 72 700 Td (IH) Tj ET")]

def paperTree (k : Bytes) : PageTree :=
  .node (0, 2) [(b!"/Type", .str b!"/Pages"), (b!"/Kids", .list [.ref 0 3, .ref 0 4, .ref 0 5]), (b!"/Count", .int 3),
     (b!"/MediaBox", .list [.int 0, .int 0, .int 595, .int 842])]
   [.page (0, 3) [(b!"/Type", .str b!"/Page"), (b!"/Parent", .ref 0 2), (b!"/Resources", .dict [(b!"/Font", .dict [(b!"/F1", .ref 0 6)])]),
     (b!"/Contents", .ref 0 8)],
    .page (0, 4) [(b!"/Type", .str b!"/Page"), (b!"/Parent", .ref 0 2), (b!"/Resources", .dict [(b!"/Font", .dict [(k, .ref 0 7)])]),
     (b!"/Contents", .ref 0 9)],
    .page (0, 5) [(b!"/Type", .str b!"/Page"), (b!"/Parent", .ref 0 2), (b!"/Resources", .dict [(b!"/Font", .dict [(b!"/F1", .ref 0 7)])]),
     (b!"/Contents", .ref 0 8)]]

/-- `Within`, by evaluation. -/
def withinB (objs : List Obj) : Nat → Obj → Bool
  | 0, _ => false
  | k + 1, .ref _ n => if n < 0 then false else match objs[n.toNat]? with
    | some o => withinB objs k o
    | none => false
  | k + 1, .list l => l.all (withinB objs k)
  | k + 1, .dict d => d.all fun e => decide (e.1 = b!"/Parent") || decide (e.1 = b!"/P") || withinB objs k e.2
  | _ + 1, _ => true

theorem withinB_spec {objs : List Obj} : ∀ (k : Nat) (o : Obj), withinB objs k o = true → Within (memStore objs) k o
  | 0, _, h => by cases h
  | k + 1, o, h => by
    cases o with
    | ref g n =>
      simp only [withinB] at h
      split at h
      · cases h
      · rename_i hn
        split at h
        · rename_i o ho
          refine ⟨o, ?_, withinB_spec k o h⟩
          simp only [Store.get, memStore]
          rw [if_neg hn, ho]
        · cases h
    | list l => exact fun o ho => withinB_spec k o (List.all_eq_true.1 h o ho)
    | dict d =>
      intro key v hm h1 h2
      have h3 := List.all_eq_true.1 h (key, v) hm
      simp only [h1, h2, decide_false, Bool.false_or] at h3
      exact withinB_spec k v h3
    | _ => trivial

theorem paper_root [Zlib] (k : Bytes) : IsRoot (memStore (paperObjs k)) (paperTree k) :=
  ⟨⟨by decide, rfl, rfl, rfl, ⟨by decide, rfl, rfl⟩, ⟨by decide, rfl, rfl⟩, ⟨by decide, rfl, rfl⟩, trivial⟩, ⟨_, _, _, rfl⟩, _, _, _, rfl, rfl, rfl, rfl⟩

theorem paper_uses : ∀ b ∈ leaves [] (paperTree b!"/F2"), Within (memStore (paperObjs b!"/F2")) 10 (refObj b.1) ∧
    ∀ g n, Uses false (memStore (paperObjs b!"/F2")) (refObj b.1) (g, n) → g = 0 ∧ n ≠ 2 := by
  have hdep : ∀ r L, eval (dependencies 10 (refObj r)) (memStore (paperObjs b!"/F2")) = .ok (L, memStore (paperObjs b!"/F2")) →
      (∀ q ∈ L, q.1 = 0 ∧ q.2 ≠ 2) → ∀ g n, Uses false (memStore (paperObjs b!"/F2")) (refObj r) (g, n) → g = 0 ∧ n ≠ 2 := by
    intro r L hL hall g n hu
    exact hall (g, n) ((dependencies_spec _ _ _ _ hL _).2 hu)
  intro b hb
  simp only [paperTree, leaves, leavesAll, List.append_nil, List.cons_append, List.nil_append,
    List.mem_cons, List.not_mem_nil, or_false] at hb
  rcases hb with rfl | rfl | rfl
  · exact ⟨withinB_spec _ _ rfl, hdep _ [(0, 3), (0, 6), (0, 8)] (by kernel_rfl) (by decide)⟩
  · exact ⟨withinB_spec _ _ rfl, hdep _ [(0, 4), (0, 7), (0, 9)] (by kernel_rfl) (by decide)⟩
  · exact ⟨withinB_spec _ _ rfl, hdep _ [(0, 5), (0, 7), (0, 8)] (by kernel_rfl) (by decide)⟩

theorem paper_removable [Zlib] {del : List Int} (hdel : ∀ i ∈ del, ∃ j, Position 3 i j) :
    Removable (memStore (paperObjs b!"/F2")) (paperTree b!"/F2") 10 del := by
  refine ⟨paper_root _, ⟨rfl, ⟨_, rfl⟩, rfl, rfl, rfl, trivial⟩, by decide, by decide, hdel, ?_, ?_, ?_⟩
  · exact fun b hb => (paper_uses b hb).1
  · intro b hb b' hb' g g' n hu hu'
    rw [((paper_uses b hb).2 g n hu).1, ((paper_uses b' hb').2 g' n hu').1]
  · rintro r ⟨i, hi, j, b, hj, hb, rfl⟩ x hx g hu
    have h1 := (paper_uses b (List.mem_of_getElem? hb)).2 g _ hu
    simp only [paperTree, nodes, nodesAll, List.append_nil, List.mem_cons, List.not_mem_nil, or_false] at hx
    subst hx
    exact h1.2 rfl

/-- `FontsNamed`, by evaluation. -/
def namedB : Nat → Obj → Bool
  | 0, _ => false
  | k + 1, .list l => l.all (namedB k)
  | k + 1, .dict d => (match Dict.get? d b!"/Font" with
      | some (.dict f) => f.all fun e => decide (e.1 ≠ b!"/Parent" ∧ e.1 ≠ b!"/P")
      | _ => true) && d.all fun e => namedB k e.2
  | k + 1, .stream d _ _ => d.all fun e => namedB k e.2
  | _ + 1, _ => true

theorem namedB_spec : ∀ (k : Nat) (o : Obj), namedB k o = true → FontsNamed o
  | 0, _, h => by cases h
  | k + 1, o, h => by
    intro p d f key r hp hf hm
    cases p with
    | nil =>
      cases hp
      simp only [namedB, hf, Bool.and_eq_true] at h
      exact of_decide_eq_true (List.all_eq_true.1 h.1 _ hm)
    | cons i p =>
      cases o with
      | list l =>
        simp only [at?, Option.bind_eq_some_iff] at hp
        obtain ⟨o, ho, hp⟩ := hp
        exact namedB_spec k o (List.all_eq_true.1 h o (List.mem_of_getElem? ho)) p d f key r hp hf hm
      | dict e =>
        simp only [at?, Option.bind_eq_some_iff] at hp
        obtain ⟨o, ho, hp⟩ := hp
        simp only [namedB, Bool.and_eq_true] at h
        exact namedB_spec k o.2 (List.all_eq_true.1 h.2 o (List.mem_of_getElem? ho)) p d f key r hp hf hm
      | stream e _ _ =>
        simp only [at?, Option.bind_eq_some_iff] at hp
        obtain ⟨o, ho, hp⟩ := hp
        exact namedB_spec k o.2 (List.all_eq_true.1 h o (List.mem_of_getElem? ho)) p d f key r hp hf hm
      | _ => cases hp

/-- The hypotheses of the theorems hold of the sample. -/
example [Zlib] : Editable (memDoc (paperObjs b!"/F2")) none ∧ IsRoot (storeOf (memDoc (paperObjs b!"/F2"))) (paperTree b!"/F2") ∧
    Turnable (paperTree b!"/F2") ∧ Own [] (paperTree b!"/F2") ∧ Removable (storeOf (memDoc (paperObjs b!"/F2"))) (paperTree b!"/F2") 10 [1, -1] ∧
    ∀ n v, (storeOf (memDoc (paperObjs b!"/F2"))).val n = .ok v → FontsNamed v := by
  rw [memDoc_store (by simp [paperObjs])]
  refine ⟨memDoc_editable (by simp [paperObjs]) rfl, paper_root _, ⟨by decide, ?_⟩, Own.nil _, paper_removable ?_, ?_⟩
  · intro b hb
    simp only [paperTree, leaves, leavesAll, List.append_nil, List.cons_append, List.nil_append,
      List.mem_cons, List.not_mem_nil, or_false] at hb
    rcases hb with rfl | rfl | rfl <;> exact ⟨.inr rfl, by decide, .inl rfl⟩
  · intro i hi
    simp only [List.mem_cons, List.not_mem_nil, or_false] at hi
    rcases hi with rfl | rfl
    · exact ⟨1, by decide⟩
    · exact ⟨2, by decide⟩
  · intro n v hv
    have hall : (paperObjs b!"/F2").all (namedB 10) = true := by kernel_rfl
    simp only [memStore] at hv
    cases ho : (paperObjs b!"/F2")[n]? with
    | none => rw [ho] at hv; cases hv
    | some o =>
      rw [ho] at hv
      cases hv
      exact namedB_spec 10 _ (List.all_eq_true.1 hall _ (List.mem_of_getElem? ho))

/-- The text of the last page but one. -/
example [Zlib] : ((extractPageText 1000 [] (-2)).run (memDoc (paperObjs b!"/F2"))).map (fun r => r.1.1) = .ok ("IH\n".toList.map Char.toNat) := by
  kernel_rfl

/-- The texts of the other two pages after the second one is removed and they are turned. -/
example [Zlib] : (do
    let (_, d) ← (removePages 1000 id [] [1]).run (memDoc (paperObjs b!"/F2"))
    let (_, d) ← (rotate 1000 [] 90 []).run d
    let ((m, _), d) ← (extractPageText 1000 [] 0).run d
    let ((m', _), _) ← (extractPageText 1000 [] 1).run d
    return (m, m')) = .ok ("HI\n".toList.map Char.toNat, "HI\n".toList.map Char.toNat) := by
  kernel_rfl

/-- **C113 is false of a font that has the name `/P`**: the entry is taken for a link to the page, and the font is deleted with the other
page that uses it. -/
theorem C113_name_counterexample [Zlib] :
    ((extractPageText 1000 [] 1).run (memDoc (paperObjs b!"/P"))).map (fun r => r.1.1) = .ok ("IH\n".toList.map Char.toNat) ∧
    ((removePages 1000 id [] [2]).run (memDoc (paperObjs b!"/P")) >>= fun r =>
      ((extractPageText 1000 [] 1).run r.2).map (fun r => r.1.1)) = .error .typeError := by
  constructor <;> kernel_rfl

/-- The texts of a document that is joined to itself. -/
example [Zlib] : (do
    let d ← concat (gapDoc (paperObjs b!"/F2")) (gapDoc (paperObjs b!"/F2"))
    let ((m, _), d) ← (extractPageText 1000 [] 1).run d
    let ((m', _), _) ← (extractPageText 1000 [] 4).run d
    return (m, m')) = .ok ("IH\n".toList.map Char.toNat, "IH\n".toList.map Char.toNat) := by
  kernel_rfl

end Pdf
