/-
C32: rotating pages.
-/
import Verif.Lemmas.PageMap
import Verif.Props.C29_Pages

namespace Pdf
open Spec Spec.PageTree

/-- What `page.get('/Rotate')` gives for an effective page. -/
def rotObj (b : Ref × Dict × List Dict) : Obj :=
  ((Dict.get? b.2.1 b!"/Rotate").or (nearest b!"/Rotate" b.2.2)).getD .null

/-- The page has a rectangle, and its rotation is an integer or is not defined. -/
structure Rotatable (b : Ref × Dict × List Dict) : Prop where
  box : (Dict.get? b.2.1 b!"/MediaBox").isSome ∨ (nearest b!"/MediaBox" b.2.2).isSome
  notNull : Dict.get? b.2.1 b!"/Rotate" ≠ some .null
  int : nearest b!"/Rotate" (b.2.1 :: b.2.2) = none ∨ ∃ n, nearest b!"/Rotate" (b.2.1 :: b.2.2) = some (.int n)

theorem rotObj_eq {b : Ref × Dict × List Dict} (h : Rotatable b) :
    rotObj b = (nearest b!"/Rotate" (b.2.1 :: b.2.2)).getD .null := by
  unfold rotObj nearest
  rw [List.findSome?_cons]
  have hn := h.notNull
  unfold entry?
  cases hg : Dict.get? b.2.1 b!"/Rotate" with
  | none => rfl
  | some v =>
    cases v <;> first
      | rfl
      | (rw [hg] at hn; exact absurd rfl hn)

theorem addDegrees_rot {b : Ref × Dict × List Dict} (h : Rotatable b) (a : Int) :
    addDegrees (rotObj b) a = .ok (.int ((rotation b + a) % 360)) := by
  rw [rotObj_eq h]
  unfold rotation
  rcases h.int with hn | ⟨n, hn⟩
  · rw [hn]; simp [addDegrees]
  · rw [hn]; simp [addDegrees]

theorem layouts_mapM {pl : List Obj} {m : List (Ref × Dict × List Dict)}
    (h : Pointwise (fun o b => ∃ e, o = .dict e ∧ ∀ k, Dict.get? e k =
      (Dict.get? b.2.1 k).or (if k ∈ inheritable then nearest k b.2.2 else none)) pl m)
    (hr : ∀ b ∈ m, Rotatable b) :
    ∃ lays, pl.mapM layoutOf = .ok lays ∧ Pointwise (fun x b => x.2 = rotObj b) lays m := by
  induction h with
  | nil => exact ⟨[], rfl, .nil⟩
  | @cons o b pl m hob _ ih =>
    obtain ⟨lays, h1, h2⟩ := ih fun b hb => hr b (by simp [hb])
    obtain ⟨e, rfl, he⟩ := hob
    have hbox : (Dict.get? e b!"/MediaBox").isSome := by
      rw [he, if_pos (by decide)]
      rcases (hr b (by simp)).box with h | h
      · cases hg : Dict.get? b.2.1 b!"/MediaBox" with
        | none => rw [hg] at h; cases h
        | some v => rfl
      · cases Dict.get? b.2.1 b!"/MediaBox" with
        | none => exact h
        | some v => rfl
    obtain ⟨v, hv⟩ := Option.isSome_iff_exists.1 hbox
    refine ⟨(v, rotObj b) :: lays, ?_, .cons rfl h2⟩
    rw [List.mapM_cons, h1]
    have hrot : Dict.get? e b!"/Rotate" = (Dict.get? b.2.1 b!"/Rotate").or (nearest b!"/Rotate" b.2.2) := by
      rw [he, if_pos (by decide)]
    simp only [layoutOf, getKey, hv, orRaise, getOr, hrot, bind, Except.bind, pure, Except.pure]
    rfl

theorem pageLayouts_spec {s : Store} {leak : Dict} {lim : Nat} {t : PageTree} (hd : depth t ≤ lim) (h : IsRoot s t)
    (ho : Own leak t) (hr : ∀ b ∈ leaves [] t, Rotatable b) :
    ∃ lays J, eval (pageLayouts lim leak none) s = .ok ((lays, J), s) ∧ Own J t ∧
      Pointwise (fun x b => x.2 = rotObj b) lays (leaves [] t) := by
  obtain ⟨l, J, h1, h2, h3⟩ := eval_flat_own hd h ho
  obtain ⟨pl, h4, h5⟩ := pagesLoop_gen
    (g := fun b k => if k ∈ inheritable then nearest k b.2.2 else none) h3 (leaves_shown t [] h.shown)
  obtain ⟨lays, h6, h7⟩ := layouts_mapM h5 hr
  refine ⟨lays, J, ?_, h2, h7⟩
  have h8 : eval (pagesP lim leak none) s = .ok ((pl, J), s) := by
    unfold pagesP
    rw [eval_bind_ok h1]
    show eval (pagesLoop l >>= _) _ = _
    rw [eval_bind_ok h4]; rfl
  unfold pageLayouts
  rw [eval_bind_ok h8]
  show eval (Prog.lift (pl.mapM layoutOf) >>= _) _ = _
  rw [h6]
  rfl

/-- A page with its new rotation. -/
def turned (a : Int) (b : Ref × Dict × List Dict) : Dict :=
  Dict.set b.2.1 b!"/Rotate" (.int ((rotation b + a) % 360))

theorem rotateLoop_spec {ls : List (Ref × Dict × List Dict)} {c : List (Obj × Dict)} {deg : Int}
    (hc : ∀ (i : Nat) b, ls[i]? = some b → ∃ p : Obj × Dict, c[i]? = some p ∧ p.1 = refObj b.1)
    (hr : ∀ b ∈ ls, Rotatable b) (hpos : ∀ b ∈ ls, 0 < b.1.2)
    (hnd : ∀ (i j : Nat) b b', ls[i]? = some b → ls[j]? = some b' → b.1.2 = b'.1.2 → i = j) :
    ∀ (a : List (Nat × Obj)) (s : Store), (a.map Prod.fst).Nodup →
    (∀ x ∈ a, ∃ b, ls[x.1]? = some b ∧ s.get (refObj b.1) = .ok (.dict b.2.1) ∧ x.2 = rotObj b) →
    ∃ s', eval (rotateLoop deg c a) s = .ok ((), s') ∧ s'.next = s.next ∧
      (∀ i ∈ a.map Prod.fst, ∀ b, ls[i]? = some b → s'.get (refObj b.1) = .ok (.dict (turned deg b))) ∧
      ∀ n, (∀ i ∈ a.map Prod.fst, ∀ b, ls[i]? = some b → n ≠ b.1.2.toNat) → s'.val n = s.val n := by
  intro a
  induction a with
  | nil => intro s _ _; exact ⟨s, rfl, rfl, by simp, fun _ _ => rfl⟩
  | cons x a ih =>
    intro s hnda hx
    obtain ⟨i, old⟩ := x
    rw [List.map_cons, List.nodup_cons] at hnda
    obtain ⟨b, hb, hs, hold⟩ := hx (i, old) (by simp)
    simp only at hb hold
    have hbm := List.mem_of_getElem? hb
    have hp := hpos b hbm
    obtain ⟨p, hp1, hp2⟩ := hc i b hb
    have hval : s.val b.1.2.toNat = .ok (.dict b.2.1) := by rw [← get_refObj hp]; exact hs
    have hget : ∀ (b' : Ref × Dict × List Dict), b'.1.2 ≠ b.1.2 → 0 < b'.1.2 →
        (s.set b.1.2.toNat (.dict (turned deg b))).get (refObj b'.1) = s.get (refObj b'.1) := by
      intro b' hne hp'
      rw [get_refObj hp', get_refObj hp']
      simp only [Store.set]
      rw [if_neg (by omega)]
    obtain ⟨s', e1, e2, e3, e4⟩ := ih (s.set b.1.2.toNat (.dict (turned deg b))) hnda.2 (by
      intro x hxm
      obtain ⟨b', hb', hs', hold'⟩ := hx x (by simp [hxm])
      refine ⟨b', hb', ?_, hold'⟩
      rw [hget b' ?_ (hpos b' (List.mem_of_getElem? hb'))]
      · exact hs'
      · intro heq
        have := hnd _ _ _ _ hb' hb heq
        refine hnda.1 ?_
        show i ∈ _
        rw [← this]
        exact List.mem_map_of_mem hxm)
    refine ⟨s', ?_, e2, ?_, ?_⟩
    · unfold rotateLoop
      rw [hp1]
      show eval (Prog.lift (.ok p) >>= _) s = _
      rw [eval_bind_ok (eval_lift_ok _ _), hp2, eval_bind_ok (eval_fetch hs), hold, addDegrees_rot (hr b hbm),
        eval_bind_ok (eval_lift_ok _ _)]
      simp only [setEntry]
      rw [eval_bind_ok (eval_lift_ok _ _)]
      simp only [numOf, refObj]
      rw [if_neg (by omega), eval_bind_ok (eval_lift_ok _ _), eval_bind_ok (eval_update (by omega) hval)]
      exact e1
    · intro j hj b' hb'
      by_cases hji : j = i
      · subst hji
        rw [hb] at hb'
        cases hb'
        rw [get_refObj hp, e4]
        · simp [Store.set]
        · intro k hk b' hb' heq
          have h1 := hpos b' (List.mem_of_getElem? hb')
          have := hnd _ _ _ _ hb hb' (by omega)
          exact hnda.1 (this ▸ hk)
      · have hj : j ∈ a.map Prod.fst := by
          rw [List.map_cons, List.mem_cons] at hj
          exact hj.resolve_left hji
        exact e3 j hj b' hb'
    · intro n hn
      rw [e4 n fun j hj b' hb' => hn j (List.mem_cons_of_mem _ hj) b' hb']
      simp only [Store.set]
      rw [if_neg (hn i (by simp) b hb)]

/-- The position is selected; no selection means all the pages. -/
def Selected (sel : List Int) (i : Nat) : Prop := sel = [] ∨ (i : Int) ∈ sel

instance (sel : List Int) (i : Nat) : Decidable (Selected sel i) := by unfold Selected; infer_instance

/-- The work list of `rotate`. -/
theorem rotate_work {pl : List (Obj × Obj)} {sel : List Int} (work : List Int)
    (hw : work = if sel = [] then (List.range pl.length).map (fun (i : Nat) => (i : Int)) else sel) :
    let a := (List.range pl.length).filterMap fun (i : Nat) =>
      if (i : Int) ∈ work then (pl[i]?).map fun x => (i, x.2) else none
    (a.map Prod.fst).Nodup ∧ (∀ x ∈ a, ∃ p, pl[x.1]? = some p ∧ x.2 = p.2) ∧
      ∀ i, i ∈ a.map Prod.fst ↔ i < pl.length ∧ Selected sel i := by
  intro a
  have hsel : ∀ i, i < pl.length → ((i : Int) ∈ work ↔ Selected sel i) := by
    intro i hi
    unfold Selected
    rw [hw]
    by_cases hs : sel = []
    · simp only [hs, true_or, iff_true]
      exact List.mem_map.2 ⟨i, List.mem_range.2 hi, rfl⟩
    · simp [hs]
  have hmem : ∀ x, x ∈ a ↔ ∃ i, i < pl.length ∧ Selected sel i ∧ ∃ p, pl[i]? = some p ∧ x = (i, p.2) := by
    intro x
    simp only [a, List.mem_filterMap, List.mem_range]
    constructor
    · rintro ⟨i, hi, h⟩
      by_cases hs : (i : Int) ∈ work
      · rw [if_pos hs, Option.map_eq_some_iff] at h
        obtain ⟨p, hp, rfl⟩ := h
        exact ⟨i, hi, (hsel i hi).1 hs, p, hp, rfl⟩
      · rw [if_neg hs] at h; cases h
    · rintro ⟨i, hi, hs, p, hp, rfl⟩
      exact ⟨i, hi, by rw [if_pos ((hsel i hi).2 hs), hp]; rfl⟩
  refine ⟨?_, ?_, ?_⟩
  · have hsub : ∀ (l : List Nat), ((l.filterMap fun (i : Nat) =>
        if (i : Int) ∈ work then (pl[i]?).map fun x => (i, x.2) else none).map Prod.fst).Sublist l := by
      intro l
      induction l with
      | nil => exact List.Sublist.slnil
      | cons i l ih =>
        rw [List.filterMap_cons]
        split
        · exact ih.cons i
        · rename_i v hv
          split at hv
          · rw [Option.map_eq_some_iff] at hv
            obtain ⟨p, -, rfl⟩ := hv
            exact ih.cons_cons i
          · cases hv
    exact (hsub _).nodup List.nodup_range
  · intro x hx
    obtain ⟨i, -, -, p, hp, rfl⟩ := (hmem x).1 hx
    exact ⟨p, hp, rfl⟩
  · intro i
    rw [List.mem_map]
    constructor
    · rintro ⟨x, hx, rfl⟩
      obtain ⟨i, hi, hs, p, hp, rfl⟩ := (hmem x).1 hx
      exact ⟨hi, hs⟩
    · rintro ⟨hi, hs⟩
      exact ⟨(i, pl[i].2), (hmem _).2 ⟨i, hi, hs, pl[i], List.getElem?_eq_getElem hi, rfl⟩, rfl⟩

/-- What must hold of the pages: their numbers are distinct, and they may be rotated. -/
structure Turnable (t : PageTree) : Prop where
  nums : ((leaves [] t).map fun b => b.1.2).Nodup
  each : ∀ b ∈ leaves [] t, Rotatable b

theorem rotate_eval {s : Store} {leak : Dict} {lim : Nat} {t : PageTree} (hd : depth t ≤ lim) (h : IsRoot s t)
    (ho : Own leak t) (ht : Turnable t) (a : Int) (sel : List Int) :
    ∃ J s', eval (rotate lim leak a sel) s = .ok (J, s') ∧ Own J t ∧ s'.next = s.next ∧
      (∀ i b, (leaves [] t)[i]? = some b → Selected sel i → s'.get (refObj b.1) = .ok (.dict (turned a b))) ∧
      ∀ n, (∀ i b, (leaves [] t)[i]? = some b → Selected sel i → n ≠ b.1.2.toNat) → s'.val n = s.val n := by
  obtain ⟨lays, J1, h1, o1, p1⟩ := pageLayouts_spec hd h ho ht.each
  obtain ⟨c, J2, h2, o2, p2⟩ := eval_flat_own hd h o1
  obtain ⟨w1, w2, w3⟩ := rotate_work (pl := lays) (sel := sel) _ rfl
  have hlen := p1.length
  obtain ⟨s', e1, e2, e3, e4⟩ := rotateLoop_spec (ls := leaves [] t) (c := c) (deg := a)
    (fun i b hb => by
      obtain ⟨x, hx, hp⟩ := p2.get i b hb
      exact ⟨x, hx, hp.1⟩)
    ht.each (fun b hb => (leaves_type t [] h.shown b hb).1)
    (fun i j b b' hb hb' heq => nodup_index ht.nums (x := b.1.2)
      (by rw [List.getElem?_map, hb]; rfl) (by rw [List.getElem?_map, hb', heq]; rfl))
    _ s w1 (by
      intro x hx
      obtain ⟨p, hp, hx2⟩ := w2 x hx
      have hlt := lt_of_getElem? hp
      have hb : (leaves [] t)[x.1]? = some (leaves [] t)[x.1] := List.getElem?_eq_getElem (by omega)
      obtain ⟨p', hp', hrot⟩ := p1.get _ _ hb
      rw [hp] at hp'
      cases hp'
      exact ⟨_, hb, leaves_shown t [] h.shown _ (List.mem_of_getElem? hb), by rw [hx2, hrot]⟩)
  refine ⟨J2, s', ?_, o2, e2, ?_, ?_⟩
  · unfold rotate
    rw [eval_bind_ok h1]
    show eval (flatPageTree lim .null J1 none >>= _) s = _
    rw [eval_bind_ok h2]
    show eval (rotateLoop a c _ >>= _) s = _
    rw [eval_bind_ok e1]; rfl
  · intro i b hb hs
    exact e3 i ((w3 i).2 ⟨by have := lt_of_getElem? hb; omega, hs⟩) b hb
  · intro n hn
    exact e4 n fun i hi b hb => hn i b hb ((w3 i).1 hi).2

/-- The tree after the rotation. -/
theorem rotate_tree {s s' : Store} {t : PageTree} (h : IsRoot s t) (ht : Turnable t) {a : Int} {sel : List Int}
    (h1 : ∀ i b, (leaves [] t)[i]? = some b → Selected sel i → s'.get (refObj b.1) = .ok (.dict (turned a b)))
    (h2 : ∀ n, (∀ i b, (leaves [] t)[i]? = some b → Selected sel i → n ≠ b.1.2.toNat) → s'.val n = s.val n) :
    ∃ f, IsRoot s' (mapPages f t) ∧ leaves [] (mapPages f t) = (leaves [] t).mapIdx fun i b =>
      if Selected sel i then (b.1, turned a b, b.2.2) else b := by
  have hpos : ∀ b ∈ leaves [] t, 0 < b.1.2 := fun b hb => (leaves_type t [] h.shown b hb).1
  have hsh := leaves_shown t [] h.shown
  have hnot : ∀ i b, (leaves [] t)[i]? = some b → ¬ Selected sel i →
      s'.get (refObj b.1) = .ok (.dict b.2.1) := by
    intro i b hb hs
    have hbm := List.mem_of_getElem? hb
    rw [get_refObj (hpos b hbm), h2, ← get_refObj (hpos b hbm)]
    · exact hsh b hbm
    · intro j b' hb' hs' heq
      have hp := hpos b hbm
      have hp' := hpos b' (List.mem_of_getElem? hb')
      have : i = j := nodup_index ht.nums (x := b.1.2)
        (by rw [List.getElem?_map, hb]; rfl)
        (by rw [List.getElem?_map, hb', show b.1.2 = b'.1.2 by omega]; rfl)
      subst this
      exact hs hs'
  let f : Ref → Dict → Dict := fun r d =>
    match s'.get (refObj r) with
    | .ok (.dict e) => e
    | _ => d
  have hf : ∀ i b, (leaves [] t)[i]? = some b →
      f b.1 b.2.1 = if Selected sel i then turned a b else b.2.1 := by
    intro i b hb
    by_cases hs : Selected sel i
    · simp only [f, h1 i b hb hs, if_pos hs]
    · simp only [f, hnot i b hb hs, if_neg hs]
  -- the number of a selected page
  have hcase : ∀ n, s'.val n = s.val n ∨ ∃ b ∈ leaves [] t, n = b.1.2.toNat ∧
      s'.val n = .ok (.dict (turned a b)) ∧ s.val n = .ok (.dict b.2.1) := by
    intro n
    by_cases hex : ∃ i b, (leaves [] t)[i]? = some b ∧ Selected sel i ∧ n = b.1.2.toNat
    · obtain ⟨i, b, hb, hs, rfl⟩ := hex
      have hbm := List.mem_of_getElem? hb
      refine .inr ⟨b, hbm, rfl, ?_, ?_⟩
      · rw [← get_refObj (hpos b hbm)]; exact h1 i b hb hs
      · rw [← get_refObj (hpos b hbm)]; exact hsh b hbm
    · exact .inl (h2 n fun i b hb hs heq => hex ⟨i, b, hb, hs, heq⟩)
  have hkeep : ∀ (b : Ref × Dict × List Dict) (k : Bytes), k ≠ b!"/Rotate" →
      Dict.get? (turned a b) k = Dict.get? b.2.1 k := by
    intro b k hk
    unfold turned
    rw [Dict.get?_set, if_neg (by simpa using hk)]
  refine ⟨f, isRoot_map h ?_ ?_ ?_ ?_, ?_⟩
  · intro n d hv hty
    rcases hcase n with hc | ⟨b, hbm, -, -, hv'⟩
    · rw [hc]; exact hv
    · rw [hv] at hv'
      cases hv'
      rw [(leaves_type t [] h.shown b hbm).2] at hty
      exact absurd hty (by decide)
  · intro n d hv
    rcases hcase n with hc | ⟨b, hbm, -, hv1, hv'⟩
    · exact ⟨d, hc.trans hv, rfl⟩
    · rw [hv] at hv'
      cases hv'
      exact ⟨_, hv1, hkeep b _ (by decide)⟩
  · rcases hcase 0 with hc | ⟨b, hbm, hz, -⟩
    · exact hc
    · have := hpos b hbm; omega
  · intro b hbm
    obtain ⟨i, hi⟩ := List.getElem?_of_mem hbm
    rw [hf i b hi]
    by_cases hs : Selected sel i
    · rw [if_pos hs]
      exact ⟨h1 i b hi hs, by rw [hkeep b _ (by decide)]; exact (leaves_type t [] h.shown b hbm).2⟩
    · rw [if_neg hs]
      exact ⟨hnot i b hi hs, (leaves_type t [] h.shown b hbm).2⟩
  · rw [leaves_mapPages]
    apply List.ext_getElem?
    intro i
    rw [List.getElem?_map, List.getElem?_mapIdx]
    cases hb : (leaves [] t)[i]? with
    | none => rfl
    | some b =>
      simp only [Option.map_some, hf i b hb]
      by_cases hs : Selected sel i
      · simp only [if_pos hs]
      · simp only [if_neg hs]

theorem rotation_turned (a : Int) (b : Ref × Dict × List Dict) :
    rotation (b.1, turned a b, b.2.2) = (rotation b + a) % 360 := by
  have : nearest b!"/Rotate" (turned a b :: b.2.2) = some (.int ((rotation b + a) % 360)) := by
    unfold nearest
    rw [List.findSome?_cons]
    have : entry? (turned a b) b!"/Rotate" = some (.int ((rotation b + a) % 360)) := by
      unfold entry? turned
      rw [Dict.get?_set, if_pos (by simp)]
    rw [this]
  show (match nearest b!"/Rotate" (turned a b :: b.2.2) with
    | some (.int n) => n
    | _ => 0) = _
  rw [this]

/-- The pages may be rotated again. -/
theorem Turnable.again {t : PageTree} {f : Ref → Dict → Dict} (ht : Turnable t) {a : Int} {sel : List Int}
    (hl : leaves [] (mapPages f t) = (leaves [] t).mapIdx fun i b =>
      if Selected sel i then (b.1, turned a b, b.2.2) else b) : Turnable (mapPages f t) := by
  refine ⟨?_, ?_⟩
  · rw [leaves_mapPages, List.map_map]
    exact ht.nums
  · intro b' hb'
    obtain ⟨i, hi⟩ := List.getElem?_of_mem hb'
    rw [hl, List.getElem?_mapIdx, Option.map_eq_some_iff] at hi
    obtain ⟨b, hb, hi⟩ := hi
    have hr := ht.each b (List.mem_of_getElem? hb)
    by_cases hs : Selected sel i
    · rw [if_pos hs] at hi
      subst hi
      refine ⟨?_, ?_, .inr ⟨(rotation b + a) % 360, ?_⟩⟩
      · have : Dict.get? (turned a b) b!"/MediaBox" = Dict.get? b.2.1 b!"/MediaBox" := by
          unfold turned
          rw [Dict.get?_set, if_neg (by decide)]
        simp only [this]; exact hr.box
      · unfold turned
        rw [Dict.get?_set, if_pos (by simp)]; simp
      · unfold nearest
        rw [List.findSome?_cons]
        have : entry? (turned a b) b!"/Rotate" = some (.int ((rotation b + a) % 360)) := by
          unfold entry? turned
          rw [Dict.get?_set, if_pos (by simp)]
        rw [this]
    · rw [if_neg hs] at hi
      subst hi
      exact hr

/-- **C32.** After `rotate` each selected page (all of them when none is given) has the rotation
`(old + a) mod 360`, where the old one takes the inheritance into account; the pages are the same, in the same order,
and nothing else has changed, neither in the dictionaries of these pages nor in the other objects. (`Turnable`: the
pages have distinct numbers, a rectangle, and a rotation that is an integer or absent; `Own`: `flat_page_tree` was
not used on another document before, see C30.) -/
theorem C32_rotate_partial [Zlib] {d : Doc} {x : Option Int} (hed : Editable d x) {t : PageTree}
    (h : IsRoot (storeOf d) t) {lim : Nat} (hd : depth t ≤ lim) (ht : Turnable t) {leak : Dict} (ho : Own leak t)
    (a : Int) (sel : List Int) :
    ∃ leak' d' f, (rotate lim leak a sel).run d = .ok (leak', d') ∧ Editable d' x ∧
      IsRoot (storeOf d') (mapPages f t) ∧ Own leak' (mapPages f t) ∧ Turnable (mapPages f t) ∧
      leaves [] (mapPages f t) = ((leaves [] t).mapIdx fun i b => if Selected sel i then
        (b.1, Dict.set b.2.1 b!"/Rotate" (.int ((rotation b + a) % 360)), b.2.2) else b) ∧
      (storeOf d').next = (storeOf d).next ∧
      ∀ n, (∀ i b, (leaves [] t)[i]? = some b → Selected sel i → n ≠ b.1.2.toNat) →
        (storeOf d').val n = (storeOf d).val n := by
  obtain ⟨J, s', e1, e2, e3, e4, e5⟩ := rotate_eval hd h ho ht a sel
  obtain ⟨f, f1, f2⟩ := rotate_tree h ht e4 e5
  obtain ⟨d', r1, r2, rfl, -⟩ := run_eval _ hed e1
  exact ⟨J, d', f, r1, r2, f1, e2.map f, ht.again f2, f2, e3, e5⟩

/-- The rotations after `rotate`. -/
theorem C32_effective_partial [Zlib] {d : Doc} {x : Option Int} (hed : Editable d x) {t : PageTree}
    (h : IsRoot (storeOf d) t) {lim : Nat} (hd : depth t ≤ lim) (ht : Turnable t) {leak : Dict} (ho : Own leak t)
    (a : Int) (sel : List Int) :
    ∃ leak' d' t', (rotate lim leak a sel).run d = .ok (leak', d') ∧ IsRoot (storeOf d') t' ∧
      (leaves [] t').map rotation =
        ((leaves [] t).map rotation).mapIdx fun i r => if Selected sel i then (r + a) % 360 else r := by
  obtain ⟨J, d', f, r1, -, r2, -, -, r3, -⟩ := C32_rotate_partial hed h hd ht ho a sel
  refine ⟨J, d', _, r1, r2, ?_⟩
  rw [r3]
  apply List.ext_getElem?
  intro i
  simp only [List.getElem?_map, List.getElem?_mapIdx]
  cases (leaves [] t)[i]? with
  | none => rfl
  | some b =>
    simp only [Option.map_some]
    by_cases hs : Selected sel i
    · simp only [if_pos hs]
      exact congrArg some (rotation_turned a b)
    · simp only [if_neg hs]

theorem depth_mapPages (f : Ref → Dict → Dict) (t : PageTree) : depth (mapPages f t) = depth t := by
  refine PageTree.rec (motive_1 := fun t => depth (mapPages f t) = depth t)
    (motive_2 := fun ts => depths (mapPages.mapAll f ts) = depths ts) ?_ ?_ ?_ ?_ t
  · intro r d; rfl
  · intro r d kids ih; simp only [mapPages, depth, ih]
  · rfl
  · intro t ts h1 h2; simp only [mapPages.mapAll, depths, h1, h2]

/-- **C32, composition**: two rotations of the same pages add up. In particular a rotation by `a` and one by `-a`
restore the rotations modulo 360 (`C32_inverse_partial`). -/
theorem C32_compose_partial [Zlib] {d : Doc} {x : Option Int} (hed : Editable d x) {t : PageTree}
    (h : IsRoot (storeOf d) t) {lim : Nat} (hd : depth t ≤ lim) (ht : Turnable t) {leak : Dict} (ho : Own leak t)
    (a b : Int) (sel : List Int) :
    ∃ leak' d' t', (rotate lim leak a sel >>= fun leak => rotate lim leak b sel).run d = .ok (leak', d') ∧
      IsRoot (storeOf d') t' ∧ (leaves [] t').map rotation =
        ((leaves [] t).map rotation).mapIdx fun i r => if Selected sel i then (r + (a + b)) % 360 else r := by
  obtain ⟨J, d1, f, r1, r2, r3, r4, r5, r6, -⟩ := C32_rotate_partial hed h hd ht ho a sel
  obtain ⟨J', d2, t', q1, q2, q3⟩ := C32_effective_partial r2 r3 (lim := lim)
    (by rw [depth_mapPages]; exact hd) r5 r4 b sel
  refine ⟨J', d2, t', ?_, q2, ?_⟩
  · rw [Prog.bind_run, r1]; exact q1
  · rw [q3, r6]
    apply List.ext_getElem?
    intro i
    simp only [List.getElem?_map, List.getElem?_mapIdx]
    cases (leaves [] t)[i]? with
    | none => rfl
    | some p =>
      simp only [Option.map_some]
      by_cases hs : Selected sel i
      · simp only [if_pos hs]
        refine congrArg some ?_
        have := rotation_turned a p
        unfold turned at this
        rw [this]
        omega
      · simp only [if_neg hs]

theorem C32_inverse_partial [Zlib] {d : Doc} {x : Option Int} (hed : Editable d x) {t : PageTree}
    (h : IsRoot (storeOf d) t) {lim : Nat} (hd : depth t ≤ lim) (ht : Turnable t) {leak : Dict} (ho : Own leak t)
    (a : Int) (sel : List Int) :
    ∃ leak' d' t', (rotate lim leak a sel >>= fun leak => rotate lim leak (-a) sel).run d = .ok (leak', d') ∧
      IsRoot (storeOf d') t' ∧ ((leaves [] t').map fun b => rotation b % 360) =
        (leaves [] t).map fun b => rotation b % 360 := by
  obtain ⟨J, d', t', h1, h2, h3⟩ := C32_compose_partial hed h hd ht ho a (-a) sel
  refine ⟨J, d', t', h1, h2, ?_⟩
  have := congrArg (List.map (· % 360)) h3
  rw [List.map_map] at this
  rw [show ((leaves [] t').map fun b => rotation b % 360) =
    (leaves [] t').map ((fun x => x % 360) ∘ rotation) from rfl, this]
  apply List.ext_getElem?
  intro i
  simp only [List.getElem?_map, List.getElem?_mapIdx]
  cases (leaves [] t)[i]? with
  | none => rfl
  | some p =>
    simp only [Option.map_some]
    split
    · congr 1; omega
    · rfl

/-! ### Samples -/

/-- The sample of C29, with rectangles. -/
def boxedObjs : List Obj :=
  [.dict [(b!"/Root", .ref 0 1)],
   .dict [(b!"/Type", .str b!"/Catalog"), (b!"/Pages", .ref 0 2)],
   .dict [(b!"/Type", .str b!"/Pages"), (b!"/Rotate", .int 90), (b!"/MediaBox", .list []),
     (b!"/Kids", .list [.ref 0 3, .ref 0 4])],
   .dict [(b!"/Type", .str b!"/Page")],
   .dict [(b!"/Type", .str b!"/Pages"), (b!"/Kids", .list [.ref 0 5])],
   .dict [(b!"/Type", .str b!"/Page"), (b!"/Rotate", .int 270)]]
def boxedTree : PageTree :=
  .node (0, 2) [(b!"/Type", .str b!"/Pages"), (b!"/Rotate", .int 90), (b!"/MediaBox", .list []),
      (b!"/Kids", .list [.ref 0 3, .ref 0 4])]
    [.page (0, 3) [(b!"/Type", .str b!"/Page")],
     .node (0, 4) [(b!"/Type", .str b!"/Pages"), (b!"/Kids", .list [.ref 0 5])]
       [.page (0, 5) [(b!"/Type", .str b!"/Page"), (b!"/Rotate", .int 270)]]]

example [Zlib] : Editable (memDoc boxedObjs) none ∧ IsRoot (storeOf (memDoc boxedObjs)) boxedTree ∧
    Turnable boxedTree ∧ Own [] boxedTree := by
  refine ⟨memDoc_editable (by simp [boxedObjs]) rfl, ?_, ⟨by decide, ?_⟩, Own.nil _⟩
  · rw [memDoc_store (by simp [boxedObjs])]
    exact ⟨⟨by decide, rfl, rfl, rfl, ⟨by decide, rfl, rfl⟩, ⟨by decide, rfl, rfl, rfl, ⟨by decide, rfl, rfl⟩, trivial⟩,
      trivial⟩, ⟨_, _, _, rfl⟩, _, _, _, rfl, rfl, rfl, rfl⟩
  · intro b hb
    simp only [boxedTree, leaves, leavesAll, List.mem_append, List.mem_singleton, List.not_mem_nil, or_false] at hb
    rcases hb with rfl | rfl
    · exact ⟨.inr rfl, by decide, .inr ⟨90, rfl⟩⟩
    · exact ⟨.inr rfl, by decide, .inr ⟨270, rfl⟩⟩

/-- The second page, from 270 by 180: 90. -/
example [Zlib] : ((rotate 1000 [] 180 [1]).run (memDoc boxedObjs)).map (fun r => r.2.cache[5]?) =
    .ok (some (.dict [(b!"/Type", .str b!"/Page"), (b!"/Rotate", .int 90)])) := by kernel_rfl

/-- **C32 is false for a page with `/Rotate null`**, which is the same as no `/Rotate` (ISO 32000 7.3.7): the
inherited rotation is 90, and a rotation by 90 gives 90 instead of 180. -/
theorem C32_counterexample [Zlib] :
    rotation ((0, 3), [(b!"/Type", .str b!"/Page"), (b!"/Rotate", .null)], [[(b!"/Rotate", .int 90)]]) = 90 ∧
    ((rotate 1000 [] 90 []).run (memDoc
      [.dict [(b!"/Root", .ref 0 1)],
       .dict [(b!"/Type", .str b!"/Catalog"), (b!"/Pages", .ref 0 2)],
       .dict [(b!"/Type", .str b!"/Pages"), (b!"/Kids", .list [.ref 0 3]), (b!"/Rotate", .int 90),
         (b!"/MediaBox", .list [])],
       .dict [(b!"/Type", .str b!"/Page"), (b!"/Rotate", .null)]])).map (fun r => r.2.cache[3]?) =
      .ok (some (.dict [(b!"/Type", .str b!"/Page"), (b!"/Rotate", .int 90)])) :=
  ⟨rfl, by kernel_rfl⟩

end Pdf
