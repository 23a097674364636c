/-
C103: page operations survive writing and loading.
-/
import Verif.Lemmas.Emits
import Verif.Props.C85_Metadata

namespace Pdf
open Spec PageTree

/-- Two pages, as `shownPage` gives them, that are the same: reference, entries, inherited attributes. -/
def SamePage (x y : Ref × Dict × List (Option Obj)) : Prop :=
  x.1 = y.1 ∧ (∀ k, SameOpt (Dict.get? x.2.1 k) (Dict.get? y.2.1 k)) ∧ Pointwise SameOpt x.2.2 y.2.2

/-- The second map shows an object equal to each object of the first one. -/
def SameStore (s s' : Store) : Prop :=
  ∀ (n : Nat) (v : Obj), 1 ≤ n → s.val n = .ok v → v ≠ .null → ∃ w, s'.val n = .ok w ∧ Same v w

/-- Dictionaries that give the same answers. -/
def SameDict (a b : Dict) : Prop := ∀ k, SameOpt (Dict.get? a k) (Dict.get? b k)

theorem same_ref {g n : Int} {w : Obj} (h : Same (.ref g n) w) : w = .ref g n := by
  rcases h with rfl | h
  · rfl
  · cases w <;> simp [pyEq] at h
    rw [h.1, h.2]

theorem same_str {a : Bytes} {w : Obj} (h : Same (.str a) w) : w = .str a := by
  rcases h with rfl | h
  · rfl
  · cases w <;> simp [pyEq] at h
    rw [h]

theorem same_int {a : Int} {w : Obj} : Same (.int a) w ↔ w = .int a := by
  constructor
  · rintro (rfl | h)
    · rfl
    · cases w <;> simp [pyEq] at h
      rw [h]
  · rintro rfl
    exact .inl rfl

theorem same_int' {a : Int} {w : Obj} (h : Same w (.int a)) : w = .int a := by
  rcases h with rfl | h
  · rfl
  · cases w <;> simp [pyEq] at h
    rw [h]

theorem same_null {w : Obj} : Same .null w ↔ w = .null := by
  constructor
  · rintro (rfl | h)
    · rfl
    · cases w <;> simp [pyEq] at h
      rfl
  · rintro rfl
    exact .inl rfl

theorem same_null' {w : Obj} (h : Same w .null) : w = .null := by
  rcases h with rfl | h
  · rfl
  · cases w <;> simp [pyEq] at h
    rfl

theorem same_dict {d : Dict} {w : Obj} (h : Same (.dict d) w) (hn : (d.map Prod.fst).Nodup) :
    ∃ d', w = .dict d' ∧ SameDict d d' := by
  rcases h with rfl | h
  · refine ⟨d, rfl, fun k => ?_⟩
    rcases Dict.get? d k with _ | v
    · trivial
    · exact .inl rfl
  · cases w <;> try (simp [pyEq] at h; done)
    exact ⟨_, rfl, pyEq_lookup h hn⟩

theorem same_refs {l : List Ref} {w : Obj} (h : Same (.list (l.map refObj)) w) : w = .list (l.map refObj) := by
  rcases h with rfl | h
  · rfl
  · cases w <;> simp [pyEq] at h
    rename_i m
    congr 1
    induction l generalizing m with
    | nil => cases m <;> simp [pyEqItems] at h; rfl
    | cons r l ih =>
      cases m with
      | nil => simp [pyEqItems] at h
      | cons o m =>
        simp only [List.map_cons, pyEqItems, Bool.and_eq_true] at h
        rw [ih m h.2, same_ref (.inr h.1)]
        rfl

mutual
/-- Trees of the same shape, with the same references and the same dictionaries. -/
def SameTree : PageTree → PageTree → Prop
  | .page r d, t' => ∃ d', t' = .page r d' ∧ SameDict d d'
  | .node r d kids, t' => ∃ d' kids', t' = .node r d' kids' ∧ SameDict d d' ∧ SameTrees kids kids'
def SameTrees : List PageTree → List PageTree → Prop
  | [], ts' => ts' = []
  | t :: ts, ts' => ∃ u us, ts' = u :: us ∧ SameTree t u ∧ SameTrees ts us
end

theorem sameTree_ref {t t' : PageTree} (h : SameTree t t') : t'.ref = t.ref := by
  cases t <;> simp only [SameTree] at h
  · obtain ⟨d', rfl, -⟩ := h; rfl
  · obtain ⟨d', k', rfl, -⟩ := h; rfl

theorem sameTrees_refs : ∀ {ts ts' : List PageTree}, SameTrees ts ts' → ts'.map (fun t => refObj t.ref) = ts.map (fun t => refObj t.ref)
  | [], _, h => by simp only [SameTrees] at h; rw [h]
  | t :: ts, _, h => by
    simp only [SameTrees] at h
    obtain ⟨u, us, rfl, h1, h2⟩ := h
    simp only [List.map_cons]
    rw [sameTree_ref h1, sameTrees_refs h2]

theorem sameStore_dict [Zlib] {s s' : Store} (hs : SameStore s s') (hf : AllObjs FitObj s) {r : Ref} {d : Dict} (hr : 0 < r.2)
    (hg : s.get (refObj r) = .ok (.dict d)) : ∃ d', s'.get (refObj r) = .ok (.dict d') ∧ SameDict d d' := by
  simp only [refObj, Store.get] at hg ⊢
  rw [if_neg (by omega)] at hg ⊢
  obtain ⟨w, h1, h2⟩ := hs r.2.toNat (.dict d) (by omega) hg (by simp)
  have hn : (d.map Prod.fst).Nodup := by
    rcases hf r.2.toNat _ (by omega) hg with h | h
    · cases h
    · have := keepable_dict.1 h
      simp only [WF, Bool.and_eq_true, decide_eq_true_eq] at this
      exact this.2
  obtain ⟨d', rfl, h3⟩ := same_dict h2 hn
  exact ⟨d', h1, h3⟩

theorem SameDict.some {a b : Dict} (h : SameDict a b) {k : Bytes} {v : Obj} (hv : Dict.get? a k = some v) :
    ∃ w, Dict.get? b k = some w ∧ Same v w := by
  have := h k
  rw [hv] at this
  rcases hw : Dict.get? b k with _ | w
  · rw [hw] at this; exact this.elim
  · rw [hw] at this; exact ⟨w, rfl, this⟩

mutual
theorem shown_same [Zlib] {s s' : Store} (hs : SameStore s s') (hf : AllObjs FitObj s) :
    ∀ (t : PageTree), Shown s t → ∃ t', Shown s' t' ∧ SameTree t t'
  | .page r d, h => by
    simp only [Shown] at h
    obtain ⟨h1, h2, h3⟩ := h
    obtain ⟨d', h4, h5⟩ := sameStore_dict hs hf h1 h2
    obtain ⟨w, h6, h7⟩ := h5.some h3
    rw [same_str h7] at h6
    refine ⟨.page r d', ?_, ?_⟩
    · simp only [Shown]
      exact ⟨h1, h4, h6⟩
    · simp only [SameTree]
      exact ⟨d', rfl, h5⟩
  | .node r d kids, h => by
    simp only [Shown] at h
    obtain ⟨h1, h2, h3, hk, ha⟩ := h
    obtain ⟨d', h4, h5⟩ := sameStore_dict hs hf h1 h2
    obtain ⟨w, h6, h7⟩ := h5.some h3
    rw [same_str h7] at h6
    obtain ⟨w', h8, h9⟩ := h5.some hk
    obtain ⟨kids', h10, h11⟩ := shownAll_same hs hf kids ha
    have h9' : w' = .list ((kids.map PageTree.ref).map refObj) := same_refs (by rw [List.map_map]; exact h9)
    refine ⟨.node r d' kids', ?_, ?_⟩
    · simp only [Shown]
      refine ⟨h1, h4, h6, ?_, h10⟩
      rw [h8, h9', sameTrees_refs h11]
      simp
    · simp only [SameTree]
      exact ⟨d', kids', rfl, h5, h11⟩
theorem shownAll_same [Zlib] {s s' : Store} (hs : SameStore s s') (hf : AllObjs FitObj s) :
    ∀ (ts : List PageTree), ShownAll s ts → ∃ ts', ShownAll s' ts' ∧ SameTrees ts ts'
  | [], _ => ⟨[], by simp [ShownAll], by simp [SameTrees]⟩
  | t :: ts, h => by
    simp only [ShownAll] at h
    obtain ⟨t', h1, h2⟩ := shown_same hs hf t h.1
    obtain ⟨ts', h3, h4⟩ := shownAll_same hs hf ts h.2
    refine ⟨t' :: ts', ?_, ?_⟩
    · simp only [ShownAll]
      exact ⟨h1, h3⟩
    · simp only [SameTrees]
      exact ⟨t', ts', rfl, h2, h4⟩
end

/-- The pages of such trees. -/
def SameLeaf (x y : Ref × Dict × List Dict) : Prop := x.1 = y.1 ∧ SameDict x.2.1 y.2.1 ∧ Pointwise SameDict x.2.2 y.2.2

mutual
theorem leaves_same : ∀ {t t' : PageTree}, SameTree t t' → ∀ {anc anc' : List Dict}, Pointwise SameDict anc anc' →
    Pointwise SameLeaf (leaves anc t) (leaves anc' t')
  | .page r d, t', h, anc, anc', ha => by
    simp only [SameTree] at h
    obtain ⟨d', rfl, h⟩ := h
    simp only [leaves]
    exact .cons ⟨rfl, h, ha⟩ .nil
  | .node r d kids, t', h, anc, anc', ha => by
    simp only [SameTree] at h
    obtain ⟨d', kids', rfl, h, hk⟩ := h
    simp only [leaves]
    exact leavesAll_same hk (.cons h ha)
theorem leavesAll_same : ∀ {ts ts' : List PageTree}, SameTrees ts ts' → ∀ {anc anc' : List Dict}, Pointwise SameDict anc anc' →
    Pointwise SameLeaf (leavesAll anc ts) (leavesAll anc' ts')
  | [], ts', h, anc, anc', ha => by
    simp only [SameTrees] at h
    subst h
    simp only [leavesAll]
    exact .nil
  | t :: ts, ts', h, anc, anc', ha => by
    simp only [SameTrees] at h
    obtain ⟨u, us, rfl, h1, h2⟩ := h
    simp only [leavesAll]
    exact (leaves_same h1 ha).append (leavesAll_same h2 ha)
end

theorem entry_same {a b : Dict} (h : SameDict a b) (k : Bytes) : SameOpt (entry? a k) (entry? b k) := by
  have := h k
  unfold entry?
  rcases ha : Dict.get? a k with _ | v <;> rcases hb : Dict.get? b k with _ | w <;> rw [ha, hb] at this
  · trivial
  · exact this.elim
  · exact this.elim
  · have this : Same v w := this
    by_cases hv : v = .null
    · subst hv
      rw [same_null.1 this]
      trivial
    · have hw : w ≠ .null := by
        rintro rfl
        exact hv (same_null' this)
      split
      · rename_i e; exact absurd (Option.some.inj e) hv
      · split
        · rename_i e; exact absurd (Option.some.inj e) hw
        · exact this

theorem nearest_same (k : Bytes) : ∀ {a b : List Dict}, Pointwise SameDict a b → SameOpt (nearest k a) (nearest k b)
  | _, _, .nil => trivial
  | _, _, .cons h t => by
    have h1 := entry_same h k
    have h2 := nearest_same k t
    unfold nearest at h2 ⊢
    simp only [List.findSome?_cons]
    rename_i a b l m
    rcases ha : entry? a k with _ | v <;> rcases hb : entry? b k with _ | w <;> rw [ha, hb] at h1
    · exact h2
    · exact h1.elim
    · exact h1.elim
    · exact h1

theorem shownPage_same {x y : Ref × Dict × List Dict} (h : SameLeaf x y) : SamePage (shownPage x) (shownPage y) := by
  refine ⟨h.1, h.2.1, ?_⟩
  simp only [shownPage, inheritable, List.map_cons, List.map_nil]
  exact .cons (nearest_same _ h.2.2) (.cons (nearest_same _ h.2.2) (.cons (nearest_same _ h.2.2) (.cons (nearest_same _ h.2.2) .nil)))

theorem rotation_same {x y : Ref × Dict × List Dict} (h : SameLeaf x y) : rotation y = rotation x := by
  have := nearest_same b!"/Rotate" (.cons h.2.1 h.2.2)
  unfold rotation
  rcases ha : nearest b!"/Rotate" (x.2.1 :: x.2.2) with _ | v <;> rcases hb : nearest b!"/Rotate" (y.2.1 :: y.2.2) with _ | w <;>
    rw [ha, hb] at this
  · exact this.elim
  · exact this.elim
  · have this : Same v w := this
    cases v
    case int n => rw [same_int.1 this]
    all_goals
      cases w <;> first
        | rfl
        | (have := same_int' this; cases this)

theorem Pointwise.mapBoth {α β γ δ : Type} {R : α → β → Prop} {R' : γ → δ → Prop} {f : α → γ} {g : β → δ}
    (h : ∀ a b, R a b → R' (f a) (g b)) : ∀ {l : List α} {m : List β}, Pointwise R l m → Pointwise R' (l.map f) (m.map g)
  | _, _, .nil => .nil
  | _, _, .cons h1 h2 => .cons (h _ _ h1) (Pointwise.mapBoth h h2)

theorem reload_same [Zlib] {d dl : Doc} (h : Made d)
    (l2 : ∀ (n : Nat) (g : Int) (e : Entry), 1 ≤ n → d.cur[n]? = some (.one e) → e.deleted = false →
      ∃ v w, view d (.ref g n) = .ok v ∧ view dl (.ref g n) = .ok w ∧ (v = w ∨ pyEq v w = true)) :
    SameStore (storeOf d) (storeOf dl) := by
  have hed := made_editable h
  intro n v hn hv hnull
  have hv' : view d (.ref 0 n) = .ok v := hv
  obtain ⟨e, he⟩ := view_live hed (by omega) hv'
  have hdel : e.deleted = false := by
    by_cases hdel : e.deleted = true
    · exfalso
      obtain ⟨F, secs, hfd⟩ := made_filed h
      have hc := hfd.settled.gone n e hn he hdel
      rw [view_num] at hv'
      unfold memoize at hv'
      rw [slotAt_eq he] at hv'
      simp only [bind, Except.bind, Slot.isDeleted, hdel, if_true, pure, Except.pure, cacheAt_eq hc] at hv'
      cases hv'
      exact hnull rfl
    · simpa using hdel
  obtain ⟨v', w, j1, j2, j3⟩ := l2 n 0 e hn he hdel
  rw [hv'] at j1
  cases j1
  exact ⟨w, j2, j3⟩

theorem reload_store [Zlib] {d d' : Doc} {out : Bytes} (h : Made d) (hw : writeFile d = .ok (out, d')) (hmin : 100 ≤ out.length)
    (hmax : out.length < 10 ^ 80) : ∃ dl, loads out = .ok dl ∧ SameStore (storeOf d) (storeOf dl) := by
  obtain ⟨dl, l1, l2, -⟩ := C28_reload_partial d d' out h hw hmin hmax
  exact ⟨dl, l1, reload_same h l2⟩

/-- What is in the file. -/
theorem reload_root [Zlib] {d d' : Doc} {out : Bytes} (h : Made d) (hf : AllObjs FitObj (storeOf d)) {t : PageTree}
    (ht : IsRoot (storeOf d) t) (hw : writeFile d = .ok (out, d')) (hmin : 100 ≤ out.length) (hmax : out.length < 10 ^ 80) :
    ∃ dl t', loads out = .ok dl ∧ SameStore (storeOf d) (storeOf dl) ∧ IsRoot (storeOf dl) t' ∧
      Pointwise SameLeaf (leaves [] t) (leaves [] t') := by
  obtain ⟨dl, l1, l2, -, tn, tl, l4, l5, l6⟩ := C28_reload_partial d d' out h hw hmin hmax
  have hs := reload_same h l2
  obtain ⟨t', h1, h2⟩ := shown_same hs hf t ht.shown
  refine ⟨dl, t', l1, hs, ⟨h1, ?_, ?_⟩, leaves_same h2 .nil⟩
  · obtain ⟨r, dd, kids, rfl⟩ := ht.isNode
    simp only [SameTree] at h2
    obtain ⟨d', k', rfl, -⟩ := h2
    exact ⟨_, _, _, rfl⟩
  · obtain ⟨tr, root, cat, q1, q2, q3, q4⟩ := ht.named
    have l4 : (storeOf d).val 0 = .ok (.dict tn) := l4
    rw [q1] at l4
    have := Obj.dict.inj (Except.ok.inj l4)
    subst this
    have l6' : ∀ k v, k ≠ b!"/Size" → k ≠ b!"/Prev" → k ≠ b!"/XRefStm" → Dict.get? tr k = some v → ∃ w, Dict.get? tl k = some w ∧ Same v w := by
      intro k v k1 k2 k3 hv
      have := l6 k k1 k2 k3
      rw [hv] at this
      rcases hw : Dict.get? tl k with _ | w
      · rw [hw] at this; exact this.elim
      · rw [hw] at this; exact ⟨w, rfl, this⟩
    obtain ⟨root', r1, r2⟩ := l6' b!"/Root" _ (by decide) (by decide) (by decide) q2
    have hpages : ∀ {cat' : Dict} {w : Obj}, Dict.get? cat' b!"/Pages" = some w → Same (refObj t.ref) w →
        Dict.get? cat' b!"/Pages" = some (refObj t'.ref) := by
      intro cat' w hw hsw
      rw [hw, same_ref hsw, sameTree_ref h2]
      rfl
    rcases Classical.em (∃ g n, root = .ref g n) with ⟨g, n, rfl⟩ | hnr
    · rw [same_ref r2] at r1
      by_cases hn0 : n = 0
      · subst hn0
        have q3 : (storeOf d).val 0 = .ok (.dict cat) := q3
        rw [q1] at q3
        cases q3
        obtain ⟨w, w1, w2⟩ := l6' b!"/Pages" _ (by decide) (by decide) (by decide) q4
        exact ⟨tl, _, tl, l5, r1, l5, hpages w1 w2⟩
      · have hpos : 0 < n := by
          simp only [Store.get] at q3
          split at q3
          · cases q3
          · omega
        obtain ⟨cat', c1, c2⟩ := sameStore_dict (r := (g, n)) hs hf hpos q3
        obtain ⟨w, w1, w2⟩ := c2.some q4
        exact ⟨tl, _, cat', l5, r1, c1, hpages w1 w2⟩
    · have hroot : root = .dict cat := by
        cases root <;> simp only [Store.get] at q3 <;> first | exact absurd ⟨_, _, rfl⟩ hnr | exact Except.ok.inj q3
      subst hroot
      rcases r2 with rfl | r2
      · obtain ⟨w, w1, w2⟩ : ∃ w, Dict.get? cat b!"/Pages" = some w ∧ Same (refObj t.ref) w := ⟨_, q4, .inl rfl⟩
        exact ⟨tl, _, cat, l5, r1, rfl, hpages w1 w2⟩
      · cases root' <;> try (simp [pyEq] at r2; done)
        rename_i cat'
        simp only [pyEq, Bool.and_eq_true] at r2
        obtain ⟨w, w1, w2⟩ := pyEqEntries_mem r2.2 _ _ (get?_mem q4)
        exact ⟨tl, _, cat', l5, r1, rfl, hpages (cat' := cat') w1 (.inr w2)⟩

/-- **C103.** The pages of a document are those of the file it is written to: the file shows the same pages, in the same order,
each with the same entries and the same inherited attributes.

Missing from the full claim: object streams and xref streams, and objects that do not survive writing (see C28). -/
theorem C103_pages_partial [Zlib] {d d' : Doc} {out : Bytes} (h : Made d) (hf : AllObjs FitObj (storeOf d)) {t : PageTree}
    (ht : IsRoot (storeOf d) t) (hw : writeFile d = .ok (out, d')) (hmin : 100 ≤ out.length) (hmax : out.length < 10 ^ 80) :
    ∃ dl t', loads out = .ok dl ∧ IsRoot (storeOf dl) t' ∧
      Pointwise SamePage ((leaves [] t).map shownPage) ((leaves [] t').map shownPage) ∧
      (leaves [] t').map rotation = (leaves [] t).map rotation := by
  obtain ⟨dl, t', h1, -, h2, h3⟩ := reload_root h hf ht hw hmin hmax
  refine ⟨dl, t', h1, h2, h3.mapBoth (fun _ _ h => shownPage_same h), ?_⟩
  generalize leaves [] t = l at h3
  generalize leaves [] t' = m at h3
  induction h3 with
  | nil => rfl
  | cons h _ ih => simp [rotation_same h, ih]

/-- **C103** for `rotate`: in the file that is written after a rotation, the selected pages have turned, each has
its other entries, and the others are as they were. -/
theorem C103_rotate_partial [Zlib] {d : Doc} (h : Made d) (hf : AllObjs FitObj (storeOf d)) {t : PageTree}
    (ht : IsRoot (storeOf d) t) {lim : Nat} (hd : depth t ≤ lim) (hturn : Turnable t) {leak : Dict} (ho : Own leak t)
    (a : Int) (sel : List Int) :
    ∃ leak' d', (rotate lim leak a sel).run d = .ok (leak', d') ∧ Made d' ∧ AllObjs FitObj (storeOf d') ∧
      ∀ (out : Bytes) (d'' : Doc), writeFile d' = .ok (out, d'') → 100 ≤ out.length → out.length < 10 ^ 80 →
        ∃ dl t', loads out = .ok dl ∧ IsRoot (storeOf dl) t' ∧
          Pointwise SamePage (((leaves [] t).mapIdx fun i b => if Selected sel i then
            (b.1, Dict.set b.2.1 b!"/Rotate" (.int ((rotation b + a) % 360)), b.2.2) else b).map shownPage)
            ((leaves [] t').map shownPage) ∧
          (leaves [] t').map rotation =
            (leaves [] t).mapIdx fun i b => if Selected sel i then (rotation b + a) % 360 else rotation b := by
  obtain ⟨J, s', e1, e2, e3, e4, e5⟩ := rotate_eval hd ht ho hturn a sel
  obtain ⟨f, f1, f2⟩ := rotate_tree ht hturn e4 e5
  obtain ⟨d', r1, r2, rfl, r4, -⟩ := made_eval (Q := FitObj) (fun _ h => h) _ h hf (emits_rotate lim leak a sel) e1
  refine ⟨J, d', r1, r2, r4, ?_⟩
  intro out d'' hw hmin hmax
  obtain ⟨dl, t', h1, h2, h3, h4⟩ := C103_pages_partial r2 r4 f1 hw hmin hmax
  refine ⟨dl, t', h1, h2, ?_, ?_⟩
  · rw [f2] at h3; exact h3
  · rw [h4, f2]
    apply List.ext_getElem?
    intro i
    simp only [List.getElem?_map, List.getElem?_mapIdx]
    rcases (leaves [] t)[i]? with _ | b
    · rfl
    · simp only [Option.map_some]
      split
      · congr 1
        have hn : nearest b!"/Rotate" (turned a b :: b.2.2) = some (.int ((rotation b + a) % 360)) := by
          unfold nearest turned
          generalize (rotation b + a) % 360 = m
          simp [entry?, Dict.get?_set]
        show (match nearest b!"/Rotate" (turned a b :: b.2.2) with | some (.int n) => n | _ => 0) = _
        rw [hn]
      · rfl

/-- **C103** for `remove_pages`: the file that is written after a removal shows the pages without those of the selected
positions, in the same order, each with the same entries and the same inherited attributes. -/
theorem C103_remove_partial [Zlib] {d : Doc} (h : Made d) (hf : AllObjs FitNode (storeOf d)) {t : PageTree} {lim : Nat}
    {ord : List Ref → List Ref} (hord : ∀ l, (ord l).Perm l) {leak : Dict} {del : List Int}
    (hr : Removable (storeOf d) t lim del) :
    ∃ leak' d', (removePages lim ord leak del).run d = .ok (leak', d') ∧ Made d' ∧ AllObjs FitNode (storeOf d') ∧
      ∀ (out : Bytes) (d'' : Doc), writeFile d' = .ok (out, d'') → 100 ≤ out.length → out.length < 10 ^ 80 →
        ∃ dl t', loads out = .ok dl ∧ IsRoot (storeOf dl) t' ∧
          Pointwise SamePage (dropAt ((leaves [] t).map shownPage) del) ((leaves [] t').map shownPage) := by
  obtain ⟨J, s', t1, rs, e1, e2, e3, e4, e5, e6, e7, -⟩ := remove_spec (leak := leak) hr hord
  obtain ⟨d', r1, r2, rfl, r4, -⟩ := made_eval (Q := FitNode) (fun _ h => h.1) _ h hf (emits_removePages lim ord leak del) e1
  refine ⟨J, d', r1, r2, r4, ?_⟩
  intro out d'' hw hmin hmax
  obtain ⟨dl, t', h1, h2, h3, -⟩ := C103_pages_partial r2 (fun n v hn hv => (r4 n v hn hv).1) e3 hw hmin hmax
  refine ⟨dl, t', h1, h2, ?_⟩
  rw [← e6]; exact h3

/-! ### Samples -/

theorem allObjs_mem [Zlib] {Q : Obj → Prop} {objs : List Obj} (hne : ∀ o ∈ objs, o ≠ .null) (h : ∀ o ∈ objs.drop 1, Q o) :
    AllObjs Q (storeOf (memDoc objs)) := by
  rw [memDoc_store hne]
  intro n v hn hv
  simp only [memStore] at hv
  rcases ho : objs[n]? with _ | o
  · rw [ho] at hv; cases hv
  · rw [ho] at hv; cases hv
    refine h v (List.mem_iff_getElem?.2 ⟨n - 1, ?_⟩)
    rw [List.getElem?_drop, ← ho]
    congr 1
    omega

theorem boxedObjs_fit [Zlib] : ∀ o ∈ boxedObjs.drop 1, FitObj o := by
  intro o ho
  simp only [boxedObjs, List.drop_succ_cons, List.drop_zero, List.mem_cons, List.not_mem_nil, or_false] at ho
  rcases ho with rfl | rfl | rfl | rfl | rfl <;> exact .inr (keepable_dict.2 (by decide))

/-- The hypotheses of `C103_rotate_partial` are met by the sample of C32 (see also the samples there). -/
example [Zlib] : Made (memDoc boxedObjs) ∧ AllObjs FitObj (storeOf (memDoc boxedObjs)) := by
  refine ⟨.start (memDoc_fresh rfl ?_ (by decide) rfl rfl), allObjs_mem (by simp [boxedObjs]) boxedObjs_fit⟩
  intro n o hn ho
  have := boxedObjs_fit o (List.mem_iff_getElem?.2 ⟨n - 1, by
    rw [List.getElem?_drop, ← ho]; congr 1; omega⟩)
  rcases this with rfl | h
  · rcases n with _ | _ | _ | _ | _ | _ | n <;> simp [boxedObjs] at ho
  · exact h

/-- The file is long enough, and its second page has turned from 270 by 180. -/
example [Zlib] : (do
    let (_, d) ← (rotate 1000 [] 180 [1]).run (memDoc boxedObjs)
    let (out, _) ← writeFile d
    let dl ← loads out
    return (decide (100 ≤ out.length ∧ out.length < 10 ^ 80), view dl (.ref 0 5))) =
      .ok (true, .ok (.dict [(b!"/Rotate", .int 90), (b!"/Type", .str b!"/Page")])) := by
  kernel_rfl

theorem removeObjs_fit [Zlib] : ∀ o ∈ removeObjs.drop 1, FitNode o := by
  intro o ho
  simp only [removeObjs, removeObjsWith, List.drop_succ_cons, List.drop_zero, List.mem_cons, List.not_mem_nil, or_false] at ho
  have hdict : ∀ d : Dict, WF false false (.dict d) = true → (∀ g n, Dict.get? d b!"/Count" ≠ some (.ref g n)) → FitNode (.dict d) :=
    fun d h1 h2 => ⟨.inr (keepable_dict.2 h1), fun d' hd => by cases hd; exact h2⟩
  have hstream : FitNode (.stream [(b!"/Length", .int 1)] b!"q" b!"q") :=
    ⟨.inr ⟨⟨by decide, by decide, by decide, by decide, rfl⟩, by decide⟩, fun _ h => by cases h⟩
  rcases ho with rfl | rfl | rfl | rfl | rfl | rfl | rfl | rfl | rfl
  all_goals first
    | exact hstream
    | exact hdict _ (by decide) (fun g n => by simp [Dict.get?, List.lookup])

/-- The sample of C33, committed. -/
theorem removeObjs_committed [Zlib] : ∃ d t, commit (memDoc removeObjs) = .ok d ∧ Made d ∧
    storeOf d = memStore (removeObjsWith t) ∧ Dict.get? t b!"/Root" = some (.ref 0 1) := by
  have hfit : ∀ (n : Nat) (o : Obj), 1 ≤ n → removeObjs[n]? = some o → Keepable o := by
    intro n o hn ho
    have := removeObjs_fit o (List.mem_iff_getElem?.2 ⟨n - 1, by
      rw [List.getElem?_drop, ← ho]; congr 1; omega⟩)
    rcases this.1 with rfl | h
    · rcases n with _ | _ | _ | _ | _ | _ | _ | _ | _ | _ | n <;> simp [removeObjs, removeObjsWith] at ho
    · exact h
  have hset : Settled (memDoc removeObjs) := memDoc_settled rfl hfit
  have hmade : Made (memDoc removeObjs) := .start (memDoc_fresh rfl hfit (by decide) rfl rfl)
  have hlen : (commit (memDoc removeObjs)).map (fun d => d.cur.length) = .ok 10 := by kernel_rfl
  rcases hc : commit (memDoc removeObjs) with e | d
  · rw [hc] at hlen; cases hlen
  rw [hc] at hlen
  have hlen : d.cur.length = 10 := Except.ok.inj hlen
  have hmd : Made d := .op (o := .commit) hmade trivial (by simp [ops, Op.run, hc, bind, Except.bind])
  obtain ⟨t, ht, hk⟩ := committed_trailer hset hc (t := [(b!"/Root", .ref 0 1)]) rfl
  refine ⟨d, t, rfl, hmd, ?_, ?_⟩
  · have hst := memDoc_store (objs := removeObjs) (by simp [removeObjs, removeObjsWith])
    have hv := (good_commit hset.edit.good hc).2.2
    have h0 := view_zero (made_editable hmd) 0
    rw [cacheAt_eq ht] at h0
    unfold storeOf memStore
    congr 1
    funext n
    rcases n with _ | n
    · exact h0
    · have h1 := hv (n + 1) 0 (by omega) (by simp)
      have h2 := congrFun (congrArg Store.val hst) (n + 1)
      simp only [storeOf, memStore] at h2
      rw [h1, h2]
      simp [removeObjs, removeObjsWith]
  · rw [hk _ (by unfold MovingKey; decide)]
    rfl

theorem removeObjs_made [Zlib] : ∃ d, Made d ∧ AllObjs FitNode (storeOf d) ∧ ∃ t, storeOf d = memStore (removeObjsWith t) ∧
    Dict.get? t b!"/Root" = some (.ref 0 1) := by
  obtain ⟨d, t, -, h1, h2, h3⟩ := removeObjs_committed
  refine ⟨d, h1, ?_, t, h2, h3⟩
  intro n v hn hv
  have : AllObjs FitNode (storeOf (memDoc removeObjs)) :=
    allObjs_mem (by simp [removeObjs, removeObjsWith]) removeObjs_fit
  refine this n v hn ?_
  rw [memDoc_store (by simp [removeObjs, removeObjsWith])]
  rw [h2] at hv
  obtain ⟨m, rfl⟩ : ∃ m, n = m + 1 := ⟨n - 1, by omega⟩
  simpa [memStore, removeObjs, removeObjsWith] using hv

/-- The hypotheses of `C103_remove_partial` are met by the sample of C33, committed. -/
example [Zlib] : ∃ d, Made d ∧ AllObjs FitNode (storeOf d) ∧ Removable (storeOf d) removeTree 10 [0, -1] := by
  obtain ⟨d, h1, h2, t, h3, h4⟩ := removeObjs_made
  refine ⟨d, h1, h2, ?_⟩
  rw [h3]
  refine removeTree_removableWith h4 ?_
  intro i hi
  simp only [List.mem_cons, List.not_mem_nil, or_false] at hi
  rcases hi with rfl | rfl
  · exact ⟨0, by decide⟩
  · exact ⟨2, by decide⟩

/-- The first and the last page are removed: the file shows the second one. -/
example [Zlib] : (do
    let d ← commit (memDoc removeObjs)
    let (_, d) ← (removePages 10 id [] [0, -1]).run d
    let (out, _) ← writeFile d
    let dl ← loads out
    let (l, _) ← (flatPageTree 10 .null [] none).run dl
    return (decide (100 ≤ out.length ∧ out.length < 10 ^ 80), l.1.map Prod.fst)) = .ok (true, [.ref 0 6]) := by
  kernel_rfl

/-- **C103 fails for the pages that were added in the same revision**: removing one leaves a number without object among
those to write, and `writefile` raises an exception (see `C27_counterexample`). -/
theorem C103_added_counterexample [Zlib] : (do
    let (_, d) ← (removePages 10 id [] [0]).run (memDoc removeObjs)
    let (out, _) ← writeFile d
    return out) = .error .attributeError := by
  kernel_rfl

end Pdf
