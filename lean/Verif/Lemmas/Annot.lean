/-
Hooking an annotation to a page (C57, C108).
-/
import Verif.Lemmas.PageMap
import Verif.Props.C31_MaxNb

namespace Pdf
open Spec Spec.PageTree

/-- Nothing is shown beyond the last number. -/
theorem storeOf_fresh [Zlib] (d : Doc) (n : Nat) (v : Obj) (hv : (storeOf d).val n = .ok v) :
    n < (storeOf d).next := by
  refine Nat.lt_of_not_le fun hn => ?_
  have h : d.cur[n]? = none := List.getElem?_eq_none hn
  have : (storeOf d).val n = .error .indexError := ?_
  · rw [this] at hv; cases hv
  show view d (.ref 0 n) = _
  rw [view_num]
  simp [memoize, slotAt, orRaise, h, bind, Except.bind]

mutual
theorem shown_mono {s s' : Store} (hv : ∀ n v, s.val n = .ok v → s'.val n = .ok v) :
    ∀ t : PageTree, Shown s t → Shown s' t
  | .page r d, ⟨h1, h2, h3⟩ => by
    refine ⟨h1, ?_, h3⟩
    rw [get_refObj h1] at h2 ⊢
    exact hv _ _ h2
  | .node r d kids, ⟨h1, h2, h3, h4, h5⟩ => by
    refine ⟨h1, ?_, h3, h4, shownAll_mono hv kids h5⟩
    rw [get_refObj h1] at h2 ⊢
    exact hv _ _ h2
theorem shownAll_mono {s s' : Store} (hv : ∀ n v, s.val n = .ok v → s'.val n = .ok v) :
    ∀ ts : List PageTree, ShownAll s ts → ShownAll s' ts
  | [], _ => trivial
  | t :: ts, h => ⟨shown_mono hv t h.1, shownAll_mono hv ts h.2⟩
end

theorem get_mono {s s' : Store} (hv : ∀ n v, s.val n = .ok v → s'.val n = .ok v) {o v : Obj}
    (h : s.get o = .ok v) : s'.get o = .ok v := by
  cases o with
  | ref g n =>
    simp only [Store.get] at h ⊢
    split at h
    · cases h
    · rename_i hn
      rw [if_neg hn]
      exact hv _ _ h
  | _ => exact h

theorem isRoot_mono {s s' : Store} (hv : ∀ n v, s.val n = .ok v → s'.val n = .ok v) {t : PageTree}
    (h : IsRoot s t) : IsRoot s' t := by
  obtain ⟨h1, h2, tr, root, cat, n1, n2, n3, n4⟩ := h
  exact ⟨shown_mono hv t h1, h2, tr, root, cat, hv _ _ n1, n2, get_mono hv n3, n4⟩

theorem add_mono {s : Store} (hf : ∀ n v, s.val n = .ok v → n < s.next) (o : Obj) :
    ∀ n v, s.val n = .ok v → (s.add o).val n = .ok v := by
  intro n v hn
  rw [add_val_ne (by have := hf n v hn; omega)]
  exact hn

namespace Spec

/-- The annotations of a page: no array, or the array that the entry leads to. -/
def annotsOf (s : Store) (page : Dict) : Option (List Obj) :=
  match Dict.get? page b!"/Annots" with
  | none => some []
  | some o =>
    match s.get o with
    | .ok (.list l) => some l
    | _ => none

/-- A text annotation, ISO 32000 12.5.6.4. -/
structure IsTextAnnot (d : Dict) (text : Bytes) (rect : List Obj) (opened : Bool) : Prop where
  type : Dict.get? d b!"/Type" = some (.str b!"/Annot")
  subtype : Dict.get? d b!"/Subtype" = some (.str b!"/Text")
  rect : Dict.get? d b!"/Rect" = some (.list rect)
  contents : Dict.get? d b!"/Contents" = some (.str (40 :: text ++ [41]))
  opened : Dict.get? d b!"/Open" = some (.bool opened)

end Spec

/-- The page has no annotation, or its annotations are in an indirect object. -/
def AnnotsIndirect (page : Dict) : Prop :=
  Dict.get? page b!"/Annots" = none ∨ ∃ g m, 0 < m ∧ Dict.get? page b!"/Annots" = some (.ref g m)


variable {α β : Type}

/-- What the program writes, started from this map, is of the kind `Q`. -/
def EmitsAt (Q : Obj → Prop) : Prog α → Store → Prop
  | .ret _, _ => True
  | .raise _, _ => True
  | .get r k, s => ∀ o, s.get r = .ok o → EmitsAt Q (k o) s
  | .set n o k, s => (1 ≤ n → Q o) ∧ EmitsAt Q k (s.set n o)
  | .add o k, s => Q o ∧ EmitsAt Q (k s.next) (s.add o)

theorem EmitsAt.bind {Q : Obj → Prop} {p : Prog α} {f : α → Prog β} : ∀ {s s' : Store} {a : α}, EmitsAt Q p s → eval p s = .ok (a, s') →
    EmitsAt Q (f a) s' → EmitsAt Q (p >>= f) s := by
  induction p with
  | ret a =>
    intro s s' a' _ he hf
    cases he
    exact hf
  | raise e => intro s s' a _ he _; cases he
  | get r k ih =>
    intro s s' a hp he hf o ho
    simp only [eval] at he
    obtain ⟨o', ho', he⟩ := bind_eq_ok he
    rw [ho] at ho'
    cases ho'
    exact ih o (hp o ho) he hf
  | set n o k ih =>
    intro s s' a hp he hf
    simp only [eval] at he
    split at he
    · cases he
    obtain ⟨o', ho', he⟩ := bind_eq_ok he
    exact ⟨hp.1, ih hp.2 he hf⟩
  | add o k ih =>
    intro s s' a hp he hf
    simp only [eval] at he
    split at he
    · cases he
    exact ⟨hp.1, ih _ hp.2 he hf⟩

theorem ReadOnly.emitsAt {Q : Obj → Prop} {p : Prog α} (hp : ReadOnly p) (s : Store) : EmitsAt Q p s := by
  induction hp with
  | ret a => exact trivial
  | raise e => exact trivial
  | get r k _ ih => exact fun o _ => ih o

theorem emitsAt_lift {Q : Obj → Prop} (x : Py α) (s : Store) : EmitsAt Q (Prog.lift x) s := by
  rcases x with e | a <;> exact trivial

theorem emitsAt_fetch {Q : Obj → Prop} (r : Obj) (s : Store) : EmitsAt Q (Prog.fetch r) s := fun _ _ => trivial

/-- `add_text_annotation` after the creation of the annotation. -/
def annotRest (lim : Nat) (leak : Dict) (pageNum : Int) (n : Nat) : Prog Dict := do
  let (pages, leak) ← flatPageTree lim .null leak none
  let p ← Prog.lift (pyIndex pages pageNum)
  let page ← Prog.fetch p.1
  hookAnnot p.1 page n
  return leak

theorem annotRest_eval {s s1 : Store} (hf : ∀ n v, s.val n = .ok v → n < s.next) (hnext : s1.next = s.next + 1)
    (hm1 : ∀ n v, s.val n = .ok v → s1.val n = .ok v) {leak : Dict}
    {lim : Nat} {t : PageTree} (hd : depth t ≤ lim) (h : IsRoot s t) {p : Int} {j : Nat}
    (hp : Position (leaves [] t).length p j) {b : Ref × Dict × List Dict} (hb : (leaves [] t)[j]? = some b)
    (hi : AnnotsIndirect b.2.1) {old : List Obj} (ho : annotsOf s b.2.1 = some old) {Q : Obj → Prop}
    (hQ : Q (.list (old ++ [.ref 0 s.next]))) (hQ' : Dict.get? b.2.1 b!"/Annots" = none →
      Q (.dict (Dict.set b.2.1 b!"/Annots" (.ref 0 (s.next + 1 : Nat))))) :
    ∃ J s' page', eval (annotRest lim leak p s.next) s1 = .ok (J, s') ∧ EmitsAt Q (annotRest lim leak p s.next) s1 ∧
      s'.val s.next = s1.val s.next ∧
      s'.get (refObj b.1) = .ok (.dict page') ∧ annotsOf s' page' = some (old ++ [.ref 0 s.next]) ∧
      (∀ k, k ≠ b!"/Annots" → Dict.get? page' k = Dict.get? b.2.1 k) ∧
      (∀ n, n < s.next → (n = b.1.2.toNat → Dict.get? b.2.1 b!"/Annots" ≠ none) →
        (∀ g m, Dict.get? b.2.1 b!"/Annots" = some (.ref g m) → n ≠ m.toNat) → s'.val n = s1.val n) ∧
      ∀ i, (Dict.get? b.2.1 b!"/Annots" = none ∧ i = s.next + 1 ∨ ∃ g m, Dict.get? b.2.1 b!"/Annots" = some (.ref g m) ∧ i = m.toNat) →
        s'.val i = .ok (.list (old ++ [.ref 0 s.next])) := by
  have hbm := List.mem_of_getElem? hb
  have hpos := (leaves_type t [] h.shown b hbm).1
  have hpage := leaves_shown t [] h.shown b hbm
  have h1 := isRoot_mono hm1 h
  obtain ⟨l, J, e1, e2, -⟩ := flatPageTree_root (leak := leak) hd h1
  obtain ⟨x, hx, hx2, -⟩ := e2.get j b hb
  have hidx : pyIndex l p = .ok x := pyIndex_position (by rw [e2.length]; exact hp) hx
  have hpage1 : s1.get (refObj b.1) = .ok (.dict b.2.1) := get_mono hm1 hpage
  have hstart : ∀ r, eval (hookAnnot (refObj b.1) (.dict b.2.1) s.next) s1 = .ok ((), r) →
      EmitsAt Q (hookAnnot (refObj b.1) (.dict b.2.1) s.next) s1 →
      eval (annotRest lim leak p s.next) s1 = .ok (J, r) ∧ EmitsAt Q (annotRest lim leak p s.next) s1 := by
    intro r hr hem
    unfold annotRest
    constructor
    · rw [eval_bind_ok e1]
      show eval (Prog.lift (pyIndex l p) >>= _) _ = _
      rw [hidx, eval_bind_ok (eval_lift_ok _ _), hx2, eval_bind_ok (eval_fetch hpage1), eval_bind_ok hr]
      rfl
    · refine EmitsAt.bind ((readOnly_flatPageTree _ _ _ _).emitsAt _) e1 ?_
      show EmitsAt Q (Prog.lift (pyIndex l p) >>= _) _
      rw [hidx]
      refine EmitsAt.bind (emitsAt_lift _ _) (eval_lift_ok _ _) ?_
      rw [hx2]
      refine EmitsAt.bind (emitsAt_fetch _ _) (eval_fetch hpage1) ?_
      exact EmitsAt.bind hem hr trivial
  have hbval : s.val b.1.2.toNat = .ok (.dict b.2.1) := by rw [← get_refObj hpos]; exact hpage
  have hblt := hf _ _ hbval
  rcases hi with hi | ⟨g, m, hmpos, hi⟩
  · -- no annotation yet
    have hold : old = [] := by
      unfold annotsOf at ho; rw [hi] at ho; cases ho; rfl
    subst hold
    have hv : (s1.add (.list [.ref 0 s.next])).val b.1.2.toNat = .ok (.dict b.2.1) := by
      rw [add_val_ne (by omega)]; exact hm1 _ _ hbval
    have hnum : numOf (refObj b.1) = .ok b.1.2.toNat := by
      simp only [numOf, refObj]
      rw [if_neg (by omega)]
    obtain ⟨r1, r2⟩ := hstart ((s1.add (.list [.ref 0 s.next])).set b.1.2.toNat
        (.dict (Dict.set b.2.1 b!"/Annots" (.ref 0 (s.next + 1 : Nat))))) (by
      unfold hookAnnot
      simp only [hi]
      rw [eval_bind_ok (eval_create (by simp)), hnum, eval_bind_ok (eval_lift_ok _ _), hnext]
      exact eval_update (by omega) hv) (by
      unfold hookAnnot
      simp only [hi]
      refine EmitsAt.bind ⟨hQ, trivial⟩ (eval_create (by simp)) ?_
      rw [hnum]
      refine EmitsAt.bind (emitsAt_lift _ _) (eval_lift_ok _ _) ⟨fun _ => ?_, trivial⟩
      rw [hnext]
      exact hQ' hi)
    refine ⟨J, _, Dict.set b.2.1 b!"/Annots" (.ref 0 (s.next + 1 : Nat)), r1, r2, ?_, ?_, ?_, ?_, ?_, ?_⟩
    · rw [set_val_ne (by omega), add_val_ne (by omega)]
    · rw [get_refObj hpos, set_val_eq]
    · unfold annotsOf
      rw [Dict.get?_set, if_pos (by simp)]
      simp only [Store.get]
      rw [if_neg (by omega), Int.toNat_natCast, set_val_ne (by omega), ← hnext, add_val_eq]
      rfl
    · intro k hk
      rw [Dict.get?_set, if_neg (by simpa using hk)]
    · intro n hn hne _
      rw [set_val_ne (fun h => hne h hi), add_val_ne (by omega)]
    · rintro i (⟨-, rfl⟩ | ⟨g, m, h0, -⟩)
      · rw [set_val_ne (by omega), ← hnext, add_val_eq]
        rfl
      · rw [hi] at h0
        cases h0
  · -- an indirect array
    have harr : s.val m.toNat = .ok (.list old) := by
      unfold annotsOf at ho
      rw [hi] at ho
      simp only [Store.get] at ho
      rw [if_neg (by omega)] at ho
      split at ho
      · rename_i hl; cases ho; exact hl
      · cases ho
    have hmlt := hf _ _ harr
    have hmb : m.toNat ≠ b.1.2.toNat := by intro heq; rw [heq, hbval] at harr; cases harr
    have hget : s1.get (.ref g m) = .ok (.list old) := by
      simp only [Store.get]
      rw [if_neg (by omega)]
      exact hm1 _ _ harr
    have hnum : numOf (.ref g m) = .ok m.toNat := by
      simp only [numOf]
      rw [if_neg (by omega)]
    obtain ⟨r1, r2⟩ := hstart (s1.set m.toNat (.list (old ++ [.ref 0 s.next]))) (by
      unfold hookAnnot
      simp only [hi]
      rw [eval_bind_ok (eval_fetch hget)]
      simp only [appendRef]
      rw [eval_bind_ok (eval_lift_ok _ _), hnum, eval_bind_ok (eval_lift_ok _ _)]
      exact eval_update (by omega) (hm1 _ _ harr)) (by
      unfold hookAnnot
      simp only [hi]
      refine EmitsAt.bind (emitsAt_fetch _ _) (eval_fetch hget) ?_
      simp only [appendRef]
      refine EmitsAt.bind (emitsAt_lift _ _) (eval_lift_ok _ _) ?_
      rw [hnum]
      exact EmitsAt.bind (emitsAt_lift _ _) (eval_lift_ok _ _) ⟨fun _ => hQ, trivial⟩)
    refine ⟨J, _, b.2.1, r1, r2, ?_, ?_, ?_, fun _ _ => rfl, ?_, ?_⟩
    · rw [set_val_ne (by omega)]
    · rw [get_refObj hpos, set_val_ne (Ne.symm hmb)]; exact hm1 _ _ hbval
    · unfold annotsOf
      rw [hi]
      simp only [Store.get]
      rw [if_neg (by omega), set_val_eq]
    · intro n hn _ hne
      rw [set_val_ne (hne g m hi)]
    · rintro i (⟨h0, -⟩ | ⟨g', m', h0, rfl⟩)
      · rw [hi] at h0
        cases h0
      · rw [hi] at h0
        cases h0
        rw [set_val_eq]

theorem annot_eval {s : Store} (hf : ∀ n v, s.val n = .ok v → n < s.next) {leak : Dict}
    {lim : Nat} {t : PageTree} (hd : depth t ≤ lim) (h : IsRoot s t) {p : Int} {j : Nat}
    (hp : Position (leaves [] t).length p j) {b : Ref × Dict × List Dict} (hb : (leaves [] t)[j]? = some b)
    (hi : AnnotsIndirect b.2.1) {old : List Obj} (ho : annotsOf s b.2.1 = some old) (text : Bytes) (rect : List Obj)
    (opened : Bool) :
    ∃ J s' a page', eval (addTextAnnotation lim leak p text rect opened) s = .ok (J, s') ∧
      IsTextAnnot a text rect opened ∧ s'.val s.next = .ok (.dict a) ∧
      s'.get (refObj b.1) = .ok (.dict page') ∧ annotsOf s' page' = some (old ++ [.ref 0 s.next]) ∧
      (∀ k, k ≠ b!"/Annots" → Dict.get? page' k = Dict.get? b.2.1 k) ∧
      ∀ n, n < s.next → (n = b.1.2.toNat → Dict.get? b.2.1 b!"/Annots" ≠ none) →
        (∀ g m, Dict.get? b.2.1 b!"/Annots" = some (.ref g m) → n ≠ m.toNat) → s'.val n = s.val n := by
  obtain ⟨a, ha, hann⟩ : ∃ a, textAnnot text rect opened = .dict a ∧ IsTextAnnot a text rect opened :=
    ⟨_, rfl, rfl, rfl, rfl, rfl, rfl⟩
  have hm1 := add_mono hf (.dict a)
  obtain ⟨J, s', page', q1, -, q2, q3, q4, q5, q6, -⟩ :=
    annotRest_eval hf (add_next s (.dict a)) hm1 (leak := leak) hd h hp hb hi ho (Q := fun _ => True) trivial fun _ => trivial
  refine ⟨J, s', a, page', ?_, hann, by rw [q2, add_val_eq], q3, q4, q5, ?_⟩
  · show eval (Prog.create (textAnnot text rect opened) >>= annotRest lim leak p) s = _
    rw [ha, eval_bind_ok (eval_create (by simp))]
    exact q1
  · intro n hn k1 k2
    rw [q6 n hn k1 k2, add_val_ne (by omega)]

end Pdf
