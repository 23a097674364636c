/-
C108: an annotation added to a page is in the file that is written.
-/
import Verif.Lemmas.Twin
import Verif.Props.C103_PagesFile

namespace Pdf
open Spec PageTree

variable {α : Type}

/-- As `made_eval`, for a program whose writes depend on the numbers it gets. -/
theorem made_evalAt [Zlib] {Q : Obj → Prop} (hQ : ∀ o, Q o → o = .null ∨ Keepable o) : ∀ (p : Prog α) {d : Doc} {a : α}
    {s : Store}, Made d → AllObjs Q (storeOf d) → EmitsAt Q p (storeOf d) → eval p (storeOf d) = .ok (a, s) →
    ∃ d', p.run d = .ok (a, d') ∧ Made d' ∧ storeOf d' = s ∧ AllObjs Q s := by
  intro p
  induction p with
  | ret a =>
    intro d a' s hm hs hp he
    cases he
    exact ⟨d, rfl, hm, rfl, hs⟩
  | raise e => intro d a s _ _ _ he; cases he
  | get r k ih =>
    intro d a s hm hs hp he
    simp only [eval] at he
    obtain ⟨o, ho, he⟩ := bind_eq_ok he
    obtain ⟨d1, r1, r2, r3, -⟩ := made_eval hQ (.get r .ret) (P := fun _ => True) hm hs (fun _ _ => trivial) (a := o) (s := storeOf d)
      (by simp [eval, ho, bind, Except.bind])
    simp only [Prog.run] at r1
    obtain ⟨⟨o', d1'⟩, hg, r1⟩ := bind_eq_ok r1
    have r1 := Prod.mk.inj (Except.ok.inj r1)
    simp only at r1
    rw [r1.1, r1.2] at hg
    rw [← r3] at he
    obtain ⟨d2, j1, j2⟩ := ih o r2 (by rw [r3]; exact hs) (by rw [r3]; exact hp o ho) he
    refine ⟨d2, ?_, j2⟩
    simp only [Prog.run, hg]
    exact j1
  | set n o k ih =>
    intro d a s hm hs hp he
    simp only [eval] at he
    split at he
    · cases he
    rename_i hn
    obtain ⟨v, hv, he⟩ := bind_eq_ok he
    obtain ⟨d1, r1, r2, r3, r4, -⟩ := made_eval hQ (.set n o (.ret ())) (P := fun _ => True) hm hs ⟨hp.1, trivial⟩ (a := ())
      (s := (storeOf d).set n o) (by simp [eval, hn, hv, bind, Except.bind])
    simp only [Prog.run] at r1
    obtain ⟨d1', hg, r1⟩ := bind_eq_ok r1
    have r1 := Prod.mk.inj (Except.ok.inj r1)
    rw [r1.2] at hg
    rw [← r3] at he
    obtain ⟨d2, j1, j2⟩ := ih r2 (by rw [r3]; exact r4) (by rw [r3]; exact hp.2) he
    refine ⟨d2, ?_, j2⟩
    simp only [Prog.run, hg]
    exact j1
  | add o k ih =>
    intro d a s hm hs hp he
    simp only [eval] at he
    split at he
    · cases he
    rename_i hn
    obtain ⟨d1, r1, r2, r3, r4, -⟩ := made_eval hQ (.add o .ret) (P := fun _ => True) hm hs ⟨hp.1, fun _ => trivial⟩ (a := (storeOf d).next)
      (s := (storeOf d).add o) (by simp [eval, hn])
    simp only [Prog.run] at r1
    obtain ⟨⟨d1', n'⟩, hg, r1⟩ := bind_eq_ok r1
    have r1 := Prod.mk.inj (Except.ok.inj r1)
    simp only at r1
    rw [r1.1, r1.2] at hg
    rw [← r3] at he
    have he : eval (k (storeOf d).next) (storeOf d1) = .ok (a, s) := he
    obtain ⟨d2, j1, j2⟩ := ih _ r2 (by rw [r3]; exact r4) (by rw [r3]; exact hp.2) he
    refine ⟨d2, ?_, j2⟩
    simp only [Prog.run, hg]
    exact j1

/-- A program keeps the numbers that show an object. -/
theorem eval_dom : ∀ (p : Prog α) {s s' : Store} {a : α}, eval p s = .ok (a, s') → ∀ (m : Nat) (v : Obj), s.val m = .ok v →
    ∃ w, s'.val m = .ok w := by
  intro p
  induction p with
  | ret a => intro s s' a' he m v hv; cases he; exact ⟨v, hv⟩
  | raise e => intro s s' a he; cases he
  | get r k ih =>
    intro s s' a he m v hv
    simp only [eval] at he
    obtain ⟨o, ho, he⟩ := bind_eq_ok he
    exact ih o he m v hv
  | set n o k ih =>
    intro s s' a he m v hv
    simp only [eval] at he
    split at he
    · cases he
    obtain ⟨_, -, he⟩ := bind_eq_ok he
    by_cases hmn : m = n
    · exact ih he m o (by rw [hmn, set_val_eq])
    · exact ih he m v (by rw [set_val_ne hmn]; exact hv)
  | add o k ih =>
    intro s s' a he m v hv
    simp only [eval] at he
    split at he
    · cases he
    by_cases hmn : m = s.next
    · exact ih _ he m o (by rw [hmn, add_val_eq])
    · exact ih _ he m v (by rw [add_val_ne hmn]; exact hv)

/-- The annotation as it is read from a file: the text is a string object. -/
def fileAnnot (text : Bytes) (rect : List Obj) (opened : Bool) : Dict :=
  [(b!"/Type", .str b!"/Annot"), (b!"/Subtype", .str b!"/Text"), (b!"/Rect", .list rect),
    (b!"/Contents", .bytes (40 :: text ++ [41])), (b!"/Open", .bool opened)]

theorem annot_twins {text : Bytes} (ha : isAscii text = true) (rect : List Obj) (opened : Bool) :
    Twins (textAnnot text rect opened) (.dict (fileAnnot text rect opened)) := by
  refine ⟨?_, rfl, rfl⟩
  have : isAscii (40 :: text ++ [41]) = true := by
    unfold isAscii at ha ⊢
    simp only [List.cons_append, List.all_cons, List.all_append, List.all_nil, Bool.and_true, Bool.and_eq_true]
    exact ⟨by decide, ha, by decide⟩
  have e : serialize 1 (.str (40 :: text ++ [41])) = serialize 1 (.bytes (40 :: text ++ [41])) := by
    simp only [serialize, toStr, this, if_true]
  simp only [textAnnot, fileAnnot, serialize, serializeEntries] at e ⊢
  rw [e]

theorem catalog_hidden {s s1 : Store} {t : PageTree} (h : IsRoot s t) (h0 : s1.val 0 = s.val 0)
    (hd : ∀ (m : Nat) (v : Obj), s.val m = .ok v → ∃ w, s1.val m = .ok w) : ∃ a, eval catalogP s1 = .ok (a, s1) := by
  obtain ⟨tr, root, cat, q1, q2, q3, q4⟩ := h.named
  have hr : ∃ w, s1.get root = .ok w := by
    cases root <;> simp only [Store.get] at q3 ⊢
    case ref g m =>
      split at q3
      · cases q3
      rename_i hm
      rw [if_neg hm]
      exact hd _ _ q3
    all_goals exact ⟨_, rfl⟩
  obtain ⟨w, hw⟩ := hr
  refine ⟨(w, root), ?_⟩
  unfold catalogP
  have h1 : s1.get (.ref 0 0) = .ok (.dict tr) := by simpa [Store.get] using h0.trans q1
  rw [eval_bind_ok (eval_fetch h1)]
  simp only [getKey, q2, orRaise]
  rw [eval_bind_ok (eval_lift_ok _ _), eval_bind_ok (eval_fetch hw)]
  rfl

theorem wfItems_snoc {b c : Bool} {o : Obj} : ∀ {l : List Obj}, WFItems b c l = true → WF b c o = true → WFItems b c (l ++ [o]) = true
  | [], _, h => by simp [WFItems, h]
  | a :: l, h, ho => by
    simp only [List.cons_append, WFItems, Bool.and_eq_true] at h ⊢
    exact ⟨h.1, wfItems_snoc h.2 ho⟩

/-- An array equal to one that ends with a reference. -/
theorem same_snoc {g n : Int} : ∀ {l l' : List Obj}, Same (.list (l ++ [.ref g n])) (.list l') →
    ∃ l0, l' = l0 ++ [.ref g n] ∧ Same (.list l) (.list l0) := by
  intro l l' h
  rcases h with h | h
  · cases h
    exact ⟨l, rfl, .inl rfl⟩
  · suffices ∃ l0, l' = l0 ++ [.ref g n] ∧ pyEqItems l l0 = true by
      obtain ⟨l0, h1, h2⟩ := this
      exact ⟨l0, h1, .inr (by simpa [pyEq] using h2)⟩
    simp only [pyEq] at h
    induction l generalizing l' with
    | nil =>
      cases l' with
      | nil => simp [pyEqItems] at h
      | cons a m =>
        simp only [List.nil_append, pyEqItems, Bool.and_eq_true] at h
        cases m with
        | cons => simp [pyEqItems] at h
        | nil => exact ⟨[], by rw [same_ref (.inr h.1)]; rfl, rfl⟩
    | cons a l ih =>
      cases l' with
      | nil => simp [pyEqItems] at h
      | cons b m =>
        simp only [List.cons_append, pyEqItems, Bool.and_eq_true] at h
        obtain ⟨l0, k1, k2⟩ := ih h.2
        exact ⟨b :: l0, by rw [k1]; rfl, by simp [pyEqItems, h.1, k2]⟩

/-- The annotations of a page in two maps that show the same objects. -/
theorem annots_same {s s' : Store} (hs : SameStore s s') (h0 : ∀ l, s.val 0 ≠ .ok (.list l)) {p p' : Dict} (hp : SameDict p p')
    {l : List Obj} (h : annotsOf s p = some l) : ∃ l', annotsOf s' p' = some l' ∧ Same (.list l) (.list l') := by
  unfold annotsOf at h ⊢
  rcases ha : Dict.get? p b!"/Annots" with _ | o
  · rw [ha] at h
    cases h
    have := hp b!"/Annots"
    rw [ha] at this
    rcases hb : Dict.get? p' b!"/Annots" with _ | o'
    · exact ⟨[], rfl, .inl rfl⟩
    · rw [hb] at this; exact this.elim
  · rw [ha] at h
    obtain ⟨w, hw, hsw⟩ := hp.some ha
    rw [hw]
    simp only at h ⊢
    split at h
    · rename_i l1 hg
      cases h
      have : ∃ l', s'.get w = .ok (.list l') ∧ Same (.list l) (.list l') := by
        rcases Classical.em (∃ g n, o = .ref g n) with ⟨g, n, rfl⟩ | hnr
        · rw [same_ref hsw]
          simp only [Store.get] at hg ⊢
          split at hg
          · cases hg
          rename_i hn
          rw [if_neg hn]
          have hpos : 1 ≤ n.toNat := by
            rcases Nat.eq_zero_or_pos n.toNat with hz | hz
            · rw [hz] at hg; exact absurd hg (h0 l)
            · exact hz
          obtain ⟨v, v1, v2⟩ := hs n.toNat _ hpos hg (by simp)
          have : ∃ l', v = .list l' := by
            rcases v2 with rfl | v2
            · exact ⟨_, rfl⟩
            · cases v <;> simp [pyEq] at v2
              exact ⟨_, rfl⟩
          obtain ⟨l', rfl⟩ := this
          exact ⟨l', v1, v2⟩
        · have hol : o = .list l := by
            cases o <;> simp only [Store.get] at hg
            case ref g n => exact absurd ⟨g, n, rfl⟩ hnr
            all_goals exact Except.ok.inj hg
          subst hol
          have : ∃ l', w = .list l' := by
            rcases hsw with rfl | hsw
            · exact ⟨_, rfl⟩
            · cases w <;> simp [pyEq] at hsw
              exact ⟨_, rfl⟩
          obtain ⟨l', rfl⟩ := this
          exact ⟨l', rfl, hsw⟩
      obtain ⟨l', k1, k2⟩ := this
      rw [k1]
      exact ⟨l', rfl, k2⟩
    · cases h

namespace Spec

/-- A text annotation read from a file, ISO 32000 12.5.6.4: the text is a string object. -/
structure IsFileAnnot (d : Dict) (text : Bytes) (rect : List Obj) (opened : Bool) : Prop where
  type : Dict.get? d b!"/Type" = some (.str b!"/Annot")
  subtype : Dict.get? d b!"/Subtype" = some (.str b!"/Text")
  rect : ∃ r, Dict.get? d b!"/Rect" = some r ∧ Same (.list rect) r
  contents : Dict.get? d b!"/Contents" = some (.bytes (40 :: text ++ [41]))
  opened : Dict.get? d b!"/Open" = some (.bool opened)

end Spec

theorem same_bytes {a : Bytes} {w : Obj} (h : Same (.bytes a) w) : w = .bytes a := by
  rcases h with rfl | h
  · rfl
  · cases w <;> simp [pyEq] at h
    rw [h]

theorem same_bool {a : Bool} {w : Obj} (h : Same (.bool a) w) : w = .bool a := by
  rcases h with rfl | h
  · rfl
  · cases w <;> simp [pyEq] at h
    rw [h]

theorem fileAnnot_same {a : Dict} {text : Bytes} {rect : List Obj} {opened : Bool} (h : SameDict (fileAnnot text rect opened) a) :
    IsFileAnnot a text rect opened := by
  obtain ⟨v1, h1, k1⟩ := h.some (k := b!"/Type") (v := .str b!"/Annot") rfl
  obtain ⟨v2, h2, k2⟩ := h.some (k := b!"/Subtype") (v := .str b!"/Text") rfl
  obtain ⟨v3, h3, k3⟩ := h.some (k := b!"/Rect") (v := .list rect) rfl
  obtain ⟨v4, h4, k4⟩ := h.some (k := b!"/Contents") (v := .bytes (40 :: text ++ [41])) rfl
  obtain ⟨v5, h5, k5⟩ := h.some (k := b!"/Open") (v := .bool opened) rfl
  exact ⟨by rw [h1, same_str k1], by rw [h2, same_str k2], ⟨v3, h3, k3⟩, by rw [h4, same_bytes k4], by rw [h5, same_bool k5]⟩

/-- What is written survives. -/
theorem annot_fits [Zlib] {d : Doc} (hfit : AllObjs FitObj (storeOf d)) {b : Ref × Dict × List Dict} (hpos : 0 < b.1.2)
    (hpage : (storeOf d).get (refObj b.1) = .ok (.dict b.2.1)) (hi : AnnotsIndirect b.2.1) {old : List Obj}
    (ho : annotsOf (storeOf d) b.2.1 = some old) {text : Bytes}
    {rect : List Obj} {opened : Bool} (hs : WF true false (.bytes (40 :: text ++ [41])) = true)
    (hr : WF true false (.list rect) = true) (hbig : (storeOf d).next < 2 ^ 53) :
    FitObj (.list (old ++ [.ref 0 (storeOf d).next])) ∧
    FitObj (.dict (Dict.set b.2.1 b!"/Annots" (.ref 0 ((storeOf d).next + 1 : Nat)))) ∧
    FitObj (.dict (fileAnnot text rect opened)) := by
  have hpv : (storeOf d).val b.1.2.toNat = .ok (.dict b.2.1) := by rw [← get_refObj hpos]; exact hpage
  have hwp : WF false false (.dict b.2.1) = true := by
    rcases hfit _ _ (by omega) hpv with k | k
    · cases k
    · exact keepable_dict.1 k
  have hQ : FitObj (.list (old ++ [.ref 0 (storeOf d).next])) := by
    refine .inr ⟨?_, rfl⟩
    show WFItems false true (old ++ [.ref 0 (storeOf d).next]) = true
    refine wfItems_snoc ?_ (by simp [WF]; omega)
    rcases hi with hi | ⟨g, m, hm, hi⟩
    · unfold annotsOf at ho
      rw [hi] at ho
      cases ho
      rfl
    · unfold annotsOf at ho
      rw [hi] at ho
      simp only [Store.get] at ho
      rw [if_neg (by omega)] at ho
      split at ho
      · rename_i l hl
        cases ho
        rcases hfit _ _ (by omega) hl with k | k
        · cases k
        · exact k.1
      · cases ho
  have hQ' : FitObj (.dict (Dict.set b.2.1 b!"/Annots" (.ref 0 ((storeOf d).next + 1 : Nat)))) :=
    .inr (keepable_dict.2 (wf_set hwp (by decide) (by simp [WF]; omega)))
  have hA : FitObj (.dict (fileAnnot text rect opened)) := by
    refine .inr (keepable_dict.2 ?_)
    simp only [fileAnnot, WF, WFEntries] at hs hr ⊢
    simp only [hs, hr, List.map_cons, List.map_nil]
    decide
  exact ⟨hQ, hQ', hA⟩

/-- The operation, and the document that holds the annotation as the file shows it: both are written in the same way. -/
theorem annot_twin [Zlib] {Q : Obj → Prop} (hQ0 : ∀ o, Q o → o = .null ∨ Keepable o) {d : Doc} (hmade : Made d)
    (hall : AllObjs Q (storeOf d)) {leak : Dict} {lim : Nat} {t : PageTree} (hd : depth t ≤ lim) (h : IsRoot (storeOf d) t) {p : Int}
    {j : Nat} (hp : Position (leaves [] t).length p j) {b : Ref × Dict × List Dict} (hb : (leaves [] t)[j]? = some b)
    (hi : AnnotsIndirect b.2.1) {old : List Obj} (ho : annotsOf (storeOf d) b.2.1 = some old) {text : Bytes}
    {rect : List Obj} {opened : Bool} (ha : isAscii text = true) (hQ : Q (.list (old ++ [.ref 0 (storeOf d).next])))
    (hQ' : Dict.get? b.2.1 b!"/Annots" = none → Q (.dict (Dict.set b.2.1 b!"/Annots" (.ref 0 ((storeOf d).next + 1 : Nat)))))
    (hA : Q (.dict (fileAnnot text rect opened))) :
    ∃ leak' d' df page', (addTextAnnotation lim leak p text rect opened).run d = .ok (leak', d') ∧ Made df ∧ AllObjs Q (storeOf df) ∧
      (storeOf df).val (storeOf d).next = .ok (.dict (fileAnnot text rect opened)) ∧
      (storeOf df).get (refObj b.1) = .ok (.dict page') ∧
      annotsOf (storeOf df) page' = some (old ++ [.ref 0 (storeOf d).next]) ∧
      (∀ k, k ≠ b!"/Annots" → Dict.get? page' k = Dict.get? b.2.1 k) ∧
      (∀ n v, (storeOf d).val n = .ok v → (n = b.1.2.toNat → Dict.get? b.2.1 b!"/Annots" ≠ none) →
        (∀ g m, Dict.get? b.2.1 b!"/Annots" = some (.ref g m) → n ≠ m.toNat) → (storeOf df).val n = .ok v) ∧
      (∀ i, (Dict.get? b.2.1 b!"/Annots" = none ∧ i = (storeOf d).next + 1 ∨
          ∃ g m, Dict.get? b.2.1 b!"/Annots" = some (.ref g m) ∧ i = m.toNat) →
        (storeOf df).val i = .ok (.list (old ++ [.ref 0 (storeOf d).next]))) ∧
      ∀ (out : Bytes) (d'' : Doc), writeFile d' = .ok (out, d'') → ∃ d3, writeFile df = .ok (out, d3) := by
  have hed := made_editable hmade
  have hf := storeOf_fresh d
  have hlen : (storeOf d).next = d.cur.length := rfl
  have hn1 : 1 ≤ (storeOf d).next := by have := hed.pos; omega
  have hpos := (leaves_type t [] h.shown b (List.mem_of_getElem? hb)).1
  obtain ⟨tr, root, cat, q1, q2, q3, q4⟩ := h.named
  have h0n : ∀ g m, Dict.get? b.2.1 b!"/Annots" = some (.ref g m) → 0 ≠ m.toNat := by
    intro g m hg
    rcases hi with hi | ⟨g', m', hm', hi⟩
    · rw [hi] at hg; cases hg
    · rw [hi] at hg; cases hg; omega
  -- the document that holds the annotation as the file shows it
  obtain ⟨J, s', page', e1, e2, e3, e4, e5, e6, e7, e8⟩ := annotRest_eval hf (add_next (storeOf d) (.dict (fileAnnot text rect opened)))
    (add_mono hf _) (leak := leak) hd h hp hb hi ho hQ hQ'
  have hcr : eval (Prog.create (.dict (fileAnnot text rect opened))) (storeOf d) =
    .ok ((storeOf d).next, (storeOf d).add (.dict (fileAnnot text rect opened))) := eval_create (by simp)
  obtain ⟨df, f1, f2, f3, f4⟩ := made_evalAt hQ0
    (Prog.create (.dict (fileAnnot text rect opened)) >>= annotRest lim leak p) hmade hall (EmitsAt.bind ⟨hA, trivial⟩ hcr e2)
    (by rw [eval_bind_ok hcr]; exact e1)
  -- the document of the operation
  have hct : eval (Prog.create (textAnnot text rect opened)) (storeOf d) =
    .ok ((storeOf d).next, (storeOf d).add (textAnnot text rect opened)) := eval_create (by simp [textAnnot])
  obtain ⟨d1, c1, c2, c3, -⟩ := run_eval _ hed hct
  have hlen' : d.cur.length < (d.cache ++ [Obj.null]).length := by
    have := hed.good.len
    simp
    omega
  have hd1 : d1 = Doc.mk (d.cur ++ [Slot.one { num := d.cur.length, docVer := d.past.length }]) d.past
      ((d.cache ++ [Obj.null]).set d.cur.length (textAnnot text rect opened)) d.curData d.pastData := by
    simp only [Prog.create, Prog.run, addObject] at c1
    rw [if_pos hlen'] at c1
    exact (Prod.mk.inj (Except.ok.inj c1)).2.symm
  have hmh : ∀ m v, (storeOf d).val m = .ok v → (hideNum (storeOf d).next (storeOf d1)).val m = .ok v := by
    intro m v hv
    have := hf m v hv
    simp only [hideNum]
    rw [if_neg (by omega), c3]
    exact add_mono hf _ m v hv
  obtain ⟨Jh, sh, pageh, g1, -, -, -, -, -, g7, -⟩ := annotRest_eval hf (s1 := hideNum (storeOf d).next (storeOf d1))
    (by rw [c3]; rfl) hmh (leak := leak) hd h hp hb hi ho hQ hQ'
  have hlt1 : (storeOf d).next < d1.cur.length := by rw [hd1]; simp; omega
  obtain ⟨d', t1, t2, t3, t4, t5, t6⟩ := twin_run (.dict (fileAnnot text rect opened)) _ c2 hlt1 g1
  refine ⟨Jh, d', df, page', ?_, f2, by rw [f3]; exact f4, by rw [f3, e3, add_val_eq], by rw [f3]; exact e4, by rw [f3]; exact e5, e6,
    ?_, by rw [f3]; exact e8, ?_⟩
  · show (Prog.create (textAnnot text rect opened) >>= annotRest lim leak p).run d = _
    rw [Prog.bind_run, c1]
    exact t1
  · intro m v hv k1 k2
    rw [f3, e7 m (hf m v hv) k1 k2]
    exact add_mono hf _ m v hv
  intro out d'' hw
  have hsw : swapObj (storeOf d).next (.dict (fileAnnot text rect opened)) d' = df := by
    rw [Prog.bind_run] at f1
    obtain ⟨⟨n2, d2⟩, k1, k2⟩ := bind_eq_ok f1
    simp only [Prog.create, Prog.run, addObject] at k1
    rw [if_pos hlen'] at k1
    have k1 := Prod.mk.inj (Except.ok.inj k1)
    have hd2 : d2 = swapObj (storeOf d).next (.dict (fileAnnot text rect opened)) d1 := by
      rw [← k1.2, hd1]
      simp only [swapObj, hlen, List.set_set]
    rw [← k1.1, hd2] at k2
    have k2 : (annotRest lim leak p (storeOf d).next).run (swapObj (storeOf d).next (.dict (fileAnnot text rect opened)) d1) = .ok (J, df) := k2
    rw [t6] at k2
    exact (Prod.mk.inj (Except.ok.inj k2)).2
  have ho' : d'.cache[(storeOf d).next]? = some (textAnnot text rect opened) := by
    rw [t4, hd1]
    exact getElem?_set_eq' _ _ hlen'
  have hcat : ∃ a, eval catalogP (hideNum (storeOf d).next (storeOf d')) = .ok (a, hideNum (storeOf d).next (storeOf d')) := by
    rw [t3]
    refine catalog_hidden h ?_ ?_
    · rw [g7 0 (by omega) (by omega) h0n, hmh 0 _ q1, q1]
    · intro m v hv
      exact eval_dom _ g1 m v (hmh m v hv)
  obtain ⟨ac, hac⟩ := hcat
  have hwf := writeFile_swap t2 hn1 (by omega) ho' (annot_twins ha rect opened) hac hw
  rw [hsw] at hwf
  exact ⟨_, hwf⟩

/-- **C108** for ASCII texts that can be put between parentheses as they are, on a page without annotations or whose
annotation array is an indirect object: the file that is written shows the annotation under its number, with the text,
the rectangle and the flag that were given; the page has its entries, and its annotations followed by the new one; the
other objects are there (other than the page if it had no annotations, and than the array if it had one). -/
theorem C108_annotation_partial [Zlib] {d : Doc} (hmade : Made d) (hfit : AllObjs FitObj (storeOf d)) {leak : Dict} {lim : Nat}
    {t : PageTree} (hd : depth t ≤ lim) (h : IsRoot (storeOf d) t) {p : Int} {j : Nat}
    (hp : Position (leaves [] t).length p j) {b : Ref × Dict × List Dict} (hb : (leaves [] t)[j]? = some b)
    (hi : AnnotsIndirect b.2.1) {old : List Obj} (ho : annotsOf (storeOf d) b.2.1 = some old) {text : Bytes}
    {rect : List Obj} {opened : Bool} (ha : isAscii text = true) (hs : WF true false (.bytes (40 :: text ++ [41])) = true)
    (hr : WF true false (.list rect) = true) (hbig : (storeOf d).next < 2 ^ 53) :
    ∃ leak' d', (addTextAnnotation lim leak p text rect opened).run d = .ok (leak', d') ∧
      ∀ (out : Bytes) (d'' : Doc), writeFile d' = .ok (out, d'') → 100 ≤ out.length → out.length < 10 ^ 80 →
        ∃ dl a page new, loads out = .ok dl ∧
          (storeOf dl).val (storeOf d).next = .ok (.dict a) ∧ IsFileAnnot a text rect opened ∧
          (storeOf dl).get (refObj b.1) = .ok (.dict page) ∧
          (∀ k, k ≠ b!"/Annots" → SameOpt (Dict.get? b.2.1 k) (Dict.get? page k)) ∧
          annotsOf (storeOf dl) page = some (new ++ [.ref 0 (storeOf d).next]) ∧ Same (.list old) (.list new) ∧
          ∀ (n : Nat) (v : Obj), 1 ≤ n → (storeOf d).val n = .ok v → v ≠ .null →
            (n = b.1.2.toNat → Dict.get? b.2.1 b!"/Annots" ≠ none) →
            (∀ g m, Dict.get? b.2.1 b!"/Annots" = some (.ref g m) → n ≠ m.toNat) →
            ∃ w, (storeOf dl).val n = .ok w ∧ Same v w := by
  have hn1 : 1 ≤ (storeOf d).next := by have := (made_editable hmade).pos; show 1 ≤ d.cur.length; omega
  have hbm := List.mem_of_getElem? hb
  have hpos := (leaves_type t [] h.shown b hbm).1
  have hpage := leaves_shown t [] h.shown b hbm
  obtain ⟨hQ, hQ', hA⟩ := annot_fits (opened := opened) hfit hpos hpage hi ho hs hr hbig
  obtain ⟨tr, root, cat, q1, q2, q3, q4⟩ := h.named
  have h0n : ∀ g m, Dict.get? b.2.1 b!"/Annots" = some (.ref g m) → 0 ≠ m.toNat := by
    intro g m hg
    rcases hi with hi | ⟨g', m', hm', hi⟩
    · rw [hi] at hg; cases hg
    · rw [hi] at hg; cases hg; omega
  obtain ⟨J, d', df, page', r1, f2, f4, e3, e4, e5, e6, e7, -, r2⟩ := annot_twin (Q := FitObj) (fun _ h => h) hmade hfit (leak := leak) hd h hp hb hi ho
    ha hQ (fun _ => hQ') hA
  refine ⟨J, d', r1, ?_⟩
  intro out d'' hw hmin hmax
  obtain ⟨d3, hwf⟩ := r2 out d'' hw
  obtain ⟨dl, l1, l2⟩ := reload_store f2 hwf hmin hmax
  obtain ⟨w, w1, w2⟩ := l2 (storeOf d).next (.dict (fileAnnot text rect opened)) hn1 e3 (by simp)
  obtain ⟨a, rfl, w3⟩ := same_dict w2 (by simp only [fileAnnot, List.map_cons, List.map_nil]; decide)
  obtain ⟨pg, p1, p2⟩ := sameStore_dict l2 f4 hpos e4
  have hz : ∀ l, (storeOf df).val 0 ≠ .ok (.list l) := by
    intro l hl
    rw [e7 0 _ q1 (by omega) h0n] at hl
    cases hl
  obtain ⟨l', a1, a2⟩ := annots_same l2 hz p2 e5
  obtain ⟨new, rfl, a3⟩ := same_snoc a2
  refine ⟨dl, a, pg, new, l1, w1, fileAnnot_same w3, p1, ?_, a1, a3, ?_⟩
  · intro k hk
    rw [← e6 k hk]
    exact p2 k
  · intro m v hm hv hnull k1 k2
    refine l2 m v hm ?_ hnull
    exact e7 m v hv k1 k2

/-- The hypotheses are met by the sample of C57 (see also the samples there), and by a text with parentheses. -/
example [Zlib] : Made (memDoc annotObjs) ∧ AllObjs FitObj (storeOf (memDoc annotObjs)) := by
  have hfit : ∀ o ∈ annotObjs.drop 1, Keepable o := by
    intro o ho
    simp only [annotObjs, List.drop_succ_cons, List.drop_zero, List.mem_cons, List.not_mem_nil, or_false] at ho
    rcases ho with rfl | rfl | rfl | rfl | rfl | rfl <;> first | exact keepable_dict.2 (by decide) | exact ⟨rfl, rfl⟩
  refine ⟨.start (memDoc_fresh rfl ?_ (by decide) rfl rfl), allObjs_mem (by simp [annotObjs]) fun o ho => .inr (hfit o ho)⟩
  intro n o hn ho
  exact hfit o (List.mem_iff_getElem?.2 ⟨n - 1, by rw [List.getElem?_drop, ← ho]; congr 1; omega⟩)
example : isAscii b!"see (1) and \\) here" = true ∧ WF true false (.bytes (40 :: b!"see (1) and \\) here" ++ [41])) = true ∧
    WF true false (.list [.int 0, .int 0, .int 20, .int 20]) = true := by decide

/-- What `add_text_annotation`, `writefile` and `loads` give for the annotation, as it is in memory and in the file. -/
def annotTrip [Zlib] (text : Bytes) : Py (Py Obj × Py Obj) := do
  let (_, d) ← (addTextAnnotation 1000 [] (-1) text [.int 0, .int 0, .int 20, .int 20] false).run (memDoc annotObjs)
  let (out, _) ← writeFile d
  let dl ← loads out
  return (view d (.ref 0 7), view dl (.ref 0 7))

example [Zlib] : (annotTrip b!"see (1)").map (fun r => r.2.map (fun o => match o with | .dict a => Dict.get? a b!"/Contents" | _ => none)) =
    .ok (.ok (some (.bytes b!"(see (1))"))) := by kernel_rfl

/-- The entries of the annotation in the file. -/
def annotInFile [Zlib] (text : Bytes) : Py (Py Dict) :=
  (annotTrip text).map fun r => r.2.bind fun o => match o with | .dict a => .ok a | _ => .error .outside

/-- **C108 is false of the other texts**, as the code does not escape anything. A closing parenthesis cuts the text. What
follows it is read as entries of the annotation. With an opening one, or with two closing angle brackets, the
annotation cannot be read any more. With a character that is not ASCII no file is written at all. -/
theorem C108_counterexample [Zlib] :
    (annotInFile b!"smile :)").map (fun r => r.map (fun a => Dict.get? a b!"/Contents")) = .ok (.ok (some (.bytes b!"(smile :)"))) ∧
    (annotInFile b!"a) /A (b").map (fun r => r.map (fun a => (Dict.get? a b!"/Contents", Dict.get? a b!"/A"))) =
      .ok (.ok (some (.bytes b!"(a)"), some (.bytes b!"(b)"))) ∧
    (annotInFile b!"a(").map (fun r => r.map (fun _ => ())) = .ok (.error .typeError) ∧
    (annotInFile b!"a>>b").map (fun r => r.map (fun _ => ())) = .ok (.error .typeError) ∧
    (annotInFile [233]).map (fun _ => ()) = .error .unicodeError := by
  refine ⟨?_, ?_, ?_, ?_, ?_⟩ <;> kernel_rfl

/-- Even for the texts of `C108_annotation_partial`, the annotation in memory is not the one of the file: `/Contents`
is a Python string in one of them, and bytes in the other. -/
theorem C108_memory_counterexample [Zlib] :
    (annotTrip b!"hello").map (fun r => (r.1.map (fun o => match o with | .dict a => Dict.get? a b!"/Contents" | _ => none),
      r.2.map (fun o => match o with | .dict a => Dict.get? a b!"/Contents" | _ => none))) =
    .ok (.ok (some (.str b!"(hello)")), .ok (some (.bytes b!"(hello)"))) := by
  kernel_rfl

end Pdf
