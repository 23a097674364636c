/-
C115: an annotation leaves the text of the pages alone.
-/
import Verif.Props.C57_Annot
import Verif.Props.C108_AnnotFile
import Verif.Props.C114_TextAfter

namespace Pdf
open Spec PageTree Prog

/-- The number is that of the array of the annotations of the page, when it is an object of its own. -/
def IsArray (page : Dict) (n : Nat) : Prop := ∃ g m, Dict.get? page b!"/Annots" = some (.ref g m) ∧ n = m.toNat

/-- A reference to the array of the annotations of the page is only found under `/Annots` in a dict. -/
def OnlyAnnots (page : Dict) (o : Obj) : Prop :=
  (∀ q, Occurs q o → ¬ IsArray page q.2.toNat) ∨
  ∃ d, o = .dict d ∧ ∀ k v, (k, v) ∈ d → k ≠ b!"/Annots" → ∀ q, Occurs q v → ¬ IsArray page q.2.toNat

theorem onlyAnnots_entry {page d : Dict} (h : OnlyAnnots page (.dict d)) {k : Bytes} {v : Obj} (hk : k ≠ b!"/Annots")
    (hv : (k, v) ∈ d) : ∀ q, Occurs q v → ¬ IsArray page q.2.toNat := by
  rcases h with h | ⟨d', h0, h⟩
  · exact fun q hq => h q (.entry hv hq)
  · cases h0
    exact h k v hv hk

/-- When only `/Annots` of a page or the array it refers to is changed, the texts are the same. -/
theorem annot_texts [Zlib] {d d' : Doc} (hc : Coherent d) (hc' : Coherent d') {lim : Nat} {t : PageTree} (hd : depth t ≤ lim)
    (h : IsRoot (storeOf d) t) {j : Nat} {b : Ref × Dict × List Dict} (hb : (leaves [] t)[j]? = some b)
    (hi : AnnotsIndirect b.2.1) {old : List Obj} (ho : annotsOf (storeOf d) b.2.1 = some old)
    (hu : ∀ n v, (storeOf d).val n = .ok v → ¬ IsArray b.2.1 n → OnlyAnnots b.2.1 v) {page' : Dict}
    (e4 : (storeOf d').get (refObj b.1) = .ok (.dict page'))
    (e6 : ∀ k, k ≠ b!"/Annots" → Dict.get? page' k = Dict.get? b.2.1 k)
    (e7 : ∀ n v, (storeOf d).val n = .ok v → (n = b.1.2.toNat → Dict.get? b.2.1 b!"/Annots" ≠ none) →
      (∀ g m, Dict.get? b.2.1 b!"/Annots" = some (.ref g m) → n ≠ m.toNat) → (storeOf d').val n = .ok v) :
    ∃ t', IsRoot (storeOf d') t' ∧ depth t' = depth t ∧ (leaves [] t').length = (leaves [] t).length ∧ ∀ (i : Nat) J J' T,
      ((extractPageText lim J (i : Int)).run d).map (fun r => r.1.1) = .ok T →
      ((extractPageText lim J' (i : Int)).run d').map (fun r => r.1.1) = .ok T := by
  have hbm := List.mem_of_getElem? hb
  have hpos := (leaves_type t [] h.shown b hbm).1
  have htype := (leaves_type t [] h.shown b hbm).2
  have hpage := leaves_shown t [] h.shown b hbm
  rw [get_refObj hpos] at hpage e4
  have harr : ∀ n, IsArray b.2.1 n → (storeOf d).val n = .ok (.list old) := by
    rintro n ⟨g, m, hm, rfl⟩
    rcases hi with hi | ⟨g', m', hm', hi⟩
    · rw [hi] at hm; cases hm
    · rw [hi] at hm
      cases hm
      unfold annotsOf at ho
      rw [hi] at ho
      simp only [Store.get] at ho
      rw [if_neg (by omega)] at ho
      split at ho
      · rename_i l hl
        cases ho
        exact hl
      · cases ho
  have hsame : ∀ n v, (storeOf d).val n = .ok v → ¬ IsArray b.2.1 n → n ≠ b.1.2.toNat → (storeOf d').val n = .ok v := by
    intro n v hv hn hne
    exact e7 n v hv (fun he => absurd he hne) (fun g m hm he => hn ⟨g, m, hm, he⟩)
  have hdict : ∀ n e, (storeOf d).val n = .ok (.dict e) → ¬ IsArray b.2.1 n := by
    intro n e he hn
    rw [harr n hn] at he
    cases he
  have hne : ∀ n e, (storeOf d).val n = .ok (.dict e) → Dict.get? e b!"/Type" ≠ some (.str b!"/Page") → n ≠ b.1.2.toNat := by
    rintro n e he ht rfl
    rw [hpage] at he
    cases he
    exact ht htype
  have hnear : ∀ n v, (storeOf d).val n = .ok v → ¬ IsArray b.2.1 n → ∃ w, (storeOf d').val n = .ok w ∧ Near v w := by
    intro n v hv hn
    by_cases he : n = b.1.2.toNat
    · subst he
      rw [hpage] at hv
      cases hv
      refine ⟨_, e4, .inr ⟨_, _, rfl, rfl, ?_, ?_, ?_⟩⟩
      · intro h0
        rw [h0] at htype
        cases htype
      · intro h0
        have := e6 b!"/Type" (by decide)
        rw [h0, htype] at this
        cases this
      · intro k hk
        refine e6 k ?_
        rintro rfl
        revert hk
        decide
    · exact ⟨v, hsame n v hv hn he, .inl rfl⟩
  let f : Ref → Dict → Dict := fun r e => if r.2.toNat = b.1.2.toNat then page' else e
  have hleaf : ∀ c ∈ leaves [] t, (storeOf d').get (refObj c.1) = .ok (.dict (f c.1 c.2.1)) ∧
      Dict.get? (f c.1 c.2.1) b!"/Type" = some (.str b!"/Page") := by
    intro c hc
    have c1 := leaves_type t [] h.shown c hc
    have c2 := leaves_shown t [] h.shown c hc
    rw [get_refObj c1.1] at c2 ⊢
    by_cases he : c.1.2.toNat = b.1.2.toNat
    · simp only [f, if_pos he]
      rw [he]
      exact ⟨e4, by rw [e6 _ (by decide)]; exact htype⟩
    · simp only [f, if_neg he]
      exact ⟨hsame _ _ c2 (hdict _ _ c2) he, c1.2⟩
  obtain ⟨tr, root, cat, n1, -⟩ := h.named
  have hroot : IsRoot (storeOf d') (mapPages f t) := by
    refine isRoot_map h ?_ ?_ ?_ hleaf
    · intro n e he ht
      exact hsame n _ he (hdict n e he) (hne n e he (by rw [ht]; simp))
    · intro n e he
      by_cases hn : n = b.1.2.toNat
      · subst hn
        rw [hpage] at he
        cases he
        exact ⟨_, e4, e6 _ (by decide)⟩
      · exact ⟨e, hsame n _ he (hdict n e he) hn, rfl⟩
    · rw [n1]
      exact hsame 0 _ n1 (hdict 0 _ n1) (by omega)
  have S : Safe (storeOf d) (storeOf d') (OnlyAnnots b.2.1) := by
    refine ⟨.inl fun q hq => (nomatch hq), .inl fun q hq => (nomatch hq), ?_, ?_, ?_, ?_⟩
    · intro e k v hU hk hv
      refine .inl (onlyAnnots_entry hU ?_ (get?_mem hv))
      rintro rfl
      revert hk
      decide
    · intro l o hU hm
      rcases hU with hU | ⟨_, h0, -⟩
      · exact .inl fun q hq => hU q (.item hm hq)
      · cases h0
    · intro e g k r hU hv hm
      exact .inl fun q hq => onlyAnnots_entry hU (by decide) (get?_mem hv) q (.entry hm hq)
    · intro o v hU hv
      cases o with
      | ref g n =>
        have hna : ¬ IsArray b.2.1 n.toNat := by
          rcases hU with hU | ⟨_, h0, -⟩
          · exact hU (g, n) .here
          · cases h0
        simp only [Store.get] at hv ⊢
        split at hv
        · cases hv
        · rename_i hn
          rw [if_neg hn]
          exact ⟨hu _ v hv hna, hnear _ v hv hna⟩
      | _ => cases hv; exact ⟨hU, _, rfl, .inl rfl⟩
  refine ⟨mapPages f t, hroot, depth_mapPages .., by rw [leaves_mapPages, List.length_map], fun i J J' T => ?_⟩
  refine sim_text hc hc' S.agree (trees_agree hd h (by rw [depth_mapPages]; exact hd) hroot ?_) J J'
  intro c hc
  have hcm := List.mem_of_getElem? hc
  have c1 := (leaves_type t [] h.shown c hcm).1
  have c2 := leaves_shown t [] h.shown c hcm
  rw [get_refObj c1] at c2
  refine ⟨(c.1, f c.1 c.2.1, c.2.2), by rw [leaves_mapPages, List.getElem?_map, hc]; rfl, .inl ?_, .inl rfl⟩
  intro q hq
  have : q = c.1 := by
    generalize hz : refObj c.1 = z at hq
    cases hq with
    | here =>
      unfold refObj at hz
      simp only [Obj.ref.injEq] at hz
      exact Prod.ext hz.1.symm hz.2.symm
    | _ => cases hz
  rw [this]
  exact hdict _ _ c2

/-- **C115.** Adding a text annotation to a page leaves the text of every page that could be laid out as it was.

Missing from the full claim: the pages whose annotations are a direct array (`C57_counterexample`), and the documents in which the
array of the annotations of the page is used for something else too. -/
theorem C115_annotation_partial [Zlib] {d : Doc} {x : Option Int} (hed : Editable d x) {leak : Dict} {lim : Nat}
    {t : PageTree} (hd : depth t ≤ lim) (h : IsRoot (storeOf d) t) {p : Int} {j : Nat}
    (hp : Position (leaves [] t).length p j) {b : Ref × Dict × List Dict} (hb : (leaves [] t)[j]? = some b)
    (hi : AnnotsIndirect b.2.1) {old : List Obj} (ho : annotsOf (storeOf d) b.2.1 = some old)
    (hu : ∀ n v, (storeOf d).val n = .ok v → ¬ IsArray b.2.1 n → OnlyAnnots b.2.1 v) (text : Bytes) (rect : List Obj) (opened : Bool) :
    ∃ leak' d', (addTextAnnotation lim leak p text rect opened).run d = .ok (leak', d') ∧ ∀ (i : Nat) J J' T,
      ((extractPageText lim J (i : Int)).run d).map (fun r => r.1.1) = .ok T →
      ((extractPageText lim J' (i : Int)).run d').map (fun r => r.1.1) = .ok T := by
  obtain ⟨K, d', a, page', r1, r2, -, -, e4, -, e6, e7⟩ := C57_annotation_partial hed (leak := leak) hd h hp hb hi ho text rect opened
  obtain ⟨t', -, -, -, r3⟩ := annot_texts hed.good.coherent r2.good.coherent hd h hb hi ho hu e4 e6
    (fun n v hv k1 k2 => by rw [e7 n (storeOf_fresh d n v hv) k1 k2]; exact hv)
  exact ⟨K, d', r1, r3⟩

/-! ### On the file -/

theorem occurs_append {q : Ref} {l m : List Obj} (h : Occurs q (.list (l ++ m))) : Occurs q (.list l) ∨ Occurs q (.list m) := by
  cases h with
  | item hm ho =>
    rcases List.mem_append.1 hm with hm | hm
    · exact .inl (.item hm ho)
    · exact .inr (.item hm ho)

/-- **C115, on the file.** After adding a text annotation, `text` on the file that is written prints the texts that the pages had before.

Missing from the full claim: as in `C108_annotation_partial`, `C112_text_partial` and `C115_annotation_partial`. -/
theorem C115_file_partial [Zlib] [FloatText] {d : Doc} (hmade : Made d) (hfit : AllObjs FitObj (storeOf d)) (hcl : Closed d) {leak : Dict}
    {lim : Nat} {t : PageTree} (hd : depth t ≤ lim) (h : IsRoot (storeOf d) t) {p : Int} {j : Nat}
    (hp : Position (leaves [] t).length p j) {b : Ref × Dict × List Dict} (hb : (leaves [] t)[j]? = some b)
    (hi : AnnotsIndirect b.2.1) {old : List Obj} (ho : annotsOf (storeOf d) b.2.1 = some old)
    (hu : ∀ n v, (storeOf d).val n = .ok v → ¬ IsArray b.2.1 n → OnlyAnnots b.2.1 v) {text : Bytes}
    {rect : List Obj} {opened : Bool} (ha : isAscii text = true) (hs : WF true false (.bytes (40 :: text ++ [41])) = true)
    (hr : WF true false (.list rect) = true) (hrect : ∀ q, Occurs q (.list rect) → InUse d q) (hbig : (storeOf d).next < 2 ^ 53)
    {s : List Str} (hts : PageTexts d lim t s) :
    ∃ leak' d', (addTextAnnotation lim leak p text rect opened).run d = .ok (leak', d') ∧
      ∀ (out : Bytes) (d'' : Doc), writeFile d' = .ok (out, d'') → 100 ≤ out.length → out.length < 10 ^ 80 → Prints lim out s := by
  have hn1 : 1 ≤ (storeOf d).next := by have := (made_editable hmade).pos; show 1 ≤ d.cur.length; omega
  have hbm := List.mem_of_getElem? hb
  have hpos := (leaves_type t [] h.shown b hbm).1
  have hpage := leaves_shown t [] h.shown b hbm
  have hpv : (storeOf d).val b.1.2.toNat = .ok (.dict b.2.1) := by rw [← get_refObj hpos]; exact hpage
  obtain ⟨hQ, hQ', hA⟩ := annot_fits (opened := opened) hfit hpos hpage hi ho hs hr hbig
  -- where the references of the result may lead
  let P : Ref → Prop := fun q => InUse d q ∨ q = (0, ((storeOf d).next : Int)) ∨
    (Dict.get? b.2.1 b!"/Annots" = none ∧ q = (0, (((storeOf d).next + 1 : Nat) : Int)))
  let Q : Obj → Prop := fun o => FitObj o ∧ ∀ q, Occurs q o → P q
  have hold : ∀ q, Occurs q (.list old) → InUse d q := by
    intro q hq
    rcases hi with hi | ⟨g, m, hm, hi⟩
    · unfold annotsOf at ho
      rw [hi] at ho
      cases ho
      cases hq with
      | item hm _ => cases hm
    · unfold annotsOf at ho
      rw [hi] at ho
      simp only [Store.get] at ho
      rw [if_neg (by omega)] at ho
      split at ho
      · rename_i l hl
        cases ho
        exact hcl.objs m.toNat _ (by omega) hl q hq
      · cases ho
  have hQl : Q (.list (old ++ [.ref 0 (storeOf d).next])) := by
    refine ⟨hQ, fun q hq => ?_⟩
    rcases occurs_append hq with hq | hq
    · exact .inl (hold q hq)
    · cases hq with
      | item hm hq =>
        cases List.mem_singleton.1 hm
        exact .inr (.inl (occurs_refObj (r := (0, ((storeOf d).next : Int))) hq))
  have hAQ : Q (.dict (fileAnnot text rect opened)) := by
    refine ⟨hA, fun q hq => .inl ?_⟩
    cases hq with
    | entry hm hq =>
      simp only [fileAnnot, List.mem_cons, List.not_mem_nil, or_false, Prod.mk.injEq] at hm
      rcases hm with ⟨-, rfl⟩ | ⟨-, rfl⟩ | ⟨-, rfl⟩ | ⟨-, rfl⟩ | ⟨-, rfl⟩
      · cases hq
      · cases hq
      · exact hrect q hq
      · cases hq
      · cases hq
  have hall : AllObjs Q (storeOf d) := fun n v hn hv => ⟨hfit n v hn hv, fun q hq => .inl (hcl.objs n v hn hv q hq)⟩
  have hQd : Dict.get? b.2.1 b!"/Annots" = none → Q (.dict (Dict.set b.2.1 b!"/Annots" (.ref 0 ((storeOf d).next + 1 : Nat)))) := by
    intro h0
    refine ⟨hQ', fun q hq => ?_⟩
    cases hq with
    | entry hm hq =>
      rcases mem_set hm with hm | hm
      · exact .inl (hcl.objs _ _ (by omega) hpv q (.entry hm hq))
      · cases hm
        exact .inr (.inr ⟨h0, occurs_refObj (r := (0, (((storeOf d).next + 1 : Nat) : Int))) hq⟩)
  obtain ⟨J, d', df, page', r1, f2, f4, e3, e4, e5, e6, e7, e8, r2⟩ := annot_twin (Q := Q) (fun _ h => h.1) hmade hall (leak := leak) hd h hp hb
    hi ho ha hQl hQd hAQ
  have huse : ∀ q, InUse d q → InUse df q := by
    intro q hq
    rw [inUse_val] at hq ⊢
    obtain ⟨h1, v, h2, h3⟩ := hq
    refine ⟨h1, ?_⟩
    by_cases k1 : q.2.toNat = b.1.2.toNat
    · rw [get_refObj hpos] at e4
      exact ⟨_, k1 ▸ e4, fun h => by cases h⟩
    by_cases k2 : ∃ g m, Dict.get? b.2.1 b!"/Annots" = some (.ref g m) ∧ q.2.toNat = m.toNat
    · exact ⟨_, e8 _ (.inr k2), fun h => by cases h⟩
    · exact ⟨v, e7 _ v h2 (fun h => absurd h k1) (fun g m hg he => k2 ⟨g, m, hg, he⟩), h3⟩
  have hP : ∀ q, P q → InUse df q := by
    rintro q (hq | rfl | ⟨h0, rfl⟩)
    · exact huse q hq
    · exact inUse_val.2 ⟨by show (1 : Int) ≤ ((storeOf d).next : Int); omega, _, e3, fun h => by cases h⟩
    · exact inUse_val.2 ⟨by show (1 : Int) ≤ (((storeOf d).next + 1 : Nat) : Int); omega, _, e8 _ (.inl ⟨h0, rfl⟩), fun h => by cases h⟩
  obtain ⟨tr, root, cat, n1, n2, -⟩ := h.named
  have h0 : (storeOf df).val 0 = .ok (.dict tr) := by
    refine e7 0 _ n1 (by omega) ?_
    intro g m hg
    rcases hi with hi | ⟨g', m', hm', hi⟩
    · rw [hi] at hg; cases hg
    · rw [hi] at hg; cases hg; omega
  have hclf : Closed df := by
    refine ⟨fun n v hn hv q hq => hP q ((f4 n v hn hv).2 q hq), ?_⟩
    intro t' v ht' hv
    have k1 : (storeOf df).val 0 = .ok (.dict t') := ht'
    rw [h0] at k1
    cases k1
    obtain ⟨g, n, k2, k3⟩ := hcl.root tr v n1 hv
    exact ⟨g, n, k2, huse _ k3⟩
  obtain ⟨t', k1, k2, k3, k4⟩ := annot_texts (made_editable hmade).good.coherent (made_editable f2).good.coherent hd h hb hi ho hu e4 e6 e7
  refine ⟨J, d', r1, fun out d'' hw hmin hmax => ?_⟩
  obtain ⟨d3, hw3⟩ := r2 out d'' hw
  exact printed f2 (fun n v hn hv => (f4 n v hn hv).1) hclf (by rw [k2]; exact hd) k1
    ⟨by rw [hts.1, k3], fun i x hx => k4 i [] [] x (hts.2 i x hx)⟩ hw3 hmin hmax

/-! ### Samples -/

/-- A page with text, whose annotations are an array of their own. -/
def noteObjs : List Obj :=
  [.dict [(b!"/Root", .ref 0 1)],
   .dict [(b!"/Type", .str b!"/Catalog"), (b!"/Pages", .ref 0 2)],
   .dict [(b!"/Type", .str b!"/Pages"), (b!"/Kids", .list [.ref 0 3]), (b!"/Count", .int 1)],
   .dict [(b!"/Type", .str b!"/Page"), (b!"/Parent", .ref 0 2), (b!"/Resources", .dict [(b!"/Font", .dict [(b!"/F1", .ref 0 4)])]),
     (b!"/Annots", .ref 0 6), (b!"/Contents", .ref 0 5)],
   .dict [(b!"/Subtype", .str b!"/Type1"), (b!"/BaseFont", .str b!"/Helvetica"), (b!"/FirstChar", .int 72), (b!"/Widths", .list [.int 722, .int 278])],
   .stream [(b!"/Length", .int 33)] b!"BT /F1 10 Tf 72 700 Td (HI) Tj ET" b!"BT /F1 10 Tf 72 700 Td (HI) Tj ET",
   .list [.ref 0 7],
   .dict [(b!"/Type", .str b!"/Annot"), (b!"/P", .ref 0 3)]]

def notedPage : Dict :=
  [(b!"/Type", .str b!"/Page"), (b!"/Parent", .ref 0 2), (b!"/Resources", .dict [(b!"/Font", .dict [(b!"/F1", .ref 0 4)])]),
     (b!"/Annots", .ref 0 6), (b!"/Contents", .ref 0 5)]

def noteTree : PageTree :=
  .node (0, 2) [(b!"/Type", .str b!"/Pages"), (b!"/Kids", .list [.ref 0 3]), (b!"/Count", .int 1)] [.page (0, 3) notedPage]

theorem notedPage_array (n : Nat) : IsArray notedPage n ↔ n = 6 := by
  constructor
  · rintro ⟨g, m, h, rfl⟩
    have : (Obj.ref 0 6) = .ref g m := Option.some.inj h
    cases this
    rfl
  · rintro rfl
    exact ⟨0, 6, rfl, rfl⟩

/-- In the sample only the page refers to the array, under `/Annots`. -/
theorem note_only (n : Nat) (v : Obj) (hv : (memStore noteObjs).val n = .ok v) : OnlyAnnots notedPage v := by
  have hall : (noteObjs.all fun o => (deepRefCollect [] o).all (fun r => decide (r.2.toNat ≠ 6)) || match o with
      | .dict d => d.all fun e => decide (e.1 = b!"/Annots") || (deepRefCollect [] e.2).all fun r => decide (r.2.toNat ≠ 6)
      | _ => false) = true := by decide
  simp only [memStore] at hv
  cases ho : noteObjs[n]? with
  | none => rw [ho] at hv; cases hv
  | some o =>
    rw [ho] at hv
    cases hv
    have h1 := List.all_eq_true.1 hall v (List.mem_of_getElem? ho)
    rcases (Bool.or_eq_true _ _).mp h1 with h2 | h2
    · exact .inl fun q hq h => of_decide_eq_true (List.all_eq_true.1 h2 q ((collect_mem q v []).2 (.inr hq))) ((notedPage_array _).1 h)
    · cases v with
      | dict d =>
        refine .inr ⟨d, rfl, fun k o hm hk q hq h => ?_⟩
        rcases (Bool.or_eq_true _ _).mp (List.all_eq_true.1 h2 (k, o) hm) with h3 | h3
        · exact hk (of_decide_eq_true h3)
        · exact of_decide_eq_true (List.all_eq_true.1 h3 q ((collect_mem q o []).2 (.inr hq))) ((notedPage_array _).1 h)
      | _ => cases h2

/-- The theorem on the sample. -/
example [Zlib] (text : Bytes) (rect : List Obj) (opened : Bool) :
    ∃ leak' d', (addTextAnnotation 10 [] (-1) text rect opened).run (memDoc noteObjs) = .ok (leak', d') ∧ ∀ (i : Nat) J J' T,
      ((extractPageText 10 J (i : Int)).run (memDoc noteObjs)).map (fun r => r.1.1) = .ok T →
      ((extractPageText 10 J' (i : Int)).run d').map (fun r => r.1.1) = .ok T := by
  have hs := memDoc_store (objs := noteObjs) (by simp [noteObjs])
  refine C115_annotation_partial (t := noteTree) (j := 0) (b := ((0, 3), notedPage, _)) (old := [.ref 0 7])
    (memDoc_editable (by simp [noteObjs]) rfl) (by decide) ?_ ⟨by decide, .inr rfl⟩ rfl (.inr ⟨0, 6, by decide, rfl⟩) ?_ ?_ text rect opened
  · rw [hs]
    exact ⟨⟨by decide, rfl, rfl, rfl, ⟨by decide, rfl, rfl⟩, trivial⟩, ⟨_, _, _, rfl⟩, _, _, _, rfl, rfl, rfl, rfl⟩
  · rw [hs]
    rfl
  · rw [hs]
    exact fun n v hv _ => note_only n v hv

/-- The text there is: `HI`, before and after. -/
example : letI := plainZlib
    (do
      let (t, d) ← (extractPageText 10 [] 0).run (memDoc noteObjs)
      let (_, d) ← (addTextAnnotation 10 [] (-1) b!"hello" [] false).run d
      let (u, _) ← (extractPageText 10 [] 0).run d
      return decide (t.1 = u.1 ∧ t.1 = "HI\n".toList.map Char.toNat)) = Except.ok (ε := PyErr) true := by
  kernel_rfl

theorem note_fit [Zlib] : ∀ o ∈ noteObjs.drop 1, Keepable o := by
  intro o ho
  simp only [noteObjs, List.drop_succ_cons, List.drop_zero, List.mem_cons, List.not_mem_nil, or_false] at ho
  rcases ho with rfl | rfl | rfl | rfl | rfl | rfl | rfl
  all_goals first
    | exact ⟨⟨by decide, by decide, by decide, by decide, rfl⟩, by decide⟩
    | exact keepable_dict.2 (by decide)
    | exact ⟨rfl, rfl⟩

/-- The theorem for the file, on the sample: `text` prints `HI`. -/
example [Zlib] [FloatText] : ∃ leak' d', (addTextAnnotation 10 [] (-1) b!"see (1)" [.int 0, .int 0, .int 20, .int 20] false).run (memDoc noteObjs) =
      .ok (leak', d') ∧
    ∀ (out : Bytes) (d'' : Doc), writeFile d' = .ok (out, d'') → 100 ≤ out.length → out.length < 10 ^ 80 →
      Prints 10 out ["HI\n".toList.map Char.toNat] := by
  have hs := memDoc_store (objs := noteObjs) (by simp [noteObjs])
  refine C115_file_partial (t := noteTree) (j := 0) (b := ((0, 3), notedPage, _)) (old := [.ref 0 7])
    (.start (memDoc_fresh rfl ?_ (by decide) rfl rfl)) (allObjs_mem (by simp [noteObjs]) fun o ho => .inr (note_fit o ho))
    (closedB_spec (by kernel_rfl)) (by decide) ?_ ⟨by decide, .inr rfl⟩ rfl (.inr ⟨0, 6, by decide, rfl⟩) ?_ ?_ (by decide) (by decide)
    (by decide) ?_ ?_ ⟨rfl, ?_⟩
  · intro n o hn ho
    exact note_fit o (List.mem_iff_getElem?.2 ⟨n - 1, by rw [List.getElem?_drop, ← ho]; congr 1; omega⟩)
  · rw [hs]
    exact ⟨⟨by decide, rfl, rfl, rfl, ⟨by decide, rfl, rfl⟩, trivial⟩, ⟨_, _, _, rfl⟩, _, _, _, rfl, rfl, rfl, rfl⟩
  · rw [hs]
    rfl
  · rw [hs]
    exact fun n v hv _ => note_only n v hv
  · intro q hq
    have := (collect_mem q _ []).2 (.inr hq)
    rw [show deepRefCollect [] (.list [.int 0, .int 0, .int 20, .int 20]) = [] from by decide] at this
    cases this
  · rw [hs]
    show noteObjs.length < 2 ^ 53
    simp [noteObjs]
  · intro j x hj
    rcases j with _ | j
    · cases hj; kernel_rfl
    · cases hj

/-- The array of the annotations of the page is its `/Contents` too. -/
def bothObjs : List Obj :=
  (noteObjs.set 6 (.list [.ref 0 5])).set 3 (.dict [(b!"/Type", .str b!"/Page"), (b!"/Parent", .ref 0 2),
    (b!"/Resources", .dict [(b!"/Font", .dict [(b!"/F1", .ref 0 4)])]), (b!"/Annots", .ref 0 6), (b!"/Contents", .ref 0 6)])

/-- **C115 needs the array for itself**: an array that is also the `/Contents` of the page gets the annotation too, and the text of
the page cannot be laid out any more. -/
theorem C115_shared_counterexample : letI := plainZlib
    (do
      let (t, d) ← (extractPageText 10 [] 0).run (memDoc bothObjs)
      let (_, d) ← (addTextAnnotation 10 [] (-1) b!"hello" [] false).run d
      return (t.1, match (extractPageText 10 [] 0).run d with
        | .ok (u, _) => Except.ok u.1
        | .error e => .error e)) = Except.ok (ε := PyErr) ("HI\n".toList.map Char.toNat, Except.error PyErr.keyError) := by
  kernel_rfl

end Pdf
