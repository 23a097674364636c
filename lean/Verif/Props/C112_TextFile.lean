/-
C112: the text of the pages survives writing and loading.
-/
import Verif.Lemmas.SimText
import Verif.Props.C111_Commands

namespace Pdf
open Spec Prog

/-- The reference leads to an object of the document, which is not deleted. -/
def InUse [Zlib] (d : Doc) (r : Int × Int) : Prop := 1 ≤ r.2 ∧ ∃ v, view d (.ref r.1 r.2) = .ok v ∧ v ≠ .null

/-- The references that are in the objects, and the one to the catalog, lead to objects in use. -/
structure Closed [Zlib] (d : Doc) : Prop where
  objs : ∀ (n : Nat) v, 1 ≤ n → view d (.ref 0 n) = .ok v → ∀ r, Occurs r v → InUse d r
  root : ∀ t v, view d (.ref 0 0) = .ok (.dict t) → Dict.get? t b!"/Root" = some v → ∃ g n, v = .ref g n ∧ InUse d (g, n)

theorem inUse_live [Zlib] {d : Doc} {r : Int × Int} (h : InUse d r) : LiveRef (storeOf d) r := by
  obtain ⟨h1, v, h2, h3⟩ := h
  rw [view_get] at h2
  simp only [Store.get] at h2
  rw [if_neg (by omega)] at h2
  exact ⟨h1, v, h2, h3⟩

theorem neat_of_fit [Zlib] {o : Obj} (h : FitObj o) : Neat o := by
  rcases h with rfl | ⟨h, -⟩
  · exact .inl rfl
  · cases o with
    | stream d x e => exact .inr (.inr (.inl ⟨d, x, e, rfl⟩))
    | ref g n => exact .inr (.inr (.inr ⟨g, n, rfl⟩))
    | _ => exact .inr (.inl ⟨false, false, h⟩)

theorem reload_tie [Zlib] {d d' : Doc} {out : Bytes} (h : Made d) (hf : AllObjs FitObj (storeOf d)) (hr : Closed d)
    (hw : writeFile d = .ok (out, d')) (hmin : 100 ≤ out.length) (hmax : out.length < 10 ^ 80) :
    ∃ dl, loads out = .ok dl ∧ Coherent d ∧ Coherent dl ∧ Tie (storeOf d) (storeOf dl) := by
  obtain ⟨dl, hl, hv, -, t, t', ht, ht', hk⟩ := C28_reload_partial d d' out h hw hmin hmax
  have hcd : Coherent d := by
    obtain ⟨F, secs, hf⟩ := made_filed h
    exact hf.settled.edit.good.coherent
  have hcl : Coherent dl := by
    obtain ⟨F, secs, hf0⟩ := made_filed h
    obtain ⟨secs', hf, -, -⟩ := filed_write hf0 hw
    obtain ⟨s, l, rfl⟩ := filed_sec hf hmin
    obtain ⟨dl', tl, h1, h2, -⟩ := loads_at hf.chain (hf.ends s rfl) hmin hmax hf.kept (hf.trailer s rfl) hf.laid
    rw [hl] at h1
    cases h1
    exact h2.coherent
  refine ⟨dl, hl, hcd, hcl, reload_same h hv, ?_, t, t', ht, ht', ?_⟩
  · intro n v hn hv
    exact ⟨neat_of_fit (hf n v hn hv), fun r hr' => inUse_live (hr.objs n v hn hv r hr')⟩
  · intro v hv
    obtain ⟨g, n, rfl, hu⟩ := hr.root t v ht hv
    refine ⟨⟨.inr (.inr (.inr ⟨g, n, rfl⟩)), ?_⟩, ?_⟩
    · intro r hr'
      cases hr'
      exact inUse_live hu
    · have := hk b!"/Root" (by decide) (by decide) (by decide)
      rw [hv] at this
      cases hx : Dict.get? t' b!"/Root" with
      | none => rw [hx] at this; exact this.elim
      | some w => rw [hx] at this; exact ⟨w, rfl, this⟩

/-- What a reading gives on the document, it gives on the document loaded from the file. -/
theorem sim_run [Zlib] {α β : Type} {d dl : Doc} (hc : Coherent d) (hcl : Coherent dl) {p : Prog α} (hp : ReadOnly p) {f : α → β}
    (h : Sim (storeOf d) (storeOf dl) (fun x y => f y = f x) p p) {b : β} (hb : (p.run d).map (fun r => f r.1) = .ok b) :
    (p.run dl).map (fun r => f r.1) = .ok b := by
  have h1 := run_readOnly hp hc
  cases he : eval p (storeOf d) with
  | error e =>
    rw [he] at h1
    simp only at h1
    rw [h1] at hb
    cases hb
  | ok r =>
    obtain ⟨a, t⟩ := r
    rw [he] at h1
    obtain ⟨rfl, d1, h2, -⟩ := h1
    rw [h2] at hb
    cases hb
    obtain ⟨-, a', h3, h4⟩ := h a _ he
    obtain ⟨d2, h5, -⟩ := run_readOnly_ok hp hcl h3
    rw [h5]
    show Except.ok (f a') = Except.ok (f a)
    rw [h4]

/-- **C112, text.** A document whose references lead to objects in use is written and the file is loaded: the number of pages is
the same, and every page that could be laid out has the same text.

Missing from the full claim: see `C28_reload_partial`; references to deleted objects (`C112_deleted_counterexample`). -/
theorem C112_text_partial [Zlib] {d d' : Doc} {out : Bytes} (h : Made d) (hf : AllObjs FitObj (storeOf d)) (hr : Closed d)
    (hw : writeFile d = .ok (out, d')) (hmin : 100 ≤ out.length) (hmax : out.length < 10 ^ 80) :
    ∃ dl, loads out = .ok dl ∧
      (∀ lim leak p t, ((extractPageText lim leak p).run d).map (fun r => r.1.1) = .ok t →
        ((extractPageText lim leak p).run dl).map (fun r => r.1.1) = .ok t) ∧
      ∀ lim n, ((pagesP lim [] none).run d).map (fun r => r.1.1.length) = .ok n →
        ((pagesP lim [] none).run dl).map (fun r => r.1.1.length) = .ok n := by
  obtain ⟨dl, h1, h2, h3, T⟩ := reload_tie h hf hr hw hmin hmax
  refine ⟨dl, h1, ?_, ?_⟩
  · intro lim leak p t ht
    refine sim_run (f := Prod.fst) h2 h3 (readOnly_extract lim leak p) ?_ ht
    intro a u ha
    obtain ⟨k1, b, k2, k3⟩ := sim_extract T lim (fun h => h) p a u ha
    exact ⟨k1, b, k2, k3.symm⟩
  · intro lim n hn
    exact sim_run (f := fun x : List Obj × Dict => x.1.length) h2 h3 (readOnly_pagesP lim [] none) (sim_pagesP T lim none) hn

/-- **C112, the command.** If all the pages of the document can be laid out, `text` on the file prints the texts of the pages of the
document, in order, and succeeds.

Missing from the full claim: as in `C112_text_partial`. -/
theorem C112_command_partial [Zlib] [FloatText] {d d' : Doc} {out : Bytes} (h : Made d) (hf : AllObjs FitObj (storeOf d)) (hr : Closed d)
    (hw : writeFile d = .ok (out, d')) (hmin : 100 ≤ out.length) (hmax : out.length < 10 ^ 80) (lim : Nat) (texts : List Str)
    (hn : ((pagesP lim [] none).run d).map (fun r => r.1.1.length) = .ok texts.length)
    (ht : ∀ (j : Nat) s, texts[j]? = some s → ((extractPageText lim [] (j : Int)).run d).map (fun r => r.1.1) = .ok s)
    (pct : Nat → Nat → Bytes) (input : Bytes) (output : Option Bytes) (w : World) (hF : w.files input = some out) :
    runCommand lim pct .text input output w = (.ok (), { w with out := w.out ++ texts.map .text }) := by
  obtain ⟨dl, h1, h2, h3, T⟩ := reload_tie h hf hr hw hmin hmax
  obtain ⟨dl', h1', k1, k2⟩ := C112_text_partial h hf hr hw hmin hmax
  rw [h1] at h1'
  cases h1'
  obtain ⟨ts, q1, q2, q3⟩ := C111_text_partial lim pct input output w hF h1 h3
  have hpre : ∀ (j : Nat) s, ts[j]? = some s → j < texts.length → texts[j]? = some s := by
    intro j s hj hlt
    obtain ⟨s', hs'⟩ : ∃ s', texts[j]? = some s' := ⟨texts[j], List.getElem?_eq_getElem hlt⟩
    have e1 := q2 j s hj
    rw [k1 lim [] j s' (ht j s' hs')] at e1
    cases e1
    exact hs'
  cases hres : (runCommand lim pct .text input output w).1 with
  | ok u =>
    rw [hres] at q3
    simp only at q3
    rw [k2 lim _ hn] at q3
    have hlen : texts.length = ts.length := Except.ok.inj q3
    have hts : ts = texts := by
      apply List.ext_getElem?
      intro j
      cases hj : ts[j]? with
      | none =>
        rw [List.getElem?_eq_none_iff] at hj
        exact (List.getElem?_eq_none (by omega)).symm
      | some s =>
        obtain ⟨hlt, -⟩ := List.getElem?_eq_some_iff.1 hj
        exact (hpre j s hj (by omega)).symm
    subst hts
    rw [← q1]
    exact Prod.ext hres rfl
  | error x =>
    rw [hres] at q3
    obtain ⟨e, -, ⟨q4, -⟩ | ⟨q4, n, q5, q6⟩⟩ := q3
    · have := k2 lim _ hn
      rw [q4] at this
      cases this
    · rw [k2 lim _ hn] at q5
      cases q5
      have := k1 lim [] (ts.length : Int) _ (ht ts.length texts[ts.length] (List.getElem?_eq_getElem q6))
      rw [q4] at this
      cases this

/-! ### Samples -/

/-- Two pages with text, with fonts of both kinds. -/
def textObjs : List Obj :=
  [.dict [(b!"/Root", .ref 0 1)],
   .dict [(b!"/Type", .str b!"/Catalog"), (b!"/Pages", .ref 0 2)],
   .dict [(b!"/Type", .str b!"/Pages"), (b!"/Count", .int 2), (b!"/Kids", .list [.ref 0 3, .ref 0 4])],
   .dict [(b!"/Type", .str b!"/Page"), (b!"/Parent", .ref 0 2), (b!"/Resources", .dict [(b!"/Font", .dict [(b!"/F1", .ref 0 5), (b!"/F2", .ref 0 6)])]),
     (b!"/Contents", .list [.ref 0 9])],
   .dict [(b!"/Type", .str b!"/Page"), (b!"/Parent", .ref 0 2), (b!"/Resources", .dict [(b!"/Font", .dict [(b!"/F1", .ref 0 6)])]),
     (b!"/Contents", .ref 0 10)],
   .dict [(b!"/Subtype", .str b!"/Type1"), (b!"/BaseFont", .str b!"/Helvetica"), (b!"/FirstChar", .int 72), (b!"/Widths", .list [.int 722, .int 278])],
   .dict [(b!"/Subtype", .str b!"/Type0"), (b!"/BaseFont", .str b!"/Times"), (b!"/DescendantFonts", .list [.ref 0 7])],
   .dict [(b!"/W", .ref 0 8)],
   .list [.int 65, .list [.int 2000]],
   .stream [(b!"/Length", .int 33)] b!"BT /F1 10 Tf 72 700 Td (HI) Tj ET" b!"BT /F1 10 Tf 72 700 Td (HI) Tj ET",
   .stream [(b!"/Length", .int 49)] b!"BT /F1 10 Tf 72 700 Td (AB) Tj 40 0 Td (CD) Tj ET" b!"BT /F1 10 Tf 72 700 Td (AB) Tj 40 0 Td (CD) Tj ET"]

theorem textObjs_ne : ∀ o ∈ textObjs, o ≠ .null := by simp [textObjs]

theorem textObjs_fit [Zlib] : ∀ o ∈ textObjs.drop 1, FitObj o := by
  intro o ho
  simp only [textObjs, List.drop_succ_cons, List.drop_zero, List.mem_cons, List.not_mem_nil, or_false] at ho
  rcases ho with rfl | rfl | rfl | rfl | rfl | rfl | rfl | rfl | rfl | rfl
  all_goals first
    | exact .inr (keepable_dict.2 (by decide))
    | exact .inr ⟨⟨by decide, by decide, by decide, by decide, rfl⟩, by decide⟩
    | exact .inr ⟨(rfl : WF false false (.list [.int 65, .list [.int 2000]]) = true), rfl⟩

theorem textObjs_closed [Zlib] : Closed (memDoc textObjs) := by
  have hs := memDoc_store textObjs_ne
  have hall : (textObjs.all fun o => (deepRefCollect [] o).all fun r => decide (1 ≤ r.2 ∧ r.2.toNat < textObjs.length)) = true := by
    decide
  have huse : ∀ r : Int × Int, 1 ≤ r.2 → r.2.toNat < textObjs.length → InUse (memDoc textObjs) r := by
    intro r h1 h2
    refine ⟨h1, textObjs[r.2.toNat], ?_, textObjs_ne _ (List.getElem_mem h2)⟩
    rw [view_get, hs]
    simp only [Store.get, memStore]
    rw [if_neg (by omega), List.getElem?_eq_getElem h2]
  constructor
  · intro n v hn hv r hr
    rw [view_get, hs] at hv
    simp only [Store.get, memStore] at hv
    rw [if_neg (by omega), Int.toNat_natCast] at hv
    cases ho : textObjs[n]? with
    | none => rw [ho] at hv; cases hv
    | some o =>
      rw [ho] at hv
      cases hv
      have h1 := List.all_eq_true.1 hall v (List.mem_of_getElem? ho)
      have h2 := List.all_eq_true.1 h1 r ((collect_mem r v []).2 (.inr hr))
      simp only [decide_eq_true_eq] at h2
      exact huse r h2.1 h2.2
  · intro t v ht hv
    rw [view_get, hs] at ht
    cases ht
    cases hv
    exact ⟨0, 1, rfl, huse (0, 1) (by decide) (by decide)⟩

/-- The hypotheses of the theorems hold of the sample. -/
example [Zlib] : Made (memDoc textObjs) ∧ AllObjs FitObj (storeOf (memDoc textObjs)) ∧ Closed (memDoc textObjs) := by
  refine ⟨.start (memDoc_fresh rfl ?_ (by decide) rfl rfl), allObjs_mem textObjs_ne textObjs_fit, textObjs_closed⟩
  intro n o hn ho
  have := textObjs_fit o (List.mem_iff_getElem?.2 ⟨n - 1, by
    rw [List.getElem?_drop, ← ho]; congr 1; omega⟩)
  rcases this with rfl | h
  · exact absurd rfl (textObjs_ne _ (List.mem_of_getElem? ho))
  · exact h

/-- The texts of its two pages, and those that `text` prints on the file. -/
example : letI := plainZlib; letI := noFloat
    (do
      let ((m, _), d) ← (extractPageText 1000 [] 0).run (memDoc textObjs)
      let ((m', _), d) ← (extractPageText 1000 [] 1).run d
      let (out, _) ← writeFile d
      let w : World := { files := fun _ => some out, writable := fun _ => false, out := [] }
      return (decide (100 ≤ out.length ∧ out.length < 10 ^ 80), [some m, some m'],
        textsOf (runCommand 1000 (fun _ _ => []) .text b!"a.pdf" none w).2)) =
      Except.ok (ε := PyErr) (true, [some ("HI\n".toList.map Char.toNat), some ("AB CD\n".toList.map Char.toNat)],
        [some ("HI\n".toList.map Char.toNat), some ("AB CD\n".toList.map Char.toNat)]) := by
  kernel_rfl

/-- **C112 is false of a reference to a deleted object**: the widths of the font were deleted, and the default ones are used; they are
back in the file, and the second page is laid out otherwise. -/
theorem C112_deleted_counterexample [Zlib] : (do
    let d ← ops [.commit, .set 8 .null] (memDoc textObjs)
    let ((m, _), d) ← (extractPageText 1000 [] 1).run d
    let (out, _) ← writeFile d
    let dl ← loads out
    let ((m', _), _) ← (extractPageText 1000 [] 1).run dl
    return (m, m')) = .ok ("AB      CD\n".toList.map Char.toNat, "AB CD\n".toList.map Char.toNat) := by
  kernel_rfl

end Pdf
