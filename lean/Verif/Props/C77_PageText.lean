/-
C77: the text of a page comes from its contents and its fonts (docstruct.py:914-973, api.py:323-384).
-/
import Verif.Spec.Fonts
import Verif.Lemmas.Pages
import Verif.Lemmas.MemDoc
import Verif.Props.C38_Text

namespace Pdf
open Spec Spec.PageTree Prog

/-! ### Contents -/

theorem eval_contentStreams {s : Store} {rs sts : List Obj} (h : Streams s rs sts) :
    eval (contentStreams rs) s = .ok (sts, s) := by
  induction h with
  | nil => rfl
  | cons h _ _ ih =>
    rw [contentStreams, eval_bind_ok (eval_fetch h), eval_bind_ok ih]
    rfl

theorem get_of_stream {s : Store} {o : Obj} (h : IsStream o) : s.get o = .ok o := by
  obtain ⟨e, b, c, rfl⟩ := h
  rfl

theorem eval_contentsLoop {s : Store} {rs sts : List Obj} (h : Streams s rs sts) :
    eval (contentsLoop rs) s = .ok (sts, s) := by
  induction h with
  | nil => rfl
  | @cons r st rs sts h hst _ ih =>
    have hl : asList st = [st] := by obtain ⟨e, b, c, rfl⟩ := hst; rfl
    rw [contentsLoop, eval_bind_ok (eval_fetch h), hl,
      eval_bind_ok (eval_contentStreams (.cons (get_of_stream hst) hst .nil)), eval_bind_ok ih]
    rfl

theorem eval_contents {s : Store} {o : Obj} {sts : List Obj} (h : Contents s o sts) :
    ∃ items, contentsItems o = .ok items ∧ eval (contentsLoop items) s = .ok (sts, s) := by
  cases h with
  | one h hst => exact ⟨_, rfl, eval_contentsLoop (.cons h hst .nil)⟩
  | named h hs =>
    refine ⟨_, rfl, ?_⟩
    rw [contentsLoop, eval_bind_ok (eval_fetch h), asList, eval_bind_ok (eval_contentStreams hs)]
    show Except.ok (sts ++ [], s) = _
    rw [List.append_nil]
  | direct hs => exact ⟨_, rfl, eval_contentsLoop hs⟩

/-! ### Fonts -/

theorem truthy_leads {s : Store} {v : Obj} {l : List Obj} (h0 : v ≠ .ref 0 0) (hl : l ≠ []) (h : s.get v = .ok (.list l)) :
    truthy v = true := by
  cases v with
  | ref g n =>
    simp only [truthy, bne_iff_ne, Bool.or_eq_true]
    by_cases hg : g = 0
    · right
      rintro rfl
      exact h0 (by rw [hg])
    · exact .inl hg
  | list m =>
    cases h
    cases l with
    | nil => exact absurd rfl hl
    | cons a l => simp [truthy]
  | _ => cases h

theorem getOr_some {d : Dict} {k : Bytes} {v : Obj} (h : Dict.get? d k = some v) : getOr (.dict d) k = .ok v := by
  simp [getOr, h]

theorem getOr_none {d : Dict} {k : Bytes} (h : Dict.get? d k = none) : getOr (.dict d) k = .ok .null := by
  simp [getOr, h]

theorem eval_simple {s : Store} {d : Dict} {first : Int} {ws : List Obj} (h : SimpleFont s d first ws) (desc : Obj) :
    eval (fontWidths ((Dict.get? d b!"/Widths").getD .null) ((Dict.get? d b!"/FirstChar").getD .null) desc) s
      = .ok (simpleWidths (.list ws) (.int first), s) := by
  obtain ⟨v, h1, h2, h3⟩ := h.widths
  obtain ⟨f, h4, _, h5⟩ := h.firstChar
  rw [h1, h4]
  simp only [Option.getD_some, fontWidths, truthy_leads h2 h.some h3, if_true]
  rw [eval_bind_ok (eval_fetch h3), eval_bind_ok (eval_fetch h5)]
  rfl

theorem wArray_ne {gs : List WGroup} (h : gs ≠ []) : wArray gs ≠ [] := by
  cases gs with
  | nil => exact absurd rfl h
  | cons g gs => cases g <;> simp [wArray]

theorem eval_cid {s : Store} {d : Dict} {gs : List WGroup} {dw : Obj} (h : CidFont s d gs dw) (hne : gs ≠ [])
    (first : Obj) : ∃ f, prepareW (wArray gs) dw = .ok f ∧ (∀ c w, WidthOf gs dw c w → f c = w) ∧
    eval (fontWidths ((Dict.get? d b!"/Widths").getD .null) first ((Dict.get? d b!"/DescendantFonts").getD .null)) s
      = .ok ((fun c => orRaise .outside (objRat (f c))), s) := by
  obtain ⟨f, hf, hw⟩ := C41_cid_widths_partial gs hne dw
  refine ⟨f, hf, hw, ?_⟩
  obtain ⟨r, rest, cid, ⟨v, h1, h2, h3⟩, h4, ⟨w, h5, h6, h7⟩, h8⟩ := h.descendant
  have hdw : ∃ x, defaultWidth (.dict cid) = .ok x ∧ s.get x = .ok dw := by
    rcases h8 with ⟨x, h8, _, h9⟩ | ⟨h8, rfl⟩
    · exact ⟨x, by simp [defaultWidth, h8], h9⟩
    · exact ⟨.int 1000, by simp [defaultWidth, h8], rfl⟩
  obtain ⟨x, hx1, hx2⟩ := hdw
  rw [h.noWidths, h1]
  have ht : truthy (.list (wArray gs)) = true := by
    have := wArray_ne hne
    cases hg : wArray gs with
    | nil => exact absurd hg this
    | cons a l => simp [truthy]
  have h0 : truthy .null = false := rfl
  simp only [Option.getD_some, Option.getD_none, fontWidths, truthy_leads h2 (by simp) h3, if_true, h0,
    Bool.false_eq_true, if_false]
  rw [eval_bind_ok (eval_fetch h3)]
  show eval (fetch r >>= _) s = _
  rw [eval_bind_ok (eval_fetch h4), getOr_some h5, hx1]
  show eval (fetch w >>= _) s = _
  rw [eval_bind_ok (eval_fetch h7), eval_bind_ok (eval_fetch hx2)]
  simp only [cidWidths, ht, hf]
  rfl

theorem leads_det {s : Store} {d : Dict} {v : Bytes} {a b : Obj} (ha : Leads s d v a) (hb : Leads s d v b) : a = b := by
  obtain ⟨x, h1, _, h2⟩ := ha
  obtain ⟨y, h3, _, h4⟩ := hb
  rw [h1] at h3
  cases h3
  rw [h2] at h4
  cases h4
  rfl

/-- The widths of a font. -/
theorem eval_fontWidths {s : Store} {d : Dict} (h : IsFont s d) :
    ∃ f, eval (fontWidths ((Dict.get? d b!"/Widths").getD .null) ((Dict.get? d b!"/FirstChar").getD .null)
        ((Dict.get? d b!"/DescendantFonts").getD .null)) s = .ok (f, s) ∧
      ∀ c x, GlyphWidth s d c x → f c = .ok x := by
  rcases h.widths with ⟨first, ws, h1⟩ | ⟨gs, dw, h1, hne⟩ | ⟨h1, h2⟩
  · refine ⟨_, eval_simple h1 _, ?_⟩
    intro c x hg
    cases hg with
    | @simple first' ws' w _ k h2 h3 h4 h5 =>
      have e1 := leads_det h1.widths h2.widths
      have e2 := leads_det h1.firstChar h2.firstChar
      cases e1
      cases e2
      have := (C41_simple_widths ws first c).1 k h3 w h4
      simp only [simpleWidths, this]
      show orRaise _ _ = _
      rw [h5]
      rfl
    | cid h2 _ _ =>
      obtain ⟨v, h3, _⟩ := h1.widths
      rw [h2.noWidths] at h3
      cases h3
  · obtain ⟨f, hf, hw, he⟩ := eval_cid h1 hne ((Dict.get? d b!"/FirstChar").getD .null)
    refine ⟨_, he, ?_⟩
    intro c x hg
    cases hg with
    | simple h2 _ _ _ =>
      obtain ⟨v, h3, _⟩ := h2.widths
      rw [h1.noWidths] at h3
      cases h3
    | @cid gs' dw' w _ h2 h3 h4 =>
      obtain ⟨r, rest, cid, a1, a2, a3, a4⟩ := h1.descendant
      obtain ⟨r', rest', cid', b1, b2, b3, b4⟩ := h2.descendant
      have e := leads_det a1 b1
      cases e
      rw [a2] at b2
      cases b2
      have e2 : wArray gs = wArray gs' := by
        have := leads_det a3 b3
        injection this
      have e3 : dw = dw' := by
        rcases a4 with a4 | ⟨a4, rfl⟩
        · rcases b4 with b4 | ⟨b4, rfl⟩
          · exact leads_det a4 b4
          · obtain ⟨x, a4, _⟩ := a4
            rw [a4] at b4
            cases b4
        · rcases b4 with ⟨x, b4, _⟩ | ⟨b4, rfl⟩
          · rw [a4] at b4
            cases b4
          · rfl
      have hne' : gs' ≠ [] := by
        rintro rfl
        exact wArray_ne hne e2
      obtain ⟨f', hf', hw'⟩ := C41_cid_widths_partial gs' hne' dw'
      rw [← e2, ← e3, hf] at hf'
      cases hf'
      show orRaise _ (objRat (f c)) = _
      rw [hw' c w h3, h4]
      rfl
  · refine ⟨_, by rw [h1, h2]; rfl, ?_⟩
    intro c x hg
    cases hg with
    | simple h3 _ _ _ =>
      obtain ⟨v, h4, _⟩ := h3.widths
      rw [h1] at h4
      cases h4
    | cid h3 _ _ =>
      obtain ⟨r, rest, cid, ⟨v, h4, _⟩, _⟩ := h3.descendant
      rw [h2] at h4
      cases h4

theorem eval_decoder [Zlib] {s : Store} {d : Dict} {dec : Bytes → Py (Str × List Nat)} (h : Decoder s d dec) :
    eval (fontDecoder ((Dict.get? d b!"/ToUnicode").getD .null) ((Dict.get? d b!"/Encoding").getD .null)) s
      = .ok (dec, s) := by
  cases h with
  | @cmap g n e b c l h1 h2 h3 h4 =>
    rw [h1]
    have ht : truthy (.ref g n) = true := by
      simp only [truthy, bne_iff_ne, Bool.or_eq_true]
      right
      omega
    simp only [Option.getD_some, fontDecoder, ht, if_true]
    rw [eval_bind_ok (eval_fetch h3)]
    have : cmapObjects (.stream e b c) = .ok l := by
      simp only [cmapObjects, streamOf]
      show (parseObj (b!"[" ++ b ++ b!"]") 0 >>= _) = _
      rw [h4]
      rfl
    rw [this]
    rfl
  | encoding h1 =>
    rw [h1]
    rfl

/-- `f` is the font at this reference: named and typed as its dictionary says, decoding as its dictionary says,
and giving to each code the width that the dictionary gives it. -/
structure Spec.FontOf [Zlib] (s : Store) (r : Obj) (f : FontDesc) : Prop where
  iref : f.iref = r
  body : ∃ fd, s.get r = .ok (.dict fd) ∧ Dict.get? fd b!"/BaseFont" = some f.name ∧
    Dict.get? fd b!"/Subtype" = some f.type ∧ f.toUnicode = (Dict.get? fd b!"/ToUnicode").getD .null ∧
    f.encoding = (Dict.get? fd b!"/Encoding").getD .null ∧ Decoder s fd f.fns.dec ∧
    ∀ c x, GlyphWidth s fd c x → f.fns.width c = .ok x

/-- The reference leads to a font that can be used. -/
def Spec.Usable [Zlib] (s : Store) (r : Obj) : Prop :=
  ∃ fd dec, s.get r = .ok (.dict fd) ∧ IsFont s fd ∧ Decoder s fd dec

theorem getOr_getD (d : Dict) (k : Bytes) : getOr (.dict d) k = .ok ((Dict.get? d k).getD .null) := rfl

theorem eval_prepareFont [Zlib] {s : Store} {r : Obj} (h : Spec.Usable s r) :
    ∃ f, eval (prepareFont r) s = .ok (f, s) ∧ Spec.FontOf s r f := by
  obtain ⟨fd, dec, h1, h2, h3⟩ := h
  obtain ⟨n, hn⟩ := h2.name
  obtain ⟨t, ht⟩ := h2.type
  obtain ⟨w, hw, hww⟩ := eval_fontWidths h2
  refine ⟨⟨r, n, t, (Dict.get? fd b!"/FontDescriptor").getD .null, (Dict.get? fd b!"/ToUnicode").getD .null,
    (Dict.get? fd b!"/Encoding").getD .null, ⟨dec, w⟩⟩, ?_, rfl, fd, h1, hn, ht, rfl, rfl, h3, hww⟩
  unfold prepareFont
  rw [eval_bind_ok (eval_fetch h1)]
  have hn' : getKey (.dict fd) b!"/BaseFont" = .ok n := by simp [getKey, hn, orRaise]
  have ht' : getKey (.dict fd) b!"/Subtype" = .ok t := by simp [getKey, ht, orRaise]
  rw [hn', ht']
  simp only [getOr_getD]
  show eval (fontWidths _ _ _ >>= _) s = _
  rw [eval_bind_ok hw, eval_bind_ok (eval_decoder h3)]
  rfl

theorem eval_prepareFonts [Zlib] {s : Store} : ∀ (fonts : Dict), (∀ p ∈ fonts, Spec.Usable s p.2) →
    ∃ fs, eval (prepareFonts fonts) s = .ok (fs, s) ∧
      Pointwise (fun a p => a.1 = p.1 ∧ Spec.FontOf s p.2 a.2) fs fonts
  | [], _ => ⟨[], rfl, .nil⟩
  | (k, r) :: rest, h => by
    obtain ⟨f, h1, h2⟩ := eval_prepareFont (h (k, r) (by simp))
    obtain ⟨fs, h3, h4⟩ := eval_prepareFonts rest (fun p hp => h p (by simp [hp]))
    refine ⟨(k, f) :: fs, ?_, .cons ⟨rfl, h2⟩ h4⟩
    rw [prepareFonts, eval_bind_ok h1, eval_bind_ok h3]
    rfl

/-- The fonts that the resources of a page name: the page has its own resources, with a direct dict of fonts. -/
def Spec.FontNames (s : Store) (page : Dict) (fonts : Dict) : Prop :=
  ∃ res, Leads s page b!"/Resources" (.dict res) ∧ Dict.get? res b!"/Font" = some (.dict fonts)

theorem eval_fontDict {s : Store} {page fonts : Dict} (h : Spec.FontNames s page fonts) :
    ∃ v, getKey (.dict page) b!"/Resources" = .ok v ∧ eval (fontDict v) s = .ok (fonts, s) := by
  obtain ⟨res, ⟨v, h1, h2, h3⟩, h4⟩ := h
  refine ⟨v, by simp [getKey, h1, orRaise], ?_⟩
  have ht : truthy v = true := by
    cases v with
    | ref g n =>
      simp only [truthy, bne_iff_ne, Bool.or_eq_true]
      by_cases hg : g = 0
      · right
        rintro rfl
        exact h2 (by rw [hg])
      · exact .inl hg
    | dict m =>
      cases h3
      cases res with
      | nil => cases h4
      | cons a l => simp [truthy]
    | _ => cases h3
  simp only [fontDict, ht, if_true]
  rw [eval_bind_ok (eval_fetch h3)]
  have : getKey (.dict res) b!"/Font" = .ok (.dict fonts) := by simp [getKey, h4, orRaise]
  rw [this]
  rfl

/-- The page that a number designates. -/
theorem eval_pageAt {s : Store} {leak : Dict} {lim : Nat} {t : PageTree} (hd : depth t ≤ lim) (h : IsRoot s t)
    {p : Int} {j : Nat} {b : Ref × Dict × List Dict} (hp : Position (leaves [] t).length p j)
    (hb : (leaves [] t)[j]? = some b) : ∃ l J x, eval (flatPageTree lim .null leak none) s = .ok ((l, J), s) ∧
      pyIndex l p = .ok (refObj b.1, x) ∧ s.get (refObj b.1) = .ok (.dict b.2.1) := by
  obtain ⟨l, J, h1, h2, -⟩ := flatPageTree_root (leak := leak) hd h
  obtain ⟨a, ha, hab⟩ := h2.get j b hb
  refine ⟨l, J, a.2, h1, ?_, leaves_shown t [] h.shown b (List.mem_of_getElem? hb)⟩
  have := pyIndex_position (l := l) (p := p) (j := j) (by rw [h2.length]; exact hp) ha
  rw [this, ← hab.1]

theorem eval_pageFonts [Zlib] {s : Store} {leak : Dict} {lim : Nat} {t : PageTree} (hd : depth t ≤ lim)
    (h : IsRoot s t) {p : Int} {j : Nat} {b : Ref × Dict × List Dict} (hp : Position (leaves [] t).length p j)
    (hb : (leaves [] t)[j]? = some b) {fonts : Dict} (hn : Spec.FontNames s b.2.1 fonts)
    (hu : ∀ q ∈ fonts, Spec.Usable s q.2) :
    ∃ fs J, eval (pageFonts lim leak p) s = .ok ((fs, J), s) ∧
      Pointwise (fun a q => a.1 = q.1 ∧ Spec.FontOf s q.2 a.2) fs fonts := by
  obtain ⟨l, J, x, h1, h2, h3⟩ := eval_pageAt (leak := leak) hd h hp hb
  obtain ⟨v, h4, h5⟩ := eval_fontDict hn
  obtain ⟨fs, h6, h7⟩ := eval_prepareFonts fonts hu
  refine ⟨fs, J, ?_, h7⟩
  unfold pageFonts
  rw [eval_bind_ok h1]
  simp only [h2]
  show eval (fetch (refObj b.1) >>= _) s = _
  rw [eval_bind_ok (eval_fetch h3), h4]
  show eval (fontDict v >>= _) s = _
  rw [eval_bind_ok h5, eval_bind_ok h6]
  rfl

theorem eval_pageContents {s : Store} {leak : Dict} {lim : Nat} {t : PageTree} (hd : depth t ≤ lim)
    (h : IsRoot s t) {p : Int} {j : Nat} {b : Ref × Dict × List Dict} (hp : Position (leaves [] t).length p j)
    (hb : (leaves [] t)[j]? = some b) {c : Obj} {sts : List Obj} (hc : Dict.get? b.2.1 b!"/Contents" = some c)
    (hs : Contents s c sts) : ∃ J, eval (getPageContents lim leak p) s = .ok ((sts, J), s) := by
  obtain ⟨l, J, x, h1, h2, h3⟩ := eval_pageAt (leak := leak) hd h hp hb
  obtain ⟨items, h4, h5⟩ := eval_contents hs
  refine ⟨J, ?_⟩
  unfold getPageContents
  rw [eval_bind_ok h1]
  simp only [h2]
  show eval (fetch (refObj b.1) >>= _) s = _
  rw [eval_bind_ok (eval_fetch h3)]
  have : getKey (.dict b.2.1) b!"/Contents" = .ok c := by simp [getKey, hc, orRaise]
  rw [this]
  show eval (lift (contentsItems c) >>= _) s = _
  rw [h4]
  show eval (contentsLoop items >>= _) s = _
  rw [eval_bind_ok h5]
  rfl

/-! ### These programs do not edit -/

theorem readOnly_contentStreams : ∀ l, ReadOnly (contentStreams l)
  | [] => .ret _
  | _ :: l => (ReadOnly.fetch _).bind fun _ => (readOnly_contentStreams l).bind fun _ => .ret _

theorem readOnly_contentsLoop : ∀ l, ReadOnly (contentsLoop l)
  | [] => .ret _
  | _ :: l => (ReadOnly.fetch _).bind fun _ => (readOnly_contentStreams _).bind fun _ =>
      (readOnly_contentsLoop l).bind fun _ => .ret _

theorem readOnly_getPageContents (lim leak p) : ReadOnly (getPageContents lim leak p) := by
  unfold getPageContents
  exact (readOnly_flatPageTree _ _ _ _).bind fun _ => (ReadOnly.lift _).bind fun _ => (ReadOnly.fetch _).bind fun _ =>
    (ReadOnly.lift _).bind fun _ => (ReadOnly.lift _).bind fun _ => (readOnly_contentsLoop _).bind fun _ => .ret _

theorem readOnly_fontWidths (w f d) : ReadOnly (fontWidths w f d) := by
  unfold fontWidths
  split
  · exact (ReadOnly.fetch _).bind fun _ => (ReadOnly.fetch _).bind fun _ => .ret _
  · split
    · exact (ReadOnly.fetch _).bind fun _ => (ReadOnly.lift _).bind fun _ => (ReadOnly.fetch _).bind fun _ =>
        (ReadOnly.lift _).bind fun _ => (ReadOnly.lift _).bind fun _ => (ReadOnly.fetch _).bind fun _ =>
        (ReadOnly.fetch _).bind fun _ => ReadOnly.lift _
    · exact .ret _

theorem readOnly_fontDecoder [Zlib] (u e) : ReadOnly (fontDecoder u e) := by
  unfold fontDecoder
  split
  · exact (ReadOnly.fetch _).bind fun _ => (ReadOnly.lift _).bind fun _ => .ret _
  · exact .ret _

theorem readOnly_prepareFont [Zlib] (r) : ReadOnly (prepareFont r) := by
  unfold prepareFont
  exact (ReadOnly.fetch _).bind fun _ => (ReadOnly.lift _).bind fun _ => (ReadOnly.lift _).bind fun _ =>
    (ReadOnly.lift _).bind fun _ => (ReadOnly.lift _).bind fun _ => (ReadOnly.lift _).bind fun _ =>
    (ReadOnly.lift _).bind fun _ => (ReadOnly.lift _).bind fun _ => (ReadOnly.lift _).bind fun _ =>
    (readOnly_fontWidths _ _ _).bind fun _ => (readOnly_fontDecoder _ _).bind fun _ => .ret _

theorem readOnly_prepareFonts [Zlib] : ∀ l, ReadOnly (prepareFonts l)
  | [] => .ret _
  | (_, _) :: l => (readOnly_prepareFont _).bind fun _ => (readOnly_prepareFonts l).bind fun _ => .ret _

theorem readOnly_fontDict (r) : ReadOnly (fontDict r) := by
  unfold fontDict
  split
  · exact (ReadOnly.fetch _).bind fun _ => (ReadOnly.lift _).bind fun _ => ReadOnly.lift _
  · exact .ret _

theorem readOnly_pageFonts [Zlib] (lim leak p) : ReadOnly (pageFonts lim leak p) := by
  unfold pageFonts
  exact (readOnly_flatPageTree _ _ _ _).bind fun _ => (ReadOnly.lift _).bind fun _ => (ReadOnly.fetch _).bind fun _ =>
    (ReadOnly.lift _).bind fun _ => (readOnly_fontDict _).bind fun _ => (readOnly_prepareFonts _).bind fun _ => .ret _

theorem readOnly_getPageFonts [Zlib] (lim) : ∀ ps leak, ReadOnly (getPageFonts lim leak ps)
  | [], _ => .ret _
  | _ :: ps, _ => (readOnly_pageFonts _ _ _).bind fun _ => (readOnly_getPageFonts lim ps _).bind fun _ => .ret _

theorem readOnly_extract [Zlib] (lim leak p) : ReadOnly (extractPageText lim leak p) := by
  unfold extractPageText
  exact (readOnly_pageFonts _ _ _).bind fun _ => (readOnly_getPageContents _ _ _).bind fun _ =>
    (ReadOnly.lift _).bind fun _ => (ReadOnly.lift _).bind fun _ => .ret _

/-! ### C77 -/

/-- **C77** for the fonts. When a page has its own resources, with a direct dict of usable fonts,
`get_page_fonts` gives for each name the font of its reference, whatever was listed before; the document shows
the same objects. Missing from the full claim: inherited resources (`C77_inherited_counterexample`), a dict of
fonts behind a reference (`C77_indirect_counterexample`), Type 3 fonts, which have no `/BaseFont`
(`C77_type3_counterexample`), codes out of the table of widths (`C77_missing_width_counterexample`). -/
theorem C77_fonts_partial [Zlib] {d : Doc} (hc : Coherent d) {t : PageTree} (ht : IsRoot (storeOf d) t) {lim : Nat}
    (hl : depth t ≤ lim) (leak : Dict) {p : Int} {j : Nat} {b : Ref × Dict × List Dict}
    (hp : Position (leaves [] t).length p j) (hb : (leaves [] t)[j]? = some b) {fonts : Dict}
    (hn : Spec.FontNames (storeOf d) b.2.1 fonts) (hu : ∀ q ∈ fonts, Spec.Usable (storeOf d) q.2) :
    ∃ fs leak' d', (pageFonts lim leak p).run d = .ok ((fs, leak'), d') ∧ storeOf d' = storeOf d ∧
      Pointwise (fun a q => a.1 = q.1 ∧ Spec.FontOf (storeOf d) q.2 a.2) fs fonts := by
  obtain ⟨fs, J, h1, h2⟩ := eval_pageFonts (leak := leak) hl ht hp hb hn hu
  obtain ⟨d', h3, -, h4⟩ := run_readOnly_ok (readOnly_pageFonts _ _ _) hc h1
  exact ⟨fs, J, d', h3, h4, h2⟩

/-- **C77** for the contents: the streams of the page in order. Missing from the full claim: pages without
`/Contents`, which raise (`C77_blank_counterexample`). -/
theorem C77_contents_partial [Zlib] {d : Doc} (hc : Coherent d) {t : PageTree} (ht : IsRoot (storeOf d) t)
    {lim : Nat} (hl : depth t ≤ lim) (leak : Dict) {p : Int} {j : Nat} {b : Ref × Dict × List Dict}
    (hp : Position (leaves [] t).length p j) (hb : (leaves [] t)[j]? = some b) {c : Obj} {sts : List Obj}
    (hk : Dict.get? b.2.1 b!"/Contents" = some c) (hs : Contents (storeOf d) c sts) :
    ∃ leak' d', (getPageContents lim leak p).run d = .ok ((sts, leak'), d') ∧ storeOf d' = storeOf d := by
  obtain ⟨J, h1⟩ := eval_pageContents (leak := leak) hl ht hp hb hk hs
  obtain ⟨d', h3, -, h4⟩ := run_readOnly_ok (readOnly_getPageContents _ _ _) hc h1
  exact ⟨J, d', h3, h4⟩

theorem lookup_pointwise [Zlib] {s : Store} {fs : List (Bytes × FontDesc)} {fonts : Dict}
    (h : Pointwise (fun a q => a.1 = q.1 ∧ Spec.FontOf s q.2 a.2) fs fonts) (k : Bytes) :
    (Dict.get? fonts k = none → fontTable fs k = none) ∧
    ∀ r, Dict.get? fonts k = some r → ∃ f, fontTable fs k = some f.fns ∧ Spec.FontOf s r f := by
  induction h with
  | nil => exact ⟨fun _ => rfl, fun r h => by cases h⟩
  | @cons a q fs fonts h _ ih =>
    obtain ⟨k', f⟩ := a
    obtain ⟨k'', r'⟩ := q
    obtain ⟨h1, h2⟩ := h
    simp only at h1
    subst h1
    by_cases hk : k = k'
    · subst hk
      simp only [Dict.get?, fontTable, List.lookup_cons, beq_self_eq_true, Option.map_some]
      refine ⟨fun h => (by cases h), fun r h => ?_⟩
      cases h
      exact ⟨f, rfl, h2⟩
    · have hk' : (k == k') = false := by simpa using hk
      simp only [Dict.get?, fontTable, List.lookup_cons, hk'] at ih ⊢
      exact ih

/-- **C77** for the text: on the pages of the two theorems above, `extract_page_text` lays out the fragments that
the streams of the page show with the fonts that its resources name: nothing else in the document, and nothing
that was listed before, has an effect. If decoding or laying out raises, so does it. -/
theorem C77_text_partial [Zlib] {d : Doc} (hc : Coherent d) {t : PageTree} (ht : IsRoot (storeOf d) t) {lim : Nat}
    (hl : depth t ≤ lim) (leak : Dict) {p : Int} {j : Nat} {b : Ref × Dict × List Dict}
    (hp : Position (leaves [] t).length p j) (hb : (leaves [] t)[j]? = some b) {fonts : Dict}
    (hn : Spec.FontNames (storeOf d) b.2.1 fonts) (hu : ∀ q ∈ fonts, Spec.Usable (storeOf d) q.2)
    {c : Obj} {sts : List Obj}
    (hk : Dict.get? b.2.1 b!"/Contents" = some c) (hs : Contents (storeOf d) c sts) :
    ∃ table : Bytes → Option FontFns,
      (∀ k, Dict.get? fonts k = none → table k = none) ∧
      (∀ k r, Dict.get? fonts k = some r → ∃ f, table k = some f.fns ∧ Spec.FontOf (storeOf d) r f) ∧
      (∀ s, (buildTextFragments sts table).bind layoutText = .ok s →
        ∃ leak' d', (extractPageText lim leak p).run d = .ok ((s, leak'), d') ∧ storeOf d' = storeOf d) ∧
      ∀ e, (buildTextFragments sts table).bind layoutText = .error e → (extractPageText lim leak p).run d = .error e := by
  obtain ⟨fs, J, h1, h2⟩ := eval_pageFonts (leak := leak) hl ht hp hb hn hu
  obtain ⟨J', h3⟩ := eval_pageContents (leak := J) hl ht hp hb hk hs
  have key : eval (extractPageText lim leak p) (storeOf d) =
      ((buildTextFragments sts (fontTable fs)).bind layoutText).map (fun s => ((s, J'), storeOf d)) := by
    unfold extractPageText
    rw [eval_bind_ok h1]
    simp only
    rw [eval_bind_ok h3]
    simp only
    cases buildTextFragments sts (fontTable fs) with
    | error e => rfl
    | ok tfs =>
      show eval (lift (layoutText tfs) >>= _) _ = _
      simp only [Except.bind]
      cases layoutText tfs <;> rfl
  refine ⟨fontTable fs, fun k => (lookup_pointwise h2 k).1, fun k => (lookup_pointwise h2 k).2, ?_, ?_⟩
  · intro s h
    rw [h] at key
    obtain ⟨d', h4, -, h5⟩ := run_readOnly_ok (readOnly_extract _ _ _) hc key
    exact ⟨J', d', h4, h5⟩
  · intro e h
    rw [h] at key
    have := run_readOnly (readOnly_extract lim leak p) hc
    rw [key] at this
    exact this

/-! ### A sample, and what does not hold -/

/-- A document of one page: page dictionary, font dictionary, and further objects from number 6 on. -/
def onePage (page font : Dict) (more : List Obj) : List Obj :=
  [.dict [(b!"/Root", .ref 0 1)],
   .dict [(b!"/Type", .str b!"/Catalog"), (b!"/Pages", .ref 0 2)],
   .dict [(b!"/Type", .str b!"/Pages"), (b!"/Count", .int 1), (b!"/Kids", .list [.ref 0 3]),
     (b!"/Resources", .dict [(b!"/Font", .dict [(b!"/F1", .ref 0 4)])])],
   .dict ([(b!"/Type", .str b!"/Page"), (b!"/Parent", .ref 0 2)] ++ page),
   .dict font,
   .stream [] b!"BT /F1 10 Tf 72 700 Td (Hello) Tj ET" []] ++ more

def plainDict : Dict :=
  [(b!"/Type", .str b!"/Font"), (b!"/Subtype", .str b!"/Type1"), (b!"/BaseFont", .str b!"/Helvetica"),
   (b!"/FirstChar", .int 72), (b!"/Widths", .ref 0 6), (b!"/Encoding", .str b!"/WinAnsiEncoding")]

def ownResources : Bytes × Obj := (b!"/Resources", .dict [(b!"/Font", .dict [(b!"/F1", .ref 0 4)])])

def samplePageObjs : List Obj :=
  onePage [ownResources, (b!"/Contents", .list [.ref 0 5])] plainDict [.list [.int 722, .int 278]]

/-- The hypotheses of the theorems hold of the sample. -/
example [Zlib] : Coherent (memDoc samplePageObjs) ∧
    (∃ t, IsRoot (storeOf (memDoc samplePageObjs)) t ∧ depth t ≤ 1000 ∧ ∃ b, (leaves [] t)[0]? = some b ∧
      Spec.FontNames (storeOf (memDoc samplePageObjs)) b.2.1 [(b!"/F1", .ref 0 4)] ∧
      ∃ c, Dict.get? b.2.1 b!"/Contents" = some c ∧
        Contents (storeOf (memDoc samplePageObjs)) c [.stream [] b!"BT /F1 10 Tf 72 700 Td (Hello) Tj ET" []]) ∧
    Spec.Usable (storeOf (memDoc samplePageObjs)) (.ref 0 4) ∧
    GlyphWidth (storeOf (memDoc samplePageObjs)) plainDict 72 722 ∧
    ((extractPageText 1000 [] 0).run (memDoc samplePageObjs)).map (fun r => r.1.1) =
      .ok ("Hello\n".toList.map Char.toNat) := by
  have hs : storeOf (memDoc samplePageObjs) = memStore samplePageObjs := memDoc_store (by
    intro o ho
    simp only [samplePageObjs, onePage, List.cons_append, List.nil_append, List.mem_cons, List.not_mem_nil, or_false] at ho
    rcases ho with rfl | rfl | rfl | rfl | rfl | rfl | rfl <;> exact fun h => by cases h)
  have hsimple : SimpleFont (memStore samplePageObjs) plainDict 72 [.int 722, .int 278] :=
    ⟨by simp, ⟨.ref 0 6, rfl, by simp, rfl⟩, ⟨.int 72, rfl, by simp, rfl⟩⟩
  refine ⟨memDoc_coherent _, ⟨.node (0, 2) [(b!"/Type", .str b!"/Pages"), (b!"/Count", .int 1),
      (b!"/Kids", .list [.ref 0 3]), (b!"/Resources", .dict [(b!"/Font", .dict [(b!"/F1", .ref 0 4)])])]
      [.page (0, 3) [(b!"/Type", .str b!"/Page"), (b!"/Parent", .ref 0 2), ownResources,
        (b!"/Contents", .list [.ref 0 5])]], ?_, by decide, _, rfl, ?_, _, rfl, ?_⟩, ?_, ?_, by kernel_rfl⟩
  · rw [hs]
    exact ⟨⟨by decide, rfl, rfl, rfl, ⟨by decide, rfl, rfl⟩, trivial⟩, ⟨_, _, _, rfl⟩, _, _, _, rfl, rfl, rfl, rfl⟩
  · rw [hs]
    exact ⟨_, ⟨_, rfl, by simp, rfl⟩, rfl⟩
  · rw [hs]
    exact .direct (.cons rfl ⟨_, _, _, rfl⟩ .nil)
  · rw [hs]
    exact ⟨plainDict, _, rfl, ⟨⟨_, rfl⟩, ⟨_, rfl⟩, .inl ⟨_, _, hsimple⟩⟩, .encoding rfl⟩
  · rw [hs]
    exact .simple (k := 0) hsimple rfl rfl rfl

/-- **C77 is false for inherited resources**: `/Resources` is on the node above the page, as ISO 32000 table 31
allows; the page has none of its own, hence KeyError. -/
theorem C77_inherited_counterexample [Zlib] :
    ((extractPageText 1000 [] 0).run (memDoc (onePage [(b!"/Contents", .ref 0 5)] plainDict
      [.list [.int 722, .int 278]]))).map (fun r => r.1.1) = .error .keyError := by
  kernel_rfl

/-- **C77 is false for a dict of fonts behind a reference**: iterating over a complex number raises. -/
theorem C77_indirect_counterexample [Zlib] :
    ((extractPageText 1000 [] 0).run (memDoc (onePage [(b!"/Contents", .ref 0 5),
      (b!"/Resources", .dict [(b!"/Font", .ref 0 7)])] plainDict
      [.list [.int 722, .int 278], .dict [(b!"/F1", .ref 0 4)]]))).map (fun r => r.1.1) = .error .typeError := by
  kernel_rfl

/-- **C77 is false for resources without fonts**, which a page with drawings only has. -/
theorem C77_no_font_counterexample [Zlib] :
    ((extractPageText 1000 [] 0).run (memDoc (onePage [(b!"/Contents", .ref 0 5),
      (b!"/Resources", .dict [(b!"/ProcSet", .list [.str b!"/PDF"])])] plainDict
      []))).map (fun r => r.1.1) = .error .keyError := by
  kernel_rfl

/-- **C77 is false for Type 3 fonts**, which have no `/BaseFont` (ISO 32000 table 110). -/
theorem C77_type3_counterexample [Zlib] :
    ((extractPageText 1000 [] 0).run (memDoc (onePage [(b!"/Contents", .ref 0 5), ownResources]
      [(b!"/Type", .str b!"/Font"), (b!"/Subtype", .str b!"/Type3"), (b!"/FirstChar", .int 72),
       (b!"/Widths", .ref 0 6)] [.list [.int 722, .int 278]]))).map (fun r => r.1.1) = .error .keyError := by
  kernel_rfl

/-- **C77 is false for pages without `/Contents`**, such as the page of `blank`, whatever its size. -/
theorem C77_blank_counterexample [Zlib] (x y : Int) :
    ((extractPageText 1000 [] 0).run (memDoc
      [.dict [(b!"/Root", .ref 0 1)],
       .dict [(b!"/Type", .str b!"/Catalog"), (b!"/Pages", .ref 0 2)],
       .dict [(b!"/Type", .str b!"/Pages"), (b!"/Kids", .list [.ref 0 3]), (b!"/Count", .int 1)],
       .dict [(b!"/Type", .str b!"/Page"), (b!"/Parent", .ref 0 2),
         (b!"/MediaBox", .list [.int 0, .int 0, .int x, .int y]), (b!"/Resources", .dict [])]])).map
      (fun r => r.1.1) = .error .keyError := by
  kernel_rfl

/-- Codes out of the table of widths get 500 thousandths, whatever the font: ISO 32000 9.2.4 gives them the
`/MissingWidth` of the descriptor, which is not read. -/
theorem C77_missing_width_counterexample [Zlib] :
    ((prepareFont (.ref 0 4)).run (memDoc (onePage [] ((b!"/FontDescriptor", .ref 0 7) :: plainDict)
      [.list [.int 722, .int 278], .dict [(b!"/Type", .str b!"/FontDescriptor"), (b!"/MissingWidth", .int 250)]]))).map
      (fun r => (r.1.fns.width 72, r.1.fns.width 65)) = .ok (.ok 722, .ok 500) := by
  kernel_rfl

end Pdf
