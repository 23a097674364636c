/-
C78: the list of the fonts of a document (api.py:261-294).
-/
import Verif.Props.C77_PageText

namespace Pdf
open Spec Spec.PageTree Prog

/-- The encoding shown for a font: its name, `built-in` for a Type 1 font that has none, else `other`. -/
inductive Spec.EncodingShown (t : Bytes) (fd : Dict) : Bytes → Prop
  | named {e} : Dict.get? fd b!"/Encoding" = some (.str e) → EncodingShown t fd (e.drop 1)
  | builtIn : entry? fd b!"/Encoding" = none → t.drop 1 = b!"Type1" → EncodingShown t fd b!"built-in"
  | other : (∀ e, Dict.get? fd b!"/Encoding" ≠ some (.str e)) →
      (entry? fd b!"/Encoding" = none → t.drop 1 ≠ b!"Type1") → EncodingShown t fd b!"other"

theorem encodingName_spec (t : Bytes) (fd : Dict) :
    Spec.EncodingShown t fd (encodingName (t.drop 1) ((Dict.get? fd b!"/Encoding").getD .null)) := by
  cases h : Dict.get? fd b!"/Encoding" with
  | none =>
    show Spec.EncodingShown t fd (if t.drop 1 = b!"Type1" then b!"built-in" else b!"other")
    split
    · exact .builtIn (by simp [entry?, h]) (by assumption)
    · exact .other (by simp [h]) (fun _ => by assumption)
  | some e =>
    cases e with
    | str e => exact .named h
    | null =>
      show Spec.EncodingShown t fd (if t.drop 1 = b!"Type1" then b!"built-in" else b!"other")
      split
      · exact .builtIn (by simp [entry?, h]) (by assumption)
      · exact .other (by simp [h]) (fun _ => by assumption)
    | _ => exact .other (by simp [h]) (by simp [entry?, h])

/-- What the list says of the font at `r`, apart from the pages: name and type without the slash, whether there
is a ToUnicode CMap. -/
def Spec.Describes (s : Store) (r : Ref) (info : FontInfo) : Prop :=
  ∃ fd n t, s.get (refObj r) = .ok (.dict fd) ∧ Dict.get? fd b!"/BaseFont" = some (.str n) ∧
    Dict.get? fd b!"/Subtype" = some (.str t) ∧ info.name = n.drop 1 ∧ info.type = t.drop 1 ∧
    Spec.EncodingShown t fd info.encoding ∧
    info.toUnicode = truthy ((Dict.get? fd b!"/ToUnicode").getD .null)

/-- The pages noted for a font. -/
def pagesOf (found : List (Ref × FontInfo)) (r : Ref) : List Nat := ((found.lookup r).map FontInfo.pages).getD []

theorem pagesOf_noteFont (o : Ref) (info : FontInfo) (i : Nat) (r : Ref) : ∀ found,
    pagesOf (noteFont o info i found) r = pagesOf found r ++ if r = o then [i] else []
  | [] => by
    by_cases h : r = o
    · subst h
      simp [noteFont, pagesOf]
    · have hb : (r == o) = false := by simpa using h
      simp [noteFont, pagesOf, List.lookup_cons, hb, h]
  | (q, inf) :: found => by
    have ih := pagesOf_noteFont o info i r found
    rw [noteFont]
    by_cases hq : q = o
    · subst hq
      rw [if_pos rfl]
      by_cases h : r = q
      · subst h
        simp [pagesOf]
      · have hb : (r == q) = false := by simpa using h
        simp [pagesOf, List.lookup_cons, hb, h]
    · rw [if_neg hq]
      by_cases h : r = q
      · subst h
        simp [pagesOf, hq]
      · have hb : (r == q) = false := by simpa using h
        unfold pagesOf at ih ⊢
        simp only [List.lookup_cons, hb]
        exact ih

theorem keys_noteFont (o : Ref) (info : FontInfo) (i : Nat) : ∀ found,
    (noteFont o info i found).map Prod.fst =
      if o ∈ found.map Prod.fst then found.map Prod.fst else found.map Prod.fst ++ [o]
  | [] => rfl
  | (q, inf) :: found => by
    have ih := keys_noteFont o info i found
    rw [noteFont]
    by_cases hq : q = o
    · subst hq
      simp
    · rw [if_neg hq, List.map_cons, ih]
      have hq' : o ≠ q := fun h => hq h.symm
      by_cases h : o ∈ found.map Prod.fst
      · rw [if_pos h, if_pos (by simp only [List.map_cons, List.mem_cons]; exact .inr h), List.map_cons]
      · rw [if_neg h, if_neg (by simp only [List.map_cons, List.mem_cons, not_or]; exact ⟨hq', h⟩), List.map_cons]
        rfl

theorem mem_noteFont {P : Ref → FontInfo → Prop} (hP : ∀ r a b, P r a → P r { a with pages := b }) {o : Ref}
    {info : FontInfo} {i : Nat} (ho : P o info) : ∀ found, (∀ x ∈ found, P x.1 x.2) →
    ∀ x ∈ noteFont o info i found, P x.1 x.2
  | [], _, x, hx => by
    simp only [noteFont, List.mem_singleton] at hx
    subst hx
    exact hP _ _ _ ho
  | (q, inf) :: found, h, x, hx => by
    rw [noteFont] at hx
    by_cases hq : q = o
    · rw [if_pos hq] at hx
      rcases List.mem_cons.1 hx with rfl | hx
      · exact hP _ _ _ (h (q, inf) (by simp))
      · exact h x (by simp [hx])
    · rw [if_neg hq] at hx
      rcases List.mem_cons.1 hx with rfl | hx
      · exact h _ (by simp)
      · exact mem_noteFont hP ho found (fun y hy => h y (by simp [hy])) x hx

/-- The values of a dict of fonts are references to fonts with a name and a type. -/
def Spec.FontRefs (s : Store) (fonts : Dict) (rs : List Ref) : Prop :=
  fonts.map Prod.snd = rs.map refObj ∧ ∀ r ∈ rs, ∃ fd n t, s.get (refObj r) = .ok (.dict fd) ∧
    Dict.get? fd b!"/BaseFont" = some (.str n) ∧ Dict.get? fd b!"/Subtype" = some (.str t)

structure Noted (s : Store) (found found' : List (Ref × FontInfo)) (add : Ref → List Nat) : Prop where
  pages : ∀ r, pagesOf found' r = pagesOf found r ++ add r
  nodup : (found.map Prod.fst).Nodup → (found'.map Prod.fst).Nodup
  keys : ∀ r, r ∈ found'.map Prod.fst ↔ r ∈ found.map Prod.fst ∨ add r ≠ []
  info : (∀ x ∈ found, Spec.Describes s x.1 x.2) → ∀ x ∈ found', Spec.Describes s x.1 x.2

theorem notePage_spec [Zlib] {s : Store} (i : Nat) : ∀ (fs : List (Bytes × FontDesc)) (fonts : Dict) (rs : List Ref)
    (found : List (Ref × FontInfo)), Pointwise (fun a q => a.1 = q.1 ∧ Spec.FontOf s q.2 a.2) fs fonts →
    Spec.FontRefs s fonts rs →
    ∃ found', notePage i fs found = .ok found' ∧ Noted s found found' (fun r => List.replicate (rs.count r) i)
  | _, _, rs, found, .nil, h => by
    cases rs with
    | nil => exact ⟨found, rfl, ⟨fun r => by simp, id, fun r => by simp, id⟩⟩
    | cons r rs => have := h.1; simp at this
  | _, _, rs, found, .cons (a := a) (b := q) (l := fs) (m := fonts) hab hrest, h => by
    cases rs with
    | nil => have := h.1; simp at this
    | cons r rs =>
      have h1 := h.1
      simp only [List.map_cons, List.cons.injEq] at h1
      obtain ⟨fd, n, t, hg, hn, ht⟩ := h.2 r (by simp)
      obtain ⟨fd', hg', hn', ht', hu', he', -⟩ := hab.2.body
      rw [h1.1, hg] at hg'
      cases hg'
      rw [hn] at hn'
      rw [ht] at ht'
      have e1 : tailOf a.2.name = .ok (n.drop 1) := by
        have : a.2.name = .str n := by injection hn'.symm
        rw [this]; rfl
      have e2 : tailOf a.2.type = .ok (t.drop 1) := by
        have : a.2.type = .str t := by injection ht'.symm
        rw [this]; rfl
      have e3 : hashRef a.2.iref = .ok r := by rw [hab.2.iref, h1.1]; rfl
      obtain ⟨found', h2, h3⟩ := notePage_spec i fs fonts rs
        (noteFont r ⟨n.drop 1, t.drop 1, encodingName (t.drop 1) a.2.encoding, truthy a.2.toUnicode, []⟩ i found) hrest
        ⟨h1.2, fun r hr => h.2 r (by simp [hr])⟩
      refine ⟨found', ?_, ?_⟩
      · obtain ⟨k, f⟩ := a
        rw [notePage]
        simp only at e1 e2 e3 h2
        rw [e1]
        show (tailOf f.type >>= _) = _
        rw [e2]
        show (hashRef f.iref >>= _) = _
        rw [e3]
        exact h2
      · constructor
        · intro q
          rw [h3.pages, pagesOf_noteFont, List.append_assoc]
          congr 1
          by_cases hq : q = r
          · subst hq
            rw [if_pos rfl, List.count_cons_self, List.replicate_succ]
            rfl
          · rw [if_neg hq, List.count_cons_of_ne (fun h => hq h.symm)]
            rfl
        · intro hnd
          apply h3.nodup
          rw [keys_noteFont]
          split
          · exact hnd
          · rename_i hr
            rw [List.nodup_append]
            refine ⟨hnd, by simp, ?_⟩
            intro x hx y hy
            rw [List.mem_singleton] at hy
            subst hy
            exact fun e => hr (e ▸ hx)
        · intro q
          rw [h3.keys, keys_noteFont]
          by_cases hq : q = r
          · subst hq
            simp only [List.count_cons_self, List.replicate_succ, ne_eq, List.cons_ne_nil, not_false_eq_true, or_true,
              iff_true]
            left
            split <;> simp_all
          · rw [List.count_cons_of_ne (fun h => hq h.symm)]
            have : (q ∈ if r ∈ found.map Prod.fst then found.map Prod.fst else found.map Prod.fst ++ [r]) ↔
                q ∈ found.map Prod.fst := by
              split
              · exact Iff.rfl
              · rw [List.mem_append, List.mem_singleton]
                exact ⟨fun h => h.resolve_right hq, .inl⟩
            rw [this]
        · intro hi
          apply h3.info
          refine mem_noteFont (P := Spec.Describes s) (fun _ _ _ h => h) ?_ found hi
          exact ⟨fd, n, t, hg, hn, ht, rfl, rfl, by rw [he']; exact encodingName_spec t fd, by rw [hu']⟩

/-- The pages of a font, from page `i` on: as many times as it has names in the page. -/
def occurrences (r : Ref) (i : Nat) : List (List Ref) → List Nat
  | [] => []
  | rs :: rest => List.replicate (rs.count r) i ++ occurrences r (i + 1) rest

theorem occurrences_ge (r : Ref) : ∀ (rss : List (List Ref)) (i : Nat), ∀ j ∈ occurrences r i rss, i ≤ j
  | [], _, _, h => by cases h
  | rs :: rest, i, j, h => by
    rcases List.mem_append.1 h with h | h
    · exact Nat.le_of_eq (List.eq_of_mem_replicate h).symm
    · have := occurrences_ge r rest (i + 1) j h
      omega

theorem occurrences_sorted (r : Ref) : ∀ (rss : List (List Ref)) (i : Nat), (occurrences r i rss).Pairwise (· ≤ ·)
  | [], _ => List.Pairwise.nil
  | rs :: rest, i => by
    rw [occurrences, List.pairwise_append]
    refine ⟨?_, occurrences_sorted r rest (i + 1), ?_⟩
    · rw [List.pairwise_replicate]
      exact .inr (Nat.le_refl _)
    · intro a ha b hb
      rw [List.eq_of_mem_replicate ha]
      have := occurrences_ge r rest (i + 1) b hb
      omega

theorem occurrences_count (r : Ref) : ∀ (rss : List (List Ref)) (i k : Nat) (rs : List Ref), rss[k]? = some rs →
    (occurrences r i rss).count (i + k) = rs.count r
  | [], _, _, _, h => by simp at h
  | rs :: rest, i, 0, rs', h => by
    simp at h
    subst h
    rw [occurrences, List.count_append, Nat.add_zero, List.count_replicate_self]
    have : (occurrences r (i + 1) rest).count i = 0 := by
      rw [List.count_eq_zero]
      intro hm
      have := occurrences_ge r rest (i + 1) i hm
      omega
    omega
  | rs :: rest, i, k + 1, rs', h => by
    have ih := occurrences_count r rest (i + 1) k rs' (by simpa using h)
    rw [occurrences, List.count_append, show i + (k + 1) = i + 1 + k by omega, ih, List.count_replicate]
    have : (i == i + 1 + k) = false := by simp; omega
    rw [this]
    simp

theorem occurrences_lt (r : Ref) : ∀ (rss : List (List Ref)) (i : Nat), ∀ j ∈ occurrences r i rss, j < i + rss.length
  | [], _, _, h => by cases h
  | rs :: rest, i, j, h => by
    rcases List.mem_append.1 h with h | h
    · rw [List.eq_of_mem_replicate h]
      simp
    · have := occurrences_lt r rest (i + 1) j h
      simp
      omega

theorem notePages_spec [Zlib] {s : Store} : ∀ (index : List (List (Bytes × FontDesc))) (i : Nat)
    (found : List (Ref × FontInfo)) (rss : List (List Ref)),
    Pointwise (fun fs rs => ∃ fonts, Pointwise (fun a q => a.1 = q.1 ∧ Spec.FontOf s q.2 a.2) fs fonts ∧
      Spec.FontRefs s fonts rs) index rss →
    ∃ found', notePages i index found = .ok found' ∧ Noted s found found' (fun r => occurrences r i rss)
  | _, i, found, _, .nil => ⟨found, rfl, ⟨fun r => by simp [occurrences], id, fun r => by simp [occurrences], id⟩⟩
  | _, i, found, _, .cons (a := fs) (b := rs) (l := index) (m := rss) ⟨fonts, ha, hb⟩ hrest => by
    obtain ⟨found1, h1, h2⟩ := notePage_spec i fs fonts rs found ha hb
    obtain ⟨found2, h3, h4⟩ := notePages_spec index (i + 1) found1 rss hrest
    refine ⟨found2, ?_, ?_⟩
    · rw [notePages, h1]
      exact h3
    · refine ⟨?_, fun h => h4.nodup (h2.nodup h), ?_, fun h => h4.info (h2.info h)⟩
      · intro r
        rw [h4.pages, h2.pages, List.append_assoc]
        rfl
      · intro r
        rw [h4.keys, h2.keys, occurrences]
        simp only [ne_eq, List.append_eq_nil_iff, not_and]
        tauto

theorem eval_pageCount {s : Store} {r : Ref} {d : Dict} {kids : List PageTree} (h : IsRoot s (.node r d kids)) {n : Int}
    (hn : Dict.get? d b!"/Count" = some (.int n)) : eval numberPages s = .ok (.int n, s) := by
  obtain ⟨r', d', kids', e, h1⟩ := eval_pagesRoot h
  cases e
  unfold numberPages
  rw [eval_bind_ok h1]
  simp only [getKey, hn, orRaise]
  rfl

theorem readOnly_pageCount : ReadOnly numberPages := by
  unfold numberPages
  exact readOnly_pagesRoot.bind fun _ => ReadOnly.lift _

theorem readOnly_fontsP [Zlib] (lim leak) : ReadOnly (fontsP lim leak) := by
  unfold fontsP
  exact readOnly_pageCount.bind fun _ => (ReadOnly.lift _).bind fun _ => (readOnly_getPageFonts _ _ _).bind fun _ =>
    (ReadOnly.lift _).bind fun _ => .ret _

/-- What is required of a page: its own resources, with a direct dict of usable fonts at these references. -/
def Spec.PageFontRefs [Zlib] (s : Store) (page : Dict) (rs : List Ref) : Prop :=
  ∃ fonts, Spec.FontNames s page fonts ∧ (∀ q ∈ fonts, Spec.Usable s q.2) ∧ Spec.FontRefs s fonts rs

theorem eval_getPageFonts [Zlib] {s : Store} {lim : Nat} {t : PageTree} (hd : depth t ≤ lim) (h : IsRoot s t)
    : ∀ (bs : List (Ref × Dict × List Dict)) (rss : List (List Ref)) (i : Nat) (leak : Dict),
    (∀ (k : Nat) b, bs[k]? = some b → (leaves [] t)[i + k]? = some b) →
    Pointwise (fun b rs => Spec.PageFontRefs s b.2.1 rs) bs rss →
    ∃ index J, eval (getPageFonts lim leak ((List.range' i bs.length).map fun (n : Nat) => (n : Int))) s
        = .ok ((index, J), s) ∧
      Pointwise (fun fs rs => ∃ fonts, Pointwise (fun a q => a.1 = q.1 ∧ Spec.FontOf s q.2 a.2) fs fonts ∧
        Spec.FontRefs s fonts rs) index rss
  | [], _, i, leak, _, .nil => ⟨[], leak, rfl, .nil⟩
  | b :: bs, _, i, leak, hbs, .cons (b := rs) (m := rss) ⟨fonts, hn, hu, hr⟩ hrest => by
    have hb := hbs 0 b rfl
    have hlt := lt_of_getElem? hb
    obtain ⟨fs, J, h1, h2⟩ := eval_pageFonts (leak := leak) hd h (p := (i : Int)) (j := i) ⟨by simpa using hlt, .inl rfl⟩
      (by simpa using hb) hn hu
    obtain ⟨index, J', h3, h4⟩ := eval_getPageFonts hd h bs rss (i + 1) J
      (fun k c hc => by
        have := hbs (k + 1) c (by simpa using hc)
        rwa [show i + (k + 1) = i + 1 + k by omega] at this) hrest
    refine ⟨fs :: index, J', ?_, .cons ⟨fonts, h2, hr⟩ h4⟩
    rw [List.length_cons, List.range'_succ, List.map_cons, getPageFonts, eval_bind_ok h1]
    simp only
    rw [eval_bind_ok h3]
    rfl

/-- **C78.** For a document whose pages all have their own resources with usable fonts, `rss` being the references
of the fonts of each page, `fonts` gives one item per font that appears in a page; its pages are in increasing
order, each as many times as the page has names for the font; name, type, encoding and presence of a CMap are
those of the dictionary. Missing from the full claim: a page is listed once (`C78_twice_counterexample`), and the
pages that `get_page_fonts` does not handle (`C77_fonts_partial`). -/
theorem C78_fonts_partial [Zlib] {d : Doc} (hc : Coherent d) {r : Ref} {root : Dict} {kids : List PageTree}
    (ht : IsRoot (storeOf d) (.node r root kids)) {lim : Nat} (hl : depth (.node r root kids) ≤ lim) (leak : Dict)
    (hn : Dict.get? root b!"/Count" = some (.int (leaves [] (.node r root kids)).length)) {rss : List (List Ref)}
    (hp : Pointwise (fun b rs => Spec.PageFontRefs (storeOf d) b.2.1 rs) (leaves [] (.node r root kids)) rss) :
    ∃ found leak' d', (fontsP lim leak).run d = .ok ((found, leak'), d') ∧ storeOf d' = storeOf d ∧
      (found.map Prod.fst).Nodup ∧ (∀ f, f ∈ found.map Prod.fst ↔ ∃ rs ∈ rss, f ∈ rs) ∧
      ∀ f info, (f, info) ∈ found → Spec.Describes (storeOf d) f info ∧ info.pages.Pairwise (· ≤ ·) ∧
        (∀ i ∈ info.pages, i < rss.length) ∧ ∀ i rs, rss[i]? = some rs → info.pages.count i = rs.count f := by
  obtain ⟨index, J, h1, h2⟩ := eval_getPageFonts hl ht _ rss 0 leak
    (fun k b h => by simpa using h) hp
  obtain ⟨found, h3, h4⟩ := notePages_spec index 0 [] rss h2
  have key : eval (fontsP lim leak) (storeOf d) = .ok ((found, J), storeOf d) := by
    unfold fontsP
    rw [eval_bind_ok (eval_pageCount ht hn)]
    simp only [rangeOf, Int.toNat_natCast, List.range_eq_range']
    show eval (getPageFonts lim leak _ >>= _) _ = _
    rw [eval_bind_ok h1]
    simp only [h3]
    rfl
  obtain ⟨d', h5, -, h6⟩ := run_readOnly_ok (readOnly_fontsP _ _) hc key
  have hnd := h4.nodup List.nodup_nil
  refine ⟨found, J, d', h5, h6, hnd, ?_, ?_⟩
  · intro f
    rw [h4.keys]
    simp only [List.map_nil, List.not_mem_nil, false_or]
    constructor
    · intro hne
      obtain ⟨i, hi⟩ := List.exists_mem_of_ne_nil _ hne
      have hlt := occurrences_lt f rss 0 i hi
      rw [Nat.zero_add] at hlt
      have := occurrences_count f rss 0 i _ (List.getElem?_eq_getElem hlt)
      rw [Nat.zero_add] at this
      refine ⟨_, List.getElem_mem hlt, ?_⟩
      rw [← List.count_pos_iff, ← this, List.count_pos_iff]
      exact hi
    · rintro ⟨rs, hrs, hf⟩ e
      obtain ⟨i, hi, rfl⟩ := List.getElem_of_mem hrs
      have := occurrences_count f rss 0 i _ (List.getElem?_eq_getElem hi)
      rw [e] at this
      have h0 := List.count_pos_iff.2 hf
      simp at this
      omega
  · intro f info hm
    have hpg : info.pages = occurrences f 0 rss := by
      have h7 := h4.pages f
      have h8 : found.lookup f = some info := by
        clear h3 h4 key h5 h7
        induction found with
        | nil => cases hm
        | cons x found ih =>
          rw [List.map_cons, List.nodup_cons] at hnd
          rcases List.mem_cons.1 hm with rfl | hm
          · simp
          · have : f ≠ x.1 := by
              rintro rfl
              exact hnd.1 (List.mem_map.2 ⟨_, hm, rfl⟩)
            have hb : (f == x.1) = false := by simpa using this
            rw [List.lookup_cons, hb]
            exact ih hnd.2 hm
      unfold pagesOf at h7
      rw [h8] at h7
      simpa using h7
    refine ⟨h4.info (by intro x hx; cases hx) _ hm, ?_, ?_, ?_⟩
    · rw [hpg]; exact occurrences_sorted f rss 0
    · rw [hpg]
      intro i hi
      have := occurrences_lt f rss 0 i hi
      omega
    · intro i rs hrs
      rw [hpg]
      have := occurrences_count f rss 0 i rs hrs
      rwa [Nat.zero_add] at this

/-- Two names for one font. -/
def twoNames : List Obj :=
  onePage [(b!"/Resources", .dict [(b!"/Font", .dict [(b!"/F1", .ref 0 4), (b!"/F2", .ref 0 4)])])] plainDict
    [.list [.int 722, .int 278]]

/-- **C78 is false of a font with two names in a page**: the page is listed twice. -/
theorem C78_twice_counterexample [Zlib] : ((fontsP 1000 []).run (memDoc twoNames)).map (fun r => r.1.1) =
    .ok [((0, 4), ⟨b!"Helvetica", b!"Type1", b!"WinAnsiEncoding", false, [0, 0]⟩)] := by
  kernel_rfl

/-- The hypotheses of `C78_fonts_partial` hold of the sample of C77. -/
example [Zlib] : IsRoot (storeOf (memDoc samplePageObjs)) (.node (0, 2) [(b!"/Type", .str b!"/Pages"), (b!"/Count", .int 1),
      (b!"/Kids", .list [.ref 0 3]), (b!"/Resources", .dict [(b!"/Font", .dict [(b!"/F1", .ref 0 4)])])]
      [.page (0, 3) [(b!"/Type", .str b!"/Page"), (b!"/Parent", .ref 0 2), ownResources,
        (b!"/Contents", .list [.ref 0 5])]]) ∧
    Spec.PageFontRefs (storeOf (memDoc samplePageObjs)) [(b!"/Type", .str b!"/Page"), (b!"/Parent", .ref 0 2), ownResources,
        (b!"/Contents", .list [.ref 0 5])] [(0, 4)] ∧
    ((fontsP 1000 []).run (memDoc samplePageObjs)).map (fun r => r.1.1) =
      .ok [((0, 4), ⟨b!"Helvetica", b!"Type1", b!"WinAnsiEncoding", false, [0]⟩)] := by
  have hs : storeOf (memDoc samplePageObjs) = memStore samplePageObjs := memDoc_store (by
    intro o ho
    simp only [samplePageObjs, onePage, List.cons_append, List.nil_append, List.mem_cons, List.not_mem_nil, or_false] at ho
    rcases ho with rfl | rfl | rfl | rfl | rfl | rfl | rfl <;> exact fun h => by cases h)
  have hsimple : SimpleFont (memStore samplePageObjs) plainDict 72 [.int 722, .int 278] :=
    ⟨by simp, ⟨.ref 0 6, rfl, by simp, rfl⟩, ⟨.int 72, rfl, by simp, rfl⟩⟩
  refine ⟨?_, ?_, by kernel_rfl⟩
  · rw [hs]
    exact ⟨⟨by decide, rfl, rfl, rfl, ⟨by decide, rfl, rfl⟩, trivial⟩, ⟨_, _, _, rfl⟩, _, _, _, rfl, rfl, rfl, rfl⟩
  · rw [hs]
    refine ⟨[(b!"/F1", .ref 0 4)], ⟨_, ⟨_, rfl, by simp, rfl⟩, rfl⟩, ?_, rfl, ?_⟩
    · intro q hq
      rw [List.mem_singleton] at hq
      subst hq
      exact ⟨plainDict, _, rfl, ⟨⟨_, rfl⟩, ⟨_, rfl⟩, .inl ⟨_, _, hsimple⟩⟩, .encoding rfl⟩
    · intro r hr
      rw [List.mem_singleton] at hr
      subst hr
      exact ⟨plainDict, _, _, rfl, rfl, rfl⟩

end Pdf
