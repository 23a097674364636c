/-
The pieces of the HTML view of a file are well-formed markup (display.py:207-627).
-/
import Verif.Lemmas.FollowMarkup
import Verif.Lemmas.Reload
import Verif.Props.C82_Browse
import Verif.Model.Page

namespace Pdf
open Spec

theorem Marked.of_eq {s t : Bytes} {i l : List Bytes} (h : Marked t i l) (e : s = t) : Marked s i l := e ▸ h

theorem isText_nil : IsText [] := fun _ h => by cases h

theorem natPad_text (w n : Nat) : IsText (natPad w n) := by
  unfold natPad
  refine isText_append ?_ (isValue_text (natDec_value n))
  intro c hc
  rw [(List.mem_replicate.1 hc).2]
  decide

theorem padRight_text {s : Bytes} (w : Nat) (h : IsText s) : IsText (padRight w s) := isText_append h (isText_replicate _)

theorem numberText_value {o : Obj} {s : Bytes} (h : numberText o = .ok s) : IsValue s := by
  unfold numberText at h
  split at h <;> cases h
  exact intDec_value _

/-- `<tag attrs>body</tag>` without id. -/
theorem Fine.span {body : Bytes} (cls : Bytes) (hc : IsValue cls) (h : Fine body) :
    Fine (b!"<span class=\"" ++ cls ++ b!"\">" ++ body ++ b!"</span>") :=
  (Fine.elem b!"span" [(b!"class", cls)] (by decide) (attrsOk_cons (by decide) hc attrsOk_nil) rfl h).of_eq (by
    simp [openTag, closeTag, attrText])

/-- The three elements which a block opens, and those which close them: `pre` is what is in the element `pre`. -/
theorem block_has {id id2 pre : Bytes} {hrefs : List Bytes} (two : Bool) (cls : Attrs) (hcls : AttrsOk cls) (hno : idOf cls = [] ∧ hrefOf cls = [])
    (hi : IsValue id) (hi2 : IsValue id2) (h : Marked pre [] hrefs) :
    Marked (b!"<div class=\"block\" id=\"" ++ id ++ b!"\">\n<div" ++ (if two then b!" id=\"" ++ id2 ++ b!"\"" else []) ++ b!">\n<pre" ++
      cls.flatMap attrText ++ b!">\n" ++ pre ++ b!"</pre>\n</div>\n</div>\n") (if two then [id, id2] else [id]) hrefs := by
  have h1 := Marked.elem b!"pre" cls (by decide) hcls (Marked.append (Marked.text (s := b!"\n") (by decide)) h)
  have h2 := Marked.elem b!"div" (if two then [(b!"id", id2)] else []) (by decide)
    (by split; exact attrsOk_cons (by decide) hi2 attrsOk_nil; exact attrsOk_nil)
    ((Marked.append (Marked.text (s := b!"\n") (by decide)) h1).append (Marked.text (s := b!"\n") (by decide)))
  have h3 := Marked.elem b!"div" [(b!"class", b!"block"), (b!"id", id)] (by decide)
    (attrsOk_cons (by decide) (by decide) (attrsOk_cons (by decide) hi attrsOk_nil))
    ((Marked.append (Marked.text (s := b!"\n") (by decide)) h2).append (Marked.text (s := b!"\n") (by decide)))
  have h4 := h3.append (Marked.text (s := b!"\n") (by decide))
  rw [hno.1, hno.2] at h4
  cases two
  · exact (show Marked _ _ _ by simpa [idOf, hrefOf] using h4).of_eq (by simp [openTag, closeTag, attrText])
  · exact (show Marked _ _ _ by simpa [idOf, hrefOf] using h4).of_eq (by simp [openTag, closeTag, attrText])

theorem idx_value (n : Nat) : IsValue (b!"idx" ++ natDec n) := isValue_append (by decide) (natDec_value n)

theorem addEof_has (b : Nat) : Marked (addEof b).raw [b!"idx" ++ natDec b] [] := by
  obtain ⟨l1, h1⟩ : ∃ l, Marked (b!"<span class=\"c1\">" ++ natPad 10 b ++ b!"</span><span class=\"obj-header b0\">%%EOF</span>\n") [] l ∧ l = [] := by
    refine ⟨[], ?_, rfl⟩
    have a := Marked.elem b!"span" [(b!"class", b!"c1")] (by decide) (attrsOk_cons (by decide) (by decide) attrsOk_nil) (Marked.text (natPad_text 10 b))
    have c := Marked.elem b!"span" [(b!"class", b!"obj-header b0")] (by decide) (attrsOk_cons (by decide) (by decide) attrsOk_nil)
      (Marked.text (s := b!"%%EOF") (by decide))
    exact ((a.append c).append (Marked.text (s := b!"\n") (by decide))).of_eq (by simp [openTag, closeTag, attrText])
  obtain ⟨h1, rfl⟩ := h1
  have h2 := block_has (id2 := []) false [(b!"class", b!"eof")] (attrsOk_cons (by decide) (by decide) attrsOk_nil) ⟨rfl, rfl⟩ (idx_value b) (by decide) h1
  exact ((Marked.text (s := b!"\n") (by decide)).append h2).of_eq (by simp [addEof, attrText])

theorem hexText_text (s : Bytes) : IsText (hexText s) := hexText_noAngle s

theorem addComment_has (b : Nat) {t : Bytes} (ht : IsText (t.take 10)) : Marked (addComment b t).raw [b!"idx" ++ natDec b] [] := by
  have hd : IsText (Html.raw (if isAscii (t.take 10) then txt (t.take 10) else lit b!"&lt;" ++ txt (hexText t) ++ lit b!"&gt;")) := by
    split
    · rwa [raw_txt]
    · simp only [raw_append, raw_lit, raw_txt]
      exact isText_append (isText_append (by decide) (hexText_text _)) (by decide)
  unfold addComment
  generalize (if isAscii (t.take 10) then txt (t.take 10) else lit b!"&lt;" ++ txt (hexText t) ++ lit b!"&gt;") = d at hd
  have a := Marked.elem b!"span" [(b!"class", b!"c1")] (by decide) (attrsOk_cons (by decide) (by decide) attrsOk_nil) (Marked.text (natPad_text 10 b))
  have c := Marked.elem b!"span" [(b!"class", b!"obj-header b0")] (by decide) (attrsOk_cons (by decide) (by decide) attrsOk_nil) (Marked.text hd)
  have h1 := (a.append c).append (Marked.text (s := b!"\n") (by decide))
  have h2 := block_has (id2 := []) false [(b!"class", b!"comment")] (attrsOk_cons (by decide) (by decide) attrsOk_nil) ⟨rfl, rfl⟩ (idx_value b) (by decide) h1
  exact h2.of_eq (by simp [openTag, closeTag, attrText])

theorem addStartxref_has {b : Nat} {t : Bytes} {h : Html} (e : addStartxref b t = .ok h) :
    ∃ n, pyInt t = some n ∧ Marked h.raw [b!"idx" ++ natDec b] [b!"#idx" ++ intDec n] := by
  obtain ⟨n, hn, e⟩ := bind_eq_ok e
  cases e
  refine ⟨n, orRaise_eq_ok hn, ?_⟩
  have a := Marked.elem b!"span" [(b!"class", b!"c1")] (by decide) (attrsOk_cons (by decide) (by decide) attrsOk_nil) (Marked.text (natPad_text 10 b))
  have c := Marked.elem b!"span" [(b!"class", b!"obj-header b0")] (by decide) (attrsOk_cons (by decide) (by decide) attrsOk_nil)
    (Marked.text (s := b!"startxref") (by decide))
  have d := Marked.elem b!"a" [(b!"class", b!"obj-link"), (b!"href", b!"#idx" ++ intDec n)] (by decide)
    (attrsOk_cons (by decide) (by decide) (attrsOk_cons (by decide) (isValue_append (by decide) (intDec_value n)) attrsOk_nil)) (Marked.text (isValue_text (intDec_value n)))
  have f := Marked.elem b!"div" [(b!"class", b!"obj-body b0")] (by decide) (attrsOk_cons (by decide) (by decide) attrsOk_nil)
    ((Marked.append (Marked.text (s := b!"\n") (by decide)) d).append (Marked.text (s := b!"\n") (by decide)))
  have h1 := (((a.append c).append (Marked.text (s := b!"\n") (by decide))).append f).append (Marked.text (s := b!"\n\n") (by decide))
  have h2 := block_has (id2 := []) false [] attrsOk_nil ⟨rfl, rfl⟩ (idx_value b) (by decide) h1
  exact (show Marked _ _ _ by simpa [hrefOf] using h2).of_eq (by simp [openTag, closeTag, attrText])

/-! ### Tables -/

theorem xrefRowText_fine {x : XRow} {h : Html} (e : xrefRowText x = .ok h) (hk : ∀ o n g kw, x = .entry o n g kw → IsText kw) : Fine h.raw := by
  unfold xrefRowText at e
  split at e
  · cases e
    simp only [raw_append, raw_lit, raw_txt]
    exact .text (isText_append (isText_append (isText_append (isValue_text (intDec_value _)) (by decide)) (isValue_text (intDec_value _))) (by decide))
  · rename_i o n g kw
    split at e
    · cases e
    split at e
    · cases e
    cases e
    have hkw := hk _ _ _ _ rfl
    simp only [raw_append, raw_lit, raw_txt]
    refine .append (.append (.text (isText_append (isText_append (isText_append (isText_append (natPad_text _ _) (by decide)) (natPad_text _ _)) (by decide)) hkw)) ?_)
      (.text (by decide))
    split
    · exact .text isText_nil
    · simp only [raw_append, raw_lit, raw_txt]
      have c := Fine.span b!"obj-link" (by decide) (body := b!"#" ++ (intDec n ++ b!" " ++ intDec g))
        (.text (isText_append (by decide) (isText_append (isText_append (isValue_text (intDec_value _)) (by decide)) (isValue_text (intDec_value _)))))
      have d := Fine.elem b!"a" [(b!"href", b!"#idx" ++ intDec o)] (by decide)
        (attrsOk_cons (by decide) (isValue_append (by decide) (intDec_value _)) attrsOk_nil) rfl c
      exact ((Fine.text (s := b!"    ") (by decide)).append d).of_eq (by simp [openTag, closeTag, attrText])

theorem fine_flatten {l : List Html} (h : ∀ x ∈ l, Fine x.raw) : Fine (Html.raw l.flatten) := by
  induction l with
  | nil => exact .text isText_nil
  | cons x l ih =>
    rw [List.flatten_cons, raw_append]
    exact .append (h x List.mem_cons_self) (ih fun y hy => h y (List.mem_cons_of_mem _ hy))

theorem xrefTableText_fine {rows : List XRow} {h : Html} (e : xrefTableText rows = .ok h)
    (hk : ∀ o n g kw, .entry o n g kw ∈ rows → IsText kw) : Fine h.raw := by
  obtain ⟨l, hl, e⟩ := bind_eq_ok e
  cases e
  refine fine_flatten fun y hy => ?_
  obtain ⟨x, hx, hxy⟩ := (mapM_ok_mem hl).1 y hy
  exact xrefRowText_fine hxy fun o n g kw he => hk o n g kw (he ▸ hx)

theorem xsRowText_fine {x : XSRow} (hk : IsText x.kw) : Fine (xsRowText x).raw := by
  unfold xsRowText
  split
  · exact .text isText_nil
  have c := Fine.span b!"obj-link" (by decide) (body := b!"#" ++ (intDec x.num ++ b!" " ++ natDec x.gen))
    (.text (isText_append (by decide) (isText_append (isText_append (isValue_text (intDec_value _)) (by decide)) (isValue_text (natDec_value _)))))
  have tail : IsText (natPad 10 x.offset ++ b!" " ++ x.kw ++ b!"\n") := isText_append (isText_append (isText_append (natPad_text _ _) (by decide)) hk) (by decide)
  split
  · rename_i e he
    have d := Fine.elem b!"a" [(b!"href", b!"#obj" ++ (intDec x.num ++ b!"." ++ natDec x.gen) ++ b!".0")] (by decide)
      (attrsOk_cons (by decide) (isValue_append (isValue_append (by decide) (isValue_append (isValue_append (intDec_value _) (by decide)) (natDec_value _))) (by decide)) attrsOk_nil) rfl c
    exact (d.append (.text (isText_append (isText_append (isText_append (s := b!"    In object stream ") (by decide) (isValue_text (natDec_value (e + 1)))) (t := b!" at ") (by decide)) tail))).of_eq (by
      simp [openTag, closeTag, attrText])
  · have d := Fine.elem b!"a" [(b!"href", b!"#idx" ++ natDec x.offset)] (by decide)
      (attrsOk_cons (by decide) (isValue_append (by decide) (natDec_value _)) attrsOk_nil) rfl c
    exact (d.append (.text (isText_append (s := b!"    At absolute position ") (by decide) tail))).of_eq (by
      simp [openTag, closeTag, attrText])

theorem xrefStreamText_fine {rows : List XSRow} (hk : ∀ x ∈ rows, IsText x.kw) : Fine (xrefStreamText rows).raw := by
  unfold xrefStreamText
  simp only [raw_append, raw_lit, raw_flatMap]
  exact .append (.append (.text (by decide)) (fine_flatMap fun x hx => xsRowText_fine (hk x hx))) (.text (by decide))

/-! ### Objects -/

theorem useText_fine [FloatText] {u : Obj × BlockKey} {h : Html} (e : useText u = .ok h) : Fine h.raw := by
  obtain ⟨p, hp, e⟩ := bind_eq_ok e
  obtain ⟨n, hn, e⟩ := bind_eq_ok e
  cases e
  have ht : IsText (Html.raw (if u.1 = .int 0 then lit b!"trailer" else txt n)) := by
    split
    · decide
    · rw [raw_txt]; exact isValue_text (numberText_value hn)
  have d := Fine.elem b!"a" [(b!"href", b!"#idx" ++ p)] (by decide) (attrsOk_cons (by decide) (isValue_append (by decide) (posText_value hp)) attrsOk_nil) rfl (.text ht)
  exact (d.append (.text (s := b!" ") (by decide))).of_eq (by simp [openTag, closeTag, attrText])

theorem usesText_fine [FloatText] {l : List (Obj × BlockKey)} {h : Html} (e : usesText l = .ok h) : Fine h.raw := by
  unfold usesText at e
  split at e
  · cases e; exact .text isText_nil
  obtain ⟨hs, hl, e⟩ := bind_eq_ok e
  cases e
  have f : Fine (Html.raw hs.flatten) := fine_flatten fun y hy => by
    obtain ⟨x, -, hxy⟩ := (mapM_ok_mem hl).1 y hy
    exact useText_fine hxy
  exact (Fine.elem b!"em" [] (by decide) attrsOk_nil rfl (Fine.span b!"c1" (by decide)
    ((Fine.text (s := b!"                 used in ") (by decide)).append f))).of_eq (by simp [openTag, closeTag])

/-- The id of an object. -/
def objId (n : Bytes) (gen ver : Nat) : Bytes := b!"obj" ++ n ++ b!"." ++ natDec gen ++ b!"." ++ natDec ver

set_option maxRecDepth 4000 in
/-- A block, from its opening elements to its closing elements. -/
theorem openBlock_has [FloatText] {h : Header} {column : Bytes} {t : Html} (e : openBlock h column = .ok t) (hc : IsText column) :
    ∃ p n, posText h.key = .ok p ∧ numberText h.num = .ok n ∧ ∀ c, Fine c →
      ∃ hrefs, Marked (t.raw ++ b!"<div class=\"obj-body b0\">\n" ++ c ++ objTrailerText.raw) [b!"idx" ++ p, objId n h.gen h.ver] hrefs := by
  obtain ⟨p, hp, e⟩ := bind_eq_ok e
  obtain ⟨n, hn, e⟩ := bind_eq_ok e
  obtain ⟨uses, hu, e⟩ := bind_eq_ok e
  cases e
  refine ⟨p, n, hp, hn, fun c fc => ?_⟩
  have vn := numberText_value hn
  have hid : IsValue (objId n h.gen h.ver) := by
    unfold objId
    exact isValue_append (isValue_append (isValue_append (isValue_append (isValue_append (by decide) vn) (by decide)) (natDec_value _)) (by decide)) (natDec_value _)
  have f1 := Fine.span b!"c1" (by decide) (.text hc)
  have f2 := Fine.span b!"obj-header b0" (by decide)
    ((Fine.elem b!"strong" [] (by decide) attrsOk_nil rfl (.text (isValue_text vn))).append
      (.text (isText_append (isText_append (s := b!" ") (by decide) (isValue_text (natDec_value h.gen))) (t := b!" obj") (by decide))))
  have f3 := Fine.elem b!"div" [(b!"class", b!"obj-body b0")] (by decide) (attrsOk_cons (by decide) (by decide) attrsOk_nil) rfl
    (((Fine.text (s := b!"\n") (by decide)).append fc).append (.text (s := b!"\n") (by decide)))
  obtain ⟨hrefs, f⟩ := ((f1.append f2).append (usesText_fine hu)).append f3
  have h2 := block_has true [] attrsOk_nil ⟨rfl, rfl⟩ (isValue_append (s := b!"idx") (by decide) (posText_value hp)) hid f
  exact ⟨hrefs, ((Marked.text (s := b!"\n") (by decide)).append h2).of_eq (by
    simp [openTag, closeTag, attrText, objTrailerText, objId])⟩

set_option maxRecDepth 4000 in
/-- The block of a table. -/
theorem tableBlock_has (b : Nat) {c : Bytes} (fc : Fine c) : ∃ hrefs,
    Marked (Html.raw (lit b!"\n<div class=\"block\" id=\"idx" ++ txt (natDec b) ++ lit b!"\">\n<div>\n<pre>\n<span class=\"c1\">" ++
        txt (natPad 10 b) ++ lit b!"</span><span class=\"obj-header b0\"><strong>XREF table & trailer</strong></span>" ++
        lit b!"<div class=\"obj-body b0\">\n") ++ c ++ objTrailerText.raw) [b!"idx" ++ natDec b] hrefs := by
  have f1 := Fine.span b!"c1" (by decide) (.text (natPad_text 10 b))
  have f2 := Fine.span b!"obj-header b0" (by decide) (Fine.elem b!"strong" [] (body := b!"XREF table & trailer") (by decide) attrsOk_nil rfl (.text (by decide)))
  have f3 := Fine.elem b!"div" [(b!"class", b!"obj-body b0")] (by decide) (attrsOk_cons (by decide) (by decide) attrsOk_nil) rfl
    (((Fine.text (s := b!"\n") (by decide)).append fc).append (.text (s := b!"\n") (by decide)))
  obtain ⟨hrefs, f⟩ := (f1.append f2).append f3
  have h2 := block_has (id2 := []) false [] attrsOk_nil ⟨rfl, rfl⟩ (idx_value b) (by decide) f
  exact ⟨hrefs, ((Marked.text (s := b!"\n") (by decide)).append h2).of_eq (by
    simp [openTag, closeTag, attrText, objTrailerText])⟩

/-! ### The loop over the items -/

/-- What is known of the items of the map of a file: the objects are read by the parser, the begin of each is known, and the rows of
cross-reference streams have the keywords `n` and `f`. -/
def Known : MapItem → Prop
  | .region (.indObj b _ _ _ o) _ => b ≠ none ∧ strsIn NoAngle o
  | .region (.xrefTable _ _ _ tr) _ => strsIn NoAngle tr
  | .embedded _ _ _ _ o _ => strsIn NoAngle o
  | .xrefStream _ rows _ => ∀ x ∈ rows, IsText x.2.2.kw
  | _ => True

/-- The value of `/Type`. -/
def Spec.typeOf : Obj → Option Obj
  | .dict d => Dict.get? d b!"/Type"
  | .stream d _ _ => Dict.get? d b!"/Type"
  | _ => none

/-- What is asked of the items of the map: no angle bracket in what is shown raw, and tidy objects. -/
def Spec.Showable : MapItem → Prop
  | .region (.comment _ _ t) _ => IsText (t.take 10)
  | .region (.indObj _ _ _ _ o) _ => Tidy o ∧ ∀ s, typeOf o = some (.bytes s) → IsText s
  | .region (.xrefTable _ _ rows tr) _ => Tidy tr ∧ ∀ o n g kw, .entry o n g kw ∈ rows → IsText kw
  | .embedded _ _ _ _ o _ => Tidy o ∧ (∀ s, typeOf o = some (.bytes s) → IsText s) ∧ ∀ d c e, o = .stream d c e → typeOf o ≠ some (.str b!"/XRef")
  | _ => True

/-- The object of an item. -/
def objOf : MapItem → Obj
  | .region (.indObj _ _ _ _ o) _ => o
  | .embedded _ _ _ _ o _ => o
  | _ => .null

/-- The rows of a cross-reference stream come right after its object. -/
inductive Grouped : List MapItem → Prop
  | nil : Grouped []
  | single {x : MapItem} {m : List MapItem} : (∀ b rows t, x ≠ .xrefStream b rows t) → isXrefStream (objOf x) = false → Grouped m → Grouped (x :: m)
  | pair {b b' : Option Nat} {e : Nat} {num gen : Int} {o : Obj} {l : List (Nat × Nat × XRow)} {rows : List (Nat × Nat × XSRow)} {t : Dict} {m : List MapItem} :
      isXrefStream o = true → Grouped m → Grouped (.region (.indObj b e num gen o) l :: .xrefStream b' rows t :: m)

/-- The ids of the block of an item, given what the header of the block shows. -/
def ItemIds [FloatText] (index : List Rev) (cross : List (BlockKey × Cross)) (x : MapItem) (ids : List Bytes) : Prop :=
  match x with
  | .region (.comment b _ _) _ => ids = [b!"idx" ++ natDec b]
  | .region (.startxref b _ _) _ => ids = [b!"idx" ++ natDec b]
  | .region (.xrefTable b _ _ _) _ => ids = [b!"idx" ++ natDec b]
  | .region (.void _ _ _) _ => ids = []
  | .xrefStream _ _ _ => ids = []
  | x => ∃ h p n, objHeader index cross x = .ok (some h) ∧ posText h.key = .ok p ∧ numberText h.num = .ok n ∧
      ids = [b!"idx" ++ p, objId n h.gen h.ver]

theorem raw_objHeader [FloatText] {index : List Rev} {cross : List (BlockKey × Cross)} {x : MapItem} {t : Html} (e : objHeaderText index cross x = .ok t)
    (hx : (∃ b f n g o l, x = .region (.indObj (some b) f n g o) l) ∨ ∃ bo a j n o env, x = .embedded bo a j n o env) :
    ∃ h column t', objHeader index cross x = .ok (some h) ∧ openBlock h column = .ok t' ∧ IsText column ∧
      t = t' ++ lit b!"<div class=\"obj-body b0\">\n" := by
  unfold objHeaderText at e
  obtain ⟨head, hh, e⟩ := bind_eq_ok e
  cases e
  rcases hx with ⟨b, f, n, g, o, l, rfl⟩ | ⟨bo, a, j, n, o, env, rfl⟩
  · obtain ⟨oh, h1, hh⟩ := bind_eq_ok hh
    cases oh with
    | none =>
      exfalso
      unfold objHeader at h1
      obtain ⟨c, -, h1⟩ := bind_eq_ok h1
      obtain ⟨⟨n, ver⟩, -, h1⟩ := bind_eq_ok h1
      obtain ⟨rev, -, h1⟩ := bind_eq_ok h1
      obtain ⟨e, -, h1⟩ := bind_eq_ok h1
      cases h1
    | some h => exact ⟨h, _, head, h1, hh, natPad_text _ _, rfl⟩
  · obtain ⟨oh, h1, hh⟩ := bind_eq_ok hh
    cases oh with
    | none =>
      exfalso
      unfold objHeader at h1
      obtain ⟨c, -, h1⟩ := bind_eq_ok h1
      cases h1
    | some h => exact ⟨h, _, head, h1, hh, padRight_text _ (isText_append (isText_append (isValue_text (intDec_value _)) (by decide)) (isValue_text (natDec_value _))), rfl⟩

/-- The block of an object: all of it, or all that comes before the rows of a cross-reference stream. -/
theorem objArticle_marked [FloatText] {index : List Rev} {cross : List (BlockKey × Cross)} {x : MapItem} {k : BlockKey} {o : Obj} {t : Html} {v : Nat}
    (e : objArticle index cross x k o = .ok (t, v)) (hs : strsIn NoAngle o) (ht : Tidy o)
    (hx : (∃ b f n g o l, x = .region (.indObj (some b) f n g o) l) ∨ ∃ bo a j n o env, x = .embedded bo a j n o env) :
    ∃ ids, ItemIds index cross x ids ∧ (isXrefStream o = false → ∃ hrefs, Marked t.raw ids hrefs) ∧
      (isXrefStream o = true → ∀ c, Fine c → ∃ hrefs, Marked (t.raw ++ c ++ objTrailerText.raw) ids hrefs) := by
  obtain ⟨head, hh, e⟩ := bind_eq_ok e
  obtain ⟨c, hc, e⟩ := bind_eq_ok e
  obtain ⟨⟨rn, ver⟩, -, e⟩ := bind_eq_ok e
  obtain ⟨rev, -, e⟩ := bind_eq_ok e
  obtain ⟨h, column, t', h1, h2, h3, rfl⟩ := raw_objHeader hh hx
  obtain ⟨p, n, hp, hn, hb⟩ := openBlock_has h2 h3
  refine ⟨[b!"idx" ++ p, objId n h.gen h.ver], ?_, ?_, ?_⟩
  · rcases hx with ⟨b, f, n, g, o, l, rfl⟩ | ⟨bo, a, j, n, o, env, rfl⟩ <;> exact ⟨h, p, _, h1, hp, hn, rfl⟩
  · intro hX
    rw [if_neg (by rw [hX]; simp)] at e
    obtain ⟨body, hbody, e⟩ := bind_eq_ok e
    cases e
    obtain ⟨hrefs, hm⟩ := hb (body.raw ++ b!"\n\nendobj") ((followObj_fine rev _ _ o body hs ht hbody).1.append (.text (by decide)))
    exact ⟨hrefs, hm.of_eq (by simp)⟩
  · intro hX c fc
    rw [if_pos hX] at e
    obtain ⟨body, hbody, e⟩ := bind_eq_ok e
    cases e
    obtain ⟨hrefs, hm⟩ := hb (body.raw ++ c) ((followObj_fine rev _ _ o body hs ht hbody).1.append fc)
    exact ⟨hrefs, hm.of_eq (by simp)⟩

/-- The block of an item which is not part of a cross-reference stream. -/
theorem article_marked [FloatText] {index : List Rev} {cross : List (BlockKey × Cross)} {ver v : Option Nat} {x : MapItem} {t : Html}
    (e : article index cross ver x = .ok (t, v)) (hk : Known x) (hr : Showable x) (hx : ∀ b rows t, x ≠ .xrefStream b rows t)
    (hX : isXrefStream (objOf x) = false) : ∃ ids hrefs, ItemIds index cross x ids ∧ Marked t.raw ids hrefs := by
  cases x with
  | xrefStream b rows t => exact absurd rfl (hx b rows t)
  | embedded bo a j n o env =>
    obtain ⟨⟨t', v'⟩, h1, e⟩ := bind_eq_ok e
    cases e
    obtain ⟨ids, i1, i2, -⟩ := objArticle_marked h1 hk hr.1 (.inr ⟨_, _, _, _, _, _, rfl⟩)
    obtain ⟨hrefs, h2⟩ := i2 hX
    exact ⟨ids, hrefs, i1, h2⟩
  | region r l =>
    cases r with
    | void b e t => cases e; exact ⟨[], [], rfl, .text isText_nil⟩
    | comment b f c =>
      cases e
      refine ⟨_, [], rfl, ?_⟩
      split
      · exact addEof_has b
      · exact addComment_has b hr
    | startxref b f c =>
      obtain ⟨h, h1, e⟩ := bind_eq_ok e
      cases e
      obtain ⟨n, -, h2⟩ := addStartxref_has h1
      exact ⟨_, _, rfl, h2⟩
    | indObj b f n g o =>
      obtain ⟨⟨t', v'⟩, h1, e⟩ := bind_eq_ok e
      cases e
      cases b with
      | none => exact absurd rfl hk.1
      | some b =>
        obtain ⟨ids, i1, i2, -⟩ := objArticle_marked h1 hk.2 hr.1 (.inl ⟨_, _, _, _, _, _, rfl⟩)
        obtain ⟨hrefs, h2⟩ := i2 hX
        exact ⟨ids, hrefs, i1, h2⟩
    | xrefTable b f rows tr =>
      obtain ⟨head, h1, e⟩ := bind_eq_ok e
      obtain ⟨table, h2, e⟩ := bind_eq_ok e
      obtain ⟨v', -, e⟩ := bind_eq_ok e
      obtain ⟨rev, -, e⟩ := bind_eq_ok e
      obtain ⟨tt, h3, e⟩ := bind_eq_ok e
      cases e
      obtain ⟨hd, h4, h1⟩ := bind_eq_ok h1
      cases h4
      cases h1
      have fc := ((xrefTableText_fine h2 hr.2).append (.text (s := b!"\ntrailer\n") (by decide))).append (followObj_fine rev _ _ tr tt hk hr.1 h3).1
      obtain ⟨hrefs, h5⟩ := tableBlock_has b fc
      exact ⟨_, hrefs, rfl, h5.of_eq (by simp only [raw_append, raw_lit, List.append_assoc])⟩

theorem articles_marked [FloatText] {index : List Rev} {cross : List (BlockKey × Cross)} : ∀ {m : List MapItem}, Grouped m → (∀ x ∈ m, Known x ∧ Showable x) →
    ∀ {ver : Option Nat} {t : Html}, articles index cross ver m = .ok t →
      ∃ ids hrefs, All₂ (ItemIds index cross) m ids ∧ Marked t.raw ids.flatten hrefs := by
  intro m hg
  induction hg with
  | nil =>
    intro _ ver t e
    cases e
    exact ⟨[], [], .nil, .text isText_nil⟩
  | single hx hX _ ih =>
    intro hm ver t e
    obtain ⟨⟨t1, v1⟩, h1, e⟩ := bind_eq_ok e
    obtain ⟨t2, h2, e⟩ := bind_eq_ok e
    cases e
    obtain ⟨ids, hrefs, i1, i2⟩ := ih (fun x hx => hm x (List.mem_cons_of_mem _ hx)) h2
    obtain ⟨ids', hrefs', j1, j2⟩ := article_marked h1 (hm _ List.mem_cons_self).1 (hm _ List.mem_cons_self).2 hx hX
    exact ⟨ids' :: ids, hrefs' ++ hrefs, .cons j1 i1, by rw [raw_append]; exact j2.append i2⟩
  | pair hX _ ih =>
    rename_i b b' f n g o l rows tr m hgm
    intro hm ver t e
    obtain ⟨⟨t1, v1⟩, h1, e⟩ := bind_eq_ok e
    obtain ⟨t2, h2, e⟩ := bind_eq_ok e
    cases e
    obtain ⟨⟨t3, v3⟩, h3, h2⟩ := bind_eq_ok h2
    obtain ⟨t4, h4, h2⟩ := bind_eq_ok h2
    cases h2
    cases h3
    obtain ⟨ids, hrefs, i1, i2⟩ := ih (fun x hx => hm x (List.mem_cons_of_mem _ (List.mem_cons_of_mem _ hx))) h4
    obtain ⟨⟨t', v'⟩, h5, e⟩ := bind_eq_ok h1
    cases e
    have hk := (hm _ List.mem_cons_self).1
    cases b with
    | none => exact absurd rfl hk.1
    | some b =>
      obtain ⟨ids', j1, -, j2⟩ := objArticle_marked h5 hk.2 (hm _ List.mem_cons_self).2.1 (.inl ⟨_, _, _, _, _, _, rfl⟩)
      have hrows := (hm _ (List.mem_cons_of_mem _ List.mem_cons_self)).1
      obtain ⟨hrefs', j2⟩ := j2 hX ((xrefStreamText (rows.map (·.2.2))).raw ++ b!"\n\nendobj") (.append (xrefStreamText_fine (by
        intro x hx
        obtain ⟨y, hy, rfl⟩ := List.mem_map.1 hx
        exact hrows y hy)) (.text (by decide)))
      refine ⟨ids' :: [] :: ids, hrefs' ++ hrefs, .cons j1 (.cons rfl i1), ?_⟩
      rw [List.flatten_cons, List.flatten_cons, List.nil_append]
      exact (j2.append i2).of_eq (by simp only [raw_append, raw_lit, List.append_assoc])

/-! ### The page -/

theorem styleSheet_text : IsText styleSheet := by
  have h : (styleSheet.all fun c => c != 60 && c != 62) = true := by kernel_rfl
  intro c hc
  have := List.all_eq_true.1 h c hc
  simpa using this

theorem strsEntries_get {P : Bytes → Prop} {d : Dict} {k : Bytes} {v : Obj} (h : strsEntries P d) (e : Dict.get? d k = some v) : strsIn P v := by
  exact ((strsEntries_iff d).1 h _ (get?_mem e)).2

theorem reprBytes_text {s : Bytes} (h : IsText s) : IsText (reprBytes s) := by
  have hq : ∀ c ∈ [if 39 ∈ s ∧ 34 ∉ s then (34 : UInt8) else 39], c ≠ 60 ∧ c ≠ 62 := by
    split <;> decide
  unfold reprBytes
  simp only
  generalize (if 39 ∈ s ∧ 34 ∉ s then (34 : UInt8) else 39) = q at hq
  refine isText_append (isText_append hq ?_) hq
  intro x hx
  obtain ⟨c, hc, hx⟩ := List.mem_flatMap.1 hx
  have hc' := h c hc
  split at hx
  · rcases List.mem_cons.1 hx with rfl | hx
    · decide
    · rw [List.mem_singleton.1 hx]; exact hc'
  split at hx
  · exact (by decide : IsText b!"\\t") x hx
  split at hx
  · exact (by decide : IsText b!"\\n") x hx
  split at hx
  · exact (by decide : IsText b!"\\r") x hx
  split at hx
  · rcases List.mem_append.1 hx with hx | hx
    · exact (by decide : IsText b!"\\x") x hx
    · have := c.toNat_lt
      rcases List.mem_cons.1 hx with rfl | hx
      · exact hexLow_noAngle _ (by omega)
      · rw [List.mem_singleton.1 hx]; exact hexLow_noAngle _ (by omega)
  · rw [List.mem_singleton.1 hx]; exact hc'

theorem typeText_text {o : Option Obj} {h : Html} (e : typeText o = .ok h) (hs : ∀ v, o = some v → strsIn NoAngle v)
    (hb : ∀ s, o = some (.bytes s) → IsText s) : IsText h.raw := by
  unfold typeText at e
  split at e
  · cases e; exact isText_nil
  · cases e
    rw [raw_txt]
    exact hs _ rfl
  · cases e
    rw [raw_append, raw_lit, raw_txt]
    exact isText_append (by decide) (reprBytes_text (hb _ rfl))
  · cases e

theorem minimapLine_marked {p n : Bytes} {o : Obj} {h : Html} (e : minimapLine p n o = .ok h) (hp : IsValue p) (hn : IsText n)
    (hs : strsIn NoAngle o) (hb : ∀ s, typeOf o = some (.bytes s) → IsText s) : Marked h.raw [] [b!"#idx" ++ p] := by
  have key : ∃ t, IsText (Html.raw t) ∧ h = lit b!"<li><a class=\"nav-idx\" href=\"#idx" ++ txt p ++ lit b!"\">" ++ txt n ++
      lit b!"</a> " ++ t ++ lit b!"</li>\n" := by
    unfold minimapLine at e
    split at e
    · obtain ⟨t, ht, e⟩ := bind_eq_ok e
      cases e
      exact ⟨t, typeText_text ht (fun v hv => strsEntries_get hs hv) hb, rfl⟩
    · obtain ⟨t, ht, e⟩ := bind_eq_ok e
      cases e
      exact ⟨t, typeText_text ht (fun v hv => strsEntries_get hs hv) hb, rfl⟩
    · cases e
      exact ⟨[], isText_nil, rfl⟩
  obtain ⟨t, ht, rfl⟩ := key
  have a := Marked.elem b!"a" [(b!"class", b!"nav-idx"), (b!"href", b!"#idx" ++ p)] (by decide)
    (attrsOk_cons (by decide) (by decide) (attrsOk_cons (by decide) (isValue_append (by decide) hp) attrsOk_nil)) (.text hn)
  have c := Marked.elem b!"li" [] (by decide) attrsOk_nil (a.append (.text (isText_append (s := b!" ") (by decide) ht)))
  exact (show Marked _ _ _ by simpa [idOf, hrefOf] using c.append (.text (s := b!"\n") (by decide))).of_eq (by
    simp [openTag, closeTag, attrText])

theorem posText_at [FloatText] (b : Nat) : posText (some (.at (b : Int))) = .ok (natDec b) := by
  simp [posText, intDec]

/-- A link of the minimap. -/
def LinkTo [FloatText] (k : BlockKey) (l : Bytes) : Prop := ∃ p, posText k = .ok p ∧ l = b!"#idx" ++ p

theorem minimapItem_marked [FloatText] {x : MapItem} {h : Html} (e : minimapItem x = .ok h) (hk : Known x) (hr : Showable x) :
    ∃ l, All₂ LinkTo x.key?.toList l ∧ Marked h.raw [] l := by
  cases x with
  | xrefStream b rows t => cases e; exact ⟨[], .nil, .text isText_nil⟩
  | embedded bo a j n o env =>
    obtain ⟨p, hp, e⟩ := bind_eq_ok e
    obtain ⟨n', hn, e⟩ := bind_eq_ok e
    exact ⟨_, .cons ⟨p, hp, rfl⟩ .nil, minimapLine_marked e (posText_value hp) (isValue_text (numberText_value hn)) hk hr.2.1⟩
  | region r l =>
    cases r with
    | indObj b f n g o =>
      obtain ⟨p, hp, e⟩ := bind_eq_ok e
      exact ⟨_, .cons ⟨p, hp, rfl⟩ .nil, minimapLine_marked e (posText_value hp) (isValue_text (intDec_value n)) hk.2 hr.2⟩
    | xrefTable b f rows tr =>
      cases e
      refine ⟨_, .cons ⟨_, posText_at b, rfl⟩ .nil, ?_⟩
      have a := Marked.elem b!"a" [(b!"class", b!"nav-idx"), (b!"href", b!"#idx" ++ natDec b)] (by decide)
        (attrsOk_cons (by decide) (by decide) (attrsOk_cons (by decide) (isValue_append (by decide) (natDec_value b)) attrsOk_nil)) (.text (s := b!"xref") (by decide))
      have c := Marked.elem b!"li" [] (by decide) attrsOk_nil (a.append (.text (s := b!" XREF table & trailer") (by decide)))
      exact (show Marked _ _ _ by simpa [idOf, hrefOf] using c.append (.text (s := b!"\n") (by decide))).of_eq (by
        simp [openTag, closeTag, attrText])
    | _ => cases e; exact ⟨[], .nil, .text isText_nil⟩

theorem All₂.append {α β : Type} {R : α → β → Prop} : ∀ {a a' : List α} {b b' : List β}, All₂ R a b → All₂ R a' b' → All₂ R (a ++ a') (b ++ b')
  | _, _, _, _, .nil, h => h
  | _, _, _, _, .cons h1 h2, h => .cons h1 (h2.append h)

theorem minimap_marked [FloatText] : ∀ {m : List MapItem} {hs : List Html}, m.mapM minimapItem = .ok hs → (∀ x ∈ m, Known x ∧ Showable x) →
    ∃ l, All₂ LinkTo (m.filterMap MapItem.key?) l ∧ Marked (Html.raw hs.flatten) [] l
  | [], hs, e, _ => by cases e; exact ⟨[], .nil, .text isText_nil⟩
  | x :: m, hs, e, hm => by
    rw [List.mapM_cons] at e
    obtain ⟨h, h1, e⟩ := bind_eq_ok e
    obtain ⟨hs', h2, e⟩ := bind_eq_ok e
    cases e
    obtain ⟨l, l1, l2⟩ := minimap_marked h2 fun y hy => hm y (List.mem_cons_of_mem _ hy)
    obtain ⟨l', k1, k2⟩ := minimapItem_marked h1 (hm x List.mem_cons_self).1 (hm x List.mem_cons_self).2
    refine ⟨l' ++ l, ?_, by rw [List.flatten_cons, raw_append]; exact k2.append l2⟩
    rw [List.filterMap_cons]
    cases hx : x.key? with
    | none => rw [hx] at k1; cases k1; exact l1
    | some k =>
      rw [hx] at k1
      cases k1 with
      | cons a b => cases b; exact .cons a l1

/-- A folded part of the panel. -/
theorem details_marked (title : Bytes) {inner : Bytes} {l : List Bytes} (ht : IsText title) (h : Marked inner [] l) :
    Marked (b!"\n<details class=\"b3\">\n<summary class=\"title b3\"><code>" ++ title ++ b!"</code></summary>\n" ++ inner ++ b!"\n</details>\n\n") [] l := by
  have a := Marked.elem b!"code" [] (by decide) attrsOk_nil (.text ht)
  have b := Marked.elem b!"summary" [(b!"class", b!"title b3")] (by decide) (attrsOk_cons (by decide) (by decide) attrsOk_nil) a
  have c := Marked.elem b!"details" [(b!"class", b!"b3")] (by decide) (attrsOk_cons (by decide) (by decide) attrsOk_nil)
    ((((Marked.text (s := b!"\n") (by decide)).append b).append ((Marked.text (s := b!"\n") (by decide)).append h)).append (.text (s := b!"\n") (by decide)))
  have d := ((Marked.text (s := b!"\n") (by decide)).append c).append (.text (s := b!"\n\n") (by decide))
  exact (show Marked _ _ _ by simpa [idOf, hrefOf] using d).of_eq (by simp [openTag, closeTag, attrText])

theorem infoLine_marked {a b : Bytes} (ha : IsText a) (hb : IsText b) : Marked (infoLine a b).raw [] [] := by
  have c := Marked.elem b!"li" [(b!"class", b!"")] (by decide) (attrsOk_cons (by decide) (by decide) attrsOk_nil) (.text (isText_append (padRight_text 15 ha) hb))
  exact (show Marked _ _ _ by simpa [idOf, hrefOf] using (Marked.text (s := b!" ") (by decide)).append c).of_eq (by
    simp [openTag, closeTag, attrText, infoLine])

theorem yesNo_text (b : Bool) : IsText (yesNo b) := by cases b <;> decide

theorem navInfo_marked {s : Structure} {size : Nat} {h : Html} (e : navInfo s size = .ok h) (hv : IsText s.version) : Marked h.raw [] [] := by
  obtain ⟨n, hn, e⟩ := bind_eq_ok e
  cases e
  have nat : ∀ n, IsText (natDec n) := fun n => isValue_text (natDec_value n)
  have a := ((((infoLine_marked (a := b!"Version: ") (by decide) hv).append (infoLine_marked (a := b!"Page(s): ") (by decide) (isValue_text (numberText_value hn)))).append
    (infoLine_marked (a := b!"Revision(s): ") (by decide) (nat s.revisions))).append (infoLine_marked (a := b!"Hybrid: ") (by decide) (yesNo_text s.hybrid))).append
    (infoLine_marked (a := b!"Linearized: ") (by decide) (yesNo_text s.linearized)) |>.append
    (infoLine_marked (a := b!"File size: ") (by decide) (isText_append (nat size) (t := b!" bytes") (by decide)))
  have b := Marked.elem b!"ul" [] (by decide) attrsOk_nil a
  have c := Marked.elem b!"pre" [(b!"class", b!"b2")] (by decide) (attrsOk_cons (by decide) (by decide) attrsOk_nil)
    (((Marked.text (s := b!"\n") (by decide)).append b).append (.text (s := b!"\n") (by decide)))
  have d := details_marked b!" Info" (by decide) (show Marked _ [] [] by simpa [idOf, hrefOf] using c)
  refine d.of_eq ?_
  simp [openTag, closeTag, attrText]

/-- The link to a page. -/
def pageHref (k : Nat × Int × Nat) : Bytes := b!"#obj" ++ (natDec k.1 ++ b!"." ++ intDec k.2.1 ++ b!"." ++ natDec k.2.2)

theorem pageLinks_marked : ∀ (l : List ((Nat × Int × Nat) × Nat)), Marked (Html.raw (l.flatMap pageLinkText)) [] (l.map fun x => pageHref x.1)
  | [] => .text isText_nil
  | x :: l => by
    have a := Marked.elem b!"a" [(b!"class", b!"nav-idx"), (b!"href", pageHref x.1)] (by decide)
      (attrsOk_cons (by decide) (by decide) (attrsOk_cons (by decide) (isValue_append (by decide) (isValue_append (isValue_append (isValue_append (isValue_append
        (natDec_value _) (by decide)) (intDec_value _)) (by decide)) (natDec_value _))) attrsOk_nil)) (.text (isValue_text (natDec_value (x.2 + 1))))
    have b := ((Marked.text (s := b!" ") (by decide)).append a).append (pageLinks_marked l)
    exact (show Marked _ _ _ by simpa [idOf, hrefOf] using b).of_eq (by
      simp [openTag, closeTag, attrText, pageHref, pageLinkText])

theorem navPages_marked {index : List Rev} {pages : List Ref} {h : Html} (e : navPages index pages = .ok h) :
    ∃ links, pageLinks index pages = .ok links ∧ Marked h.raw [] (links.map pageHref) := by
  obtain ⟨links, hl, e⟩ := bind_eq_ok e
  cases e
  refine ⟨links, hl, ?_⟩
  have a := pageLinks_marked links.zipIdx
  have hmap : (links.zipIdx.map fun x => pageHref x.1) = links.map pageHref := by
    have : (fun x : (Nat × Int × Nat) × Nat => pageHref x.1) = pageHref ∘ Prod.fst := rfl
    rw [this, ← List.map_map, List.zipIdx_map_fst]
  rw [hmap] at a
  have c := Marked.elem b!"p" [(b!"class", b!"nav-y b2")] (by decide) (attrsOk_cons (by decide) (by decide) attrsOk_nil)
    ((Marked.text (s := b!"\n") (by decide)).append a)
  have d := details_marked b!" Pages" (by decide) (show Marked _ [] (links.map pageHref) by simpa [idOf, hrefOf] using c)
  refine d.of_eq ?_
  simp [openTag, closeTag, attrText]

theorem navObjects_marked [FloatText] {m : List MapItem} {h : Html} (e : navObjects m = .ok h) (hm : ∀ x ∈ m, Known x ∧ Showable x) :
    ∃ l, All₂ LinkTo (m.filterMap MapItem.key?) l ∧ Marked h.raw [] l := by
  obtain ⟨hs, h1, e⟩ := bind_eq_ok e
  cases e
  obtain ⟨l, l1, l2⟩ := minimap_marked h1 hm
  refine ⟨l, l1, ?_⟩
  have b := Marked.elem b!"ul" [] (by decide) attrsOk_nil ((Marked.text (s := b!"\n") (by decide)).append l2)
  have c := Marked.elem b!"pre" [(b!"class", b!"nav-y b2")] (by decide) (attrsOk_cons (by decide) (by decide) attrsOk_nil)
    (((Marked.text (s := b!"\n") (by decide)).append b).append (.text (s := b!"\n") (by decide)))
  have d := details_marked b!" Minimap" (by decide) (show Marked _ [] l by simpa [idOf, hrefOf] using c)
  refine d.of_eq ?_
  simp [openTag, closeTag, attrText]

theorem navQuick_marked : Marked navQuick.raw [] [b!"#idx0", b!"#end"] := by
  have a := Marked.elem b!"a" [(b!"class", b!"header-button"), (b!"href", b!"#idx0")] (by decide)
    (attrsOk_cons (by decide) (by decide) (attrsOk_cons (by decide) (by decide) attrsOk_nil)) (.text (s := b!"Beginning") (by decide))
  have a' := Marked.elem b!"a" [(b!"class", b!"header-button"), (b!"href", b!"#end")] (by decide)
    (attrsOk_cons (by decide) (by decide) (attrsOk_cons (by decide) (by decide) attrsOk_nil)) (.text (s := b!"End of file") (by decide))
  have c := Marked.elem b!"li" [] (by decide) attrsOk_nil ((Marked.text (s := b!"&UpArrowBar; ") (by decide)).append a)
  have c' := Marked.elem b!"li" [] (by decide) attrsOk_nil ((Marked.text (s := b!"&DownArrowBar; ") (by decide)).append a')
  have n := Marked.text (s := b!"\n") (by decide)
  have u := Marked.elem b!"ul" [] (by decide) attrsOk_nil ((((n.append c).append n).append c').append n)
  have p := Marked.elem b!"pre" [(b!"class", b!"b2")] (by decide) (attrsOk_cons (by decide) (by decide) attrsOk_nil) (n.append u)
  have d := details_marked b!" Quick access" (by decide) (show Marked _ [] [b!"#idx0", b!"#end"] by simpa [idOf, hrefOf] using p)
  refine d.of_eq ?_
  kernel_rfl

theorem headerText_marked {filename : Bytes} (h : IsText (basename filename)) : Marked (headerText filename).raw [] [b!"https://pdfsyntax.dev"] := by
  have a := Marked.elem b!"a" [(b!"href", b!"https://pdfsyntax.dev")] (by decide) (attrsOk_cons (by decide) (by decide) attrsOk_nil) (.text (s := b!"PDFSyntax") (by decide))
  have n := Marked.text (s := b!"\n") (by decide)
  have p := Marked.elem b!"pre" [] (by decide) attrsOk_nil (((n.append (.text h)).append (.text (s := b!" - internal view generated by ") (by decide))).append (a.append n))
  have d := (Marked.elem b!"div" [(b!"class", b!"header b3")] (by decide) (attrsOk_cons (by decide) (by decide) attrsOk_nil) ((n.append p).append n)).append n
  exact (show Marked _ _ _ by simpa [idOf, hrefOf] using d).of_eq (by simp [openTag, closeTag, attrText, headerText])

/-- What comes before the first element that is closed: the element `html` is not. -/
def pageStart : Bytes := b!"<!DOCTYPE html>\n<html lang=\"en\">\n"

theorem Marked.void (name : Bytes) (attrs : Attrs) (hn : name ∈ voids) (ha : AttrsOk attrs) (hi : idOf attrs = []) (hh : hrefOf attrs = []) :
    Marked (openTag name attrs) [] [] :=
  ⟨_, .void hn ha, by simpa [vals, idOf] using hi, by simpa [vals, hrefOf] using hh⟩

theorem Marked.cast {s t : Bytes} {i i' l l' : List Bytes} (h : Marked s i l) (e : t = s) (hi : i = i') (hl : l = l') : Marked t i' l' := by
  subst e hi hl
  exact h

set_option maxRecDepth 10000 in
/-- The element `head`. -/
theorem head_marked {s : Bytes} (hs : IsText s) : Marked (b!"<head>\n    <meta charset=\"UTF-8\">\n    <meta http-equiv=\"X-UA-Compatible\" content=\"IE=edge\">\n    <meta name=\"viewport\" content=\"width=device-width, initial-scale=1.0\">\n    <title>PDFSyntax</title>\n    <style>\n" ++ s ++ b!"    </style>\n</head>\n") [] [] := by
  have n := Marked.text (s := b!"\n") (by decide)
  have t := Marked.text (s := b!"\n    ") (by decide)
  have m1 := Marked.void b!"meta" [(b!"charset", b!"UTF-8")] (by decide) (attrsOk_cons (by decide) (by decide) attrsOk_nil) rfl rfl
  have m2 := Marked.void b!"meta" [(b!"http-equiv", b!"X-UA-Compatible"), (b!"content", b!"IE=edge")] (by decide)
    (attrsOk_cons (by decide) (by decide) (attrsOk_cons (by decide) (by decide) attrsOk_nil)) rfl rfl
  have m3 := Marked.void b!"meta" [(b!"name", b!"viewport"), (b!"content", b!"width=device-width, initial-scale=1.0")] (by decide)
    (attrsOk_cons (by decide) (by decide) (attrsOk_cons (by decide) (by decide) attrsOk_nil)) rfl rfl
  have ti := Marked.elem b!"title" [] (by decide) attrsOk_nil (.text (s := b!"PDFSyntax") (by decide))
  have st := Marked.elem b!"style" [] (by decide) attrsOk_nil ((n.append (.text hs)).append (.text (s := b!"    ") (by decide)))
  have h := (Marked.elem b!"head" [] (by decide) attrsOk_nil
    ((((((((((t.append m1).append t).append m2).append t).append m3).append t).append ti).append t).append st).append n)).append n
  refine h.cast ?_ rfl rfl
  simp only [openTag, closeTag, List.append_assoc, List.cons_append, List.nil_append, List.flatMap_nil, List.flatMap_cons, attrText]

set_option maxRecDepth 10000 in
theorem buildHtml_marked [FloatText] {m : List MapItem} {index : List Rev} {cross : List (BlockKey × Cross)} {filename : Bytes} {pages : List Ref}
    {s : Structure} {size : Nat} {h : Html} (e : buildHtml m index cross filename pages s size = .ok h) (hg : Grouped m)
    (hm : ∀ x ∈ m, Known x ∧ Showable x) (hf : IsText (basename filename)) (hv : IsText s.version) :
    ∃ rest ids inner links minimap, h.raw = pageStart ++ rest ∧ All₂ (ItemIds index cross) m ids ∧ pageLinks index pages = .ok links ∧
      All₂ LinkTo (m.filterMap MapItem.key?) minimap ∧
      Marked rest (ids.flatten ++ [b!"end"]) (inner ++ [b!"https://pdfsyntax.dev"] ++ links.map pageHref ++ minimap ++ [b!"#idx0", b!"#end"]) := by
  obtain ⟨body, h1, e⟩ := bind_eq_ok e
  obtain ⟨info, h2, e⟩ := bind_eq_ok e
  obtain ⟨np, h3, e⟩ := bind_eq_ok e
  obtain ⟨no, h4, e⟩ := bind_eq_ok e
  cases e
  obtain ⟨ids, inner, i1, i2⟩ := articles_marked hg hm h1
  have j := navInfo_marked h2 hv
  obtain ⟨links, k1, k2⟩ := navPages_marked h3
  obtain ⟨mini, l1, l2⟩ := navObjects_marked h4 hm
  have n := Marked.text (s := b!"\n") (by decide)
  have n2 := Marked.text (s := b!"\n\n") (by decide)
  have nav := Marked.elem b!"nav" [(b!"class", b!"b2")] (by decide) (attrsOk_cons (by decide) (by decide) attrsOk_nil)
    (((((n2.append j).append k2).append l2).append navQuick_marked).append n)
  have em := Marked.elem b!"em" [] (by decide) attrsOk_nil (.text (s := b!"endoffile") (by decide))
  have code := Marked.elem b!"code" [] (by decide) attrsOk_nil em
  have fin := Marked.elem b!"div" [(b!"id", b!"end")] (by decide) (attrsOk_cons (by decide) (by decide) attrsOk_nil) code
  have content := Marked.elem b!"div" [(b!"class", b!"content")] (by decide) (attrsOk_cons (by decide) (by decide) attrsOk_nil)
    ((((((((n.append i2).append (headerText_marked hf)).append n).append nav).append n2).append n).append fin).append n)
  have bd := Marked.elem b!"body" [(b!"class", b!"b1 c0")] (by decide) (attrsOk_cons (by decide) (by decide) attrsOk_nil) ((n.append content).append n)
  have all := ((head_marked styleSheet_text).append bd).append n
  refine ⟨_, ids, inner, links, mini, ?_, i1, k1, l1, all.cast rfl (by simp [idOf]) (by simp [hrefOf])⟩
  rw [raw_append]
  simp only [raw_append, raw_lit, pageTrailer, pageStart]
  unfold pageHeader
  generalize styleSheet = ss
  simp [openTag, closeTag, attrText]

/-! ### Files -/

theorem trailer_strs [Zlib] {F : Bytes} {k b e : Nat} {rows : List XRow} {tr : Obj} (h : parseXrefTableRaw F k = .ok (some (b, e, rows, tr))) :
    strsIn NoAngle tr := by
  unfold parseXrefTableRaw at h
  split at h
  · cases h
  split at h
  · cases h
  · obtain ⟨⟨el', res⟩, -, h⟩ := bind_eq_ok h
    simp only at h
    obtain ⟨t, ht, h⟩ := bind_eq_ok h
    cases h
    exact parseObj_strs word_noAngle ht

theorem embedded_strs [Zlib] {o : Obj} {l : List Embedded} (h : parseObjectStream o = .ok l) : ∀ x ∈ l, strsIn NoAngle x.obj := by
  unfold parseObjectStream at h
  split at h
  · obtain ⟨first, -, h⟩ := bind_eq_ok h
    obtain ⟨offset, -, h⟩ := bind_eq_ok h
    obtain ⟨n, -, h⟩ := bind_eq_ok h
    obtain ⟨_, -, h⟩ := bind_eq_ok h
    split at h
    · cases h
    obtain ⟨_, -, h⟩ := bind_eq_ok h
    obtain ⟨tokens, -, h⟩ := bind_eq_ok h
    obtain ⟨_, -, h⟩ := bind_eq_ok h
    simp only at h
    obtain ⟨tk, nb, ypos, h⟩ : ∃ tk nb ypos, (List.range nb).mapM (embeddedAt _ tk nb ypos) = .ok l := by
      split at h
      · obtain ⟨ypos, -, h⟩ := bind_eq_ok h
        exact ⟨_, _, ypos, h⟩
      · cases h
    intro x hx
    obtain ⟨i, -, hi⟩ := (mapM_ok_mem h).1 x hx
    unfold embeddedAt at hi
    obtain ⟨a, -, hi⟩ := bind_eq_ok hi
    obtain ⟨t, -, hi⟩ := bind_eq_ok hi
    obtain ⟨num, -, hi⟩ := bind_eq_ok hi
    obtain ⟨obj, ho, hi⟩ := bind_eq_ok hi
    cases hi
    exact parseObj_strs word_noAngle ho
  · cases h

theorem rowOf_kw {ps : List Nat} {num : Int} {raw : Bytes} {sub : Nat} {l : List XSRow} (h : rowOf ps num raw sub = .ok l) : ∀ x ∈ l, IsText x.kw := by
  unfold rowOf at h
  split at h
  · cases h
  split at h
  · split at h
    · split at h
      · cases h; intro x hx; rw [List.mem_singleton.1 hx]; exact (by decide : IsText [102])
      split at h
      · cases h; intro x hx; rw [List.mem_singleton.1 hx]; exact (by decide : IsText [110])
      · cases h; intro x hx; rw [List.mem_singleton.1 hx]; exact (by decide : IsText [110])
    · cases h
  · cases h; intro x hx; cases hx

theorem xrefStreamLoop_kw {st : Bytes} {cols : List Nat} : ∀ {nums : List (Int × Nat)} {i : Nat} {l : List XSRow},
    xrefStreamLoop st cols nums i = .ok l → ∀ x ∈ l, IsText x.kw
  | [], i, l, h => by
    rw [xrefStreamLoop] at h
    split at h
    · cases h
    · cases h; intro x hx; cases hx
  | (num, sub) :: nums, i, l, h => by
    rw [xrefStreamLoop] at h
    split at h
    · obtain ⟨row, h1, h⟩ := bind_eq_ok h
      obtain ⟨rest, h2, h⟩ := bind_eq_ok h
      cases h
      intro x hx
      rcases List.mem_append.1 hx with hx | hx
      · exact rowOf_kw h1 x hx
      · exact xrefStreamLoop_kw h2 x hx
    · cases h; intro x hx; cases hx

theorem xrefStreamRaw_kw {d : Dict} {st : Bytes} {l : List XSRow} (h : parseXrefStreamRaw d st = .ok l) : ∀ x ∈ l, IsText x.kw := by
  unfold parseXrefStreamRaw at h
  obtain ⟨w, -, h⟩ := bind_eq_ok h
  obtain ⟨cols, -, h⟩ := bind_eq_ok h
  simp only at h
  split at h
  · cases h
  split at h
  · obtain ⟨r, -, h⟩ := bind_eq_ok h
    obtain ⟨nums, -, h⟩ := bind_eq_ok h
    exact xrefStreamLoop_kw h
  · obtain ⟨r, -, h⟩ := bind_eq_ok h
    split at h
    · obtain ⟨_, -, h⟩ := bind_eq_ok h
      obtain ⟨nums, -, h⟩ := bind_eq_ok h
      exact xrefStreamLoop_kw h
    · cases h

theorem numberXSRows_mem {cur : Option (Nat × Nat)} {rows : List XSRow} {x : Nat × Nat × XSRow} (h : x ∈ numberXSRows cur rows) : x.2.2 ∈ rows := by
  rw [← numberXSRows_map rows cur]
  exact List.mem_map_of_mem h

/-- The items of the embedded objects. -/
theorem embeddedItems_mem {bo : Nat} {env : Int} : ∀ {l : List Embedded} {j : Nat} {x : MapItem}, x ∈ embeddedItems bo env j l →
    ∃ a j' y, y ∈ l ∧ x = .embedded bo a j' y.num y.obj env
  | [], _, _, h => by cases h
  | y :: l, j, x, h => by
    rw [embeddedItems] at h
    rcases List.mem_cons.1 h with rfl | h
    · exact ⟨_, _, y, List.mem_cons_self, rfl⟩
    · obtain ⟨a, j', z, hz, e⟩ := embeddedItems_mem h
      exact ⟨a, j', z, List.mem_cons_of_mem _ hz, e⟩

/-- What a region adds: itself, its rows after it when it is a cross-reference stream, or the embedded objects. -/
theorem regionItems_shape [Zlib] {r : Region} {its : List MapItem} (h : regionItems r = .ok its) :
    (∃ l, its = [.region r l] ∧ isXrefStream (objOf (.region r l)) = false) ∨
    (∃ b e num gen o l rows t raw, r = .indObj b e num gen o ∧ isXrefStream o = true ∧ its = [.region r l, .xrefStream b rows t] ∧
      (∃ d st, parseXrefStreamRaw d st = .ok raw) ∧ rows = numberXSRows none raw) ∨
    (∃ b e num gen o embs, r = .indObj (some b) e num gen o ∧ isXrefStream o = false ∧ parseObjectStream o = .ok embs ∧
      its = .region r [] :: embeddedItems b num 0 embs) := by
  unfold regionItems at h
  split at h
  · obtain ⟨l, -, h⟩ := bind_eq_ok h
    cases h
    exact .inl ⟨l, rfl, rfl⟩
  · rename_i bo e num gen entries data enc
    split at h
    · rename_i ty hty
      split at h
      · rename_i hx
        obtain ⟨rows, hr, h⟩ := bind_eq_ok h
        cases h
        subst hx
        exact .inr (.inl ⟨_, _, _, _, _, _, _, _, rows, rfl, by simp [isXrefStream, hty], rfl, ⟨_, _, hr⟩, rfl⟩)
      · rename_i hx
        have hX : isXrefStream (.stream entries data enc) = false := by simp [isXrefStream, hty, hx]
        split at h
        · obtain ⟨embs, he, h⟩ := bind_eq_ok h
          split at h
          · cases h
            exact .inr (.inr ⟨_, _, _, _, _, embs, rfl, hX, he, rfl⟩)
          · cases h
            exact .inl ⟨_, rfl, hX⟩
          · cases h
        · cases h
          exact .inl ⟨_, rfl, hX⟩
    · rename_i hty
      cases h
      refine .inl ⟨_, rfl, ?_⟩
      simp only [objOf, isXrefStream, decide_eq_false_iff_not]
      exact fun h => hty _ h
  · rename_i h1 h2
    cases h
    refine .inl ⟨_, rfl, ?_⟩
    cases r with
    | indObj b e n g o =>
      cases o with
      | stream d c enc => exact absurd rfl (h2 _ _ _ _ _ _ _)
      | _ => rfl
    | _ => rfl

theorem grouped_append : ∀ {a b : List MapItem}, Grouped a → Grouped b → Grouped (a ++ b) := by
  intro a b ha hb
  induction ha with
  | nil => exact hb
  | single h1 h2 _ ih => exact .single h1 h2 ih
  | pair h1 _ ih => exact .pair h1 ih

theorem grouped_embedded {bo : Nat} {env : Int} : ∀ {l : List Embedded} {j : Nat},
    (∀ x ∈ embeddedItems bo env j l, isXrefStream (objOf x) = false) → Grouped (embeddedItems bo env j l)
  | [], _, _ => .nil
  | y :: l, j, h => by
    rw [embeddedItems] at h ⊢
    exact .single (by intro b rows t h; cases h) (h _ List.mem_cons_self) (grouped_embedded fun x hx => h x (List.mem_cons_of_mem _ hx))

/-- No object of an object stream is a cross-reference stream. -/
def NoInner (m : List MapItem) : Prop := ∀ bo a j n o env, .embedded bo a j n o env ∈ m → isXrefStream o = false

theorem fileMapLoop_grouped [Zlib] {F : Bytes} : ∀ (fuel i : Nat) (m : List MapItem), fileMapLoop F fuel i = .ok m → NoInner m → Grouped m
  | 0, _, _, h, _ => by cases h
  | fuel + 1, i, m, h, hn => by
    rw [fileMapLoop] at h
    split at h
    case isFalse => cases h; exact .nil
    obtain ⟨o, ho, h⟩ := bind_eq_ok h
    cases o with
    | none => cases h; exact .nil
    | some r =>
      obtain ⟨its, hits, h⟩ := bind_eq_ok h
      obtain ⟨rest, hrest, h⟩ := bind_eq_ok h
      cases h
      have ih := fileMapLoop_grouped fuel r.fin rest hrest fun bo a j n o env hx => hn bo a j n o env (List.mem_append_right _ hx)
      refine grouped_append ?_ ih
      rcases regionItems_shape hits with ⟨l, rfl, hX⟩ | ⟨b, e, num, gen, o, l, rows, t, raw, rfl, hX, rfl, -, -⟩ | ⟨b, e, num, gen, o, embs, rfl, hX, -, rfl⟩
      · exact .single (by intro b rows t h; cases h) hX .nil
      · exact .pair hX .nil
      · refine .single (by intro b rows t h; cases h) hX (grouped_embedded fun x hx => ?_)
        obtain ⟨a, j, y, -, rfl⟩ := embeddedItems_mem hx
        exact hn _ _ _ _ _ _ (List.mem_append_left _ (List.mem_cons_of_mem _ hx))

theorem withoutVoid_cons (x : MapItem) (m : List MapItem) : withoutVoid (x :: m) = withoutVoid m ∨ withoutVoid (x :: m) = x :: withoutVoid m := by
  unfold withoutVoid
  rw [List.filter_cons]
  split
  · exact .inl rfl
  · exact .inr rfl

theorem grouped_withoutVoid {m : List MapItem} (h : Grouped m) : Grouped (withoutVoid m) := by
  induction h with
  | nil => exact .nil
  | @single x m h1 h2 _ ih =>
    rcases withoutVoid_cons x m with e | e
    · rw [e]; exact ih
    · rw [e]; exact .single h1 h2 ih
  | pair h1 _ ih => exact .pair h1 ih

/-- What is known of each item of the map of a file which ends with an end of line. -/
theorem fileObjectMap_known [Zlib] {F : Bytes} (hF : F.getLast?.any isEol = true) {m : List MapItem} (hm : fileObjectMap F = .ok m) :
    ∀ x ∈ m, Known x := by
  intro x hx
  have hkeys := (fileMapLoop_keys hF _ 0 m (by omega) hm).2
  obtain ⟨k, r, its, hr, hits, hin, -⟩ := fileMapLoop_mem hm x hx
  have hreg : ∀ l, x = .region r l → Known x := by
    rintro l rfl
    cases r with
    | indObj b e n g o =>
      refine ⟨?_, parseObj_strs word_noAngle (parseRegion_indObj hr).1⟩
      rintro rfl
      obtain ⟨b, -, h | ⟨j, h⟩⟩ := hkeys none (List.mem_filterMap.2 ⟨_, hx, rfl⟩) <;> cases h
    | xrefTable b e rows tr => exact trailer_strs (parseRegion_table hr).2.1
    | _ => trivial
  rcases regionItems_shape hits with ⟨l, rfl, -⟩ | ⟨b, e, num, gen, o, l, rows, t, raw, rfl, -, rfl, ⟨d, st, hraw⟩, rfl⟩ | ⟨b, e, num, gen, o, embs, rfl, -, he, rfl⟩
  · exact hreg l (List.mem_singleton.1 hin)
  · rcases List.mem_cons.1 hin with h | h
    · exact hreg l h
    · rw [List.mem_singleton.1 h]
      intro y hy
      exact xrefStreamRaw_kw hraw _ (numberXSRows_mem hy)
  · rcases List.mem_cons.1 hin with h | h
    · exact hreg [] h
    · obtain ⟨a, j, y, hy, rfl⟩ := embeddedItems_mem h
      exact embedded_strs he y hy

end Pdf
