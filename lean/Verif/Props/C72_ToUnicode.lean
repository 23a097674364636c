/-
C72: decoding of shown strings with a ToUnicode CMap (text.py:83-169) and without one.
-/
import Verif.Lemmas.CMap
import Verif.Lemmas.KernelRfl
import Verif.Model.Objects

namespace Pdf

open Spec

/-- The text that an entry gives to a code. -/
def entryText : UEntry → Nat → Option Str
  | .char c t, n => if n = c then some t else none
  | .range lo hi f, n => if lo ≤ n ∧ n ≤ hi then some [f + (n - lo)] else none
  | .each lo hi ts, n => if lo ≤ n ∧ n ≤ hi then ts[n - lo]? else none

theorem maps_iff (e : UEntry) (n : Nat) (s : Str) : e.Maps n s ↔ entryText e n = some s := by
  cases e with
  | char c t => simp only [UEntry.Maps, entryText]; split <;> simp_all [eq_comm]
  | range lo hi f =>
    simp only [UEntry.Maps, entryText]
    split
    · simp_all [eq_comm]
    · rename_i h
      simp only [reduceCtorEq, iff_false]
      intro hh; exact h ⟨hh.1, hh.2.1⟩
  | each lo hi ts =>
    simp only [UEntry.Maps, entryText]
    split
    · simp_all
    · rename_i h
      simp only [reduceCtorEq, iff_false]
      intro hh; exact h ⟨hh.1, hh.2.1⟩

/-- First entry that maps the code. -/
def lookupText (es : List UEntry) (n : Nat) : Option Str := es.findSome? (entryText · n)

theorem lookupText_spec (es : List UEntry) (n : Nat) : UnicodeOf es n ((lookupText es n).getD []) := by
  cases h : lookupText es n with
  | none =>
    right
    refine ⟨?_, rfl⟩
    intro e he s' hs
    rw [maps_iff] at hs
    rw [lookupText, List.findSome?_eq_none_iff] at h
    rw [h e he] at hs
    cases hs
  | some s =>
    left
    rw [lookupText, List.findSome?_eq_some_iff] at h
    obtain ⟨pre, e, post, h1, h2, h3⟩ := h
    refine ⟨pre, e, post, h1, (maps_iff _ _ _).2 h2, ?_⟩
    intro e' he' s' hs
    rw [maps_iff, h3 e' he'] at hs
    cases hs

/-- The token for a code once some entries have been read. -/
def tokOf (es : List UEntry) (n : Nat) : CTok :=
  match lookupText es n with
  | some s => .text s
  | none => .code n

theorem tokOf_nil (n : Nat) : tokOf [] n = .code n := rfl

theorem tokOf_snoc (es : List UEntry) (e : UEntry) (n : Nat) :
    tokOf (es ++ [e]) n = match tokOf es n with
      | .text s => .text s
      | .code m => match entryText e m with
        | some s => .text s
        | none => .code m := by
  have h : lookupText (es ++ [e]) n = (lookupText es n).or (entryText e n) := by
    rw [lookupText, List.findSome?_append]
    simp only [List.findSome?_cons, List.findSome?_nil]
    unfold lookupText
    cases entryText e n <;> rfl
  unfold tokOf
  rw [h]
  cases lookupText es n with
  | some s => rfl
  | none => cases he : entryText e n <;> simp [he]

theorem mapChar_tok {w n : Nat} {t : Str} {a b : Obj} (hw : 0 < w) (ha : CodeObj w n a) (hb : TextObj t b)
    (es : List UEntry) (c : Nat) :
    mapChar a (some b) (tokOf es c) = .ok (tokOf (es ++ [.char n t]) c) := by
  rw [tokOf_snoc, mapChar, codeOf_codeObj hw ha]
  show (match tokOf es c with
    | .text s => _
    | .code m => _ : Py CTok) = _
  cases tokOf es c with
  | text s => rfl
  | code m =>
    simp only [entryText]
    by_cases h : m = n
    · simp only [h, if_true]
      show (targetText b >>= fun s => _) = _
      rw [targetText_textObj hb]
      rfl
    · simp only [h, if_false]; rfl

/-- Limitation of the code: the target of a range of characters is written on two bytes only if codes
have two bytes or if the target needs it. -/
def RangeFits (w : Nat) : UEntry → Prop
  | .range _ _ f => w = 2 ∨ 0x1000 ≤ f
  | _ => True

theorem mapRange_range {w lo hi f : Nat} {a z b : Obj} (hw : 0 < w) (ha : CodeObj w lo a) (hz : CodeObj w hi z)
    (hc : ∀ k, lo + k ≤ hi → Consecutive f k) (hb : HexObj (utf16Char f) b) (hf : w = 2 ∨ 0x1000 ≤ f)
    (es : List UEntry) (c : Nat) :
    mapRange w a (some z) (some b) (tokOf es c) = .ok (tokOf (es ++ [.range lo hi f]) c) := by
  rw [tokOf_snoc, mapRange, codeOf_codeObj hw ha]
  show (codeOf z >>= fun z => _) = _
  rw [codeOf_codeObj hw hz]
  show (match tokOf es c with
    | .text s => _
    | .code m => _ : Py CTok) = _
  cases tokOf es c with
  | text s => rfl
  | code m =>
    simp only [entryText]
    by_cases h : lo ≤ m ∧ m ≤ hi
    · simp only [h, and_self, if_true]
      show (rangeTarget w b (m - lo) >>= fun s => _) = _
      rw [rangeTarget_hexObj (hc (m - lo) (by omega)) hf hb]
      rfl
    · simp only [h, if_false]; rfl

theorem mapRange_each {w lo hi : Nat} {a z : Obj} {ts : List Str} {l : List Obj} (hw : 0 < w)
    (ha : CodeObj w lo a) (hz : CodeObj w hi z) (hlen : hi < lo + ts.length) (hl : l.length = ts.length)
    (ht : ∀ (k : Nat) t o, ts[k]? = some t → l[k]? = some o → TextObj t o) (es : List UEntry) (c : Nat) :
    mapRange w a (some z) (some (.list l)) (tokOf es c) = .ok (tokOf (es ++ [.each lo hi ts]) c) := by
  rw [tokOf_snoc, mapRange, codeOf_codeObj hw ha]
  show (codeOf z >>= fun z => _) = _
  rw [codeOf_codeObj hw hz]
  show (match tokOf es c with
    | .text s => _
    | .code m => _ : Py CTok) = _
  cases tokOf es c with
  | text s => rfl
  | code m =>
    simp only [entryText]
    by_cases h : lo ≤ m ∧ m ≤ hi
    · simp only [h, and_self, if_true]
      have h1 : m - lo < ts.length := by omega
      have h2 : m - lo < l.length := by omega
      show (rangeTarget w (.list l) (m - lo) >>= fun s => _) = _
      rw [rangeTarget, List.getElem?_eq_getElem h2, List.getElem?_eq_getElem h1]
      show (targetText l[m - lo] >>= fun s => _) = _
      rw [targetText_textObj (ht (m - lo) _ _ (List.getElem?_eq_getElem h1) (List.getElem?_eq_getElem h2))]
      rfl
    · simp only [h, if_false]; rfl

theorem codeObj_not_kw {w n : Nat} {o : Obj} (h : CodeObj w n o) (k : Bytes) : isKw k o = false := by
  obtain ⟨s, _, _, h, rfl, _⟩ := h
  rfl

/-- State in the middle of the CMap: the entries `es` have been read. -/
def cst (w : Nat) (cs : List Nat) (es : List UEntry) (sec : Option CSection) : CState :=
  ⟨cs.map (tokOf es), some cs, w, sec⟩

theorem loop_charItems {w : Nat} (hw : 0 < w) (string : Bytes) (cs : List Nat) (rest : List Obj)
    {items : List Obj} {es : List UEntry} (h : CharItems w items es) : ∀ done,
    cmapLoop string 0 (items ++ rest) (cst w cs done (some .char))
      = cmapLoop string 0 rest (cst w cs (done ++ es) (some .char)) := by
  induction h with
  | nil => intro done; simp
  | cons ha hb _ ih =>
    rename_i n t a b r es _
    intro done
    rw [List.cons_append, List.cons_append, cmapLoop]
    simp only [codeObj_not_kw ha, Bool.false_eq_true, if_false, cst, if_true]
    show ((cs.map (tokOf done)).mapM (mapChar a (some b)) >>= fun tokens => _) = _
    have : (cs.map (tokOf done)).mapM (mapChar a (some b)) = .ok (cs.map (tokOf (done ++ [.char n t]))) := by
      rw [List.mapM_map]
      exact mapM_ok _ _ cs (fun c _ => mapChar_tok hw ha hb done c)
    rw [this]
    show cmapLoop string 0 (r ++ rest) (cst w cs (done ++ [.char n t]) (some .char)) = _
    rw [ih, List.append_assoc]
    rfl

theorem loop_rangeItems {w : Nat} (hw : 0 < w) (string : Bytes) (cs : List Nat) (rest : List Obj)
    {items : List Obj} {es : List UEntry} (h : RangeItems w items es) (hf : ∀ e ∈ es, RangeFits w e) : ∀ done,
    cmapLoop string 0 (items ++ rest) (cst w cs done (some .range))
      = cmapLoop string 0 rest (cst w cs (done ++ es) (some .range)) := by
  induction h with
  | nil => intro done; simp
  | range ha hz hc hb _ ih =>
    rename_i lo hi f a z b r es _
    intro done
    rw [List.cons_append, List.cons_append, List.cons_append, cmapLoop]
    simp only [codeObj_not_kw ha, Bool.false_eq_true, if_false, cst, if_true, Option.some.injEq, reduceCtorEq]
    show ((cs.map (tokOf done)).mapM (mapRange w a (some z) (some b)) >>= fun tokens => _) = _
    have : (cs.map (tokOf done)).mapM (mapRange w a (some z) (some b))
        = .ok (cs.map (tokOf (done ++ [.range lo hi f]))) := by
      rw [List.mapM_map]
      exact mapM_ok _ _ cs (fun c _ => mapRange_range hw ha hz hc hb (hf (.range lo hi f) (by simp)) done c)
    rw [this]
    show cmapLoop string 0 (r ++ rest) (cst w cs (done ++ [.range lo hi f]) (some .range)) = _
    rw [ih (fun e he => hf e (by simp [he])), List.append_assoc]
    rfl
  | each ha hz hlen hl ht _ ih =>
    rename_i lo hi a z ts l r es _
    intro done
    rw [List.cons_append, List.cons_append, List.cons_append, cmapLoop]
    simp only [codeObj_not_kw ha, Bool.false_eq_true, if_false, cst, if_true, Option.some.injEq, reduceCtorEq]
    show ((cs.map (tokOf done)).mapM (mapRange w a (some z) (some (.list l))) >>= fun tokens => _) = _
    have : (cs.map (tokOf done)).mapM (mapRange w a (some z) (some (.list l)))
        = .ok (cs.map (tokOf (done ++ [.each lo hi ts]))) := by
      rw [List.mapM_map]
      exact mapM_ok _ _ cs (fun c _ => mapRange_each hw ha hz hlen hl ht done c)
    rw [this]
    show cmapLoop string 0 (r ++ rest) (cst w cs (done ++ [.each lo hi ts]) (some .range)) = _
    rw [ih (fun e he => hf e (by simp [he])), List.append_assoc]
    rfl

/-- Before the first section, or after some sections. -/
def CInv (w : Nat) (cs : List Nat) (done : List UEntry) (st : CState) : Prop :=
  (done = [] ∧ st = ⟨[], none, 2, none⟩) ∨ (done ≠ [] ∧ st = cst w cs done none)

theorem beginSection_inv {w : Nat} {cs : List Nat} {string : Bytes} (hs : tokenizeString string w = .ok cs)
    {done : List UEntry} {st : CState} (hi : CInv w cs done st) (sec : CSection) {n : Nat} {a : Obj}
    (ha : CodeObj w n a) : beginSection string sec (some a) st = .ok (cst w cs done (some sec)) := by
  have hb : ∀ st : CState, st.tokens = [] →
      beginSection string sec (some a) st = .ok (cst w cs [] (some sec)) := by
    intro st hst
    obtain ⟨s, h1, _, h, rfl, _, h2⟩ := ha
    simp only [beginSection, hst, if_true]
    show (if (b!"<" ++ h ++ b!">").length < 2 then _ else _ : Py CState) = _
    have e1 : ((b!"<" ++ h ++ b!">").length - 2) / 2 = w := by
      simp only [List.length_append, List.length_cons, List.length_nil]; omega
    have e2 : ¬ (b!"<" ++ h ++ b!">").length < 2 := by
      simp only [List.length_append, List.length_cons, List.length_nil]; omega
    rw [if_neg e2, e1]
    show (tokenizeString string w >>= fun tokens => _) = _
    rw [hs]
    show Except.ok _ = Except.ok _
    congr 1
  rcases hi with ⟨rfl, rfl⟩ | ⟨hd, rfl⟩
  · exact hb _ rfl
  · by_cases hc : cs = []
    · subst hc
      rw [hb _ rfl]
      rfl
    · have : (cst w cs done none).tokens ≠ [] := by simp [cst, hc]
      simp only [beginSection, this, if_false]
      rfl

theorem inv_section {w : Nat} {cs : List Nat} {done : List UEntry} {st : CState} (h : CInv w cs done st) :
    st.section_ = none := by
  rcases h with ⟨_, rfl⟩ | ⟨_, rfl⟩ <;> rfl

theorem isKw_ne {k : Bytes} {o : Obj} (h : o ≠ .str k) : isKw k o = false := by
  cases o with
  | str s => simp only [isKw, beq_eq_false_iff_ne, ne_eq]; intro e; exact h (by rw [e])
  | _ => rfl

theorem loop_skip_others (string : Bytes) (st : CState) (hst : st.section_ = none) (rest : List Obj) :
    ∀ more : List Obj, (∀ o ∈ more, ∀ k, o ≠ Obj.str k) →
      cmapLoop string 0 (more ++ rest) st = cmapLoop string 0 rest st
  | [], _ => rfl
  | o :: more, h => by
    have h0 := h o (by simp)
    rw [List.cons_append, cmapLoop]
    simp only [isKw_ne (h0 _), Bool.false_eq_true, if_false, hst, reduceCtorEq]
    exact loop_skip_others string st hst rest more (fun o ho => h o (by simp [ho]))

theorem loop_tokens {w : Nat} (hw : 0 < w) {string : Bytes} {cs : List Nat}
    (hs : tokenizeString string w = .ok cs) {cmap : List Obj} {es : List UEntry} (h : CMapTokens w cmap es)
    (hf : ∀ e ∈ es, RangeFits w e) : ∀ (done : List UEntry) (st : CState), CInv w cs done st →
      ∃ st', cmapLoop string 0 cmap st = .ok st' ∧ CInv w cs (done ++ es) st' := by
  induction h with
  | nil => intro done st hi; exact ⟨st, rfl, by simpa using hi⟩
  | other ho _ ih =>
    intro done st hi
    rw [cmapLoop]
    simp only [isKw_ne (ho b!"begincodespacerange" (by simp)), isKw_ne (ho b!"beginbfchar" (by simp)),
      isKw_ne (ho b!"beginbfrange" (by simp)), inv_section hi, Bool.false_eq_true, if_false, reduceCtorEq]
    exact ih hf done st hi
  | codespace hm _ ih =>
    rename_i a b more r es _
    intro done st hi
    cases more with
    | nil => exact ih hf done st hi
    | cons c more =>
      show ∃ st', cmapLoop string 0 (more ++ .str b!"endcodespacerange" :: r) st = .ok st' ∧ _
      rw [loop_skip_others string st (inv_section hi) _ more (fun o ho => hm o (by simp [ho])), cmapLoop]
      have e : ∀ k ∈ [b!"begincodespacerange", b!"beginbfchar", b!"beginbfrange"],
          isKw k (.str b!"endcodespacerange") = false := by decide
      simp only [e b!"begincodespacerange" (by simp), e b!"beginbfchar" (by simp), e b!"beginbfrange" (by simp),
        inv_section hi, Bool.false_eq_true, if_false, reduceCtorEq]
      exact ih hf done st hi
  | chars hi' hne _ ih =>
    rename_i items es r es' _
    intro done st hi
    cases hi' with
    | nil => exact absurd rfl hne
    | cons ha hb hr =>
      rename_i n t a b items es
      have hall : CharItems w (a :: b :: items) (.char n t :: es) := .cons ha hb hr
      rw [cmapLoop]
      have e1 : isKw b!"begincodespacerange" (.str b!"beginbfchar") = false := by decide
      have e2 : isKw b!"beginbfchar" (.str b!"beginbfchar") = true := by decide
      simp only [e1, e2, Bool.false_eq_true, if_false, if_true, List.cons_append, List.getElem?_cons_zero]
      rw [beginSection_inv hs hi .char ha]
      show ∃ st', cmapLoop string 0 ((a :: b :: items) ++ .str b!"endbfchar" :: r) (cst w cs done (some .char)) = .ok st' ∧ _
      rw [loop_charItems hw string cs _ hall, cmapLoop]
      have e3 : ∀ k ∈ [b!"begincodespacerange", b!"beginbfchar"], isKw k (.str b!"endbfchar") = false := by decide
      have e4 : isKw b!"endbfchar" (.str b!"endbfchar") = true := by decide
      simp only [e3 b!"begincodespacerange" (by simp), e3 b!"beginbfchar" (by simp), e4, cst,
        Bool.false_eq_true, if_false, if_true]
      obtain ⟨st', h1, h2⟩ := ih (fun e he => hf e (by simp [he])) (done ++ .char n t :: es) _ (.inr ⟨by simp, rfl⟩)
      exact ⟨st', h1, by simpa using h2⟩
  | ranges hi' hne _ ih =>
    rename_i items es r es' _
    intro done st hi
    have hfirst : ∃ n a items', items = a :: items' ∧ CodeObj w n a := by
      cases hi' with
      | nil => exact absurd rfl hne
      | range ha => exact ⟨_, _, _, rfl, ha⟩
      | each ha => exact ⟨_, _, _, rfl, ha⟩
    obtain ⟨n, a, items', he, ha⟩ := hfirst
    rw [cmapLoop]
    have e1 : ∀ k ∈ [b!"begincodespacerange", b!"beginbfchar"], isKw k (.str b!"beginbfrange") = false := by decide
    have e2 : isKw b!"beginbfrange" (.str b!"beginbfrange") = true := by decide
    have e5 : (items ++ Obj.str b!"endbfrange" :: r)[0]? = some a := by rw [he]; rfl
    simp only [e1 b!"begincodespacerange" (by simp), e1 b!"beginbfchar" (by simp), e2, inv_section hi,
      Bool.false_eq_true, if_false, if_true, e5, reduceCtorEq]
    rw [beginSection_inv hs hi .range ha]
    show ∃ st', cmapLoop string 0 (items ++ .str b!"endbfrange" :: r) (cst w cs done (some .range)) = .ok st' ∧ _
    rw [loop_rangeItems hw string cs _ hi' (fun e he => hf e (by simp [he])), cmapLoop]
    have e3 : ∀ k ∈ [b!"begincodespacerange", b!"beginbfchar", b!"beginbfrange"], isKw k (.str b!"endbfrange") = false := by decide
    have e4 : isKw b!"endbfrange" (.str b!"endbfrange") = true := by decide
    simp only [e3 b!"begincodespacerange" (by simp), e3 b!"beginbfchar" (by simp), e3 b!"beginbfrange" (by simp), e4, cst,
      Bool.false_eq_true, if_false, if_true, Option.some.injEq, reduceCtorEq]
    obtain ⟨st', h1, h2⟩ := ih (fun e he => hf e (by simp [he])) (done ++ es) _ (.inr ⟨by simp [hne], rfl⟩)
    exact ⟨st', h1, by simpa using h2⟩

/-! Strings of codes -/

theorem chunks_flatten {n : Nat} (hn : 0 < n) : ∀ (ss : List Bytes) (fuel : Nat), (∀ s ∈ ss, s.length = n) →
    ss.flatten.length ≤ fuel → chunks n fuel ss.flatten = ss
  | [], fuel, _, _ => by cases fuel <;> simp [chunks]
  | s :: ss, fuel, h, hl => by
    have h0 := h s (by simp)
    cases fuel with
    | zero => simp only [List.flatten_cons, List.length_append] at hl; omega
    | succ fuel =>
      have hne : (s :: ss).flatten ≠ [] := by
        intro e
        have := congrArg List.length e
        simp only [List.flatten_cons, List.length_append, List.length_nil] at this
        omega
      rw [chunks, if_neg hne, List.flatten_cons, List.take_append_of_le_length (by omega), ← h0, List.take_length,
        List.drop_left]
      rw [h0, chunks_flatten hn ss fuel (fun s hs => h s (by simp [hs]))]
      simp only [List.flatten_cons, List.length_append] at hl
      omega

theorem tight_cut {h s s' : Bytes} (hh : Hex h (s ++ s')) (hl : h.length = 2 * (s ++ s').length) :
    ∃ a b, h = a ++ b ∧ Hex a s ∧ a.length = 2 * s.length ∧ Hex b s' ∧ b.length = 2 * s'.length := by
  induction s generalizing h with
  | nil => exact ⟨[], h, rfl, .nil, rfl, hh, by simpa using hl⟩
  | cons x s ih =>
    cases hh with
    | space c hc hh =>
      have := hexForm_length hh
      simp only [List.length_cons, List.cons_append] at this hl
      omega
    | byte c d _ hc hd hh =>
      obtain ⟨a, b, rfl, h1, h2, h3, h4⟩ := ih hh (by simp only [List.length_cons, List.cons_append] at hl; omega)
      exact ⟨c :: d :: a, b, rfl, .byte c d x hc hd h1, by simp only [List.length_cons]; omega, h3, h4⟩

theorem hex_chunks {n : Nat} (hn : 0 < n) : ∀ (ss : List Bytes) (h : Bytes) (fuel : Nat), (∀ s ∈ ss, s.length = n) →
    Hex h ss.flatten → h.length = 2 * ss.flatten.length → h.length ≤ fuel →
    (chunks (n * 2) fuel h).mapM intHex = .ok (ss.map beValue)
  | [], h, fuel, _, hh, hl, _ => by
    have : h = [] := List.length_eq_zero_iff.1 (by simpa using hl)
    subst this
    cases fuel <;> simp [chunks] <;> rfl
  | s :: ss, h, fuel, hs, hh, hl, hfu => by
    have h0 := hs s (by simp)
    rw [List.flatten_cons] at hh hl
    obtain ⟨a, b, rfl, h1, h2, h3, h4⟩ := tight_cut hh hl
    cases fuel with
    | zero => simp only [List.length_append] at hfu; omega
    | succ fuel =>
      have hne : a ++ b ≠ [] := by
        intro e
        have := congrArg List.length e
        simp only [List.length_append, List.length_nil] at this
        omega
      have ha : a.length = n * 2 := by omega
      rw [chunks, if_neg hne, List.take_append_of_le_length (by omega), ← ha, List.take_length, List.drop_left, ha,
        List.mapM_cons, intHex_tight h1 h2 (by rintro rfl; simp at h0; omega)]
      show ((chunks (n * 2) fuel b).mapM intHex >>= fun r => _) = _
      rw [hex_chunks hn ss b fuel (fun s hs' => hs s (by simp [hs'])) h3 h4
        (by simp only [List.length_append] at hfu; omega)]
      rfl

theorem delim_body (a b : UInt8) (h : Bytes) : sliceNeg ([a] ++ h ++ [b]) 1 1 = h := by
  simp [sliceNeg]

theorem tokenize_shown {w : Nat} (hw : 0 < w) {string : Bytes} {codes : List Bytes}
    (h : Shown string codes) (hc : ∀ s ∈ codes, s.length = w) :
    tokenizeString string w = .ok (codes.map beValue) := by
  cases h with
  | literal he =>
    rename_i e
    simp only [tokenizeString, delim_body]
    rw [if_pos (by simp), unescapeLiteral, unescape_escapes he]
    show (if w = 0 then _ else _ : Py (List Nat)) = _
    rw [if_neg (by omega), chunks_flatten hw codes _ hc (Nat.le_refl _)]
    show Except.ok _ = Except.ok _
    congr 1
    exact List.map_congr_left (fun s _ => beValue_eq s)
  | hex hh hl =>
    rename_i h
    simp only [tokenizeString, delim_body]
    rw [if_neg (by simp), if_neg (by omega)]
    exact hex_chunks hw codes h _ hc hh hl (Nat.le_refl _)

/-- C72. A string made of codes of `w` bytes, shown with a font that has a ToUnicode CMap with at least
one entry: each code is replaced by its text, and the codes are returned in order.
Missing from the full claim: ranges of characters whose target is below U+1000 when codes do not have
two bytes (`C72_one_byte_counterexample`), targets of several characters in ranges
(`C72_ligature_counterexample`), codes of different lengths (`C72_mixed_counterexample`), white space
inside codes, an empty CMap (`C72_empty_counterexample`). -/
theorem C72_tounicode_partial {w : Nat} (hw : 0 < w) {cmap : List Obj} {es : List UEntry}
    (h : CMapTokens w cmap es) (hne : es ≠ []) (hf : ∀ e ∈ es, RangeFits w e)
    {string : Bytes} {codes : List Bytes} (hs : Shown string codes) (hc : ∀ s ∈ codes, s.length = w) :
    ∃ f : Nat → Str, (∀ c, UnicodeOf es c (f c)) ∧
      applyToUnicode cmap string = .ok ((codes.map beValue).flatMap f, codes.map beValue) := by
  refine ⟨fun c => (lookupText es c).getD [], fun c => lookupText_spec es c, ?_⟩
  obtain ⟨st', h1, h2⟩ := loop_tokens hw (tokenize_shown hw hs hc) h hf [] _ (.inl ⟨rfl, rfl⟩)
  rcases h2 with ⟨h2, _⟩ | ⟨_, rfl⟩
  · exact absurd (by simpa using h2) hne
  · rw [applyToUnicode, h1]
    show Except.ok _ = Except.ok _
    congr 2
    rw [cst, List.flatMap_map]
    congr 1
    funext c
    simp only [List.nil_append, tokOf]
    cases lookupText es c <;> rfl

/-- The text of a code is determined. -/
theorem C72_unicode_unique (es : List UEntry) (n : Nat) (s s' : Str) (h : UnicodeOf es n s)
    (h' : UnicodeOf es n s') : s = s' := by
  have key : ∀ s, UnicodeOf es n s → s = (lookupText es n).getD [] := by
    intro s h
    rcases h with ⟨pre, e, post, rfl, h1, h2⟩ | ⟨h1, rfl⟩
    · have : lookupText (pre ++ e :: post) n = some s := by
        rw [lookupText, List.findSome?_eq_some_iff]
        refine ⟨pre, e, post, rfl, (maps_iff _ _ _).1 h1, ?_⟩
        intro e' he'
        cases hh : entryText e' n with
        | none => rfl
        | some t => exact absurd ((maps_iff _ _ _).2 hh) (h2 e' he' t)
      rw [this]; rfl
    · have : lookupText es n = none := by
        rw [lookupText, List.findSome?_eq_none_iff]
        intro e he
        cases hh : entryText e n with
        | none => rfl
        | some t => exact absurd ((maps_iff _ _ _).2 hh) (h1 e he t)
      rw [this]; rfl
  rw [key s h, key s' h']

theorem hexLow_length (k x : Nat) : (cmapHexLow k x).length = k := by
  induction k generalizing x with
  | zero => rfl
  | succ k ih => simp [cmapHexLow, ih]

theorem hexLow_three (x : Nat) : fromHex (cmapHexLow 3 x) = none := by
  have key : ∀ n, n < 16 → isHexSpace (hexDig n) = false ∧ ∃ y, hexChar (hexDig n) = some y := by
    intro n hn
    have : ∀ n, n < 16 → isHexSpace (hexDig n) = false ∧ hexChar (hexDig n) = some n := by decide +kernel
    exact ⟨(this n hn).1, n, (this n hn).2⟩
  obtain ⟨h1, y1, e1⟩ := key (x / 16 / 16 % 16) (by omega)
  obtain ⟨_, y2, e2⟩ := key (x / 16 % 16) (by omega)
  obtain ⟨h3, _⟩ := key (x % 16) (by omega)
  simp [cmapHexLow, fromHex, h1, e1, e2, h3]

/-- With codes of one byte (or anything but two), no code of a range whose target is below U+1000 can be
decoded: the target is formatted on two or three digits, which is not UTF-16. Such ranges are what
producers write for simple fonts. -/
theorem C72_one_byte_range {w n : Nat} (hw : w ≠ 2) {o : Obj} (ho : codeOf o = .ok n) (hl : ∀ l, o ≠ .list l)
    (k : Nat) (hk : n + k < 0x1000) : ∃ e, rangeTarget w o k = .error e := by
  have hr : rangeTarget w o k = (do
      let b ← orRaise .valueError (fromHex (formatHex 2 (n + k)))
      orRaise .unicodeError (decodeUtf16be b)) := by
    cases o with
    | list l => exact absurd rfl (hl l)
    | _ =>
      simp only [rangeTarget]
      rw [ho]
      simp only [hw, if_false]
      rfl
  rw [hr]
  have hlog : (n + k).log2 < 12 := by
    by_cases h0 : n + k = 0
    · rw [h0]; decide
    · exact (Nat.log2_lt h0).2 hk
  rcases Nat.lt_or_ge (n + k).log2 8 with h | h
  · have : max 2 ((n + k).log2 / 4 + 1) = 2 * 1 := by omega
    rw [formatHex, this, fromHex_hexLow]
    exact ⟨.unicodeError, rfl⟩
  · have : max 2 ((n + k).log2 / 4 + 1) = 3 := by omega
    rw [formatHex, this, hexLow_three]
    exact ⟨.valueError, rfl⟩

section
variable [Zlib]

/-- The CMap as docstruct.py:945-946 parses it. -/
def decodeWith (cmap string : Bytes) : Py (Str × List Nat) := do
  match ← parseObj (b!"[" ++ cmap ++ b!"]") 0 with
  | .list l => applyToUnicode l string
  | _ => .error .outside

/-- A font with codes of one byte and a range: `(A)` is not decoded. -/
theorem C72_one_byte_counterexample :
    decodeWith b!"1 beginbfrange <20> <7E> <0020> endbfrange" b!"(A)" = .error .unicodeError := by
  kernel_rfl

/-- A range whose first target is a ligature written with two characters. -/
theorem C72_ligature_counterexample :
    decodeWith b!"1 beginbfrange <0020> <0021> <00660069> endbfrange" b!"<0020>" = .error .unicodeError := by
  kernel_rfl

/-- Codes of one and two bytes: the string `<20> <8140>` should give a space and an ideographic space. -/
theorem C72_mixed_counterexample :
    decodeWith b!"2 beginbfchar <20> <0020> <8140> <3000> endbfchar" b!"<208140>" = .ok ([32], [0x20, 0x81, 0x40]) := by
  kernel_rfl

/-- A CMap without entries: a local variable is not bound. -/
theorem C72_empty_counterexample :
    decodeWith b!"begincmap endcmap" b!"(A)" = .error .unboundLocal := by
  kernel_rfl

/-- A CMap with the two kinds of sections. -/
def sampleCMap : Bytes := b!"/CMapName /X def 1 begincodespacerange <0000> <FFFF> endcodespacerange 2 beginbfchar <0003> <0020> <0005> <00660066> endbfchar 2 beginbfrange <0010> <0012> <0041> <0020> <0021> [<D835DC00> <0042>] endbfrange endcmap"

/-- The same, as tokens. -/
def sampleTokens : List Obj :=
  [.str b!"/CMapName", .str b!"/X", .str b!"def", .int 1,
   .str b!"begincodespacerange", .bytes b!"<0000>", .bytes b!"<FFFF>", .str b!"endcodespacerange", .int 2,
   .str b!"beginbfchar", .bytes b!"<0003>", .bytes b!"<0020>", .bytes b!"<0005>", .bytes b!"<00660066>",
   .str b!"endbfchar", .int 2,
   .str b!"beginbfrange", .bytes b!"<0010>", .bytes b!"<0012>", .bytes b!"<0041>",
   .bytes b!"<0020>", .bytes b!"<0021>", .list [.bytes b!"<D835DC00>", .bytes b!"<0042>"],
   .str b!"endbfrange", .str b!"endcmap"]

theorem sample_parse : parseObj (b!"[" ++ sampleCMap ++ b!"]") 0 = .ok (.list sampleTokens) := by
  kernel_rfl

end

/-- The entries of the sample. -/
def sampleEntries : List UEntry :=
  [.char 3 [0x20], .char 5 [0x66, 0x66], .range 0x10 0x12 0x41, .each 0x20 0x21 [[0x1D400], [0x42]]]

theorem hex_four {a b c d x y : UInt8}
    (h1 : HexDigitOf a (x.toNat / 16)) (h2 : HexDigitOf b (x.toNat % 16)) (h3 : HexDigitOf c (y.toNat / 16))
    (h4 : HexDigitOf d (y.toNat % 16)) : Hex [a, b, c, d] [x, y] :=
  .byte _ _ _ h1 h2 (.byte _ _ _ h3 h4 .nil)

theorem code_four {a b c d : UInt8} (x y : UInt8)
    (h1 : HexDigitOf a (x.toNat / 16)) (h2 : HexDigitOf b (x.toNat % 16)) (h3 : HexDigitOf c (y.toNat / 16))
    (h4 : HexDigitOf d (y.toNat % 16)) {n : Nat} (hn : beValue [x, y] = n) :
    CodeObj 2 n (.bytes [60, a, b, c, d, 62]) :=
  ⟨[x, y], rfl, hn, [a, b, c, d], rfl, hex_four h1 h2 h3 h4, rfl⟩

instance (c : UInt8) (n : Nat) : Decidable (HexDigitOf c n) := by unfold HexDigitOf; infer_instance

instance (n : Nat) : Decidable (IsScalar n) := by unfold IsScalar; infer_instance

theorem sample_tokens : CMapTokens 2 sampleTokens sampleEntries := by
  refine .other (by decide) (.other (by decide) (.other (by decide) (.other (by decide) ?_)))
  refine .codespace (more := []) (by simp) (.other (by decide) ?_)
  refine .chars (items := [.bytes b!"<0003>", .bytes b!"<0020>", .bytes b!"<0005>", .bytes b!"<00660066>"])
    (es := [.char 3 [0x20], .char 5 [0x66, 0x66]]) ?_ (by simp) (.other (by decide) ?_)
  · refine .cons (code_four 0 3 (by decide) (by decide) (by decide) (by decide) (by decide)) ?_
      (.cons (code_four 0 5 (by decide) (by decide) (by decide) (by decide) (by decide)) ?_ .nil)
    · exact ⟨by decide, b!"0020", rfl, hex_four (by decide) (by decide) (by decide) (by decide)⟩
    · exact ⟨by decide, b!"00660066", rfl,
        .byte _ _ _ (by decide) (by decide) (.byte _ _ _ (by decide) (by decide)
          (hex_four (by decide) (by decide) (by decide) (by decide)))⟩
  · refine .ranges (es := [.range 0x10 0x12 0x41, .each 0x20 0x21 [[0x1D400], [0x42]]]) (es' := [])
      (items := [.bytes b!"<0010>", .bytes b!"<0012>", .bytes b!"<0041>",
        .bytes b!"<0020>", .bytes b!"<0021>", .list [.bytes b!"<D835DC00>", .bytes b!"<0042>"]])
      (.range ?_ ?_ ?_ ?_ (.each ?_ ?_ (by decide) rfl ?_ .nil)) (by simp) (.other (by decide) .nil)
    · exact code_four 0 0x10 (by decide) (by decide) (by decide) (by decide) (by decide)
    · exact code_four 0 0x12 (by decide) (by decide) (by decide) (by decide) (by decide)
    · intro k hk
      exact ⟨.inl (by omega), .inl (by omega)⟩
    · exact ⟨b!"0041", rfl, hex_four (by decide) (by decide) (by decide) (by decide), rfl⟩
    · exact code_four 0 0x20 (by decide) (by decide) (by decide) (by decide) (by decide)
    · exact code_four 0 0x21 (by decide) (by decide) (by decide) (by decide) (by decide)
    · intro k t o h1 h2
      match k with
      | 0 =>
        cases h1; cases h2
        exact ⟨by decide, b!"D835DC00", rfl,
          .byte _ _ _ (by decide) (by decide) (.byte _ _ _ (by decide) (by decide)
            (hex_four (by decide) (by decide) (by decide) (by decide)))⟩
      | 1 =>
        cases h1; cases h2
        exact ⟨by decide, b!"0042", rfl, hex_four (by decide) (by decide) (by decide) (by decide)⟩
      | k + 2 => cases h1

/-- The hypotheses of `C72_tounicode_partial` hold of the sample and of a literal string of three codes,
the first of which is not mapped. -/
example : ∃ f : Nat → Str, (∀ c, UnicodeOf sampleEntries c (f c)) ∧
    applyToUnicode sampleTokens b!"(AA\\000\\020\\000 )" = .ok ([0x4141, 0x10, 0x20].flatMap f, [0x4141, 0x10, 0x20]) := by
  have := C72_tounicode_partial (w := 2) (by decide) sample_tokens (by decide)
    (by intro e he; simp only [sampleEntries, List.mem_cons, List.not_mem_nil, or_false] at he
        rcases he with rfl | rfl | rfl | rfl <;> simp [RangeFits])
    (string := b!"(AA\\000\\020\\000 )") (codes := [[0x41, 0x41], [0, 0x10], [0, 0x20]])
    (.literal (e := b!"AA\\000\\020\\000 ")
      (.plain _ (by decide) (.plain _ (by decide) (.octal 0 0 0 (by decide) (by decide) (by decide)
        (.octal 0 2 0 (by decide) (by decide) (by decide) (.octal 0 0 0 (by decide) (by decide) (by decide)
          (.plain _ (by decide) .nil)))))))
    (by decide)
  exact this

example : applyToUnicode sampleTokens b!"(AA\\000\\020\\000 )" = .ok ([0x41, 0x1D400], [0x4141, 0x10, 0x20]) := by
  kernel_rfl

end Pdf
