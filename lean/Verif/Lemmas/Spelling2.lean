/-
The item loops of the parser on the texts of objects (`Spec/Spelling.lean`).
-/
import Verif.Lemmas.Spelling
import Verif.Lemmas.PyEq

namespace Pdf
open Spec

set_option linter.unusedSectionVars false

variable [Zlib]

/-- What both item loops do. -/
structure LoopFn (F : Bytes → Nat → Nat → Py (List Obj)) : Prop where
  step : StepFn F
  comment : ∀ {text : Bytes} {i j1 h i' : Nat}, nextToken text i = (h, i', some .comment) → i < j1 - 1 →
    F text i j1 = F text i' j1
  none : ∀ {text : Bytes} {i j1 h i' : Nat}, i < j1 - 1 → nextToken text i = (h, i', none) → i < i' →
    F text i j1 = F text i' j1
  done : ∀ {text : Bytes} {i j1 : Nat}, ¬ i < j1 - 1 → F text i j1 = .ok []

theorem loopFn_dict : LoopFn dictItems := by
  refine ⟨stepFn_dict, ?_, dictItems_none, dictItems_done⟩
  intro text i j1 h i' e hij
  have b := nextToken_typed e
  conv => lhs; unfold dictItems
  rw [dictItemsF, if_pos hij, e]
  simp only
  exact dictItemsF_eq _ _ _ _ (by omega)

theorem loopFn_array : LoopFn arrayItems := by
  refine ⟨stepFn_array, ?_, arrayItems_none, arrayItems_done⟩
  intro text i j1 h i' e hij
  have b := nextToken_typed e
  conv => lhs; unfold arrayItems
  rw [arrayItemsF, if_pos hij, e]
  simp only
  exact arrayItemsF_eq _ _ _ _ (by omega)

/-- What the search of a token passes over: white space, with maybe one `>` before it. -/
def Lead (ws : Bytes) : Prop := ∃ x sp, ws = x ++ sp ∧ (x = [] ∨ x = [62]) ∧ ∀ c ∈ sp, isSpace c = true

theorem lead_x {x : Bytes} (h : x = [] ∨ x = [62]) : Lead x := ⟨x, [], by simp, h, by simp⟩

theorem lead_snoc {ws : Bytes} (h : Lead ws) {c : UInt8} (hc : isSpace c = true) : Lead (ws ++ [c]) := by
  obtain ⟨x, sp, rfl, hx, hsp⟩ := h
  refine ⟨x, sp ++ [c], by simp, hx, ?_⟩
  intro d hd
  rw [List.mem_append, List.mem_singleton] at hd
  rcases hd with hd | rfl
  · exact hsp d hd
  · exact hc

theorem lead_one {c : UInt8} (hc : isSpace c = true) : Lead [c] := ⟨[], [c], rfl, .inl rfl, by simpa using hc⟩

theorem scan_angle (text rest : Bytes) (h i : Nat) (hr : rest.head? ≠ some 62) :
    tokLoop text ⟨.tbd, 1, false, h, i⟩ (62 :: rest) = tokLoop text ⟨.tbd, 1, false, i, i + 1⟩ rest := by
  rw [tokLoop]
  have h1 : startsWith b!">>" (62 :: rest) = false := by
    cases rest with
    | nil => rfl
    | cons c rest =>
      simp only [List.head?_cons, ne_eq, Option.some.injEq] at hr
      simp [startsWith, List.isPrefixOf, Ne.symm hr]
  simp only [tokStep, h1, startsWith_ne (c := 62) (a := 60) (by decide), startsWith_ne (c := 62) (a := 115) (by decide)]
  simp [show isNumStart 62 = false by decide, show isAlpha 62 = false by decide]

theorem scan_lead (text rest : Bytes) {ws : Bytes} (hw : Lead ws) (hr : ws = [62] → rest.head? ≠ some 62) (h i : Nat) :
    ∃ h', tokLoop text ⟨.tbd, 1, false, h, i⟩ (ws ++ rest) = tokLoop text ⟨.tbd, 1, false, h', i + ws.length⟩ rest := by
  obtain ⟨x, sp, rfl, hx, hsp⟩ := hw
  rcases hx with rfl | rfl
  · exact scan_ws text rest sp h i hsp
  · have h1 : (sp ++ rest).head? ≠ some 62 := by
      cases sp with
      | nil => exact hr rfl
      | cons c sp =>
        have := (isSpace_facts (hsp c (by simp))).2.1
        simpa using this
    rw [List.append_assoc, List.cons_append, List.nil_append, scan_angle _ _ _ _ h1]
    obtain ⟨h', e⟩ := scan_ws text rest sp i (i + 1) hsp
    refine ⟨h', ?_⟩
    rw [e]
    congr 2; simp; omega

theorem nextToken_lead {s post : Bytes} {t : TokT} (ht : TokAt s post t) {text ws : Bytes} {i : Nat} (hws : Lead ws)
    (hr : ws = [62] → (s ++ post).head? ≠ some 62) (hd : text.drop i = ws ++ (s ++ post)) :
    nextToken text i = (i + ws.length, i + ws.length + s.length, some t) := by
  unfold nextToken
  rw [hd]
  obtain ⟨h', e⟩ := scan_lead text (s ++ post) hws hr i i
  rw [e]
  exact ht text _ _ (drop_add_of hd)

theorem step_lead {F} (hF : LoopFn F) {s post ws text : Bytes} {t : TokT} {i j1 : Nat} {o : Obj}
    (ht : TokAt s post t) (htc : t ≠ .comment) (hws : Lead ws) (hr : ws = [62] → (s ++ post).head? ≠ some 62)
    (hd : text.drop i = ws ++ (s ++ post)) (hj : i + ws.length + s.length < j1)
    (ho : (if t = .dict ∨ t = .array then parseObj s 0 else dedicatedType s (some t)) = .ok o) :
    F text i j1 = (F text (i + ws.length + s.length) j1).map (o :: ·) ∧ text.drop (i + ws.length + s.length) = post := by
  have e := nextToken_lead ht hws hr hd
  have b := nextToken_typed e
  refine ⟨hF.step _ _ _ _ _ _ _ e htc (by omega) hj ?_, drop_add_of (drop_add_of hd)⟩
  unfold itemVal
  rw [slice_of_drop (post := post) (drop_add_of hd), ho]

theorem tokAt_commentText {body : Bytes} {e : UInt8} (h : ∀ c ∈ body, c ≠ 10 ∧ c ≠ 13) (he : e = 10 ∨ e = 13) (post : Bytes) :
    TokAt (37 :: body) (e :: post) .comment := by
  have key : ∀ (text : Bytes) (b : Bytes) (h i : Nat), (∀ c ∈ b, c ≠ 10 ∧ c ≠ 13) →
      tokLoop text ⟨.comment, 1, false, h, i⟩ (b ++ e :: post) = (h, i + b.length, some .comment) := by
    intro text b
    induction b with
    | nil =>
      intro h i _
      have : isEol e = true := by rcases he with rfl | rfl <;> decide
      simp [tokLoop, tokStep, this]
    | cons c b ih =>
      intro h i hb
      have hc := hb c (by simp)
      have : isEol c = false := by simp [isEol, hc.1, hc.2]
      rw [List.cons_append, tokLoop]
      simp only [tokStep, this]
      have := ih h (i + 1) (fun x hx => hb x (by simp [hx]))
      simp only [Bool.false_eq_true, if_false, this, List.length_cons]
      congr 2; omega
  intro text h' i _
  rw [List.cons_append, tokLoop]
  simp only [tokStep, startsWith_ne (c := 37) (a := 60) (by decide), startsWith_ne (c := 37) (a := 62) (by decide),
    startsWith_ne (c := 37) (a := 115) (by decide)]
  simp [show isNumStart 37 = false by decide, show isAlpha 37 = false by decide]
  rw [key text body _ _ h]
  congr 2; omega

/-- A gap is passed over. -/
theorem step_gap {F} (hF : LoopFn F) {inD inA : Bool} {g text rest : Bytes} {j1 : Nat} (hg : Gap inD inA g) :
    ∀ (ws : Bytes) (i : Nat), Lead ws → (ws = [62] → (g ++ rest).head? ≠ some 62) → text.drop i = ws ++ (g ++ rest) →
      i + ws.length + g.length < j1 →
      ∃ ws' k, F text i j1 = F text k j1 ∧ Lead ws' ∧ (ws' = [62] → rest.head? ≠ some 62) ∧ text.drop k = ws' ++ rest ∧
        k + ws'.length = i + ws.length + g.length := by
  induction hg with
  | nil => intro ws i hw hr hd hj; exact ⟨ws, i, rfl, hw, hr, hd, rfl⟩
  | @white c g hc _ ih =>
    intro ws i hw hr hd hj
    have hsp := isSpace_of_white hc
    obtain ⟨ws', k, h1, h2, h3, h4, h5⟩ := ih (ws ++ [c]) i (lead_snoc hw hsp)
      (fun e => by
        have hl := congrArg List.getLast? e
        simp only [List.getLast?_append, List.getLast?_singleton, Option.some_or, Option.some.injEq] at hl
        exact absurd hl (isSpace_facts hsp).2.1)
      (by rw [hd]; simp) (by simp only [List.length_append, List.length_cons, List.length_nil] at hj ⊢; omega)
    refine ⟨ws', k, h1, h2, h3, h4, ?_⟩
    rw [h5]; simp; omega
  | @comment body g e hb _ _ he _ ih =>
    intro ws i hw hr hd hj
    have hsp : isSpace e = true := by rcases he with rfl | rfl <;> decide
    have hd' : text.drop i = ws ++ ((37 :: body) ++ (e :: (g ++ rest))) := by rw [hd]; simp
    have e1 := nextToken_lead (tokAt_commentText hb he _) hw (fun _ => by simp) hd'
    have b := nextToken_typed e1
    simp only [List.length_cons, List.length_append] at hj
    rw [hF.comment e1 (by simp only [List.length_cons] at b; omega)]
    have hd2 := drop_add_of (drop_add_of hd')
    obtain ⟨ws', k, h1, h2, h3, h4, h5⟩ := ih [e] _ (lead_one hsp)
      (fun h => by rw [List.cons.injEq] at h; exact absurd h.1 (isSpace_facts hsp).2.1)
      (by rw [hd2]; rfl) (by simp only [List.length_cons, List.length_nil]; omega)
    refine ⟨ws', k, h1, h2, h3, h4, ?_⟩
    rw [h5]; simp; omega

/-- What the item loops make of a list of objects: three items for a reference. -/
inductive Toks : List Obj → List Obj → Prop
  | nil : Toks [] []
  | ref {l ts : List Obj} {n m : Int} : Toks l ts → Toks (.ref 0 n :: l) (.int n :: .int m :: .str b!"R" :: ts)
  | obj {l ts : List Obj} {o : Obj} : (∀ g n, o ≠ .ref g n) → Toks l ts → Toks (o :: l) (norm o :: ts)

theorem toks_second {l ts : List Obj} (ht : Toks l ts) {inD inA : Bool} (h : WFItems inD inA l = true) :
    ∀ a b r, ts = a :: b :: r → b ≠ .str b!"R" := by
  intro a b r e
  cases ht with
  | nil => cases e
  | ref _ => simp at e; rw [← e.2.1]; simp
  | obj hr ht =>
    simp only [WFItems, Bool.and_eq_true] at h
    simp only [List.cons.injEq] at e
    obtain ⟨-, e⟩ := e
    cases ht with
    | nil => cases e
    | ref _ => simp at e; rw [← e.1]; simp
    | obj hr ht =>
      simp only [WFItems, Bool.and_eq_true] at h
      simp only [List.cons.injEq] at e
      rw [← e.1]
      exact norm_ne_R h.2.1

theorem replaceRef_toks {l ts : List Obj} (ht : Toks l ts) : ∀ {inD inA : Bool}, WFItems inD inA l = true →
    replaceRef ts = .ok (normItems l) := by
  induction ht with
  | nil => intro _ _ _; rfl
  | @ref l ts n m _ ih =>
    intro inD inA h
    simp only [WFItems, Bool.and_eq_true] at h
    have hw := h.1
    simp only [WF, Bool.and_eq_true, decide_eq_true_eq] at hw
    simp only [replaceRef, if_true, complexOf, maxExact, hw.2, ih h.2, normItems, norm]
    rfl
  | @obj l ts o hr ht ih =>
    intro inD inA h
    simp only [WFItems, Bool.and_eq_true] at h
    have ih := ih h.2
    have hsec := toks_second ht h.2
    cases ts with
    | nil => simp [replaceRef] at ih; simp [replaceRef, normItems, ← ih]
    | cons b r =>
      cases r with
      | nil => simp [replaceRef] at ih; simp [replaceRef, normItems, ← ih]
      | cons c r =>
        have hc := hsec b c r rfl
        rw [replaceRef, if_neg hc, ih]
        rfl

/-- Where the token of the object ends and what it is converted to. -/
def Elem (o : Obj) (s : Bytes) : Prop :=
  ∃ tok x, s = tok ++ x ∧ (x = [] ∨ x = [62]) ∧
    (∀ post, (selfEnded o = true ∨ ∃ c r, post = c :: r ∧ isBreak c = true) → TokAt tok (x ++ post) (tokType o)) ∧
    (if tokType o = .dict ∨ tokType o = .array then parseObj tok 0 else dedicatedType tok (some (tokType o))) = .ok (norm o)

/-- The item loops read a list of objects. -/
def Reads (inD inA : Bool) (l : List Obj) (t : Bytes) : Prop :=
  ∀ F, LoopFn F → ∀ (text rest x : Bytes) (i j1 : Nat), (x = [] ∨ x = [62]) → text.drop i = x ++ (t ++ rest) →
    (∃ c r, rest = c :: r ∧ isBreak c = true) → i + x.length + t.length < j1 →
    ∃ ts k x' g, Toks l ts ∧ F text i j1 = (F text k j1).map (ts ++ ·) ∧ (x' = [] ∨ x' = [62]) ∧ Gap inD inA g ∧
      text.drop k = x' ++ (g ++ rest) ∧ k + x'.length + g.length = i + x.length + t.length

theorem reads_nil {inD inA : Bool} {g : Bytes} (hg : Gap inD inA g) : Reads inD inA [] g := by
  intro F hF text rest x i j1 hx hd hr hj
  refine ⟨[], i, x, g, .nil, ?_, hx, hg, hd, rfl⟩
  cases F text i j1 <;> rfl

theorem lead_elim {inD inA : Bool} {o : Obj} {s : Bytes} (h : Spells inD inA o s) (post : Bytes) : (s ++ post).head? ≠ some 62 :=
  head_append (spells_head h).2 (fun e => absurd e (spells_head h).1)

theorem break_append {t rest : Bytes} (h : t = [] ∨ ∃ c r, t = c :: r ∧ Ends c) (hr : ∃ c r, rest = c :: r ∧ isBreak c = true) :
    ∃ c r, t ++ rest = c :: r ∧ isBreak c = true := by
  rcases h with rfl | ⟨c, r, rfl, hc⟩
  · exact hr
  · exact ⟨c, r ++ rest, rfl, isBreak_of_ends hc⟩

theorem reads_obj {inD inA : Bool} {o : Obj} {l : List Obj} {g s t : Bytes} (hg : Gap inD inA g) (hs : Spells inD inA o s)
    (ho : ∀ g n, o ≠ .ref g n) (he : Elem o s) (hsep : selfEnded o = true ∨ t = [] ∨ ∃ c r, t = c :: r ∧ Ends c)
    (ht : Reads inD inA l t) : Reads inD inA (o :: l) (g ++ (s ++ t)) := by
  intro F hF text rest x i j1 hx hd hr hj
  simp only [List.append_assoc] at hd
  simp only [List.length_append] at hj
  have hne : (s ++ (t ++ rest)).head? ≠ some 62 := lead_elim hs _
  obtain ⟨ws, k, h1, h2, h3, h4, h5⟩ := step_gap (j1 := j1) hF hg x i (lead_x hx)
    (fun _ => head_append (gap_head_ne hg) (fun _ => hne)) hd (by omega)
  obtain ⟨tok, x1, rfl, hx1, htok, hval⟩ := he
  have hT := htok (t ++ rest) (by
    rcases hsep with h | h
    · exact .inl h
    · exact .inr (break_append h hr))
  simp only [List.length_append] at hj
  simp only [List.append_assoc] at h4 hne
  obtain ⟨e1, e2⟩ := step_lead (j1 := j1) hF hT (tokType_ne_comment o) h2 (fun _ => hne) h4 (by omega) hval
  obtain ⟨ts, k', x', g', a1, a2, a3, a4, a5, a6⟩ := ht F hF text rest x1 _ j1 hx1 e2 hr (by omega)
  refine ⟨norm o :: ts, k', x', g', .obj ho a1, ?_, a3, a4, a5, ?_⟩
  · rw [h1, e1, a2, except_map_map]; rfl
  · rw [a6]; simp only [List.length_append]; omega

theorem dedicated_int {s : Bytes} {n : Int} (h : IntText s n) :
    (if TokT.integer = .dict ∨ TokT.integer = .array then parseObj s 0 else dedicatedType s (some .integer)) = .ok (.int n) := by
  simp [dedicatedType, pyInt_intText h, orRaise]
  rfl

theorem reads_ref {inD inA : Bool} {n m : Int} {l : List Obj} {g s1 g1 s2 g2 t : Bytes} (hg : Gap inD inA g) (hs1 : IntText s1 n)
    (hg1 : Gap inD inA g1) (hg1n : g1 ≠ []) (hs2 : IntText s2 m) (hg2 : Gap inD inA g2) (hg2n : g2 ≠ [])
    (hsep : t = [] ∨ ∃ c r, t = c :: r ∧ Ends c) (ht : Reads inD inA l t) :
    Reads inD inA (.ref 0 n :: l) (g ++ ((s1 ++ (g1 ++ (s2 ++ (g2 ++ b!"R")))) ++ t)) := by
  intro F hF text rest x i j1 hx hd hr hj
  simp only [List.append_assoc] at hd
  simp only [List.length_append] at hj
  have hh : ∀ {s : Bytes} {n : Int} (post : Bytes), IntText s n → (s ++ post).head? ≠ some 62 := fun post h =>
    head_append (wordChar_head (int_word h)) (fun e => absurd e (intText_ne h))
  obtain ⟨ws, k, h1, h2, h3, h4, h5⟩ := step_gap (j1 := j1) hF hg x i (lead_x hx)
    (fun _ => head_append (gap_head_ne hg) (fun _ => hh _ hs1)) hd (by omega)
  have hb : ∀ {g : Bytes} (post : Bytes), Gap inD inA g → g ≠ [] → ∃ c r, g ++ post = c :: r ∧ isBreak c = true := by
    intro g post hg hn
    obtain ⟨c, r, rfl, h, _⟩ := gap_break hg hn
    exact ⟨c, r ++ post, rfl, h⟩
  obtain ⟨c1, r1, hc1, hb1⟩ := hb (s2 ++ (g2 ++ (b!"R" ++ (t ++ rest)))) hg1 hg1n
  obtain ⟨e1, e2⟩ := step_lead (j1 := j1) hF (hc1 ▸ tokAt_intText hs1 hb1 r1) (by decide) h2 (fun _ => hh _ hs1) h4 (by omega) (dedicated_int hs1)
  obtain ⟨ws', k', h1', h2', h3', h4', h5'⟩ := step_gap (j1 := j1) hF hg1 [] _ (lead_x (.inl rfl)) (by simp) e2
    (by simp only [List.length_nil]; omega)
  simp only [List.length_nil] at h5'
  obtain ⟨c2, r2, hc2, hb2⟩ := hb (b!"R" ++ (t ++ rest)) hg2 hg2n
  obtain ⟨e3, e4⟩ := step_lead (j1 := j1) hF (hc2 ▸ tokAt_intText hs2 hb2 r2) (by decide) h2' (fun _ => hh _ hs2) h4' (by omega) (dedicated_int hs2)
  obtain ⟨ws'', k'', h1'', h2'', h3'', h4'', h5''⟩ := step_gap (j1 := j1) hF hg2 [] _ (lead_x (.inl rfl)) (by simp) e4
    (by simp only [List.length_nil]; omega)
  simp only [List.length_nil, List.length_cons] at h5'' hj
  obtain ⟨c3, r3, hc3, hb3⟩ := break_append hsep hr
  have hR := tokAt_word (x := 82) (body := []) (by decide) (by decide) (c := c3) hb3 r3 (by simp [List.isPrefixOf])
  rw [if_neg (by decide), if_neg (by decide), ← hc3] at hR
  obtain ⟨e5, e6⟩ := step_lead (j1 := j1) hF hR (by decide) h2'' (fun _ => by simp) h4'' (by simp only [List.length_cons, List.length_nil]; omega)
    (o := .str b!"R") (by rfl)
  obtain ⟨ts, k', x', g', a1, a2, a3, a4, a5, a6⟩ := ht F hF text rest [] _ j1 (.inl rfl) e6 hr
    (by simp only [List.length_cons, List.length_nil]; omega)
  refine ⟨.int n :: .int m :: .str b!"R" :: ts, k', x', g', .ref a1, ?_, a3, a4, a5, ?_⟩
  · rw [h1, e1, h1', e3, h1'', e5, a2, except_map_map, except_map_map, except_map_map]; rfl
  · rw [a6]; simp only [List.length_append, List.length_cons, List.length_nil]; omega

theorem parse_brackets {inD : Bool} {l : List Obj} {t : Bytes} (hs : SpellsAll inD true l t) (hr : Reads inD true l t) (post : Bytes) :
    parseObj ((b!"[" ++ (t ++ b!"]")) ++ post) 0 = .ok (.list (normItems l)) := by
  have ht : TokAt (b!"[" ++ (t ++ b!"]")) post .array := tokAt_bracketed (SpellsAll.atrans hs rfl) post
  have e := nextToken_at (text := (b!"[" ++ (t ++ b!"]")) ++ post) (ws := []) (i := 0) ht (by simp) rfl
  rw [parseObj_array e]
  have hlen : (b!"[" ++ (t ++ b!"]")).length = t.length + 2 := by simp
  simp only [List.length_nil, Nat.zero_add, hlen]
  obtain ⟨ts, k, x, g, h1, h2, h3, h4, h5, h6⟩ := hr arrayItems loopFn_array ((b!"[" ++ (t ++ b!"]")) ++ post) (93 :: post) [] 1
    (t.length + 2) (.inl rfl) (by simp) ⟨_, _, rfl, by decide⟩ (by simp; omega)
  simp only [List.length_nil] at h6
  obtain ⟨ws, k', e1, e2, e3, e4, e5⟩ := step_gap (j1 := t.length + 2) loopFn_array h4 x k (lead_x h3)
    (fun _ => head_append (gap_head_ne h4) (fun _ => by simp)) h5 (by omega)
  have hdone : arrayItems ((b!"[" ++ (t ++ b!"]")) ++ post) k (t.length + 2) = .ok [] := by
    rw [e1]
    by_cases hw : ws = []
    · subst hw
      simp only [List.length_nil] at e5
      exact arrayItems_done (by omega)
    · have := List.length_pos_iff.2 hw
      have hc : ∃ h, nextToken ((b!"[" ++ (t ++ b!"]")) ++ post) k' = (h, k' + ws.length, none) := by
        unfold nextToken
        rw [e4]
        obtain ⟨h', e⟩ := scan_lead _ (93 :: post) e2 (by simp) k' k'
        rw [e]
        exact ⟨h', rfl⟩
      obtain ⟨h', hc⟩ := hc
      rw [arrayItems_none (by omega) hc (by omega)]
      exact arrayItems_done (by omega)
  rw [h2, hdone]
  simp only [Except.map, List.append_nil]
  rw [replaceRef_toks h1 (SpellsAll.wf hs)]

theorem inLine_head {inA : Bool} {d : List (Bytes × Obj)} {t : Bytes} (hs : SpellsAll true inA (inLine d) t)
    (hk : ∀ p ∈ d, isName p.1 = true) : t.head? ≠ some 60 := by
  have hgap : ∀ {g b : Bytes}, Gap true inA g → b.head? ≠ some 60 → (g ++ b).head? ≠ some 60 := by
    intro g b hg hb
    rcases gap_head hg with rfl | ⟨c, r, rfl, rfl | h⟩
    · exact hb
    · simp
    · have := (isSpace_facts h).2.2.1
      simpa using this
  cases d with
  | nil =>
    cases hs with
    | nil hg => have := hgap (b := []) hg (by simp); simpa using this
  | cons p d =>
    obtain ⟨k, v⟩ := p
    have hk := hk (k, v) (by simp)
    cases hs with
    | cons hg h1 h2 _ =>
      refine hgap hg ?_
      cases h1 with
      | name h =>
        cases k with
        | nil => simp [isName] at h
        | cons c k =>
          simp only [isName, Bool.and_eq_true, decide_eq_true_eq] at h
          simp [h.1]
      | keyword h =>
        cases k with
        | nil => simp [isName] at hk
        | cons c k =>
          simp only [isName, Bool.and_eq_true, decide_eq_true_eq] at hk
          simp [hk.1]

/-- The items of a dictionary, when the token ends at the end of the text or one byte before. -/
theorem parse_angles {inA : Bool} {d : List (Bytes × Obj)} {t : Bytes} (hs : SpellsAll true inA (inLine d) t)
    (hn : (d.map Prod.fst).Nodup)
    (hr : Reads true inA (inLine d) t) {text r : Bytes} {j1 : Nat} (e : nextToken text 0 = (0, j1, some .dict))
    (hns : (nextToken text j1).2.2 ≠ some .stream) (hd : text.drop 2 = t ++ 62 :: r)
    (hr62 : r = [] ∨ r.head? = some 62)     (hj : j1 = t.length + 3 ∨ (j1 = t.length + 4 ∧ r.head? = some 62)) :
    parseObj text 0 = .ok (.dict (normEntries d).reverse) := by
  rw [parseObj_dict e hns]
  obtain ⟨ts, k, x, g, h1, h2, h3, h4, h5, h6⟩ := hr dictItems loopFn_dict text (62 :: r) [] 2 j1 (.inl rfl) hd
    ⟨_, _, rfl, by decide⟩ (by simp only [List.length_nil]; omega)
  simp only [List.length_nil, Nat.add_zero] at h6
  -- the end of the text of the items
  have hP : text.drop (2 + t.length) = 62 :: r := drop_add_of hd
  have hfin : dictItems text (2 + t.length) j1 = .ok [] := by
    rcases hj with hj | ⟨hj, hr0⟩
    · exact dictItems_done (by omega)
    · cases r with
      | nil => simp at hr0
      | cons c r =>
        simp only [List.head?_cons, Option.some.injEq] at hr0
        subst hr0
        obtain ⟨h', e2⟩ := nextToken_close_dict (ws := []) (by simp) (show text.drop (2 + t.length) = [] ++ (62 :: 62 :: r) from hP)
        simp only [List.length_nil, Nat.add_zero] at e2
        rw [dictItems_none (by omega) e2 (by omega)]
        exact dictItems_done (by omega)
  have hdone : dictItems text k j1 = .ok [] := by
    by_cases hx : x = [62] ∧ g = []
    · obtain ⟨rfl, rfl⟩ := hx
      simp only [List.length_cons, List.length_nil] at h6
      obtain ⟨h', e2⟩ := nextToken_close_dict (ws := []) (by simp) (show text.drop k = [] ++ (62 :: 62 :: r) from h5)
      simp only [List.length_nil, Nat.add_zero] at e2
      rw [dictItems_none (by omega) e2 (by omega), show k + 1 = 2 + t.length by omega, hfin]
    · obtain ⟨ws, k', e1, e2, e3, e4, e5⟩ := step_gap (j1 := j1) loopFn_dict h4 x k (lead_x h3)
        (fun hx' => by
          have hg0 : g ≠ [] := fun hg => hx ⟨hx', hg⟩
          exact head_append (gap_head_ne h4) (fun h => absurd h hg0)) h5 (by omega)
      rw [e1]
      by_cases hw : ws = []
      · subst hw
        simp only [List.length_nil] at e5
        rw [show k' = 2 + t.length by omega, hfin]
      · have hl := List.length_pos_iff.2 hw
        have hc : ∃ h, nextToken text k' = (h, k' + ws.length + 1, none) := by
          unfold nextToken
          rw [e4]
          have hne : ws ≠ [62] := fun h => by simpa using e3 h
          obtain ⟨h', e⟩ := scan_lead text (62 :: r) e2 (fun h => absurd h hne) k' k'
          rw [e]
          cases r with
          | nil => exact ⟨k' + ws.length, by rw [scan_angle _ _ _ _ (by simp)]; rfl⟩
          | cons c r =>
            by_cases hc : c = 62
            · subst hc
              exact ⟨h', by simp [tokLoop, tokStep, startsWith, List.isPrefixOf]⟩
            · simp [hc] at hr62
        obtain ⟨h', hc⟩ := hc
        rw [dictItems_none (by omega) hc (by omega)]
        exact dictItems_done (by omega)
  rw [h2, hdone]
  simp only [Except.map, List.append_nil]
  rw [replaceRef_toks h1 (SpellsAll.wf hs), inLine_eq, normItems_interleave]
  simp only
  rw [pairUp_entries d hn]

/-- The tokens and the parse of the text of a dictionary. -/
theorem dict_tokens {inA : Bool} {d : List (Bytes × Obj)} {t : Bytes} (hs : SpellsAll true inA (inLine d) t)
    (hk : ∀ p ∈ d, isName p.1 = true) (hn : (d.map Prod.fst).Nodup) (hr : Reads true inA (inLine d) t) :
    ∃ tok x, b!"<<" ++ (t ++ b!">>") = tok ++ x ∧ (x = [] ∨ x = [62]) ∧ (∀ post, TokAt tok post .dict) ∧
      parseObj tok 0 = .ok (.dict (normEntries d).reverse) ∧
      ∀ post, (nextToken (x ++ post) 0).2.2 ≠ some .stream →
        parseObj ((b!"<<" ++ (t ++ b!">>")) ++ post) 0 = .ok (.dict (normEntries d).reverse) := by
  obtain ⟨a, x, rfl, hx, hT⟩ := tokAt_angles (SpellsAll.pass hs rfl) (inLine_head hs hk)
  have hnext : ∀ post, nextToken ((b!"<<" ++ (a ++ b!">>")) ++ post) 0 = (0, a.length + 4, some .dict) := by
    intro post
    have := nextToken_at (text := (b!"<<" ++ (a ++ b!">>")) ++ post) (ws := []) (i := 0) (hT post) (by simp) rfl
    rw [this]; simp
  have hafter : ∀ post, (nextToken ((b!"<<" ++ (a ++ b!">>")) ++ post) (a.length + 4)).2.2 = (nextToken post 0).2.2 := by
    intro post
    have := nextToken_shift (b!"<<" ++ (a ++ b!">>")) post 0
    rw [show (b!"<<" ++ (a ++ b!">>")).length + 0 = a.length + 4 by simp] at this
    rw [this]; rfl
  have hsplit : b!"<<" ++ (a ++ x ++ b!">>") = (b!"<<" ++ (a ++ b!">>")) ++ x := by
    rcases hx with rfl | rfl <;> simp
  refine ⟨_, x, hsplit, hx, hT, ?_, ?_⟩
  · have h0 := hnext []
    have h1 := hafter []
    rw [List.append_nil] at h0 h1
    refine parse_angles hs hn hr h0 (by rw [h1]; decide) (r := if x = [] then [62] else []) ?_ ?_ ?_
    · rcases hx with rfl | rfl <;> simp
    · rcases hx with rfl | rfl <;> simp
    · rcases hx with rfl | rfl <;> simp
  · intro post hns
    rw [hsplit, List.append_assoc]
    refine parse_angles hs hn hr (hnext _) (by rw [hafter]; exact hns) (r := 62 :: post) ?_ (.inr rfl) ?_
    · rcases hx with rfl | rfl <;> simp
    · rcases hx with rfl | rfl <;> simp

mutual
theorem Spells.elem : ∀ {inD inA : Bool} {o : Obj} {s : Bytes}, Spells inD inA o s → (∀ g n, o ≠ .ref g n) → Elem o s
  | _, _, _, _, .true, _ => ⟨_, [], (List.append_nil _).symm, .inl rfl, fun post hp => by
      obtain ⟨c, r, rfl, hc⟩ := hp.resolve_left (by simp [selfEnded])
      exact tokAt_true hc r, rfl⟩
  | _, _, _, _, .false, _ => ⟨_, [], (List.append_nil _).symm, .inl rfl, fun post hp => by
      obtain ⟨c, r, rfl, hc⟩ := hp.resolve_left (by simp [selfEnded])
      exact tokAt_false hc r, rfl⟩
  | _, _, _, _, .int h, _ => ⟨_, [], (List.append_nil _).symm, .inl rfl, fun post hp => by
      obtain ⟨c, r, rfl, hc⟩ := hp.resolve_left (by simp [selfEnded])
      exact tokAt_intText h hc r, dedicated_int h⟩
  | _, _, _, _, .real h, _ => ⟨_, [], (List.append_nil _).symm, .inl rfl, fun post hp => by
      obtain ⟨c, r, rfl, hc⟩ := hp.resolve_left (by simp [selfEnded])
      exact tokAt_realText h hc r, by simp [tokType, dedicatedType, pyFloat_text h, norm]⟩
  | _, _, _, _, .name h, _ => ⟨_, [], (List.append_nil _).symm, .inl rfl, fun post hp => by
      obtain ⟨c, r, rfl, hc⟩ := hp.resolve_left (by simp [selfEnded])
      simp only [tokType, h, if_true]
      exact tokAt_name h hc r, by simp [tokType, dedicatedType, h, name_ascii h, norm]⟩
  | _, _, _, _, .keyword (s := s) h, _ => by
    have hn : isName s = false := by
      cases s with
      | nil => rfl
      | cons c s =>
        simp only [isKeyword, Bool.and_eq_true, decide_eq_true_eq] at h
        have := h.1.1.1.1.1
        simp only [isName, Bool.and_eq_false_imp, decide_eq_true_eq]
        rintro rfl
        exact absurd this (by decide)
    refine ⟨_, [], (List.append_nil _).symm, .inl rfl, fun post hp => ?_, ?_⟩
    · obtain ⟨c, r, rfl, hc⟩ := hp.resolve_left (by simp [selfEnded])
      simp only [tokType, hn]
      exact tokAt_keyword h hc r
    · simp [tokType, dedicatedType, hn, keyword_ascii h, norm]
  | _, _, _, _, .literal h _ _, _ => ⟨_, [], (List.append_nil _).symm, .inl rfl, fun post _ => tokAt_literal h _,
      by simp [tokType, dedicatedType, norm]⟩
  | _, _, _, _, .hex h, _ => ⟨_, [], (List.append_nil _).symm, .inl rfl, fun post _ => tokAt_hex h _,
      by simp [tokType, dedicatedType, norm]⟩
  | _, _, _, _, .ref _ _ _ _ _ _ _, hr => absurd rfl (hr _ _)
  | _, _, _, _, .array h, _ => by
    refine ⟨_, [], (List.append_nil _).symm, .inl rfl, fun post _ => tokAt_bracketed (SpellsAll.atrans h rfl) _, ?_⟩
    have := parse_brackets h (SpellsAll.reads h) []
    rw [List.append_nil] at this
    simpa [tokType, norm] using this
  | _, _, _, _, .dict h hk hn, _ => by
    obtain ⟨tok, x, h1, h2, h3, h4, _⟩ := dict_tokens h hk hn (SpellsAll.reads h)
    exact ⟨tok, x, h1, h2, fun post _ => h3 _, by simpa [tokType, norm] using h4⟩
theorem SpellsAll.reads : ∀ {inD inA : Bool} {l : List Obj} {t : Bytes}, SpellsAll inD inA l t → Reads inD inA l t
  | _, _, _, _, .nil hg => reads_nil hg
  | _, _, _, _, .cons (o := o) hg h1 h2 hsep => by
    by_cases ho : ∀ g n, o ≠ .ref g n
    · exact reads_obj hg h1 ho (Spells.elem h1 ho) hsep (SpellsAll.reads h2)
    · have : ∃ g n, o = .ref g n := by
        cases o <;> simp at ho ⊢
      obtain ⟨g, n, rfl⟩ := this
      have ih := SpellsAll.reads h2
      cases h1 with
      | ref a b c d e f g => exact reads_ref hg a d e b f g (hsep.resolve_left (by simp [selfEnded])) ih
end

/-- The parser on the text of an object, wherever it is. -/
theorem parse_spells {inD inA : Bool} {o : Obj} {s : Bytes} (h : Spells inD inA o s) (hr : ∀ g n, o ≠ .ref g n) (pre post : Bytes)
    (hpost : selfEnded o = true ∨ ∃ c r, post = c :: r ∧ isBreak c = true)
    (hns : (∃ d, o = .dict d) → NoStreamNext post) : parseObj (pre ++ (s ++ post)) pre.length = .ok (norm o) := by
  have := parseObj_shift pre (s ++ post) 0
  rw [Nat.add_zero] at this
  rw [this]
  have he := Spells.elem h hr
  by_cases hd : ∃ d, o = .dict d
  · obtain ⟨d, rfl⟩ := hd
    cases h with
    | dict h hk hn =>
      obtain ⟨tok, x, h1, h2, _, _, h5⟩ := dict_tokens h hk hn (SpellsAll.reads h)
      refine h5 post ?_
      have hns := hns ⟨d, rfl⟩
      refine noStreamNext ?_
      rcases h2 with rfl | rfl
      · exact hns
      · intro gap rest hg he
        cases gap with
        | nil => simp at he
        | cons c gap =>
          simp only [List.cons_append, List.nil_append, List.append_assoc, List.cons.injEq] at he
          exact hns gap rest (fun y hy => hg y (by simp [hy])) (by rw [he.2]; simp)
  · by_cases hl : ∃ l, o = .list l
    · obtain ⟨l, rfl⟩ := hl
      cases h with
      | array h => exact parse_brackets h (SpellsAll.reads h) post
    · obtain ⟨tok, x, rfl, hx, hT, hv⟩ := he
      have hT := hT post hpost
      have e := nextToken_at (text := tok ++ (x ++ post)) (ws := []) (i := 0) hT (by simp) rfl
      have hne : tokType o ≠ .dict ∧ tokType o ≠ .array ∧ tokType o ≠ .stream ∧ tokType o ≠ .comment := by
        cases o <;> simp [tokType] at hd hl ⊢ <;> split <;> simp
      rw [List.append_assoc, parseObj_atom e hne]
      rw [if_neg (by simp [hne.1, hne.2.1])] at hv
      rw [slice_of_drop (post := x ++ post) (by simp)]
      exact hv

end Pdf
