/-
Reading the object streams of any program (`Spec/FileText.lean`).
-/
import Verif.Lemmas.FileStream
import Verif.Lemmas.ObjStm

namespace Pdf
open Spec

set_option linter.unusedSectionVars false

variable [Zlib]

/-- The parser on the text of an object, when what follows is not the data of a stream. -/
theorem parse_spells_next {inD inA : Bool} {o : Obj} {s : Bytes} (h : Spells inD inA o s) (hr : ∀ g n, o ≠ .ref g n) (pre post : Bytes)
    (hpost : selfEnded o = true ∨ ∃ c r, post = c :: r ∧ isBreak c = true)
    (hns : ∀ x, (x = [] ∨ x = [62]) → (nextToken (x ++ post) 0).2.2 ≠ some .stream) :
    parseObj (pre ++ (s ++ post)) pre.length = .ok (norm o) := by
  by_cases hd : ∃ d, o = .dict d
  · obtain ⟨d, rfl⟩ := hd
    have := parseObj_shift pre (s ++ post) 0
    rw [Nat.add_zero] at this
    rw [this]
    cases h with
    | dict h hk hn =>
      obtain ⟨tok, x, h1, h2, _, _, h5⟩ := dict_tokens h hk hn (SpellsAll.reads h)
      exact h5 post (hns x h2)
  · exact parse_spells h hr pre post hpost fun h => absurd h hd

theorem lead_white {x w : Bytes} (hx : x = [] ∨ x = [62]) (hw : ∀ c ∈ w, c ∈ white) : Lead (x ++ w) :=
  ⟨x, w, rfl, hx, fun c hc => isSpace_of_white (hw c hc)⟩

/-- A text after which nothing remains. -/
theorem nextToken_nothing {text ws : Bytes} {i : Nat} (hws : Lead ws) (hd : text.drop i = ws) :
    ∃ h', nextToken text i = (h', i + ws.length, none) := by
  obtain ⟨h', e⟩ := scan_lead text [] hws (by simp) i i
  refine ⟨h', ?_⟩
  unfold nextToken
  rw [hd]
  rw [List.append_nil] at e
  rw [e]
  simp [tokLoop]

theorem white_break {w t : Bytes} (hw : ∀ c ∈ w, c ∈ white) (hne : w ≠ []) : ∃ c r, w ++ t = c :: r ∧ isBreak c = true := by
  cases w with
  | nil => exact absurd rfl hne
  | cons c w =>
    have hwb : ∀ y ∈ white, isBreak y = true := by decide
    exact ⟨c, _, rfl, hwb c (hw c (by simp))⟩

theorem body_next {k : Nat} {l : List Obj} {offs : List Nat} {t : Bytes} (h : BodyText k l offs t) {x w : Bytes} (hx : x = [] ∨ x = [62])
    (hw : ∀ c ∈ w, c ∈ white) : (nextToken (x ++ (w ++ t)) 0).2.2 ≠ some .stream := by
  cases h with
  | nil =>
    obtain ⟨h', e⟩ := nextToken_nothing (text := x ++ (w ++ [])) (i := 0) (lead_white hx hw) (by simp)
    rw [e]
    simp
  | @cons _ o l offs s w' t' hs hr hw' hend hb =>
    obtain ⟨tok, x', rfl, hx', hT, -⟩ := Spells.elem hs hr
    have hT := hT (w' ++ t') (by
      rcases hend with h | h
      · exact .inr (white_break hw' h)
      · exact .inl h)
    have hne := lead_elim hs (w' ++ t')
    rw [List.append_assoc] at hne
    have e := nextToken_lead (text := x ++ (w ++ (tok ++ x' ++ (w' ++ t')))) (i := 0) hT (lead_white hx hw) (fun _ => hne) (by simp)
    rw [e]
    cases o <;> simp [tokType] <;> split <;> simp

theorem body_tokens {text : Bytes} : ∀ {k : Nat} {l : List Obj} {offs : List Nat} {t : Bytes}, BodyText k l offs t →
    ∀ (ws : Bytes) (i fuel : Nat), Lead ws → text.drop i = ws ++ t → i + ws.length = k →
    ∃ ws' j, tokenStarts text (fuel + l.length) i = (tokenStarts text fuel j).map (offs ++ ·) ∧ text.drop j = ws' ∧ Lead ws' := by
  intro k l offs t h
  induction h with
  | nil =>
    intro ws i fuel hws hd hi
    refine ⟨ws, i, ?_, by simpa using hd, hws⟩
    simp only [List.length_nil, Nat.add_zero]
    cases tokenStarts text fuel i <;> rfl
  | @cons k o l offs s w t hs hr hw hend hb ih =>
    intro ws i fuel hws hd hi
    obtain ⟨tok, x', hsx, hx', hT, -⟩ := Spells.elem hs hr
    have hT := hT (w ++ t) (by
      rcases hend with h | h
      · exact .inr (white_break hw h)
      · exact .inl h)
    have hne := lead_elim hs (w ++ t)
    rw [hsx, List.append_assoc] at hne
    have hd0 : text.drop i = ws ++ (tok ++ (x' ++ (w ++ t))) := by rw [hd, hsx]; simp
    have e := nextToken_lead hT hws (fun _ => hne) hd0
    have hd1 : text.drop (i + ws.length + tok.length) = (x' ++ w) ++ t := by
      rw [drop_add_of (drop_add_of hd0)]; simp
    obtain ⟨ws', j, h1, h2, h3⟩ := ih (x' ++ w) (i + ws.length + tok.length) fuel (lead_white hx' hw) hd1 (by
      rw [hsx]
      simp only [List.length_append]
      omega)
    refine ⟨ws', j, ?_, h2, h3⟩
    have hlt : i < text.length := by
      have := congrArg List.length hd
      have hsn := List.length_pos_iff.2 (spells_head hs).1
      simp only [List.length_drop, List.length_append] at this
      omega
    rw [List.length_cons, show fuel + (l.length + 1) = (fuel + l.length) + 1 by omega]
    simp only [tokenStarts, hlt, if_true, e, h1]
    rw [hi]
    cases tokenStarts text fuel j <;> rfl

theorem tokenStarts_lead {text ws : Bytes} {i fuel : Nat} (hws : Lead ws) (hd : text.drop i = ws) :
    ∃ extra, tokenStarts text (fuel + 2) i = .ok extra ∧ extra.length ≤ 1 := by
  unfold tokenStarts
  split
  · obtain ⟨h', en⟩ := nextToken_nothing hws hd
    have hl : i + ws.length = text.length := by
      have := congrArg List.length hd
      simp at this
      omega
    simp only [en, hl]
    have : tokenStarts text (fuel + 1) text.length = .ok [] := by
      simp [tokenStarts]
    rw [this]
    exact ⟨[h'], rfl, by simp⟩
  · exact ⟨[], rfl, by simp⟩

theorem body_length {k : Nat} {l : List Obj} {offs : List Nat} {t : Bytes} (h : BodyText k l offs t) :
    offs.length = l.length ∧ l.length ≤ t.length := by
  induction h with
  | nil => simp
  | cons hs hr hw hend hb ih =>
    have hsn := List.length_pos_iff.2 (spells_head hs).1
    simp only [List.length_cons, List.length_append]
    omega

theorem body_at {k : Nat} {l : List Obj} {offs : List Nat} {t : Bytes} (h : BodyText k l offs t) :
    ∀ {x : Nat} {o : Obj}, l[x]? = some o → ∀ pre : Bytes, pre.length = k → ∃ p : Nat, offs[x]? = some p ∧ parseObj (pre ++ t) p = .ok (norm o) := by
  induction h with
  | nil => intro x o hx; simp at hx
  | @cons k o l offs s w t hs hr hw hend hb ih =>
    intro x o' hx pre hpre
    cases x with
    | zero =>
      simp only [List.getElem?_cons_zero, Option.some.injEq] at hx
      subst hx
      refine ⟨k, by simp, ?_⟩
      rw [← hpre]
      refine parse_spells_next hs hr pre (w ++ t) ?_ fun x hx => body_next hb hx hw
      rcases hend with h | h
      · exact .inr (white_break hw h)
      · exact .inl h
    | succ x =>
      simp only [List.getElem?_cons_succ] at hx ⊢
      obtain ⟨p, h1, h2⟩ := ih hx (pre ++ (s ++ w)) (by simp [hpre]; omega)
      refine ⟨p, h1, ?_⟩
      rw [← h2]
      simp

theorem body_append {k : Nat} {l l' : List Obj} {offs offs' : List Nat} {t t' : Bytes} (h : BodyText k l offs t)
    (h' : BodyText (k + t.length) l' offs' t') : BodyText k (l ++ l') (offs ++ offs') (t ++ t') := by
  induction h with
  | nil => simpa using h'
  | @cons k o l offs s w t hs hr hw hend hb ih =>
    simp only [List.cons_append, List.append_assoc]
    refine .cons hs hr hw hend (ih ?_)
    rw [show k + s.length + w.length + t.length = k + (s ++ (w ++ t)).length by simp; omega]
    exact h'

theorem body_shift {k : Nat} {l : List Obj} {offs : List Nat} {t : Bytes} (h : BodyText k l offs t) (d : Nat) :
    BodyText (d + k) l (offs.map (d + ·)) t := by
  induction h with
  | nil => exact .nil
  | @cons k o l offs s w t hs hr hw hend hb ih =>
    refine .cons hs hr hw hend ?_
    rw [show d + k + s.length + w.length = d + (k + s.length + w.length) by omega]
    exact ih

/-- The numbers of a header. -/
def pairItems (l : List (Nat × Nat)) : List Obj := l.flatMap fun x => [.int x.1, .int x.2]

theorem head_body : ∀ {l : List (Nat × Nat)} {t : Bytes}, HeadText l t → ∀ k, ∃ offs, BodyText k (pairItems l) offs t := by
  intro l t h
  induction h with
  | nil => exact fun k => ⟨[], .nil⟩
  | @cons n m l x y w1 w2 t hx hy hw h1 h2 hb ih =>
    intro k
    obtain ⟨offs, ho⟩ := ih (k + x.length + w1.length + y.length + w2.length)
    exact ⟨_, .cons (.int (natText_int hx)) (by simp) (fun c hc => hw c (by simp [hc])) (.inl h1)
      (.cons (.int (natText_int hy)) (by simp) (fun c hc => hw c (by simp [hc])) (.inl h2) ho)⟩

theorem head_spells : ∀ {l : List (Nat × Nat)} {t : Bytes}, HeadText l t → ∀ w : Bytes, (∀ c ∈ w, c ∈ white) →
    SpellsAll false true (pairItems l) (w ++ t) := by
  have gap : ∀ {w : Bytes}, (∀ c ∈ w, c ∈ white) → Gap false true w := by
    intro w hw
    induction w with
    | nil => exact .nil
    | cons c w ih => exact .white (hw c (by simp)) (ih fun x hx => hw x (by simp [hx]))
  have ends : ∀ {w t : Bytes}, (∀ c ∈ w, c ∈ white) → w ≠ [] → ∃ c r, w ++ t = c :: r ∧ Ends c := by
    intro w t hw hne
    cases w with
    | nil => exact absurd rfl hne
    | cons c w => exact ⟨c, _, rfl, .inl (hw c (by simp))⟩
  intro l t h
  induction h with
  | nil => intro w hw; rw [List.append_nil]; exact .nil (gap hw)
  | @cons n m l x y w1 w2 t hx hy hw h1 h2 hb ih =>
    intro w hw0
    have hw1 : ∀ c ∈ w1, c ∈ white := fun c hc => hw c (by simp [hc])
    have hw2 : ∀ c ∈ w2, c ∈ white := fun c hc => hw c (by simp [hc])
    exact .cons (gap hw0) (.int (natText_int hx))
      (.cons (gap hw1) (.int (natText_int hy)) (ih w2 hw2) (.inr (.inr (ends hw2 h2)))) (.inr (.inr (ends hw1 h1)))

theorem oddPlus_pairs (offset : Int) : ∀ l : List (Nat × Nat), oddPlus offset (pairItems l) = .ok (l.map fun x => (x.2 : Int) + offset)
  | [] => rfl
  | x :: l => by
    have := oddPlus_pairs offset l
    simp only [pairItems, List.flatMap_cons, List.cons_append, List.nil_append, oddPlus] at this ⊢
    rw [this]
    rfl

theorem head_length {l : List (Nat × Nat)} {t : Bytes} (h : HeadText l t) : 4 * l.length ≤ t.length := by
  induction h with
  | nil => simp
  | @cons n m l x y w1 w2 t hx hy hw h1 h2 hb ih =>
    have a1 := List.length_pos_iff.2 hx.2.1
    have a2 := List.length_pos_iff.2 hy.2.1
    have a3 := List.length_pos_iff.2 h1
    have a4 := List.length_pos_iff.2 h2
    simp only [List.length_cons, List.length_append]
    omega

theorem pairItems_even : ∀ (l : List (Nat × Nat)) (x : Nat) {q : Nat × Nat}, l[x]? = some q → (pairItems l)[2 * x]? = some (.int q.1)
  | [], x, q, h => by simp at h
  | y :: l, 0, q, h => by
    simp only [List.getElem?_cons_zero, Option.some.injEq] at h
    subst h
    rfl
  | y :: l, x + 1, q, h => by
    simp only [List.getElem?_cons_succ] at h
    have := pairItems_even l x h
    rw [show 2 * (x + 1) = 2 * x + 1 + 1 by omega]
    simpa [pairItems] using this

/-- The objects of an object stream. -/
theorem objStm_text {objs : List (Nat × Obj)} {d : List (Bytes × Obj)} {content : Bytes} (h : ObjStmText objs d content)
    (hnd : (d.map Prod.fst).Nodup) (enc : Bytes) : ∃ members, parseObjectStream (.stream (normEntries d).reverse content enc) = .ok members ∧
      members.map (fun m => (m.num, m.obj)) = objs.map fun x => (.int x.1, norm x.2) := by
  obtain ⟨head, body, offs, rfl, hne, hh, hb, hf, hn⟩ := h
  have hf' : Dict.get? (normEntries d).reverse b!"/First" = some (.int head.length) := by rw [get?_norm hnd, hf]; rfl
  have hn' : Dict.get? (normEntries d).reverse b!"/N" = some (.int objs.length) := by rw [get?_norm hnd, hn]; rfl
  obtain ⟨ho1, ho2⟩ := body_length hb
  rw [List.length_map] at ho1 ho2
  have hz : ((objs.map Prod.fst).zip offs).length = objs.length := by simp [ho1]
  obtain ⟨hoffs, hhb⟩ := head_body hh 0
  obtain ⟨hl1, hl2⟩ := body_length hhb
  have hpl : (pairItems ((objs.map Prod.fst).zip offs)).length = 2 * objs.length := by
    generalize (objs.map Prod.fst).zip offs = z at hz
    rw [← hz]
    clear hz
    induction z with
    | nil => rfl
    | cons q z ih => simp only [pairItems, List.flatMap_cons, List.length_append, List.length_cons, List.length_nil] at ih ⊢; omega
  have hall := body_append hhb (body_shift hb head.length |> fun h => by simpa using h)
  generalize htoks : hoffs ++ offs.map (head.length + ·) = starts at hall
  have hN : 0 < objs.length := List.length_pos_iff.2 hne
  have hlen : starts.length = 3 * objs.length := by rw [← htoks]; simp [hl1, hpl, ho1]; omega
  obtain ⟨fuel, hfuel⟩ : ∃ fuel, (head ++ body).length + 1 = (fuel + 2) + (pairItems ((objs.map Prod.fst).zip offs) ++ objs.map Prod.snd).length := by
    have := head_length hh
    refine ⟨(head ++ body).length + 1 - 2 - 3 * objs.length, ?_⟩
    simp only [List.length_append, List.length_map, hpl]
    omega
  obtain ⟨ws', j, t1, t2, t3⟩ := body_tokens (text := head ++ body) hall [] 0 (fuel + 2) ⟨[], [], rfl, .inl rfl, by simp⟩ (by simp) rfl
  obtain ⟨extra, x1, x2⟩ := tokenStarts_lead (fuel := fuel) t3 t2
  have htok : tokenStarts (head ++ body) ((head ++ body).length + 1) 0 = .ok (starts ++ extra) := by
    rw [hfuel, t1, x1]; rfl
  have hnb : (starts ++ extra).length / 3 = objs.length := by simp [hlen]; omega
  have hstarts : ∀ {y : Nat} {o : Obj}, (pairItems ((objs.map Prod.fst).zip offs) ++ objs.map Prod.snd)[y]? = some o →
      ∃ p : Nat, (starts ++ extra)[y]? = some p ∧ parseObj (head ++ body) p = .ok (norm o) := by
    intro y o hy
    obtain ⟨p, p1, p2⟩ := body_at hall hy [] rfl
    refine ⟨p, ?_, p2⟩
    rw [List.getElem?_append_left (List.getElem?_eq_some_iff.1 p1).1]
    exact p1
  have hy : parseObj (91 :: (head ++ body).take head.length ++ [93]) 0 = .ok (.list (pairItems ((objs.map Prod.fst).zip offs))) := by
    have hsp := head_spells hh [] (by simp)
    have := parse_spells (inD := false) (inA := false) (.array hsp) (by simp) [] [] (.inl rfl) (by simp)
    rw [List.take_left]
    simp only [List.nil_append, List.append_nil, List.length_nil] at this
    rw [show (91 :: head ++ [93] : Bytes) = 91 :: (head ++ [93]) by rfl,
      show (91 :: (head ++ [93]) : Bytes) = [91] ++ (head ++ [93]) from rfl, this, norm, normItems_int]
    intro o ho
    simp only [pairItems, List.mem_flatMap] at ho
    obtain ⟨q, -, hq⟩ := ho
    simp only [List.mem_cons, List.not_mem_nil, or_false] at hq
    rcases hq with h | h <;> exact ⟨_, h⟩
  have hy2 := oddPlus_pairs head.length ((objs.map Prod.fst).zip offs)
  generalize (((objs.map Prod.fst).zip offs).map fun x => (x.2 : Int) + head.length) = ypos at hy2
  have hobj : ∀ (x : Nat) (q : Nat × Obj), objs[x]? = some q → ∃ e : Embedded,
      embeddedAt (head ++ body) (starts ++ extra) objs.length ypos x = .ok e ∧ e.num = .int q.1 ∧ e.obj = norm q.2 := by
    intro x q hq
    have hx : x < objs.length := (List.getElem?_eq_some_iff.1 hq).1
    have hxo : x < offs.length := by omega
    obtain ⟨p, p1, p2⟩ := hstarts (y := 2 * x) (o := .int q.1) (by
      rw [List.getElem?_append_left (by rw [hpl]; omega)]
      exact pairItems_even _ x (q := (q.1, offs[x])) (by
        rw [List.getElem?_zip_eq_some]
        exact ⟨by simp [hq], by simp⟩))
    obtain ⟨p', q1, q2⟩ := hstarts (y := 2 * objs.length + x) (o := q.2) (by
      rw [List.getElem?_append_right (by rw [hpl]; omega), hpl]
      simp [hq])
    unfold embeddedAt
    rw [p1, q1]
    simp only [orRaise, bind, Except.bind, p2, q2]
    exact ⟨_, rfl, rfl, rfl⟩
  have hb0 : ∃ z, (starts ++ extra)[2 * objs.length]? = some z := by
    refine ⟨_, List.getElem?_eq_getElem (i := 2 * objs.length) ?_⟩
    rw [List.length_append, hlen]
    omega
  obtain ⟨z, hz0⟩ := hb0
  obtain ⟨members, hm1, hm2⟩ : ∃ members, (List.range objs.length).mapM (embeddedAt (head ++ body) (starts ++ extra) objs.length ypos) = .ok members ∧
      members.map (fun m => (m.num, m.obj)) = objs.map fun x => (.int x.1, norm x.2) := by
    let g := fun x => okD ⟨.null, .null, none, 0⟩ (embeddedAt (head ++ body) (starts ++ extra) objs.length ypos x)
    have hm := mapM_ok (embeddedAt (head ++ body) (starts ++ extra) objs.length ypos) g (List.range objs.length) (by
      intro x hx
      obtain ⟨e, he, -⟩ := hobj x _ (List.getElem?_eq_getElem (List.mem_range.1 hx))
      simp only [g, he, okD])
    refine ⟨_, hm, List.ext_getElem (by simp) fun x h1 h2 => ?_⟩
    have hx : x < objs.length := by simpa using h2
    obtain ⟨e, he, e1, e2⟩ := hobj x _ (List.getElem?_eq_getElem hx)
    simp [g, he, okD, e1, e2]
  refine ⟨members, ?_, hm2⟩
  simp only [parseObjectStream, hf', hn', orRaise, bind, Except.bind, intOf, htok, hnb, hz0, hy, hy2, Int.toNat_natCast, hm1]
  simp

end Pdf
