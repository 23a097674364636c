/-
What is seen of the objects in the page that shows a file.
-/
import Verif.Spec.Visible
import Verif.Spec.Spelling
import Verif.Lemmas.FollowMarkup
import Verif.Lemmas.Spelling
import Verif.Lemmas.PyEq
import Verif.Lemmas.Reload

namespace Pdf
open Spec

/-- The markup `h` shows `t`, whatever follows. -/
def View (h t : Bytes) : Prop := ∀ rest, visible (h ++ rest) = t ++ visible rest

theorem View.nil : View [] [] := fun _ => rfl

theorem View.append {a b s t : Bytes} (h : View a s) (h' : View b t) : View (a ++ b) (s ++ t) := by
  intro rest
  rw [List.append_assoc, h, h', List.append_assoc]

theorem View.all {h t : Bytes} (hv : View h t) : visible h = t := by
  have := hv []
  simpa [visible, untag, unentity] using this

theorem View.of_eq {a b t : Bytes} (h : View b t) (e : a = b) : View a t := e ▸ h

theorem unentity_cons {c : UInt8} (hc : c ≠ 38) (s : Bytes) : unentity (c :: s) = c :: unentity s := by
  conv => lhs; unfold unentity
  split <;> simp_all

theorem view_char {c : UInt8} (h : c ≠ 60 ∧ c ≠ 38) : View [c] [c] := by
  intro rest
  simp only [visible, List.cons_append, List.nil_append, untag, if_neg h.1, unentity_cons h.2]

theorem view_plain : ∀ {s : Bytes}, (∀ c ∈ s, c ≠ 60 ∧ c ≠ 38) → View s s
  | [], _ => .nil
  | c :: s, h => (view_char (h c (by simp))).append (view_plain fun d hd => h d (by simp [hd]))

theorem untag_true : ∀ {b : Bytes} (_ : ∀ c ∈ b, c ≠ 62) (rest : Bytes), untag true (b ++ 62 :: rest) = untag false rest
  | [], _, rest => by simp [untag]
  | c :: b, h, rest => by
    rw [List.cons_append, untag, if_neg (h c (by simp))]
    exact untag_true (fun d hd => h d (by simp [hd])) rest

theorem view_tag {b : Bytes} (h : ∀ c ∈ b, c ≠ 62) : View (60 :: (b ++ [62])) [] := by
  intro rest
  unfold visible
  rw [List.cons_append, List.append_assoc, List.singleton_append]
  conv => lhs; rw [untag, if_pos rfl, untag_true h]
  rfl

theorem htmlEscape_cons (c : UInt8) (s : Bytes) : htmlEscape (c :: s) = htmlEscape [c] ++ htmlEscape s := by
  simp [htmlEscape, replaceChar, List.flatMap_append]

theorem view_escape : ∀ s : Bytes, View (htmlEscape s) s
  | [] => .nil
  | c :: s => by
    rw [htmlEscape_cons]
    refine View.append (s := [c]) ?_ (view_escape s)
    by_cases h1 : c = 38
    · subst h1; intro rest; rfl
    by_cases h2 : c = 60
    · subst h2; intro rest; rfl
    by_cases h3 : c = 62
    · subst h3; intro rest; rfl
    by_cases h4 : c = 34
    · subst h4; intro rest; rfl
    by_cases h5 : c = 39
    · subst h5; intro rest; rfl
    · refine (view_char ⟨h2, h1⟩).of_eq ?_
      simp [htmlEscape, replaceChar, h1, h2, h3, h4, h5]

/-! ### Numbers -/

theorem natDec_text (n : Nat) : Digits (natDec n) ∧ numVal (natDec n) = n := by
  have h : Digits (natDec n) := fun c hc => (isDigit_iff c).1 (List.all_eq_true.1 (natDec_all n) c hc)
  have := digitsVal_numVal h
  rw [digitsVal_natDec] at this
  exact ⟨h, (Option.some.inj this).symm⟩

theorem intDec_text (n : Int) : IntText (intDec n) n := by
  unfold intDec
  split
  · rename_i m
    obtain ⟨h1, h2⟩ := natDec_text m
    exact ⟨[], false, natDec m, rfl, .none, h1, natDec_ne_nil m, by simp [h2]⟩
  · rename_i m
    obtain ⟨h1, h2⟩ := natDec_text (m + 1)
    exact ⟨b!"-", true, natDec (m + 1), rfl, .minus, h1, natDec_ne_nil _, by rw [h2]; rfl⟩

theorem realStr_text {neg : Bool} {ip : Nat} {frac : Bytes} (h : isDecimal ip frac = true) : RealText (realStr neg ip frac) neg ip frac := by
  obtain ⟨h1, h2⟩ := natDec_text ip
  have hf : Digits frac := by
    simp only [isDecimal, Bool.and_eq_true] at h
    intro c hc
    exact of_decide_eq_true (List.all_eq_true.1 h.1.1.1.1 c hc)
  refine ⟨if neg then b!"-" else [], natDec ip, if frac = [] then b!"0" else frac, if frac = [] then 1 else 0, ?_, ?_, h1, ?_, .inl (natDec_ne_nil ip), h2.symm, ?_, h⟩
  · unfold realStr
    rfl
  · cases neg
    · exact .none
    · exact .minus
  · split
    · intro c hc; revert hc; revert c; decide
    · exact hf
  · split
    · rename_i e; rw [e]; rfl
    · simp

/-! ### Scalars -/

theorem reprBytes_plain {s : Bytes} (h : ∀ c ∈ s, 32 ≤ c ∧ c < 127 ∧ c ≠ 92) (hq : ¬ (39 ∈ s ∧ 34 ∈ s)) :
    ((reprBytes s).drop 1).dropLast = s := by
  unfold reprBytes
  generalize hqq : (if 39 ∈ s ∧ 34 ∉ s then (34 : UInt8) else 39) = q
  have hne : ∀ c ∈ s, c ≠ q := by
    rintro c hc rfl
    split at hqq
    · rename_i h2; rw [← hqq] at hc; exact h2.2 hc
    · rename_i h2
      rw [← hqq] at hc
      exact h2 ⟨hc, fun h3 => hq ⟨hc, h3⟩⟩
  have : ∀ (t : Bytes), (∀ c ∈ t, (32 ≤ c ∧ c < 127 ∧ c ≠ 92) ∧ c ≠ q) → t.flatMap (fun c =>
      if c = q ∨ c = 92 then [92, c]
      else if c = 9 then b!"\\t" else if c = 10 then b!"\\n" else if c = 13 then b!"\\r"
      else if c < 32 ∨ 127 ≤ c then b!"\\x" ++ [hexLow (c.toNat / 16), hexLow (c.toNat % 16)]
      else [c]) = t := by
    intro t ht
    induction t with
    | nil => rfl
    | cons c t ih =>
      obtain ⟨⟨k1, k2, k3⟩, k4⟩ := ht c (by simp)
      have n1 := UInt8.le_iff_toNat_le.1 k1
      have n2 := UInt8.lt_iff_toNat_lt.1 k2
      have e9 : c ≠ 9 := by rintro rfl; revert k1; decide
      have e10 : c ≠ 10 := by rintro rfl; revert k1; decide
      have e13 : c ≠ 13 := by rintro rfl; revert k1; decide
      have e1 : ¬ c < 32 := UInt8.not_lt.2 k1
      have e2 : ¬ 127 ≤ c := UInt8.not_le.2 k2
      rw [List.flatMap_cons, ih fun d hd => ht d (by simp [hd])]
      simp [k3, k4, e9, e10, e13, e1, e2]
  simp only [this s fun c hc => ⟨h c hc, hne c hc⟩]
  simp

/-- The words that mark what is left out. -/
def Cut (s : Bytes) : Prop := truncated.raw <:+: s

theorem cut_append {a b : Bytes} (h : ¬ Cut (a ++ b)) : ¬ Cut a ∧ ¬ Cut b :=
  ⟨fun k => h (k.trans (List.infix_append [] a b |>.trans (by simp))), fun k => h (k.trans (List.suffix_append a b).isInfix)⟩

theorem scalar_view {inD inA : Bool} {o : Obj} {h : Html} (hw : WF inD inA o = true) (hl : Legible o) (e : scalarText o = .ok h)
    (hc : ¬ Cut h.raw) : ∃ t, View h.raw t ∧ Spells inD inA o t := by
  cases o with
  | int n => cases e; exact ⟨_, by rw [raw_txt]; exact view_escape _, .int (intDec_text n)⟩
  | real neg ip frac => cases e; exact ⟨_, by rw [raw_txt]; exact view_escape _, .real (realStr_text hw)⟩
  | str s =>
    cases e
    refine ⟨_, by rw [raw_txt]; exact view_escape _, ?_⟩
    simp only [WF, Bool.or_eq_true] at hw
    rcases hw with h | h
    · exact .name h
    · exact .keyword h
  | bytes s =>
    have hsp : Spells inD inA (.bytes s) s := by
      simp only [WF, Bool.or_eq_true, Bool.and_eq_true, Bool.not_eq_true'] at hw
      rcases hw with ⟨⟨h1, h2⟩, h3⟩ | h1
      · refine .literal h1 ?_ ?_
        · rintro rfl; simpa using h2
        · rintro rfl; simpa using h3
      · exact .hex h1
    simp only [scalarText] at e
    split at e
    · rename_i hp
      obtain ⟨k1, k2⟩ := hl hp
      by_cases hlen : 30 < s.length
      · rw [if_pos hlen, if_pos hlen] at e
        cases e
        rw [raw_append] at hc
        exact absurd (List.infix_refl _) (cut_append hc).2
      · rw [if_neg hlen, if_neg hlen, List.append_nil] at e
        cases e
        refine ⟨s, ?_, hsp⟩
        rw [raw_txt, reprBytes_plain k1 k2]
        exact view_escape s
    · split at e
      · cases e
        exact ⟨s, by rw [raw_txt]; exact view_escape _, hsp⟩
      · cases e
  | null => exact hl.elim
  | bool _ => exact hl.elim
  | _ => first | cases e | cases hl | cases hw

/-! ### References -/

theorem intDec_amp (n : Int) : ∀ c ∈ intDec n, c ≠ 60 ∧ c ≠ 38 := by
  intro c hc
  obtain ⟨sg, neg, ds, e, hs, hd, -, -⟩ := intDec_text n
  rw [e] at hc
  have key : ∀ c ∈ (b!"+-0123456789" : Bytes), c ≠ 60 ∧ c ≠ 38 := by decide
  refine key c ?_
  rcases List.mem_append.1 hc with hc | hc
  · cases hs <;> simp_all
  · have := hd c hc
    simp only [List.mem_cons, List.not_mem_nil, or_false] at this ⊢
    exact .inr (.inr this)

theorem white_is_gap {inD inA : Bool} : ∀ {g : Bytes}, (∀ c ∈ g, c ∈ white) → Gap inD inA g
  | [], _ => .nil
  | c :: g, h => .white (h c (by simp)) (white_is_gap fun d hd => h d (by simp [hd]))

theorem gap_append {inD inA : Bool} {a b : Bytes} (ha : Gap inD inA a) (hb : Gap inD inA b) : Gap inD inA (a ++ b) := by
  induction ha with
  | nil => exact hb
  | white h _ ih => exact .white h ih
  | comment h1 h2 h3 h4 _ ih => rw [List.cons_append, List.append_assoc, List.cons_append]; exact .comment h1 h2 h3 h4 ih

theorem ref_view [FloatText] {rev : Rev} {inD inA : Bool} {g n : Int} {h : Html} (hw : WF inD inA (.ref g n) = true) (e : refText rev g n = .ok h) :
    ∃ t, View h.raw t ∧ Spells inD inA (.ref g n) t := by
  simp only [WF, Bool.and_eq_true, decide_eq_true_eq] at hw
  obtain ⟨rfl, hn⟩ := hw
  refine ⟨intDec n ++ (b!" " ++ (intDec 0 ++ (b!" " ++ b!"R"))), ?_,
    .ref (intDec_text n) (intDec_text 0) hn (white_is_gap (by decide)) (by decide) (white_is_gap (by decide)) (by decide)⟩
  unfold refText at e
  split at e
  · cases e
  · simp only [bind, Except.bind] at e
    split at e
    · cases e
    · split at e
      · cases e
      · cases e
      · split at e
        · cases e
        · rename_i p hp
          cases e
          have v1 := view_tag (b := b!"a href=\"#idx" ++ (p ++ b!"\"")) (by
            intro c hc
            simp only [List.mem_append] at hc
            rcases hc with hc | hc | hc
            · revert c; decide
            · exact (posText_noAngle hp c hc).2
            · revert c; decide)
          have v2 := view_tag (b := b!"span class=\"obj-link\"") (by decide)
          have v3 := view_plain (s := intDec n ++ (b!" " ++ (intDec 0 ++ (b!" " ++ b!"R")))) (by
            intro c hc
            simp only [List.mem_append] at hc
            rcases hc with hc | hc | hc | hc | hc
            · exact intDec_amp n c hc
            · revert c; decide
            · exact intDec_amp 0 c hc
            · revert c; decide
            · revert c; decide)
          have v4 := view_tag (b := b!"/span") (by decide)
          have v5 := view_tag (b := b!"/a") (by decide)
          have := (v1.append v2).append (v3.append (v4.append v5))
          simpa using this

/-! ### Lines -/

theorem view_blank (n : Nat) : View (List.replicate n 32) (List.replicate n 32) := by
  refine view_plain fun c hc => ?_
  rw [(List.mem_replicate.1 hc).2]
  decide

theorem padName_view {k : Bytes} (h : ∀ c ∈ k, c ≠ 60 ∧ c ≠ 38) : View (padName k).raw (k ++ List.replicate (20 - k.length) 32) := by
  unfold padName
  rw [raw_txt]
  exact (view_plain h).append (view_blank _)

theorem entryLine_view (depth : Nat) {k : Bytes} {v : Html} {t : Bytes} (hk : ∀ c ∈ k, c ≠ 60 ∧ c ≠ 38) (hv : View v.raw t)
    (hp : k = b!"/Prev" → ∀ c ∈ v.raw, c ≠ 62) : View (entryLine depth k v).raw
      (List.replicate (22 * depth) 32 ++ (b!"  " ++ (k ++ List.replicate (20 - k.length) 32 ++ (t ++ b!"\n")))) := by
  have hpad := padName_view hk
  have two := view_plain (s := b!"  ") (by decide)
  have nl := view_plain (s := b!"\n") (by decide)
  have close := view_tag (b := b!"/span") (by decide)
  unfold entryLine
  rw [raw_append, raw_lit]
  refine .append (view_blank _) ?_
  split
  · have op := view_tag (b := b!"span class=\"important\"") (by decide)
    have := two.append (hpad.append ((op.append (hv.append close)).append nl))
    simpa using this
  split
  · have op := view_tag (b := b!"span class=\"warning\"") (by decide)
    have := two.append ((op.append (hpad.append close)).append (hv.append nl))
    simpa using this
  split
  · have op := view_tag (b := b!"span class=\"warning\"") (by decide)
    have := two.append (hpad.append ((op.append (hv.append close)).append nl))
    simpa using this
  split
  · rename_i hpr
    have op := view_tag (b := b!"a class=\"obj-link\" href=\"#idx" ++ (v.raw ++ b!"\"")) (by
      intro c hc
      simp only [List.mem_append] at hc
      rcases hc with hc | hc | hc
      · revert c; decide
      · exact hp hpr c hc
      · revert c; decide)
    have cl := view_tag (b := b!"/a") (by decide)
    have := two.append (hpad.append ((op.append (hv.append cl)).append nl))
    simpa using this
  · have := two.append (hpad.append (hv.append nl))
    simpa using this

/-! ### The order of the entries -/

theorem moveItem_perm (l : List (Bytes × Html)) (k : Bytes) (n : Nat) : List.Perm (moveItem l k n) l := by
  unfold moveItem
  split
  · exact .refl _
  · rename_i p hp
    have h1 : List.Perm l (p :: l.eraseP fun q => decide (q.1 = k)) := by
      obtain ⟨hk, as, bs, e, hn⟩ := List.find?_eq_some_iff_append.1 hp
      rw [e, List.eraseP_append_right _ (by
        intro b hb
        have := hn b hb
        simpa using this), List.eraseP_cons_of_pos (p := fun q : Bytes × Html => decide (q.1 = k)) hk]
      exact List.perm_middle
    refine List.Perm.trans ?_ h1.symm
    refine List.Perm.trans List.perm_middle ?_
    rw [List.take_append_drop]

theorem All₂.perm {α β : Type} {R : α → β → Prop} {l l' : List α} (hp : List.Perm l' l) : ∀ {m : List β}, All₂ R l m →
    ∃ m', List.Perm m' m ∧ All₂ R l' m' := by
  induction hp with
  | nil => intro m h; exact ⟨m, .refl _, h⟩
  | cons x _ ih =>
    intro m h
    cases h with
    | cons h1 h2 =>
      obtain ⟨m', p, k⟩ := ih h2
      exact ⟨_, p.cons _, .cons h1 k⟩
  | swap x y l =>
    intro m h
    cases h with
    | cons h1 h2 =>
      cases h2 with
      | cons h2 h3 => exact ⟨_, List.Perm.swap _ _ _, .cons h2 (.cons h1 h3)⟩
  | trans _ _ ih1 ih2 =>
    intro m h
    obtain ⟨m1, p1, k1⟩ := ih2 h
    obtain ⟨m2, p2, k2⟩ := ih1 k1
    exact ⟨m2, p2.trans p1, k2⟩

/-- Entries that are shown: the text of the value, and the object that has this text. -/
def ShownAs (p : Bytes × Html) (q : Bytes × Obj) (inA : Bool) (t : Bytes) (o : Obj) : Prop :=
  p.1 = q.1 ∧ View p.2.raw t ∧ Spells true inA o t ∧ pyEq q.2 o = true

theorem pyEqEntries_of {d e : List (Bytes × Obj)} (h : ∀ k v, (k, v) ∈ d → ∃ v', List.lookup k e = some v' ∧ pyEq v v' = true) :
    pyEqEntries d e = true := by
  induction d with
  | nil => simp [pyEqEntries]
  | cons p d ih =>
    obtain ⟨k, v⟩ := p
    obtain ⟨v', h1, h2⟩ := h k v (by simp)
    simp only [pyEqEntries, h1, h2, Bool.true_and]
    exact ih fun k v hm => h k v (by simp [hm])

theorem legible_mem {d : List (Bytes × Obj)} (h : LegibleEntries d) : ∀ p ∈ d, p.1.length < 20 ∧ 38 ∉ p.1 ∧ (p.1 = b!"/Prev" → ∃ n, p.2 = .int n) := by
  induction d with
  | nil => intro p hp; cases hp
  | cons q d ih =>
    obtain ⟨k, v⟩ := q
    intro p hp
    rcases List.mem_cons.1 hp with rfl | hp
    · exact h.1
    · exact ih h.2.2 p hp

theorem wfEntries_name {inD inA : Bool} {d : List (Bytes × Obj)} (h : WFEntries inD inA d = true) : ∀ p ∈ d, isName p.1 = true := by
  induction d with
  | nil => intro p hp; cases hp
  | cons q d ih =>
    obtain ⟨k, v⟩ := q
    simp only [WFEntries, Bool.and_eq_true] at h
    intro p hp
    rcases List.mem_cons.1 hp with rfl | hp
    · exact h.1.1
    · exact ih h.2 p hp

theorem isName_noAngle {k : Bytes} (h : isName k = true) : ∀ c ∈ k, c ≠ 60 := by
  cases k with
  | nil => intro c hc; cases hc
  | cons a body =>
    simp only [isName, Bool.and_eq_true, decide_eq_true_eq, List.all_eq_true] at h
    intro c hc
    rcases List.mem_cons.1 hc with rfl | hc
    · rw [h.1]; decide
    · rintro rfl
      exact absurd (h.2 _ hc) (by decide)

/-- The lines of a dictionary and what they show. -/
theorem lines_view (depth : Nat) {inA : Bool} : ∀ {vs : List (Bytes × Html)} {d : List (Bytes × Obj)},
    All₂ (fun p q => (∃ t o, ShownAs p q inA t o) ∧ isName q.1 = true ∧ q.1.length < 20 ∧ 38 ∉ q.1 ∧ (q.1 = b!"/Prev" → ∀ c ∈ p.2.raw, c ≠ 62)) vs d →
    ∃ e T, View (Html.raw (vs.flatMap fun p => entryLine depth p.1 p.2)) T ∧ All₂ (fun q r => q.1 = r.1 ∧ pyEq q.2 r.2 = true) d e ∧
      ∀ g, Gap true inA g → SpellsAll true inA (inLine e) (g ++ (T ++ List.replicate (22 * depth) 32))
  | _, _, .nil => ⟨[], [], .nil, .nil, fun g hg => .nil (by
      simpa using gap_append hg (white_is_gap fun c hc => by rw [(List.mem_replicate.1 hc).2]; decide))⟩
  | (k, h) :: vs, (k', v) :: d, .cons ⟨⟨t, o, sh⟩, hn, hl, ha, hp⟩ hrest => by
    obtain ⟨e, T, hv, hall, hs⟩ := lines_view depth hrest
    obtain ⟨rfl, hview, hsp, heq⟩ := sh
    have hk : ∀ c ∈ k, c ≠ 60 ∧ c ≠ 38 := fun c hc => ⟨isName_noAngle hn c hc, by rintro rfl; exact ha hc⟩
    have hline := entryLine_view depth hk hview hp
    have hsp20 : ∀ n, ∀ c ∈ List.replicate n (32 : UInt8), c ∈ white := fun n c hc => by rw [(List.mem_replicate.1 hc).2]; decide
    obtain ⟨m, hm⟩ : ∃ m, 20 - k.length = m + 1 := ⟨20 - k.length - 1, by simp only at hl; omega⟩
    refine ⟨(k, o) :: e, _, by rw [List.flatMap_cons, raw_append]; exact hline.append hv, .cons ⟨rfl, heq⟩ hall, ?_⟩
    intro g hg
    have h2 := SpellsAll.cons (white_is_gap (hsp20 (20 - k.length))) hsp (hs b!"\n" (white_is_gap (by decide)))
      (.inr (.inr ⟨10, _, rfl, .inl (by decide)⟩))
    have h1 := SpellsAll.cons (gap_append hg (white_is_gap (g := List.replicate (22 * depth) 32 ++ b!"  ") (by
      intro c hc
      rcases List.mem_append.1 hc with hc | hc
      · exact hsp20 _ c hc
      · exact hsp20 2 c hc))) (.name hn) h2 (.inr (.inr ⟨32, _, by rw [hm, List.replicate_succ]; rfl, .inl (by decide)⟩))
    simpa [inLine] using h1

/-! ### Objects -/

theorem entryLine_infix (depth : Nat) (k : Bytes) (v : Html) : v.raw <:+: (entryLine depth k v).raw := by
  have key : ∀ a b : Bytes, v.raw <:+: a ++ (v.raw ++ b) := fun a b => ⟨a, b, by simp⟩
  unfold entryLine
  simp only [raw_append]
  split
  · simp only [raw_append, ← List.append_assoc]
    exact List.infix_append _ _ _
  split
  · simp only [raw_append, ← List.append_assoc]
    exact List.infix_append _ _ _
  split
  · simp only [raw_append, ← List.append_assoc]
    exact List.infix_append _ _ _
  split
  · simp only [raw_append, ← List.append_assoc]
    exact List.infix_append _ _ _
  · simp only [raw_append, ← List.append_assoc]
    exact List.infix_append _ _ _

theorem flatMap_infix {α : Type} (f : α → Bytes) : ∀ {l : List α} {x : α}, x ∈ l → f x <:+: l.flatMap f
  | y :: l, x, h => by
    rw [List.flatMap_cons]
    rcases List.mem_cons.1 h with rfl | h
    · exact (List.prefix_append _ _).isInfix
    · exact (flatMap_infix f h).trans (List.suffix_append _ _).isInfix

theorem All₂.left {α β : Type} {R : α → β → Prop} {l : List α} {m : List β} (h : All₂ R l m) : ∀ a ∈ l, ∃ b ∈ m, R a b := by
  induction h with
  | nil => intro b hb; cases hb
  | cons h _ ih =>
    intro b hb
    rcases List.mem_cons.1 hb with rfl | hb
    · exact ⟨_, by simp, h⟩
    · obtain ⟨x, h1, h2⟩ := ih b hb
      exact ⟨x, by simp [h1], h2⟩

theorem All₂.keys {β : Type} {R : Bytes × Obj → Bytes × β → Prop} (hR : ∀ q r, R q r → q.1 = r.1) {d : List (Bytes × Obj)} {e : List (Bytes × β)}
    (h : All₂ R d e) : d.map Prod.fst = e.map Prod.fst := by
  induction h with
  | nil => rfl
  | cons h _ ih => simp [hR _ _ h, ih]

mutual
theorem follow_view [FloatText] (rev : Rev) : ∀ (depth : Nat) (disp : Bool) (o : Obj) (inD inA : Bool) (h : Html), WF inD inA o = true → Legible o →
    followObj rev depth disp o = .ok h → ¬ Cut h.raw → ∃ t o', View h.raw t ∧ Spells inD inA o' t ∧ pyEq o o' = true
  | depth, disp, .ref g n, inD, inA, h, hw, hl, e, hc => by
    rw [followObj] at e
    obtain ⟨t, h1, h2⟩ := ref_view hw e
    exact ⟨t, _, h1, h2, by simp [pyEq]⟩
  | depth, disp, .list l, inD, inA, h, hw, hl, e, hc => by
    rw [followObj] at e
    obtain ⟨body, eb, e⟩ := bind_eq_ok e
    cases e
    rw [raw_append] at hc
    have hc' := (cut_append hc).1
    split at hc'
    · rw [raw_append] at hc'
      exact absurd (List.infix_refl _) (cut_append hc').2
    · rename_i hcond
      rw [raw_append] at hc'
      obtain ⟨T, l', h1, h2, h3⟩ := items_view rev l inD true body hw hl eb (cut_append hc').2
      refine ⟨b!"[" ++ ((b!" " ++ T) ++ b!"]"), .list l', ?_, .array h2, by simpa [pyEq] using h3⟩
      rw [if_neg hcond]
      have a := view_plain (s := b!"[ ") (by decide)
      have z := view_plain (s := b!"]") (by decide)
      have := a.append (h1.append z)
      simpa using this
  | depth, disp, .dict d, inD, inA, h, hw, hl, e, hc => by
    rw [followObj] at e
    obtain ⟨vs, ev, e⟩ := bind_eq_ok e
    cases e
    simp only [WF, Bool.and_eq_true, decide_eq_true_eq] at hw
    unfold dictText at hc ⊢
    simp only [raw_append, raw_lit] at hc ⊢
    have hperm : List.Perm (moveItem (moveItem vs b!"/Type" 0) b!"/Subtype" 1) vs := (moveItem_perm _ _ _).trans (moveItem_perm _ _ _)
    generalize hvs' : moveItem (moveItem vs b!"/Type" 0) b!"/Subtype" 1 = vs' at *
    have hcut : ∀ p ∈ vs, ¬ Cut p.2.raw := by
      intro p hp hcp
      have h1 := (cut_append (cut_append (cut_append hc).1).1).2
      rw [raw_flatMap] at h1
      exact h1 ((hcp.trans (entryLine_infix depth p.1 p.2)).trans (flatMap_infix (fun p => (entryLine depth p.1 p.2).raw) (hperm.mem_iff.2 hp)))
    have hall := entries_view rev depth d true inA vs hw.1 hl ev hcut
    have hall : All₂ (fun p q => (∃ t o, ShownAs p q inA t o) ∧ isName q.1 = true ∧ q.1.length < 20 ∧ 38 ∉ q.1 ∧
        (q.1 = b!"/Prev" → ∀ c ∈ p.2.raw, c ≠ 62)) vs d := hall
    obtain ⟨d', hd', hall'⟩ := All₂.perm hperm hall
    obtain ⟨e, T, hv, he, hs⟩ := lines_view depth hall'
    have hkeys : d'.map Prod.fst = e.map Prod.fst := All₂.keys (fun q r h => h.1) he
    have hnd' : (d'.map Prod.fst).Nodup := (hd'.map Prod.fst).nodup_iff.2 hw.2
    have hnd : (e.map Prod.fst).Nodup := hkeys ▸ hnd'
    refine ⟨b!"<<" ++ ((b!"\n" ++ (T ++ List.replicate (22 * depth) 32)) ++ b!">>"), .dict e, ?_, .dict (hs _ (white_is_gap (by decide))) ?_ hnd, ?_⟩
    · have a : View b!"&lt;&lt;" b!"<<" := view_escape b!"<<"
      have b := view_plain (s := b!"\n") (by decide)
      have z : View b!"&gt;&gt;" b!">>" := view_escape b!">>"
      have := a.append ((b.append (hv.append (view_blank (22 * depth)))).append z)
      simpa using this
    · intro r hr
      obtain ⟨q, hq, hk, -⟩ := All₂.right he r hr
      rw [← hk]
      exact wfEntries_name hw.1 q (hd'.mem_iff.1 hq)
    · simp only [pyEq, Bool.and_eq_true, decide_eq_true_eq]
      refine ⟨?_, pyEqEntries_of ?_⟩
      · rw [← hd'.length_eq, ← List.length_map (f := Prod.fst), hkeys, List.length_map]
      · intro k v hm
        obtain ⟨⟨k', v'⟩, hr, hk, hpy⟩ := All₂.left he (k, v) (hd'.mem_iff.2 hm)
        obtain rfl : k = k' := hk
        exact ⟨v', lookup_of_mem hnd hr, hpy⟩
  | depth, disp, .stream d c r, inD, inA, h, hw, hl, e, hc => by simp [WF] at hw
  | depth, disp, .null, inD, inA, h, hw, hl, e, hc => hl.elim
  | depth, disp, .bool b, inD, inA, h, hw, hl, e, hc => hl.elim
  | depth, disp, .int n, inD, inA, h, hw, hl, e, hc => by
    rw [followObj] at e
    obtain ⟨t, h1, h2⟩ := scalar_view hw hl e hc
    · exact ⟨t, _, h1, h2, by simp [pyEq]⟩
    all_goals simp
  | depth, disp, .real a b c, inD, inA, h, hw, hl, e, hc => by
    rw [followObj] at e
    obtain ⟨t, h1, h2⟩ := scalar_view hw hl e hc
    · exact ⟨t, _, h1, h2, by simp [pyEq]⟩
    all_goals simp
  | depth, disp, .str s, inD, inA, h, hw, hl, e, hc => by
    rw [followObj] at e
    obtain ⟨t, h1, h2⟩ := scalar_view hw hl e hc
    · exact ⟨t, _, h1, h2, by simp [pyEq]⟩
    all_goals simp
  | depth, disp, .bytes s, inD, inA, h, hw, hl, e, hc => by
    rw [followObj] at e
    obtain ⟨t, h1, h2⟩ := scalar_view hw hl e hc
    · exact ⟨t, _, h1, h2, by simp [pyEq]⟩
    all_goals simp
theorem entries_view [FloatText] (rev : Rev) : ∀ (depth : Nat) (d : List (Bytes × Obj)) (inD inA : Bool) (vs : List (Bytes × Html)),
    WFEntries inD inA d = true → LegibleEntries d → followEntries rev depth d = .ok vs → (∀ p ∈ vs, ¬ Cut p.2.raw) →
    All₂ (fun p q => (∃ t o, p.1 = q.1 ∧ View p.2.raw t ∧ Spells inD inA o t ∧ pyEq q.2 o = true) ∧ isName q.1 = true ∧ q.1.length < 20 ∧ 38 ∉ q.1 ∧
        (q.1 = b!"/Prev" → ∀ c ∈ p.2.raw, c ≠ 62)) vs d
  | _, [], _, _, vs, _, _, e, _ => by rw [followEntries] at e; cases e; exact .nil
  | depth, (k, v) :: d, inD, inA, vs, hw, hl, e, hc => by
    rw [followEntries] at e
    obtain ⟨h, eh, e⟩ := bind_eq_ok e
    obtain ⟨rest, er, e⟩ := bind_eq_ok e
    cases e
    simp only [WFEntries, Bool.and_eq_true] at hw
    obtain ⟨⟨l1, l2, l3⟩, l4, l5⟩ := hl
    obtain ⟨t, o', k1, k2, k3⟩ := follow_view rev (depth + 1) true v inD inA h hw.1.2 l4 eh (hc (k, h) (by simp))
    refine .cons ⟨⟨t, o', rfl, k1, k2, k3⟩, hw.1.1, l1, l2, ?_⟩ (entries_view rev depth d inD inA rest hw.2 l5 er fun p hp => hc p (by simp [hp]))
    intro hk c hcm
    obtain ⟨n, rfl⟩ := l3 hk
    rw [followObj] at eh
    · cases eh
      rw [raw_txt] at hcm
      exact (htmlEscape_noAngle _ c hcm).2
    all_goals simp
theorem items_view [FloatText] (rev : Rev) : ∀ (l : List Obj) (inD inA : Bool) (h : Html), WFItems inD inA l = true → LegibleItems l →
    followItems rev l = .ok h → ¬ Cut h.raw → ∃ T l', View h.raw T ∧ SpellsAll inD inA l' (b!" " ++ T) ∧ pyEqItems l l' = true
  | [], inD, inA, h, _, _, e, _ => by
    rw [followItems] at e
    cases e
    exact ⟨[], [], .nil, .nil (white_is_gap (by decide)), by simp [pyEqItems]⟩
  | o :: l, inD, inA, h, hw, hl, e, hc => by
    rw [followItems] at e
    obtain ⟨v, ev, e⟩ := bind_eq_ok e
    obtain ⟨rest, er, e⟩ := bind_eq_ok e
    cases e
    simp only [WFItems, Bool.and_eq_true] at hw
    simp only [raw_append, raw_lit] at hc ⊢
    obtain ⟨t, o', k1, k2, k3⟩ := follow_view rev 0 true o inD inA v hw.1 hl.1 ev (cut_append (cut_append hc).1).1
    obtain ⟨T, l', j1, j2, j3⟩ := items_view rev l inD inA rest hw.2 hl.2 er (cut_append hc).2
    refine ⟨t ++ b!" " ++ T, o' :: l', (k1.append (view_plain (by decide))).append j1, ?_, by simp [pyEqItems, k3, j3]⟩
    have := SpellsAll.cons (white_is_gap (inD := inD) (inA := inA) (g := b!" ") (by decide)) k2 j2 (.inr (.inr ⟨32, _, rfl, .inl (by decide)⟩))
    simpa using this
end

end Pdf
