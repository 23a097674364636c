/-
C101: what the page shows of an object is a text of this object.
-/
import Verif.Lemmas.Visible
import Verif.Lemmas.Markdown
import Verif.Lemmas.KernelRfl
import Verif.Spec.AsciiText
import Verif.Props.C98_Spelling
import Verif.Props.C99_Foreign

namespace Pdf
open Spec

/-- `C101_visible_partial`. What is seen of an object in the page (tags removed, entities replaced) is a text of this object according to the
grammar of 7.3, when nothing was left out and the object is legible (`Legible`: see the counterexamples below). The entries of the
dictionaries may be in another order, hence the equality in Python's sense. -/
theorem C101_visible_partial [FloatText] (rev : Rev) (depth : Nat) (disp : Bool) (o : Obj) (h : Html) (hw : WF false false o = true) (hl : Legible o)
    (e : followObj rev depth disp o = .ok h) (hc : ¬ b!"<em> ...(truncated) </em>" <:+: h.raw) :
    ∃ o', Spells false false o' (visible h.raw) ∧ pyEq o o' = true := by
  obtain ⟨t, o', h1, h2, h3⟩ := follow_view rev depth disp o false false h hw hl e (by
    unfold Cut truncated
    rw [raw_lit]
    exact hc)
  exact ⟨o', h1.all ▸ h2, h3⟩

/-- Hence the parser reads the object again from what is seen. -/
theorem C101_parse_partial [Zlib] [FloatText] (rev : Rev) (depth : Nat) (disp : Bool) (o : Obj) (h : Html) (hw : WF false false o = true) (hl : Legible o)
    (hr : ∀ g n, o ≠ .ref g n) (e : followObj rev depth disp o = .ok h) (hc : ¬ b!"<em> ...(truncated) </em>" <:+: h.raw) :
    ∃ v, parseObj (visible h.raw ++ b!"\n") 0 = .ok v ∧ pyEq o v = true := by
  obtain ⟨o', h1, h2⟩ := C101_visible_partial rev depth disp o h hw hl e hc
  have hr' : ∀ g n, o' ≠ .ref g n := by
    rintro g n rfl
    cases o <;> simp_all [pyEq]
  obtain ⟨v, h3, h4⟩ := C98_parse_partial o' _ [] b!"\n" (.obj h1 hr') (.inr ⟨10, [], rfl, .inl (by decide)⟩) (by
    rintro - gap rest hg e
    have : b!"\n" = gap ++ (b!"stream" ++ rest) := by rw [e, List.append_assoc]
    cases gap with
    | nil => simp at this
    | cons c gap =>
      have h5 := congrArg List.length this
      simp at h5)
  exact ⟨v, by simpa using h3, pyEq_trans h2 h4⟩

/-- Strings: up to thirty characters they are shown whole, then the first thirty, and the mark of what is left out. -/
theorem C101_string_partial [FloatText] (rev : Rev) (depth : Nat) (disp : Bool) (s : Bytes) (hp : s.take 1 = b!"(")
    (hs : ∀ c ∈ s, 32 ≤ c ∧ c < 127 ∧ c ≠ 92) (hq : ¬ (39 ∈ s ∧ 34 ∈ s)) :
    ∃ h, followObj rev depth disp (.bytes s) = .ok h ∧ visible h.raw = if s.length ≤ 30 then s else s.take 30 ++ b!" ...(truncated) " := by
  rw [followObj, scalarText, if_pos hp]
  · refine ⟨_, rfl, ?_⟩
    by_cases hl : s.length ≤ 30
    · rw [if_neg (by omega), if_neg (by omega), if_pos hl, reprBytes_plain hs hq, List.append_nil, raw_txt]
      exact (view_escape s).all
    · rw [if_pos (by omega), if_pos (by omega), if_neg hl, reprBytes_plain (fun c hc => hs c (List.mem_of_mem_take hc))
        (fun h => hq ⟨List.mem_of_mem_take h.1, List.mem_of_mem_take h.2⟩), raw_append, raw_txt]
      refine ((view_escape _).append (t := b!" ...(truncated) ") ?_).all
      intro rest
      rfl
  all_goals simp

/-- The text of an array of integers. -/
def rowText : List Int → Bytes
  | [] => []
  | n :: l => intDec n ++ b!" " ++ rowText l

theorem items_ints [FloatText] (rev : Rev) : ∀ l : List Int, followItems rev (l.map .int) = .ok (l.flatMap fun n => txt (htmlEscape (intDec n)) ++ lit b!" ")
  | [] => by rw [List.map_nil, followItems]; rfl
  | n :: l => by
    rw [List.map_cons, followItems, items_ints rev l, followObj]
    · rfl
    all_goals simp

theorem intDec_char (n : Int) : ∀ c ∈ intDec n, c ∈ (b!"-0123456789" : Bytes) := by
  intro c hc
  unfold intDec at hc
  have key : ∀ m : Nat, ∀ c ∈ natDec m, c ∈ (b!"-0123456789" : Bytes) := by
    intro m c hc
    have := (natDec_text m).1 c hc
    simp only [List.mem_cons, List.not_mem_nil, or_false] at this ⊢
    exact .inr this
  split at hc
  · exact key _ c hc
  · rcases List.mem_cons.1 hc with rfl | hc
    · decide
    · exact key _ c hc

theorem escape_dec {s : Bytes} (h : ∀ c ∈ s, c ∈ (b!"-0123456789" : Bytes)) : htmlEscape s = s := by
  induction s with
  | nil => rfl
  | cons c s ih =>
    have key : ∀ c ∈ (b!"-0123456789" : Bytes), htmlEscape [c] = [c] := by decide
    rw [htmlEscape_cons, ih fun d hd => h d (by simp [hd]), key c (h c (by simp))]
    rfl

theorem raw_ints : ∀ l : List Int, Html.raw (l.flatMap fun n => txt (htmlEscape (intDec n)) ++ lit b!" ") = rowText l
  | [] => rfl
  | n :: l => by
    rw [List.flatMap_cons, raw_append, raw_ints l, raw_append, raw_txt, raw_lit, escape_dec (intDec_char n)]
    rfl

theorem rowText_char : ∀ l : List Int, ∀ c ∈ rowText l, c ∈ (b!" -0123456789" : Bytes)
  | n :: l, c, hc => by
    simp only [rowText, List.mem_append] at hc
    rcases hc with (hc | hc) | hc
    · exact List.mem_cons_of_mem _ (intDec_char n c hc)
    · revert c; decide
    · exact rowText_char l c hc

theorem find_none_of_mem {s pat : Bytes} {x : UInt8} (hx : x ∈ pat) (h : x ∉ s) (i : Nat) : find s pat i = none :=
  find_eq_none (List.ne_nil_of_mem hx) fun _ _ hp => h (List.mem_of_mem_drop (hp.subset hx))

/-- Arrays of integers: shown whole when the bracket and the numbers take at most thirty characters, else the first thirty. -/
theorem C101_array_partial [FloatText] (rev : Rev) (depth : Nat) (disp : Bool) (l : List Int) :
    ∃ h, followObj rev depth disp (.list (l.map .int)) = .ok h ∧ visible h.raw =
      (if (b!"[ " ++ rowText l).length ≤ 30 then b!"[ " ++ rowText l else (b!"[ " ++ rowText l).take 30 ++ b!" ...(truncated) ") ++ b!"]" := by
  rw [followObj, items_ints]
  refine ⟨_, rfl, ?_⟩
  have hlen : (lit b!"[ " ++ l.flatMap fun n => txt (htmlEscape (intDec n)) ++ lit b!" ").length = (b!"[ " ++ rowText l).length := by
    rw [← raw_length, raw_append, raw_ints, raw_lit]
  have hraw : Html.raw (lit b!"[ " ++ l.flatMap fun n => txt (htmlEscape (intDec n)) ++ lit b!" ") = b!"[ " ++ rowText l := by
    rw [raw_append, raw_ints, raw_lit]
  have hch : ∀ c ∈ b!"[ " ++ rowText l, c ∈ (b!"[ -0123456789" : Bytes) := by
    intro c hc
    rcases List.mem_append.1 hc with hc | hc
    · have key : ∀ c ∈ (b!"[ " : Bytes), c ∈ (b!"[ -0123456789" : Bytes) := by decide
      exact key c hc
    · exact List.mem_cons_of_mem _ (rowText_char l c hc)
  have hpl : ∀ c ∈ (b!"[ -0123456789" : Bytes), c ≠ 60 ∧ c ≠ 38 := by decide
  have hfind : find (Html.raw (lit b!"[ " ++ l.flatMap fun n => txt (htmlEscape (intDec n)) ++ lit b!" ")) b!"href" 0 = none := by
    rw [hraw]
    exact find_none_of_mem (x := 104) (by decide) (fun h => by
      have := hch _ h
      revert this; decide) 0
  have z := view_plain (s := b!"]") (by decide)
  rw [raw_append, raw_lit]
  by_cases hl : (b!"[ " ++ rowText l).length ≤ 30
  · rw [if_pos hl, if_neg (by rintro ⟨h, -⟩; rw [hlen] at h; omega), hraw]
    exact ((view_plain fun c hc => hpl c (hch c hc)).append z).all
  · rw [if_neg hl, if_pos ⟨by rw [hlen]; omega, hfind⟩, raw_append, raw_take, hraw]
    refine View.all (View.append (View.append (t := b!" ...(truncated) ") (view_plain fun c hc => hpl c (hch c (List.mem_of_mem_take hc))) ?_) z)
    intro rest
    rfl

/-- A dictionary with its entries in another order, an array, a string with angle brackets and an ampersand. -/
example [FloatText] : WF false false (.dict [(b!"/A", .bytes b!"(<a> & b)"), (b!"/C", .list [.int (-3), .str b!"/N"]), (b!"/Type", .str b!"/T&lt;")]) = true ∧
    Legible (.dict [(b!"/A", .bytes b!"(<a> & b)"), (b!"/C", .list [.int (-3), .str b!"/N"]), (b!"/Type", .str b!"/T&lt;")]) ∧
    (followObj [] 0 true (.dict [(b!"/A", .bytes b!"(<a> & b)"), (b!"/C", .list [.int (-3), .str b!"/N"]), (b!"/Type", .str b!"/T&lt;")])).map (fun h => visible h.raw) =
      .ok b!"<<\n  /Type               /T&lt;\n  /A                  (<a> & b)\n  /C                  [ -3 /N ]\n>>" := by
  refine ⟨by decide, ?_, by kernel_rfl⟩
  simp [Legible, LegibleEntries, LegibleItems]

/-! ### The lines of a dictionary -/

theorem eraseP_key : ∀ {l : List (Bytes × Html)} (k : Bytes), (l.map Prod.fst).Nodup → l.eraseP (fun q => decide (q.1 = k)) = l.filter fun q => decide (q.1 ≠ k)
  | [], _, _ => rfl
  | p :: l, k, h => by
    simp only [List.map_cons, List.nodup_cons] at h
    by_cases hp : p.1 = k
    · rw [List.eraseP_cons_of_pos (by simpa using hp), List.filter_cons_of_neg (by simpa using hp)]
      refine (List.filter_eq_self.2 fun q hq => ?_).symm
      simp only [decide_eq_true_eq]
      rintro rfl
      exact h.1 (hp ▸ List.mem_map_of_mem hq)
    · rw [List.eraseP_cons_of_neg (by simpa using hp), List.filter_cons_of_pos (by simpa using hp), eraseP_key k h.2]

theorem filter_key : ∀ {l : List (Bytes × Html)} (k : Bytes), (l.map Prod.fst).Nodup → l.filter (fun q => decide (q.1 = k)) = (l.find? fun q => decide (q.1 = k)).toList
  | [], _, _ => rfl
  | p :: l, k, h => by
    simp only [List.map_cons, List.nodup_cons] at h
    by_cases hp : p.1 = k
    · rw [List.filter_cons_of_pos (by simpa using hp), List.find?_cons_of_pos (by simpa using hp)]
      have : l.filter (fun q => decide (q.1 = k)) = [] := by
        refine List.filter_eq_nil_iff.2 fun q hq => ?_
        simp only [decide_eq_true_eq]
        rintro rfl
        exact h.1 (hp ▸ List.mem_map_of_mem hq)
      rw [this]
      rfl
    · rw [List.filter_cons_of_neg (by simpa using hp), List.find?_cons_of_neg (by simpa using hp), filter_key k h.2]

theorem moveItem_filter {l : List (Bytes × Html)} (k : Bytes) (n : Nat) (h : (l.map Prod.fst).Nodup) :
    moveItem l k n = (l.filter fun q => decide (q.1 ≠ k)).take n ++ l.filter (fun q => decide (q.1 = k)) ++ (l.filter fun q => decide (q.1 ≠ k)).drop n := by
  unfold moveItem
  rw [filter_key k h]
  split
  · rename_i hf
    rw [hf, List.filter_eq_self.2 fun q hq => by simpa using List.find?_eq_none.1 hf q hq]
    simp
  · rename_i p hf
    rw [hf, eraseP_key k h]
    simp

theorem typeFirst_moved {l : List (Bytes × Html)} (h : (l.map Prod.fst).Nodup) : moveItem (moveItem l b!"/Type" 0) b!"/Subtype" 1 = typeFirst l := by
  have hn := ((moveItem_perm l b!"/Type" 0).map Prod.fst).nodup_iff.2 h
  rw [moveItem_filter _ _ hn, moveItem_filter _ _ h]
  have ht : (l.filter fun q => decide (q.1 = b!"/Type")).length ≤ 1 := by
    rw [filter_key _ h]
    cases l.find? fun q => decide (q.1 = b!"/Type") <;> simp
  have e1 : (l.filter fun q => decide (q.1 = b!"/Type")).filter (fun q => decide (q.1 = b!"/Subtype")) = [] := by
    rw [List.filter_filter]
    refine List.filter_eq_nil_iff.2 fun q _ => ?_
    simp only [Bool.and_eq_true, decide_eq_true_eq]
    rintro ⟨h1, h2⟩
    rw [h1] at h2
    exact absurd h2 (by decide)
  have e2 : (l.filter fun q => decide (q.1 = b!"/Type")).filter (fun q => decide (q.1 ≠ b!"/Subtype")) = l.filter fun q => decide (q.1 = b!"/Type") := by
    refine List.filter_eq_self.2 fun q hq => ?_
    have := (List.mem_filter.1 hq).2
    simp only [decide_eq_true_eq] at this ⊢
    rw [this]
    decide
  have e3 : (l.filter fun q => decide (q.1 ≠ b!"/Type")).filter (fun q => decide (q.1 = b!"/Subtype")) = l.filter fun q => decide (q.1 = b!"/Subtype") := by
    rw [List.filter_filter]
    refine List.filter_congr fun q _ => ?_
    by_cases hq : q.1 = b!"/Subtype"
    · rw [hq]; decide
    · simp [hq]
  have e4 : (l.filter fun q => decide (q.1 ≠ b!"/Type")).filter (fun q => decide (q.1 ≠ b!"/Subtype")) =
      l.filter fun q => decide (q.1 ≠ b!"/Type" ∧ q.1 ≠ b!"/Subtype") := by
    rw [List.filter_filter]
    refine List.filter_congr fun q _ => ?_
    by_cases h1 : q.1 = b!"/Subtype" <;> by_cases h2 : q.1 = b!"/Type" <;> simp [h1, h2]
  simp only [List.take_zero, List.nil_append, List.drop_zero, List.filter_append, e1, e2, e3, e4, typeFirst]
  rw [List.take_append, List.drop_append, List.take_of_length_le ht, List.drop_eq_nil_of_le ht, List.nil_append]

theorem typeFirst_map {α β : Type} (f : α → β) (l : List (Bytes × α)) : typeFirst (l.map fun p => (p.1, f p.2)) = (typeFirst l).map fun p => (p.1, f p.2) := by
  simp only [typeFirst, List.filter_map, List.map_append, List.map_take, List.map_drop, List.length_map, Function.comp_def]

theorem lines_text (depth : Nat) : ∀ {vs : List (Bytes × Html)}, (∀ p ∈ vs, View p.2.raw (visible p.2.raw) ∧ (∀ c ∈ p.1, c ≠ 60 ∧ c ≠ 38) ∧
      (p.1 = b!"/Prev" → ∀ c ∈ p.2.raw, c ≠ 62)) →
    View (Html.raw (vs.flatMap fun p => entryLine depth p.1 p.2)) (vs.flatMap fun p =>
      List.replicate (22 * depth) 32 ++ (b!"  " ++ (p.1 ++ List.replicate (20 - p.1.length) 32 ++ (visible p.2.raw ++ b!"\n"))))
  | [], _ => .nil
  | p :: vs, h => by
    obtain ⟨h1, h2, h3⟩ := h p (by simp)
    rw [List.flatMap_cons, raw_append, List.flatMap_cons]
    exact (entryLine_view depth h2 h1 h3).append (lines_text depth fun q hq => h q (by simp [hq]))

theorem typeFirst_mem {α : Type} {l : List (Bytes × α)} {p : Bytes × α} (h : p ∈ typeFirst l) : p ∈ l := by
  simp only [typeFirst, List.mem_append] at h
  rcases h with ((h | h) | h) | h
  · exact (List.mem_filter.1 h).1
  · exact (List.mem_filter.1 (List.mem_of_mem_take h)).1
  · exact (List.mem_filter.1 h).1
  · exact (List.mem_filter.1 (List.mem_of_mem_drop h)).1

theorem entries_text [FloatText] (rev : Rev) : ∀ {depth : Nat} {d : List (Bytes × Obj)} {vs : List (Bytes × Html)}, followEntries rev depth d = .ok vs →
    All₂ (fun q p => q.1 = p.1 ∧ ∃ hv, followObj rev (depth + 1) true q.2 = .ok hv ∧ p.2 = visible hv.raw) d (vs.map fun p => (p.1, visible p.2.raw))
  | depth, [], vs, e => by rw [followEntries] at e; cases e; exact .nil
  | depth, (k, v) :: d, vs, e => by
    rw [followEntries] at e
    obtain ⟨h, eh, e⟩ := bind_eq_ok e
    obtain ⟨rest, er, e⟩ := bind_eq_ok e
    cases e
    exact .cons ⟨rfl, h, eh, rfl⟩ (entries_text rev er)

/-- A dictionary is shown with one line for each entry, `/Type` and `/Subtype` first; all the values start in the same column, which is
22 characters further for each level. -/
theorem C101_lines_partial [FloatText] (rev : Rev) (depth : Nat) (disp : Bool) (d : List (Bytes × Obj)) (h : Html) (hw : WF false false (.dict d) = true)
    (hl : Legible (.dict d)) (e : followObj rev depth disp (.dict d) = .ok h) (hc : ¬ b!"<em> ...(truncated) </em>" <:+: h.raw) :
    ∃ ts : List (Bytes × Bytes), All₂ (fun q p => q.1 = p.1 ∧ ∃ hv, followObj rev (depth + 1) true q.2 = .ok hv ∧ p.2 = visible hv.raw) d ts ∧
      visible h.raw = b!"<<\n" ++ (typeFirst ts).flatMap (fun p =>
        List.replicate (22 * depth) 32 ++ b!"  " ++ p.1 ++ List.replicate (20 - p.1.length) 32 ++ p.2 ++ b!"\n") ++
        List.replicate (22 * depth) 32 ++ b!">>" := by
  rw [followObj] at e
  obtain ⟨vs, ev, e⟩ := bind_eq_ok e
  cases e
  refine ⟨_, entries_text rev ev, ?_⟩
  simp only [WF, Bool.and_eq_true, decide_eq_true_eq] at hw
  have hkeys : d.map Prod.fst = vs.map Prod.fst := by
    have := All₂.keys (fun q r h => h.1) (entries_text rev ev)
    rw [this, List.map_map]
    rfl
  have hnd : (vs.map Prod.fst).Nodup := hkeys ▸ hw.2
  unfold dictText at hc ⊢
  simp only [raw_append, raw_lit, typeFirst_moved hnd] at hc ⊢
  have hc1 := (cut_append (cut_append (cut_append (show ¬ Cut _ from hc)).1).1).2
  rw [raw_flatMap] at hc1
  have hperm : List.Perm (typeFirst vs) vs := typeFirst_moved hnd ▸ (moveItem_perm _ _ _).trans (moveItem_perm _ _ _)
  have hall := entries_view rev depth d true false vs hw.1 hl ev fun p hp hcp =>
    hc1 ((hcp.trans (entryLine_infix depth p.1 p.2)).trans (flatMap_infix (fun p => (entryLine depth p.1 p.2).raw) (hperm.mem_iff.2 hp)))
  have hv := lines_text depth (vs := typeFirst vs) fun p hp => by
    obtain ⟨q, -, ⟨t, o, k1, k2, -, -⟩, k3, -, k4, k5⟩ := All₂.left hall p (typeFirst_mem hp)
    refine ⟨k2.all.symm ▸ k2, ?_, ?_⟩
    · rw [k1]
      exact fun c hc => ⟨isName_noAngle k3 c hc, by rintro rfl; exact k4 hc⟩
    · rw [k1]
      exact k5
  have a : View b!"&lt;&lt;\n" b!"<<\n" := fun rest => rfl
  have z : View b!"&gt;&gt;" b!">>" := view_escape b!">>"
  have := (((a.append hv).append (view_blank (22 * depth))).append z).all
  rw [show typeFirst (vs.map fun p => (p.1, visible p.2.raw)) = _ from typeFirst_map (fun x : Html => visible x.raw) vs, List.flatMap_map]
  simpa using this

/-! ### Streams -/

theorem view_content : ∀ {content : Bytes} (_ : 38 ∉ content), View (replaceChar 62 b!"&gt;" (replaceChar 60 b!"&lt;" content)) content
  | [], _ => .nil
  | c :: s, h38 => by
    have e1 : replaceChar 62 b!"&gt;" (replaceChar 60 b!"&lt;" (c :: s)) =
        replaceChar 62 b!"&gt;" (replaceChar 60 b!"&lt;" [c]) ++ replaceChar 62 b!"&gt;" (replaceChar 60 b!"&lt;" s) := by
      simp [replaceChar, List.flatMap_append]
    rw [e1]
    refine View.append (s := [c]) ?_ (view_content fun h => h38 (by simp [h]))
    by_cases h2 : c = 60
    · subst h2; intro rest; rfl
    by_cases h3 : c = 62
    · subst h3; intro rest; rfl
    · refine (view_char ⟨h2, by rintro rfl; simp at h38⟩).of_eq ?_
      simp [replaceChar, h2, h3]

theorem View.to {h t t' : Bytes} (hv : View h t) (e : t = t') : View h t' := e ▸ hv

/-- The data of a stream, in the page. -/
theorem streamText_view {content : Bytes} (hc2 : ¬ Cut (streamText content true).raw) (h38 : 38 ∉ content) (hne : content ≠ []) :
    View (streamText content true).raw (b!"  \nstream\n\nsee content\n" ++ content ++ b!"\n\nendstream\n") := by
  unfold streamText at hc2 ⊢
  rw [if_pos ⟨hne, rfl⟩] at hc2 ⊢
  by_cases hpr : content.any (fun x => x < 20 && x != 10 && x != 13) = true
  · rw [show printableStreamContent content = none by rw [printableStreamContent, if_pos hpr]] at hc2
    simp only [raw_append] at hc2
    exact absurd (List.infix_refl _) (cut_append (cut_append (cut_append (cut_append hc2).1).2).1).2
  · have hesc := view_content h38
    rw [show printableStreamContent content = some (replaceChar 62 b!"&gt;" (replaceChar 60 b!"&lt;" content)) by
      rw [printableStreamContent, if_neg hpr]] at hc2 ⊢
    obtain ⟨x, p, hx⟩ : ∃ x p, replaceChar 62 b!"&gt;" (replaceChar 60 b!"&lt;" content) = x :: p := by
      cases hq : replaceChar 62 b!"&gt;" (replaceChar 60 b!"&lt;" content) with
      | cons x p => exact ⟨x, p, rfl⟩
      | nil =>
        rw [hq] at hesc
        have := hesc.all
        exact absurd this.symm hne
    rw [hx] at hesc ⊢
    simp only [raw_append, raw_lit, raw_txt]
    have a1 := view_plain (s := b!"  \nstream\n") (by decide)
    have a2 : View b!"<details>\n<summary class=\"stream-content\">see content</summary>\n" b!"\nsee content\n" := fun rest => rfl
    have a3 : View b!"<pre class=\"detail\">" [] := fun rest => rfl
    have a4 : View b!"</pre>\n</details>\n" b!"\n\n" := fun rest => rfl
    have a5 := view_plain (s := b!"endstream\n") (by decide)
    exact (((a1.append (((a2.append a3).append hesc).append a4)).append a5)).to (by simp)

/-- A stream is shown as its dictionary, then its data (without ampersand, see `C101_ampersand_counterexample`). -/
theorem C101_stream_partial [FloatText] (rev : Rev) (depth : Nat) (d : List (Bytes × Obj)) (content enc : Bytes) (h : Html)
    (hw : WF false false (.dict d) = true) (hl : Legible (.dict d)) (e : followObj rev depth true (.stream d content enc) = .ok h)
    (hc : ¬ b!"<em> ...(truncated) </em>" <:+: h.raw) (h38 : 38 ∉ content) :
    ∃ o' t t', visible h.raw = t ++ t' ∧ Spells false false o' t ∧ pyEq (.dict d) o' = true ∧
      (content = [] → t' = []) ∧
      (content ≠ [] → t' = b!"  \nstream\n\nsee content\n" ++ content ++ b!"\n\nendstream\n") := by
  rw [followObj] at e
  obtain ⟨vs, ev, e⟩ := bind_eq_ok e
  cases e
  rw [raw_append] at hc
  obtain ⟨t, o', h1, h2, h3⟩ := follow_view rev depth true (.dict d) false false (dictText depth vs) hw hl (by rw [followObj, ev]; rfl) (by
    have := (cut_append hc).1
    exact this)
  refine ⟨o', t, visible (streamText content true).raw, by rw [raw_append, h1], h2, h3, ?_, ?_⟩
  · rintro rfl
    rfl
  · intro hne
    exact (streamText_view (cut_append hc).2 h38 hne).all

theorem hexLow_digit : ∀ n, n < 16 → (48 ≤ hexLow n ∧ hexLow n ≤ 57 ∧ (hexLow n).toNat = 48 + n) ∨ (65 ≤ hexLow n ∧ hexLow n ≤ 70 ∧ (hexLow n).toNat + 10 = 65 + n) ∨
    (97 ≤ hexLow n ∧ hexLow n ≤ 102 ∧ (hexLow n).toNat + 10 = 97 + n) := by decide

theorem hexText_spec : ∀ s : Bytes, HexText s (hexText s)
  | [] => .nil
  | c :: s => by
    have := c.toNat_lt
    exact .byte (hexLow_digit _ (by omega)) (hexLow_digit _ (by omega)) (by omega) (hexText_spec s)

theorem hexText_take : ∀ (n : Nat) (s : Bytes), (hexText s).take (2 * n) = hexText (s.take n)
  | 0, s => by simp [hexText]
  | n + 1, [] => rfl
  | n + 1, c :: s => by
    have := hexText_take n s
    show (hexLow _ :: hexLow _ :: hexText s).take (2 * (n + 1)) = hexLow _ :: hexLow _ :: hexText (s.take n)
    rw [show 2 * (n + 1) = 2 * n + 1 + 1 by omega, List.take_succ_cons, List.take_succ_cons, this]

theorem hexText_plain (s : Bytes) : ∀ c ∈ hexText s, c ≠ 60 ∧ c ≠ 38 := by
  have key : ∀ n, n < 16 → hexLow n ≠ 60 ∧ hexLow n ≠ 38 := by decide
  intro x hx
  obtain ⟨c, -, hx⟩ := List.mem_flatMap.1 hx
  have := c.toNat_lt
  simp only [List.mem_cons, List.not_mem_nil, or_false] at hx
  rcases hx with rfl | rfl
  · exact key _ (by omega)
  · exact key _ (by omega)

theorem hexText_length (s : Bytes) : (hexText s).length = 2 * s.length := by
  induction s with
  | nil => rfl
  | cons c s ih =>
    show (hexLow _ :: hexLow _ :: hexText s).length = _
    simp only [List.length_cons, ih]
    omega

/-- Data which are no text: the hexadecimal text of the first twenty-eight bytes. -/
theorem C101_data_partial (content : Bytes) (hb : ∃ c ∈ content, c < 20 ∧ c ≠ 10 ∧ c ≠ 13) (hl : 28 ≤ content.length) :
    ∃ t, HexText (content.take 28) t ∧
      visible (streamText content true).raw = b!"  \nstream\n<" ++ t ++ b!" ...(truncated) \nendstream\n" := by
  refine ⟨hexText (content.take 28), hexText_spec _, ?_⟩
  obtain ⟨c, hc, h1, h2, h3⟩ := hb
  have hne : content ≠ [] := List.ne_nil_of_mem hc
  unfold streamText
  rw [if_pos ⟨hne, rfl⟩, show printableStreamContent content = none by
    rw [printableStreamContent, if_pos]
    exact List.any_eq_true.2 ⟨c, hc, by simp [h1, h2, h3]⟩]
  have htake : Html.raw ((lit b!"&lt;" ++ txt (hexText content) ++ lit b!"&gt;").take 60) = b!"&lt;" ++ hexText (content.take 28) := by
    rw [raw_take, raw_append, raw_append, raw_lit, raw_txt, raw_lit, List.take_append_of_le_length (by
      rw [List.length_append, hexText_length]
      simp only [List.length_cons, List.length_nil]
      omega), ← hexText_take]
    rfl
  simp only [raw_append, htake, raw_lit]
  have a1 := view_plain (s := b!"  \nstream\n") (by decide)
  have a2 : View b!"&lt;" b!"<" := view_escape b!"<"
  have a3 := view_plain (hexText_plain (content.take 28))
  have a4 : View truncated.raw b!" ...(truncated) " := fun rest => rfl
  have a5 := view_plain (s := b!"\n") (by decide)
  have a6 := view_plain (s := b!"endstream\n") (by decide)
  have := ((a1.append (((a2.append a3).append a4).append a5)).append a6).all
  simpa using this

/-- Both kinds of data. -/
example [FloatText] : (followObj [] 0 true (.stream [(b!"/Length", .int 9)] b!"1 < 2 > 0" b!"1 < 2 > 0")).map (fun h => visible h.raw) =
      .ok b!"<<\n  /Length             9\n>>  \nstream\n\nsee content\n1 < 2 > 0\n\nendstream\n" ∧
    visible (streamText (List.replicate 30 3) true).raw =
      b!"  \nstream\n<03030303030303030303030303030303030303030303030303030303 ...(truncated) \nendstream\n" :=
  ⟨by kernel_rfl, by kernel_rfl⟩

/-! ### What is shown otherwise -/

/-- The ampersands of the data are not escaped. -/
theorem C101_ampersand_counterexample : visible (streamText b!"(a &lt; b) Tj" true).raw =
    b!"  \nstream\n\nsee content\n(a < b) Tj\n\nendstream\n" := by kernel_rfl

/-- The booleans are shown with the words of Python, which are other words for the parser. -/
theorem C101_bool_counterexample [Zlib] [FloatText] : (followObj [] 0 true (.bool true)).map (fun h => visible h.raw) = .ok b!"True" ∧
    parseObj b!"True\n" 0 = .ok (.str b!"True") := ⟨by kernel_rfl, by kernel_rfl⟩

/-- The backslashes of the strings are doubled. -/
theorem C101_backslash_counterexample [FloatText] : (followObj [] 0 true (.bytes b!"(a\\nb)")).map (fun h => visible h.raw) = .ok b!"(a\\\\nb)" := by
  kernel_rfl

/-- A key of twenty characters is glued to its value. -/
theorem C101_key_counterexample [Zlib] [FloatText] : (followObj [] 0 true (.dict [(b!"/StructParentsOfPage", .int 1)])).map (fun h => visible h.raw) =
      .ok b!"<<\n  /StructParentsOfPage1\n>>" ∧
    (parseObj b!"<<\n  /StructParentsOfPage1\n>>" 0).map (pyEq (.dict [(b!"/StructParentsOfPage", .int 1)])) ≠ .ok true := by
  refine ⟨by kernel_rfl, ?_⟩
  have : (parseObj b!"<<\n  /StructParentsOfPage1\n>>" 0).map (pyEq (.dict [(b!"/StructParentsOfPage", .int 1)])) = .ok false := by kernel_rfl
  rw [this]
  simp

/-- The keys are not escaped: what looks like an entity is shown as another character. -/
theorem C101_entity_counterexample [FloatText] : (followObj [] 0 true (.dict [(b!"/A&lt;", .int 1)])).map (fun h => visible h.raw) =
    .ok b!"<<\n  /A<              1\n>>" := by kernel_rfl

end Pdf
