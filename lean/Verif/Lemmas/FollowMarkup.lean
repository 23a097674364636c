/-
The text of an object in the HTML view is well-formed markup (display.py:476-548).
-/
import Verif.Props.C55_Html
import Verif.Lemmas.Markup
import Verif.Lemmas.Markdown

namespace Pdf
open Spec

@[simp] theorem raw_append (a b : Html) : Html.raw (a ++ b) = Html.raw a ++ Html.raw b := by simp [Html.raw]
@[simp] theorem raw_lit (s : Bytes) : Html.raw (lit s) = s := by
  induction s with
  | nil => rfl
  | cons c s ih => exact congrArg (c :: ·) ih
@[simp] theorem raw_txt (s : Bytes) : Html.raw (txt s) = s := by
  induction s with
  | nil => rfl
  | cons c s ih => exact congrArg (c :: ·) ih
@[simp] theorem raw_nil : Html.raw [] = [] := rfl
theorem raw_take (n : Nat) (a : Html) : Html.raw (a.take n) = (Html.raw a).take n := by simp [Html.raw, List.map_take]
theorem raw_length (a : Html) : (Html.raw a).length = a.length := by simp [Html.raw]
theorem raw_flatMap {α : Type} (f : α → Html) (l : List α) : Html.raw (l.flatMap f) = l.flatMap fun x => Html.raw (f x) := by
  induction l with
  | nil => rfl
  | cons x l ih => rw [List.flatMap_cons, List.flatMap_cons, raw_append, ih]

/-! ### What is asked of the objects -/

namespace Spec

/-- A value that is shown without markup: neither a reference, an array, a dictionary nor a string of more than 30 bytes. -/
def Bare : Obj → Prop
  | .bytes s => s.take 1 = b!"(" → s.length ≤ 30
  | .ref _ _ => False
  | .list _ => False
  | .dict _ => False
  | .stream _ _ _ => False
  | _ => True

/-- What may be an item of an array: no stream, no dictionary with the key `/JS`. -/
def Listable : Obj → Prop
  | .stream _ _ _ => False
  | .dict d => ∀ p ∈ d, p.1 ≠ b!"/JS"
  | _ => True

mutual
/-- Everywhere in the object, the values of `/Prev` are bare, and no array holds a stream or a dictionary with the key `/JS`. -/
def Tidy : Obj → Prop
  | .list l => TidyItems l
  | .dict d => TidyEntries d
  | .stream d _ _ => TidyEntries d
  | _ => True
def TidyItems : List Obj → Prop
  | [] => True
  | o :: l => Listable o ∧ Tidy o ∧ TidyItems l
def TidyEntries : List (Bytes × Obj) → Prop
  | [] => True
  | (k, v) :: d => (k = b!"/Prev" → Bare v) ∧ Tidy v ∧ TidyEntries d
end

end Spec

/-! ### Pieces -/

/-- Well-formed text without id. -/
def Fine (s : Bytes) : Prop := ∃ hrefs, Marked s [] hrefs

theorem Fine.text {s : Bytes} (h : IsText s) : Fine s := ⟨[], .text h⟩

theorem Fine.append {s t : Bytes} (h : Fine s) (h' : Fine t) : Fine (s ++ t) := by
  obtain ⟨l, h⟩ := h
  obtain ⟨l', h'⟩ := h'
  exact ⟨l ++ l', by simpa using h.append h'⟩

theorem Fine.elem (name : Bytes) (attrs : Attrs) {body : Bytes} (hn : IsName name ∧ name ∉ voids) (ha : AttrsOk attrs)
    (hi : idOf attrs = []) (h : Fine body) : Fine (openTag name attrs ++ body ++ closeTag name) := by
  obtain ⟨l, h⟩ := h
  exact ⟨_, by simpa [hi] using Marked.elem name attrs hn ha h⟩

theorem Fine.of_eq {s t : Bytes} (h : Fine t) (e : s = t) : Fine s := e ▸ h

theorem fine_flatMap {α : Type} {f : α → Bytes} : ∀ {l : List α}, (∀ x ∈ l, Fine (f x)) → Fine (l.flatMap f)
  | [], _ => .text (by intro c hc; cases hc)
  | x :: l, h => by
    rw [List.flatMap_cons]
    exact .append (h x List.mem_cons_self) (fine_flatMap fun y hy => h y (List.mem_cons_of_mem _ hy))

theorem fine_truncated : Fine truncated.raw :=
  (Fine.elem b!"em" [] (body := b!" ...(truncated) ") (by decide) attrsOk_nil rfl (.text (by decide))).of_eq (by decide)

theorem isText_replicate (n : Nat) : IsText (List.replicate n 32) := by
  intro c hc
  rw [(List.mem_replicate.1 hc).2]
  decide

theorem padName_text {k : Bytes} (h : IsText k) : IsText (padName k).raw := by
  unfold padName
  rw [raw_txt]
  exact isText_append h (isText_replicate _)

theorem entryLine_fine (depth : Nat) {k : Bytes} {v : Html} (hk : IsText k) (hv : Fine v.raw) (hp : k = b!"/Prev" → IsValue v.raw) :
    Fine (entryLine depth k v).raw := by
  have hpad := Fine.text (padName_text hk)
  have two : Fine b!"  " := .text (by decide)
  have nl : Fine b!"\n" := .text (by decide)
  unfold entryLine
  rw [raw_append, raw_lit]
  refine .append (.text (isText_replicate _)) ?_
  split
  · exact ((two.append hpad).append ((Fine.elem b!"span" [(b!"class", b!"important")] (by decide)
      (attrsOk_cons (by decide) (by decide) attrsOk_nil) rfl hv).append nl)).of_eq (by
        simp [openTag, closeTag, attrText])
  split
  · exact (two.append ((Fine.elem b!"span" [(b!"class", b!"warning")] (by decide)
      (attrsOk_cons (by decide) (by decide) attrsOk_nil) rfl hpad).append (hv.append nl))).of_eq (by
        simp [openTag, closeTag, attrText])
  split
  · exact ((two.append hpad).append ((Fine.elem b!"span" [(b!"class", b!"warning")] (by decide)
      (attrsOk_cons (by decide) (by decide) attrsOk_nil) rfl hv).append nl)).of_eq (by
        simp [openTag, closeTag, attrText])
  split
  · rename_i hpr
    exact ((two.append hpad).append ((Fine.elem b!"a" [(b!"class", b!"obj-link"), (b!"href", b!"#idx" ++ v.raw)] (by decide)
      (attrsOk_cons (by decide) (by decide) (attrsOk_cons (by decide) (isValue_append (by decide) (hp hpr)) attrsOk_nil)) rfl hv).append nl)).of_eq (by
        simp [openTag, closeTag, attrText])
  · exact ((two.append hpad).append (hv.append nl)).of_eq (by simp)

theorem dictText_fine (depth : Nat) {l : List (Bytes × Html)} (h : ∀ p ∈ l, IsText p.1 ∧ Fine p.2.raw ∧ (p.1 = b!"/Prev" → IsValue p.2.raw)) :
    Fine (dictText depth l).raw := by
  unfold dictText
  simp only [raw_append, raw_lit, raw_flatMap]
  refine .append (.append (.append (.text (by decide)) (fine_flatMap fun p hp => ?_)) (.text (isText_replicate _))) (.text (by decide))
  obtain ⟨h1, h2, h3⟩ := h p (moveItem_mem (moveItem_mem hp))
  exact entryLine_fine depth h1 h2 h3

theorem isText_take {s : Bytes} (n : Nat) (h : IsText s) : IsText (s.take n) := fun c hc => h c (List.mem_of_mem_take hc)

theorem streamText_fine (c : Bytes) (b : Bool) : Fine (streamText c b).raw := by
  unfold streamText
  split
  · simp only [raw_append, raw_lit]
    refine .append (.append (.text (by decide)) ?_) (.text (by decide))
    split
    · rename_i x p hp
      have hb := Fine.text (C55_stream_content _ _ hp)
      have hs := Fine.elem b!"summary" [(b!"class", b!"stream-content")] (by decide)
        (attrsOk_cons (by decide) (by decide) attrsOk_nil) rfl (.text (s := b!"see content") (by decide))
      have hpre := Fine.elem b!"pre" [(b!"class", b!"detail")] (by decide) (attrsOk_cons (by decide) (by decide) attrsOk_nil) rfl hb
      exact ((Fine.elem b!"details" [] (by decide) attrsOk_nil rfl
        ((Fine.text (s := b!"\n") (by decide)).append (hs.append ((Fine.text (s := b!"\n") (by decide)).append
          (hpre.append (.text (s := b!"\n") (by decide))))))).append (.text (s := b!"\n") (by decide))).of_eq (by
        simp [openTag, closeTag, attrText])
    · rw [raw_append, raw_append, raw_take, raw_append, raw_append, raw_lit, raw_lit, raw_txt]
      exact .append (.append (.text (isText_take _ (isText_append (isText_append (by decide) (hexText_noAngle c)) (by decide)))) fine_truncated)
        (.text (by rw [raw_lit]; decide))
  · exact .text (by intro c hc; cases hc)

theorem digit_value {c : UInt8} (h : isDigit c = true) : c ≠ 34 ∧ c ≠ 60 ∧ c ≠ 62 := by
  simp only [isDigit, Bool.and_eq_true, decide_eq_true_eq] at h
  refine ⟨?_, ?_, ?_⟩ <;> rintro rfl <;> revert h <;> decide

theorem natDec_value (n : Nat) : IsValue (natDec n) := fun c hc => digit_value (List.all_eq_true.1 (natDecAux_all _ _) c hc)

theorem isValue_cons {c : UInt8} {s : Bytes} (hc : c ≠ 34 ∧ c ≠ 60 ∧ c ≠ 62) (hs : IsValue s) : IsValue (c :: s) := by
  intro x hx
  rcases List.mem_cons.1 hx with rfl | hx
  · exact hc
  · exact hs x hx

theorem isValue_text {s : Bytes} (h : IsValue s) : IsText s := fun c hc => (h c hc).2

theorem intDec_value (n : Int) : IsValue (intDec n) := by
  unfold intDec
  split
  · exact natDec_value _
  · exact isValue_cons (by decide) (natDec_value _)

theorem floatText_value [FloatText] (loc : Int) (rank : Nat) : IsValue (FloatText.text loc rank) := by
  intro c hc
  rcases FloatText.plain loc rank c hc with h | h
  · exact digit_value h
  · refine ⟨?_, ?_, ?_⟩ <;> rintro rfl <;> revert h <;> decide

theorem posText_value [FloatText] {p : Option Pos} {s : Bytes} (h : posText p = .ok s) : IsValue s := by
  unfold posText at h
  split at h <;> cases h
  · decide
  · exact intDec_value _
  · exact isValue_append (isValue_append (isValue_append (isValue_append (by decide) (natDec_value _)) (by decide))
      (natDec_value _)) (by decide)
  · exact floatText_value _ _

theorem refText_fine [FloatText] {rev : Rev} {g n : Int} {h : Html} (e : refText rev g n = .ok h) : Fine h.raw ∧ b!"href" <:+: h.raw := by
  unfold refText at e
  split at e
  · cases e
  · obtain ⟨s, -, e⟩ := bind_eq_ok e
    split at e
    · cases e
    · cases e
    · rename_i en
      obtain ⟨p, hp, e⟩ := bind_eq_ok e
      cases e
      have ht : IsText (intDec n ++ b!" " ++ intDec g ++ b!" R") :=
        isText_append (isText_append (isText_append (isValue_text (intDec_value _)) (by decide)) (isValue_text (intDec_value _))) (by decide)
      constructor
      · exact (Fine.elem b!"a" [(b!"href", b!"#idx" ++ p)] (by decide)
          (attrsOk_cons (by decide) (isValue_append (by decide) (posText_value hp)) attrsOk_nil) rfl
          (Fine.elem b!"span" [(b!"class", b!"obj-link")] (by decide) (attrsOk_cons (by decide) (by decide) attrsOk_nil) rfl (.text ht))).of_eq (by
            simp [openTag, closeTag, attrText])
      · refine ⟨b!"<a ", b!"=\"#idx" ++ p ++ b!"\"><span class=\"obj-link\">" ++ (intDec n ++ b!" " ++ intDec g ++ b!" R") ++ b!"</span></a>", ?_⟩
        simp

theorem htmlEscape_value (s : Bytes) : IsValue (htmlEscape s) := by
  intro x hx
  refine ⟨?_, htmlEscape_noAngle s x hx⟩
  unfold htmlEscape at hx
  rcases mem_replaceChar hx with h | ⟨-, h⟩
  · rintro rfl; revert h; decide
  rcases mem_replaceChar h with h | ⟨n, -⟩
  · rintro rfl; revert h; decide
  · exact n

theorem replaceChar_length {c : UInt8} {r : Bytes} (hr : r ≠ []) (s : Bytes) : s.length ≤ (replaceChar c r s).length := by
  unfold replaceChar
  induction s with
  | nil => exact Nat.zero_le _
  | cons x s ih =>
    rw [List.flatMap_cons, List.length_append, List.length_cons]
    have : 1 ≤ (if x = c then r else [x]).length := by
      split
      · exact List.length_pos_iff.2 hr
      · exact Nat.le_refl _
    omega

theorem htmlEscape_length (s : Bytes) : s.length ≤ (htmlEscape s).length := by
  unfold htmlEscape
  refine Nat.le_trans ?_ (replaceChar_length (by decide) _)
  refine Nat.le_trans ?_ (replaceChar_length (by decide) _)
  refine Nat.le_trans ?_ (replaceChar_length (by decide) _)
  refine Nat.le_trans ?_ (replaceChar_length (by decide) _)
  exact replaceChar_length (by decide) _

theorem flatMap_length_ge {α β : Type} {f : α → List β} (h : ∀ x, 1 ≤ (f x).length) : ∀ l : List α, l.length ≤ (l.flatMap f).length
  | [] => Nat.zero_le _
  | x :: l => by
    have := flatMap_length_ge h l
    have := h x
    rw [List.flatMap_cons, List.length_append, List.length_cons]
    omega

theorem reprBytes_length (s : Bytes) : s.length ≤ ((reprBytes s).drop 1).dropLast.length := by
  unfold reprBytes
  simp only [List.cons_append, List.nil_append, List.drop_succ_cons, List.drop_zero, List.dropLast_concat]
  refine flatMap_length_ge (fun c => ?_) s
  repeat' split
  all_goals simp

/-- A value that is neither a reference nor a collection. -/
theorem scalarText_fine {o : Obj} {h : Html} (e : scalarText o = .ok h) : Fine h.raw ∧ IsText (h.raw.take 30) ∧ (Bare o → IsValue h.raw) := by
  have easy : ∀ s : Bytes, Fine (txt (htmlEscape s)).raw ∧ IsText ((txt (htmlEscape s)).raw.take 30) ∧ IsValue (txt (htmlEscape s)).raw := by
    intro s
    rw [raw_txt]
    exact ⟨.text (htmlEscape_noAngle s), isText_take _ (htmlEscape_noAngle s), htmlEscape_value s⟩
  have easy' : ∀ s : Bytes, Fine (txt (htmlEscape s)).raw ∧ IsText ((txt (htmlEscape s)).raw.take 30) ∧ (Bare o → IsValue (txt (htmlEscape s)).raw) :=
    fun s => ⟨(easy s).1, (easy s).2.1, fun _ => (easy s).2.2⟩
  unfold scalarText at e
  split at e
  · cases e; exact easy' _
  · cases e; exact easy' _
  · cases e; exact easy' _
  · cases e; exact easy' _
  · cases e; exact easy' _
  · rename_i s
    split at e
    · rename_i hp
      by_cases hl : 30 < s.length
      · simp only [if_pos hl] at e
        cases e
        have hlen : 30 ≤ (htmlEscape ((reprBytes (s.take 30)).drop 1).dropLast).length := by
          have a := reprBytes_length (s.take 30)
          have b := htmlEscape_length ((reprBytes (s.take 30)).drop 1).dropLast
          rw [List.length_take] at a
          omega
        rw [raw_append, raw_txt]
        refine ⟨.append (.text (htmlEscape_noAngle _)) fine_truncated, ?_, fun hb => ?_⟩
        · rw [List.take_append_of_le_length hlen]
          exact isText_take _ (htmlEscape_noAngle _)
        · have : s.length ≤ 30 := hb hp
          omega
      · simp only [if_neg hl] at e
        cases e
        rw [List.append_nil]
        exact easy' _
    · split at e
      · cases e; exact easy' _
      · cases e
  · cases e

/-- If the text of an array has no link, its first 30 characters have no tag. -/
def Start (s : Bytes) : Prop := ¬ b!"href" <:+: s → IsText (s.take 30)

theorem start_append {s t : Bytes} (hs : Start s) (ht : Start t) : Start (s ++ t) := by
  intro h
  have h1 := hs fun hi => h (hi.trans (List.infix_append' [] s t))
  have h2 := ht fun hi => h (hi.trans ⟨s, [], by simp⟩)
  rw [List.take_append]
  refine isText_append h1 ?_
  intro c hc
  exact h2 c ((List.take_sublist_take_left (Nat.sub_le 30 s.length)).subset hc)

theorem start_text {s : Bytes} (h : IsText s) : Start s := fun _ => isText_take _ h

theorem infix_find {s p : Bytes} (hp : p ≠ []) (h : find s p 0 = none) : ¬ p <:+: s := by
  rintro ⟨a, b, rfl⟩
  exact find_none hp h a.length (Nat.zero_le _) (by rw [List.append_assoc, List.drop_left]; exact List.prefix_append _ _)

theorem start_of_long {a b : Bytes} (ha : IsText a) (h : 30 ≤ a.length) : Start (a ++ b) := by
  intro _
  rw [List.take_append_of_le_length h]
  exact isText_take _ ha

theorem padName_length (k : Bytes) : 20 ≤ (padName k).raw.length := by
  unfold padName
  rw [raw_txt, List.length_append, List.length_replicate]
  omega

theorem entryLine_head {k : Bytes} (v : Html) (hk : IsText k) (hj : k ≠ b!"/JS") :
    ∃ a b, (entryLine 0 k v).raw = a ++ b ∧ IsText a ∧ 22 ≤ a.length := by
  have e : ∀ r : Html, ∃ a b, Html.raw (lit b!"  " ++ padName k ++ r) = a ++ b ∧ IsText a ∧ 22 ≤ a.length := fun r =>
    ⟨b!"  " ++ (padName k).raw, r.raw, by simp, isText_append (by decide) (padName_text hk), by
      have := padName_length k
      rw [List.length_append]
      have h2 : (b!"  ").length = 2 := rfl
      omega⟩
  unfold entryLine
  rw [Nat.mul_zero, List.replicate_zero, show lit [] = [] from rfl, List.nil_append]
  split
  · simpa only [List.append_assoc] using e (lit b!"<span class=\"important\">" ++ v ++ lit b!"</span>\n")
  split
  · simpa only [List.append_assoc] using e (lit b!"<span class=\"warning\">" ++ v ++ lit b!"</span>\n")
  split
  · simpa only [List.append_assoc] using e (lit b!"<a class=\"obj-link\" href=\"#idx" ++ v ++ lit b!"\">" ++ v ++ lit b!"</a>\n")
  · simpa only [List.append_assoc] using e (v ++ lit b!"\n")

theorem dictText_start {l : List (Bytes × Html)} (h : ∀ p ∈ l, IsText p.1) (hj : ∀ p ∈ l, p.1 ≠ b!"/JS") : Start (dictText 0 l).raw := by
  unfold dictText
  simp only [raw_append, raw_lit, raw_flatMap, Nat.mul_zero, List.replicate_zero, List.append_nil]
  have hm : ∀ p ∈ moveItem (moveItem l b!"/Type" 0) b!"/Subtype" 1, IsText p.1 ∧ p.1 ≠ b!"/JS" :=
    fun p hp => ⟨h p (moveItem_mem (moveItem_mem hp)), hj p (moveItem_mem (moveItem_mem hp))⟩
  generalize moveItem (moveItem l b!"/Type" 0) b!"/Subtype" 1 = m at hm
  cases m with
  | nil => exact start_text (by decide)
  | cons p m =>
    obtain ⟨a, b, e, ha, hl⟩ := entryLine_head p.2 (hm p List.mem_cons_self).1 (hm p List.mem_cons_self).2
    rw [List.flatMap_cons, e]
    have : b!"&lt;&lt;\n" ++ (a ++ b ++ m.flatMap fun x => (entryLine 0 x.1 x.2).raw) ++ b!"&gt;&gt;" =
        (b!"&lt;&lt;\n" ++ a) ++ (b ++ (m.flatMap fun x => (entryLine 0 x.1 x.2).raw) ++ b!"&gt;&gt;") := by simp
    rw [this]
    refine start_of_long (isText_append (by decide) ha) ?_
    rw [List.length_append]
    have h2 : (b!"&lt;&lt;\n").length = 9 := rfl
    omega

theorem start_nil : Start [] := start_text (by decide)

/-- An array, given the text of its items. -/
theorem listText_fine {body : Html} (hf : Fine body.raw) (hs : Start body.raw) :
    let ret := lit b!"[ " ++ body
    let t : Html := (if 30 < ret.length ∧ (find ret.raw b!"href" 0) = none then ret.take 30 ++ truncated else ret) ++ lit b!"]"
    Fine t.raw ∧ Start t.raw := by
  intro ret t
  have hf' : Fine ret.raw := by
    rw [raw_append, raw_lit]
    exact .append (.text (by decide)) hf
  have hs' : Start ret.raw := by
    rw [raw_append, raw_lit]
    exact start_append (start_text (by decide)) hs
  have ht : Html.raw (lit b!"]") = b!"]" := raw_lit _
  rw [show t.raw = _ from raw_append _ _, ht]
  split
  · rename_i hc
    have h30 := hs' (infix_find (by decide) hc.2)
    rw [raw_append, raw_take]
    refine ⟨.append (.append (.text h30) fine_truncated) (.text (by decide)), ?_⟩
    rw [List.append_assoc]
    refine start_of_long h30 ?_
    rw [List.length_take, raw_length]
    omega
  · exact ⟨.append hf' (.text (by decide)), start_append hs' (start_text (by decide))⟩

theorem scalar_fine {o : Obj} {h : Html} {depth : Nat} (e : scalarText o = .ok h) :
    Fine h.raw ∧ (Bare o → IsValue h.raw) ∧ (Listable o → depth = 0 → Start h.raw) := by
  obtain ⟨a, b, c⟩ := scalarText_fine e
  exact ⟨a, c, fun _ _ _ => b⟩

mutual
theorem followObj_fine [FloatText] (rev : Rev) : ∀ (depth : Nat) (disp : Bool) (o : Obj) (h : Html), strsIn NoAngle o → Tidy o →
    followObj rev depth disp o = .ok h → Fine h.raw ∧ (Bare o → IsValue h.raw) ∧ (Listable o → depth = 0 → Start h.raw)
  | depth, disp, .ref g n, h, _, _, e => by
    rw [followObj] at e
    obtain ⟨h1, h2⟩ := refText_fine e
    exact ⟨h1, fun hb => False.elim hb, fun _ _ hn => absurd h2 hn⟩
  | depth, disp, .dict d, h, hs, ht, e => by
    rw [followObj] at e
    obtain ⟨l, hl, e⟩ := bind_eq_ok e
    cases e
    have hent := followEntries_fine rev depth d l hs ht hl
    refine ⟨dictText_fine _ fun p hp => ⟨(hent p hp).1, (hent p hp).2.1, (hent p hp).2.2.1⟩, fun hb => False.elim hb, ?_⟩
    rintro hli rfl
    refine dictText_start (fun p hp => (hent p hp).1) fun p hp => ?_
    obtain ⟨q, hq, e⟩ := (hent p hp).2.2.2
    rw [← e]
    exact hli q hq
  | depth, disp, .stream d c _, h, hs, ht, e => by
    rw [followObj] at e
    obtain ⟨l, hl, e⟩ := bind_eq_ok e
    cases e
    have hent := followEntries_fine rev depth d l hs ht hl
    refine ⟨?_, fun hb => False.elim hb, fun hli => False.elim hli⟩
    rw [raw_append]
    exact .append (dictText_fine _ fun p hp => ⟨(hent p hp).1, (hent p hp).2.1, (hent p hp).2.2.1⟩) (streamText_fine _ _)
  | depth, disp, .list l, h, hs, ht, e => by
    rw [followObj] at e
    obtain ⟨b, hb, e⟩ := bind_eq_ok e
    obtain ⟨h1, h2⟩ := followItems_fine rev l b hs ht hb
    have := listText_fine h1 h2
    cases e
    exact ⟨this.1, fun hb => False.elim hb, fun _ _ => this.2⟩
  | depth, disp, .null, h, _, _, e => by rw [followObj] at e; exact scalar_fine e; all_goals simp
  | depth, disp, .bool _, h, _, _, e => by rw [followObj] at e; exact scalar_fine e; all_goals simp
  | depth, disp, .int _, h, _, _, e => by rw [followObj] at e; exact scalar_fine e; all_goals simp
  | depth, disp, .real _ _ _, h, _, _, e => by rw [followObj] at e; exact scalar_fine e; all_goals simp
  | depth, disp, .str _, h, _, _, e => by rw [followObj] at e; exact scalar_fine e; all_goals simp
  | depth, disp, .bytes _, h, _, _, e => by rw [followObj] at e; exact scalar_fine e; all_goals simp
theorem followEntries_fine [FloatText] (rev : Rev) : ∀ (depth : Nat) (d : List (Bytes × Obj)) (l : List (Bytes × Html)),
    strsEntries NoAngle d → TidyEntries d → followEntries rev depth d = .ok l →
    ∀ p ∈ l, IsText p.1 ∧ Fine p.2.raw ∧ (p.1 = b!"/Prev" → IsValue p.2.raw) ∧ ∃ q ∈ d, q.1 = p.1
  | depth, [], l, _, _, e => by rw [followEntries] at e; cases e; simp
  | depth, (k, v) :: d, l, hs, ht, e => by
    rw [followEntries] at e
    obtain ⟨x, hx, e⟩ := bind_eq_ok e
    obtain ⟨r, hr, e⟩ := bind_eq_ok e
    cases e
    obtain ⟨h1, h2, h3⟩ := hs
    obtain ⟨t1, t2, t3⟩ := ht
    intro p hp
    rcases List.mem_cons.1 hp with rfl | hp
    · obtain ⟨f1, f2, -⟩ := followObj_fine rev _ _ v x h2 t2 hx
      exact ⟨h1, f1, fun hk => f2 (t1 hk), _, List.mem_cons_self, rfl⟩
    · obtain ⟨a, b, c, q, hq, e⟩ := followEntries_fine rev depth d r h3 t3 hr p hp
      exact ⟨a, b, c, q, List.mem_cons_of_mem _ hq, e⟩
theorem followItems_fine [FloatText] (rev : Rev) : ∀ (l : List Obj) (h : Html), strsItems NoAngle l → TidyItems l →
    followItems rev l = .ok h → Fine h.raw ∧ Start h.raw
  | [], h, _, _, e => by rw [followItems] at e; cases e; exact ⟨.text (by decide), start_nil⟩
  | o :: l, h, hs, ht, e => by
    rw [followItems] at e
    obtain ⟨x, hx, e⟩ := bind_eq_ok e
    obtain ⟨r, hr, e⟩ := bind_eq_ok e
    cases e
    obtain ⟨h1, h2⟩ := hs
    obtain ⟨t1, t2, t3⟩ := ht
    obtain ⟨f1, -, f3⟩ := followObj_fine rev _ _ o x h1 t2 hx
    obtain ⟨g1, g2⟩ := followItems_fine rev l r h2 t3 hr
    rw [raw_append, raw_append, raw_lit]
    exact ⟨.append (.append f1 (.text (by decide))) g1, start_append (start_append (f3 t1 rfl) (start_text (by decide))) g2⟩
end

end Pdf
