/-
C55: what the HTML view takes from the file.
-/
import Verif.Model.Display
import Verif.Lemmas.Names
import Verif.Lemmas.Dec
import Verif.Lemmas.KernelRfl

namespace Pdf
open Spec

/-- No raw angle bracket. -/
def NoAngle (s : Bytes) : Prop := ∀ c ∈ s, c ≠ 60 ∧ c ≠ 62

/-- No raw angle bracket in what is taken from the file. -/
def SafeHtml (h : Html) : Prop := ∀ p ∈ h, p.2 = true → p.1 ≠ 60 ∧ p.1 ≠ 62

instance (s : Bytes) : Decidable (NoAngle s) := inferInstanceAs (Decidable (∀ c ∈ s, c ≠ 60 ∧ c ≠ 62))

theorem safe_lit (s : Bytes) : SafeHtml (lit s) := by
  intro p hp ht
  obtain ⟨c, -, rfl⟩ := List.mem_map.1 hp
  cases ht

theorem safe_txt {s : Bytes} (h : NoAngle s) : SafeHtml (txt s) := by
  intro p hp ht
  obtain ⟨c, hc, rfl⟩ := List.mem_map.1 hp
  exact h c hc

theorem safe_append {a b : Html} (ha : SafeHtml a) (hb : SafeHtml b) : SafeHtml (a ++ b) := by
  intro p hp
  rcases List.mem_append.1 hp with hp | hp
  · exact ha p hp
  · exact hb p hp

theorem safe_take {a : Html} (n : Nat) (ha : SafeHtml a) : SafeHtml (a.take n) :=
  fun p hp => ha p (List.mem_of_mem_take hp)

theorem safe_nil : SafeHtml [] := fun _ hp => absurd hp (by simp)

theorem noAngle_append {a b : Bytes} (ha : NoAngle a) (hb : NoAngle b) : NoAngle (a ++ b) := by
  intro c hc
  rcases List.mem_append.1 hc with hc | hc
  · exact ha c hc
  · exact hb c hc

theorem noAngle_cons {c : UInt8} {b : Bytes} (hc : c ≠ 60 ∧ c ≠ 62) (hb : NoAngle b) : NoAngle (c :: b) := by
  intro x hx
  rcases List.mem_cons.1 hx with rfl | hx
  · exact hc
  · exact hb x hx

theorem noAngle_nil : NoAngle [] := fun _ h => absurd h (by simp)

theorem mem_replaceChar {c : UInt8} {r s : Bytes} {x : UInt8} (h : x ∈ replaceChar c r s) :
    x ∈ r ∨ (x ≠ c ∧ x ∈ s) := by
  obtain ⟨y, hy, hx⟩ := List.mem_flatMap.1 h
  split at hx
  · exact .inl hx
  · rename_i hne
    rw [List.mem_singleton] at hx
    subst hx
    exact .inr ⟨hne, hy⟩

theorem htmlEscape_noAngle (s : Bytes) : NoAngle (htmlEscape s) := by
  intro x hx
  unfold htmlEscape at hx
  rcases mem_replaceChar hx with h | ⟨-, h⟩
  · exact (by decide : NoAngle b!"&#x27;") x h
  rcases mem_replaceChar h with h | ⟨-, h⟩
  · exact (by decide : NoAngle b!"&quot;") x h
  rcases mem_replaceChar h with h | ⟨n62, h⟩
  · exact (by decide : NoAngle b!"&gt;") x h
  rcases mem_replaceChar h with h | ⟨n60, h⟩
  · exact (by decide : NoAngle b!"&lt;") x h
  exact ⟨n60, n62⟩

theorem hexLow_noAngle : ∀ n, n < 16 → hexLow n ≠ 60 ∧ hexLow n ≠ 62 := by decide

theorem hexText_noAngle (s : Bytes) : NoAngle (hexText s) := by
  intro x hx
  obtain ⟨c, -, hx⟩ := List.mem_flatMap.1 hx
  have := UInt8.toNat_lt c
  rcases List.mem_cons.1 hx with rfl | hx
  · exact hexLow_noAngle _ (by omega)
  · rw [List.mem_singleton] at hx
    subst hx
    exact hexLow_noAngle _ (by omega)

theorem natDecAux_noAngle : ∀ (f n : Nat), NoAngle (natDecAux f n) := by
  intro f n x hx
  have := List.all_eq_true.1 (natDecAux_all f n) x hx
  simp only [isDigit, Bool.and_eq_true, decide_eq_true_eq] at this
  constructor <;> rintro rfl <;> revert this <;> decide

theorem natDec_noAngle (n : Nat) : NoAngle (natDec n) := natDecAux_noAngle _ _

theorem intDec_noAngle (n : Int) : NoAngle (intDec n) := by
  unfold intDec
  split
  · exact natDec_noAngle _
  · exact noAngle_cons (by decide) (natDec_noAngle _)

/-- `printable_stream_content` escapes what it returns. -/
theorem C55_stream_content (c p : Bytes) (h : printableStreamContent c = some p) : ∀ x ∈ p, x ≠ 60 ∧ x ≠ 62 := by
  unfold printableStreamContent at h
  split at h
  · cases h
  · cases h
    intro x hx
    rcases mem_replaceChar hx with h | ⟨n62, h⟩
    · exact (by decide : NoAngle b!"&gt;") x h
    rcases mem_replaceChar h with h | ⟨n60, h⟩
    · exact (by decide : NoAngle b!"&lt;") x h
    exact ⟨n60, n62⟩

example : printableStreamContent b!"(<a>) Tj" = some b!"(&lt;a&gt;) Tj" := by decide

theorem padName_safe {k : Bytes} (h : NoAngle k) : SafeHtml (padName k) := by
  refine safe_txt (noAngle_append h fun c hc => ?_)
  rw [(List.mem_replicate.1 hc).2]
  decide

theorem entryLine_safe (depth : Nat) {k : Bytes} {v : Html} (hk : NoAngle k) (hv : SafeHtml v) :
    SafeHtml (entryLine depth k v) := by
  have hp := padName_safe hk
  unfold entryLine
  refine safe_append (safe_lit _) ?_
  repeat' split
  all_goals repeat' first | exact safe_lit _ | exact hp | exact hv | apply safe_append

theorem moveItem_mem {l : List (Bytes × Html)} {k : Bytes} {n : Nat} {p : Bytes × Html}
    (h : p ∈ moveItem l k n) : p ∈ l := by
  unfold moveItem at h
  split at h
  · exact h
  · rename_i q hq
    simp only [List.mem_append, List.mem_cons] at h
    rcases h with h | rfl | h
    · exact List.mem_of_mem_eraseP (List.mem_of_mem_take h)
    · exact List.mem_of_find?_eq_some hq
    · exact List.mem_of_mem_eraseP (List.mem_of_mem_drop h)

theorem dictText_safe (depth : Nat) {l : List (Bytes × Html)} (h : ∀ p ∈ l, NoAngle p.1 ∧ SafeHtml p.2) :
    SafeHtml (dictText depth l) := by
  unfold dictText
  refine safe_append (safe_append (safe_append (safe_lit _) ?_) (safe_lit _)) (safe_lit _)
  intro q hq
  obtain ⟨p, hp, hq⟩ := List.mem_flatMap.1 hq
  obtain ⟨h1, h2⟩ := h p (moveItem_mem (moveItem_mem hp))
  exact entryLine_safe depth h1 h2 q hq

theorem streamText_safe (c : Bytes) (b : Bool) : SafeHtml (streamText c b) := by
  unfold streamText
  split
  · refine safe_append (safe_append (safe_lit _) ?_) (safe_lit _)
    split
    · rename_i x p hp
      exact safe_append (safe_append (safe_append (safe_lit _) (safe_lit _)) (safe_txt (C55_stream_content _ _ hp)))
        (safe_lit _)
    · exact safe_append (safe_append (safe_take _ (safe_append (safe_append (safe_lit _)
        (safe_txt (hexText_noAngle _))) (safe_lit _))) (safe_lit _)) (safe_lit _)
  · exact safe_nil

theorem floatText_noAngle [FloatText] (loc : Int) (rank : Nat) : NoAngle (FloatText.text loc rank) := by
  intro c hc
  rcases FloatText.plain loc rank c hc with h | h
  · simp only [isDigit, Bool.and_eq_true, decide_eq_true_eq] at h
    constructor <;> rintro rfl <;> revert h <;> decide
  · constructor <;> rintro rfl <;> revert h <;> decide

theorem posText_noAngle [FloatText] {p : Option Pos} {s : Bytes} (h : posText p = .ok s) : NoAngle s := by
  unfold posText at h
  split at h <;> cases h
  · decide
  · exact intDec_noAngle _
  · exact noAngle_append (noAngle_append (noAngle_append (noAngle_append (by decide) (natDec_noAngle _)) (by decide))
      (natDec_noAngle _)) (by decide)
  · exact floatText_noAngle _ _

theorem refText_safe [FloatText] {rev : Rev} {g n : Int} {h : Html} (e : refText rev g n = .ok h) : SafeHtml h := by
  unfold refText at e
  split at e
  · cases e
  · obtain ⟨s, -, e⟩ := bind_eq_ok e
    split at e
    · cases e
    · cases e
    · obtain ⟨p, hp, e⟩ := bind_eq_ok e
      cases e
      exact safe_append (safe_append (safe_append (safe_append (safe_lit _) (safe_txt (posText_noAngle hp)))
        (safe_lit _)) (safe_txt (noAngle_append (noAngle_append (noAngle_append (intDec_noAngle _) (by decide))
          (intDec_noAngle _)) (by decide)))) (safe_lit _)

theorem scalarText_safe {o : Obj} {h : Html} (e : scalarText o = .ok h) : SafeHtml h := by
  have esc : ∀ s, SafeHtml (txt (htmlEscape s)) := fun s => safe_txt (htmlEscape_noAngle s)
  generalize hE : htmlEscape = E at esc
  unfold scalarText at e
  rw [hE] at e
  have ok : ∀ {s : Bytes}, (.ok (txt (E s)) : Py Html) = .ok h → SafeHtml h := fun e => by
    rw [← Except.ok.inj e]; exact esc _
  split at e
  · exact ok e
  · exact ok e
  · exact ok e
  · exact ok e
  · exact ok e
  · split at e
    · rw [← Except.ok.inj e]
      refine safe_append (esc _) ?_
      split
      · exact safe_lit _
      · exact safe_nil
    · split at e
      · exact ok e
      · cases e
  · cases e

mutual
theorem followObj_safe [FloatText] (rev : Rev) : ∀ (depth : Nat) (disp : Bool) (o : Obj) (h : Html), strsIn NoAngle o →
    followObj rev depth disp o = .ok h → SafeHtml h
  | depth, disp, .ref g n, h, _, e => by rw [followObj] at e; exact refText_safe e
  | depth, disp, .dict d, h, hs, e => by
    rw [followObj] at e
    obtain ⟨l, hl, e⟩ := bind_eq_ok e
    cases e
    exact dictText_safe _ (followEntries_safe rev depth d l hs hl)
  | depth, disp, .stream d c _, h, hs, e => by
    rw [followObj] at e
    obtain ⟨l, hl, e⟩ := bind_eq_ok e
    cases e
    exact safe_append (dictText_safe _ (followEntries_safe rev depth d l hs hl)) (streamText_safe _ _)
  | depth, disp, .list l, h, hs, e => by
    rw [followObj] at e
    obtain ⟨b, hb, e⟩ := bind_eq_ok e
    have hsafe := safe_append (safe_lit b!"[ ") (followItems_safe rev l b hs hb)
    cases e
    refine safe_append ?_ (safe_lit _)
    split
    · exact safe_append (safe_take _ hsafe) (safe_lit _)
    · exact hsafe
  | depth, disp, .null, h, _, e => by rw [followObj] at e; exact scalarText_safe e; all_goals simp
  | depth, disp, .bool _, h, _, e => by rw [followObj] at e; exact scalarText_safe e; all_goals simp
  | depth, disp, .int _, h, _, e => by rw [followObj] at e; exact scalarText_safe e; all_goals simp
  | depth, disp, .real _ _ _, h, _, e => by rw [followObj] at e; exact scalarText_safe e; all_goals simp
  | depth, disp, .str _, h, _, e => by rw [followObj] at e; exact scalarText_safe e; all_goals simp
  | depth, disp, .bytes _, h, _, e => by rw [followObj] at e; exact scalarText_safe e; all_goals simp
theorem followEntries_safe [FloatText] (rev : Rev) : ∀ (depth : Nat) (d : List (Bytes × Obj)) (l : List (Bytes × Html)),
    strsEntries NoAngle d → followEntries rev depth d = .ok l → ∀ p ∈ l, NoAngle p.1 ∧ SafeHtml p.2
  | depth, [], l, _, e => by rw [followEntries] at e; cases e; simp
  | depth, (k, v) :: d, l, hs, e => by
    rw [followEntries] at e
    obtain ⟨x, hx, e⟩ := bind_eq_ok e
    obtain ⟨r, hr, e⟩ := bind_eq_ok e
    cases e
    obtain ⟨h1, h2, h3⟩ := hs
    intro p hp
    rcases List.mem_cons.1 hp with rfl | hp
    · exact ⟨h1, followObj_safe rev _ _ v x h2 hx⟩
    · exact followEntries_safe rev depth d r h3 hr p hp
theorem followItems_safe [FloatText] (rev : Rev) : ∀ (l : List Obj) (h : Html), strsItems NoAngle l →
    followItems rev l = .ok h → SafeHtml h
  | [], h, _, e => by rw [followItems] at e; cases e; exact safe_nil
  | o :: l, h, hs, e => by
    rw [followItems] at e
    obtain ⟨x, hx, e⟩ := bind_eq_ok e
    obtain ⟨r, hr, e⟩ := bind_eq_ok e
    cases e
    obtain ⟨h1, h2⟩ := hs
    exact safe_append (safe_append (followObj_safe rev _ _ o x h1 hx) (safe_lit _)) (followItems_safe rev l r h2 hr)
end

theorem word_noAngle : LexOk NoAngle := by
  refine ⟨noAngle_nil, ?_⟩
  rintro first s after hf ⟨⟨c, body, rfl, hc, hb⟩, -⟩
  have hne : c ≠ 60 ∧ c ≠ 62 := by
    rcases hf with rfl | rfl
    · revert c; decide
    · revert c; decide
  refine noAngle_cons hne fun x hx => ?_
  constructor <;> rintro rfl
  · exact hb _ hx (.inr (by decide))
  · exact hb _ hx (.inr (by decide))

/-- C55, the objects. Whatever the text an object was parsed from, `follow_obj` shows it without a raw angle bracket of
the file: strings, names, keywords, dictionary keys and stream contents.
Partial: comments, keywords of cross-reference tables and types in the minimap are shown raw
(`C55_comment_counterexample`, `C55_xref_counterexample`, `C55_minimap_counterexample`). -/
theorem C55_objects_partial [Zlib] [FloatText] (text : Bytes) (i : Nat) (o : Obj) (hp : parseObj text i = .ok o)
    (rev : Rev) (depth : Nat) (disp : Bool) (h : Html) (hf : followObj rev depth disp o = .ok h) :
    ∀ p ∈ h, p.2 = true → p.1 ≠ 60 ∧ p.1 ≠ 62 :=
  followObj_safe rev depth disp o h (parseObj_strs word_noAngle hp) hf

/-- An object with markup in a string. -/
example [Zlib] [FloatText] : parseObj b!"<< /A (<b>) >>" 0 = .ok (.dict [(b!"/A", .bytes b!"(<b>)")]) ∧
    (followObj [] 0 true (.dict [(b!"/A", .bytes b!"(<b>)")])).map Html.raw
      = .ok b!"&lt;&lt;\n  /A                  (&lt;b&gt;)\n&gt;&gt;" := by
  constructor
  · rfl
  · kernel_rfl

/-- C55, comments: raw text is shown up to ten bytes, so that nothing is wrong exactly when those hold no bracket. -/
theorem C55_comment_partial (pos : Nat) (comment : Bytes) :
    (∀ p ∈ addComment pos comment, p.2 = true → p.1 ≠ 60 ∧ p.1 ≠ 62) ↔
      (isAscii (comment.take 10) = true → ∀ c ∈ comment.take 10, c ≠ 60 ∧ c ≠ 62) := by
  have pad : NoAngle (natPad 10 pos) := by
    refine noAngle_append (fun c hc => ?_) (natDec_noAngle _)
    rw [(List.mem_replicate.1 hc).2]
    decide
  constructor
  · intro h ha c hc
    refine h (c, true) ?_ rfl
    unfold addComment
    simp only [if_pos ha, List.mem_append]
    exact .inl (.inr (List.mem_map.2 ⟨c, hc, rfl⟩))
  · intro h
    have : SafeHtml (if isAscii (comment.take 10) then txt (comment.take 10)
        else lit b!"&lt;" ++ txt (hexText comment) ++ lit b!"&gt;") := by
      split
      · rename_i ha; exact safe_txt (h ha)
      · exact safe_append (safe_append (safe_lit _) (safe_txt (hexText_noAngle _))) (safe_lit _)
    exact safe_append (safe_append (safe_append (safe_append (safe_append (safe_append (safe_lit _)
      (safe_txt (natDec_noAngle _))) (safe_lit _)) (safe_txt pad)) (safe_lit _)) this) (safe_lit _)

/-- C55 is false of comments. -/
theorem C55_comment_counterexample [Zlib] :
    (parseRegion b!"%<script>\n" 0 = .ok (some (.comment 0 9 b!"%<script>"))) ∧
    ((60, true) ∈ addComment 0 b!"%<script>") := by
  constructor
  · kernel_rfl
  · decide

/-- C55 is false of cross-reference tables: the keyword of an entry may be any text. -/
theorem C55_xref_counterexample [Zlib] :
    (parseXrefTableRaw b!"xref\n0 1\n0000000000 65535 <b>\ntrailer\n<<>>\n" 0).map (·.map (·.2.2.1))
      = .ok (some [.sub 0 1, .entry 0 0 65535 b!"<b>"]) ∧
    ∃ h, xrefRowText (.entry 0 0 65535 b!"<b>") = .ok h ∧ (60, true) ∈ h := by
  constructor
  · kernel_rfl
  · exact ⟨_, rfl, by decide⟩

/-- C55 is false of the minimap: the type of an object is shown raw. -/
theorem C55_minimap_counterexample [Zlib] :
    parseObj b!"<< /Type (<b>) >>" 0 = .ok (.dict [(b!"/Type", .bytes b!"(<b>)")]) ∧
    ∃ h, minimapLine b!"9" b!"1" (.dict [(b!"/Type", .bytes b!"(<b>)")]) = .ok h ∧ (60, true) ∈ h := by
  constructor
  · rfl
  · exact ⟨_, rfl, by decide⟩

end Pdf
