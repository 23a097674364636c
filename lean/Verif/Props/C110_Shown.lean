/-
C110: the page made by `browse`, read without its tags, shows the items of the file in their order.
-/
import Verif.Props.C101_Visible
import Verif.Props.C91_Page

namespace Pdf
open Spec

/-! ### Specification -/

/-- Blank space, spaces and ends of line. -/
def Spec.WhiteGap (g : Bytes) : Prop := ∀ c ∈ g, c = 32 ∨ c = 10

/-- The objects that use an object, after its number: nothing when there is none. -/
inductive Spec.UsesShown : List (Obj × BlockKey) → Bytes → Prop
  | none : UsesShown [] []
  | some {l : List (Obj × BlockKey)} {ws : List Bytes} : l ≠ [] →
      All₂ (fun u w => (u.1 = .int 0 ∧ w = b!"trailer ") ∨ ∃ n, n ≠ 0 ∧ u.1 = .int n ∧ w = intDec n ++ b!" ") l ws →
      UsesShown l (b!"                 used in " ++ ws.flatten)

/-- The text of an object, up to `endobj`; a stream has its data after its dictionary. The rows of a cross-reference stream
are shown apart. -/
inductive Spec.BodyShown : Obj → Bytes → Prop
  | value {o o' : Obj} {t : Bytes} : (∀ d c e, o ≠ .stream d c e) → Spells false false o' t → pyEq o o' = true →
      BodyShown o (t ++ b!"\n\nendobj")
  | empty {d : List (Bytes × Obj)} {e t : Bytes} {o' : Obj} : Dict.get? d b!"/Type" ≠ some (.str b!"/XRef") →
      Spells false false o' t → pyEq (.dict d) o' = true → BodyShown (.stream d [] e) (t ++ b!"\n\nendobj")
  | data {d : List (Bytes × Obj)} {c e t : Bytes} {o' : Obj} : Dict.get? d b!"/Type" ≠ some (.str b!"/XRef") → c ≠ [] →
      Spells false false o' t → pyEq (.dict d) o' = true →
      BodyShown (.stream d c e) (t ++ b!"  \nstream\n\nsee content\n" ++ c ++ b!"\n\nendstream\n\n\nendobj")
  | xref {d : List (Bytes × Obj)} {c e t : Bytes} {o' : Obj} : Dict.get? d b!"/Type" = some (.str b!"/XRef") →
      Spells false false o' t → pyEq (.dict d) o' = true → BodyShown (.stream d c e) t

/-- A row of a cross-reference table: the numbers of a subsection, or an entry followed, unless it is free, by the object
that it gives. -/
inductive Spec.RowShown : XRow → Bytes → Prop
  | sub {num nb : Int} : RowShown (.sub num nb) (intDec num ++ b!"  " ++ intDec nb ++ b!"\n")
  | free {off gen : Nat} {num : Int} : RowShown (.entry off num gen b!"f") (natPad 10 off ++ b!" " ++ natPad 5 gen ++ b!" f\n")
  | used {off gen : Nat} {num : Int} {kw : Bytes} : kw ≠ b!"f" → RowShown (.entry off num gen kw)
      (natPad 10 off ++ b!" " ++ natPad 5 gen ++ b!" " ++ kw ++ b!"    #" ++ intDec num ++ b!" " ++ natDec gen ++ b!"\n")

/-- A row of a cross-reference stream; nothing for the number 0. -/
inductive Spec.StreamRowShown : XSRow → Bytes → Prop
  | zero {x : XSRow} : x.num = 0 → StreamRowShown x []
  | embedded {x : XSRow} {e : Nat} : x.num ≠ 0 → x.env = some e → e ≠ 0 → StreamRowShown x
      (b!"#" ++ intDec x.num ++ b!" " ++ natDec x.gen ++ b!"    In object stream " ++ natDec e ++ b!" at " ++ natPad 10 x.offset ++ b!" " ++ x.kw ++ b!"\n")
  | direct {x : XSRow} : x.num ≠ 0 → (x.env = none ∨ x.env = some 0) → StreamRowShown x
      (b!"#" ++ intDec x.num ++ b!" " ++ natDec x.gen ++ b!"    At absolute position " ++ natPad 10 x.offset ++ b!" " ++ x.kw ++ b!"\n")

/-- What is seen of an item of the file. The number and the generation of an object of the file are those of a revision of the
index which places it there; the uses are those of `cross`. -/
inductive Spec.ItemShown (index : List Rev) (cross : List (BlockKey × Cross)) : MapItem → Bytes → Prop
  | startxref {b f : Nat} {t g g' g'' : Bytes} {n : Int} {l} : WhiteGap g → WhiteGap g' → WhiteGap g'' → pyInt t = some n →
      ItemShown index cross (.region (.startxref b f t) l) (g ++ natPad 10 b ++ b!"startxref" ++ g' ++ intDec n ++ g'')
  | comment {b f : Nat} {t g g' : Bytes} {l} : WhiteGap g → WhiteGap g' → (∀ c ∈ t.take 10, c < 128) →
      ItemShown index cross (.region (.comment b f t) l) (g ++ natPad 10 b ++ t.take 10 ++ g')
  | bytes {b f : Nat} {t x g g' : Bytes} {l} : WhiteGap g → WhiteGap g' → (∃ c ∈ t.take 10, ¬ c < 128) → HexText t x →
      ItemShown index cross (.region (.comment b f t) l) (g ++ natPad 10 b ++ b!"<" ++ x ++ b!">" ++ g')
  | object {b f n : Nat} {num gen : Int} {o : Obj} {l} {rev : Rev} {e : Entry} {c : Cross} {g u g' body g'' : Bytes} :
      WhiteGap g → WhiteGap g' → WhiteGap g'' → rev ∈ index → rev[n]? = some (.one e) → e.absPos = some (.at b) → (some (.at b), c) ∈ cross →
      UsesShown c.usedBy u → BodyShown o body →
      ItemShown index cross (.region (.indObj (some b) f num gen o) l)
        (g ++ natPad 10 b ++ natDec n ++ b!" " ++ natDec e.gen ++ b!" obj" ++ u ++ g' ++ body ++ g'')
  | embedded {bo a j : Nat} {n env : Int} {o : Obj} {c : Cross} {g u g' body g'' : Bytes} :
      WhiteGap g → WhiteGap g' → WhiteGap g'' → (some (.emb bo j), c) ∈ cross → UsesShown c.usedBy u → BodyShown o body →
      ItemShown index cross (.embedded bo a j (.int n) o env)
        (g ++ padRight 10 (intDec env ++ b!" #" ++ natDec j) ++ intDec n ++ b!" 0 obj" ++ u ++ g' ++ body ++ g'')
  | table {b f : Nat} {rows : List XRow} {tr o' : Obj} {l} {g g' t g'' : Bytes} {lines : List Bytes} :
      WhiteGap g → WhiteGap g' → WhiteGap g'' → All₂ RowShown rows lines → Spells false false o' t → pyEq tr o' = true →
      ItemShown index cross (.region (.xrefTable b f rows tr) l)
        (g ++ natPad 10 b ++ b!"XREF table & trailer" ++ g' ++ lines.flatten ++ b!"\ntrailer\n" ++ t ++ g'')
  | xrefStream {b rows t} {g : Bytes} {lines : List Bytes} : WhiteGap g → All₂ StreamRowShown (rows.map (·.2.2)) lines →
      ItemShown index cross (.xrefStream b rows t) (b!"\nstream\n\n" ++ lines.flatten ++ b!"\nendstream\n\n\nendobj" ++ g)

/-- An object whose text is shown as it is (`Legible`); no ampersand in the data of a stream. -/
def Spec.ClearObj : Obj → Prop
  | .stream d c _ => WF false false (.dict d) = true ∧ Legible (.dict d) ∧ 38 ∉ c
  | o => WF false false o = true ∧ Legible o

/-- An item whose text is shown as it is: neither `<` nor `&` in the comments and the keywords of the entries. -/
def Spec.ClearItem : MapItem → Prop
  | .region (.comment _ _ t) _ => ∀ c ∈ t.take 10, c ≠ 60 ∧ c ≠ 38
  | .region (.indObj _ _ _ _ o) _ => ClearObj o
  | .embedded _ _ _ _ o _ => ClearObj o
  | .region (.xrefTable _ _ rows tr) _ => ClearObj tr ∧ (∀ d c e, tr ≠ .stream d c e) ∧
      ∀ o n g kw, .entry o n g kw ∈ rows → ∀ c ∈ kw, c ≠ 60 ∧ c ≠ 38
  | .xrefStream _ rows _ => ∀ x ∈ rows, ∀ c ∈ x.2.2.kw, c ≠ 60 ∧ c ≠ 38
  | _ => True

/-! ### Pieces of markup -/

/-- As `View`, for a text that may begin (`a`) and end (`b`) inside a tag. -/
def Step (a b : Bool) (h t : Bytes) : Prop := ∀ rest, unentity (untag a (h ++ rest)) = t ++ unentity (untag b rest)

theorem Step.append {a b c : Bool} {h h' t t' : Bytes} (s : Step a b h t) (s' : Step b c h' t') : Step a c (h ++ h') (t ++ t') := by
  intro rest
  rw [List.append_assoc, s, s', List.append_assoc]

theorem Step.to {a b : Bool} {h t t' : Bytes} (s : Step a b h t) (e : t = t') : Step a b h t' := e ▸ s

theorem Step.view {h t : Bytes} (s : Step false false h t) : View h t := s

theorem View.step {h t : Bytes} (s : View h t) : Step false false h t := s

theorem step_in : ∀ {v : Bytes}, (∀ c ∈ v, c ≠ 62) → Step true true v []
  | [], _ => fun _ => rfl
  | c :: v, h => fun rest => by
    rw [List.cons_append]
    conv => lhs; rw [untag, if_neg (h c (by simp))]
    exact step_in (fun d hd => h d (by simp [hd])) rest

theorem step_value {v : Bytes} (h : IsValue v) : Step true true v [] := step_in fun c hc => (h c hc).2.2

theorem digit_plain {c : UInt8} (h : isDigit c = true) : c ≠ 60 ∧ c ≠ 38 := by
  constructor <;> (rintro rfl; revert h; decide)

theorem step_pad (w n : Nat) : Step false false (natPad w n) (natPad w n) := view_plain fun _ hc => digit_plain (natPad_mem hc)

theorem natDec_plain (n : Nat) : ∀ c ∈ natDec n, c ≠ 60 ∧ c ≠ 38 := fun c hc => digit_plain (List.all_eq_true.1 (natDec_all n) c hc)

theorem intDec_plain (n : Int) : ∀ c ∈ intDec n, c ≠ 60 ∧ c ≠ 38 := by
  intro c hc
  have key : ∀ c ∈ (b!"-0123456789" : Bytes), c ≠ 60 ∧ c ≠ 38 := by decide
  exact key c (intDec_char n c hc)

theorem step_nat (n : Nat) : Step false false (natDec n) (natDec n) := view_plain (natDec_plain n)
theorem step_int (n : Int) : Step false false (intDec n) (intDec n) := view_plain (intDec_plain n)

theorem plain_append {a b : Bytes} (ha : ∀ c ∈ a, c ≠ 60 ∧ c ≠ 38) (hb : ∀ c ∈ b, c ≠ 60 ∧ c ≠ 38) : ∀ c ∈ a ++ b, c ≠ 60 ∧ c ≠ 38 := by
  intro c hc
  rcases List.mem_append.1 hc with hc | hc
  · exact ha c hc
  · exact hb c hc

theorem addStartxref_view {b : Nat} {t : Bytes} {h : Html} (e : addStartxref b t = .ok h) :
    ∃ n, pyInt t = some n ∧ View h.raw (b!"\n\n\n" ++ natPad 10 b ++ b!"startxref" ++ b!"\n\n" ++ intDec n ++ b!"\n\n\n\n\n\n") := by
  obtain ⟨n, hn, e⟩ := bind_eq_ok e
  cases e
  refine ⟨n, orRaise_eq_ok hn, ?_⟩
  simp only [raw_append, raw_lit, raw_txt]
  have a1 : Step false true b!"<div class=\"block\" id=\"idx" [] := fun rest => rfl
  have a2 : Step true false b!"\">\n<div>\n<pre>\n<span class=\"c1\">" b!"\n\n\n" := fun rest => rfl
  have a3 : Step false false b!"</span><span class=\"obj-header b0\">startxref</span>\n<div class=\"obj-body b0\">\n" b!"startxref\n\n" := fun rest => rfl
  have a4 : Step false true b!"<a class=\"obj-link\" href=\"#idx" [] := fun rest => rfl
  have a5 : Step true false b!"\">" [] := fun rest => rfl
  have a6 : Step false false b!"</a>\n" b!"\n" := fun rest => rfl
  have a7 : Step false false b!"</div>\n\n</pre>\n</div>\n</div>\n" b!"\n\n\n\n\n" := fun rest => rfl
  have := (((((a1.append (step_value (natDec_value b))).append a2).append (step_pad 10 b)).append a3).append
    ((((a4.append (step_value (intDec_value n))).append a5).append (step_int n)).append a6)).append a7
  exact this.view.to (by simp)

theorem addEof_view (b : Nat) : View (addEof b).raw (b!"\n\n\n\n" ++ natPad 10 b ++ b!"%%EOF" ++ b!"\n\n\n\n") := by
  unfold addEof
  simp only [raw_append, raw_lit, raw_txt]
  have a1 : Step false true b!"\n<div class=\"block\" id=\"idx" b!"\n" := fun rest => rfl
  have a2 : Step true false b!"\">\n<div>\n<pre class=\"eof\">\n<span class=\"c1\">" b!"\n\n\n" := fun rest => rfl
  have a3 : Step false false b!"</span><span class=\"obj-header b0\">%%EOF</span>\n</pre>\n</div>\n</div>\n" b!"%%EOF\n\n\n\n" := fun rest => rfl
  have := (((a1.append (step_value (natDec_value b))).append a2).append (step_pad 10 b)).append a3
  exact this.view.to (by simp)

theorem addComment_view (b : Nat) {t : Bytes} (ht : ∀ c ∈ t.take 10, c ≠ 60 ∧ c ≠ 38) :
    View (addComment b t).raw (b!"\n\n\n" ++ natPad 10 b ++ (if isAscii (t.take 10) then t.take 10 else b!"<" ++ hexText t ++ b!">") ++ b!"\n\n\n\n") := by
  unfold addComment
  simp only [raw_append, raw_lit, raw_txt]
  have a1 : Step false true b!"<div class=\"block\" id=\"idx" [] := fun rest => rfl
  have a2 : Step true false b!"\">\n<div>\n<pre class=\"comment\">\n<span class=\"c1\">" b!"\n\n\n" := fun rest => rfl
  have a3 : Step false false b!"</span><span class=\"obj-header b0\">" [] := fun rest => rfl
  have a4 : Step false false (Html.raw (if isAscii (t.take 10) then txt (t.take 10) else lit b!"&lt;" ++ txt (hexText t) ++ lit b!"&gt;"))
      (if isAscii (t.take 10) then t.take 10 else b!"<" ++ hexText t ++ b!">") := by
    split
    · rw [raw_txt]
      exact view_plain ht
    · simp only [raw_append, raw_lit, raw_txt]
      have l : Step false false b!"&lt;" b!"<" := fun rest => rfl
      have r : Step false false b!"&gt;" b!">" := fun rest => rfl
      exact (l.append (view_plain (hexText_plain t)).step).append r
  have a5 : Step false false b!"</span>\n</pre>\n</div>\n</div>\n" b!"\n\n\n\n" := fun rest => rfl
  have := (((((a1.append (step_value (natDec_value b))).append a2).append (step_pad 10 b)).append a3).append a4).append a5
  exact this.view.to (by simp)

/-! ### Tables -/

theorem xrefRow_view {x : XRow} {h : Html} (e : xrefRowText x = .ok h) (hk : ∀ o n g kw, x = .entry o n g kw → ∀ c ∈ kw, c ≠ 60 ∧ c ≠ 38) :
    ∃ t, RowShown x t ∧ View h.raw t := by
  have nl : Step false false b!"\n" b!"\n" := fun rest => rfl
  have sp : Step false false b!" " b!" " := fun rest => rfl
  unfold xrefRowText at e
  split at e
  · rename_i num nb
    cases e
    refine ⟨_, .sub, ?_⟩
    simp only [raw_append, raw_lit, raw_txt]
    have sp2 : Step false false b!"  " b!"  " := fun rest => rfl
    exact (((step_int num).append sp2).append (step_int nb)).append nl
  · rename_i off num gen kw
    split at e
    · cases e
    rename_i hpos
    split at e
    · cases e
    cases e
    obtain ⟨off, rfl⟩ : ∃ n : Nat, off = n := ⟨off.toNat, by omega⟩
    obtain ⟨gen, rfl⟩ : ∃ n : Nat, gen = n := ⟨gen.toNat, by omega⟩
    have hkw : Step false false kw kw := view_plain (hk _ _ _ _ rfl)
    simp only [raw_append, raw_lit, raw_txt, Int.toNat_natCast]
    by_cases hf : kw = b!"f"
    · subst hf
      refine ⟨_, .free, ?_⟩
      rw [if_pos rfl]
      have := (((((step_pad 10 off).append sp).append (step_pad 5 gen)).append sp).append hkw).append (show Step false false (Html.raw [] ++ b!"\n") b!"\n" from nl)
      rw [← List.append_assoc] at this
      exact this.view.to (by simp)
    · refine ⟨_, .used hf, ?_⟩
      rw [if_neg hf]
      simp only [raw_append, raw_lit, raw_txt, intDec_nat]
      have a1 : Step false true b!"    <a href=\"#idx" b!"    " := fun rest => rfl
      have a2 : Step true false b!"\"><span class=\"obj-link\">#" b!"#" := fun rest => rfl
      have a3 : Step false false b!"</span></a>" [] := fun rest => rfl
      have a4 : Step false false (intDec num ++ b!" " ++ natDec gen) (intDec num ++ b!" " ++ natDec gen) := ((step_int num).append sp).append (step_nat gen)
      have := ((((((step_pad 10 off).append sp).append (step_pad 5 gen)).append sp).append hkw).append
        ((((a1.append (step_value (natDec_value off))).append a2).append a4).append a3)).append nl
      exact this.view.to (by simp)

theorem xrefTable_view : ∀ {rows : List XRow} {l : List Html}, rows.mapM xrefRowText = .ok l →
    (∀ o n g kw, .entry o n g kw ∈ rows → ∀ c ∈ kw, c ≠ 60 ∧ c ≠ 38) → ∃ ts, All₂ RowShown rows ts ∧ View (Html.raw l.flatten) ts.flatten
  | [], l, e, _ => by cases e; exact ⟨[], .nil, .nil⟩
  | x :: rows, l, e, hk => by
    rw [List.mapM_cons] at e
    obtain ⟨h, e1, e⟩ := bind_eq_ok e
    obtain ⟨l', e2, e⟩ := bind_eq_ok e
    cases e
    obtain ⟨t, h1, h2⟩ := xrefRow_view e1 fun o n g kw hx => hk o n g kw (by simp [hx])
    obtain ⟨ts, h3, h4⟩ := xrefTable_view e2 fun o n g kw hx => hk o n g kw (by simp [hx])
    refine ⟨t :: ts, .cons h1 h3, ?_⟩
    rw [List.flatten_cons, raw_append, List.flatten_cons]
    exact h2.append h4

theorem xsRow_view (x : XSRow) (hk : ∀ c ∈ x.kw, c ≠ 60 ∧ c ≠ 38) : ∃ t, StreamRowShown x t ∧ View (xsRowText x).raw t := by
  have nl : Step false false b!"\n" b!"\n" := fun rest => rfl
  have sp : Step false false b!" " b!" " := fun rest => rfl
  have hkw : Step false false x.kw x.kw := view_plain hk
  have a2 : Step true false b!"\"><span class=\"obj-link\">#" b!"#" := fun rest => rfl
  have a4 : Step false false (intDec x.num ++ b!" " ++ natDec x.gen) (intDec x.num ++ b!" " ++ natDec x.gen) :=
    ((step_int x.num).append sp).append (step_nat x.gen)
  have a5 : Step false false (natPad 10 x.offset ++ b!" " ++ x.kw) (natPad 10 x.offset ++ b!" " ++ x.kw) := ((step_pad 10 x.offset).append sp).append hkw
  unfold xsRowText
  split
  · rename_i h0
    exact ⟨[], .zero h0, .nil⟩
  · rename_i h0
    split
    · rename_i e he
      refine ⟨_, .embedded h0 he (by omega), ?_⟩
      simp only [raw_append, raw_lit, raw_txt]
      have b1 : Step false true b!"<a href=\"#obj" [] := fun rest => rfl
      have b2 : Step true true (intDec x.num ++ b!"." ++ natDec x.gen) [] :=
        step_value (isValue_append (isValue_append (intDec_value _) (by decide)) (natDec_value _))
      have b3 : Step true false b!".0\"><span class=\"obj-link\">#" b!"#" := fun rest => rfl
      have b4 : Step false false b!"</span></a>    In object stream " b!"    In object stream " := fun rest => rfl
      have b5 : Step false false b!" at " b!" at " := fun rest => rfl
      have := (((((((b1.append b2).append b3).append a4).append b4).append (step_nat (e + 1))).append b5).append a5).append nl
      exact this.view.to (by simp)
    · rename_i hne
      refine ⟨_, .direct h0 ?_, ?_⟩
      · rcases hx : x.env with _ | _ | e
        · exact .inl rfl
        · exact .inr rfl
        · exact absurd hx (hne e)
      simp only [raw_append, raw_lit, raw_txt]
      have b1 : Step false true b!"<a href=\"#idx" [] := fun rest => rfl
      have b4 : Step false false b!"</span></a>    At absolute position " b!"    At absolute position " := fun rest => rfl
      have := (((((b1.append (step_value (natDec_value x.offset))).append a2).append a4).append b4).append a5).append nl
      exact this.view.to (by simp)

theorem xsRows_view : ∀ (rows : List XSRow), (∀ x ∈ rows, ∀ c ∈ x.kw, c ≠ 60 ∧ c ≠ 38) →
    ∃ ts, All₂ StreamRowShown rows ts ∧ View (Html.raw (rows.flatMap xsRowText)) ts.flatten
  | [], _ => ⟨[], .nil, .nil⟩
  | x :: rows, hk => by
    obtain ⟨t, h1, h2⟩ := xsRow_view x (hk x (by simp))
    obtain ⟨ts, h3, h4⟩ := xsRows_view rows fun y hy => hk y (by simp [hy])
    refine ⟨t :: ts, .cons h1 h3, ?_⟩
    rw [List.flatMap_cons, raw_append, List.flatten_cons]
    exact h2.append h4

/-! ### Objects -/

theorem use_view [FloatText] {u : Obj × BlockKey} {h : Html} (e : useText u = .ok h) :
    ∃ w, ((u.1 = .int 0 ∧ w = b!"trailer ") ∨ ∃ n, n ≠ 0 ∧ u.1 = .int n ∧ w = intDec n ++ b!" ") ∧ View h.raw w := by
  obtain ⟨p, hp, e⟩ := bind_eq_ok e
  obtain ⟨n, hn, e⟩ := bind_eq_ok e
  cases e
  obtain ⟨o, k⟩ := u
  simp only at hp hn ⊢
  have a1 : Step false true b!"<a href=\"#idx" [] := fun rest => rfl
  have a2 : Step true false b!"\">" [] := fun rest => rfl
  have a3 : Step false false b!"</a> " b!" " := fun rest => rfl
  simp only [raw_append, raw_lit, raw_txt]
  unfold numberText at hn
  split at hn
  · rename_i m _
    cases hn
    by_cases hm : m = 0
    · subst hm
      refine ⟨_, .inl ⟨rfl, rfl⟩, ?_⟩
      rw [if_pos rfl, raw_lit]
      have a4 : Step false false b!"trailer" b!"trailer" := fun rest => rfl
      exact ((((a1.append (step_value (posText_value hp))).append a2).append a4).append a3).view.to (by simp)
    · refine ⟨_, .inr ⟨m, hm, rfl, rfl⟩, ?_⟩
      rw [if_neg (by simpa using hm), raw_txt]
      exact ((((a1.append (step_value (posText_value hp))).append a2).append (step_int m)).append a3).view.to (by simp)
  · cases hn

theorem useList_view [FloatText] : ∀ {us : List (Obj × BlockKey)} {l : List Html}, us.mapM useText = .ok l →
    ∃ ws, All₂ (fun u w => (u.1 = .int 0 ∧ w = b!"trailer ") ∨ ∃ n, n ≠ 0 ∧ u.1 = .int n ∧ w = intDec n ++ b!" ") us ws ∧ View (Html.raw l.flatten) ws.flatten
  | [], l, e => by cases e; exact ⟨[], .nil, .nil⟩
  | u :: us, l, e => by
    rw [List.mapM_cons] at e
    obtain ⟨h, e1, e⟩ := bind_eq_ok e
    obtain ⟨l', e2, e⟩ := bind_eq_ok e
    cases e
    obtain ⟨w, h1, h2⟩ := use_view e1
    obtain ⟨ws, h3, h4⟩ := useList_view e2
    refine ⟨w :: ws, .cons h1 h3, ?_⟩
    rw [List.flatten_cons, raw_append, List.flatten_cons]
    exact h2.append h4

theorem uses_view [FloatText] {us : List (Obj × BlockKey)} {h : Html} (e : usesText us = .ok h) : ∃ u, UsesShown us u ∧ View h.raw u := by
  unfold usesText at e
  split at e
  · rename_i h0
    cases e
    subst h0
    exact ⟨[], .none, .nil⟩
  · rename_i h0
    obtain ⟨l, e1, e⟩ := bind_eq_ok e
    cases e
    obtain ⟨ws, h1, h2⟩ := useList_view e1
    refine ⟨_, .some h0 h1, ?_⟩
    simp only [raw_append, raw_lit]
    have a1 : Step false false b!"<em><span class=\"c1\">                 used in " b!"                 used in " := fun rest => rfl
    have a2 : Step false false b!"</span></em>" [] := fun rest => rfl
    exact ((a1.append h2.step).append a2).view.to (by simp)

theorem openBlock_view [FloatText] {hd : Header} {column : Bytes} {t : Html} (e : openBlock hd column = .ok t) (hc : ∀ c ∈ column, c ≠ 60 ∧ c ≠ 38) :
    ∃ n u, hd.num = .int n ∧ UsesShown hd.usedBy u ∧
      View t.raw (b!"\n\n\n\n" ++ column ++ intDec n ++ b!" " ++ natDec hd.gen ++ b!" obj" ++ u) := by
  obtain ⟨p, hp, e⟩ := bind_eq_ok e
  obtain ⟨n, hn, e⟩ := bind_eq_ok e
  obtain ⟨us, hus, e⟩ := bind_eq_ok e
  cases e
  obtain ⟨u, h1, h2⟩ := uses_view hus
  unfold numberText at hn
  split at hn
  · rename_i m hm
    cases hn
    refine ⟨m, u, hm, h1, ?_⟩
    simp only [raw_append, raw_lit, raw_txt]
    have a1 : Step false true b!"\n<div class=\"block\" id=\"idx" b!"\n" := fun rest => rfl
    have a2 : Step true true b!"\">\n<div id=\"obj" b!"\n" := fun rest => rfl
    have a3 : Step true true (intDec m ++ b!"." ++ natDec hd.gen ++ b!"." ++ natDec hd.ver) [] :=
      step_value (isValue_append (isValue_append (isValue_append (isValue_append (intDec_value _) (by decide)) (natDec_value _)) (by decide)) (natDec_value _))
    have a4 : Step true false b!"\">\n<pre>\n<span class=\"c1\">" b!"\n\n" := fun rest => rfl
    have a5 : Step false false b!"</span><span class=\"obj-header b0\"><strong>" [] := fun rest => rfl
    have a6 : Step false false b!"</strong> " b!" " := fun rest => rfl
    have a7 : Step false false b!" obj</span>" b!" obj" := fun rest => rfl
    have := ((((((((((a1.append (step_value (posText_value hp))).append a2).append a3).append a4).append (view_plain hc).step).append a5).append (step_int m)).append
      a6).append (step_nat hd.gen)).append a7).append h2.step
    exact this.view.to (by simp)
  · cases hn

/-- The text of an object: its part of the page, without the elements around it. -/
theorem body_view [FloatText] {rev : Rev} {o : Obj} {h : Html} (hk : ClearObj o) (hX : isXrefStream o = false) (e : followObj rev 0 true o = .ok h)
    (hc : ¬ Cut h.raw) : ∃ t, BodyShown o (t ++ b!"\n\nendobj") ∧ View h.raw t := by
  by_cases hs : ∃ d c enc, o = .stream d c enc
  · obtain ⟨d, c, enc, rfl⟩ := hs
    obtain ⟨hw, hl, h38⟩ := hk
    have hX' : Dict.get? d b!"/Type" ≠ some (.str b!"/XRef") := by simpa [isXrefStream] using hX
    rw [followObj] at e
    obtain ⟨vs, ev, e⟩ := bind_eq_ok e
    cases e
    rw [raw_append] at hc
    obtain ⟨t, o', h1, h2, h3⟩ := follow_view rev 0 true (.dict d) false false (dictText 0 vs) hw hl (by rw [followObj, ev]; rfl) (cut_append hc).1
    rw [raw_append]
    by_cases hne : c = []
    · subst hne
      refine ⟨t, .empty hX' h2 h3, ?_⟩
      exact (h1.append (show View (streamText [] true).raw [] from .nil)).to (by simp)
    · refine ⟨_, ?_, h1.append (streamText_view (cut_append hc).2 h38 hne)⟩
      exact (BodyShown.data (c := c) (e := enc) hX' hne h2 h3 : BodyShown _ _) |> cast (by simp)
  · have hns : ∀ d c e, o ≠ .stream d c e := fun d c e h => hs ⟨d, c, e, h⟩
    have hk' : WF false false o = true ∧ Legible o := by
      cases o with
      | stream d c enc => exact absurd rfl (hns d c enc)
      | _ => exact hk
    obtain ⟨t, o', h1, h2, h3⟩ := follow_view rev 0 true o false false h hk'.1 hk'.2 e hc
    exact ⟨t, .value hns h2 h3, h1⟩

theorem xrefBody_view [FloatText] {rev : Rev} {o : Obj} {h : Html} (hk : ClearObj o) (hX : isXrefStream o = true) (e : followObj rev 0 false o = .ok h)
    (hc : ¬ Cut h.raw) : ∃ t, BodyShown o t ∧ View h.raw t := by
  cases o with
  | stream d c enc =>
    obtain ⟨hw, hl, h38⟩ := hk
    have hX' : Dict.get? d b!"/Type" = some (.str b!"/XRef") := by simpa [isXrefStream] using hX
    rw [followObj] at e
    obtain ⟨vs, ev, e⟩ := bind_eq_ok e
    cases e
    rw [raw_append] at hc
    obtain ⟨t, o', h1, h2, h3⟩ := follow_view rev 0 true (.dict d) false false (dictText 0 vs) hw hl (by rw [followObj, ev]; rfl) (cut_append hc).1
    refine ⟨t, .xref hX' h2 h3, ?_⟩
    rw [raw_append]
    refine (h1.append (show View (streamText c false).raw [] from ?_)).to (by simp)
    unfold streamText
    rw [if_neg (by simp)]
    exact .nil
  | _ => simp [isXrefStream] at hX

theorem objTrailer_view : View objTrailerText.raw b!"\n\n\n\n" := fun _ => rfl

/-- The block of an object after its opening elements. -/
theorem objArticle_view [FloatText] {index : List Rev} {cross : List (BlockKey × Cross)} {x : MapItem} {k : BlockKey} {o : Obj} {t : Html} {v : Nat}
    (e : objArticle index cross x k o = .ok (t, v)) (hk : ClearObj o) (hc : ¬ Cut t.raw) :
    ∃ head body g, objHeaderText index cross x = .ok head ∧ BodyShown o body ∧ WhiteGap g ∧ ∀ s, View head.raw s → View t.raw (s ++ body ++ g) := by
  obtain ⟨head, h1, e⟩ := bind_eq_ok e
  obtain ⟨c, h2, e⟩ := bind_eq_ok e
  obtain ⟨⟨n, ver⟩, h3, e⟩ := bind_eq_ok e
  obtain ⟨rev, h4, e⟩ := bind_eq_ok e
  split at e
  · rename_i hX
    obtain ⟨b, h5, e⟩ := bind_eq_ok e
    cases e
    rw [raw_append] at hc
    obtain ⟨t, r1, r2⟩ := xrefBody_view hk hX h5 (cut_append hc).2
    refine ⟨head, t, [], h1, r1, fun c hc => (by cases hc), fun s hs => ?_⟩
    rw [raw_append]
    exact (hs.append r2).to (by simp)
  · rename_i hX
    obtain ⟨b, h5, e⟩ := bind_eq_ok e
    cases e
    simp only [raw_append] at hc
    obtain ⟨t, r1, r2⟩ := body_view hk (by simpa using hX) h5 (cut_append (cut_append (cut_append hc).1).1).2
    refine ⟨head, t ++ b!"\n\nendobj", b!"\n\n\n\n", h1, r1, by unfold WhiteGap; decide, fun s hs => ?_⟩
    simp only [raw_append, raw_lit]
    have a : View b!"\n\nendobj" b!"\n\nendobj" := fun rest => rfl
    exact (((hs.append r2).append a).append objTrailer_view).to (by simp)

theorem gap4 : WhiteGap b!"\n\n\n\n" := by unfold WhiteGap; decide

theorem article_view [FloatText] {m : List MapItem} {index : List Rev} {cross : List (BlockKey × Cross)} (hcm : crossMap m index = .ok cross)
    (hn : (m.filterMap MapItem.key?).Nodup) {ver v : Option Nat} {x : MapItem} {t : Html} (hx : x ∈ m) (e : article index cross ver x = .ok (t, v))
    (hb : Known x) (hv : ∀ b e t l, x ≠ .region (.void b e t) l) (hk : ClearItem x) (hc : ¬ Cut t.raw) :
    ∃ s, ItemShown index cross x s ∧ View t.raw s := by
  have hob : View b!"<div class=\"obj-body b0\">\n" b!"\n" := fun rest => rfl
  have g1 : WhiteGap b!"\n" := by unfold WhiteGap; decide
  cases x with
  | xrefStream b rows tr =>
    cases e
    obtain ⟨ts, h1, h2⟩ := xsRows_view (rows.map (·.2.2)) (by
      intro y hy
      obtain ⟨z, hz, rfl⟩ := List.mem_map.1 hy
      exact hk z hz)
    refine ⟨_, .xrefStream gap4 h1, ?_⟩
    unfold xrefStreamText
    simp only [raw_append, raw_lit]
    have a1 : View b!"\nstream\n\n" b!"\nstream\n\n" := fun rest => rfl
    have a2 : View b!"\nendstream\n" b!"\nendstream\n" := fun rest => rfl
    have a3 : View b!"\n\nendobj" b!"\n\nendobj" := fun rest => rfl
    exact ((((a1.append h2).append a2).append a3).append objTrailer_view).to (by simp)
  | embedded bo a j num o env =>
    obtain ⟨⟨t', v'⟩, ea, e'⟩ := bind_eq_ok e
    cases e'
    obtain ⟨head, body, g, h1, h2, h3, h4⟩ := objArticle_view ea hk hc
    obtain ⟨hh, h5, h6⟩ := bind_eq_ok h1
    cases h6
    obtain ⟨oh, h7, h8⟩ := bind_eq_ok h5
    unfold objHeader at h7
    obtain ⟨c, h9, h7⟩ := bind_eq_ok h7
    cases h7
    simp only at h8
    have hcol : ∀ c ∈ padRight 10 (intDec env ++ b!" #" ++ natDec j), c ≠ 60 ∧ c ≠ 38 := by
      unfold padRight
      refine plain_append (plain_append (plain_append (intDec_plain _) (by decide)) (natDec_plain _)) fun c hc => ?_
      rw [List.eq_of_mem_replicate hc]
      decide
    obtain ⟨n, u, k1, k2, k3⟩ := openBlock_view h8 hcol
    simp only at k1 k2 k3
    subst k1
    refine ⟨_, .embedded gap4 g1 h3 (lookup_mem' (orRaise_eq_ok h9)) k2 h2, ?_⟩
    refine (h4 _ (by rw [raw_append, raw_lit]; exact k3.append hob)).to ?_
    rw [show natDec 0 = b!"0" from rfl]
    simp
  | region r l =>
    cases r with
    | void b f s => exact absurd rfl (hv b f s l)
    | startxref b f s =>
      obtain ⟨h, h1, e⟩ := bind_eq_ok e
      cases e
      obtain ⟨n, h2, h3⟩ := addStartxref_view h1
      exact ⟨_, .startxref (by unfold WhiteGap; decide) (by unfold WhiteGap; decide) (by unfold WhiteGap; decide) h2, h3⟩
    | comment b f s =>
      cases e
      by_cases h0 : s = b!"%%EOF"
      · subst h0
        rw [if_pos rfl]
        exact ⟨_, .comment (by unfold WhiteGap; decide) (by unfold WhiteGap; decide) (by decide), addEof_view b⟩
      · rw [if_neg h0]
        have h := addComment_view b hk
        by_cases ha : isAscii (s.take 10)
        · rw [if_pos ha] at h
          exact ⟨_, .comment (by unfold WhiteGap; decide) (by unfold WhiteGap; decide) (fun c hc => by simpa using List.all_eq_true.1 ha c hc), h⟩
        · rw [if_neg ha] at h
          refine ⟨_, .bytes (g := b!"\n\n\n") (by unfold WhiteGap; decide) gap4 ?_ (hexText_spec s), h.to (by simp)⟩
          · simpa [isAscii] using ha
    | xrefTable b f rows tr =>
      obtain ⟨head, h1, e⟩ := bind_eq_ok e
      obtain ⟨table, h2, e⟩ := bind_eq_ok e
      obtain ⟨v', h3, e⟩ := bind_eq_ok e
      obtain ⟨rev, h4, e⟩ := bind_eq_ok e
      obtain ⟨t', h5, e⟩ := bind_eq_ok e
      cases e
      cases h1
      obtain ⟨rl, h6, e⟩ := bind_eq_ok h2
      cases e
      obtain ⟨k1, k2, k3⟩ := hk
      obtain ⟨lines, r1, r2⟩ := xrefTable_view h6 k3
      simp only [raw_append, raw_lit, raw_txt] at hc ⊢
      have hk' : WF false false tr = true ∧ Legible tr := by
        cases tr with
        | stream d c enc => exact absurd rfl (k2 d c enc)
        | _ => exact k1
      obtain ⟨s, o', q1, q2, q3⟩ := follow_view rev 0 true tr false false t' hk'.1 hk'.2 h5 (cut_append (cut_append hc).1).2
      refine ⟨_, .table (g := b!"\n\n\n\n") (g' := b!"\n") gap4 g1 gap4 r1 q2 q3, ?_⟩
      have a1 : Step false true b!"\n<div class=\"block\" id=\"idx" b!"\n" := fun rest => rfl
      have a2 : Step true false b!"\">\n<div>\n<pre>\n<span class=\"c1\">" b!"\n\n\n" := fun rest => rfl
      have a3 : Step false false b!"</span><span class=\"obj-header b0\"><strong>XREF table & trailer</strong></span>" b!"XREF table & trailer" := fun rest => rfl
      have a4 : Step false false b!"\ntrailer\n" b!"\ntrailer\n" := fun rest => rfl
      have := ((((((((a1.append (step_value (natDec_value b))).append a2).append (step_pad 10 b)).append a3).append hob.step).append r2.step).append a4).append q1.step).append
        objTrailer_view.step
      exact this.view.to (by simp)
    | indObj b f num gen o =>
      cases b with
      | none => exact absurd rfl hb.1
      | some b =>
        obtain ⟨⟨t', v'⟩, ea, e'⟩ := bind_eq_ok e
        cases e'
        obtain ⟨head, body, g, h1, h2, h3, h4⟩ := objArticle_view ea hk hc
        obtain ⟨hh, h5, h6⟩ := bind_eq_ok h1
        cases h6
        obtain ⟨oh, h7, h8⟩ := bind_eq_ok h5
        have h7' := h7
        obtain ⟨hd, n, ver, rev, en, rfl, f1, f2, f3, f4, f5, f6, f7⟩ := objHeader_direct hcm hn hx h7
        unfold objHeader at h7'
        obtain ⟨c, h9, h7'⟩ := bind_eq_ok h7'
        obtain ⟨⟨n', ver'⟩, -, h7'⟩ := bind_eq_ok h7'
        obtain ⟨rev', -, h7'⟩ := bind_eq_ok h7'
        obtain ⟨en', -, h7'⟩ := bind_eq_ok h7'
        obtain ⟨-, rev', q1, ⟨e', q2, q3⟩, -⟩ := findAbsPos_some f1
        rw [f2] at q1
        cases q1
        rw [f3] at q2
        cases q2
        have hu : hd.usedBy = c.usedBy := by cases h7'; rfl
        simp only at h8
        obtain ⟨n2, u, k1, k2, k3⟩ := openBlock_view h8 fun c hc => digit_plain (natPad_mem hc)
        rw [f5] at k1
        cases k1
        rw [hu] at k2
        refine ⟨_, .object gap4 g1 h3 (List.mem_of_getElem? f2) f3 q3 (lookup_mem' (orRaise_eq_ok h9)) k2 h2, ?_⟩
        refine (h4 _ (by rw [raw_append, raw_lit]; exact k3.append hob)).to ?_
        rw [f6, intDec_nat]

theorem articles_view [FloatText] {m : List MapItem} {index : List Rev} {cross : List (BlockKey × Cross)} (hcm : crossMap m index = .ok cross)
    (hn : (m.filterMap MapItem.key?).Nodup) (hb : ∀ x ∈ m, Known x) (hv : ∀ x ∈ m, ∀ b e t l, x ≠ .region (.void b e t) l) :
    ∀ {l : List MapItem} {ver : Option Nat} {t : Html}, (∀ x ∈ l, x ∈ m) → articles index cross ver l = .ok t →
      ∃ parts : List Bytes, t.raw = parts.flatten ∧
        All₂ (fun x p => ClearItem x → ¬ Cut p → ∃ s, ItemShown index cross x s ∧ View p s) l parts
  | [], ver, t, _, e => by cases e; exact ⟨[], rfl, .nil⟩
  | x :: l, ver, t, hl, e => by
    obtain ⟨⟨h, v⟩, h1, e⟩ := bind_eq_ok e
    obtain ⟨rest, h2, e⟩ := bind_eq_ok e
    cases e
    obtain ⟨parts, r1, r2⟩ := articles_view hcm hn hb hv (fun y hy => hl y (by simp [hy])) h2
    refine ⟨h.raw :: parts, by rw [raw_append, r1]; rfl, .cons ?_ r2⟩
    exact fun hk hc => article_view hcm hn (hl x (by simp)) h1 (hb x (hl x (by simp))) (hv x (hl x (by simp))) hk hc

theorem pageHeader_view : ∃ s, View pageHeader s := by
  have h : (styleSheet.all fun c => c != 60 && c != 38) = true := by kernel_rfl
  have a2 : View styleSheet styleSheet := view_plain fun c hc => by simpa using List.all_eq_true.1 h c hc
  have a1 : View b!"<!DOCTYPE html>\n<html lang=\"en\">\n<head>\n    <meta charset=\"UTF-8\">\n    <meta http-equiv=\"X-UA-Compatible\" content=\"IE=edge\">\n    <meta name=\"viewport\" content=\"width=device-width, initial-scale=1.0\">\n    <title>PDFSyntax</title>\n    <style>\n"
      b!"\n\n\n    \n    \n    \n    PDFSyntax\n    \n" := fun rest => by kernel_rfl
  have a3 : View b!"    </style>\n</head>\n<body class=\"b1 c0\">\n<div class=\"content\">\n" b!"    \n\n\n\n" := fun rest => rfl
  exact ⟨_, (a1.append a2).append a3⟩

/-! ### The information -/

/-- What is seen of the panel of information. -/
def Spec.InfoShown (s : Structure) (size : Nat) (pages : Int) : Bytes :=
  b!"\n\n Info\n\n" ++
    b!" Version:       " ++ s.version ++ b!" Page(s):       " ++ intDec pages ++ b!" Revision(s):   " ++ natDec s.revisions ++
    b!" Hybrid:        " ++ (if s.hybrid then b!"yes" else b!"no") ++ b!" Linearized:    " ++ (if s.linearized then b!"yes" else b!"no") ++
    b!" File size:     " ++ natDec size ++ b!" bytes" ++ b!"\n\n\n\n"

theorem infoLine_view {a b : Bytes} (ha : ∀ c ∈ padRight 15 a, c ≠ 60 ∧ c ≠ 38) (hb : ∀ c ∈ b, c ≠ 60 ∧ c ≠ 38) :
    View (infoLine a b).raw (b!" " ++ padRight 15 a ++ b) := by
  unfold infoLine
  simp only [raw_append, raw_lit, raw_txt]
  have a1 : View b!" <li class=\"\">" b!" " := fun rest => rfl
  have a2 : View b!"</li>" [] := fun rest => rfl
  exact ((a1.append (view_plain (plain_append ha hb))).append a2).to (by simp)

theorem navInfo_view {s : Structure} {size : Nat} {h : Html} (e : navInfo s size = .ok h) (hv : ∀ c ∈ s.version, c ≠ 60 ∧ c ≠ 38) :
    ∃ n, s.pages = .int n ∧ View h.raw (InfoShown s size n) := by
  obtain ⟨t, ht, e⟩ := bind_eq_ok e
  cases e
  unfold numberText at ht
  split at ht
  · rename_i n hn
    cases ht
    refine ⟨n, hn, ?_⟩
    simp only [raw_append, raw_lit]
    have a0 : View b!"\n<details class=\"b3\">\n<summary class=\"title b3\"><code> Info</code></summary>\n<pre class=\"b2\">\n<ul>" b!"\n\n Info\n\n" := fun rest => rfl
    have a1 := infoLine_view (a := b!"Version: ") (by decide) hv
    have a2 := infoLine_view (a := b!"Page(s): ") (by decide) (intDec_plain n)
    have a3 := infoLine_view (a := b!"Revision(s): ") (by decide) (natDec_plain s.revisions)
    have a4 := infoLine_view (a := b!"Hybrid: ") (b := yesNo s.hybrid) (by decide) (by cases s.hybrid <;> decide)
    have a5 := infoLine_view (a := b!"Linearized: ") (b := yesNo s.linearized) (by decide) (by cases s.linearized <;> decide)
    have a6 := infoLine_view (a := b!"File size: ") (by decide) (plain_append (natDec_plain size) (show ∀ c ∈ b!" bytes", c ≠ 60 ∧ c ≠ 38 by decide))
    have a7 : View b!"</ul>\n</pre>\n</details>\n\n" b!"\n\n\n\n" := fun rest => rfl
    refine ((a0.append (((((a1.append a2).append a3).append a4).append a5).append a6)).append a7).to ?_
    simp only [InfoShown, List.append_assoc]
    rfl
  · cases ht

theorem header_view {filename : Bytes} (hf : ∀ c ∈ basename filename, c ≠ 60 ∧ c ≠ 38) :
    View (headerText filename).raw (b!"\n\n" ++ basename filename ++ b!" - internal view generated by PDFSyntax\n\n\n") := by
  unfold headerText
  simp only [raw_append, raw_lit, raw_txt]
  have a1 : View b!"<div class=\"header b3\">\n<pre>\n" b!"\n\n" := fun rest => rfl
  have a2 : View b!" - internal view generated by <a href=\"https://pdfsyntax.dev\">PDFSyntax</a>\n</pre>\n</div>\n" b!" - internal view generated by PDFSyntax\n\n\n" := fun rest => rfl
  exact (a1.append (view_plain hf)).append a2

/-! ### The other panels -/

/-- The type of an object, in the minimap. -/
inductive Spec.TypeShown : Obj → Bytes → Prop
  | none {o : Obj} : typeOf o = none → TypeShown o []
  | name {o : Obj} {t : Bytes} : typeOf o = some (.str t) → TypeShown o t

/-- What is seen of an item in the minimap: the number of an object, as it is written in the file, and its type. -/
inductive Spec.LineShown : MapItem → Bytes → Prop
  | table {b f rows tr l} : LineShown (.region (.xrefTable b f rows tr) l) b!"xref XREF table & trailer\n"
  | object {b f n g o l t} : TypeShown o t → LineShown (.region (.indObj b f n g o) l) (intDec n ++ b!" " ++ t ++ b!"\n")
  | embedded {bo a j n o env t} : TypeShown o t → LineShown (.embedded bo a j (.int n) o env) (intDec n ++ b!" " ++ t ++ b!"\n")
  | comment {b f t l} : LineShown (.region (.comment b f t) l) []
  | startxref {b f t l} : LineShown (.region (.startxref b f t) l) []
  | void {b f t l} : LineShown (.region (.void b f t) l) []
  | xrefStream {b rows t} : LineShown (.xrefStream b rows t) []

/-- The object of an item, if any. -/
def Spec.itemObj : MapItem → Option Obj
  | .region (.indObj _ _ _ _ o) _ => some o
  | .embedded _ _ _ _ o _ => some o
  | _ => none

/-- The type of the object is not a string, and has neither `<` nor `&`. -/
def Spec.ClearType (x : MapItem) : Prop :=
  ∀ o, itemObj x = some o → (∀ s, typeOf o ≠ some (.bytes s)) ∧ ∀ s, typeOf o = some (.str s) → ∀ c ∈ s, c ≠ 60 ∧ c ≠ 38

theorem typeText_shown {v : Option Obj} {h : Html} (e : typeText v = .ok h) (h1 : ∀ s, v ≠ some (.bytes s))
    (h2 : ∀ s, v = some (.str s) → ∀ c ∈ s, c ≠ 60 ∧ c ≠ 38) : ∃ t, ((v = none ∧ t = []) ∨ v = some (.str t)) ∧ View h.raw t := by
  unfold typeText at e
  split at e
  · cases e; exact ⟨[], .inl ⟨rfl, rfl⟩, .nil⟩
  · rename_i s
    cases e
    exact ⟨s, .inr rfl, by rw [raw_txt]; exact view_plain (h2 s rfl)⟩
  · exact absurd rfl (h1 _)
  · cases e

theorem minimapLine_view {p n : Bytes} {o : Obj} {h : Html} (e : minimapLine p n o = .ok h) (hp : IsValue p) (hn : ∀ c ∈ n, c ≠ 60 ∧ c ≠ 38)
    (h1 : ∀ s, typeOf o ≠ some (.bytes s)) (h2 : ∀ s, typeOf o = some (.str s) → ∀ c ∈ s, c ≠ 60 ∧ c ≠ 38) :
    ∃ t, TypeShown o t ∧ View h.raw (n ++ b!" " ++ t ++ b!"\n") := by
  have key : ∃ t ht, TypeShown o t ∧ View (Html.raw ht) t ∧ h = lit b!"<li><a class=\"nav-idx\" href=\"#idx" ++ txt p ++ lit b!"\">" ++ txt n ++
      lit b!"</a> " ++ ht ++ lit b!"</li>\n" := by
    unfold minimapLine at e
    split at e
    · rename_i d
      obtain ⟨ht, k1, e⟩ := bind_eq_ok e
      cases e
      obtain ⟨t, k2, k3⟩ := typeText_shown k1 h1 h2
      refine ⟨t, ht, ?_, k3, rfl⟩
      rcases k2 with ⟨k2, rfl⟩ | k2
      · exact .none k2
      · exact .name k2
    · rename_i d _ _
      obtain ⟨ht, k1, e⟩ := bind_eq_ok e
      cases e
      obtain ⟨t, k2, k3⟩ := typeText_shown k1 h1 h2
      refine ⟨t, ht, ?_, k3, rfl⟩
      rcases k2 with ⟨k2, rfl⟩ | k2
      · exact .none k2
      · exact .name k2
    · rename_i hd hs
      cases e
      refine ⟨[], [], .none ?_, .nil, rfl⟩
      cases o with
      | dict d => exact absurd rfl (hd d)
      | stream d c enc => exact absurd rfl (hs d c enc)
      | _ => rfl
  obtain ⟨t, ht, k1, k2, rfl⟩ := key
  refine ⟨t, k1, ?_⟩
  simp only [raw_append, raw_lit, raw_txt]
  have a1 : Step false true b!"<li><a class=\"nav-idx\" href=\"#idx" [] := fun rest => rfl
  have a2 : Step true false b!"\">" [] := fun rest => rfl
  have a3 : Step false false b!"</a> " b!" " := fun rest => rfl
  have a4 : Step false false b!"</li>\n" b!"\n" := fun rest => rfl
  exact ((((((a1.append (step_value hp)).append a2).append (view_plain hn).step).append a3).append k2.step).append a4).view.to (by simp)

theorem minimapItem_view [FloatText] {x : MapItem} {h : Html} (e : minimapItem x = .ok h) (hk : ClearType x) : ∃ t, LineShown x t ∧ View h.raw t := by
  cases x with
  | xrefStream b rows t => cases e; exact ⟨[], .xrefStream, .nil⟩
  | embedded bo a j n o env =>
    obtain ⟨p, hp, e⟩ := bind_eq_ok e
    obtain ⟨n', hn, e⟩ := bind_eq_ok e
    unfold numberText at hn
    split at hn
    · cases hn
      obtain ⟨t, h1, h2⟩ := minimapLine_view e (posText_value hp) (intDec_plain _) (hk o rfl).1 (hk o rfl).2
      exact ⟨_, .embedded h1, h2⟩
    · cases hn
  | region r l =>
    cases r with
    | void b f s => cases e; exact ⟨[], .void, .nil⟩
    | startxref b f s => cases e; exact ⟨[], .startxref, .nil⟩
    | comment b f s => cases e; exact ⟨[], .comment, .nil⟩
    | xrefTable b f rows tr =>
      cases e
      refine ⟨_, .table, ?_⟩
      simp only [raw_append, raw_lit, raw_txt]
      have a1 : Step false true b!"<li><a class=\"nav-idx\" href=\"#idx" [] := fun rest => rfl
      have a2 : Step true false b!"\">xref</a> XREF table & trailer</li>\n" b!"xref XREF table & trailer\n" := fun rest => rfl
      exact ((a1.append (step_value (natDec_value b))).append a2).view.to (by simp)
    | indObj b f num gen o =>
      obtain ⟨p, hp, e⟩ := bind_eq_ok e
      obtain ⟨t, h1, h2⟩ := minimapLine_view e (posText_value hp) (intDec_plain _) (hk o rfl).1 (hk o rfl).2
      exact ⟨_, .object h1, h2⟩

theorem minimapItems_view [FloatText] : ∀ {m : List MapItem} {l : List Html}, m.mapM minimapItem = .ok l → (∀ x ∈ m, ClearType x) →
    ∃ ts, All₂ LineShown m ts ∧ View (Html.raw l.flatten) ts.flatten
  | [], l, e, _ => by cases e; exact ⟨[], .nil, .nil⟩
  | x :: m, l, e, hk => by
    rw [List.mapM_cons] at e
    obtain ⟨h, e1, e⟩ := bind_eq_ok e
    obtain ⟨l', e2, e⟩ := bind_eq_ok e
    cases e
    obtain ⟨t, h1, h2⟩ := minimapItem_view e1 (hk x (by simp))
    obtain ⟨ts, h3, h4⟩ := minimapItems_view e2 fun y hy => hk y (by simp [hy])
    refine ⟨t :: ts, .cons h1 h3, ?_⟩
    rw [List.flatten_cons, raw_append, List.flatten_cons]
    exact h2.append h4

theorem navObjects_view [FloatText] {m : List MapItem} {h : Html} (e : navObjects m = .ok h) (hk : ∀ x ∈ m, ClearType x) :
    ∃ ts, All₂ LineShown m ts ∧ View h.raw (b!"\n\n Minimap\n\n\n" ++ ts.flatten ++ b!"\n\n\n\n") := by
  obtain ⟨l, h1, e⟩ := bind_eq_ok e
  cases e
  obtain ⟨ts, h2, h3⟩ := minimapItems_view h1 hk
  refine ⟨ts, h2, ?_⟩
  simp only [raw_append, raw_lit]
  have a1 : View b!"\n<details class=\"b3\">\n<summary class=\"title b3\"><code> Minimap</code></summary>\n<pre class=\"nav-y b2\">\n<ul>\n" b!"\n\n Minimap\n\n\n" := fun rest => rfl
  have a2 : View b!"</ul>\n</pre>\n</details>\n\n" b!"\n\n\n\n" := fun rest => rfl
  exact (a1.append h3).append a2

/-- The numbers of the pages, from 1. -/
def Spec.pageNumbers (k : Nat) : Bytes := (List.range k).flatMap fun i => b!" " ++ natDec (i + 1)

theorem pageLinks_view : ∀ (l : List (Nat × Int × Nat)) (i : Nat),
    View (Html.raw ((l.zipIdx i).flatMap pageLinkText)) ((List.range' i l.length).flatMap fun i => b!" " ++ natDec (i + 1))
  | [], i => .nil
  | x :: l, i => by
    rw [List.zipIdx_cons, List.flatMap_cons, raw_append, List.length_cons, List.range'_succ, List.flatMap_cons]
    refine View.append ?_ (pageLinks_view l (i + 1))
    unfold pageLinkText
    simp only [raw_append, raw_lit, raw_txt]
    have a1 : Step false true b!" <a class=\"nav-idx\" href=\"#obj" b!" " := fun rest => rfl
    have a2 : Step true true (natDec x.1 ++ b!"." ++ intDec x.2.1 ++ b!"." ++ natDec x.2.2) [] :=
      step_value (isValue_append (isValue_append (isValue_append (isValue_append (natDec_value _) (by decide)) (intDec_value _)) (by decide)) (natDec_value _))
    have a3 : Step true false b!"\">" [] := fun rest => rfl
    have a4 : Step false false b!"</a>" [] := fun rest => rfl
    exact ((((a1.append a2).append a3).append (step_nat (i + 1))).append a4).view.to (by simp)

theorem mapM_len {α β : Type} {f : α → Py β} : ∀ {l : List α} {m : List β}, l.mapM f = .ok m → m.length = l.length
  | [], m, e => by cases e; rfl
  | x :: l, m, e => by
    rw [List.mapM_cons] at e
    obtain ⟨h, e1, e⟩ := bind_eq_ok e
    obtain ⟨l', e2, e⟩ := bind_eq_ok e
    cases e
    simp [mapM_len e2]

theorem navPages_view {index : List Rev} {pages : List Ref} {h : Html} (e : navPages index pages = .ok h) :
    View h.raw (b!"\n\n Pages\n\n" ++ pageNumbers pages.length ++ b!"\n\n\n") := by
  obtain ⟨links, h1, e⟩ := bind_eq_ok e
  cases e
  simp only [raw_append, raw_lit]
  have a1 : View b!"\n<details class=\"b3\">\n<summary class=\"title b3\"><code> Pages</code></summary>\n<p class=\"nav-y b2\">\n" b!"\n\n Pages\n\n" := fun rest => rfl
  have a2 : View b!"</p>\n</details>\n\n" b!"\n\n\n" := fun rest => rfl
  have a3 := pageLinks_view links 0
  rw [mapM_len h1, ← List.range_eq_range'] at a3
  exact (a1.append a3).append a2

/-- What is seen of the last panel and of the end of the page. -/
def Spec.endShown : Bytes := b!"\n\n Quick access\n\n\n&UpArrowBar; Beginning\n&DownArrowBar; End of file\n\n\n\n\n\n\n\nendoffile\n\n\n"

theorem end_view : View (navQuick.raw ++ b!"\n</nav>\n\n" ++ pageTrailer) endShown := fun rest => by kernel_rfl

/-! ### The page -/

theorem browse_shown [Zlib] [FloatText] {lim : Nat} {filename F : Bytes} {h : Html} (hF : F.getLast?.any isEol = true)
    (e : browse lim filename F = .ok h) :
    ∃ m index cross s l parts pre info pages mini, ∃ size : Nat, size = F.length ∧ fileObjectMap F = .ok m ∧ fileIndex F = .ok index ∧
      crossMap (withoutVoid m) index = .ok cross ∧
      (∃ doc doc' a doc'', loads F = .ok doc ∧ structureOf lim [] doc = .ok (s, doc') ∧ (flatPageTree lim .null [] none).run doc' = .ok ((l, a), doc'')) ∧
      h.raw = pageHeader ++ parts.flatten ++ pre ++ info ++ pages ++ mini ++ (navQuick.raw ++ b!"\n</nav>\n\n" ++ pageTrailer) ∧
      All₂ (fun x p => ClearItem x → ¬ Cut p → ∃ t, ItemShown index cross x t ∧ View p t) (withoutVoid m) parts ∧
      ((∀ c ∈ basename filename, c ≠ 60 ∧ c ≠ 38) → View pre (b!"\n\n" ++ basename filename ++ b!" - internal view generated by PDFSyntax\n\n\n\n\n\n")) ∧
      ((∀ c ∈ s.version, c ≠ 60 ∧ c ≠ 38) → ∃ n, s.pages = .int n ∧ View info (InfoShown s size n)) ∧
      View pages (b!"\n\n Pages\n\n" ++ pageNumbers l.length ++ b!"\n\n\n") ∧
      ((∀ x ∈ withoutVoid m, ClearType x) → ∃ ts, All₂ LineShown (withoutVoid m) ts ∧ View mini (b!"\n\n Minimap\n\n\n" ++ ts.flatten ++ b!"\n\n\n\n")) := by
  unfold browse at e
  obtain ⟨index, h1, e⟩ := bind_eq_ok e
  obtain ⟨m, h2, e⟩ := bind_eq_ok e
  obtain ⟨cross, h3, e⟩ := bind_eq_ok e
  obtain ⟨doc, h4, e⟩ := bind_eq_ok e
  obtain ⟨⟨s, doc'⟩, h5, e⟩ := bind_eq_ok e
  obtain ⟨⟨⟨l, a⟩, doc''⟩, h6, e⟩ := bind_eq_ok e
  obtain ⟨pages, h7, e⟩ := bind_eq_ok e
  obtain ⟨body, k1, e⟩ := bind_eq_ok e
  obtain ⟨info, k2, e⟩ := bind_eq_ok e
  obtain ⟨np, k3, e⟩ := bind_eq_ok e
  obtain ⟨no, k4, e⟩ := bind_eq_ok e
  cases e
  have hknown := fileObjectMap_known hF h2
  have hn := (fileMapLoop_keys hF _ 0 m (by omega) h2).1
  obtain ⟨parts, r1, r2⟩ := articles_view h3 (by rw [withoutVoid_keys]; exact hn) (fun x hx => hknown x (withoutVoid_novoid hx).1)
    (fun x hx => (withoutVoid_novoid hx).2) (fun x hx => hx) k1
  refine ⟨m, index, cross, s, l, parts, (headerText filename).raw ++ b!"\n<nav class=\"b2\">\n\n", info.raw, np.raw, no.raw,
    F.length, rfl, h2, h1, h3, ⟨doc, doc', a, doc'', h4, h5, h6⟩, ?_, r2, ?_, fun hv => navInfo_view k2 hv, ?_, fun hk => navObjects_view k4 hk⟩
  · simp only [raw_append, raw_lit, r1, List.append_assoc]
  · have a : View b!"\n<nav class=\"b2\">\n\n" b!"\n\n\n" := fun rest => rfl
    exact fun hname => ((header_view hname).append a).to (by simp)
  · rw [← mapM_len h7]
    exact navPages_view k3

/-- `C110_items_partial`. The part of the page for the file is made of one part for each item of the file, in their order (the space between the
items excepted). Read without its tags, whatever follows, each part shows the position of the item and its text: the number and the
generation that the index gives to an object, the objects which use it, and a text of the object according to the grammar of 7.3; the
rows and the trailer of a table; the rows of a cross-reference stream; the position in `startxref`; the first characters of a
comment or the hexadecimal digits of its bytes.
Partial: for the items that are shown as they are (`ClearItem`; see the counterexamples below and those of C101) and the parts where
nothing was left out; the file ends with an end of line. -/
theorem C110_items_partial [Zlib] [FloatText] (lim : Nat) (filename F : Bytes) (h : Html) (hF : F.getLast?.any isEol = true)
    (e : browse lim filename F = .ok h) :
    ∃ m index cross pre parts post, fileObjectMap F = .ok m ∧ fileIndex F = .ok index ∧ crossMap (withoutVoid m) index = .ok cross ∧
      h.raw = pre ++ parts.flatten ++ post ∧
      All₂ (fun x p => ClearItem x → ¬ b!"<em> ...(truncated) </em>" <:+: p →
        ∃ t, ItemShown index cross x t ∧ ∀ rest, visible (p ++ rest) = t ++ visible rest) (withoutVoid m) parts := by
  obtain ⟨m, index, cross, s, l, parts, pre, info, pages, mini, size, -, h1, h2, h3, -, h6, h7, -⟩ := browse_shown hF e
  refine ⟨m, index, cross, pageHeader, parts, pre ++ info ++ pages ++ mini ++ (navQuick.raw ++ b!"\n</nav>\n\n" ++ pageTrailer), h1, h2, h3,
    by simp only [h6, List.append_assoc], h7.imp_mem fun x _ p hx hk hc => ?_⟩
  exact hx hk (by
    unfold Cut truncated
    rw [raw_lit]
    exact hc)

/-- `C110_page_partial`. When all the items are shown as they are and nothing was left out, what is seen of the page is, after the style sheet, the
text of each item in their order, then the name of the file, the information (`InfoShown`), the numbers of the pages, the line of
each item in the minimap, and the end. -/
theorem C110_page_partial [Zlib] [FloatText] (lim : Nat) (filename F : Bytes) (h : Html) (hF : F.getLast?.any isEol = true)
    (e : browse lim filename F = .ok h) (hc : ¬ b!"<em> ...(truncated) </em>" <:+: h.raw)
    (hk : ∀ m, fileObjectMap F = .ok m → ∀ x ∈ m, ClearItem x ∧ ClearType x)
    (hname : ∀ c ∈ basename filename, c ≠ 60 ∧ c ≠ 38)
    (hv : ∀ doc s doc', loads F = .ok doc → structureOf lim [] doc = .ok (s, doc') → ∀ c ∈ s.version, c ≠ 60 ∧ c ≠ 38) :
    ∃ m index cross doc s doc' n l a doc'' pre texts lines, fileObjectMap F = .ok m ∧ fileIndex F = .ok index ∧
      crossMap (withoutVoid m) index = .ok cross ∧
      loads F = .ok doc ∧ structureOf lim [] doc = .ok (s, doc') ∧ s.pages = .int n ∧
      (flatPageTree lim .null [] none).run doc' = .ok ((l, a), doc'') ∧
      visible h.raw = pre ++ texts.flatten ++ (b!"\n\n" ++ basename filename ++ b!" - internal view generated by PDFSyntax\n\n\n\n\n\n") ++
        InfoShown s F.length n ++ (b!"\n\n Pages\n\n" ++ pageNumbers l.length ++ b!"\n\n\n") ++
        (b!"\n\n Minimap\n\n\n" ++ lines.flatten ++ b!"\n\n\n\n") ++ endShown ∧
      All₂ (ItemShown index cross) (withoutVoid m) texts ∧ All₂ LineShown (withoutVoid m) lines := by
  obtain ⟨m, index, cross, s, l, parts, pre, info, pages, mini, size, rfl, h1, h2, h3, ⟨doc, doc', a, doc'', h4, h5, h5'⟩, h6, h7, h8, h9, h10, h11⟩ :=
    browse_shown hF e
  obtain ⟨n, r1, r2⟩ := h9 (hv doc s doc' h4 h5)
  obtain ⟨ts, r3, r4⟩ := h11 fun x hx => (hk m h1 x (withoutVoid_novoid hx).1).2
  obtain ⟨hs, hh⟩ := pageHeader_view
  have hc' : ¬ Cut h.raw := by
    unfold Cut truncated
    rw [raw_lit]
    exact hc
  rw [h6] at hc'
  have key : ∀ {l : List MapItem} {parts : List Bytes}, All₂ (fun x p => ClearItem x → ¬ Cut p → ∃ t, ItemShown index cross x t ∧ View p t) l parts →
      (∀ x ∈ l, ClearItem x) → ¬ Cut parts.flatten → ∃ texts, All₂ (ItemShown index cross) l texts ∧ View parts.flatten texts.flatten := by
    intro l parts ha
    induction ha with
    | nil => exact fun _ _ => ⟨[], .nil, .nil⟩
    | cons hx _ ih =>
      intro hl hc
      rw [List.flatten_cons] at hc ⊢
      obtain ⟨t, q1, q2⟩ := hx (hl _ (by simp)) (cut_append hc).1
      obtain ⟨ts, q3, q4⟩ := ih (fun y hy => hl y (by simp [hy])) (cut_append hc).2
      exact ⟨t :: ts, .cons q1 q3, by rw [List.flatten_cons]; exact q2.append q4⟩
  obtain ⟨texts, q1, q2⟩ := key h7 (fun x hx => (hk m h1 x (withoutVoid_novoid hx).1).1)
    (cut_append (cut_append (cut_append (cut_append (cut_append (cut_append hc').1).1).1).1).1).2
  refine ⟨m, index, cross, doc, s, doc', n, l, a, doc'', hs, texts, ts, h1, h2, h3, h4, h5, r1, h5', ?_, q1, r3⟩
  rw [h6]
  exact ((((((hh.append q2).append (h8 hname)).append r2).append h10).append r4).append end_view).all

/-! ### A case, and what is not shown -/

theorem pageMap_clear : ∀ x ∈ pageMap, ClearItem x ∧ ClearType x := by
  simp only [pageMap, List.forall_mem_cons]
  refine ⟨⟨(by decide : ∀ c ∈ (b!"%PDF-1.4" : Bytes), c ≠ 60 ∧ c ≠ 38), ?_⟩, ⟨trivial, ?_⟩, ⟨⟨by decide, ?_⟩, ?_⟩, ⟨trivial, ?_⟩, ⟨⟨by decide, ?_⟩, ?_⟩, ⟨trivial, ?_⟩,
    ⟨⟨by decide, ?_⟩, ?_⟩, ⟨trivial, ?_⟩, ⟨⟨⟨by decide, ?_⟩, ?_, ?_⟩, ?_⟩, ⟨trivial, ?_⟩, ⟨trivial, ?_⟩, ⟨trivial, ?_⟩,
    ⟨(by decide : ∀ c ∈ (b!"%%EOF" : Bytes), c ≠ 60 ∧ c ≠ 38), ?_⟩, ⟨trivial, ?_⟩, fun _ h => by cases h⟩
  all_goals first | (intro o h; cases h; done) | (intro d c e h; cases h; done) | (simp [Legible, LegibleEntries, LegibleItems]; done) | skip
  case refine_14 =>
    intro o n g kw h
    simp only [List.mem_cons, XRow.entry.injEq, reduceCtorEq, false_or, List.not_mem_nil, or_false] at h
    rcases h with ⟨-, -, -, rfl⟩ | ⟨-, -, -, rfl⟩ | ⟨-, -, -, rfl⟩ | ⟨-, -, -, rfl⟩ <;> decide
  all_goals
    intro o h
    cases h
    refine ⟨fun s h => ?_, fun s h => ?_⟩
    · simp [typeOf, Dict.get?, List.lookup] at h
    · simp [typeOf, Dict.get?, List.lookup] at h
      subst h
      decide

/-- What is seen of its page, after the style sheet and the first comment. -/
def pageSeen : Bytes := b!"0000000091 0 obj                 used in trailer \n<<\n  /Type               /Catalog\n  /Pages              2 0 R\n>>\n\nendobj\n\n\n\n\n\n\n\n00000000582 0 obj                 used in 1 3 \n<<\n  /Type               /Pages\n  /MediaBox           [ 0 0 612 792 ]\n  /Count              1\n  /Kids               [ 3 0 R ]\n>>\n\nendobj\n\n\n\n\n\n\n\n00000001433 0 obj                 used in 2 \n<<\n  /Type               /Page\n  /T                  (<b>)\n  /Parent             2 0 R\n>>\n\nendobj\n\n\n\n\n\n\n\n0000000199XREF table & trailer\n0  4\n0000000000 65535 f\n0000000009 00000 n    #1 0\n0000000058 00000 n    #2 0\n0000000143 00000 n    #3 0\n\ntrailer\n<<\n  /Root               1 0 R\n>>\n\n\n\n\n\n\n0000000314startxref\n\n199\n\n\n\n\n\n\n\n\n\n0000000328%%EOF\n\n\n\n\n\na.pdf - internal view generated by PDFSyntax\n\n\n\n\n\n\n\n Info\n\n Version:       1.4 Page(s):       1 Revision(s):   1 Hybrid:        no Linearized:    no File size:     334 bytes\n\n\n\n\n\n Pages\n\n 1\n\n\n\n\n Minimap\n\n\n1 /Catalog\n2 /Pages\n3 /Page\nxref XREF table & trailer\n\n\n\n\n\n\n Quick access\n\n\n&UpArrowBar; Beginning\n&DownArrowBar; End of file\n\n\n\n\n\n\n\nendoffile\n\n\n"

/-- The theorem applies to this file. -/
example [Zlib] [FloatText] : (∀ m, fileObjectMap pageFile = .ok m → ∀ x ∈ m, ClearItem x ∧ ClearType x) ∧ pageFile.getLast?.any isEol = true ∧
    (browse 50 b!"d/a.pdf" pageFile).map (fun h => (find h.raw b!"truncated" 0, (visible h.raw).drop 3853)) = .ok (none, pageSeen) := by
  refine ⟨fun m hm => ?_, by kernel_rfl, by kernel_rfl⟩
  rw [pageFile_map] at hm
  cases hm
  exact pageMap_clear

/-- A file with an object stream and a cross-reference stream. -/
def packedFile : Bytes := b!"%PDF-1.5\n1 0 obj\n<</Type/Catalog/Pages 2 0 R>>\nendobj\n4 0 obj\n<< /Type /ObjStm /N 2 /First 9 /Length 91 >>\nstream\n2 0 3 54 <</Type/Pages/Count 1/Kids[3 0 R]/MediaBox[0 0 9 9]>> <</Type/Page/Parent 2 0 R>> \nendstream\nendobj\n5 0 obj\n<< /Type /XRef /Size 6 /Root 1 0 R /W [ 1 2 1 ] /Index [ 1 5 ] /Filter /ASCIIHexDecode /Length 40 >>\nstream\n010009000200040002000401010036000100df00\nendstream\nendobj\nstartxref\n223\n%%EOF\n"

def packedSeen : Bytes := b!"0000000091 0 obj                 used in 5 \n<<\n  /Type               /Catalog\n  /Pages              2 0 R\n>>\n\nendobj\n\n\n\n\n\n\n\n00000000544 0 obj\n<<\n  /Type               /ObjStm\n  /Length             91\n  /First              9\n  /N                  2\n>>  \nstream\n\nsee content\n2 0 3 54 <</Type/Pages/Count 1/Kids[3 0 R]/MediaBox[0 0 9 9]>> <</Type/Page/Parent 2 0 R>> \n\nendstream\n\n\nendobj\n\n\n\n\n\n\n\n4 #0      2 0 obj                 used in 1 3 \n<<\n  /Type               /Pages\n  /MediaBox           [ 0 0 9 9 ]\n  /Kids               [ 3 0 R ]\n  /Count              1\n>>\n\nendobj\n\n\n\n\n\n\n\n4 #1      3 0 obj                 used in 2 \n<<\n  /Type               /Page\n  /Parent             2 0 R\n>>\n\nendobj\n\n\n\n\n\n\n\n00000002235 0 obj\n<<\n  /Type               /XRef\n  /Length             40\n  /Filter             /ASCIIHexDecode\n  /Index              [ 1 5 ]\n  /W                  [ 1 2 1 ]\n  /Root               1 0 R\n  /Size               6\n>>\nstream\n\n#1 0    At absolute position 0000000009 n\n#2 0    In object stream 4 at 0000000000 n\n#3 0    In object stream 4 at 0000000001 n\n#4 0    At absolute position 0000000054 n\n#5 0    At absolute position 0000000223 n\n\nendstream\n\n\nendobj\n\n\n\n\n\n\n0000000397startxref\n\n223\n\n\n\n\n\n\n\n\n\n0000000411%%EOF\n\n\n\n\n\na.pdf - internal view generated by PDFSyntax\n\n\n\n\n\n\n\n Info\n\n Version:       1.5 Page(s):       1 Revision(s):   1 Hybrid:        no Linearized:    no File size:     417 bytes\n\n\n\n\n\n Pages\n\n 1\n\n\n\n\n Minimap\n\n\n1 /Catalog\n4 /ObjStm\n2 /Pages\n3 /Page\n5 /XRef\n\n\n\n\n\n\n Quick access\n\n\n&UpArrowBar; Beginning\n&DownArrowBar; End of file\n\n\n\n\n\n\n\nendoffile\n\n\n"

/-- Positions of embedded objects are only in the attributes, with any text. -/
@[reducible] def anyFloat : FloatText := ⟨fun _ _ => b!"5.0001", by intro _ _; decide⟩

example [Zlib] : (@browse _ anyFloat 50 b!"d/a.pdf" packedFile).map (fun h => (find h.raw b!"truncated" 0, (visible h.raw).drop 3853)) = .ok (none, packedSeen) := by
  kernel_rfl

/-- Comments are not escaped: of the comment `%a<b>c&lt;`, written in the file, `%ac<` is seen. -/
theorem C110_comment_counterexample [Zlib] [FloatText] : (browse 50 b!"d/a.pdf" (pageFile ++ b!"%a<b>c&lt;\n")).map (fun h =>
    (find (visible h.raw) b!"%a<b>c" 0, (find (visible h.raw) b!"0000000334%ac<\n" 0).isSome)) = .ok (none, true) := by
  kernel_rfl

end Pdf
