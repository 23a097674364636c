/-
The text of a page on two maps of objects that agree on what is read: when the reading succeeds on the first one, it succeeds on the
second one, with the same text.
-/
import Verif.Lemmas.Leak
import Verif.Props.C85_Metadata

namespace Pdf
open Spec Prog

theorem Pointwise.at {α β : Type} {R : α → β → Prop} {l : List α} {m : List β} (h : Pointwise R l m) {i : Nat} {a : α}
    (ha : l[i]? = some a) : ∃ b, m[i]? = some b ∧ R a b := by
  induction h generalizing i with
  | nil => simp at ha
  | cons h _ ih =>
    cases i with
    | zero => simp at ha; subst ha; exact ⟨_, by simp, h⟩
    | succ i => simp at ha ⊢; exact ih ha

theorem Pointwise.len {α β : Type} {R : α → β → Prop} {l : List α} {m : List β} (h : Pointwise R l m) : m.length = l.length := by
  induction h with
  | nil => rfl
  | cons _ _ ih => simp [ih]

/-! ### Programs -/

/-- When the first program succeeds on the first map, so does the second program on the second map. -/
def Sim {α β : Type} (s s' : Store) (R : α → β → Prop) (p : Prog α) (q : Prog β) : Prop :=
  ∀ a t, eval p s = .ok (a, t) → t = s ∧ ∃ b, eval q s' = .ok (b, s') ∧ R a b

theorem Sim.bind {α β γ δ : Type} {s s' : Store} {R : α → β → Prop} {Q : γ → δ → Prop} {p : Prog α} {q : Prog β} {k : α → Prog γ}
    {l : β → Prog δ} (h : Sim s s' R p q) (hk : ∀ a b, R a b → Sim s s' Q (k a) (l b)) : Sim s s' Q (p >>= k) (q >>= l) := by
  intro a t ha
  rw [eval_bind] at ha
  obtain ⟨⟨x, u⟩, h1, h2⟩ := bind_eq_ok ha
  obtain ⟨rfl, y, h3, h4⟩ := h x u h1
  obtain ⟨h5, b, h6, h7⟩ := hk x y h4 a t h2
  exact ⟨h5, b, by rw [eval_bind_ok h3, h6], h7⟩

theorem Sim.pure {α β : Type} {s s' : Store} {R : α → β → Prop} {a : α} {b : β} (h : R a b) :
    Sim s s' R (Pure.pure a : Prog α) (Pure.pure b : Prog β) := by
  intro x t hx
  cases hx
  exact ⟨rfl, b, rfl, h⟩

theorem Sim.lift {α β : Type} {s s' : Store} {R : α → β → Prop} {x : Py α} {y : Py β} (h : ∀ a, x = .ok a → ∃ b, y = .ok b ∧ R a b) :
    Sim s s' R (Prog.lift x) (Prog.lift y) := by
  intro a t ha
  obtain ⟨h1, rfl⟩ := eval_lift_inv ha
  obtain ⟨b, rfl, hb⟩ := h a h1
  exact ⟨rfl, b, rfl, hb⟩

theorem Sim.raise {α β : Type} {s s' : Store} {R : α → β → Prop} {e : PyErr} {q : Prog β} : Sim s s' R (.raise e : Prog α) q := by
  intro a t ha
  cases ha

/-- The entries that are read below a page to lay it out. -/
def textKeys : List Bytes :=
  [b!"/Resources", b!"/Font", b!"/Contents", b!"/BaseFont", b!"/Subtype", b!"/FontDescriptor", b!"/ToUnicode", b!"/Encoding",
   b!"/FirstChar", b!"/Widths", b!"/DescendantFonts", b!"/W", b!"/DW"]

/-- Dicts of fonts on both sides. -/
def FontsRel (V : Obj → Obj → Prop) (d d' : Dict) : Prop :=
  (∀ k r', (k, r') ∈ d' → ∃ r, (k, r) ∈ d ∧ V r r') ∧
  ∀ k, (∀ v, Dict.get? d k = some v → ∃ w, Dict.get? d' k = some w ∧ V v w) ∧ (Dict.get? d k = none → Dict.get? d' k = none)

/-- The two maps agree on what is read: `V` for the values that are in the objects, `R` for those that were fetched. -/
structure Agree (s s' : Store) (V R : Obj → Obj → Prop) : Prop where
  up : ∀ {a b}, V a b → R a b
  null : V .null .null
  dw : V (.int 1000) (.int 1000)
  truthy : ∀ {a b}, R a b → truthy b = truthy a
  fetch : ∀ {a b v}, R a b → s.get a = .ok v → ∃ w, s'.get b = .ok w ∧ R v w
  dict : ∀ {d b}, R (.dict d) b → ∃ d', b = .dict d' ∧ ∀ k ∈ textKeys,
    (∀ v, Dict.get? d k = some v → ∃ w, Dict.get? d' k = some w ∧ V v w) ∧ (Dict.get? d k = none → Dict.get? d' k = none)
  list : ∀ {l b}, R (.list l) b → ∃ l', b = .list l' ∧ Pointwise V l l'
  list' : ∀ {a l}, R a (.list l) → ∃ l0, a = .list l0
  ref : ∀ {g n b}, R (.ref g n) b → ∃ g' n', b = .ref g' n'
  stream : ∀ {a b x}, R a b → streamOf a = .ok x → streamOf b = .ok x
  rat : ∀ {a b}, R a b → objRat b = objRat a
  kw : ∀ {a b}, R a b → ∀ k, isKw k b = isKw k a
  int : ∀ {n b}, R (.int n) b → b = .int n
  int' : ∀ {n a}, R a (.int n) → a = .int n
  isNull : ∀ {b}, R .null b → b = .null
  isNull' : ∀ {a}, R a .null → a = .null
  fonts : ∀ {d b v e}, R (.dict d) b → Dict.get? d b!"/Font" = some v → fontItems v = .ok e →
    ∃ d' w e', b = .dict d' ∧ Dict.get? d' b!"/Font" = some w ∧ fontItems w = .ok e' ∧ FontsRel V e e'

variable {s s' : Store} {V R : Obj → Obj → Prop}

theorem ag_fetch (A : Agree s s' V R) {a b : Obj} (h : R a b) : Sim s s' R (Prog.fetch a) (Prog.fetch b) := by
  intro v t hv
  obtain ⟨h1, rfl⟩ := eval_fetch_inv hv
  obtain ⟨w, h2, h3⟩ := A.fetch h h1
  exact ⟨rfl, w, eval_fetch h2, h3⟩

theorem ag_getKey (A : Agree s s' V R) {a b : Obj} (h : R a b) {k : Bytes} (hk : k ∈ textKeys) :
    Sim s s' V (Prog.lift (getKey a k)) (Prog.lift (getKey b k)) := by
  refine Sim.lift ?_
  intro v hv
  cases a <;> simp only [getKey] at hv <;> try cases hv
  rename_i d
  obtain ⟨d', rfl, hd⟩ := A.dict h
  cases hg : Dict.get? d k with
  | none => rw [hg] at hv; cases hv
  | some x =>
    rw [hg] at hv
    cases hv
    obtain ⟨w, h1, h2⟩ := (hd k hk).1 _ hg
    exact ⟨w, by simp only [getKey, h1]; rfl, h2⟩

theorem ag_getOr (A : Agree s s' V R) {a b : Obj} (h : R a b) {k : Bytes} (hk : k ∈ textKeys) :
    Sim s s' V (Prog.lift (getOr a k)) (Prog.lift (getOr b k)) := by
  refine Sim.lift ?_
  intro v hv
  cases a <;> simp only [getOr] at hv <;> try (cases hv; done)
  rename_i d
  obtain ⟨d', rfl, hd⟩ := A.dict h
  cases hg : Dict.get? d k with
  | none =>
    rw [hg] at hv
    cases hv
    exact ⟨.null, by simp only [getOr, (hd k hk).2 hg]; rfl, A.null⟩
  | some x =>
    rw [hg] at hv
    cases hv
    obtain ⟨w, h1, h2⟩ := (hd k hk).1 _ hg
    exact ⟨w, by simp only [getOr, h1]; rfl, h2⟩

theorem ag_defaultWidth (A : Agree s s' V R) {a b : Obj} (h : R a b) :
    Sim s s' V (Prog.lift (defaultWidth a)) (Prog.lift (defaultWidth b)) := by
  refine Sim.lift ?_
  intro v hv
  cases a <;> simp only [defaultWidth] at hv <;> try (cases hv; done)
  rename_i d
  obtain ⟨d', rfl, hd⟩ := A.dict h
  have hk : b!"/DW" ∈ textKeys := by decide
  cases hg : Dict.get? d b!"/DW" with
  | none =>
    rw [hg] at hv
    cases hv
    exact ⟨.int 1000, by simp only [defaultWidth, (hd _ hk).2 hg]; rfl, A.dw⟩
  | some x =>
    rw [hg] at hv
    cases hv
    obtain ⟨w, h1, h2⟩ := (hd _ hk).1 _ hg
    exact ⟨w, by simp only [defaultWidth, h1]; rfl, h2⟩

theorem ag_firstItem (A : Agree s s' V R) {a b : Obj} (h : R a b) :
    Sim s s' V (Prog.lift (firstItem a)) (Prog.lift (firstItem b)) := by
  refine Sim.lift ?_
  intro v hv
  cases a <;> simp only [firstItem] at hv <;> try cases hv
  rename_i l
  obtain ⟨l', rfl, hl⟩ := A.list h
  cases hl with
  | nil => cases hv
  | cons h1 _ => cases hv; exact ⟨_, rfl, h1⟩

/-! ### The fonts -/

/-- Tables of widths that agree. -/
def TableRel (V : Obj → Obj → Prop) (t t' : WidthTable) : Prop :=
  ∀ c, (t c = none ∧ t' c = none) ∨ ∃ a b, t c = some a ∧ t' c = some b ∧ V a b

theorem tableRel_set {t t' : WidthTable} (h : TableRel V t t') (j : Int) {a b : Obj} (hab : V a b) :
    TableRel V (t.set j a) (t'.set j b) := by
  intro c
  unfold WidthTable.set
  by_cases hc : c = j
  · simp only [hc, if_true]
    exact .inr ⟨a, b, rfl, rfl, hab⟩
  · simp only [hc, if_false]
    exact h c

theorem tableRel_each : ∀ {l l' : List Obj} {t t' : WidthTable} (j : Int), Pointwise V l l' → TableRel V t t' →
    TableRel V (setEach t j l) (setEach t' j l')
  | _, _, _, _, _, .nil, h => h
  | _, _, _, _, j, .cons h hl, ht => tableRel_each (j + 1) hl (tableRel_set ht j h)

theorem tableRel_range {a b : Obj} (hab : V a b) : ∀ (n : Nat) {t t' : WidthTable} (j : Int), TableRel V t t' →
    TableRel V (setRange t j a n) (setRange t' j b n)
  | 0, _, _, _, h => h
  | n + 1, _, _, j, h => tableRel_range hab n (j + 1) (tableRel_set h j hab)

theorem ag_prepareWLoop (A : Agree s s' V R) : ∀ (n : Nat) {l l' : List Obj} {t t' u : WidthTable}, l.length ≤ n → Pointwise V l l' → TableRel V t t' →
    prepareWLoop t l = .ok u → ∃ u', prepareWLoop t' l' = .ok u' ∧ TableRel V u u'
  | n, _, _, t, t', u, _, .nil, ht, h => by
    simp only [prepareWLoop] at h ⊢
    cases h
    exact ⟨t', rfl, ht⟩
  | n, _, _, t, t', u, _, .cons h1 .nil, ht, h => by
    unfold prepareWLoop at h
    simp at h
  | 0, _, _, t, t', u, hn, .cons h1 (.cons h2 hl), ht, h => by simp at hn
  | n + 1, a :: b :: l, a' :: b' :: l', t, t', u, hn, .cons h1 (.cons h2 hl), ht, h => by
    simp only [List.length_cons] at hn
    by_cases hb : ∃ ws, b = .list ws
    · obtain ⟨ws, rfl⟩ := hb
      obtain ⟨ws', rfl, hw⟩ := A.list (A.up h2)
      cases a with
      | int f =>
        rw [A.int (A.up h1)]
        simp only [prepareWLoop] at h ⊢
        exact ag_prepareWLoop A n (by omega) hl (tableRel_each f hw ht) h
      | _ => simp [prepareWLoop] at h
    · cases hl with
      | nil =>
        cases b <;> first | exact absurd ⟨_, rfl⟩ hb | (cases a <;> simp [prepareWLoop] at h)
      | @cons x x' l l' h3 hl =>
        simp only [List.length_cons] at hn
        cases b with
        | int z =>
          cases a with
          | int f =>
            rw [A.int (A.up h1), A.int (A.up h2)]
            simp only [prepareWLoop] at h ⊢
            exact ag_prepareWLoop A n (by omega) hl (tableRel_range h3 _ f ht) h
          | _ => simp [prepareWLoop] at h
        | list ws => exact absurd ⟨_, rfl⟩ hb
        | _ => cases a <;> simp [prepareWLoop] at h

theorem ag_simpleWidths (A : Agree s s' V R) {w w' f f' : Obj} (hw : R w w') (hf : R f f') : simpleWidths w' f' = simpleWidths w f := by
  by_cases hl : ∃ ws, w = .list ws
  · obtain ⟨ws, rfl⟩ := hl
    obtain ⟨ws', rfl, h⟩ := A.list hw
    by_cases h1 : ∃ i, f = .int i
    · obtain ⟨i, rfl⟩ := h1
      rw [A.int hf]
      funext c
      simp only [simpleWidths, prepareWidths, h.len]
      split
      · rfl
      · cases hg : ws[((c : Int) - i).toNat]? with
        | none =>
          have : ws'[((c : Int) - i).toNat]? = none := by
            rw [List.getElem?_eq_none_iff] at hg ⊢
            rw [h.len]; exact hg
          rw [this]
        | some x =>
          obtain ⟨y, h2, h3⟩ := h.at hg
          rw [h2]
          simp only [Bind.bind, Except.bind]
          rw [A.rat (A.up h3)]
    · by_cases h2 : f = .null
      · subst h2
        rw [A.isNull hf]
        rfl
      · have h1' : ∀ i, f' ≠ .int i := by
          rintro i rfl
          exact h1 ⟨i, A.int' hf⟩
        have h2' : f' ≠ .null := by
          rintro rfl
          exact h2 (A.isNull' hf)
        cases f <;> first | exact absurd ⟨_, rfl⟩ h1 | exact absurd rfl h2 |
          (cases f' <;> first | exact absurd rfl (h1' _) | exact absurd rfl h2' | rfl)
  · have hl' : ∀ ws, w' ≠ .list ws := by
      rintro ws rfl
      exact hl (A.list' hw)
    cases w <;> first | exact absurd ⟨_, rfl⟩ hl | (cases w' <;> first | exact absurd rfl (hl' _) | rfl)

theorem ag_cidWidths (A : Agree s s' V R) {w w' dw dw' : Obj} (hw : R w w') (hd : R dw dw') {f : Nat → Py Rat} (h : cidWidths w dw = .ok f) :
    cidWidths w' dw' = .ok f := by
  unfold cidWidths at h ⊢
  rw [A.truthy hw]
  by_cases hne : truthy w = false
  · rw [if_pos hne] at h ⊢
    exact h
  · rw [if_neg hne] at h ⊢
    split at h
    · rename_i ws
      obtain ⟨ws', rfl, hl⟩ := A.list hw
      obtain ⟨g, h1, h2⟩ := bind_eq_ok h
      cases h2
      have hne' : ws ≠ [] := by
        rintro rfl
        exact hne rfl
      have hne2 : ws' ≠ [] := by
        rintro rfl
        have := hl.len
        simp at this
        exact hne' (List.eq_nil_of_length_eq_zero this.symm)
      unfold prepareW at h1 ⊢
      rw [if_neg hne'] at h1
      dsimp only
      rw [if_neg hne2]
      cases hp : prepareWLoop (fun _ => none) ws with
      | error e => rw [hp] at h1; cases h1
      | ok u =>
        rw [hp] at h1
        cases h1
        obtain ⟨u', h3, h4⟩ := ag_prepareWLoop A _ (Nat.le_refl _) hl (t := fun _ => none) (t' := fun _ => none)
          (fun c => .inl ⟨rfl, rfl⟩) hp
        simp only [h3, Except.map, Bind.bind, Except.bind, Pure.pure, Except.pure]
        congr 1
        funext c
        rcases h4 c with ⟨h5, h6⟩ | ⟨a, b, h5, h6, h7⟩
        · rw [h5, h6]
          simp only [Option.getD_none]
          rw [A.rat hd]
        · rw [h5, h6]
          simp only [Option.getD_some]
          rw [A.rat (A.up h7)]
    · cases h

theorem ag_fontWidths (A : Agree s s' V R) {w w' f f' d d' : Obj} (hw : V w w') (hf : V f f') (hd : V d d') :
    Sim s s' (fun x y => x = y) (fontWidths w f d) (fontWidths w' f' d') := by
  unfold fontWidths
  rw [A.truthy (A.up hw), A.truthy (A.up hd)]
  split
  · refine Sim.bind (ag_fetch A (A.up hw)) fun _ _ h1 => Sim.bind (ag_fetch A (A.up hf)) fun _ _ h2 => ?_
    exact Sim.pure (ag_simpleWidths A h1 h2).symm
  · split
    · refine Sim.bind (ag_fetch A (A.up hd)) fun _ _ h1 => Sim.bind (ag_firstItem A h1) fun _ _ h2 => Sim.bind (ag_fetch A (A.up h2)) fun _ _ h3 =>
        Sim.bind (ag_getOr A h3 (by decide)) fun _ _ h4 => Sim.bind (ag_defaultWidth A h3) fun _ _ h5 => Sim.bind (ag_fetch A (A.up h4)) fun _ _ h6 =>
        Sim.bind (ag_fetch A (A.up h5)) fun _ _ h7 => Sim.lift ?_
      intro g hg
      exact ⟨g, ag_cidWidths A h6 h7 hg, rfl⟩
    · exact Sim.pure rfl

theorem ag_fontDecoder [Zlib] (A : Agree s s' V R) {u u' e e' : Obj} (hu : V u u') (he : V e e') :
    Sim s s' (fun x y => x = y) (fontDecoder u e) (fontDecoder u' e') := by
  unfold fontDecoder
  rw [A.truthy (A.up hu)]
  split
  · refine Sim.bind (ag_fetch A (A.up hu)) fun a b h1 => Sim.bind (R := fun x y => x = y) (Sim.lift ?_) fun _ _ h2 => Sim.pure (by rw [h2])
    intro l hl
    refine ⟨l, ?_, rfl⟩
    unfold cmapObjects at hl ⊢
    obtain ⟨x, h2, h3⟩ := bind_eq_ok hl
    rw [A.stream h1 h2]
    exact h3
  · refine Sim.pure ?_
    funext x
    unfold applyEncoding decodeSimple
    rw [A.kw (A.up he)]

theorem ag_prepareFont [Zlib] (A : Agree s s' V R) {a b : Obj} (h : V a b) :
    Sim s s' (fun x y => x.fns = y.fns) (prepareFont a) (prepareFont b) := by
  unfold prepareFont
  refine Sim.bind (ag_fetch A (A.up h)) fun _ _ h0 => Sim.bind (ag_getKey A h0 (by decide)) fun _ _ h1 => Sim.bind (ag_getKey A h0 (by decide)) fun _ _ h2 =>
    Sim.bind (ag_getOr A h0 (by decide)) fun _ _ h3 => Sim.bind (ag_getOr A h0 (by decide)) fun _ _ h4 => Sim.bind (ag_getOr A h0 (by decide)) fun _ _ h5 =>
    Sim.bind (ag_getOr A h0 (by decide)) fun _ _ h6 => Sim.bind (ag_getOr A h0 (by decide)) fun _ _ h7 => Sim.bind (ag_getOr A h0 (by decide)) fun _ _ h8 =>
    Sim.bind (ag_fontWidths A h7 h6 h8) fun _ _ h9 => Sim.bind (ag_fontDecoder A h4 h5) fun _ _ h10 => Sim.pure ?_
  rw [h9, h10]

/-- What `prepare_font` gives for the entries of a dict. -/
theorem prepareFonts_inv [Zlib] : ∀ {d : Dict} {fs : List (Bytes × FontDesc)} {t : Store}, eval (prepareFonts d) s = .ok (fs, t) →
    t = s ∧ (∀ k r, (k, r) ∈ d → ∃ f, eval (prepareFont r) s = .ok (f, s)) ∧
    ∀ k, fs.lookup k = (Dict.get? d k).bind fun r => ((eval (prepareFont r) s).toOption).map Prod.fst
  | [], fs, t, h => by
    cases h
    exact ⟨rfl, by simp, fun k => rfl⟩
  | (k0, r0) :: d, fs, t, h => by
    unfold prepareFonts at h
    rw [eval_bind] at h
    obtain ⟨⟨f, u⟩, h1, h'⟩ := bind_eq_ok h
    clear h
    have hu : u = s := eval_readOnly (readOnly_prepareFont r0) h1
    rw [hu] at h1 h'
    rw [eval_bind] at h'
    obtain ⟨⟨gs, v⟩, h2, h3'⟩ := bind_eq_ok h'
    obtain ⟨hv, h3, h4⟩ := prepareFonts_inv h2
    rw [hv] at h3'
    cases h3'
    refine ⟨rfl, ?_, ?_⟩
    · intro k r hm
      rcases List.mem_cons.1 hm with e | hm
      · cases e; exact ⟨f, h1⟩
      · exact h3 k r hm
    · intro k
      simp only [Dict.get?, List.lookup] at h4 ⊢
      cases k == k0 with
      | true => simp only [Option.bind_some, h1]; rfl
      | false => exact h4 k

theorem prepareFonts_ok [Zlib] : ∀ {d : Dict}, (∀ k r, (k, r) ∈ d → ∃ f, eval (prepareFont r) s = .ok (f, s)) →
    ∃ fs, eval (prepareFonts d) s = .ok (fs, s)
  | [], _ => ⟨[], rfl⟩
  | (k0, r0) :: d, h => by
    obtain ⟨f, h1⟩ := h k0 r0 (by simp)
    obtain ⟨fs, h2⟩ := prepareFonts_ok (d := d) fun k r hm => h k r (by simp [hm])
    unfold prepareFonts
    rw [eval_bind_ok h1, eval_bind_ok h2]
    exact ⟨_, rfl⟩

theorem ag_prepareFonts [Zlib] (A : Agree s s' V R) {d d' : Dict} (h : FontsRel V d d') :
    Sim s s' (fun x y => fontTable x = fontTable y) (prepareFonts d) (prepareFonts d') := by
  intro fs t hfs
  obtain ⟨rfl, h1, h2⟩ := prepareFonts_inv hfs
  have hok : ∀ k r, (k, r) ∈ d' → ∃ f, eval (prepareFont r) s' = .ok (f, s') := by
    intro k r' hm
    obtain ⟨r, h3, h4⟩ := h.1 k r' hm
    obtain ⟨f, h5⟩ := h1 k r h3
    obtain ⟨-, f', h6, -⟩ := ag_prepareFont A h4 _ _ h5
    exact ⟨f', h6⟩
  obtain ⟨fs', h3⟩ := prepareFonts_ok hok
  refine ⟨rfl, fs', h3, ?_⟩
  obtain ⟨-, -, h4⟩ := prepareFonts_inv h3
  funext k
  unfold fontTable
  rw [h2, h4]
  cases hg : Dict.get? d k with
  | none => rw [(h.2 k).2 hg]; rfl
  | some r =>
    obtain ⟨r', h5, h6⟩ := (h.2 k).1 r hg
    rw [h5]
    obtain ⟨f, h7⟩ := h1 k r (get?_mem hg)
    obtain ⟨-, f', h8, h9⟩ := ag_prepareFont A h6 _ _ h7
    simp only [Option.bind_some, h7, h8, Except.toOption, Option.map_some, h9]

theorem ag_fontDict (A : Agree s s' V R) {a b : Obj} (h : V a b) : Sim s s' (FontsRel V) (fontDict a) (fontDict b) := by
  unfold fontDict
  rw [A.truthy (A.up h)]
  split
  · refine Sim.bind (ag_fetch A (A.up h)) fun x y h1 => ?_
    intro e t he
    rw [eval_bind] at he
    obtain ⟨⟨v, u⟩, h2, h3⟩ := bind_eq_ok he
    obtain ⟨h4, rfl⟩ := eval_lift_inv h2
    obtain ⟨h5, rfl⟩ := eval_lift_inv h3
    cases x <;> simp only [getKey] at h4 <;> try cases h4
    rename_i d
    cases hg : Dict.get? d b!"/Font" with
    | none => rw [hg] at h4; cases h4
    | some v' =>
      rw [hg] at h4
      cases h4
      obtain ⟨d', w, e', rfl, h6, h7, h8⟩ := A.fonts h1 hg h5
      refine ⟨rfl, e', ?_, h8⟩
      rw [eval_bind_ok (a := w) (s' := s') (by simp only [getKey, h6]; rfl), h7]
      rfl
  · exact Sim.pure ⟨fun _ _ h => (List.not_mem_nil h).elim, fun k => ⟨fun v hv => (nomatch hv), fun _ => rfl⟩⟩

/-- The pages that are listed: those at positions `i` and `j` correspond. `P` is what is known of `inherited`. -/
def PagesAgree (s s' : Store) (R : Obj → Obj → Prop) (P : Dict → Dict → Prop) (lim lim' : Nat) (i j : Int) : Prop :=
  ∀ J J', P J J' → Sim s s' (fun x y => (∀ a, pyIndex x.1 i = .ok a → ∃ b, pyIndex y.1 j = .ok b ∧ R a.1 b.1) ∧ P x.2 y.2)
    (flatPageTree lim .null J none) (flatPageTree lim' .null J' none)

theorem ag_pageFonts [Zlib] (A : Agree s s' V R) {P : Dict → Dict → Prop} {lim lim' : Nat} {i j : Int}
    (hp : PagesAgree s s' R P lim lim' i j) {J J' : Dict} (hJ : P J J') :
    Sim s s' (fun x y => fontTable x.1 = fontTable y.1 ∧ P x.2 y.2) (pageFonts lim J i) (pageFonts lim' J' j) := by
  unfold pageFonts
  refine Sim.bind (hp J J' hJ) ?_
  rintro ⟨l, K⟩ ⟨l', K'⟩ ⟨hl, hK⟩
  refine Sim.bind (Sim.lift hl) fun _ _ h1 => Sim.bind (ag_fetch A h1) fun _ _ h2 => Sim.bind (ag_getKey A h2 (by decide)) fun _ _ h3 =>
    Sim.bind (ag_fontDict A h3) fun _ _ h4 => Sim.bind (ag_prepareFonts A h4) fun _ _ h5 => Sim.pure ⟨h5, hK⟩

/-! ### The contents -/

theorem ag_contentStreams (A : Agree s s' V R) : ∀ {l l' : List Obj}, Pointwise R l l' →
    Sim s s' (Pointwise R) (contentStreams l) (contentStreams l')
  | _, _, .nil => Sim.pure .nil
  | _, _, .cons h hl => by
    unfold contentStreams
    exact Sim.bind (ag_fetch A h) fun _ _ h1 => Sim.bind (ag_contentStreams A hl) fun _ _ h2 => Sim.pure (.cons h1 h2)

theorem ag_asList (A : Agree s s' V R) {a b : Obj} (h : R a b) : Pointwise R (asList a) (asList b) := by
  by_cases hl : ∃ ws, a = .list ws
  · obtain ⟨ws, rfl⟩ := hl
    obtain ⟨ws', rfl, hl⟩ := A.list h
    exact hl.mono fun _ _ => A.up
  · have hl' : ∀ ws, b ≠ .list ws := by
      rintro ws rfl
      exact hl (A.list' h)
    have ea : asList a = [a] := by cases a <;> first | exact absurd ⟨_, rfl⟩ hl | rfl
    have eb : asList b = [b] := by cases b <;> first | exact absurd rfl (hl' _) | rfl
    rw [ea, eb]
    exact .cons h .nil

theorem ag_contentsLoop (A : Agree s s' V R) : ∀ {l l' : List Obj}, Pointwise R l l' →
    Sim s s' (Pointwise R) (contentsLoop l) (contentsLoop l')
  | _, _, .nil => Sim.pure .nil
  | _, _, .cons h hl => by
    unfold contentsLoop
    exact Sim.bind (ag_fetch A h) fun _ _ h1 => Sim.bind (ag_contentStreams A (ag_asList A h1)) fun _ _ h2 =>
      Sim.bind (ag_contentsLoop A hl) fun _ _ h3 => Sim.pure (h2.append h3)

theorem ag_contentsItems (A : Agree s s' V R) {a b : Obj} (h : R a b) :
    Sim s s' (Pointwise R) (Prog.lift (contentsItems a)) (Prog.lift (contentsItems b)) := by
  refine Sim.lift ?_
  intro l hl
  cases a with
  | ref g n =>
    obtain ⟨g', n', rfl⟩ := A.ref h
    cases hl
    exact ⟨_, rfl, .cons h .nil⟩
  | list l0 =>
    cases hl
    obtain ⟨l', rfl, hl⟩ := A.list h
    exact ⟨l', rfl, hl.mono fun _ _ => A.up⟩
  | _ => cases hl

theorem ag_getPageContents (A : Agree s s' V R) {P : Dict → Dict → Prop} {lim lim' : Nat} {i j : Int}
    (hp : PagesAgree s s' R P lim lim' i j) {J J' : Dict} (hJ : P J J') :
    Sim s s' (fun x y => Pointwise R x.1 y.1 ∧ P x.2 y.2) (getPageContents lim J i) (getPageContents lim' J' j) := by
  unfold getPageContents
  refine Sim.bind (hp J J' hJ) ?_
  rintro ⟨l, K⟩ ⟨l', K'⟩ ⟨hl, hK⟩
  refine Sim.bind (Sim.lift hl) fun _ _ h1 => Sim.bind (ag_fetch A h1) fun _ _ h2 => Sim.bind (ag_getKey A h2 (by decide)) fun _ _ h3 =>
    Sim.bind (ag_contentsItems A (A.up h3)) fun _ _ h4 => Sim.bind (ag_contentsLoop A h4) fun _ _ h5 => Sim.pure ⟨h5, hK⟩

theorem ag_streams (A : Agree s s' V R) : ∀ {l l' : List Obj}, Pointwise R l l' → ∀ {cs : List Bytes}, l.mapM streamOf = .ok cs →
    l'.mapM streamOf = .ok cs
  | _, _, .nil, cs, h => h
  | _, _, .cons h1 hl, cs, h => by
    rw [List.mapM_cons] at h ⊢
    obtain ⟨x, h2, h⟩ := bind_eq_ok h
    obtain ⟨xs, h3, h⟩ := bind_eq_ok h
    rw [A.stream h1 h2, ag_streams A hl h3]
    exact h

/-- The text of a page. -/
theorem ag_extract [Zlib] (A : Agree s s' V R) {P : Dict → Dict → Prop} {lim lim' : Nat} {i j : Int}
    (hp : PagesAgree s s' R P lim lim' i j) {J J' : Dict} (hJ : P J J') :
    Sim s s' (fun x y => x.1 = y.1) (extractPageText lim J i) (extractPageText lim' J' j) := by
  unfold extractPageText
  refine Sim.bind (ag_pageFonts A hp hJ) ?_
  rintro ⟨fs, K⟩ ⟨fs', K'⟩ ⟨hf, hK⟩
  refine Sim.bind (ag_getPageContents A hp hK) ?_
  rintro ⟨cs, L⟩ ⟨cs', L'⟩ ⟨hc, -⟩
  refine Sim.bind (R := fun x y => x = y) (Sim.lift ?_) ?_
  · intro tfs h
    refine ⟨tfs, ?_, rfl⟩
    unfold buildTextFragments at h ⊢
    obtain ⟨bs, h1, h⟩ := bind_eq_ok h
    rw [ag_streams A hc h1]
    simp only at hf
    rw [← hf]
    exact h
  · rintro tfs _ rfl
    exact Sim.bind (R := fun x y => x = y) (Sim.lift fun a h => ⟨a, h, rfl⟩) fun _ _ h => Sim.pure h

end Pdf
