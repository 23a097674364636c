/-
Well-formed markup: how it is built, and what it implies.
-/
import Verif.Spec.Markup

namespace Pdf
open Spec

instance (s : Bytes) : Decidable (IsName s) := inferInstanceAs (Decidable (s ≠ [] ∧ ∀ c ∈ s, (97 ≤ c ∧ c ≤ 122) ∨ c = 45))
instance (s : Bytes) : Decidable (IsText s) := inferInstanceAs (Decidable (∀ c ∈ s, c ≠ 60 ∧ c ≠ 62))
instance (s : Bytes) : Decidable (IsValue s) := inferInstanceAs (Decidable (∀ c ∈ s, c ≠ 34 ∧ c ≠ 60 ∧ c ≠ 62))

/-- Well-formed text with these ids and these links. -/
def Marked (s : Bytes) (ids hrefs : List Bytes) : Prop := ∃ els, Markup s els ∧ vals b!"id" els = ids ∧ vals b!"href" els = hrefs

theorem vals_append (k : Bytes) (a b : List (Bytes × Attrs)) : vals k (a ++ b) = vals k a ++ vals k b := by
  simp [vals]

theorem Marked.text {s : Bytes} (h : IsText s) : Marked s [] [] := ⟨[], .text h, rfl, rfl⟩

theorem Marked.append {s t : Bytes} {i i' l l' : List Bytes} (h : Marked s i l) (h' : Marked t i' l') : Marked (s ++ t) (i ++ i') (l ++ l') := by
  obtain ⟨e, h1, h2, h3⟩ := h
  obtain ⟨e', h1', h2', h3'⟩ := h'
  exact ⟨e ++ e', .append h1 h1', by rw [vals_append, h2, h2'], by rw [vals_append, h3, h3']⟩

/-- Ids and links of a list of attributes. -/
def idOf (attrs : Attrs) : List Bytes := attrs.filterMap fun a => if a.1 = b!"id" then some a.2 else none
def hrefOf (attrs : Attrs) : List Bytes := attrs.filterMap fun a => if a.1 = b!"href" then some a.2 else none

theorem Marked.elem (name : Bytes) (attrs : Attrs) {body : Bytes} {i l : List Bytes} (hn : IsName name ∧ name ∉ voids) (ha : AttrsOk attrs) (h : Marked body i l) :
    Marked (openTag name attrs ++ body ++ closeTag name) (idOf attrs ++ i) (hrefOf attrs ++ l) := by
  obtain ⟨e, h1, h2, h3⟩ := h
  refine ⟨(name, attrs) :: e, .elem hn.1 hn.2 ha h1, ?_, ?_⟩
  · rw [← h2]; simp [vals, idOf]
  · rw [← h3]; simp [vals, hrefOf]

theorem attrsOk_nil : AttrsOk [] := fun _ h => by cases h

theorem attrsOk_cons {k v : Bytes} {attrs : Attrs} (hk : IsName k) (hv : IsValue v) (h : AttrsOk attrs) : AttrsOk ((k, v) :: attrs) := by
  intro a ha
  rcases List.mem_cons.1 ha with rfl | ha
  · exact ⟨hk, hv⟩
  · exact h a ha

theorem isValue_append {s t : Bytes} (hs : IsValue s) (ht : IsValue t) : IsValue (s ++ t) := by
  intro c hc
  rcases List.mem_append.1 hc with h | h
  · exact hs c h
  · exact ht c h

theorem isText_append {s t : Bytes} (hs : IsText s) (ht : IsText t) : IsText (s ++ t) := by
  intro c hc
  rcases List.mem_append.1 hc with h | h
  · exact hs c h
  · exact ht c h

/-- The angle brackets alternate: `b` tells whether a tag is open. -/
def alternates : Bool → Bytes → Option Bool
  | b, [] => some b
  | false, c :: s => if c = 60 then alternates true s else if c = 62 then none else alternates false s
  | true, c :: s => if c = 62 then alternates false s else if c = 60 then none else alternates true s

theorem alternates_append : ∀ (b b' : Bool) (s t : Bytes), alternates b s = some b' → alternates b (s ++ t) = alternates b' t
  | b, b', [], t, h => by
    rw [alternates] at h
    cases h
    rfl
  | false, b', c :: s, t, h => by
    rw [alternates] at h
    rw [List.cons_append, alternates]
    by_cases h1 : c = 60
    · rw [if_pos h1] at h ⊢
      exact alternates_append _ _ s t h
    rw [if_neg h1] at h ⊢
    by_cases h2 : c = 62
    · rw [if_pos h2] at h
      cases h
    · rw [if_neg h2] at h ⊢
      exact alternates_append _ _ s t h
  | true, b', c :: s, t, h => by
    rw [alternates] at h
    rw [List.cons_append, alternates]
    by_cases h1 : c = 62
    · rw [if_pos h1] at h ⊢
      exact alternates_append _ _ s t h
    rw [if_neg h1] at h ⊢
    by_cases h2 : c = 60
    · rw [if_pos h2] at h
      cases h
    · rw [if_neg h2] at h ⊢
      exact alternates_append _ _ s t h

theorem alternates_text (b : Bool) : ∀ (s : Bytes), IsText s → alternates b s = some b
  | [], _ => by rw [alternates]
  | c :: s, h => by
    have hc := h c List.mem_cons_self
    have ih := alternates_text b s fun x hx => h x (List.mem_cons_of_mem _ hx)
    cases b <;> rw [alternates, if_neg (by first | exact hc.1 | exact hc.2), if_neg (by first | exact hc.1 | exact hc.2), ih]

theorem isName_text {s : Bytes} (h : IsName s) : IsText s := by
  intro c hc
  have := h.2 c hc
  constructor <;> rintro rfl <;> revert this <;> decide

theorem attrs_text {attrs : Attrs} (h : AttrsOk attrs) : IsText (attrs.flatMap attrText) := by
  intro c hc
  obtain ⟨a, ha, hc⟩ := List.mem_flatMap.1 hc
  obtain ⟨h1, h2⟩ := h a ha
  unfold attrText at hc
  simp only [List.mem_append] at hc
  rcases hc with (((hc | hc) | hc) | hc) | hc
  · exact (by decide : IsText b!" ") c hc
  · exact isName_text h1 c hc
  · exact (by decide : IsText b!"=\"") c hc
  · exact ⟨(h2 c hc).2.1, (h2 c hc).2.2⟩
  · exact (by decide : IsText b!"\"") c hc

theorem alternates_open {name : Bytes} {attrs : Attrs} (hn : IsText name) (ha : AttrsOk attrs) : alternates false (openTag name attrs) = some false := by
  have h := alternates_text true (name ++ attrs.flatMap attrText) (isText_append hn (attrs_text ha))
  have : openTag name attrs = 60 :: ((name ++ attrs.flatMap attrText) ++ [62]) := by simp [openTag]
  rw [this, alternates, if_pos rfl, alternates_append _ _ _ _ h]
  rfl

theorem alternates_close {name : Bytes} (hn : IsText name) : alternates false (closeTag name) = some false := by
  have h := alternates_text true (47 :: name) (by
    intro c hc
    rcases List.mem_cons.1 hc with rfl | hc
    · decide
    · exact hn c hc)
  have : closeTag name = 60 :: ((47 :: name) ++ [62]) := by simp [closeTag]
  rw [this, alternates, if_pos rfl, alternates_append _ _ _ _ h]
  rfl

/-- In well-formed text the angle brackets alternate. -/
theorem Markup.alternates {s : Bytes} {els : List (Bytes × Attrs)} (h : Markup s els) : Pdf.alternates false s = some false := by
  induction h with
  | text h => exact alternates_text _ _ h
  | elem hn _ ha _ ih =>
    rw [List.append_assoc, alternates_append _ _ _ _ (alternates_open (isName_text hn) ha), alternates_append _ _ _ _ ih, alternates_close (isName_text hn)]
  | void hv ha =>
    refine alternates_open ?_ ha
    rename_i name attrs
    have : name = b!"meta" := by simpa [voids] using hv
    rw [this]; decide
  | append _ _ ih ih' => rw [alternates_append _ _ _ _ ih, ih']

end Pdf
