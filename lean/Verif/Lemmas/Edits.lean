/-
Documents after a list of edits.
-/
import Verif.Lemmas.Doc
import Verif.Spec.Doc

namespace Pdf
open Spec

/-- What holds of a document after edits: untouched cells are the same, touched cells have a newer
entry. -/
structure Edited (d0 d : Doc) (w : Written) : Prop where
  past : d.past = d0.past
  next : d.cur.length = w.next
  grow : d0.cur.length ≤ w.next
  fresh : ∀ n, d0.cur.length ≤ n → n < w.next → (w.val n).isSome = true
  bound : ∀ n, w.next ≤ n → w.val n = none
  same : ∀ n, w.val n = none → d.cur[n]? = d0.cur[n]?
  touched : ∀ n o, w.val n = some o → ∃ e, d.cur[n]? = some (.one e) ∧ e.gen = genOf d0 n ∧
    e.envNum = none ∧
    (n < d0.cur.length → ∃ e0, d0.cur[n]? = some (.one e0) ∧ e0.ver < e.ver ∧
      e.deleted = decide (o = .null))
  cacheSet : ∀ n o, w.val n = some o → d.cache[n]? = some o
  cacheSame : ∀ n o, w.val n = none → d0.cache[n]? = some o → d.cache[n]? = some o

theorem edited_step {d0 d d' : Doc} {w : Written} (h : Edited d0 d w) {e : Edit}
    (he : edit d e = .ok d') : Edited d0 d' (w.step e) := by
  cases e with
  | add o =>
    simp only [edit] at he
    rcases ha : addObject d o with x | ⟨d1, n⟩
    · rw [ha] at he; cases he
    · rw [ha] at he
      simp only [Except.map, Except.ok.injEq] at he
      subst he
      obtain ⟨h1, h2, h3⟩ := addObject_inv ha
      have hn : n = w.next := by rw [h1, h.next]
      have hgen : genOf d0 n = 0 := by
        have : d0.cur[n]? = none := List.getElem?_eq_none (by have := h.grow; omega)
        simp [genOf, this]
      have hg := h.grow
      refine ⟨by rw [h3]; exact h.past, by rw [h3]; simp [Written.step, h.next],
        by simp only [Written.step]; omega, ?_, ?_, ?_, ?_, ?_, ?_⟩
      · intro m hm1 hm2
        simp only [Written.step] at hm2 ⊢
        split
        · rfl
        · exact h.fresh m hm1 (by omega)
      · intro m hm
        simp only [Written.step] at hm ⊢
        rw [if_neg (by omega)]
        exact h.bound m (by omega)
      · intro m hm
        simp only [Written.step] at hm
        split at hm
        · cases hm
        · rename_i hne
          rw [h3]
          simp only
          rw [List.getElem?_append]
          split
          · exact h.same m hm
          · rename_i hl
            rw [List.getElem?_eq_none (by simp; rw [h.next] at *; omega)]
            rw [← h.same m hm, List.getElem?_eq_none (by omega)]
      · intro m o' hm
        simp only [Written.step] at hm
        split at hm
        · rename_i hmn
          refine ⟨{ num := (n : Int), docVer := d.past.length }, ?_, ?_, ?_, ?_⟩
          · rw [h3]
            simp only
            rw [List.getElem?_append_right (by rw [h.next]; omega), hmn, h.next]
            simp
          · simp only; rw [hmn, ← hn, hgen]
          · rfl
          · intro hlt; omega
        · obtain ⟨e, e1, e2, e3⟩ := h.touched m o' hm
          refine ⟨e, ?_, e2, e3⟩
          rw [h3]
          simp only
          rw [List.getElem?_append_left (lt_of_getElem? e1), e1]
      · intro m o' hm
        simp only [Written.step] at hm
        rw [h3]
        simp only
        split at hm
        · rename_i hmn
          simp only [Option.some.injEq] at hm
          subst hm
          rw [hmn, ← hn]
          exact getElem?_set_eq' _ _ (by simp; omega)
        · rename_i hmn
          have := h.cacheSet m o' hm
          rw [getElem?_set_ne' _ _ (by omega), List.getElem?_append_left (lt_of_getElem? this), this]
      · intro m o' hm hc
        simp only [Written.step] at hm
        split at hm
        · cases hm
        · have := h.cacheSame m o' hm hc
          rw [h3]
          simp only
          rw [getElem?_set_ne' _ _ (by omega), List.getElem?_append_left (lt_of_getElem? this), this]
  | set k o =>
    simp only [edit] at he
    obtain ⟨old, h1, h2, h3⟩ := updateObject_inv he
    have hk : k < d.cur.length := lt_of_getElem? h1
    refine ⟨by rw [h3]; exact h.past, by rw [h3]; simp [Written.step, h.next],
      h.grow, ?_, ?_, ?_, ?_, ?_, ?_⟩
    · intro m hm1 hm2
      simp only [Written.step] at hm2 ⊢
      split
      · rfl
      · exact h.fresh m hm1 hm2
    · intro m hm
      simp only [Written.step] at hm ⊢
      rw [if_neg (by rw [h.next] at hk; omega)]
      exact h.bound m hm
    · intro m hm
      simp only [Written.step] at hm
      split at hm
      · cases hm
      · rename_i hne
        rw [h3]
        simp only
        rw [getElem?_set_ne' _ _ (Ne.symm hne)]
        exact h.same m hm
    · intro m o' hm
      simp only [Written.step] at hm
      split at hm
      · rename_i hmk
        subst hmk
        simp only [Option.some.injEq] at hm
        subst hm
        refine ⟨newEntry old m d.past.length o, ?_, ?_, rfl, ?_⟩
        · rw [h3]; exact getElem?_set_eq' _ _ hk
        · simp only [newEntry]
          cases hv : w.val m with
          | none =>
            have := h.same m hv
            rw [h1] at this
            simp [genOf, ← this]
          | some o'' =>
            obtain ⟨e, e1, e2, -⟩ := h.touched m o'' hv
            rw [h1] at e1
            cases e1
            exact e2
        · intro hlt
          cases hv : w.val m with
          | none =>
            have := h.same m hv
            rw [h1] at this
            exact ⟨old, this.symm, by simp [newEntry], by simp [newEntry]⟩
          | some o'' =>
            obtain ⟨e, e1, -, -, e3⟩ := h.touched m o'' hv
            rw [h1] at e1
            cases e1
            obtain ⟨e0, g1, g2, -⟩ := e3 hlt
            exact ⟨e0, g1, by simp only [newEntry]; omega, by simp [newEntry]⟩
      · rename_i hne
        obtain ⟨e, e1, e2, e3⟩ := h.touched m o' hm
        refine ⟨e, ?_, e2, e3⟩
        rw [h3]
        simp only
        rw [getElem?_set_ne' _ _ (Ne.symm hne), e1]
    · intro m o' hm
      simp only [Written.step] at hm
      rw [h3]
      simp only
      split at hm
      · rename_i hmk
        subst hmk
        simp only [Option.some.injEq] at hm
        subst hm
        exact getElem?_set_eq' _ _ h2
      · rename_i hmk
        rw [getElem?_set_ne' _ _ (Ne.symm hmk)]
        exact h.cacheSet m o' hm
    · intro m o' hm hc
      simp only [Written.step] at hm
      split at hm
      · cases hm
      · rename_i hmk
        rw [h3]
        simp only
        rw [getElem?_set_ne' _ _ (Ne.symm hmk)]
        exact h.cacheSame m o' hm hc

theorem edited_all {d0 : Doc} : ∀ (es : List Edit) {d d' : Doc} {w : Written}, Edited d0 d w →
    edits es d = .ok d' → Edited d0 d' (es.foldl Written.step w)
  | [], d, d', w, h, he => by
    simp only [edits, Except.ok.injEq] at he
    subst he
    exact h
  | e :: es, d, d', w, h, he => by
    simp only [edits] at he
    obtain ⟨d1, h1, h2⟩ := bind_eq_ok he
    exact edited_all es (edited_step h h1) h2

theorem edited_start (d : Doc) : Edited d d ⟨d.cur.length, fun _ => none⟩ :=
  ⟨rfl, rfl, Nat.le_refl _, by intro n h1 h2; simp at h2; omega, fun _ _ => rfl, fun _ _ => rfl,
    by simp, by simp, fun _ _ _ h => h⟩

theorem foldl_zero : ∀ (es : List Edit) (w : Written), (∀ n o, Edit.set n o ∈ es → n ≠ 0) → 0 < w.next →
      w.val 0 = none → (es.foldl Written.step w).val 0 = none := by
    intro es
    induction es with
    | nil => intro w _ _ h; exact h
    | cons e es ih =>
      intro w hz hn hw
      refine ih _ (fun n o h => hz n o (by simp [h])) ?_ ?_
      · cases e <;> simp only [Written.step] <;> omega
      · cases e with
        | add o => simp only [Written.step]; rw [if_neg (by omega)]; exact hw
        | set k o =>
          simp only [Written.step]
          rw [if_neg (Ne.symm (hz k o (by simp)))]
          exact hw

theorem written_zero {next : Nat} (es : List Edit) (hz : ∀ n o, Edit.set n o ∈ es → n ≠ 0)
    (hp : 0 < next) : (written next es).val 0 = none :=
  foldl_zero es _ hz hp rfl

end Pdf
