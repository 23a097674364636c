/-
Lemmas about documents: edits, changes, commit.
-/
import Verif.Model.Doc
import Verif.Lemmas.Revision2
import Verif.Lemmas.KernelRfl

namespace Pdf

theorem slotAt_ok {rev : Rev} {n : Nat} {s : Slot} (h : slotAt rev n = .ok s) : rev[n]? = some s :=
  orRaise_eq_ok h

theorem updateObject_inv {d d' : Doc} {n : Nat} {o : Obj} (h : updateObject d n o = .ok d') :
    ∃ old, d.cur[n]? = some (.one old) ∧ n < d.cache.length ∧
      d' = { d with cur := d.cur.set n (.one (newEntry old n d.past.length o)),
                    cache := d.cache.set n o } := by
  unfold updateObject at h
  obtain ⟨old, h1, h⟩ := bind_eq_ok h
  obtain ⟨c, h2, h⟩ := bind_eq_ok h
  simp only [pure, Except.pure, Except.ok.injEq] at h
  exact ⟨old, entryAt_ok h1, lt_of_getElem? (cacheAt_ok h2), h.symm⟩

theorem addObject_inv {d d' : Doc} {o : Obj} {n : Nat} (h : addObject d o = .ok (d', n)) :
    n = d.cur.length ∧ n ≤ d.cache.length ∧
      d' = { d with cur := d.cur ++ [.one { num := n, docVer := d.past.length }], cache := (d.cache ++ [Obj.null]).set n o } := by
  unfold addObject at h
  simp only at h
  split at h
  · rename_i hl
    simp only [Except.ok.injEq, Prod.mk.injEq] at h
    obtain ⟨h1, h2⟩ := h
    subst h2
    simp at hl
    exact ⟨rfl, by omega, h1.symm⟩
  · cases h

theorem mem_changes {d : Doc} {c : Change} :
    c ∈ changes d ↔ ∃ e, 1 ≤ c.num ∧ d.cur[c.num]? = some (.one e) ∧ c.gen = e.gen ∧
      (d.cur[0]?).bind Slot.xrefStreamNum? ≠ some (c.num : Int) ∧
      changeOf (prevRev d) c.num e = some c.act := by
  unfold changes
  simp only [List.mem_filterMap, List.mem_range'_1]
  constructor
  · rintro ⟨i, ⟨h1, h2⟩, h3⟩
    split at h3
    · rename_i e he
      split at h3
      · cases h3
      · rename_i hx
        obtain ⟨act, h4, h5⟩ := Option.map_eq_some_iff.1 h3
        subst h5
        exact ⟨e, h1, he, rfl, hx, h4⟩
    · cases h3
  · rintro ⟨e, h1, h2, h3, h4, h5⟩
    refine ⟨c.num, ⟨h1, ?_⟩, ?_⟩
    · have := lt_of_getElem? h2
      omega
    · simp only [h2, if_neg h4]
      rw [h5]
      obtain ⟨g, n, act⟩ := c
      simp only [Option.map_some, Option.some.injEq, Change.mk.injEq, and_true]
      exact h3.symm

theorem filterMap_pairwise {α β : Type} (R : β → β → Prop) (f : α → Option β) (S : α → α → Prop)
    (hS : ∀ a b x y, S a b → f a = some x → f b = some y → R x y) :
    ∀ l : List α, l.Pairwise S → (l.filterMap f).Pairwise R
  | [], _ => by simp
  | a :: l, h => by
    rw [List.pairwise_cons] at h
    rw [List.filterMap_cons]
    split
    · exact filterMap_pairwise R f S hS l h.2
    · rename_i x hx
      rw [List.pairwise_cons]
      refine ⟨?_, filterMap_pairwise R f S hS l h.2⟩
      intro y hy
      obtain ⟨b, hb, hb'⟩ := List.mem_filterMap.1 hy
      exact hS a b x y (h.1 b hb) hx hb'

theorem range'_pairwise (s n : Nat) : (List.range' s n).Pairwise (· < ·) :=
  List.pairwise_lt_range'

theorem changes_sorted (d : Doc) : (changes d).Pairwise fun a b => a.num < b.num := by
  unfold changes
  refine filterMap_pairwise _ _ (· < ·) ?_ _ (range'_pairwise _ _)
  intro a b x y hab hx hy
  split at hx
  · split at hx
    · cases hx
    · obtain ⟨act, -, rfl⟩ := Option.map_eq_some_iff.1 hx
      split at hy
      · split at hy
        · cases hy
        · obtain ⟨act, -, rfl⟩ := Option.map_eq_some_iff.1 hy
          exact hab
      · cases hy
  · cases hx

theorem changes_nodup (d : Doc) : ((changes d).map (·.num)).Nodup := by
  have := changes_sorted d
  rw [List.Nodup, List.pairwise_map]
  exact this.imp (fun h => Nat.ne_of_lt h)

/-- Two sorted lists of changes with the same members are equal. -/
theorem sorted_ext {l l' : List Change} (h : l.Pairwise fun a b => a.num < b.num)
    (h' : l'.Pairwise fun a b => a.num < b.num) (hm : ∀ c, c ∈ l ↔ c ∈ l') : l = l' := by
  induction l generalizing l' with
  | nil =>
    cases l' with
    | nil => rfl
    | cons b l' => exact absurd ((hm b).2 (by simp)) (by simp)
  | cons a l ih =>
    cases l' with
    | nil => exact absurd ((hm a).1 (by simp)) (by simp)
    | cons b l' =>
      rw [List.pairwise_cons] at h h'
      have hab : a = b := by
        rcases List.mem_cons.1 ((hm a).1 (by simp)) with h1 | h1
        · exact h1
        · rcases List.mem_cons.1 ((hm b).2 (by simp)) with h2 | h2
          · exact h2.symm
          · have := h.1 b h2
            have := h'.1 a h1
            omega
      subst hab
      rw [ih h.2 h'.2]
      intro c
      have := hm c
      simp only [List.mem_cons] at this
      constructor
      · intro hc
        rcases this.1 (.inr hc) with h1 | h1
        · subst h1; exact absurd (h.1 c hc) (by omega)
        · exact h1
      · intro hc
        rcases this.2 (.inr hc) with h1 | h1
        · subst h1; exact absurd (h'.1 c hc) (by omega)
        · exact h1

theorem commit_inv [Zlib] {d d' : Doc} (h : commit d = .ok d') (hc : changes d ≠ []) :
    ∃ p cur cache data d0 d1, prepareCommit d = .ok p ∧
      writeRevision d (changes d) p = .ok (cur, cache, data) ∧
      cache[0]? = some (.dict d0) ∧ nextTrailer cur d0 = .ok d1 ∧
      d' = { cur := .one p.index0 :: cur.drop 1, past := cur :: d.past,
             cache := cache.set 0 (.dict d1), curData := { fdata := data.fdata },
             pastData := data :: d.pastData } := by
  unfold commit at h
  simp only [if_neg hc] at h
  obtain ⟨p, h1, k1⟩ := bind_eq_ok h
  obtain ⟨⟨cur, cache, data⟩, h2, k2⟩ := bind_eq_ok k1
  obtain ⟨d0, h3, k3⟩ := bind_eq_ok k2
  obtain ⟨d1, h4, k4⟩ := bind_eq_ok k3
  simp only [Except.ok.injEq] at k4
  unfold cacheDict at h3
  obtain ⟨c, h5, k5⟩ := bind_eq_ok h3
  have h6 := cacheAt_ok h5
  split at k5
  · simp only [Except.ok.injEq] at k5
    subst k5
    exact ⟨p, cur, cache, data, _, d1, h1, h2, h6, h4, k4.symm⟩
  · cases k5

end Pdf
