/-
Completeness of the two loops that write a revision.
-/
import Verif.Lemmas.Revision

namespace Pdf
open Spec

/-- The element that the writer must produce for a change. -/
def ElemFor (rev : Rev) (c : Change) (e : XElem) : Prop :=
  e.num = c.num ∧ e.free = decide (c.act = .d) ∧
    (c.act ≠ .d → ∃ en, rev[c.num]? = some (.one en) ∧ e.gen = en.gen ∧ e.env = en.envNum) ∧
    (c.act = .d → c.num ≠ 0 → ∃ en, rev[c.num]? = some (.one en) ∧ e.gen = en.gen)

theorem mainPass_grows [Zlib] (rev : Rev) (cache : List Obj) (start : Nat) :
    ∀ (l : List Change) (st : Build) {st' : Build}, mainPass rev cache l st = .ok st' →
    st.counter = start + st.frags.length →
    st'.counter = start + st'.frags.length ∧ (∃ more, st'.frags = st.frags ++ more) ∧
    (∀ e ∈ st.xref, e ∈ st'.xref) ∧
    (∀ c ∈ l, (c.act = .d ∨ ∀ en, rev[c.num]? = some (.one en) → en.envNum.getD 0 = 0) →
      ∃ e ∈ st'.xref, ElemFor rev c e)
  | [], st, st', h, hc => by
    simp only [mainPass, Except.ok.injEq] at h
    subst h
    exact ⟨hc, ⟨[], by simp⟩, fun _ h => h, by simp⟩
  | c :: l, st, st', h, hcnt => by
    unfold mainPass at h
    split at h
    · rename_i hd
      obtain ⟨gen, hgen, h⟩ := bind_eq_ok h
      obtain ⟨h1, h2, h3, h4⟩ := mainPass_grows rev cache start l _ h hcnt
      refine ⟨h1, h2, fun e he => h3 e (by simp [he]), ?_⟩
      intro c' hc' henv
      rcases List.mem_cons.1 hc' with rfl | hc'
      · exact ⟨_, h3 ⟨true, c'.num, gen, none, none⟩ (by simp), rfl, by simp [hd],
          fun h => absurd hd h, fun _ hn => by
            rw [freeGen, if_neg hn] at hgen
            obtain ⟨en, he, hg⟩ := bind_eq_ok hgen
            cases hg
            exact ⟨en, entryAt_ok he, rfl⟩⟩
      · exact h4 c' hc' henv
    · rename_i hd
      obtain ⟨en, hen, h⟩ := bind_eq_ok h
      have hen' := entryAt_ok hen
      split at h
      · obtain ⟨o, ho, h⟩ := bind_eq_ok h
        obtain ⟨obj, hobj, h⟩ := bind_eq_ok h
        obtain ⟨block, hblk, h⟩ := bind_eq_ok h
        obtain ⟨index, hset, h⟩ := bind_eq_ok h
        obtain ⟨h1, ⟨more, h2⟩, h3, h4⟩ := mainPass_grows rev cache start l _ h (by
          simp [hcnt]; omega)
        refine ⟨h1, ⟨block ++ more, by rw [h2]; simp⟩, fun e he => h3 e (by simp [he]), ?_⟩
        intro c' hc' henv
        rcases List.mem_cons.1 hc' with rfl | hc'
        · exact ⟨_, h3 ⟨false, c'.num, en.gen, some st.counter, en.envNum⟩ (by simp), rfl,
            by simp [hd], fun _ => ⟨en, hen', rfl, rfl⟩, fun h => absurd h hd⟩
        · exact h4 c' hc' henv
      · rename_i henv'
        obtain ⟨h1, h2, h3, h4⟩ := mainPass_grows rev cache start l _ h hcnt
        refine ⟨h1, h2, h3, ?_⟩
        intro c' hc' henv
        rcases List.mem_cons.1 hc' with rfl | hc'
        · rcases henv with henv | henv
          · exact absurd henv hd
          · exact absurd (henv en hen') henv'
        · exact h4 c' hc' henv

theorem envPass_complete (rev : Rev) : ∀ (l : List Change) (cache : List Obj) (xref : List XElem)
    {cache' : List Obj} {xref' : List XElem}, envPass rev l cache xref = .ok (cache', xref') →
    ∀ c ∈ l, c.act ≠ .d → ∀ en, rev[c.num]? = some (.one en) → en.envNum.getD 0 ≠ 0 →
      ∃ e ∈ xref', ElemFor rev c e
  | [], cache, xref, cache', xref', h => by simp
  | c :: l, cache, xref, cache', xref', h => by
    unfold envPass at h
    obtain ⟨en, hen, h⟩ := bind_eq_ok h
    have hen' := entryAt_ok hen
    intro c' hc' hd en' hen'' henv
    split at h
    · rename_i hc
      obtain ⟨obj, ho, h⟩ := bind_eq_ok h
      obtain ⟨old, hold, h⟩ := bind_eq_ok h
      obtain ⟨newEnv, hnew, h⟩ := bind_eq_ok h
      obtain ⟨pos, hpos, h⟩ := bind_eq_ok h
      rcases List.mem_cons.1 hc' with rfl | hc'
      · obtain ⟨-, h2, -⟩ := envPass_spec rev l _ _ h
        exact ⟨_, h2 ⟨false, c'.num, en.gen, some pos, en.envNum⟩ (by simp), rfl, by simp [hd],
          fun _ => ⟨en, hen', rfl, rfl⟩, fun h => absurd h hd⟩
      · exact envPass_complete rev l _ _ h c' hc' hd en' hen'' henv
    · rename_i hc
      rcases List.mem_cons.1 hc' with rfl | hc'
      · rw [hen'] at hen''
        cases hen''
        exact absurd ⟨hd, henv⟩ hc
      · exact envPass_complete rev l _ _ h c' hc' hd en' hen'' henv

/-- Every change has an element in the table built by the two loops. -/
theorem passes_complete [Zlib] {rev : Rev} {cache cache' : List Obj} {l : List Change}
    {xref : List XElem} {st st' : Build} (h1 : envPass rev l cache [] = .ok (cache', xref))
    (h2 : mainPass rev cache' l st = .ok st') (hx : st.xref = xref) (start : Nat)
    (hc : st.counter = start + st.frags.length) :
    ∀ c ∈ l, ∃ e ∈ st'.xref, ElemFor rev c e := by
  intro c hcl
  obtain ⟨-, -, g3, g4⟩ := mainPass_grows rev cache' start l st h2 hc
  by_cases hd : c.act = .d
  · exact g4 c hcl (.inl hd)
  · obtain ⟨-, -, -, e4, -⟩ := envPass_spec rev l cache [] h1
    obtain ⟨en, hen⟩ := e4 c hcl
    by_cases henv : en.envNum.getD 0 = 0
    · exact g4 c hcl (.inr fun en' hen' => by rw [hen] at hen'; cases hen'; exact henv)
    · obtain ⟨e, he, he'⟩ := envPass_complete rev l cache [] h1 c hcl hd en hen henv
      exact ⟨e, g3 e (hx ▸ he), he'⟩

end Pdf
