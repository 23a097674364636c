/-
Conditions under which writing a revision succeeds.
-/
import Verif.Lemmas.Edits
import Verif.Lemmas.Revision2
import Verif.Props.C13_Xref

namespace Pdf
open Spec

theorem slotAt_eq {rev : Rev} {n : Nat} {s : Slot} (h : rev[n]? = some s) : slotAt rev n = .ok s := by
  simp [slotAt, orRaise, h]

theorem cacheAt_eq {cache : List Obj} {n : Nat} {o : Obj} (h : cache[n]? = some o) :
    cacheAt cache n = .ok o := by
  simp [cacheAt, orRaise, h]

theorem cacheDict_eq {cache : List Obj} {t : Dict} (h : cache[0]? = some (.dict t)) :
    cacheDict cache = .ok t := by
  simp [cacheDict, cacheAt_eq h, bind, Except.bind]

/-- The object can be written. -/
def Writable [Zlib] (o : Obj) : Prop := ∃ o' s, toWrite o = .ok o' ∧ serialize 0 o' = .ok s

theorem envPass_none (rev : Rev) : ∀ (l : List Change) (cache : List Obj) (xref : List XElem),
    (∀ c ∈ l, ∃ e, rev[c.num]? = some (.one e) ∧ (c.act ≠ .d → e.envNum.getD 0 = 0)) →
    envPass rev l cache xref = .ok (cache, xref)
  | [], cache, xref, _ => rfl
  | c :: l, cache, xref, h => by
    obtain ⟨e, h1, h2⟩ := h c (by simp)
    unfold envPass
    rw [entryAt_eq h1]
    simp only [bind, Except.bind]
    rw [if_neg (fun hh => hh.2 (h2 hh.1))]
    exact envPass_none rev l cache xref (fun c' hc' => h c' (by simp [hc']))

theorem setAbs_total {rev : Rev} {n : Nat} {e : Entry} (p q : Int) (h : rev[n]? = some (.one e)) :
    setAbs rev n p q =
      .ok (rev.set n (.one { e with absPos := some (.at p), absNext := some q })) := by
  simp [setAbs, entryAt_eq h, bind, Except.bind, pure, Except.pure]

theorem mainPass_total [Zlib] (rev : Rev) (cache : List Obj) : ∀ (l : List Change) (st : Build),
    (∀ c ∈ l, ∃ e, rev[c.num]? = some (.one e)) →
    (∀ c ∈ l, c.act ≠ .d → ∃ o, cache[c.num]? = some o ∧ Writable o) →
    (∀ c ∈ l, ∃ e, st.index[c.num]? = some (.one e)) →
    ∃ st', mainPass rev cache l st = .ok st'
  | [], st, _, _, _ => ⟨st, rfl⟩
  | c :: l, st, h1, h2, h3 => by
    obtain ⟨e, he⟩ := h1 c (by simp)
    unfold mainPass
    split
    · have : ∃ g, freeGen rev c.num = .ok g := by
        unfold freeGen
        split
        · exact ⟨_, rfl⟩
        · rw [entryAt_eq he]; exact ⟨_, rfl⟩
      obtain ⟨g, hg⟩ := this
      rw [hg]
      exact mainPass_total rev cache l _ (fun c' hc' => h1 c' (by simp [hc']))
        (fun c' hc' => h2 c' (by simp [hc'])) (fun c' hc' => h3 c' (by simp [hc']))
    · rename_i hd
      rw [entryAt_eq he]
      simp only [bind, Except.bind]
      split
      · obtain ⟨o, ho, o', s, ht, hs⟩ := h2 c (by simp) hd
        obtain ⟨e', he'⟩ := h3 c (by simp)
        rw [cacheAt_eq ho]
        simp only [ht, serializeFragment, hs, bind, Except.bind, pure, Except.pure]
        rw [setAbs_total _ _ he']
        refine mainPass_total rev cache l _ (fun c' hc' => h1 c' (by simp [hc']))
          (fun c' hc' => h2 c' (by simp [hc'])) ?_
        intro c' hc'
        simp only
        by_cases hh : c.num = c'.num
        · rw [← hh, getElem?_set_eq' _ _ (lt_of_getElem? he')]
          exact ⟨_, rfl⟩
        · rw [getElem?_set_ne' _ _ hh]
          exact h3 c' (by simp [hc'])
      · exact mainPass_total rev cache l _ (fun c' hc' => h1 c' (by simp [hc']))
          (fun c' hc' => h2 c' (by simp [hc'])) (fun c' hc' => h3 c' (by simp [hc']))

theorem circularDeleted_lookup {chg : List Change} (hnd : (chg.map (·.num)).Nodup)
    (h0 : ∀ c ∈ chg, c.num ≠ 0) {n : Nat} (hn : n = 0 ∨ ∃ c ∈ chg, c.act = .d ∧ c.num = n) :
    ∃ m, (circularDeleted chg).lookup n = some m := by
  have hnd' : ((chg.filter (·.act == .d)).map (·.num)).Nodup :=
    List.Nodup.sublist (List.Sublist.map _ List.filter_sublist) hnd
  have h0' : (0 :: ((chg.filter (·.act == .d)).map (·.num))).Nodup := by
    rw [List.nodup_cons]
    refine ⟨?_, hnd'⟩
    intro h
    obtain ⟨c, hc, hc'⟩ := List.mem_map.1 h
    exact h0 c (List.mem_filter.1 hc).1 hc'
  obtain ⟨-, h2⟩ := circLoop_lookup _ [] 0 h0'
  have hmem : n ∈ 0 :: ((chg.filter (·.act == .d)).map (·.num)) := by
    rcases hn with rfl | ⟨c, hc, hd, rfl⟩
    · simp
    · exact List.mem_cons_of_mem _ (List.mem_map.2 ⟨c, List.mem_filter.2 ⟨hc, by simp [hd]⟩, rfl⟩)
  obtain ⟨i, hi, rfl⟩ := List.getElem_of_mem hmem
  exact ⟨_, h2 i hi⟩

/-- Writing a revision with a table succeeds when every changed number has an entry, no written
object belongs to an object stream, every written object can be serialised, and the trailer is
well-formed. -/
theorem buildRevision_table_total [Zlib] {chg : List Change} {rev : Rev} {cache : List Obj}
    (start : Nat) {t : Dict} (hnd : (chg.map (·.num)).Nodup) (h0 : ∀ c ∈ chg, c.num ≠ 0)
    (hrev0 : ∃ e, rev[0]? = some (.one e))
    (hrev : ∀ c ∈ chg, ∃ e, rev[c.num]? = some (.one e) ∧ (c.act ≠ .d → e.envNum.getD 0 = 0))
    (hw : ∀ c ∈ chg, c.act ≠ .d → ∃ o, cache[c.num]? = some o ∧ Writable o)
    (ht : cache[0]? = some (.dict t)) (hwf : WF false false (.dict t) = true) :
    ∃ r, buildRevision chg rev cache start 0 = .ok r := by
  have hrev' : ∀ c ∈ (⟨0, 0, .d⟩ : Change) :: chg, ∃ e, rev[c.num]? = some (.one e) ∧
      (c.act ≠ .d → e.envNum.getD 0 = 0) := by
    intro c hc
    rcases List.mem_cons.1 hc with rfl | hc
    · obtain ⟨e, he⟩ := hrev0
      exact ⟨e, he, by simp⟩
    · exact hrev c hc
  have hw' : ∀ c ∈ (⟨0, 0, .d⟩ : Change) :: chg, c.act ≠ .d →
      ∃ o, cache[c.num]? = some o ∧ Writable o := by
    intro c hc
    rcases List.mem_cons.1 hc with rfl | hc
    · simp
    · exact hw c hc
  have hone : ∀ c ∈ (⟨0, 0, .d⟩ : Change) :: chg, ∃ e, rev[c.num]? = some (.one e) := fun c hc => by
    obtain ⟨e, he, -⟩ := hrev' c hc
    exact ⟨e, he⟩
  unfold buildRevision
  simp only
  rw [envPass_none rev _ cache [] hrev']
  simp only [bind, Except.bind]
  obtain ⟨st, hst⟩ := mainPass_total rev cache (⟨0, 0, .d⟩ :: chg)
    { frags := b!"\n", xref := [], counter := start + 1, index := rev, block := none } hone hw' hone
  have hnd' : (((⟨0, 0, .d⟩ : Change) :: chg).map (·.num)).Nodup := by
    rw [List.map_cons, List.nodup_cons]
    refine ⟨?_, hnd⟩
    intro h
    obtain ⟨c, hc, hc'⟩ := List.mem_map.1 h
    exact h0 c hc hc'
  simp only [List.length_cons, List.length_nil, Nat.zero_add]
  rw [hst]
  obtain ⟨more, -, -, hlen, -, -, hx⟩ := mainPass_spec rev cache (List.replicate start 0) _ _ hst hnd'
    (by simp) (fun c _ e he => ⟨e, he, rfl⟩)
  have hx0 : st.xref ≠ [] := by
    obtain ⟨-, -, -, h4⟩ := mainPass_grows rev cache start _ _ hst (by simp)
    obtain ⟨e, he, -⟩ := h4 ⟨0, 0, .d⟩ (by simp) (.inl rfl)
    exact List.ne_nil_of_mem he
  have hi0 : ∃ e, st.index[0]? = some (.one e) := by
    obtain ⟨e, he⟩ := hrev0
    have : st.index[0]? = rev[0]? := by
      have hst' := hst
      unfold mainPass at hst'
      rw [if_pos rfl] at hst'
      obtain ⟨g, -, hst'⟩ := bind_eq_ok hst'
      obtain ⟨-, -, -, -, h4, -, -⟩ := mainPass_spec rev cache (List.replicate start 0) _ _ hst' hnd
        (by simp) (fun c _ e he => ⟨e, he, rfl⟩)
      exact h4 0 (fun c hc hh => h0 c hc hh)
    exact ⟨e, by rw [this, he]⟩
  obtain ⟨e0, hi0⟩ := hi0
  obtain ⟨built, hb⟩ := C14_writes (sortElems st.xref) t (circularDeleted chg) (by
      intro hnil
      obtain ⟨x, hx'⟩ := List.exists_mem_of_ne_nil _ hx0
      have := (mem_sortElems x st.xref).2 hx'
      rw [hnil] at this
      cases this)
    (by
      intro e he hf
      rcases hx e ((mem_sortElems e _).1 he) with h | ⟨-, -, c, hc, hd, hn⟩ | ⟨c, -, en, obj, off, h⟩
      · cases h
      · rw [hn]
        apply circularDeleted_lookup hnd h0
        rcases List.mem_cons.1 hc with rfl | hc
        · exact .inl rfl
        · exact .inr ⟨c, hc, hd, rfl⟩
      · rw [hf] at h; simp at h)
    (by
      intro e he hf
      rcases hx e ((mem_sortElems e _).1 he) with h | ⟨h, -⟩ | ⟨c, -, en, obj, off, -, -, -, -, -, h, -⟩
      · cases h
      · rw [hf] at h; cases h
      · exact ⟨off, h⟩)
    hwf
  simp only [if_true]
  unfold writeTable
  rw [cacheDict_eq ht]
  simp only [bind, Except.bind]
  rw [hb]
  simp only
  rw [entryAt_eq hi0]
  exact ⟨_, rfl⟩

end Pdf
