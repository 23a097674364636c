/-
A trailer with a null value cannot be written.
-/
import Verif.Lemmas.LinLoad
import Verif.Spec.Reads

namespace Pdf

open Spec

section
set_option linter.unusedSectionVars false
variable [Zlib]

theorem mem_of_get {k : Bytes} {v : Obj} : ∀ {d : Dict}, Dict.get? d k = some v → (k, v) ∈ d
  | [], h => by cases h
  | (k', v') :: d, h => by
    unfold Dict.get? List.lookup at h
    split at h
    · rename_i hk
      simp only [beq_iff_eq] at hk
      subst hk
      cases h
      simp
    · exact List.mem_cons_of_mem _ (mem_of_get h)

theorem serializeEntries_null {k : Bytes} : ∀ {depth : Nat} {d : List (Bytes × Obj)}, (k, Obj.null) ∈ d → ∀ r, serializeEntries depth d ≠ .ok r
  | depth, [], h, _, _ => by cases h
  | depth, (k', v) :: d, h, r, hs => by
    unfold serializeEntries at hs
    obtain ⟨x, h1, hs⟩ := bind_eq_ok hs
    obtain ⟨y, -, hs⟩ := bind_eq_ok hs
    obtain ⟨z, h2, -⟩ := bind_eq_ok hs
    rcases List.mem_cons.1 h with h | h
    · cases h
      unfold serialize toStr at h1
      cases h1
    · exact serializeEntries_null h z h2

theorem serialize_null {k : Bytes} {d : Dict} (h : Dict.get? d k = some .null) (depth : Nat) (r : Bytes) : serialize depth (.dict d) ≠ .ok r := by
  intro hs
  unfold serialize at hs
  obtain ⟨x, h1, -⟩ := bind_eq_ok hs
  exact serializeEntries_null (mem_of_get h) x h1

theorem serialize_stream_null {k : Bytes} {d : Dict} (h : Dict.get? d k = some .null) (depth : Nat) (c e r : Bytes) :
    serialize depth (.stream d c e) ≠ .ok r := by
  intro hs
  unfold serialize at hs
  obtain ⟨x, h1, -⟩ := bind_eq_ok hs
  exact serializeEntries_null (mem_of_get h) x h1

theorem formatXrefTable_null {es : List XElem} {t : Dict} {nf : List (Nat × Nat)} {k : Bytes} (h : Dict.get? t k = some .null) (r : Bytes) :
    formatXrefTable es t nf ≠ .ok r := by
  intro hs
  unfold formatXrefTable at hs
  obtain ⟨_, -, hs⟩ := bind_eq_ok hs
  obtain ⟨_, -, hs⟩ := bind_eq_ok hs
  obtain ⟨x, h1, -⟩ := bind_eq_ok hs
  exact serialize_null h 0 x h1

theorem formatXrefStream_null {es : List XElem} {t : Dict} {nf : List (Nat × Nat)} {n : Nat} {r : Bytes × Dict}
    (h : Dict.get? t b!"/Prev" = some .null) : formatXrefStream es t nf n ≠ .ok r := by
  intro hs
  unfold formatXrefStream at hs
  obtain ⟨_, -, hs⟩ := bind_eq_ok hs
  obtain ⟨_, -, hs⟩ := bind_eq_ok hs
  obtain ⟨_, -, hs⟩ := bind_eq_ok hs
  obtain ⟨⟨s, _⟩, h1, hs⟩ := bind_eq_ok hs
  obtain ⟨x, h2, -⟩ := bind_eq_ok hs
  unfold forgeStream at h1
  obtain ⟨enc, -, h1⟩ := bind_eq_ok h1
  cases h1
  refine serialize_stream_null (k := b!"/Prev") ?_ 0 _ _ x h2
  split
  · simp only [Dict.get?_set]
    rw [if_neg (by decide), if_neg (by decide), if_neg (by decide), if_neg (by decide), if_neg (by decide)]
    exact h
  · simp only [Dict.get?_set]
    rw [if_neg (by decide), if_neg (by decide), if_neg (by decide), if_neg (by decide)]
    exact h

theorem envPass_root (rev : Rev) : ∀ (l : List Change) (cache : List Obj) (xref : List XElem) {cache' : List Obj} {xref' : List XElem},
    envPass rev l cache xref = .ok (cache', xref') → cache'[0]? = cache[0]?
  | [], cache, xref, cache', xref', h => by cases h; rfl
  | c :: l, cache, xref, cache', xref', h => by
    unfold envPass at h
    obtain ⟨en, -, h⟩ := bind_eq_ok h
    split at h
    · rename_i hc
      obtain ⟨_, -, h⟩ := bind_eq_ok h
      obtain ⟨_, -, h⟩ := bind_eq_ok h
      obtain ⟨_, -, h⟩ := bind_eq_ok h
      obtain ⟨_, -, h⟩ := bind_eq_ok h
      rw [envPass_root rev l _ _ h, getElem?_set_ne' _ _ hc.2]
    · exact envPass_root rev l _ _ h

theorem buildRevision_null {chg : List Change} {rev : Rev} {cache : List Obj} {p x : Nat} {t : Dict} {r : Bytes × Rev × List Obj}
    (hc : cache[0]? = some (.dict t)) (h : Dict.get? t b!"/Prev" = some .null) : buildRevision chg rev cache p x ≠ .ok r := by
  intro hs
  unfold buildRevision at hs
  obtain ⟨⟨cache1, xr⟩, h1, hs⟩ := bind_eq_ok hs
  obtain ⟨st, -, hs⟩ := bind_eq_ok hs
  obtain ⟨b, h2, -⟩ := bind_eq_ok hs
  have hr : cache1[0]? = some (.dict t) := by rw [envPass_root _ _ _ _ h1]; exact hc
  have hd : cacheDict cache1 = .ok t := by
    unfold cacheDict
    rw [cacheAt_eq hr]
    rfl
  split at h2
  · unfold writeTable at h2
    rw [hd] at h2
    obtain ⟨_, k, h2⟩ := bind_eq_ok h2
    cases k
    obtain ⟨y, k, -⟩ := bind_eq_ok h2
    exact formatXrefTable_null h y k
  · unfold writeStream at h2
    rw [hd] at h2
    obtain ⟨_, k, h2⟩ := bind_eq_ok h2
    cases k
    obtain ⟨y, k, -⟩ := bind_eq_ok h2
    exact formatXrefStream_null h k

/-- A revision whose trailer has a null `/Prev` cannot be committed. -/
theorem commit_null {d : Doc} {t : Dict} (hc : d.cache[0]? = some (.dict t)) (h : Dict.get? t b!"/Prev" = some .null)
    (hcut : d.curData.eofCut = none) (hch : changes d ≠ []) : ∃ x, commit d = .error x := by
  cases hcom : commit d with
  | error x => exact ⟨x, rfl⟩
  | ok d' =>
    exfalso
    unfold commit at hcom
    rw [if_neg hch] at hcom
    obtain ⟨p, h1, hcom⟩ := bind_eq_ok hcom
    obtain ⟨w, h2, -⟩ := bind_eq_ok hcom
    have hp : ∃ t', p.cache[0]? = some (.dict t') ∧ Dict.get? t' b!"/Prev" = some .null := by
      unfold prepareCommit at h1
      obtain ⟨d0, k1, h1⟩ := bind_eq_ok h1
      unfold cacheDict at k1
      rw [cacheAt_eq hc] at k1
      cases k1
      obtain ⟨x, -, h1⟩ := bind_eq_ok h1
      obtain ⟨⟨cur, n⟩, -, h1⟩ := bind_eq_ok h1
      cases h1
      refine ⟨_, getElem?_set_eq' _ _ (lt_of_getElem? hc), ?_⟩
      rw [Dict.get?_set, if_neg (by decide)]
      split
      · exact h
      · rw [delDecodeParms_get _ _ (by decide)]
        exact h
    obtain ⟨t', p1, p2⟩ := hp
    unfold writeRevision at h2
    rw [hcut] at h2
    simp only at h2
    split at h2
    · obtain ⟨_, -, h2⟩ := bind_eq_ok h2
      obtain ⟨b, k, -⟩ := bind_eq_ok h2
      exact buildRevision_null p1 p2 k
    · obtain ⟨_, -, h2⟩ := bind_eq_ok h2
      obtain ⟨b, k, -⟩ := bind_eq_ok h2
      exact buildRevision_null p1 p2 k

/-- Edits keep the trailer. -/
theorem edits_root {es : List Op} : ∀ {d d' : Doc}, (∀ o ∈ es, (∃ n x, o = .set n x ∧ 1 ≤ n) ∨ ∃ x, o = .add x) → 0 < d.cur.length → ops es d = .ok d' →
    d'.cache[0]? = d.cache[0]? ∧ d'.curData = d.curData := by
  induction es with
  | nil => intro d d' _ _ h; cases h; exact ⟨rfl, rfl⟩
  | cons o es ih =>
    intro d d' he hpos h
    unfold ops at h
    obtain ⟨d1, h1, h⟩ := bind_eq_ok h
    have key : d1.cache[0]? = d.cache[0]? ∧ d1.curData = d.curData ∧ 0 < d1.cur.length := by
      rcases he o (by simp) with ⟨n, x, rfl, hn⟩ | ⟨x, rfl⟩
      · have h1 : updateObject d n x = .ok d1 := h1
        unfold updateObject at h1
        obtain ⟨_, -, h1⟩ := bind_eq_ok h1
        obtain ⟨_, -, h1⟩ := bind_eq_ok h1
        cases h1
        exact ⟨getElem?_set_ne' _ _ (by omega), rfl, by simpa using hpos⟩
      · have h1 : (addObject d x).map Prod.fst = .ok d1 := h1
        unfold addObject at h1
        simp only at h1
        split at h1
        · rename_i hlt
          cases h1
          simp only [List.length_append, List.length_cons, List.length_nil] at hlt
          refine ⟨?_, rfl, by simp⟩
          simp only
          rw [getElem?_set_ne' _ _ (by omega), List.getElem?_append_left (by omega)]
        · cases h1
    obtain ⟨k1, k2⟩ := ih (fun o' ho' => he o' (by simp [ho'])) key.2.2 h
    exact ⟨k1.trans key.1, k2.trans key.2.1⟩

end

end Pdf
