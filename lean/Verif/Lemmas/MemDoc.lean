/-
Documents whose objects are all in the cache, for samples.
-/
import Verif.Lemmas.Prog

namespace Pdf
open Spec

/-- The document made of these objects; the first one is the trailer. -/
def memDoc (objs : List Obj) : Doc :=
  { cur := (List.range objs.length).map fun (n : Nat) => .one { num := (n : Int) }
    past := []
    cache := objs
    curData := { fdata := .dummy b!"%PDF-1.4" }
    pastData := [] }

/-- The map that it shows. -/
def memStore (objs : List Obj) : Store :=
  ⟨objs.length, fun n => match objs[n]? with
    | some o => .ok o
    | none => .error .indexError⟩

theorem memDoc_cur (objs : List Obj) (n : Nat) :
    (memDoc objs).cur[n]? = if n < objs.length then some (.one { num := n }) else none := by
  simp only [memDoc, List.getElem?_map]
  by_cases h : n < objs.length
  · simp [h]
  · rw [if_neg h, List.getElem?_eq_none (by simpa using h)]; rfl

theorem memDoc_store [Zlib] {objs : List Obj} (h : ∀ o ∈ objs, o ≠ .null) :
    storeOf (memDoc objs) = memStore objs := by
  unfold storeOf memStore
  congr 1
  · simp [memDoc]
  · funext n
    rw [view_num]
    unfold memoize slotAt
    rw [memDoc_cur]
    by_cases hn : n < objs.length
    · have hc : (memDoc objs).cache[n]? = some objs[n] := List.getElem?_eq_getElem hn
      have hne : objs[n] ≠ .null := h _ (List.getElem_mem hn)
      rw [if_pos hn]
      simp only [orRaise, bind, Except.bind, Slot.isDeleted, cacheAt_eq hc, pure, Except.pure,
        List.getElem?_eq_getElem hn]
      simp [hne, cacheAt_eq hc]
    · rw [if_neg hn, List.getElem?_eq_none (by omega)]
      rfl

theorem memDoc_editable {objs : List Obj} {t : Dict} (h : ∀ o ∈ objs, o ≠ .null) (ht : objs[0]? = some (.dict t)) :
    Editable (memDoc objs) none := by
  have hlt := lt_of_getElem? ht
  refine ⟨⟨by simp [memDoc], ?_, ?_, by decide, ?_⟩, ?_, by simpa [memDoc] using hlt, ⟨t, ht⟩,
    _, by rw [memDoc_cur, if_pos hlt], rfl⟩
  · intro n e he
    rw [memDoc_cur] at he
    split at he
    · cases he; rfl
    · cases he
  · intro y hy
    have hz : (memDoc objs).cur[0]? = some (.one { num := 0 }) := by rw [memDoc_cur, if_pos hlt]; rfl
    have : firstXrefStreamNum (memDoc objs) = .ok none := by
      unfold firstXrefStreamNum
      have hf : (memDoc objs).firstRev = (memDoc objs).cur := rfl
      rw [hf, slotAt_eq hz]; rfl
    rw [this] at hy
    cases hy; rfl
  · intro n e hn hx he hdel hca
    have hlt := lt_of_getElem? hca
    have : objs[n]? = some .null := hca
    exact absurd rfl (h _ (List.mem_of_getElem? this))
  · intro n es hn he
    rw [memDoc_cur] at he
    split at he <;> cases he

theorem memDoc_coherent [Zlib] (objs : List Obj) : Coherent (memDoc objs) := by
  refine C25_no_object_stream _ ?_
  intro n e he
  rw [memDoc_cur] at he
  split at he
  · cases he; rfl
  · cases he

/-- A document in memory; the numbers of the objects `None` are deleted. -/
def gapDoc (objs : List Obj) : Doc :=
  { memDoc objs with cur := objs.zipIdx.map fun (o, n) => .one { num := n, deleted := decide (o = .null) } }

theorem gapDoc_cur (objs : List Obj) (n : Nat) :
    (gapDoc objs).cur[n]? = (objs[n]?).map fun o => .one { num := n, deleted := decide (o = .null) } := by
  simp [gapDoc, List.getElem?_zipIdx]
  rfl

theorem gapDoc_view [Zlib] {objs : List Obj} {n : Nat} {o : Obj} (h : objs[n]? = some o) (g : Int) :
    view (gapDoc objs) (.ref g n) = .ok o := by
  rw [view_num]
  unfold memoize
  have hc : (gapDoc objs).cur[n]? = some (.one { num := n, deleted := decide (o = .null) }) := by rw [gapDoc_cur, h]; rfl
  have hca : (gapDoc objs).cache[n]? = some o := h
  rw [slotAt_eq hc]
  simp only [bind, Except.bind, Slot.isDeleted]
  by_cases ho : o = .null
  · simp only [ho, decide_true, if_true]
    subst ho
    exact cacheAt_eq hca
  · simp only [ho, decide_false, cacheAt_eq hca, ne_eq, not_false_eq_true, if_true]
    exact cacheAt_eq hca

theorem gapDoc_editable [Zlib] {objs : List Obj} {t : Dict} (ht : objs[0]? = some (.dict t)) :
    Editable (gapDoc objs) none := by
  refine ⟨⟨by simp [gapDoc, memDoc], ?_, ?_, by simp, ?_⟩, ?_, ?_, ⟨t, ht⟩, ⟨_, by rw [gapDoc_cur, ht]; rfl, rfl⟩⟩
  · intro n e he
    rw [gapDoc_cur, Option.map_eq_some_iff] at he
    obtain ⟨o, -, h2⟩ := he
    cases h2
    rfl
  · intro y hy
    have hc : (gapDoc objs).cur[0]? = some (.one { num := 0, deleted := false }) := by rw [gapDoc_cur, ht]; rfl
    unfold firstXrefStreamNum Doc.firstRev at hy
    simp only [gapDoc, memDoc, List.getLastD_nil] at hy hc
    rw [slotAt_eq hc] at hy
    cases hy
    rfl
  · intro n e hn hx he hdel hnull
    rw [gapDoc_cur, show objs[n]? = some .null from hnull] at he
    cases he
    cases hdel
  · intro n es hn he
    rw [gapDoc_cur, Option.map_eq_some_iff] at he
    obtain ⟨o, -, h2⟩ := he
    cases h2
  · have := lt_of_getElem? ht
    simpa [gapDoc, memDoc] using this

theorem gapDoc_live {objs : List Obj} {n : Nat} : Live (gapDoc objs) n ↔ ∃ o, objs[n]? = some o ∧ o ≠ .null := by
  unfold Live
  rw [gapDoc_cur]
  constructor
  · rintro ⟨e, h1, h2⟩
    rw [Option.map_eq_some_iff] at h1
    obtain ⟨o, h1, h3⟩ := h1
    cases h3
    exact ⟨o, h1, by simpa using h2⟩
  · rintro ⟨o, h1, h2⟩
    rw [h1]
    exact ⟨_, rfl, by simpa using h2⟩

theorem gapDoc_gen (objs : List Obj) (n : Nat) : genOf (gapDoc objs) n = 0 := by
  unfold genOf
  rw [gapDoc_cur]
  rcases objs[n]? with _ | o <;> rfl

end Pdf
