/-
C21, C22, C58: commit without changes, the list of pending changes, objects in use.
-/
import Verif.Lemmas.Edits

namespace Pdf
open Spec

/-! ## C21 -/

/-- **C21.** With no pending change `commit` returns the document itself. -/
theorem C21_noop [Zlib] (d : Doc) (h : changes d = []) : commit d = .ok d := by
  simp [commit, h]

/-- A document that has just been committed has no pending edit. -/
theorem commit_synced [Zlib] {d d' : Doc} (h : commit d = .ok d') (hc : changes d ≠ []) :
    Synced d' := by
  obtain ⟨p, cur, cache, data, d0, d1, -, -, -, -, rfl⟩ := commit_inv h hc
  refine ⟨by simp, cur, d.past, rfl, ?_⟩
  intro i hi
  obtain ⟨i, rfl⟩ : ∃ j, i = j + 1 := ⟨i - 1, by omega⟩
  simp

theorem synced_changes {d : Doc} (h : Synced d) : changes d = [] := by
  obtain ⟨-, p, ps, hp, hs⟩ := h
  apply List.eq_nil_iff_forall_not_mem.2
  intro c hc
  obtain ⟨e, h1, h2, -, -, h5⟩ := mem_changes.1 hc
  have : (prevRev d)[c.num]? = some (.one e) := by
    rw [prevRev, hp, ← hs _ h1, h2]
  simp [changeOf, this] at h5

/-- **C21.** A committed document has no pending change. -/
theorem C21_changes [Zlib] (d d' : Doc) (h : commit d = .ok d') : changes d' = [] := by
  by_cases hc : changes d = []
  · rw [C21_noop d hc] at h
    cases h
    exact hc
  · exact synced_changes (commit_synced h hc)

/-- **C21.** Commit is idempotent: committing again returns the same document, hence the same
revisions, objects and bytes. -/
theorem C21_idempotent [Zlib] (d d' : Doc) (h : commit d = .ok d') : commit d' = .ok d' :=
  C21_noop d' (C21_changes d d' h)

/-- **C21.** The bytes written after a commit are those written without it. -/
theorem C21_write [Zlib] (d d' : Doc) (h : commit d = .ok d') : writeFile d' = writeFile d := by
  unfold writeFile
  rw [C21_idempotent d d' h, h]

/-! ## C58 -/

/-- **C58.** `in_use` lists the references of exactly the live numbers other than 0, in increasing
order. -/
theorem C58_in_use (d : Doc) :
    (∀ r, r ∈ inUse d ↔ ∃ n : Nat, 1 ≤ n ∧ Live d n ∧ r = ((genOf d n : Int), (n : Int))) ∧
    (inUse d).Pairwise (fun a b => a.2 < b.2) := by
  constructor
  · intro r
    unfold inUse
    simp only [List.mem_filterMap, List.mem_range'_1]
    constructor
    · rintro ⟨i, ⟨h1, h2⟩, h3⟩
      split at h3
      · rename_i e he
        split at h3
        · cases h3
        · rename_i hd
          simp only [irefOf, Option.some.injEq] at h3
          exact ⟨i, h1, ⟨e, he, by simpa using hd⟩, by simp [genOf, he, ← h3]⟩
      · cases h3
    · rintro ⟨n, h1, ⟨e, h2, h3⟩, rfl⟩
      refine ⟨n, ⟨h1, ?_⟩, ?_⟩
      · have := lt_of_getElem? h2
        omega
      · simp [h2, h3, irefOf, genOf]
  · unfold inUse
    refine filterMap_pairwise _ _ (· < ·) ?_ _ (range'_pairwise _ _)
    intro i j x y hij hx hy
    split at hx
    · split at hx
      · cases hx
      · split at hy
        · split at hy
          · cases hy
          · simp only [irefOf, Option.some.injEq] at hx hy
            subst hx hy
            exact Int.ofNat_lt.2 hij
        · cases hy
    · cases hx

/-! ## C22 -/

/-- The change that has to be reported for a touched number. -/
def Reported (d0 : Doc) (w : Written) (c : Change) : Prop :=
  1 ≤ c.num ∧ c.gen = genOf d0 c.num ∧
    ∃ o, w.val c.num = some o ∧
      (d0.cur.length ≤ c.num → c.act = .a) ∧
      (c.num < d0.cur.length → Live d0 c.num ∧ o = .null → c.act = .d) ∧
      (c.num < d0.cur.length → ¬ (Live d0 c.num ∧ o = .null) → c.act = .u)

/-- **C22.** After any edits of a committed document, `changes` lists, sorted by number and without
repetition, exactly one change for each touched number: `a` when the number was added, `d` when it was
live and its last value is `None`, `u` otherwise. (The number of the placeholder of an xref stream,
when there is one, is skipped.) -/
theorem C22_changes (d0 d : Doc) (es : List Edit) (hs : Synced d0)
    (hz : ∀ n o, Edit.set n o ∈ es → n ≠ 0) (he : edits es d0 = .ok d) :
    (changes d).Pairwise (fun a b => a.num < b.num) ∧
    ∀ c, c ∈ changes d ↔ Reported d0 (written d0.cur.length es) c ∧
      (d0.cur[0]?).bind Slot.xrefStreamNum? ≠ some (c.num : Int) := by
  refine ⟨changes_sorted d, ?_⟩
  have hE := edited_all es (edited_start d0) he
  have hw : es.foldl Written.step ⟨d0.cur.length, fun _ => none⟩ = written d0.cur.length es := rfl
  rw [hw] at hE
  obtain ⟨hpos, p, ps, hp, hsync⟩ := hs
  have h0 : d.cur[0]? = d0.cur[0]? := by
    apply hE.same
    exact written_zero es hz hpos
  have hprev : ∀ n, 1 ≤ n → (prevRev d)[n]? = d0.cur[n]? := by
    intro n hn
    rw [prevRev, hE.past, hp, ← hsync n hn]
  intro c
  rw [mem_changes, h0]
  constructor
  · rintro ⟨e, h1, h2, h3, h4, h5⟩
    refine ⟨?_, h4⟩
    unfold changeOf at h5
    rw [hprev _ h1] at h5
    cases hv : (written d0.cur.length es).val c.num with
    | none =>
      have := hE.same _ hv
      rw [h2] at this
      rw [← this] at h5
      simp at h5
    | some o =>
      obtain ⟨e', e1, e2, -, e3⟩ := hE.touched _ _ hv
      rw [h2] at e1
      cases e1
      refine ⟨h1, by rw [h3, e2], o, hv, ?_, ?_, ?_⟩
      · intro hl
        rw [List.getElem?_eq_none hl] at h5
        simpa using h5.symm
      · rintro hl ⟨⟨e0', l1, l2⟩, rfl⟩
        obtain ⟨e0, g1, g2, g3⟩ := e3 hl
        rw [l1] at g1
        cases g1
        rw [l1] at h5
        have hne : Slot.one e0' ≠ Slot.one e := by
          intro hh; cases hh; omega
        simp only [if_neg hne] at h5
        simp [l2, g3] at h5
        exact h5.symm
      · intro hl hnot
        obtain ⟨e0, g1, g2, g3⟩ := e3 hl
        rw [g1] at h5
        have hne : Slot.one e0 ≠ Slot.one e := by
          intro hh; cases hh; omega
        simp only [if_neg hne] at h5
        have : ¬ (e0.deleted = false ∧ e.deleted = true) := by
          rintro ⟨q1, q2⟩
          exact hnot ⟨⟨e0, g1, q1⟩, by rw [g3] at q2; simpa using q2⟩
        by_cases hd0 : e0.deleted = true
        · simp [hd0] at h5; exact h5.symm
        · have hd : e.deleted = false := by
            cases hdd : e.deleted
            · rfl
            · exact absurd ⟨by simpa using hd0, hdd⟩ this
          simp [hd0, hd] at h5
          exact h5.symm
  · rintro ⟨⟨h1, h2, o, hv, r1, r2, r3⟩, h4⟩
    obtain ⟨e, e1, e2, -, e3⟩ := hE.touched _ _ hv
    refine ⟨e, h1, e1, by rw [h2, e2], h4, ?_⟩
    unfold changeOf
    rw [hprev _ h1]
    by_cases hl : d0.cur.length ≤ c.num
    · rw [List.getElem?_eq_none hl, r1 hl]
    · obtain ⟨e0, g1, g2, g3⟩ := e3 (by omega)
      rw [g1]
      have hne : Slot.one e0 ≠ Slot.one e := by
        intro hh; cases hh; omega
      simp only [if_neg hne]
      by_cases hdel : Live d0 c.num ∧ o = .null
      · rw [r2 (by omega) hdel]
        obtain ⟨⟨e0', l1, l2⟩, rfl⟩ := hdel
        rw [l1] at g1
        cases g1
        simp [l2, g3]
      · rw [r3 (by omega) hdel]
        by_cases hd0 : e0.deleted = true
        · simp [hd0]
        · have : e.deleted = false := by
            rw [g3]
            simp only [decide_eq_false_iff_not]
            intro ho
            exact hdel ⟨⟨e0, g1, by simpa using hd0⟩, ho⟩
          simp [hd0, this]

/-- **C22.** In the first revision of a document every entry is reported as added. -/
theorem C22_first (d : Doc) (h : d.past = []) :
    (changes d).Pairwise (fun a b => a.num < b.num) ∧
    ∀ c, c ∈ changes d ↔ 1 ≤ c.num ∧ (∃ e, d.cur[c.num]? = some (.one e)) ∧ c.gen = genOf d c.num ∧
      c.act = .a ∧ (d.cur[0]?).bind Slot.xrefStreamNum? ≠ some (c.num : Int) := by
  refine ⟨changes_sorted d, fun c => ?_⟩
  rw [mem_changes]
  have key : ∀ e, d.cur[c.num]? = some (.one e) → changeOf (prevRev d) c.num e = some .a := by
    intro e he
    have : (List.replicate d.cur.length Slot.hole)[c.num]? = some .hole := by
      rw [List.getElem?_replicate, if_pos (lt_of_getElem? he)]
    simp [changeOf, prevRev, h, this]
  constructor
  · rintro ⟨e, h1, h2, h3, h4, h5⟩
    rw [key e h2] at h5
    cases h6 : c.act <;> rw [h6] at h5 <;> simp at h5
    exact ⟨h1, ⟨e, h2⟩, by simp [genOf, h2, h3], rfl, h4⟩
  · rintro ⟨h1, ⟨e, h2⟩, h3, h4, h5⟩
    exact ⟨e, h1, h2, by simpa [genOf, h2] using h3, h5, by rw [key e h2, h4]⟩

/-- A committed document: object 1 is the catalog, object 2 an integer, object 3 is deleted. -/
def syncedDoc : Doc :=
  let cells : Rev := [.one { num := 1, absPos := some (.at 9), absNext := some 43 },
    .one { num := 2, absPos := some (.at 43), absNext := some 60 },
    .one { num := 3, ver := 1, deleted := true }]
  { cur := .one { num := 0, ver := 1, docVer := 1 } :: cells
    past := [.one { num := 0, xrefTablePos := some 60 } :: cells]
    cache := [.dict [(b!"/Size", .int 4), (b!"/Root", .ref 0 1), (b!"/Prev", .int 60)],
      .dict [(b!"/Type", .str b!"/Catalog")], .int 12, .null]
    curData := { fdata := .dummy [] }
    pastData := [{ fdata := .dummy [], eofCut := some 200 }] }

example : Synced syncedDoc := by
  refine ⟨by decide, _, _, rfl, ?_⟩
  intro i hi
  obtain ⟨i, rfl⟩ : ∃ j, i = j + 1 := ⟨i - 1, by omega⟩
  rfl

/-- Updating 1, deleting 2, reviving and deleting 3 again, adding two objects and deleting one of
them. -/
def sampleEdits : List Edit :=
  [.set 1 (.dict [(b!"/Type", .str b!"/Catalog"), (b!"/Version", .str b!"/1.7")]), .set 2 .null,
    .set 3 (.int 5), .add (.int 8), .set 3 .null, .add (.int 9), .set 5 .null]

example : (edits sampleEdits syncedDoc).map (fun d => (changes d).map fun c => (c.num, c.act)) =
    .ok [(1, .u), (2, .d), (3, .u), (4, .a), (5, .a)] := by decide
example : ∀ n o, Edit.set n o ∈ sampleEdits → n ≠ 0 := by
  intro n o h
  simp only [sampleEdits, List.mem_cons, Edit.set.injEq, reduceCtorEq, List.not_mem_nil,
    or_false, false_or] at h
  omega
/-- A commit that succeeds on pending changes (C21). -/
example [Zlib] : ((edits [.set 2 (.int 5), .add (.int 8)] syncedDoc).bind commit).isOk = true := by
  kernel_rfl
example : inUse syncedDoc = [(0, 1), (0, 2)] := by decide

end Pdf
