/-
C27: committing deletions.
-/
import Verif.Lemmas.Commit
import Verif.Lemmas.KernelRfl
import Verif.Props.C21_Commit

namespace Pdf
open Spec

theorem past_getLastD {d0 d : Doc} (h : d.past = d0.past) (hne : d0.past ≠ []) :
    d.firstRev = d0.firstRev := by
  unfold Doc.firstRev
  rw [h]
  cases hp : d0.past with
  | nil => exact absurd hp hne
  | cons a l => simp [List.getLastD]

theorem edits_data {es : List Edit} : ∀ {d d' : Doc}, edits es d = .ok d' →
    d'.curData = d.curData ∧ d'.pastData = d.pastData := by
  induction es with
  | nil => intro d d' h; cases h; exact ⟨rfl, rfl⟩
  | cons e es ih =>
    intro d d' h
    simp only [edits] at h
    obtain ⟨d1, h1, h2⟩ := bind_eq_ok h
    obtain ⟨i1, i2⟩ := ih h2
    rw [i1, i2]
    cases e with
    | add o =>
      simp only [edit] at h1
      rcases ha : addObject d o with x | ⟨d2, n⟩
      · rw [ha] at h1; cases h1
      · rw [ha] at h1
        simp only [Except.map, Except.ok.injEq] at h1
        subst h1
        obtain ⟨-, -, h3⟩ := addObject_inv ha
        rw [h3]
        exact ⟨rfl, rfl⟩
    | set k o =>
      simp only [edit] at h1
      obtain ⟨old, -, -, h3⟩ := updateObject_inv h1
      rw [h3]
      exact ⟨rfl, rfl⟩

/-- **C27, partial.** In a committed document with classic tables, any mixture of deletions of live
objects and of additions and updates with objects that can be written is committed without error.

Missing from the full claim: documents with a single revision, deletions of an object that was added
in the same revision or that was already deleted, and documents with an xref stream. In these cases
the code fails: `C27_single_revision`, `C27_added_then_deleted`, `C27_deleted_twice`,
`C27_xref_stream`. -/
theorem C27_delete_partial [Zlib] (d0 d : Doc) (es : List Edit) (hs : Synced d0)
    (hz : ∀ n o, Edit.set n o ∈ es → n ≠ 0) (he : edits es d0 = .ok d)
    (htable : firstXrefStreamNum d0 = .ok none) (hcut : d0.curData.eofCut = none)
    (idx : Nat) (hidx : revisionIndex d0 = .ok idx)
    (e0 : Entry) (hcell : d0.cur[0]? = some (.one e0))
    (t : Dict) (htrailer : d0.cache[0]? = some (.dict t))
    (hwf : WF false false (.dict (Dict.set t b!"/Size" (.int d.cur.length))) = true)
    (hv : ∀ n o, (written d0.cur.length es).val n = some o → (o = .null ∧ Live d0 n) ∨ Writable o) :
    ∃ d', commit d = .ok d' := by
  have hE := edited_all es (edited_start d0) he
  have hw : es.foldl Written.step ⟨d0.cur.length, fun _ => none⟩ = written d0.cur.length es := rfl
  rw [hw] at hE
  have hC := (C22_changes d0 d es hs hz he).2
  obtain ⟨hpos, p, ps, hp, hsync⟩ := hs
  have hz0 := written_zero (next := d0.cur.length) es hz hpos
  have hcell' : d.cur[0]? = some (.one e0) := by rw [hE.same 0 hz0, hcell]
  have htr' := hE.cacheSame 0 _ hz0 htrailer
  obtain ⟨hdata1, hdata2⟩ := edits_data he
  by_cases hc : changes d = []
  · exact ⟨d, C21_noop d hc⟩
  unfold commit
  rw [if_neg hc]
  have hfirst : firstXrefStreamNum d = .ok none := by
    rw [← htable]
    unfold firstXrefStreamNum
    rw [past_getLastD hE.past (by simp [hp])]
  have hprep : prepareCommit d = .ok
      { cur := d.cur, cache := d.cache.set 0 (.dict (Dict.set t b!"/Size" (.int d.cur.length))),
        index0 := nextIndex0 (d.past.length + 1) 0, xnum := 0 } := by
    unfold prepareCommit
    rw [cacheDict_eq htr']
    simp [hfirst, bind, Except.bind, pure, Except.pure]
  rw [hprep]
  simp only [bind, Except.bind]
  obtain ⟨⟨out, cur, cache⟩, hb⟩ := buildRevision_table_total (chg := changes d) (rev := d.cur)
    (cache := d.cache.set 0 (.dict (Dict.set t b!"/Size" (.int d.cur.length)))) idx
    (t := Dict.set t b!"/Size" (.int d.cur.length)) (changes_nodup d)
    (by
      intro c hcc
      have := ((hC c).1 hcc).1.1
      omega)
    ⟨e0, hcell'⟩
    (by
      intro c hcc
      obtain ⟨⟨-, -, o, hval, -⟩, -⟩ := (hC c).1 hcc
      obtain ⟨e, q1, -, q2, -⟩ := hE.touched _ _ hval
      exact ⟨e, q1, fun _ => by simp [q2]⟩)
    (by
      intro c hcc hact
      obtain ⟨⟨hone, -, o, hval, -, h2, -⟩, -⟩ := (hC c).1 hcc
      refine ⟨o, ?_, ?_⟩
      · rw [getElem?_set_ne' _ _ (by omega)]
        exact hE.cacheSet _ _ hval
      · rcases hv _ _ hval with ⟨rfl, hl⟩ | h
        · obtain ⟨e, q, -⟩ := id hl
          exact absurd (h2 (lt_of_getElem? q) ⟨hl, rfl⟩) hact
        · exact h)
    (getElem?_set_eq' _ _ (lt_of_getElem? htr')) hwf
  have hrev : revisionIndex d = .ok idx := by
    rw [← hidx]; unfold revisionIndex; rw [hdata2]
  have hpast : ∃ a l, d.past = a :: l := ⟨p, ps, by rw [hE.past, hp]⟩
  obtain ⟨a, l, hpast⟩ := hpast
  have hwr : writeRevision d (changes d)
      { cur := d.cur, cache := d.cache.set 0 (.dict (Dict.set t b!"/Size" (.int d.cur.length))),
        index0 := nextIndex0 (d.past.length + 1) 0, xnum := 0 } = .ok (cur, cache,
        { d.curData with bdata := some out, fdata := .merged d.curData.fdata idx out }) := by
    unfold writeRevision
    simp only [hdata1, hcut, hpast, hrev, bind, Except.bind]
    rw [hb]
  rw [hwr]
  simp only
  obtain ⟨xref, st, trailer, built, ee, k, -, -, g1, -, g2, -, -, g3⟩ := buildRevision_table_inv hb
  rw [cacheDict_eq g1]
  simp only [nextTrailer, prevEntry]
  have hcur0 : ∃ e, cur[0]? = some (.one e) := by
    rw [g3, getElem?_set_eq' _ _ (lt_of_getElem? g2)]
    exact ⟨_, rfl⟩
  obtain ⟨ee', hcur0⟩ := hcur0
  rw [slotAt_eq hcur0]
  exact ⟨_, rfl⟩

/-- Non-vacuity: a deletion, an update and an addition in the sample document. -/
def mixedEdits : List Edit := [.set 2 .null, .set 1 (.dict [(b!"/A", .int 1)]), .add (.int 8)]

example : firstXrefStreamNum syncedDoc = .ok none ∧ syncedDoc.curData.eofCut = none ∧
    revisionIndex syncedDoc = .ok 200 ∧ (edits mixedEdits syncedDoc).isOk = true ∧
    WF false false (.dict (Dict.set [(b!"/Size", .int 4), (b!"/Root", .ref 0 1), (b!"/Prev", .int 60)]
      b!"/Size" (.int 5))) = true := by decide
example [Zlib] : ∀ n o, (written syncedDoc.cur.length mixedEdits).val n = some o →
    (o = .null ∧ Live syncedDoc n) ∨ Writable o := by
  intro n o h
  simp only [written, mixedEdits, List.foldl_cons, List.foldl_nil, Written.step] at h
  split at h
  · cases h
    exact .inr ⟨_, _, rfl, rfl⟩
  · split at h
    · cases h
      exact .inr ⟨_, _, rfl, rfl⟩
    · split at h
      · cases h
        rename_i h2
        subst h2
        exact .inl ⟨rfl, _, rfl, rfl⟩
      · cases h

/-! The full claim is false of the code. -/

/-- The same document before its first commit. -/
def firstRevDoc : Doc :=
  { cur := [.one { num := 0 }, .one { num := 1 }, .one { num := 2 }]
    past := []
    cache := [.dict [(b!"/Root", .ref 0 1)], .dict [(b!"/Type", .str b!"/Catalog")], .int 12]
    curData := { fdata := .dummy b!"%PDF-1.4" }
    pastData := [] }

/-- The document itself can be committed. -/
example [Zlib] : (commit firstRevDoc).isOk = true := by kernel_rfl

/-- **C27 fails in the first revision**: a deleted object is reported as added, and `None` cannot be
serialised. -/
theorem C27_single_revision [Zlib] :
    Live firstRevDoc 2 ∧ ((updateObject firstRevDoc 2 .null).bind commit).map (fun _ => ()) =
      .error .attributeError :=
  ⟨⟨_, rfl, rfl⟩, by kernel_rfl⟩

/-- **C27 fails for an object added in the same revision.** -/
theorem C27_added_then_deleted [Zlib] :
    Synced syncedDoc ∧ ((edits [.add (.int 1), .set 4 .null] syncedDoc).bind commit).map
      (fun _ => ()) = .error .attributeError :=
  ⟨⟨by decide, _, _, rfl, fun i hi => by
    obtain ⟨i, rfl⟩ : ∃ j, i = j + 1 := ⟨i - 1, by omega⟩
    rfl⟩, by kernel_rfl⟩

/-- **C27 fails for an object that is already deleted**: deleting it again is reported as an update. -/
theorem C27_deleted_twice [Zlib] :
    ((edits [.set 3 .null] syncedDoc).bind commit).map (fun _ => ()) = .error .attributeError := by
  kernel_rfl

/-- The sample document, with an xref stream as object 3. -/
def xrefStreamDoc : Doc :=
  let cells : Rev := [.one { num := 1, absPos := some (.at 9), absNext := some 43 },
    .one { num := 2, absPos := some (.at 43), absNext := some 60 },
    .one { num := 3, absPos := some (.at 60), absNext := some 150 }]
  { cur := .one { num := 0, ver := 1, docVer := 1, xrefStreamNum := some (-1) } :: cells
    past := [.one { num := 0, xrefStreamPos := some 60, xrefStreamNum := some 3 } :: cells]
    cache := [.dict [(b!"/Size", .int 4), (b!"/Root", .ref 0 1), (b!"/Prev", .int 60)],
      .dict [(b!"/Type", .str b!"/Catalog")], .int 12, .null]
    curData := { fdata := .dummy [] }
    pastData := [{ fdata := .dummy [], eofCut := some 2000 }] }

/-- Other changes can be committed. -/
example [Zlib] : ((edits [.set 2 .null, .add (.int 5)] xrefStreamDoc).bind commit).isOk = true := by
  kernel_rfl

/-- **C27 fails for documents with an xref stream when there are only deletions**: the local variable
`block` is not bound. -/
theorem C27_xref_stream [Zlib] :
    Live xrefStreamDoc 2 ∧ ((edits [.set 2 .null] xrefStreamDoc).bind commit).map (fun _ => ()) =
      .error .unboundLocal :=
  ⟨⟨_, rfl, rfl⟩, by kernel_rfl⟩

end Pdf
