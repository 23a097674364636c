/-
C18, C19: the bytes of a revision.
-/
import Verif.Lemmas.Revision2
import Verif.Props.C13_Xref

namespace Pdf
open Spec

/-! ## C19 -/

/-- **C19.** Whatever the changes and the style of cross-reference section, the revision ends with
`startxref`, the position of its cross-reference section and the end marker; at that position (in
any file of the given length followed by the revision) there is the keyword `xref`, resp. the xref
stream object. The same position is stored in the returned index. -/
theorem C19_startxref [Zlib] (chg : List Change) (rev : Rev) (cache : List Obj)
    (xnum : Nat) (out : Bytes) (idx : Rev) (cache' : List Obj) (pre : Bytes)
    (h : buildRevision chg rev cache pre.length xnum = .ok (out, idx, cache')) :
    ∃ n body section_ e0, pre ++ out = body ++ section_ ++ fileEnd n ∧ n = body.length ∧
      pre <+: body ∧ idx[0]? = some (.one e0) ∧
      (xnum = 0 → b!"xref\n" <+: section_ ∧ e0.xrefTablePos = some (n : Int)) ∧
      (xnum ≠ 0 → natDec xnum ++ b!" 0 obj\n" <+: section_ ∧ e0.xrefStreamPos = some (n : Int)) := by
  by_cases hx : xnum = 0
  · subst hx
    obtain ⟨xref, st, trailer, built, e0, k, h1, h2, h3, h4, h5, h6, -, h7⟩ :=
      buildRevision_table_inv h
    obtain ⟨g1, -, -, -⟩ := mainPass_grows _ _ pre.length _ _ h2 rfl
    obtain ⟨blocks, ser, -, -, -, -, hb⟩ := formatXrefTable_inv h4
    have hi := fun v => getElem?_set_eq' st.index v (lt_of_getElem? h5)
    refine ⟨st.counter, pre ++ st.frags, built, _, by rw [h6]; simp, by rw [g1]; simp,
      List.prefix_append _ _, h7 ▸ hi _, ⟨fun _ => ⟨?_, rfl⟩, fun h => absurd rfl h⟩⟩
    rw [hb]
    simp
  · obtain ⟨xref, st, trailer, trailer', built, e0, ex, block, cache1, h1, h2, h3, h4, h5, h6, h7,
      h8, h9, h10⟩ := buildRevision_stream_inv hx h
    obtain ⟨g1, -, -, -⟩ := mainPass_grows _ _ pre.length _ _ h2 rfl
    obtain ⟨-, -, -, -, ser, -, -, -, -, -, -, -, -, hb⟩ := formatXrefStream_inv h5
    have hi := fun v w => getElem?_set_eq' (st.index.set xnum w) v (i := 0)
      (by simpa using lt_of_getElem? h6)
    refine ⟨st.counter, pre ++ st.frags, built, _, by rw [h9]; simp, by rw [g1]; simp,
      List.prefix_append _ _, h10 ▸ hi _ _, ⟨fun h => absurd h hx, fun _ => ⟨?_, rfl⟩⟩⟩
    rw [hb]
    simp

/-! ## C18 -/

theorem noStream_fileEnd (n : Nat) : NoStreamNext (b!"\n" ++ fileEnd n) := by
  rintro gap rest hg e
  cases gap with
  | nil => simp [fileEnd] at e
  | cons c gap =>
    cases gap with
    | nil => simp [fileEnd] at e
    | cons d gap =>
      have hd := hg d (by simp)
      simp [fileEnd] at e
      rw [← e.2.1] at hd
      exact absurd hd (by unfold Skipped; decide)

/-- The element produced by the two loops for a direct object leads to that object. -/
theorem direct_elem [Zlib] {chg : List Change} {rev : Rev} {cache cache' : List Obj} {pre : Bytes}
    {xref : List XElem} {st : Build}
    (h1 : envPass rev (⟨0, 0, .d⟩ :: chg) cache [] = .ok (cache', xref))
    (h2 : mainPass rev cache' (⟨0, 0, .d⟩ :: chg)
        { frags := b!"\n", xref := xref, counter := pre.length + 1, index := rev, block := none }
        = .ok st)
    (hnd : (chg.map (·.num)).Nodup) (h0 : ∀ c ∈ chg, c.num ≠ 0) :
    ∀ e ∈ st.xref, e.free = false → e.env.getD 0 = 0 →
      DirectElem rev cache' chg (pre ++ st.frags) st.index e := by
  have hnd' : ((⟨0, 0, .d⟩ :: chg : List Change).map (·.num)).Nodup := by
    rw [List.map_cons, List.nodup_cons]
    refine ⟨?_, hnd⟩
    intro hh
    obtain ⟨c, hc, hc'⟩ := List.mem_map.1 hh
    exact h0 c hc hc'
  obtain ⟨more, -, -, -, -, -, m6⟩ := mainPass_spec rev cache' pre _ _ h2 hnd' rfl
    (fun c _ e he => ⟨e, he, rfl⟩)
  obtain ⟨e1, -⟩ := envPass_spec rev _ _ _ h1
  intro e he hf henv
  rcases m6 e he with h' | ⟨h', -⟩ | ⟨c, hc, h'⟩
  · rcases e1 e h' with h'' | ⟨-, -, h'', -⟩
    · simp at h''
    · exact absurd henv h''
  · rw [hf] at h'; cases h'
  · rcases List.mem_cons.1 hc with rfl | hc
    · obtain ⟨_, _, _, hd, -⟩ := h'
      exact absurd rfl hd
    · exact ⟨c, hc, h'⟩

/-- **C18, cross-reference table.** The table written by `build_revision_byte_stream` is read back
by `parse_xref_table_raw`, and in the resulting file every in-use row `(offset, num, gen)` leads to
the text `num gen obj`, the serialised object that had to be written for `num`, `endobj`; the same
offset is in the returned index. Moreover every changed object has a row: free with the next
generation when it is deleted, in use with the generation of the index otherwise. It is required that no changed object is assigned to an object stream (see
`C18_embedded_in_table`). -/
theorem C18_table_partial [Zlib] (chg : List Change) (rev : Rev) (cache : List Obj) (out : Bytes) (idx : Rev)
    (cache' : List Obj) (pre : Bytes)
    (h : buildRevision chg rev cache pre.length 0 = .ok (out, idx, cache'))
    (hnd : (chg.map (·.num)).Nodup) (h0 : ∀ c ∈ chg, c.num ≠ 0)
    (henv : ∀ c ∈ chg, ∀ e, rev[c.num]? = some (.one e) → e.envNum.getD 0 = 0)
    (hwf : ∀ t, cache[0]? = some t → WF false false t = true) :
    cache' = cache ∧
    ∃ (n stop : Nat) (rows : List XRow) (t : Obj),
      fileEnd n <:+ out ∧
      parseXrefTableRaw (pre ++ out) n = .ok (some (n, stop, rows, t)) ∧
      (∀ off num gen, XRow.entry off num gen b!"n" ∈ rows →
        ∃ (o m g : Nat) (obj : Obj), off = o ∧ num = m ∧ gen = g ∧ ToWrite cache m obj ∧
          PointsAt (pre ++ out) o m g obj ∧ IndexedAt idx m g o) ∧
      (∀ c ∈ chg, ∃ (off : Int) (e : Entry), rev[c.num]? = some (.one e) ∧
        if c.act = .d then XRow.entry off c.num ((e.gen + 1 : Nat) : Int) b!"f" ∈ rows
        else XRow.entry off c.num (e.gen : Int) b!"n" ∈ rows)
      := by
  obtain ⟨xref, st, trailer, built, e0, k, h1, h2, h3, h4, h5, h6, -, h7⟩ :=
    buildRevision_table_inv h
  obtain ⟨p1, -, p3, -, p5⟩ := envPass_spec rev _ _ _ h1
  have hcache : cache' = cache := by
    apply List.ext_getElem?
    intro n
    apply p5 n
    intro c hc en hd hen
    rcases List.mem_cons.1 hc with rfl | hc
    · exact absurd rfl hd
    · exact .inl (henv c hc en hen)
  refine ⟨hcache, ?_⟩
  rw [hcache] at h2 h3 h1
  obtain ⟨g1, -, -, -⟩ := mainPass_grows _ _ pre.length _ _ h2 rfl
  obtain ⟨blocks, t, b1, b2, b3, -⟩ := C14_xref_table _ _ _ _ h4 (hwf _ h3) (pre ++ st.frags)
    (fileEnd st.counter) (noStream_fileEnd _)
  have hfile : pre ++ st.frags ++ built ++ fileEnd st.counter = pre ++ out := by rw [h6]; simp
  have hn : (pre ++ st.frags).length = st.counter := by rw [g1]; simp
  rw [hfile, hn] at b3
  refine ⟨st.counter, _, _, t, ⟨_, h6.symm⟩, b3, ?_, ?_⟩
  · intro off num gen hrow
    obtain ⟨b, hb, hrow⟩ := List.mem_flatMap.1 hrow
    rcases List.mem_cons.1 hrow with hrow | hrow
    · cases hrow
    · obtain ⟨e, he, hrow⟩ := List.mem_map.1 hrow
      have hmem : e ∈ st.xref := by
        rw [← mem_sortElems, ← b1]
        exact List.mem_flatten.2 ⟨b, hb, he⟩
      unfold tableRow at hrow
      split at hrow
      · simp only [XRow.entry.injEq] at hrow
        exact absurd hrow.2.2.2 (by decide)
      · rename_i hf
        have hf' : e.free = false := by simpa using hf
        have henv0 : e.env.getD 0 = 0 := by
          obtain ⟨q1, -⟩ := envPass_spec rev _ _ _ h1
          refine Classical.byContradiction fun hne => ?_
          obtain ⟨more, -, -, -, -, -, m6⟩ := mainPass_spec rev cache pre _ _ h2 (by
            rw [List.map_cons, List.nodup_cons]
            refine ⟨?_, hnd⟩
            intro hh
            obtain ⟨c, hc, hc'⟩ := List.mem_map.1 hh
            exact h0 c hc hc') rfl (fun c _ e he => ⟨e, he, rfl⟩)
          rcases m6 e hmem with h' | ⟨h', -⟩ | ⟨c, hc, en, obj, o, d1, d2, d3, d4, d5, d6, d7, -⟩
          · rcases q1 e h' with h'' | ⟨-, -, -, c, hc, en, d1, d2, d3, d4⟩
            · simp at h''
            · rcases List.mem_cons.1 hc with rfl | hc
              · exact d1 rfl
              · exact hne (d4 ▸ henv c hc en d3)
          · rw [hf'] at h'; cases h'
          · exact hne (d7 ▸ d4)
        obtain ⟨c, hc, en, obj, o, d1, d2, d3, d4, d5, d6, d7, d8, d9, d10, d11⟩ :=
          direct_elem h1 h2 hnd h0 e hmem hf' henv0
        simp only [XRow.entry.injEq] at hrow
        obtain ⟨r1, r2, r3, -⟩ := hrow
        refine ⟨o, c.num, en.gen, obj, ?_, ?_, ?_, d9, ?_, ?_⟩
        · rw [← r1, d6]; rfl
        · rw [← r2, d2]
        · rw [← r3, d5]
        · rw [← hfile]
          exact pointsAt_append _ (pointsAt_append _ d10)
        · obtain ⟨e', i1, i2, i3⟩ := d11
          refine ⟨e', ?_, i2, i3⟩
          rw [h7, getElem?_set_ne' _ _ (Ne.symm (h0 c hc)), i1]
  · intro c hc
    obtain ⟨e, he, e1, e2, e3, e4⟩ := passes_complete h1 h2 rfl pre.length rfl c (by simp [hc])
    rw [← mem_sortElems, ← b1] at he
    obtain ⟨b, hb, he⟩ := List.mem_flatten.1 he
    have hrow : tableRow (circularDeleted chg) e ∈ blocks.flatMap (subsection (circularDeleted chg)) :=
      List.mem_flatMap.2 ⟨b, hb, List.mem_cons_of_mem _ (List.mem_map_of_mem he)⟩
    unfold tableRow at hrow
    by_cases hd : c.act = .d
    · have : e.free = true := by rw [e2]; simpa using hd
      rw [if_pos this, e1] at hrow
      obtain ⟨en, n1, n2⟩ := e4 hd (h0 c hc)
      rw [n2] at hrow
      exact ⟨_, en, n1, by rw [if_pos hd]; exact hrow⟩
    · have : ¬ e.free = true := by rw [e2]; simpa using hd
      rw [if_neg this, e1] at hrow
      obtain ⟨en, n1, n2, -⟩ := e3 hd
      rw [n2] at hrow
      exact ⟨_, en, n1, by rw [if_neg hd]; exact hrow⟩

/-- **C18, cross-reference stream.** The xref stream object written at the announced position decodes
(`parse_xref_stream_raw`) to rows such that every in-use row that is not embedded leads to the text
of the object, or is the xref stream itself; the same offset is in the returned index. Every changed
object has a row: free with the next generation when it is deleted, in use otherwise (in its envelope when it is assigned to
an object stream). -/
theorem C18_stream [Zlib] (chg : List Change) (rev : Rev) (cache : List Obj) (out : Bytes) (idx : Rev)
    (cache' : List Obj) (pre : Bytes) (xnum : Nat) (hx : xnum ≠ 0)
    (h : buildRevision chg rev cache pre.length xnum = .ok (out, idx, cache'))
    (hnd : (chg.map (·.num)).Nodup) (h0 : ∀ c ∈ chg, c.num ≠ 0) :
    ∃ (n : Nat) (trailer : Dict) (content enc : Bytes) (table : List XSRow),
      fileEnd n <:+ out ∧
      encodeStream content trailer = .ok enc ∧
      PointsAt (pre ++ out) n xnum 0 (.stream trailer content enc) ∧
      parseXrefStreamRaw trailer content = .ok table ∧
      (∀ r ∈ table, r.kw = b!"n" → r.env = none → (r.num = xnum ∧ r.offset = n ∧ r.gen = 0) ∨
        ∃ (m : Nat) (obj : Obj), r.num = m ∧ ToWrite cache' m obj ∧
          PointsAt (pre ++ out) r.offset m r.gen obj ∧
          (m ≠ xnum → IndexedAt idx m r.gen r.offset)) ∧
      (∀ c ∈ chg, ∃ r ∈ table, r.num = c.num ∧ r.kw = (if c.act = .d then b!"f" else b!"n") ∧
        (c.act ≠ .d → ∃ e, rev[c.num]? = some (.one e) ∧
          (e.envNum.getD 0 ≠ 0 → r.env = e.envNum) ∧
          (e.envNum.getD 0 = 0 → r.env = none ∧ r.gen = e.gen)) ∧
        (c.act = .d → ∃ e, rev[c.num]? = some (.one e) ∧ r.gen = e.gen + 1)) := by
  obtain ⟨xref, st, trailer, trailer', built, e0, ex, block, cache1, h1, h2, h3, h4, h5, h6, h7,
    h8, h9, h10⟩ := buildRevision_stream_inv hx h
  obtain ⟨g1, -, -, -⟩ := mainPass_grows _ _ pre.length _ _ h2 rfl
  obtain ⟨content, enc, ser, table, c1, c2, c3, c4, c5⟩ := C13_xref_stream _ _ _ _ _ _ h5
  have hfile : pre ++ st.frags ++ built ++ fileEnd st.counter = pre ++ out := by rw [h9]; simp
  have hn : (pre ++ st.frags).length = st.counter := by rw [g1]; simp
  refine ⟨st.counter, trailer', content, enc, table, ⟨_, h9.symm⟩, c3, ?_, c4, ?_, ?_⟩
  · refine ⟨ser, c2, ?_⟩
    rw [← hfile, List.append_assoc, ← hn, List.drop_left, c1]
    refine ⟨fileEnd st.counter, ?_⟩
    have : natDec 0 = b!"0" := by decide
    simp [indirect, this, hn]
  · intro r hr hkw henv
    have hr' : (r.offset, r.env, r.num, r.gen, r.kw) ∈ (sortElems st.xref ++
        [(⟨false, xnum, 0, some st.counter, none⟩ : XElem)]).map (Spec.entryOf (circularDeleted chg)) := by
      rw [← c5]; exact List.mem_map_of_mem (f := fun r : XSRow => (r.offset, r.env, r.num, r.gen, r.kw)) hr
    obtain ⟨e, he, hre⟩ := List.mem_map.1 hr'
    rcases List.mem_append.1 he with he | he
    · rw [mem_sortElems] at he
      unfold entryOf at hre
      split at hre
      · simp only [Prod.mk.injEq] at hre
        rw [hkw] at hre
        exact absurd hre.2.2.2.2 (by decide)
      · rename_i hf
        split at hre
        · rename_i he0
          simp only [Prod.mk.injEq] at hre
          rw [henv] at hre
          rw [hre.2.1] at he0
          exact absurd rfl he0
        · rename_i he0
          obtain ⟨c, hc, en, obj, o, d1, d2, d3, d4, d5, d6, d7, d8, d9, d10, d11⟩ :=
            direct_elem h1 h2 hnd h0 e he (by simpa using hf) (by simpa using he0)
          simp only [Prod.mk.injEq] at hre
          obtain ⟨r1, -, r3, r4, -⟩ := hre
          rw [d6] at r1
          simp only [Option.getD_some] at r1
          right
          refine ⟨c.num, obj, by rw [← r3, d2], ?_, ?_, ?_⟩
          · obtain ⟨oo, o1, o2⟩ := d9
            refine ⟨oo, ?_, o2⟩
            rw [h4, getElem?_set_ne' _ _ (Ne.symm (h0 c hc)), o1]
          · rw [← hfile, ← r1, ← r4, d5]
            exact pointsAt_append _ (pointsAt_append _ d10)
          · intro hm
            obtain ⟨e', i1, i2, i3⟩ := d11
            refine ⟨e', ?_, by rw [i2, ← r4, d5], by rw [i3, r1]⟩
            rw [h10, getElem?_set_ne' _ _ (Ne.symm (h0 c hc)), getElem?_set_ne' _ _ (Ne.symm hm), i1]
    · left
      simp only [List.mem_singleton] at he
      subst he
      simp [entryOf] at hre
      obtain ⟨r1, -, r3, r4, -⟩ := hre
      exact ⟨r3.symm, r1.symm, r4.symm⟩
  · intro c hc
    obtain ⟨e, he, e1, e2, e3, e4⟩ := passes_complete h1 h2 rfl pre.length rfl c (by simp [hc])
    have hmem : Spec.entryOf (circularDeleted chg) e ∈ table.map
        (fun r => (r.offset, r.env, r.num, r.gen, r.kw)) := by
      rw [c5]
      exact List.mem_map_of_mem (List.mem_append_left _ ((mem_sortElems _ _).2 he))
    obtain ⟨r, hr, hre⟩ := List.mem_map.1 hmem
    refine ⟨r, hr, ?_⟩
    unfold entryOf at hre
    by_cases hd : c.act = .d
    · have hf : e.free = true := by rw [e2]; simpa using hd
      rw [if_pos hf] at hre
      simp only [Prod.mk.injEq] at hre
      refine ⟨by rw [hre.2.2.1, e1], by rw [hre.2.2.2.2, if_pos hd], fun h => absurd hd h, fun _ => ?_⟩
      obtain ⟨en, n1, n2⟩ := e4 hd (h0 c hc)
      exact ⟨en, n1, by rw [hre.2.2.2.1, n2]⟩
    · have hf : ¬ e.free = true := by rw [e2]; simpa using hd
      rw [if_neg hf] at hre
      obtain ⟨en, n1, n2, n3⟩ := e3 hd
      split at hre <;> rename_i he0 <;> simp only [Prod.mk.injEq] at hre
      · refine ⟨by rw [hre.2.2.1, e1], by rw [hre.2.2.2.2, if_neg hd], fun _ => ⟨en, n1, ?_, ?_⟩,
          fun h => absurd h hd⟩
        · intro _; rw [hre.2.1, n3]
        · intro hh; rw [n3] at he0; exact absurd hh he0
      · refine ⟨by rw [hre.2.2.1, e1], by rw [hre.2.2.2.2, if_neg hd], fun _ => ⟨en, n1, ?_, ?_⟩,
          fun h => absurd h hd⟩
        · intro hh; rw [n3] at he0; exact absurd hh he0
        · intro _; exact ⟨hre.2.1, by rw [hre.2.2.2.1, n2]⟩

/-! ### A case meeting the hypotheses -/

/-- A revision in which object 1 is updated, 2 deleted and 3 added. -/
def sampleRev : Rev :=
  [.one { num := 0 }, .one { num := 1 }, .one { num := 2, deleted := true }, .one { num := 3 }]

def sampleCache : List Obj :=
  [.dict [(b!"/Size", .int 4), (b!"/Root", .ref 0 1)], .dict [(b!"/Type", .str b!"/Catalog")], .null,
    .list [.int 7, .bytes b!"(abc)"]]

def sampleChanges : List Change := [⟨0, 1, .u⟩, ⟨0, 2, .d⟩, ⟨0, 3, .a⟩]

/-- The hypotheses of `C18_table_partial` and `C19_startxref` hold of the sample, whatever zlib does. -/
example [Zlib] : (buildRevision sampleChanges sampleRev sampleCache 100 0).isOk = true := by
  kernel_rfl
example [Zlib] : (sampleChanges.map (·.num)).Nodup ∧ (∀ c ∈ sampleChanges, c.num ≠ 0) ∧
    (∀ c ∈ sampleChanges, ∀ e, sampleRev[c.num]? = some (.one e) → e.envNum.getD 0 = 0) ∧
    (∀ t, sampleCache[0]? = some t → WF false false t = true) := by
  refine ⟨by decide, by decide, ?_, ?_⟩
  · intro c hc e he
    simp only [sampleChanges, List.mem_cons, List.not_mem_nil, or_false] at hc
    rcases hc with rfl | rfl | rfl <;> simp [sampleRev] at he <;> subst he <;> rfl
  · intro t ht
    simp [sampleCache] at ht
    subst ht
    decide

/-- The same with an xref stream, object 4. -/
example [Zlib] : (buildRevision sampleChanges (sampleRev ++ [.one { num := 4 }])
    (sampleCache ++ [.null]) 1000 4).isOk = true := by
  kernel_rfl

def embRev : Rev := [.one { num := 0 }, .one { num := 1, envNum := some 2 }, .one { num := 2 }]

def embCache : List Obj :=
  [.dict [(b!"/Size", .int 3)], .int 7, .stream [(b!"/Type", .str b!"/ObjStm")] [] []]

def embOut : Bytes :=
  b!"\n2 0 obj\n<< /Type /ObjStm /First 5 /N 1 /Length 8 >>\nstream\n1 0 \n7\n\nendstream\nendobj\n" ++
  b!"xref\n0 3\n0000000000 65535 f\n0000000000 00000 n\n0000000010 00000 n\ntrailer\n<< /Size 3 >>\n" ++
  b!"startxref\n94\n%%EOF\n"

/-- **C18 fails for an embedded object in a table.** Object 1 is assigned to the object stream 2 and a
table is written: its row is in use with offset 0, where the file starts. -/
theorem C18_embedded_in_table [Zlib] :
    ∃ (chg : List Change) (rev : Rev) (cache : List Obj) (out : Bytes) (idx : Rev)
      (cache' : List Obj) (pre : Bytes) (n stop : Nat) (rows : List XRow) (t : Obj),
      buildRevision chg rev cache pre.length 0 = .ok (out, idx, cache') ∧
      (chg.map (·.num)).Nodup ∧ (∀ c ∈ chg, c.num ≠ 0) ∧
      (∀ t, cache[0]? = some t → WF false false t = true) ∧
      parseXrefTableRaw (pre ++ out) n = .ok (some (n, stop, rows, t)) ∧
      XRow.entry 0 1 0 b!"n" ∈ rows ∧ ¬ ∃ obj, PointsAt (pre ++ out) 0 1 0 obj := by
  have h1 : (buildRevision [⟨0, 1, .a⟩, ⟨0, 2, .a⟩] embRev embCache 9 0).map (·.1) = .ok embOut := by
    kernel_rfl
  have h2 : parseXrefTableRaw (b!"%PDF-1.4\n" ++ embOut) 94 = .ok (some (94, 181,
      [.sub 0 3, .entry 0 0 65535 b!"f", .entry 0 1 0 b!"n", .entry 10 2 0 b!"n"],
      .dict [(b!"/Size", .int 3)])) := by
    kernel_rfl
  rcases h : buildRevision [⟨0, 1, .a⟩, ⟨0, 2, .a⟩] embRev embCache 9 0 with e | ⟨out, idx, cache'⟩
  · rw [h] at h1; cases h1
  · rw [h] at h1
    simp only [Except.map, Except.ok.injEq] at h1
    refine ⟨_, _, _, out, idx, cache', b!"%PDF-1.4\n", 94, 181, _, _, h, by decide, by decide, ?_,
      h1 ▸ h2, by simp, ?_⟩
    · intro t ht
      simp [embCache] at ht
      subst ht
      decide
    · rintro ⟨obj, ser, -, hp⟩
      have : natDec 1 = b!"1" := by decide
      obtain ⟨r, hr⟩ := hp
      simp [indirect, this] at hr

end Pdf
