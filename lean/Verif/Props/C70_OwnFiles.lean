/-
C70: the files written by the library pass the checks of its own disassembler.
-/
import Verif.Lemmas.ScanAll
import Verif.Props.C28_Reload
import Verif.Props.C48_Checks

namespace Pdf
open Spec

/-! ### The objects found in plain regions -/

theorem mapM_ok_mem {α β : Type} {f : α → Py β} : ∀ {l : List α} {r : List β}, l.mapM f = .ok r →
    (∀ y ∈ r, ∃ x ∈ l, f x = .ok y) ∧ ∀ x ∈ l, ∃ y ∈ r, f x = .ok y
  | [], r, h => by cases h; simp
  | x :: l, r, h => by
    rw [List.mapM_cons] at h
    obtain ⟨a, ha, h⟩ := bind_eq_ok h
    obtain ⟨l', hl, h⟩ := bind_eq_ok h
    cases h
    obtain ⟨i1, i2⟩ := mapM_ok_mem hl
    constructor
    · intro y hy
      rcases List.mem_cons.1 hy with rfl | hy
      · exact ⟨x, by simp, ha⟩
      · obtain ⟨z, hz, hz'⟩ := i1 y hy
        exact ⟨z, by simp [hz], hz'⟩
    · intro z hz
      rcases List.mem_cons.1 hz with rfl | hz
      · exact ⟨a, by simp, ha⟩
      · obtain ⟨y, hy, hy'⟩ := i2 z hz
        exact ⟨y, by simp [hy], hy'⟩

/-- The target of an item of a plain region: that of the entry of the region. -/
theorem plain_items [Zlib] {r : Region} {items : List MapItem} (hp : PlainRegion r) (h : regionItems r = .ok items) :
    (∃ rows, .region r rows ∈ items) ∧ ∀ x ∈ items, (∃ rows, x = .region r rows) ∨ (∃ b l t, x = .xrefStream b l t) := by
  unfold regionItems at h
  split at h
  · obtain ⟨l, -, h⟩ := bind_eq_ok h
    cases h
    simp
  · rename_i bo fin num gen entries data enc
    split at h
    · rename_i ty hty
      split at h
      · obtain ⟨l, -, h⟩ := bind_eq_ok h
        cases h
        refine ⟨⟨[], by simp⟩, fun x hx => ?_⟩
        simp only [List.mem_cons, List.not_mem_nil, or_false] at hx
        rcases hx with rfl | rfl
        · exact .inl ⟨[], rfl⟩
        · exact .inr ⟨_, _, _, rfl⟩
      · split at h
        · rename_i hst
          obtain ⟨-, -, -, h4⟩ := hp
          rw [hst] at hty
          simp [isObjStm, hty] at h4
        · cases h; simp
    · cases h; simp
  · cases h; simp

theorem plain_target [Zlib] {r : Region} (hp : PlainRegion r) (rows : List (Nat × Nat × XRow)) :
    (∃ e t, regionEntry r = some e ∧ e.target = .ok t ∧ (MapItem.region r rows).target = .ok (some (some t))) ∨
    (regionEntry r = none ∧ (MapItem.region r rows).target = .ok none) := by
  cases r with
  | indObj b fin num gen obj =>
    obtain ⟨⟨p, rfl⟩, hn, hg, -⟩ := hp
    refine .inl ⟨_, .dir num gen p, rfl, ?_, rfl⟩
    simp only [Entry.target, Except.ok.injEq, Target.dir.injEq, true_and]
    exact ⟨Int.toNat_of_nonneg hg, trivial⟩
  | _ => exact .inr ⟨rfl, rfl⟩

theorem plain_scanned [Zlib] {rs : List Region} {m : List MapItem} (hp : ∀ r ∈ rs, PlainRegion r)
    (h : (rs.mapM regionItems).map List.flatten = .ok m) :
    ∃ objs, scanned m = .ok objs ∧ ∀ o, o ∈ objs ↔ ∃ e ∈ rs.filterMap regionEntry, ∃ t, e.target = .ok t ∧ o = some t := by
  obtain ⟨its, hi, h⟩ : ∃ its, rs.mapM regionItems = .ok its ∧ m = its.flatten := by
    cases hh : rs.mapM regionItems with
    | error => rw [hh] at h; cases h
    | ok its => rw [hh] at h; exact ⟨its, rfl, (Except.ok.inj h).symm⟩
  subst h
  obtain ⟨i1, i2⟩ := mapM_ok_mem hi
  have hall : ∀ x ∈ its.flatten, ∃ o, x.target = .ok o := by
    intro x hx
    obtain ⟨l, hl, hx⟩ := List.mem_flatten.1 hx
    obtain ⟨r, hr, hrl⟩ := i1 l hl
    rcases (plain_items (hp r hr) hrl).2 x hx with ⟨rows, rfl⟩ | k
    · rcases plain_target (hp r hr) rows with ⟨e, t, -, -, k⟩ | ⟨-, k⟩ <;> exact ⟨_, k⟩
    · obtain ⟨_, _, _, rfl⟩ := k
      exact ⟨_, rfl⟩
  obtain ⟨l, hl⟩ := mapM_ok_of hall
  refine ⟨l.filterMap id, by unfold scanned; rw [hl]; rfl, fun o => ?_⟩
  simp only [List.mem_filterMap, id_eq, exists_eq_right, scanned_mem hl]
  constructor
  · rintro ⟨x, hx, hxt⟩
    obtain ⟨l', hl', hx⟩ := List.mem_flatten.1 hx
    obtain ⟨r, hr, hrl⟩ := i1 l' hl'
    rcases (plain_items (hp r hr) hrl).2 x hx with ⟨rows, rfl⟩ | k
    · rcases plain_target (hp r hr) rows with ⟨e, t, k1, k2, k3⟩ | ⟨-, k⟩
      · rw [k3] at hxt
        cases hxt
        exact ⟨e, ⟨r, hr, k1⟩, t, k2, rfl⟩
      · rw [k] at hxt; cases hxt
    · obtain ⟨_, _, _, rfl⟩ := k
      cases hxt
  · rintro ⟨e, ⟨r, hr, hre⟩, t, ht, rfl⟩
    obtain ⟨l', hl', hrl⟩ := i2 r hr
    obtain ⟨rows, hx⟩ := (plain_items (hp r hr) hrl).1
    refine ⟨_, List.mem_flatten.2 ⟨l', hl', hx⟩, ?_⟩
    rcases plain_target (hp r hr) rows with ⟨e', t', k1, k2, k3⟩ | ⟨k, -⟩
    · rw [hre] at k1
      cases k1
      rw [ht] at k2
      cases k2
      exact k3
    · rw [hre] at k; cases k

/-! ### Checks that find nothing -/

theorem sectionErrors_none {objs : List (Option Target)} : ∀ {es : List Entry} (pos : Option (Option Int)),
    (∀ e ∈ es, 0 < e.num → ∃ t, e.target = .ok t ∧ some t ∈ objs) → ∃ pos', sectionErrors objs pos es = .ok ([], pos')
  | [], pos, _ => ⟨pos, rfl⟩
  | e :: es, pos, h => by
    have ih := fun pos => sectionErrors_none (es := es) pos (fun e he => h e (by simp [he]))
    rw [sectionErrors]
    split
    · exact ih _
    · split
      · exact ih _
      · obtain ⟨t, h1, h2⟩ := h e (by simp) (by omega)
        obtain ⟨pos', ih⟩ := ih pos
        refine ⟨pos', ?_⟩
        rw [h1, ih]
        simp [bind, Except.bind, h2]

theorem targetsLoop_none {objs : List (Option Target)} : ∀ {seq : List (List Entry)} (pos : Option (Option Int))
    (ret : Option Int → Option (List Target)),
    (∀ xref ∈ seq, (∃ p, HeadedAt p xref) ∧ ∀ e ∈ xref, 0 < e.num → ∃ t, e.target = .ok t ∧ some t ∈ objs) →
    ∃ ret', targetsLoop objs pos seq ret = .ok ret' ∧ (∀ p errs, ret' p = some errs → errs = [] ∨ ret p = some errs) ∧
      (∀ p, ret p = some [] → ret' p = some []) ∧ ∀ xref ∈ seq, ∀ p, HeadedAt p xref → ret' p = some []
  | [], pos, ret, _ => ⟨ret, rfl, fun _ _ h => .inr h, fun _ h => h, by simp⟩
  | xref :: seq, pos, ret, h => by
    obtain ⟨⟨p, hp⟩, he⟩ := h xref (by simp)
    obtain ⟨pos', h1⟩ := sectionErrors_none pos he
    have := sectionErrors_pos hp h1
    subst this
    obtain ⟨ret', r1, r2, r3, r4⟩ := targetsLoop_none (seq := seq) (some p) (fun q => if q = p then some [] else ret q)
      (fun x hx => h x (by simp [hx]))
    refine ⟨ret', by rw [targetsLoop, h1]; exact r1, ?_, ?_, ?_⟩
    · intro q errs hq
      rcases r2 q errs hq with k | k
      · exact .inl k
      · split at k
        · cases k; exact .inl rfl
        · exact .inr k
    · intro q hq
      apply r3
      split
      · rfl
      · exact hq
    · intro x hx q hq
      rcases List.mem_cons.1 hx with rfl | hx
      · apply r3
        have : q = p := by
          cases x with
          | nil => exact hp.elim
          | cons e l => rw [← hp.2.1, ← hq.2.1]
        simp [this]
      · exact r4 x hx q hq

theorem indexedTargets_ok : ∀ {es : List Entry}, (∀ e ∈ es, 0 < e.num → ∃ t, e.target = .ok t) →
    ∃ l, indexedTargets es = .ok l
  | [], _ => ⟨[], rfl⟩
  | e :: es, h => by
    obtain ⟨l, ih⟩ := indexedTargets_ok (es := es) (fun e he => h e (by simp [he]))
    rw [indexedTargets]
    split
    · exact ⟨l, ih⟩
    · obtain ⟨t, ht⟩ := h e (by simp) (by omega)
      exact ⟨t :: l, by rw [ht, ih]; rfl⟩

/-! ### The property -/

theorem All₂.left {α β : Type} {R : α → β → Prop} : ∀ {l : List α} {m : List β}, All₂ R l m → ∀ a ∈ l, ∃ b ∈ m, R a b := by
  intro l m h
  induction h with
  | nil => intro b hb; cases hb
  | cons h _ ih =>
    intro b hb
    rcases List.mem_cons.1 hb with rfl | hb
    · exact ⟨_, by simp, h⟩
    · obtain ⟨a, ha, hr⟩ := ih b hb
      exact ⟨a, by simp [ha], hr⟩


/-- The regions of a file that was written. -/
theorem made_regions [Zlib] {F : Bytes} {s : Sec} {l : List Sec} (h : Laid F (s :: l)) :
    ∃ rs, Regions F 0 rs F.length ∧ (∀ e, e ∈ rs.filterMap regionEntry ↔ ∃ s' ∈ s :: l, e ∈ s'.objs) ∧
      (∀ r ∈ rs, PlainRegion r) ∧ (∀ s' ∈ s :: l, ∃ r ∈ rs, TableRegion s' r) ∧
      ∀ r ∈ rs, ∀ b e rows tr, r = .xrefTable b e rows tr → ∃ s' ∈ s :: l, TableRegion s' r := by
  obtain ⟨rs, h1, h2, h3, h4, h5, h6⟩ := laid_regions l h []
  rw [List.append_nil] at h1
  have hlt : F.length - 1 < F.length := lt_of_drop h6 (by simp)
  have hv := region_last h6
  rw [show F.length - 1 + 1 = F.length by omega] at hv
  refine ⟨rs ++ [.void (F.length - 1) F.length b!"\n"], h1.append (.cons hlt hv (by exact hlt) (.nil _)), ?_, ?_, ?_, ?_⟩
  · intro e
    rw [List.filterMap_append, List.mem_append, h2 e]
    simp [regionEntry]
  · intro r hr
    rcases List.mem_append.1 hr with hr | hr
    · exact h3 r hr
    · simp only [List.mem_singleton] at hr
      subst hr
      trivial
  · intro s' hs'
    obtain ⟨r, k1, k2⟩ := h4 s' hs'
    exact ⟨r, by simp [k1], k2⟩
  · intro r hr b e rows tr hre
    rcases List.mem_append.1 hr with hr | hr
    · exact h5 r hr b e rows tr hre
    · simp only [List.mem_singleton] at hr
      subst hr
      cases hre

/-- **C70**, for the documents that are made with the functions of the library, without object streams nor xref
streams. The sections of the written file can be read; when the file can be scanned, every entry of every section
leads to an object (the errors of `check_index_targets` are an empty list for every section), and every object is
indexed (`check_not_indexed_objects` returns an empty list).

Missing from the full claim: object streams and xref streams; the scan itself raises when an object that was stored
in the document pretends to be a cross-reference stream (`C70_scan_counterexample`). -/
theorem C70_checks_partial [Zlib] (d d' : Doc) (out : Bytes) (h : Made d) (hw : writeFile d = .ok (out, d'))
    (hmin : 100 ≤ out.length) (hmax : out.length < 10 ^ 80) (m : List MapItem) (hm : fileObjectMap out = .ok m) :
    ∃ seq ret, xrefSequence out = .ok seq ∧ checkIndexTargets m seq = .ok ret ∧
      (∀ xref ∈ seq, ∃ p, HeadedAt p xref ∧ ret p = some []) ∧ (∀ p errs, ret p = some errs → errs = []) ∧
      checkNotIndexed m seq = .ok [] := by
  obtain ⟨F, secs, hf0⟩ := made_filed h
  obtain ⟨secs', hf, -, -⟩ := filed_write hf0 hw
  obtain ⟨s, l, rfl⟩ := filed_sec hf hmin
  obtain ⟨x, xs, x1, x2, -, x3⟩ := xrefSections_at hf.chain (hf.ends s rfl) hmin hmax
  have hall : All₂ (IsSec out) (s :: l) (x :: xs) := .cons x2 x3
  obtain ⟨rs, r1, r2, r3, -, -⟩ := made_regions hf.laid
  rw [fileObjectMap, r1.loop rfl _ (by omega)] at hm
  obtain ⟨objs, o1, o2⟩ := plain_scanned r3 hm
  have hgood : ∀ s' ∈ s :: l, ∀ e ∈ s'.objs, 0 < e.num ∧ ∃ t, e.target = .ok t := by
    intro s' hs' e he
    obtain ⟨n, p, gen, hn, -, rfl⟩ := (hf.chain.mem s' hs').objs e he
    exact ⟨by simp; omega, .dir n gen p, rfl⟩
  have hentry : ∀ y ∈ x :: xs, (∃ p, HeadedAt p (y.trailer :: (y.objs ++ [eofEntry y]))) ∧
      ∀ e ∈ y.trailer :: (y.objs ++ [eofEntry y]), 0 < e.num → ∃ t, e.target = .ok t ∧ some t ∈ objs := by
    intro y hy
    obtain ⟨s', hs', hsy⟩ := All₂.right hall y hy
    obtain ⟨z, hz⟩ := hsy.trailer
    constructor
    · refine ⟨some s'.pos, ?_⟩
      rw [hz]
      refine ⟨rfl, rfl, ?_⟩
      intro e he
      rcases List.mem_append.1 he with he | he
      · rw [hsy.objs] at he
        have := (hgood s' hs' e he).1
        omega
      · simp only [List.mem_singleton] at he
        subst he
        simp [eofEntry]
    · intro e he hn
      rcases List.mem_cons.1 he with rfl | he
      · rw [hz] at hn; simp at hn
      · rcases List.mem_append.1 he with he | he
        · rw [hsy.objs] at he
          obtain ⟨-, t, ht⟩ := hgood s' hs' e he
          exact ⟨t, ht, (o2 _).2 ⟨e, (r2 e).2 ⟨s', hs', he⟩, t, ht, rfl⟩⟩
        · simp only [List.mem_singleton] at he
          subst he
          simp [eofEntry] at hn
  obtain ⟨ret, q1, q2, -, q4⟩ := targetsLoop_none (objs := objs) (seq := (x :: xs).map fun y => y.trailer :: (y.objs ++ [eofEntry y]))
    none (fun _ => none) (by
      intro xref hx
      obtain ⟨y, hy, rfl⟩ := List.mem_map.1 hx
      exact hentry y hy)
  refine ⟨_, ret, by unfold xrefSequence; rw [x1]; rfl, by unfold checkIndexTargets; rw [o1]; exact q1, ?_, ?_, ?_⟩
  · intro xref hx
    obtain ⟨y, hy, rfl⟩ := List.mem_map.1 hx
    obtain ⟨⟨p, hp⟩, -⟩ := hentry y hy
    exact ⟨p, hp, q4 _ hx p hp⟩
  · intro p errs hp
    rcases q2 p errs hp with k | k
    · exact k
    · cases k
  · obtain ⟨idx, hidx⟩ := indexedTargets_ok (es := ((x :: xs).map fun y => y.trailer :: (y.objs ++ [eofEntry y])).flatten) (by
      intro e he hn
      obtain ⟨xref, hx, he⟩ := List.mem_flatten.1 he
      obtain ⟨y, hy, rfl⟩ := List.mem_map.1 hx
      obtain ⟨t, ht, -⟩ := (hentry y hy).2 e he hn
      exact ⟨t, ht⟩)
    unfold checkNotIndexed
    rw [hidx, o1]
    simp only [bind, Except.bind, Except.ok.injEq, List.filter_eq_nil_iff]
    intro o ho
    obtain ⟨e, he, t, ht, rfl⟩ := (o2 o).1 ho
    obtain ⟨s', hs', he⟩ := (r2 e).1 he
    have hsy : ∃ y ∈ x :: xs, y.objs = s'.objs := by
      obtain ⟨y, hy, hR⟩ := All₂.left hall s' hs'
      exact ⟨y, hy, hR.objs⟩
    obtain ⟨y, hy, hye⟩ := hsy
    have : t ∈ idx := ((indexedTargets_spec hidx).1 t).2 ⟨e, List.mem_flatten.2
      ⟨_, List.mem_map.2 ⟨y, hy, rfl⟩, by simp [hye, he]⟩, (hgood s' hs' e he).1, ht⟩
    simp [this]

theorem Regions.parse [Zlib] {F : Bytes} {i j : Nat} {rs : List Region} (h : Regions F i rs j) :
    ∀ r ∈ rs, ∃ k, parseRegion F k = .ok (some r) := by
  induction h with
  | nil => simp
  | cons _ hr _ _ ih =>
    intro r hr'
    rcases List.mem_cons.1 hr' with rfl | hr'
    · exact ⟨_, hr⟩
    · exact ih r hr'

theorem plain_raise [Zlib] {r : Region} (hp : PlainRegion r) : (∃ its, regionItems r = .ok its) ∨
    (∃ b e rows tr, r = .xrefTable b e rows tr) ∨ ∃ b e num gen entries data enc, r = .indObj b e num gen (.stream entries data enc) ∧
      Dict.get? entries b!"/Type" = some (.str b!"/XRef") := by
  cases r with
  | xrefTable b e rows tr => exact .inr (.inl ⟨_, _, _, _, rfl⟩)
  | indObj b e num gen o =>
    cases o with
    | stream entries data enc =>
      obtain ⟨-, -, -, h4⟩ := hp
      by_cases hx : Dict.get? entries b!"/Type" = some (.str b!"/XRef")
      · exact .inr (.inr ⟨_, _, _, _, _, _, _, rfl, hx⟩)
      · left
        rw [regionItems]
        split
        · rename_i ty hty
          rw [if_neg (by rintro rfl; exact hx hty), if_neg (by rintro rfl; simp [isObjStm, hty] at h4)]
          exact ⟨_, rfl⟩
        · exact ⟨_, rfl⟩
    | _ => exact .inl ⟨_, rfl⟩
  | _ => exact .inl ⟨_, rfl⟩

/-- The scan of a written file fails only on a stream that pretends to be a cross-reference stream. -/
theorem C70_scan_partial [Zlib] (d d' : Doc) (out : Bytes) (h : Made d) (hw : writeFile d = .ok (out, d'))
    (hmin : 100 ≤ out.length) :
    (∃ m, fileObjectMap out = .ok m) ∨
    ∃ i b fin num gen entries data enc, parseRegion out i = .ok (some (.indObj b fin num gen (.stream entries data enc))) ∧
      Dict.get? entries b!"/Type" = some (.str b!"/XRef") := by
  obtain ⟨F, secs, hf0⟩ := made_filed h
  obtain ⟨secs', hf, -, -⟩ := filed_write hf0 hw
  obtain ⟨s, l, rfl⟩ := filed_sec hf hmin
  obtain ⟨rs, r1, -, r3, -, r5⟩ := made_regions hf.laid
  rw [fileObjectMap, r1.loop rfl _ (by omega)]
  by_cases hall : ∀ r ∈ rs, ∃ its, regionItems r = .ok its
  · obtain ⟨its, hits⟩ := mapM_ok_of hall
    rw [hits]
    exact .inl ⟨_, rfl⟩
  · right
    obtain ⟨r, hr, hno⟩ : ∃ r, r ∈ rs ∧ ¬ ∃ its, regionItems r = .ok its := Classical.byContradiction fun k =>
      hall fun r hr => Classical.byContradiction fun k' => k ⟨r, hr, k'⟩
    obtain ⟨i, hi⟩ := r1.parse r hr
    rcases plain_raise (r3 r hr) with k | ⟨b, e, rows, tr, rfl⟩ | ⟨b, e, num, gen, entries, data, enc, rfl, k⟩
    · exact absurd k hno
    · obtain ⟨s', -, fin, rows', tr', nf, blocks, k1, k2, -, -⟩ := r5 _ hr b e rows tr rfl
      cases k1
      exact absurd ⟨_, by rw [regionItems, k2]; rfl⟩ hno
    · exact ⟨i, b, e, num, gen, entries, data, enc, hi, k⟩

/-- The entry that a row of a table stands for, when it is in use and not numbered 0. -/
def rowEntry : XRow → Option Entry
  | .entry off num gen kw => if kw = b!"n" ∧ num ≠ 0 then some { num := num, gen := gen.toNat, absPos := some (.at off) } else none
  | .sub _ _ => none

theorem rowEntry_row (nf : List (Nat × Nat)) (e : XElem) : rowEntry (tableRow nf e) = elemEntry e := by
  unfold tableRow elemEntry
  by_cases hf : e.free
  · simp only [hf, if_true, rowEntry, true_or]
    rfl
  · by_cases h0 : e.num = 0
    · simp [hf, rowEntry, h0]
    · simp [hf, rowEntry, h0]

theorem numbered_entries (nf : List (Nat × Nat)) : ∀ (blocks : List (List XElem)) (s : Nat),
    (numbered nf s blocks).filterMap (fun x => rowEntry x.2.2) = blocks.flatten.filterMap elemEntry
  | [], _ => rfl
  | b :: bs, s => by
    have hb : ∀ (b : List XElem) (k : Nat), ((b.map (tableRow nf)).zipIdx k).filterMap (fun x => rowEntry x.1) = b.filterMap elemEntry := by
      intro b
      induction b with
      | nil => intro _; rfl
      | cons e b ih =>
        intro k
        rw [List.map_cons, List.zipIdx_cons, List.filterMap_cons, List.filterMap_cons, ih, rowEntry_row]
    have ih := numbered_entries nf bs (s + 1)
    unfold numbered at ih ⊢
    rw [List.zipIdx_cons, List.flatMap_cons, List.filterMap_append, ih, List.filterMap_map, List.flatten_cons,
      List.filterMap_append, ← hb b 0]
    rfl

theorem sec_entries [Zlib] {F : Bytes} {s : Sec} {y : Section} (hs : SecAt F s) (h : IsSec F s y) :
    HeadedAt (some s.pos) (y.trailer :: (y.objs ++ [eofEntry y])) ∧
      (y.trailer :: (y.objs ++ [eofEntry y])).filter (0 < ·.num) = s.objs := by
  obtain ⟨z, hz⟩ := h.trailer
  have hp : ∀ e ∈ s.objs, 0 < e.num := by
    intro e he
    obtain ⟨n, p, gen, hn, -, rfl⟩ := hs.objs e he
    simp only
    omega
  rw [hz, h.objs]
  refine ⟨⟨rfl, rfl, ?_⟩, ?_⟩
  · intro e he
    rcases List.mem_append.1 he with he | he
    · have := hp e he
      omega
    · simp only [List.mem_singleton] at he
      subst he
      simp [eofEntry]
  · rw [List.filter_cons_of_neg (by simp), List.filter_append, List.filter_eq_self.2 (by simpa using hp)]
    simp [eofEntry]

/-- **C70**, about the tables: each table that the scan lists is one of the sections, at the same position, and its rows in
use are the entries of this section; each section has its table in the list. -/
theorem C70_tables_partial [Zlib] (d d' : Doc) (out : Bytes) (h : Made d) (hw : writeFile d = .ok (out, d'))
    (hmin : 100 ≤ out.length) (hmax : out.length < 10 ^ 80) (m : List MapItem) (hm : fileObjectMap out = .ok m)
    (seq : List (List Entry)) (hs : xrefSequence out = .ok seq) :
    (∀ b e rows tr l, .region (.xrefTable b e rows tr) l ∈ m → ∃ xref ∈ seq, HeadedAt (some (b : Nat)) xref ∧
      l.filterMap (fun x => rowEntry x.2.2) = xref.filter (0 < ·.num)) ∧
    (∀ xref ∈ seq, ∃ b e rows tr l, .region (.xrefTable b e rows tr) l ∈ m ∧ HeadedAt (some (b : Nat)) xref ∧
      l.filterMap (fun x => rowEntry x.2.2) = xref.filter (0 < ·.num)) := by
  obtain ⟨F, secs, hf0⟩ := made_filed h
  obtain ⟨secs', hf, -, -⟩ := filed_write hf0 hw
  obtain ⟨s, l, rfl⟩ := filed_sec hf hmin
  obtain ⟨x, xs, x1, x2, -, x3⟩ := xrefSections_at hf.chain (hf.ends s rfl) hmin hmax
  have hall : All₂ (IsSec out) (s :: l) (x :: xs) := .cons x2 x3
  unfold xrefSequence at hs
  rw [x1] at hs
  cases hs
  obtain ⟨rs, r1, -, r3, r4, r5⟩ := made_regions hf.laid
  rw [fileObjectMap, r1.loop rfl _ (by omega)] at hm
  obtain ⟨its, hi, hm⟩ : ∃ its, rs.mapM regionItems = .ok its ∧ m = its.flatten := by
    cases hh : rs.mapM regionItems with
    | error => rw [hh] at hm; cases hm
    | ok its => rw [hh] at hm; exact ⟨its, rfl, (Except.ok.inj hm).symm⟩
  subst hm
  obtain ⟨i1, i2⟩ := mapM_ok_mem hi
  constructor
  · intro b e rows tr k hk
    obtain ⟨it, hit, hk⟩ := List.mem_flatten.1 hk
    obtain ⟨r, hr, hri⟩ := i1 it hit
    have hre : r = .xrefTable b e rows tr := by
      rcases (plain_items (r3 r hr) hri).2 _ hk with ⟨_, c⟩ | c
      · cases c; rfl
      · obtain ⟨_, _, _, c⟩ := c
        cases c
    obtain ⟨s', hs', fin, rows', tr', nf, blocks, k1, k2, -, k4⟩ := r5 r hr b e rows tr hre
    rw [hre] at k1
    cases k1
    obtain ⟨y, hy, hsy⟩ := All₂.left hall s' hs'
    obtain ⟨e1, e2⟩ := sec_entries (hf.chain.mem s' hs') hsy
    refine ⟨_, List.mem_map.2 ⟨y, hy, rfl⟩, e1, ?_⟩
    rw [hre, regionItems, k2] at hri
    cases hri
    simp only [List.mem_singleton, MapItem.region.injEq, true_and] at hk
    rw [e2, hk, numbered_entries, k4]
  · intro xref hx
    obtain ⟨y, hy, rfl⟩ := List.mem_map.1 hx
    obtain ⟨s', hs', hsy⟩ := All₂.right hall y hy
    obtain ⟨e1, e2⟩ := sec_entries (hf.chain.mem s' hs') hsy
    obtain ⟨r, hr, fin, rows, tr, nf, blocks, rfl, k2, -, k4⟩ := r4 s' hs'
    obtain ⟨it, hit, hri⟩ := i2 _ hr
    rw [regionItems, k2] at hri
    cases hri
    refine ⟨_, _, _, _, _, List.mem_flatten.2 ⟨_, hit, List.mem_singleton.2 rfl⟩, e1, ?_⟩
    rw [e2, numbered_entries, k4]

/-- The file of the sample of `C28_blank_partial`: the hypotheses of `C70_checks_partial` are met, with three sections
and six objects. -/
example [Zlib] : (do
    let d0 ← blank 595 842
    let d ← ops reloadOps d0
    let (out, _) ← writeFile d
    let m ← fileObjectMap out
    let seq ← xrefSequence out
    let objs ← scanned m
    return (decide (100 ≤ out.length ∧ out.length < 10 ^ 80), seq.length, objs.length)) = .ok (true, 3, 6) := by
  kernel_rfl

/-- **C70 is false of documents that store a stream of type /XRef which is not one**: the scan of the written file
raises an exception. -/
theorem C70_scan_counterexample [Zlib] : (do
    let d0 ← blank 595 842
    let d ← ops [.add (.stream [(b!"/Type", .str b!"/XRef"), (b!"/Length", .int 3)] b!"abc" b!"abc")] d0
    let (out, _) ← writeFile d
    return (match fileObjectMap out with | .ok _ => none | .error x => some x)) = .ok (some .keyError) := by
  kernel_rfl

end Pdf
