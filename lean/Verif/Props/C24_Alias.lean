/-
C24: documents are immutable values, although they share lists and dicts in memory.
-/
import Verif.Lemmas.Heap
import Verif.Props.C53_Version
import Verif.Props.C23_Map

namespace Pdf
open Spec

/-! ### Reads -/

theorem getObject_cache [Zlib] {d d' : Doc} {r o : Obj} (h : getObject d r = .ok (o, d')) :
    d' = { d with cache := d'.cache } := by
  unfold getObject at h
  split at h
  · split at h
    · cases h
    · obtain ⟨c, h1, h⟩ := bind_eq_ok h
      obtain ⟨o', h2, h⟩ := bind_eq_ok h
      cases h
      rfl
  · cases h
    rfl

theorem reads_append [Zlib] (rs rs' : List Obj) (d : Doc) : reads (rs ++ rs') d = reads rs' (reads rs d) := by
  induction rs generalizing d with
  | nil => rfl
  | cons r rs ih =>
    simp only [List.cons_append, reads]
    split <;> exact ih _

theorem reads_cache [Zlib] (rs : List Obj) (d : Doc) : reads rs d = { d with cache := (reads rs d).cache } := by
  induction rs generalizing d with
  | nil => rfl
  | cons r rs ih =>
    simp only [reads]
    split
    · rename_i o d' h
      have h1 := getObject_cache h
      have h2 := ih d'
      generalize reads rs d' = z at h2 ⊢
      rw [h2, h1]
    · exact ih _

theorem reads_one [Zlib] {d d' : Doc} {r o : Obj} (h : getObject d r = .ok (o, d')) : reads [r] d = d' := by
  simp [reads, h]

theorem version_reads [Zlib] {d d' : Doc} {v : Bytes} (h : version d = .ok (v, d')) :
    ∃ rs, d' = reads rs d := by
  unfold version at h
  obtain ⟨hv, h1, h⟩ := bind_eq_ok h
  obtain ⟨⟨cat, root, d1⟩, h2, h⟩ := bind_eq_ok h
  obtain ⟨t, d0, h3, -, h4⟩ := catalog_inv h2
  have hd1 : d1 = reads [.ref 0 0, root] d := by
    simp [reads, h3, h4]
  refine ⟨[.ref 0 0, root], ?_⟩
  rw [← hd1]
  simp only at h
  split at h
  · split at h
    · obtain ⟨v', -, h⟩ := bind_eq_ok h
      split at h <;> cases h <;> rfl
    · cases h
      rfl
  · cases h

theorem getAll_reads [Zlib] : ∀ (l : List Ref) {d d' : Doc}, getAll l d = .ok d' → ∃ rs, d' = reads rs d
  | [], d, d', h => by
    cases h
    exact ⟨[], rfl⟩
  | (g, n) :: l, d, d', h => by
    unfold getAll at h
    obtain ⟨⟨o, d1⟩, h1, h⟩ := bind_eq_ok h
    obtain ⟨rs, rfl⟩ := getAll_reads l h
    exact ⟨.ref g n :: rs, by simp [reads, h1]⟩

/-! ### Which cells are written -/

/-- Nothing but the cache `c` and the dict `a` has been written, as far as caches and dicts are
concerned. -/
def Beside (H H' : Heap) (c a : Nat) : Prop :=
  (∀ i : Nat, i ≠ c → H'.caches[i]? = H.caches[i]?) ∧ ∀ j : Nat, j ≠ a → H'.dicts[j]? = H.dicts[j]?

theorem onTrailer_beside {H H' : Heap} {nd : HDoc} {f : Dict → Dict} {a : Nat} {cs : List HCell}
    (hc : H.caches[nd.cache]? = some (.dict a :: cs)) (h : onTrailer H nd f = .ok H') :
    H'.caches = H.caches ∧ ∀ j : Nat, j ≠ a → H'.dicts[j]? = H.dicts[j]? := by
  unfold onTrailer at h
  simp only [hc, orRaise_some, bind, Except.bind] at h
  cases ht : H.dicts[a]? with
  | none => simp [ht, orRaise] at h
  | some t =>
    simp only [ht, orRaise_some] at h
    cases h
    refine ⟨rfl, fun j hj => ?_⟩
    simp only [List.getElem?_set_ne (Ne.symm hj)]

theorem hNext_beside {H H' : Heap} {nd nd' : HDoc} {e0 : Entry} {a : Nat} {cs : List HCell}
    (hc : H.caches[nd.cache]? = some (.dict a :: cs)) (h : hNext H nd e0 = .ok (nd', H')) :
    Beside H H' nd.cache a := by
  unfold hNext at h
  obtain ⟨⟨b, bs⟩, -, h⟩ := bind_eq_ok h
  obtain ⟨_, -, h⟩ := bind_eq_ok h
  obtain ⟨⟨r, rs⟩, -, h⟩ := bind_eq_ok h
  obtain ⟨_, -, h⟩ := bind_eq_ok h
  obtain ⟨_, -, h⟩ := bind_eq_ok h
  obtain ⟨_, -, h⟩ := bind_eq_ok h
  obtain ⟨_, -, h⟩ := bind_eq_ok h
  obtain ⟨_, -, h⟩ := bind_eq_ok h
  obtain ⟨H1, h1, h⟩ := bind_eq_ok h
  cases h
  obtain ⟨h2, h3⟩ := onTrailer_beside (a := a) (cs := cs) (by exact hc) h1
  exact ⟨fun i _ => by rw [h2], h3⟩

theorem hBuilt_beside {H H' : Heap} {nd : HDoc} {new : Bytes} {fdata : Provider} {rev : Rev} {a : Nat}
    {t : Dict} {os : List Obj} {cs : List HCell}
    (hc : H.caches[nd.cache]? = some (.dict a :: cs)) (h : hBuilt H nd new fdata rev (.dict t :: os) = .ok H') :
    Beside H H' nd.cache a ∧ H'.caches[nd.cache]? = some (.dict a :: os.map .val) := by
  unfold hBuilt at h
  obtain ⟨es, h1, -⟩ := allocSlots_spec rev H
  simp only [h1] at h
  obtain ⟨⟨b, bs⟩, -, h⟩ := bind_eq_ok h
  obtain ⟨_, -, h⟩ := bind_eq_ok h
  obtain ⟨⟨r, rs⟩, -, h⟩ := bind_eq_ok h
  cases h
  simp only [hStoreCache, hc]
  refine ⟨⟨fun i hi => ?_, fun j hj => ?_⟩, ?_⟩
  · simp only [List.getElem?_set_ne (Ne.symm hi)]
  · simp only [List.getElem?_set_ne (Ne.symm hj)]
  · simp only [List.getElem?_set_self (List.getElem?_eq_some_iff.1 hc).1]

/-- HCells that do not use the dict at `a`. -/
def Avoids (a : Nat) (cells : List HCell) : Prop := ∀ c ∈ cells, c ≠ .dict a

theorem mkCell_avoids (H : Heap) (o : Obj) (a : Nat) (ha : a < H.dicts.length) : (mkCell H o).1 ≠ .dict a := by
  cases o <;> simp [mkCell]
  omega

theorem refill_avoids {H : Heap} {old : List HCell} {a : Nat} (ha : a < H.dicts.length) (ho : Avoids a old)
    (os : List Obj) : Avoids a (refill H old os).1 := by
  have hv : ∀ os : List Obj, Avoids a (os.map .val) := by
    intro os c hc
    obtain ⟨o, -, rfl⟩ := List.mem_map.1 hc
    simp
  have key : ∀ (c : HCell) (os : List Obj), c ≠ .dict a → Avoids a (c :: os.map .val) := by
    intro c os hc c' hc'
    rcases List.mem_cons.1 hc' with rfl | hc'
    · exact hc
    · exact hv os _ hc'
  cases os with
  | nil =>
    intro c hc
    simp [refill] at hc
  | cons o os =>
    cases old with
    | nil => exact key _ _ (mkCell_avoids H o a ha)
    | cons c old =>
      simp only [refill]
      split
      · exact key _ _ (ho c (by simp))
      · exact key _ _ (mkCell_avoids H o a ha)

theorem absCell_beside {H H' : Heap} {a : Nat} (h : ∀ j : Nat, j ≠ a → H'.dicts[j]? = H.dicts[j]?) {cells : List HCell}
    (ha : Avoids a cells) : cells.map (absCell H') = cells.map (absCell H) := by
  refine List.map_congr_left fun c hc => ?_
  cases c with
  | val o => rfl
  | dict j =>
    simp only [absCell]
    rw [h j fun hj => ha _ hc (by rw [hj])]

/-- The committed document itself: its cache may have been filled, by the reads of `version`. -/
theorem hCommit_self [Zlib] {H H' : Heap} {d nd : HDoc} {x : Doc} (hx : abs H d = some x)
    (hn : firstXrefStreamNum x ≠ .ok (some (-1))) (h : hCommit H d = .ok (nd, H')) :
    ∃ rs, abs H' d = some (reads rs x) := by
  have hsim := hCommit_sim hx hn
  rw [h] at hsim
  have hk : HKept H H' (fun a => a = d.cache) := by
    generalize commit x = c at hsim
    cases hsim
    assumption
  obtain ⟨i1, i2, i3⟩ := abs_iff.1 hx
  have j1 := absIndex_kept hk _ _ i1
  have j3 := absData_kept hk _ _ i3
  obtain ⟨r0, rs0, cells0, cache0, b0, bs0, hcell⟩ := cells_of_abs hx
  have hdc : d.cache < H.caches.length := (List.getElem?_eq_some_iff.1 hcell.caches).1
  -- it is enough to look at the cache
  have suff : ∀ y : Doc, (∃ rs, y = reads rs x) → absCache H' d.cache = some y.cache →
      ∃ rs, abs H' d = some (reads rs x) := by
    rintro y ⟨rs, rfl⟩ hy
    refine ⟨rs, abs_iff.2 ⟨?_, hy, ?_⟩⟩
    · rw [reads_cache rs x]
      exact j1
    · rw [reads_cache rs x]
      exact j3
  unfold hCommit at h
  simp only [hx, orRaise_some, bind, Except.bind] at h
  split at h
  · cases h
    exact ⟨[], hx⟩
  rcases copyNext_next hx with ⟨e, h1, h2⟩ | ⟨nd1, H1, t, r, rs, cells, a, cs, os, b, bs, h1, -, hN⟩
  · simp [h1] at h
  simp only [h1] at h
  cases hf : firstXrefStreamNum x with
  | error e => simp [hf] at h
  | ok xo =>
    simp only [hf] at h
    have hx1 : xo.getD 0 ≠ -1 := by
      intro h
      cases xo with
      | none => simp at h
      | some v =>
        simp at h
        exact hn (by rw [hf, h])
    cases hxr : hXref H1 nd1 (x.past.length + 1) (xo.getD 0) with
    | error e => simp [hxr] at h
    | ok q =>
      obtain ⟨n, H1'⟩ := q
      have : H1' = H1 := by
        unfold hXref at hxr
        simp only [if_neg hx1] at hxr
        split at hxr
        · cases hxr; rfl
        · split at hxr
          · cases hxr
          · cases hxr; rfl
      subst this
      simp only [hxr, hSize, lastRev_eq hN.outs, hN.revs, orRaise_some, bind, Except.bind] at h
      obtain ⟨H2, h5, hN2⟩ := hN.onTrailer fun t =>
        Dict.set (if xo.getD 0 = 0 then t else delDecodeParms t) b!"/Size" (.int cells.length)
      simp only [h5] at h
      -- the cache of `d` so far
      have hfc := hN2.fc
      have hne : d.cache ≠ nd1.cache := by omega
      have hd2 : H2.caches[d.cache]? = some cache0 := hN2.kept.caches _ _ (by simp) hcell.caches
      have hav : Avoids a cache0 := by
        intro c hc hca
        subst hca
        have h1 := hcell.objs
        have h2 : absCell H (.dict a) ∈ cache0.map (absCell H) := List.mem_map_of_mem hc
        rw [h1] at h2
        obtain ⟨o, -, ho⟩ := List.mem_map.1 h2
        simp only [absCell] at ho
        have := hN2.fa
        rw [List.getElem?_eq_none this] at ho
        cases ho
      have hobj2 : cache0.map (absCell H2) = x.cache.map some :=
        map_keep (absCell_kept hN2.kept) hcell.objs
      -- what follows does not touch it
      have fin : ∀ (H3 : Heap) (y : Doc) (cells3 cs3 : List HCell), (∃ rs, y = reads rs x) →
          H3.caches[d.cache]? = some cells3 → cells3.map (absCell H3) = y.cache.map some →
          Avoids a cells3 → Beside H3 H' nd1.cache a → ∃ rs, abs H' d = some (reads rs x) := by
        intro H3 y cells3 cs3 hy hc3 ho3 ha3 hb
        refine suff y hy ?_
        simp only [absCache, Option.bind_eq_some_iff, allSome_iff]
        exact ⟨cells3, by rw [hb.1 _ hne, hc3], by rw [absCell_beside hb.2 ha3, ho3]⟩
      have beside_trans : ∀ (Ha Hb Hc : Heap), Beside Ha Hb nd1.cache a → Beside Hb Hc nd1.cache a →
          Beside Ha Hc nd1.cache a := by
        intro Ha Hb Hc h1 h2
        exact ⟨fun i hi => by rw [h2.1 i hi, h1.1 i hi], fun j hj => by rw [h2.2 j hj, h1.2 j hj]⟩
      unfold hWrite at h
      simp only [lastData_eq hN2.datas, lastRev_eq hN2.outs, hN2.record, hN2.toHOwn.cells.rev,
        hN2.toHOwn.cells.cacheVal, orRaise_some, bind, Except.bind] at h
      cases hcut : x.curData.eofCut with
      | some cut =>
        simp only [hcut] at h
        exact fin H2 x cache0 [] ⟨[], rfl⟩ hd2 hobj2 hav (hNext_beside hN2.caches h)
      | none =>
        simp only [hcut] at h
        cases hpast : x.past with
        | nil =>
          simp only [hpast] at h
          cases hv : version x with
          | error e => simp [hv] at h
          | ok p =>
            obtain ⟨v, x1⟩ := p
            simp only [hv] at h
            cases hb : buildRevision (changes x) x.cur
              (.dict (Dict.set (if xo.getD 0 = 0 then t else delDecodeParms t) b!"/Size" (.int cells.length)) :: os)
              (b!"%PDF-" ++ v).length n with
            | error e => simp only [hb] at h; cases h
            | ok q =>
              obtain ⟨new, rev, cache⟩ := q
              obtain ⟨t', os', rfl⟩ := buildRevision_cache hb
              simp only [hb] at h
              cases hbu : hBuilt (fillCache H2 d x1.cache) nd1 (b!"%PDF-" ++ v ++ new)
                (.dummy (b!"%PDF-" ++ v ++ new)) rev (.dict t' :: os') with
              | error e => simp only [hbu] at h; cases h
              | ok H4 =>
                simp only [hbu] at h
                have hc3 : (fillCache H2 d x1.cache).caches[nd1.cache]? = some (.dict a :: cs) :=
                  (fillCache_kept H2 d x1.cache).caches _ _ (Ne.symm hne) hN2.caches
                obtain ⟨hb1, hb2⟩ := hBuilt_beside hc3 hbu
                have hb3 := hNext_beside hb2 h
                have halt : a < H2.dicts.length := (List.getElem?_eq_some_iff.1 hN2.dict).1
                obtain ⟨ds, hr1, hr2⟩ := refill_spec H2 cache0 x1.cache
                have hfe : fillCache H2 d x1.cache = { H2 with
                    dicts := H2.dicts ++ ds
                    caches := H2.caches.set d.cache (refill H2 cache0 x1.cache).1 } := by
                  simp only [fillCache, hd2, Option.getD_some, hr1]
                refine fin (fillCache H2 d x1.cache) x1 (refill H2 cache0 x1.cache).1 [] (version_reads hv) ?_ ?_
                  (refill_avoids halt hav _) (beside_trans _ _ _ hb1 hb3)
                · rw [hfe]
                  simp only [List.getElem?_set_self (List.getElem?_eq_some_iff.1 hd2).1]
                · rw [hfe]
                  exact hr2
        | cons p0 ps =>
          simp only [hpast] at h
          cases hv : revisionIndex x with
          | error e => simp [hv] at h
          | ok idx =>
            simp only [hv] at h
            cases hb : buildRevision (changes x) x.cur
              (.dict (Dict.set (if xo.getD 0 = 0 then t else delDecodeParms t) b!"/Size" (.int cells.length)) :: os)
              idx n with
            | error e => simp only [hb] at h; cases h
            | ok q =>
              obtain ⟨new, rev, cache⟩ := q
              obtain ⟨t', os', rfl⟩ := buildRevision_cache hb
              simp only [hb] at h
              cases hbu : hBuilt H2 nd1 new (.merged x.curData.fdata idx new) rev (.dict t' :: os') with
              | error e => simp only [hbu] at h; cases h
              | ok H4 =>
                simp only [hbu] at h
                obtain ⟨hb1, hb2⟩ := hBuilt_beside hN2.caches hbu
                have hb3 := hNext_beside hb2 h
                exact fin H2 x cache0 [] ⟨[], rfl⟩ hd2 hobj2 hav (beside_trans _ _ _ hb1 hb3)

/-! ### Reads and rewind -/

theorem hGet_spec [Zlib] {H H' : Heap} {d : HDoc} {x : Doc} {r o : Obj} (hx : abs H d = some x)
    (h : hGet H d r = .ok (o, H')) : HKept H H' (fun a => a = d.cache) ∧ abs H' d = some (reads [r] x) ∧
    view x r = .ok o := by
  unfold hGet at h
  simp only [hx, orRaise_some, bind, Except.bind] at h
  cases hg : getObject x r with
  | error e => simp [hg] at h
  | ok p =>
    obtain ⟨o1, x1⟩ := p
    simp only [hg] at h
    cases h
    refine ⟨fillCache_kept _ _ _, ?_, by simp [view, hg, Except.map]⟩
    rw [fillCache_abs hx, reads_one hg]
    exact congrArg some (getObject_cache hg).symm

theorem hRewind_sim [Zlib] {H : Heap} {d : HDoc} {x : Doc} (hx : abs H d = some x) :
    HSim H d (fun _ => False) (hRewind H d) (rewind x) := by
  obtain ⟨r, rs, cells, cache, b, bs, hc⟩ := cells_of_abs hx
  unfold hRewind
  simp only [hx, orRaise_some, bind, Except.bind, lastRev_eq hc.outs, lastData_eq hc.datas]
  have hp := hc.past
  have hr := hc.records
  cases rs with
  | nil =>
    have : x.past = [] := by
      cases hh : x.past with
      | nil => rfl
      | cons a l => rw [hh] at hp; simp at hp
    simp only [rewind, this]
    exact .ok _ _ _ hx (HKept.refl _ _) (.inr ⟨rfl, rfl⟩)
  | cons r1 rs =>
    cases hpast : x.past with
    | nil => rw [hpast] at hp; simp at hp
    | cons p ps =>
      rw [hpast] at hp
      simp only [List.map_cons, List.cons.injEq] at hp
      cases bs with
      | nil =>
        have : x.pastData = [] := by
          cases hh : x.pastData with
          | nil => rfl
          | cons a l => rw [hh] at hr; simp at hr
        simp only [rewind, hpast, this]
        exact .err _
      | cons b1 bs =>
        cases hpd : x.pastData with
        | nil => rw [hpd] at hr; simp at hr
        | cons q qs =>
          rw [hpd] at hr
          simp only [List.map_cons, List.cons.injEq] at hr
          obtain ⟨hp1, hp2⟩ := hp
          obtain ⟨hr1, hr2⟩ := hr
          simp only [absRev, Option.bind_eq_some_iff, allSome_iff] at hp1
          obtain ⟨cells1, hc1, hs1⟩ := hp1
          simp only [hc1, hr1, orRaise_some]
          cases hrw : rewind x with
          | error e => exact .err e
          | ok y =>
            simp only
            have hy : y = { y with cur := p, past := ps, curData := { q with eofCut := none }, pastData := qs } := by
              unfold rewind at hrw
              simp only [hpast, hpd] at hrw
              obtain ⟨c, -, hrw⟩ := bind_eq_ok hrw
              obtain ⟨rs', rfl⟩ := getAll_reads _ hrw
              rw [reads_cache]
            have hk : HKept H { H with
                outs := H.outs ++ [H.revs.length :: rs]
                revs := H.revs ++ [cells1]
                caches := H.caches ++ [[]]
                recs := H.recs ++ [{ q with eofCut := none }]
                datas := H.datas ++ [H.recs.length :: bs] } (fun _ => False) :=
              ⟨kept_app (fun _ _ h => h) _, kept_app (fun _ _ h => h) _, fun _ _ h => h,
                fun a l _ => kept_app (fun _ _ h => h) _ a l, fun _ _ h => h, kept_app (fun _ _ h => h) _,
                kept_app (fun _ _ h => h) _⟩
            have hcl : HCells { H with
                outs := H.outs ++ [H.revs.length :: rs]
                revs := H.revs ++ [cells1]
                caches := H.caches ++ [[]]
                recs := H.recs ++ [{ q with eofCut := none }]
                datas := H.datas ++ [H.recs.length :: bs] } ⟨H.outs.length, H.caches.length, H.datas.length⟩
                ⟨p, ps, [], { q with eofCut := none }, qs⟩ H.revs.length rs cells1 [] H.recs.length bs :=
              ⟨by simp, by simp, map_keep (absSlot_kept hk) hs1, map_keep (absRev_kept hk) hp2, by simp, rfl,
                by simp, by simp, map_keep hk.recs hr2⟩
            refine .ok _ _ _ ?_ ?_ (.inl (Nat.le_refl _))
            · rw [fillCache_abs hcl.abs]
              exact congrArg some hy.symm
            · have hfk := fillCache_kept { H with
                outs := H.outs ++ [H.revs.length :: rs]
                revs := H.revs ++ [cells1]
                caches := H.caches ++ [[]]
                recs := H.recs ++ [{ q with eofCut := none }]
                datas := H.datas ++ [H.recs.length :: bs] } ⟨H.outs.length, H.caches.length, H.datas.length⟩ y.cache
              have hkk := (hk.weaken (w' := fun a => a = H.caches.length) fun a h => h.elim).trans hfk
              exact { hkk with
                caches := fun a l _ hl => hkk.caches a l
                  (fun ha => by
                    have h1 := (List.getElem?_eq_some_iff.1 hl).1
                    have h2 : a = H.caches.length := ha
                    omega) hl }

/-! ### No pending xref stream -/

theorem buildRevision_cells [Zlib] {chg : List Change} {rev : Rev} {cache : List Obj}
    {start xnum : Nat} {out : Bytes} {idx : Rev} {cache' : List Obj}
    (h : buildRevision chg rev cache start xnum = .ok (out, idx, cache')) (n : Nat) :
    SameCell rev[n]? idx[n]? := by
  by_cases hx : xnum = 0
  · subst hx
    obtain ⟨xref, st, trailer, built, e0, k, h1, h2, h3, h4, h5, rfl, h6, rfl⟩ :=
      buildRevision_table_inv h
    obtain ⟨m1, m2, m3⟩ := mainPass_cell _ _ _ _ _ h2
    refine (m2 n).trans ?_
    apply sameCell_set h5 <;> rfl
  · obtain ⟨xref, st, trailer, trailer', built, e0, ex, block, cache1, h1, h2, h3, rfl, h4, h5, h6, h7,
      rfl, rfl⟩ := buildRevision_stream_inv hx h
    obtain ⟨m1, m2, m3⟩ := mainPass_cell _ _ _ _ _ h2
    refine (m2 n).trans ((sameCell_set h6 (e' := { ex with absPos := some (.at st.counter), absNext := some (st.counter + block.length) }) rfl rfl rfl n).trans ?_)
    have h5' : (st.index.set xnum (.one { ex with absPos := some (.at st.counter), absNext := some (st.counter + block.length) }))[0]? = some (.one e0) := by
      rw [getElem?_set_ne' _ _ hx]
      exact h5
    apply sameCell_set h5' <;> rfl

/-- `force_xref_stream` without a placeholder has not been used on the first revision, or that revision
has been written. -/
def NotForced (x : Doc) : Prop := firstXrefStreamNum x ≠ .ok (some (-1))

theorem notForced_cell {x y : Doc} (h : SameCell x.firstRev[0]? y.firstRev[0]?) (hx : NotForced x) :
    NotForced y := by
  unfold NotForced firstXrefStreamNum slotAt at *
  rcases h with h | ⟨e, e', h1, h2, -, -, h3⟩
  · rw [← h]
    exact hx
  · rw [h1] at hx
    rw [h2]
    simp only [orRaise_some, bind, Except.bind, pure, Except.pure] at hx ⊢
    rw [h3]
    exact hx

theorem notForced_none {y : Doc} {e : Entry} (h : y.firstRev[0]? = some (.one e))
    (he : e.xrefStreamNum = none) : NotForced y := by
  unfold NotForced firstXrefStreamNum slotAt
  rw [h]
  simp [orRaise_some, bind, Except.bind, pure, Except.pure, he]

theorem notForced_reads [Zlib] {x : Doc} (hx : NotForced x) (rs : List Obj) : NotForced (reads rs x) := by
  rw [reads_cache]
  exact notForced_cell (.inl rfl) hx

theorem notForced_update {x y : Doc} {n : Nat} {o : Obj} (hx : NotForced x) (h : updateObject x n o = .ok y) :
    NotForced y := by
  unfold updateObject at h
  obtain ⟨old, h1, h⟩ := bind_eq_ok h
  obtain ⟨_, h2, h⟩ := bind_eq_ok h
  cases h
  cases hp : x.past with
  | cons p ps =>
    refine notForced_cell (.inl ?_) hx
    simp only [Doc.firstRev, hp]
    cases ps <;> rfl
  | nil =>
    by_cases hn : n = 0
    · subst hn
      refine notForced_none (e := newEntry old 0 x.past.length o) ?_ rfl
      unfold entryAt at h1
      obtain ⟨s, h3, h1⟩ := bind_eq_ok h1
      have := orRaise_eq_ok h3
      simp only [Doc.firstRev, hp, List.getLastD_nil]
      rw [List.getElem?_set_self (List.getElem?_eq_some_iff.1 this).1]
    · refine notForced_cell (.inl ?_) hx
      simp only [Doc.firstRev, hp, List.getLastD_nil]
      rw [List.getElem?_set_ne hn]

theorem notForced_add {x y : Doc} {n : Nat} {o : Obj} (hx : NotForced x) (h : addObject x o = .ok (y, n)) :
    NotForced y := by
  unfold addObject at h
  simp only at h
  split at h
  · cases h
    cases hp : x.past with
    | cons p ps =>
      refine notForced_cell (.inl ?_) hx
      simp only [Doc.firstRev, hp]
      cases ps <;> rfl
    | nil =>
      cases hc : x.cur with
      | nil => exact notForced_none (e := { num := (([] : Rev).length : Nat), docVer := x.past.length }) (by simp [Doc.firstRev, hp]) rfl
      | cons s r =>
        refine notForced_cell (.inl ?_) hx
        simp [Doc.firstRev, hp, hc]
  · cases h

theorem notForced_rewind [Zlib] {x y : Doc} (hx : NotForced x) (h : rewind x = .ok y) : NotForced y := by
  unfold rewind at h
  split at h
  · cases h
    exact hx
  · rename_i rev past hp
    split at h
    · cases h
    · obtain ⟨c, -, h⟩ := bind_eq_ok h
      obtain ⟨rs, rfl⟩ := getAll_reads _ h
      refine notForced_reads (notForced_cell (.inl ?_) hx) rs
      simp only [Doc.firstRev, hp]
      cases past <;> simp [List.getLastD]

theorem notForced_commit [Zlib] {x y : Doc} (hx : NotForced x) (h : commit x = .ok y) : NotForced y := by
  by_cases hc : changes x = []
  · rw [commit, if_pos hc] at h
    cases h
    exact hx
  · obtain ⟨p, cur, cache, data, d0, d1, h1, h2, h3, h4, rfl⟩ := commit_inv h hc
    refine notForced_cell ?_ hx
    cases hp : x.past with
    | cons q qs =>
      left
      simp [Doc.firstRev, hp, List.getLastD]
    | nil =>
      simp only [Doc.firstRev, hp, List.getLastD, List.getLast]
      have hpc : p.cur = x.cur := by
        unfold prepareCommit at h1
        obtain ⟨t, -, h1⟩ := bind_eq_ok h1
        obtain ⟨xo, hf, h1⟩ := bind_eq_ok h1
        obtain ⟨⟨c, n⟩, h5, h1⟩ := bind_eq_ok h1
        cases h1
        simp only
        split at h5
        · cases h5; rfl
        · unfold xrefStreamEntry at h5
          split at h5
          · rename_i hx1
            exfalso
            cases xo with
            | none => simp at hx1
            | some v =>
              simp at hx1
              exact hx (by rw [hf, hx1])
          · split at h5
            · cases h5
            · cases h5; rfl
      unfold writeRevision at h2
      split at h2
      · cases h2
        rw [hpc]
        exact .inl rfl
      · simp only [hp] at h2
        obtain ⟨⟨v, _⟩, -, h2⟩ := bind_eq_ok h2
        obtain ⟨⟨new, c, ca⟩, hb, h2⟩ := bind_eq_ok h2
        cases h2
        rw [← hpc]
        exact buildRevision_cells hb 0

/-! ### Programs -/

/-- The functional meaning of a step, on the document it applies to; a read has no document as result. -/
def HOp.doc [Zlib] (x : Doc) : HOp → Py Doc
  | .set _ n o => updateObject x n o
  | .add _ o => (addObject x o).map Prod.fst
  | .get _ r => .ok (reads [r] x)
  | .commit _ => Pdf.commit x
  | .rewind _ => Pdf.rewind x

/-- The rank of the document a step applies to. -/
def HOp.rank : HOp → Nat
  | .set i _ _ => i
  | .add i _ => i
  | .get i _ => i
  | .commit i => i
  | .rewind i => i

/-- The documents of a program: each has a content, no forced xref stream is pending, and two documents
that share their cache are the same. -/
structure Held (H : Heap) (env : List HDoc) : Prop where
  ok : ∀ e ∈ env, ∃ x, abs H e = some x ∧ NotForced x
  sep : ∀ e ∈ env, ∀ e' ∈ env, e.cache = e'.cache → e = e'

theorem cache_lt {H : Heap} {d : HDoc} {x : Doc} (hx : abs H d = some x) : d.cache < H.caches.length := by
  obtain ⟨-, h, -⟩ := abs_iff.1 hx
  simp only [absCache, Option.bind_eq_some_iff] at h
  obtain ⟨l, hl, -⟩ := h
  exact (List.getElem?_eq_some_iff.1 hl).1

/-- A new document joins the others. -/
theorem held_new [Zlib] {H H' : Heap} {env : List HDoc} {d nd : HDoc} {y : Doc} (hh : Held H env)
    (hd : d ∈ env) (hold : ∀ e ∈ env, ∀ z, abs H e = some z → ∃ rs, abs H' e = some (reads rs z))
    (hy : abs H' nd = some y) (hny : NotForced y) (hfresh : H.caches.length ≤ nd.cache ∨ (nd = d ∧ H' = H)) :
    Held H' (env ++ [nd]) := by
  have hne : ∀ e ∈ env, e.cache = nd.cache → e = nd := by
    intro e he hc
    rcases hfresh with hf | ⟨rfl, -⟩
    · obtain ⟨z, hz, -⟩ := hh.ok e he
      have := cache_lt hz
      omega
    · exact hh.sep e he _ hd hc
  refine ⟨?_, ?_⟩
  · intro e he
    rcases List.mem_append.1 he with he | he
    · obtain ⟨z, hz, hnz⟩ := hh.ok e he
      obtain ⟨rs, hrs⟩ := hold e he z hz
      exact ⟨_, hrs, notForced_reads hnz rs⟩
    · simp only [List.mem_singleton] at he
      subst he
      exact ⟨y, hy, hny⟩
  · intro e he e' he' hc
    rcases List.mem_append.1 he with hm | hm <;> rcases List.mem_append.1 he' with hm' | hm'
    · exact hh.sep e hm e' hm' hc
    · simp only [List.mem_singleton] at hm'
      subst hm'
      exact hne e hm hc
    · simp only [List.mem_singleton] at hm
      subst hm
      exact (hne e' hm' hc.symm).symm
    · simp only [List.mem_singleton] at hm hm'
      rw [hm, hm']

theorem sim_ok {H H' : Heap} {d nd : HDoc} {w : Nat → Prop} {r : Py Doc} (h : HSim H d w (.ok (nd, H')) r) :
    ∃ y, r = .ok y ∧ abs H' nd = some y ∧ HKept H H' w ∧ (H.caches.length ≤ nd.cache ∨ (nd = d ∧ H' = H)) := by
  cases h with
  | ok _ _ y h1 h2 h3 => exact ⟨y, rfl, h1, h2, h3⟩

/-- One step of a program. -/
theorem step_spec [Zlib] {H H' : Heap} {env env' : List HDoc} (o : HOp) (hh : Held H env)
    (h : o.run H env = .ok (H', env')) :
    Held H' env' ∧ (∀ e ∈ env, ∀ z, abs H e = some z → ∃ rs, abs H' e = some (reads rs z)) ∧
    ∃ d x y, env[o.rank]? = some d ∧ abs H d = some x ∧ o.doc x = .ok y ∧
      ((env' = env ∧ abs H' d = some y) ∨ ∃ nd, env' = env ++ [nd] ∧ abs H' nd = some y) := by
  -- the documents other than the one whose cache is filled
  have others : ∀ (w : Nat → Prop) (d : HDoc), d ∈ env → HKept H H' w → (∀ a, w a → a = d.cache) →
      (∀ z, abs H d = some z → ∃ rs, abs H' d = some (reads rs z)) →
      ∀ e ∈ env, ∀ z, abs H e = some z → ∃ rs, abs H' e = some (reads rs z) := by
    intro w d hd hk hw hself e he z hz
    by_cases hc : e.cache = d.cache
    · have := hh.sep e he d hd hc
      subst this
      exact hself z hz
    · exact ⟨[], abs_kept hk (fun h => hc (hw _ h)) hz⟩
  cases o with
  | set i n v =>
    unfold HOp.run at h
    obtain ⟨d, h1, h⟩ := bind_eq_ok h
    obtain ⟨⟨nd, H1⟩, h2, h⟩ := bind_eq_ok h
    cases h
    have hi := orRaise_eq_ok h1
    have hd : d ∈ env := List.mem_of_getElem? hi
    obtain ⟨x, hx, hnx⟩ := hh.ok d hd
    have hs := hUpdate_sim hx n v
    rw [h2] at hs
    obtain ⟨y, hy1, hy2, hk, hf⟩ := sim_ok hs
    have ho := others _ d hd hk (fun a h => h.elim) fun z hz => ⟨[], abs_kept hk (by simp) hz⟩
    exact ⟨held_new hh hd ho hy2 (notForced_update hnx hy1) hf, ho, d, x, y, hi, hx, hy1, .inr ⟨nd, rfl, hy2⟩⟩
  | add i v =>
    unfold HOp.run at h
    obtain ⟨d, h1, h⟩ := bind_eq_ok h
    obtain ⟨⟨nd, H1⟩, h2, h⟩ := bind_eq_ok h
    cases h
    have hi := orRaise_eq_ok h1
    have hd : d ∈ env := List.mem_of_getElem? hi
    obtain ⟨x, hx, hnx⟩ := hh.ok d hd
    have hs := hAdd_sim hx v
    rw [h2] at hs
    obtain ⟨y, hy1, hy2, hk, hf⟩ := sim_ok hs
    have hny : NotForced y := by
      cases ha : addObject x v with
      | error e => rw [ha] at hy1; cases hy1
      | ok p =>
        obtain ⟨y', m⟩ := p
        rw [ha] at hy1
        cases hy1
        exact notForced_add hnx ha
    have ho := others _ d hd hk (fun a h => h.elim) fun z hz => ⟨[], abs_kept hk (by simp) hz⟩
    exact ⟨held_new hh hd ho hy2 hny hf, ho, d, x, y, hi, hx, hy1, .inr ⟨nd, rfl, hy2⟩⟩
  | get i r =>
    unfold HOp.run at h
    obtain ⟨d, h1, h⟩ := bind_eq_ok h
    obtain ⟨⟨v, H1⟩, h2, h⟩ := bind_eq_ok h
    cases h
    have hi := orRaise_eq_ok h1
    have hd : d ∈ env := List.mem_of_getElem? hi
    obtain ⟨x, hx, hnx⟩ := hh.ok d hd
    obtain ⟨hk, hself, -⟩ := hGet_spec hx h2
    have ho := others _ d hd hk (fun a h => h) fun z hz => by
      rw [hx] at hz
      cases hz
      exact ⟨[r], hself⟩
    refine ⟨⟨?_, hh.sep⟩, ho, d, x, _, hi, hx, rfl, .inl ⟨rfl, hself⟩⟩
    intro e he
    obtain ⟨z, hz, hnz⟩ := hh.ok e he
    obtain ⟨rs, hrs⟩ := ho e he z hz
    exact ⟨_, hrs, notForced_reads hnz rs⟩
  | commit i =>
    unfold HOp.run at h
    obtain ⟨d, h1, h⟩ := bind_eq_ok h
    obtain ⟨⟨nd, H1⟩, h2, h⟩ := bind_eq_ok h
    cases h
    have hi := orRaise_eq_ok h1
    have hd : d ∈ env := List.mem_of_getElem? hi
    obtain ⟨x, hx, hnx⟩ := hh.ok d hd
    have hs := hCommit_sim hx hnx
    rw [h2] at hs
    obtain ⟨y, hy1, hy2, hk, hf⟩ := sim_ok hs
    have ho := others _ d hd hk (fun a h => h) fun z hz => by
      rw [hx] at hz
      cases hz
      exact hCommit_self hx hnx h2
    exact ⟨held_new hh hd ho hy2 (notForced_commit hnx hy1) hf, ho, d, x, y, hi, hx, hy1, .inr ⟨nd, rfl, hy2⟩⟩
  | rewind i =>
    unfold HOp.run at h
    obtain ⟨d, h1, h⟩ := bind_eq_ok h
    obtain ⟨⟨nd, H1⟩, h2, h⟩ := bind_eq_ok h
    cases h
    have hi := orRaise_eq_ok h1
    have hd : d ∈ env := List.mem_of_getElem? hi
    obtain ⟨x, hx, hnx⟩ := hh.ok d hd
    have hs := hRewind_sim hx
    rw [h2] at hs
    obtain ⟨y, hy1, hy2, hk, hf⟩ := sim_ok hs
    have ho := others _ d hd hk (fun a h => h.elim) fun z hz => ⟨[], abs_kept hk (by simp) hz⟩
    exact ⟨held_new hh hd ho hy2 (notForced_rewind hnx hy1) hf, ho, d, x, y, hi, hx, hy1, .inr ⟨nd, rfl, hy2⟩⟩

theorem run_spec [Zlib] : ∀ (l : List HOp) {H H' : Heap} {env env' : List HDoc}, Held H env →
    hRun l H env = .ok (H', env') →
    Held H' env' ∧ (∃ more, env' = env ++ more) ∧
    ∀ e ∈ env, ∀ z, abs H e = some z → ∃ rs, abs H' e = some (reads rs z)
  | [], H, H', env, env', hh, h => by
    cases h
    exact ⟨hh, ⟨[], by simp⟩, fun e _ z hz => ⟨[], hz⟩⟩
  | o :: l, H, H', env, env', hh, h => by
    unfold hRun at h
    obtain ⟨⟨H1, env1⟩, h1, h⟩ := bind_eq_ok h
    obtain ⟨hh1, ho, d, x, y, -, -, -, hcase⟩ := step_spec o hh h1
    obtain ⟨hh2, ⟨more, hm⟩, ho2⟩ := run_spec l hh1 h
    have hsub : ∃ m1, env1 = env ++ m1 := by
      rcases hcase with ⟨rfl, -⟩ | ⟨nd, rfl, -⟩
      · exact ⟨[], by simp⟩
      · exact ⟨[nd], rfl⟩
    obtain ⟨m1, rfl⟩ := hsub
    refine ⟨hh2, ⟨m1 ++ more, by rw [hm]; simp⟩, fun e he z hz => ?_⟩
    obtain ⟨rs, hrs⟩ := ho e he z hz
    obtain ⟨rs', hrs'⟩ := ho2 e (by simp [he]) _ hrs
    exact ⟨rs ++ rs', by rw [hrs', reads_append]⟩

/-- What a user can see of a document is the same before (`y`) and after (`y'`): its revisions, its
files, its pending changes, and (when the object streams of the document are coherent with its index, as
in `C25`) every object; in any case its cache is what some reads of the document make of it. -/
def SameSeen [Zlib] (y y' : Doc) : Prop :=
  y'.index = y.index ∧ y'.data = y.data ∧ changes y' = changes y ∧
  (Coherent y → ∀ r, view y' r = view y r) ∧ ∃ rs, y' = reads rs y

theorem sameSeen_reads [Zlib] (y : Doc) (rs : List Obj) : SameSeen y (reads rs y) := by
  refine ⟨?_, ?_, ?_, fun hc r => C25_reads_partial y hc rs r, rs, rfl⟩
  all_goals rw [reads_cache]; rfl

/-- **C24, partial.** Take a document `d` in memory, whatever it shares inside; run any program that makes
documents from it by `update_object`, `add_object`, `commit`, `rewind`, and that reads objects, on any of
the documents made so far, in any order. From any moment (after `l1`) to any later one (after `l2`), every
document that existed (`d` and all those made from it) shows the same revisions, the same changes and the
same objects.

Missing from the full claim: documents on which `force_xref_stream` has been called (it writes in the
trailer of the original, `C24_force_counterexample`; and the later `commit` writes in an entry of the
original, `C24_commit_counterexample`), reads in documents whose object streams are not coherent
(`C25_counterexample`), and operations that raise. -/
theorem C24_immutable_partial [Zlib] (H H1 H2 : Heap) (d : HDoc) (x : Doc) (hx : abs H d = some x)
    (hn : firstXrefStreamNum x ≠ .ok (some (-1))) (l1 l2 : List HOp) (env1 env2 : List HDoc)
    (h1 : hRun l1 H [d] = .ok (H1, env1)) (h2 : hRun l2 H1 env1 = .ok (H2, env2)) :
    d ∈ env1 ∧ ∀ e ∈ env1, ∃ y y', abs H1 e = some y ∧ abs H2 e = some y' ∧ SameSeen y y' := by
  have hh : Held H [d] := by
    refine ⟨?_, ?_⟩
    · intro e he
      simp only [List.mem_singleton] at he
      subst he
      exact ⟨x, hx, hn⟩
    · intro e he e' he' _
      simp only [List.mem_singleton] at he he'
      rw [he, he']
  obtain ⟨hh1, ⟨more, rfl⟩, -⟩ := run_spec l1 hh h1
  refine ⟨by simp, fun e he => ?_⟩
  obtain ⟨-, -, ho⟩ := run_spec l2 hh1 h2
  obtain ⟨y, hy, -⟩ := hh1.ok e he
  obtain ⟨rs, hrs⟩ := ho e he y hy
  exact ⟨y, _, hy, hrs, sameSeen_reads y rs⟩

/-- **The functional model is faithful to the memory.** In such a program, whatever has been done before
(`l`), the next step makes (or fills) a document whose content is the one that the functional model
(`Verif.Model.Doc`, on which the other properties are proved) computes from the content of the document
it applies to. -/
theorem C24_functional_partial [Zlib] (H H1 H2 : Heap) (d : HDoc) (x : Doc) (hx : abs H d = some x)
    (hn : firstXrefStreamNum x ≠ .ok (some (-1))) (l : List HOp) (o : HOp) (env1 env2 : List HDoc)
    (h1 : hRun l H [d] = .ok (H1, env1)) (h2 : o.run H1 env1 = .ok (H2, env2)) :
    ∃ e y y', env1[o.rank]? = some e ∧ abs H1 e = some y ∧ o.doc y = .ok y' ∧
      ((env2 = env1 ∧ abs H2 e = some y') ∨ ∃ e', env2 = env1 ++ [e'] ∧ abs H2 e' = some y') := by
  have hh : Held H [d] := by
    refine ⟨?_, ?_⟩
    · intro e he
      simp only [List.mem_singleton] at he
      subst he
      exact ⟨x, hx, hn⟩
    · intro e he e' he' _
      simp only [List.mem_singleton] at he he'
      rw [he, he']
  obtain ⟨hh1, -, -⟩ := run_spec l hh h1
  exact (step_spec o hh1 h2).2.2

/-! ### Samples -/

/-- The memory with the document of `mapFile`, just loaded. -/
def aliasHeap : Heap :=
  { outs := [[0]]
    revs := [[.one 0, .one 1, .one 2]]
    ents := [{ num := 0, xrefTablePos := some 63, absPos := some (.at 129), absNext := some 163 },
      { num := 1, absPos := some (.at 9), absNext := some 45 },
      { num := 2, absPos := some (.at 45), absNext := some 63 }]
    caches := [[.dict 0, .val .null, .val .null]]
    dicts := [[(b!"/Size", .int 3), (b!"/Root", .ref 0 1)]]
    datas := [[0]]
    recs := [{ fdata := .single mapFile, eofCut := some 183 }] }

example : abs aliasHeap ⟨0, 0, 0⟩ = some mapDoc := by kernel_rfl
example : firstXrefStreamNum mapDoc ≠ .ok (some (-1)) := by
  rw [show firstXrefStreamNum mapDoc = .ok none from rfl]
  simp

/-- Two histories that start from the same document (the second one, committed), then a rewind, and a
change to the oldest document. -/
def aliasProg : List HOp :=
  [.commit 0, .set 1 2 (.int 13), .set 1 2 (.int 14), .get 1 (.ref 0 2), .commit 2, .commit 3, .rewind 4,
    .add 0 (.int 5), .get 0 (.ref 0 1)]

/-- The object 2, the number of changes and of past revisions, in each of the eight documents. -/
example [Zlib] : ((hRun aliasProg aliasHeap [⟨0, 0, 0⟩]).map fun p => p.2.map fun e => (abs p.1 e).map fun x =>
    (view x (.ref 0 2), (changes x).length, x.past.length)) =
    .ok [some (.ok (.int 12), 2, 0), some (.ok (.int 12), 0, 1), some (.ok (.int 13), 1, 1),
      some (.ok (.int 14), 1, 1), some (.ok (.int 13), 0, 2), some (.ok (.int 14), 0, 2),
      some (.ok (.int 13), 1, 1), some (.ok (.int 12), 3, 0)] := by kernel_rfl

/-- **C24 is false of `force_xref_stream`.** The trailer of the document given to it gets the entry
`/Filter` as well: the dict is shared with the new document, and written in place. -/
theorem C24_force_counterexample :
    ((abs aliasHeap ⟨0, 0, 0⟩).map fun x => x.cache[0]?) =
      some (some (.dict [(b!"/Size", .int 3), (b!"/Root", .ref 0 1)])) ∧
    ((hForce aliasHeap ⟨0, 0, 0⟩ false b!"/FlateDecode").map fun p =>
      (abs p.2 ⟨0, 0, 0⟩).map fun x => x.cache[0]?) =
      .ok (some (some (.dict [(b!"/Size", .int 3), (b!"/Root", .ref 0 1),
        (b!"/Filter", .str b!"/FlateDecode")]))) :=
  ⟨by kernel_rfl, by kernel_rfl⟩

/-- The memory with a new document: a catalog and a string. -/
def freshHeap : Heap :=
  { outs := [[0]]
    revs := [[.one 0, .one 1, .one 2]]
    ents := [{ num := 0 }, { num := 1 }, { num := 2 }]
    caches := [[.dict 0, .val (.dict [(b!"/Type", .str b!"/Catalog")]), .val (.bytes (List.replicate 300 65))]]
    dicts := [[(b!"/Root", .ref 0 1)]]
    datas := [[0]]
    recs := [{ fdata := .dummy b!"%PDF-1.4" }] }

/-- **C24 is false of `commit` after `force_xref_stream`.** Let `f` be a new document on which an xref
stream has been forced (with no filter, so that the trailer is left alone). An object is added to `f`, as
object 3: it is among the changes. If `f` has been committed before, on the side, the same addition to `f`
gives no such change any more (the entry of cell 0 of `f` has got the number 3 for the xref stream): the
object would not be written. -/
theorem C24_commit_counterexample [Zlib] :
    (do
      let (f, H) ← hForce freshHeap ⟨0, 0, 0⟩ false []
      let (e, H) ← hAdd H f (.int 8)
      return (abs H e).map changes) = .ok (some [⟨0, 1, .a⟩, ⟨0, 2, .a⟩, ⟨0, 3, .a⟩]) ∧
    (do
      let (f, H) ← hForce freshHeap ⟨0, 0, 0⟩ false []
      let (_, H) ← hCommit H f
      let (e, H) ← hAdd H f (.int 8)
      return (abs H e).map changes) = .ok (some [⟨0, 1, .a⟩, ⟨0, 2, .a⟩]) :=
  ⟨by kernel_rfl, by kernel_rfl⟩

end Pdf
