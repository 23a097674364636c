/-
Documents in memory: what the operations write, and what the documents become.
-/
import Verif.Model.Heap
import Verif.Lemmas.Xref
import Verif.Spec.Reads

namespace Pdf
open Spec

/-! ### Lists of optional values -/

theorem allSome_iff {α β : Type} {f : α → Option β} : ∀ {l : List α} {r : List β},
    allSome f l = some r ↔ l.map f = r.map some
  | [], r => by cases r <;> simp [allSome]
  | a :: l, r => by
    have ih := fun r => @allSome_iff α β f l r
    cases r with
    | nil =>
      simp only [allSome, List.map_cons, List.map_nil, reduceCtorEq, iff_false]
      split <;> simp
    | cons b r =>
      simp only [allSome, List.map_cons, List.cons.injEq]
      split
      · rename_i b' r' h1 h2
        rw [ih] at h2
        simp only [Option.some.injEq, List.cons.injEq, h1, h2]
        constructor
        · rintro ⟨rfl, rfl⟩
          exact ⟨rfl, rfl⟩
        · rintro ⟨rfl, h⟩
          refine ⟨rfl, ?_⟩
          exact (List.map_inj_right (fun _ _ => Option.some.inj)).1 h
      · rename_i hno
        simp only [reduceCtorEq, false_iff, not_and]
        intro h1 h2
        exact hno b r h1 ((ih r).2 h2)

theorem map_keep {α β : Type} {f g : α → Option β} (hfg : ∀ a b, f a = some b → g a = some b) :
    ∀ {l : List α} {r : List β}, l.map f = r.map some → l.map g = r.map some
  | [], r, h => by cases r <;> simp_all
  | a :: l, r, h => by
    cases r with
    | nil => simp at h
    | cons b r =>
      simp only [List.map_cons, List.cons.injEq] at h ⊢
      exact ⟨hfg a b h.1, map_keep hfg h.2⟩

theorem map_some_at {α β : Type} {f : α → Option β} {l : List α} {r : List β}
    (h : l.map f = r.map some) (i : Nat) : (l[i]?).map f = (r[i]?).map some := by
  rw [← List.getElem?_map, h, List.getElem?_map]

theorem map_some_length {α β : Type} {f : α → Option β} {l : List α} {r : List β}
    (h : l.map f = r.map some) : l.length = r.length := by
  have := congrArg List.length h
  simpa using this

/-! ### What is kept -/

/-- Every cell of `H` is still there in `H'`, with the same content, apart from the caches at the
addresses `w`. -/
structure HKept (H H' : Heap) (w : Nat → Prop) : Prop where
  outs : ∀ (a : Nat) l, H.outs[a]? = some l → H'.outs[a]? = some l
  revs : ∀ (a : Nat) l, H.revs[a]? = some l → H'.revs[a]? = some l
  ents : ∀ (a : Nat) l, H.ents[a]? = some l → H'.ents[a]? = some l
  caches : ∀ (a : Nat) l, ¬ w a → H.caches[a]? = some l → H'.caches[a]? = some l
  dicts : ∀ (a : Nat) l, H.dicts[a]? = some l → H'.dicts[a]? = some l
  datas : ∀ (a : Nat) l, H.datas[a]? = some l → H'.datas[a]? = some l
  recs : ∀ (a : Nat) l, H.recs[a]? = some l → H'.recs[a]? = some l

theorem HKept.refl (H : Heap) (w : Nat → Prop) : HKept H H w :=
  ⟨fun _ _ h => h, fun _ _ h => h, fun _ _ h => h, fun _ _ _ h => h, fun _ _ h => h, fun _ _ h => h,
    fun _ _ h => h⟩

theorem HKept.trans {H H1 H2 : Heap} {w : Nat → Prop} (h1 : HKept H H1 w) (h2 : HKept H1 H2 w) :
    HKept H H2 w :=
  ⟨fun a l h => h2.outs a l (h1.outs a l h), fun a l h => h2.revs a l (h1.revs a l h),
    fun a l h => h2.ents a l (h1.ents a l h),
    fun a l hw h => h2.caches a l hw (h1.caches a l hw h),
    fun a l h => h2.dicts a l (h1.dicts a l h), fun a l h => h2.datas a l (h1.datas a l h),
    fun a l h => h2.recs a l (h1.recs a l h)⟩

theorem HKept.weaken {H H' : Heap} {w w' : Nat → Prop} (h : HKept H H' w) (hw : ∀ a, w a → w' a) :
    HKept H H' w' :=
  { h with caches := fun a l hn => h.caches a l fun h' => hn (hw a h') }

theorem kept_app {α : Type} {t t' : List α} (h : ∀ (a : Nat) l, t[a]? = some l → t'[a]? = some l) (x : List α) :
    ∀ (a : Nat) l, t[a]? = some l → (t' ++ x)[a]? = some l := by
  intro a l hl
  have := h a l hl
  rw [List.getElem?_append_left (List.getElem?_eq_some_iff.1 this).1, this]

theorem kept_set {α : Type} {t t' : List α} (h : ∀ (a : Nat) l, t[a]? = some l → t'[a]? = some l) (i : Nat)
    (x : α) (hi : t.length ≤ i) : ∀ (a : Nat) l, t[a]? = some l → (t'.set i x)[a]? = some l := by
  intro a l hl
  have h1 := (List.getElem?_eq_some_iff.1 hl).1
  rw [List.getElem?_set_ne (by omega)]
  exact h a l hl

theorem absSlot_ents {H H' : Heap} (h : ∀ (a : Nat) l, H.ents[a]? = some l → H'.ents[a]? = some l)
    (s : HSlot) (s' : Slot) (hs : absSlot H s = some s') : absSlot H' s = some s' := by
  cases s with
  | hole => exact hs
  | one a =>
    simp only [absSlot, Option.map_eq_some_iff] at hs ⊢
    obtain ⟨e, he, rfl⟩ := hs
    exact ⟨e, h a e he, rfl⟩
  | many l =>
    simp only [absSlot, Option.map_eq_some_iff, allSome_iff] at hs ⊢
    obtain ⟨e, he, rfl⟩ := hs
    exact ⟨e, map_keep h he, rfl⟩

theorem absSlot_kept {H H' : Heap} {w : Nat → Prop} (h : HKept H H' w) (s : HSlot) (s' : Slot)
    (hs : absSlot H s = some s') : absSlot H' s = some s' := absSlot_ents h.ents s s' hs

theorem absRev_kept {H H' : Heap} {w : Nat → Prop} (h : HKept H H' w) (a : Nat) (r : Rev)
    (hr : absRev H a = some r) : absRev H' a = some r := by
  simp only [absRev, Option.bind_eq_some_iff, allSome_iff] at hr ⊢
  obtain ⟨l, hl, hm⟩ := hr
  exact ⟨l, h.revs a l hl, map_keep (absSlot_kept h) hm⟩

theorem absCell_dicts {H H' : Heap}
    (h : ∀ (a : Nat) l, H.dicts[a]? = some l → H'.dicts[a]? = some l) (c : HCell) (o : Obj)
    (ho : absCell H c = some o) : absCell H' c = some o := by
  cases c with
  | val o => exact ho
  | dict a =>
    simp only [absCell, Option.map_eq_some_iff] at ho ⊢
    obtain ⟨e, he, rfl⟩ := ho
    exact ⟨e, h a e he, rfl⟩

theorem absCell_kept {H H' : Heap} {w : Nat → Prop} (h : HKept H H' w) (c : HCell) (o : Obj)
    (ho : absCell H c = some o) : absCell H' c = some o := absCell_dicts h.dicts c o ho

theorem absIndex_kept {H H' : Heap} {w : Nat → Prop} (h : HKept H H' w) (a : Nat) (r : List Rev)
    (hr : absIndex H a = some r) : absIndex H' a = some r := by
  simp only [absIndex, Option.bind_eq_some_iff, allSome_iff] at hr ⊢
  obtain ⟨l, hl, hm⟩ := hr
  exact ⟨l, h.outs a l hl, map_keep (absRev_kept h) hm⟩

theorem absCache_kept {H H' : Heap} {w : Nat → Prop} (h : HKept H H' w) (a : Nat) (hw : ¬ w a)
    (r : List Obj) (hr : absCache H a = some r) : absCache H' a = some r := by
  simp only [absCache, Option.bind_eq_some_iff, allSome_iff] at hr ⊢
  obtain ⟨l, hl, hm⟩ := hr
  exact ⟨l, h.caches a l hw hl, map_keep (absCell_kept h) hm⟩

theorem absData_kept {H H' : Heap} {w : Nat → Prop} (h : HKept H H' w) (a : Nat)
    (r : List Data) (hr : absData H a = some r) : absData H' a = some r := by
  simp only [absData, Option.bind_eq_some_iff, allSome_iff] at hr ⊢
  obtain ⟨l, hl, hm⟩ := hr
  exact ⟨l, h.datas a l hl, map_keep h.recs hm⟩

theorem abs_iff {H : Heap} {d : HDoc} {x : Doc} : abs H d = some x ↔
    absIndex H d.index = some (x.cur :: x.past) ∧ absCache H d.cache = some x.cache ∧
    absData H d.data = some (x.curData :: x.pastData) := by
  unfold abs
  split
  · rename_i cur past cache cd pd h1 h2 h3
    rw [h1, h2, h3]
    cases x
    simp only [Option.some.injEq, Doc.mk.injEq, List.cons.injEq]
    simp only [and_assoc]
  · rename_i hno
    simp only [reduceCtorEq, false_iff, not_and]
    intro h1 h2 h3
    exact hno _ _ _ _ _ h1 h2 h3

/-- A document none of whose cells is written keeps its content. -/
theorem abs_kept {H H' : Heap} {w : Nat → Prop} (h : HKept H H' w) {d : HDoc} (hw : ¬ w d.cache) {x : Doc}
    (hx : abs H d = some x) : abs H' d = some x := by
  rw [abs_iff] at hx ⊢
  exact ⟨absIndex_kept h _ _ hx.1, absCache_kept h _ hw _ hx.2.1, absData_kept h _ _ hx.2.2⟩

/-- The cells of a document. -/
structure HCells (H : Heap) (d : HDoc) (x : Doc) (r : Nat) (rs : List Nat) (cells : List HSlot)
    (cache : List HCell) (b : Nat) (bs : List Nat) : Prop where
  outs : H.outs[d.index]? = some (r :: rs)
  revs : H.revs[r]? = some cells
  slots : cells.map (absSlot H) = x.cur.map some
  past : rs.map (absRev H) = x.past.map some
  caches : H.caches[d.cache]? = some cache
  objs : cache.map (absCell H) = x.cache.map some
  datas : H.datas[d.data]? = some (b :: bs)
  record : H.recs[b]? = some x.curData
  records : bs.map (fun a => H.recs[a]?) = x.pastData.map some

theorem cells_of_abs {H : Heap} {d : HDoc} {x : Doc} (h : abs H d = some x) :
    ∃ r rs cells cache b bs, HCells H d x r rs cells cache b bs := by
  rw [abs_iff] at h
  obtain ⟨h1, h2, h3⟩ := h
  simp only [absIndex, absCache, absData, Option.bind_eq_some_iff, allSome_iff] at h1 h2 h3
  obtain ⟨l1, a1, b1⟩ := h1
  obtain ⟨l2, a2, b2⟩ := h2
  obtain ⟨l3, a3, b3⟩ := h3
  cases l1 with
  | nil => simp at b1
  | cons r rs =>
    cases l3 with
    | nil => simp at b3
    | cons b bs =>
      simp only [List.map_cons, List.cons.injEq] at b1 b3
      obtain ⟨b1, c1⟩ := b1
      simp only [absRev, Option.bind_eq_some_iff, allSome_iff] at b1
      obtain ⟨cells, b1, d1⟩ := b1
      exact ⟨r, rs, cells, l2, b, bs, a1, b1, d1, c1, a2, b2, a3, b3.1, b3.2⟩

theorem HCells.abs {H : Heap} {d : HDoc} {x : Doc} {r : Nat} {rs : List Nat} {cells : List HSlot}
    {cache : List HCell} {b : Nat} {bs : List Nat} (h : HCells H d x r rs cells cache b bs) :
    Pdf.abs H d = some x := by
  rw [abs_iff]
  simp only [absIndex, absCache, absData, Option.bind_eq_some_iff, allSome_iff]
  refine ⟨⟨_, h.outs, ?_⟩, ⟨_, h.caches, h.objs⟩, ⟨_, h.datas, ?_⟩⟩
  · simp only [List.map_cons, h.past, List.cons.injEq, and_true]
    simp only [absRev, Option.bind_eq_some_iff, allSome_iff]
    exact ⟨cells, h.revs, h.slots⟩
  · simp [h.records, h.record]

theorem HCells.rev {H : Heap} {d : HDoc} {x : Doc} {r : Nat} {rs : List Nat} {cells : List HSlot}
    {cache : List HCell} {b : Nat} {bs : List Nat} (h : HCells H d x r rs cells cache b bs) :
    absRev H r = some x.cur := by
  simp only [absRev, Option.bind_eq_some_iff, allSome_iff]
  exact ⟨cells, h.revs, h.slots⟩

theorem HCells.cacheVal {H : Heap} {d : HDoc} {x : Doc} {r : Nat} {rs : List Nat} {cells : List HSlot}
    {cache : List HCell} {b : Nat} {bs : List Nat} (h : HCells H d x r rs cells cache b bs) :
    absCache H d.cache = some x.cache := by
  simp only [absCache, Option.bind_eq_some_iff, allSome_iff]
  exact ⟨cache, h.caches, h.objs⟩

/-! ### New documents -/

/-- A document `nd` whose lists are new since `H0` (the lists `index`, `cache`, `data`, and the last
revision at `r`), and whose other cells come from `H0`; the caches at `w` excepted, nothing of `H0` has
been written. -/
structure HOwn (H0 H : Heap) (w : Nat → Prop) (nd : HDoc) (x : Doc) (r : Nat) (rs : List Nat)
    (cells : List HSlot) (cache : List HCell) (b : Nat) (bs : List Nat) : Prop where
  kept : HKept H0 H w
  fi : H0.outs.length ≤ nd.index
  fr : H0.revs.length ≤ r
  fc : H0.caches.length ≤ nd.cache
  fd : H0.datas.length ≤ nd.data
  outs : H.outs[nd.index]? = some (r :: rs)
  revs : H.revs[r]? = some cells
  slots : cells.map (absSlot H) = x.cur.map some
  past : rs.map (absRev H0) = x.past.map some
  caches : H.caches[nd.cache]? = some cache
  objs : cache.map (absCell H) = x.cache.map some
  datas : H.datas[nd.data]? = some (b :: bs)
  record : H.recs[b]? = some x.curData
  records : bs.map (fun a => H0.recs[a]?) = x.pastData.map some

theorem HOwn.cells {H0 H : Heap} {w : Nat → Prop} {nd : HDoc} {x : Doc} {r : Nat} {rs : List Nat}
    {cells : List HSlot} {cache : List HCell} {b : Nat} {bs : List Nat}
    (h : HOwn H0 H w nd x r rs cells cache b bs) : HCells H nd x r rs cells cache b bs :=
  { outs := h.outs, revs := h.revs, slots := h.slots, past := map_keep (absRev_kept h.kept) h.past,
    caches := h.caches, objs := h.objs, datas := h.datas, record := h.record,
    records := map_keep h.kept.recs h.records }

theorem lastRev_eq {H : Heap} {d : HDoc} {r : Nat} {rs : List Nat} (h : H.outs[d.index]? = some (r :: rs)) :
    lastRev H d = .ok (r, rs) := by
  rw [lastRev, h]

theorem lastData_eq {H : Heap} {d : HDoc} {r : Nat} {rs : List Nat} (h : H.datas[d.data]? = some (r :: rs)) :
    lastData H d = .ok (r, rs) := by
  rw [lastData, h]

theorem orRaise_some {α : Type} (e : PyErr) (a : α) : orRaise e (some a) = .ok a := rfl

theorem copySame_own {H : Heap} {d : HDoc} {x : Doc} {r : Nat} {rs : List Nat}
    {cells : List HSlot} {cache : List HCell} {b : Nat} {bs : List Nat}
    (h : HCells H d x r rs cells cache b bs) : ∃ nd H1, copySame H d = .ok (nd, H1) ∧
    HOwn H H1 (fun _ => False) nd x H.revs.length rs cells cache b bs ∧
    H1.ents = H.ents ∧ H1.dicts = H.dicts ∧ H1.recs = H.recs := by
  refine ⟨⟨H.outs.length, H.caches.length, H.datas.length⟩, { H with
        outs := H.outs ++ [H.revs.length :: rs]
        revs := H.revs ++ [cells]
        caches := H.caches ++ [cache]
        datas := H.datas ++ [b :: bs] }, ?_, ?_⟩
  · unfold copySame
    rw [lastRev_eq h.outs]
    simp only [h.revs, h.caches, h.datas, orRaise_some, Except.bind, bind]
  · refine ⟨?_, rfl, rfl, rfl⟩
    have hk : HKept H { H with
        outs := H.outs ++ [H.revs.length :: rs]
        revs := H.revs ++ [cells]
        caches := H.caches ++ [cache]
        datas := H.datas ++ [b :: bs] } (fun _ => False) :=
      ⟨kept_app (fun _ _ h => h) _, kept_app (fun _ _ h => h) _, fun _ _ h => h,
        fun a l _ => kept_app (fun _ _ h => h) _ a l, fun _ _ h => h, kept_app (fun _ _ h => h) _,
        fun _ _ h => h⟩
    exact { kept := hk, fi := Nat.le_refl _, fr := Nat.le_refl _, fc := Nat.le_refl _, fd := Nat.le_refl _,
            outs := by simp, revs := by simp, slots := map_keep (absSlot_kept hk) h.slots, past := h.past,
            caches := by simp, objs := map_keep (absCell_kept hk) h.objs, datas := by simp,
            record := h.record, records := h.records }

theorem HOwn.setRev {H0 H : Heap} {w : Nat → Prop} {nd : HDoc} {x : Doc} {r : Nat} {rs : List Nat}
    {cells : List HSlot} {cache : List HCell} {b : Nat} {bs : List Nat}
    (h : HOwn H0 H w nd x r rs cells cache b bs) (es : List Entry) (cells' : List HSlot) (cur' : Rev)
    (hs : cells'.map (absSlot { H with ents := H.ents ++ es }) = cur'.map some) :
    HOwn H0 { H with ents := H.ents ++ es, revs := H.revs.set r cells' } w nd { x with cur := cur' } r rs
      cells' cache b bs :=
  { h with
    kept := { h.kept with
      revs := kept_set h.kept.revs r cells' h.fr
      ents := kept_app h.kept.ents es }
    revs := by
      simp only [List.getElem?_set_self (List.getElem?_eq_some_iff.1 h.revs).1]
    slots := hs
    objs := h.objs }

theorem HOwn.setCache {H0 H : Heap} {w : Nat → Prop} {nd : HDoc} {x : Doc} {r : Nat} {rs : List Nat}
    {cells : List HSlot} {cache : List HCell} {b : Nat} {bs : List Nat}
    (h : HOwn H0 H w nd x r rs cells cache b bs) (ds : List Dict) (cache' : List HCell) (objs : List Obj)
    (hs : cache'.map (absCell { H with dicts := H.dicts ++ ds }) = objs.map some) :
    HOwn H0 { H with dicts := H.dicts ++ ds, caches := H.caches.set nd.cache cache' } w nd
      { x with cache := objs } r rs cells cache' b bs :=
  { h with
    kept := { h.kept with
      caches := fun a l hw hl => by
        have h1 := (List.getElem?_eq_some_iff.1 hl).1
        have h2 := h.fc
        rw [List.getElem?_set_ne (by omega)]
        exact h.kept.caches a l hw hl
      dicts := kept_app h.kept.dicts ds }
    caches := by
      simp only [List.getElem?_set_self (List.getElem?_eq_some_iff.1 h.caches).1]
    objs := hs
    slots := h.slots }

theorem mkCell_spec (H : Heap) (o : Obj) : ∃ ds, (mkCell H o).2 = { H with dicts := H.dicts ++ ds } ∧
    absCell { H with dicts := H.dicts ++ ds } (mkCell H o).1 = some o := by
  cases o with
  | dict d => exact ⟨[d], rfl, by simp [mkCell, absCell]⟩
  | _ => exact ⟨[], by simp [mkCell], rfl⟩

theorem putCache_own {H0 H : Heap} {w : Nat → Prop} {nd : HDoc} {x : Doc} {r : Nat} {rs : List Nat}
    {cells : List HSlot} {cache : List HCell} {b : Nat} {bs : List Nat}
    (h : HOwn H0 H w nd x r rs cells cache b bs) (n : Nat) (o : Obj) :
    (x.cache.length ≤ n ∧ putCache H nd n o = .error .indexError) ∨
    (n < x.cache.length ∧ ∃ H' cache', putCache H nd n o = .ok H' ∧
      HOwn H0 H' w nd { x with cache := x.cache.set n o } r rs cells cache' b bs) := by
  have hlen := map_some_length h.objs
  unfold putCache
  simp only [h.caches, orRaise_some, Except.bind, bind]
  by_cases hn : n < cache.length
  · right
    refine ⟨by omega, ?_⟩
    rw [if_pos hn]
    have key : ∀ (c : HCell) (H1 : Heap) (ds : List Dict), H1 = { H with dicts := H.dicts ++ ds } →
        absCell H1 c = some o → ∃ H' cache', (Except.ok { H1 with
          caches := H1.caches.set nd.cache (cache.set n c) } : Py Heap) = .ok H' ∧
        HOwn H0 H' w nd { x with cache := x.cache.set n o } r rs cells cache' b bs := by
      intro c H1 ds he hc
      subst he
      refine ⟨_, _, rfl, h.setCache ds (cache.set n c) (x.cache.set n o) ?_⟩
      rw [List.map_set, List.map_set, hc]
      congr 1
      exact map_keep (absCell_dicts (kept_app (fun _ _ h => h) ds)) h.objs
    by_cases h0 : n = 0
    · rw [if_pos h0]
      obtain ⟨ds, h1, h2⟩ := mkCell_spec H o
      exact key _ _ ds h1 (by rw [h1]; exact h2)
    · rw [if_neg h0]
      exact key _ _ [] (by simp) rfl
  · left
    rw [if_neg hn]
    exact ⟨by omega, rfl⟩

/-! ### Edits -/

/-- What an operation on the heap does, compared with the functional model: it raises the same exception,
or makes a document with the content computed by the functional model; nothing else is written than the
caches `w`, and the new document has a cache of its own unless it is the given one. -/
inductive HSim (H : Heap) (d : HDoc) (w : Nat → Prop) : Py (HDoc × Heap) → Py Doc → Prop
  | err (e : PyErr) : HSim H d w (.error e) (.error e)
  | ok (nd : HDoc) (H' : Heap) (y : Doc) : abs H' nd = some y → HKept H H' w →
    H.caches.length ≤ nd.cache ∨ (nd = d ∧ H' = H) → HSim H d w (.ok (nd, H')) (.ok y)

theorem hUpdate_sim {H : Heap} {d : HDoc} {x : Doc} (hx : abs H d = some x) (n : Nat) (o : Obj) :
    HSim H d (fun _ => False) (hUpdate H d n o) (updateObject x n o) := by
  obtain ⟨r, rs, cells, cache, b, bs, hc⟩ := cells_of_abs hx
  obtain ⟨nd, H1, h1, ho, he, -, -⟩ := copySame_own hc
  unfold hUpdate updateObject
  simp only [hx, orRaise_some, Except.bind, bind]
  cases hold : entryAt x.cur n with
  | error e => exact .err e
  | ok old =>
    simp only [h1, lastRev_eq ho.outs, ho.revs, orRaise_some]
    have ho2 := ho.setRev [newEntry old n x.past.length o] (cells.set n (.one H1.ents.length))
      (x.cur.set n (.one (newEntry old n x.past.length o))) (by
        rw [List.map_set, List.map_set]
        congr 1
        · exact map_keep (absSlot_ents (kept_app (fun _ _ h => h) _)) ho.slots
        · simp [absSlot])
    rcases putCache_own ho2 n o with ⟨hn, hp⟩ | ⟨hn, H', cache', hp, ho3⟩
    · rw [hp]
      have hn' : x.cache.length ≤ n := hn
      simp only [cacheAt, orRaise, List.getElem?_eq_none hn']
      exact .err _
    · rw [hp]
      have hn' : n < x.cache.length := hn
      simp only [cacheAt, orRaise, List.getElem?_eq_getElem hn']
      exact .ok _ _ _ ho3.cells.abs ho3.kept (.inl ho3.fc)

theorem hAdd_sim {H : Heap} {d : HDoc} {x : Doc} (hx : abs H d = some x) (o : Obj) :
    HSim H d (fun _ => False) (hAdd H d o) ((addObject x o).map Prod.fst) := by
  obtain ⟨r, rs, cells, cache, b, bs, hc⟩ := cells_of_abs hx
  obtain ⟨nd, H1, h1, ho, he, -, -⟩ := copySame_own hc
  unfold hAdd addObject
  simp only [hx, orRaise_some, Except.bind, bind]
  simp only [h1, lastRev_eq ho.outs, ho.revs, ho.caches, orRaise_some]
  have ho2 := ho.setRev [{ num := x.cur.length, docVer := x.past.length }] (cells ++ [.one H1.ents.length])
      (x.cur ++ [.one { num := x.cur.length, docVer := x.past.length }]) (by
        rw [List.map_append, List.map_append]
        congr 1
        · exact map_keep (absSlot_ents (kept_app (fun _ _ h => h) _)) ho.slots
        · simp [absSlot])
  have ho3 := ho2.setCache [] (cache ++ [.val .null]) (x.cache ++ [.null]) (by
        rw [List.map_append, List.map_append]
        congr 1
        exact map_keep (absCell_dicts (kept_app (fun _ _ h => h) _)) ho2.objs)
  rw [show H1.dicts = H1.dicts ++ [] by simp]
  rcases putCache_own ho3 x.cur.length o with ⟨hn, hp⟩ | ⟨hn, H', cache', hp, ho4⟩
  · simp only [List.append_nil] at hp ⊢
    rw [hp]
    have hn' : ¬ x.cur.length < (x.cache ++ [Obj.null]).length := Nat.not_lt.2 hn
    rw [if_neg hn']
    exact .err _
  · simp only [List.append_nil] at hp ⊢
    rw [hp]
    have hn' : x.cur.length < (x.cache ++ [Obj.null]).length := hn
    rw [if_pos hn']
    exact .ok _ _ _ ho4.cells.abs ho4.kept (.inl ho4.fc)

/-! ### Reads -/

theorem refill_spec (H : Heap) (old : List HCell) (os : List Obj) : ∃ ds,
    (refill H old os).2 = { H with dicts := H.dicts ++ ds } ∧
    (refill H old os).1.map (absCell { H with dicts := H.dicts ++ ds }) = os.map some := by
  have hv : ∀ (H : Heap) (os : List Obj), (os.map HCell.val).map (absCell H) = os.map some := by
    intro H os
    simp [absCell]
  cases os with
  | nil => exact ⟨[], by simp [refill], by simp [refill]⟩
  | cons o os =>
    obtain ⟨ds, h1, h2⟩ := mkCell_spec H o
    cases old with
    | nil =>
      refine ⟨ds, h1, ?_⟩
      simp only [refill, List.map_cons, hv, h2]
    | cons c old =>
      simp only [refill]
      split
      · rename_i hc
        refine ⟨[], by simp, ?_⟩
        simp only [List.append_nil, List.map_cons, hv, hc]
      · refine ⟨ds, h1, ?_⟩
        simp only [List.map_cons, hv, h2]

theorem fillCache_eq (H : Heap) (d : HDoc) (cache : List Obj) : ∃ ds cells,
    fillCache H d cache = { H with dicts := H.dicts ++ ds, caches := H.caches.set d.cache cells } ∧
    cells.map (absCell { H with dicts := H.dicts ++ ds }) = cache.map some := by
  obtain ⟨ds, h1, h2⟩ := refill_spec H ((H.caches[d.cache]?).getD []) cache
  exact ⟨ds, _, by simp only [fillCache, h1], h2⟩

theorem fillCache_kept (H : Heap) (d : HDoc) (cache : List Obj) :
    HKept H (fillCache H d cache) (fun a => a = d.cache) := by
  obtain ⟨ds, cells, h, -⟩ := fillCache_eq H d cache
  rw [h]
  exact ⟨fun _ _ h => h, fun _ _ h => h, fun _ _ h => h, fun a l hw hl => by
    rw [List.getElem?_set_ne (fun h => hw h.symm)]
    exact hl, kept_app (fun _ _ h => h) _, fun _ _ h => h, fun _ _ h => h⟩

theorem fillCache_abs {H : Heap} {d : HDoc} {x : Doc} (hx : abs H d = some x) (cache : List Obj) :
    abs (fillCache H d cache) d = some { x with cache := cache } := by
  have hk := fillCache_kept H d cache
  obtain ⟨ds, cells, h, h2⟩ := fillCache_eq H d cache
  obtain ⟨i1, i2, i3⟩ := abs_iff.1 hx
  refine abs_iff.2 ⟨absIndex_kept hk _ _ i1, ?_, absData_kept hk _ _ i3⟩
  simp only [absCache, Option.bind_eq_some_iff, allSome_iff] at i2 ⊢
  obtain ⟨l, hl, -⟩ := i2
  refine ⟨cells, ?_, ?_⟩
  · rw [h]
    simp only [List.getElem?_set_self (List.getElem?_eq_some_iff.1 hl).1]
  · rw [h]
    exact h2

/-! ### Commit -/

/-- A new document, with a new trailer dict (at `a`, of content `t`) and a new last record (at `b`). -/
structure HNext (H0 H : Heap) (w : Nat → Prop) (nd : HDoc) (x : Doc) (r : Nat) (rs : List Nat)
    (cells : List HSlot) (a : Nat) (t : Dict) (cs : List HCell) (os : List Obj) (b : Nat) (bs : List Nat) :
    Prop extends HOwn H0 H w nd x r rs cells (.dict a :: cs) b bs where
  fb : H0.recs.length ≤ b
  fa : H0.dicts.length ≤ a
  dict : H.dicts[a]? = some t
  xcache : x.cache = .dict t :: os
  tail : cs.map (absCell H0) = os.map some

theorem copyNext_next {H : Heap} {d : HDoc} {x : Doc} (hx : abs H d = some x) :
    (∃ e, copyNext H d = .error e ∧ cacheDict x.cache = .error e) ∨
    ∃ nd H1 t r rs cells a cs os b bs, copyNext H d = .ok (nd, H1) ∧ cacheDict x.cache = .ok t ∧
      HNext H H1 (fun _ => False) nd x r rs cells a t cs os b bs := by
  obtain ⟨r, rs, cells, cache, b, bs, hc⟩ := cells_of_abs hx
  obtain ⟨nd, H1, h1, ho, he, hd, hr⟩ := copySame_own hc
  unfold copyNext
  simp only [h1, ho.caches, orRaise_some, Except.bind, bind]
  have hobjs := ho.objs
  have hobjs0 := hc.objs
  cases cache with
  | nil =>
    left
    have : x.cache = [] := by
      cases hxc : x.cache with
      | nil => rfl
      | cons o os => rw [hxc] at hobjs; simp at hobjs
    simp [this, cacheDict, cacheAt, orRaise, Except.bind, bind]
  | cons c cs =>
    cases hxc : x.cache with
    | nil => rw [hxc] at hobjs; simp at hobjs
    | cons o os =>
      rw [hxc] at hobjs hobjs0
      simp only [List.map_cons, List.cons.injEq] at hobjs hobjs0
      simp only [hobjs.1, orRaise_some, cacheDict, cacheAt, List.getElem?_cons_zero, Except.bind, bind]
      cases o with
      | dict t =>
        right
        simp only [lastData_eq ho.datas, ho.record, orRaise_some, List.drop_succ_cons, List.drop_zero]
        refine ⟨nd, _, t, H.revs.length, rs, cells, H1.dicts.length, cs, os, H1.recs.length, bs, rfl, rfl, ?_⟩
        have hk : HKept H { H1 with
            dicts := H1.dicts ++ [t]
            caches := H1.caches.set nd.cache (.dict H1.dicts.length :: cs)
            recs := H1.recs ++ [x.curData]
            datas := H1.datas.set nd.data (H1.recs.length :: bs) } (fun _ => False) :=
          { ho.kept with
            caches := fun a l hw hl => by
              have h1 := (List.getElem?_eq_some_iff.1 hl).1
              have h2 := ho.fc
              rw [List.getElem?_set_ne (by omega)]
              exact ho.kept.caches a l hw hl
            dicts := kept_app ho.kept.dicts _
            recs := kept_app ho.kept.recs _
            datas := kept_set ho.kept.datas _ _ ho.fd }
        exact { ho with
          kept := hk
          caches := by simp only [List.getElem?_set_self (List.getElem?_eq_some_iff.1 ho.caches).1]
          objs := by
            rw [hxc]
            simp only [List.map_cons, List.cons.injEq]
            exact ⟨by simp [absCell], map_keep (absCell_kept hk) hobjs0.2⟩
          datas := by simp only [List.getElem?_set_self (List.getElem?_eq_some_iff.1 ho.datas).1]
          record := by simp
          slots := ho.slots
          fb := by simp [hr]
          fa := by simp [hd]
          dict := by simp
          xcache := hxc
          tail := hobjs0.2 }
      | _ => exact .inl ⟨_, rfl, rfl⟩

theorem HNext.onTrailer {H0 H : Heap} {w : Nat → Prop} {nd : HDoc} {x : Doc} {r : Nat} {rs : List Nat}
    {cells : List HSlot} {a : Nat} {t : Dict} {cs : List HCell} {os : List Obj} {b : Nat} {bs : List Nat}
    (h : HNext H0 H w nd x r rs cells a t cs os b bs) (f : Dict → Dict) : ∃ H',
    onTrailer H nd f = .ok H' ∧
    HNext H0 H' w nd { x with cache := .dict (f t) :: os } r rs cells a (f t) cs os b bs := by
  refine ⟨{ H with dicts := H.dicts.set a (f t) }, ?_, ?_⟩
  · simp only [Pdf.onTrailer, h.caches, h.dict, orRaise_some, Except.bind, bind]
  · have hk : HKept H0 { H with dicts := H.dicts.set a (f t) } w :=
      { h.kept with dicts := kept_set h.kept.dicts _ _ h.fa }
    have hd : (H.dicts.set a (f t))[a]? = some (f t) := by
      rw [List.getElem?_set_self (List.getElem?_eq_some_iff.1 h.dict).1]
    exact { h with
      kept := hk
      slots := h.slots
      objs := by
        simp only [List.map_cons, List.cons.injEq]
        exact ⟨by simp [absCell, hd], map_keep (absCell_kept hk) h.tail⟩
      dict := hd
      xcache := rfl }

theorem allocEntries_spec : ∀ (es : List Entry) (H : Heap), ∃ es',
    (allocEntries H es).2 = { H with ents := H.ents ++ es' } ∧
    (allocEntries H es).1.map (fun a => (H.ents ++ es')[a]?) = es.map some
  | [], H => ⟨[], by simp [allocEntries], rfl⟩
  | e :: es, H => by
    obtain ⟨es', h1, h2⟩ := allocEntries_spec es { H with ents := H.ents ++ [e] }
    refine ⟨e :: es', by simp [allocEntries, h1], ?_⟩
    simp only [allocEntries, List.map_cons, List.cons.injEq]
    refine ⟨by simp, ?_⟩
    rw [← h2]
    simp

theorem allocSlots_spec : ∀ (rev : Rev) (H : Heap), ∃ es,
    (allocSlots H rev).2 = { H with ents := H.ents ++ es } ∧
    (allocSlots H rev).1.map (absSlot { H with ents := H.ents ++ es }) = rev.map some
  | [], H => ⟨[], by simp [allocSlots], rfl⟩
  | .hole :: s, H => by
    obtain ⟨es', h1, h2⟩ := allocSlots_spec s H
    refine ⟨es', by simp [allocSlots, h1], ?_⟩
    simp only [allocSlots, List.map_cons, List.cons.injEq]
    exact ⟨rfl, h2⟩
  | .one e :: s, H => by
    obtain ⟨es', h1, h2⟩ := allocSlots_spec s { H with ents := H.ents ++ [e] }
    refine ⟨e :: es', by simp [allocSlots, h1], ?_⟩
    simp only [allocSlots, List.map_cons, List.cons.injEq]
    refine ⟨by simp [absSlot], ?_⟩
    rw [← h2]
    simp
  | .many l :: s, H => by
    obtain ⟨es1, h1, h2⟩ := allocEntries_spec l H
    obtain ⟨es', h3, h4⟩ := allocSlots_spec s { H with ents := H.ents ++ es1 }
    refine ⟨es1 ++ es', by simp [allocSlots, h1, h3], ?_⟩
    simp only [allocSlots, List.map_cons, List.cons.injEq, h1]
    refine ⟨?_, ?_⟩
    · simp only [absSlot, Option.map_eq_some_iff, Slot.many.injEq, exists_eq_right, allSome_iff]
      exact map_keep (fun a e he => by
        rw [← List.append_assoc]
        exact kept_app (fun _ _ h => h) es' a e he) h2
    · rw [← h4]
      simp

theorem buildRevision_cache [Zlib] {chg : List Change} {rev rev' : Rev} {cache cache' : List Obj}
    {p x : Nat} {new : Bytes} (h : buildRevision chg rev cache p x = .ok (new, rev', cache')) :
    ∃ t os, cache' = .dict t :: os := by
  have hd : ∀ (c : List Obj) (t : Dict), cacheDict c = .ok t → ∃ os, c = .dict t :: os := by
    intro c t h
    cases c with
    | nil => simp [cacheDict, cacheAt, orRaise, bind, Except.bind] at h
    | cons o os =>
      simp only [cacheDict, cacheAt, orRaise, List.getElem?_cons_zero, bind, Except.bind] at h
      cases o <;> simp at h
      subst h
      exact ⟨os, rfl⟩
  unfold buildRevision at h
  obtain ⟨⟨c1, x1⟩, h1, h⟩ := bind_eq_ok h
  obtain ⟨st, h2, h⟩ := bind_eq_ok h
  obtain ⟨⟨built, index, c2⟩, h3, h⟩ := bind_eq_ok h
  cases h
  split at h3
  · unfold writeTable at h3
    obtain ⟨t, h4, h3⟩ := bind_eq_ok h3
    obtain ⟨bu, h5, h3⟩ := bind_eq_ok h3
    obtain ⟨e, h6, h3⟩ := bind_eq_ok h3
    cases h3
    obtain ⟨os, rfl⟩ := hd _ _ h4
    exact ⟨t, os, rfl⟩
  · unfold writeStream at h3
    obtain ⟨t, h4, h3⟩ := bind_eq_ok h3
    obtain ⟨⟨bu, t'⟩, h5, h3⟩ := bind_eq_ok h3
    obtain ⟨_, h6, h3⟩ := bind_eq_ok h3
    obtain ⟨_, h7, h3⟩ := bind_eq_ok h3
    obtain ⟨_, h8, h3⟩ := bind_eq_ok h3
    obtain ⟨_, h9, h3⟩ := bind_eq_ok h3
    cases h3
    obtain ⟨os, rfl⟩ := hd _ _ h4
    exact ⟨t', os, rfl⟩

theorem map_val (H : Heap) (os : List Obj) : (os.map HCell.val).map (absCell H) = os.map some := by
  simp [absCell]

theorem HNext.built {H0 H : Heap} {w : Nat → Prop} {nd : HDoc} {x : Doc} {r : Nat} {rs : List Nat}
    {cells : List HSlot} {a : Nat} {t : Dict} {cs : List HCell} {os : List Obj} {b : Nat} {bs : List Nat}
    (h : HNext H0 H w nd x r rs cells a t cs os b bs) (new : Bytes) (fdata : Provider) (rev : Rev) (t' : Dict)
    (os' : List Obj) : ∃ H' r' cells', hBuilt H nd new fdata rev (.dict t' :: os') = .ok H' ∧
    HNext H0 H' w nd ⟨rev, x.past, .dict t' :: os', ⟨fdata, some new, x.curData.eofCut⟩, x.pastData⟩ r' rs
      cells' a t' (os'.map .val) os' b bs := by
  obtain ⟨es, h1, h2⟩ := allocSlots_spec rev H
  refine ⟨{ H with
    ents := H.ents ++ es
    dicts := H.dicts.set a t'
    caches := H.caches.set nd.cache (.dict a :: os'.map .val)
    recs := H.recs.set b ⟨fdata, some new, x.curData.eofCut⟩
    revs := H.revs ++ [(allocSlots H rev).1]
    outs := H.outs.set nd.index (H.revs.length :: rs) }, H.revs.length, (allocSlots H rev).1, ?_, ?_⟩
  · unfold hBuilt
    simp only [h1, hStoreCache, h.caches, lastData, h.datas, lastRev, h.outs, h.record, orRaise_some,
      Except.bind, bind]
  · have hk : HKept H0 { H with
        ents := H.ents ++ es
        dicts := H.dicts.set a t'
        caches := H.caches.set nd.cache (.dict a :: os'.map .val)
        recs := H.recs.set b ⟨fdata, some new, x.curData.eofCut⟩
        revs := H.revs ++ [(allocSlots H rev).1]
        outs := H.outs.set nd.index (H.revs.length :: rs) } w :=
      { h.kept with
        outs := kept_set h.kept.outs _ _ h.fi
        revs := kept_app h.kept.revs _
        ents := kept_app h.kept.ents _
        caches := fun a l hw hl => by
          have h1 := (List.getElem?_eq_some_iff.1 hl).1
          have h2 := h.fc
          rw [List.getElem?_set_ne (by omega)]
          exact h.kept.caches a l hw hl
        dicts := kept_set h.kept.dicts _ _ h.fa
        recs := kept_set h.kept.recs _ _ h.fb }
    have hd : (H.dicts.set a t')[a]? = some t' := by
      rw [List.getElem?_set_self (List.getElem?_eq_some_iff.1 h.dict).1]
    exact { h with
      kept := hk
      fr := by
        refine Nat.le_of_not_lt fun hlt => ?_
        have := (List.getElem?_eq_some_iff.1 (h.kept.revs _ _ (List.getElem?_eq_getElem hlt))).1
        omega
      outs := by simp only [List.getElem?_set_self (List.getElem?_eq_some_iff.1 h.outs).1]
      revs := by simp
      slots := by
        rw [← h2]
        exact List.map_congr_left fun s _ => rfl
      caches := by simp only [List.getElem?_set_self (List.getElem?_eq_some_iff.1 h.caches).1]
      objs := by
        simp only [List.map_cons, List.cons.injEq, map_val, and_true]
        simp [absCell, hd]
      record := by simp only [List.getElem?_set_self (List.getElem?_eq_some_iff.1 h.record).1]
      dict := hd
      xcache := rfl
      tail := map_val _ _ }

theorem HNext.filled {H0 H : Heap} {w : Nat → Prop} {nd : HDoc} {x : Doc} {r : Nat} {rs : List Nat}
    {cells : List HSlot} {a : Nat} {t : Dict} {cs : List HCell} {os : List Obj} {b : Nat} {bs : List Nat}
    (h : HNext H0 H w nd x r rs cells a t cs os b bs) (d : HDoc) (hw : w d.cache)
    (hd : d.cache < H0.caches.length) (cache : List Obj) :
    HNext H0 (fillCache H d cache) w nd x r rs cells a t cs os b bs := by
  obtain ⟨ds, cells', he, -⟩ := fillCache_eq H d cache
  have hk : HKept H (fillCache H d cache) w := (fillCache_kept H d cache).weaken fun a ha => ha ▸ hw
  have hk0 := h.kept.trans hk
  have hfc := h.fc
  exact { h with
    kept := hk0
    outs := hk.outs _ _ h.outs
    revs := hk.revs _ _ h.revs
    slots := map_keep (absSlot_kept hk) h.slots
    caches := by
      rw [he]
      simp only
      rw [List.getElem?_set_ne (by omega)]
      exact h.caches
    objs := map_keep (absCell_kept hk) h.objs
    datas := hk.datas _ _ h.datas
    record := hk.recs _ _ h.record
    dict := hk.dicts _ _ h.dict }

theorem HNext.next {H0 H : Heap} {w : Nat → Prop} {nd : HDoc} {x : Doc} {r : Nat} {rs : List Nat}
    {cells : List HSlot} {a : Nat} {t : Dict} {cs : List HCell} {os : List Obj} {b : Nat} {bs : List Nat}
    (h : HNext H0 H w nd x r rs cells a t cs os b bs) (d : HDoc) (e0 : Entry) :
    HSim H0 d w (hNext H nd e0) ((nextTrailer x.cur t).map fun d1 =>
      ⟨.one e0 :: x.cur.drop 1, x.cur :: x.past, .dict d1 :: os, { fdata := x.curData.fdata },
        x.curData :: x.pastData⟩) := by
  unfold hNext nextTrailer
  have hc := h.toHOwn.cells
  have hcd : cacheDict x.cache = .ok t := by
    rw [h.xcache]
    rfl
  simp only [lastData_eq h.datas, h.record, lastRev_eq h.outs, h.revs, hc.rev, hc.cacheVal, orRaise_some,
    Except.bind, bind, hcd]
  cases hp : prevEntry x.cur with
  | error e => exact .err e
  | ok e =>
    simp only [Pdf.onTrailer, h.caches, h.dict, orRaise_some, Except.bind, bind, pure, Except.pure, Except.map]
    have hk : HKept H0 { H with
        recs := H.recs ++ [{ fdata := x.curData.fdata }]
        datas := H.datas.set nd.data (H.recs.length :: b :: bs)
        ents := H.ents ++ [e0]
        revs := H.revs ++ [.one H.ents.length :: cells.drop 1]
        outs := H.outs.set nd.index (H.revs.length :: r :: rs)
        dicts := H.dicts.set a (Dict.del (Dict.set t b!"/Prev" (prevPos e)) b!"/XRefStm") } w :=
      { h.kept with
        outs := kept_set h.kept.outs _ _ h.fi
        revs := kept_app h.kept.revs _
        ents := kept_app h.kept.ents _
        dicts := kept_set h.kept.dicts _ _ h.fa
        datas := kept_set h.kept.datas _ _ h.fd
        recs := kept_app h.kept.recs _ }
    have hd : (H.dicts.set a (Dict.del (Dict.set t b!"/Prev" (prevPos e)) b!"/XRefStm"))[a]? =
        some (Dict.del (Dict.set t b!"/Prev" (prevPos e)) b!"/XRefStm") := by
      rw [List.getElem?_set_self (List.getElem?_eq_some_iff.1 h.dict).1]
    have hsl := map_keep (absSlot_ents (H := H) (H' := { H with
        recs := H.recs ++ [{ fdata := x.curData.fdata }]
        datas := H.datas.set nd.data (H.recs.length :: b :: bs)
        ents := H.ents ++ [e0]
        revs := H.revs ++ [.one H.ents.length :: cells.drop 1]
        outs := H.outs.set nd.index (H.revs.length :: r :: rs)
        dicts := H.dicts.set a (Dict.del (Dict.set t b!"/Prev" (prevPos e)) b!"/XRefStm") })
        (kept_app (fun _ _ h => h) _)) h.slots
    refine .ok _ _ _ ?_ hk (.inl h.fc)
    refine HCells.abs (r := H.revs.length) (rs := r :: rs) (cells := .one H.ents.length :: cells.drop 1)
      (cache := .dict a :: cs) (b := H.recs.length) (bs := b :: bs) ?_
    refine ⟨?_, ?_, ?_, ?_, ?_, ?_, ?_, ?_, ?_⟩
    · simp only [List.getElem?_set_self (List.getElem?_eq_some_iff.1 h.outs).1]
    · simp
    · simp only [List.map_cons, List.cons.injEq]
      refine ⟨by simp [absSlot], ?_⟩
      rw [List.map_drop, List.map_drop, hsl]
    · simp only [List.map_cons, List.cons.injEq]
      refine ⟨?_, map_keep (absRev_kept hk) h.past⟩
      simp only [absRev, Option.bind_eq_some_iff, allSome_iff]
      exact ⟨cells, kept_app (fun _ _ h => h) _ _ _ h.revs, hsl⟩
    · exact h.caches
    · simp only [List.map_cons, List.cons.injEq]
      exact ⟨by simp [absCell, hd], map_keep (absCell_kept hk) h.tail⟩
    · simp only [List.getElem?_set_self (List.getElem?_eq_some_iff.1 h.datas).1]
    · simp
    · simp only [List.map_cons, List.cons.injEq]
      exact ⟨kept_app (fun _ _ h => h) _ _ _ h.record, map_keep hk.recs h.records⟩

theorem HNext.fin {H0 H : Heap} {w : Nat → Prop} {nd : HDoc} {x : Doc} {r : Nat} {rs : List Nat}
    {cells : List HSlot} {a : Nat} {t : Dict} {cs : List HCell} {os : List Obj} {b : Nat} {bs : List Nat}
    (h : HNext H0 H w nd x r rs cells a t cs os b bs) (d : HDoc) (e0 : Entry) :
    HSim H0 d w (hNext H nd e0) (do
      let d0 ← cacheDict x.cache
      let d1 ← nextTrailer x.cur d0
      .ok ⟨.one e0 :: x.cur.drop 1, x.cur :: x.past, x.cache.set 0 (.dict d1),
        { fdata := x.curData.fdata }, x.curData :: x.pastData⟩) := by
  have := h.next d e0
  have hcd : cacheDict x.cache = .ok t := by
    rw [h.xcache]
    rfl
  simp only [hcd, bind, Except.bind]
  rw [h.xcache]
  cases hnt : nextTrailer x.cur t with
  | error e =>
    simp only [hnt, Except.map] at this
    exact this
  | ok d1 =>
    simp only [hnt, Except.map] at this
    exact this

theorem hCommit_sim [Zlib] {H : Heap} {d : HDoc} {x : Doc} (hx : abs H d = some x)
    (hn : firstXrefStreamNum x ≠ .ok (some (-1))) :
    HSim H d (fun a => a = d.cache) (hCommit H d) (commit x) := by
  have hdc : d.cache < H.caches.length := by
    obtain ⟨-, h, -⟩ := abs_iff.1 hx
    simp only [absCache, Option.bind_eq_some_iff] at h
    obtain ⟨l, hl, -⟩ := h
    exact (List.getElem?_eq_some_iff.1 hl).1
  unfold hCommit commit
  simp only [hx, orRaise_some, bind, Except.bind]
  split
  · exact .ok _ _ _ hx (HKept.refl _ _) (.inr ⟨rfl, rfl⟩)
  · rename_i hch
    unfold prepareCommit
    rcases copyNext_next hx with ⟨e, h1, h2⟩ | ⟨nd, H1, t, r, rs, cells, a, cs, os, b, bs, h1, h2, hN⟩
    · simp only [h1, h2, bind, Except.bind]
      exact .err e
    · simp only [h1, h2, bind, Except.bind]
      cases hf : firstXrefStreamNum x with
      | error e => exact .err e
      | ok xo =>
        simp only
        have hx1 : xo.getD 0 ≠ -1 := by
          intro h
          cases xo with
          | none => simp at h
          | some v =>
            simp at h
            exact hn (by rw [hf, h])
        have hxr : (∃ e, hXref H1 nd (x.past.length + 1) (xo.getD 0) = .error e ∧
              (if xo.getD 0 = 0 then Except.ok (x.cur, 0)
                else xrefStreamEntry x.cur (x.past.length + 1) (xo.getD 0) : Py (Rev × Nat)) = .error e) ∨
            ∃ n, hXref H1 nd (x.past.length + 1) (xo.getD 0) = .ok (n, H1) ∧
              (if xo.getD 0 = 0 then Except.ok (x.cur, 0)
                else xrefStreamEntry x.cur (x.past.length + 1) (xo.getD 0) : Py (Rev × Nat)) =
                .ok (x.cur, n) := by
          unfold hXref xrefStreamEntry
          simp only [if_neg hx1]
          split
          · exact .inr ⟨0, rfl, rfl⟩
          · split
            · exact .inl ⟨_, rfl, rfl⟩
            · exact .inr ⟨_, rfl, rfl⟩
        rcases hxr with ⟨e, h3, h4⟩ | ⟨n, h3, h4⟩
        · simp only [h3, h4]
          exact .err e
        · simp only [h3, h4, pure, Except.pure]
          obtain ⟨H2, h5, hN2⟩ := hN.onTrailer fun t =>
            Dict.set (if xo.getD 0 = 0 then t else delDecodeParms t) b!"/Size" (.int cells.length)
          unfold hSize
          simp only [lastRev_eq hN.outs, hN.revs, orRaise_some, bind, Except.bind, h5]
          have hlen : (cells.length : Int) = x.cur.length := by rw [map_some_length hN.slots]
          rw [hlen] at hN2
          generalize Dict.set (if xo.getD 0 = 0 then t else delDecodeParms t) b!"/Size" (.int x.cur.length)
            = t2 at hN2 ⊢
          have hset : x.cache.set 0 (.dict t2) = .dict t2 :: os := by
            rw [hN.xcache]
            rfl
          rw [hset]
          unfold hWrite writeRevision
          simp only [lastData_eq hN2.datas, lastRev_eq hN2.outs, hN2.record, hN2.toHOwn.cells.rev,
            hN2.toHOwn.cells.cacheVal, orRaise_some, bind, Except.bind]
          have hN3 : HNext H H2 (fun a => a = d.cache) nd { x with cache := .dict t2 :: os } r rs cells a t2
              cs os b bs :=
            { hN2 with kept := hN2.kept.weaken fun a h => h.elim
                       slots := hN2.slots, objs := hN2.objs }
          cases hcut : x.curData.eofCut with
          | some cut =>
            simp only
            exact hN3.fin d (nextIndex0 (x.past.length + 1) (xo.getD 0))
          | none =>
            simp only
            cases hpast : x.past with
            | nil =>
              simp only
              cases hv : version x with
              | error e => exact .err e
              | ok p =>
                simp only
                have hN4 := hN3.filled d rfl hdc p.2.cache
                cases hb : buildRevision (changes x) x.cur (.dict t2 :: os) (b!"%PDF-" ++ p.1).length n with
                | error e => exact .err e
                | ok q =>
                  obtain ⟨new, rev, cache⟩ := q
                  obtain ⟨t', os', rfl⟩ := buildRevision_cache hb
                  obtain ⟨H5, r5, cells5, h6, hN5⟩ := hN4.built (b!"%PDF-" ++ p.1 ++ new)
                    (.dummy (b!"%PDF-" ++ p.1 ++ new)) rev t' os'
                  simp only [h6]
                  have := hN5.fin d (nextIndex0 (x.past.length + 1) (xo.getD 0))
                  rw [hpast] at this
                  rw [hcut] at this
                  exact this
            | cons p0 ps =>
              simp only
              cases hv : revisionIndex x with
              | error e => exact .err e
              | ok idx =>
                simp only
                cases hb : buildRevision (changes x) x.cur (.dict t2 :: os) idx n with
                | error e => exact .err e
                | ok q =>
                  obtain ⟨new, rev, cache⟩ := q
                  obtain ⟨t', os', rfl⟩ := buildRevision_cache hb
                  obtain ⟨H5, r5, cells5, h6, hN5⟩ := hN3.built new (.merged x.curData.fdata idx new) rev t' os'
                  simp only [h6]
                  have := hN5.fin d (nextIndex0 (x.past.length + 1) (xo.getD 0))
                  rw [hpast] at this
                  rw [hcut] at this
                  exact this

end Pdf
