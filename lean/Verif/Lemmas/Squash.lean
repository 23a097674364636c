/-
`squash`: the loops on a document that may be squashed.
-/
import Verif.Model.Concat
import Verif.Lemmas.Renumber

namespace Pdf
open Spec

/-! ### The new index -/

/-- The reference of an entry. -/
def entryRef (e : Entry) : Ref := ((e.gen : Int), e.num)

theorem lookup_cons_ne {m : RefMap} {r a b : Ref} (h : r ≠ a) : List.lookup r ((a, b) :: m) = List.lookup r m := by
  have : (r == a) = false := by simpa using h
  simp only [List.lookup_cons, this]

/-- The entries that are kept, and where the mapping sends their references. -/
theorem defragLoop_spec : ∀ (ents : List Entry) (nb : Nat) (m0 : RefMap),
    ((ents.filter fun e => !e.deleted).map entryRef).Nodup →
    ∃ m, defragLoop (ents.map Slot.one) nb m0 = .ok ((ents.filter fun e => !e.deleted).map defragEntry, m) ∧
      (∀ r, r ∉ (ents.filter fun e => !e.deleted).map entryRef → List.lookup r m = List.lookup r m0) ∧
      ∀ k e, (ents.filter fun e => !e.deleted)[k]? = some e → List.lookup (entryRef e) m0 = none →
        m.apply (entryRef e) = (0, ((nb + k + 1 : Nat) : Int))
  | [], nb, m0, _ => ⟨m0, rfl, fun _ _ => rfl, fun k e h => by simp at h⟩
  | e :: ents, nb, m0, hnd => by
    by_cases hdel : e.deleted = true
    · have hf : (e :: ents).filter (fun e => !e.deleted) = ents.filter fun e => !e.deleted := by
        simp [hdel]
      rw [hf] at hnd ⊢
      obtain ⟨m, h1, h2, h3⟩ := defragLoop_spec ents nb m0 hnd
      refine ⟨m, ?_, h2, h3⟩
      rw [List.map_cons, defragLoop, if_pos hdel, h1]
    · have hf : (e :: ents).filter (fun e => !e.deleted) = e :: ents.filter fun e => !e.deleted := by
        simp [hdel]
      rw [hf] at hnd ⊢
      rw [List.map_cons, List.nodup_cons] at hnd
      have hs := defragLoop_spec ents (nb + 1)
        (mapRef (entryRef e) (0, ((nb + 1 : Nat) : Int)) m0) hnd.2
      obtain ⟨m, h1, h2, h3⟩ := hs
      refine ⟨m, ?_, ?_, ?_⟩
      · rw [List.map_cons, defragLoop, if_neg hdel]
        show (defragLoop (ents.map Slot.one) (nb + 1) (mapRef (entryRef e) (0, ((nb + 1 : Nat) : Int)) m0) >>= _) = _
        rw [h1]
        rfl
      · intro r hr
        rw [List.map_cons, List.mem_cons, not_or] at hr
        rw [h2 r hr.2]
        unfold mapRef
        split
        · rfl
        · exact lookup_cons_ne hr.1
      · intro k e' hk hm0
        cases k with
        | zero =>
          simp only [List.getElem?_cons_zero, Option.some.injEq] at hk
          subst hk
          unfold RefMap.apply
          rw [h2 _ hnd.1]
          unfold mapRef
          split
          · rename_i he
            rw [hm0]
            exact he
          · simp
        | succ k =>
          rw [List.getElem?_cons_succ] at hk
          have hne : entryRef e' ≠ entryRef e := by
            intro h
            apply hnd.1
            rw [← h]
            exact List.mem_map_of_mem (List.mem_of_getElem? hk)
          have := h3 k e' hk (by
            unfold mapRef
            split
            · exact hm0
            · rw [lookup_cons_ne hne]; exact hm0)
          rw [this]
          congr 2
          omega

/-! ### The new cache -/

/-- Reading a plain object fills its place in the cache. -/
theorem getObject_fills [Zlib] {d : Doc} {g : Int} {n : Nat} {e : Entry} {v : Obj} (hn : n ≠ 0)
    (he : d.cur[n]? = some (.one e)) (hdel : e.deleted = false) (henv : e.envNum = none)
    (hv : view d (.ref 0 n) = .ok v) :
    getObject d (.ref g n) = .ok (v, { d with cache := d.cache.set n v }) ∧ n < d.cache.length := by
  rw [view_num] at hv
  obtain ⟨c, hc, hv⟩ := bind_eq_ok hv
  have hcell := hc
  unfold memoize at hc
  rw [slotAt_eq he] at hc
  simp only [bind, Except.bind, Slot.isDeleted, hdel] at hc
  obtain ⟨o, ho, hc⟩ := bind_eq_ok (x := cacheAt d.cache n) hc
  have ho' := cacheAt_ok ho
  have hlt := lt_of_getElem? ho'
  refine ⟨?_, hlt⟩
  have hset : c = d.cache.set n v := by
    by_cases hnull : o = .null
    · subst hnull
      simp only [ne_eq, not_true_eq_false, if_false, if_neg hn, Slot.entry, henv] at hc
      obtain ⟨obj, hobj, hc⟩ := bind_eq_ok (x := parseIndirect d.curData.fdata e) hc
      cases hc
      have := cacheAt_ok hv
      rw [getElem?_set_eq' _ _ hlt] at this
      cases this
      rfl
    · simp only [ne_eq, hnull, not_false_eq_true, if_true] at hc
      cases hc
      have := cacheAt_ok hv
      rw [ho'] at this
      cases this
      apply List.ext_getElem?
      intro j
      by_cases hj : n = j
      · subst hj
        rw [getElem?_set_eq' _ _ hlt, ho']
      · rw [getElem?_set_ne' _ _ hj]
  unfold getObject
  have : ¬ ((n : Int) < 0) := by omega
  simp only [if_neg this, Int.toNat_natCast]
  rw [hcell]
  simp only [bind, Except.bind, hv, pure, Except.pure, ← hset]

/-- What a plain object shows only depends on its place in the cache. -/
theorem view_cache [Zlib] {d : Doc} {c : List Obj} {n : Nat} {e : Entry} (hn : n ≠ 0)
    (he : d.cur[n]? = some (.one e)) (henv : e.envNum = none) (hc : c[n]? = d.cache[n]?) :
    view { d with cache := c } (.ref 0 n) = view d (.ref 0 n) := by
  rw [view_num, view_num]
  unfold memoize
  have hca : cacheAt c n = cacheAt d.cache n := by unfold cacheAt; rw [hc]
  rw [slotAt_eq he]
  simp only [bind, Except.bind, Slot.isDeleted]
  by_cases hdel : e.deleted = true
  · simp only [hdel, if_true, pure, Except.pure, hca]
  · simp only [hdel, hca]
    rcases ho : cacheAt d.cache n with x | o
    · rfl
    · by_cases hnull : o = .null
      · subst hnull
        have hlt : n < d.cache.length := lt_of_getElem? (cacheAt_ok ho)
        have hlt' : n < c.length := by
          have := cacheAt_ok ho
          rw [← hc] at this
          exact lt_of_getElem? this
        simp only [ne_eq, not_true_eq_false, if_false, if_neg hn, Slot.entry, henv]
        rcases parseIndirect d.curData.fdata e with x | obj
        · rfl
        · simp only [pure, Except.pure]
          show cacheAt (c.set n obj) n = cacheAt (d.cache.set n obj) n
          rw [cacheAt_eq (getElem?_set_eq' _ _ hlt), cacheAt_eq (getElem?_set_eq' _ _ hlt')]
      · simp only [ne_eq, hnull, not_false_eq_true, if_true, pure, Except.pure]
        exact hca

/-- The objects that are copied in the new cache; the cache of the old document. -/
theorem squashLoop_spec [Zlib] (m : RefMap) (d : Doc) :
    ∀ (items : List (Entry × Nat × Obj)) (c : List Obj),
      (items.map fun i => i.2.1).Nodup →
      (∀ i ∈ items, i.2.1 ≠ 0 ∧ ∃ e, d.cur[i.2.1]? = some (.one e) ∧ e.deleted = false ∧ e.envNum = none ∧
        i.1.oldRef = some ((e.gen : Int), (i.2.1 : Int)) ∧ view d (.ref 0 i.2.1) = .ok i.2.2 ∧
        c[i.2.1]? = d.cache[i.2.1]?) →
      ∃ c', squashLoop m (items.map Prod.fst) { d with cache := c } =
          .ok (items.map (fun i => deepRefRetarget m i.2.2), { d with cache := c' }) ∧
        (∀ j, j ∉ items.map (fun i => i.2.1) → c'[j]? = c[j]?) ∧
        (∀ i ∈ items, ∀ t, i.2.2 = .dict t → c'[i.2.1]? = some (deepRefRetarget m (.dict t))) ∧
        ∀ i ∈ items, deepRefRetarget m i.2.2 = i.2.2 → c'[i.2.1]? = some i.2.2
  | [], c, _, _ => ⟨c, rfl, fun _ _ => rfl, fun i h => by simp at h, fun i h => by simp at h⟩
  | (e', n, v) :: items, c, hnd, h => by
    rw [List.map_cons, List.nodup_cons] at hnd
    obtain ⟨hn, e, h1, h2, h3, h4, h5, h6⟩ := h (e', n, v) (by simp)
    simp only at hn h1 h2 h3 h4 h5 h6
    have hview : view { d with cache := c } (.ref 0 n) = .ok v := by rw [view_cache hn h1 h3 h6, h5]
    obtain ⟨hg, hlt⟩ := getObject_fills (g := (e.gen : Int)) (d := { d with cache := c }) hn h1 h2 h3 hview
    simp only at hg hlt
    obtain ⟨c1, hc1, hlen, hother, hown, hsame⟩ : ∃ c1, renumberCache { d with cache := c.set n v }
        (.ref (e.gen : Int) (n : Int)) (deepRefRetarget m v) = { d with cache := c1 } ∧ c1.length = c.length ∧
        (∀ j, j ≠ n → c1[j]? = c[j]?) ∧ (∀ t, v = .dict t → c1[n]? = some (deepRefRetarget m (.dict t))) ∧
        (deepRefRetarget m v = v → c1[n]? = some v) := by
      have hbase : ∀ j, j ≠ n → (c.set n v)[j]? = c[j]? := fun j hj => getElem?_set_ne' _ _ (Ne.symm hj)
      have htwo : ∀ o j, j ≠ n → ((c.set n v).set n o)[j]? = c[j]? := fun o j hj => by
        rw [getElem?_set_ne' _ _ (Ne.symm hj)]; exact hbase j hj
      have hown : ∀ o, ((c.set n v).set n o)[n]? = some o := fun o =>
        getElem?_set_eq' _ _ (by simpa using hlt)
      have hone : (c.set n v)[n]? = some v := getElem?_set_eq' _ _ hlt
      cases v with
      | dict t =>
        exact ⟨(c.set n (.dict t)).set n (deepRefRetarget m (.dict t)), rfl, by simp, htwo _,
          fun t' ht => (by cases ht; exact hown _), fun hq => by rw [hown, hq]⟩
      | list l =>
        exact ⟨(c.set n (.list l)).set n (deepRefRetarget m (.list l)), rfl, by simp, htwo _,
          fun t' ht => (by cases ht), fun hq => by rw [hown, hq]⟩
      | ref a b =>
        refine ⟨c.set n (.ref a b), ?_, by simp, hbase, fun t' ht => (by cases ht), fun _ => hone⟩
        simp only [deepRefRetarget]
        split <;> rfl
      | _ => exact ⟨_, rfl, by simp, hbase, fun t' ht => (by cases ht), fun _ => hone⟩
    have hne : ∀ i ∈ items, i.2.1 ≠ n := fun i hi heq => hnd.1 (List.mem_map.2 ⟨i, hi, heq⟩)
    obtain ⟨c', q1, q2, q3, q4⟩ := squashLoop_spec m d items c1 hnd.2 (by
      intro i hi
      obtain ⟨hn', e1, k1, k2, k3, k4, k5, k6⟩ := h i (by simp [hi])
      exact ⟨hn', e1, k1, k2, k3, k4, k5, by rw [hother _ (hne i hi), k6]⟩)
    refine ⟨c', ?_, ?_, ?_, ?_⟩
    · rw [List.map_cons, squashLoop, h4]
      simp only [hg, bind, Except.bind, hc1, q1]
      rfl
    · intro j hj
      rw [List.map_cons, List.mem_cons, not_or] at hj
      rw [q2 j hj.2, hother j hj.1]
    · intro i hi t ht
      rcases List.mem_cons.1 hi with rfl | hi
      · rw [q2 n hnd.1]
        exact hown t ht
      · exact q3 i hi t ht
    · intro i hi hq
      rcases List.mem_cons.1 hi with rfl | hi
      · rw [q2 n hnd.1]
        exact hsame hq
      · exact q4 i hi hq

/-! ### The version, the lists of numbers -/

theorem view_cached [Zlib] {d : Doc} {n : Nat} {e : Slot} {v : Obj} (he : d.cur[n]? = some e)
    (hdel : e.isDeleted = .ok false) (hc : d.cache[n]? = some v) (hv : v ≠ .null) (g : Int) :
    view d (.ref g n) = .ok v := by
  rw [view_num]
  unfold memoize
  rw [slotAt_eq he]
  simp only [bind, Except.bind, hdel, cacheAt_eq hc, ne_eq, hv, not_false_eq_true, if_true]
  exact cacheAt_eq hc

/-- The version, from the one of the header and the catalog. -/
def versionFrom (v : Bytes) (cat : Dict) : Py Bytes :=
  match Dict.get? cat b!"/Version" with
  | some o => do
    let w ← versionOf o
    return if strLt v w then w else v
  | none => .ok v

theorem trailerOf_cached [Zlib] {d : Doc} {s : Slot} {t : Dict} (hs : d.cur[0]? = some s)
    (hdel : s.isDeleted = .ok false) (ht : d.cache[0]? = some (.dict t)) : trailerOf d = .ok (.dict t, d) := by
  unfold trailerOf getObject memoize
  have : ¬ ((0 : Int) < 0) := by omega
  simp only [if_neg this]
  rw [show (0 : Int).toNat = 0 from rfl, slotAt_eq hs]
  simp only [bind, Except.bind, hdel, cacheAt_eq ht, ne_eq, reduceCtorEq, not_false_eq_true, if_true]
  simp only [pure, Except.pure, if_false, cacheAt_eq ht]

theorem version_eq [Zlib] {d : Doc} {v : Bytes} {s : Slot} {t cat : Dict} {r : Obj} (hv : headerVersion d = .ok v)
    (hs : d.cur[0]? = some s) (hdel : s.isDeleted = .ok false) (ht : d.cache[0]? = some (.dict t))
    (hr : Dict.get? t b!"/Root" = some r) (hcat : view d r = .ok (.dict cat)) :
    (version d).map Prod.fst = versionFrom v cat := by
  rcases hg : getObject d r with e | ⟨o, d1⟩
  · unfold view at hcat
    rw [hg] at hcat
    cases hcat
  · unfold view at hcat
    rw [hg] at hcat
    cases hcat
    unfold version catalog versionFrom
    simp only [hv, trailerOf_cached hs hdel ht, getKey, hr, orRaise, hg, bind, Except.bind, pure, Except.pure]
    rcases Dict.get? cat b!"/Version" with _ | o
    · rfl
    · simp only
      rcases versionOf o with e | w
      · rfl
      · simp only
        split <;> rfl

/-- Reading the version does not change what the document shows. -/
theorem version_doc [Zlib] {d d1 : Doc} {s : Slot} {t : Dict} {w : Bytes} (hc : Coherent d)
    (hs : d.cur[0]? = some s) (hdel : s.isDeleted = .ok false) (ht : d.cache[0]? = some (.dict t))
    (h : version d = .ok (w, d1)) : storeOf d1 = storeOf d := by
  unfold version catalog at h
  rw [trailerOf_cached hs hdel ht] at h
  obtain ⟨v, -, h⟩ := bind_eq_ok h
  obtain ⟨⟨cat, r, d2⟩, h1, h⟩ := bind_eq_ok h
  obtain ⟨⟨t', d3⟩, h2, h1⟩ := bind_eq_ok h1
  cases h2
  obtain ⟨root, -, h1⟩ := bind_eq_ok h1
  obtain ⟨⟨cat', d4⟩, h3, h1⟩ := bind_eq_ok h1
  cases h1
  have hd : d1 = d2 := by
    cases cat with
    | dict c =>
      simp only at h
      split at h
      · obtain ⟨v', -, h⟩ := bind_eq_ok h
        split at h <;> · cases h; rfl
      · cases h; rfl
    | _ => cases h
  rw [hd]
  exact storeOf_filled hc (getObject_filled hc h3)

theorem all_one : ∀ (rev : Rev), (∀ n, n < rev.length → ∃ e, rev[n]? = some (.one e)) → ∃ ents : List Entry, rev = ents.map Slot.one
  | [], _ => ⟨[], rfl⟩
  | s :: rev, h => by
    obtain ⟨e, he⟩ := h 0 (by simp)
    obtain ⟨ents, hents⟩ := all_one rev fun n hn => by
      obtain ⟨e, he⟩ := h (n + 1) (by simpa using hn)
      exact ⟨e, by simpa using he⟩
    simp only [List.getElem?_cons_zero, Option.some.injEq] at he
    exact ⟨e :: ents, by rw [he, hents]; rfl⟩

theorem sorted_unique : ∀ {l l' : List Nat}, l.Pairwise (· < ·) → l'.Pairwise (· < ·) →
    (∀ n, n ∈ l ↔ n ∈ l') → l = l'
  | [], [], _, _, _ => rfl
  | [], b :: l', _, _, h => absurd ((h b).2 (by simp)) (by simp)
  | a :: l, [], _, _, h => absurd ((h a).1 (by simp)) (by simp)
  | a :: l, b :: l', h1, h2, h => by
    rw [List.pairwise_cons] at h1 h2
    have hab : a = b := by
      rcases List.mem_cons.1 ((h a).1 (by simp)) with k | k
      · exact k
      · rcases List.mem_cons.1 ((h b).2 (by simp)) with k' | k'
        · exact k'.symm
        · have := h1.1 b k'
          have := h2.1 a k
          omega
    subst hab
    have : l = l' := sorted_unique h1.2 h2.2 fun n => by
      constructor
      · intro hn
        rcases List.mem_cons.1 ((h n).1 (by simp [hn])) with k | k
        · subst k
          exact absurd (h1.1 _ hn) (by omega)
        · exact k
      · intro hn
        rcases List.mem_cons.1 ((h n).2 (by simp [hn])) with k | k
        · subst k
          exact absurd (h2.1 _ hn) (by omega)
        · exact k
    rw [this]

theorem retarget_ne_null {m : RefMap} {v : Obj} (h : v ≠ .null) : deepRefRetarget m v ≠ .null := by
  cases v with
  | null => exact absurd rfl h
  | ref g n =>
    simp only [deepRefRetarget]
    split <;> simp
  | _ => simp [deepRefRetarget]

theorem retargetEntries_get? (m : RefMap) (k : Bytes) : ∀ (d : List (Bytes × Obj)),
    Dict.get? (deepRefRetargetEntries m d) k = (Dict.get? d k).map (deepRefRetarget m)
  | [] => rfl
  | (k', v) :: d => by
    have ih := retargetEntries_get? m k d
    unfold Dict.get? at ih ⊢
    by_cases h : k = k'
    · simp [deepRefRetargetEntries, h]
    · have hb : (k == k') = false := by simpa using h
      simp only [deepRefRetargetEntries, List.lookup_cons, hb, ih]

theorem envelopeNums_none : ∀ (rev : Rev), (∀ s ∈ rev, ∃ e, s = .one e ∧ e.envNum = none) → envelopeNums rev = .ok []
  | [], _ => rfl
  | s :: rev, h => by
    obtain ⟨e, rfl, he⟩ := h s (by simp)
    unfold envelopeNums
    rw [envelopeNums_none rev fun s hs => h s (by simp [hs])]
    simp only [bind, Except.bind, he]

end Pdf
