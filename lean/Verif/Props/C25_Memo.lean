/-
C25: memoisation is invisible.
-/
import Verif.Props.C53_Version
import Verif.Spec.Reads

namespace Pdf
open Spec

theorem growSet_eq {cache : List Obj} {n : Nat} (o : Obj) (h : n < cache.length) :
    growSet cache n o = cache.set n o := by
  unfold growSet
  rw [show n + 1 - cache.length = 0 by omega]
  simp

/-- The object stored for a number by a list of embedded objects. -/
def embObj (objs : List Embedded) (k : Nat) : Option Obj :=
  (objs.find? fun x => x.num = .int k).map (·.obj)

theorem storeAll_spec : ∀ (objs : List Embedded) (cache : List Obj),
    (objs.map (·.num)).Nodup →
    (∀ x ∈ objs, ∃ k : Nat, x.num = .int k ∧ k < cache.length) →
    ∃ cache', storeAll objs cache = .ok cache' ∧ cache'.length = cache.length ∧
      ∀ k, cache'[k]? = if k < cache.length then
        (match embObj objs k with | some o => some o | none => cache[k]?) else none
  | [], cache, _, _ => ⟨cache, rfl, rfl, fun k => by
      by_cases h : k < cache.length
      · simp [embObj, h]
      · simp [h]⟩
  | x :: objs, cache, hnd, h => by
    obtain ⟨k, hk, hlt⟩ := h x (by simp)
    rw [List.map_cons, List.nodup_cons] at hnd
    obtain ⟨cache', h1, h2, h3⟩ := storeAll_spec objs (cache.set k x.obj) hnd.2 (by
      intro y hy
      obtain ⟨k', q1, q2⟩ := h y (by simp [hy])
      exact ⟨k', q1, by simpa using q2⟩)
    refine ⟨cache', ?_, by simpa using h2, ?_⟩
    · unfold storeAll
      rw [hk]
      have : ¬ ((k : Int) < 0) := by omega
      simp only [if_neg this, Int.toNat_natCast]
      rw [growSet_eq _ hlt]
      exact h1
    · intro j
      rw [h3 j]
      simp only [List.length_set]
      split
      · by_cases hjk : j = k
        · subst hjk
          have hnone : embObj objs j = none := by
            unfold embObj
            rw [Option.map_eq_none_iff, List.find?_eq_none]
            intro y hy hyn
            apply hnd.1
            rw [hk]
            simp only [decide_eq_true_eq] at hyn
            rw [← hyn]
            exact List.mem_map_of_mem hy
          have hsome : embObj (x :: objs) j = some x.obj := by
            simp [embObj, hk]
          rw [hnone, hsome]
          simp only
          exact getElem?_set_eq' _ _ hlt
        · have : embObj (x :: objs) j = embObj objs j := by
            unfold embObj
            rw [List.find?_cons_of_neg]
            simp only [hk, decide_eq_true_eq]
            intro hh
            apply hjk
            have := Obj.int.inj hh
            omega
          rw [this]
          rw [getElem?_set_ne' _ _ (fun hh => hjk hh.symm)]
      · rfl

/-- A number whose cell is live and not cached is not affected by what is in the other cells of the
cache. -/
theorem view_num [Zlib] (d : Doc) (g : Int) (n : Nat) :
    view d (.ref g n) = (do
      let c ← memoize d.cur d.curData.fdata n d.cache
      cacheAt c n) := by
  unfold view getObject
  have : ¬ ((n : Int) < 0) := by omega
  simp only [if_neg this, Int.toNat_natCast]
  rcases memoize d.cur d.curData.fdata n d.cache with e | c
  · rfl
  · simp only [bind, Except.bind, pure, Except.pure]
    rcases cacheAt c n with e | o <;> rfl

/-- The value of a number that is live and not in the cache, according to the file. -/
def fileValue [Zlib] (rev : Rev) (fdata : Provider) (n : Nat) (slot : Slot) : Py Obj :=
  if n = 0 then do
    let obj ← mergeTrailers fdata slot.entries
    return .dict obj
  else do
    let e ← slot.entry
    match e.envNum with
    | none => parseIndirect fdata e
    | some container => do
      let ce ← entryAt rev container
      let stream ← parseIndirect fdata ce
      let objs ← parseObjectStream stream
      return (embObj objs n).getD .null

/-- What a number shows, when the object streams are coherent. -/
theorem view_spec [Zlib] {d : Doc} (hc : Coherent d) (g : Int) (n : Nat) :
    view d (.ref g n) = (do
      let slot ← slotAt d.cur n
      let del ← slot.isDeleted
      let c ← cacheAt d.cache n
      if del then return c
      if c ≠ .null then return c
      fileValue d.cur d.curData.fdata n slot) := by
  rw [view_num]
  unfold memoize
  rcases hs : slotAt d.cur n with e | slot
  · rfl
  simp only [bind, Except.bind]
  rcases hdel : slot.isDeleted with e | del
  · rfl
  simp only
  cases del with
  | true =>
    simp only [if_true, pure, Except.pure]
    rcases cacheAt d.cache n with e | c <;> rfl
  | false =>
    simp only [Bool.false_eq_true, if_false]
    rcases hca : cacheAt d.cache n with e | c
    · rfl
    simp only
    by_cases hcn : c = .null
    · subst hcn
      simp only [ne_eq, not_true_eq_false, if_false, fileValue]
      have hlt := lt_of_getElem? (cacheAt_ok hca)
      by_cases hn : n = 0
      · subst hn
        simp only [if_true, bind, Except.bind, pure, Except.pure]
        rcases mergeTrailers d.curData.fdata slot.entries with e | obj
        · rfl
        · exact cacheAt_eq (getElem?_set_eq' _ _ hlt)
      · simp only [if_neg hn, bind, Except.bind, pure, Except.pure]
        rcases hse : slot.entry with e | e
        · rfl
        simp only
        have hslot : slot = .one e := by
          cases slot <;> simp [Slot.entry] at hse
          rw [hse]
        subst hslot
        have hcell := slotAt_ok hs
        cases henv : e.envNum with
        | none =>
          simp only
          rcases parseIndirect d.curData.fdata e with x | obj
          · rfl
          · exact cacheAt_eq (getElem?_set_eq' _ _ hlt)
        | some c =>
          simp only
          rcases hce : entryAt d.cur c with x | ce
          · rfl
          simp only
          rcases hst : parseIndirect d.curData.fdata ce with x | stream
          · rfl
          simp only
          rcases hob : parseObjectStream stream with x | objs
          · rfl
          simp only
          have hdel' : e.deleted = false := by simpa [Slot.isDeleted] using hdel
          obtain ⟨c1, c2, c3, ⟨o, c4, c5⟩, c6, c7⟩ := hc n e c hn hcell hdel' henv (cacheAt_ok hca) ce stream objs
            (entryAt_ok hce) hst hob
          have hcl := lt_of_getElem? c4
          rw [growSet_eq _ hcl]
          obtain ⟨cache', s1, s2, s3⟩ := storeAll_spec objs (d.cache.set c stream) c6 (by
            intro x hx
            obtain ⟨k, e', o', q1, -, -, -, -, q2, -⟩ := c7 x hx
            exact ⟨k, q1, by simpa using lt_of_getElem? q2⟩)
          rw [s1]
          simp only
          apply cacheAt_eq
          rw [s3, if_pos (by simpa using hlt)]
          cases hemb : embObj objs n with
          | some o => rfl
          | none =>
            simp only [Option.getD_none]
            have hne : c ≠ n := by
              intro hh
              subst hh
              rw [entryAt_ok hce] at hcell
              simp only [Option.some.injEq, Slot.one.injEq] at hcell
              subst hcell
              rw [c2] at henv
              cases henv
            rw [getElem?_set_ne' _ _ hne]
            exact cacheAt_ok hca
    · simp [hcn, hca, pure, Except.pure]

/-- `d'` is `d` with more objects in its cache, all of them with the value they have in the file. -/
structure Filled [Zlib] (d d' : Doc) : Prop where
  eq : d' = { d with cache := d'.cache }
  len : d'.cache.length = d.cache.length
  val : ∀ (n : Nat) (o : Obj), d'.cache[n]? = some o → d.cache[n]? = some o ∨
    (d.cache[n]? = some .null ∧ ∃ slot, d.cur[n]? = some slot ∧ slot.isDeleted = .ok false ∧
      fileValue d.cur d.curData.fdata n slot = .ok o)

theorem embObj_mem {objs : List Embedded} {k : Nat} {o : Obj} (h : embObj objs k = some o) :
    ∃ x ∈ objs, x.num = .int k ∧ x.obj = o := by
  unfold embObj at h
  obtain ⟨x, hx, rfl⟩ := Option.map_eq_some_iff.1 h
  exact ⟨x, List.mem_of_find?_eq_some hx, by simpa using List.find?_some hx, rfl⟩

theorem embObj_of_mem {objs : List Embedded} (hnd : (objs.map (·.num)).Nodup) :
    ∀ x ∈ objs, ∀ k : Nat, x.num = .int k → embObj objs k = some x.obj := by
  induction objs with
  | nil => simp
  | cons y objs ih =>
    rw [List.map_cons, List.nodup_cons] at hnd
    intro x hx k hk
    rcases List.mem_cons.1 hx with rfl | hx
    · simp [embObj, hk]
    · have := ih hnd.2 x hx k hk
      unfold embObj at this ⊢
      rw [List.find?_cons_of_neg]
      · exact this
      · simp only [decide_eq_true_eq]
        intro hh
        apply hnd.1
        rw [hh, ← hk]
        exact List.mem_map_of_mem hx

/-- A successful read fills the cache with values from the file. -/
theorem getObject_filled [Zlib] {d d' : Doc} {r o : Obj} (hc : Coherent d)
    (h : getObject d r = .ok (o, d')) : Filled d d' := by
  unfold getObject at h
  split at h
  · rename_i g n
    split at h
    · cases h
    obtain ⟨cache', h1, h⟩ := bind_eq_ok h
    obtain ⟨o', h2, h⟩ := bind_eq_ok h
    simp only [pure, Except.pure, Except.ok.injEq, Prod.mk.injEq] at h
    obtain ⟨rfl, rfl⟩ := h
    generalize n.toNat = n at h1 h2
    suffices hs : cache'.length = d.cache.length ∧ ∀ (n : Nat) (o : Obj), cache'[n]? = some o →
        d.cache[n]? = some o ∨ (d.cache[n]? = some .null ∧ ∃ slot, d.cur[n]? = some slot ∧
          slot.isDeleted = .ok false ∧ fileValue d.cur d.curData.fdata n slot = .ok o) from
      ⟨rfl, hs.1, hs.2⟩
    have same : cache' = d.cache → cache'.length = d.cache.length ∧
        ∀ (n : Nat) (o : Obj), cache'[n]? = some o →
        d.cache[n]? = some o ∨ (d.cache[n]? = some .null ∧ ∃ slot, d.cur[n]? = some slot ∧
          slot.isDeleted = .ok false ∧ fileValue d.cur d.curData.fdata n slot = .ok o) := by
      rintro rfl
      exact ⟨rfl, fun n o h => .inl h⟩
    unfold memoize at h1
    obtain ⟨slot, k1, h1⟩ := bind_eq_ok h1
    obtain ⟨del, k2, h1⟩ := bind_eq_ok h1
    split at h1
    · exact same (by cases h1; rfl)
    rename_i hdel
    have hdel' : del = false := by simpa using hdel
    subst hdel'
    obtain ⟨c, k3, h1⟩ := bind_eq_ok h1
    split at h1
    · exact same (by cases h1; rfl)
    rename_i hcn
    have hcn' : c = .null := by simpa using hcn
    subst hcn'
    have hslot := slotAt_ok k1
    have hcache := cacheAt_ok k3
    have single : ∀ v, fileValue d.cur d.curData.fdata n slot = .ok v → cache' = d.cache.set n v →
        cache'.length = d.cache.length ∧ ∀ (m : Nat) (o : Obj), cache'[m]? = some o →
        d.cache[m]? = some o ∨ (d.cache[m]? = some .null ∧ ∃ slot, d.cur[m]? = some slot ∧
          slot.isDeleted = .ok false ∧ fileValue d.cur d.curData.fdata m slot = .ok o) := by
      rintro v hv rfl
      refine ⟨by simp, ?_⟩
      intro m o hm
      by_cases hmn : n = m
      · subst hmn
        rw [getElem?_set_eq' _ _ (lt_of_getElem? hcache)] at hm
        cases hm
        exact .inr ⟨hcache, slot, hslot, k2, hv⟩
      · rw [getElem?_set_ne' _ _ hmn] at hm
        exact .inl hm
    split at h1
    · rename_i hn
      obtain ⟨obj, k4, h1⟩ := bind_eq_ok h1
      simp only [pure, Except.pure, Except.ok.injEq] at h1
      refine single (.dict obj) ?_ h1.symm
      unfold fileValue
      rw [if_pos hn, k4]
      rfl
    · rename_i hn
      obtain ⟨e, k4, h1⟩ := bind_eq_ok h1
      split at h1
      · rename_i henv
        obtain ⟨obj, k5, h1⟩ := bind_eq_ok h1
        simp only [pure, Except.pure, Except.ok.injEq] at h1
        refine single obj ?_ h1.symm
        unfold fileValue
        rw [if_neg hn, k4]
        simp only [bind, Except.bind, henv]
        exact k5
      · rename_i container henv
        obtain ⟨ce, k5, h1⟩ := bind_eq_ok h1
        obtain ⟨stream, k6, h1⟩ := bind_eq_ok h1
        obtain ⟨objs, k7, h1⟩ := bind_eq_ok h1
        have hs1 : slot = .one e := by
          cases slot <;> simp [Slot.entry] at k4
          rw [k4]
        rw [hs1] at k2 hslot
        have hdel' : e.deleted = false := by simpa [Slot.isDeleted] using k2
        obtain ⟨c1, c2, c3, ⟨o, c4, c5⟩, c6, c7⟩ := hc n e container hn hslot hdel' henv hcache ce stream objs
          (entryAt_ok k5) k6 k7
        have hcl := lt_of_getElem? c4
        rw [growSet_eq _ hcl] at h1
        obtain ⟨cache'', s1, s2, s3⟩ := storeAll_spec objs (d.cache.set container stream) c6 (by
          intro x hx
          obtain ⟨k, e', o', q1, -, -, -, -, q2, -⟩ := c7 x hx
          exact ⟨k, q1, by simpa using lt_of_getElem? q2⟩)
        rw [s1] at h1
        cases h1
        refine ⟨by simpa using s2, ?_⟩
        intro m o hm
        rw [s3] at hm
        split at hm
        · cases hemb : embObj objs m with
          | some o' =>
            rw [hemb] at hm
            simp only [Option.some.injEq] at hm
            subst hm
            obtain ⟨x, hx, hx1, hx2⟩ := embObj_mem hemb
            obtain ⟨k, e', o'', q1, q2, q3, q4, q5, q6, q7⟩ := c7 x hx
            have hkm : k = m := by
              rw [q1] at hx1
              have := Obj.int.inj hx1
              omega
            subst hkm
            rcases q7 with q7 | q7
            · right
              refine ⟨by rw [q6, q7], .one e', q3, by simp [Slot.isDeleted, q4], ?_⟩
              unfold fileValue
              rw [if_neg q2]
              simp only [Slot.entry, bind, Except.bind, q5]
              rw [k5]
              simp only
              rw [k6]
              simp only
              rw [k7]
              simp [hemb, pure, Except.pure]
            · left
              rw [q6, q7, hx2]
          | none =>
            rw [hemb] at hm
            simp only at hm
            by_cases hmc : container = m
            · subst hmc
              rw [getElem?_set_eq' _ _ hcl] at hm
              cases hm
              rcases c5 with c5 | c5
              · right
                refine ⟨by rw [c4, c5], .one ce, entryAt_ok k5, by simp [Slot.isDeleted, c3], ?_⟩
                unfold fileValue
                rw [if_neg c1]
                simp only [Slot.entry, bind, Except.bind, c2]
                exact k6
              · left
                rw [c4, c5]
            · rw [getElem?_set_ne' _ _ hmc] at hm
              exact .inl hm
        · cases hm
  · cases h
    exact ⟨rfl, rfl, fun n o h => .inl h⟩

/-- Filling the cache keeps the streams coherent. -/
theorem filled_coherent [Zlib] {d d' : Doc} (hc : Coherent d) (hf : Filled d d') : Coherent d' := by
  have hcur : d'.cur = d.cur := by rw [hf.eq]
  have hdata : d'.curData = d.curData := by rw [hf.eq]
  intro n e c hn he hdel henv hnull ce stream objs hce hst hob
  rw [hcur] at he hce
  rw [hdata] at hst
  have hnull' : d.cache[n]? = some .null := by
    rcases hf.val n _ hnull with h | h
    · exact h
    · exact h.1
  obtain ⟨c1, c2, c3, ⟨o, c4, c5⟩, c6, c7⟩ := hc n e c hn he hdel henv hnull' ce stream objs hce hst hob
  have hlen := hf.len
  refine ⟨c1, c2, c3, ?_, c6, ?_⟩
  · have hcl := lt_of_getElem? c4
    refine ⟨d'.cache[c], List.getElem?_eq_getElem (by omega), ?_⟩
    rcases hf.val c _ (List.getElem?_eq_getElem (by omega)) with h | ⟨h, slot, h1, h2, h3⟩
    · rw [c4] at h
      cases h
      exact c5
    · rw [hce] at h1
      cases h1
      unfold fileValue at h3
      rw [if_neg c1] at h3
      simp only [Slot.entry, bind, Except.bind, c2] at h3
      rw [hst] at h3
      cases h3
      exact .inr rfl
  · intro x hx
    obtain ⟨k, e', o', q1, q2, q3, q4, q5, q6, q7⟩ := c7 x hx
    have hkl := lt_of_getElem? q6
    refine ⟨k, e', d'.cache[k], q1, q2, by rw [hcur]; exact q3, q4, q5,
      List.getElem?_eq_getElem (by omega), ?_⟩
    rcases hf.val k _ (List.getElem?_eq_getElem (by omega)) with h | ⟨h, slot, h1, h2, h3⟩
    · rw [q6] at h
      cases h
      exact q7
    · rw [q3] at h1
      cases h1
      unfold fileValue at h3
      rw [if_neg q2] at h3
      simp only [Slot.entry, bind, Except.bind, q5] at h3
      rw [entryAt_eq hce] at h3
      simp only at h3
      rw [hst] at h3
      simp only at h3
      rw [hob] at h3
      simp only [pure, Except.pure, Except.ok.injEq] at h3
      rw [embObj_of_mem c6 x hx k q1] at h3
      exact .inr h3.symm

/-- Filling the cache is not visible. -/
theorem filled_view [Zlib] {d d' : Doc} (hc : Coherent d) (hf : Filled d d') (r : Obj) :
    view d' r = view d r := by
  have hc' := filled_coherent hc hf
  cases r with
  | ref g n =>
    by_cases hneg : n < 0
    · unfold view getObject
      simp only [if_pos hneg]
      rfl
    · obtain ⟨n, rfl⟩ : ∃ m : Nat, n = m := ⟨n.toNat, by omega⟩
      rw [view_spec hc', view_spec hc]
      have hcur : d'.cur = d.cur := by rw [hf.eq]
      have hdata : d'.curData = d.curData := by rw [hf.eq]
      rw [hcur, hdata]
      rcases hs : slotAt d.cur n with e | slot
      · rfl
      simp only [bind, Except.bind]
      rcases hdel : slot.isDeleted with e | del
      · rfl
      simp only
      have hlen := hf.len
      by_cases hl : n < d.cache.length
      · have h1 : d'.cache[n]? = some d'.cache[n] := List.getElem?_eq_getElem (by omega)
        have h2 : d.cache[n]? = some d.cache[n] := List.getElem?_eq_getElem hl
        rw [cacheAt_eq h1, cacheAt_eq h2]
        simp only
        rcases hf.val n _ h1 with h | ⟨h, slot', g1, g2, g3⟩
        · rw [h2] at h
          simp only [Option.some.injEq] at h
          rw [h]
        · rw [slotAt_ok hs] at g1
          cases g1
          rw [hdel] at g2
          cases g2
          rw [h2] at h
          simp only [Option.some.injEq] at h
          rw [h]
          simp only [Bool.false_eq_true, if_false, ne_eq, not_true_eq_false]
          rw [g3]
          split
          · rfl
          · rfl
      · have h1 : cacheAt d'.cache n = .error .indexError := by
          simp [cacheAt, orRaise, List.getElem?_eq_none (show d'.cache.length ≤ n by omega)]
        have h2 : cacheAt d.cache n = .error .indexError := by
          simp [cacheAt, orRaise, List.getElem?_eq_none (show d.cache.length ≤ n by omega)]
        rw [h1, h2]
  | _ => rfl

/-- **C25, partial.** In a document whose object streams are coherent with its index (`Coherent`; in
particular in any document without object streams), whatever was read before, in whatever order and
however many times, `get_object` returns the same value, or raises the same exception.

Missing from the full claim: incoherent object streams, typically when an object of a stream has been
superseded by a later revision. There the code gives different answers: `C25_counterexample`. -/
theorem C25_reads_partial [Zlib] (d : Doc) (hc : Coherent d) (rs : List Obj) (r : Obj) :
    view (reads rs d) r = view d r := by
  induction rs generalizing d with
  | nil => rfl
  | cons s rs ih =>
    unfold reads
    split
    · rename_i o d' h
      have hf := getObject_filled hc h
      rw [ih d' (filled_coherent hc hf), filled_view hc hf]
    · exact ih d hc

/-- Documents without object streams are coherent. -/
theorem C25_no_object_stream [Zlib] (d : Doc)
    (h : ∀ (n : Nat) (e : Entry), d.cur[n]? = some (.one e) → e.envNum = none) : Coherent d := by
  intro n e c hn he hdel henv
  rw [h n e he] at henv
  cases henv

/-- An object stream (object 2) with the objects 3 and 4. -/
def memoFile : Bytes :=
  b!"%PDF-1.5\n2 0 obj\n<< /Type /ObjStm /N 2 /First 8 /Length 14 >>\nstream\n3 0 4 3 33 44 \nendstream\nendobj\n" ++
  b!"3 0 obj\n55\nendobj\n"

/-- A document in which 3 and 4 are in the stream. -/
def memoDoc : Doc :=
  { cur := [.one { num := 0 }, .one { num := 1 },
      .one { num := 2, absPos := some (.at 9), absNext := some 101 },
      .one { num := 3, envNum := some 2, absPos := some (.emb 9 0) },
      .one { num := 4, envNum := some 2, absPos := some (.emb 9 1) }]
    past := []
    cache := [.dict [], .int 1, .null, .null, .null]
    curData := { fdata := .dummy memoFile }
    pastData := [] }

/-- The stream of the sample. -/
def memoStream : Obj :=
  .stream [(b!"/Length", .int 14), (b!"/First", .int 8), (b!"/N", .int 2),
    (b!"/Type", .str b!"/ObjStm")] b!"3 0 4 3 33 44 " b!"3 0 4 3 33 44 "

/-- It is coherent: `C25_reads_partial` applies to documents with object streams. -/
example [Zlib] : Coherent memoDoc := by
  have h1 : parseIndirect (.dummy memoFile) { num := 2, absPos := some (.at 9), absNext := some 101 } =
    .ok memoStream := by kernel_rfl
  have h2 : parseObjectStream memoStream = .ok [⟨.int 3, .int 33, some 8, 8⟩,
    ⟨.int 4, .int 44, some 11, 11⟩] := by kernel_rfl
  intro n e c hn he hdel henv _ ce stream objs hce hst hob
  have hc2 : c = 2 := by
    rcases n with _ | _ | _ | _ | _ | n <;> simp [memoDoc] at he <;> subst he <;> simp_all
  subst hc2
  simp [memoDoc] at hce
  subst hce
  have hst' : parseIndirect (.dummy memoFile) { num := 2, absPos := some (.at 9), absNext := some 101 }
    = .ok stream := hst
  rw [h1] at hst'
  cases hst'
  rw [h2] at hob
  cases hob
  refine ⟨by decide, rfl, rfl, ⟨.null, rfl, .inl rfl⟩, by decide, ?_⟩
  intro x hx
  simp only [List.mem_cons, List.not_mem_nil, or_false] at hx
  rcases hx with rfl | rfl
  · exact ⟨3, _, .null, rfl, by decide, rfl, rfl, rfl, rfl, .inl rfl⟩
  · exact ⟨4, _, .null, rfl, by decide, rfl, rfl, rfl, rfl, .inl rfl⟩

/-- The same file, when a later revision has superseded object 3 with the one at the end. -/
def supersededDoc : Doc :=
  { memoDoc with cur := memoDoc.cur.set 3 (.one { num := 3, ver := 1, absPos := some (.at 101), absNext := some 119 }) }

/-- **C25 is false of the code.** Object 3 shows 55 (its last value) when it is read at once, but 33 (the
superseded value) once object 4, which is in the same object stream, has been read. -/
theorem C25_counterexample [Zlib] :
    view supersededDoc (.ref 0 3) = .ok (.int 55) ∧
    view (reads [.ref 0 4] supersededDoc) (.ref 0 3) = .ok (.int 33) ∧
    view (reads [.ref 0 3, .ref 0 4] supersededDoc) (.ref 0 3) = .ok (.int 33) := by
  refine ⟨by kernel_rfl, by kernel_rfl, by kernel_rfl⟩

end Pdf
