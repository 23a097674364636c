/-
C53: update_version and version.
-/
import Verif.Lemmas.Commit
import Verif.Lemmas.KernelRfl
import Verif.Props.C21_Commit

namespace Pdf
open Spec

/-! ### The order on strings -/

theorem strLt_irrefl : ∀ a, strLt a a = false
  | [] => rfl
  | x :: a => by simp [strLt, strLt_irrefl a]

theorem strLt_trans : ∀ {a b c}, strLt a b = true → strLt b c = true → strLt a c = true
  | _, _, [], _, h2 => by unfold strLt at h2; simp at h2
  | _, [], _ :: _, h1, _ => by unfold strLt at h1; simp at h1
  | [], _ :: _, _ :: _, _, _ => rfl
  | x :: a, y :: b, z :: c, h1, h2 => by
    simp only [strLt, Bool.or_eq_true, decide_eq_true_eq, Bool.and_eq_true, beq_iff_eq] at h1 h2 ⊢
    rcases h1 with h1 | ⟨rfl, h1⟩
    · rcases h2 with h2 | ⟨rfl, h2⟩
      · exact .inl (UInt8.lt_trans h1 h2)
      · exact .inl h1
    · rcases h2 with h2 | ⟨rfl, h2⟩
      · exact .inl h2
      · exact .inr ⟨rfl, strLt_trans h1 h2⟩

theorem strLt_total : ∀ {a b}, strLt a b = false → strLt b a = false → a = b
  | [], [], _, _ => rfl
  | [], _ :: _, h, _ => by simp [strLt] at h
  | _ :: _, [], _, h => by simp [strLt] at h
  | x :: a, y :: b, h1, h2 => by
    simp only [strLt, Bool.or_eq_false_iff, decide_eq_false_iff_not, Bool.and_eq_false_imp,
      beq_iff_eq] at h1 h2
    have : x = y := UInt8.le_antisymm (UInt8.not_lt.1 h2.1) (UInt8.not_lt.1 h1.1)
    subst this
    rw [strLt_total (h1.2 rfl) (h2.2 rfl)]

/-- `x` is the greatest of a list of version strings. -/
def Spec.Greatest (x : Bytes) (l : List Bytes) : Prop :=
  x ∈ l ∧ ∀ y ∈ l, strLt x y = false

/-! ### Reading twice -/

theorem memoize_again [Zlib] {rev : Rev} {f : Provider} {k : Nat} {c c' : List Obj} {o : Obj}
    (h : memoize rev f k c = .ok c') (ho : c'[k]? = some o) (hn : o ≠ .null) :
    memoize rev f k c' = .ok c' := by
  unfold memoize at h
  obtain ⟨slot, h1, h⟩ := bind_eq_ok h
  obtain ⟨del, h2, h⟩ := bind_eq_ok h
  unfold memoize
  rw [h1]
  simp only [bind, Except.bind]
  rw [h2]
  cases del with
  | true => rfl
  | false =>
    simp only [Bool.false_eq_true, if_false]
    rw [cacheAt_eq ho]
    simp [hn, pure, Except.pure]

/-- Reading the same reference again gives the same object, and nothing more is memoised. -/
theorem getObject_again [Zlib] {d d1 : Doc} {r o : Obj} (h : getObject d r = .ok (o, d1))
    (hn : o ≠ .null) : getObject d1 r = .ok (o, d1) ∧ d1 = { d with cache := d1.cache } := by
  unfold getObject at h
  split at h
  · rename_i g n
    split at h
    · cases h
    · rename_i hneg
      obtain ⟨c, h1, h⟩ := bind_eq_ok h
      obtain ⟨o', h2, h⟩ := bind_eq_ok h
      simp only [pure, Except.pure, Except.ok.injEq, Prod.mk.injEq] at h
      obtain ⟨rfl, rfl⟩ := h
      refine ⟨?_, rfl⟩
      unfold getObject
      simp only [if_neg hneg]
      rw [memoize_again h1 (cacheAt_ok h2) hn]
      simp [bind, Except.bind, h2, pure, Except.pure]
  · rename_i hnr
    simp only [Except.ok.injEq, Prod.mk.injEq] at h
    obtain ⟨rfl, rfl⟩ := h
    refine ⟨?_, rfl⟩
    unfold getObject
    split
    · exact absurd rfl (hnr _ _)
    · rfl

theorem catalog_inv [Zlib] {d d1 : Doc} {cat root : Obj} (h : catalog d = .ok (cat, root, d1)) :
    ∃ t d0, getObject d (.ref 0 0) = .ok (.dict t, d0) ∧ Dict.get? t b!"/Root" = some root ∧
      getObject d0 root = .ok (cat, d1) := by
  unfold catalog trailerOf at h
  obtain ⟨⟨t, d0⟩, h1, h⟩ := bind_eq_ok h
  obtain ⟨root', h2, h⟩ := bind_eq_ok h
  obtain ⟨⟨cat', d1'⟩, h3, h⟩ := bind_eq_ok h
  simp only [pure, Except.pure, Except.ok.injEq, Prod.mk.injEq] at h
  obtain ⟨rfl, rfl, rfl⟩ := h
  unfold getKey at h2
  split at h2
  · rename_i t
    exact ⟨t, d0, h1, orRaise_eq_ok h2, h3⟩
  · cases h2
  · cases h2

theorem catalog_of [Zlib] {d d1 d2 : Doc} {t : Dict} {cat root : Obj}
    (h1 : getObject d (.ref 0 0) = .ok (.dict t, d1)) (h2 : Dict.get? t b!"/Root" = some root)
    (h3 : getObject d1 root = .ok (cat, d2)) : catalog d = .ok (cat, root, d2) := by
  unfold catalog trailerOf
  rw [h1]
  simp only [bind, Except.bind, getKey, h2, orRaise]
  rw [h3]
  rfl

/-- A cell of the current revision whose object is in the cache. -/
theorem getObject_cached [Zlib] {d : Doc} {g : Int} {n : Nat} {s : Slot} {b : Bool} {o : Obj}
    (h1 : d.cur[n]? = some s) (h2 : s.isDeleted = .ok b) (h3 : d.cache[n]? = some o)
    (hn : o ≠ .null) : getObject d (.ref g n) = .ok (o, d) := by
  unfold getObject
  have : ¬ ((n : Int) < 0) := by omega
  simp only [if_neg this, Int.toNat_natCast]
  unfold memoize
  rw [slotAt_eq h1]
  simp only [bind, Except.bind]
  rw [h2]
  cases b with
  | true => simp [pure, Except.pure, cacheAt_eq h3]
  | false => simp [pure, Except.pure, cacheAt_eq h3, hn]

theorem getObject_slot [Zlib] {d d1 : Doc} {g n : Int} {o : Obj}
    (h : getObject d (.ref g n) = .ok (o, d1)) :
    0 ≤ n ∧ ∃ s b, d.cur[n.toNat]? = some s ∧ s.isDeleted = .ok b ∧ d1.cache[n.toNat]? = some o := by
  unfold getObject at h
  simp only at h
  split at h
  · cases h
  · rename_i hneg
    obtain ⟨c, h1, h⟩ := bind_eq_ok h
    obtain ⟨o', h2, h⟩ := bind_eq_ok h
    simp only [pure, Except.pure, Except.ok.injEq, Prod.mk.injEq] at h
    obtain ⟨rfl, rfl⟩ := h
    unfold memoize at h1
    obtain ⟨slot, k1, h1⟩ := bind_eq_ok h1
    obtain ⟨del, k2, h1⟩ := bind_eq_ok h1
    exact ⟨by omega, slot, del, slotAt_ok k1, k2, cacheAt_ok h2⟩

theorem headerVersion_congr {d d' : Doc} (h1 : d'.curData = d.curData)
    (h2 : d'.pastData = d.pastData) : headerVersion d' = headerVersion d := by
  unfold headerVersion Doc.firstData
  rw [h1, h2]

/-! ### C53 -/

/-- The version of a document whose catalog is readable. -/
theorem version_of [Zlib] {d d1 : Doc} {hv : Bytes} {cat : Dict} {root : Obj}
    (h1 : headerVersion d = .ok hv) (h2 : catalog d = .ok (.dict cat, root, d1)) :
    version d = (match Dict.get? cat b!"/Version" with
      | some x => do
        let x ← versionOf x
        if strLt hv x then return (x, d1) else return (hv, d1)
      | none => return (hv, d1)) := by
  unfold version
  rw [h1]
  simp only [bind, Except.bind]
  rw [h2]
  rfl

/-- **C53.** Let `hv` be the version in the header of the file, `cat` the catalog and `root` its
reference. After `update_version(doc, v)`, the version is the greatest, in the order of Python
strings, of `hv`, of the `/Version` of the catalog (if it has one) and of `v`, and the other entries
of the catalog are unchanged.

`hkeep` says that reading the catalog leaves the trailer as it was. It holds unless the catalog is in
an object stream that also claims to contain object 0 (`C53_trailer_kept`). -/
theorem C53_version [Zlib] (d d1 d' : Doc) (v hv : Bytes) (cat : Dict) (root : Obj)
    (hh : headerVersion d = .ok hv) (hc : catalog d = .ok (.dict cat, root, d1))
    (hroot : ∀ g, root ≠ .ref g 0)
    (hkeep : ∃ t, d1.cache[0]? = some (.dict t) ∧ Dict.get? t b!"/Root" = some root)
    (hu : updateVersion d v = .ok d') :
    ∃ (x : Bytes) (d2 d3 : Doc) (cat' : Dict), version d' = .ok (x, d2) ∧
      Greatest x ([hv, v] ++ (match Dict.get? cat b!"/Version" with
        | some (.str s) => [s.drop 1]
        | _ => [])) ∧
      catalog d' = .ok (.dict cat', root, d3) ∧
      ∀ k, k ≠ b!"/Version" → Dict.get? cat' k = Dict.get? cat k := by
  obtain ⟨t0, d0, g1, g2, g3⟩ := catalog_inv hc
  obtain ⟨a1, a2⟩ := getObject_again g1 (by simp)
  obtain ⟨b1, b2⟩ := getObject_again g3 (by simp)
  obtain ⟨-, s0, bb, z1, z2, z3⟩ := getObject_slot g1
  have hcur0 : d0.cur = d.cur := by rw [a2]
  have hcur1 : d1.cur = d.cur := by rw [b2]; exact hcur0
  obtain ⟨t, ht, htr⟩ := hkeep
  have e1 : d1.curData = d.curData := by rw [b2, a2]
  have e2 : d1.pastData = d.pastData := by rw [b2, a2]
  have hh1 : headerVersion d1 = .ok hv := by rw [headerVersion_congr e1 e2, hh]
  have hcat1 : catalog d1 = .ok (.dict cat, root, d1) := by
    refine catalog_of (getObject_cached (n := 0) (by rw [hcur1]; exact z1) z2 ht (by simp)) htr ?_
    exact b1
  unfold updateVersion at hu
  rw [hc] at hu
  simp only [bind, Except.bind] at hu
  -- what an update does
  have upd : ∀ dd, (do let num ← refNum root
                       updateObject d1 num (.dict (Dict.set cat b!"/Version" (.str (47 :: v)))))
        = .ok dd →
      headerVersion dd = .ok hv ∧
      catalog dd = .ok (.dict (Dict.set cat b!"/Version" (.str (47 :: v))), root, dd) := by
    intro dd hdd
    obtain ⟨num, hnum, hdd⟩ := bind_eq_ok hdd
    unfold refNum at hnum
    split at hnum
    · rename_i g n
      split at hnum
      · cases hnum
      · rename_i hneg
        simp only [Except.ok.injEq] at hnum
        subst hnum
        have hn0 : n.toNat ≠ 0 := by
          intro h0
          have : n = 0 := by omega
          exact hroot g (by rw [this])
        obtain ⟨old, k1, k2, rfl⟩ := updateObject_inv hdd
        refine ⟨by rw [← hh1]; exact headerVersion_congr rfl rfl, ?_⟩
        refine catalog_of (t := t) (getObject_cached (n := 0) (s := s0) (b := bb) ?_ z2 ?_ (by simp))
          htr ?_
        · simp only
          rw [getElem?_set_ne' _ _ hn0, hcur1]
          exact z1
        · simp only
          rw [getElem?_set_ne' _ _ hn0]
          exact ht
        · have hnn : (n : Int) = ((n.toNat : Nat) : Int) := by omega
          rw [hnn]
          refine getObject_cached (getElem?_set_eq' _ _ (lt_of_getElem? k1)) rfl
            (getElem?_set_eq' _ _ k2) (by simp)
    · cases hnum
  -- the version after an update
  have fin : ∀ dd, headerVersion dd = .ok hv →
      catalog dd = .ok (.dict (Dict.set cat b!"/Version" (.str (47 :: v))), root, dd) →
      version dd = .ok (if strLt hv v then v else hv, dd) := by
    intro dd k1 k2
    rw [version_of k1 k2]
    simp only [Dict.get?_set, if_true, versionOf, bind, Except.bind, pure, Except.pure, List.drop_one,
      List.tail_cons]
    split <;> rfl
  have keep : ∀ k, k ≠ b!"/Version" →
      Dict.get? (Dict.set cat b!"/Version" (.str (47 :: v))) k = Dict.get? cat k := by
    intro k hk
    rw [Dict.get?_set, if_neg hk]
  have gr2 : Greatest (if strLt hv v then v else hv) [hv, v] := by
    split
    · rename_i hlt
      refine ⟨by simp, ?_⟩
      intro y hy
      simp only [List.mem_cons, List.not_mem_nil, or_false] at hy
      rcases hy with rfl | rfl
      · cases hq : strLt v y
        · rfl
        · have := strLt_trans hlt hq
          rw [strLt_irrefl] at this
          cases this
      · exact strLt_irrefl _
    · rename_i hlt
      refine ⟨by simp, ?_⟩
      intro y hy
      simp only [List.mem_cons, List.not_mem_nil, or_false] at hy
      rcases hy with rfl | rfl
      · exact strLt_irrefl _
      · simpa using hlt
  split at hu
  · -- the catalog has a version
    rename_i x hx
    rw [hx]
    obtain ⟨s, rfl⟩ : ∃ s, x = .str s := by
      cases x with
      | str s => exact ⟨s, rfl⟩
      | _ => simp [versionOf] at hu
    simp only [versionOf] at hu
    split at hu
    · rename_i hlt
      obtain ⟨k1, k2⟩ := upd d' hu
      refine ⟨_, _, _, _, fin d' k1 k2, ?_, k2, keep⟩
      simp only
      obtain ⟨m1, m2⟩ := gr2
      refine ⟨List.mem_append_left _ m1, ?_⟩
      intro y hy
      rcases List.mem_append.1 hy with hy | hy
      · exact m2 y hy
      · simp only [List.mem_cons, List.not_mem_nil, or_false] at hy
        subst hy
        cases hq : strLt (if strLt hv v then v else hv) (s.drop 1)
        · rfl
        · have := strLt_trans hq hlt
          rw [m2 v (by simp)] at this
          cases this
    · rename_i hlt
      simp only [pure, Except.pure, Except.ok.injEq] at hu
      subst hu
      have hver : version d1 = .ok (if strLt hv (s.drop 1) then s.drop 1 else hv, d1) := by
        rw [version_of hh1 hcat1, hx]
        simp only [versionOf, bind, Except.bind, pure, Except.pure]
        split <;> rfl
      refine ⟨_, _, _, _, hver, ?_, hcat1, fun _ _ => rfl⟩
      simp only
      have hvs : strLt (s.drop 1) v = false := by simpa using hlt
      split
      · rename_i hq
        refine ⟨by simp, ?_⟩
        intro y hy
        simp only [List.cons_append, List.nil_append, List.mem_cons, List.not_mem_nil, or_false] at hy
        rcases hy with rfl | rfl | rfl
        · cases hq' : strLt (s.drop 1) y
          · rfl
          · have := strLt_trans hq hq'
            rw [strLt_irrefl] at this
            cases this
        · exact hvs
        · exact strLt_irrefl _
      · rename_i hq
        refine ⟨by simp, ?_⟩
        intro y hy
        simp only [List.cons_append, List.nil_append, List.mem_cons, List.not_mem_nil, or_false] at hy
        rcases hy with rfl | rfl | rfl
        · exact strLt_irrefl _
        · cases hq' : strLt hv y
          · rfl
          · cases hq2 : strLt y (s.drop 1)
            · have := strLt_total hq2 hvs
              rw [this] at hq'
              exact absurd hq' hq
            · exact absurd (strLt_trans hq' hq2) hq
        · simpa using hq
  · rename_i hx
    rw [hx]
    obtain ⟨k1, k2⟩ := upd d' hu
    refine ⟨_, _, _, _, fin d' k1 k2, ?_, k2, keep⟩
    simpa using gr2

/-- The trailer is not affected by reading the catalog when the catalog is not in an object stream,
or is already in the cache. -/
theorem C53_trailer_kept [Zlib] (d d1 : Doc) (cat root : Obj) (g : Int) (n : Nat) (e : Entry)
    (hc : catalog d = .ok (cat, root, d1)) (hr : root = .ref g n) (hn : n ≠ 0)
    (he : d.cur[n]? = some (.one e)) (henv : e.envNum = none) :
    ∃ t, d1.cache[0]? = some (.dict t) ∧ Dict.get? t b!"/Root" = some root := by
  obtain ⟨t0, d0, g1, g2, g3⟩ := catalog_inv hc
  obtain ⟨-, a2⟩ := getObject_again g1 (by simp)
  obtain ⟨-, s0, bb, z1, z2, z3⟩ := getObject_slot g1
  refine ⟨t0, ?_, g2⟩
  subst hr
  have hcur0 : d0.cur = d.cur := by rw [a2]
  unfold getObject at g3
  have hneg : ¬ ((n : Int) < 0) := by omega
  simp only [if_neg hneg, Int.toNat_natCast] at g3
  obtain ⟨c, h1, h⟩ := bind_eq_ok g3
  obtain ⟨o', h2, h⟩ := bind_eq_ok h
  simp only [pure, Except.pure, Except.ok.injEq, Prod.mk.injEq] at h
  obtain ⟨rfl, rfl⟩ := h
  simp only
  unfold memoize at h1
  rw [hcur0, slotAt_eq he] at h1
  simp only [bind, Except.bind, Slot.isDeleted, Slot.entry, if_neg hn, henv, pure, Except.pure] at h1
  split at h1
  · simp only [Except.ok.injEq] at h1; rw [← h1]; exact z3
  · split at h1
    · cases h1
    · split at h1
      · simp only [Except.ok.injEq] at h1; rw [← h1]; exact z3
      · split at h1
        · cases h1
        · simp only [Except.ok.injEq] at h1
          rw [← h1, getElem?_set_ne' _ _ hn]
          exact z3

/-- A document whose header says 1.4, with a catalog at version 1.5 (which must be read from the
file). -/
def versionedDoc : Doc :=
  { cur := [.one { num := 0 }, .one { num := 1, absPos := some (.at 9), absNext := some 40 }]
    past := []
    cache := [.dict [(b!"/Root", .ref 0 1)], .null]
    curData := { fdata := .dummy b!"%PDF-1.4\n1 0 obj\n<< /Version /1.5 /A 7 >>\nendobj\n" }
    pastData := [] }

example [Zlib] : headerVersion versionedDoc = .ok b!"1.4" := by kernel_rfl
example [Zlib] : (catalog versionedDoc).map (fun x => (x.1, x.2.1)) =
    .ok (.dict [(b!"/A", .int 7), (b!"/Version", .str b!"/1.5")], .ref 0 1) := by kernel_rfl
example [Zlib] : ((updateVersion versionedDoc b!"1.7").bind version).map (·.1) = .ok b!"1.7" := by
  kernel_rfl
example [Zlib] : ((updateVersion versionedDoc b!"1.4").bind version).map (·.1) = .ok b!"1.5" := by
  kernel_rfl

end Pdf
