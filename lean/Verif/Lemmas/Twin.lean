/-
Two documents that differ by one object only, which both write in the same way (C108).
-/
import Verif.Lemmas.Emits
import Verif.Props.C57_Annot

namespace Pdf
open Spec

variable {α : Type}

/-- The document with another object in a cell of its cache. -/
def swapObj (n : Nat) (o : Obj) (d : Doc) : Doc := { d with cache := d.cache.set n o }

theorem cacheAt_set_ne {cache : List Obj} {n k : Nat} {o : Obj} (h : k ≠ n) : cacheAt (cache.set n o) k = cacheAt cache k := by
  unfold cacheAt
  rw [getElem?_set_ne' _ _ (Ne.symm h)]

theorem set_comm' {l : List Obj} {m n : Nat} {a b : Obj} (h : m ≠ n) : (l.set n a).set m b = (l.set m b).set n a :=
  (List.set_comm a b (Ne.symm h))

theorem memoize_swap [Zlib] {rev : Rev} {f : Provider} {key n : Nat} {o : Obj} {cache c : List Obj}
    (hemb : ∀ (k : Nat) (e : Entry), rev[k]? = some (.one e) → e.envNum = none) (hk : key ≠ n) (h : memoize rev f key cache = .ok c) :
    memoize rev f key (cache.set n o) = .ok (c.set n o) ∧ c[n]? = cache[n]? := by
  unfold memoize at h ⊢
  obtain ⟨slot, h1, h⟩ := bind_eq_ok h
  obtain ⟨del, h2, h⟩ := bind_eq_ok h
  rw [h1]
  simp only [bind, Except.bind, h2] at h ⊢
  cases del with
  | true => cases h; exact ⟨rfl, rfl⟩
  | false =>
    simp only [Bool.false_eq_true, if_false] at h ⊢
    rw [cacheAt_set_ne hk]
    rcases hc : cacheAt cache key with e | v
    · rw [hc] at h; cases h
    rw [hc] at h
    simp only at h ⊢
    split at h
    · rename_i hv
      rw [if_pos hv]
      cases h
      exact ⟨rfl, rfl⟩
    · rename_i hv
      rw [if_neg hv]
      split at h
      · rename_i h0
        rw [if_pos h0]
        rcases hm : mergeTrailers f slot.entries with e | t
        · rw [hm] at h; cases h
        rw [hm] at h
        cases h
        simp only [pure, Except.pure]
        exact ⟨by rw [set_comm' hk], getElem?_set_ne' _ _ hk⟩
      · rename_i h0
        rw [if_neg h0]
        rcases he : slot.entry with x | e
        · rw [he] at h; cases h
        rw [he] at h
        have hone : slot = .one e := by
          cases slot <;> simp only [Slot.entry] at he <;> cases he
          rfl
        have hs := slotAt_ok h1
        rw [hone] at hs
        have henv := hemb key e hs
        simp only [henv] at h ⊢
        rcases hp : parseIndirect f e with x | v
        · rw [hp] at h; cases h
        rw [hp] at h
        cases h
        simp only [pure, Except.pure]
        exact ⟨by rw [set_comm' hk], getElem?_set_ne' _ _ hk⟩

/-- The map without the value of one number. -/
def hideNum (n : Nat) (s : Store) : Store := { s with val := fun m => if m = n then .error .outside else s.val m }

theorem hide_get {n : Nat} {s : Store} {r v : Obj} (h : (hideNum n s).get r = .ok v) :
    s.get r = .ok v ∧ ∀ g m, r = .ref g m → m.toNat ≠ n := by
  cases r <;> simp only [Store.get, hideNum] at h ⊢
  case ref g m =>
    split at h
    · cases h
    rename_i hm
    split at h
    · cases h
    rename_i hne
    refine ⟨by rw [if_neg hm]; exact h, ?_⟩
    intro g' m' e
    cases e
    exact hne
  all_goals exact ⟨h, by simp⟩

theorem getObject_swap [Zlib] {d d1 : Doc} {n : Nat} {r o o' : Obj}
    (hemb : ∀ (k : Nat) (e : Entry), d.cur[k]? = some (.one e) → e.envNum = none) (hr : ∀ g m, r = .ref g m → m.toNat ≠ n)
    (hg : getObject d r = .ok (o, d1)) :
    getObject (swapObj n o' d) r = .ok (o, swapObj n o' d1) ∧ d1.cache[n]? = d.cache[n]? ∧ d1.cur = d.cur := by
  cases r <;> simp only [getObject] at hg ⊢
  case ref g m =>
    by_cases hm : m < 0
    · simp [hm, bind, Except.bind] at hg
    simp only [hm, if_false, bind, Except.bind, pure, Except.pure] at hg ⊢
    rcases hc : memoize d.cur d.curData.fdata m.toNat d.cache with e | c
    · rw [hc] at hg; cases hg
    rw [hc] at hg
    simp only at hg
    rcases hv : cacheAt c m.toNat with e | v
    · rw [hv] at hg; cases hg
    rw [hv] at hg
    cases hg
    obtain ⟨k1, k2⟩ := memoize_swap (o := o') hemb (hr g m rfl) hc
    refine ⟨?_, k2, rfl⟩
    simp only [swapObj] at k1 ⊢
    rw [k1]
    simp only
    rw [cacheAt_set_ne (hr g m rfl), hv]
  all_goals
    cases hg
    exact ⟨rfl, rfl, rfl⟩

/-- A program that does not read nor write an object runs in the same way when this object is another one. -/
theorem twin_run [Zlib] {x : Option Int} {n : Nat} (o' : Obj) : ∀ (p : Prog α) {d : Doc} {a : α} {s : Store}, Editable d x →
    n < d.cur.length → eval p (hideNum n (storeOf d)) = .ok (a, s) →
    ∃ d', p.run d = .ok (a, d') ∧ Editable d' x ∧ hideNum n (storeOf d') = s ∧ d'.cache[n]? = d.cache[n]? ∧ d.cur.length ≤ d'.cur.length ∧
      p.run (swapObj n o' d) = .ok (a, swapObj n o' d') := by
  intro p
  induction p with
  | ret a =>
    intro d a' s h _ he
    cases he
    exact ⟨d, rfl, h, rfl, rfl, Nat.le_refl _, rfl⟩
  | raise e => intro d a s h _ he; cases he
  | get r k ih =>
    intro d a s h hn he
    simp only [eval] at he
    obtain ⟨o, ho, he⟩ := bind_eq_ok he
    obtain ⟨ho, hr⟩ := hide_get ho
    obtain ⟨d1, r1, r2, r3, -⟩ := run_eval (.get r .ret) h (a := o) (s := storeOf d) (by simp [eval, ho, bind, Except.bind])
    simp only [Prog.run] at r1
    obtain ⟨⟨o1, d1'⟩, hg, r1⟩ := bind_eq_ok r1
    have r1 := Prod.mk.inj (Except.ok.inj r1)
    simp only at r1
    rw [r1.1, r1.2] at hg
    have hswap := getObject_swap (o' := o') h.good.noEmb hr hg
    rw [← r3] at he
    obtain ⟨d2, j1, j2, j3, j4, j5, j6⟩ := ih o r2 (by rw [hswap.2.2]; exact hn) he
    refine ⟨d2, ?_, j2, j3, by rw [j4, hswap.2.1], by rw [hswap.2.2] at j5; exact j5, ?_⟩
    · simp only [Prog.run, hg]; exact j1
    · simp only [Prog.run, hswap.1]; exact j6
  | set m o k ih =>
    intro d a s h hn he
    simp only [eval] at he
    split at he
    · cases he
    rename_i hm0
    obtain ⟨v, hv, he⟩ := bind_eq_ok he
    have hmn : m ≠ n := by
      rintro rfl
      simp [hideNum] at hv
    have hv' : (storeOf d).val m = .ok v := by simpa [hideNum, hmn] using hv
    obtain ⟨d1, r1, r2, r3, -⟩ := run_eval (.set m o (.ret ())) h (a := ()) (s := (storeOf d).set m o)
      (by simp [eval, hm0, hv', bind, Except.bind])
    simp only [Prog.run] at r1
    obtain ⟨d1', hg, r1⟩ := bind_eq_ok r1
    have r1 := Prod.mk.inj (Except.ok.inj r1)
    rw [r1.2] at hg
    obtain ⟨old, u1, u2, hd1⟩ := updateObject_inv hg
    have hswap : updateObject (swapObj n o' d) m o = .ok (swapObj n o' d1) := by
      unfold updateObject at hg ⊢
      simp only [swapObj]
      rw [cacheAt_set_ne hmn]
      obtain ⟨e, he1, hg⟩ := bind_eq_ok hg
      obtain ⟨c, hc1, hg⟩ := bind_eq_ok hg
      rw [he1, hc1]
      cases hg
      simp only [bind, Except.bind, pure, Except.pure]
      rw [set_comm' hmn]
    have hlen : d1.cur.length = d.cur.length := by rw [hd1]; simp
    have hcell : d1.cache[n]? = d.cache[n]? := by rw [hd1]; exact getElem?_set_ne' _ _ hmn
    have hst : (hideNum n (storeOf d)).set m o = hideNum n (storeOf d1) := by
      rw [r3]
      unfold hideNum Store.set
      congr 1
      funext q
      simp only
      by_cases hq : q = m
      · rw [if_pos hq, if_neg (by omega), if_pos hq]
      · rw [if_neg hq, if_neg hq]
    rw [hst] at he
    obtain ⟨d2, j1, j2, j3, j4, j5, j6⟩ := ih r2 (by rw [hlen]; exact hn) he
    refine ⟨d2, ?_, j2, j3, by rw [j4, hcell], by omega, ?_⟩
    · simp only [Prog.run, hg]; exact j1
    · simp only [Prog.run, hswap]; exact j6
  | add o k ih =>
    intro d a s h hn he
    simp only [eval] at he
    split at he
    · cases he
    rename_i ho
    obtain ⟨d1, r1, r2, r3, -⟩ := run_eval (.add o .ret) h (a := (storeOf d).next) (s := (storeOf d).add o)
      (by simp [eval, ho])
    simp only [Prog.run] at r1
    obtain ⟨⟨d1', n'⟩, hg, r1⟩ := bind_eq_ok r1
    have r1 := Prod.mk.inj (Except.ok.inj r1)
    simp only at r1
    rw [r1.1, r1.2] at hg
    have hnc : n < d.cache.length := by have := h.good.len; omega
    have hswap : addObject (swapObj n o' d) o = .ok (swapObj n o' d1, (storeOf d).next) ∧ d1.cache[n]? = d.cache[n]? ∧ d1.cur.length = d.cur.length + 1 := by
      unfold addObject at hg ⊢
      simp only [swapObj, List.length_append, List.length_set] at hg ⊢
      split at hg
      · rename_i hl
        rw [if_pos hl]
        have hg := Except.ok.inj hg
        have hg1 := (Prod.mk.inj hg).1
        have hg2 := (Prod.mk.inj hg).2
        rw [← hg1, ← hg2]
        have hne : d.cur.length ≠ n := by omega
        refine ⟨?_, ?_, by simp⟩
        · simp only
          rw [← List.set_append_left _ _ hnc, set_comm' hne]
        · simp only
          rw [getElem?_set_ne' _ _ hne, List.getElem?_append_left hnc]
      · cases hg
    have hst : (hideNum n (storeOf d)).add o = hideNum n (storeOf d1) := by
      rw [r3]
      unfold hideNum Store.add
      congr 1
      funext q
      simp only
      have hnx : (storeOf d).next = d.cur.length := rfl
      by_cases hq : q = (storeOf d).next
      · rw [if_pos hq, if_neg (by omega), if_pos hq]
      · rw [if_neg hq, if_neg hq]
    rw [hst] at he
    have he : eval (k (storeOf d).next) (hideNum n (storeOf d1)) = .ok (a, s) := he
    obtain ⟨d2, j1, j2, j3, j4, j5, j6⟩ := ih _ r2 (by rw [hswap.2.2]; omega) he
    refine ⟨d2, ?_, j2, j3, by rw [j4, hswap.2.1], by omega, ?_⟩
    · simp only [Prog.run, hg]; exact j1
    · simp only [Prog.run, hswap.1]; exact j6

/-! ### Writing -/

theorem cacheDict_swap {cache : List Obj} {n : Nat} {o' : Obj} (hn : 1 ≤ n) : cacheDict (cache.set n o') = cacheDict cache := by
  unfold cacheDict
  rw [cacheAt_set_ne (by omega)]

theorem entryAt_env {rev : Rev} (hemb : ∀ (k : Nat) (e : Entry), rev[k]? = some (.one e) → e.envNum = none) {k : Nat} {e : Entry}
    (h : entryAt rev k = .ok e) : e.envNum.getD 0 = 0 := by
  unfold entryAt at h
  obtain ⟨slot, h1, h⟩ := bind_eq_ok h
  have h1 := slotAt_ok h1
  cases slot <;> simp only [Slot.entry] at h <;> cases h
  rw [hemb k _ h1]
  rfl

theorem envPass_swap {rev : Rev} (hemb : ∀ (k : Nat) (e : Entry), rev[k]? = some (.one e) → e.envNum = none) : ∀ (l : List Change)
    {cache c : List Obj} {xref x : List XElem} (cache' : List Obj), envPass rev l cache xref = .ok (c, x) →
    c = cache ∧ envPass rev l cache' xref = .ok (cache', x)
  | [], cache, c, xref, x, cache', h => by
    cases h
    exact ⟨rfl, rfl⟩
  | ch :: cs, cache, c, xref, x, cache', h => by
    unfold envPass at h ⊢
    obtain ⟨e, h1, h⟩ := bind_eq_ok h
    have he := entryAt_env hemb h1
    rw [if_neg (fun k => k.2 he)] at h
    rw [h1]
    simp only [bind, Except.bind]
    rw [if_neg (fun k => k.2 he)]
    exact envPass_swap hemb cs cache' h

/-- Both objects are written in the same way. -/
structure Twins (o o' : Obj) : Prop where
  text : serialize 0 o' = serialize 0 o
  plain : isObjStm o = false
  plain' : isObjStm o' = false

theorem mainPass_swap [Zlib] {rev : Rev} {cache : List Obj} {n : Nat} {o o' : Obj} (ho : cache[n]? = some o) (ht : Twins o o') :
    ∀ (l : List Change) (st : Build), mainPass rev (cache.set n o') l st = mainPass rev cache l st
  | [], st => rfl
  | ch :: cs, st => by
    have ih := mainPass_swap (rev := rev) ho ht cs
    have hb : ∀ g, ((cacheAt (cache.set n o') ch.num).bind fun obj => (toWrite obj).bind fun obj => serializeFragment ch.num g obj) =
        ((cacheAt cache ch.num).bind fun obj => (toWrite obj).bind fun obj => serializeFragment ch.num g obj) := by
      intro g
      by_cases hn : ch.num = n
      · rw [hn, cacheAt_eq ho, cacheAt_eq (getElem?_set_eq' _ _ (lt_of_getElem? ho))]
        simp only [Except.bind, toWrite, ht.plain, ht.plain', Bool.false_eq_true, if_false, serializeFragment, ht.text]
      · rw [cacheAt_set_ne hn]
    unfold mainPass
    split
    · simp only [ih]
    · simp only [ih]
      rcases he : entryAt rev ch.num with x | e
      · rfl
      simp only [bind, Except.bind]
      split
      · have hb := hb e.gen
        simp only [Except.bind] at hb
        rcases h1 : cacheAt (cache.set n o') ch.num with x1 | v1 <;> rcases h2 : cacheAt cache ch.num with x2 | v2 <;>
          rw [h1, h2] at hb <;> simp only at hb ⊢
        · cases hb; rfl
        · rcases k2 : toWrite v2 with y | w <;> rw [k2] at hb <;> simp only at hb ⊢
          · cases hb; rfl
          · rw [← hb]
        · rcases k2 : toWrite v1 with y | w <;> rw [k2] at hb <;> simp only at hb ⊢
          · cases hb; rfl
          · rw [hb]
        · rcases k1 : toWrite v1 with y1 | w1 <;> rcases k2 : toWrite v2 with y2 | w2 <;> rw [k1, k2] at hb <;> simp only at hb ⊢
          · cases hb; rfl
          · rw [← hb]
          · rw [hb]
          · rw [hb]
      · rfl

theorem buildRevision_swap [Zlib] {rev : Rev} {cache : List Obj} {n : Nat} {o o' : Obj} (ho : cache[n]? = some o) (ht : Twins o o')
    (hn : 1 ≤ n) (hemb : ∀ (k : Nat) (e : Entry), rev[k]? = some (.one e) → e.envNum = none) {chg : List Change} {p xn : Nat} {b : Bytes}
    {idx : Rev} {c : List Obj} (h : buildRevision chg rev cache p xn = .ok (b, idx, c)) :
    buildRevision chg rev (cache.set n o') p xn = .ok (b, idx, c.set n o') := by
  unfold buildRevision at h ⊢
  simp only at h ⊢
  obtain ⟨⟨c1, x1⟩, h1, h0⟩ := bind_eq_ok h
  obtain ⟨hc1, k1⟩ := envPass_swap hemb _ (cache.set n o') h1
  rw [k1]
  obtain ⟨st, h2, h⟩ := bind_eq_ok h0
  simp only [hc1] at h2 h
  simp only [bind, Except.bind]
  rw [mainPass_swap ho ht, h2]
  simp only
  obtain ⟨⟨b3, i3, c3⟩, h3, h⟩ := bind_eq_ok h
  cases h
  split at h3
  · rename_i hx
    rw [if_pos hx]
    unfold writeTable at h3 ⊢
    rw [cacheDict_swap hn]
    obtain ⟨t, q1, h3⟩ := bind_eq_ok h3
    obtain ⟨bt, q2, h3⟩ := bind_eq_ok h3
    obtain ⟨e, q3, h3⟩ := bind_eq_ok h3
    cases h3
    simp only [q1, q2, q3, bind, Except.bind, pure, Except.pure]
  · rename_i hx
    rw [if_neg hx]
    unfold writeStream at h3 ⊢
    rw [cacheDict_swap hn]
    obtain ⟨t, q1, h3⟩ := bind_eq_ok h3
    obtain ⟨⟨bt, t2⟩, q2, h3⟩ := bind_eq_ok h3
    obtain ⟨e, q3, h3⟩ := bind_eq_ok h3
    obtain ⟨bl, q4, h3⟩ := bind_eq_ok h3
    obtain ⟨i5, q5, h3⟩ := bind_eq_ok h3
    obtain ⟨e6, q6, h3⟩ := bind_eq_ok h3
    cases h3
    simp only [q1, q2, q3, q4, q5, q6, bind, Except.bind, pure, Except.pure]
    rw [set_comm' (m := 0) (n := n) (by omega)]

theorem catalog_run [Zlib] (d : Doc) : catalog d = (catalogP.run d).map (fun r => (r.1.1, r.1.2, r.2)) := by
  unfold catalog catalogP trailerOf
  simp only [Prog.fetch, Prog.run, bind, Except.bind, Prog.bind]
  rcases getObject d (.ref 0 0) with e | ⟨t, d1⟩
  · rfl
  simp only [Prog.lift]
  rcases getKey t b!"/Root" with e | r
  · rfl
  simp only [Prog.run, Prog.bind, bind, Except.bind]
  rcases getObject d1 r with e | ⟨c, d2⟩ <;> rfl

theorem version_swap [Zlib] {d : Doc} {x : Option Int} (h : Editable d x) {n : Nat} (o' : Obj) (hlt : n < d.cur.length) {a : Obj × Obj} {s : Store}
    (hc : eval catalogP (hideNum n (storeOf d)) = .ok (a, s)) :
    (version (swapObj n o' d)).map Prod.fst = (version d).map Prod.fst := by
  obtain ⟨d', r1, -, -, -, -, r2⟩ := twin_run o' catalogP h hlt hc
  unfold version
  rw [catalog_run, catalog_run, r1, r2]
  have hh : headerVersion (swapObj n o' d) = headerVersion d := rfl
  rw [hh]
  rcases headerVersion d with e | ver
  · rfl
  simp only [bind, Except.bind, Except.map]
  cases a.1 <;> try rfl
  rename_i cat
  simp only
  rcases Dict.get? cat b!"/Version" with _ | v
  · rfl
  simp only
  rcases versionOf v with e | w
  · rfl
  simp only
  by_cases hv : strLt ver w = true
  · rw [if_pos hv, if_pos hv]; rfl
  · rw [if_neg hv, if_neg hv]; rfl

theorem commit_swap [Zlib] {d d2 : Doc} {x : Option Int} (h : Editable d x) {n : Nat} {o o' : Obj} (hn : 1 ≤ n) (hlt : n < d.cur.length)
    (ho : d.cache[n]? = some o) (ht : Twins o o') {a : Obj × Obj} {s : Store} (hc : eval catalogP (hideNum n (storeOf d)) = .ok (a, s))
    (hw : commit d = .ok d2) : commit (swapObj n o' d) = .ok (swapObj n o' d2) := by
  unfold commit at hw ⊢
  have hch : changes (swapObj n o' d) = changes d := rfl
  rw [hch]
  split at hw
  · rename_i hh
    rw [if_pos hh]
    cases hw
    rfl
  rename_i hh
  rw [if_neg hh]
  obtain ⟨p, p1, hw⟩ := bind_eq_ok hw
  have hp : prepareCommit (swapObj n o' d) = .ok { p with cache := p.cache.set n o' } ∧ p.cache[n]? = some o ∧
      ∀ (k : Nat) (e : Entry), p.cur[k]? = some (.one e) → e.envNum = none := by
    unfold prepareCommit at p1 ⊢
    have hd : cacheDict (swapObj n o' d).cache = cacheDict d.cache := cacheDict_swap hn
    have hf : firstXrefStreamNum (swapObj n o' d) = firstXrefStreamNum d := rfl
    rw [hd, hf]
    obtain ⟨d0, q1, p1⟩ := bind_eq_ok p1
    obtain ⟨y, q2, p1⟩ := bind_eq_ok p1
    obtain ⟨⟨cur, xn⟩, q3, p1⟩ := bind_eq_ok p1
    have hcur : cur = d.cur := by
      split at q3
      · cases q3; rfl
      · unfold xrefStreamEntry at q3
        have hy : y.getD 0 ≠ -1 := by
          have := h.good.first y q2
          have hx := h.good.xnum
          subst this
          cases y with
          | none => simp
          | some z => intro hz; exact hx (by simp only [Option.getD] at hz; rw [hz])
        rw [if_neg hy] at q3
        split at q3
        · cases q3
        · cases q3; rfl
    cases p1
    refine ⟨?_, ?_, by rw [hcur]; exact h.good.noEmb⟩
    · have q3' : (if y.getD 0 = 0 then Except.ok ((swapObj n o' d).cur, 0)
          else xrefStreamEntry (swapObj n o' d).cur ((swapObj n o' d).past.length + 1) (y.getD 0)) = .ok (cur, xn) := q3
      rw [q1, q2]
      simp only [bind, Except.bind]
      rw [q3']
      simp only [pure, Except.pure, swapObj]
      rw [set_comm' (m := 0) (n := n) (by omega)]
    · show (d.cache.set 0 _)[n]? = some o
      rw [getElem?_set_ne' _ _ (by omega)]
      exact ho
  obtain ⟨hp, hpo, hpe⟩ := hp
  rw [hp]
  obtain ⟨⟨cur, cache, data⟩, w1, hw⟩ := bind_eq_ok hw
  have hwr : writeRevision (swapObj n o' d) (changes d) { p with cache := p.cache.set n o' } = .ok (cur, cache.set n o', data) := by
    unfold writeRevision at w1 ⊢
    have e1 : (swapObj n o' d).curData = d.curData := rfl
    have e2 : (swapObj n o' d).past = d.past := rfl
    have e3 : revisionIndex (swapObj n o' d) = revisionIndex d := rfl
    rw [e1, e2, e3]
    rcases hcut : d.curData.eofCut with _ | cut
    · rw [hcut] at w1
      simp only at w1 ⊢
      rcases hpast : d.past with _ | ⟨rev, past⟩
      · rw [hpast] at w1
        simp only at w1 ⊢
        obtain ⟨⟨v, dv⟩, w2, w1⟩ := bind_eq_ok w1
        obtain ⟨⟨new, cu, ca⟩, w3, w1⟩ := bind_eq_ok w1
        cases w1
        have hv := version_swap h o' hlt hc
        rw [w2] at hv
        rcases hv2 : version (swapObj n o' d) with e | ⟨v2, dv2⟩
        · rw [hv2] at hv; cases hv
        rw [hv2] at hv
        simp only [Except.map] at hv
        cases hv
        simp only [bind, Except.bind]
        rw [buildRevision_swap hpo ht hn hpe w3]
      · rw [hpast] at w1
        simp only at w1 ⊢
        obtain ⟨i, w2, w1⟩ := bind_eq_ok w1
        obtain ⟨⟨new, cu, ca⟩, w3, w1⟩ := bind_eq_ok w1
        cases w1
        rw [w2]
        simp only [bind, Except.bind]
        rw [buildRevision_swap hpo ht hn hpe w3]
    · rw [hcut] at w1
      cases w1
      rfl
  simp only [bind, Except.bind]
  rw [hwr]
  obtain ⟨t0, w2, hw⟩ := bind_eq_ok hw
  obtain ⟨t1, w3, hw⟩ := bind_eq_ok hw
  cases hw
  simp only
  rw [cacheDict_swap hn, w2]
  simp only
  rw [w3]
  simp only [swapObj]
  rw [set_comm' (m := 0) (n := n) (by omega)]

theorem writeFile_swap [Zlib] {d d2 : Doc} {x : Option Int} {out : Bytes} (h : Editable d x) {n : Nat} {o o' : Obj} (hn : 1 ≤ n)
    (hlt : n < d.cur.length) (ho : d.cache[n]? = some o) (ht : Twins o o') {a : Obj × Obj} {s : Store}
    (hc : eval catalogP (hideNum n (storeOf d)) = .ok (a, s)) (hw : writeFile d = .ok (out, d2)) :
    writeFile (swapObj n o' d) = .ok (out, swapObj n o' d2) := by
  unfold writeFile at hw ⊢
  obtain ⟨d3, h1, hw⟩ := bind_eq_ok hw
  rw [commit_swap h hn hlt ho ht hc h1]
  simp only at hw
  have e1 : (swapObj n o' d3).past = d3.past := rfl
  have e2 : (swapObj n o' d3).data = d3.data := rfl
  have e3 : (swapObj n o' d3).firstData = d3.firstData := rfl
  simp only [bind, Except.bind] at hw ⊢
  rw [e1, e2, e3]
  rcases hl : leadingCuts (d3.data.take (d3.past.length + 1)) with ⟨m, cut⟩
  rw [hl] at hw
  simp only at hw ⊢
  cases cut with
  | none =>
    simp only at hw ⊢
    rcases ha : allFragments ((d3.data.drop m).take (d3.past.length + 1 - 1 - m)) with e | rest
    · rw [ha] at hw; cases hw
    rw [ha] at hw
    cases hw
    rfl
  | some cut =>
    simp only at hw ⊢
    rcases hr : d3.firstData.fdata.read 0 cut with e | ⟨b, a0, a1, a2⟩
    · rw [hr] at hw; cases hw
    rw [hr] at hw
    simp only at hw ⊢
    split at hw
    · cases hw
    rename_i ha0
    rw [if_neg ha0]
    split at hw
    · cases hw
    rename_i rest hrest
    cases hw
    rfl

end Pdf
