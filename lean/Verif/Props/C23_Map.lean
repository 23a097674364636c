/-
C23: a document behaves like a map from object numbers to objects.
-/
import Verif.Props.C25_Memo

namespace Pdf
open Spec

/-- The cells of two revisions for a number are the same, up to the positions. -/
def SameCell (a b : Option Slot) : Prop :=
  a = b ∨ ∃ e e', a = some (.one e) ∧ b = some (.one e') ∧ e'.deleted = e.deleted ∧
    e'.envNum = e.envNum ∧ e'.xrefStreamNum = e.xrefStreamNum

theorem SameCell.trans {a b c : Option Slot} (h1 : SameCell a b) (h2 : SameCell b c) :
    SameCell a c := by
  rcases h1 with rfl | ⟨e, e', rfl, rfl, h3, h4⟩
  · exact h2
  · rcases h2 with rfl | ⟨f, f', hf, rfl, h5, h6⟩
    · exact .inr ⟨e, e', rfl, rfl, h3, h4⟩
    · simp only [Option.some.injEq, Slot.one.injEq] at hf
      subst hf
      exact .inr ⟨e, f', rfl, rfl, by rw [h5, h3], by rw [h6.1, h4.1], by rw [h6.2, h4.2]⟩

theorem setAbs_cell {rev rev' : Rev} {n : Nat} {p q : Int} (h : setAbs rev n p q = .ok rev')
    (m : Nat) : SameCell rev[m]? rev'[m]? := by
  obtain ⟨e, h1, rfl⟩ := setAbs_ok h
  by_cases hm : n = m
  · subst hm
    right
    exact ⟨e, _, h1, getElem?_set_eq' _ _ (lt_of_getElem? h1), rfl, rfl, rfl⟩
  · left
    rw [getElem?_set_ne' _ _ hm]

theorem mainPass_cell [Zlib] (rev : Rev) (cache : List Obj) : ∀ (l : List Change) (st st' : Build),
    mainPass rev cache l st = .ok st' → st'.index.length = st.index.length ∧
    (∀ m : Nat, SameCell st.index[m]? st'.index[m]?) ∧
    ∀ m : Nat, (∀ c ∈ l, c.num ≠ m) → st'.index[m]? = st.index[m]?
  | [], st, st', h => by
    cases h
    exact ⟨rfl, fun m => .inl rfl, fun m _ => rfl⟩
  | c :: cs, st, st', h => by
    unfold mainPass at h
    split at h
    · obtain ⟨gen, h1, h⟩ := bind_eq_ok h
      obtain ⟨i1, i2, i3⟩ := mainPass_cell rev cache cs _ _ h
      exact ⟨i1, i2, fun m hm => i3 m fun c hc => hm c (by simp [hc])⟩
    · obtain ⟨e, h1, h⟩ := bind_eq_ok h
      split at h
      · obtain ⟨o1, h2, h⟩ := bind_eq_ok h
        obtain ⟨o2, h3, h⟩ := bind_eq_ok h
        obtain ⟨bl, h4, h⟩ := bind_eq_ok h
        obtain ⟨ix, h5, h⟩ := bind_eq_ok h
        obtain ⟨i1, i2, i3⟩ := mainPass_cell rev cache cs _ _ h
        obtain ⟨e1, -, k1⟩ := setAbs_ok h5
        refine ⟨?_, ?_, ?_⟩
        · rw [i1, k1]; simp
        · intro m
          exact (setAbs_cell h5 m).trans (i2 m)
        · intro m hm
          rw [i3 m fun c hc => hm c (by simp [hc])]
          simp only [k1]
          rw [getElem?_set_ne' _ _ (hm c (by simp))]
      · obtain ⟨i1, i2, i3⟩ := mainPass_cell rev cache cs _ _ h
        exact ⟨i1, i2, fun m hm => i3 m fun c hc => hm c (by simp [hc])⟩

theorem sameCell_set {rev : Rev} {n : Nat} {e e' : Entry} (h : rev[n]? = some (.one e))
    (h1 : e'.deleted = e.deleted) (h2 : e'.envNum = e.envNum)
    (h3 : e'.xrefStreamNum = e.xrefStreamNum) (m : Nat) :
    SameCell rev[m]? (rev.set n (.one e'))[m]? := by
  by_cases hm : n = m
  · subst hm
    exact .inr ⟨e, e', h, getElem?_set_eq' _ _ (lt_of_getElem? h), h1, h2, h3⟩
  · left
    rw [getElem?_set_ne' _ _ hm]

/-- What `build_revision_byte_stream` does to the index and the cache, when no object is embedded. -/
theorem buildRevision_cell [Zlib] {chg : List Change} {rev : Rev} {cache : List Obj}
    {start xnum : Nat} {out : Bytes} {idx : Rev} {cache' : List Obj}
    (hemb : ∀ (n : Nat) (e : Entry), rev[n]? = some (.one e) → e.envNum = none)
    (h : buildRevision chg rev cache start xnum = .ok (out, idx, cache')) :
    idx.length = rev.length ∧ cache'.length = cache.length ∧
    (∀ n, 1 ≤ n → cache'[n]? = cache[n]?) ∧
    (∀ n : Nat, SameCell rev[n]? idx[n]?) ∧
    ∀ n, 1 ≤ n → (xnum ≠ 0 → n ≠ xnum) → (∀ c ∈ chg, c.num ≠ n) → idx[n]? = rev[n]? := by
  have hne : ∀ n, ∀ c ∈ (⟨0, 0, .d⟩ :: chg : List Change), ∀ en, c.act ≠ .d →
      rev[c.num]? = some (.one en) → en.envNum.getD 0 = 0 ∨ en.envNum ≠ some n := by
    intro n c _ en _ hen
    left
    rw [hemb _ _ hen]
    rfl
  have hnum : ∀ n, 1 ≤ n → (∀ c ∈ chg, c.num ≠ n) →
      ∀ c ∈ (⟨0, 0, .d⟩ :: chg : List Change), c.num ≠ n := by
    intro n hn hc c hcm
    rcases List.mem_cons.1 hcm with rfl | hcm
    · simp only; omega
    · exact hc c hcm
  by_cases hx : xnum = 0
  · subst hx
    obtain ⟨xref, st, trailer, built, e0, k, h1, h2, h3, h4, h5, rfl, h6, rfl⟩ :=
      buildRevision_table_inv h
    obtain ⟨-, -, s1, -, s2⟩ := envPass_spec _ _ _ _ h1
    obtain ⟨m1, m2, m3⟩ := mainPass_cell _ _ _ _ _ h2
    refine ⟨by simpa using m1, s1, fun n _ => s2 n (hne n), ?_, ?_⟩
    · intro n
      refine (m2 n).trans ?_
      apply sameCell_set h5 <;> rfl
    · intro n hn _ hc
      rw [getElem?_set_ne' _ _ (by omega)]
      exact m3 n (hnum n hn hc)
  · obtain ⟨xref, st, trailer, trailer', built, e0, ex, block, cache1, h1, h2, h3, rfl, h4, h5, h6, h7,
      rfl, rfl⟩ := buildRevision_stream_inv hx h
    obtain ⟨-, -, s1, -, s2⟩ := envPass_spec _ _ _ _ h1
    obtain ⟨m1, m2, m3⟩ := mainPass_cell _ _ _ _ _ h2
    refine ⟨by simpa using m1, by simpa using s1, ?_, ?_, ?_⟩
    · intro n hn
      rw [getElem?_set_ne' _ _ (by omega)]
      exact s2 n (hne n)
    · intro n
      refine (m2 n).trans ((sameCell_set h6 (e' := { ex with absPos := some (.at st.counter), absNext := some (st.counter + block.length) }) rfl rfl rfl n).trans ?_)
      have h5' : (st.index.set xnum (.one { ex with absPos := some (.at st.counter), absNext := some (st.counter + block.length) }))[0]? = some (.one e0) := by
        rw [getElem?_set_ne' _ _ hx]
        exact h5
      apply sameCell_set h5' <;> rfl
    · intro n hn hxn hc
      rw [getElem?_set_ne' _ _ (by omega), getElem?_set_ne' _ _ (Ne.symm (hxn hx))]
      exact m3 n (hnum n hn hc)

/-- The invariant: no object stream, at least as many cells in the cache as in the index, `x` the number
of the xref stream (in a first revision that ends with one), and every live object that is not in the
cache is at a position of the file that later revisions do not reach, and is not pending. -/
structure Good (d : Doc) (x : Option Int) : Prop where
  len : d.cur.length ≤ d.cache.length
  noEmb : ∀ (n : Nat) (e : Entry), d.cur[n]? = some (.one e) → e.envNum = none
  first : ∀ y, firstXrefStreamNum d = .ok y → y = x
  xnum : x ≠ some (-1)
  stored : ∀ (n : Nat) (e : Entry), 1 ≤ n → x ≠ some (n : Int) → d.cur[n]? = some (.one e) →
    e.deleted = false → d.cache[n]? = some .null →
    ∃ p : Int, e.absPos = some (.at p) ∧ (∀ cut : Nat, d.curData.eofCut = some cut → p ≤ cut) ∧
      (d.curData.eofCut = none → (prevRev d)[n]? = d.cur[n]? ∧
        ∀ idx : Nat, revisionIndex d = .ok idx → p ≤ idx)

theorem Good.coherent [Zlib] {d : Doc} {x : Option Int} (h : Good d x) : Coherent d :=
  C25_no_object_stream d h.noEmb

theorem read_merged {fdata : Provider} {idx : Nat} {new : Bytes} {p l : Int} (h : p ≤ idx) :
    (Provider.merged fdata idx new).read p l = fdata.read p l := by
  rw [Provider.read, if_neg (by omega)]

theorem parseIndirect_merged [Zlib] {fdata : Provider} {idx : Nat} {new : Bytes} {p : Int}
    {e : Entry} (he : e.absPos = some (.at p)) (h : p ≤ idx) :
    parseIndirect (.merged fdata idx new) e = parseIndirect fdata e := by
  unfold parseIndirect readEntry
  simp only [he, bind, Except.bind]
  rcases orRaise PyErr.keyError e.absNext with x | next
  · rfl
  simp only [read_merged h]

/-- What a number shows only depends on its cell, the cache for it, and the bytes of the file. -/
theorem view_congr [Zlib] {d d' : Doc} {x x' : Option Int} (h : Good d x) (h' : Good d' x')
    {n : Nat} (hn : 1 ≤ n) (hcache : d'.cache[n]? = d.cache[n]?)
    (hcell : SameCell d.cur[n]? d'.cur[n]?)
    (hfile : ∀ e, d.cur[n]? = some (.one e) → e.deleted = false → d.cache[n]? = some .null →
      d'.cur[n]? = d.cur[n]? ∧
      parseIndirect d'.curData.fdata e = parseIndirect d.curData.fdata e) (g : Int) :
    view d' (.ref g n) = view d (.ref g n) := by
  rw [view_spec h'.coherent, view_spec h.coherent]
  have hca : cacheAt d'.cache n = cacheAt d.cache n := by
    unfold cacheAt
    rw [hcache]
  rcases hcell with hc | ⟨e, e', h1, h2, h3, h4, -⟩
  · have hs : slotAt d'.cur n = slotAt d.cur n := by
      unfold slotAt
      rw [hc]
    rw [hs, hca]
    rcases hs : slotAt d.cur n with e | slot
    · rfl
    simp only [bind, Except.bind]
    rcases hdel : slot.isDeleted with e | del
    · rfl
    simp only
    rcases hcc : cacheAt d.cache n with e | c
    · rfl
    simp only
    cases del with
    | true => rfl
    | false =>
      by_cases hcn : c = .null
      · subst hcn
        simp only [Bool.false_eq_true, if_false, ne_eq, not_true_eq_false]
        unfold fileValue
        rw [if_neg (by omega), if_neg (by omega)]
        rcases hse : slot.entry with e | e
        · rfl
        have hslot : slot = .one e := by
          cases slot <;> simp [Slot.entry] at hse
          rw [hse]
        subst hslot
        have hcur := slotAt_ok hs
        simp only [bind, Except.bind, h.noEmb n e hcur]
        exact (hfile e hcur (by simpa [Slot.isDeleted] using hdel) (cacheAt_ok hcc)).2
      · simp [hcn]
  · rw [slotAt_eq h1, slotAt_eq h2, hca]
    simp only [bind, Except.bind, Slot.isDeleted, h3]
    rcases hcc : cacheAt d.cache n with z | c
    · rfl
    simp only
    cases hdel : e.deleted with
    | true => rfl
    | false =>
      by_cases hcn : c = .null
      · subst hcn
        obtain ⟨f1, f2⟩ := hfile e h1 hdel (cacheAt_ok hcc)
        rw [h1, h2] at f1
        simp only [Option.some.injEq, Slot.one.injEq] at f1
        subst f1
        simp only [Bool.false_eq_true, if_false, ne_eq, not_true_eq_false]
        unfold fileValue
        rw [if_neg (by omega), if_neg (by omega)]
        simp only [bind, Except.bind, Slot.entry, h.noEmb n e' h1]
        exact f2
      · simp [hcn]

theorem revisionIndexLoop_append (ds : List Data) (last : Data) : ∀ (i idx : Nat),
    revisionIndexLoop i (ds ++ [last]) = .ok idx →
    (∃ cut, last.eofCut = some cut ∧ idx = cut) ∨
    (last.eofCut = none ∧ ∃ j b, revisionIndexLoop i ds = .ok j ∧ last.bdata = some b ∧
      idx = j + b.length) := by
  induction ds with
  | nil =>
    intro i idx h
    simp only [List.nil_append, revisionIndexLoop] at h
    cases hc : last.eofCut with
    | some cut =>
      simp only [hc, Except.ok.injEq] at h
      exact .inl ⟨cut, rfl, h.symm⟩
    | none =>
      right
      simp only [hc] at h
      cases hb : last.bdata with
      | none => simp [hb] at h
      | some b =>
        simp only [hb, Except.ok.injEq] at h
        exact ⟨rfl, i, b, rfl, rfl, h.symm⟩
  | cons d ds ih =>
    intro i idx h
    simp only [List.cons_append, revisionIndexLoop] at h ⊢
    cases hc : d.eofCut with
    | some cut => simp only [hc] at h ⊢; exact ih _ _ h
    | none =>
      simp only [hc] at h ⊢
      cases hb : d.bdata with
      | none => simp [hb] at h
      | some b => simp only [hb] at h ⊢; exact ih _ _ h

/-- A number that is not pending is not written. -/
theorem not_changed {d : Doc} {n : Nat} (hc : (prevRev d)[n]? = d.cur[n]?) :
    ∀ c ∈ changes d, c.num ≠ n := by
  rintro c hc1 rfl
  obtain ⟨e, h1, h2, -, -, h5⟩ := mem_changes.1 hc1
  rw [h2] at hc
  simp [changeOf, hc] at h5

/-- **C23, commit.** A commit changes nothing to what the numbers show. -/
theorem good_commit [Zlib] {d d' : Doc} {x : Option Int} (h : Good d x) (hc : commit d = .ok d') :
    Good d' x ∧ d'.cur.length = d.cur.length ∧
    ∀ (n : Nat) (g : Int), 1 ≤ n → x ≠ some (n : Int) → view d' (.ref g n) = view d (.ref g n) := by
  by_cases hch : changes d = []
  · rw [C21_noop d hch] at hc
    cases hc
    exact ⟨h, rfl, fun _ _ _ _ => rfl⟩
  obtain ⟨p, cur, cache, data, t0, t1, h1, h2, h3, h4, rfl⟩ := commit_inv hc hch
  -- preparation
  have hprep : ∃ t : Obj, p.cur = d.cur ∧ p.cache = d.cache.set 0 t ∧
      (p.xnum ≠ 0 → x = some (p.xnum : Int)) := by
    unfold prepareCommit at h1
    obtain ⟨q0, -, k⟩ := bind_eq_ok h1
    obtain ⟨y, hy, k⟩ := bind_eq_ok k
    obtain ⟨⟨pc, px⟩, hpx, k⟩ := bind_eq_ok k
    simp only [pure, Except.pure, Except.ok.injEq] at k
    subst k
    have := h.first y hy
    subst this
    refine ⟨_, ?_, rfl, ?_⟩
    · simp only
      split at hpx
      · cases hpx; rfl
      · unfold xrefStreamEntry at hpx
        split at hpx
        · rename_i hm
          exfalso
          apply h.xnum
          cases y with
          | none => simp at hm
          | some y => simpa using hm
        · split at hpx
          · cases hpx
          · cases hpx; rfl
    · intro hne
      simp only at hne ⊢
      split at hpx
      · cases hpx; exact absurd rfl hne
      · unfold xrefStreamEntry at hpx
        split at hpx
        · rename_i hm
          exfalso
          apply h.xnum
          cases y with
          | none => simp at hm
          | some y => simpa using hm
        · split at hpx
          · cases hpx
          · cases hpx
            cases y with
            | none => simp at hne
            | some y => simp only [Option.getD_some] at *; congr 1; omega
  obtain ⟨t, hp1, hp2, hp3⟩ := hprep
  -- writing
  have hw : cur.length = d.cur.length ∧ cache.length = d.cache.length ∧
      (∀ n, 1 ≤ n → cache[n]? = d.cache[n]?) ∧
      (∀ n : Nat, SameCell d.cur[n]? cur[n]?) ∧
      (∀ n : Nat, 1 ≤ n → x ≠ some (n : Int) →
        (d.curData.eofCut = none → ∀ c ∈ changes d, c.num ≠ n) → cur[n]? = d.cur[n]?) ∧
      data.eofCut = d.curData.eofCut ∧
      (d.curData.eofCut ≠ none → data.fdata = d.curData.fdata) ∧
      (d.curData.eofCut = none → (d.past = [] ∨ ∃ idx new, revisionIndex d = .ok idx ∧
        data.fdata = .merged d.curData.fdata idx new)) := by
    have hbuild : ∀ {start : Nat} {out : Bytes} {idx : Rev} {cache' : List Obj},
        buildRevision (changes d) p.cur p.cache start p.xnum = .ok (out, idx, cache') →
        idx.length = d.cur.length ∧ cache'.length = d.cache.length ∧
        (∀ n, 1 ≤ n → cache'[n]? = d.cache[n]?) ∧
        (∀ n : Nat, SameCell d.cur[n]? idx[n]?) ∧
        (∀ n : Nat, 1 ≤ n → x ≠ some (n : Int) → (∀ c ∈ changes d, c.num ≠ n) →
          idx[n]? = d.cur[n]?) := by
      intro start out idx cache' hb
      rw [hp1, hp2] at hb
      obtain ⟨b1, b2, b3, b4, b5⟩ := buildRevision_cell h.noEmb hb
      refine ⟨b1, by simpa using b2, ?_, b4, ?_⟩
      · intro n hn
        rw [b3 n hn, getElem?_set_ne' _ _ (by omega)]
      · intro n hn hxn hcn
        refine b5 n hn ?_ hcn
        rintro hx0 rfl
        exact hxn (hp3 hx0)
    unfold writeRevision at h2
    split at h2
    · rename_i cut hcut
      simp only [Except.ok.injEq, Prod.mk.injEq] at h2
      obtain ⟨rfl, rfl, rfl⟩ := h2
      refine ⟨by rw [hp1], by rw [hp2]; simp, ?_, ?_, ?_, rfl, fun _ => rfl, ?_⟩
      · intro n hn
        rw [hp2, getElem?_set_ne' _ _ (by omega)]
      · intro n
        rw [hp1]
        exact .inl rfl
      · intro n _ _ _
        rw [hp1]
      · intro hh
        rw [hcut] at hh
        cases hh
    · rename_i hcut
      split at h2
      · rename_i hpast
        obtain ⟨⟨v, dv⟩, -, h2⟩ := bind_eq_ok h2
        obtain ⟨⟨new, cur', cache'⟩, hb, h2⟩ := bind_eq_ok h2
        simp only [Except.ok.injEq, Prod.mk.injEq] at h2
        obtain ⟨rfl, rfl, rfl⟩ := h2
        obtain ⟨b1, b2, b3, b4, b5⟩ := hbuild hb
        exact ⟨b1, b2, b3, b4, fun n hn hx hh => b5 n hn hx (hh hcut), rfl,
          fun hh => absurd hcut hh, fun _ => .inl hpast⟩
      · obtain ⟨idx, hidx, h2⟩ := bind_eq_ok h2
        obtain ⟨⟨new, cur', cache'⟩, hb, h2⟩ := bind_eq_ok h2
        simp only [Except.ok.injEq, Prod.mk.injEq] at h2
        obtain ⟨rfl, rfl, rfl⟩ := h2
        obtain ⟨b1, b2, b3, b4, b5⟩ := hbuild hb
        exact ⟨b1, b2, b3, b4, fun n hn hx hh => b5 n hn hx (hh hcut), rfl,
          fun hh => absurd hcut hh, fun _ => .inr ⟨idx, new, hidx, rfl⟩⟩
  obtain ⟨w1, w2, w3, w4, w5, w6, w7, w8⟩ := hw
  -- the new document
  have hcellN : ∀ n : Nat, 1 ≤ n → (.one p.index0 :: cur.drop 1 : Rev)[n]? = cur[n]? := by
    intro n hn
    obtain ⟨m, rfl⟩ : ∃ m, n = m + 1 := ⟨n - 1, by omega⟩
    simp
  have hcacheN : ∀ n : Nat, 1 ≤ n → (cache.set 0 (.dict t1))[n]? = d.cache[n]? := by
    intro n hn
    rw [getElem?_set_ne' _ _ (by omega), w3 n hn]
  have hpos : 0 < cur.length := by
    have := List.getElem?_eq_some_iff.1 h3
    rcases Nat.eq_zero_or_pos cur.length with h0 | h0
    · exfalso
      unfold nextTrailer prevEntry at h4
      obtain ⟨e, he, -⟩ := bind_eq_ok h4
      obtain ⟨s, hs, -⟩ := bind_eq_ok he
      have := lt_of_getElem? (slotAt_ok hs)
      omega
    · exact h0
  have hindex0 : p.index0.envNum = none := by
    unfold prepareCommit at h1
    obtain ⟨q0, -, k⟩ := bind_eq_ok h1
    obtain ⟨y, hy, k⟩ := bind_eq_ok k
    obtain ⟨⟨pc, px⟩, hpx, k⟩ := bind_eq_ok k
    simp only [pure, Except.pure, Except.ok.injEq] at k
    subst k
    rfl
  -- an uncached live cell is the same before and after
  have hunc : ∀ (n : Nat) (e : Entry), 1 ≤ n → x ≠ some (n : Int) → d.cur[n]? = some (.one e) →
      e.deleted = false → d.cache[n]? = some .null → cur[n]? = d.cur[n]? ∧
      parseIndirect data.fdata e = parseIndirect d.curData.fdata e ∧
      ∃ q : Int, e.absPos = some (.at q) ∧
        ∀ idx : Nat, revisionIndexLoop 0 ((data :: d.pastData).reverse) = .ok idx → q ≤ idx := by
    intro n e hn hx he hdel hca
    obtain ⟨q, q1, q2, q3⟩ := h.stored n e hn hx he hdel hca
    refine ⟨w5 n hn hx (fun hcut => not_changed (q3 hcut).1), ?_, q, q1, ?_⟩
    · cases hcut : d.curData.eofCut with
      | some cut => rw [w7 (by rw [hcut]; simp)]
      | none =>
        rcases w8 hcut with hpast | ⟨idx, new, hidx, hf⟩
        · obtain ⟨hprev, -⟩ := q3 hcut
          rw [prevRev, hpast, he] at hprev
          simp only [List.getElem?_replicate] at hprev
          split at hprev <;> simp at hprev
        · rw [hf]
          exact parseIndirect_merged q1 ((q3 hcut).2 idx hidx)
    · intro idx hidx
      rw [List.reverse_cons] at hidx
      rcases revisionIndexLoop_append _ _ _ _ hidx with ⟨cut, c1, rfl⟩ | ⟨c1, j, b, c2, c3, rfl⟩
      · rw [w6] at c1
        exact q2 _ c1
      · rw [w6] at c1
        have := (q3 c1).2 j c2
        omega
  have hgood : Good ⟨.one p.index0 :: cur.drop 1, cur :: d.past, cache.set 0 (.dict t1),
      { fdata := data.fdata }, data :: d.pastData⟩ x := by
    refine ⟨?_, ?_, ?_, h.xnum, ?_⟩
    · simp only [List.length_cons, List.length_drop, List.length_set]
      have := h.len
      omega
    · intro n e he
      rcases Nat.eq_zero_or_pos n with rfl | hn
      · simp only [List.getElem?_cons_zero, Option.some.injEq, Slot.one.injEq] at he
        subst he
        exact hindex0
      · simp only at he
        rw [hcellN n hn] at he
        rcases w4 n with hs | ⟨f, f', f1, f2, -, f3, -⟩
        · rw [← hs] at he
          exact h.noEmb n e he
        · rw [f2] at he
          cases he
          rw [f3]
          exact h.noEmb n f f1
    · intro y hy
      apply h.first
      unfold firstXrefStreamNum at hy ⊢
      unfold Doc.firstRev at hy ⊢
      simp only at hy
      cases hp : d.past with
      | cons r rs =>
        rw [hp] at hy
        exact hy
      | nil =>
        rw [hp] at hy
        simp only [List.getLastD_cons, List.getLastD_nil] at hy ⊢
        rcases w4 0 with hs | ⟨f, f', f1, f2, -, -, f3⟩
        · have : slotAt cur 0 = slotAt d.cur 0 := by unfold slotAt; rw [hs]
          rw [this] at hy
          exact hy
        · rw [slotAt_eq f2] at hy
          rw [slotAt_eq f1]
          simp only [bind, Except.bind, pure, Except.pure, f3] at hy ⊢
          exact hy
    · intro n e hn hx he hdel hca
      simp only at he hca
      rw [hcellN n hn] at he
      rw [hcacheN n hn] at hca
      have he' : d.cur[n]? = some (.one e) := by
        rcases w4 n with hs | ⟨f, f', f1, f2, f3, -⟩
        · rw [hs]; exact he
        · rw [f2] at he
          cases he
          obtain ⟨u1, -⟩ := hunc n f hn hx f1 (by rw [← f3]; exact hdel) hca
          rw [← u1]
          exact f2
      obtain ⟨u1, u2, q, u3, u4⟩ := hunc n e hn hx he' hdel hca
      refine ⟨q, u3, ?_, ?_⟩
      · intro cut hcut
        cases hcut
      · intro _
        refine ⟨?_, ?_⟩
        · simp only [prevRev]
          rw [hcellN n hn]
        · intro idx hidx
          exact u4 idx hidx
  refine ⟨hgood, by simp only [List.length_cons, List.length_drop]; omega, ?_⟩
  intro n g hn hx
  refine view_congr h hgood hn (hcacheN n hn) ?_ ?_ g
  · simp only
    rw [hcellN n hn]
    exact w4 n
  · intro e he hdel hca
    obtain ⟨u1, u2, -⟩ := hunc n e hn hx he hdel hca
    exact ⟨by simp only; rw [hcellN n hn]; exact u1, u2⟩

/-- **C23, reads.** -/
theorem good_get [Zlib] {d : Doc} {x : Option Int} (h : Good d x) (r : Obj) :
    Good (reads [r] d) x ∧ (reads [r] d).cur.length = d.cur.length := by
  unfold reads
  split
  · rename_i o d' hg
    have hf := getObject_filled h.coherent hg
    simp only [reads]
    have hcur : d'.cur = d.cur := by rw [hf.eq]
    have hpast : d'.past = d.past := by rw [hf.eq]
    have hdata : d'.curData = d.curData := by rw [hf.eq]
    have hpd : d'.pastData = d.pastData := by rw [hf.eq]
    refine ⟨⟨by rw [hcur, hf.len]; exact h.len, by rw [hcur]; exact h.noEmb, ?_, h.xnum, ?_⟩,
      by rw [hcur]⟩
    · intro y hy
      apply h.first
      unfold firstXrefStreamNum Doc.firstRev at hy ⊢
      rw [hcur, hpast] at hy
      exact hy
    · intro n e hn hx he hdel hca
      rw [hcur] at he
      have hca' : d.cache[n]? = some .null := by
        rcases hf.val n _ hca with k | ⟨k, -⟩ <;> exact k
      obtain ⟨q, q1, q2, q3⟩ := h.stored n e hn hx he hdel hca'
      refine ⟨q, q1, by rw [hdata]; exact q2, ?_⟩
      rw [hdata]
      intro hcut
      obtain ⟨q4, q5⟩ := q3 hcut
      refine ⟨?_, ?_⟩
      · unfold prevRev at q4 ⊢
        rw [hcur, hpast]
        exact q4
      · unfold revisionIndex
        rw [hpd]
        exact q5
  · exact ⟨h, rfl⟩

theorem good_set [Zlib] {d d' : Doc} {x : Option Int} {n : Nat} {o : Obj} (h : Good d x) (hn : 1 ≤ n)
    (hs : updateObject d n o = .ok d') :
    Good d' x ∧ d'.cur.length = d.cur.length ∧
    (∀ g, view d' (.ref g n) = .ok o) ∧
    ∀ (m : Nat) (g : Int), 1 ≤ m → m ≠ n → view d' (.ref g m) = view d (.ref g m) := by
  obtain ⟨old, h1, h2, rfl⟩ := updateObject_inv hs
  have hlt := lt_of_getElem? h1
  have hgood : Good { d with cur := d.cur.set n (.one (newEntry old n d.past.length o)), cache := d.cache.set n o } x := by
    refine ⟨by simpa using h.len, ?_, ?_, h.xnum, ?_⟩
    · intro m e he
      simp only at he
      by_cases hm : n = m
      · subst hm
        rw [getElem?_set_eq' _ _ hlt] at he
        cases he
        rfl
      · rw [getElem?_set_ne' _ _ hm] at he
        exact h.noEmb m e he
    · intro y hy
      apply h.first
      unfold firstXrefStreamNum Doc.firstRev slotAt at hy ⊢
      simp only at hy
      cases hp : d.past with
      | cons r rs => rw [hp] at hy; exact hy
      | nil =>
        rw [hp] at hy
        simp only [List.getLastD_nil] at hy ⊢
        rw [getElem?_set_ne' _ _ (by omega)] at hy
        exact hy
    · intro m e hm hx he hdel hca
      simp only at he hca
      by_cases hmn : n = m
      · subst hmn
        rw [getElem?_set_eq' _ _ hlt] at he
        rw [getElem?_set_eq' _ _ h2] at hca
        cases he
        cases hca
        simp [newEntry] at hdel
      · rw [getElem?_set_ne' _ _ hmn] at he hca
        obtain ⟨q, q1, q2, q3⟩ := h.stored m e hm hx he hdel hca
        refine ⟨q, q1, q2, ?_⟩
        intro hcut
        obtain ⟨q4, q5⟩ := q3 hcut
        refine ⟨?_, q5⟩
        simp only
        rw [getElem?_set_ne' _ _ hmn, ← q4]
        unfold prevRev
        simp
  refine ⟨hgood, by simp, ?_, ?_⟩
  · intro g
    rw [view_spec hgood.coherent]
    rw [slotAt_eq (getElem?_set_eq' _ _ hlt), cacheAt_eq (getElem?_set_eq' _ _ h2)]
    simp only [bind, Except.bind, Slot.isDeleted, newEntry, pure, Except.pure]
    by_cases ho : o = .null <;> simp [ho]
  · intro m g hm hmn
    refine view_congr h hgood hm ?_ ?_ ?_ g
    · exact getElem?_set_ne' _ _ (Ne.symm hmn)
    · left
      exact (getElem?_set_ne' _ _ (Ne.symm hmn)).symm
    · intro e he hdel hca
      exact ⟨getElem?_set_ne' _ _ (Ne.symm hmn), rfl⟩

theorem good_add [Zlib] {d d' : Doc} {x : Option Int} {n : Nat} {o : Obj} (h : Good d x)
    (hpos : 0 < d.cur.length) (ho : o ≠ .null) (hs : addObject d o = .ok (d', n)) :
    Good d' x ∧ n = d.cur.length ∧ d'.cur.length = d.cur.length + 1 ∧
    (∀ g, view d' (.ref g n) = .ok o) ∧
    ∀ (m : Nat) (g : Int), 1 ≤ m → m ≠ n → view d' (.ref g m) = view d (.ref g m) := by
  obtain ⟨h1, h2, rfl⟩ := addObject_inv hs
  have hcell : ∀ m : Nat, m ≠ n → (d.cur ++ [.one { num := (n : Int), docVer := d.past.length }])[m]?
      = d.cur[m]? := by
    intro m hm
    by_cases hl : m < d.cur.length
    · exact List.getElem?_append_left hl
    · rw [List.getElem?_eq_none (by simp; omega), List.getElem?_eq_none (by omega)]
  have hnew : (d.cur ++ [.one { num := (n : Int), docVer := d.past.length }])[n]? =
      some (.one { num := (n : Int), docVer := d.past.length }) := by
    rw [List.getElem?_append_right (by omega)]
    simp [h1]
  have hcn : ((d.cache ++ [Obj.null]).set n o)[n]? = some o :=
    getElem?_set_eq' _ _ (by simp; omega)
  have hcache : ∀ m : Nat, m < d.cur.length → ((d.cache ++ [Obj.null]).set n o)[m]? = d.cache[m]? := by
    intro m hm
    have := h.len
    rw [getElem?_set_ne' _ _ (by omega), List.getElem?_append_left (by omega)]
  have hgood : Good { d with cur := d.cur ++ [.one { num := (n : Int), docVer := d.past.length }], cache := (d.cache ++ [Obj.null]).set n o } x := by
    refine ⟨by simpa using h.len, ?_, ?_, h.xnum, ?_⟩
    · intro m e he
      simp only at he
      by_cases hm : m = n
      · subst hm
        rw [hnew] at he
        cases he
        rfl
      · rw [hcell m hm] at he
        exact h.noEmb m e he
    · intro y hy
      apply h.first
      unfold firstXrefStreamNum Doc.firstRev slotAt at hy ⊢
      simp only at hy
      cases hp : d.past with
      | cons r rs => rw [hp] at hy; exact hy
      | nil =>
        rw [hp] at hy
        simp only [List.getLastD_nil] at hy ⊢
        rw [List.getElem?_append_left hpos] at hy
        exact hy
    · intro m e hm hx he hdel hca
      simp only at he hca
      by_cases hmn : m = n
      · subst hmn
        rw [hcn] at hca
        cases hca
        exact absurd rfl ho
      · rw [hcell m hmn] at he
        rw [hcache m (lt_of_getElem? he)] at hca
        obtain ⟨q, q1, q2, q3⟩ := h.stored m e hm hx he hdel hca
        refine ⟨q, q1, q2, ?_⟩
        intro hcut
        obtain ⟨q4, q5⟩ := q3 hcut
        refine ⟨?_, q5⟩
        simp only
        rw [hcell m hmn, ← q4]
        unfold prevRev
        simp only
        cases hp : d.past with
        | cons r rs => rfl
        | nil =>
          simp only [List.getElem?_replicate, List.length_append, List.length_cons, List.length_nil]
          have := lt_of_getElem? he
          rw [if_pos (by omega), if_pos (by omega)]
  refine ⟨hgood, h1, by simp, ?_, ?_⟩
  · intro g
    rw [view_spec hgood.coherent]
    rw [slotAt_eq hnew, cacheAt_eq hcn]
    simp [bind, Except.bind, Slot.isDeleted, pure, Except.pure, ho]
  · intro m g hm hmn
    by_cases hl : m < d.cur.length
    · refine view_congr h hgood hm (hcache m hl) (.inl (hcell m hmn).symm) ?_ g
      intro e he hdel hca
      exact ⟨hcell m hmn, rfl⟩
    · rw [view_spec hgood.coherent, view_spec h.coherent]
      have e1 : slotAt d.cur m = .error .indexError := by
        simp [slotAt, orRaise, List.getElem?_eq_none (show d.cur.length ≤ m by omega)]
      have e2 : slotAt (d.cur ++ [.one { num := (n : Int), docVer := d.past.length }]) m =
          .error .indexError := by
        unfold slotAt
        rw [hcell m hmn]
        exact e1
      rw [e1, e2]
      rfl

/-- **C23, partial.** After any sequence of `add_object`, `update_object` (`None` is a deletion),
`commit` and reads, `get_object` returns, for every number, the last value written for that number
(`None` if it was last deleted), and what it returned at the beginning if the number was never written.
`add_object` gives the next free number, and the number of cells is that of the specification.

Missing from the full claim: documents with object streams, for which it is false
(`C23_counterexample`); adding the object `None`, which is not recorded as a deletion
(`C23_add_none`); and the number `x` of the xref stream of the file. -/
theorem C23_map_partial [Zlib] (d0 d : Doc) (x : Option Int) (l : List Op) (h0 : Good d0 x)
    (hpos : 0 < d0.cur.length)
    (hset : ∀ n o, Op.set n o ∈ l → 1 ≤ n) (hadd : ∀ o, Op.add o ∈ l → o ≠ .null)
    (hl : ops l d0 = .ok d) :
    let w := l.foldl Written.op ⟨d0.cur.length, fun _ => none⟩
    d.cur.length = w.next ∧
    ∀ (n : Nat) (g : Int), 1 ≤ n → x ≠ some (n : Int) →
      view d (.ref g n) = match w.val n with
        | some o => .ok o
        | none => view d0 (.ref g n) := by
  suffices H : ∀ (l : List Op) (d1 : Doc) (w : Written), Good d1 x → 0 < d1.cur.length →
      d1.cur.length = w.next → (∀ n o, Op.set n o ∈ l → 1 ≤ n) → (∀ o, Op.add o ∈ l → o ≠ .null) →
      (∀ (n : Nat) (g : Int), 1 ≤ n → x ≠ some (n : Int) →
        view d1 (.ref g n) = match w.val n with
          | some o => .ok o
          | none => view d0 (.ref g n)) →
      ops l d1 = .ok d →
      d.cur.length = (l.foldl Written.op w).next ∧
      ∀ (n : Nat) (g : Int), 1 ≤ n → x ≠ some (n : Int) →
        view d (.ref g n) = match (l.foldl Written.op w).val n with
          | some o => .ok o
          | none => view d0 (.ref g n) from
    H l d0 _ h0 hpos rfl hset hadd (fun _ _ _ _ => rfl) hl
  intro l
  induction l with
  | nil =>
    intro d1 w _ _ hw _ _ hv hl
    cases hl
    exact ⟨hw, hv⟩
  | cons a l ih =>
    intro d1 w hg hpos hw hset hadd hv hl
    simp only [ops] at hl
    obtain ⟨d2, ha, hl2⟩ := bind_eq_ok hl
    rw [List.foldl_cons]
    have hset' : ∀ n o, Op.set n o ∈ l → 1 ≤ n := fun n o hm => hset n o (by simp [hm])
    have hadd' : ∀ o, Op.add o ∈ l → o ≠ .null := fun o hm => hadd o (by simp [hm])
    cases a with
    | add o =>
      simp only [Op.run] at ha
      rcases hao : addObject d1 o with e | ⟨d3, n⟩
      · rw [hao] at ha; cases ha
      rw [hao] at ha
      cases ha
      obtain ⟨g1, g2, g3, g4, g5⟩ := good_add hg hpos (hadd o (by simp)) hao
      refine ih _ _ g1 (by omega) (by simp only [Written.op, Written.step]; omega) hset' hadd' ?_ hl2
      intro m g hm hx
      simp only [Written.op, Written.step]
      by_cases hmn : m = n
      · rw [if_pos (by omega), hmn]
        exact g4 g
      · rw [if_neg (by omega), g5 m g hm hmn]
        exact hv m g hm hx
    | set n o =>
      simp only [Op.run] at ha
      obtain ⟨g1, g2, g3, g4⟩ := good_set hg (hset n o (by simp)) ha
      refine ih _ _ g1 (by omega) (by simp only [Written.op, Written.step]; omega) hset' hadd' ?_ hl2
      intro m g hm hx
      simp only [Written.op, Written.step]
      by_cases hmn : m = n
      · rw [if_pos hmn, hmn]
        exact g3 g
      · rw [if_neg hmn, g4 m g hm hmn]
        exact hv m g hm hx
    | get r =>
      simp only [Op.run, Except.ok.injEq] at ha
      subst ha
      obtain ⟨g1, g2⟩ := good_get hg r
      refine ih _ _ g1 (by omega) (by simp only [Written.op]; omega) hset' hadd' ?_ hl2
      intro m g hm hx
      rw [C25_reads_partial d1 hg.coherent [r]]
      exact hv m g hm hx
    | commit =>
      simp only [Op.run] at ha
      obtain ⟨g1, g2, g3⟩ := good_commit hg ha
      refine ih _ _ g1 (by omega) (by simp only [Written.op]; omega) hset' hadd' ?_ hl2
      intro m g hm hx
      rw [g3 m g hm hx]
      exact hv m g hm hx

/-- **C23, fresh numbers.** `add_object` gives a number that was not in the index. -/
theorem C23_add_fresh [Zlib] (d d' : Doc) (o : Obj) (n : Nat) (h : addObject d o = .ok (d', n)) :
    d.cur[n]? = none ∧ ∀ g, view d (.ref g n) = .error .indexError := by
  obtain ⟨h1, -, -⟩ := addObject_inv h
  have h2 : d.cur[n]? = none := List.getElem?_eq_none (by omega)
  refine ⟨h2, ?_⟩
  intro g
  rw [view_num]
  simp [memoize, slotAt, orRaise, h2, bind, Except.bind]

/-! ### Samples -/

/-- A file with the catalog (object 1, at 9) and an integer (object 2, at 45). -/
def mapFile : Bytes :=
  b!"%PDF-1.4\n1 0 obj\n<< /Type /Catalog >>\nendobj\n2 0 obj\n12\nendobj\n" ++
  b!"xref\n0 3\n0000000000 65535 f\n0000000009 00000 n\n0000000045 00000 n\n" ++
  b!"trailer\n<< /Root 1 0 R /Size 3 >>\nstartxref\n63\n%%EOF\n"

/-- The document loaded from it, with nothing but the trailer in the cache. -/
def mapDoc : Doc :=
  { cur := [.one { num := 0, xrefTablePos := some 63, absPos := some (.at 129), absNext := some 163 },
      .one { num := 1, absPos := some (.at 9), absNext := some 45 },
      .one { num := 2, absPos := some (.at 45), absNext := some 63 }]
    past := []
    cache := [.dict [(b!"/Size", .int 3), (b!"/Root", .ref 0 1)], .null, .null]
    curData := { fdata := .single mapFile, eofCut := some 183 }
    pastData := [] }

example : Good mapDoc none := by
  refine ⟨by decide, ?_, ?_, by decide, ?_⟩
  · intro n e he
    rcases n with _ | _ | _ | n <;> simp [mapDoc] at he <;> rw [← he]
  · intro y hy
    have : firstXrefStreamNum mapDoc = .ok none := rfl
    rw [this] at hy
    cases hy
    rfl
  · intro n e hn hx he hdel hca
    rcases n with _ | _ | _ | n <;> simp [mapDoc] at he hn <;> subst he
    · exact ⟨9, rfl, by rintro cut hc; cases hc; decide, by intro h; cases h⟩
    · exact ⟨45, rfl, by rintro cut hc; cases hc; decide, by intro h; cases h⟩

/-- Reading, updating, committing, adding, deleting. -/
def mapOps : List Op :=
  [.commit, .set 2 (.int 13), .get (.ref 0 1), .commit, .add (.int 8), .set 2 .null, .commit, .add (.int 9),
   .get (.ref 0 3)]

example : ∀ n o, Op.set n o ∈ mapOps → 1 ≤ n := by
  intro n o h
  simp [mapOps] at h
  omega
example : ∀ o, Op.add o ∈ mapOps → o ≠ .null := by
  intro o h
  simp [mapOps] at h
  rcases h with rfl | rfl <;> simp
example [Zlib] : (ops mapOps mapDoc).map (fun d => (view d (.ref 0 1), view d (.ref 0 2),
    view d (.ref 0 3), view d (.ref 0 4))) =
    .ok (.ok (.dict [(b!"/Type", .str b!"/Catalog")]), .ok .null, .ok (.int 8), .ok (.int 9)) := by
  kernel_rfl

/-- **C23 is false of documents with object streams.** The object 3 of an object stream is updated to 77;
after a sibling in the same stream (object 4) has been read, `get_object` gives back the old value. -/
theorem C23_counterexample [Zlib] :
    (ops [.set 3 (.int 77)] memoDoc).map (fun d => view d (.ref 0 3)) = .ok (.ok (.int 77)) ∧
    (ops [.set 3 (.int 77), .get (.ref 0 4)] memoDoc).map (fun d => view d (.ref 0 3)) =
      .ok (.ok (.int 33)) :=
  ⟨by kernel_rfl, by kernel_rfl⟩

/-- A deleted object comes back in the same way: its number stays marked as deleted, but what
`get_object` returns is the cell of the cache, which the reading of the sibling has filled. -/
theorem C23_deleted_counterexample [Zlib] :
    (ops [.set 3 .null] memoDoc).map (fun d => view d (.ref 0 3)) = .ok (.ok .null) ∧
    (ops [.set 3 .null, .get (.ref 0 4)] memoDoc).map (fun d => view d (.ref 0 3)) =
      .ok (.ok (.int 33)) :=
  ⟨by kernel_rfl, by kernel_rfl⟩

/-- Adding `None`: the new number is not marked as deleted, and reading it raises `KeyError`. -/
theorem C23_add_none [Zlib] :
    (ops [.add .null] mapDoc).map (fun d => view d (.ref 0 3)) = .ok (.error .keyError) := by kernel_rfl

end Pdf
