/-
Lemmas about writing a revision.
-/
import Verif.Lemmas.Xref
import Verif.Spec.Revision

namespace Pdf
open Spec

theorem entryAt_ok {rev : Rev} {n : Nat} {e : Entry} (h : entryAt rev n = .ok e) :
    rev[n]? = some (.one e) := by
  unfold entryAt slotAt at h
  obtain ⟨s, hs, h⟩ := bind_eq_ok h
  have := orRaise_eq_ok hs
  cases s with
  | one e' => simp only [Slot.entry, Except.ok.injEq] at h; rw [this, h]
  | hole => cases h
  | many => cases h

theorem entryAt_eq {rev : Rev} {n : Nat} {e : Entry} (h : rev[n]? = some (.one e)) :
    entryAt rev n = .ok e := by
  simp [entryAt, slotAt, h, orRaise, Slot.entry, bind, Except.bind]

theorem cacheAt_ok {cache : List Obj} {n : Nat} {o : Obj} (h : cacheAt cache n = .ok o) :
    cache[n]? = some o := orRaise_eq_ok h

theorem getElem?_set_ne' {α : Type} (l : List α) {i j : Nat} (x : α) (h : i ≠ j) :
    (l.set i x)[j]? = l[j]? := by
  rw [List.getElem?_set]; simp [h]

theorem getElem?_set_eq' {α : Type} (l : List α) {i : Nat} (x : α) (h : i < l.length) :
    (l.set i x)[i]? = some x := by
  rw [List.getElem?_set]; simp [h]

theorem lt_of_getElem? {α : Type} {l : List α} {i : Nat} {x : α} (h : l[i]? = some x) :
    i < l.length := (List.getElem?_eq_some_iff.1 h).1

/-- What the first loop of `build_revision_byte_stream` does. -/
theorem envPass_spec (rev : Rev) : ∀ (l : List Change) (cache : List Obj) (xref : List XElem)
    {cache' : List Obj} {xref' : List XElem}, envPass rev l cache xref = .ok (cache', xref') →
    (∀ e ∈ xref', e ∈ xref ∨ (e.free = false ∧ e.counter.isSome ∧ e.env.getD 0 ≠ 0 ∧
      ∃ c ∈ l, ∃ en, c.act ≠ .d ∧ e.num = c.num ∧ rev[c.num]? = some (.one en) ∧
        en.envNum = e.env)) ∧
    (∀ e ∈ xref, e ∈ xref') ∧ cache'.length = cache.length ∧
    (∀ c ∈ l, ∃ en, rev[c.num]? = some (.one en)) ∧
    (∀ n, (∀ c ∈ l, ∀ en, c.act ≠ .d → rev[c.num]? = some (.one en) → en.envNum.getD 0 = 0 ∨
      en.envNum ≠ some n) → cache'[n]? = cache[n]?)
  | [], cache, xref, cache', xref', h => by
    simp only [envPass, Except.ok.injEq, Prod.mk.injEq] at h
    obtain ⟨rfl, rfl⟩ := h
    simp
  | c :: l, cache, xref, cache', xref', h => by
    unfold envPass at h
    obtain ⟨en, hen, h⟩ := bind_eq_ok h
    have hen' := entryAt_ok hen
    split at h
    · rename_i hc
      obtain ⟨obj, ho, h⟩ := bind_eq_ok h
      obtain ⟨old, hold, h⟩ := bind_eq_ok h
      obtain ⟨newEnv, hnew, h⟩ := bind_eq_ok h
      obtain ⟨pos, hpos, h⟩ := bind_eq_ok h
      obtain ⟨h1, h2, h3, h4, h5⟩ := envPass_spec rev l _ _ h
      refine ⟨?_, ?_, by rw [h3]; simp, ?_, ?_⟩
      · intro e he
        rcases h1 e he with h' | ⟨a1, a2, a3, c', hc', en', b1, b2, b3, b4⟩
        · rcases List.mem_append.1 h' with h' | h'
          · exact .inl h'
          · right
            simp only [List.mem_singleton] at h'
            subst h'
            exact ⟨rfl, rfl, hc.2, c, by simp, en, hc.1, rfl, hen', rfl⟩
        · exact .inr ⟨a1, a2, a3, c', by simp [hc'], en', b1, b2, b3, b4⟩
      · intro e he; exact h2 e (by simp [he])
      · intro c' hc'
        rcases List.mem_cons.1 hc' with rfl | hc'
        · exact ⟨en, hen'⟩
        · exact h4 c' hc'
      · intro n hn
        rw [h5 n (fun c' hc' => hn c' (by simp [hc']))]
        rcases hn c (by simp) en hc.1 hen' with h' | h'
        · exact absurd h' hc.2
        · rw [getElem?_set_ne']
          intro hh
          apply h'
          cases hx : en.envNum with
          | none => simp [hx] at hc
          | some x => simp [hx] at hh; rw [hh]
    · rename_i hc
      obtain ⟨h1, h2, h3, h4, h5⟩ := envPass_spec rev l _ _ h
      refine ⟨?_, h2, h3, ?_, ?_⟩
      · intro e he
        rcases h1 e he with h' | ⟨a1, a2, a3, c', hc', en', b⟩
        · exact .inl h'
        · exact .inr ⟨a1, a2, a3, c', by simp [hc'], en', b⟩
      · intro c' hc'
        rcases List.mem_cons.1 hc' with rfl | hc'
        · exact ⟨en, hen'⟩
        · exact h4 c' hc'
      · intro n hn
        exact h5 n (fun c' hc' => hn c' (by simp [hc']))

theorem pointsAt_append {file : Bytes} {off num gen : Nat} {obj : Obj} (more : Bytes)
    (h : PointsAt file off num gen obj) : PointsAt (file ++ more) off num gen obj := by
  obtain ⟨ser, hs, hp⟩ := h
  refine ⟨ser, hs, ?_⟩
  rw [List.drop_append]
  exact hp.trans (List.prefix_append _ _)

/-- An element for an object written in the second loop. -/
def DirectElem [Zlib] (rev : Rev) (cache : List Obj) (l : List Change) (file : Bytes)
    (index : Rev) (e : XElem) : Prop :=
  ∃ c ∈ l, ∃ en obj off, c.act ≠ .d ∧ e.num = c.num ∧ rev[c.num]? = some (.one en) ∧
    en.envNum.getD 0 = 0 ∧ e.gen = en.gen ∧ e.counter = some off ∧ e.env = en.envNum ∧
    e.free = false ∧ ToWrite cache c.num obj ∧ PointsAt file off c.num en.gen obj ∧
    IndexedAt index c.num en.gen off

theorem setAbs_ok {rev rev' : Rev} {n : Nat} {p q : Int} (h : setAbs rev n p q = .ok rev') :
    ∃ e, rev[n]? = some (.one e) ∧
      rev' = rev.set n (.one { e with absPos := some (.at p), absNext := some q }) := by
  unfold setAbs at h
  obtain ⟨e, he, h⟩ := bind_eq_ok h
  simp only [pure, Except.pure, Except.ok.injEq] at h
  exact ⟨e, entryAt_ok he, h.symm⟩

/-- What the second loop of `build_revision_byte_stream` does. -/
theorem mainPass_spec [Zlib] (rev : Rev) (cache : List Obj) (pre : Bytes) :
    ∀ (l : List Change) (st : Build) {st' : Build}, mainPass rev cache l st = .ok st' →
    (l.map (·.num)).Nodup →
    st.counter = pre.length + st.frags.length →
    (∀ c ∈ l, ∀ e, rev[c.num]? = some (.one e) →
      ∃ e', st.index[c.num]? = some (.one e') ∧ e'.gen = e.gen) →
    ∃ more, st'.frags = st.frags ++ more ∧ st'.counter = pre.length + st'.frags.length ∧
      st'.index.length = st.index.length ∧
      (∀ n, (∀ c ∈ l, c.num ≠ n) → st'.index[n]? = st.index[n]?) ∧
      (∀ e ∈ st.xref, e ∈ st'.xref) ∧
      ∀ e ∈ st'.xref, e ∈ st.xref ∨
        (e.free = true ∧ e.counter = none ∧ ∃ c ∈ l, c.act = .d ∧ e.num = c.num) ∨
        DirectElem rev cache l (pre ++ st'.frags) st'.index e
  | [], st, st', h, _, hcnt, _ => by
    simp only [mainPass, Except.ok.injEq] at h
    subst h
    exact ⟨[], by simp, hcnt, rfl, fun _ _ => rfl, fun _ h => h, fun e he => .inl he⟩
  | c :: l, st, st', h, hnd, hcnt, hidx => by
    rw [List.map_cons, List.nodup_cons] at hnd
    have hne : ∀ c' ∈ l, c'.num ≠ c.num := fun c' hc' hh =>
      hnd.1 (hh ▸ List.mem_map_of_mem hc')
    unfold mainPass at h
    split at h
    · rename_i hd
      obtain ⟨gen, hgen, h⟩ := bind_eq_ok h
      obtain ⟨more, h1, h2, h3, h4, h5, h6⟩ := mainPass_spec rev cache pre l _ h hnd.2 hcnt
        (fun c' hc' => hidx c' (by simp [hc']))
      refine ⟨more, h1, h2, h3, fun n hn => h4 n (fun c' hc' => hn c' (by simp [hc'])),
        fun e he => h5 e (by simp [he]), ?_⟩
      intro e he
      rcases h6 e he with h' | ⟨a1, a2, c', hc', a3⟩ | ⟨c', hc', h'⟩
      · rcases List.mem_append.1 h' with h' | h'
        · exact .inl h'
        · simp only [List.mem_singleton] at h'
          subst h'
          exact .inr (.inl ⟨rfl, rfl, c, by simp, hd, rfl⟩)
      · exact .inr (.inl ⟨a1, a2, c', by simp [hc'], a3⟩)
      · exact .inr (.inr ⟨c', by simp [hc'], h'⟩)
    · rename_i hd
      obtain ⟨en, hen, h⟩ := bind_eq_ok h
      have hen' := entryAt_ok hen
      split at h
      · rename_i henv
        obtain ⟨o, ho, h⟩ := bind_eq_ok h
        have ho' := cacheAt_ok ho
        obtain ⟨obj, hobj, h⟩ := bind_eq_ok h
        obtain ⟨block, hblk, h⟩ := bind_eq_ok h
        obtain ⟨index, hset, h⟩ := bind_eq_ok h
        obtain ⟨e0, he0, hset⟩ := setAbs_ok hset
        unfold serializeFragment at hblk
        obtain ⟨ser, hser, hblk⟩ := bind_eq_ok hblk
        simp only [pure, Except.pure, Except.ok.injEq] at hblk
        have hcnt' : st.counter + block.length = pre.length + (st.frags ++ block).length := by
          simp [hcnt]; omega
        obtain ⟨more, h1, h2, h3, h4, h5, h6⟩ := mainPass_spec rev cache pre l _ h hnd.2
          hcnt' (by
            intro c' hc' e he
            obtain ⟨e', q1, q2⟩ := hidx c' (by simp [hc']) e he
            refine ⟨e', ?_, q2⟩
            simp only [hset]
            rw [getElem?_set_ne' _ _ (fun hh => hne c' hc' hh.symm), q1])
        simp only at h1
        have hfile : pre ++ st'.frags = (pre ++ st.frags) ++ (block ++ more) := by
          rw [h1]; simp
        have htw : ToWrite cache c.num obj := by
          refine ⟨o, ho', ?_⟩
          unfold toWrite at hobj
          split at hobj
          · rename_i hs; rw [if_pos hs]; exact hobj
          · rename_i hs
            rw [if_neg hs]
            simp only [Except.ok.injEq] at hobj
            exact hobj.symm
        have hpt : PointsAt (pre ++ st'.frags) st.counter c.num en.gen obj := by
          refine ⟨ser, hser, ?_⟩
          rw [hfile, hcnt, List.drop_left' (by simp), ← hblk]
          refine ⟨more, ?_⟩
          simp [indirect]
        have hidx' : IndexedAt st'.index c.num en.gen st.counter := by
          obtain ⟨e', q1, q2⟩ := hidx c (by simp) en hen'
          rw [q1] at he0
          cases he0
          refine ⟨{ e0 with
            absPos := some (.at (st.counter : Int)),
            absNext := some ((st.counter + block.length : Nat) : Int) }, ?_, q2, rfl⟩
          rw [h4 c.num hne]
          simp only [hset]
          rw [getElem?_set_eq' _ _ (lt_of_getElem? q1)]
        refine ⟨block ++ more, by rw [h1]; simp, h2, by rw [h3, hset]; simp, ?_, ?_, ?_⟩
        · intro n hn
          rw [h4 n (fun c' hc' => hn c' (by simp [hc']))]
          simp only [hset]
          exact getElem?_set_ne' _ _ (hn c (by simp))
        · intro e he; exact h5 e (by simp [he])
        · intro e he
          rcases h6 e he with h' | ⟨a1, a2, c', hc', a3⟩ | ⟨c', hc', h'⟩
          · rcases List.mem_append.1 h' with h' | h'
            · exact .inl h'
            · simp only [List.mem_singleton] at h'
              subst h'
              exact .inr (.inr ⟨c, by simp, en, obj, st.counter, hd, rfl, hen', henv, rfl, rfl, rfl,
                rfl, htw, hpt, hidx'⟩)
          · exact .inr (.inl ⟨a1, a2, c', by simp [hc'], a3⟩)
          · exact .inr (.inr ⟨c', by simp [hc'], h'⟩)
      · obtain ⟨more, h1, h2, h3, h4, h5, h6⟩ := mainPass_spec rev cache pre l _ h hnd.2 hcnt
          (fun c' hc' => hidx c' (by simp [hc']))
        refine ⟨more, h1, h2, h3, fun n hn => h4 n (fun c' hc' => hn c' (by simp [hc'])), h5, ?_⟩
        intro e he
        rcases h6 e he with h' | ⟨a1, a2, c', hc', a3⟩ | ⟨c', hc', h'⟩
        · exact .inl h'
        · exact .inr (.inl ⟨a1, a2, c', by simp [hc'], a3⟩)
        · exact .inr (.inr ⟨c', by simp [hc'], h'⟩)

theorem mem_insertElem (x e : XElem) : ∀ l, e ∈ insertElem x l ↔ e = x ∨ e ∈ l
  | [] => by simp [insertElem]
  | y :: l => by
    unfold insertElem
    split
    · simp
    · simp only [List.mem_cons, mem_insertElem x e l]
      grind

theorem mem_sortElems (e : XElem) (l : List XElem) : e ∈ sortElems l ↔ e ∈ l := by
  unfold sortElems
  have : ∀ (l acc : List XElem), e ∈ l.foldl (fun acc x => insertElem x acc) acc ↔
      e ∈ acc ∨ e ∈ l := by
    intro l
    induction l with
    | nil => simp
    | cons x l ih =>
      intro acc
      simp only [List.foldl_cons, ih, mem_insertElem, List.mem_cons]
      grind
  rw [this l []]; simp

/-- Everything `build_revision_byte_stream` computes, in table mode. -/
theorem buildRevision_table_inv [Zlib] {chg : List Change} {rev : Rev} {cache : List Obj}
    {start : Nat} {out : Bytes} {idx : Rev} {cache' : List Obj}
    (h : buildRevision chg rev cache start 0 = .ok (out, idx, cache')) :
    ∃ (xref : List XElem) (st : Build) (trailer : Dict) (built : Bytes) (e0 : Entry) (k : Int),
      envPass rev (⟨0, 0, .d⟩ :: chg) cache [] = .ok (cache', xref) ∧
      mainPass rev cache' (⟨0, 0, .d⟩ :: chg)
        { frags := b!"\n", xref := xref, counter := start + 1, index := rev, block := none }
        = .ok st ∧
      cache'[0]? = some (.dict trailer) ∧
      formatXrefTable (sortElems st.xref) trailer (circularDeleted chg) = .ok built ∧
      st.index[0]? = some (.one e0) ∧
      out = st.frags ++ built ++ fileEnd st.counter ∧
      k = (match rfind built b!"trailer" 0 with | some k => (k : Int) | none => -1) ∧
      idx = st.index.set 0 (.one { e0 with
        xrefTablePos := some st.counter
        absPos := some (.at (st.counter + k))
        absNext := some (st.counter + built.length) }) := by
  unfold buildRevision at h
  obtain ⟨⟨c1, xref⟩, h1, h⟩ := bind_eq_ok h
  obtain ⟨st, h2, h⟩ := bind_eq_ok h
  obtain ⟨⟨built, index, c2⟩, h3, h⟩ := bind_eq_ok h
  simp only [pure, Except.pure, Except.ok.injEq, Prod.mk.injEq] at h
  obtain ⟨rfl, rfl, rfl⟩ := h
  rw [if_pos rfl] at h3
  unfold writeTable at h3
  obtain ⟨trailer, h4, h3⟩ := bind_eq_ok h3
  obtain ⟨built', h5, h3⟩ := bind_eq_ok h3
  obtain ⟨e0, h6, h3⟩ := bind_eq_ok h3
  simp only [pure, Except.pure, Except.ok.injEq, Prod.mk.injEq] at h3
  obtain ⟨rfl, rfl, rfl⟩ := h3
  have h4' : c1[0]? = some (.dict trailer) := by
    unfold cacheDict at h4
    obtain ⟨o, ho, h4⟩ := bind_eq_ok h4
    have := cacheAt_ok ho
    cases o with
    | dict d => simp only [Except.ok.injEq] at h4; rw [this, h4]
    | _ => cases h4
  exact ⟨xref, st, trailer, built', e0, _, h1, h2, h4', h5, entryAt_ok h6, by
    simp [fileEnd], rfl, rfl⟩

/-- Everything `build_revision_byte_stream` computes, in stream mode. -/
theorem buildRevision_stream_inv [Zlib] {chg : List Change} {rev : Rev} {cache : List Obj}
    {start xnum : Nat} {out : Bytes} {idx : Rev} {cache' : List Obj} (hx : xnum ≠ 0)
    (h : buildRevision chg rev cache start xnum = .ok (out, idx, cache')) :
    ∃ (xref : List XElem) (st : Build) (trailer trailer' : Dict) (built : Bytes) (e0 ex : Entry)
      (block : Bytes) (cache1 : List Obj),
      envPass rev (⟨0, 0, .d⟩ :: chg) cache [] = .ok (cache1, xref) ∧
      mainPass rev cache1 (⟨0, 0, .d⟩ :: chg)
        { frags := b!"\n", xref := xref, counter := start + 1, index := rev, block := none }
        = .ok st ∧
      cache1[0]? = some (.dict trailer) ∧ cache' = cache1.set 0 (.dict trailer') ∧
      formatXrefStream (sortElems st.xref ++ [⟨false, xnum, 0, some st.counter, none⟩]) trailer
        (circularDeleted chg) xnum = .ok (built, trailer') ∧
      st.index[0]? = some (.one e0) ∧ st.index[xnum]? = some (.one ex) ∧
      st.block = some block ∧
      out = st.frags ++ built ++ fileEnd st.counter ∧
      idx = (st.index.set xnum (.one { ex with
          absPos := some (.at st.counter), absNext := some (st.counter + block.length) })).set 0
        (.one { e0 with
          xrefStreamPos := some st.counter
          absPos := some (.at st.counter)
          absNext := some (st.counter + built.length) }) := by
  unfold buildRevision at h
  obtain ⟨⟨c1, xref⟩, h1, h⟩ := bind_eq_ok h
  obtain ⟨st, h2, h⟩ := bind_eq_ok h
  obtain ⟨⟨built, index, c2⟩, h3, h⟩ := bind_eq_ok h
  simp only [pure, Except.pure, Except.ok.injEq, Prod.mk.injEq] at h
  obtain ⟨rfl, rfl, rfl⟩ := h
  rw [if_neg hx] at h3
  unfold writeStream at h3
  obtain ⟨trailer, h4, h3⟩ := bind_eq_ok h3
  obtain ⟨⟨built', trailer'⟩, h5, h3⟩ := bind_eq_ok h3
  obtain ⟨_, -, h3⟩ := bind_eq_ok h3
  obtain ⟨block, h6, h3⟩ := bind_eq_ok h3
  obtain ⟨index', h7, h3⟩ := bind_eq_ok h3
  obtain ⟨e0, h8, h3⟩ := bind_eq_ok h3
  simp only [pure, Except.pure, Except.ok.injEq, Prod.mk.injEq] at h3
  obtain ⟨rfl, rfl, rfl⟩ := h3
  obtain ⟨ex, h9, rfl⟩ := setAbs_ok h7
  have h8' := entryAt_ok h8
  rw [getElem?_set_ne' _ _ hx] at h8'
  have h4' : c1[0]? = some (.dict trailer) := by
    unfold cacheDict at h4
    obtain ⟨o, ho, h4⟩ := bind_eq_ok h4
    have := cacheAt_ok ho
    cases o with
    | dict d => simp only [Except.ok.injEq] at h4; rw [this, h4]
    | _ => cases h4
  exact ⟨xref, st, trailer, trailer', built', e0, ex, block, c1, h1, h2, h4', rfl, h5, h8', h9,
    orRaise_eq_ok h6, by simp [fileEnd], rfl⟩

end Pdf
