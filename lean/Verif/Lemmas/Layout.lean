/-
The bytes of a revision written in table mode, in order.
-/
import Verif.Lemmas.Reload2

namespace Pdf
open Spec

/-- An object as it is written. -/
structure Blk where
  num : Nat
  gen : Nat
  obj : Obj
  ser : Bytes

def Blk.text (b : Blk) : Bytes := indirect b.num b.gen b.ser

def blocksText (bs : List Blk) : Bytes := bs.flatMap Blk.text

/-- The entries of objects written one after the other. -/
def placedEntries : Nat → List Blk → List Entry
  | _, [] => []
  | p, b :: bs =>
    { num := b.num, gen := b.gen, absPos := some (.at (p : Nat)) } :: placedEntries (p + b.text.length) bs

theorem mainPass_blocks [Zlib] (rev : Rev) (cache : List Obj) :
    ∀ (l : List Change) (st : Build) {st' : Build}, mainPass rev cache l st = .ok st' →
    (∀ c ∈ l, c.act ≠ .d → ∀ e, rev[c.num]? = some (.one e) → e.envNum = none) →
    (∀ c ∈ l, c.act ≠ .d → c.num ≠ 0) →
    ∃ (bs : List Blk) (xs : List XElem), st'.frags = st.frags ++ blocksText bs ∧ st'.xref = st.xref ++ xs ∧
      xs.filterMap elemEntry = placedEntries st.counter bs ∧ st'.counter = st.counter + (blocksText bs).length ∧
      ∀ b ∈ bs, serialize 0 b.obj = .ok b.ser ∧ ToWrite cache b.num b.obj ∧ ∃ c ∈ l, c.act ≠ .d ∧ c.num = b.num
  | [], st, st', h, _, _ => by
    simp only [mainPass, Except.ok.injEq] at h
    subst h
    exact ⟨[], [], by simp [blocksText], by simp, rfl, rfl, by simp⟩
  | c :: l, st, st', h, hemb, h0 => by
    unfold mainPass at h
    split at h
    · obtain ⟨gen, hgen, h⟩ := bind_eq_ok h
      obtain ⟨bs, xs, h1, h2, h3, h4, h5⟩ := mainPass_blocks rev cache l _ h (fun c' hc' => hemb c' (by simp [hc'])) (fun c hc => h0 c (by simp [hc]))
      refine ⟨bs, _, h1, by rw [h2, List.append_assoc], ?_, h4, fun b hb => ?_⟩
      · rw [List.filterMap_append, h3]
        simp [elemEntry]
      · obtain ⟨k1, k2, c', k3, k4⟩ := h5 b hb
        exact ⟨k1, k2, c', by simp [k3], k4⟩
    · rename_i hd
      obtain ⟨en, hen, h⟩ := bind_eq_ok h
      have hen' := entryAt_ok hen
      split at h
      · obtain ⟨o, ho, h⟩ := bind_eq_ok h
        obtain ⟨obj, hobj, h⟩ := bind_eq_ok h
        obtain ⟨block, hblock, h⟩ := bind_eq_ok h
        obtain ⟨index, hindex, h⟩ := bind_eq_ok h
        obtain ⟨bs, xs, h1, h2, h3, h4, h5⟩ := mainPass_blocks rev cache l _ h (fun c' hc' => hemb c' (by simp [hc'])) (fun c hc => h0 c (by simp [hc]))
        unfold serializeFragment at hblock
        obtain ⟨ser, hser, hblock⟩ := bind_eq_ok hblock
        simp only [pure, Except.pure, Except.ok.injEq] at hblock
        have hblock : block = indirect c.num en.gen ser := by rw [← hblock]; simp [indirect]
        subst hblock
        have htw : ToWrite cache c.num obj := by
          refine ⟨o, cacheAt_ok ho, ?_⟩
          unfold toWrite at hobj
          split at hobj
          · rename_i hs; rw [if_pos hs]; exact hobj
          · rename_i hs; rw [if_neg hs]; cases hobj; rfl
        refine ⟨⟨c.num, en.gen, obj, ser⟩ :: bs, _, by rw [h1]; simp [blocksText, Blk.text], by rw [h2, List.append_assoc], ?_, ?_, fun b hb => ?_⟩
        · rw [List.filterMap_append, h3]
          simp [elemEntry, h0 c (by simp) hd, placedEntries, Blk.text]
        · rw [h4]
          simp [blocksText, Blk.text]
          omega
        · rcases List.mem_cons.1 hb with rfl | hb
          · exact ⟨hser, htw, c, by simp, hd, rfl⟩
          · obtain ⟨k1, k2, c', k3, k4⟩ := h5 b hb
            exact ⟨k1, k2, c', by simp [k3], k4⟩
      · rename_i henv
        rw [hemb c (by simp) hd _ hen'] at henv
        exact absurd rfl henv

/-- The bytes `new` of a revision after `pre`: a newline, the objects, the table whose section is `s`, the end. -/
def RevAt (good : Blk → Prop) (pre new : Bytes) (s : Sec) : Prop :=
  ∃ (bs : List Blk) (elems : List XElem) (t : Dict) (nf : List (Nat × Nat)) (built : Bytes),
    new = b!"\n" ++ blocksText bs ++ built ++ fileEnd s.pos ∧ s.pos = pre.length + 1 + (blocksText bs).length ∧
    formatXrefTable elems t nf = .ok built ∧ WF false false (.dict t) = true ∧ s.objs = elems.filterMap elemEntry ∧
    (∀ e, e ∈ s.objs ↔ e ∈ placedEntries (pre.length + 1) bs) ∧
    ∀ b ∈ bs, serialize 0 b.obj = .ok b.ser ∧ good b

theorem RevAt.mono {good good' : Blk → Prop} {pre new : Bytes} {s : Sec} (h : RevAt good pre new s)
    (hg : ∀ b, serialize 0 b.obj = .ok b.ser → good b → good' b) : RevAt good' pre new s := by
  obtain ⟨bs, elems, t, nf, built, h1, h2, h3, h4, h5, h6, h7⟩ := h
  exact ⟨bs, elems, t, nf, built, h1, h2, h3, h4, h5, h6, fun b hb => ⟨(h7 b hb).1, hg b (h7 b hb).1 (h7 b hb).2⟩⟩

/-- The section of a revision that was written in table mode. -/
theorem buildRevision_sec [Zlib] {chg : List Change} {rev : Rev} {cache : List Obj}
    {out : Bytes} {idx : Rev} {cache' : List Obj} (pre : Bytes)
    (h : buildRevision chg rev cache pre.length 0 = .ok (out, idx, cache'))
    (hnd : (chg.map (·.num)).Nodup) (h1 : ∀ c ∈ chg, 1 ≤ c.num)
    (hemb : ∀ c ∈ chg, c.act ≠ .d → ∀ e, rev[c.num]? = some (.one e) → e.envNum = none)
    (hwf : ∀ t, cache[0]? = some (.dict t) → WF false false (.dict t) = true) :
    ∃ (s : Sec) (t : Dict), cache[0]? = some (.dict t) ∧ SecAt (pre ++ out) s ∧ fileEnd s.pos <:+ out ∧
      s.tr = (normEntries t).reverse ∧ pre.length < s.pos ∧
      (∃ e0, idx[0]? = some (.one e0) ∧ e0.xrefTablePos = some (s.pos : Int)) ∧
      (∀ e ∈ s.objs, ∃ c ∈ chg, c.act ≠ .d ∧ ∃ (off : Nat) (ei : Entry), e.num = c.num ∧
        idx[c.num]? = some (.one ei) ∧ ei.absPos = some (.at off) ∧ e.absPos = some (.at off)) ∧
      (∀ c ∈ chg, c.act ≠ .d → ∃ e ∈ s.objs, e.num = c.num) ∧
      RevAt (fun b => ToWrite cache b.num b.obj ∧ ∃ c ∈ chg, c.act ≠ .d ∧ c.num = b.num) pre out s := by
  obtain ⟨xref, st, t, built, e0, k, q1, q2, q3, q4, q5, rfl, q6, rfl⟩ := buildRevision_table_inv h
  obtain ⟨-, -, s1, -, s2⟩ := envPass_spec _ _ _ _ q1
  have hemb : ∀ c ∈ (⟨0, 0, .d⟩ :: chg : List Change), c.act ≠ .d → ∀ e, rev[c.num]? = some (.one e) → e.envNum = none := by
    intro c hc hd
    rcases List.mem_cons.1 hc with rfl | hc
    · exact absurd rfl hd
    · exact hemb c hc hd
  have hcache : cache' = cache := by
    apply List.ext_getElem?
    intro n
    apply s2
    intro c hc en hd hen
    left
    rw [hemb c hc hd _ hen]
    rfl
  subst hcache
  have h0 : ∀ c ∈ chg, c.num ≠ 0 := fun c hc => by have := h1 c hc; omega
  obtain ⟨g1, -, -, -⟩ := mainPass_grows _ _ pre.length _ _ q2 rfl
  have hcnt : st.counter = (pre ++ st.frags).length := by rw [g1]; simp
  have hwt := hwf t q3
  have hwt' := hwt
  simp only [WF, Bool.and_eq_true, decide_eq_true_eq] at hwt'
  obtain ⟨kk, r1, r2, r3, r4, r5⟩ := readTable_at q4 hwt
  have hnd' : (((⟨0, 0, .d⟩ : Change) :: chg).map (·.num)).Nodup := by
    rw [List.map_cons, List.nodup_cons]
    refine ⟨?_, hnd⟩
    intro hm
    obtain ⟨c, hc, hc0⟩ := List.mem_map.1 hm
    exact h0 c hc hc0
  obtain ⟨⟨more, hmore⟩, -, -, -⟩ := mainPass_placed rev cache' pre _ _ q2 hnd' (by simp)
    (fun _ _ => rfl) hemb
  have hpos : pre.length < st.counter := by
    rw [hcnt, hmore]
    simp
  have hfile : ∀ rest, pre ++ (st.frags ++ built ++ fileEnd st.counter) ++ rest =
      (pre ++ st.frags) ++ built ++ (fileEnd st.counter ++ rest) := by intro rest; simp
  have helem : ∀ e ∈ (sortElems st.xref).filterMap elemEntry, ∃ x ∈ st.xref, x.free = false ∧ x.num ≠ 0 ∧
      e = { num := x.num, gen := x.gen, absPos := some (.at (x.counter.getD 0 : Nat)) } := by
    intro e he
    obtain ⟨x, hx, hxe⟩ := List.mem_filterMap.1 he
    rw [mem_sortElems] at hx
    unfold elemEntry at hxe
    split at hxe
    · cases hxe
    · rename_i hc
      simp only [not_or] at hc
      cases hxe
      exact ⟨x, hx, by simpa using hc.1, hc.2, rfl⟩
  have hdirect : ∀ x ∈ st.xref, x.free = false → DirectElem rev cache' chg (pre ++ st.frags) st.index x := by
    intro x hx hf
    apply direct_elem q1 q2 hnd h0 x hx hf
    obtain ⟨more', -, -, -, -, -, m6⟩ := mainPass_spec rev cache' pre _ _ q2 hnd' rfl (fun c _ e he => ⟨e, he, rfl⟩)
    rcases m6 x hx with h' | ⟨h', -⟩ | ⟨c, hc, en, obj, o, d1, d2, d3, d4, d5, d6, d7, -⟩
    · obtain ⟨p1, -⟩ := envPass_spec rev _ _ _ q1
      rcases p1 x h' with h'' | ⟨-, -, -, c, hc, en, d1, d2, d3, d4⟩
      · simp at h''
      · rw [← d4, hemb c hc d1 _ d3]; rfl
    · rw [hf] at h'; cases h'
    · rw [d7]; exact d4
  refine ⟨⟨st.counter, st.counter + kk, (sortElems st.xref).filterMap elemEntry, (normEntries t).reverse⟩, t, q3,
    ⟨by simp only; omega, by simp only; omega, ?_, ?_, ?_, ?_, ?_, ?_, ?_⟩, ⟨_, rfl⟩, rfl, hpos, ?_, ?_, ?_, ?_⟩
  · simp only [List.length_append] at hcnt ⊢
    omega
  · intro e he
    obtain ⟨x, hx, hf, hn, rfl⟩ := helem e he
    obtain ⟨c, hc, en, obj, off, d1, d2, d3, d4, d5, d6, d7, d8, d9, d10, d11⟩ := hdirect x hx hf
    refine ⟨x.num, off, x.gen, by omega, ?_, by rw [d6]; rfl⟩
    simp only
    rw [hcnt]
    refine Classical.byContradiction fun hlt => ?_
    obtain ⟨s, -, rest, p2⟩ := d10
    rw [List.drop_eq_nil_of_le (by omega)] at p2
    simp [indirect] at p2
  · intro rest
    rw [hfile]
    simp only
    rw [hcnt]
    exact r3 _ _ _
  · intro rest
    rw [hfile]
    simp only
    have := r4 (pre ++ st.frags) st.counter rest
    rw [← hcnt] at this
    exact this
  · intro rest e next he hnx
    have hd := r5 (pre ++ st.frags) st.counter rest
    rw [← hcnt] at hd
    refine parseTrailer_read (readEntry_single he hnx ?_) hwt (serialize_eq _ _ _ 0 hwt) (rest := natDec st.counter ++ b!"\n%%EOF\n" ++ rest) ?_
    · simp only [List.length_append] at hcnt ⊢
      omega
    · rw [hfile]
      exact hd
  · simp only
    rw [List.map_reverse, normEntries_keys]
    exact ((List.reverse_perm _).nodup_iff).2 hwt'.2
  · simp only
    have hfd : ∃ q, find (pre ++ (st.frags ++ built ++ fileEnd st.counter)) b!"%%EOF" st.counter = some q ∧
        q < (pre ++ (st.frags ++ built ++ fileEnd st.counter)).length := by
      have hdr : (pre ++ (st.frags ++ built ++ fileEnd st.counter)).drop st.counter = built ++ fileEnd st.counter := by
        have := hfile []
        simp only [List.append_nil] at this
        rw [this, hcnt, List.append_assoc (pre ++ st.frags), List.drop_left' rfl]
      obtain ⟨j, j1, j2⟩ := findAux_exists (p := b!"%%EOF") (built ++ fileEnd st.counter) st.counter
        (built ++ b!"startxref\n" ++ natDec st.counter ++ b!"\n").length ⟨b!"\n", by
          rw [show built ++ fileEnd st.counter = built ++ b!"startxref\n" ++ natDec st.counter ++ b!"\n" ++ b!"%%EOF\n" by simp [fileEnd]]
          rw [List.drop_left' rfl]
          rfl⟩ (by simp [fileEnd])
      refine ⟨st.counter + j, ?_, ?_⟩
      · unfold find
        rw [hdr]
        exact j2
      · simp only [List.length_append, List.length_cons, List.length_nil, fileEnd] at j1 hcnt ⊢
        omega
    obtain ⟨q, k1, k2⟩ := hfd
    refine ⟨q, k2, fun rest => ?_⟩
    unfold find at k1 ⊢
    rw [List.drop_append_of_le_length]
    · exact findAux_append _ _ k1
    · simp only [List.length_append] at hcnt ⊢
      omega
  · simp only
    exact ⟨_, getElem?_set_eq' _ _ (lt_of_getElem? q5), rfl⟩
  · intro e he
    obtain ⟨x, hx, hf, hn, rfl⟩ := helem e he
    obtain ⟨c, hc, en, obj, off, d1, d2, d3, d4, d5, d6, d7, d8, d9, d10, ei, i1, i2, i3⟩ := hdirect x hx hf
    refine ⟨c, hc, d1, off, ei, by rw [d2], ?_, i3, by rw [d6]; rfl⟩
    rw [getElem?_set_ne' _ _ (Ne.symm (h0 c hc)), i1]
  · intro c hc hd
    obtain ⟨e, he, e1, e2, e3, e4⟩ := passes_complete q1 q2 rfl pre.length rfl c (by simp [hc])
    have hf : e.free = false := by rw [e2]; simpa using hd
    refine ⟨{ num := e.num, gen := e.gen, absPos := some (.at (e.counter.getD 0 : Nat)) }, ?_, by rw [e1]⟩
    refine List.mem_filterMap.2 ⟨e, (mem_sortElems _ _).2 he, ?_⟩
    unfold elemEntry
    rw [if_neg]
    rw [e1, hf]
    simp [h0 c hc]

  · obtain ⟨bs, xs, b1, b2, b3, b4, b5⟩ := mainPass_blocks rev cache' _ _ q2 hemb (by
      intro c hc ha
      rcases List.mem_cons.1 hc with rfl | hc
      · exact absurd rfl ha
      · exact h0 c hc)
    have hx0 : xref.filterMap elemEntry = [] := by
      obtain ⟨p1, -⟩ := envPass_spec rev _ _ _ q1
      rw [List.filterMap_eq_nil_iff]
      intro x hx
      rcases p1 x hx with h'' | ⟨-, -, d0, c, hc, en, d1, d2, d3, d4⟩
      · simp at h''
      · rw [← d4, hemb c hc d1 _ d3] at d0
        exact absurd rfl d0
    refine ⟨bs, _, t, _, built, by rw [b1], ?_, q4, hwt, rfl, ?_, ?_⟩
    · simp only [b4]
    · intro e
      have : (∃ a ∈ st.xref, elemEntry a = some e) ↔ e ∈ placedEntries (pre.length + 1) bs := by
        rw [← b3, ← List.mem_filterMap, b2, List.filterMap_append, hx0, List.nil_append]
      rw [← this]
      simp only [List.mem_filterMap, mem_sortElems]
    · intro b hb
      obtain ⟨k1, k2, c, k3, k4, k5⟩ := b5 b hb
      refine ⟨k1, k2, c, ?_, k4, k5⟩
      rcases List.mem_cons.1 k3 with rfl | k3
      · exact absurd rfl k4
      · exact k3

/-- What is written of an object and kept: it can be read back, and is not an object stream. -/
def Laid [Zlib] : Bytes → List Sec → Prop
  | F, [] => F = []
  | F, s :: l => ∃ pre new, F = pre ++ new ∧ RevAt (fun b => Storable b.obj ∧ isObjStm b.obj = false) pre new s ∧
      ((l = [] ∧ ∃ v : Bytes, (∀ c ∈ v, isEol c = false) ∧ pre = b!"%PDF-" ++ v) ∨ (l ≠ [] ∧ Laid pre l))

end Pdf
