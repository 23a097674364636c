/-
A revision that is written, in table mode or in stream mode, seen as a section of the file.
-/
import Verif.Lemmas.StreamWrite
import Verif.Lemmas.MixLoad

namespace Pdf
open Spec

/-- The end marker after a section at `p`, whatever follows. -/
theorem eof_of_end {F A : Bytes} {p : Nat} (hF : F = A ++ fileEnd p) (hp : p ≤ A.length) :
    ∃ q, q < F.length ∧ ∀ rest, find (F ++ rest) b!"%%EOF" p = some q := by
  have hdr : F.drop p = A.drop p ++ fileEnd p := by rw [hF, List.drop_append_of_le_length hp]
  obtain ⟨j, j1, j2⟩ := findAux_exists (p := b!"%%EOF") (A.drop p ++ fileEnd p) p
    (A.drop p ++ b!"startxref\n" ++ natDec p ++ b!"\n").length ⟨b!"\n", by
      rw [show A.drop p ++ fileEnd p = A.drop p ++ b!"startxref\n" ++ natDec p ++ b!"\n" ++ b!"%%EOF\n" by simp [fileEnd]]
      rw [List.drop_left' rfl]
      rfl⟩ (by simp [fileEnd])
  refine ⟨p + j, ?_, ?_⟩
  · have : F.length = A.length + (fileEnd p).length := by rw [hF]; simp
    simp only [List.length_append, List.length_drop, List.length_cons, List.length_nil, fileEnd] at j1 this ⊢
    omega
  · intro rest
    have hl : p ≤ F.length := by rw [hF]; simp; omega
    unfold find
    rw [List.drop_append_of_le_length hl, hdr]
    exact findAux_append _ _ j2

/-- A cross-reference stream where it was written, as a section. -/
theorem xsecAt_stream [Zlib] {F A : Bytes} {pos num : Nat} {t : Dict} {content enc : Bytes} {table : List XSRow} {objs : List Entry}
    (hstart : 0 < pos) (hF : F = A ++ fileEnd pos) (hA : pos ≤ A.length)
    (hp : PointsAt F pos num 0 (.stream t content enc)) (hs : Storable (.stream t content enc))
    {w ix : List Obj} (hw : Dict.get? t b!"/W" = some (.list w)) (hw' : ∀ o ∈ w, ∃ k : Nat, o = .int k)
    (hi : Dict.get? t b!"/Index" = some (.list ix)) (hi' : ∀ o ∈ ix, ∃ k : Nat, o = .int k)
    (hraw : parseXrefStreamRaw t content = .ok table) (hent : streamEntries table = .ok objs)
    (hobjs : ∀ e ∈ objs, XEntry F.length e) : XSecAt F ⟨pos, pos, some num, objs, (normEntries t).reverse⟩ := by
  obtain ⟨k1, -, -, -, k5⟩ := streamSec_of hp hs hw hw' hi hi' hraw hent
  refine ⟨hstart, Nat.le_refl _, k1, hobjs, ?_, ?_, k5, eof_of_end hF hA⟩
  · intro rest x ep last
    obtain ⟨j1, j2, j3, -⟩ := streamSec_of (PointsAt.append hp rest) hs hw hw' hi hi' hraw hent
    simp only
    unfold readSection
    rw [single_read_at (by omega) (by omega), single_read_at (by omega) (by omega)]
    have hn : natPos (pos : Int) = .ok pos := by simp [natPos]
    simp only [bind, Except.bind, hn]
    rw [if_neg j2, j3]
    rfl
  · intro rest
    obtain ⟨-, -, -, j4, -⟩ := streamSec_of (PointsAt.append hp rest) hs hw hw' hi hi' hraw hent
    exact j4

/-- A table, as a section. -/
def Sec.toX (s : Sec) : XSec := ⟨s.pos, s.tp, none, s.objs, s.tr⟩

theorem SecAt.toX [Zlib] {F : Bytes} {s : Sec} (h : SecAt F s) : XSecAt F s.toX := by
  have h1 := h.tp
  have h2 := h.room
  refine ⟨h.pos, Nat.le_of_lt h1, h2, ?_, ?_, h.trailer, h.nodup, h.eof⟩
  · intro e he
    obtain ⟨n, p, gen, k1, k2, rfl⟩ := h.objs e he
    exact ⟨n, gen, k1, .inl ⟨p, by omega, rfl⟩⟩
  · intro rest x ep last
    exact readSection_at (h.append rest) x ep last

/-- A revision written after `pre`: the section it makes (`s`), the trailer before (`t`) and after (`t'`), the index and the
cache after. `xnum` is the number of the cross-reference stream, 0 for a table. -/
structure RevOut [Zlib] (chg : List Change) (rev : Rev) (cache : List Obj) (pre new : Bytes) (xnum : Nat) (idx : Rev)
    (cache' : List Obj) (s : XSec) (t t' : Dict) : Prop where
  root : cache[0]? = some (.dict t)
  root' : cache' = cache.set 0 (.dict t')
  keys : ∀ k, ¬ XrefKey k → Dict.get? t' k = Dict.get? t k
  wf : WF false false (.dict t') = true
  tr : s.tr = (normEntries t').reverse
  sec : XSecAt (pre ++ new) s
  ends : fileEnd s.pos <:+ new
  after : pre.length < s.pos
  head : ∃ e0, idx[0]? = some (.one e0) ∧ prevPos e0 = .int s.pos
  len : idx.length = rev.length
  same : ∀ n : Nat, 1 ≤ n → n ≠ xnum → (∀ c ∈ chg, c.act ≠ .d → c.num ≠ n) → idx[n]? = rev[n]?
  placed : ∀ c ∈ chg, c.act ≠ .d → ∃ (en : Entry) (obj : Obj) (off : Nat) (next : Int) (e : Entry), rev[c.num]? = some (.one en) ∧
    idx[c.num]? = some (.one (placed en off next)) ∧ pre.length < off ∧ ToWrite cache c.num obj ∧
    PointsAt (pre ++ new) off c.num en.gen obj ∧ lastFor c.num s.objs = some e ∧ e.absPos = some (.at off)
  objs : ∀ e ∈ s.objs, e.envNum = none ∧ ((e.num = xnum ∧ xnum ≠ 0) ∨ ∃ c ∈ chg, c.act ≠ .d ∧ e.num = c.num)
  own : xnum ≠ 0 → ∃ (en : Entry) (p : Nat) (next : Int), rev[xnum]? = some (.one en) ∧ idx[xnum]? = some (.one (Pdf.placed en p next))

theorem revOut_table [Zlib] {chg : List Change} {rev : Rev} {cache : List Obj} {new : Bytes} {idx : Rev} {cache' : List Obj} (pre : Bytes)
    (h : buildRevision chg rev cache pre.length 0 = .ok (new, idx, cache'))
    (hnd : (chg.map (·.num)).Nodup) (h1 : ∀ c ∈ chg, 1 ≤ c.num)
    (hemb : ∀ c ∈ chg, c.act ≠ .d → ∀ e, rev[c.num]? = some (.one e) → e.envNum = none)
    (hwf : ∀ t, cache[0]? = some (.dict t) → WF false false (.dict t) = true) :
    ∃ s t, RevOut chg rev cache pre new 0 idx cache' s t t := by
  obtain ⟨hcc, hw⟩ := buildRevision_written pre h hnd h1 hemb
  obtain ⟨s, t, s1, s2, s3, s4, s5, ⟨e0, s6, s7⟩, s8, s9, -⟩ := buildRevision_sec pre h hnd h1 hemb hwf
  subst hcc
  have hp := s2.pos
  refine ⟨s.toX, t, s1, ?_, fun _ _ => rfl, hwf t s1, s4, s2.toX, s3, s5, ⟨e0, s6, ?_⟩, hw.len, fun n hn _ => hw.same n hn, ?_, ?_, fun k => absurd rfl k⟩
  · apply List.ext_getElem?
    intro n
    by_cases hn : n = 0
    · subst hn
      rw [getElem?_set_eq' _ _ (lt_of_getElem? s1), s1]
    · rw [getElem?_set_ne' _ _ (Ne.symm hn)]
  · unfold prevPos
    rw [s7]
    simp only [Sec.toX]
    rw [if_pos (by omega)]
  · intro c hc ha
    obtain ⟨en, obj, off, next, k1, k2, k3, k4, k5⟩ := hw.placed c hc ha
    obtain ⟨e1, he1, he2⟩ := s9 c hc ha
    obtain ⟨le, hle⟩ := lastFor_some he1 he2
    obtain ⟨hle1, hle2⟩ := lastFor_mem hle
    obtain ⟨c', -, -, off', ei, j1, j2, j3, j4⟩ := s8 le hle1
    have hcc : c'.num = c.num := by rw [hle2] at j1; omega
    rw [hcc, k2] at j2
    cases j2
    have hoff : off' = off := by
      simp only [Pdf.placed, Option.some.injEq, Pos.at.injEq] at j3
      omega
    subst hoff
    exact ⟨en, obj, off', next, le, k1, k2, k3, k4, k5, hle, j4⟩
  · intro e he
    obtain ⟨n, p, gen, -, -, hg⟩ := s2.objs e he
    obtain ⟨c, hc, ha, off, ei, j1, -⟩ := s8 e he
    exact ⟨by rw [hg], .inr ⟨c, hc, ha, j1⟩⟩

theorem pyMax_mem {l : List Nat} {m : Nat} (h : pyMax l = .ok m) : m ∈ l := by
  cases l with
  | nil => cases h
  | cons a l =>
    simp only [pyMax, Except.ok.injEq] at h
    subst h
    induction l generalizing a with
    | nil => simp
    | cons b l ih =>
      rw [List.foldl_cons]
      rcases List.mem_cons.1 (ih (max a b)) with k | k
      · rw [k]
        rcases Nat.le_total a b with hab | hab
        · rw [Nat.max_eq_right hab]; simp
        · rw [Nat.max_eq_left hab]; simp
      · simp [k]

theorem pointsAt_room {F : Bytes} {p num gen : Nat} {o : Obj} (h : PointsAt F p num gen o) : p < F.length := by
  obtain ⟨ss, -, rr, h2⟩ := h
  refine Classical.byContradiction fun hl => ?_
  rw [List.drop_eq_nil_of_le (by omega)] at h2
  simp [indirect] at h2

theorem revOut_stream [Zlib] {chg : List Change} {rev : Rev} {cache : List Obj} {new : Bytes} {idx : Rev} {cache' : List Obj} {xnum : Nat}
    (pre : Bytes) (h : buildRevision chg rev cache pre.length xnum = .ok (new, idx, cache')) (hx0 : xnum ≠ 0)
    (hnd : (chg.map (·.num)).Nodup) (h1 : ∀ c ∈ chg, 1 ≤ c.num) (hxn : ∀ c ∈ chg, c.num ≠ xnum)
    (hemb : ∀ c ∈ chg, c.act ≠ .d → ∀ e, rev[c.num]? = some (.one e) → e.envNum = none)
    (hwf : ∀ t, cache[0]? = some (.dict t) → WF false false (.dict t) = true)
    (hz : ∀ e, rev[0]? = some (.one e) → e.xrefTablePos = none)
    (hxs : ∀ p t content enc, PointsAt (pre ++ new) p xnum 0 (.stream t content enc) → encodeStream content t = .ok enc →
      XrefContent t content → WF false false (.dict t) = true →
      (∀ t0, cache[0]? = some (.dict t0) → ∀ k, ¬ XrefKey k → Dict.get? t k = Dict.get? t0 k) →
      (∃ m, m < (pre ++ new).length ∧ Dict.get? t b!"/W" = some (.list [.int 1, .int (xrefWidth m), .int (xrefWidth m)])) →
      Storable (.stream t content enc)) :
    ∃ s t t', RevOut chg rev cache pre new xnum idx cache' s t t' := by
  obtain ⟨xref, st, t, t', built, e0, ex, block, cache1, q1, q2, q3, q4, q5, q6, q7, q8, q9, q10⟩ := buildRevision_stream_inv hx0 h
  obtain ⟨p1, -, s1, -, s2⟩ := envPass_spec _ _ _ _ q1
  have hemb' : ∀ c ∈ (⟨0, 0, .d⟩ :: chg : List Change), c.act ≠ .d → ∀ e, rev[c.num]? = some (.one e) → e.envNum = none := by
    intro c hc hd
    rcases List.mem_cons.1 hc with rfl | hc
    · exact absurd rfl hd
    · exact hemb c hc hd
  have hcache : cache1 = cache := by
    apply List.ext_getElem?
    intro n
    apply s2
    intro c hc en hd hen
    left
    rw [hemb' c hc hd _ hen]
    rfl
  subst hcache
  have h0 : ∀ c ∈ chg, c.num ≠ 0 := fun c hc => by have := h1 c hc; omega
  have hnd' : (((⟨0, 0, .d⟩ : Change) :: chg).map (·.num)).Nodup := by
    rw [List.map_cons, List.nodup_cons]
    refine ⟨?_, hnd⟩
    intro hm
    obtain ⟨c, hc, hc0⟩ := List.mem_map.1 hm
    exact h0 c hc hc0
  obtain ⟨g1, -, -, -⟩ := mainPass_grows _ _ pre.length _ _ q2 rfl
  obtain ⟨⟨more, hmore⟩, -, m3, m4⟩ := mainPass_placed rev cache1 pre _ _ q2 hnd' (by simp) (fun _ _ => rfl) hemb'
  obtain ⟨m1, -, -⟩ := mainPass_cell _ _ _ _ _ q2
  obtain ⟨maxc, rows, index, enc0, ser0, dd, hmaxc, -, -, hdd, -, htr', -, -⟩ := formatXrefStream_inv q5
  have hW : Dict.get? t' b!"/W" = some (.list [.int 1, .int (xrefWidth maxc), .int (xrefWidth maxc)]) := by
    rw [htr', hdd, Dict.get?_set, if_neg (by decide), Dict.get?_set, if_neg (by decide),
      Dict.get?_set, if_pos rfl]
  have hI : Dict.get? t' b!"/Index" = some (.list (index.map fun (n : Nat) => .int n)) := by
    rw [htr', hdd, Dict.get?_set, if_neg (by decide), Dict.get?_set, if_pos rfl]
  have hother : ∀ k, ¬ XrefKey k → Dict.get? t' k = Dict.get? t k := by
    intro k hk
    unfold XrefKey at hk
    have a1 : k ≠ b!"/Type" := fun e => hk (.inl e)
    have a2 : k ≠ b!"/Length" := fun e => hk (.inr (.inl e))
    have a3 : k ≠ b!"/W" := fun e => hk (.inr (.inr (.inl e)))
    have a4 : k ≠ b!"/Index" := fun e => hk (.inr (.inr (.inr e)))
    rw [htr', hdd, Dict.get?_set, if_neg a2, Dict.get?_set, if_neg a4, Dict.get?_set, if_neg a3, Dict.get?_set, if_neg a2,
      Dict.get?_set, if_neg a1]
  have hwf' : WF false false (.dict t') = true := by
    have hint : ∀ l : List Nat, WFItems true true (l.map fun (n : Nat) => Obj.int n) = true := by
      intro l
      induction l with
      | nil => rfl
      | cons a l ih => simp [WFItems, WF, ih]
    rw [htr', hdd]
    refine wf_set (wf_set (wf_set (wf_set (wf_set (hwf t q3) (by decide) (by decide)) (by decide) rfl) (by decide) rfl) (by decide) ?_) (by decide) rfl
    simp only [WF]
    exact hint _
  obtain ⟨content, enc, ser, table, c1, c2, c3, c4, c5, bw, rws, c6, c7, c8, c9⟩ := xrefStream_parts _ _ _ _ _ _ q5
  have hF : pre ++ new = pre ++ st.frags ++ built ++ fileEnd st.counter := by rw [q9]; simp
  have hn : (pre ++ st.frags).length = st.counter := by rw [g1]; simp
  have hpts : PointsAt (pre ++ new) st.counter xnum 0 (.stream t' content enc) := by
    refine ⟨ser, c2, ?_⟩
    rw [hF, List.append_assoc (pre ++ st.frags), List.drop_append, List.drop_eq_nil_of_le (by omega), hn, Nat.sub_self]
    refine ⟨fileEnd st.counter, ?_⟩
    rw [c1]
    simp [indirect, show natDec 0 = b!"0" from rfl]
  have hlim : (pre ++ new).length > st.counter := by
    rw [hF, List.length_append, List.length_append, hn]
    simp [fileEnd]
    omega
  have hdir := direct_elem q1 q2 hnd h0
  have hcomp := passes_complete q1 q2 rfl pre.length rfl
  obtain ⟨moreM, -, -, -, -, -, m6⟩ := mainPass_spec rev cache1 pre _ _ q2 hnd' rfl (fun c _ e he => ⟨e, he, rfl⟩)
  have hwidth : maxc < (pre ++ new).length := by
    obtain ⟨x, hx, hxc⟩ := List.mem_filterMap.1 (pyMax_mem hmaxc)
    rcases List.mem_append.1 hx with hx | hx
    · rcases m6 x ((mem_sortElems _ _).1 hx) with k | ⟨-, k, -⟩ | ⟨c, hc, en, obj, off, d1, d2, d3, d4, d5, d6, d7, d8, d8', d9, -⟩
      · rcases p1 x k with k | ⟨k1, k2, k3, c, k4, en, k5, k6, k7, k8⟩
        · cases k
        · rw [← k8, hemb' c k4 k5 _ k7] at k3
          exact absurd rfl k3
      · rw [k] at hxc; cases hxc
      · rw [d6] at hxc
        cases hxc
        have := pointsAt_room d9
        rw [hn] at this
        omega
    · rw [List.mem_singleton] at hx
      subst hx
      cases hxc
      exact hlim
  have hstor := hxs _ _ _ _ hpts c3 (xrefContent_of c6 c7 c8 c9) hwf' (fun t0 h0 => by rw [q3] at h0; cases h0; exact hother)
    ⟨maxc, hwidth, hW⟩
  generalize helems : sortElems st.xref ++ [⟨false, xnum, 0, some st.counter, none⟩] = elems at c5
  have hst := streamEntries_elems table elems c5
  generalize hobjs : elems.filterMap elemRead = objs at hst
  have hmem : ∀ e, e ∈ objs ↔ ∃ x ∈ elems, elemRead x = some e := by
    intro e
    rw [← hobjs, List.mem_filterMap]
  have hel : ∀ x, x ∈ elems ↔ x ∈ st.xref ∨ x = ⟨false, xnum, 0, some st.counter, none⟩ := by
    intro x
    rw [← helems, List.mem_append, mem_sortElems, List.mem_singleton]
  have hpos : pre.length < st.counter := by rw [g1, hmore]; simp
  -- every element in use
  have hclass : ∀ x ∈ st.xref, x.num ≠ 0 → x.free = false → x.env = none ∧ ∃ c ∈ chg, c.act ≠ .d ∧ x.num = c.num := by
    intro x hx hxn0 hfr
    rcases m6 x hx with k | ⟨k1, -⟩ | ⟨c, hc, en, obj, off, d1, d2, d3, d4, d5, d6, d7, d8, -⟩
    · rcases p1 x k with k | ⟨k1, k2, k3, c, k4, en, k5, k6, k7, k8⟩
      · cases k
      · rw [← k8, hemb' c k4 k5 _ k7] at k3
        exact absurd rfl k3
    · rw [hfr] at k1; cases k1
    · rcases List.mem_cons.1 hc with rfl | hc
      · exact absurd rfl d1
      · exact ⟨by rw [d7, hemb c hc d1 _ d3], c, hc, d1, d2⟩
  have hread : ∀ e ∈ objs, (e = { num := xnum, gen := 0, absPos := some (.at (st.counter : Nat)) }) ∨
      ∃ c ∈ chg, c.act ≠ .d ∧ ∃ (off : Nat) (ei : Entry) (gen : Nat), e = { num := c.num, gen := gen, absPos := some (.at off) } ∧
        off < (pre ++ new).length ∧ st.index[c.num]? = some (.one ei) ∧ ei.absPos = some (.at off) := by
    intro e he
    obtain ⟨x, hx, hr⟩ := (hmem e).1 he
    rcases (hel x).1 hx with hx | rfl
    · obtain ⟨a1, a2, a3⟩ := elemRead_num hr
      obtain ⟨b1, c, hc, b2, b3⟩ := hclass x hx a2 a3
      obtain ⟨c', hc', en, obj, off, d1, d2, d3, d4, d5, d6, d7, d8, d9, d10, ei, i1, i2, i3⟩ := hdir x hx a3 (by rw [b1]; rfl)
      unfold elemRead at hr
      rw [if_neg (by simp [a2, a3]), b1, if_neg (by simp), d6] at hr
      cases hr
      refine .inr ⟨c', hc', d1, off, ei, x.gen, by rw [d2]; rfl, ?_, i1, i3⟩
      obtain ⟨ss, -, rr, hs⟩ := d10
      have : off < (pre ++ st.frags).length := by
        refine Classical.byContradiction fun hlt => ?_
        rw [List.drop_eq_nil_of_le (by omega)] at hs
        simp [indirect] at hs
      omega
    · left
      unfold elemRead at hr
      rw [if_neg (by simp [hx0]), if_neg (by simp)] at hr
      cases hr
      rfl
  have hsec : XSecAt (pre ++ new) ⟨st.counter, st.counter, some xnum, objs, (normEntries t').reverse⟩ := by
    refine xsecAt_stream (A := pre ++ st.frags ++ built) (by omega) hF ?_ hpts hstor hW ?_ hI ?_ c4 hst ?_
    · rw [List.length_append, hn]; omega
    · intro o ho
      simp only [List.mem_cons, List.not_mem_nil, or_false] at ho
      rcases ho with rfl | rfl | rfl
      · exact ⟨1, rfl⟩
      · exact ⟨_, rfl⟩
      · exact ⟨_, rfl⟩
    · intro o ho
      obtain ⟨k, -, rfl⟩ := List.mem_map.1 ho
      exact ⟨k, rfl⟩
    · intro e he
      rcases hread e he with rfl | ⟨c, hc, ha, off, ei, gen, rfl, hlt, -⟩
      · exact ⟨xnum, 0, by omega, .inl ⟨_, hlim, rfl⟩⟩
      · exact ⟨c.num, gen, h1 c hc, .inl ⟨off, hlt, rfl⟩⟩
  have hlt0 := lt_of_getElem? q6
  have hidx : ∀ n : Nat, n ≠ 0 → n ≠ xnum → idx[n]? = st.index[n]? := by
    intro n hn0 hnx
    rw [q10, getElem?_set_ne' _ _ (Ne.symm hn0), getElem?_set_ne' _ _ (Ne.symm hnx)]
  have hz0 : st.index[0]? = rev[0]? := m3 0 (by
    intro c hc hd
    rcases List.mem_cons.1 hc with rfl | hc
    · exact absurd rfl hd
    · exact h0 c hc)
  have hxr : st.index[xnum]? = rev[xnum]? := m3 xnum (by
    intro c hc hd
    rcases List.mem_cons.1 hc with rfl | hc
    · exact absurd rfl hd
    · exact hxn c hc)
  refine ⟨⟨st.counter, st.counter, some xnum, objs, (normEntries t').reverse⟩, t, t', q3, q4, hother, hwf', rfl, hsec, ⟨_, q9.symm⟩, hpos, ?_, ?_, ?_, ?_, ?_, ?_⟩
  · refine ⟨_, by rw [q10]; exact getElem?_set_eq' _ _ (by simpa using hlt0), ?_⟩
    have := hz e0 (by rw [← hz0]; exact q6)
    simp [prevPos, this]
  · rw [q10]
    simpa using m1
  · intro n hn hnx hc
    rw [hidx n (by omega) hnx]
    apply m3
    intro c hcm hd
    rcases List.mem_cons.1 hcm with rfl | hcm
    · exact absurd rfl hd
    · exact hc c hcm hd
  · intro c hc ha
    obtain ⟨en, obj, off, next, k1, k2, k3, k4, k5⟩ := m4 c (by simp [hc]) ha
    have hix : idx[c.num]? = some (.one (Pdf.placed en off next)) := by
      rw [hidx _ (h0 c hc) (hxn c hc)]; exact k2
    -- its entry in the section
    obtain ⟨x, hx, e1, e2, e3, -⟩ := hcomp c (by simp [hc])
    have hfree : x.free = false := by rw [e2]; simpa using ha
    have hin : ∃ e ∈ objs, e.num = c.num := by
      obtain ⟨b1, -⟩ := hclass x hx (by rw [e1]; exact h0 c hc) hfree
      refine ⟨{ num := x.num, gen := x.gen, absPos := some (.at (x.counter.getD 0 : Nat)) }, (hmem _).2 ⟨x, (hel x).2 (.inl hx), ?_⟩, by simp [e1]⟩
      unfold elemRead
      rw [if_neg (by simp [hfree, e1, h0 c hc]), if_neg (by simp [b1])]
    obtain ⟨e1, he1, he2⟩ := hin
    obtain ⟨le, hle⟩ := lastFor_some he1 he2
    obtain ⟨hle1, hle2⟩ := lastFor_mem hle
    refine ⟨en, obj, off, next, le, k1, hix, by simp only at k3; omega, k4, ?_, hle, ?_⟩
    · rw [hF, List.append_assoc]
      exact pointsAt_append _ k5
    · rcases hread le hle1 with rfl | ⟨c', hc', ha', off', ei, gen, rfl, -, j2, j3⟩
      · have := hxn c hc
        simp only at hle2
        omega
      · have hcc : c'.num = c.num := by simp only at hle2; omega
        rw [hcc, k2] at j2
        cases j2
        exact j3.symm ▸ rfl
  · intro e he
    rcases hread e he with rfl | ⟨c, hc, ha, off, ei, gen, rfl, -⟩
    · exact ⟨rfl, .inl ⟨rfl, hx0⟩⟩
    · exact ⟨rfl, .inr ⟨c, hc, ha, rfl⟩⟩
  · intro _
    refine ⟨ex, st.counter, (st.counter : Int) + block.length, by rw [← hxr]; exact q7, ?_⟩
    rw [q10, getElem?_set_ne' _ _ (Ne.symm hx0), getElem?_set_eq' _ _ (lt_of_getElem? q7)]
    rfl

end Pdf
