/-
C86: editing sessions above files with cross-reference streams and object streams.
-/
import Verif.Lemmas.MixFiled

namespace Pdf
open Spec

/-- The file `F` is made of the sections `s :: l`, newest first, each one a table or a cross-reference stream; the
objects are in the file or in object streams of the file, and every object stream holds exactly the objects that
the newest entries place in it. -/
structure StreamFile [Zlib] (F : Bytes) (s : XSec) (l : List XSec) : Prop where
  chain : XChain F (s :: l)
  above : Above s l
  bound : EnvBound (listedX (s :: l))
  ends : EndsAt F s.pos
  wf : WF false false (.dict s.tr) = true
  kept : KeptX F (s :: l) (oldestNum (s :: l))
  min : 100 ≤ F.length
  max : F.length < 10 ^ 80

theorem streamFile_filed [Zlib] {F : Bytes} {s : XSec} {l : List XSec} {d : Doc} (h : StreamFile F s l) (hl : loads F = .ok d)
    (hopen : d.curData.eofCut = none) : FiledX d F (s :: l) (oldestNum (s :: l)) s.tr := by
  obtain ⟨d', t, h1, -, -, -, -, h2⟩ := loads_x h.chain h.above h.bound h.ends h.min h.max
  rw [h1] at hl
  cases hl
  exact h2 hopen h.wf h.kept

/-- A session, from any point of it. -/
theorem sessionX [Zlib] {N : Nat} {T0 : Dict} {d0 : Doc} : ∀ (l : List Op) {d d' : Doc} {F : Bytes} {secs : List XSec} {w : Written},
    FiledX d F secs N T0 → FitOps N d l → ops l d = .ok d' → (∀ out, stored d' = .ok out → XsOk T0 N out) →
    d.cur.length = w.next →
    (∀ (n : Nat) (g : Int), 1 ≤ n → n ≠ N → view d (.ref g n) = match w.val n with
      | some o => .ok o
      | none => view d0 (.ref g n)) →
    (∃ b more, FiledX d' (F ++ b) (more ++ secs) N T0) ∧ d'.cur.length = (l.foldl Written.op w).next ∧
    ∀ (n : Nat) (g : Int), 1 ≤ n → n ≠ N → view d' (.ref g n) = match (l.foldl Written.op w).val n with
      | some o => .ok o
      | none => view d0 (.ref g n)
  | [], d, d', F, secs, w, h, _, hl, _, hw, hv => by
    cases hl
    exact ⟨⟨[], [], by rw [List.append_nil]; exact h⟩, hw, hv⟩
  | o :: l, d, d', F, secs, w, h, hf, hl, hx, hw, hv => by
    have hl0 := hl
    unfold ops at hl
    obtain ⟨d1, h1, hl'⟩ := bind_eq_ok hl
    clear hl
    obtain ⟨hfo, hrest0⟩ := hf
    have hrest := hrest0 d1 h1
    clear hrest0
    rw [List.foldl_cons]
    cases o with
    | add o =>
      simp only [Op.run] at h1
      rcases ha : addObject d o with x | ⟨d2, n⟩
      · rw [ha] at h1; cases h1
      · rw [ha] at h1; cases h1
        obtain ⟨g1, g2, g3, g4⟩ := viewX_add h hfo ha
        refine sessionX l (filedX_add h hfo ha) hrest hl' hx (by simp only [Written.op, Written.step]; omega) ?_
        intro m g hm hmN
        simp only [Written.op, Written.step]
        by_cases hmn : m = n
        · rw [if_pos (by omega), hmn]
          exact g3 g
        · rw [if_neg (by omega), g4 g m hm hmn]
          exact hv m g hm hmN
    | set n o =>
      obtain ⟨g1, g2, g3⟩ := viewX_set h hfo h1
      refine sessionX l (filedX_set h hfo h1) hrest hl' hx (by simp only [Written.op, Written.step]; omega) ?_
      intro m g hm hmN
      simp only [Written.op, Written.step]
      by_cases hmn : m = n
      · rw [if_pos hmn, hmn]
        exact g2 g
      · rw [if_neg hmn, g3 g m hm hmn]
        exact hv m g hm hmN
    | get r =>
      cases h1
      refine sessionX l (filedX_reads h r) hrest hl' hx ?_ ?_
      · simp only [Written.op]
        rw [← hw]
        unfold reads
        rcases hg : getObject d r with x | ⟨o, d1⟩
        · rfl
        · simp only [reads]
          rw [(getObject_filled h.coh hg).eq]
      · intro m g hm hmN
        rw [C25_reads_partial d h.coh [r]]
        exact hv m g hm hmN
    | commit =>
      simp only [Op.run] at h1
      by_cases hch : changes d = []
      · rw [C21_noop d hch] at h1
        cases h1
        exact sessionX l h hrest hl' hx hw hv
      · obtain ⟨b, s, h2, h3, h4, -⟩ := filedX_commit h hch h1 (by
          intro F1 hF1
          obtain ⟨b1, k1⟩ := storedAs_commit h.storedAs h1
          obtain ⟨b2, k2⟩ := storedAs_ops l k1 hl'
          rw [k1.bytes] at hF1
          cases hF1
          exact (hx _ k2.bytes).prefix)
        obtain ⟨⟨b', more, h5⟩, h6, h7⟩ := sessionX (d0 := d0) l h2 hrest hl' hx (w := w.op .commit) (by simp only [Written.op]; omega) (by
          intro m g hm hmN
          rw [h3 g m hm hmN]
          exact hv m g hm hmN)
        exact ⟨⟨b ++ b', more ++ [s], by simpa using h5⟩, h6, h7⟩

theorem xrefWidth_le {m : Nat} (h : m + 1 < 2 ^ 32) : xrefWidth m ≤ 4 := by
  unfold xrefWidth
  have := (Nat.log2_lt (n := m + 1) (k := 32) (by omega)).2 h
  omega

/-- Tables: there is nothing to suppose about cross-reference streams. -/
theorem xsOk_table [Zlib] (T0 : Dict) (out : Bytes) : XsOk T0 0 out := fun h => absurd rfl h

/-- Without a filter on the cross-reference streams, and in files of less than 4 GiB, there is nothing to suppose either. -/
theorem xsOk_plain [Zlib] {T0 : Dict} {N : Nat} {out : Bytes} (hf : Dict.get? T0 b!"/Filter" = none) (hlen : out.length < 2 ^ 32) :
    XsOk T0 N out := by
  intro _ p t c enc h1 h2 h3 h4 h5 h6 ⟨m, h7, h8⟩
  have hfn : Dict.get? t b!"/Filter" = none := by
    rw [h5 _ (by unfold FileKey MovingKey XrefKey; decide), hf]
  obtain ⟨k1, k2, k3⟩ := xrefContent_clean h3 (by
    intro b hb
    rw [h8] at hb
    simp only [Option.some.injEq, Obj.list.injEq, List.cons.injEq, Obj.int.injEq] at hb
    have := xrefWidth_le (m := m) (by omega)
    omega)
  have henc : enc = c := by
    unfold encodeStream at h2
    simp only [hfn] at h2
    simpa using h2.symm
  subst henc
  refine ⟨h4, k1, k2, k3, ?_⟩
  unfold decodeStream
  simp only [hfn]

/-- With the filter /FlateDecode, what is to be supposed is about the bytes out of zlib. -/
theorem xsOk_flate [Zlib] (hz : ZlibLaw) {T0 : Dict} {N : Nat} {out : Bytes}
    (hf : Dict.get? T0 b!"/Filter" = some (.str b!"/FlateDecode") ∧ Parms T0)
    (hx : ∀ p t content, XrefContent t content → PointsAt out p N 0 (.stream t content (Zlib.compress content)) →
      Clean (Zlib.compress content)) : XsOk T0 N out := by
  intro _ p t c enc h1 h2 h3 h4 h5 h6 _
  have hfl := (h5 b!"/Filter" (by unfold FileKey MovingKey XrefKey; decide)).trans hf.1
  have hdp := h6 hf.2
  have hsp : strSplit b!"/FlateDecode" = [b!"/FlateDecode"] := by decide
  have henc : enc = Zlib.compress c := by
    unfold encodeStream at h2
    simp only [hfl, encodeLoop] at h2
    simpa using h2.symm
  subst henc
  obtain ⟨k1, k2, k3⟩ := hx p t c h3 h1
  refine ⟨h4, k1, k2, k3, ?_⟩
  unfold decodeStream
  simp only [hfl, hdp, hsp, List.map_cons, List.map_nil, List.length_cons, List.length_nil, List.replicate]
  simp [decodeLoop, flateStage, hasPredictor, hz c]

/-- **C86, map.** Above a file with tables, cross-reference streams and object streams, a session of any number of
operations and revisions is a map: each number shows the last value given to it, or else what the file gives.

Missing from the full claim: the number of the cross-reference streams; sessions that replace an object stream whose
objects are in use, or one object of an object stream before the others of this stream are read (`FitOps`). -/
theorem C86_map_partial [Zlib] {F : Bytes} {s : XSec} {l : List XSec} {d0 d : Doc} {os : List Op} (hF : StreamFile F s l)
    (h0 : loads F = .ok d0) (hopen : d0.curData.eofCut = none) (hfit : FitOps (oldestNum (s :: l)) d0 os) (hos : ops os d0 = .ok d)
    (hxs : ∀ out, stored d = .ok out → XsOk s.tr (oldestNum (s :: l)) out) :
    let w := os.foldl Written.op ⟨d0.cur.length, fun _ => none⟩
    d.cur.length = w.next ∧
    ∀ (n : Nat) (g : Int), 1 ≤ n → n ≠ oldestNum (s :: l) → view d (.ref g n) = match w.val n with
      | some o => .ok o
      | none => view d0 (.ref g n) :=
  (sessionX os (streamFile_filed hF h0 hopen) hfit hos hxs rfl (fun _ _ _ _ => rfl)).2

theorem filedX_write [Zlib] {d d' : Doc} {F out : Bytes} {secs : List XSec} {N : Nat} {T0 : Dict} (h : FiledX d F secs N T0)
    (hw : writeFile d = .ok (out, d')) (hxs : XsOk T0 N out) :
    ∃ b more, out = F ++ b ∧ FiledX d' out (more ++ secs) N T0 ∧
      (∀ (g : Int) (n : Nat), 1 ≤ n → n ≠ N → view d' (.ref g n) = view d (.ref g n)) ∧
      ∀ (n : Nat), 1 ≤ n → n ≠ N → (∀ e, d.cur[n]? = some (.one e) → ∃ e', d'.cur[n]? = some (.one e') ∧ e'.deleted = e.deleted) ∧
        ((d.cur[n]? = none ∨ d.cur[n]? = some .hole) → d'.cur[n]? = d.cur[n]?) := by
  obtain ⟨h1, h2⟩ := writeFile_inv hw
  by_cases hch : changes d = []
  · rw [C21_noop d hch] at h1
    cases h1
    rw [h.bytes] at h2
    cases h2
    exact ⟨[], [], by simp, h, fun _ _ _ _ => rfl, fun n _ _ => ⟨fun e he => ⟨e, he, rfl⟩, fun _ => rfl⟩⟩
  · obtain ⟨b, s, h3, h4, -, h5⟩ := filedX_commit h hch h1 (by
      intro o ho
      rw [h2] at ho
      cases ho
      exact hxs)
    rw [h3.bytes] at h2
    cases h2
    exact ⟨b, [s], rfl, h3, h4, h5⟩

/-- What `FiledX` says when nothing is left to write. -/
theorem filedX_view [Zlib] {d : Doc} {F : Bytes} {secs : List XSec} {N : Nat} {T0 : Dict} (h : FiledX d F secs N T0) (hch : changes d = [])
    {n : Nat} (hn : 1 ≤ n) (hN : n ≠ N) {e : Entry} (he : d.cur[n]? = some (.one e)) (hdel : e.deleted = false) (g : Int) :
    ∃ v v', view d (.ref g n) = .ok v ∧ FileSays F secs n v' ∧ (v = v' ∨ pyEq v v' = true) := by
  have hp := unchangedX h hn he hdel (fun c hc => by rw [hch] at hc; cases hc)
  obtain ⟨v', q1, q2⟩ := h.live n e hn hN he hdel hp
  have hlt : n < d.cache.length := by have := h.cells; have := lt_of_getElem? he; omega
  have hcache := List.getElem?_eq_getElem hlt
  refine ⟨if d.cache[n] = .null then v' else d.cache[n], v', ?_, held_says q1, ?_⟩
  · rw [view_spec h.coh, slotAt_eq he, cacheAt_eq hcache]
    simp only [bind, Except.bind, Slot.isDeleted, hdel, Bool.false_eq_true, if_false, pure, Except.pure]
    rw [held_value hn q1]
    by_cases hc : d.cache[n] = .null
    · rw [if_pos hc, if_neg (by simp [hc])]
    · rw [if_neg hc, if_pos hc]
  · rcases q2 _ hcache with k | k
    · rw [if_pos k]
      exact .inl rfl
    · split
      · exact .inl rfl
      · exact k

/-- **C86, reload.** The document is written: the file begins with the bytes of the one that was loaded, it can be
loaded, and each object in use shows an equal value; the numbers that were never used still show nothing; the entries of
the trailer are those of the beginning of the session.

Missing from the full claim: what `C86_map_partial` leaves out, and the numbers that are deleted (C68 is false). -/
theorem C86_reload_partial [Zlib] {F out : Bytes} {s : XSec} {l : List XSec} {d0 d d' : Doc} {os : List Op} (hF : StreamFile F s l)
    (h0 : loads F = .ok d0) (hopen : d0.curData.eofCut = none) (hfit : FitOps (oldestNum (s :: l)) d0 os) (hos : ops os d0 = .ok d)
    (hw : writeFile d = .ok (out, d')) (hmax : out.length < 10 ^ 80) (hxs : XsOk s.tr (oldestNum (s :: l)) out) :
    F <+: out ∧ ∃ dl, loads out = .ok dl ∧
      (∀ (g : Int) (n : Nat) (e : Entry), 1 ≤ n → n ≠ oldestNum (s :: l) → d.cur[n]? = some (.one e) → e.deleted = false →
        ∃ v v', view d (.ref g n) = .ok v ∧ view dl (.ref g n) = .ok v' ∧ (v = v' ∨ pyEq v v' = true)) ∧
      (∀ (g : Int) (n : Nat), 1 ≤ n → n ≠ oldestNum (s :: l) → (d.cur[n]? = none ∨ d.cur[n]? = some .hole) →
        ∃ x, view dl (.ref g n) = .error x) ∧
      ∃ t tl, d.cache[0]? = some (.dict t) ∧ dl.cache[0]? = some (.dict tl) ∧
        ∀ k, ¬ FileKey k → Dict.get? t k = Dict.get? s.tr k ∧ SameOpt (Dict.get? t k) (Dict.get? tl k) := by
  have hf0 := streamFile_filed hF h0 hopen
  obtain ⟨w1, w2⟩ := writeFile_inv hw
  obtain ⟨b, more, hf⟩ := filedX_ops os hf0 hfit hos (by
    intro F1 hF1
    obtain ⟨b1, k1⟩ := storedAs_ops os hf0.storedAs hos
    obtain ⟨b2, k2⟩ := storedAs_commit k1 w1
    rw [k1.bytes] at hF1
    cases hF1
    rw [k2.bytes] at w2
    cases w2
    exact hxs.prefix)
  obtain ⟨b', more', hout, hf', hviews, hcells⟩ := filedX_write hf hw hxs
  have hsecs := hf'.some_sec
  rcases hse : (more' ++ (more ++ s :: l)) with _ | ⟨s', l'⟩
  · exact absurd hse hsecs
  rw [hse] at hf'
  have hch := C21_changes d d' w1
  have hlen : F.length ≤ out.length := by rw [hout]; simp
  obtain ⟨dl, tl, l1, l2, l3, -, l4, -⟩ := loads_x hf'.chain (hf'.ends s' rfl).2 hf'.bound (hf'.ends s' rfl).1 (by have := hF.min; omega) hmax
  refine ⟨⟨b ++ b', by rw [hout, List.append_assoc]⟩, dl, l1, ?_, ?_, ?_⟩
  · intro g n e hn hN he hdel
    obtain ⟨e', k1, k2⟩ := (hcells n hn hN).1 e he
    obtain ⟨v, v', j1, j2, j3⟩ := filedX_view hf' hch hn hN k1 (by rw [k2]; exact hdel) g
    exact ⟨v, v', by rw [← hviews g n hn hN]; exact j1, fresh_view l2 hn j2 g, j3⟩
  · intro g n hn hN hh
    have hh' := (hcells n hn hN).2 hh
    rw [← hh'] at hh
    exact fresh_none l2 hn (hf'.never n hn hh) g
  · obtain ⟨t, r1, -, -, -, r5, -⟩ := hf.root
    obtain ⟨t', q1, -, -, -, q5, -, q7⟩ := hf'.root
    refine ⟨t, tl, r1, l3, ?_⟩
    intro k hk
    refine ⟨r5 k hk, ?_⟩
    rw [r5 k hk, ← q5 k hk, l4 k hk]
    exact q7 s' rfl k hk

theorem nodup_entry {objs : List Entry} (h : (objs.map (·.num)).Nodup) {a b : Entry} (ha : a ∈ objs) (hb : b ∈ objs) (hab : a.num = b.num) :
    a = b := by
  obtain ⟨i, hi⟩ := List.mem_iff_getElem?.1 ha
  obtain ⟨j, hj⟩ := List.mem_iff_getElem?.1 hb
  have hij : i = j := by
    refine (List.getElem?_inj (l := objs.map (·.num)) (by simpa using lt_of_getElem? hi) h).1 ?_
    rw [List.getElem?_map, List.getElem?_map, hi, hj]
    simp [hab]
  subst hij
  rw [hi] at hj
  cases hj
  rfl

theorem lastFor_nodup {objs : List Entry} (h : (objs.map (·.num)).Nodup) {a : Entry} (ha : a ∈ objs) {n : Nat} (hn : a.num = n) :
    lastFor n objs = some a := by
  obtain ⟨e, he⟩ := lastFor_some ha hn
  obtain ⟨h1, h2⟩ := lastFor_mem he
  rw [he, nodup_entry h ha h1 (by rw [hn, h2])]

theorem ReadsAs.unique [Zlib] {F : Bytes} {p : Nat} {v w : Obj} (h1 : ReadsAs F p v) (h2 : ReadsAs F p w) : v = w := by
  have k1 := h1 [] { num := 0, absPos := some (.at p), absNext := some 0 } 0 rfl rfl
  have k2 := h2 [] { num := 0, absPos := some (.at p), absNext := some 0 } 0 rfl rfl
  rw [k1] at k2
  cases k2
  rfl

/-- The files that a document in memory is written to, with a cross-reference stream and object streams (C79). -/
theorem packed_streamFile [Zlib] {F : Bytes} {pos N : Nat} {t : Dict} {objs : List Entry} (h : PackedSource F pos N t objs)
    (hmin : 100 ≤ F.length) (hmax : F.length < 10 ^ 80) :
    StreamFile F ⟨pos, pos, some N, objs, (normEntries t).reverse⟩ [] := by
  obtain ⟨A, content, enc, table, w, ix, a1, a2, a3, a4, a5, a6, a7, a8, a9, a10⟩ := h.source
  have hf := h.file
  have hlist : listedX [(⟨pos, pos, some N, objs, (normEntries t).reverse⟩ : XSec)] = objs := by simp [listedX]
  have hold : oldestNum [(⟨pos, pos, some N, objs, (normEntries t).reverse⟩ : XSec)] = N := rfl
  have hkind : ∀ e ∈ objs, ∃ n : Nat, e.num = n ∧ 1 ≤ n ∧ n ≤ N := by
    intro e he
    obtain ⟨n, gen, k1, k2, ⟨p, -, rfl⟩ | ⟨env, rank, rfl, -⟩⟩ := hf.kinds e he <;> exact ⟨n, rfl, k1, k2⟩
  have henvOk : EnvOk objs := by
    intro n le env hn hle henv
    obtain ⟨k1, k2⟩ := lastFor_mem hle
    obtain ⟨m, gen, j1, j2, ⟨p, -, rfl⟩ | ⟨env', rank, rfl, e', i1, i2, i3⟩⟩ := hf.kinds le k1
    · cases henv
    · cases henv
      exact ⟨e', lastFor_nodup hf.distinct i1 i2, i3⟩
  obtain ⟨se, se1, se2, se3⟩ := hf.self
  refine ⟨⟨?_, hf.noStm, hf.noPrev, .inl (by simp [Above]), by rw [hlist]; exact henvOk, trivial⟩, by simp [Above], ?_, .inl ⟨A, a1.symm⟩, ?_, ?_, hmin, hmax⟩
  · refine xsecAt_stream hf.start a1 a2 a3 a4 a5 a6 a7 a8 a9 a10 ?_
    intro e he
    obtain ⟨n, gen, k1, k2, ⟨p, k3, rfl⟩ | ⟨env, rank, rfl, -⟩⟩ := hf.kinds e he
    · exact ⟨n, gen, k1, .inl ⟨p, k3, rfl⟩⟩
    · exact ⟨n, gen, k1, .inr ⟨env, rank, rfl⟩⟩
  · rw [hlist]
    intro e he _
    obtain ⟨n, k1, -, k2⟩ := hkind e he
    exact ⟨se, se1, se3, by omega⟩
  · obtain ⟨k1, k2⟩ := wf_dict_iff.1 (wf_norm _ _ _ h.wf)
    refine wf_dict_iff.2 ⟨fun p hp => k1 p (by simpa [norm] using hp), ?_⟩
    exact hf.nodup
  · rw [hold]
    refine ⟨?_, ?_, ?_⟩ <;> simp only [hlist]
    · intro _
      exact ⟨se, lastFor_nodup hf.distinct se1 se2, se3⟩
    · intro n le hn hN hle
      obtain ⟨k1, k2⟩ := lastFor_mem hle
      rcases h.says le k1 (by omega) with ⟨p, m, gen, obj, j1, j2, j3, j4⟩ | ⟨m, env, members, o, j0, j1, j2, j3, j4⟩
      · refine ⟨readBack obj, le, by rw [hlist]; exact hle, .inl ⟨j1, p, j2, pointsAt_lt j3, readsAs_of j3 j4⟩⟩
      · obtain ⟨ce, p, num, gen, stm, i1, i2, i3, i4, i5, i6, i7, i8, i9⟩ := j3
        obtain ⟨cn, q1, q2, -⟩ := hkind ce i1
        have hmn : m = n := by omega
        subst hmn
        refine ⟨o, le, by rw [hlist]; exact hle, .inr ⟨env, ce, p, readBack stm, members, j1, by omega,
          by rw [hlist]; exact lastFor_nodup hf.distinct i1 i2, i3, i4, pointsAt_lt i5, readsAs_of i5 i6, i7, i8, j4, ?_⟩⟩
        intro x hx
        obtain ⟨e, y1, y2, y3⟩ := i9 x hx
        obtain ⟨k, z1, z2, -⟩ := hkind e y1
        exact ⟨k, by rw [y2, z1], z2, e, by rw [hlist]; exact lastFor_nodup hf.distinct y1 z1⟩
    · intro n le c hn hle henv
      obtain ⟨k1, k2⟩ := lastFor_mem hle
      have hN : le.num ≠ N := by
        intro hh
        rw [h.self le k1 hh] at henv
        cases henv
      rcases h.says le k1 hN with ⟨p, m, gen, obj, j1, -⟩ | ⟨m, env, members, o, j0, j1, j2, j3, j4⟩
      · rw [j1] at henv; cases henv
      rw [henv] at j1
      cases j1
      refine ⟨j2, ?_⟩
      intro ce p stm ms hce hp hr hms x hx k hk
      obtain ⟨ce', p', num, gen, stm', i1, i2, i3, i4, i5, i6, i7, i8, i9⟩ := j3
      rw [lastFor_nodup hf.distinct i1 i2] at hce
      cases hce
      rw [i4] at hp
      cases hp
      have := hr.unique (readsAs_of i5 i6)
      subst this
      rw [i7] at hms
      cases hms
      obtain ⟨e, y1, y2, y3⟩ := i9 x hx
      rw [hk] at y2
      have hek : e.num = k := (Obj.int.inj y2).symm
      exact ⟨e, lastFor_nodup hf.distinct y1 hek, y3⟩

theorem get?_normRev {t : Dict} (h : WF false false (.dict t) = true) {k : Bytes} (hk : Dict.get? t k = none) :
    Dict.get? (normEntries t).reverse k = none := by
  rw [get?_norm (wf_dict_iff.1 h).2, hk]
  rfl

/-- **C86, files of the library.** The hypothesis about the file is met by those written from a document in memory, with
a cross-reference stream and with object streams, of less than 4 GiB and without a filter on the cross-reference
stream: such a document is written, loaded, edited, written and loaded again. -/
theorem C86_own_partial [Zlib] {d1 d1' d0 d d' : Doc} {F out : Bytes} {os : List Op} (hP : Packable d1)
    (hw1 : writeFile d1 = .ok (F, d1')) (hmin : 100 ≤ F.length)
    (hclean : ∀ (n : Nat) (e : Entry) (obj : Obj), 1 ≤ n → d1.cur[n]? = some (.one e) → e.envNum = none →
      ToWrite d1'.cache n obj → Storable obj)
    (hf : ∀ t, d1.cache[0]? = some (.dict t) → Dict.get? t b!"/Filter" = none)
    (hW : ∀ t (b : Nat), d1'.cache[0]? = some (.dict t) → Dict.get? t b!"/W" = some (.list [.int 1, .int b, .int b]) → b ≤ 4)
    (h0 : loads F = .ok d0) (hopen : d0.curData.eofCut = none) (hfit : FitOps d1.cur.length d0 os) (hos : ops os d0 = .ok d)
    (hw : writeFile d = .ok (out, d')) (hlen : out.length < 2 ^ 32) (hF : F.length < 2 ^ 32) :
    F <+: out ∧ ∃ dl, loads out = .ok dl ∧
      (∀ (g : Int) (n : Nat) (e : Entry), 1 ≤ n → n ≠ d1.cur.length → d.cur[n]? = some (.one e) → e.deleted = false →
        ∃ v v', view d (.ref g n) = .ok v ∧ view dl (.ref g n) = .ok v' ∧ (v = v' ∨ pyEq v v' = true)) ∧
      (∀ (g : Int) (n : Nat), 1 ≤ n → n ≠ d1.cur.length → (d.cur[n]? = none ∨ d.cur[n]? = some .hole) →
        ∃ x, view dl (.ref g n) = .error x) := by
  have hbig : ∀ m, m < 2 ^ 32 → m < 10 ^ 80 := fun m hm => Nat.lt_trans hm (by decide)
  obtain ⟨-, -, -, -, -, -, -, pos, t', objs, t, hsrc, a1, a2, -⟩ := packed_full hP hw1 hmin (hbig _ hF) hclean (by
    intro p t c enc h1 h2 h3 h4 h5 ⟨t', h6, h7⟩ h8
    obtain ⟨t0, r1, -⟩ := hP.trailer
    have hfn := (h8 t0 r1).1.trans (hf t0 r1)
    obtain ⟨k1, k2, k3⟩ := xrefContent_clean h5 (fun b hb => hW t' b h6 (h7 ▸ hb))
    have henc : enc = c := by
      unfold encodeStream at h4
      simp only [hfn] at h4
      simpa using h4.symm
    subst henc
    refine ⟨h1, k1, k2, k3, ?_⟩
    unfold decodeStream
    simp only [hfn])
  have hsf := packed_streamFile hsrc hmin (hbig _ hF)
  obtain ⟨h1, dl, h2, h3, h4, -⟩ := C86_reload_partial hsf h0 hopen hfit hos hw (hbig _ hlen) (xsOk_plain (by
    refine get?_normRev hsrc.wf ?_
    rw [a2 _ (by unfold FileKey MovingKey XrefKey; decide)]
    exact hf t a1) hlen)
  exact ⟨h1, dl, h2, h3, h4⟩

/-! ### What the code does not do -/

theorem mainPass_deletes [Zlib] (rev : Rev) (cache : List Obj) : ∀ (l : List Change) {st st' : Build},
    (∀ c ∈ l, c.act = .d) → mainPass rev cache l st = .ok st' → st'.block = st.block
  | [], st, st', _, h => by cases h; rfl
  | c :: l, st, st', hd, h => by
    unfold mainPass at h
    rw [if_pos (hd c (by simp))] at h
    obtain ⟨gen, -, h⟩ := bind_eq_ok h
    have := mainPass_deletes rev cache l (fun c hc => hd c (by simp [hc])) h
    exact this

/-- **C86, deletions only.** In a file with cross-reference streams, a revision that only deletes objects cannot be
written: `commit` raises (`block` is read and no object has been written). -/
theorem C86_deletions_counterexample [Zlib] {d : Doc} {F : Bytes} {secs : List XSec} {N : Nat} {T0 : Dict} (h : FiledX d F secs N T0)
    (hN : N ≠ 0) (hch : changes d ≠ []) (hd : ∀ c ∈ changes d, c.act = .d) (d' : Doc) : commit d ≠ .ok d' := by
  intro hc
  obtain ⟨t, t2, t1, idx, new, i0, cache', -, c2, -⟩ := commitX_built h hch hc
  obtain ⟨xref, st, tr, tr', built, e0, ex, block, cache1, q1, q2, q3, q4, q5, q6, q7, q8, -⟩ := buildRevision_stream_inv hN c2
  have := mainPass_deletes _ _ _ (by
    intro c hc
    rcases List.mem_cons.1 hc with rfl | hc
    · rfl
    · exact hd c hc) q2
  rw [q8] at this
  cases this

/-- **C86, no placeholder.** A new document written with a cross-reference stream, and without the placeholder of
`force_xref_stream`, takes no other object: the number of the stream is in the index and not in the cache. -/
theorem C86_placeholder_counterexample [Zlib] {d d' : Doc} (hP : Packable d) (hlen : d.cache.length = d.cur.length)
    (hch : changes d ≠ []) (hc : commit d = .ok d') (o : Obj) : addObject d' o = .error .indexError := by
  obtain ⟨p, cur, cache, data, t0, t1, h1, h2, h3, h4, rfl⟩ := commit_inv hc hch
  obtain ⟨t, a1, a2, a3, a4, a5⟩ := prepare_packable hP h1
  unfold writeRevision at h2
  rw [hP.opened, hP.past] at h2
  simp only at h2
  obtain ⟨⟨v, dv⟩, hv, h2⟩ := bind_eq_ok h2
  obtain ⟨⟨new, cur', cache'⟩, hb, h2⟩ := bind_eq_ok h2
  simp only [Except.ok.injEq, Prod.mk.injEq] at h2
  obtain ⟨rfl, rfl, rfl⟩ := h2
  obtain ⟨xref, st, tr, tr', built, e0, ex, block, cache1, q1, q2, q3, q4, q5, q6, q7, q8, q9, q10⟩ := buildRevision_stream_inv a3 hb
  obtain ⟨-, -, s1, -, -⟩ := envPass_spec _ _ _ _ q1
  have hl1 : cache'.length = d.cur.length := by
    rw [q4, List.length_set, s1, a4, List.length_set, hlen]
  have hl2 : d.cur.length < cur'.length := by
    have := lt_of_getElem? q7
    rw [a2] at this
    rw [q10]
    simpa using this
  unfold addObject
  rw [if_neg (by simp only [List.length_cons, List.length_drop, List.length_append, List.length_set, List.length_nil]; omega)]

/-! ### A sample -/

def keepB [Zlib] (o : Obj) : Bool := storableB o && !isObjStm o

theorem keep_of_test [Zlib] {o : Obj} (h : keepB o = true) : Keepable o := by
  unfold keepB at h
  simp only [Bool.and_eq_true, Bool.not_eq_true'] at h
  exact ⟨storable_of_test h.1, h.2⟩

/-- A test for `FitAt`. -/
def fitAtB [Zlib] (N : Nat) (d : Doc) : Op → Bool
  | .add o => keepB o
  | .set n o => decide (1 ≤ n) && decide (n ≠ N) && (decide (o = .null) || keepB o) &&
      (List.range d.cur.length).all fun m => match d.cur[m]? with
        | some (.one e) => decide (e.envNum ≠ some n) &&
          match d.cur[n]? with
          | some (.one old) => match old.envNum with
            | some c => decide (m = n) || decide (e.envNum ≠ some c) || decide (d.cache[m]? ≠ some .null)
            | none => true
          | _ => true
        | _ => true
  | _ => true

theorem fitAt_of_test [Zlib] {N : Nat} {d : Doc} {o : Op} (h : fitAtB N d o = true) : FitAt N d o := by
  cases o with
  | add o => exact keep_of_test h
  | get r => trivial
  | commit => trivial
  | set n o =>
    simp only [fitAtB, Bool.and_eq_true, decide_eq_true_eq, Bool.or_eq_true, List.all_eq_true] at h
    obtain ⟨⟨⟨h1, h2⟩, h3⟩, h4⟩ := h
    refine ⟨h1, h2, h3.imp id keep_of_test, ?_, ?_⟩
    · intro m e he
      have := h4 m (List.mem_range.2 (lt_of_getElem? he))
      rw [he] at this
      simp only [Bool.and_eq_true, decide_eq_true_eq] at this
      exact this.1
    · intro old c hold henv m e hmn he hec
      have := h4 m (List.mem_range.2 (lt_of_getElem? he))
      rw [he] at this
      simp only [Bool.and_eq_true, decide_eq_true_eq, hold, henv, Bool.or_eq_true] at this
      rcases this.2 with (k | k) | k
      · exact absurd k hmn
      · exact absurd hec k
      · exact k

def fitOpsB [Zlib] (N : Nat) : Doc → List Op → Bool
  | _, [] => true
  | d, o :: l => fitAtB N d o && match o.run d with
    | .ok d' => fitOpsB N d' l
    | .error _ => true

theorem fitOps_of_test [Zlib] {N : Nat} : ∀ {l : List Op} {d : Doc}, fitOpsB N d l = true → FitOps N d l
  | [], _, _ => trivial
  | o :: l, d, h => by
    unfold fitOpsB at h
    rw [Bool.and_eq_true] at h
    refine ⟨fitAt_of_test h.1, ?_⟩
    intro d' hd
    rw [hd] at h
    exact fitOps_of_test h.2

/-- Both objects of an object stream are read; one of them is replaced and an integer is added in one revision, the stream
(object 3) is replaced in another one, and a last change is left to `write`. -/
def streamSession : List Op :=
  [.get (.ref 0 1), .get (.ref 0 2), .set 2 (.dict [(b!"/Type", .str b!"/Pages"), (b!"/Count", .int 7)]), .add (.int 8), .commit,
   .set 3 (.list [.int 1, .bool true]), .commit, .set 6 (.int 12)]

/-- Every hypothesis of `C86_own_partial` that is about results of the functions. -/
def sessionTest [Zlib] : Bool :=
  match forceXrefStream (memDoc packSample) false [] with
  | .ok d1 => match groupObjIntoStream d1 0 [] with
    | .ok d2 => match writeFile d2 with
      | .ok (F, d3) => decide (100 ≤ F.length) && decide (F.length < 2000) && cleanB d2.cur d3.cache && widthB d3.cache &&
        match loads F with
        | .ok d0 => decide (d0.curData.eofCut = none) && fitOpsB d2.cur.length d0 streamSession &&
          match ops streamSession d0 with
          | .ok d => match writeFile d with
            | .ok (out, _) => decide (out.length < 2000) && decide (F.length < out.length) && decide (d.past.length = 3) &&
                decide (d2.cur.length = 5)
            | .error _ => false
          | .error _ => false
        | .error _ => false
      | .error _ => false
    | .error _ => false
  | .error _ => false

theorem sessionTest_true [Zlib] : sessionTest = true := by kernel_rfl

/-- The hypotheses can be met: a document with an object stream and an xref stream, reloaded, gets three revisions more. -/
example [Zlib] : ∃ d1 d1' d0 d d' F out dl, Packable d1 ∧ writeFile d1 = .ok (F, d1') ∧ loads F = .ok d0 ∧
    ops streamSession d0 = .ok d ∧ d.past.length = 3 ∧ writeFile d = .ok (out, d') ∧ F <+: out ∧ F.length < out.length ∧
    loads out = .ok dl := by
  have hM : InMemory (memDoc packSample) := by
    refine ⟨rfl, rfl, rfl, Nat.le_of_eq rfl, ⟨_, rfl, rfl⟩, ⟨_, rfl, by decide, by decide, by decide⟩, ?_⟩
    intro n e hn he
    rw [memDoc_cur] at he
    split at he
    · cases he
      refine ⟨rfl, rfl, ?_⟩
      rename_i hlt
      have : n = 1 ∨ n = 2 ∨ n = 3 := by simp [packSample] at hlt; omega
      rcases this with rfl | rfl | rfl <;> exact ⟨_, rfl, by simp⟩
    · cases he
  have hobj : ∀ (n : Nat) (e : Entry) (o : Obj), 1 ≤ n → (memDoc packSample).cur[n]? = some (.one e) →
      (memDoc packSample).cache[n]? = some o → ¬ StaysOut e o → WF false false o = true ∧ ∀ g m, o ≠ .ref g m := by
    intro n e o hn he ho hs
    rw [memDoc_cur] at he
    split at he
    · rename_i hlt
      have : n = 1 ∨ n = 2 ∨ n = 3 := by simp [packSample] at hlt; omega
      rcases this with rfl | rfl | rfl
      · simp only [memDoc, packSample, List.getElem?_cons_succ, List.getElem?_cons_zero, Option.some.injEq] at ho
        subst ho
        exact ⟨by decide, by simp⟩
      · simp only [memDoc, packSample, List.getElem?_cons_succ, List.getElem?_cons_zero, Option.some.injEq] at ho
        subst ho
        exact ⟨by decide, by simp⟩
      · simp only [memDoc, packSample, List.getElem?_cons_succ, List.getElem?_cons_zero, Option.some.injEq] at ho
        subst ho
        exact absurd (.inl ⟨_, _, _, rfl⟩) hs
    · cases he
  have h := sessionTest_true
  unfold sessionTest at h
  split at h
  · rename_i d1 h1
    split at h
    · rename_i d2 h2
      split at h
      · rename_i F d3 h3
        simp only [Bool.and_eq_true, decide_eq_true_eq] at h
        obtain ⟨⟨⟨⟨k1, k2⟩, k3⟩, k4⟩, h⟩ := h
        split at h
        · rename_i d0 h4
          simp only [Bool.and_eq_true, decide_eq_true_eq] at h
          obtain ⟨⟨k5, k6⟩, h⟩ := h
          split at h
          · rename_i d h5
            split at h
            · rename_i out d' h6
              simp only [Bool.and_eq_true, decide_eq_true_eq] at h
              obtain ⟨⟨⟨k7, k8⟩, k9⟩, k10⟩ := h
              obtain ⟨f1, f2, f3, f4, f5⟩ := C79_force_partial hM (.inl rfl) h1
              have hback : ∀ (n : Nat) (e : Entry), 1 ≤ n → d1.cur[n]? = some (.one e) →
                  (memDoc packSample).cur[n]? = some (.one e) := fun n e hn he => by rw [← (f4 n hn).1, he]
              obtain ⟨g1, g2, g3, -⟩ := C79_group_partial f1 (by rw [f2, f3]; exact hM.len)
                (fun n e hn he => (hM.cells n e hn (hback n e hn he)).2.1)
                (fun n e o hn he ho => hobj n e o hn (hback n e hn he) (by rw [← (f4 n hn).2, ho])) h2
              obtain ⟨t, t1, -⟩ := hM.trailer
              obtain ⟨t', q1, q2, q3⟩ := f5 t t1
              rw [if_pos rfl] at q3
              have hz : d2.cache[0]? = d1.cache[0]? := by
                refine g3 0 ?_
                obtain ⟨e0, m1, -⟩ := hM.mode
                rw [f3]
                exact lt_of_getElem? m1
              obtain ⟨r1, dl, r2, -⟩ := C86_own_partial g1 h3 k1 (fun n e obj => clean_of_test k3 n e obj) (by
                intro t0 h0
                rw [hz, q1] at h0
                cases h0
                rw [q3]
                simp only [memDoc, packSample, List.getElem?_cons_zero, Option.some.injEq, Obj.dict.injEq] at t1
                subst t1
                rfl) (by
                intro t b ht hb
                unfold widthB at k4
                rw [ht] at k4
                simp only [hb] at k4
                split at k4
                · rename_i heq
                  simp at heq
                  omega
                · cases k4) h4 k5 (fitOps_of_test k6) h5 h6 (Nat.lt_trans k7 (by decide)) (Nat.lt_trans k2 (by decide))
              exact ⟨d2, d3, d0, d, d', F, out, dl, g1, h3, h4, h5, k9, h6, r1, k8, r2⟩
            · cases h
          · cases h
        · cases h
      · cases h
    · cases h
  · cases h

end Pdf
