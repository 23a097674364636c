/-
C28: written documents reload to the same objects.
C68: deleted objects after a reload.
-/
import Verif.Lemmas.Filed

namespace Pdf
open Spec

/-- A new document, without object streams nor xref streams: nothing has been written yet, the objects
are well-formed, the trailer does not lead to any file and the version in the header is on one line. -/
structure Fresh [Zlib] (d : Doc) : Prop where
  settled : Settled d
  past : d.past = []
  pastData : d.pastData = []
  trailer : ∃ t, d.cache[0]? = some (.dict t) ∧ WF false false (.dict t) = true ∧
    Dict.get? t b!"/XRefStm" = none ∧ Dict.get? t b!"/Prev" = none
  line : ∀ v, headerVersion d = .ok v → ∀ c ∈ v, isEol c = false

/-- The documents that can be obtained from a new one with the operations of a history (additions,
replacements, deletions, reads and commits) and by writing a file and loading it. The last condition excludes
the files whose last revision is not closed by the commit of `loads` (`C62_counterexample`): it only deletes. -/
inductive Made [Zlib] : Doc → Prop
  | start {d} : Fresh d → Made d
  | op {d d' o} : Made d → Op.Fit o → ops [o] d = .ok d' → Made d'
  | reload {d d' dl out} : Made d → writeFile d = .ok (out, d') → 100 ≤ out.length → out.length < 10 ^ 80 →
      loads out = .ok dl → dl.curData.eofCut = none → Made dl

theorem filed_write [Zlib] {d d' : Doc} {F out : Bytes} {secs : List Sec} (h : Filed d F secs)
    (hw : writeFile d = .ok (out, d')) : ∃ secs', Filed d' out secs' ∧ changes d' = [] ∧ commit d = .ok d' := by
  obtain ⟨h1, h2⟩ := writeFile_inv hw
  have h3 := C21_changes d d' h1
  by_cases hch : changes d = []
  · have := h1
    rw [C21_noop d hch] at this
    cases this
    rw [h.bytes] at h2
    cases h2
    exact ⟨secs, h, h3, h1⟩
  · obtain ⟨b, s, hf⟩ := filed_commit h hch h1
    rw [hf.bytes] at h2
    cases h2
    exact ⟨s :: secs, hf, h3, h1⟩

theorem filed_sec [Zlib] {d : Doc} {F : Bytes} {secs : List Sec} (h : Filed d F secs) (hF : 100 ≤ F.length) :
    ∃ s l, secs = s :: l := by
  cases secs with
  | cons s l => exact ⟨s, l, rfl⟩
  | nil =>
    exfalso
    by_cases hp : d.past = []
    · rw [(h.start hp).1] at hF
      simp at hF
    · exact h.some_sec hp rfl

theorem made_filed [Zlib] {d : Doc} (h : Made d) : ∃ F secs, Filed d F secs := by
  induction h with
  | start h =>
    obtain ⟨t, t1, t2, t3, t4⟩ := h.trailer
    exact ⟨[], [], filed_start h.settled h.past h.pastData t1 t2 t3 t4 h.line⟩
  | op _ hf ho ih =>
    obtain ⟨F, secs, ih⟩ := ih
    exact filed_ops _ ih (by simpa using hf) ho
  | reload _ hw hmin hmax hl hopen ih =>
    obtain ⟨F, secs, ih⟩ := ih
    obtain ⟨secs', hf, -, -⟩ := filed_write ih hw
    obtain ⟨s, l, rfl⟩ := filed_sec hf hmin
    obtain ⟨d, t, h1, -, -, -, -, -, h2⟩ := loads_at hf.chain (hf.ends s rfl) hmin hmax hf.kept (hf.trailer s rfl) hf.laid
    rw [h1] at hl
    cases hl
    exact ⟨_, _, h2 hopen⟩

/-- The cells of a committed document. -/
theorem committed_cells [Zlib] {d d' : Doc} (h : Settled d) (hc : commit d = .ok d') {n : Nat} (hn : 1 ≤ n) :
    (∀ e, d.cur[n]? = some (.one e) → ∃ e', d'.cur[n]? = some (.one e') ∧ e'.deleted = e.deleted) ∧
    ((d.cur[n]? = none ∨ d.cur[n]? = some .hole) → (d'.cur[n]? = none ∨ d'.cur[n]? = some .hole)) := by
  by_cases hch : changes d = []
  · rw [C21_noop d hch] at hc
    cases hc
    exact ⟨fun e he => ⟨e, he, rfl⟩, fun k => k⟩
  obtain ⟨t, t1, idx, pre, new, b, fdata, i0, c1, c2, c3, c4, c5, c5', c6, rfl⟩ :=
    commit_table h.edit.good h.opened hch hc
  have hcur : (Slot.one i0 :: idx.drop 1)[n]? = idx[n]? := by
    obtain ⟨k, rfl⟩ : ∃ k, n = k + 1 := ⟨n - 1, by omega⟩
    rw [List.getElem?_cons_succ, List.getElem?_drop, Nat.add_comm]
  simp only [hcur]
  constructor
  · intro e he
    obtain ⟨e', k1, k2, -⟩ := settled_cells h c2 c3 c4 hn he
    exact ⟨e', k1, k2⟩
  · intro hh
    have : idx[n]? = d.cur[n]? := by
      apply c2.same n hn
      intro c hc _ hcn
      subst hcn
      obtain ⟨e, -, k, -⟩ := mem_changes.1 hc
      rw [k] at hh
      rcases hh with hh | hh <;> cases hh
    rw [this]
    exact hh

/-- The trailer of a committed document. -/
theorem committed_trailer [Zlib] {d d' : Doc} (h : Settled d) (hc : commit d = .ok d') {t : Dict}
    (ht : d.cache[0]? = some (.dict t)) : ∃ t', d'.cache[0]? = some (.dict t') ∧
      ∀ k, ¬ MovingKey k → Dict.get? t' k = Dict.get? t k := by
  by_cases hch : changes d = []
  · rw [C21_noop d hch] at hc
    cases hc
    exact ⟨t, ht, fun _ _ => rfl⟩
  obtain ⟨t', t1, idx, k, new, b, fdata, i0, cache', c1, c2, c3, c4, rfl⟩ := commit_built h.edit.good h.opened hch hc
  rw [ht] at c1
  cases c1
  refine ⟨t1, getElem?_set_eq' _ _ (lt_of_getElem? ht), ?_⟩
  intro k hk
  unfold MovingKey at hk
  unfold nextTrailer at c4
  obtain ⟨e, -, c4⟩ := bind_eq_ok c4
  cases c4
  rw [Dict.get?_del, if_neg (fun e => hk (.inr (.inr e))), Dict.get?_set,
    if_neg (fun e => hk (.inr (.inl e))), Dict.get?_set, if_neg (fun e => hk (.inl e))]

/-- What a live number shows once the document is committed. -/
theorem filed_view [Zlib] {d : Doc} {F : Bytes} {secs : List Sec} (h : Filed d F secs) (hch : changes d = []) {n : Nat}
    (hn : 1 ≤ n) {e : Entry} (he : d.cur[n]? = some (.one e)) (hdel : e.deleted = false) (g : Int) :
    ∃ (v : Obj) (p num gen : Nat) (o : Obj) (le : Entry), view d (.ref g n) = .ok v ∧ (v = readBack o ∨ pyEq v (readBack o) = true) ∧
      PointsAt F p num gen o ∧ Storable o ∧ lastFor n (listed secs) = some le ∧ le.absPos = some (.at p) := by
  have hset := h.settled
  have hp := unchanged_prev hset hn he hdel (by rw [hch]; simp)
  obtain ⟨q, v, q1, q2, q3, q4⟩ := hset.filed n e hn he hdel hp
  rw [he] at hp
  obtain ⟨-, hp⟩ := prev_closed hp
  obtain ⟨p, num, gen, o, le, l1, l2, l3, l4, l5, l6⟩ := h.live n e hn hp hdel
  rw [l4] at q3
  cases q3
  have hlt : n < d.cache.length := Nat.lt_of_lt_of_le (lt_of_getElem? he) hset.edit.good.len
  have hview : ∃ v, view d (.ref g n) = .ok v ∧ (v = readBack o ∨ pyEq v (readBack o) = true) := by
    rw [view_spec hset.edit.good.coherent, slotAt_eq he, cacheAt_eq (List.getElem?_eq_getElem hlt)]
    simp only [bind, Except.bind, Slot.isDeleted, hdel, Bool.false_eq_true, if_false, pure, Except.pure]
    by_cases hcn : d.cache[n] = .null
    · rw [if_neg (by simp [hcn])]
      unfold fileValue
      rw [if_neg (by omega)]
      simp only [Slot.entry, bind, Except.bind, hset.edit.good.noEmb n e he, l4]
      exact ⟨_, rfl, .inl rfl⟩
    · rw [if_pos hcn]
      rcases q4 _ (List.getElem?_eq_getElem hlt) with k | k
      · exact absurd k hcn
      · exact ⟨_, rfl, k⟩
  obtain ⟨v, hv1, hv2⟩ := hview
  exact ⟨v, p, num, gen, o, le, hv1, hv2, l2, l3, l5, l6⟩

/-- **C28**, for the documents that are made with the functions of the library, without object streams nor
xref streams. The bytes written by `writefile` can be loaded; every live number shows an equal object in the
loaded document, the numbers that have never been used show none, and the trailers have the same entries
except `/Size`, `/Prev` and `/XRefStm`; in particular they have the same `/Root`.

Missing from the full claim: object streams and xref streams, and objects that do not survive writing
(`C28_cr_counterexample`). -/
theorem C28_reload_partial [Zlib] (d d' : Doc) (out : Bytes) (h : Made d) (hw : writeFile d = .ok (out, d'))
    (hmin : 100 ≤ out.length) (hmax : out.length < 10 ^ 80) :
    ∃ dl, loads out = .ok dl ∧
      (∀ (n : Nat) (g : Int) (e : Entry), 1 ≤ n → d.cur[n]? = some (.one e) → e.deleted = false →
        ∃ v w, view d (.ref g n) = .ok v ∧ view dl (.ref g n) = .ok w ∧ (v = w ∨ pyEq v w = true)) ∧
      (∀ (n : Nat) (g : Int), 1 ≤ n → (d.cur[n]? = none ∨ d.cur[n]? = some .hole) → ∃ x, view dl (.ref g n) = .error x) ∧
      ∃ t t', view d (.ref 0 0) = .ok (.dict t) ∧ view dl (.ref 0 0) = .ok (.dict t') ∧
        ∀ k, k ≠ b!"/Size" → k ≠ b!"/Prev" → k ≠ b!"/XRefStm" → SameOpt (Dict.get? t k) (Dict.get? t' k) := by
  obtain ⟨F, secs, hf0⟩ := made_filed h
  obtain ⟨secs', hf, hch, hc⟩ := filed_write hf0 hw
  obtain ⟨s, l, rfl⟩ := filed_sec hf hmin
  obtain ⟨dl, tl, h1, h2, h3, ⟨e0, h4, h5⟩, h6, h7, -⟩ := loads_at hf.chain (hf.ends s rfl) hmin hmax hf.kept (hf.trailer s rfl) hf.laid
  refine ⟨dl, h1, ?_, ?_, ?_⟩
  · intro n g e hn he hdel
    obtain ⟨e', k1, k2⟩ := (committed_cells hf0.settled hc hn).1 e he
    obtain ⟨v, p, num, gen, o, le, j1, j2, j3, j4, j5, j6⟩ := filed_view hf hch hn k1 (by rw [k2]; exact hdel) g
    have h7 := h7 n g hn
    rw [j5] at h7
    refine ⟨v, readBack o, ?_, h7 p num gen o j6 j3 j4, j2⟩
    rw [← (good_commit hf0.settled.edit.good hc).2.2 n g hn (by simp)]
    exact j1
  · intro n g hn hh
    have := hf.never n hn (hf.stay n hn ((committed_cells hf0.settled hc hn).2 hh))
    have h7 := h7 n g hn
    rw [this] at h7
    exact h7
  · obtain ⟨t, ht⟩ := hf0.settled.edit.root
    obtain ⟨t', ht', hk⟩ := committed_trailer hf0.settled hc ht
    obtain ⟨t'', r1, -, -, -, r5⟩ := hf.root
    rw [ht'] at r1
    cases r1
    refine ⟨t, tl, ?_, ?_, ?_⟩
    · have := view_zero hf0.settled.edit 0
      rw [cacheAt_eq ht] at this
      exact this
    · have : view dl (.ref 0 (0 : Nat)) = .ok (.dict tl) := by
        rw [view_num]
        unfold memoize
        rw [slotAt_eq h4]
        simp [bind, Except.bind, Slot.isDeleted, h5, cacheAt_eq h3, pure, Except.pure]
      exact this
    · intro k k1 k2 k3
      have hm : ¬ MovingKey k := by
        rintro (k' | k' | k')
        · exact k1 k'
        · exact k2 k'
        · exact k3 k'
      rw [← hk k hm, h6 k hm]
      exact r5 s rfl k hm

theorem made_ops [Zlib] : ∀ (l : List Op) {d d' : Doc}, Made d → (∀ o ∈ l, o.Fit) → ops l d = .ok d' → Made d'
  | [], d, d', h, _, hl => by cases hl; exact h
  | o :: l, d, d', h, hf, hl => by
    simp only [ops] at hl
    obtain ⟨d1, h1, hl'⟩ := bind_eq_ok hl
    refine made_ops l (.op h (hf o (by simp)) (d' := d1) ?_) (fun x hx => hf x (by simp [hx])) hl'
    simp [ops, h1, bind, Except.bind]

/-! ### Where documents come from -/

/-- A document built in memory. -/
theorem memDoc_fresh [Zlib] {objs : List Obj} {t : Dict} (ht : objs[0]? = some (.dict t))
    (h : ∀ (n : Nat) (o : Obj), 1 ≤ n → objs[n]? = some o → Keepable o) (hw : WF false false (.dict t) = true)
    (hx : Dict.get? t b!"/XRefStm" = none) (hp : Dict.get? t b!"/Prev" = none) : Fresh (memDoc objs) :=
  ⟨memDoc_settled ht h, rfl, rfl, ⟨t, ht, hw, hx, hp⟩, fun v hv => by cases hv; decide⟩

/-- The objects of a blank document. -/
def blankObjs (x y : Int) : List Obj :=
  [.dict [(b!"/Root", .ref 0 1)],
   .dict [(b!"/Type", .str b!"/Catalog"), (b!"/Pages", .ref 0 2)],
   .dict [(b!"/Type", .str b!"/Pages"), (b!"/Kids", .list [.ref 0 3]), (b!"/Count", .int 1)],
   .dict [(b!"/Type", .str b!"/Page"), (b!"/Parent", .ref 0 2),
     (b!"/MediaBox", .list [.int 0, .int 0, .int x, .int y]), (b!"/Resources", .dict [])]]

/-- `blank` documents, whatever the size of the page. -/
theorem blank_made [Zlib] {x y : Int} {d : Doc} (h : blank x y = .ok d) : Made d := by
  have hf : Fresh (memDoc (blankObjs x y)) := by
    refine memDoc_fresh rfl ?_ (by decide) rfl rfl
    intro n o hn ho
    rcases n with _ | _ | _ | _ | n <;> simp [blankObjs] at ho hn <;> subst ho
    · exact ⟨show WF _ _ _ = true by decide, rfl⟩
    · exact ⟨show WF _ _ _ = true by decide, rfl⟩
    · refine ⟨show WF _ _ _ = true from ?_, rfl⟩
      simp only [WF, WFEntries, WFItems, Bool.and_true, List.map_cons, List.map_nil]
      decide
  have hb : blank x y = commit (memDoc (blankObjs x y)) := by
    unfold blank
    simp [addObject, bind, Except.bind, memDoc, blankObjs, List.range_succ]
  refine .op (.start hf) (o := .commit) trivial ?_
  rw [hb] at h
  simp [ops, Op.run, h, bind, Except.bind]

/-- **C28** for the documents made from a blank one. -/
theorem C28_blank_partial [Zlib] (x y : Int) (l : List Op) (d0 d d' : Doc) (out : Bytes) (hb : blank x y = .ok d0)
    (hl : ∀ o ∈ l, o.Fit) (ho : ops l d0 = .ok d) (hw : writeFile d = .ok (out, d'))
    (hmin : 100 ≤ out.length) (hmax : out.length < 10 ^ 80) :
    ∃ dl, loads out = .ok dl ∧
      (∀ (n : Nat) (g : Int) (e : Entry), 1 ≤ n → d.cur[n]? = some (.one e) → e.deleted = false →
        ∃ v w, view d (.ref g n) = .ok v ∧ view dl (.ref g n) = .ok w ∧ (v = w ∨ pyEq v w = true)) ∧
      (∀ (n : Nat) (g : Int), 1 ≤ n → (d.cur[n]? = none ∨ d.cur[n]? = some .hole) → ∃ x, view dl (.ref g n) = .error x) ∧
      ∃ t t', view d (.ref 0 0) = .ok (.dict t) ∧ view dl (.ref 0 0) = .ok (.dict t') ∧
        ∀ k, k ≠ b!"/Size" → k ≠ b!"/Prev" → k ≠ b!"/XRefStm" → SameOpt (Dict.get? t k) (Dict.get? t' k) :=
  C28_reload_partial d d' out (made_ops l (blank_made hb) hl ho) hw hmin hmax

/-! ### Samples -/

def reloadOps : List Op :=
  [.add (.bytes b!"(a)"), .set 3 (.list [.int 13, .ref 0 1]), .get (.ref 0 1), .commit,
   .add (.stream [(b!"/Length", .int 3)] b!"q Q" b!"q Q"), .set 4 .null]

theorem reloadOps_fit [Zlib] : ∀ o ∈ reloadOps, o.Fit := by
  intro o ho
  simp only [reloadOps, List.mem_cons, List.not_mem_nil, or_false] at ho
  rcases ho with rfl | rfl | rfl | rfl | rfl | rfl
  · exact ⟨show WF _ _ _ = true by decide, rfl⟩
  · exact ⟨by decide, .inr ⟨show WF _ _ _ = true by decide, rfl⟩⟩
  · trivial
  · trivial
  · refine ⟨⟨by decide, by decide, ?_, by decide, rfl⟩, by decide⟩
    decide
  · exact ⟨by decide, .inl rfl⟩

/-- A blank document, edited in two revisions and written: the hypotheses of `C28_blank_partial` are met. -/
example [Zlib] : (do
    let d0 ← blank 595 842
    let d ← ops reloadOps d0
    let (out, _) ← writeFile d
    return decide (100 ≤ out.length ∧ out.length < 10 ^ 80)) = .ok true := by
  kernel_rfl

/-- The same document, loaded: the commit of `loads` opens a revision, so that the history can go on
(`Made.reload`); the stream added in the second revision and the list of the first one are there. -/
example [Zlib] : (do
    let d0 ← blank 595 842
    let d ← ops reloadOps d0
    let (out, _) ← writeFile d
    let dl ← loads out
    return (dl.curData.eofCut, [view dl (.ref 0 3), view dl (.ref 0 5)])) =
      .ok (none, [.ok (.list [.int 13, .ref 0 1]), .ok (.stream [(b!"/Length", .int 3)] b!"q Q" b!"q Q")]) := by
  kernel_rfl

/-- **C28 is false of streams that end with a carriage return**: the byte is lost. -/
theorem C28_cr_counterexample [Zlib] : (do
    let (out, _) ← writeFile (memDoc [.dict [(b!"/Root", .ref 0 1)], .dict [],
        .stream [(b!"/Length", .int 2)] b!"a\x0d" b!"a\x0d"])
    let d ← loads out
    view d (.ref 0 2)) = .ok (.stream [(b!"/Length", .int 2)] b!"a" b!"a") := by
  kernel_rfl

/-- **C68**, for the numbers that have never been used: they show nothing after writing and loading.

Missing from the full claim: the numbers that have been deleted, for which it is false
(`C68_counterexample`). -/
theorem C68_unused_partial [Zlib] (d d' dl : Doc) (out : Bytes) (h : Made d) (hw : writeFile d = .ok (out, d'))
    (hmin : 100 ≤ out.length) (hmax : out.length < 10 ^ 80) (hl : loads out = .ok dl) (n : Nat) (g : Int) (hn : 1 ≤ n)
    (hu : d.cur[n]? = none ∨ d.cur[n]? = some .hole) : ∃ x, view dl (.ref g n) = .error x := by
  obtain ⟨dl', h1, -, h2, -⟩ := C28_reload_partial d d' out h hw hmin hmax
  rw [hl] at h1
  cases h1
  exact h2 n g hn hu

/-- **C68 is false**: an object that was written and is then deleted is back after writing and
loading, although `writefile` has marked it as free. -/
theorem C68_counterexample [Zlib] :
    (do
      let d ← blank 595 842
      let d ← ops [.add (.int 7), .commit, .set 4 .null] d
      let (out, d) ← writeFile d
      let dl ← loads out
      return (view d (.ref 0 4), view dl (.ref 0 4))) = .ok (.ok .null, .ok (.int 7)) := by
  kernel_rfl

end Pdf
