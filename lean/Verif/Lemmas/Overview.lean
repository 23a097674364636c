/-
The number of revisions of a file.
-/
import Verif.Model.Overview
import Verif.Props.C28_Reload
import Verif.Lemmas.Pages

namespace Pdf
open Spec

theorem updates_eq (d : Doc) : updates d = d.past.length := by
  simp [updates, Doc.index]

theorem revColumns_length : ∀ (xs : List Section) (p : Int) (done : List Rev) (m : Rev) (r : List Rev), Rising p xs →
    columns xs p done m = .ok r → r.length = done.length + 1 + xs.length
  | [], p, done, m, r, _, h => by
    cases h
    simp
  | x :: xs, p, done, m, r, ⟨q, h1, h2, h3⟩, h => by
    unfold columns at h
    have : directPos x.trailer = .ok q := by simp [directPos, h1]
    rw [this] at h
    simp only [bind, Except.bind] at h
    rw [if_pos (by omega)] at h
    obtain ⟨m', -, h⟩ := bind_eq_ok h
    have := revColumns_length xs q (m :: done) m' r h3 h
    simp only [List.length_cons] at this ⊢
    omega

theorem completeAll_length {nxt : List Int} : ∀ (l : List Rev) (before : Rev) (acc res : List Rev),
    completeAll nxt before acc l = .ok res → res.length = l.length + acc.length
  | [], before, acc, res, h => by
    cases h
    simp
  | c :: l, before, acc, res, h => by
    unfold completeAll at h
    obtain ⟨col, -, h⟩ := bind_eq_ok h
    have := completeAll_length l _ _ _ h
    simp only [List.length_cons] at this ⊢
    omega

theorem All₂.length_eq {α β : Type} {R : α → β → Prop} {l : List α} {m : List β} (h : All₂ R l m) : l.length = m.length := by
  induction h with
  | nil => rfl
  | cons _ _ ih => simp [ih]

/-- A file made of classic sections has one revision for each of them. -/
theorem initialDoc_count [Zlib] {F : Bytes} {s : Sec} {l : List Sec} (h : XrefChain F (s :: l)) (hend : fileEnd s.pos <:+ F)
    (hmin : 100 ≤ F.length) (hmax : F.length < 10 ^ 80) {d : Doc} (hd : initialDoc (.single F) = .ok d) :
    d.past.length = l.length := by
  obtain ⟨x, xs, q1, q2, q3, q4⟩ := xrefSections_at h hend hmin hmax
  have hall : All₂ (IsSec F) (s :: l) (x :: xs) := .cons q2 q4
  have hst : ∀ y ∈ (x :: xs).reverse, y.trailer.xrefStm = false := by
    intro y hy
    obtain ⟨s', -, k⟩ := hall.mem_right y (List.mem_reverse.1 hy)
    obtain ⟨z, hz⟩ := k.trailer
    rw [hz]
  have hrise := chain_rising h hall
  unfold initialDoc at hd
  simp only [Provider.size, bind, Except.bind, q1] at hd
  obtain ⟨⟨nxt, nb⟩, n1, hd⟩ := bind_eq_ok hd
  obtain ⟨cols, b1, hd⟩ := bind_eq_ok hd
  obtain ⟨revs, c1, hd⟩ := bind_eq_ok hd
  obtain ⟨datas, -, hd⟩ := bind_eq_ok hd
  have hcols : cols.length = xs.length + 1 := by
    unfold buildColumns at b1
    rw [mergeHybrid_id _ _ hst] at b1
    simp only [List.reverse_nil, List.nil_append, bind, Except.bind] at b1
    rcases hrev : (x :: xs).reverse with _ | ⟨y, ys⟩
    · simp at hrev
    rw [hrev] at hrise b1
    obtain ⟨p, g1, g2, g3⟩ := hrise
    have hdir : directPos y.trailer = .ok p := by simp [directPos, g1]
    simp only [hdir] at b1
    rw [if_neg (by omega)] at b1
    obtain ⟨m, -, b1⟩ := bind_eq_ok b1
    have := revColumns_length ys p [] m cols g3 b1
    have hl : (x :: xs).reverse.length = (y :: ys).length := by rw [hrev]
    simp only [List.length_reverse, List.length_cons, List.length_nil] at this hl
    omega
  have hrevs := completeAll_length _ _ _ _ c1
  simp only [List.length_reverse, List.length_nil] at hrevs
  have hl := hall.length_eq
  simp only [List.length_cons] at hl
  rcases hm : revs.map List.dropLast with _ | ⟨cur, past⟩
  · rw [hm] at hd; cases hd
  rcases datas with _ | ⟨d0, ds⟩
  · rw [hm] at hd; cases hd
  · rw [hm] at hd
    simp only at hd
    obtain ⟨cache, -, hd⟩ := bind_eq_ok hd
    cases hd
    have := congrArg List.length hm
    simp only [List.length_map, List.length_cons] at this
    simp only
    omega

/-- Closing the revision in progress. -/
theorem commit_count [Zlib] {d d' : Doc} (hc : commit d = .ok d') :
    d'.past.length = d.past.length + (if changes d = [] then 0 else 1) := by
  by_cases hch : changes d = []
  · rw [C21_noop d hch] at hc
    cases hc
    simp [hch]
  · obtain ⟨p, cur, cache, data, t0, t1, h1, h2, h3, h4, rfl⟩ := commit_inv hc hch
    simp [hch]

/-- Loading a file made of classic sections: the revision in progress is a new one, or the last one of the file. -/
theorem loads_count [Zlib] {F : Bytes} {s : Sec} {l : List Sec} (h : XrefChain F (s :: l)) (hend : fileEnd s.pos <:+ F)
    (hmin : 100 ≤ F.length) (hmax : F.length < 10 ^ 80) {dl : Doc} (hl : loads F = .ok dl) :
    dl.past.length = if dl.curData.eofCut = none then (s :: l).length else l.length := by
  unfold loads docConstructor at hl
  obtain ⟨di, h1, hc⟩ := bind_eq_ok hl
  have hn := initialDoc_count h hend hmin hmax h1
  obtain ⟨di', i1, i2, -⟩ := initialDoc_at h hend hmin hmax
  rw [h1] at i1
  cases i1
  have := commit_count hc
  by_cases hch : changes di = []
  · rw [C21_noop di hch] at hc
    cases hc
    rw [i2]
    simpa using hn
  · obtain ⟨p, cur, cache, data, t0, t1, h1, h2, h3, h4, rfl⟩ := commit_inv hc hch
    simp [hn]

theorem made_count [Zlib] {d : Doc} (h : Made d) : ∃ F secs, Filed d F secs ∧ d.past.length = secs.length := by
  induction h with
  | start h =>
    obtain ⟨t, t1, t2, t3, t4⟩ := h.trailer
    exact ⟨[], [], filed_start h.settled h.past h.pastData t1 t2 t3 t4 h.line, by rw [h.past]; rfl⟩
  | @op d d' o _ hfo ho ih =>
    obtain ⟨F, secs, ih, hn⟩ := ih
    simp only [ops] at ho
    obtain ⟨d1, h1, ho⟩ := bind_eq_ok ho
    cases ho
    cases o with
    | add o =>
      simp only [Op.run] at h1
      rcases ha : addObject d o with x | ⟨d2, n⟩
      · rw [ha] at h1; cases h1
      · rw [ha] at h1; cases h1
        refine ⟨F, secs, filed_add ih hfo ha, ?_⟩
        obtain ⟨-, -, rfl⟩ := addObject_inv ha
        exact hn
    | set n o =>
      refine ⟨F, secs, filed_set ih hfo.1 hfo.2 h1, ?_⟩
      obtain ⟨old, -, -, rfl⟩ := updateObject_inv h1
      exact hn
    | get r =>
      cases h1
      refine ⟨F, secs, filed_reads ih r, ?_⟩
      rw [← hn]
      unfold reads
      rcases hg : getObject d r with x | ⟨o, d'⟩
      · rfl
      · have hf := getObject_filled ih.settled.edit.good.coherent hg
        simp only [reads]
        rw [hf.eq]
    | commit =>
      simp only [Op.run] at h1
      have := commit_count h1
      by_cases hch : changes d = []
      · rw [C21_noop d hch] at h1
        cases h1
        exact ⟨F, secs, ih, hn⟩
      · obtain ⟨b, s, h2⟩ := filed_commit ih hch h1
        refine ⟨_, _, h2, ?_⟩
        rw [this, if_neg hch, hn]
        rfl
  | reload _ hw hmin hmax hl hopen ih =>
    obtain ⟨F, secs, ih, -⟩ := ih
    obtain ⟨secs', hf, -, -⟩ := filed_write ih hw
    obtain ⟨s, l, rfl⟩ := filed_sec hf hmin
    obtain ⟨d, t, h1, -, -, -, -, -, h2⟩ := loads_at hf.chain (hf.ends s rfl) hmin hmax hf.kept (hf.trailer s rfl) hf.laid
    have hn := loads_count hf.chain (hf.ends s rfl) hmin hmax hl
    rw [h1] at hl
    cases hl
    rw [if_pos hopen] at hn
    exact ⟨_, _, h2 hopen, hn⟩

/-- As `filed_write`, with the number of revisions. -/
theorem filed_write_count [Zlib] {d d' : Doc} {F out : Bytes} {secs : List Sec} (h : Filed d F secs)
    (hn : d.past.length = secs.length) (hw : writeFile d = .ok (out, d')) :
    ∃ secs', Filed d' out secs' ∧ d'.past.length = secs'.length := by
  obtain ⟨h1, h2⟩ := writeFile_inv hw
  have h3 := commit_count h1
  by_cases hch : changes d = []
  · have := h1
    rw [C21_noop d hch] at this
    cases this
    rw [h.bytes] at h2
    cases h2
    exact ⟨secs, h, hn⟩
  · obtain ⟨b, s, hf⟩ := filed_commit h hch h1
    rw [hf.bytes] at h2
    cases h2
    refine ⟨s :: secs, hf, ?_⟩
    rw [h3, if_neg hch, hn]
    rfl

/-! ### Reading does not change the revisions -/

theorem getObject_frame [Zlib] {d d' : Doc} {r o : Obj} (h : getObject d r = .ok (o, d')) : d' = { d with cache := d'.cache } := by
  cases r with
  | ref g n =>
    unfold getObject at h
    by_cases hn : n < 0
    · simp only [if_pos hn] at h
      cases h
    · simp only [if_neg hn] at h
      obtain ⟨c, -, h⟩ := bind_eq_ok h
      obtain ⟨o', -, h⟩ := bind_eq_ok h
      cases h
      rfl
  | _ => cases h; rfl

theorem run_frame [Zlib] {α : Type} {p : Prog α} (hp : ReadOnly p) : ∀ {d d' : Doc} {a : α}, p.run d = .ok (a, d') →
    d' = { d with cache := d'.cache } := by
  induction hp with
  | ret a => intro d d' b h; cases h; rfl
  | raise e => intro d d' b h; cases h
  | get r k _ ih =>
    intro d d' b h
    simp only [Prog.run] at h
    obtain ⟨⟨o, d1⟩, h1, h⟩ := bind_eq_ok h
    have := ih o h
    rw [this, getObject_frame h1]

theorem catalog_frame [Zlib] {d d' : Doc} {a b : Obj} (h : catalog d = .ok (a, b, d')) : d' = { d with cache := d'.cache } := by
  unfold catalog trailerOf at h
  obtain ⟨⟨t, d1⟩, h1, h⟩ := bind_eq_ok h
  obtain ⟨root, -, h⟩ := bind_eq_ok h
  obtain ⟨⟨o, d2⟩, h2, h⟩ := bind_eq_ok h
  cases h
  rw [getObject_frame h2, getObject_frame h1]

theorem version_frame [Zlib] {d d' : Doc} {v : Bytes} (h : version d = .ok (v, d')) : d' = { d with cache := d'.cache } := by
  unfold version at h
  obtain ⟨ver, -, h⟩ := bind_eq_ok h
  obtain ⟨⟨cat, r, d1⟩, h1, h⟩ := bind_eq_ok h
  have := catalog_frame h1
  cases cat with
  | dict dd =>
    simp only at h
    split at h
    · obtain ⟨w, -, h⟩ := bind_eq_ok h
      split at h <;> cases h <;> exact this
    · cases h
      exact this
  | _ => cases h

theorem readOnly_numberPages : ReadOnly numberPages := readOnly_pagesRoot.bind fun _ => .lift _

theorem readOnly_encrypted : ReadOnly encryptedP := (ReadOnly.fetch _).bind fun _ => (ReadOnly.lift _).bind fun _ => .ret _

theorem readOnly_pageLayouts (lim leak m) : ReadOnly (pageLayouts lim leak m) :=
  (readOnly_pagesP _ _ _).bind fun _ => (ReadOnly.lift _).bind fun _ => .ret _

theorem readOnly_info : ReadOnly infoP :=
  (ReadOnly.fetch _).bind fun _ => (ReadOnly.lift _).bind fun i => by
    by_cases h : truthy i = true
    · rw [if_pos h]; exact .fetch _
    · rw [if_neg h]; exact .ret _

theorem readOnly_metaLoop (i : Obj) : ∀ l, ReadOnly (metaLoop i l)
  | [] => .ret _
  | k :: l => by
    have : ReadOnly (metaEntry i k) :=
      (ReadOnly.lift _).bind fun _ => (ReadOnly.fetch _).bind fun _ => (ReadOnly.lift _).bind fun _ => .ret _
    exact this.bind fun _ => (readOnly_metaLoop i l).bind fun _ => .ret _

theorem readOnly_metadata : ReadOnly metadataP := readOnly_info.bind fun _ => readOnly_metaLoop _ _

/-- The parts of the result of `structure` that are about the document as a whole. -/
theorem structureOf_inv [Zlib] {lim : Nat} {leak : Dict} {d d' : Doc} {s : Structure} (h : structureOf lim leak d = .ok (s, d')) :
    d' = { d with cache := d'.cache } ∧ s.revisions = updates d ∧ hybrid d = .ok s.hybrid ∧
      (∃ o, linearized d.firstData.fdata = .ok o ∧ s.linearized = o.isSome) ∧
      ∃ d1 d2, d1 = { d with cache := d1.cache } ∧ encryptedP.run d1 = .ok (s.encrypted, d2) := by
  unfold structureOf at h
  obtain ⟨⟨v, d1⟩, h1, h⟩ := bind_eq_ok h
  obtain ⟨⟨pg, d2⟩, h2, h⟩ := bind_eq_ok h
  obtain ⟨⟨en, d3⟩, h3, h⟩ := bind_eq_ok h
  obtain ⟨hy, h4, h⟩ := bind_eq_ok h
  obtain ⟨li, h5, h⟩ := bind_eq_ok h
  obtain ⟨⟨⟨l, lk⟩, d4⟩, h6, h⟩ := bind_eq_ok h
  obtain ⟨box, -, h⟩ := bind_eq_ok h
  obtain ⟨pp, -, h⟩ := bind_eq_ok h
  cases h
  have e1 := version_frame h1
  have e2 := run_frame readOnly_numberPages h2
  have e3 := run_frame readOnly_encrypted h3
  have e4 := run_frame (readOnly_pageLayouts _ _ _) h6
  have e2' : d2 = { d with cache := d2.cache } := by rw [e2, e1]
  have e3' : d3 = { d with cache := d3.cache } := by rw [e3, e2']
  have e4' : d' = { d with cache := d'.cache } := by rw [e4, e3']
  refine ⟨e4', ?_, ?_, ⟨li, ?_, rfl⟩, d2, d3, e2', h3⟩
  · rw [e4']; rfl
  · rw [e3'] at h4; exact h4
  · rw [e3'] at h5; exact h5

end Pdf
