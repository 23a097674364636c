/-
Documents together with the file that `writefile` makes of them.
-/
import Verif.Lemmas.Layout
import Verif.Lemmas.ObjStm
import Verif.Props.C53_Version

namespace Pdf
open Spec

/-! ### Well-formed dictionaries -/

theorem wfEntries_iff {inD inA : Bool} : ∀ {d : List (Bytes × Obj)},
    WFEntries inD inA d = true ↔ ∀ p ∈ d, isName p.1 = true ∧ WF inD inA p.2 = true
  | [] => by simp [WFEntries]
  | (k, v) :: d => by
    simp only [WFEntries, Bool.and_eq_true, wfEntries_iff (d := d), List.mem_cons, forall_eq_or_imp]

theorem wf_dict_iff {inD inA : Bool} {d : Dict} : WF inD inA (.dict d) = true ↔
    (∀ p ∈ d, isName p.1 = true ∧ WF true inA p.2 = true) ∧ (d.map Prod.fst).Nodup := by
  simp only [WF, Bool.and_eq_true, wfEntries_iff, decide_eq_true_eq]

theorem wf_set {inD inA : Bool} {d : Dict} {k : Bytes} {v : Obj} (h : WF inD inA (.dict d) = true)
    (hk : isName k = true) (hv : WF true inA v = true) : WF inD inA (.dict (Dict.set d k v)) = true := by
  rw [wf_dict_iff] at h ⊢
  refine ⟨fun p hp => ?_, nodup_set h.2⟩
  rcases mem_set hp with hp | rfl
  · exact h.1 p hp
  · exact ⟨hk, hv⟩

theorem wf_del {inD inA : Bool} {d : Dict} {k : Bytes} (h : WF inD inA (.dict d) = true) :
    WF inD inA (.dict (Dict.del d k)) = true := by
  rw [wf_dict_iff] at h ⊢
  refine ⟨fun p hp => h.1 p (List.mem_filter.1 hp).1, ?_⟩
  exact h.2.sublist ((List.filter_sublist).map _)

mutual
theorem wf_norm : ∀ (o : Obj) (inD inA : Bool), WF inD inA o = true → WF inD inA (norm o) = true
  | .null, _, _, h => h
  | .bool _, _, _, h => h
  | .int _, _, _, h => h
  | .real _ _ _, _, _, h => h
  | .str _, _, _, h => h
  | .bytes _, _, _, h => h
  | .ref _ _, _, _, h => h
  | .stream _ _ _, _, _, h => h
  | .list l, inD, inA, h => by
    simp only [norm, WF] at h ⊢
    exact wf_normItems l inD true h
  | .dict d, inD, inA, h => by
    rw [wf_dict_iff] at h
    have hd := wf_normEntries d true inA (wfEntries_iff.2 h.1)
    simp only [norm]
    rw [wf_dict_iff]
    refine ⟨fun p hp => wfEntries_iff.1 hd p (List.mem_reverse.1 hp), ?_⟩
    rw [List.map_reverse, normEntries_keys]
    exact ((List.reverse_perm _).nodup_iff).2 h.2
theorem wf_normItems : ∀ (l : List Obj) (inD inA : Bool), WFItems inD inA l = true → WFItems inD inA (normItems l) = true
  | [], _, _, h => h
  | o :: l, inD, inA, h => by
    simp only [normItems, WFItems, Bool.and_eq_true] at h ⊢
    exact ⟨wf_norm o _ _ h.1, wf_normItems l _ _ h.2⟩
theorem wf_normEntries : ∀ (d : List (Bytes × Obj)) (inD inA : Bool), WFEntries inD inA d = true →
    WFEntries inD inA (normEntries d) = true
  | [], _, _, h => h
  | (k, v) :: d, inD, inA, h => by
    simp only [normEntries, WFEntries, Bool.and_eq_true] at h ⊢
    exact ⟨⟨h.1.1, wf_norm v _ _ h.1.2⟩, wf_normEntries d _ _ h.2⟩
end

/-! ### The bytes that are kept -/

/-- What `writefile` writes once the document is committed. -/
def stored (doc : Doc) : Py Bytes := do
  let nbRev := doc.past.length + 1
  let (n, cut) := leadingCuts (doc.data.take nbRev)
  let pre ← match cut with
    | some cut => do
      let (b, a0, _, _) ← doc.firstData.fdata.read 0 cut
      if a0 < 0 then .error .outside
      .ok (slice b a0.toNat cut)
    | none => .ok []
  let rest ← allFragments ((doc.data.drop n).take (nbRev - 1 - n))
  return pre ++ rest

theorem writeFile_inv [Zlib] {d d' : Doc} {out : Bytes} (h : writeFile d = .ok (out, d')) :
    commit d = .ok d' ∧ stored d' = .ok out := by
  unfold writeFile at h
  obtain ⟨d1, h1, h⟩ := bind_eq_ok h
  have : stored d1 = .ok out ∧ d1 = d' := by
    unfold stored
    simp only [bind, Except.bind, pure, Except.pure] at h ⊢
    generalize leadingCuts (List.take (d1.past.length + 1) d1.data) = q at h ⊢
    obtain ⟨n, cut⟩ := q
    simp only at h ⊢
    generalize hA : allFragments (List.take (d1.past.length + 1 - 1 - n) (List.drop n d1.data)) = A at h ⊢
    cases cut with
    | none =>
      simp only at h ⊢
      cases A with
      | error => cases h
      | ok b => cases h; exact ⟨rfl, rfl⟩
    | some c =>
      simp only at h ⊢
      generalize d1.firstData.fdata.read 0 c = R at h ⊢
      cases R with
      | error => cases h
      | ok r =>
        obtain ⟨b, a0, x, y⟩ := r
        simp only at h ⊢
        split at h
        · cases h
        · rename_i hh
          rw [if_neg hh]
          cases A with
          | error => cases h
          | ok b => cases h; exact ⟨rfl, rfl⟩
  obtain ⟨h2, rfl⟩ := this
  exact ⟨h1, h2⟩

theorem leadingCuts_stop : ∀ (l : List Data) (e : Data) (r : List Data), e.eofCut = none →
    leadingCuts (l ++ e :: r) = leadingCuts l
  | [], e, r, h => by simp [leadingCuts, h]
  | a :: l, e, r, h => by
    rw [List.cons_append, leadingCuts, leadingCuts, leadingCuts_stop l e r h]

theorem leadingCuts_le : ∀ (l : List Data), (leadingCuts l).1 ≤ l.length
  | [] => by simp [leadingCuts]
  | a :: l => by
    unfold leadingCuts
    split
    · simp
    · have := leadingCuts_le l
      simp only [List.length_cons]
      omega

theorem allFragments_append : ∀ (l : List Data) (x : Data) (F b : Bytes), allFragments l = .ok F → x.bdata = some b →
    allFragments (l ++ [x]) = .ok (F ++ b)
  | [], x, F, b, h, hx => by
    cases h
    simp [allFragments, hx, orRaise, bind, Except.bind, pure, Except.pure]
  | a :: l, x, F, b, h, hx => by
    unfold allFragments at h
    obtain ⟨b0, h1, h⟩ := bind_eq_ok h
    obtain ⟨r, h2, h⟩ := bind_eq_ok h
    cases h
    rw [List.cons_append, allFragments, h1, allFragments_append l x r b h2 hx]
    simp [bind, Except.bind, pure, Except.pure]

/-- The bytes kept, when the last revision is open. -/
theorem stored_open {d : Doc} (hlen : d.past.length = d.pastData.length) (ho : d.curData.eofCut = none) :
    stored d = do
      let (n, cut) := leadingCuts d.pastData.reverse
      let pre ← match cut with
        | some cut => do
          let (b, a0, _, _) ← d.firstData.fdata.read 0 cut
          if a0 < 0 then .error .outside
          .ok (slice b a0.toNat cut)
        | none => .ok []
      let rest ← allFragments (d.pastData.reverse.drop n)
      return pre ++ rest := by
  have h1 : leadingCuts (d.data.take (d.past.length + 1)) = leadingCuts d.pastData.reverse := by
    rw [List.take_of_length_le (by simp [Doc.data, hlen])]
    exact leadingCuts_stop _ _ _ ho
  have h2 : ∀ n, n = (leadingCuts d.pastData.reverse).1 →
      (d.data.drop n).take (d.past.length + 1 - 1 - n) = d.pastData.reverse.drop n := by
    intro n hn
    have := leadingCuts_le d.pastData.reverse
    rw [List.length_reverse] at this
    unfold Doc.data
    rw [List.drop_append_of_le_length (by rw [List.length_reverse]; omega)]
    rw [List.take_append_of_le_length (by rw [List.length_drop, List.length_reverse]; omega)]
    rw [List.take_of_length_le (by rw [List.length_drop, List.length_reverse]; omega)]
  unfold stored
  simp only [h1]
  rw [h2 _ rfl]

theorem stored_commit {d d' : Doc} {x : Data} {F b : Bytes} (hlen : d.past.length = d.pastData.length)
    (hlen' : d'.past.length = d.past.length + 1)
    (ho : d.curData.eofCut = none) (ho' : d'.curData.eofCut = none)
    (hp : d'.pastData = x :: d.pastData) (hx1 : x.eofCut = none) (hx2 : x.bdata = some b)
    (hs : stored d = .ok F) : stored d' = .ok (F ++ b) := by
  rw [stored_open hlen ho] at hs
  rw [stored_open (by rw [hp, hlen', hlen]; rfl) ho', hp, List.reverse_cons, leadingCuts_stop _ _ _ hx1]
  have hle := leadingCuts_le d.pastData.reverse
  generalize hq : leadingCuts d.pastData.reverse = q at hs hle ⊢
  obtain ⟨n, cut⟩ := q
  simp only at hs hle ⊢
  rw [List.drop_append_of_le_length hle]
  have hfirst : cut.isSome = true → d'.firstData = d.firstData := by
    intro hc
    unfold Doc.firstData
    rw [hp]
    rcases List.eq_nil_or_concat d.pastData with h | ⟨l, y, h⟩
    · rw [h] at hq
      cases hq
      cases hc
    · rw [h]
      simp [List.getLastD_eq_getLast?, List.getLast?_cons]
  cases cut with
  | none =>
    simp only [bind, Except.bind] at hs ⊢
    rcases ha : allFragments (d.pastData.reverse.drop n) with e | r
    · rw [ha] at hs; cases hs
    · rw [ha] at hs
      cases hs
      rw [allFragments_append _ _ _ _ ha hx2]
      rfl
  | some c =>
    rw [hfirst rfl]
    simp only [bind, Except.bind] at hs ⊢
    generalize d.firstData.fdata.read 0 c = R at hs ⊢
    cases R with
    | error => cases hs
    | ok r =>
      simp only at hs ⊢
      split at hs
      · cases hs
      · rename_i hh
        rw [if_neg hh]
        rcases ha : allFragments (d.pastData.reverse.drop n) with e | r
        · rw [ha] at hs; cases hs
        · rw [ha] at hs
          cases hs
          rw [allFragments_append _ _ _ _ ha hx2]
          simp [pure, Except.pure]

/-! ### Documents and their files -/

/-- The last revision that is closed. -/
def closedRev (d : Doc) : Rev := d.past.headD []

/-- The entries in use listed by the sections, oldest first. -/
def listed (secs : List Sec) : List Entry := secs.reverse.flatMap (·.objs)

/-- The keys of a trailer that a commit changes. -/
def MovingKey (k : Bytes) : Prop := k = b!"/Size" ∨ k = b!"/Prev" ∨ k = b!"/XRefStm"

/-- Equal values, or none. -/
def SameOpt : Option Obj → Option Obj → Prop
  | none, none => True
  | some a, some b => a = b ∨ pyEq a b = true
  | _, _ => False

/-- Every entry in use leads to an object that can be read back. -/
def Kept [Zlib] (F : Bytes) (secs : List Sec) : Prop :=
  ∀ (n : Nat) (le : Entry), 1 ≤ n → lastFor n (listed secs) = some le → ∃ (p num gen : Nat) (o : Obj),
    le.absPos = some (.at p) ∧ PointsAt F p num gen o ∧ Storable o

/-- The version in the header is on one line. -/
def OneLine (d : Doc) : Prop := ∀ v, headerVersion d = .ok v → ∀ c ∈ v, isEol c = false

/-- The document `d` is settled, and what it has in its closed revisions is the file `F`, made of the
classic sections `secs` (newest first). -/
structure Filed [Zlib] (d : Doc) (F : Bytes) (secs : List Sec) : Prop where
  settled : Settled d
  chain : XrefChain F secs
  ends : ∀ s ∈ secs.head?, fileEnd s.pos <:+ F
  root : ∃ t, d.cache[0]? = some (.dict t) ∧ WF false false (.dict t) = true ∧
    Dict.get? t b!"/XRefStm" = none ∧ Dict.get? t b!"/Prev" = secs.head?.map (fun s => .int s.pos) ∧
    ∀ s ∈ secs.head?, ∀ k, ¬ MovingKey k → SameOpt (Dict.get? t k) (Dict.get? s.tr k)
  trailer : ∀ s ∈ secs.head?, WF false false (.dict s.tr) = true
  start : d.past = [] → F = [] ∧ secs = []
  some_sec : d.past ≠ [] → secs ≠ []
  index : d.past ≠ [] → revisionIndex d = .ok F.length
  bytes : stored d = .ok F
  len : d.past.length = d.pastData.length
  stay : ∀ n : Nat, 1 ≤ n → (d.cur[n]? = none ∨ d.cur[n]? = some .hole) →
    (closedRev d)[n]? = none ∨ (closedRev d)[n]? = some .hole
  never : ∀ n : Nat, 1 ≤ n → ((closedRev d)[n]? = none ∨ (closedRev d)[n]? = some .hole) → lastFor n (listed secs) = none
  kept : Kept F secs
  live : ∀ (n : Nat) (e : Entry), 1 ≤ n → (closedRev d)[n]? = some (.one e) → e.deleted = false →
    ∃ (p num gen : Nat) (o : Obj) (le : Entry), e.absPos = some (.at p) ∧ PointsAt F p num gen o ∧ Storable o ∧
      parseIndirect d.curData.fdata e = .ok (readBack o) ∧ lastFor n (listed secs) = some le ∧ le.absPos = some (.at p)
  laid : Laid F secs
  line : d.past = [] → OneLine d

theorem filed_edit [Zlib] {d d' : Doc} {F : Bytes} {secs : List Sec} (h : Filed d F secs) (hs : Settled d')
    (h1 : d'.past = d.past) (h2 : d'.pastData = d.pastData) (h3 : d'.curData = d.curData)
    (h4 : d'.cache[0]? = d.cache[0]?)
    (h5 : ∀ n : Nat, (d'.cur[n]? = none ∨ d'.cur[n]? = some .hole) → (d.cur[n]? = none ∨ d.cur[n]? = some .hole)) :
    Filed d' F secs := by
  have hc : closedRev d' = closedRev d := by unfold closedRev; rw [h1]
  have hst : stored d' = stored d := by
    unfold stored Doc.data Doc.firstData
    rw [h1, h2, h3]
  refine ⟨hs, h.chain, h.ends, by rw [h4]; exact h.root, h.trailer, by rw [h1]; exact h.start, by rw [h1]; exact h.some_sec,
    ?_, by rw [hst]; exact h.bytes, by rw [h1, h2]; exact h.len, ?_, by rw [hc]; exact h.never, h.kept, by rw [hc, h3]; exact h.live, h.laid, ?_⟩
  · rw [h1]
    unfold revisionIndex
    rw [h2]
    exact h.index
  · intro n hn hh
    rw [hc]
    exact h.stay n hn (h5 n hh)
  · rw [h1]
    unfold OneLine headerVersion Doc.firstData
    rw [h2, h3]
    exact h.line

theorem filed_reads [Zlib] {d : Doc} {F : Bytes} {secs : List Sec} (h : Filed d F secs) (r : Obj) :
    Filed (reads [r] d) F secs := by
  have hs := settled_reads h.settled r
  unfold reads at hs ⊢
  rcases hg : getObject d r with x | ⟨o, d'⟩
  · exact h
  simp only [hg, reads] at hs ⊢
  have hf := getObject_filled h.settled.edit.good.coherent hg
  refine filed_edit h hs (by rw [hf.eq]) (by rw [hf.eq]) (by rw [hf.eq]) ?_ (by rw [hf.eq]; exact fun _ k => k)
  obtain ⟨t, ht⟩ := h.settled.edit.root
  have hlt := lt_of_getElem? ht
  have hlen := hf.len
  have h0 : d'.cache[0]? = some d'.cache[0] := List.getElem?_eq_getElem (by omega)
  rcases hf.val 0 _ h0 with k | ⟨k, -⟩
  · rw [h0, k]
  · rw [ht] at k; cases k

theorem filed_set [Zlib] {d d' : Doc} {n : Nat} {o : Obj} {F : Bytes} {secs : List Sec} (h : Filed d F secs) (hn : 1 ≤ n)
    (ho : o = .null ∨ Keepable o) (hs : updateObject d n o = .ok d') : Filed d' F secs := by
  have hs' := settled_set h.settled hn ho hs
  obtain ⟨old, h1, h2, rfl⟩ := updateObject_inv hs
  refine filed_edit h hs' rfl rfl rfl (getElem?_set_ne' _ _ (by omega)) ?_
  intro m hm
  simp only at hm
  by_cases hmn : m = n
  · subst hmn
    rw [getElem?_set_eq' _ _ (lt_of_getElem? h1)] at hm
    rcases hm with hm | hm <;> cases hm
  · rwa [getElem?_set_ne' _ _ (Ne.symm hmn)] at hm

theorem filed_add [Zlib] {d d' : Doc} {n : Nat} {o : Obj} {F : Bytes} {secs : List Sec} (h : Filed d F secs)
    (ho : Keepable o) (hs : addObject d o = .ok (d', n)) : Filed d' F secs := by
  have hs' := settled_add h.settled ho hs
  obtain ⟨h1, h2, rfl⟩ := addObject_inv hs
  have hlen := h.settled.edit.good.len
  have hpos := h.settled.edit.pos
  refine filed_edit h hs' rfl rfl rfl ?_ ?_
  · simp only
    rw [getElem?_set_ne' _ _ (by omega), List.getElem?_append_left (by omega)]
  intro m hm
  simp only at hm
  by_cases hl : m < d.cur.length
  · rwa [List.getElem?_append_left hl] at hm
  · exact .inl (List.getElem?_eq_none (by omega))

/-- What a commit does, in table mode. -/
theorem commit_built [Zlib] {d d' : Doc} (hg : Good d none) (hopen : d.curData.eofCut = none)
    (hch : changes d ≠ []) (hc : commit d = .ok d') :
    ∃ (t t1 : Dict) (idx : Rev) (k : Nat) (new b : Bytes) (fdata : Provider) (i0 : Entry) (cache' : List Obj),
      d.cache[0]? = some (.dict t) ∧
      buildRevision (changes d) d.cur (d.cache.set 0 (.dict (Dict.set t b!"/Size" (.int d.cur.length)))) k 0
        = .ok (new, idx, cache') ∧
      ((d.past = [] ∧ ∃ (v hd : Bytes) (dv : Doc), version d = .ok (v, dv) ∧ hd = b!"%PDF-" ++ v ∧ k = hd.length ∧
          b = hd ++ new ∧ fdata = .dummy b) ∨
        (d.past ≠ [] ∧ revisionIndex d = .ok k ∧ b = new ∧ fdata = .merged d.curData.fdata k new)) ∧
      nextTrailer idx (Dict.set t b!"/Size" (.int d.cur.length)) = .ok t1 ∧
      d' = { cur := .one i0 :: idx.drop 1, past := idx :: d.past, cache := d.cache.set 0 (.dict t1),
             curData := { fdata := fdata },
             pastData := { fdata := fdata, bdata := some b, eofCut := none } :: d.pastData } := by
  obtain ⟨p, cur, cache, data, t0, t1, h1, h2, h3, h4, rfl⟩ := commit_inv hc hch
  have hprep : ∃ t : Dict, d.cache[0]? = some (.dict t) ∧ p.cur = d.cur ∧
      p.cache = d.cache.set 0 (.dict (Dict.set t b!"/Size" (.int d.cur.length))) ∧ p.xnum = 0 := by
    unfold prepareCommit at h1
    obtain ⟨q0, hq, k⟩ := bind_eq_ok h1
    obtain ⟨y, hy, k⟩ := bind_eq_ok k
    obtain ⟨⟨pc, px⟩, hpx, k⟩ := bind_eq_ok k
    simp only [pure, Except.pure, Except.ok.injEq] at k
    subst k
    have := hg.first y hy
    subst this
    simp only [Option.getD_none, if_true] at hpx
    cases hpx
    exact ⟨q0, cacheDict_ok hq, rfl, rfl, rfl⟩
  obtain ⟨t, p1, p2, p3, p4⟩ := hprep
  have hnum : ∀ c ∈ changes d, 1 ≤ c.num := by
    intro c hc
    obtain ⟨e, h, -⟩ := mem_changes.1 hc
    exact h
  have hlt0 := lt_of_getElem? p1
  unfold writeRevision at h2
  rw [hopen] at h2
  simp only at h2
  cases hpast : d.past with
  | nil =>
    rw [hpast] at h2
    simp only at h2
    obtain ⟨⟨v, dv⟩, hv, h2⟩ := bind_eq_ok h2
    obtain ⟨⟨new, cur', cache'⟩, hb, h2⟩ := bind_eq_ok h2
    simp only [Except.ok.injEq, Prod.mk.injEq] at h2
    obtain ⟨rfl, rfl, rfl⟩ := h2
    rw [p2, p3, p4] at hb
    obtain ⟨hcc, -⟩ := buildRevision_written (b!"%PDF-" ++ v) hb (changes_nodup d) hnum (fun c _ _ e he => hg.noEmb _ _ he)
    subst hcc
    rw [getElem?_set_eq' _ _ hlt0] at h3
    cases h3
    refine ⟨t, t1, cur', (b!"%PDF-" ++ v).length, new, b!"%PDF-" ++ v ++ new, .dummy (b!"%PDF-" ++ v ++ new), p.index0, _, p1, hb,
      .inl ⟨rfl, v, _, dv, hv, rfl, rfl, rfl, rfl⟩, h4, ?_⟩
    simp [hopen]
  | cons r rs =>
    rw [hpast] at h2
    simp only at h2
    obtain ⟨idx, hidx, h2⟩ := bind_eq_ok h2
    obtain ⟨⟨new, cur', cache'⟩, hb, h2⟩ := bind_eq_ok h2
    simp only [Except.ok.injEq, Prod.mk.injEq] at h2
    obtain ⟨rfl, rfl, rfl⟩ := h2
    rw [p2, p3, p4] at hb
    have hlen : (List.replicate idx (0 : UInt8)).length = idx := by simp
    have hb' := hb
    rw [← hlen] at hb'
    obtain ⟨hcc, -⟩ := buildRevision_written (List.replicate idx (0 : UInt8)) hb' (changes_nodup d) hnum (fun c _ _ e he => hg.noEmb _ _ he)
    subst hcc
    rw [getElem?_set_eq' _ _ hlt0] at h3
    cases h3
    refine ⟨t, t1, cur', idx, new, new, .merged d.curData.fdata idx new, p.index0, _, p1, hb,
      .inr ⟨by simp, hidx, rfl, rfl⟩, h4, ?_⟩
    simp [hopen]

theorem PointsAt.append {F : Bytes} {p num gen : Nat} {o : Obj} (h : PointsAt F p num gen o) (more : Bytes) :
    PointsAt (F ++ more) p num gen o := by
  obtain ⟨s, h1, r, h2⟩ := h
  have hlt : p ≤ F.length := by
    refine Classical.byContradiction fun hl => ?_
    rw [List.drop_eq_nil_of_le (by omega)] at h2
    simp [indirect] at h2
  refine ⟨s, h1, r ++ more, ?_⟩
  rw [List.drop_append_of_le_length hlt, ← h2]
  simp

theorem lastFor_mem {n : Nat} {l : List Entry} {e : Entry} (h : lastFor n l = some e) : e ∈ l ∧ e.num = n := by
  unfold lastFor at h
  have := List.mem_of_getLast? h
  simpa using this

theorem lastFor_none {n : Nat} {l : List Entry} (h : ∀ e ∈ l, e.num ≠ n) : lastFor n l = none := by
  rcases hl : lastFor n l with _ | e
  · rfl
  · obtain ⟨h1, h2⟩ := lastFor_mem hl
    exact absurd h2 (h e h1)

theorem lastFor_some {n : Nat} {l : List Entry} {e : Entry} (h : e ∈ l) (hn : e.num = n) : ∃ e', lastFor n l = some e' := by
  rcases hl : lastFor n l with _ | e'
  · unfold lastFor at hl
    rw [List.getLast?_eq_none_iff] at hl
    have : e ∈ l.filter (fun x => x.num = (n : Int)) := by simp [h, hn]
    rw [hl] at this
    cases this
  · exact ⟨e', rfl⟩

theorem revisionIndexLoop_last : ∀ (l : List Data) (x : Data) (i j : Nat) (b : Bytes), revisionIndexLoop i l = .ok j →
    x.eofCut = none → x.bdata = some b → revisionIndexLoop i (l ++ [x]) = .ok (j + b.length)
  | [], x, i, j, b, h, h1, h2 => by
    cases h
    simp [revisionIndexLoop, h1, h2]
  | a :: l, x, i, j, b, h, h1, h2 => by
    rw [List.cons_append]
    unfold revisionIndexLoop at h ⊢
    split at h
    · exact revisionIndexLoop_last l x _ j b h h1 h2
    · split at h
      · exact revisionIndexLoop_last l x _ j b h h1 h2
      · cases h

/-- A live cell that is not among the changes is that of the previous revision. -/
theorem unchanged_prev [Zlib] {d : Doc} (h : Settled d) {n : Nat} {e : Entry} (hn : 1 ≤ n)
    (he : d.cur[n]? = some (.one e)) (hdel : e.deleted = false)
    (hno : ∀ c ∈ changes d, c.act ≠ .d → c.num ≠ n) : (prevRev d)[n]? = d.cur[n]? := by
  refine Classical.byContradiction fun hne => ?_
  have : ∃ k, changeOf (prevRev d) n e = some k ∧ k ≠ .d := by
    unfold changeOf
    rw [he] at hne
    rcases hp : (prevRev d)[n]? with _ | sl
    · exact ⟨_, rfl, by simp⟩
    · simp only
      rw [if_neg (by rintro rfl; exact hne hp)]
      cases sl with
      | hole => exact ⟨_, rfl, by simp⟩
      | many => exact ⟨_, rfl, by simp⟩
      | one p => exact ⟨.u, by simp [hdel], by simp⟩
  obtain ⟨k, ha, had⟩ := this
  exact hno ⟨e.gen, n, k⟩ (mem_changes.2 ⟨e, hn, he, rfl, by rw [h.table]; simp, ha⟩) had rfl

theorem prev_closed {d : Doc} {n : Nat} {e : Entry} (h : (prevRev d)[n]? = some (.one e)) :
    d.past ≠ [] ∧ (closedRev d)[n]? = some (.one e) := by
  unfold prevRev at h
  unfold closedRev
  cases hp : d.past with
  | nil =>
    rw [hp] at h
    simp only [List.getElem?_replicate] at h
    split at h <;> simp at h
  | cons r rs =>
    rw [hp] at h
    exact ⟨by simp, h⟩

theorem sameOpt_norm {d t : Dict} (h : WF false false (.dict d) = true) (ht : t = (normEntries d).reverse) (k : Bytes) :
    SameOpt (Dict.get? d k) (Dict.get? t k) := by
  have hw := wf_dict_iff.1 h
  rw [ht, get?_norm hw.2]
  rcases hg : Dict.get? d k with _ | v
  · trivial
  · right
    have : (k, v) ∈ d := by
      unfold Dict.get? at hg
      clear h hw ht
      induction d with
      | nil => cases hg
      | cons p d ih =>
        obtain ⟨k', v'⟩ := p
        simp only [List.lookup] at hg
        split at hg
        · rename_i hk
          cases hg
          rw [eq_of_beq hk]
          simp
        · exact List.mem_cons_of_mem _ (ih hg)
    exact pyEq_norm v _ _ (hw.1 _ this).2

theorem regular_noEol {s : Bytes} (h : s.all regular = true) : ∀ c ∈ s, isEol c = false := by
  intro c hc
  have := List.all_eq_true.1 h c hc
  refine Bool.eq_false_iff.2 fun hh => ?_
  simp only [isEol, Bool.or_eq_true, beq_iff_eq] at hh
  rcases hh with rfl | rfl <;> revert this <;> decide

theorem wf_str_noEol {inD inA : Bool} {s : Bytes} (h : WF inD inA (.str s) = true) : ∀ c ∈ s.drop 1, isEol c = false := by
  apply regular_noEol
  simp only [WF, Bool.or_eq_true] at h
  rcases h with h | h
  · cases s with
    | nil => rfl
    | cons c s => simp only [isName, Bool.and_eq_true] at h; exact h.2
  · cases s with
    | nil => rfl
    | cons c s => simp only [isKeyword, Bool.and_eq_true] at h; exact h.1.1.1.1.2

theorem get?_mem {d : Dict} {k : Bytes} {v : Obj} (hg : Dict.get? d k = some v) : (k, v) ∈ d := by
  unfold Dict.get? at hg
  induction d with
  | nil => cases hg
  | cons p d ih =>
    obtain ⟨k', v'⟩ := p
    simp only [List.lookup] at hg
    split at hg
    · rename_i hk
      cases hg
      rw [eq_of_beq hk]
      simp
    · exact List.mem_cons_of_mem _ (ih hg)

theorem version_line [Zlib] {d dv : Doc} {v : Bytes} (h : Settled d) (hp : d.past = []) (hl : OneLine d)
    (ht : ∃ t, d.cache[0]? = some (.dict t) ∧ WF false false (.dict t) = true) (hv : version d = .ok (v, dv)) :
    ∀ c ∈ v, isEol c = false := by
  obtain ⟨t, ht, hw⟩ := ht
  unfold version at hv
  obtain ⟨ver, h1, hv⟩ := bind_eq_ok hv
  obtain ⟨⟨cat, root, d1⟩, h2, hv⟩ := bind_eq_ok hv
  have hver := hl ver h1
  simp only at hv
  split at hv
  case h_2 => cases hv
  rename_i cd
  -- the catalog is well-formed
  have hcat : ∃ inD inA, WF inD inA (.dict cd) = true := by
    obtain ⟨t', d0, c1, c2, c3⟩ := catalog_inv h2
    have hco := h.edit.good.coherent
    have hfil := getObject_filled hco c1
    have c1' : view d (.ref 0 (0 : Nat)) = .ok (.dict t') := by
      unfold view
      rw [show ((0 : Nat) : Int) = 0 from rfl, c1]
      rfl
    rw [view_zero h.edit, cacheAt_eq ht] at c1'
    cases c1'
    have hroot := (wf_dict_iff.1 hw).1 _ (get?_mem c2)
    have c3' : view d root = .ok (.dict cd) := by
      rw [← filled_view hco hfil]
      unfold view
      rw [c3]
      rfl
    cases root with
    | ref g n =>
      by_cases hn : n < 0
      · unfold getObject at c3
        simp [hn, bind, Except.bind] at c3
      obtain ⟨n, rfl⟩ := Int.eq_ofNat_of_zero_le (by omega : 0 ≤ n)
      by_cases h0 : n = 0
      · subst h0
        rw [view_zero h.edit, cacheAt_eq ht] at c3'
        cases c3'
        exact ⟨_, _, hw⟩
      rw [view_spec hco] at c3'
      obtain ⟨slot, s1, c3'⟩ := bind_eq_ok c3'
      obtain ⟨del, s2, c3'⟩ := bind_eq_ok c3'
      obtain ⟨c, s3, c3'⟩ := bind_eq_ok c3'
      have s1' := slotAt_ok s1
      have s3' := cacheAt_ok s3
      cases slot with
      | hole => cases s2
      | many es => exact absurd s1' (h.edit.plain n es (by omega))
      | one e =>
        simp only [Slot.isDeleted, Except.ok.injEq] at s2
        subst s2
        by_cases hd : e.deleted = true
        · have := h.gone n e (by omega) s1' hd
          rw [s3'] at this
          cases this
          rw [if_pos hd] at c3'
          cases c3'
        · have hprev : (prevRev d)[n]? ≠ d.cur[n]? := by
            rw [s1']
            unfold prevRev
            rw [hp]
            simp only [List.getElem?_replicate]
            split <;> simp
          obtain ⟨o, ho, hk1, -⟩ := h.pending n e (by omega) s1' (by simpa using hd) hprev
          rw [s3'] at ho
          cases ho
          rw [if_neg hd, if_pos (by rintro rfl; simp [Storable, WF] at hk1)] at c3'
          cases c3'
          exact ⟨_, _, hk1⟩
    | _ =>
      simp only [view, getObject, Except.map, Except.ok.injEq] at c3'
      first
        | (cases c3'; exact ⟨_, _, hroot.2⟩)
        | cases c3'
  obtain ⟨inD, inA, hcat⟩ := hcat
  split at hv
  · rename_i x hx
    obtain ⟨w, hw', hv⟩ := bind_eq_ok hv
    split at hv
    · cases hv
      have := (wf_dict_iff.1 hcat).1 _ (get?_mem hx)
      cases x <;> cases hw'
      exact wf_str_noEol this.2
    · cases hv
      exact hver
  · cases hv
    exact hver

theorem filed_commit [Zlib] {d d' : Doc} {F : Bytes} {secs : List Sec} (h : Filed d F secs) (hch : changes d ≠ [])
    (hc : commit d = .ok d') : ∃ (b : Bytes) (s : Sec), Filed d' (F ++ b) (s :: secs) := by
  have hset := h.settled
  have hs' := settled_commit hset hc
  obtain ⟨t, t1, idx, k, new, b, fdata, i0, cache', c1, c2, c3, c4, rfl⟩ := commit_built hset.edit.good hset.opened hch hc
  obtain ⟨pre, rfl, hF, hpreF, hr, hf, hlay⟩ : ∃ pre : Bytes, k = pre.length ∧ F ++ b = pre ++ new ∧ F.length ≤ pre.length ∧
      ReadsAfter fdata pre new ∧ (d.past = [] ∨ (d.past ≠ [] ∧ fdata = .merged d.curData.fdata F.length new)) ∧
      ((secs = [] ∧ ∃ v : Bytes, (∀ c ∈ v, isEol c = false) ∧ pre = b!"%PDF-" ++ v) ∨ (secs ≠ [] ∧ Laid pre secs)) := by
    rcases c3 with ⟨hp, v, hd, dv, hv, hhd, rfl, rfl, rfl⟩ | ⟨hp, hi, rfl, rfl⟩
    · rw [(h.start hp).1]
      exact ⟨hd, rfl, rfl, by simp, readsAfter_dummy _ _, .inl hp, .inl ⟨(h.start hp).2, v, version_line hset hp (h.line hp)
        (by obtain ⟨t, k1, k2, -⟩ := h.root; exact ⟨t, k1, k2⟩) hv, hhd⟩⟩
    · rw [h.index hp] at hi
      cases hi
      exact ⟨F, rfl, rfl, Nat.le_refl _, readsAfter_merged _ _ _, .inr ⟨hp, rfl⟩, .inr ⟨h.some_sec hp, h.laid⟩⟩
  have hnum : ∀ c ∈ changes d, 1 ≤ c.num := by
    intro c hc
    obtain ⟨e, h, -⟩ := mem_changes.1 hc
    exact h
  have hlt0 := lt_of_getElem? c1
  obtain ⟨t', r1, r2, r3, r4, r5⟩ := h.root
  rw [c1] at r1
  cases r1
  have hwfS : WF false false (.dict (Dict.set t b!"/Size" (.int d.cur.length))) = true :=
    wf_set r2 (by decide) rfl
  obtain ⟨hcc, hw⟩ := buildRevision_written pre c2 (changes_nodup d) hnum (fun c _ _ e he => hset.edit.good.noEmb _ _ he)
  obtain ⟨s, T, s1, s2, s3, s4, s5, ⟨e0, s6, s7⟩, s8, s9, s10⟩ := buildRevision_sec pre c2 (changes_nodup d) hnum (fun c _ _ e he => hset.edit.good.noEmb _ _ he) (by
    intro T hT
    rw [getElem?_set_eq' _ _ hlt0] at hT
    cases hT
    exact hwfS)
  rw [getElem?_set_eq' _ _ hlt0] at s1
  cases s1
  have hnd := (wf_dict_iff.1 hwfS).2
  have hpos := s2.pos
  have ht1 : t1 = Dict.del (Dict.set (Dict.set t b!"/Size" (.int d.cur.length)) b!"/Prev" (.int s.pos)) b!"/XRefStm" := by
    unfold nextTrailer prevEntry at c4
    rw [slotAt_eq s6] at c4
    simp only [bind, Except.bind, pure, Except.pure, prevPos, s7] at c4
    rw [if_pos (by omega)] at c4
    cases c4
    rfl
  have hcur : ∀ n, 1 ≤ n → (Slot.one i0 :: idx.drop 1)[n]? = idx[n]? := by
    intro n hn
    obtain ⟨k, rfl⟩ : ∃ k, n = k + 1 := ⟨n - 1, by omega⟩
    rw [List.getElem?_cons_succ, List.getElem?_drop, Nat.add_comm]
  have hlist : listed (s :: secs) = listed secs ++ s.objs := by simp [listed]
  refine ⟨b, s, hs', ?_, ?_, ?_, ?_, by simp, by simp, ?_, ?_, ?_, ?_, ?_, ?_, ?_, ?_, by simp⟩
  · refine ⟨by rw [hF]; exact s2, ?_, ?_, ?_, h.chain.append b⟩
    · rw [s4, get?_norm hnd, Dict.get?_set, if_neg (by decide), r3]; rfl
    · rw [s4, get?_norm hnd, Dict.get?_set, if_neg (by decide), r4]
      cases secs with
      | nil => rfl
      | cons s' l => rfl
    · intro s' hs''
      have hm : s' ∈ secs := by
        cases secs with
        | nil => cases hs''
        | cons a l => cases hs''; simp
      have hsec := h.chain.mem s' hm
      have := hsec.tp
      have := hsec.room
      have := s2.tp
      omega
  · intro s' hs''
    cases hs''
    rw [hF]
    exact s3.trans (List.suffix_append _ _)
  · refine ⟨t1, getElem?_set_eq' _ _ hlt0, ?_, ?_, ?_, ?_⟩
    · rw [ht1]
      exact wf_del (wf_set hwfS (by decide) rfl)
    · rw [ht1, Dict.get?_del, if_pos rfl]
    · rw [ht1, Dict.get?_del, if_neg (by decide), Dict.get?_set, if_pos rfl]
      rfl
    · intro s' hs'' k hk
      cases hs''
      unfold MovingKey at hk
      have hh := sameOpt_norm hwfS s4 k
      rw [ht1, Dict.get?_del, if_neg (fun e => hk (.inr (.inr e))), Dict.get?_set, if_neg (fun e => hk (.inr (.inl e)))]
      exact hh
  · intro s' hs''
    cases hs''
    rw [s4]
    exact wf_norm _ _ _ hwfS
  · intro _
    unfold revisionIndex
    simp only [List.reverse_cons]
    have hprev : revisionIndexLoop 0 d.pastData.reverse = .ok F.length := by
      by_cases hp : d.past = []
      · have : d.pastData = [] := by
          have := h.len
          rw [hp] at this
          exact List.length_eq_zero_iff.1 this.symm
        rw [this, (h.start hp).1]
        rfl
      · exact h.index hp
    rw [revisionIndexLoop_last _ _ _ _ _ hprev rfl rfl, List.length_append]
  · exact stored_commit (x := { fdata := fdata, bdata := some b, eofCut := none }) h.len rfl hset.opened rfl rfl rfl rfl h.bytes
  · simp [h.len]
  · intro n hn hh
    rw [hcur n hn] at hh
    exact hh
  · -- numbers that are not in the file
    intro n hn hh
    simp only [closedRev, List.headD_cons] at hh
    have hhole : d.cur[n]? = none ∨ d.cur[n]? = some .hole := by
      rcases hs : d.cur[n]? with _ | sl
      · exact .inl rfl
      have hlt := lt_of_getElem? hs
      cases sl with
      | hole => exact .inr rfl
      | many es => exact absurd hs (hset.edit.plain n es hn)
      | one e =>
        exfalso
        by_cases hcn : ∃ c ∈ changes d, c.act ≠ .d ∧ c.num = n
        · obtain ⟨c, hc, ha, rfl⟩ := hcn
          obtain ⟨en, obj, off, next, -, k2, -⟩ := hw.placed c hc ha
          rw [k2] at hh
          rcases hh with hh | hh <;> cases hh
        · rw [hw.same n hn (fun c hc ha hh => hcn ⟨c, hc, ha, hh⟩), hs] at hh
          rcases hh with hh | hh <;> cases hh
    rw [hlist, lastFor_append, h.never n hn (h.stay n hn hhole), Option.or_none]
    apply lastFor_none
    intro e he hen
    obtain ⟨c, -, -, off, ei, k1, k2, -⟩ := s8 e he
    have : c.num = n := by rw [k1] at hen; omega
    rw [this] at k2
    rw [k2] at hh
    rcases hh with hh | hh <;> cases hh
  · -- objects in the file
    intro n le hn hle
    rw [hlist, lastFor_append] at hle
    rcases hl : lastFor n s.objs with _ | le'
    · rw [hl] at hle
      obtain ⟨p, num, gen, o, q1, q2, q3⟩ := h.kept n le hn hle
      exact ⟨p, num, gen, o, q1, PointsAt.append q2 b, q3⟩
    · rw [hl] at hle
      cases hle
      obtain ⟨hle1, hle2⟩ := lastFor_mem hl
      obtain ⟨c, hc, ha, off', ei, j1, j2, j3, j4⟩ := s8 le hle1
      have hcc : c.num = n := by rw [hle2] at j1; omega
      subst hcc
      obtain ⟨en, obj, off, next, k1, k2, k3, ⟨o, k4, k5⟩, k6⟩ := hw.placed c hc ha
      rw [j2] at k2
      cases k2
      rw [getElem?_set_ne' _ _ (by omega)] at k4
      have hdel : en.deleted = false := by
        refine Classical.byContradiction fun hd => ?_
        have := hset.gone _ _ hn k1 (by simpa using hd)
        rw [k4] at this
        cases this
        rw [if_neg (by simp [isObjStm])] at k5
        subst k5
        obtain ⟨s, hs, -⟩ := k6
        cases hs
      have hprev : (prevRev d)[c.num]? ≠ d.cur[c.num]? := fun hh => not_changed hh c hc rfl
      obtain ⟨o', ho', hk1, hk2⟩ := hset.pending _ _ hn k1 hdel hprev
      rw [k4] at ho'
      cases ho'
      rw [hk2, if_neg (by simp)] at k5
      subst k5
      have hoff : off' = off := by
        simp only [placed, Option.some.injEq, Pos.at.injEq] at j3
        omega
      subst hoff
      exact ⟨off', c.num, _, obj, j4, by rw [hF]; exact k6, hk1⟩
  · -- live objects
    intro n e hn he hdel
    simp only [closedRev, List.headD_cons] at he
    by_cases hcn : ∃ c ∈ changes d, c.act ≠ .d ∧ c.num = n
    · obtain ⟨c, hc, ha, rfl⟩ := hcn
      obtain ⟨en, obj, off, next, k1, k2, k3, ⟨o, k4, k5⟩, k6⟩ := hw.placed c hc ha
      rw [he] at k2
      cases k2
      rw [getElem?_set_ne' _ _ (by omega)] at k4
      have hprev : (prevRev d)[c.num]? ≠ d.cur[c.num]? := fun hh => not_changed hh c hc rfl
      obtain ⟨o', ho', hk1, hk2⟩ := hset.pending _ _ hn k1 hdel hprev
      rw [k4] at ho'
      cases ho'
      rw [hk2, if_neg (by simp)] at k5
      subst k5
      obtain ⟨e1, he1, he2⟩ := s9 c hc ha
      obtain ⟨le, hle⟩ := lastFor_some he1 he2
      obtain ⟨hle1, hle2⟩ := lastFor_mem hle
      obtain ⟨c', -, -, off', ei, j1, j2, j3, j4⟩ := s8 le hle1
      have hcc : c'.num = c.num := by rw [hle2] at j1; omega
      rw [hcc, he] at j2
      cases j2
      have hoff : off' = off := by
        simp only [placed, Option.some.injEq, Pos.at.injEq] at j3
        omega
      subst hoff
      refine ⟨off', c.num, _, obj, le, rfl, by rw [hF]; exact k6, hk1, parseIndirect_written hr rfl rfl k3 hk1 k6, ?_, j4⟩
      rw [hlist, lastFor_append, hle]
      rfl
    · have hno : ∀ c ∈ changes d, c.act ≠ .d → c.num ≠ n := fun c hc ha hh => hcn ⟨c, hc, ha, hh⟩
      have hcell := hw.same n hn hno
      rw [he] at hcell
      have hp := unchanged_prev hset hn hcell.symm hdel hno
      rw [← hcell] at hp
      obtain ⟨hpast, hp⟩ := prev_closed hp
      obtain ⟨p, num, gen, o, le, l1, l2, l3, l4, l5, l6⟩ := h.live n e hn hp hdel
      refine ⟨p, num, gen, o, le, l1, PointsAt.append l2 b, l3, ?_, ?_, l6⟩
      · rcases hf with hf | ⟨-, rfl⟩
        · exact absurd hf hpast
        · rw [parseIndirect_merged l1 ?_, l4]
          obtain ⟨ss, -, rr, h2⟩ := l2
          refine Classical.byContradiction fun hl => ?_
          rw [List.drop_eq_nil_of_le (by omega)] at h2
          simp [indirect] at h2
      · rw [hlist, lastFor_append, l5, lastFor_none]
        · rfl
        · intro e' he' hen
          obtain ⟨c, hc, ha, off, ei, j1, -⟩ := s8 e' he'
          exact hno c hc ha (by rw [j1] at hen; omega)
  · -- the bytes
    refine ⟨pre, new, hF, s10.mono ?_, hlay⟩
    rintro b hb ⟨⟨o, k4, k5⟩, c, hc, ha, hcb⟩
    obtain ⟨en, obj, off, next, k1, -⟩ := hw.placed c hc ha
    have hn := hnum c hc
    rw [← hcb, getElem?_set_ne' _ _ (by omega)] at k4
    have hdel : en.deleted = false := by
      refine Classical.byContradiction fun hd => ?_
      have := hset.gone _ _ hn k1 (by simpa using hd)
      rw [k4] at this
      cases this
      rw [if_neg (by simp [isObjStm])] at k5
      rw [k5] at hb
      cases hb
    have hprev : (prevRev d)[c.num]? ≠ d.cur[c.num]? := fun hh => not_changed hh c hc rfl
    obtain ⟨o', ho', hk1, hk2⟩ := hset.pending _ _ hn k1 hdel hprev
    rw [k4] at ho'
    cases ho'
    rw [hk2, if_neg (by simp)] at k5
    rw [k5]
    exact ⟨hk1, hk2⟩

theorem filed_ops [Zlib] : ∀ (l : List Op) {d d' : Doc} {F : Bytes} {secs : List Sec}, Filed d F secs → (∀ o ∈ l, o.Fit) →
    ops l d = .ok d' → ∃ F' secs', Filed d' F' secs'
  | [], d, d', F, secs, h, _, hl => by cases hl; exact ⟨_, _, h⟩
  | o :: l, d, d', F, secs, h, hf, hl => by
    unfold ops at hl
    obtain ⟨d1, h1, hl'⟩ := bind_eq_ok hl
    clear hl
    have hfo := hf o (by simp)
    have hrest : ∀ x ∈ l, Op.Fit x := fun x hx => hf x (by simp [hx])
    cases o with
    | add o =>
      simp only [Op.run] at h1
      rcases ha : addObject d o with x | ⟨d2, n⟩
      · rw [ha] at h1; cases h1
      · rw [ha] at h1; cases h1
        exact filed_ops l (filed_add h hfo ha) hrest hl'
    | set n o => exact filed_ops l (filed_set h hfo.1 hfo.2 h1) hrest hl'
    | get r => cases h1; exact filed_ops l (filed_reads h r) hrest hl'
    | commit =>
      simp only [Op.run] at h1
      by_cases hch : changes d = []
      · rw [C21_noop d hch] at h1
        cases h1
        exact filed_ops l h hrest hl'
      · obtain ⟨b, s, h2⟩ := filed_commit h hch h1
        exact filed_ops l h2 hrest hl'

theorem filed_start [Zlib] {d : Doc} (h : Settled d) (h1 : d.past = []) (h2 : d.pastData = []) {t : Dict}
    (ht : d.cache[0]? = some (.dict t)) (hw : WF false false (.dict t) = true)
    (hx : Dict.get? t b!"/XRefStm" = none) (hp : Dict.get? t b!"/Prev" = none) (hv : OneLine d) : Filed d [] [] := by
  have hst : stored d = .ok [] := by
    rw [stored_open (by rw [h1, h2]; rfl) h.opened, h2]
    rfl
  refine ⟨h, trivial, by simp, ⟨t, ht, hw, hx, hp, by simp⟩, by simp, fun _ => ⟨rfl, rfl⟩, fun k => absurd h1 k,
    fun k => absurd h1 k, hst, by rw [h1, h2]; rfl, ?_, ?_, ?_, ?_, rfl, fun _ => hv⟩
  · intro n _ _
    left
    simp [closedRev, h1]
  · intro n _ _
    rfl
  · intro n le _ hle
    cases hle
  · intro n e _ he
    simp [closedRev, h1] at he

/-- Loading a file made of classic sections. -/
theorem loads_at [Zlib] {F : Bytes} {s : Sec} {l : List Sec} (h : XrefChain F (s :: l)) (hend : fileEnd s.pos <:+ F)
    (hmin : 100 ≤ F.length) (hmax : F.length < 10 ^ 80) (hk : Kept F (s :: l)) (hw : WF false false (.dict s.tr) = true)
    (hlaid : Laid F (s :: l)) :
    ∃ (d : Doc) (t : Dict), loads F = .ok d ∧ Good d none ∧ d.cache[0]? = some (.dict t) ∧
      (∃ e, d.cur[0]? = some (.one e) ∧ e.deleted = false) ∧
      (∀ k, ¬ MovingKey k → Dict.get? t k = Dict.get? s.tr k) ∧
      (∀ (n : Nat) (g : Int), 1 ≤ n → match lastFor n (listed (s :: l)) with
        | none => ∃ x, view d (.ref g n) = .error x
        | some le => ∀ p num gen o, le.absPos = some (.at (p : Nat)) → PointsAt F p num gen o → Storable o →
            view d (.ref g n) = .ok (readBack o)) ∧
      (d.curData.eofCut = none → Filed d F (s :: l)) := by
  obtain ⟨di, i1, i2, i3, ⟨e0, i4, i5, i6⟩, i7, i8⟩ := initialDoc_at h hend hmin hmax
  have hcur := i7 di.cur (by simp)
  have hpos : 0 < di.cur.length := lt_of_getElem? i4
  have h0 : e0.deleted = false ∧ e0.xrefStreamNum = none := by
    rcases hcur.cells 0 _ i4 with k | ⟨e, p, m, k, -, k1, k2, -⟩
    · cases k
    · cases k; exact ⟨k1, k2⟩
  have hroot : di.cache[0]? = some (.dict s.tr) := by
    rw [i3]
    exact getElem?_set_eq' _ _ (by simpa using hpos)
  have hnull : ∀ n : Nat, 1 ≤ n → n < di.cur.length → di.cache[n]? = some .null := by
    intro n hn hlt
    rw [i3, getElem?_set_ne' _ _ (by omega), List.getElem?_replicate, if_pos hlt]
  -- the cells
  have hone : ∀ (n : Nat) (e : Entry), 1 ≤ n → di.cur[n]? = some (.one e) → e.envNum = none ∧ e.deleted = false ∧
      ∃ (p num gen : Nat) (o : Obj) (le : Entry), e.absPos = some (.at p) ∧ p ≤ F.length ∧ PointsAt F p num gen o ∧ Storable o ∧
        parseIndirect (.single F) e = .ok (readBack o) ∧ lastFor n (listed (s :: l)) = some le ∧ le.absPos = some (.at p) := by
    intro n e hn he
    have h8 := i8 n hn
    change match lastFor n (listed (s :: l)) with
        | none => di.cur[n]? = none ∨ di.cur[n]? = some .hole
        | some e => ∃ e', di.cur[n]? = some (.one e') ∧ e'.absPos = e.absPos at h8
    rcases hl : lastFor n (listed (s :: l)) with _ | le
    · rw [hl] at h8
      simp only [he] at h8
      rcases h8 with k | k <;> cases k
    rw [hl] at h8
    obtain ⟨e', k1, k2⟩ := h8
    rw [he] at k1
    cases k1
    obtain ⟨p, num, gen, o, j1, j2, j3⟩ := hk n le hn hl
    rcases hcur.cells n _ he with k | ⟨e', q, m, k, q1, q2, -, -, -, q3⟩
    · cases k
    cases k
    have hp : p ≤ F.length := by
      obtain ⟨ss, -, rr, h2⟩ := j2
      refine Classical.byContradiction fun hl => ?_
      rw [List.drop_eq_nil_of_le (by omega)] at h2
      simp [indirect] at h2
    exact ⟨q1, q2, p, num, gen, o, le, by rw [k2, j1], hp, j2, j3, parseIndirect_single (by rw [k2, j1]) q3 j3 j2, rfl, j1⟩
  have hfirst : firstXrefStreamNum di = .ok none := by
    have hm : di.firstRev ∈ di.cur :: di.past := by
      unfold Doc.firstRev
      rw [List.getLastD_eq_getLast?]
      cases hp : di.past.getLast? with
      | none => simp
      | some r => simp [List.mem_of_getLast? hp]
    obtain ⟨e, k1, k2⟩ := (i7 _ hm).head
    unfold firstXrefStreamNum
    rw [slotAt_eq k1]
    simp [bind, Except.bind, k2, pure, Except.pure]
  have hgood : Good di none := by
    refine ⟨by rw [i3]; simp, ?_, ?_, by simp, ?_⟩
    · intro n e he
      rcases hcur.cells n _ he with k | ⟨e', q, m, k, q1, -⟩
      · cases k
      · cases k; exact q1
    · intro y hy
      rw [hfirst] at hy
      cases hy
      rfl
    · intro n e hn _ he _ _
      obtain ⟨-, -, p, num, gen, o, le, k1, k2, -⟩ := hone n e hn he
      refine ⟨p, k1, ?_, by rw [i2]; intro k; cases k⟩
      intro cut hc
      rw [i2] at hc
      cases hc
      omega
  have hplain : ∀ (n : Nat) (es : List Entry), di.cur[n]? ≠ some (.many es) := by
    intro n es he
    rcases hcur.cells n _ he with k | ⟨e', q, m, k, -⟩ <;> cases k
  have hopened : Opened di F.length := by
    refine ⟨⟨hgood, fun n es _ => hplain n es, hpos, ⟨_, hroot⟩, ⟨_, i4, by simp [Slot.isDeleted, h0.1]⟩⟩, by rw [i2], ?_, ?_⟩
    · intro n e hn he hdel
      rw [(hone n e hn he).2.1] at hdel
      cases hdel
    · intro n e hn he _
      obtain ⟨-, -, p, num, gen, o, le, k1, k2, k3, k4, k5, -⟩ := hone n e hn he
      refine ⟨p, _, k1, by omega, by rw [i2]; exact k5, ?_⟩
      intro c hc
      rw [hnull n hn (lt_of_getElem? he)] at hc
      cases hc
      exact .inl rfl
  have hview : ∀ (n : Nat) (g : Int), 1 ≤ n → match lastFor n (listed (s :: l)) with
        | none => ∃ x, view di (.ref g n) = .error x
        | some le => ∀ p num gen o, le.absPos = some (.at (p : Nat)) → PointsAt F p num gen o → Storable o →
            view di (.ref g n) = .ok (readBack o) := by
    intro n g hn
    have h8 := i8 n hn
    change match lastFor n (listed (s :: l)) with
        | none => di.cur[n]? = none ∨ di.cur[n]? = some .hole
        | some e => ∃ e', di.cur[n]? = some (.one e') ∧ e'.absPos = e.absPos at h8
    rw [view_spec hgood.coherent]
    rcases hl : lastFor n (listed (s :: l)) with _ | le
    · rw [hl] at h8
      simp only at h8 ⊢
      rcases h8 with k | k
      · exact ⟨.indexError, by simp [slotAt, k, orRaise, bind, Except.bind]⟩
      · rw [slotAt_eq k]
        exact ⟨_, rfl⟩
    · rw [hl] at h8
      simp only at h8 ⊢
      obtain ⟨e', k1, k2⟩ := h8
      intro p num gen o j1 j2 j3
      rw [slotAt_eq k1, cacheAt_eq (hnull n hn (lt_of_getElem? k1))]
      obtain ⟨q1, q2, -⟩ := hone n e' hn k1
      simp only [bind, Except.bind, Slot.isDeleted, q2, Bool.false_eq_true, if_false, ne_eq, not_true_eq_false]
      unfold fileValue
      rw [if_neg (by omega), i2]
      simp only [Slot.entry, bind, Except.bind, q1]
      rcases hcur.cells n _ k1 with k | ⟨e', q, m, k, -, -, -, -, -, q3⟩
      · cases k
      cases k
      exact parseIndirect_single (by rw [k2, j1]) q3 j3 j2
  by_cases hch : changes di = []
  · refine ⟨di, s.tr, ?_, hgood, hroot, ⟨_, i4, h0.1⟩, fun _ _ => rfl, hview, ?_⟩
    · unfold loads docConstructor
      rw [i1]
      exact C21_noop di hch
    · intro hh
      rw [i2] at hh
      cases hh
  · -- the commit that follows
    have hsp := (h.mem s (by simp)).pos
    generalize hT : Dict.set s.tr b!"/Size" (.int di.cur.length) = T
    generalize hT1 : Dict.del (Dict.set T b!"/Prev" (.int s.pos)) b!"/XRefStm" = T1
    have hcom : commit di = .ok
        { cur := .one (nextIndex0 (di.past.length + 1) 0) :: di.cur.drop 1, past := di.cur :: di.past,
          cache := di.cache.set 0 (.dict T1),
          curData := { fdata := .single F }, pastData := di.curData :: di.pastData } := by
      have hlt0 := lt_of_getElem? hroot
      unfold commit
      rw [if_neg hch]
      have hcd : cacheDict di.cache = .ok s.tr := by
        unfold cacheDict
        rw [cacheAt_eq hroot]
        rfl
      unfold prepareCommit
      rw [hcd, hfirst]
      simp only [bind, Except.bind, Option.getD_none, if_true, pure, Except.pure, hT]
      unfold writeRevision
      rw [i2]
      simp only
      have hcd' : cacheDict (di.cache.set 0 (.dict T)) = .ok T := by
        unfold cacheDict
        rw [cacheAt_eq (getElem?_set_eq' _ _ hlt0)]
        rfl
      rw [hcd']
      simp only [nextTrailer, prevEntry]
      rw [slotAt_eq i4]
      simp only [bind, Except.bind, pure, Except.pure, prevPos, i6]
      rw [if_pos (by omega), hT1]
      simp
    have hset := opened_settled hopened hch hcom
    obtain ⟨g1, -, g3⟩ := good_commit hgood hcom
    have hload : loads F = .ok
        { cur := .one (nextIndex0 (di.past.length + 1) 0) :: di.cur.drop 1, past := di.cur :: di.past,
          cache := di.cache.set 0 (.dict T1),
          curData := { fdata := .single F }, pastData := di.curData :: di.pastData } := by
      unfold loads docConstructor
      rw [i1]
      exact hcom
    have hkeys : ∀ k, ¬ MovingKey k → Dict.get? T1 k = Dict.get? s.tr k := by
      intro k hk
      unfold MovingKey at hk
      rw [← hT1, ← hT, Dict.get?_del, if_neg (fun e => hk (.inr (.inr e))), Dict.get?_set,
        if_neg (fun e => hk (.inr (.inl e))), Dict.get?_set, if_neg (fun e => hk (.inl e))]
    have hdcur : ∀ n, 1 ≤ n → (Slot.one (nextIndex0 (di.past.length + 1) 0) :: di.cur.drop 1)[n]? = di.cur[n]? := by
      intro n hn
      obtain ⟨k, rfl⟩ : ∃ k, n = k + 1 := ⟨n - 1, by omega⟩
      rw [List.getElem?_cons_succ, List.getElem?_drop, Nat.add_comm]
    refine ⟨_, T1, hload, g1, getElem?_set_eq' _ _ (lt_of_getElem? hroot), ⟨_, rfl, rfl⟩, hkeys, ?_, ?_⟩
    · intro n g hn
      have := hview n g hn
      rw [g3 n g hn (by simp)]
      exact this
    · intro _
      obtain ⟨cut, p, ⟨f0, FF, E, f1, f2, f3, f4, f5, f6⟩, -, -⟩ := initialDoc_fromFile i1
      have hE : E = [] := by
        rcases List.eq_nil_or_concat E with rfl | ⟨E0, last, rfl⟩
        · rfl
        · unfold Doc.data at f1
          rw [List.concat_eq_append, ← List.append_assoc] at f1
          have := (List.append_inj' f1 rfl).2
          simp only [List.cons.injEq, and_true] at this
          have h5 := f5 last (by simp)
          rw [← this, i2] at h5
          cases h5
      subst hE
      rw [List.append_nil] at f1
      have hrev : (di.curData :: di.pastData).reverse = FF := by rw [List.reverse_cons]; exact f1
      have hcut : cut = F.length := by
        rw [← hrev] at f4
        simp only [List.reverse_cons, List.getLast?_append, List.getLast?_singleton, Option.some_or, Option.bind_some, i2] at f4
        cases f4
        rfl
      subst hcut
      refine ⟨hset, h, ?_, ?_, ?_, by simp, by simp, ?_, ?_, by simp [f0], ?_, ?_, hk, ?_, hlaid, by simp⟩
      · intro s' hs'
        cases hs'
        exact hend
      · refine ⟨T1, getElem?_set_eq' _ _ (lt_of_getElem? hroot), ?_, ?_, ?_, ?_⟩
        · rw [← hT1, ← hT]
          exact wf_del (wf_set (wf_set hw (by decide) rfl) (by decide) rfl)
        · rw [← hT1, Dict.get?_del, if_pos rfl]
        · rw [← hT1, Dict.get?_del, if_neg (by decide), Dict.get?_set, if_pos rfl]
          rfl
        · intro s' hs' k hk
          cases hs'
          rw [hkeys k hk]
          cases Dict.get? s.tr k with
          | none => trivial
          | some v => exact .inl rfl
      · intro s' hs'
        cases hs'
        exact hw
      · intro _
        unfold revisionIndex
        simp only
        rw [hrev]
        have := revisionIndexLoop_cuts FF [] 0 (fun x hx => (f3 x hx).2)
        rw [List.append_nil, f4] at this
        rw [this]
        rfl
      · rw [stored_open (by simp [f0]) rfl]
        simp only [hrev]
        have hlc := leadingCuts_append FF [] f2 (fun x hx => (f3 x hx).2) (by simp)
        rw [List.append_nil, f4] at hlc
        rw [hlc]
        have hfirstD : (Doc.mk (.one (nextIndex0 (di.past.length + 1) 0) :: di.cur.drop 1) (di.cur :: di.past)
            (di.cache.set 0 (.dict T1)) { fdata := .single F } (di.curData :: di.pastData)).firstData.fdata = .single F := by
          have hm : (Doc.mk (.one (nextIndex0 (di.past.length + 1) 0) :: di.cur.drop 1) (di.cur :: di.past)
            (di.cache.set 0 (.dict T1)) { fdata := .single F } (di.curData :: di.pastData)).firstData ∈ FF := by
            rw [← hrev]
            unfold Doc.firstData
            simp only [List.getLastD_eq_getLast?, List.getLast?_cons, Option.getD_some, List.mem_reverse]
            cases hp : di.pastData.getLast? with
            | none => simp
            | some r => simp [List.mem_of_getLast? hp]
          exact (f3 _ hm).1
        simp only [hfirstD]
        rw [single_read_at (by omega) (by omega)]
        simp [bind, Except.bind, pure, Except.pure, allFragments, slice]
      · intro n hn hh
        rw [hdcur n hn] at hh
        exact hh
      · intro n hn hh
        simp only [closedRev, List.headD_cons] at hh
        have h8 := i8 n hn
        change match lastFor n (listed (s :: l)) with
          | none => di.cur[n]? = none ∨ di.cur[n]? = some .hole
          | some e => ∃ e', di.cur[n]? = some (.one e') ∧ e'.absPos = e.absPos at h8
        rcases hl : lastFor n (listed (s :: l)) with _ | le
        · rfl
        · rw [hl] at h8
          obtain ⟨e', k1, -⟩ := h8
          rw [k1] at hh
          rcases hh with k | k <;> cases k
      · intro n e hn he _
        simp only [closedRev, List.headD_cons] at he
        obtain ⟨-, -, p, num, gen, o, le, k1, k2, k3, k4, k5, k6, k7⟩ := hone n e hn he
        exact ⟨p, num, gen, o, le, k1, k3, k4, k5, k6, k7⟩

end Pdf
