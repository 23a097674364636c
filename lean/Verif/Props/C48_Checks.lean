/-
C48: the checks of the index against the disassembly.
-/
import Verif.Model.FileMap
import Verif.Lemmas.Xref

namespace Pdf

/-- The entry leads to the scanned object: same number, generation and position, or same number, envelope and
rank. -/
def Leads (e : Entry) : MapItem → Prop
  | .region (.indObj (some b) _ num gen _) _ =>
    e.envNum = none ∧ num = e.num ∧ gen = e.gen ∧ e.absPos = some (.at b)
  | .embedded _ _ j (.int n) _ env => ∃ v, e.envNum = some v ∧ n = e.num ∧ env = v ∧ e.oPos = some j
  | _ => False

/-- The tuple reported for an entry. -/
def ReportedAs (e : Entry) : Target → Prop
  | .dir num gen pos => e.envNum = none ∧ num = e.num ∧ gen = e.gen ∧ e.absPos = some (.at pos)
  | .emb num env rank => ∃ v p, e.envNum = some v ∧ e.oPos = some p ∧ num = e.num ∧ env = v ∧ rank = p

/-- The tuple reported for a scanned object. -/
def ReportedObjAs : MapItem → Target → Prop
  | .region (.indObj (some b) _ num gen _) _, t => t = .dir num gen b
  | .embedded _ _ j (.int n) _ env, t => t = .emb n env j
  | _, _ => False

theorem reported_of {e : Entry} {t : Target} (h : e.target = .ok t) (t' : Target) : ReportedAs e t' ↔ t' = t := by
  unfold Entry.target at h
  split at h
  · rename_i env henv
    cases hp : e.oPos with
    | none => rw [hp] at h; cases h
    | some p =>
      rw [hp] at h
      cases h
      cases t' with
      | dir => simp [ReportedAs, henv]
      | emb a b c =>
        simp only [ReportedAs, henv, hp, Target.emb.injEq]
        constructor
        · rintro ⟨v, p', h1, h2, rfl, rfl, rfl⟩
          cases h1; cases h2
          exact ⟨rfl, rfl, rfl⟩
        · rintro ⟨rfl, rfl, rfl⟩
          exact ⟨_, _, rfl, rfl, rfl, rfl, rfl⟩
  · rename_i henv
    split at h
    · cases h
    · rename_i n hn
      cases h
      cases t' with
      | emb => simp [ReportedAs, henv]
      | dir a b c =>
        simp only [ReportedAs, henv, hn, Target.dir.injEq]
        constructor
        · rintro ⟨-, rfl, rfl, h⟩
          cases h
          exact ⟨rfl, rfl, rfl⟩
        · rintro ⟨rfl, rfl, rfl⟩
          exact ⟨trivial, rfl, rfl, rfl⟩
    · cases h

theorem leads_iff {e : Entry} {t : Target} (h : e.target = .ok t) (x : MapItem) (o : Option (Option Target))
    (hx : x.target = .ok o) : Leads e x ↔ o = some (some t) := by
  have hr := reported_of h
  cases x with
  | region r rows =>
    cases r with
    | indObj b fin num gen obj =>
      cases b with
      | none => cases hx; simp [Leads]
      | some b =>
        cases hx
        rw [show Leads e (.region (.indObj (some b) fin num gen obj) rows) ↔ ReportedAs e (.dir num gen b) from Iff.rfl,
          hr]
        simp
    | _ => cases hx; simp [Leads]
  | xrefStream => cases hx; simp [Leads]
  | embedded bo act j num obj env =>
    cases num with
    | int n =>
      cases hx
      rw [show Leads e (.embedded bo act j (.int n) obj env) ↔ ReportedAs e (.emb n env j) from ?_, hr]
      · simp
      · simp only [Leads, ReportedAs]
        constructor
        · rintro ⟨v, h1, h2, h3, h4⟩; exact ⟨v, j, h1, h4, h2, h3, rfl⟩
        · rintro ⟨v, p, h1, h4, h2, h3, h5⟩
          refine ⟨v, h1, h2, h3, ?_⟩
          rw [h4]
          congr 1
          omega
    | _ => cases hx <;> simp [Leads]

theorem reportedObj_iff {x : MapItem} {o : Option (Option Target)} (hx : x.target = .ok o) (t : Target) :
    ReportedObjAs x t ↔ o = some (some t) := by
  cases x with
  | region r rows =>
    cases r with
    | indObj b fin num gen obj =>
      cases b with
      | none => cases hx; simp [ReportedObjAs]
      | some b => cases hx; simp [ReportedObjAs, eq_comm]
    | _ => cases hx; simp [ReportedObjAs]
  | xrefStream => cases hx; simp [ReportedObjAs]
  | embedded bo act j num obj env =>
    cases num with
    | int n => cases hx; simp [ReportedObjAs, eq_comm]
    | _ => cases hx <;> simp [ReportedObjAs]

theorem scanned_mem : ∀ {m : List MapItem} {l : List (Option (Option Target))},
    m.mapM MapItem.target = .ok l → ∀ o, o ∈ l ↔ ∃ x ∈ m, x.target = .ok o
  | [], l, h, o => by cases h; simp
  | x :: m, l, h, o => by
    rw [List.mapM_cons] at h
    obtain ⟨a, ha, h⟩ := bind_eq_ok h
    obtain ⟨l', hl, h⟩ := bind_eq_ok h
    cases h
    simp only [List.mem_cons, scanned_mem hl o, exists_eq_or_imp, ha, Except.ok.injEq]
    rw [eq_comm]

theorem scanned_target {m : List MapItem} {l : List (Option (Option Target))}
    (h : m.mapM MapItem.target = .ok l) : ∀ x ∈ m, ∃ o, x.target = .ok o := by
  induction m generalizing l with
  | nil => simp
  | cons x m ih =>
    rw [List.mapM_cons] at h
    obtain ⟨a, ha, h⟩ := bind_eq_ok h
    obtain ⟨l', hl, h⟩ := bind_eq_ok h
    intro y hy
    rcases List.mem_cons.1 hy with rfl | hy
    · exact ⟨a, ha⟩
    · exact ih hl y hy

theorem scanned_leads {m : List MapItem} {objs : List (Option Target)} (hs : scanned m = .ok objs)
    {e : Entry} {t : Target} (h : e.target = .ok t) : some t ∈ objs ↔ ∃ x ∈ m, Leads e x := by
  obtain ⟨l, hl, hs⟩ := bind_eq_ok hs
  cases hs
  simp only [List.mem_filterMap, id_eq, exists_eq_right, scanned_mem hl]
  constructor
  · rintro ⟨x, hx, hxt⟩; exact ⟨x, hx, (leads_iff h x _ hxt).2 rfl⟩
  · rintro ⟨x, hx, hle⟩
    obtain ⟨o, ho⟩ := scanned_target hl x hx
    rw [(leads_iff h x o ho).1 hle] at ho
    exact ⟨x, hx, ho⟩

/-- The position of a section: that of its entry number 0. -/
def entryPos (e : Entry) : Option Int := match e.xrefTablePos with | some p => some p | none => e.xrefStreamPos

/-- The sections as read in a file (filestruct.py:178-191, 219-237): the trailer, numbered 0, comes first and no other
entry has this number. -/
def HeadedAt (p : Option Int) : List Entry → Prop
  | [] => False
  | e :: rest => e.num = 0 ∧ entryPos e = p ∧ ∀ x ∈ rest, x.num ≠ 0

theorem sectionErrors_spec {objs : List (Option Target)} : ∀ {xref : List Entry} {pos pos' : Option (Option Int)}
    {errs : List Target}, sectionErrors objs pos xref = .ok (errs, pos') →
    (∀ t, t ∈ errs ↔ ∃ e ∈ xref, 0 < e.num ∧ e.target = .ok t ∧ some t ∉ objs) ∧
    (∀ e ∈ xref, 0 < e.num → ∃ t, e.target = .ok t) ∧ ((∀ e ∈ xref, e.num ≠ 0) → pos' = pos)
  | [], pos, pos', errs, h => by cases h; simp
  | o :: rest, pos, pos', errs, h => by
    rw [sectionErrors] at h
    split at h
    · rename_i h0
      obtain ⟨i1, i2, -⟩ := sectionErrors_spec h
      refine ⟨fun t => ?_, ?_, fun hh => absurd h0 (hh o (by simp))⟩
      · rw [i1]; simp [h0]
      · intro e he hpos
        rcases List.mem_cons.1 he with rfl | he
        · omega
        · exact i2 e he hpos
    · rename_i h0
      split at h
      · rename_i hneg
        obtain ⟨i1, i2, i3⟩ := sectionErrors_spec h
        refine ⟨fun t => ?_, ?_, fun hh => i3 fun e he => hh e (by simp [he])⟩
        · rw [i1]
          have : ¬ 0 < o.num := by omega
          simp [this]
        · intro e he hpos
          rcases List.mem_cons.1 he with rfl | he
          · omega
          · exact i2 e he hpos
      · have hp : 0 < o.num := by omega
        obtain ⟨k, hk, h⟩ := bind_eq_ok h
        obtain ⟨⟨errs', pos''⟩, hr, h⟩ := bind_eq_ok h
        obtain ⟨i1, i2, i3⟩ := sectionErrors_spec hr
        have i2' : ∀ e ∈ o :: rest, 0 < e.num → ∃ t, e.target = .ok t := by
          intro e he hpos
          rcases List.mem_cons.1 he with rfl | he
          · exact ⟨k, hk⟩
          · exact i2 e he hpos
        simp only at h
        split at h
        · rename_i hm
          cases h
          refine ⟨fun t => ?_, i2', fun hh => i3 fun e he => hh e (by simp [he])⟩
          rw [i1]
          simp only [List.mem_cons, exists_eq_or_imp, hk, Except.ok.injEq]
          constructor
          · exact .inr
          · rintro (⟨-, rfl, hn⟩ | h)
            · exact absurd hm hn
            · exact h
        · rename_i hm
          cases h
          refine ⟨fun t => ?_, i2', fun hh => i3 fun e he => hh e (by simp [he])⟩
          simp only [List.mem_cons, exists_eq_or_imp, hk, Except.ok.injEq, i1]
          constructor
          · rintro (rfl | h)
            · exact .inl ⟨hp, rfl, hm⟩
            · exact .inr h
          · rintro (⟨-, rfl, -⟩ | h)
            · exact .inl rfl
            · exact .inr h

theorem sectionErrors_pos {objs : List (Option Target)} {xref : List Entry} {pos pos' : Option (Option Int)}
    {errs : List Target} {p : Option Int} (hp : HeadedAt p xref)
    (h : sectionErrors objs pos xref = .ok (errs, pos')) : pos' = some p := by
  cases xref with
  | nil => exact hp.elim
  | cons e rest =>
    obtain ⟨h0, h1, h2⟩ := hp
    rw [sectionErrors, if_pos h0] at h
    rw [(sectionErrors_spec h).2.2 h2, ← h1]
    rfl

theorem targetsLoop_other {objs : List (Option Target)} {p : Option Int} : ∀ {seq : List (List Entry)}
    {pos : Option (Option Int)} {ret ret' : Option Int → Option (List Target)},
    (∀ s ∈ seq, ∃ q, HeadedAt q s ∧ q ≠ p) → targetsLoop objs pos seq ret = .ok ret' → ret' p = ret p
  | [], _, _, _, _, h => by cases h; rfl
  | xref :: seq, pos, ret, ret', hs, h => by
    rw [targetsLoop] at h
    obtain ⟨⟨errs, pos'⟩, he, h⟩ := bind_eq_ok h
    obtain ⟨q, hq, hne⟩ := hs xref (by simp)
    have := sectionErrors_pos hq he
    subst this
    have := targetsLoop_other (fun s hs' => hs s (by simp [hs'])) h
    rw [this]
    simp [Ne.symm hne]

theorem targetsLoop_split {objs : List (Option Target)} : ∀ {pre post : List (List Entry)}
    {pos : Option (Option Int)} {ret ret' : Option Int → Option (List Target)},
    targetsLoop objs pos (pre ++ post) ret = .ok ret' →
    ∃ pos1 ret1, targetsLoop objs pos1 post ret1 = .ok ret'
  | [], post, pos, ret, ret', h => ⟨pos, ret, h⟩
  | x :: pre, post, pos, ret, ret', h => by
    rw [List.cons_append, targetsLoop] at h
    obtain ⟨⟨errs, pos'⟩, he, h⟩ := bind_eq_ok h
    obtain ⟨p, hp, h⟩ := bind_eq_ok h
    exact targetsLoop_split h

/-- C48. For each section of the index, `check_index_targets` gives exactly the entries (not free, hence numbered
above 0) which lead to no scanned object. The sections are as read in a file: each has one entry numbered 0, with a
position which no later section has.
Partial: see `C48_overwritten_counterexample` for other sections. -/
theorem C48_targets_partial (m : List MapItem) (pre post : List (List Entry)) (xref : List Entry) (p : Option Int)
    (hx : HeadedAt p xref) (hpost : ∀ s ∈ post, ∃ q, HeadedAt q s ∧ q ≠ p)
    (ret : Option Int → Option (List Target)) (h : checkIndexTargets m (pre ++ xref :: post) = .ok ret) :
    ∃ errs, ret p = some errs ∧
      ∀ t, t ∈ errs ↔ ∃ e ∈ xref, 0 < e.num ∧ ReportedAs e t ∧ ∀ x ∈ m, ¬ Leads e x := by
  obtain ⟨objs, ho, h⟩ := bind_eq_ok h
  obtain ⟨pos1, ret1, h⟩ := targetsLoop_split h
  rw [targetsLoop] at h
  obtain ⟨⟨errs, pos'⟩, he, h⟩ := bind_eq_ok h
  have := sectionErrors_pos hx he
  subst this
  refine ⟨errs, ?_, fun t => ?_⟩
  · rw [targetsLoop_other hpost h]
    simp
  · obtain ⟨i1, i2, -⟩ := sectionErrors_spec he
    rw [i1]
    constructor
    · rintro ⟨e, hm, hn, ht, hno⟩
      exact ⟨e, hm, hn, (reported_of ht t).2 rfl, fun x hx' hl => hno ((scanned_leads ho ht).2 ⟨x, hx', hl⟩)⟩
    · rintro ⟨e, hm, hn, hr, hno⟩
      obtain ⟨t', ht⟩ := i2 e hm hn
      rw [(reported_of ht t).1 hr]
      refine ⟨e, hm, hn, ht, fun hin => ?_⟩
      obtain ⟨x, hx', hl⟩ := (scanned_leads ho ht).1 hin
      exact hno x hx' hl

theorem indexedTargets_spec : ∀ {es : List Entry} {l : List Target}, indexedTargets es = .ok l →
    (∀ t, t ∈ l ↔ ∃ e ∈ es, 0 < e.num ∧ e.target = .ok t) ∧ ∀ e ∈ es, 0 < e.num → ∃ t, e.target = .ok t
  | [], l, h => by cases h; simp
  | o :: es, l, h => by
    rw [indexedTargets] at h
    split at h
    · obtain ⟨i1, i2⟩ := indexedTargets_spec h
      have hn : ¬ 0 < o.num := by omega
      refine ⟨fun t => by rw [i1]; simp [hn], ?_⟩
      intro e he hp
      rcases List.mem_cons.1 he with rfl | he
      · omega
      · exact i2 e he hp
    · obtain ⟨k, hk, h⟩ := bind_eq_ok h
      obtain ⟨l', hl, h⟩ := bind_eq_ok h
      cases h
      obtain ⟨i1, i2⟩ := indexedTargets_spec hl
      have hp : 0 < o.num := by omega
      refine ⟨fun t => ?_, ?_⟩
      · simp only [List.mem_cons, exists_eq_or_imp, i1, hk, hp, Except.ok.injEq, true_and]
        rw [eq_comm]
      · intro e he hpos
        rcases List.mem_cons.1 he with rfl | he
        · exact ⟨k, hk⟩
        · exact i2 e he hpos

/-- C48. `check_not_indexed_objects` gives exactly the objects to which no entry of any section leads. -/
theorem C48_not_indexed (m : List MapItem) (seq : List (List Entry)) (l : List (Option Target))
    (h : checkNotIndexed m seq = .ok l) (t : Target) :
    some t ∈ l ↔ ∃ x ∈ m, ReportedObjAs x t ∧ ∀ xref ∈ seq, ∀ e ∈ xref, 0 < e.num → ¬ Leads e x := by
  obtain ⟨idx, hi, h⟩ := bind_eq_ok h
  obtain ⟨objs, ho, h⟩ := bind_eq_ok h
  obtain ⟨l', hl, ho'⟩ := bind_eq_ok ho
  cases h
  cases ho'
  obtain ⟨i1, i2⟩ := indexedTargets_spec hi
  simp only [List.mem_filter, List.mem_filterMap, id_eq, exists_eq_right, scanned_mem hl, decide_not,
    Bool.not_eq_eq_eq_not, Bool.not_true, decide_eq_false_iff_not]
  constructor
  · rintro ⟨⟨x, hx, hxt⟩, hno⟩
    refine ⟨x, hx, (reportedObj_iff hxt t).2 rfl, fun xref hxr e he hp hle => hno ?_⟩
    have hem : e ∈ seq.flatten := List.mem_flatten.2 ⟨xref, hxr, he⟩
    obtain ⟨k, hk⟩ := i2 e hem hp
    have := (leads_iff hk x _ hxt).1 hle
    cases this
    exact (i1 _).2 ⟨e, hem, hp, hk⟩
  · rintro ⟨x, hx, hr, hno⟩
    obtain ⟨o, hxt⟩ := scanned_target hl x hx
    have := (reportedObj_iff hxt t).1 hr
    subst this
    refine ⟨⟨x, hx, hxt⟩, fun hin => ?_⟩
    obtain ⟨e, hem, hp, hk⟩ := (i1 t).1 hin
    obtain ⟨xref, hxr, he⟩ := List.mem_flatten.1 hem
    exact hno xref hxr e he hp ((leads_iff hk x _ hxt).2 rfl)

/-- C48, the embedded objects whose number is not an integer (`none` stands for their tuple): they are always reported. -/
theorem C48_not_indexed_odd (m : List MapItem) (seq : List (List Entry)) (l : List (Option Target))
    (h : checkNotIndexed m seq = .ok l) :
    none ∈ l ↔ ∃ bo actual j num obj env, .embedded bo actual j num obj env ∈ m ∧ ∀ n, num ≠ .int n := by
  obtain ⟨idx, hi, h⟩ := bind_eq_ok h
  obtain ⟨objs, ho, h⟩ := bind_eq_ok h
  obtain ⟨l', hl, ho'⟩ := bind_eq_ok ho
  cases h
  cases ho'
  simp only [List.mem_filter, List.mem_filterMap, id_eq, exists_eq_right, scanned_mem hl, and_true]
  constructor
  · rintro ⟨x, hx, hxt⟩
    cases x with
    | region r rows =>
      cases r with
      | indObj b => cases b <;> cases hxt
      | _ => cases hxt
    | xrefStream => cases hxt
    | embedded bo act j num obj env =>
      refine ⟨bo, act, j, num, obj, env, hx, ?_⟩
      rintro n rfl
      cases hxt
  · rintro ⟨bo, act, j, num, obj, env, hx, hn⟩
    refine ⟨_, hx, ?_⟩
    obtain ⟨o, ho⟩ := scanned_target hl _ hx
    cases num with
    | int n => exact absurd rfl (hn n)
    | _ => first | rfl | cases ho

/-- The numbers of the embedded objects are integers, and the entries have positions. -/
def checkMap : List MapItem :=
  [.region (.indObj (some 9) 25 1 0 (.int 5)) [], .region (.indObj (some 30) 60 7 0 .null) [],
    .embedded 30 12 0 (.int 3) .null 7, .embedded 30 14 1 (.int 4) .null 7]

def checkSeq : List (List Entry) :=
  [[{ num := 0, xrefStreamPos := some 90 }, { num := 1, absPos := some (.at 9) },
      { num := 2, absPos := some (.at 9) }, { num := 3, envNum := some 7, oPos := some 1 },
      { num := 7, absPos := some (.at 30) }],
    [{ num := 0, xrefTablePos := some 70 }, { num := 4, envNum := some 7, oPos := some 1 },
      { num := 1, gen := 1, absPos := some (.at 9) }]]

example : (checkIndexTargets checkMap checkSeq).map (fun r => (r (some 90), r (some 70), r none))
    = .ok (some [.dir 2 0 9, .emb 3 7 1], some [.dir 1 1 9], none) ∧
    checkNotIndexed checkMap checkSeq = .ok [some (.emb 3 7 0)] := by decide

example : HeadedAt (some 90) checkSeq[0] ∧ HeadedAt (some 70) checkSeq[1] := by
  refine ⟨⟨rfl, rfl, ?_⟩, rfl, rfl, ?_⟩ <;> decide

/-- C48 is false of sections without entry numbered 0: their errors replace those of the previous section. -/
theorem C48_overwritten_counterexample :
    (checkIndexTargets [.region (.indObj (some 9) 25 1 0 (.int 5)) []]
      [[{ num := 0, xrefTablePos := some 70 }, { num := 2, absPos := some (.at 40) }],
        [{ num := 1, absPos := some (.at 9) }]]).map (fun r => r (some 70)) = .ok (some []) := by decide

end Pdf
