/-
C62: pending edits are written.
-/
import Verif.Props.C59_Load
import Verif.Props.C18_Revision
import Verif.Props.C49_Provider

namespace Pdf
open Spec

/-- **C62 is false**: when the last revision of the file changes no object, loading opens no revision; an
update is accepted, and what is written is the original file. -/
theorem C62_counterexample [Zlib] :
    (do let d ← loads emptyRevFile
        let d ← updateObject d 2 (.int 13)
        let (v, d) ← getObject d (.ref 0 2)
        let (out, _) ← writeFile d
        return (v, (changes d).length, out == emptyRevFile)) = .ok (.int 13, 1, true) := by
  kernel_rfl

theorem findAux_at {p : Bytes} : ∀ {rest : Bytes} {i k : Nat}, findAux p i rest = some k →
    ∃ j, k = i + j ∧ p <+: rest.drop j := by
  intro rest
  induction rest with
  | nil =>
    intro i k h
    unfold findAux at h
    split at h
    · rename_i hp
      cases h
      exact ⟨0, rfl, by simp [hp]⟩
    · cases h
  | cons c rest ih =>
    intro i k h
    unfold findAux at h
    split at h
    · rename_i hp
      cases h
      exact ⟨0, rfl, (startsWith_iff _ _).1 hp⟩
    · obtain ⟨j, rfl, hj⟩ := ih h
      exact ⟨j + 1, by omega, by simpa using hj⟩

theorem rfindAux_at {p : Bytes} : ∀ {rest : Bytes} {i k : Nat}, rfindAux p i rest = some k →
    ∃ j, k = i + j ∧ p <+: rest.drop j := by
  intro rest
  induction rest with
  | nil =>
    intro i k h
    unfold rfindAux at h
    split at h
    · rename_i hp
      cases h
      exact ⟨0, rfl, by simp [hp]⟩
    · cases h
  | cons c rest ih =>
    intro i k h
    unfold rfindAux at h
    split at h
    · rename_i k' hk
      cases h
      obtain ⟨j, rfl, hj⟩ := ih hk
      exact ⟨j + 1, by omega, by simpa using hj⟩
    · split at h
      · rename_i hp
        cases h
        exact ⟨0, rfl, (startsWith_iff _ _).1 hp⟩
      · cases h

theorem find_at {text p : Bytes} {i k : Nat} (h : find text p i = some k) : p <+: text.drop k := by
  obtain ⟨j, rfl, hj⟩ := findAux_at h
  rwa [List.drop_drop] at hj

theorem rfind_at {text p : Bytes} {i k : Nat} (h : rfind text p i = some k) : p <+: text.drop k := by
  obtain ⟨j, rfl, hj⟩ := rfindAux_at h
  rwa [List.drop_drop] at hj

/-- A position given as an integer, that of a `%%EOF` of the file unless negative. -/
def AtEof (B : Bytes) (p : Int) : Prop := 0 ≤ p → b!"%%EOF" <+: B.drop p.toNat

theorem atEof_find (B : Bytes) (i : Nat) : AtEof B (posOf (find B b!"%%EOF" i)) := by
  intro h
  rcases hf : find B b!"%%EOF" i with _ | k
  · rw [hf] at h
    simp [posOf] at h
  · exact find_at hf

theorem atEof_rfind (B : Bytes) (i : Nat) : AtEof B (posOf (rfind B b!"%%EOF" i)) := by
  intro h
  rcases hf : rfind B b!"%%EOF" i with _ | k
  · rw [hf] at h
    simp [posOf] at h
  · exact rfind_at hf

theorem single_read {B : Bytes} {start length : Int} {b : Bytes} {x y z : Int}
    (h : (Provider.single B).read start length = .ok (b, x, y, z)) : b = B := by
  unfold Provider.read at h
  split at h
  · cases h
  · simp only [Except.ok.injEq, Prod.mk.injEq] at h
    exact h.1.symm

theorem readSection_single [Zlib] {B : Bytes} {p q e l : Int} {s : Section} {t : Dict} {b : Bytes}
    (h : readSection (.single B) p q e l = .ok (s, t, b)) : s.eofPos = e ∧ b = B := by
  unfold readSection at h
  obtain ⟨⟨b1, x, y, z⟩, h1, h⟩ := bind_eq_ok h
  have hb := single_read h1
  simp only at h
  obtain ⟨a, -, h⟩ := bind_eq_ok h
  obtain ⟨⟨b2, t2, o2, tr⟩, h2, h⟩ := bind_eq_ok h
  have hb2 : b2 = B := by
    split at h2
    · obtain ⟨r, -, h2⟩ := bind_eq_ok h2
      cases h2
      exact hb
    · obtain ⟨⟨b3, x3, y3, z3⟩, h3, h2⟩ := bind_eq_ok h2
      simp only at h2
      obtain ⟨a3, -, h2⟩ := bind_eq_ok h2
      obtain ⟨r, -, h2⟩ := bind_eq_ok h2
      cases h2
      exact single_read h3
  simp only at h
  split at h
  · simp only [Except.ok.injEq, Prod.mk.injEq] at h
    obtain ⟨rfl, rfl, rfl⟩ := h
    exact ⟨rfl, hb2⟩
  · cases h

theorem chainLoop_eof [Zlib] (B : Bytes) : ∀ (fuel : Nat) (p x : Int) (secs : List Section),
    chainLoop (.single B) fuel B p x = .ok secs → ∀ s ∈ secs, AtEof B s.eofPos := by
  intro fuel
  induction fuel with
  | zero => intro p x secs h; cases h
  | succ fuel ih =>
    intro p x secs h s hs
    unfold chainLoop at h
    split at h
    · cases h
      cases hs
    obtain ⟨⟨s1, b1, p1, x1⟩, h1, h⟩ := bind_eq_ok h
    obtain ⟨rest, h2, h⟩ := bind_eq_ok h
    cases h
    unfold chainTurn at h1
    obtain ⟨i, -, g1⟩ := bind_eq_ok h1
    obtain ⟨⟨s3, t3, b3⟩, h3, g2⟩ := bind_eq_ok g1
    obtain ⟨⟨y1, y2, y3⟩, -, g3⟩ := bind_eq_ok g2
    obtain ⟨e1, rfl⟩ := readSection_single h3
    simp only [Except.ok.injEq, Prod.mk.injEq] at g3
    obtain ⟨rfl, rfl, rfl, rfl⟩ := g3
    rcases List.mem_cons.1 hs with rfl | hs
    · rw [e1]
      exact atEof_find _ _
    · exact ih _ _ _ h2 s hs

theorem xrefSections_eof [Zlib] {B : Bytes} {n : Nat} {secs : List Section}
    (h : xrefSections (.single B) n = .ok secs) : ∀ s ∈ secs, AtEof B s.eofPos := by
  unfold xrefSections at h
  obtain ⟨⟨b0, x0, y0, z0⟩, h0, h⟩ := bind_eq_ok h
  have hb := single_read h0
  subst hb
  simp only at h
  obtain ⟨a, -, h⟩ := bind_eq_ok h
  obtain ⟨xp, -, h⟩ := bind_eq_ok h
  obtain ⟨⟨s1, t1, b1⟩, h1, h⟩ := bind_eq_ok h
  obtain ⟨e1, rfl⟩ := readSection_single h1
  simp only at h
  obtain ⟨⟨y1, y2, y3⟩, -, h⟩ := bind_eq_ok h
  obtain ⟨rest, h2, h⟩ := bind_eq_ok h
  cases h
  intro s hs
  rcases List.mem_cons.1 hs with rfl | hs
  · rw [e1]
    exact atEof_rfind _ _
  · exact chainLoop_eof b1 _ _ _ _ h2 s hs

/-- A column and its completed form: an offset comes from the same offset. -/
def SamePos (cur col : Rev) : Prop :=
  col.length = cur.length ∧ ∀ (i : Nat) (e : Entry) (p : Int), col[i]? = some (.one e) → e.absPos = some (.at p) →
    ∃ e0 : Entry, cur[i]? = some (.one e0) ∧ e0.absPos = some (.at p)

theorem completeEntry_pos {nxt : List Int} {cur : Rev} {e e' : Entry} {p : Int}
    (h : completeEntry nxt cur e = .ok e') (hp : e'.absPos = some (.at p)) : e.absPos = some (.at p) := by
  unfold completeEntry at h
  split at h
  · rename_i q hq
    obtain ⟨n, -, h⟩ := bind_eq_ok h
    cases h
    exact hp
  · obtain ⟨ce, -, h⟩ := bind_eq_ok h
    obtain ⟨loc, -, h⟩ := bind_eq_ok h
    obtain ⟨n, -, h⟩ := bind_eq_ok h
    cases h
    cases hp
  · cases h

theorem mapM_get {α β : Type} {f : α → Py β} : ∀ {l : List α} {r : List β}, l.mapM f = .ok r →
    ∀ (i : Nat) (y : β), r[i]? = some y → ∃ x, l[i]? = some x ∧ f x = .ok y
  | [], r, h => by
    cases h
    simp
  | a :: l, r, h => by
    rw [List.mapM_cons] at h
    obtain ⟨b, h1, h⟩ := bind_eq_ok h
    obtain ⟨bs, h2, h⟩ := bind_eq_ok h
    cases h
    intro i y hy
    cases i with
    | zero =>
      simp only [List.getElem?_cons_zero, Option.some.injEq] at hy
      subst hy
      exact ⟨a, rfl, h1⟩
    | succ i => exact mapM_get h2 i y hy

theorem completeAll_pos {nxt : List Int} : ∀ (l : List Rev) (before : Rev) (acc res : List Rev),
    SamePos before (acc.head?.getD []) → completeAll nxt before acc l = .ok res →
    SamePos (l.getLast?.getD before) (res.head?.getD []) := by
  intro l
  induction l with
  | nil =>
    intro before acc res hs h
    cases h
    exact hs
  | cons cur l ih =>
    intro before acc res hs h
    unfold completeAll at h
    obtain ⟨col, h1, h⟩ := bind_eq_ok h
    rw [List.getLast?_cons]
    refine ih cur (col :: acc) res ?_ h
    simp only [List.head?_cons, Option.getD_some]
    refine ⟨by simpa using (mapM_mem h1).1, ?_⟩
    intro i e p hi hp
    obtain ⟨x, hx, hc⟩ := mapM_get h1 i _ hi
    have : x = i := by
      rw [List.getElem?_range (by simpa using lt_of_getElem? hx)] at hx
      exact (Option.some.inj hx).symm
    subst this
    unfold completeCell at hc
    obtain ⟨s, hs1, hc⟩ := bind_eq_ok hc
    have hs1 := slotAt_ok hs1
    split at hc
    · rename_i hb
      have hd := orRaise_eq_ok hc
      obtain ⟨e0, g1, g2⟩ := hs.2 x e p hd hp
      rw [hb] at g1
      cases g1
      exact ⟨e0, hs1, g2⟩
    · cases s with
      | hole => cases hc
      | one e1 =>
        obtain ⟨e2, he2, hc⟩ := bind_eq_ok hc
        cases hc
        exact ⟨e1, hs1, completeEntry_pos he2 hp⟩
      | many es =>
        obtain ⟨e2, he2, hc⟩ := bind_eq_ok hc
        cases hc

theorem buildColumns_last {secs : List Section} {nb : Int} {cols : List Rev} {P : Int → Prop}
    (h : buildColumns secs nb = .ok cols) (hnb : 0 ≤ nb) (hs : ∀ s ∈ secs, P s.eofPos) :
    ∃ (m : Rev) (rest : List Rev) (e : Entry) (p : Int), cols = m :: rest ∧ m.getLast? = some (.one e) ∧
      e.absPos = some (.at p) ∧ P p := by
  unfold buildColumns at h
  obtain ⟨l, h1, h⟩ := bind_eq_ok h
  have hl : ∀ s ∈ l, P s.eofPos := by
    intro s hs'
    obtain ⟨x, hx, -, e2⟩ := C61_table_dropped _ _ _ h1 s hs'
    rw [e2]
    simp only [List.nil_append, List.mem_filter, List.mem_reverse] at hx
    exact hs x hx.1
  cases l with
  | nil => cases h
  | cons s ss =>
    obtain ⟨p, -, h⟩ := bind_eq_ok h
    simp only [bind, Except.bind] at h
    split at h
    · cases h
    rename_i u hu
    clear hu u
    rcases hm : placeAll 0 ((List.replicate (nb + 2).toNat Slot.hole).set 0
        (.one { s.trailer with ver := 0, docVer := 0 })) (s.objs ++ [eofEntry s]) with e | m
    · rw [hm] at h
      cases h
    rw [hm] at h
    simp only at h
    obtain ⟨l1, -⟩ := placeAll_get _ hm
    obtain ⟨e1, g1, g2⟩ := placeAll_last hm
    have hpos := lt_of_getElem? g1
    have hlen : 1 < m.length := by
      simp only [List.length_set, List.length_replicate] at l1
      omega
    obtain ⟨m', rest, rfl, l2, -, k⟩ := columns_get _ _ _ _ _ h hlen
    rcases hlast : ss.getLast? with _ | s'
    · rw [hlast] at k
      simp only at k
      subst k
      exact ⟨m', rest, e1, s.eofPos, rfl, by rw [List.getLast?_eq_getElem?, l1]; exact g1, g2, hl s (by simp)⟩
    · rw [hlast] at k
      obtain ⟨e2, k1, k2⟩ := k
      exact ⟨m', rest, e2, s'.eofPos, rfl, by rw [List.getLast?_eq_getElem?, l2]; exact k1, k2,
        hl s' (List.mem_cons_of_mem _ (List.mem_of_getLast? hlast))⟩

theorem le_foldl_max : ∀ (l : List Int) (a : Int), a ≤ l.foldl max a ∧ ∀ x ∈ l, x ≤ l.foldl max a := by
  intro l
  induction l with
  | nil => intro a; simp
  | cons y l ih =>
    intro a
    obtain ⟨h1, h2⟩ := ih (max a y)
    refine ⟨by simp only [List.foldl_cons]; omega, ?_⟩
    intro x hx
    rcases List.mem_cons.1 hx with rfl | hx
    · simp only [List.foldl_cons]
      omega
    · exact h2 x hx

theorem nextMap_nb {fdata : Provider} {secs : List Section} {nxt : List Int} {nb : Int}
    (h : nextMap fdata secs = .ok (nxt, nb)) (hne : secs ≠ []) : 0 ≤ nb := by
  unfold nextMap at h
  obtain ⟨seqs, h1, h⟩ := bind_eq_ok h
  obtain ⟨sz, -, h⟩ := bind_eq_ok h
  cases h
  obtain ⟨s, ss, rfl⟩ := List.exists_cons_of_ne_nil hne
  rw [List.mapM_cons] at h1
  obtain ⟨b, h2, h1⟩ := bind_eq_ok h1
  obtain ⟨bs, -, h1⟩ := bind_eq_ok h1
  cases h1
  unfold seqOf at h2
  obtain ⟨t, -, h2⟩ := bind_eq_ok h2
  obtain ⟨os, -, h2⟩ := bind_eq_ok h2
  cases h2
  apply (le_foldl_max _ _).2
  simp

/-- **C20**, what the end of the last revision is: after a `%%EOF` marker of the file and the
ends of line that follow. -/
theorem C20_cut [Zlib] (B : Bytes) (d : Doc) (h : initialDoc (.single B) = .ok d) :
    ∃ p cut : Nat, d.curData.eofCut = some cut ∧ slice B p (p + 5) = b!"%%EOF" ∧
      eofCut p (.single B) = .ok cut ∧ cut ≤ B.length := by
  unfold initialDoc at h
  obtain ⟨size, -, h⟩ := bind_eq_ok h
  obtain ⟨secs, hsecs, h⟩ := bind_eq_ok h
  obtain ⟨⟨nxt, nb⟩, hnxt, h⟩ := bind_eq_ok h
  obtain ⟨cols, hcols, h⟩ := bind_eq_ok h
  obtain ⟨revs, hrevs, h⟩ := bind_eq_ok h
  obtain ⟨datas, hd, hfin⟩ := bind_eq_ok h
  have hne : secs ≠ [] := by
    rintro rfl
    cases hcols
  obtain ⟨m, rest, e, p, rfl, g1, g2, g3⟩ :=
    buildColumns_last (P := AtEof B) hcols (nextMap_nb hnxt hne) (xrefSections_eof hsecs)
  have hsame := completeAll_pos _ _ [] _ ⟨rfl, by simp⟩ hrevs
  rw [List.reverse_cons, List.getLast?_append] at hsame
  simp only [List.getLast?_singleton, Option.some_or, Option.getD_some] at hsame
  split at hfin
  · rename_i cur past d0 ds hcur
    obtain ⟨cache, -, hfin⟩ := bind_eq_ok hfin
    cases hfin
    simp only
    cases revs with
    | nil => cases hcur
    | cons rev revs =>
      rw [List.mapM_cons] at hd
      obtain ⟨b, h2, h1⟩ := bind_eq_ok hd
      obtain ⟨bs, -, h3⟩ := bind_eq_ok h1
      cases h3
      unfold fileData at h2
      split at h2
      · rename_i e1 he1
        obtain ⟨q, hq, h2⟩ := bind_eq_ok h2
        obtain ⟨q', hq', h2⟩ := bind_eq_ok h2
        obtain ⟨cut, hc, h2⟩ := bind_eq_ok h2
        cases h2
        unfold directPos at hq
        split at hq
        · rename_i q0 hq0
          cases hq
          simp only [List.head?_cons, Option.getD_some] at hsame
          rw [List.getLast?_eq_getElem?] at he1 g1
          obtain ⟨e2, k1, k2⟩ := hsame.2 _ _ _ he1 hq0
          rw [hsame.1, g1] at k1
          cases k1
          rw [g2] at k2
          cases k2
          unfold natPos at hq'
          split at hq'
          · cases hq'
          cases hq'
          have hat := g3 (by omega)
          have hsl : slice B p.toNat (p.toNat + 5) = b!"%%EOF" := by
            obtain ⟨t, ht⟩ := hat
            exact slice_of_drop ht.symm
          obtain ⟨j, hj, -, hj2, -⟩ := C49_eof_cut B p.toNat hsl
          rw [hj] at hc
          cases hc
          exact ⟨p.toNat, cut, rfl, hsl, hj, hj2⟩
        · cases hq
      · cases h2
  · cases hfin

theorem history_fromFile [Zlib] {B : Bytes} {d0 d : Doc} (hl : loads B = .ok d0) (hh : History d0 d) :
    ∃ (di : Doc) (cut : Nat), initialDoc (.single B) = .ok di ∧ di.curData.eofCut = some cut ∧ FromFile B cut d := by
  unfold loads docConstructor at hl
  obtain ⟨di, hi, hc⟩ := bind_eq_ok hl
  obtain ⟨cut, p, hf, hp, hcut⟩ := initialDoc_fromFile hi
  refine ⟨di, cut, hi, hcut, ?_⟩
  have h0 : FromFile B cut d0 := fromFile_commit hf hc
  induction hh with
  | start => exact h0
  | edit _ h1 h2 ih => exact fromFile_edit ih h1 h2
  | commit _ h1 ih => exact fromFile_commit ih h1

theorem revisionIndexLoop_cuts : ∀ (F E : List Data) (i : Nat), (∀ x ∈ F, x.eofCut.isSome = true) →
    revisionIndexLoop i (F ++ E) = revisionIndexLoop ((F.getLast?.bind (·.eofCut)).getD i) E := by
  intro F
  induction F with
  | nil => intro E i _; rfl
  | cons a F ih =>
    intro E i h
    obtain ⟨c, hc⟩ := Option.isSome_iff_exists.1 (h a (by simp))
    rw [List.cons_append, revisionIndexLoop, hc]
    simp only
    rw [ih E c (fun x hx => h x (by simp [hx])), List.getLast?_cons]
    rcases hl : F.getLast? with _ | b
    · simp [hc]
    · obtain ⟨c', hc'⟩ := Option.isSome_iff_exists.1 (h b (List.mem_cons_of_mem _ (List.mem_of_getLast? hl)))
      simp [hc']

theorem revisionIndexLoop_frags : ∀ (E : List Data) (frags : List Bytes) (i : Nat), (∀ x ∈ E, x.eofCut = none) →
    E.map (·.bdata) = frags.map some → revisionIndexLoop i E = .ok (i + frags.flatten.length) := by
  intro E
  induction E with
  | nil =>
    intro frags i _ h
    have : frags = [] := by simpa using h.symm
    subst this
    rfl
  | cons a E ih =>
    intro frags i h1 h2
    cases frags with
    | nil => cases h2
    | cons f frags =>
      simp only [List.map_cons, List.cons.injEq] at h2
      rw [revisionIndexLoop, h1 a (by simp)]
      simp only [h2.1]
      rw [ih frags _ (fun x hx => h1 x (by simp [hx])) h2.2]
      simp only [List.flatten_cons, List.length_append]
      congr 1
      omega

/-- **C62**, when the document has an open revision (`loads` has found changes in the last revision of the
file, or there has been a commit since): what is written ends with the revision built from all the pending
changes, at the position it was built for. -/
theorem C62_written_partial [Zlib] (B out : Bytes) (d0 d d' : Doc) (hl : loads B = .ok d0) (hh : History d0 d)
    (hopen : d.curData.eofCut = none) (hch : changes d ≠ []) (hw : writeFile d = .ok (out, d')) :
    ∃ (pre new : Bytes) (p : Prepared) (idx : Rev) (cache' : List Obj), out = pre ++ new ∧
      prepareCommit d = .ok p ∧ buildRevision (changes d) p.cur p.cache pre.length p.xnum = .ok (new, idx, cache') := by
  obtain ⟨di, cut, hi, hcut, g1, F, E, f2, f3, f4, f5, f6, f7⟩ := history_fromFile hl hh
  obtain ⟨di', cut', p', hi', hcut', -, frags, hout, hfr⟩ := C20_prefix B out d0 d d' hl hh hw
  rw [hi] at hi'
  cases hi'
  rw [hcut] at hcut'
  cases hcut'
  obtain ⟨q, c, k1, -, -, k2⟩ := C20_cut B di hi
  rw [hcut] at k1
  cases k1
  have hcommit : commit d = .ok d' := by
    unfold writeFile at hw
    obtain ⟨d1, h1, hw⟩ := bind_eq_ok hw
    rw [h1]
    simp only [bind, Except.bind, pure, Except.pure] at hw
    repeat' (split at hw)
    all_goals first
      | cases hw; done
      | (simp only [Except.ok.injEq, Prod.mk.injEq] at hw; rw [hw.2])
  obtain ⟨p, cur, cache, data, t0, t1, h1, h2, h3, h4, rfl⟩ := commit_inv hcommit hch
  -- the current record is a new one
  have hE : ∃ E0 last, E = E0 ++ [last] := by
    rcases List.eq_nil_or_concat E with rfl | ⟨E0, last, rfl⟩
    · exfalso
      rw [List.append_nil] at f2
      have := (f4 d.curData (by rw [← f2]; simp [Doc.data])).2
      rw [hopen] at this
      cases this
    · exact ⟨E0, last, List.concat_eq_append⟩
  obtain ⟨E0, last, rfl⟩ := hE
  have hpd : d.pastData.reverse = F ++ E0 := by
    unfold Doc.data at f2
    rw [← List.append_assoc] at f2
    exact (List.append_inj' f2 rfl).1
  have hpast : d.past ≠ [] := by
    intro hp
    rw [hp] at g1
    have : d.pastData = [] := List.length_eq_zero_iff.1 g1.symm
    rw [this] at hpd
    simp only [List.reverse_nil] at hpd
    have := List.append_eq_nil_iff.1 hpd.symm
    exact f3 this.1
  unfold writeRevision at h2
  rw [hopen] at h2
  simp only at h2
  obtain ⟨r0, rs, hpast⟩ := List.exists_cons_of_ne_nil hpast
  rw [hpast] at h2
  simp only at h2
  obtain ⟨idx, hidx, h2⟩ := bind_eq_ok h2
  obtain ⟨⟨new, cur', cache'⟩, hb, h2⟩ := bind_eq_ok h2
  simp only [Except.ok.injEq, Prod.mk.injEq] at h2
  obtain ⟨rfl, rfl, rfl⟩ := h2
  -- the fragments
  have hF : F.filter (·.eofCut.isNone) = [] := by
    rw [List.filter_eq_nil_iff]
    intro x hx
    have := (f4 x hx).2
    cases hc : x.eofCut <;> simp [hc] at this ⊢
  have hE0 : E0.filter (·.eofCut.isNone) = E0 := by
    rw [List.filter_eq_self]
    intro x hx
    rw [f6 x (by simp [hx])]
    rfl
  simp only [List.reverse_cons, hpd, List.filter_append, hF, hE0, List.nil_append] at hfr
  rw [List.filter_cons_of_pos (by simp [hopen])] at hfr
  simp only [List.filter_nil, List.map_append, List.map_cons, List.map_nil] at hfr
  obtain ⟨fr0, frl, rfl, e1, e2⟩ := List.map_eq_append_iff.1 hfr.symm
  obtain ⟨new', rfl⟩ : ∃ x, frl = [x] := by
    cases frl with
    | nil => cases e2
    | cons x l =>
      simp only [List.map_cons, List.cons.injEq, List.map_eq_nil_iff] at e2
      exact ⟨x, by rw [e2.2]⟩
  simp only [List.map_cons, List.map_nil, List.cons.injEq, Option.some.injEq, and_true] at e2
  subst e2
  have hlen : idx = (B.take cut ++ fr0.flatten).length := by
    unfold revisionIndex at hidx
    rw [hpd, revisionIndexLoop_cuts F E0 0 (fun x hx => (f4 x hx).2), f5,
      revisionIndexLoop_frags E0 fr0 _ (fun x hx => f6 x (by simp [hx])) e1.symm] at hidx
    cases hidx
    simp only [Option.getD_some, List.length_append, List.length_take]
    omega
  refine ⟨B.take cut ++ fr0.flatten, new', p, cur', cache', ?_, h1, ?_⟩
  · rw [hout]
    simp
  · rw [← hlen]
    exact hb

theorem cacheDict_ok {cache : List Obj} {t : Dict} (h : cacheDict cache = .ok t) : cache[0]? = some (.dict t) := by
  unfold cacheDict at h
  obtain ⟨o, ho, h⟩ := bind_eq_ok h
  cases o <;> cases h
  exact cacheAt_ok ho

/-- **C62**, in terms of the file, for classic tables and changes outside object streams: the table at the
end of what is written has a free row for each deleted object, and for each other changed object a row
with the offset where its present value is. -/
theorem C62_objects_partial [Zlib] (B out : Bytes) (d0 d d' : Doc) (hl : loads B = .ok d0) (hh : History d0 d)
    (hopen : d.curData.eofCut = none) (hch : changes d ≠ []) (hw : writeFile d = .ok (out, d'))
    (htable : firstXrefStreamNum d = .ok none)
    (henv : ∀ c ∈ changes d, ∀ e, d.cur[c.num]? = some (.one e) → e.envNum.getD 0 = 0)
    (hwf : ∀ t, d.cache[0]? = some (.dict t) → WF false false (.dict (Dict.set t b!"/Size" (.int d.cur.length))) = true) :
    ∃ (n stop : Nat) (rows : List XRow) (t : Obj), fileEnd n <:+ out ∧
      parseXrefTableRaw out n = .ok (some (n, stop, rows, t)) ∧
      ∀ c ∈ changes d, if c.act = .d then ∃ off gen, XRow.entry off c.num gen b!"f" ∈ rows
        else ∃ (off gen : Nat) (obj : Obj), XRow.entry off c.num gen b!"n" ∈ rows ∧ ToWrite d.cache c.num obj ∧
          PointsAt out off c.num gen obj := by
  obtain ⟨pre, new, p, idx, cache', rfl, hp, hb⟩ := C62_written_partial B out d0 d d' hl hh hopen hch hw
  unfold prepareCommit at hp
  obtain ⟨t0, ht0, hp⟩ := bind_eq_ok hp
  rw [htable] at hp
  have hp : p = ⟨d.cur, d.cache.set 0 (.dict (Dict.set t0 b!"/Size" (.int d.cur.length))),
      nextIndex0 (d.past.length + 1) 0, 0⟩ := by
    cases hp
    rfl
  subst hp
  simp only at hb
  have ht0 := cacheDict_ok ht0
  have h0 : ∀ c ∈ changes d, c.num ≠ 0 := by
    intro c hc
    obtain ⟨e, h1, -⟩ := mem_changes.1 hc
    omega
  have hget : ∀ (v : Obj) (m : Nat), m ≠ 0 → (d.cache.set 0 v)[m]? = d.cache[m]? := by
    intro v m hm
    rw [List.getElem?_set_ne (by omega)]
  obtain ⟨-, n, stop, rows, t, r1, r2, r3, r4⟩ := C18_table_partial _ _ _ _ _ _ pre hb
    (changes_nodup d) h0 henv (by
      intro t ht
      rw [List.getElem?_set_self (lt_of_getElem? ht0)] at ht
      cases ht
      exact hwf t0 ht0)
  refine ⟨n, stop, rows, t, ?_, r2, ?_⟩
  · exact List.IsSuffix.trans r1 (List.suffix_append _ _)
  · intro c hc
    obtain ⟨off, e, -, hrow⟩ := r4 c hc
    split
    · rename_i hd
      rw [if_pos hd] at hrow
      exact ⟨off, _, hrow⟩
    · rename_i hd
      rw [if_neg hd] at hrow
      obtain ⟨o, m, g, obj, rfl, hm, hg, w1, w2, -⟩ := r3 _ _ _ hrow
      rw [hg] at hrow
      have hm : c.num = m := by omega
      subst hm
      refine ⟨o, g, obj, hrow, ?_, w2⟩
      obtain ⟨o', k1, k2⟩ := w1
      rw [hget _ _ (h0 c hc)] at k1
      exact ⟨o', k1, k2⟩

/-- The hypotheses are met after loading the file of `C23` and updating object 2. -/
example [Zlib] : (do
    let d ← loads mapFile
    let d ← updateObject d 2 (.int 13)
    let x ← firstXrefStreamNum d
    let t ← cacheDict d.cache
    let (out, _) ← writeFile d
    return (d.curData.eofCut, changes d, x, WF false false (.dict (Dict.set t b!"/Size" (.int d.cur.length))),
      out.length)) = .ok (none, [⟨0, 2, .u⟩], none, true, 315) := by
  kernel_rfl

end Pdf
