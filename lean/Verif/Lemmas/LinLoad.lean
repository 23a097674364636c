/-
Loading a linearized file: two sections, the newest one before the other one.
-/
import Verif.Lemmas.FileStream
import Verif.Lemmas.Pages

namespace Pdf

open Spec

section
set_option linter.unusedSectionVars false
variable [Zlib]

/-! ### The entries of objects have no position of a section -/

/-- No cell but the first one holds the position of a cross-reference section. -/
def Bare (m : Rev) : Prop := ∀ (i : Nat) (e : Entry), 1 ≤ i → m[i]? = some (.one e) → prevPos e = .null

theorem bare_set {m : Rev} (h : Bare m) (i : Nat) {e : Entry} (he : prevPos e = .null) : Bare (m.set i (.one e)) := by
  intro j x hj hx
  rw [List.getElem?_set] at hx
  split at hx
  · split at hx
    · cases hx; exact he
    · cases hx
  · exact h j x hj hx

theorem bare_head {m : Rev} (h : Bare m) (sl : Slot) : Bare (m.set 0 sl) := by
  intro j x hj hx
  rw [getElem?_set_ne' _ _ (by omega)] at hx
  exact h j x hj hx

theorem placeEntry_bare {v i : Nat} {m m' : Rev} {e : Entry} (h : Bare m) (he : prevPos e = .null) (hp : placeEntry v m i e = .ok m') : Bare m' := by
  unfold placeEntry at hp
  obtain ⟨sl, -, hp⟩ := bind_eq_ok hp
  split at hp
  · cases hp
    exact bare_set h _ he
  · split at hp
    · cases hp; exact h
    · cases hp
      exact bare_set h _ he
  · cases hp

theorem placeAll_bare {v : Nat} {es : List Entry} : ∀ {m m' : Rev}, Bare m → (∀ e ∈ es, prevPos e = .null) → placeAll v m es = .ok m' → Bare m' := by
  induction es with
  | nil => intro m m' h _ hp; cases hp; exact h
  | cons e es ih =>
    intro m m' h he hp
    unfold placeAll at hp
    obtain ⟨m1, h1, hp⟩ := bind_eq_ok hp
    exact ih (placeEntry_bare h (he e (by simp)) h1) (fun e' h' => he e' (by simp [h'])) hp

/-- The entries of the objects of a section. -/
def BareSec (s : Section) : Prop := ∀ e ∈ s.objs, prevPos e = .null

theorem bareSec_all {s : Section} (h : BareSec s) : ∀ e ∈ s.objs ++ [eofEntry s], prevPos e = .null := by
  intro e he
  rcases List.mem_append.1 he with he | he
  · exact h e he
  · simp only [List.mem_singleton] at he
    subst he
    rfl

theorem columns_bare : ∀ {ss : List Section} {p : Int} {done : List Rev} {m : Rev} {cols : List Rev}, (∀ s ∈ ss, BareSec s) →
    (∀ c ∈ done, Bare c) → Bare m → columns ss p done m = .ok cols → ∀ c ∈ cols, Bare c
  | [], p, done, m, cols, _, hd, hm, h => by
    cases h
    intro c hc
    rcases List.mem_cons.1 hc with rfl | hc
    · exact hm
    · exact hd c hc
  | s :: ss, p, done, m, cols, hs, hd, hm, h => by
    unfold columns at h
    obtain ⟨q, -, h⟩ := bind_eq_ok h
    have hs' : ∀ s ∈ ss, BareSec s := fun x hx => hs x (by simp [hx])
    split at h
    · obtain ⟨m1, h1, h⟩ := bind_eq_ok h
      refine columns_bare hs' ?_ (placeAll_bare (bare_head hm _) (bareSec_all (hs s (by simp))) h1) h
      intro c hc
      rcases List.mem_cons.1 hc with rfl | hc
      · exact hm
      · exact hd c hc
    · simp only at h
      split at h
      · obtain ⟨m1, h1, h⟩ := bind_eq_ok h
        exact columns_bare hs' hd (placeAll_bare (bare_head hm _) (bareSec_all (hs s (by simp))) h1) h
      · cases h

theorem mergeHybrid_bare : ∀ {xs acc ys : List Section}, (∀ s ∈ xs, BareSec s) → (∀ s ∈ acc, BareSec s) → mergeHybrid acc xs = .ok ys →
    ∀ s ∈ ys, BareSec s
  | [], acc, ys, _, ha, h => by
    cases h
    intro s hs
    exact ha s (List.mem_reverse.1 hs)
  | x :: xs, acc, ys, hx, ha, h => by
    have hx' : ∀ s ∈ xs, BareSec s := fun y hy => hx y (by simp [hy])
    unfold mergeHybrid at h
    split at h
    · cases acc with
      | nil => cases h
      | cons p acc =>
        refine mergeHybrid_bare hx' ?_ h
        intro s hs
        rcases List.mem_cons.1 hs with rfl | hs
        · exact ha p (by simp)
        · exact ha s (by simp [hs])
    · refine mergeHybrid_bare hx' ?_ h
      intro s hs
      rcases List.mem_cons.1 hs with rfl | hs
      · exact hx _ (by simp)
      · exact ha s hs

theorem buildColumns_bare {secs : List Section} {nb : Int} {cols : List Rev} (hs : ∀ s ∈ secs, BareSec s) (h : buildColumns secs nb = .ok cols) :
    ∀ c ∈ cols, Bare c := by
  unfold buildColumns at h
  obtain ⟨ys, h1, h⟩ := bind_eq_ok h
  have hys := mergeHybrid_bare (fun s hx => hs s (List.mem_reverse.1 hx)) (by simp) h1
  cases ys with
  | nil => cases h
  | cons s ss =>
    obtain ⟨p, -, h⟩ := bind_eq_ok h
    simp only at h
    split at h
    · cases h
    · obtain ⟨m1, h2, h⟩ := bind_eq_ok h
      refine columns_bare (fun x hx => hys x (by simp [hx])) (by simp) (placeAll_bare (bare_head ?_ _) (bareSec_all (hys s (by simp))) h2) h
      intro i e _ he
      rw [List.getElem?_replicate] at he
      split at he <;> cases he

theorem completeEntry_bare {nxt : List Int} {cur : Rev} {e e' : Entry} (h : completeEntry nxt cur e = .ok e') : prevPos e' = prevPos e := by
  unfold completeEntry at h
  split at h
  · obtain ⟨n, -, h⟩ := bind_eq_ok h
    cases h
    rfl
  · obtain ⟨ce, -, h⟩ := bind_eq_ok h
    obtain ⟨loc, -, h⟩ := bind_eq_ok h
    obtain ⟨n, -, h⟩ := bind_eq_ok h
    cases h
    rfl
  · cases h

theorem completeAll_bare {nxt : List Int} : ∀ {cols : List Rev} {before : Rev} {acc out : List Rev}, (∀ c ∈ cols, Bare c) →
    (∀ c ∈ acc, Bare c) → completeAll nxt before acc cols = .ok out → ∀ c ∈ out, Bare c
  | [], before, acc, out, _, ha, h => by cases h; exact ha
  | cur :: cols, before, acc, out, hc, ha, h => by
    unfold completeAll at h
    obtain ⟨col, h1, h⟩ := bind_eq_ok h
    refine completeAll_bare (fun c hx => hc c (by simp [hx])) ?_ h
    intro c hx
    rcases List.mem_cons.1 hx with rfl | hx
    · intro i e hi he
      obtain ⟨hl, hg⟩ := mapM_at h1
      have hlt : i < cur.length := by
        have := lt_of_getElem? he
        rw [hl, List.length_range] at this
        exact this
      obtain ⟨sl, k1, k2⟩ := hg i i (by rw [List.getElem?_range hlt])
      rw [he] at k1
      cases k1
      unfold completeCell at k2
      obtain ⟨sl, k3, k2⟩ := bind_eq_ok k2
      split at k2
      · have hdone := orRaise_eq_ok k2
        cases acc with
        | nil => simp at hdone
        | cons a acc => exact ha a (by simp) i e hi hdone
      · split at k2
        · cases k2
        · obtain ⟨e1, k4, k2⟩ := bind_eq_ok k2
          cases k2
          rw [completeEntry_bare k4]
          exact hc cur (by simp) i _ hi (slotAt_ok k3)
        · obtain ⟨es, -, k2⟩ := bind_eq_ok k2
          cases k2
    · exact ha c hx

/-- The cells of a document that was read have no position of a section, but for the first one. -/
theorem initialDoc_bare {F : Bytes} {d : Doc} (h : initialDoc (.single F) = .ok d)
    (hs : ∀ secs, xrefSections (.single F) F.length = .ok secs → ∀ s ∈ secs, BareSec s) : Bare d.cur := by
  unfold initialDoc at h
  obtain ⟨size, h0, h⟩ := bind_eq_ok h
  cases h0
  obtain ⟨secs, h1, h⟩ := bind_eq_ok h
  obtain ⟨⟨nxt, nb⟩, -, h⟩ := bind_eq_ok h
  obtain ⟨cols, h2, h⟩ := bind_eq_ok h
  obtain ⟨revs, h3, h⟩ := bind_eq_ok h
  obtain ⟨datas, -, h⟩ := bind_eq_ok h
  have hrev := completeAll_bare (fun c hc => buildColumns_bare (hs _ h1) h2 c (List.mem_reverse.1 hc)) (by simp) h3
  cases revs with
  | nil => cases h
  | cons r revs =>
    cases datas with
    | nil => cases h
    | cons dt ds =>
      simp only [List.map_cons] at h
      obtain ⟨cache, -, h⟩ := bind_eq_ok h
      cases h
      intro i e hi he
      exact hrev r (by simp) i e hi (getLast?_dropLast_get he).1

/-- What the load of a linearized file gives, when the number 1 has an entry. -/
theorem loads_lin {F : Bytes} {s sm : XSec} {e1 : Entry} (h : XChain F [s, sm]) (hlin : s.tp ≤ sm.tp) (hb : EnvBound (listedX [s, sm]))
    (hend : EndsAt F s.pos) (hmin : 100 ≤ F.length) (hmax : F.length < 10 ^ 80) (hone : lastFor 1 (listedX [s, sm]) = some e1) :
    ∃ (d : Doc) (t : Dict), loads F = .ok d ∧ FreshX d F [s, sm] ∧ d.cache[0]? = some (.dict t) ∧
      (∀ k, ¬ FileKey k → Dict.get? t k = (Dict.get? s.tr k).or (Dict.get? sm.tr k)) ∧
      (d.curData.eofCut = none → Dict.get? t b!"/Prev" = some .null) := by
  have hbare : ∀ d, initialDoc (.single F) = .ok d → Bare d.cur := by
    intro d hd
    refine initialDoc_bare hd ?_
    intro secs h1 x hx e he
    obtain ⟨x0, xs, -, -, q1, q2, -, -, -, q4⟩ := xrefSections_x h hend hmin hmax
    rw [h1] at q1
    cases q1
    obtain ⟨s', k1, k2⟩ := (All₂.cons q2 q4).mem_right x hx
    rw [k2.objs] at he
    obtain ⟨n, g, -, ⟨p, -, rfl⟩ | ⟨env, rank, rfl⟩⟩ := (h.mem s' k1).objs e he <;> rfl
  obtain ⟨di, T0, i1, R⟩ := initialDoc_x h hb hend hmin hmax
  obtain ⟨rfl, es, i4⟩ : T0 = Dict.update (Dict.update [] sm.tr) s.tr ∧ ∃ es, di.cur[0]? = some (.many es) := by
    rcases R.head with ⟨ha, -⟩ | ⟨sm', k1, -, k3, k4⟩
    · exact absurd ⟨sm, rfl, hlin⟩ (lin_not_above ha)
    · cases k1
      exact ⟨k3, k4⟩
  have i2 := R.data
  have hpos : 0 < di.cur.length := lt_of_getElem? i4
  have hget : ∀ k, Dict.get? (Dict.update (Dict.update [] sm.tr) s.tr) k = (Dict.get? s.tr k).or (Dict.get? sm.tr k) := by
    intro k
    rw [get?_update _ _ (h.mem s (by simp)).nodup, update_nil _ (h.mem sm (by simp)).nodup]
  generalize Dict.update (Dict.update [] sm.tr) s.tr = T0 at R hget
  have hroot : di.cache[0]? = some (.dict T0) := by
    rw [R.cache]
    exact getElem?_set_eq' _ _ (by simpa using hpos)
  have hfresh : FreshX di F [s, sm] := by
    refine ⟨by rw [i2], by rw [R.cache]; simp, ?_, R.cell⟩
    intro n hn hlt
    rw [R.cache, getElem?_set_ne' _ _ (by omega), List.getElem?_replicate, if_pos hlt]
  obtain ⟨x, hx1, hx2⟩ : ∃ x, firstXrefStreamNum di = .ok x ∧ x.getD 0 = (oldestNum [s, sm] : Int) := by
    refine ⟨_, R.oldest, ?_⟩
    unfold oldestNum
    cases ([s, sm].getLast?.bind (·.num)) <;> rfl
  obtain ⟨c1, nx1, hc1, -⟩ : ∃ (e : Entry) (nx : Int), di.cur[1]? = some (.one e) ∧ e.absNext = some nx := by
    have := R.cell 1 (by omega)
    rw [hone] at this
    obtain ⟨e, nx, k1, -, -, k2, -⟩ := this
    exact ⟨e, nx, k1, k2⟩
  generalize oldestNum [s, sm] = N at hx2
  by_cases hch : changes di = []
  · refine ⟨di, T0, ?_, hfresh, hroot, fun k _ => hget k, fun he => by rw [i2] at he; cases he⟩
    unfold loads docConstructor
    rw [i1]
    exact C21_noop di hch
  · generalize hT : Dict.set (if N = 0 then T0 else delDecodeParms T0) b!"/Size" (.int di.cur.length) = T
    generalize hT1 : Dict.del (Dict.set T b!"/Prev" (prevPos c1)) b!"/XRefStm" = T1
    have hlt0 := lt_of_getElem? hroot
    have hcd : cacheDict di.cache = .ok T0 := by
      unfold cacheDict
      rw [cacheAt_eq hroot]
      rfl
    have hprep : prepareCommit di = .ok { cur := di.cur, cache := di.cache.set 0 (.dict T), index0 := nextIndex0 (di.past.length + 1) N, xnum := N } := by
      unfold prepareCommit
      rw [hcd, hx1]
      simp only [bind, Except.bind, hx2]
      by_cases hN : N = 0
      · subst hN
        rw [if_pos (by rfl)]
        simp only [pure, Except.pure]
        rw [← hT]
        rfl
      · rw [if_neg (by omega)]
        unfold xrefStreamEntry
        rw [if_neg (by omega), if_neg (by omega)]
        simp only [pure, Except.pure]
        rw [if_neg (by omega), ← hT, if_neg hN]
        rfl
    have hcom : commit di = .ok
        { cur := .one (nextIndex0 (di.past.length + 1) N) :: di.cur.drop 1, past := di.cur :: di.past,
          cache := di.cache.set 0 (.dict T1),
          curData := { fdata := .single F }, pastData := di.curData :: di.pastData } := by
      unfold commit
      rw [if_neg hch, hprep]
      simp only [bind, Except.bind]
      unfold writeRevision
      rw [i2]
      simp only
      have hcd' : cacheDict (di.cache.set 0 (.dict T)) = .ok T := by
        unfold cacheDict
        rw [cacheAt_eq (getElem?_set_eq' _ _ hlt0)]
        rfl
      rw [hcd']
      simp only [nextTrailer, prevEntry]
      rw [slotAt_eq i4]
      simp only [bind, Except.bind, pure, Except.pure]
      rw [slotAt_eq hc1]
      simp only
      rw [hT1]
      simp
    have hload : loads F = .ok
        { cur := .one (nextIndex0 (di.past.length + 1) N) :: di.cur.drop 1, past := di.cur :: di.past,
          cache := di.cache.set 0 (.dict T1),
          curData := { fdata := .single F }, pastData := di.curData :: di.pastData } := by
      unfold loads docConstructor
      rw [i1]
      exact hcom
    have hdcur : ∀ n, 1 ≤ n → (Slot.one (nextIndex0 (di.past.length + 1) N) :: di.cur.drop 1)[n]? = di.cur[n]? := by
      intro n hn
      obtain ⟨k, rfl⟩ : ∃ k, n = k + 1 := ⟨n - 1, by omega⟩
      rw [List.getElem?_cons_succ, List.getElem?_drop, Nat.add_comm]
    have hlenc : (Slot.one (nextIndex0 (di.past.length + 1) N) :: di.cur.drop 1).length = di.cur.length := by
      simp only [List.length_cons, List.length_drop]
      omega
    have hkeys : ∀ k, ¬ FileKey k → Dict.get? T1 k = Dict.get? T0 k := by
      intro k hk
      unfold FileKey MovingKey at hk
      rw [← hT1, ← hT, Dict.get?_del, if_neg (fun e => hk (.inl (.inr (.inr e)))), Dict.get?_set,
        if_neg (fun e => hk (.inl (.inr (.inl e)))), Dict.get?_set, if_neg (fun e => hk (.inl (.inl e)))]
      split
      · rfl
      · exact delDecodeParms_get _ _ (fun e => hk (.inr (.inr e)))
    refine ⟨_, T1, hload, ⟨rfl, by simp only [hlenc, List.length_set]; exact hfresh.len, ?_, ?_⟩, getElem?_set_eq' _ _ hlt0, ?_, ?_⟩
    · intro n hn hlt
      simp only [hlenc] at hlt
      simp only
      rw [getElem?_set_ne' _ _ (by omega)]
      exact hfresh.null n hn hlt
    · intro n hn
      have hc := R.cell n hn
      revert hc
      cases lastFor n (listedX [s, sm]) with
      | none => unfold CellFor; simp only [hdcur n hn]; exact id
      | some le => unfold CellFor; simp only [hdcur n hn]; exact id
    · intro k hk
      rw [hkeys k hk, hget]
    · intro _
      rw [← hT1, Dict.get?_del, if_neg (by decide), Dict.get?_set, if_pos rfl, hbare di i1 1 c1 (by omega) hc1]

end

end Pdf
