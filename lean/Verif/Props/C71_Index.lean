/-
C71: the index of a loaded file: versions, limits and places of the objects.
-/
import Verif.Props.C59_Load
import Verif.Lemmas.Reload
import Verif.Lemmas.KernelRfl

namespace Pdf
open Spec

/-! ### Versions -/

/-- A later state of a cell: the same entry, or one with a greater version. -/
def Later (newer older : Rev) : Prop :=
  newer.length = older.length ∧ ∀ n, 0 < n → ∀ e, older[n]? = some (.one e) → ∃ e', newer[n]? = some (.one e') ∧ (e' = e ∨ e.ver < e'.ver)

theorem Later.refl (m : Rev) : Later m m := ⟨rfl, fun _ _ e h => ⟨e, h, .inl rfl⟩⟩

theorem Later.trans {a b c : Rev} (h1 : Later a b) (h2 : Later b c) : Later a c := by
  refine ⟨h1.1.trans h2.1, ?_⟩
  intro n hn e he
  obtain ⟨e', k1, k2⟩ := h2.2 n hn e he
  obtain ⟨e'', k3, k4⟩ := h1.2 n hn e' k1
  refine ⟨e'', k3, ?_⟩
  rcases k2 with rfl | k2 <;> rcases k4 with rfl | k4
  · exact .inl rfl
  · exact .inr k4
  · exact .inr k2
  · exact .inr (by omega)

theorem placeEntry_later {v : Nat} {m m' : Rev} {i : Nat} {e : Entry} (h : placeEntry v m i e = .ok m') : Later m' m := by
  refine ⟨(placeEntry_get h).1, ?_⟩
  unfold placeEntry at h
  obtain ⟨s, hs, h⟩ := bind_eq_ok h
  have hi : m[i]? = some s := slotAt_ok hs
  have hlt := lt_of_getElem? hi
  intro n hn o ho
  by_cases hni : n = i
  · subst hni
    rw [hi] at ho
    cases ho
    simp only at h
    split at h
    · cases h
      exact ⟨o, hi, .inl rfl⟩
    · cases h
      exact ⟨_, getElem?_set_eq' _ _ hlt, .inr (by simp)⟩
  · have : m'[n]? = m[n]? := by
      split at h
      · cases h
        rw [List.getElem?_set_ne (Ne.symm hni)]
      · split at h
        · cases h; rfl
        · cases h
          rw [List.getElem?_set_ne (Ne.symm hni)]
      · cases h
    exact ⟨o, by rw [this, ho], .inl rfl⟩

theorem placeAll_later {v : Nat} : ∀ {es : List Entry} {m m' : Rev}, placeAll v m es = .ok m' → Later m' m
  | [], m, m', h => by cases h; exact .refl _
  | e :: es, m, m', h => by
    unfold placeAll at h
    obtain ⟨m1, h1, h2⟩ := bind_eq_ok h
    exact (placeAll_later h2).trans (placeEntry_later h1)

theorem set_later (m : Rev) (s : Slot) : Later (m.set 0 s) m := by
  refine ⟨by simp, ?_⟩
  intro n hn e he
  exact ⟨e, by rw [List.getElem?_set_ne (by omega), he], .inl rfl⟩

theorem columns_later : ∀ {ss : List Section} {p : Int} {done : List Rev} {m : Rev} {cols : List Rev},
    columns ss p done m = .ok cols → done.Pairwise Later → (∀ x ∈ done, Later m x) → cols.Pairwise Later
  | [], p, done, m, cols, h, h1, h2 => by
    cases h
    exact List.pairwise_cons.2 ⟨h2, h1⟩
  | s :: ss, p, done, m, cols, h, h1, h2 => by
    unfold columns at h
    obtain ⟨q, -, h⟩ := bind_eq_ok h
    split at h
    · obtain ⟨m1, hm1, h⟩ := bind_eq_ok h
      have hl := (placeAll_later hm1).trans (set_later m _)
      refine columns_later h (List.pairwise_cons.2 ⟨h2, h1⟩) ?_
      intro x hx
      rcases List.mem_cons.1 hx with rfl | hx
      · exact hl
      · exact hl.trans (h2 x hx)
    · split at h
      · obtain ⟨m1, hm1, h⟩ := bind_eq_ok h
        have hl := (placeAll_later hm1).trans (set_later m _)
        exact columns_later h h1 fun x hx => hl.trans (h2 x hx)
      · cases h

theorem build_later {secs : List Section} {nb : Int} {cols : List Rev} (h : buildColumns secs nb = .ok cols) :
    cols.Pairwise Later := by
  unfold buildColumns at h
  obtain ⟨ss, -, h⟩ := bind_eq_ok h
  split at h
  · cases h
  · obtain ⟨p, -, h⟩ := bind_eq_ok h
    split at h
    · cases h
    · obtain ⟨m, -, h⟩ := bind_eq_ok h
      exact columns_later h .nil (by simp)

/-! ### Limits -/

theorem nxtOf_least {p n : Int} : ∀ {l : List Int} {z : Int}, (l ++ [z]).length ≠ 0 → l.Pairwise (· ≤ ·) →
    nxtOf (l ++ [z]) p = some n → p ∈ l ∧ p < n ∧ (n ∈ l ∨ n = z) ∧ ∀ q ∈ l, p < q → n ≤ q
  | [], z, _, _, h => by simp [nxtOf] at h
  | [a], z, _, _, h => by
    simp only [List.cons_append, List.nil_append, nxtOf] at h
    split at h
    · rename_i hc
      cases h
      obtain ⟨rfl, hc⟩ := hc
      simp [hc]
    · cases h
  | a :: b :: l, z, hne, hs, h => by
    have hs' := List.pairwise_cons.1 hs
    simp only [List.cons_append, nxtOf] at h
    split at h
    · rename_i hc
      cases h
      obtain ⟨rfl, hc⟩ := hc
      refine ⟨by simp, hc, by simp, ?_⟩
      intro q hq hlt
      rcases List.mem_cons.1 hq with rfl | hq
      · omega
      · rcases List.mem_cons.1 hq with rfl | hq
        · omega
        · exact (List.pairwise_cons.1 hs'.2).1 q hq
    · obtain ⟨h1, h2, h3, h4⟩ := nxtOf_least (l := b :: l) (by simp) hs'.2 (by simpa using h)
      refine ⟨List.mem_cons_of_mem _ h1, h2, h3.imp_left (List.mem_cons_of_mem _), ?_⟩
      intro q hq hlt
      rcases List.mem_cons.1 hq with rfl | hq
      · have := hs'.1 p h1
        omega
      · exact h4 q hq hlt

/-- The positions that a section declares outside object streams: its trailer, its objects and its end marker. -/
def declared (s : Section) : List (Option Pos) :=
  s.trailer.absPos :: (s.objs.filter (·.envNum.isNone)).map (·.absPos) ++ [some (.at s.eofPos)]

theorem seqOf_declared {s : Section} {l : List (Int × Int)} (h : seqOf s = .ok l) :
    declared s = l.map fun x => some (.at x.1) := by
  unfold seqOf at h
  obtain ⟨t, ht, h⟩ := bind_eq_ok h
  obtain ⟨os, hos, h⟩ := bind_eq_ok h
  cases h
  have hd : ∀ {e : Entry} {p : Int}, directPos e = .ok p → e.absPos = some (.at p) := by
    intro e p h
    unfold directPos at h
    split at h
    · rename_i k
      cases h
      exact k
    · cases h
  have : ∀ (es : List Entry) (os : List (Int × Int)), (es.mapM fun e => do
      let p ← directPos e
      return (p, e.num)) = (.ok os : Py _) → es.map (·.absPos) = os.map fun x => some (.at x.1) := by
    intro es
    induction es with
    | nil => intro os h; cases h; rfl
    | cons e es ih =>
      intro os h
      rw [List.mapM_cons] at h
      obtain ⟨a, ha, h⟩ := bind_eq_ok h
      obtain ⟨os', hos', h⟩ := bind_eq_ok h
      obtain ⟨p, hp, ha⟩ := bind_eq_ok ha
      cases ha
      cases h
      simp [ih os' hos', hd hp]
  simp [declared, hd ht, this _ _ hos]

theorem seqs_declared {p : Int} : ∀ {secs : List Section} {seqs : List (List (Int × Int))}, secs.mapM seqOf = .ok seqs →
    (p ∈ seqs.flatten.map Prod.fst ↔ ∃ s ∈ secs, some (.at p) ∈ declared s)
  | [], seqs, h => by cases h; simp
  | s :: secs, seqs, h => by
    rw [List.mapM_cons] at h
    obtain ⟨a, ha, h⟩ := bind_eq_ok h
    obtain ⟨l', hl, h⟩ := bind_eq_ok h
    cases h
    rw [List.flatten_cons, List.map_append, List.mem_append, seqs_declared hl]
    simp only [List.mem_cons, exists_eq_or_imp, seqOf_declared ha]
    simp

theorem nextMap_spec {fdata : Provider} {secs : List Section} {nxt : List Int} {nb : Int}
    (h : nextMap fdata secs = .ok (nxt, nb)) : ∃ (l : List Int) (size : Nat), nxt = l ++ [(size : Int)] ∧ fdata.size = .ok size ∧
      l.Pairwise (· ≤ ·) ∧ ∀ p, p ∈ l ↔ ∃ s ∈ secs, some (.at p) ∈ declared s := by
  unfold nextMap at h
  obtain ⟨seqs, hseq, h⟩ := bind_eq_ok h
  obtain ⟨sz, hsz, h⟩ := bind_eq_ok h
  cases h
  exact ⟨_, sz, rfl, hsz, sortInts_sorted _, fun p => by rw [mem_sortInts, seqs_declared hseq]⟩

/-! ### Completed columns -/

/-- What completing an entry gives. -/
def Completed (nxt : List Int) (cols : List Rev) (e e' : Entry) : Prop :=
  e'.ver = e.ver ∧ ∃ p n : Int, nxtOf nxt p = some n ∧ e'.absNext = some n ∧
    ((e.absPos = some (.at p) ∧ e'.absPos = some (.at p)) ∨
     ∃ (env rank : Nat), e.absPos = some (.tup env rank) ∧ e'.absPos = some (.emb p rank) ∧
       ∃ col ∈ cols, ∃ ce, col[env]? = some (.one ce) ∧ ce.absPos = some (.at p))

theorem Completed.mono {nxt : List Int} {a b : List Rev} {e e' : Entry} (h : Completed nxt a e e') (hs : ∀ c ∈ a, c ∈ b) :
    Completed nxt b e e' := by
  obtain ⟨h0, p, n, h1, h2, h3⟩ := h
  refine ⟨h0, p, n, h1, h2, h3.imp_right ?_⟩
  rintro ⟨env, rank, k1, k2, col, k3, k4⟩
  exact ⟨env, rank, k1, k2, col, hs col k3, k4⟩

theorem directPos_ok {e : Entry} {p : Int} (h : directPos e = .ok p) : e.absPos = some (.at p) := by
  unfold directPos at h
  split at h
  · rename_i k
    cases h
    exact k
  · cases h

theorem completeEntry_spec {nxt : List Int} {current : Rev} {e e' : Entry} (h : completeEntry nxt current e = .ok e')
    {cols : List Rev} (hc : current ∈ cols) : Completed nxt cols e e' := by
  unfold completeEntry at h
  split at h
  · rename_i p hp
    obtain ⟨n, hn, h⟩ := bind_eq_ok h
    cases h
    exact ⟨rfl, p, n, orRaise_eq_ok hn, rfl, .inl ⟨hp, hp⟩⟩
  · rename_i env rank hp
    obtain ⟨ce, hce, h⟩ := bind_eq_ok h
    obtain ⟨loc, hloc, h⟩ := bind_eq_ok h
    obtain ⟨n, hn, h⟩ := bind_eq_ok h
    cases h
    refine ⟨rfl, loc, n, orRaise_eq_ok hn, rfl, .inr ⟨env, rank, hp, rfl, current, hc, ce, ?_, directPos_ok hloc⟩⟩
    unfold entryAt at hce
    obtain ⟨s, hs, hce⟩ := bind_eq_ok hce
    have := slotAt_ok hs
    cases s with
    | one c => cases hce; exact this
    | _ => cases hce
  · cases h

/-- A completed column. -/
def CompletedRev (nxt : List Int) (cols : List Rev) (col rev : Rev) : Prop :=
  rev.length = col.length ∧ ∀ n : Nat, match rev[n]? with
    | none => col[n]? = none
    | some Slot.hole => col[n]? = some Slot.hole
    | some (Slot.one e') => ∃ e, col[n]? = some (.one e) ∧ Completed nxt cols e e'
    | some (Slot.many _) => ∃ es, col[n]? = some (.many es)

theorem mapM_at {α β : Type} {f : α → Py β} : ∀ {l : List α} {r : List β}, l.mapM f = .ok r → r.length = l.length ∧
    ∀ (n : Nat) (x : α), l[n]? = some x → ∃ y, r[n]? = some y ∧ f x = .ok y
  | [], r, h => by cases h; simp
  | x :: l, r, h => by
    rw [List.mapM_cons] at h
    obtain ⟨a, ha, h⟩ := bind_eq_ok h
    obtain ⟨l', hl, h⟩ := bind_eq_ok h
    cases h
    obtain ⟨i1, i2⟩ := mapM_at hl
    refine ⟨by simp [i1], ?_⟩
    rintro (_ | n) y hy
    · simp only [List.getElem?_cons_zero, Option.some.injEq] at hy
      subst hy
      exact ⟨a, rfl, ha⟩
    · exact i2 n y (by simpa using hy)

/-- One column is completed after another. -/
theorem complete_step {nxt : List Int} {cols : List Rev} {before done current col : Rev}
    (h : (List.range current.length).mapM (completeCell nxt before done current) = .ok col)
    (hb : CompletedRev nxt cols before done) (hc : current ∈ cols) :
    CompletedRev nxt cols current col ∧ (Later current before → Later col done) := by
  obtain ⟨hl, hg⟩ := mapM_at h
  rw [List.length_range] at hl
  have hcell : ∀ n < current.length, ∃ y, col[n]? = some y ∧ completeCell nxt before done current n = .ok y := by
    intro n hn
    exact hg n n (by rw [List.getElem?_range hn])
  have hR : CompletedRev nxt cols current col := by
    refine ⟨hl, fun n => ?_⟩
    by_cases hn : n < current.length
    · obtain ⟨y, hy, hcc⟩ := hcell n hn
      rw [hy]
      unfold completeCell at hcc
      obtain ⟨s, hs, hcc⟩ := bind_eq_ok hcc
      have hs := slotAt_ok hs
      split at hcc
      · rename_i hbef
        have hd := orRaise_eq_ok hcc
        have := hb.2 n
        rw [hd, hbef] at this
        rw [hs]
        exact this
      · rw [hs]
        cases s with
        | hole => cases hcc; rfl
        | one e =>
          obtain ⟨e', he', hcc⟩ := bind_eq_ok hcc
          cases hcc
          exact ⟨e, rfl, completeEntry_spec he' hc⟩
        | many es =>
          obtain ⟨e', he', hcc⟩ := bind_eq_ok hcc
          cases hcc
          exact ⟨es, rfl⟩
    · rw [List.getElem?_eq_none (by omega), List.getElem?_eq_none (by omega)]
  refine ⟨hR, fun hlat => ⟨by rw [hl, hlat.1, hb.1], fun n hn f hf => ?_⟩⟩
  have hbn := hb.2 n
  rw [hf] at hbn
  obtain ⟨e, he, hce⟩ := hbn
  obtain ⟨e', he', hlt⟩ := hlat.2 n hn e he
  obtain ⟨y, hy, hcc⟩ := hcell n (lt_of_getElem? he')
  have hRn := hR.2 n
  rw [hy] at hRn ⊢
  rcases hlt with rfl | hlt
  · refine ⟨f, ?_, .inl rfl⟩
    unfold completeCell at hcc
    obtain ⟨s, hs, hcc⟩ := bind_eq_ok hcc
    have hs := slotAt_ok hs
    rw [he'] at hs
    cases hs
    rw [if_pos he, hf] at hcc
    cases hcc
    rfl
  · cases y with
    | one f' =>
      obtain ⟨e2, k1, k2⟩ := hRn
      rw [he'] at k1
      cases k1
      exact ⟨f', rfl, .inr (by rw [hce.1, k2.1]; exact hlt)⟩
    | hole => rw [he'] at hRn; cases hRn
    | many => obtain ⟨_, k⟩ := hRn; rw [he'] at k; cases k

theorem completeAll_spec {nxt : List Int} {cols : List Rev} : ∀ {rest : List Rev} {before : Rev} {acc revs : List Rev},
    completeAll nxt before acc rest = .ok revs → CompletedRev nxt cols before (acc.head?.getD []) → (∀ c ∈ rest, c ∈ cols) →
    (before = [] ∧ acc = [] ∨ ∀ c ∈ rest.head?, Later c before) → rest.reverse.Pairwise Later →
    acc.Pairwise Later → (∀ x ∈ acc, Later (acc.head?.getD []) x) →
    revs.Pairwise Later ∧ ∃ new, revs = new.reverse ++ acc ∧ All₂ (CompletedRev nxt cols) rest new
  | [], before, acc, revs, h, _, _, _, _, h5, _ => by
    cases h
    exact ⟨h5, [], rfl, .nil⟩
  | current :: rest, before, acc, revs, h, h1, h2, h3, h4, h5, h6 => by
    unfold completeAll at h
    obtain ⟨col, hcol, h⟩ := bind_eq_ok h
    obtain ⟨s1, s2⟩ := complete_step hcol h1 (h2 current (by simp))
    rw [List.reverse_cons, List.pairwise_append] at h4
    have hlat : ∀ x ∈ acc, Later col x := by
      rcases h3 with ⟨-, rfl⟩ | h3
      · simp
      · intro x hx
        exact (s2 (h3 current (by simp))).trans (h6 x hx)
    obtain ⟨r1, new, rfl, r3⟩ := completeAll_spec (cols := cols) h s1 (fun c hc => h2 c (by simp [hc]))
      (.inr (by
        intro c hc
        exact h4.2.2 c (by simpa using List.mem_of_mem_head? hc) current (by simp))) h4.1
      (List.pairwise_cons.2 ⟨hlat, h5⟩) (by
        intro x hx
        rcases List.mem_cons.1 hx with rfl | hx
        · exact .refl _
        · exact hlat x hx)
    exact ⟨r1, col :: new, by simp, .cons s1 r3⟩

/-- The revisions of a loaded document. -/
theorem initialDoc_revs [Zlib] {fdata : Provider} {d : Doc} (h : initialDoc fdata = .ok d) :
    ∃ (size : Nat) (secs : List Section) (nxt : List Int) (nb : Int) (cols revs : List Rev), fdata.size = .ok size ∧ xrefSections fdata size = .ok secs ∧
      nextMap fdata secs = .ok (nxt, nb) ∧ buildColumns secs nb = .ok cols ∧ revs.Pairwise Later ∧
      d.cur :: d.past = revs.map List.dropLast ∧ All₂ (CompletedRev nxt cols) cols.reverse revs.reverse := by
  unfold initialDoc at h
  obtain ⟨size, h1, h⟩ := bind_eq_ok h
  obtain ⟨secs, h2, h⟩ := bind_eq_ok h
  obtain ⟨⟨nxt, nb⟩, h3, h⟩ := bind_eq_ok h
  obtain ⟨cols, h4, h⟩ := bind_eq_ok h
  obtain ⟨revs, h5, h⟩ := bind_eq_ok h
  obtain ⟨datas, h6, h⟩ := bind_eq_ok h
  obtain ⟨r1, new, r2, r3⟩ := completeAll_spec (cols := cols) h5 ⟨rfl, fun n => by simp⟩ (by simp)
    (.inl ⟨rfl, rfl⟩) (by rw [List.reverse_reverse]; exact build_later h4) .nil (by simp)
  refine ⟨size, secs, nxt, nb, cols, revs, h1, h2, h3, h4, r1, ?_, by rw [r2]; simpa using r3⟩
  cases hm : revs.map List.dropLast with
  | nil => rw [hm] at h; cases h
  | cons cur past =>
    rw [hm] at h
    cases datas with
    | nil => cases h
    | cons =>
      obtain ⟨cache, -, h⟩ := bind_eq_ok h
      cases h
      rfl

/-- **C71, versions.** In the index of a loaded file, the version number of an object tells its versions apart: from
a revision to a later one, the entry of an object is the same, or it has a greater version number. -/
theorem C71_versions [Zlib] (fdata : Provider) (d : Doc) (h : initialDoc fdata = .ok d) :
    (d.cur :: d.past).Pairwise fun newer older => ∀ n, 0 < n → ∀ e, older[n]? = some (.one e) →
      ∃ e', newer[n]? = some (.one e') ∧ (e' = e ∨ e.ver < e'.ver) := by
  obtain ⟨size, secs, nxt, nb, cols, revs, -, -, -, -, h5, h6, -⟩ := initialDoc_revs h
  rw [h6, List.pairwise_map]
  refine h5.imp ?_
  intro a b hab n hn e he
  have hlt := lt_of_getElem? he
  rw [List.length_dropLast] at hlt
  rw [List.getElem?_dropLast, if_pos hlt] at he
  obtain ⟨e', k1, k2⟩ := hab.2 n hn e he
  exact ⟨e', by rw [List.getElem?_dropLast, if_pos (by rw [hab.1]; exact hlt), k1], k2⟩

/-- **C71, limits.** In the index of a loaded file, an object outside object streams, or the object stream of the
others, is followed by the least of the positions that the cross-reference sections declare after it, or by the end
of the file. -/
theorem C71_limits [Zlib] (fdata : Provider) (d : Doc) (h : initialDoc fdata = .ok d) :
    ∃ size secs, fdata.size = .ok size ∧ xrefSections fdata size = .ok secs ∧
      ∀ rev ∈ d.cur :: d.past, ∀ (n : Nat) (e : Entry), rev[n]? = some (.one e) → ∃ p next : Int,
        (e.absPos = some (.at p) ∨ ∃ rank, e.absPos = some (.emb p rank)) ∧ e.absNext = some next ∧
        (∃ s ∈ secs, some (.at p) ∈ declared s) ∧ p < next ∧
        (next = size ∨ ∃ s ∈ secs, some (.at next) ∈ declared s) ∧
        ∀ q, (∃ s ∈ secs, some (.at q) ∈ declared s) → p < q → next ≤ q := by
  obtain ⟨size, secs, nxt, nb, cols, revs, h1, h2, h3, h4, h5, h6, h7⟩ := initialDoc_revs h
  refine ⟨size, secs, h1, h2, ?_⟩
  intro rev hrev n e he
  rw [h6] at hrev
  obtain ⟨r, hr, rfl⟩ := List.mem_map.1 hrev
  have hlt := lt_of_getElem? he
  rw [List.length_dropLast] at hlt
  rw [List.getElem?_dropLast, if_pos hlt] at he
  obtain ⟨c, hc, hcr⟩ := All₂.right h7 r (by simpa using hr)
  have := hcr.2 n
  rw [he] at this
  obtain ⟨e0, -, -, p, next, k1, k2, k3⟩ := this
  obtain ⟨l, sz, rfl, m2, m3, m4⟩ := nextMap_spec h3
  rw [h1] at m2
  cases m2
  obtain ⟨n1, n2, n3, n4⟩ := nxtOf_least (by simp) m3 k1
  refine ⟨p, next, ?_, k2, (m4 p).1 n1, n2, ?_, fun q hq hlt => n4 q ((m4 q).2 hq) hlt⟩
  · rcases k3 with ⟨-, k3⟩ | ⟨env, rank, -, k3, -⟩
    · exact .inl k3
    · exact .inr ⟨rank, k3⟩
  · rcases n3 with n3 | n3
    · exact .inr ((m4 next).1 n3)
    · exact .inl n3

theorem All₂.last {α β : Type} {R : α → β → Prop} {a : α} : ∀ {l : List α} {m : List β}, All₂ R (l ++ [a]) m →
    ∃ m' b, m = m' ++ [b] ∧ R a b
  | [], _, .cons h .nil => ⟨[], _, rfl, h⟩
  | _ :: l, _, .cons h t => by
    obtain ⟨m', b, rfl, k⟩ := All₂.last (l := l) t
    exact ⟨_ :: m', b, rfl, k⟩

theorem columns_length : ∀ {ss : List Section} {p : Int} {done : List Rev} {m : Rev} {cols : List Rev},
    columns ss p done m = .ok cols → ∀ k, m.length = k → (∀ x ∈ done, x.length = k) → ∀ x ∈ cols, x.length = k
  | [], p, done, m, cols, h, k, h1, h2 => by
    cases h
    intro x hx
    rcases List.mem_cons.1 hx with rfl | hx
    · exact h1
    · exact h2 x hx
  | s :: ss, p, done, m, cols, h, k, h1, h2 => by
    unfold columns at h
    obtain ⟨q, -, h⟩ := bind_eq_ok h
    split at h
    · obtain ⟨m1, hm1, h⟩ := bind_eq_ok h
      have hl := (placeAll_later hm1).1
      refine columns_length h k (by rw [hl, List.length_set, h1]) ?_
      intro x hx
      rcases List.mem_cons.1 hx with rfl | hx
      · exact h1
      · exact h2 x hx
    · split at h
      · obtain ⟨m1, hm1, h⟩ := bind_eq_ok h
        have hl := (placeAll_later hm1).1
        exact columns_length h k (by rw [hl, List.length_set, h1]) h2
      · cases h

theorem build_length {secs : List Section} {nb : Int} {cols : List Rev} (h : buildColumns secs nb = .ok cols) (hnb : 0 ≤ nb) :
    ∀ m ∈ cols, m.length = nb.toNat + 2 := by
  unfold buildColumns at h
  obtain ⟨ss, -, h⟩ := bind_eq_ok h
  split at h
  · cases h
  · obtain ⟨p, -, h⟩ := bind_eq_ok h
    split at h
    · cases h
    · obtain ⟨m, hm, h⟩ := bind_eq_ok h
      refine columns_length h _ ?_ (by simp)
      rw [(placeAll_later hm).1]
      simp
      omega

/-- The entries of a column come from the sections. -/
def FromSections (secs : List Section) (m : Rev) : Prop :=
  ∀ n : Nat, 0 < n → n + 1 < m.length → ∀ e, m[n]? = some (.one e) →
    ∃ s ∈ secs, ∃ x ∈ s.objs, x.num = (n : Int) ∧ x.absPos = e.absPos

theorem placeAll_from {secs : List Section} {v : Nat} : ∀ {es : List Entry} {m m' : Rev}, placeAll v m es = .ok m' →
    (∀ e ∈ es, 0 < e.num → ∃ s ∈ secs, e ∈ s.objs) → FromSections secs m → FromSections secs m'
  | [], m, m', h, _, hm => by cases h; exact hm
  | e :: es, m, m', h, he, hm => by
    unfold placeAll at h
    obtain ⟨m1, h1, h2⟩ := bind_eq_ok h
    refine placeAll_from h2 (fun x hx => he x (by simp [hx])) ?_
    obtain ⟨l1, k1, e', g1, g2⟩ := placeEntry_get h1
    intro n hn hlt x hx
    by_cases hni : n = if e.num < 0 then m.length - 1 else e.num.toNat
    · rw [← hni, hx] at g1
      cases g1
      split at hni
      · omega
      · obtain ⟨s, hs, hes⟩ := he e (by simp) (by omega)
        exact ⟨s, hs, e, hes, by omega, g2.symm⟩
    · rw [k1 n hni] at hx
      exact hm n hn (by omega) x hx

theorem set_from {secs : List Section} {m : Rev} (h : FromSections secs m) (s : Slot) : FromSections secs (m.set 0 s) := by
  intro n hn hlt e he
  rw [List.getElem?_set_ne (by omega)] at he
  exact h n hn (by simpa using hlt) e he

theorem columns_from {secs : List Section} : ∀ {ss : List Section} {p : Int} {done : List Rev} {m : Rev} {cols : List Rev},
    columns ss p done m = .ok cols → (∀ s ∈ ss, ∃ s' ∈ secs, s.objs = s'.objs) → FromSections secs m →
    (∀ x ∈ done, FromSections secs x) → ∀ x ∈ cols, FromSections secs x
  | [], p, done, m, cols, h, _, h1, h2 => by
    cases h
    intro x hx
    rcases List.mem_cons.1 hx with rfl | hx
    · exact h1
    · exact h2 x hx
  | s :: ss, p, done, m, cols, h, h0, h1, h2 => by
    have hes : ∀ e ∈ s.objs ++ [eofEntry s], 0 < e.num → ∃ s ∈ secs, e ∈ s.objs := by
      intro e he hp
      rcases List.mem_append.1 he with he | he
      · obtain ⟨s', k1, k2⟩ := h0 s (by simp)
        exact ⟨s', k1, by rw [← k2]; exact he⟩
      · simp only [List.mem_singleton] at he
        subst he
        simp [eofEntry] at hp
    unfold columns at h
    obtain ⟨q, -, h⟩ := bind_eq_ok h
    split at h
    · obtain ⟨m1, hm1, h⟩ := bind_eq_ok h
      refine columns_from h (fun s hs => h0 s (by simp [hs])) (placeAll_from hm1 hes (set_from h1 _)) ?_
      intro x hx
      rcases List.mem_cons.1 hx with rfl | hx
      · exact h1
      · exact h2 x hx
    · split at h
      · obtain ⟨m1, hm1, h⟩ := bind_eq_ok h
        exact columns_from h (fun s hs => h0 s (by simp [hs])) (placeAll_from hm1 hes (set_from h1 _)) h2
      · cases h

theorem build_from {secs : List Section} {nb : Int} {cols : List Rev} (h : buildColumns secs nb = .ok cols) :
    ∀ m ∈ cols, FromSections secs m := by
  unfold buildColumns at h
  obtain ⟨ss, hss, h⟩ := bind_eq_ok h
  have hobjs : ∀ s ∈ ss, ∃ s' ∈ secs, s.objs = s'.objs := by
    intro s hs
    obtain ⟨x, hx, k, -⟩ := C61_table_dropped _ _ _ hss s hs
    rw [List.nil_append] at hx
    exact ⟨x, by simpa using (List.mem_filter.1 hx).1, k⟩
  split at h
  · cases h
  · rename_i s ss
    obtain ⟨p, -, h⟩ := bind_eq_ok h
    split at h
    · cases h
    · obtain ⟨m, hm, h⟩ := bind_eq_ok h
      refine columns_from h (fun s hs => hobjs s (by simp [hs])) (placeAll_from hm ?_ (set_from ?_ _)) (by simp)
      · intro e he hp
        rcases List.mem_append.1 he with he | he
        · obtain ⟨s', k1, k2⟩ := hobjs s (by simp)
          exact ⟨s', k1, by rw [← k2]; exact he⟩
        · simp only [List.mem_singleton] at he
          subst he
          simp [eofEntry] at hp
      · intro n hn hlt e he
        rw [List.getElem?_replicate] at he
        split at he <;> cases he

/-- **C63, places**, for the numbers within the table, and apart from hybrid files (`C61`): the current revision
gives, for each of them, the place that the newest section that lists it declares: the same position, or the rank in
the object stream together with a position of this object stream. -/
theorem C63_places_partial [Zlib] (fdata : Provider) (d : Doc) (h : initialDoc fdata = .ok d) :
    ∃ size secs nxt nb, fdata.size = .ok size ∧ xrefSections fdata size = .ok secs ∧ nextMap fdata secs = .ok (nxt, nb) ∧
      ((∀ s ∈ secs, s.trailer.xrefStm = false) → 0 ≤ nb → ∀ n : Nat, 0 < n → n ≤ nb →
        match lastFor n (secs.reverse.flatMap (·.objs)) with
        | none => d.cur[n]? = some .hole
        | some e => ∃ e', d.cur[n]? = some (.one e') ∧ match e.absPos with
          | some (.at p) => e'.absPos = some (.at p)
          | some (.tup env rank) => ∃ loc, e'.absPos = some (.emb loc rank) ∧ ((0 : Nat) < env → (env : Int) ≤ nb →
              ∃ s ∈ secs, ∃ x ∈ s.objs, x.num = (env : Int) ∧ x.absPos = some (.at loc))
          | _ => False) := by
  obtain ⟨size, secs, nxt, nb, cols, revs, h1, h2, h3, h4, h5, h6, h7⟩ := initialDoc_revs h
  refine ⟨size, secs, nxt, nb, h1, h2, h3, ?_⟩
  intro hx hnb n hn hle
  obtain ⟨m, rest, rfl, k⟩ := C63_newest_partial secs nb cols h4 hx hnb n hn hle
  have hlen := build_length h4 hnb m (by simp)
  rw [List.reverse_cons] at h7
  obtain ⟨l, b, hl, hb⟩ := All₂.last h7
  have hrevs : revs = b :: l.reverse := by
    have := congrArg List.reverse hl
    simpa using this
  rw [hrevs, List.map_cons] at h6
  have hcur : d.cur[n]? = b[n]? := by
    have : d.cur = b.dropLast := (List.cons.inj h6).1
    rw [this, List.getElem?_dropLast, if_pos (by rw [hb.1, hlen]; omega)]
  have hbn := hb.2 n
  rw [hcur]
  split at k
  · rename_i hlast
    rw [hlast]
    simp only
    rw [k] at hbn
    rcases hh : b[n]? with _ | s
    · rw [hh] at hbn; cases hbn
    · rw [hh] at hbn
      cases s with
      | hole => rfl
      | one => obtain ⟨_, c, -⟩ := hbn; cases c
      | many => obtain ⟨_, c⟩ := hbn; cases c
  · rename_i e hlast
    rw [hlast]
    simp only
    obtain ⟨e1, k1, k2⟩ := k
    rw [k1] at hbn
    rcases hh : b[n]? with _ | s
    · rw [hh] at hbn; cases hbn
    · rw [hh] at hbn
      cases s with
      | hole => cases hbn
      | many => obtain ⟨_, c⟩ := hbn; cases c
      | one e' =>
        obtain ⟨e2, c, -, p, next, -, -, c2⟩ := hbn
        cases c
        refine ⟨e', rfl, ?_⟩
        rw [← k2]
        rcases c2 with ⟨c2, c3⟩ | ⟨env, rank, c2, c3, col, d1, ce, d2, d3⟩
        · rw [c2]; exact c3
        · rw [c2]
          refine ⟨p, c3, fun e1 e2 => ?_⟩
          obtain ⟨s, s1, x, x1, x2, x3⟩ := build_from h4 col d1 env e1 (by rw [build_length h4 hnb col d1]; omega) ce d2
          exact ⟨s, s1, x, x1, x2, by rw [x3, d3]⟩

theorem mergeHybrid_trailer : ∀ {xs acc res : List Section}, mergeHybrid acc xs = .ok res →
    ∀ s ∈ res, ∃ x ∈ acc ++ xs, s.trailer.absPos = x.trailer.absPos ∧ s.trailer.xrefStm = x.trailer.xrefStm
  | [], acc, res, h, s, hs => by
    cases h
    exact ⟨s, by simpa using hs, rfl, rfl⟩
  | x :: xs, acc, res, h, s, hs => by
    unfold mergeHybrid at h
    split at h
    · rename_i hx
      cases acc with
      | nil => cases h
      | cons p acc =>
        obtain ⟨y, hy, k1, k2⟩ := mergeHybrid_trailer h s hs
        simp only [List.cons_append, List.mem_cons, List.mem_append] at hy
        rcases hy with rfl | hy | hy
        · exact ⟨x, by simp, k1, by rw [k2, hx]⟩
        · exact ⟨y, by simp [hy], k1, k2⟩
        · exact ⟨y, by simp [hy], k1, k2⟩
    · obtain ⟨y, hy, k⟩ := mergeHybrid_trailer h s hs
      refine ⟨y, ?_, k⟩
      simp only [List.cons_append, List.mem_cons, List.mem_append] at hy ⊢
      grind

/-- **C61**, the trailers: that of a table with an `/XRefStm` stands for the merged section. -/
theorem C61_trailer_partial (xs res : List Section) (h : mergeHybrid [] xs = .ok res) :
    ∀ s ∈ res, ∃ x ∈ xs, s.trailer.absPos = x.trailer.absPos ∧ s.trailer.xrefStm = x.trailer.xrefStm := by
  simpa using mergeHybrid_trailer h

/-- Two revisions, with an object stream: versions, places and limits, the current revision first. -/
example [Zlib] : (initialDoc (.single twoRevFile)).map (fun d => (d.cur :: d.past).map fun r => (r.drop 1).map fun s =>
      match s with | Slot.one e => some (e.ver, e.absPos, e.absNext) | _ => none) =
    .ok [[some (1, some (.at 315), some 389), some (0, some (.emb 45 0), some 129), some (0, some (.at 45), some 129),
        some (0, some (.at 129), some 309)],
      [some (0, some (.at 9), some 45), some (0, some (.emb 45 0), some 129), some (0, some (.at 45), some 129),
        some (0, some (.at 129), some 309)]] := by
  kernel_rfl

/-- The hypotheses of `C63_places_partial` are met by this file. -/
example [Zlib] : (do
    let secs ← xrefSections (.single twoRevFile) twoRevFile.length
    let (_, nb) ← nextMap (.single twoRevFile) secs
    return (secs.map (fun (s : Section) => s.trailer.xrefStm), nb)) = .ok ([false, false], 4) := by
  kernel_rfl

end Pdf
