/-
What `cross_map_index` computes.
-/
import Verif.Model.Browse
import Verif.Lemmas.Refs
import Verif.Lemmas.Basic
import Verif.Lemmas.Disasm

namespace Pdf

/-! ### Positions in the index -/

/-- The revision has the object `num` at the position `k`. -/
def Has (k : BlockKey) (num : Nat) (rev : Rev) : Prop := ∃ e, rev[num]? = some (.one e) ∧ e.absPos = k

/-- `r` is `found`, or the last of the revisions (numbered from `ver`) that satisfies `P`, with the tag `t`. -/
def Latest (P : Rev → Prop) (t ver : Nat) (revs : List Rev) (found r : Option (Nat × Nat)) : Prop :=
  (r = found ∧ ∀ rev ∈ revs, ¬ P rev) ∨
  ∃ i rev, revs[i]? = some rev ∧ P rev ∧ r = some (t, ver + i) ∧ ∀ j rev', i < j → revs[j]? = some rev' → ¬ P rev'

theorem Latest.skip {P : Rev → Prop} {t ver : Nat} {rev : Rev} {revs : List Rev} {found r : Option (Nat × Nat)}
    (h : Latest P t (ver + 1) revs found r) (hn : ¬ P rev) : Latest P t ver (rev :: revs) found r := by
  rcases h with ⟨h1, h2⟩ | ⟨i, rv, h1, h2, h3, h4⟩
  · refine .inl ⟨h1, fun r' hr' => ?_⟩
    rcases List.mem_cons.1 hr' with rfl | hr'
    · exact hn
    · exact h2 _ hr'
  · refine .inr ⟨i + 1, rv, by simpa using h1, h2, by rw [h3]; congr 2; omega, fun j r' hj hr' => ?_⟩
    cases j with
    | zero => omega
    | succ j => exact h4 j r' (by omega) (by simpa using hr')

theorem Latest.hit {P : Rev → Prop} {t ver : Nat} {rev : Rev} {revs : List Rev} {found r : Option (Nat × Nat)}
    (h : Latest P t (ver + 1) revs (some (t, ver)) r) (hp : P rev) : Latest P t ver (rev :: revs) found r := by
  right
  rcases h with ⟨h1, h2⟩ | ⟨i, rv, h1, h2, h3, h4⟩
  · refine ⟨0, rev, rfl, hp, h1, fun j r' hj hr' => ?_⟩
    cases j with
    | zero => omega
    | succ j => exact h2 r' (List.mem_of_getElem? (by simpa using hr'))
  · refine ⟨i + 1, rv, by simpa using h1, h2, by rw [h3]; congr 2; omega, fun j r' hj hr' => ?_⟩
    cases j with
    | zero => omega
    | succ j => exact h4 j r' (by omega) (by simpa using hr')

theorem lastVersionAt_spec {k : BlockKey} {num : Nat} : ∀ {revs : List Rev} {ver : Nat} {found r : Option (Nat × Nat)},
    lastVersionAt k num ver revs found = .ok r → Latest (Has k num) num ver revs found r
  | [], ver, found, r, h => by cases h; exact .inl ⟨rfl, by simp⟩
  | rev :: revs, ver, found, r, h => by
    unfold lastVersionAt at h
    split at h
    · rename_i h0
      exact (lastVersionAt_spec h).skip (by rintro ⟨e, he, -⟩; rw [h0] at he; cases he)
    · rename_i h0
      exact (lastVersionAt_spec h).skip (by rintro ⟨e, he, -⟩; rw [h0] at he; cases he)
    · rename_i e h0
      by_cases hk : e.absPos = k
      · rw [if_pos hk] at h
        exact (lastVersionAt_spec h).hit ⟨e, h0, hk⟩
      · rw [if_neg hk] at h
        exact (lastVersionAt_spec h).skip (by rintro ⟨e', he, h'⟩; rw [h0] at he; cases he; exact hk h')
    · cases h

theorem firstNumberAt_spec {k : BlockKey} {index : List Rev} : ∀ {nums : List Nat} {r : Option (Nat × Nat)},
    firstNumberAt k index nums = .ok r →
    (r = none ∧ ∀ num ∈ nums, ∀ rev ∈ index, ¬ Has k num rev) ∨
    ∃ num ∈ nums, ∃ i rev, index[i]? = some rev ∧ Has k num rev ∧ r = some (num, i) ∧
      ∀ j rev', i < j → index[j]? = some rev' → ¬ Has k num rev'
  | [], r, h => by cases h; exact .inl ⟨rfl, by simp⟩
  | num :: nums, r, h => by
    unfold firstNumberAt at h
    obtain ⟨f, hf, h⟩ := bind_eq_ok h
    rcases lastVersionAt_spec hf with ⟨rfl, h2⟩ | ⟨i, rv, h1, h2, rfl, h4⟩
    · simp only at h
      rcases firstNumberAt_spec h with ⟨h1, h3⟩ | ⟨n, hn, i, rv, h3⟩
      · refine .inl ⟨h1, fun n hn => ?_⟩
        rcases List.mem_cons.1 hn with rfl | hn
        · exact h2
        · exact h3 n hn
      · exact .inr ⟨n, by simp [hn], i, rv, h3⟩
    · simp only at h
      cases h
      exact .inr ⟨num, by simp, i, rv, h1, h2, by simp, h4⟩

/-- The last revision has an object at the position `k`. -/
def InLast (index : List Rev) (k : BlockKey) : Prop :=
  ∃ last, index.getLast? = some last ∧ ∃ n e, 0 < n ∧ last[n]? = some (.one e) ∧ e.absPos = k

/-- The position `k` is not given to two numbers. -/
def OnePlace (index : List Rev) (k : BlockKey) : Prop :=
  ∀ rev ∈ index, ∀ rev' ∈ index, ∀ (n n' : Nat) (e e' : Entry), 0 < n → 0 < n' → rev[n]? = some (.one e) →
    rev'[n']? = some (.one e') → e.absPos = k → e'.absPos = k → n = n'

theorem getLast?_index {α : Type} {l : List α} {x : α} (h : l.getLast? = some x) : l[l.length - 1]? = some x := by
  rw [← h, List.getLast?_eq_getElem?]

theorem findAbsPos_some {k : BlockKey} {index : List Rev} {n ver : Nat} (h : findAbsPos k index = .ok (some (n, ver))) :
    0 < n ∧ ∃ rev, index[ver]? = some rev ∧ Has k n rev ∧ ∀ j rev', ver < j → index[j]? = some rev' → ¬ Has k n rev' := by
  unfold findAbsPos at h
  split at h
  · cases h
  · rcases firstNumberAt_spec h with ⟨h, -⟩ | ⟨num, hn, i, rev, h1, h2, h3, h4⟩
    · cases h
    · cases h3
      refine ⟨?_, rev, h1, h2, h4⟩
      rw [List.range_eq_range', List.drop_range', List.mem_range'] at hn
      obtain ⟨_, _, rfl⟩ := hn
      omega

theorem findAbsPos_none {k : BlockKey} {index : List Rev} (h : findAbsPos k index = .ok none) : ¬ InLast index k := by
  unfold findAbsPos at h
  split at h
  · cases h
  · rename_i last hl
    rcases firstNumberAt_spec h with ⟨-, h⟩ | ⟨num, hn, i, rev, h1, h2, h3, h4⟩
    · rintro ⟨last', hl', n, e, hn, he, hk⟩
      rw [hl] at hl'
      cases hl'
      refine h n ?_ last (List.mem_of_getLast? hl) ⟨e, he, hk⟩
      rw [List.range_eq_range', List.drop_range', List.mem_range']
      exact ⟨n - 1, by have := lt_of_getElem? he; omega, by omega⟩
    · cases h3

/-- The relevance tells whether the object is in the last revision. -/
theorem findAbsPos_last {k : BlockKey} {index : List Rev} (hu : OnePlace index k) {rel : Nat × Nat}
    (h : findAbsPos k index = .ok (some rel)) : ¬ rel.2 < index.length - 1 ↔ InLast index k := by
  obtain ⟨n, ver⟩ := rel
  obtain ⟨hn, rev, h1, ⟨e, h2, h3⟩, h4⟩ := findAbsPos_some h
  have hlt := lt_of_getElem? h1
  simp only
  constructor
  · intro hv
    have : ver = index.length - 1 := by omega
    subst this
    exact ⟨rev, by rw [List.getLast?_eq_getElem?, h1], n, e, hn, h2, h3⟩
  · rintro ⟨last, hl, n', e', hn', he', hk⟩ hv
    have hn : n' = n := hu last (List.mem_of_getLast? hl) rev (List.mem_of_getElem? h1) n' n e' e hn' hn he' h2 hk h3
    subst hn
    exact h4 _ last (by omega) (getLast?_index hl) ⟨e', he', hk⟩

/-- The trailer at `b` is one of those of the last revision. -/
def LastTrailer (index : List Rev) (b : Nat) : Prop :=
  ∃ last, index.getLast? = some last ∧ ∃ e : Entry, e.xrefTablePos = some (b : Int) ∧
    (last[0]? = some (.one e) ∨ index.length = 1 ∧ ∃ es, last[0]? = some (.many es) ∧ e ∈ es)

theorem firstTrailers_spec {p : Nat} : ∀ (es : List Entry) (found : Option (Nat × Nat)),
    firstTrailers p es found = if (∃ e ∈ es, e.xrefTablePos = some (p : Int)) then some (0, 0) else found
  | [], found => by simp [firstTrailers]
  | e :: es, found => by
    unfold firstTrailers
    rw [firstTrailers_spec es]
    by_cases h1 : e.xrefTablePos = some (p : Int)
    · simp [h1]
    · simp [h1]

/-- The trailer of the revision is at `b`. -/
def TrailerAt (b : Nat) (rev : Rev) : Prop := ∃ e, rev[0]? = some (.one e) ∧ e.xrefTablePos = some (b : Int)

theorem laterTrailers_spec {p : Nat} : ∀ {revs : List Rev} {ver : Nat} {found r : Option (Nat × Nat)},
    laterTrailers p ver revs found = .ok r → Latest (TrailerAt p) 0 ver revs found r
  | [], ver, found, r, h => by cases h; exact .inl ⟨rfl, by simp⟩
  | rev :: revs, ver, found, r, h => by
    unfold laterTrailers at h
    obtain ⟨s, hs, h⟩ := bind_eq_ok h
    have hs : rev[0]? = some s := orRaise_eq_ok hs
    cases s with
    | hole => exact (laterTrailers_spec h).skip (by rintro ⟨e, he, -⟩; rw [hs] at he; cases he)
    | many es => cases h
    | one e =>
      simp only at h
      by_cases hk : e.xrefTablePos = some (p : Int)
      · rw [if_pos hk] at h
        exact (laterTrailers_spec h).hit ⟨e, hs, hk⟩
      · rw [if_neg hk] at h
        exact (laterTrailers_spec h).skip (by rintro ⟨e', he, h'⟩; rw [hs] at he; cases he; exact hk h')

theorem later_last {p : Nat} {revs : List Rev} {es : List Entry} {rel : Nat × Nat}
    (h : laterTrailers p 1 revs (firstTrailers p es none) = .ok (some rel)) :
    (revs = [] ∧ rel.2 = 0 ∧ (∃ e ∈ es, e.xrefTablePos = some (p : Int))) ∨
    (revs ≠ [] ∧ (¬ rel.2 < revs.length ↔ ∃ last, revs.getLast? = some last ∧ TrailerAt p last)) := by
  rw [firstTrailers_spec] at h
  rcases laterTrailers_spec h with ⟨h1, h2⟩ | ⟨i, rv, h1, h2, h3, h4⟩
  · split at h1
    case isFalse => cases h1
    rename_i hex
    cases h1
    by_cases hr : revs = []
    · exact .inl ⟨hr, rfl, hex⟩
    · refine .inr ⟨hr, ?_⟩
      have : 0 < revs.length := List.length_pos_iff.2 hr
      constructor
      · intro hh; exact absurd this hh
      · rintro ⟨last, hl, ht⟩
        exact absurd ht (h2 last (List.mem_of_getLast? hl))
  · cases h3
    have hlt := lt_of_getElem? h1
    refine .inr ⟨by rintro rfl; simp at h1, ?_⟩
    constructor
    · intro hv
      have : i = revs.length - 1 := by simp only at hv; omega
      subst this
      exact ⟨rv, by rw [List.getLast?_eq_getElem?, h1], h2⟩
    · rintro ⟨last, hl, ht⟩ hv
      exact h4 _ last (by simp only at hv; omega) (getLast?_index hl) ht

theorem later_all {p : Nat} {rev : Rev} {revs : List Rev} {es : List Entry} {rel : Nat × Nat}
    (hes : (∃ e, rev[0]? = some (.one e) ∧ es = [e]) ∨ rev[0]? = some (.many es))
    (h : laterTrailers p 1 revs (firstTrailers p es none) = .ok (some rel)) :
    ¬ rel.2 < (rev :: revs).length - 1 ↔ LastTrailer (rev :: revs) p := by
  rcases later_last h with ⟨rfl, h1, e, he, hp⟩ | ⟨hr, h1⟩
  · rw [h1]
    constructor
    · intro _
      refine ⟨rev, rfl, e, hp, ?_⟩
      rcases hes with ⟨e', h0, rfl⟩ | h0
      · rcases List.mem_singleton.1 he with rfl
        exact .inl h0
      · exact .inr ⟨rfl, es, h0, he⟩
    · intro _; simp
  · rw [show (rev :: revs).length - 1 = revs.length by simp, h1]
    have hlast : (rev :: revs).getLast? = revs.getLast? := by
      cases revs with
      | nil => exact absurd rfl hr
      | cons a l => rfl
    have hlen : (rev :: revs).length ≠ 1 := by
      have := List.length_pos_iff.2 hr
      simp only [List.length_cons]; omega
    unfold LastTrailer
    rw [hlast]
    constructor
    · rintro ⟨last, hl, e, h1, h2⟩
      exact ⟨last, hl, e, h2, .inl h1⟩
    · rintro ⟨last, hl, e, h2, h1 | ⟨h1, -⟩⟩
      · exact ⟨last, hl, e, h1, h2⟩
      · exact absurd h1 hlen

theorem findXrefTablePos_last {p : Nat} {index : List Rev} {rel : Nat × Nat}
    (h : findXrefTablePos p index = .ok (some rel)) : ¬ rel.2 < index.length - 1 ↔ LastTrailer index p := by
  cases index with
  | nil => cases h
  | cons rev revs =>
    unfold findXrefTablePos at h
    obtain ⟨s, hs, h⟩ := bind_eq_ok h
    have hs : rev[0]? = some s := orRaise_eq_ok hs
    cases s with
    | hole => cases h
    | one e => exact later_all (.inl ⟨e, hs, rfl⟩) h
    | many es => exact later_all (.inr hs) h

/-! ### The two loops -/

theorem crossSet_new {k : BlockKey} {c : Cross} : ∀ {l : List (BlockKey × Cross)}, k ∉ l.map Prod.fst → crossSet k c l = l ++ [(k, c)]
  | [], _ => rfl
  | (k', c') :: l, h => by
    simp only [List.map_cons, List.mem_cons, not_or] at h
    rw [crossSet, if_neg (fun h' => h.1 h'.symm), crossSet_new h.2]
    rfl

/-- The position of an item of the map that makes a block with links. -/
def MapItem.key? : MapItem → Option BlockKey
  | .region (.xrefTable b _ _ _) _ => some (some (.at b))
  | .region (.indObj b _ _ _ _) _ => some (b.map fun (p : Nat) => .at p)
  | .embedded bo _ j _ _ _ => some (some (.emb bo j))
  | _ => none

theorem crossItem_key {index : List Rev} {x : MapItem} {r : Option (BlockKey × Cross)} (h : crossItem index x = .ok r) :
    r.map Prod.fst = x.key? := by
  cases x with
  | region r rows =>
    cases r with
    | xrefTable b e rws tr => obtain ⟨rel, -, h⟩ := bind_eq_ok h; cases h; rfl
    | indObj b e num gen o => obtain ⟨rel, -, h⟩ := bind_eq_ok h; cases h; rfl
    | _ => cases h; rfl
  | xrefStream b rows t => cases h; rfl
  | embedded bo act j num o env => obtain ⟨rel, -, h⟩ := bind_eq_ok h; cases h; rfl

theorem crossItems_spec {index : List Rev} : ∀ {m : List MapItem} {acc ret : List (BlockKey × Cross)},
    crossItems index m acc = .ok ret → (acc.map Prod.fst ++ m.filterMap MapItem.key?).Nodup →
    ∃ l, m.mapM (crossItem index) = .ok l ∧ ret = acc ++ l.filterMap id ∧ (l.filterMap id).map Prod.fst = m.filterMap MapItem.key?
  | [], acc, ret, h, _ => by cases h; exact ⟨[], rfl, by simp, rfl⟩
  | x :: m, acc, ret, h, hn => by
    unfold crossItems at h
    obtain ⟨r, hr, h⟩ := bind_eq_ok h
    have hk := crossItem_key hr
    cases r with
    | none =>
      simp only at h
      rw [Option.map_none] at hk
      rw [List.filterMap_cons, ← hk] at hn
      obtain ⟨l, h1, h2, h3⟩ := crossItems_spec h hn
      refine ⟨none :: l, by rw [List.mapM_cons, hr]; simp [bind, Except.bind, h1, pure, Except.pure], by simpa using h2, ?_⟩
      rw [List.filterMap_cons (f := MapItem.key?), ← hk]
      simpa using h3
    | some p =>
      obtain ⟨k, c⟩ := p
      simp only at h
      rw [Option.map_some] at hk
      rw [List.filterMap_cons, ← hk] at hn
      simp only at hn
      have hnew : k ∉ acc.map Prod.fst := by
        intro hm
        exact (List.nodup_append.1 hn).2.2 k hm k (by simp) rfl
      rw [crossSet_new hnew] at h
      obtain ⟨l, h1, h2, h3⟩ := crossItems_spec h (by simpa using hn)
      refine ⟨some (k, c) :: l, by rw [List.mapM_cons, hr]; simp [bind, Except.bind, h1, pure, Except.pure],
        by simpa using h2, ?_⟩
      rw [List.filterMap_cons (f := MapItem.key?), ← hk]
      simpa using h3

theorem addUse_spec {k : BlockKey} {u : Obj × BlockKey} : ∀ {l l' : List (BlockKey × Cross)}, addUse k u l = some l' →
    (l.map Prod.fst).Nodup → k ∈ l.map Prod.fst ∧
      l' = l.map fun p => (p.1, { p.2 with usedBy := p.2.usedBy ++ if p.1 = k then [u] else [] })
  | [], l', h, _ => by cases h
  | (k', c) :: l, l', h, hn => by
    simp only [List.map_cons, List.nodup_cons] at hn
    unfold addUse at h
    split at h
    · rename_i hk
      cases h
      subst hk
      refine ⟨by simp, ?_⟩
      simp only [List.map_cons, if_true]
      congr 1
      conv => lhs; rw [← List.map_id l]
      refine List.map_congr_left fun p hp => ?_
      have : p.1 ≠ k' := fun h => hn.1 (List.mem_map.2 ⟨p, hp, h⟩)
      simp [this]
    · rename_i hk
      cases ha : addUse k u l with
      | none => rw [ha] at h; cases h
      | some l1 =>
        rw [ha] at h
        cases h
        obtain ⟨h1, h2⟩ := addUse_spec ha hn.2
        refine ⟨by simp [h1], ?_⟩
        simp only [List.map_cons, hk, if_false, List.append_nil]
        rw [h2]

/-- The uses of the block at `k` that the targets `ts` of a block make. -/
def usesIn (last : Rev) (u : Obj × BlockKey) (ts : List Ref) (k : BlockKey) : List (Obj × BlockKey) :=
  (ts.filter fun t => match targetPos last t.2 with | .ok p => decide (some p = k) | _ => false).map fun _ => u

theorem addUses_spec {last : Rev} {u : Obj × BlockKey} : ∀ {ts : List Ref} {l l' : List (BlockKey × Cross)},
    addUses last u ts l = .ok l' → (l.map Prod.fst).Nodup →
    (∀ t ∈ ts, ∃ p, targetPos last t.2 = .ok p ∧ some p ∈ l.map Prod.fst) ∧
      l' = l.map fun p => (p.1, { p.2 with usedBy := p.2.usedBy ++ usesIn last u ts p.1 })
  | [], l, l', h, _ => by
    cases h
    refine ⟨by simp, ?_⟩
    simp [usesIn]
  | t :: ts, l, l', h, hn => by
    unfold addUses at h
    obtain ⟨p, hp, h⟩ := bind_eq_ok h
    obtain ⟨l1, h1, h⟩ := bind_eq_ok h
    obtain ⟨k1, rfl⟩ := addUse_spec (orRaise_eq_ok h1) hn
    obtain ⟨k2, rfl⟩ := addUses_spec h (by simpa [Function.comp_def] using hn)
    refine ⟨?_, ?_⟩
    · intro t' ht'
      rcases List.mem_cons.1 ht' with rfl | ht'
      · exact ⟨p, hp, k1⟩
      · obtain ⟨q, h1, h2⟩ := k2 t' ht'
        exact ⟨q, h1, by simpa [Function.comp_def] using h2⟩
    · rw [List.map_map]
      refine List.map_congr_left fun q hq => ?_
      simp only [Function.comp_apply, Prod.mk.injEq, true_and, Cross.mk.injEq, List.append_assoc, List.append_cancel_left_eq]
      unfold usesIn
      rw [List.filter_cons]
      simp only [hp]
      by_cases hk : q.1 = some p
      · simp [hk]
      · rw [if_neg hk, if_neg (by simpa using fun h => hk h.symm), List.nil_append]

/-- The uses of the block at `k` that the blocks `todo` make. -/
def usesOf (last : Rev) (lastVer : Nat) (todo : List (BlockKey × Cross)) (k : BlockKey) : List (Obj × BlockKey) :=
  todo.flatMap fun p => match p.2.rel, p.2.targets with
    | some (_, ver), some ts => if ver < lastVer then [] else usesIn last (p.2.num, p.1) ts k
    | _, _ => []

theorem crossUses_spec {last : Rev} {lastVer : Nat} : ∀ {todo l l' : List (BlockKey × Cross)},
    crossUses last lastVer todo l = .ok l' → (l.map Prod.fst).Nodup →
    (∀ p ∈ todo, ∃ rel, p.2.rel = some rel ∧ (¬ rel.2 < lastVer → ∃ ts, p.2.targets = some ts ∧
      ∀ t ∈ ts, ∃ q, targetPos last t.2 = .ok q ∧ some q ∈ l.map Prod.fst)) ∧
    l' = l.map fun p => (p.1, { p.2 with usedBy := p.2.usedBy ++ usesOf last lastVer todo p.1 })
  | [], l, l', h, _ => by
    cases h
    refine ⟨by simp, ?_⟩
    simp [usesOf]
  | (k, c) :: todo, l, l', h, hn => by
    unfold crossUses at h
    cases hr : c.rel with
    | none => rw [hr] at h; cases h
    | some rel =>
      obtain ⟨num, ver⟩ := rel
      rw [hr] at h
      simp only at h
      by_cases hv : ver < lastVer
      · rw [if_pos hv] at h
        obtain ⟨h1, rfl⟩ := crossUses_spec h hn
        refine ⟨?_, ?_⟩
        · intro p hp
          rcases List.mem_cons.1 hp with rfl | hp
          · exact ⟨_, hr, fun h => absurd hv h⟩
          · exact h1 p hp
        · refine List.map_congr_left fun q hq => ?_
          simp only [Prod.mk.injEq, true_and, Cross.mk.injEq, List.append_cancel_left_eq]
          unfold usesOf
          rw [List.flatMap_cons]
          simp only [hr]
          cases c.targets <;> simp [hv]
      · rw [if_neg hv] at h
        cases ht : c.targets with
        | none => rw [ht] at h; cases h
        | some ts =>
          rw [ht] at h
          simp only at h
          obtain ⟨l1, k1, h⟩ := bind_eq_ok h
          obtain ⟨a1, rfl⟩ := addUses_spec k1 hn
          obtain ⟨h1, rfl⟩ := crossUses_spec h (by simpa [Function.comp_def] using hn)
          refine ⟨?_, ?_⟩
          · intro p hp
            rcases List.mem_cons.1 hp with rfl | hp
            · exact ⟨_, hr, fun _ => ⟨ts, ht, a1⟩⟩
            · obtain ⟨rel, b1, b2⟩ := h1 p hp
              refine ⟨rel, b1, fun hh => ?_⟩
              obtain ⟨ts, b3, b4⟩ := b2 hh
              exact ⟨ts, b3, fun t ht => by simpa [Function.comp_def] using b4 t ht⟩
          · rw [List.map_map]
            refine List.map_congr_left fun q hq => ?_
            simp only [Function.comp_apply, Prod.mk.injEq, true_and, Cross.mk.injEq, List.append_assoc,
              List.append_cancel_left_eq]
            unfold usesOf
            rw [List.flatMap_cons]
            simp only [hr, ht, if_neg hv]

/-- The cell that a number denotes in a Python list. -/
def CellOf (rev : Rev) (n : Int) (e : Entry) : Prop :=
  ∃ i : Nat, rev[i]? = some (.one e) ∧ ((i : Int) = n ∨ n < 0 ∧ (i : Int) = n + rev.length)

theorem targetPos_iff {last : Rev} {n : Int} {p : Pos} :
    targetPos last n = .ok p ↔ ∃ e, CellOf last n e ∧ e.absPos = some p := by
  have hentry : ∀ i : Nat, (entryAt last i >>= fun e => orRaise .keyError e.absPos) = .ok p ↔
      ∃ e, last[i]? = some (.one e) ∧ e.absPos = some p := by
    intro i
    constructor
    · intro h
      obtain ⟨e, he, h⟩ := bind_eq_ok h
      obtain ⟨s, hs, he⟩ := bind_eq_ok he
      have hs : last[i]? = some s := orRaise_eq_ok hs
      cases s with
      | one e' => cases he; exact ⟨e, hs, orRaise_eq_ok h⟩
      | _ => cases he
    · rintro ⟨e, he, hp⟩
      simp [entryAt, slotAt, he, orRaise, Slot.entry, bind, Except.bind, hp]
  unfold targetPos
  by_cases h0 : 0 ≤ n
  · rw [if_pos h0]
    show (entryAt last n.toNat >>= fun e => orRaise .keyError e.absPos) = .ok p ↔ _
    rw [hentry]
    constructor
    · rintro ⟨e, h1, h2⟩
      exact ⟨e, ⟨n.toNat, h1, .inl (by omega)⟩, h2⟩
    · rintro ⟨e, ⟨i, h1, h | h⟩, h2⟩
      · exact ⟨e, by rw [show n.toNat = i by omega]; exact h1, h2⟩
      · omega
  · rw [if_neg h0]
    split
    · rename_i hl
      show (entryAt last (last.length - (-n).toNat) >>= fun e => orRaise .keyError e.absPos) = .ok p ↔ _
      rw [hentry]
      constructor
      · rintro ⟨e, h1, h2⟩
        exact ⟨e, ⟨_, h1, .inr ⟨by omega, by omega⟩⟩, h2⟩
      · rintro ⟨e, ⟨i, h1, h | h⟩, h2⟩
        · omega
        · exact ⟨e, by rw [show last.length - (-n).toNat = i by omega]; exact h1, h2⟩
    · rename_i hl
      constructor
      · intro h; cases h
      · rintro ⟨e, ⟨i, h1, h | h⟩, h2⟩
        · omega
        · omega

end Pdf
