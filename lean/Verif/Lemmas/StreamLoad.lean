/-
Loading a file made of one cross-reference stream.
-/
import Verif.Lemmas.Filed
import Verif.Props.C71_Index

namespace Pdf
open Spec

/-- An entry in use, as it is read from a cross-reference stream: an object of the file or an object of an object
stream that is in the file. -/
def PackedEntry (lim num : Nat) (objs : List Entry) (e : Entry) : Prop :=
  ∃ n gen : Nat, 1 ≤ n ∧ n ≤ num ∧
    ((∃ p : Nat, p < lim ∧ e = { num := n, gen := gen, absPos := some (.at p) }) ∨
      ∃ env rank : Nat, e = { num := n, gen := gen, envNum := some env, oPos := some rank, absPos := some (.tup env rank) } ∧
        ∃ e' ∈ objs, e'.num = env ∧ e'.envNum = none)

/-- A file whose only cross-reference section is the stream `num` at `pos`. -/
structure PackedFile [Zlib] (F : Bytes) (pos num : Nat) (tr : Dict) (objs : List Entry) : Prop where
  start : 0 < pos
  room : pos < F.length
  notTable : slice F pos (pos + 4) ≠ b!"xref"
  read : readStreamSection F pos pos = .ok
    ({ num := 0, absPos := some (.at pos), xrefStreamPos := some pos, xrefStreamNum := some num }, objs, .dict tr)
  trailer : ∀ e next, e.absPos = some (.at pos) → e.absNext = some next → parseTrailer (.single F) e = .ok tr
  nodup : (tr.map Prod.fst).Nodup
  noPrev : Dict.get? tr b!"/Prev" = none
  noStm : Dict.get? tr b!"/XRefStm" = none
  kinds : ∀ e ∈ objs, PackedEntry F.length num objs e
  self : ∃ e ∈ objs, e.num = num ∧ e.envNum = none
  distinct : (objs.map (·.num)).Nodup

theorem readSection_packed [Zlib] {F : Bytes} {pos num : Nat} {tr : Dict} {objs : List Entry} (h : PackedFile F pos num tr objs)
    (x ep last : Int) :
    readSection (.single F) pos x ep last = .ok
      (⟨{ num := 0, absPos := some (.at pos), xrefStreamPos := some pos, xrefStreamNum := some num, startxrefPos := some x },
        objs, ep⟩, tr, F) := by
  have h1 := h.start
  have h2 := h.room
  unfold readSection
  rw [single_read_at (by omega) (by omega), single_read_at (by omega) (by omega)]
  have hn : natPos (pos : Int) = .ok pos := by simp [natPos]
  simp only [bind, Except.bind, hn]
  rw [if_neg h.notTable, h.read]

theorem xrefSections_packed [Zlib] {F : Bytes} {pos num : Nat} {tr : Dict} {objs : List Entry} (h : PackedFile F pos num tr objs)
    (hend : fileEnd pos <:+ F) (hlen : 100 ≤ F.length) (hmax : F.length < 10 ^ 80) :
    ∃ y, xrefSections (.single F) F.length = .ok
      [⟨{ num := 0, absPos := some (.at pos), xrefStreamPos := some pos, xrefStreamNum := some num, startxrefPos := some y },
        objs, (F.length - 6 : Nat)⟩] := by
  obtain ⟨A, hA⟩ := hend
  have hFl : F.length = A.length + (fileEnd pos).length := by rw [← hA]; simp
  have hel : (fileEnd pos).length = (natDec pos).length + 17 := by simp [fileEnd]
  have hpos2 := h.room
  have hbig : (natDec pos).length ≤ 80 := natDecAux_length _ _ _ (by omega) (by omega)
  have hne := natDec_ne_nil pos
  unfold xrefSections
  have hread : (Provider.single F).read (-100) (-1) = .ok (F, (F.length - 100 : Nat), 0, 100) := by
    unfold Provider.read
    rw [if_neg (by omega)]
    have : (-100 + (F.length : Int)) % (F.length : Int) = (F.length - 100 : Nat) := by
      rw [Int.emod_eq_of_lt (by omega) (by omega)]
      omega
    simp only [this, if_true]
    congr 4
    omega
  have hn : natPos ((F.length - 100 : Nat) : Int) = .ok (F.length - 100) := by simp [natPos]
  simp only [hread, bind, Except.bind, hn]
  have hdA : F.drop A.length = fileEnd pos := by rw [← hA]; simp
  have hd : F.drop (F.length - 100) = A.drop (F.length - 100) ++ fileEnd pos := by
    rw [← hA, List.drop_append_of_le_length (by rw [hA]; omega)]
  have hr1 : rfind F b!"%%EOF" (F.length - 100) = some (F.length - 6) := by
    rw [rfind_last (x := 37) (q := b!"%EOF") (b := b!"\n") (X := A.drop (F.length - 100) ++ b!"startxref\n" ++ natDec pos ++ b!"\n")
      rfl (by decide) (by rw [hd]; simp [fileEnd])]
    simp only [List.length_append, List.length_drop, List.length_cons, List.length_nil, Option.some.injEq]
    omega
  have hr2 : rfind F b!"startxref" (F.length - 100) = some A.length := by
    rw [rfind_last (x := 115) (q := b!"tartxref") (b := b!"\n" ++ natDec pos ++ b!"\n%%EOF\n") (X := A.drop (F.length - 100))
      rfl ?_ (by rw [hd]; simp [fileEnd])]
    · simp only [List.length_drop, Option.some.injEq]
      omega
    · intro hh
      have : (115 : UInt8) ∈ b!"tartxref" ++ (b!"\n" ++ natDec pos ++ b!"\n%%EOF\n") := hh.subset (by simp)
      have hdig := natDec_all pos
      simp only [List.mem_append] at this
      rcases this with h | (h | h) | h
      · revert h; decide
      · revert h; decide
      · have := List.all_eq_true.1 hdig _ h
        revert this; decide
      · revert h; decide
  rw [hr1, hr2]
  simp only [posOf]
  have hd9 : F.drop (A.length + 9) = [10] ++ (natDec pos ++ 10 :: b!"%%EOF\n") := by
    have := drop_add_of (text := F) (i := A.length) (a := b!"startxref") (b := b!"\n" ++ natDec pos ++ b!"\n%%EOF\n")
      (by rw [hdA]; simp [fileEnd])
    rw [show A.length + 9 = A.length + (b!"startxref").length from rfl, this]
    simp
  have htok := nextToken_at (tokAt_nat pos (c := 10) (by decide) b!"%%EOF\n") (by decide) hd9
  have hsl := slice_of_drop (drop_add_of hd9)
  rw [show ((A.length : Int) + 9).toNat = A.length + 9 by omega, htok]
  simp only [hsl, pyInt_natDec, orRaise, readSection_packed h]
  have hnext : nextSections tr 0 0 = .ok (false, 0, 0) := by
    unfold nextSections
    simp only [and_self, if_true, h.noStm, bind, Except.bind, h.noPrev]
    rfl
  rw [hnext]
  simp only [chainLoop, and_self, if_true]
  exact ⟨_, rfl⟩

/-- Recording entries with distinct numbers in free cells. -/
theorem placeAll_free {v : Nat} : ∀ (es : List Entry) (m : Rev), (∀ e ∈ es, 0 ≤ e.num ∧ m[e.num.toNat]? = some .hole) →
    (es.map (·.num)).Nodup →
    ∃ m', placeAll v m es = .ok m' ∧ m'.length = m.length ∧
      (∀ e ∈ es, m'[e.num.toNat]? = some (.one { e with ver := 0, docVer := v })) ∧
      ∀ i : Nat, (∀ e ∈ es, e.num ≠ i) → m'[i]? = m[i]? := by
  intro es
  induction es with
  | nil => intro m _ _; exact ⟨m, rfl, rfl, by simp, fun _ _ => rfl⟩
  | cons e es ih =>
    intro m hm hnd
    simp only [List.map_cons, List.nodup_cons] at hnd
    obtain ⟨h0, h1⟩ := hm e (by simp)
    have hlt := lt_of_getElem? h1
    have hne : ∀ e' ∈ es, e'.num ≠ e.num := fun e' he' hh => hnd.1 (hh ▸ List.mem_map_of_mem he')
    obtain ⟨m', k1, k2, k3, k4⟩ := ih (m.set e.num.toNat (.one { e with ver := 0, docVer := v })) (by
      intro e' he'
      obtain ⟨j1, j2⟩ := hm e' (by simp [he'])
      refine ⟨j1, ?_⟩
      rw [getElem?_set_ne' _ _ (by have := hne e' he'; omega), j2]) hnd.2
    refine ⟨m', ?_, by rw [k2, List.length_set], ?_, ?_⟩
    · unfold placeAll
      rw [if_neg (by omega)]
      unfold placeEntry
      rw [slotAt_eq h1]
      exact k1
    · intro e' he'
      rcases List.mem_cons.1 he' with rfl | he'
      · rw [k4 e'.num.toNat (fun x hx => by have := hne x hx; omega)]
        exact getElem?_set_eq' _ _ hlt
      · exact k3 e' he'
    · intro i hi
      have := hi e (by simp)
      rw [k4 i (fun x hx => hi x (by simp [hx])), getElem?_set_ne' _ _ (by omega)]

theorem placeAll_end {v : Nat} : ∀ (es : List Entry) {m m' : Rev} (x : Entry), placeAll v m es = .ok m' →
    placeAll v m (es ++ [x]) = placeAll v m' [x]
  | [], m, m', x, h => by cases h; rfl
  | e :: es, m, m', x, h => by
    unfold placeAll at h
    obtain ⟨m1, h1, h2⟩ := bind_eq_ok h
    rw [List.cons_append]
    conv => lhs; unfold placeAll
    rw [h1]
    exact placeAll_end es x h2

/-- The position of an entry that is not embedded. -/
def startOf (e : Entry) : Int := (directPos e).toOption.getD 0

theorem foldl_max_ge : ∀ (l : List Int) (a : Int), a ≤ l.foldl max a ∧ ∀ x ∈ l, x ≤ l.foldl max a
  | [], a => by simp
  | y :: l, a => by
    obtain ⟨h1, h2⟩ := foldl_max_ge l (max a y)
    simp only [List.foldl_cons, List.mem_cons, forall_eq_or_imp]
    exact ⟨by omega, by omega, h2⟩

theorem foldl_max_le : ∀ (l : List Int) (a b : Int), a ≤ b → (∀ x ∈ l, x ≤ b) → l.foldl max a ≤ b
  | [], a, b, h, _ => by simpa using h
  | y :: l, a, b, h, hl => by
    simp only [List.foldl_cons]
    refine foldl_max_le l _ b ?_ (fun x hx => hl x (by simp [hx]))
    have := hl y (by simp)
    omega

theorem nextMap_packed [Zlib] {F : Bytes} {pos num : Nat} {tr : Dict} {objs : List Entry} (h : PackedFile F pos num tr objs)
    {x : Section} (hx1 : x.objs = objs) (hx2 : x.trailer.absPos = some (.at pos)) (hx3 : x.eofPos = (F.length - 6 : Nat))
    (hF : 6 ≤ F.length) :
    ∃ nxt, nextMap (.single F) [x] = .ok (nxt, num) ∧ (nxtOf nxt pos).isSome = true ∧ (nxtOf nxt x.eofPos).isSome = true ∧
      ∀ e ∈ objs, ∀ p : Nat, e.absPos = some (.at p) → (nxtOf nxt p).isSome = true := by
  have hseq : seqOf x = .ok (((pos : Int), 0) :: (objs.filter (·.envNum.isNone)).map (fun e => (startOf e, e.num)) ++
      [(x.eofPos, -1)]) := by
    unfold seqOf
    have ht : directPos x.trailer = .ok (pos : Int) := by simp [directPos, hx2]
    rw [ht, hx1, mapM_pure' (fun e => (startOf e, e.num))]
    · rfl
    · intro e he
      obtain ⟨he, hk⟩ := List.mem_filter.1 he
      obtain ⟨n, gen, -, -, ⟨p, -, rfl⟩ | ⟨env, rank, rfl, -⟩⟩ := h.kinds e he
      · rfl
      · cases hk
  generalize hS : (((pos : Int), (0 : Int)) :: (objs.filter (·.envNum.isNone)).map (fun e => (startOf e, e.num)) ++
      [(x.eofPos, -1)]) = S at hseq
  have hmem : ∀ e ∈ objs, e.envNum = none → (startOf e, e.num) ∈ S := by
    intro e he hn
    rw [← hS]
    refine List.mem_append_left _ (List.mem_cons_of_mem _ (List.mem_map.2 ⟨e, List.mem_filter.2 ⟨he, by simp [hn]⟩, rfl⟩))
  have hmax : (S.map Prod.snd).foldl max (-1) = (num : Int) := by
    apply Int.le_antisymm
    · refine foldl_max_le _ _ _ (by omega) ?_
      intro y hy
      obtain ⟨⟨a, b⟩, hab, rfl⟩ := List.mem_map.1 hy
      rw [← hS] at hab
      rcases List.mem_append.1 hab with hab | hab
      · rcases List.mem_cons.1 hab with hab | hab
        · cases hab; simp
        · obtain ⟨e, he, hab⟩ := List.mem_map.1 hab
          cases hab
          obtain ⟨n, gen, -, k, k'⟩ := h.kinds e (List.mem_filter.1 he).1
          rcases k' with ⟨p, -, rfl⟩ | ⟨env, rank, rfl, -⟩ <;> simp <;> omega
      · cases List.mem_singleton.1 hab
        simp
    · obtain ⟨e, e1, e2, e3⟩ := h.self
      refine (foldl_max_ge _ _).2 _ ?_
      rw [← e2]
      exact List.mem_map.2 ⟨_, hmem e e1 e3, rfl⟩
  refine ⟨sortInts (S.map Prod.fst) ++ [(F.length : Int)], ?_, ?_⟩
  · unfold nextMap
    rw [List.mapM_cons, hseq, List.mapM_nil]
    simp only [bind, Except.bind, pure, Except.pure, Provider.size, List.flatten_cons, List.flatten_nil, List.append_nil, hmax]
  have hroom := h.room
  have hall : ∀ y ∈ S.map Prod.fst, y < F.length := by
    intro y hy
    obtain ⟨⟨a, b⟩, hab, rfl⟩ := List.mem_map.1 hy
    rw [← hS] at hab
    rcases List.mem_append.1 hab with hab | hab
    · rcases List.mem_cons.1 hab with hab | hab
      · cases hab; simp; omega
      · obtain ⟨e, he, hab⟩ := List.mem_map.1 hab
        cases hab
        obtain ⟨he, hk⟩ := List.mem_filter.1 he
        obtain ⟨n, gen, -, -, ⟨p, k, rfl⟩ | ⟨env, rank, rfl, -⟩⟩ := h.kinds e he
        · simp [startOf, directPos, Except.toOption]; omega
        · cases hk
    · cases List.mem_singleton.1 hab
      simp only [hx3]
      omega
  have hsome : ∀ y ∈ S.map Prod.fst, (nxtOf (sortInts (S.map Prod.fst) ++ [(F.length : Int)]) y).isSome = true := by
    intro y hy
    refine nxtOf_some (z := F.length) ?_ (List.mem_append_left _ (mem_sortInts.2 hy)) (by simp) (hall y hy)
    rw [List.pairwise_append]
    refine ⟨sortInts_sorted _, by simp, ?_⟩
    intro a ha b hb
    have := hall a (mem_sortInts.1 ha)
    simp only [List.mem_singleton] at hb
    omega
  refine ⟨hsome _ ?_, hsome _ ?_, ?_⟩
  · rw [← hS]; simp
  · rw [← hS]; simp
  · intro e he p hp
    apply hsome
    obtain ⟨n, gen, -, -, ⟨p', k, rfl⟩ | ⟨env, rank, rfl, -⟩⟩ := h.kinds e he
    · simp only [Option.some.injEq, Pos.at.injEq] at hp
      have := hmem _ he rfl
      rw [← hp]
      exact List.mem_map.2 ⟨_, this, rfl⟩
    · cases hp

/-- The only column, before positions are completed. -/
structure Packed0 (num : Nat) (objs : List Entry) (x : Section) (m : Rev) : Prop where
  len : m.length = num + 2
  first : m[0]? = some (.one { x.trailer with ver := 0, docVer := 0 })
  last : m[num + 1]? = some (.one { eofEntry x with ver := 0, docVer := 0 })
  cell : ∀ e ∈ objs, m[e.num.toNat]? = some (.one { e with ver := 0, docVer := 0 })
  hole : ∀ n : Nat, 1 ≤ n → n ≤ num → (∀ e ∈ objs, e.num ≠ n) → m[n]? = some .hole

theorem buildColumns_packed [Zlib] {F : Bytes} {pos num : Nat} {tr : Dict} {objs : List Entry} (h : PackedFile F pos num tr objs)
    {x : Section} (hx1 : x.objs = objs) (hx2 : x.trailer.absPos = some (.at pos)) (hx4 : x.trailer.xrefStm = false) :
    ∃ m, buildColumns [x] num = .ok [m] ∧ Packed0 num objs x m := by
  have hnum : 1 ≤ num := by
    obtain ⟨e, e1, e2, e3⟩ := h.self
    obtain ⟨n, gen, k1, k2, -⟩ := h.kinds e e1
    omega
  have hk : ∀ e ∈ objs, ∃ n : Nat, e.num = n ∧ 1 ≤ n ∧ n ≤ num := by
    intro e he
    obtain ⟨n, gen, k1, k2, ⟨p, -, rfl⟩ | ⟨env, rank, rfl, -⟩⟩ := h.kinds e he <;> exact ⟨n, rfl, k1, k2⟩
  generalize hm0 : (List.replicate ((num : Int) + 2).toNat Slot.hole).set 0 (.one { x.trailer with ver := 0, docVer := 0 }) = m0
  have hlen : m0.length = num + 2 := by rw [← hm0]; simp; omega
  have hhole : ∀ i : Nat, 1 ≤ i → i < num + 2 → m0[i]? = some .hole := by
    intro i hi hi2
    rw [← hm0, getElem?_set_ne' _ _ (by omega), List.getElem?_replicate, if_pos (by omega)]
  obtain ⟨m1, k1, k2, k3, k4⟩ := placeAll_free (v := 0) objs m0 (by
    intro e he
    obtain ⟨n, hn, n1, n2⟩ := hk e he
    rw [hn]
    exact ⟨by omega, hhole _ (by omega) (by omega)⟩) h.distinct
  have hend1 : m1[num + 1]? = some .hole := by
    rw [k4 (num + 1) (fun e he => by obtain ⟨n, hn, n1, n2⟩ := hk e he; omega), hhole _ (by omega) (by omega)]
  refine ⟨m1.set (num + 1) (.one { eofEntry x with ver := 0, docVer := 0 }), ?_, ?_, ?_, ?_, ?_, ?_⟩
  · unfold buildColumns
    have j1 : mergeHybrid [] [x].reverse = .ok [x] := by simp [mergeHybrid, hx4]
    have j2 : directPos x.trailer = .ok (pos : Int) := by simp [directPos, hx2]
    have := h.start
    rw [j1]
    simp only [bind, Except.bind, j2]
    rw [if_neg (by omega), hm0, hx1, placeAll_end _ _ k1]
    unfold placeAll
    rw [if_pos (by simp [eofEntry])]
    unfold placeEntry
    rw [k2, hlen, show num + 2 - 1 = num + 1 by omega, slotAt_eq hend1]
    rfl
  · rw [List.length_set, k2, hlen]
  · rw [getElem?_set_ne' _ _ (by omega), k4 0 (fun e he => by obtain ⟨n, hn, n1, n2⟩ := hk e he; omega), ← hm0]
    exact getElem?_set_eq' _ _ (by simp; omega)
  · exact getElem?_set_eq' _ _ (by omega)
  · intro e he
    obtain ⟨n, hn, n1, n2⟩ := hk e he
    rw [getElem?_set_ne' _ _ (by omega), k3 e he]
  · intro n h1 h2 h3
    rw [getElem?_set_ne' _ _ (by omega), k4 n h3, hhole n h1 (by omega)]

/-- The only column, completed. -/
structure Packed1 (pos num end_ : Nat) (objs : List Entry) (m : Rev) : Prop where
  len : m.length = num + 2
  first : ∃ e nx, m[0]? = some (.one e) ∧ e.absPos = some (.at pos) ∧ e.absNext = some nx ∧ e.deleted = false ∧
    e.xrefStreamPos = some (pos : Int) ∧ e.xrefTablePos = none ∧ e.xrefStreamNum = some (num : Int)
  last : ∃ e, m[num + 1]? = some (.one e) ∧ e.absPos = some (.at end_)
  cell : ∀ e ∈ objs, ∃ e' nx, m[e.num.toNat]? = some (.one e') ∧ e'.envNum = e.envNum ∧ e'.deleted = false ∧ e'.gen = e.gen ∧
    e'.absNext = some nx ∧ ∀ p, e.absPos = some (.at p) → e'.absPos = some (.at p)
  hole : ∀ n : Nat, 1 ≤ n → n ≤ num → (∀ e ∈ objs, e.num ≠ n) → m[n]? = some .hole

theorem completeAll_packed [Zlib] {F : Bytes} {pos num : Nat} {tr : Dict} {objs : List Entry} (h : PackedFile F pos num tr objs)
    {x : Section} {y : Int} (hx : x = ⟨{ num := 0, absPos := some (.at pos), xrefStreamPos := some pos, xrefStreamNum := some num, startxrefPos := some y },
        objs, (F.length - 6 : Nat)⟩) {nxt : List Int} (hp : (nxtOf nxt pos).isSome = true) (he : (nxtOf nxt x.eofPos).isSome = true)
    (ho : ∀ e ∈ objs, ∀ p : Nat, e.absPos = some (.at p) → (nxtOf nxt p).isSome = true) {m : Rev} (hm : Packed0 num objs x m) :
    ∃ c, completeAll nxt [] [] [m] = .ok [c] ∧ Packed1 pos num (F.length - 6) objs c := by
  obtain ⟨a, ha⟩ := Option.isSome_iff_exists.1 hp
  obtain ⟨b, hb⟩ := Option.isSome_iff_exists.1 he
  have hcell : ∀ (i : Nat) (s s' : Slot), m[i]? = some s → (match s with
      | .hole => .ok .hole
      | .one e => do
        let e ← completeEntry nxt m e
        .ok (.one e)
      | .many es => do
        let es ← es.mapM (completeEntry nxt m)
        .ok (.many es) : Py Slot) = .ok s' → completeCell nxt [] [] m i = .ok s' := by
    intro i s s' h1 h2
    unfold completeCell
    rw [slotAt_eq h1]
    simp only [bind, Except.bind, List.getElem?_nil, reduceCtorEq, if_false] at h2 ⊢
    exact h2
  -- the cells one by one
  have c0 : ∃ e nx, completeCell nxt [] [] m 0 = .ok (.one e) ∧ e.absPos = some (.at pos) ∧ e.absNext = some nx ∧ e.deleted = false ∧
    e.xrefStreamPos = some (pos : Int) ∧ e.xrefTablePos = none ∧ e.xrefStreamNum = some (num : Int) := by
    have := hcell 0 _ (.one { x.trailer with ver := 0, docVer := 0, absNext := some a }) hm.first (by
      simp [completeEntry, hx, ha, orRaise, bind, Except.bind, pure, Except.pure])
    refine ⟨_, a, this, ?_⟩
    rw [hx]
    exact ⟨rfl, rfl, rfl, rfl, rfl, rfl⟩
  have c1 : ∃ e, completeCell nxt [] [] m (num + 1) = .ok (.one e) ∧ e.absPos = some (.at (F.length - 6 : Nat)) := by
    have := hcell (num + 1) _ (.one { eofEntry x with ver := 0, docVer := 0, absNext := some b }) hm.last (by
      simp [completeEntry, eofEntry, hb, orRaise, bind, Except.bind, pure, Except.pure])
    refine ⟨_, this, ?_⟩
    rw [hx]
    rfl
  have c2 : ∀ e ∈ objs, ∃ e' nx, completeCell nxt [] [] m e.num.toNat = .ok (.one e') ∧ e'.envNum = e.envNum ∧ e'.deleted = false ∧
      e'.gen = e.gen ∧ e'.absNext = some nx ∧ ∀ p, e.absPos = some (.at p) → e'.absPos = some (.at p) := by
    intro e he
    have hc := hm.cell e he
    obtain ⟨n, gen, -, -, ⟨p, -, rfl⟩ | ⟨env, rank, rfl, e2, k1, k2, k3⟩⟩ := h.kinds e he
    · obtain ⟨nx, hnx⟩ := Option.isSome_iff_exists.1 (ho _ he p rfl)
      refine ⟨_, nx, hcell _ _ (.one { num := n, gen := gen, absPos := some (.at p), absNext := some nx }) hc (by
        simp [completeEntry, hnx, orRaise, bind, Except.bind, pure, Except.pure]), rfl, rfl, rfl, rfl, ?_⟩
      intro p' hp'
      exact hp'
    · have hc2 := hm.cell e2 k1
      obtain ⟨n2, gen2, -, -, ⟨p, -, rfl⟩ | ⟨env', rank', rfl, -⟩⟩ := h.kinds e2 k1
      · obtain ⟨nx, hnx⟩ := Option.isSome_iff_exists.1 (ho _ k1 p rfl)
        simp only at k2
        have hen : entryAt m env = .ok { num := n2, gen := gen2, absPos := some (.at p) } := by
          refine entryAt_eq ?_
          rw [show env = n2 by omega]
          exact hc2
        refine ⟨_, nx, hcell _ _ (.one { num := n, gen := gen, envNum := some env, oPos := some rank, absPos := some (.emb p rank), absNext := some nx }) hc (by
          simp [completeEntry, hen, directPos, hnx, orRaise, bind, Except.bind, pure, Except.pure]), rfl, rfl, rfl, rfl, ?_⟩
        intro p' hp'
        cases hp'
      · cases k3
  have c3 : ∀ n : Nat, 1 ≤ n → n ≤ num → (∀ e ∈ objs, e.num ≠ n) → completeCell nxt [] [] m n = .ok .hole := by
    intro n h1 h2 h3
    exact hcell _ _ _ (hm.hole n h1 h2 h3) rfl
  have hall : ∀ i ∈ List.range m.length, ∃ s, completeCell nxt [] [] m i = .ok s := by
    intro i hi
    rw [List.mem_range, hm.len] at hi
    rcases Nat.eq_zero_or_pos i with rfl | hi0
    · obtain ⟨e, _, k, -⟩ := c0
      exact ⟨_, k⟩
    by_cases hin : i = num + 1
    · subst hin
      obtain ⟨e, k, -⟩ := c1
      exact ⟨_, k⟩
    by_cases hex : ∃ e ∈ objs, e.num = i
    · obtain ⟨e, k1, k2⟩ := hex
      obtain ⟨e', _, k3, -⟩ := c2 e k1
      rw [k2] at k3
      exact ⟨_, k3⟩
    · exact ⟨_, c3 i hi0 (by omega) (fun e he hh => hex ⟨e, he, hh⟩)⟩
  obtain ⟨c, hc⟩ := mapM_ok_of hall
  have hget : ∀ i s, completeCell nxt [] [] m i = .ok s → i < m.length → c[i]? = some s := by
    intro i s hs hi
    obtain ⟨s', k1, k2⟩ := (mapM_at hc).2 i i (by rw [List.getElem?_range hi])
    rw [hs] at k2
    cases k2
    exact k1
  refine ⟨c, ?_, ?_, ?_, ?_, ?_, ?_⟩
  · unfold completeAll completeAll
    simp only [List.head?_nil, Option.getD_none, hc, bind, Except.bind]
  · rw [(mapM_at hc).1, List.length_range, hm.len]
  · obtain ⟨e, nx, k1, k⟩ := c0
    exact ⟨e, nx, hget _ _ k1 (by rw [hm.len]; omega), k⟩
  · obtain ⟨e, k1, k⟩ := c1
    exact ⟨e, hget _ _ k1 (by rw [hm.len]; omega), k⟩
  · intro e he
    obtain ⟨e', nx, k1, k⟩ := c2 e he
    exact ⟨e', nx, hget _ _ k1 (lt_of_getElem? (hm.cell e he)), k⟩
  · intro n h1 h2 h3
    exact hget _ _ (c3 n h1 h2 h3) (by rw [hm.len]; omega)

/-- What loading gives. -/
structure PackedDoc [Zlib] (F : Bytes) (num : Nat) (tr : Dict) (objs : List Entry) (d : Doc) : Prop where
  fdata : d.curData.fdata = .single F
  len : d.cur.length = num + 1
  cacheLen : d.cache.length = num + 1
  root : ∃ t, d.cache[0]? = some (.dict t) ∧ ∀ k, ¬ MovingKey k → k ≠ b!"/DecodeParms" → Dict.get? t k = Dict.get? tr k
  empty : ∀ n : Nat, 1 ≤ n → n ≤ num → d.cache[n]? = some .null
  first : ∃ e, d.cur[0]? = some (.one e) ∧ e.deleted = false
  cell : ∀ e ∈ objs, ∃ e' nx, d.cur[e.num.toNat]? = some (.one e') ∧ e'.envNum = e.envNum ∧ e'.deleted = false ∧ e'.gen = e.gen ∧
    e'.absNext = some nx ∧ ∀ p, e.absPos = some (.at p) → e'.absPos = some (.at p)
  hole : ∀ n : Nat, 1 ≤ n → (∀ e ∈ objs, e.num ≠ n) → d.cur[n]? = none ∨ d.cur[n]? = some .hole

theorem delDecodeParms_get (d : Dict) (k : Bytes) (hk : k ≠ b!"/DecodeParms") :
    Dict.get? (delDecodeParms d) k = Dict.get? d k := by
  unfold delDecodeParms
  split <;> (try split) <;> first | rfl | rw [Dict.get?_del, if_neg hk]

/-- Loading a file whose only cross-reference section is a stream. -/
theorem loads_packed [Zlib] {F : Bytes} {pos num : Nat} {tr : Dict} {objs : List Entry} (h : PackedFile F pos num tr objs)
    (hend : fileEnd pos <:+ F) (hmin : 100 ≤ F.length) (hmax : F.length < 10 ^ 80) :
    ∃ d, loads F = .ok d ∧ PackedDoc F num tr objs d := by
  obtain ⟨y, hsec⟩ := xrefSections_packed h hend hmin hmax
  generalize hx : (⟨{ num := 0, absPos := some (.at pos), xrefStreamPos := some pos, xrefStreamNum := some num, startxrefPos := some y },
        objs, (F.length - 6 : Nat)⟩ : Section) = x at hsec
  obtain ⟨nxt, n1, n2, n3, n4⟩ := nextMap_packed h (x := x) (by rw [← hx]) (by rw [← hx]) (by rw [← hx]) (by omega)
  obtain ⟨m, b1, b2⟩ := buildColumns_packed h (x := x) (by rw [← hx]) (by rw [← hx]) (by rw [← hx])
  obtain ⟨c, c1, c2⟩ := completeAll_packed h hx.symm n2 n3 n4 b2
  have hnum : 1 ≤ num := by
    obtain ⟨e, e1, e2, e3⟩ := h.self
    obtain ⟨n, gen, k1, k2, -⟩ := h.kinds e e1
    omega
  have hd : fileData (.single F) c = .ok { fdata := .single F, eofCut := some F.length } := by
    obtain ⟨A, hA⟩ : ∃ A, F = A ++ b!"%%EOF\n" := by
      obtain ⟨A, hA⟩ := hend
      exact ⟨A ++ b!"startxref\n" ++ natDec pos ++ b!"\n", by rw [← hA]; simp [fileEnd]⟩
    have hAl : A.length = F.length - 6 := by rw [hA]; simp
    obtain ⟨e, k1, k2⟩ := c2.last
    unfold fileData
    rw [List.getLast?_eq_getElem?, c2.len, show num + 2 - 1 = num + 1 by omega, k1]
    have : eofCut (F.length - 6) (.single F) = .ok F.length := by rw [← hAl]; exact eofCut_end hA
    simp only [directPos, k2, bind, Except.bind, natPos]
    rw [if_neg (by omega)]
    simp [this, pure, Except.pure]
  have hdrop : ∀ n : Nat, n ≤ num → c.dropLast[n]? = c[n]? := by
    intro n hn
    rw [List.getElem?_dropLast, if_pos (by rw [c2.len]; omega)]
  have hlen : c.dropLast.length = num + 1 := by rw [List.length_dropLast, c2.len]; omega
  obtain ⟨E0, nx, f1, f2, f3, f4, f5, f6, f7⟩ := c2.first
  have hc0 : c.dropLast[0]? = some (.one E0) := by rw [hdrop 0 (by omega), f1]
  have hcache : buildCache (.single F) c.dropLast = .ok ((List.replicate c.dropLast.length .null).set 0 (.dict tr)) := by
    unfold buildCache memoize
    rw [slotAt_eq hc0]
    simp only [bind, Except.bind, Slot.isDeleted, f4]
    have : cacheAt (List.replicate c.dropLast.length Obj.null) 0 = .ok .null :=
      cacheAt_eq (by rw [List.getElem?_replicate, if_pos (by omega)])
    rw [this]
    have hm : mergeTrailers (.single F) (Slot.one E0).entries = .ok tr := by
      simp only [Slot.entries, mergeTrailers, List.foldlM_cons, List.foldlM_nil, h.trailer E0 nx f2 f3, bind, Except.bind,
        pure, Except.pure, update_nil tr h.nodup]
    simp only [Bool.false_eq_true, if_false, ne_eq, not_true_eq_false, if_true, hm]
    rfl
  generalize hdi : ({ cur := c.dropLast, past := [], cache := (List.replicate c.dropLast.length .null).set 0 (.dict tr), curData := { fdata := .single F, eofCut := some F.length }, pastData := [] } : Doc) = di
  have hinit : initialDoc (.single F) = .ok di := by
    unfold initialDoc
    simp only [Provider.size, bind, Except.bind, hsec, n1, b1, List.reverse_cons, List.reverse_nil, List.nil_append, c1]
    rw [List.mapM_cons, hd, List.mapM_nil]
    simp only [List.map_cons, List.map_nil, bind, Except.bind, pure, Except.pure, hcache, hdi]
  have hcell : ∀ e ∈ objs, ∃ e' nx, c.dropLast[e.num.toNat]? = some (.one e') ∧ e'.envNum = e.envNum ∧ e'.deleted = false ∧
      e'.gen = e.gen ∧ e'.absNext = some nx ∧ ∀ p, e.absPos = some (.at p) → e'.absPos = some (.at p) := by
    intro e he
    obtain ⟨e', nx, k1, k⟩ := c2.cell e he
    refine ⟨e', nx, ?_, k⟩
    rw [hdrop _ ?_, k1]
    obtain ⟨n, gen, -, k2, ⟨p, -, rfl⟩ | ⟨env, rank, rfl, -⟩⟩ := h.kinds e he <;> simpa using k2
  have hhole : ∀ n : Nat, 1 ≤ n → (∀ e ∈ objs, e.num ≠ n) → c.dropLast[n]? = none ∨ c.dropLast[n]? = some .hole := by
    intro n h1 h2
    by_cases hn : n ≤ num
    · exact .inr (by rw [hdrop n hn, c2.hole n h1 hn h2])
    · exact .inl (List.getElem?_eq_none (by omega))
  have hempty : ∀ (o : Obj) (n : Nat), 1 ≤ n → n ≤ num → ((List.replicate c.dropLast.length Obj.null).set 0 o)[n]? = some .null := by
    intro o n h1 h2
    rw [getElem?_set_ne' _ _ (by omega), List.getElem?_replicate, if_pos (by omega)]
  unfold loads docConstructor
  rw [hinit]
  simp only [bind, Except.bind]
  unfold commit
  split
  · refine ⟨di, rfl, ?_⟩
    subst hdi
    exact ⟨rfl, hlen, by simp only [List.length_set, List.length_replicate, hlen],
      ⟨tr, getElem?_set_eq' _ _ (by rw [List.length_replicate]; omega), fun _ _ _ => rfl⟩, hempty _, ⟨E0, hc0, f4⟩, hcell, hhole⟩
  · have hfirst : firstXrefStreamNum di = .ok (some (num : Int)) := by
      unfold firstXrefStreamNum
      have : di.firstRev = c.dropLast := by subst hdi; rfl
      rw [this, slotAt_eq hc0]
      simp [bind, Except.bind, pure, Except.pure, f7]
    have hroot : cacheDict di.cache = .ok tr := by
      subst hdi
      unfold cacheDict
      rw [cacheAt_eq (getElem?_set_eq' _ _ (by rw [List.length_replicate]; omega))]
      rfl
    have hprep : ∃ p, prepareCommit di = .ok p ∧ p.cur = c.dropLast ∧
        p.cache = (List.replicate c.dropLast.length Obj.null).set 0
          (.dict (Dict.set (delDecodeParms tr) b!"/Size" (.int c.dropLast.length))) ∧ p.index0.deleted = false := by
      unfold prepareCommit
      rw [hroot, hfirst]
      have hn0 : (num : Int) ≠ 0 := by omega
      have hx : xrefStreamEntry di.cur (di.past.length + 1) (num : Int) = .ok (c.dropLast, num) := by
        subst hdi
        unfold xrefStreamEntry
        rw [if_neg (by omega), if_neg (by omega)]
        simp
      simp only [bind, Except.bind, Option.getD_some, if_neg hn0, hx, pure, Except.pure]
      refine ⟨_, rfl, rfl, ?_, rfl⟩
      subst hdi
      simp only [List.set_set]
    obtain ⟨p, p1, p2, p3, p4⟩ := hprep
    have hw : writeRevision di (changes di) p = .ok (p.cur, p.cache, di.curData) := by
      subst hdi
      rfl
    have hcd : cacheDict p.cache = .ok (Dict.set (delDecodeParms tr) b!"/Size" (.int c.dropLast.length)) := by
      unfold cacheDict
      rw [p3, cacheAt_eq (getElem?_set_eq' _ _ (by rw [List.length_replicate]; omega))]
      rfl
    have hnt : nextTrailer p.cur (Dict.set (delDecodeParms tr) b!"/Size" (.int c.dropLast.length)) =
        .ok (Dict.del (Dict.set (Dict.set (delDecodeParms tr) b!"/Size" (.int c.dropLast.length)) b!"/Prev" (prevPos E0)) b!"/XRefStm") := by
      unfold nextTrailer prevEntry
      rw [p2, slotAt_eq hc0]
      rfl
    simp only [p1, hw, hcd, hnt, bind, Except.bind]
    refine ⟨_, rfl, ?_⟩
    have hcur : ∀ n : Nat, 1 ≤ n → (Slot.one p.index0 :: List.drop 1 p.cur)[n]? = c.dropLast[n]? := by
      intro n hn
      obtain ⟨k, rfl⟩ : ∃ k, n = k + 1 := ⟨n - 1, by omega⟩
      rw [List.getElem?_cons_succ, List.getElem?_drop, Nat.add_comm, p2]
    refine ⟨by subst hdi; rfl, ?_, ?_, ?_, ?_, ⟨_, rfl, p4⟩, ?_, ?_⟩
    · simp only [List.length_cons, List.length_drop, p2, hlen]; omega
    · simp only [p3, List.length_set, List.length_replicate, hlen]
    · refine ⟨_, getElem?_set_eq' _ _ (by rw [p3, List.length_set, List.length_replicate]; omega), ?_⟩
      intro k hk hd
      unfold MovingKey at hk
      rw [Dict.get?_del, if_neg (fun e => hk (.inr (.inr e))), Dict.get?_set,
        if_neg (fun e => hk (.inr (.inl e))), Dict.get?_set, if_neg (fun e => hk (.inl e)), delDecodeParms_get _ _ hd]
    · intro n h1 h2
      simp only [p3, List.set_set]
      exact hempty _ n h1 h2
    · intro e he
      obtain ⟨e', nx, k1, k⟩ := hcell e he
      refine ⟨e', nx, ?_, k⟩
      simp only
      rw [hcur _ ?_, k1]
      obtain ⟨n, gen, k2, -, ⟨p, -, rfl⟩ | ⟨env, rank, rfl, -⟩⟩ := h.kinds e he <;> simpa using k2
    · intro n h1 h2
      simp only
      rw [hcur n h1]
      exact hhole n h1 h2

/-! ### What the loaded document shows -/

/-- The object stream `env` of the file contains `members`, which are listed as such. -/
def HoldsAt [Zlib] (F : Bytes) (objs : List Entry) (env : Nat) (members : List Embedded) : Prop :=
  ∃ (ce : Entry) (p num gen : Nat) (stm : Obj), ce ∈ objs ∧ ce.num = env ∧ ce.envNum = none ∧ ce.absPos = some (.at p) ∧
    PointsAt F p num gen stm ∧ Storable stm ∧
    parseObjectStream (readBack stm) = .ok members ∧ (members.map (·.num)).Nodup ∧
    ∀ x ∈ members, ∃ e ∈ objs, x.num = .int e.num ∧ e.envNum = some env

theorem packed_entry [Zlib] {F : Bytes} {num : Nat} {tr : Dict} {objs : List Entry}
    {d : Doc} (hd : PackedDoc F num tr objs d) {n : Nat} (hn : 1 ≤ n) {e : Entry} (he : d.cur[n]? = some (.one e)) :
    ∃ le ∈ objs, le.num = n ∧ e.envNum = le.envNum ∧ e.deleted = false ∧ ∃ nx, e.absNext = some nx ∧
      ∀ p, le.absPos = some (.at p) → e.absPos = some (.at p) := by
  by_cases hex : ∃ le ∈ objs, le.num = n
  · obtain ⟨le, k1, k2⟩ := hex
    obtain ⟨e', nx, j1, j2, j3, j4, j5, j6⟩ := hd.cell le k1
    rw [k2, Int.toNat_natCast, he] at j1
    cases j1
    exact ⟨le, k1, k2, j2, j3, nx, j5, j6⟩
  · rcases hd.hole n hn (fun e he hh => hex ⟨e, he, hh⟩) with k | k <;> rw [k] at he <;> cases he

theorem packed_coherent [Zlib] {F : Bytes} {pos num : Nat} {tr : Dict} {objs : List Entry} (h : PackedFile F pos num tr objs)
    {d : Doc} (hd : PackedDoc F num tr objs d)
    (hemb : ∀ e ∈ objs, ∀ env, e.envNum = some env → ∃ members, HoldsAt F objs env members) : Coherent d := by
  have hk : ∀ e ∈ objs, ∃ n : Nat, e.num = n ∧ 1 ≤ n ∧ n ≤ num := by
    intro e he
    obtain ⟨n, gen, k1, k2, ⟨p, -, rfl⟩ | ⟨env, rank, rfl, -⟩⟩ := h.kinds e he <;> exact ⟨n, rfl, k1, k2⟩
  intro n e c hn he hdel henv _ ce stream objs' hce hparse hobjs
  obtain ⟨le, k1, k2, k3, -⟩ := packed_entry hd (by omega) he
  rw [henv] at k3
  obtain ⟨members, le2, p, num', gen, stm, m1, m2, m2', m3, m4, m5, m6, m7, m8⟩ := hemb le k1 c k3.symm
  obtain ⟨nc, c1, c2, c3⟩ := hk le2 m1
  have hcn : nc = c := by omega
  subst hcn
  obtain ⟨e', nx, j1, j2, j3, j4, j5, j6⟩ := hd.cell le2 m1
  rw [m2, Int.toNat_natCast, hce] at j1
  cases j1
  have hpi := parseIndirect_single (j6 _ m3) j5 m5 m4
  rw [hd.fdata, hpi] at hparse
  cases hparse
  rw [m6] at hobjs
  cases hobjs
  refine ⟨by omega, by rw [j2, m2'], j3, ⟨_, hd.empty _ c2 c3, .inl rfl⟩, m7, ?_⟩
  intro x hx
  obtain ⟨xe, x1, x2, x3⟩ := m8 x hx
  obtain ⟨k, y1, y2, y3⟩ := hk xe x1
  obtain ⟨e2, nx2, z1, z2, z3, -⟩ := hd.cell xe x1
  refine ⟨k, e2, .null, by rw [x2, y1], by omega, ?_, z3, by rw [z2, x3], hd.empty _ y2 y3, .inl rfl⟩
  rw [y1, Int.toNat_natCast] at z1
  exact z1

/-- An object of the file. -/
theorem packed_direct [Zlib] {F : Bytes} {pos num : Nat} {tr : Dict} {objs : List Entry} (h : PackedFile F pos num tr objs)
    {d : Doc} (hd : PackedDoc F num tr objs d) (hc : Coherent d) {n p num' gen : Nat} {le : Entry} {o : Obj} (h1 : le ∈ objs)
    (h2 : le.num = n) (h3 : le.envNum = none) (h4 : le.absPos = some (.at p)) (h5 : PointsAt F p num' gen o) (h6 : Storable o) (g : Int) :
    view d (.ref g n) = .ok (readBack o) := by
  obtain ⟨m, gen', k1, k2, k3⟩ := h.kinds le h1
  have hm : m = n := by rcases k3 with ⟨q, -, rfl⟩ | ⟨env, rank, rfl, -⟩ <;> (simp only at h2; omega)
  subst hm
  obtain ⟨e, nx, j1, j2, j3, j4, j5, j6⟩ := hd.cell le h1
  rw [h2, Int.toNat_natCast] at j1
  rw [view_spec hc, slotAt_eq j1, cacheAt_eq (hd.empty m k1 k2)]
  simp only [bind, Except.bind, Slot.isDeleted, j3, Bool.false_eq_true, if_false, pure, Except.pure, ne_eq, not_true_eq_false,
    fileValue, if_neg (show ¬ m = 0 by omega), Slot.entry, j2, h3]
  rw [hd.fdata]
  exact parseIndirect_single (j6 _ h4) j5 h6 h5

/-- An object of an object stream. -/
theorem packed_embedded [Zlib] {F : Bytes} {pos num : Nat} {tr : Dict} {objs : List Entry} (h : PackedFile F pos num tr objs)
    {d : Doc} (hd : PackedDoc F num tr objs d) (hc : Coherent d) {n env : Nat} {le : Entry} {members : List Embedded} (h1 : le ∈ objs)
    (h2 : le.num = n) (h3 : le.envNum = some env) (h4 : HoldsAt F objs env members) (g : Int) :
    view d (.ref g n) = .ok ((embObj members n).getD .null) := by
  obtain ⟨m, gen', k1, k2, k3⟩ := h.kinds le h1
  have hm : m = n := by rcases k3 with ⟨q, -, rfl⟩ | ⟨env, rank, rfl, -⟩ <;> (simp only at h2; omega)
  subst hm
  obtain ⟨e, nx, j1, j2, j3, j4, j5, j6⟩ := hd.cell le h1
  rw [h2, Int.toNat_natCast] at j1
  obtain ⟨le2, p, num', gen, stm, m1, m2, m2', m3, m4, m5, m6, m7, m8⟩ := h4
  obtain ⟨e2, nx2, z1, z2, z3, z4, z5, z6⟩ := hd.cell le2 m1
  rw [m2, Int.toNat_natCast] at z1
  have hpi := parseIndirect_single (z6 _ m3) z5 m5 m4
  rw [view_spec hc, slotAt_eq j1, cacheAt_eq (hd.empty m k1 k2)]
  simp only [bind, Except.bind, Slot.isDeleted, j3, Bool.false_eq_true, if_false, pure, Except.pure, ne_eq, not_true_eq_false,
    fileValue, if_neg (show ¬ m = 0 by omega), Slot.entry, j2, h3, entryAt_eq z1, hd.fdata, hpi, m6]

/-! ### Reading the stream -/

theorem parseXrefStreamRaw_norm {t : Dict} (hnd : (t.map Prod.fst).Nodup) {w ix : List Obj} (hw : Dict.get? t b!"/W" = some (.list w))
    (hw' : ∀ o ∈ w, ∃ k : Nat, o = .int k) (hi : Dict.get? t b!"/Index" = some (.list ix)) (hi' : ∀ o ∈ ix, ∃ k : Nat, o = .int k)
    (st : Bytes) : parseXrefStreamRaw (normEntries t).reverse st = parseXrefStreamRaw t st := by
  unfold parseXrefStreamRaw
  rw [get?_norm hnd, get?_norm hnd, hw, hi]
  simp only [Option.map_some, norm, normItems_int _ hw', normItems_int _ hi']

/-- The cross-reference stream of a file, where it was written. -/
theorem streamSec_of [Zlib] {F : Bytes} {pos num : Nat} {t : Dict} {content enc : Bytes} {table : List XSRow} {objs : List Entry}
    (hp : PointsAt F pos num 0 (.stream t content enc)) (hs : Storable (.stream t content enc))
    {w ix : List Obj} (hw : Dict.get? t b!"/W" = some (.list w)) (hw' : ∀ o ∈ w, ∃ k : Nat, o = .int k)
    (hi : Dict.get? t b!"/Index" = some (.list ix)) (hi' : ∀ o ∈ ix, ∃ k : Nat, o = .int k)
    (hraw : parseXrefStreamRaw t content = .ok table) (hent : streamEntries table = .ok objs) :
    pos < F.length ∧ slice F pos (pos + 4) ≠ b!"xref" ∧
    readStreamSection F pos pos = .ok
      ({ num := 0, absPos := some (.at pos), xrefStreamPos := some pos, xrefStreamNum := some num }, objs,
        .dict (normEntries t).reverse) ∧
    (∀ e next, e.absPos = some (.at pos) → e.absNext = some next → parseTrailer (.single F) e = .ok (normEntries t).reverse) ∧
    (((normEntries t).reverse).map Prod.fst).Nodup := by
  have hwf : WF false false (.dict t) = true := hs.1
  have hnd : (t.map Prod.fst).Nodup := by
    have := hwf
    simp only [WF, Bool.and_eq_true, decide_eq_true_eq] at this
    exact this.2
  obtain ⟨s, p1, rest, p2⟩ := hp
  have hlt : pos < F.length := by
    refine Classical.byContradiction fun hlt => ?_
    rw [List.drop_eq_nil_of_le (by omega)] at p2
    simp [indirect] at p2
  have hobj := parse_indirect hs p1 p2.symm
  have hd : F.drop pos = natDec num ++ 32 :: (b!"0 obj\n" ++ (s ++ (b!"\nendobj\n" ++ rest))) := by
    rw [← p2, show natDec num ++ 32 :: (b!"0 obj\n" ++ (s ++ (b!"\nendobj\n" ++ rest))) =
      natDec num ++ (b!" " ++ natDec 0 ++ b!" obj\n" ++ (s ++ (b!"\nendobj\n" ++ rest))) from rfl]
    simp only [indirect, List.append_assoc]
  obtain ⟨q1, q2⟩ := drop_split hd (by simp)
  have hnum : parseObj F pos = .ok (.int num) := by
    have := parse_ser (o := .int num) (inD := false) (inA := false) rfl (by simp) 0 (F.take pos)
      (32 :: (b!"0 obj\n" ++ (s ++ (b!"\nendobj\n" ++ rest)))) (.inl ⟨32, _, rfl, by decide⟩) (by simp)
    rw [q2] at this
    rw [show F.take pos ++ (ser 0 (.int num) ++ 32 :: (b!"0 obj\n" ++ (s ++ (b!"\nendobj\n" ++ rest)))) = F from q1.symm] at this
    exact this
  have htok : nextToken F pos = (pos, pos + (natDec num).length, some .integer) :=
    nextToken_at (ws := []) (tokAt_nat num (c := 32) (by decide) _) (by simp) (by simpa using hd)
  refine ⟨hlt, ?_, ?_, ?_, ?_⟩
  · intro hx
    obtain ⟨a, l, hal⟩ : ∃ a l, natDec num = a :: l := by
      cases hn : natDec num with
      | nil => exact absurd hn (natDec_ne_nil num)
      | cons a l => exact ⟨a, l, rfl⟩
    have hdig := List.all_eq_true.1 (natDec_all num) a (by rw [hal]; simp)
    have : slice F pos (pos + 4) = (F.drop pos).take 4 := by
      unfold slice
      rw [List.drop_take]
      congr 1
      omega
    rw [this, hd, hal] at hx
    simp only [List.cons_append, List.take_succ_cons] at hx
    have := (List.cons.inj hx).1
    rw [this] at hdig
    revert hdig
    decide
  · unfold readStreamSection
    rw [htok]
    simp only [hnum, bind, Except.bind]
    have h3 : (nthToken F 3 pos).1 = (nextToken F (nextToken F (nextToken F (pos + (natDec num).length)).2.1).2.1).1 := by
      simp only [nthToken, htok]
    rw [h3] at hobj
    rw [hobj]
    simp only [readBack, parseXrefStream, parseXrefStreamRaw_norm hnd hw hw' hi hi', hraw, hent, bind, Except.bind, pure, Except.pure]
  · intro e next h1 h2
    unfold parseTrailer
    rw [readEntry_single h1 h2 hlt]
    have h0 : nthToken F 0 pos = (pos, pos + (natDec num).length) := by simp [nthToken, htok]
    simp only [bind, Except.bind, h0]
    have hne : slice F pos (pos + (natDec num).length) ≠ b!"trailer" := by
      intro hx
      rw [slice_of_drop hd] at hx
      have := List.all_eq_true.1 (natDec_all num) 116 (by rw [hx]; decide)
      revert this
      decide
    rw [if_neg hne]
    have h3 : (nthToken F 2 (pos + (natDec num).length)).1 = (nthToken F 3 pos).1 := by
      conv => rhs; unfold nthToken
      rw [htok]
    rw [h3, hobj]
    rfl
  · rw [List.map_reverse, normEntries_keys]
    exact (List.reverse_perm _).nodup_iff.2 hnd

theorem packedFile_of [Zlib] {F : Bytes} {pos num : Nat} {t : Dict} {content enc : Bytes} {table : List XSRow} {objs : List Entry}
    (hstart : 0 < pos) (hp : PointsAt F pos num 0 (.stream t content enc)) (hs : Storable (.stream t content enc))
    {w ix : List Obj} (hw : Dict.get? t b!"/W" = some (.list w)) (hw' : ∀ o ∈ w, ∃ k : Nat, o = .int k)
    (hi : Dict.get? t b!"/Index" = some (.list ix)) (hi' : ∀ o ∈ ix, ∃ k : Nat, o = .int k)
    (hraw : parseXrefStreamRaw t content = .ok table) (hent : streamEntries table = .ok objs)
    (hprev : Dict.get? t b!"/Prev" = none) (hstm : Dict.get? t b!"/XRefStm" = none)
    (hkinds : ∀ e ∈ objs, PackedEntry F.length num objs e) (hself : ∃ e ∈ objs, e.num = num ∧ e.envNum = none)
    (hdist : (objs.map (·.num)).Nodup) : PackedFile F pos num (normEntries t).reverse objs := by
  have hnd : (t.map Prod.fst).Nodup := by
    have : WF false false (.dict t) = true := hs.1
    simp only [WF, Bool.and_eq_true, decide_eq_true_eq] at this
    exact this.2
  obtain ⟨k1, k2, k3, k4, k5⟩ := streamSec_of hp hs hw hw' hi hi' hraw hent
  refine ⟨hstart, k1, k2, k3, k4, k5, ?_, ?_, hkinds, hself, hdist⟩
  · rw [get?_norm hnd, hprev]; rfl
  · rw [get?_norm hnd, hstm]; rfl

end Pdf
