/-
Loading a file made of classic cross-reference sections.
-/
import Verif.Props.C26_Rewind
import Verif.Props.C62_Pending

namespace Pdf
open Spec

/-- Two lists in relation, element by element. -/
inductive All₂ {α β : Type} (R : α → β → Prop) : List α → List β → Prop
  | nil : All₂ R [] []
  | cons {a b l m} : R a b → All₂ R l m → All₂ R (a :: l) (b :: m)

/-- A classic section of a file: where its table and its trailer are, the entries in use, the trailer. -/
structure Sec where
  pos : Nat
  tp : Nat
  objs : List Entry
  tr : Dict

/-- An entry in use, as it is read from a table. -/
def GoodEntry (lim : Nat) (e : Entry) : Prop :=
  ∃ n p gen : Nat, 1 ≤ n ∧ p < lim ∧ e = { num := n, gen := gen, absPos := some (.at (p : Nat)) }

/-- The section `s` is in the file `F`, whatever follows. -/
structure SecAt [Zlib] (F : Bytes) (s : Sec) : Prop where
  pos : 0 < s.pos
  tp : s.pos < s.tp
  room : s.tp < F.length
  objs : ∀ e ∈ s.objs, GoodEntry s.pos e
  xref : ∀ rest, slice (F ++ rest) s.pos (s.pos + 4) = b!"xref"
  table : ∀ rest, readTableSection (F ++ rest) s.pos =
    .ok ({ num := 0, absPos := some (.at s.tp), xrefTablePos := some s.pos }, s.objs, .dict s.tr)
  trailer : ∀ rest e next, e.absPos = some (.at s.tp) → e.absNext = some next →
    parseTrailer (.single (F ++ rest)) e = .ok s.tr
  nodup : (s.tr.map Prod.fst).Nodup
  eof : ∃ q, q < F.length ∧ ∀ rest, find (F ++ rest) b!"%%EOF" s.pos = some q

theorem SecAt.append [Zlib] {F : Bytes} {s : Sec} (h : SecAt F s) (more : Bytes) : SecAt (F ++ more) s := by
  obtain ⟨q, q1, q2⟩ := h.eof
  refine ⟨h.pos, h.tp, by have := h.room; simp; omega, h.objs, ?_, ?_, ?_, h.nodup, q, by simp; omega, ?_⟩
  · intro rest; rw [List.append_assoc]; exact h.xref _
  · intro rest; rw [List.append_assoc]; exact h.table _
  · intro rest; rw [List.append_assoc]; exact h.trailer _
  · intro rest; rw [List.append_assoc]; exact q2 _

/-- The sections of a file, newest first, each trailer leading to the previous one. -/
def XrefChain [Zlib] (F : Bytes) : List Sec → Prop
  | [] => True
  | s :: l => SecAt F s ∧ Dict.get? s.tr b!"/XRefStm" = none ∧
      Dict.get? s.tr b!"/Prev" = l.head?.map (fun s' => .int s'.pos) ∧
      (∀ s' ∈ l.head?, s'.tp < s.tp ∧ s'.pos < s.pos) ∧ XrefChain F l

theorem XrefChain.append [Zlib] {F : Bytes} (more : Bytes) : ∀ {l : List Sec}, XrefChain F l → XrefChain (F ++ more) l
  | [], _ => trivial
  | _ :: _, ⟨h1, h2, h3, h4, h5⟩ => ⟨h1.append more, h2, h3, h4, XrefChain.append more h5⟩

theorem XrefChain.mem [Zlib] {F : Bytes} : ∀ {l : List Sec}, XrefChain F l → ∀ s ∈ l, SecAt F s
  | _ :: _, ⟨h1, _, _, _, h5⟩, s, hs => by
    rcases List.mem_cons.1 hs with rfl | hs
    · exact h1
    · exact XrefChain.mem h5 s hs

/-- What the chain makes of a section. -/
structure IsSec (F : Bytes) (s : Sec) (x : Section) : Prop where
  trailer : ∃ y, x.trailer = { num := 0, absPos := some (.at s.tp), xrefTablePos := some s.pos, startxrefPos := some y }
  objs : x.objs = s.objs
  eof0 : 0 ≤ x.eofPos
  eof1 : x.eofPos < F.length

theorem single_read_at {B : Bytes} {p l : Int} (h0 : 0 ≤ p) (h1 : p < B.length) :
    (Provider.single B).read p l = .ok (B, p, 0, if l = -1 then B.length - p else min (B.length - p) l) := by
  unfold Provider.read
  rw [if_neg (by omega)]
  have : (p + (B.length : Int)) % (B.length : Int) = p := by
    rw [Int.add_emod_right, Int.emod_eq_of_lt h0 h1]
  simp only [this]

theorem readSection_at [Zlib] {F : Bytes} {s : Sec} (h : SecAt F s) (x ep last : Int) :
    readSection (.single F) s.pos x ep last = .ok
      (⟨{ num := 0, absPos := some (.at s.tp), xrefTablePos := some s.pos, startxrefPos := some x }, s.objs, ep⟩, s.tr, F) := by
  have h1 := h.tp
  have h2 := h.room
  unfold readSection
  rw [single_read_at (by omega) (by omega)]
  have hx := h.xref []
  have ht := h.table []
  rw [List.append_nil] at hx ht
  have hn : natPos (s.pos : Int) = .ok s.pos := by simp [natPos]
  simp only [bind, Except.bind, hn]
  rw [if_pos hx, ht]

theorem chainLoop_at [Zlib] {F : Bytes} : ∀ (l : List Sec), XrefChain F l → ∀ fuel, l.length < fuel →
    ∃ xs, chainLoop (.single F) fuel F ((l.head?.map fun s => (s.pos : Int)).getD 0) 0 = .ok xs ∧
      All₂ (IsSec F) l xs := by
  intro l
  induction l with
  | nil =>
    intro _ fuel hf
    obtain ⟨k, rfl⟩ : ∃ k, fuel = k + 1 := ⟨fuel - 1, by simp at hf; omega⟩
    exact ⟨[], by simp [chainLoop], .nil⟩
  | cons s l ih =>
    rintro ⟨h1, h2, h3, h4, h5⟩ fuel hf
    obtain ⟨k, rfl⟩ : ∃ k, fuel = k + 1 := ⟨fuel - 1, by simp at hf; omega⟩
    obtain ⟨xs, e1, e2⟩ := ih h5 k (by simpa using hf)
    have hp := h1.pos
    obtain ⟨q, q1, q2⟩ := h1.eof
    have q2 := q2 []
    rw [List.append_nil] at q2
    unfold chainLoop
    simp only [List.head?_cons, Option.map_some, Option.getD_some]
    rw [if_neg (by omega)]
    unfold chainTurn
    have hn : natPos (s.pos : Int) = .ok s.pos := by simp [natPos]
    simp only [ne_eq, not_true_eq_false, if_false, bind, Except.bind, hn, readSection_at h1, q2, posOf]
    have hnext : nextSections s.tr 0 0 = .ok (false, (l.head?.map fun s => (s.pos : Int)).getD 0, 0) := by
      unfold nextSections
      simp only [and_self, if_true, h2, bind, Except.bind, h3]
      cases l with
      | nil => rfl
      | cons s' l => rfl
    simp only [hnext, e1]
    exact ⟨_, rfl, .cons ⟨⟨_, rfl⟩, rfl, by simp, by simpa using q1⟩ e2⟩


theorem XrefChain.length [Zlib] {F : Bytes} : ∀ {s : Sec} {l : List Sec}, XrefChain F (s :: l) → l.length ≤ s.pos := by
  intro s l
  induction l generalizing s with
  | nil => intro _; simp
  | cons s' l ih =>
    rintro ⟨h1, h2, h3, h4, h5⟩
    have := ih h5
    have := (h4 s' (by simp)).2
    simp only [List.length_cons]
    omega

theorem natDecAux_length : ∀ (fuel n k : Nat), n < 10 ^ k → 1 ≤ k → (natDecAux fuel n).length ≤ k := by
  intro fuel
  induction fuel with
  | zero => intro n k _ _; simp [natDecAux]
  | succ fuel ih =>
    intro n k h hk
    unfold natDecAux
    split
    · simpa using hk
    · rename_i h10
      obtain ⟨j, rfl⟩ : ∃ j, k = j + 1 := ⟨k - 1, by omega⟩
      have hj : 1 ≤ j := by
        rcases Nat.eq_zero_or_pos j with rfl | hj
        · simp at h; omega
        · exact hj
      have := ih (n / 10) j (by rw [Nat.pow_succ] at h; omega) hj
      simp only [List.length_append, List.length_cons, List.length_nil]
      omega

theorem rfind_last {text p b X : Bytes} {x : UInt8} {q : Bytes} {a : Nat} (hp : p = x :: q)
    (h : ¬ p <:+: q ++ b) (hd : text.drop a = X ++ (p ++ b)) : rfind text p a = some (a + X.length) := by
  unfold rfind
  rw [hd]
  exact rfindAux_last hp b h X a

theorem xrefSections_at [Zlib] {F : Bytes} {s : Sec} {l : List Sec} (h : XrefChain F (s :: l))
    (hend : fileEnd s.pos <:+ F) (hlen : 100 ≤ F.length) (hmax : F.length < 10 ^ 80) :
    ∃ x xs, xrefSections (.single F) F.length = .ok (x :: xs) ∧ IsSec F s x ∧ x.eofPos = (F.length - 6 : Nat) ∧
      All₂ (IsSec F) l xs := by
  have hcl := h.length
  obtain ⟨h1, h2, h3, h4, h5⟩ := h
  obtain ⟨A, hA⟩ := hend
  have hFl : F.length = A.length + (fileEnd s.pos).length := by rw [← hA]; simp
  have hel : (fileEnd s.pos).length = (natDec s.pos).length + 17 := by simp [fileEnd]
  have hpos1 := h1.tp
  have hpos2 := h1.room
  have hbig : (natDec s.pos).length ≤ 80 := natDecAux_length _ _ _ (by omega) (by omega)
  have hne := natDec_ne_nil s.pos
  unfold xrefSections
  have hread : (Provider.single F).read (-100) (-1) = .ok (F, (F.length - 100 : Nat), 0, 100) := by
    unfold Provider.read
    rw [if_neg (by omega)]
    have : (-100 + (F.length : Int)) % (F.length : Int) = (F.length - 100 : Nat) := by
      rw [Int.emod_eq_of_lt (by omega) (by omega)]
      omega
    simp only [this, if_true]
    congr 4
    omega
  have hn : natPos ((F.length - 100 : Nat) : Int) = .ok (F.length - 100) := by simp [natPos]
  simp only [hread, bind, Except.bind, hn]
  have hdA : F.drop A.length = fileEnd s.pos := by rw [← hA]; simp
  have hd : F.drop (F.length - 100) = A.drop (F.length - 100) ++ fileEnd s.pos := by
    rw [← hA, List.drop_append_of_le_length (by rw [hA]; omega)]
  have hr1 : rfind F b!"%%EOF" (F.length - 100) = some (F.length - 6) := by
    rw [rfind_last (x := 37) (q := b!"%EOF") (b := b!"\n") (X := A.drop (F.length - 100) ++ b!"startxref\n" ++ natDec s.pos ++ b!"\n")
      rfl (by decide) (by rw [hd]; simp [fileEnd])]
    simp only [List.length_append, List.length_drop, List.length_cons, List.length_nil, Option.some.injEq]
    omega
  have hr2 : rfind F b!"startxref" (F.length - 100) = some A.length := by
    rw [rfind_last (x := 115) (q := b!"tartxref") (b := b!"\n" ++ natDec s.pos ++ b!"\n%%EOF\n") (X := A.drop (F.length - 100))
      rfl ?_ (by rw [hd]; simp [fileEnd])]
    · simp only [List.length_drop, Option.some.injEq]
      omega
    · intro hh
      have : (115 : UInt8) ∈ b!"tartxref" ++ (b!"\n" ++ natDec s.pos ++ b!"\n%%EOF\n") := hh.subset (by simp)
      have hdig := natDec_all s.pos
      simp only [List.mem_append] at this
      rcases this with h | (h | h) | h
      · revert h; decide
      · revert h; decide
      · have := List.all_eq_true.1 hdig _ h
        revert this; decide
      · revert h; decide
  rw [hr1, hr2]
  simp only [posOf]
  have hd9 : F.drop (A.length + 9) = [10] ++ (natDec s.pos ++ 10 :: b!"%%EOF\n") := by
    have := drop_add_of (text := F) (i := A.length) (a := b!"startxref") (b := b!"\n" ++ natDec s.pos ++ b!"\n%%EOF\n")
      (by rw [hdA]; simp [fileEnd])
    rw [show A.length + 9 = A.length + (b!"startxref").length from rfl, this]
    simp
  have htok := nextToken_at (tokAt_nat s.pos (c := 10) (by decide) b!"%%EOF\n") (by decide) hd9
  have hsl := slice_of_drop (drop_add_of hd9)
  rw [show ((A.length : Int) + 9).toNat = A.length + 9 by omega, htok]
  simp only [hsl, pyInt_natDec, orRaise, readSection_at h1]
  have hnext : nextSections s.tr 0 0 = .ok (false, (l.head?.map fun s => (s.pos : Int)).getD 0, 0) := by
    unfold nextSections
    simp only [and_self, if_true, h2, bind, Except.bind, h3]
    cases l with
    | nil => rfl
    | cons s' l => rfl
  obtain ⟨xs, e1, e2⟩ := chainLoop_at l h5 (4 * F.length + 4) (by omega)
  rw [hnext]
  simp only [e1]
  exact ⟨_, _, rfl, ⟨⟨_, rfl⟩, rfl, by simp, by simp; omega⟩, rfl, e2⟩

/-! ### Positions -/

theorem mem_insertInt {x y : Int} : ∀ {l : List Int}, y ∈ insertInt x l ↔ y = x ∨ y ∈ l
  | [] => by simp [insertInt]
  | z :: l => by
    unfold insertInt
    split
    · simp
    · rw [List.mem_cons, mem_insertInt, List.mem_cons]
      grind

theorem mem_sortInts {y : Int} : ∀ {l : List Int}, y ∈ sortInts l ↔ y ∈ l
  | [] => by simp [sortInts]
  | x :: l => by rw [sortInts, mem_insertInt, mem_sortInts, List.mem_cons]

theorem insertInt_sorted {x : Int} : ∀ {l : List Int}, l.Pairwise (· ≤ ·) → (insertInt x l).Pairwise (· ≤ ·)
  | [], _ => by simp [insertInt]
  | z :: l, h => by
    have h' := List.pairwise_cons.1 h
    unfold insertInt
    split
    · rename_i hx
      refine List.pairwise_cons.2 ⟨?_, h⟩
      intro y hy
      rcases List.mem_cons.1 hy with rfl | hy
      · exact hx
      · have := h'.1 y hy
        omega
    · rename_i hx
      refine List.pairwise_cons.2 ⟨?_, insertInt_sorted h'.2⟩
      intro y hy
      rcases mem_insertInt.1 hy with rfl | hy
      · omega
      · exact h'.1 y hy

theorem sortInts_sorted : ∀ (l : List Int), (sortInts l).Pairwise (· ≤ ·)
  | [] => by simp [sortInts]
  | x :: l => by rw [sortInts]; exact insertInt_sorted (sortInts_sorted l)

theorem nxtOf_some {p z : Int} : ∀ {l : List Int}, l.Pairwise (· ≤ ·) → p ∈ l → l.getLast? = some z → p < z →
    (nxtOf l p).isSome = true
  | [], _, hm, _, _ => by cases hm
  | [a], _, hm, hl, hz => by
    simp only [List.mem_singleton] at hm
    simp only [List.getLast?_singleton, Option.some.injEq] at hl
    omega
  | a :: b :: l, hs, hm, hl, hz => by
    have hs' := List.pairwise_cons.1 hs
    unfold nxtOf
    split
    · rfl
    · rename_i hc
      refine nxtOf_some hs'.2 ?_ (by rw [List.getLast?_cons_cons] at hl; exact hl) hz
      rcases List.mem_cons.1 hm with rfl | hm
      · have := hs'.1 b (by simp)
        have : b = p := by omega
        simp [this]
      · exact hm

/-- What the rest of the loading needs of a section. -/
structure Ready (nxt : List Int) (nb : Int) (x : Section) : Prop where
  trailer : ∃ (p : Nat) (y : Int) (z : Nat), x.trailer = { num := 0, absPos := some (.at p), xrefTablePos := some z, startxrefPos := some y } ∧
    0 < p ∧ (nxtOf nxt p).isSome = true
  objs : ∀ e ∈ x.objs, ∃ n p gen : Nat, 1 ≤ n ∧ (n : Int) ≤ nb ∧ (nxtOf nxt p).isSome = true ∧
    e = { num := n, gen := gen, absPos := some (.at (p : Nat)) }
  eof0 : 0 ≤ x.eofPos
  eof1 : (nxtOf nxt x.eofPos).isSome = true

theorem mapM_pure' {α β : Type} {f : α → Py β} (g : α → β) : ∀ {l : List α}, (∀ x ∈ l, f x = .ok (g x)) →
    l.mapM f = .ok (l.map g)
  | [], _ => rfl
  | a :: l, h => by
    rw [List.mapM_cons, h a (by simp), mapM_pure' g (fun x hx => h x (by simp [hx]))]
    rfl

/-- The pairs of a section. -/
def seqPairs (s : Sec) (x : Section) : List (Int × Int) :=
  ((s.tp : Int), 0) :: x.objs.map (fun e => ((directPos e).toOption.getD 0, e.num)) ++ [(x.eofPos, -1)]

theorem seqOf_at [Zlib] {F : Bytes} {s : Sec} {x : Section} (hs : SecAt F s) (hx : IsSec F s x) :
    seqOf x = .ok (seqPairs s x) := by
  obtain ⟨y, hy⟩ := hx.trailer
  have hobj : ∀ e ∈ x.objs, GoodEntry s.pos e := by rw [hx.objs]; exact hs.objs
  unfold seqOf
  have ht : directPos x.trailer = .ok (s.tp : Int) := by rw [hy]; rfl
  have hf : x.objs.filter (fun e => e.envNum.isNone) = x.objs := by
    rw [List.filter_eq_self]
    intro e he
    obtain ⟨n, p, g, -, -, rfl⟩ := hobj e he
    rfl
  rw [ht, hf, mapM_pure' (fun e => ((directPos e).toOption.getD 0, e.num))]
  · rfl
  · intro e he
    obtain ⟨n, p, g, -, -, rfl⟩ := hobj e he
    rfl

theorem All₂.right {α β : Type} {R : α → β → Prop} : ∀ {l : List α} {m : List β}, All₂ R l m → ∀ b ∈ m, ∃ a ∈ l, R a b := by
  intro l m h
  induction h with
  | nil => intro b hb; cases hb
  | cons h _ ih =>
    intro b hb
    rcases List.mem_cons.1 hb with rfl | hb
    · exact ⟨_, by simp, h⟩
    · obtain ⟨a, ha, hr⟩ := ih b hb
      exact ⟨a, by simp [ha], hr⟩

theorem seqPairs_lt [Zlib] {F : Bytes} {s : Sec} {x : Section} (hs : SecAt F s) (hx : IsSec F s x) :
    ∀ q ∈ seqPairs s x, q.1 < F.length := by
  have h1 := hs.tp
  have h2 := hs.room
  intro q hq
  unfold seqPairs at hq
  rcases List.mem_append.1 hq with hq | hq
  · rcases List.mem_cons.1 hq with rfl | hq
    · simp only; omega
    · obtain ⟨e, he, rfl⟩ := List.mem_map.1 hq
      rw [hx.objs] at he
      obtain ⟨n, p, g, -, hp, rfl⟩ := hs.objs e he
      simp only [directPos, Except.toOption, Option.getD_some]
      omega
  · simp only [List.mem_singleton] at hq
    subst hq
    exact hx.eof1

theorem seqs_at [Zlib] {F : Bytes} {l : List Sec} {xs : List Section} (hx : All₂ (IsSec F) l xs) :
    (∀ s ∈ l, SecAt F s) → ∃ seqs, xs.mapM seqOf = .ok seqs ∧
      (∀ x ∈ xs, ∃ s, SecAt F s ∧ IsSec F s x ∧ ∀ q ∈ seqPairs s x, q ∈ seqs.flatten) ∧
      ∀ q ∈ seqs.flatten, q.1 < F.length := by
  induction hx with
  | nil => intro _; exact ⟨[], rfl, by simp, by simp⟩
  | @cons s x l m h _ ih =>
    intro hl
    have hs := hl s (by simp)
    obtain ⟨seqs, e1, e2, e3⟩ := ih (fun s hs => hl s (by simp [hs]))
    refine ⟨seqPairs s x :: seqs, ?_, ?_, ?_⟩
    · rw [List.mapM_cons, seqOf_at hs h, e1]
      rfl
    · intro x' hx'
      rcases List.mem_cons.1 hx' with rfl | hx'
      · exact ⟨s, hs, h, fun q hq => by simp [hq]⟩
      · obtain ⟨s', k1, k2, k3⟩ := e2 x' hx'
        exact ⟨s', k1, k2, fun q hq => by rw [List.flatten_cons, List.mem_append]; exact .inr (k3 q hq)⟩
    · intro q hq
      rw [List.flatten_cons, List.mem_append] at hq
      rcases hq with hq | hq
      · exact seqPairs_lt hs h q hq
      · exact e3 q hq

theorem nextMap_at [Zlib] {F : Bytes} {l : List Sec} {xs : List Section} (hl : ∀ s ∈ l, SecAt F s)
    (hx : All₂ (IsSec F) l xs) :
    ∃ nxt nb, nextMap (.single F) xs = .ok (nxt, nb) ∧ ∀ x ∈ xs, Ready nxt nb x := by
  obtain ⟨seqs, h1, h2, h3⟩ := seqs_at hx hl
  refine ⟨_, _, by unfold nextMap; rw [h1]; rfl, ?_⟩
  intro x hx
  obtain ⟨s, k1, k2, k3⟩ := h2 x hx
  have hsome : ∀ q ∈ seqPairs s x, (nxtOf (sortInts (seqs.flatten.map Prod.fst) ++ [(F.length : Int)]) q.1).isSome = true := by
    intro q hq
    refine nxtOf_some (z := F.length) ?_ ?_ (by simp) (h3 q (k3 q hq))
    · rw [List.pairwise_append]
      refine ⟨sortInts_sorted _, by simp, ?_⟩
      intro a ha b hb
      simp only [List.mem_singleton] at hb
      subst hb
      obtain ⟨q', hq', rfl⟩ := List.mem_map.1 (mem_sortInts.1 ha)
      have := h3 q' hq'
      omega
    · rw [List.mem_append]
      exact .inl (mem_sortInts.2 (List.mem_map.2 ⟨q, k3 q hq, rfl⟩))
  have hnum : ∀ q ∈ seqPairs s x, q.2 ≤ (seqs.flatten.map Prod.snd).foldl max (-1) := by
    intro q hq
    exact (le_foldl_max _ _).2 _ (List.mem_map.2 ⟨q, k3 q hq, rfl⟩)
  obtain ⟨y, hy⟩ := k2.trailer
  have h4 := k1.tp
  refine ⟨⟨s.tp, y, s.pos, hy, by omega, hsome ((s.tp : Int), 0) (by simp [seqPairs])⟩, ?_, k2.eof0,
    hsome (x.eofPos, -1) (by simp [seqPairs])⟩
  intro e he
  obtain ⟨n, p, g, hn, hp, rfl⟩ := k1.objs e (by rw [← k2.objs]; exact he)
  have hmem : ((p : Int), (n : Int)) ∈ seqPairs s x := by
    unfold seqPairs
    refine List.mem_append.2 (.inl (List.mem_cons_of_mem _ ?_))
    exact List.mem_map.2 ⟨_, he, rfl⟩
  exact ⟨n, p, g, hn, hnum _ hmem, hsome _ hmem, rfl⟩

/-! ### Columns -/

/-- A cell that can be completed. -/
def PlainCell (nxt : List Int) : Slot → Prop
  | .hole => True
  | .one e => e.envNum = none ∧ e.deleted = false ∧ e.xrefStreamNum = none ∧
      ∃ p : Int, 0 ≤ p ∧ e.absPos = some (.at p) ∧ (nxtOf nxt p).isSome = true
  | .many _ => False

def PlainRev (nxt : List Int) (m : Rev) : Prop := ∀ (i : Nat) (sl : Slot), m[i]? = some sl → PlainCell nxt sl

theorem plainRev_set {nxt : List Int} {m : Rev} (h : PlainRev nxt m) (i : Nat) {sl : Slot} (hs : PlainCell nxt sl) :
    PlainRev nxt (m.set i sl) := by
  intro j x hx
  rw [List.getElem?_set] at hx
  split at hx
  · split at hx
    · cases hx; exact hs
    · cases hx
  · exact h j x hx

theorem placeEntry_ok {nxt : List Int} {v i : Nat} {m : Rev} {e : Entry} (h : PlainRev nxt m) (hi : i < m.length)
    (he : PlainCell nxt (.one e)) : ∃ m', placeEntry v m i e = .ok m' ∧ PlainRev nxt m' := by
  have h0 : m[i]? = some m[i] := List.getElem?_eq_getElem hi
  have hp := h i _ h0
  unfold placeEntry
  rw [slotAt_eq h0]
  simp only [bind, Except.bind]
  cases hs : m[i] with
  | hole => exact ⟨_, rfl, plainRev_set h i he⟩
  | one old =>
    simp only
    split
    · exact ⟨_, rfl, h⟩
    · exact ⟨_, rfl, plainRev_set h i he⟩
  | many es => rw [hs] at hp; exact absurd hp id

theorem placeAll_ok {nxt : List Int} {v : Nat} : ∀ (es : List Entry) {m : Rev}, PlainRev nxt m → 0 < m.length →
    (∀ e ∈ es, PlainCell nxt (.one e) ∧ e.num < m.length) → ∃ m', placeAll v m es = .ok m' ∧ PlainRev nxt m' := by
  intro es
  induction es with
  | nil => intro m h _ _; exact ⟨m, rfl, h⟩
  | cons e es ih =>
    intro m h hm hes
    obtain ⟨h1, h2⟩ := hes e (by simp)
    obtain ⟨m1, e1, e2⟩ := placeEntry_ok (v := v) (i := if e.num < 0 then m.length - 1 else e.num.toNat) h (by split <;> omega) h1
    have hl := (placeEntry_get e1).1
    obtain ⟨m2, e3, e4⟩ := ih e2 (by omega) (fun e he => by rw [hl]; exact hes e (by simp [he]))
    refine ⟨m2, ?_, e4⟩
    unfold placeAll
    rw [e1]
    exact e3

/-- A column: its cells, its trailer, its end marker. -/
structure Column (nxt : List Int) (nb : Int) (m : Rev) : Prop where
  plain : PlainRev nxt m
  len : m.length = (nb + 2).toNat
  head : ∃ e, m[0]? = some (.one e)
  last : ∃ e, m.getLast? = some (.one e)

theorem column_place {nxt : List Int} {nb : Int} {x : Section} {m : Rev} (hx : Ready nxt nb x) (h : PlainRev nxt m)
    (hl : m.length = (nb + 2).toNat) (hnb : 0 ≤ nb) (v w : Nat) :
    ∃ m', placeAll v (m.set 0 (.one { x.trailer with ver := w, docVer := w })) (x.objs ++ [eofEntry x]) = .ok m' ∧
      Column nxt nb m' ∧ (∃ e, m'[0]? = some (.one e) ∧ e.absPos = x.trailer.absPos ∧ e.xrefTablePos = x.trailer.xrefTablePos) ∧
      (∃ e, m'.getLast? = some (.one e) ∧ e.absPos = some (.at x.eofPos)) := by
  obtain ⟨p, y, z, ht, hp, hn⟩ := hx.trailer
  have hplain : PlainCell nxt (.one { x.trailer with ver := w, docVer := w }) := by
    rw [ht]
    exact ⟨rfl, rfl, rfl, p, by omega, rfl, hn⟩
  have hm : PlainRev nxt (m.set 0 (.one { x.trailer with ver := w, docVer := w })) := plainRev_set h 0 hplain
  obtain ⟨m', e1, e2⟩ := placeAll_ok (v := v) (x.objs ++ [eofEntry x]) hm (by simp; omega) (by
    intro e he
    rcases List.mem_append.1 he with he | he
    · obtain ⟨n, p, g, h1, h2, h3, rfl⟩ := hx.objs e he
      refine ⟨⟨rfl, rfl, rfl, p, by omega, rfl, h3⟩, ?_⟩
      simp; omega
    · simp only [List.mem_singleton] at he
      subst he
      refine ⟨⟨rfl, rfl, rfl, x.eofPos, hx.eof0, rfl, hx.eof1⟩, ?_⟩
      simp [eofEntry]; omega)
  obtain ⟨g1, g2⟩ := placeAll_get _ e1
  simp only [List.length_set] at g1 g2
  have g0 := g2 0 (by omega)
  have hno : lastFor 0 (x.objs ++ [eofEntry x]) = none := by
    unfold lastFor
    rw [List.getLast?_eq_none_iff, List.filter_eq_nil_iff]
    intro e he
    rcases List.mem_append.1 he with he | he
    · obtain ⟨n, p, g, h1, h2, h3, rfl⟩ := hx.objs e he
      simp; omega
    · simp only [List.mem_singleton] at he
      subst he
      simp [eofEntry]
  rw [hno] at g0
  simp only at g0
  rw [getElem?_set_eq' _ _ (by omega)] at g0
  obtain ⟨e, k1, k2⟩ := placeAll_last e1
  have hlast : m'.getLast? = some (.one e) := by
    rw [List.getLast?_eq_getElem?, g1]
    simpa using k1
  exact ⟨m', e1, ⟨e2, by omega, ⟨_, g0⟩, ⟨e, hlast⟩⟩, ⟨_, g0, rfl, rfl⟩, ⟨e, hlast, k2⟩⟩

/-- Sections in file order, each trailer after the previous one. -/
def Rising : Int → List Section → Prop
  | _, [] => True
  | p, x :: xs => ∃ q, x.trailer.absPos = some (.at q) ∧ p < q ∧ Rising q xs

theorem forall_cons' {α : Type _} {P : α → Prop} {a : α} {l : List α} (h : P a) (hl : ∀ c ∈ l, P c) : ∀ c ∈ a :: l, P c := by
  intro c hc
  rcases List.mem_cons.1 hc with rfl | hc
  · exact h
  · exact hl c hc

theorem columns_ok {nxt : List Int} {nb : Int} (hnb : 0 ≤ nb) : ∀ (xs : List Section) (p : Int) (done : List Rev) (m : Rev),
    (∀ x ∈ xs, Ready nxt nb x) → Rising p xs → (∀ c ∈ done, Column nxt nb c) → Column nxt nb m →
    ∃ m' rest, columns xs p done m = .ok (m' :: rest) ∧ (∀ c ∈ m' :: rest, Column nxt nb c) ∧
      match xs.getLast? with
      | none => m' = m
      | some x => (∃ e, m'[0]? = some (.one e) ∧ e.absPos = x.trailer.absPos ∧ e.xrefTablePos = x.trailer.xrefTablePos) ∧
        (∃ e, m'.getLast? = some (.one e) ∧ e.absPos = some (.at x.eofPos)) := by
  intro xs
  induction xs with
  | nil =>
    intro p done m _ _ hd hm
    exact ⟨m, done, rfl, forall_cons' hm hd, rfl⟩
  | cons x xs ih =>
    intro p done m hr hrise hd hm
    obtain ⟨q, hq, hpq, hrise⟩ := hrise
    obtain ⟨m1, e1, e2, e3, e4⟩ := column_place (hr x (by simp)) hm.plain hm.len hnb (done.length + 1) (done.length + 1)
    obtain ⟨m', rest, k1, k2, k3⟩ := ih q (m :: done) m1 (fun x hx => hr x (by simp [hx])) hrise (forall_cons' hm hd) e2
    refine ⟨m', rest, ?_, k2, ?_⟩
    · unfold columns
      have : directPos x.trailer = .ok q := by simp [directPos, hq]
      simp only [this, bind, Except.bind]
      rw [if_pos (by omega), e1]
      exact k1
    · rw [List.getLast?_cons]
      rcases hl : xs.getLast? with _ | x'
      · rw [hl] at k3
        simp only at k3
        subst k3
        exact ⟨e3, e4⟩
      · rw [hl] at k3
        exact k3

/-! ### Completion -/

/-- A cell and its completed version. -/
def Finished : Slot → Slot → Prop
  | .hole, s => s = .hole
  | .one e, s => ∃ n, s = .one { e with absNext := some n }
  | .many _, _ => False

def FinishedRev (m m' : Rev) : Prop := m'.length = m.length ∧ ∀ (i : Nat) (sl : Slot), m[i]? = some sl →
  ∃ sl', m'[i]? = some sl' ∧ Finished sl sl'

theorem mapM_range_ok {f : Nat → Py Slot} {P : Nat → Slot → Prop} : ∀ (n k : Nat),
    (∀ i, k ≤ i → i < k + n → ∃ y, f i = .ok y ∧ P i y) →
    ∃ l, (List.range' k n).mapM f = .ok l ∧ l.length = n ∧ ∀ i y, l[i]? = some y → P (k + i) y := by
  intro n
  induction n with
  | zero => intro k _; exact ⟨[], rfl, rfl, by simp⟩
  | succ n ih =>
    intro k h
    obtain ⟨y, h1, h2⟩ := h k (by omega) (by omega)
    obtain ⟨l, e1, e2, e3⟩ := ih (k + 1) (fun i hi hj => h i (by omega) (by omega))
    refine ⟨y :: l, ?_, by simp [e2], ?_⟩
    · rw [List.range'_succ, List.mapM_cons, h1, e1]
      rfl
    · intro i z hz
      cases i with
      | zero => cases hz; exact h2
      | succ i =>
        rw [List.getElem?_cons_succ] at hz
        have := e3 i z hz
        rw [show k + (i + 1) = k + 1 + i by omega]
        exact this

theorem completeAll_ok {nxt : List Int} : ∀ (l : List Rev) (before : Rev) (acc : List Rev),
    (∀ c ∈ l, PlainRev nxt c) → FinishedRev before (acc.head?.getD []) →
    ∃ res, completeAll nxt before acc l = .ok res ∧ (∀ c ∈ res, c ∈ acc ∨ ∃ m ∈ l, FinishedRev m c) ∧
      FinishedRev (l.getLast?.getD before) (res.head?.getD []) ∧ res.length = l.length + acc.length := by
  intro l
  induction l with
  | nil =>
    intro before acc _ h
    exact ⟨acc, rfl, fun c hc => .inl hc, h, by simp⟩
  | cons cur l ih =>
    intro before acc hl hb
    have hcur := hl cur (by simp)
    obtain ⟨col, e1, e2, e3⟩ := mapM_range_ok (f := completeCell nxt before (acc.head?.getD []) cur)
      (P := fun i y => ∃ sl, cur[i]? = some sl ∧ Finished sl y) cur.length 0 (by
      intro i _ hi
      have hi : i < cur.length := by omega
      have h0 : cur[i]? = some cur[i] := List.getElem?_eq_getElem hi
      have hp := hcur i _ h0
      unfold completeCell
      rw [slotAt_eq h0]
      simp only [bind, Except.bind]
      split
      · rename_i hbi
        obtain ⟨sl', g1, g2⟩ := hb.2 i _ hbi
        exact ⟨sl', by rw [g1]; rfl, _, h0, g2⟩
      · cases hs : cur[i] with
        | hole => exact ⟨.hole, rfl, .hole, by rw [h0, hs], rfl⟩
        | many es => rw [hs] at hp; exact absurd hp id
        | one e =>
          rw [hs] at hp
          obtain ⟨-, -, -, p, -, g2, g3⟩ := hp
          obtain ⟨n, hn⟩ := Option.isSome_iff_exists.1 g3
          refine ⟨.one { e with absNext := some n }, ?_, .one e, by rw [h0, hs], n, rfl⟩
          simp only [completeEntry, g2, hn, orRaise, bind, Except.bind, pure, Except.pure])
    have hfin : FinishedRev cur col := by
      refine ⟨e2, ?_⟩
      intro i sl hi
      have hlt := lt_of_getElem? hi
      have h0 : col[i]? = some col[i] := List.getElem?_eq_getElem (by omega)
      obtain ⟨sl', k1, k2⟩ := e3 i _ h0
      simp only [Nat.zero_add] at k1
      rw [hi] at k1
      cases k1
      exact ⟨_, h0, k2⟩
    obtain ⟨res, r1, r2, r3, r4⟩ := ih cur (col :: acc) (fun c hc => hl c (by simp [hc])) hfin
    refine ⟨res, ?_, ?_, ?_, by simp only [List.length_cons] at r4 ⊢; omega⟩
    · unfold completeAll
      rw [List.range_eq_range', e1]
      exact r1
    · intro c hc
      rcases r2 c hc with h | ⟨m, h1, h2⟩
      · rcases List.mem_cons.1 h with rfl | h
        · exact .inr ⟨cur, by simp, hfin⟩
        · exact .inl h
      · exact .inr ⟨m, by simp [h1], h2⟩
    · rw [List.getLast?_cons]
      exact r3

/-- The cells of a document that was just read. -/
structure LoadedRev (m : Rev) : Prop where
  head : ∃ e, m[0]? = some (.one e) ∧ e.xrefStreamNum = none
  cells : ∀ (i : Nat) (sl : Slot), m[i]? = some sl → sl = .hole ∨ ∃ (e : Entry) (p n : Int), sl = .one e ∧
    e.envNum = none ∧ e.deleted = false ∧ e.xrefStreamNum = none ∧ 0 ≤ p ∧ e.absPos = some (.at p) ∧ e.absNext = some n

theorem mergeHybrid_id : ∀ (xs acc : List Section), (∀ s ∈ xs, s.trailer.xrefStm = false) →
    mergeHybrid acc xs = .ok (acc.reverse ++ xs) := by
  intro xs
  induction xs with
  | nil => intro acc _; simp [mergeHybrid]
  | cons x xs ih =>
    intro acc hx
    unfold mergeHybrid
    rw [if_neg (by simp [hx x (by simp)]), ih _ (fun s hs => hx s (by simp [hs]))]
    simp

theorem getLast?_dropLast_get {m : List Slot} {i : Nat} {sl : Slot} (h : m.dropLast[i]? = some sl) :
    m[i]? = some sl ∧ i + 1 < m.length := by
  have hlt := lt_of_getElem? h
  rw [List.length_dropLast] at hlt
  rw [List.getElem?_dropLast, if_pos hlt] at h
  exact ⟨h, by omega⟩

theorem rising_append {p : Int} : ∀ {xs : List Section} {y : Section} {q : Int}, Rising p xs →
    (xs = [] → p < q) → (∀ x ∈ xs.getLast?, ∃ r, x.trailer.absPos = some (.at r) ∧ r < q) →
    y.trailer.absPos = some (.at q) → Rising p (xs ++ [y])
  | [], y, q, _, h2, _, h4 => ⟨q, h4, h2 rfl, trivial⟩
  | x :: xs, y, q, ⟨r, h1, h2, h3⟩, _, h5, h4 => by
    refine ⟨r, h1, h2, rising_append h3 ?_ ?_ h4⟩
    · rintro rfl
      obtain ⟨r', k1, k2⟩ := h5 x (by simp)
      rw [h1] at k1
      cases k1
      exact k2
    · intro x' hx'
      apply h5 x'
      rw [List.getLast?_cons]
      simp only [Option.mem_def] at hx' ⊢
      rw [hx']
      rfl

/-- The sections, in file order. -/
theorem chain_rising [Zlib] {F : Bytes} : ∀ {l : List Sec} {xs : List Section}, XrefChain F l → All₂ (IsSec F) l xs →
    Rising 0 xs.reverse
  | _, _, _, .nil => trivial
  | s :: l, x :: xs, ⟨h1, _, _, h4, h5⟩, .cons hx hxs => by
    obtain ⟨y, hy⟩ := hx.trailer
    have := h1.tp
    rw [List.reverse_cons]
    refine rising_append (q := s.tp) (chain_rising h5 hxs) (fun _ => by omega) ?_ (by rw [hy])
    intro x' hx'
    cases hxs with
    | nil => cases hx'
    | @cons s' x'' l' xs' k1 k2 =>
      rw [List.reverse_cons, List.getLast?_append] at hx'
      simp only [List.getLast?_singleton, Option.some_or, Option.mem_def, Option.some.injEq] at hx'
      subst hx'
      obtain ⟨y', hy'⟩ := k1.trailer
      refine ⟨s'.tp, by rw [hy'], ?_⟩
      have := (h4 s' (by simp)).1
      omega

theorem all₂_objs {F : Bytes} {l : List Sec} {xs : List Section} (h : All₂ (IsSec F) l xs) :
    xs.map (·.objs) = l.map (·.objs) := by
  induction h with
  | nil => rfl
  | cons h _ ih => simp [ih, h.objs]

theorem All₂.mem_right {α β : Type} {R : α → β → Prop} {l : List α} {m : List β} (h : All₂ R l m) :
    ∀ b ∈ m, ∃ a ∈ l, R a b := by
  induction h with
  | nil => simp
  | cons h _ ih =>
    intro b hb
    rcases List.mem_cons.1 hb with rfl | hb
    · exact ⟨_, by simp, h⟩
    · obtain ⟨a, h1, h2⟩ := ih b hb
      exact ⟨a, by simp [h1], h2⟩

/-- The columns of a file made of classic sections. -/
theorem buildColumns_at [Zlib] {F : Bytes} {s : Sec} {l : List Sec} {x : Section} {xs : List Section} {nxt : List Int}
    {nb : Int} (h : XrefChain F (s :: l)) (hx : All₂ (IsSec F) (s :: l) (x :: xs)) (hr : ∀ y ∈ x :: xs, Ready nxt nb y)
    (hnb : 0 ≤ nb) :
    ∃ m rest, buildColumns (x :: xs) nb = .ok (m :: rest) ∧ (∀ c ∈ m :: rest, Column nxt nb c) ∧
      (∃ e, m[0]? = some (.one e) ∧ e.absPos = some (.at s.tp) ∧ e.xrefTablePos = some (s.pos : Int)) ∧
      (∃ e, m.getLast? = some (.one e) ∧ e.absPos = some (.at x.eofPos)) := by
  have hst : ∀ y ∈ (x :: xs).reverse, y.trailer.xrefStm = false := by
    intro y hy
    obtain ⟨s', -, k⟩ := hx.mem_right y (List.mem_reverse.1 hy)
    obtain ⟨z, hz⟩ := k.trailer
    rw [hz]
  have hrise := chain_rising h hx
  unfold buildColumns
  rw [mergeHybrid_id _ _ hst]
  simp only [List.reverse_nil, List.nil_append, bind, Except.bind]
  rcases hrev : (x :: xs).reverse with _ | ⟨y, ys⟩
  · simp at hrev
  rw [hrev] at hrise
  obtain ⟨p, g1, g2, g3⟩ := hrise
  have hdir : directPos y.trailer = .ok p := by simp [directPos, g1]
  have hmem : ∀ z ∈ y :: ys, Ready nxt nb z := fun z hz => hr z (by rw [← List.mem_reverse, hrev]; exact hz)
  simp only [hdir]
  rw [if_neg (by omega)]
  have hrep : PlainRev nxt (List.replicate (nb + 2).toNat Slot.hole) := by
    intro i sl hi
    rw [List.getElem?_replicate] at hi
    split at hi <;> cases hi
    trivial
  obtain ⟨m, e1, e2, e3, e4⟩ := column_place (hmem y (by simp)) hrep (by simp) hnb 0 0
  rw [e1]
  simp only
  obtain ⟨m', rest, k1, k2, k3⟩ := columns_ok hnb ys p [] m (fun z hz => hmem z (by simp [hz])) g3 (by simp) e2
  refine ⟨m', rest, k1, k2, ?_⟩
  have hlast : (y :: ys).getLast? = some x := by
    rw [← hrev]
    simp
  obtain ⟨z, hz⟩ := (by cases hx with | cons h _ => exact h.trailer : ∃ y, x.trailer = { num := 0, absPos := some (.at s.tp), xrefTablePos := some s.pos, startxrefPos := some y })
  rw [List.getLast?_cons] at hlast
  rcases hl : ys.getLast? with _ | w
  · rw [hl] at k3 hlast
    simp only [Option.getD_none, Option.some.injEq] at k3 hlast
    subst k3 hlast
    rw [hz] at e3
    exact ⟨e3, e4⟩
  · rw [hl] at k3 hlast
    simp only [Option.getD_some, Option.some.injEq] at k3 hlast
    subst hlast
    rw [hz] at k3
    exact k3

theorem finished_loaded {nxt : List Int} {nb : Int} {m c : Rev} (hm : Column nxt nb m) (h : FinishedRev m c)
    (hnb : 0 ≤ nb) : LoadedRev c.dropLast := by
  have hcells : ∀ (i : Nat) (sl : Slot), c[i]? = some sl → sl = .hole ∨ ∃ (e : Entry) (p n : Int), sl = .one e ∧
    e.envNum = none ∧ e.deleted = false ∧ e.xrefStreamNum = none ∧ 0 ≤ p ∧ e.absPos = some (.at p) ∧ e.absNext = some n := by
    intro i sl hi
    have hlt : i < m.length := by rw [← h.1]; exact lt_of_getElem? hi
    have h0 : m[i]? = some m[i] := List.getElem?_eq_getElem hlt
    obtain ⟨sl', k1, k2⟩ := h.2 i _ h0
    rw [hi] at k1
    cases k1
    have hp := hm.plain i _ h0
    cases hs : m[i] with
    | hole => rw [hs] at k2; exact .inl k2
    | many es => rw [hs] at hp; exact absurd hp id
    | one e =>
      rw [hs] at k2 hp
      obtain ⟨n, rfl⟩ := k2
      obtain ⟨g1, g2, g3, p, g4, g5, -⟩ := hp
      exact .inr ⟨_, p, n, rfl, g1, g2, g3, g4, g5, rfl⟩
  refine ⟨?_, fun i sl hi => hcells i sl (getLast?_dropLast_get hi).1⟩
  obtain ⟨e, he⟩ := hm.head
  obtain ⟨sl', k1, n, rfl⟩ := h.2 0 _ he
  rcases hcells 0 _ k1 with k | ⟨e', p, n', k, -, -, k3, -⟩
  · cases k
  cases k
  refine ⟨_, ?_, k3⟩
  rw [List.getElem?_dropLast, if_pos, k1]
  rw [h.1, hm.len]
  omega

theorem eofCut_single {F : Bytes} (h : F.length ≠ 0) (p : Nat) : ∃ c, eofCut p (.single F) = .ok c := by
  unfold eofCut
  simp only [Provider.size, Provider.read, bind, Except.bind, pure, Except.pure, if_neg h]
  exact ⟨_, rfl⟩

theorem eofCut_end {F A : Bytes} (h : F = A ++ b!"%%EOF\n") : eofCut A.length (.single F) = .ok F.length := by
  have hsl : slice F A.length (A.length + 5) = b!"%%EOF" := by
    refine slice_of_drop (s := b!"%%EOF") (post := b!"\n") ?_
    rw [h]
    simp
  obtain ⟨j, h1, h2, h3, h4, h5⟩ := C49_eof_cut F A.length hsl
  have hl : F.length = A.length + 6 := by rw [h]; simp
  rw [h1]
  congr 1
  refine Classical.byContradiction fun hne => ?_
  have hj : j = A.length + 5 := by omega
  obtain ⟨c, hc, -, k⟩ := h5 (by omega)
  have : F[A.length + 5]? = some 10 := by
    rw [h, List.getElem?_append_right (by omega)]
    simp
  rw [hj, this] at hc
  cases hc
  exact k rfl

theorem mapM_ok_of {α β : Type} {f : α → Py β} : ∀ {l : List α}, (∀ x ∈ l, ∃ y, f x = .ok y) → ∃ r, l.mapM f = .ok r
  | [], _ => ⟨[], rfl⟩
  | a :: l, h => by
    obtain ⟨y, hy⟩ := h a (by simp)
    obtain ⟨r, hr⟩ := mapM_ok_of (l := l) (fun x hx => h x (by simp [hx]))
    exact ⟨y :: r, by rw [List.mapM_cons, hy, hr]; rfl⟩

theorem fileData_ok {nxt : List Int} {nb : Int} {m c : Rev} {F : Bytes} (hF : F.length ≠ 0) (hm : Column nxt nb m)
    (h : FinishedRev m c) : ∃ d, fileData (.single F) c = .ok d := by
  obtain ⟨e, he⟩ := hm.last
  rw [List.getLast?_eq_getElem?] at he
  obtain ⟨sl', k1, n, rfl⟩ := h.2 _ _ he
  obtain ⟨g1, g2, g3, p, g4, g5, -⟩ := hm.plain _ _ he
  obtain ⟨k, rfl⟩ := Int.eq_ofNat_of_zero_le g4
  obtain ⟨cut, hcut⟩ := eofCut_single hF k
  unfold fileData
  rw [List.getLast?_eq_getElem?, h.1, k1]
  simp only [directPos, g5, bind, Except.bind, natPos]
  rw [if_neg (by omega)]
  simp [hcut, pure, Except.pure]

/-- Reading a file made of classic sections: the document before its first commit. -/
theorem initialDoc_at [Zlib] {F : Bytes} {s : Sec} {l : List Sec} (h : XrefChain F (s :: l)) (hend : fileEnd s.pos <:+ F)
    (hmin : 100 ≤ F.length) (hmax : F.length < 10 ^ 80) :
    ∃ d, initialDoc (.single F) = .ok d ∧ d.curData = { fdata := .single F, eofCut := some F.length } ∧
      d.cache = (List.replicate d.cur.length .null).set 0 (.dict s.tr) ∧
      (∃ e, d.cur[0]? = some (.one e) ∧ e.absPos = some (.at s.tp) ∧ e.xrefTablePos = some (s.pos : Int)) ∧
      (∀ m ∈ d.cur :: d.past, LoadedRev m) ∧
      ∀ n : Nat, 1 ≤ n → match lastFor n ((s :: l).reverse.flatMap (·.objs)) with
        | none => d.cur[n]? = none ∨ d.cur[n]? = some .hole
        | some e => ∃ e', d.cur[n]? = some (.one e') ∧ e'.absPos = e.absPos := by
  obtain ⟨x, xs, q1, q2, q3, q4⟩ := xrefSections_at h hend hmin hmax
  have hall : All₂ (IsSec F) (s :: l) (x :: xs) := .cons q2 q4
  obtain ⟨nxt, nb, n1, n2⟩ := nextMap_at h.mem hall
  have hnb : 0 ≤ nb := nextMap_nb n1 (by simp)
  obtain ⟨m, rest, b1, b2, ⟨e0, b3, b4, b5⟩, e1, b6, b7⟩ := buildColumns_at h hall n2 hnb
  obtain ⟨res, r1, r2, r3, r4⟩ := completeAll_ok (m :: rest).reverse [] [] (fun c hc => (b2 c (List.mem_reverse.1 hc)).plain)
    ⟨rfl, by simp⟩
  have hF0 : F.length ≠ 0 := by omega
  cases res with
  | nil => simp at r4
  | cons c cs =>
    have hlast : (m :: rest).reverse.getLast? = some m := by simp
    rw [hlast] at r3
    simp only [Option.getD_some, List.head?_cons] at r3
    have hcol : ∀ c' ∈ c :: cs, ∃ m', Column nxt nb m' ∧ FinishedRev m' c' := by
      intro c' hc'
      rcases r2 c' hc' with k | ⟨m', k1, k2⟩
      · cases k
      · exact ⟨m', b2 m' (List.mem_reverse.1 k1), k2⟩
    obtain ⟨ds, hds⟩ := mapM_ok_of (f := fileData (.single F)) (l := cs) (fun c' hc' => by
      obtain ⟨m', k1, k2⟩ := hcol c' (by simp [hc'])
      exact fileData_ok hF0 k1 k2)
    have hmcol := b2 m (by simp)
    have hlen : c.length = (nb + 2).toNat := by rw [r3.1, hmcol.len]
    obtain ⟨A, hA⟩ : ∃ A, F = A ++ b!"%%EOF\n" := by
      obtain ⟨A, hA⟩ := hend
      exact ⟨A ++ b!"startxref\n" ++ natDec s.pos ++ b!"\n", by rw [← hA]; simp [fileEnd]⟩
    have hAl : A.length = F.length - 6 := by rw [hA]; simp
    have hd : fileData (.single F) c = .ok { fdata := .single F, eofCut := some F.length } := by
      rw [List.getLast?_eq_getElem?] at b6
      obtain ⟨sl', k1, n, rfl⟩ := r3.2 _ _ b6
      unfold fileData
      rw [List.getLast?_eq_getElem?, r3.1, k1]
      have : eofCut (F.length - 6) (.single F) = .ok F.length := by rw [← hAl]; exact eofCut_end hA
      simp only [directPos, b7, q3, bind, Except.bind, natPos]
      rw [if_neg (by omega)]
      simp [this, pure, Except.pure]
    obtain ⟨sl0, k1, nx, rfl⟩ := r3.2 0 _ b3
    have hpl := hmcol.plain 0 _ b3
    obtain ⟨g1, g2, g3, -⟩ := hpl
    have hc0 : c.dropLast[0]? = some (.one { e0 with absNext := some nx }) := by
      rw [List.getElem?_dropLast, if_pos (by omega), k1]
    generalize hE : ({ e0 with absNext := some nx } : Entry) = E0 at hc0
    have hE1 : E0.absPos = some (.at s.tp) := by rw [← hE]; exact b4
    have hE2 : E0.xrefTablePos = some (s.pos : Int) := by rw [← hE]; exact b5
    have hE3 : E0.deleted = false := by rw [← hE]; exact g2
    have hsec : SecAt F s := h.1
    have hpt : parseTrailer (.single F) E0 = .ok s.tr := by
      have := hsec.trailer [] E0 nx hE1 (by rw [← hE])
      rwa [List.append_nil] at this
    have hcache : buildCache (.single F) c.dropLast = .ok ((List.replicate c.dropLast.length .null).set 0 (.dict s.tr)) := by
      unfold buildCache memoize
      rw [slotAt_eq hc0]
      simp only [bind, Except.bind, Slot.isDeleted, hE3]
      have : cacheAt (List.replicate c.dropLast.length Obj.null) 0 = .ok .null :=
        cacheAt_eq (by rw [List.getElem?_replicate, if_pos (by rw [List.length_dropLast]; omega)])
      rw [this]
      have hm : mergeTrailers (.single F) (Slot.one E0).entries = .ok s.tr := by
        simp only [Slot.entries, mergeTrailers, List.foldlM_cons, List.foldlM_nil, hpt, bind, Except.bind,
          pure, Except.pure, update_nil s.tr hsec.nodup]
      simp only [Bool.false_eq_true, if_false, ne_eq, not_true_eq_false, if_true, hm]
      rfl
    refine ⟨{ cur := c.dropLast, past := cs.map List.dropLast, cache := (List.replicate c.dropLast.length .null).set 0 (.dict s.tr),
              curData := { fdata := .single F, eofCut := some F.length }, pastData := ds }, ?_, rfl, rfl, ⟨E0, hc0, hE1, hE2⟩, ?_, ?_⟩
    · unfold initialDoc
      simp only [Provider.size, bind, Except.bind, q1, n1, b1, r1]
      rw [List.mapM_cons, hd, hds]
      simp only [List.map_cons, bind, Except.bind, pure, Except.pure, hcache]
    · intro m' hm'
      have : ∃ c' ∈ c :: cs, m' = c'.dropLast := by
        rcases List.mem_cons.1 hm' with rfl | hm'
        · exact ⟨c, by simp, rfl⟩
        · obtain ⟨c', k1, k2⟩ := List.mem_map.1 hm'
          exact ⟨c', by simp [k1], k2.symm⟩
      obtain ⟨c', hc', rfl⟩ := this
      obtain ⟨m', k1, k2⟩ := hcol c' hc'
      exact finished_loaded k1 k2 hnb
    · intro n hn
      have hobjs : (x :: xs).reverse.flatMap (·.objs) = (s :: l).reverse.flatMap (·.objs) := by
        rw [List.flatMap_def, List.flatMap_def, List.map_reverse, List.map_reverse, all₂_objs hall]
      simp only
      by_cases hle : (n : Int) ≤ nb
      · obtain ⟨m', rest', k1, k2⟩ := C63_newest_partial (x :: xs) nb _ b1 (by
          intro y hy
          obtain ⟨s', -, k⟩ := hall.mem_right y hy
          obtain ⟨z, hz⟩ := k.trailer
          rw [hz]) hnb n hn hle
        cases k1
        rw [hobjs] at k2
        have hdrop : ∀ sl, c[n]? = some sl → c.dropLast[n]? = some sl := by
          intro sl hsl
          rw [List.getElem?_dropLast, if_pos (by omega), hsl]
        rcases hlf : lastFor n ((s :: l).reverse.flatMap (·.objs)) with _ | e
        · rw [hlf] at k2 ⊢
          obtain ⟨sl', j1, j2⟩ := r3.2 n _ k2
          cases j2
          exact Or.inr (hdrop _ j1)
        · rw [hlf] at k2 ⊢
          obtain ⟨e', k3, k4⟩ := k2
          obtain ⟨sl', j1, nn, rfl⟩ := r3.2 n _ k3
          exact ⟨_, hdrop _ j1, k4⟩
      · have hnone : lastFor n ((s :: l).reverse.flatMap (·.objs)) = none := by
          rw [← hobjs]
          unfold lastFor
          rw [List.getLast?_eq_none_iff, List.filter_eq_nil_iff]
          intro e he
          obtain ⟨y, hy, he⟩ := List.mem_flatMap.1 he
          obtain ⟨n', p, g, j1, j2, j3, rfl⟩ := (n2 y (List.mem_reverse.1 hy)).objs e he
          simp only [decide_eq_true_eq]
          omega
        rw [hnone]
        left
        rw [List.getElem?_eq_none_iff, List.length_dropLast]
        omega

end Pdf
