/-
Loading a file whose cross-reference sections are tables or streams, with objects in object streams.
-/
import Verif.Lemmas.StreamLoad
import Verif.Lemmas.Spelling
import Verif.Spec.FileText

namespace Pdf
open Spec

/-- A section of a file: where it is, where its trailer is, the number of the stream (none for a table), the entries in use, the
trailer. -/
structure XSec where
  pos : Nat
  tp : Nat
  num : Option Nat
  objs : List Entry
  tr : Dict

/-- The entry of the trailer of a section, as it is read. -/
def XSec.head (s : XSec) (y : Int) : Entry :=
  match s.num with
  | none => { num := 0, absPos := some (.at s.tp), xrefTablePos := some s.pos, startxrefPos := some y }
  | some k => { num := 0, absPos := some (.at s.tp), xrefStreamPos := some s.pos, xrefStreamNum := some k, startxrefPos := some y }

theorem XSec.head_absPos (s : XSec) (y : Int) : (s.head y).absPos = some (.at s.tp) := by
  unfold XSec.head; split <;> rfl

theorem XSec.head_stm (s : XSec) (y : Int) : (s.head y).xrefStm = false := by
  unfold XSec.head; split <;> rfl

theorem XSec.head_env (s : XSec) (y : Int) : (s.head y).envNum = none := by
  unfold XSec.head; split <;> rfl

theorem XSec.head_deleted (s : XSec) (y : Int) : (s.head y).deleted = false := by
  unfold XSec.head; split <;> rfl

theorem XSec.head_num (s : XSec) (y : Int) : (s.head y).xrefStreamNum = s.num.map fun k => (k : Int) := by
  unfold XSec.head; split <;> simp_all

theorem XSec.head_prev (s : XSec) (y : Int) (h : 0 < s.pos) : prevPos (s.head y) = .int s.pos := by
  unfold XSec.head prevPos
  cases s.num <;> simp <;> omega

theorem XSec.head_flag (s : XSec) (y : Int) : { s.head y with xrefStm := false } = s.head y := by
  unfold XSec.head; split <;> rfl

/-- An entry in use, as it is read from a table or from a stream. -/
def XEntry (lim : Nat) (e : Entry) : Prop :=
  ∃ n gen : Nat, 1 ≤ n ∧
    ((∃ p : Nat, p < lim ∧ e = { num := n, gen := gen, absPos := some (.at p) }) ∨
      ∃ env rank : Nat, e = { num := n, gen := gen, envNum := some env, oPos := some rank, absPos := some (.tup env rank) })

theorem XEntry.mono {a b : Nat} {e : Entry} (h : XEntry a e) (hab : a ≤ b) : XEntry b e := by
  obtain ⟨n, gen, h1, ⟨p, h2, h3⟩ | h2⟩ := h
  · exact ⟨n, gen, h1, .inl ⟨p, by omega, h3⟩⟩
  · exact ⟨n, gen, h1, .inr h2⟩

/-- The section `s` is in the file `F`, whatever follows. -/
structure XSecAt [Zlib] (F : Bytes) (s : XSec) : Prop where
  pos : 0 < s.pos
  tp : s.pos ≤ s.tp
  room : s.tp < F.length
  objs : ∀ e ∈ s.objs, XEntry F.length e
  read : ∀ rest x ep last, readSection (.single (F ++ rest)) s.pos x ep last = .ok (⟨s.head x, s.objs, ep⟩, s.tr, F ++ rest)
  trailer : ∀ rest e next, e.absPos = some (.at s.tp) → e.absNext = some next →
    parseTrailer (.single (F ++ rest)) e = .ok s.tr
  nodup : (s.tr.map Prod.fst).Nodup
  eof : ∃ q, q < F.length ∧ ∀ rest, find (F ++ rest) b!"%%EOF" s.pos = some q

theorem XSecAt.append [Zlib] {F : Bytes} {s : XSec} (h : XSecAt F s) (more : Bytes) : XSecAt (F ++ more) s := by
  obtain ⟨q, q1, q2⟩ := h.eof
  refine ⟨h.pos, h.tp, by have := h.room; simp; omega, fun e he => (h.objs e he).mono (by simp), ?_, ?_, h.nodup, q, by simp; omega, ?_⟩
  · intro rest; rw [List.append_assoc]; exact h.read _
  · intro rest; rw [List.append_assoc]; exact h.trailer _
  · intro rest; rw [List.append_assoc]; exact q2 _

/-- The entries of the sections of a file, from the oldest. -/
def listedX (secs : List XSec) : List Entry := secs.reverse.flatMap (·.objs)

theorem listedX_cons (s : XSec) (l : List XSec) : listedX (s :: l) = listedX l ++ s.objs := by
  simp [listedX]

/-- The newest entry of the object stream of every embedded object is not embedded itself. -/
def EnvOk (E : List Entry) : Prop :=
  ∀ (n : Nat) (le : Entry) (env : Nat), 1 ≤ n → lastFor n E = some le → le.envNum = some env →
    ∃ ce, lastFor env E = some ce ∧ ce.envNum = none

/-- A section comes after the ones it updates. -/
def Above (s : XSec) (l : List XSec) : Prop := ∀ s' ∈ l, s'.tp < s.tp ∧ s'.pos < s.pos

/-- The two sections of a linearized file: the newer one comes first. -/
def Lin (s : XSec) (l : List XSec) : Prop := ∃ m, l = [m] ∧ s.tp ≤ m.tp

/-- The sections of a file, newest first, each trailer leading to the previous one. -/
def XChain [Zlib] (F : Bytes) : List XSec → Prop
  | [] => True
  | s :: l => XSecAt F s ∧ Dict.get? s.tr b!"/XRefStm" = none ∧
      Dict.get? s.tr b!"/Prev" = l.head?.map (fun s' => .int s'.pos) ∧
      (Above s l ∨ Lin s l) ∧ EnvOk (listedX (s :: l)) ∧ XChain F l

theorem XChain.append [Zlib] {F : Bytes} (more : Bytes) : ∀ {l : List XSec}, XChain F l → XChain (F ++ more) l
  | [], _ => trivial
  | _ :: _, ⟨h1, h2, h3, h4, h5, h6⟩ => ⟨h1.append more, h2, h3, h4, h5, XChain.append more h6⟩

theorem XChain.mem [Zlib] {F : Bytes} : ∀ {l : List XSec}, XChain F l → ∀ s ∈ l, XSecAt F s
  | _ :: _, ⟨h1, _, _, _, _, h6⟩, s, hs => by
    rcases List.mem_cons.1 hs with rfl | hs
    · exact h1
    · exact XChain.mem h6 s hs

/-- What the chain makes of a section. -/
structure IsXSec (F : Bytes) (s : XSec) (x : Section) : Prop where
  trailer : ∃ y, x.trailer = s.head y
  objs : x.objs = s.objs
  eof0 : 0 ≤ x.eofPos
  eof1 : x.eofPos < F.length

theorem readSection_x [Zlib] {F : Bytes} {s : XSec} (h : XSecAt F s) (x ep last : Int) :
    readSection (.single F) s.pos x ep last = .ok (⟨s.head x, s.objs, ep⟩, s.tr, F) := by
  have := h.read [] x ep last
  rwa [List.append_nil] at this

theorem chainLoop_x [Zlib] {F : Bytes} : ∀ (l : List XSec), XChain F l → ∀ fuel, l.length < fuel →
    ∃ xs, chainLoop (.single F) fuel F ((l.head?.map fun s => (s.pos : Int)).getD 0) 0 = .ok xs ∧
      All₂ (IsXSec F) l xs := by
  intro l
  induction l with
  | nil =>
    intro _ fuel hf
    obtain ⟨k, rfl⟩ : ∃ k, fuel = k + 1 := ⟨fuel - 1, by simp at hf; omega⟩
    exact ⟨[], by simp [chainLoop], .nil⟩
  | cons s l ih =>
    rintro ⟨h1, h2, h3, h4, -, h5⟩ fuel hf
    obtain ⟨k, rfl⟩ : ∃ k, fuel = k + 1 := ⟨fuel - 1, by simp at hf; omega⟩
    obtain ⟨xs, e1, e2⟩ := ih h5 k (by simpa using hf)
    have hp := h1.pos
    obtain ⟨q, q1, q2⟩ := h1.eof
    have q2 := q2 []
    rw [List.append_nil] at q2
    unfold chainLoop
    simp only [List.head?_cons, Option.map_some, Option.getD_some]
    rw [if_neg (by omega)]
    unfold chainTurn
    have hn : natPos (s.pos : Int) = .ok s.pos := by simp [natPos]
    simp only [ne_eq, not_true_eq_false, if_false, bind, Except.bind, hn, readSection_x h1, q2, posOf]
    have hnext : nextSections s.tr 0 0 = .ok (false, (l.head?.map fun s => (s.pos : Int)).getD 0, 0) := by
      unfold nextSections
      simp only [and_self, if_true, h2, bind, Except.bind, h3]
      cases l with
      | nil => rfl
      | cons s' l => rfl
    simp only [hnext, e1]
    exact ⟨_, rfl, .cons ⟨⟨_, s.head_flag _⟩, rfl, by simp, by simpa using q1⟩ e2⟩

theorem XChain.length [Zlib] {F : Bytes} : ∀ {s : XSec} {l : List XSec}, XChain F (s :: l) → l.length ≤ s.pos := by
  intro s l
  induction l generalizing s with
  | nil => intro _; simp
  | cons s' l ih =>
    rintro ⟨h1, h2, h3, h4, -, h5⟩
    have := ih h5
    have hp := h1.pos
    simp only [List.length_cons]
    rcases h4 with h4 | ⟨m, h4, -⟩
    · have := (h4 s' (by simp)).2
      omega
    · cases h4
      simp only [List.length_nil]
      omega

/-- The file ends as those that the library writes, or as any program may end it. -/
def EndsAt (F : Bytes) (pos : Nat) : Prop := fileEnd pos <:+ F ∨ ∃ A s, F = A ++ s ∧ EndText pos s

theorem natText_int {s : Bytes} {n : Nat} (h : NatText s n) : IntText s n :=
  ⟨[], false, s, rfl, .none, h.1, h.2.1, by simp [h.2.2]⟩

theorem natText_natDec (n : Nat) : NatText (natDec n) n := by
  have hd : Digits (natDec n) := by
    intro c hc
    have := List.all_eq_true.1 (natDec_all n) c hc
    revert this
    revert c
    have key : ∀ c : UInt8, isDigit c = true → c ∈ b!"0123456789" := by apply forall_byte; decide +kernel
    intro c _ h
    exact key c h
  refine ⟨hd, natDec_ne_nil n, ?_⟩
  have h1 := digitsVal_numVal hd
  rw [digitsVal_natDec] at h1
  simpa using h1.symm

theorem EndsAt.text {F : Bytes} {pos : Nat} (h : EndsAt F pos) (hp : pos < 10 ^ 80) : ∃ A s, F = A ++ s ∧ EndText pos s := by
  rcases h with ⟨A, h⟩ | h
  · refine ⟨A, _, h.symm, b!"\n", natDec pos, b!"\n", b!"\n", by simp [fileEnd], natText_natDec pos, by decide, by decide, by decide, by decide, ?_⟩
    have hbig : (natDec pos).length ≤ 80 := natDecAux_length _ _ _ (by omega) (by omega)
    simp only [fileEnd, List.length_append, List.length_cons, List.length_nil]
    omega
  · exact h

theorem xrefSections_x [Zlib] {F : Bytes} {s : XSec} {l : List XSec} (h : XChain F (s :: l))
    (hend : EndsAt F s.pos) (hlen : 100 ≤ F.length) (hmax : F.length < 10 ^ 80) :
    ∃ x xs A' w3, xrefSections (.single F) F.length = .ok (x :: xs) ∧ IsXSec F s x ∧ F = A' ++ (b!"%%EOF" ++ w3) ∧
      (∀ c ∈ w3, c = 10 ∨ c = 13) ∧ x.eofPos = A'.length ∧ All₂ (IsXSec F) l xs := by
  have hcl := h.length
  obtain ⟨h1, h2, h3, h4, -, h5⟩ := h
  have hpos1 := h1.tp
  have hpos2 := h1.room
  obtain ⟨A, E, hA, w1, ds, w2, w3, hE, hds, hw1, hw2, hw, hw3, hlE⟩ := hend.text (by omega)
  have hFl : F.length = A.length + E.length := by rw [hA]; simp
  have hel : E.length = 9 + w1.length + ds.length + w2.length + 5 + w3.length := by rw [hE]; simp; omega
  unfold xrefSections
  have hread : (Provider.single F).read (-100) (-1) = .ok (F, (F.length - 100 : Nat), 0, 100) := by
    unfold Provider.read
    rw [if_neg (by omega)]
    have : (-100 + (F.length : Int)) % (F.length : Int) = (F.length - 100 : Nat) := by
      rw [Int.emod_eq_of_lt (by omega) (by omega)]
      omega
    simp only [this, if_true]
    congr 4
    omega
  have hn : natPos ((F.length - 100 : Nat) : Int) = .ok (F.length - 100) := by simp [natPos]
  simp only [hread, bind, Except.bind, hn]
  have hdA : F.drop A.length = E := by rw [hA]; simp
  have hd : F.drop (F.length - 100) = A.drop (F.length - 100) ++ E := by
    rw [hA, List.drop_append_of_le_length (by rw [← hA]; omega)]
  have hdl : (A.drop (F.length - 100)).length = A.length - (F.length - 100) := by simp
  generalize A.drop (F.length - 100) = X at hd hdl
  have hwhite : ∀ c ∈ white, c ≠ 37 ∧ c ≠ 115 ∧ isSpace c = true ∧ isBreak c = true := by decide
  have hw3' : ∀ c ∈ w3, c ≠ 37 ∧ c ≠ 115 := by
    intro c hc
    rcases hw3 c hc with rfl | rfl <;> decide
  have hr1 : rfind F b!"%%EOF" (F.length - 100) = some (A.length + 9 + w1.length + ds.length + w2.length) := by
    rw [rfind_last (x := 37) (q := b!"%EOF") (b := w3) (X := X ++ (b!"startxref" ++ (w1 ++ (ds ++ w2))))
      rfl ?_ (by rw [hd, hE]; simp)]
    · simp only [List.length_append, List.length_cons, List.length_nil, Option.some.injEq]
      omega
    · intro hh
      obtain ⟨a, b, hab⟩ := hh
      rcases a with _ | ⟨x, a⟩
      · simp at hab
      have := congrArg (List.drop 1) hab
      have h37 : (37 : UInt8) ∈ b!"EOF" ++ w3 := by
        have e : b!"EOF" ++ w3 = a ++ b!"%%EOF" ++ b := by simpa using this.symm
        rw [e]; simp
      rcases List.mem_append.1 h37 with h | h
      · revert h; decide
      · exact (hw3' _ h).1 rfl
  have hr2 : rfind F b!"startxref" (F.length - 100) = some A.length := by
    rw [rfind_last (x := 115) (q := b!"tartxref") (b := w1 ++ (ds ++ (w2 ++ (b!"%%EOF" ++ w3)))) (X := X)
      rfl ?_ (by rw [hd, hE])]
    · simp only [Option.some.injEq]
      omega
    · intro hh
      have : (115 : UInt8) ∈ b!"tartxref" ++ (w1 ++ (ds ++ (w2 ++ (b!"%%EOF" ++ w3)))) := hh.subset (by simp)
      simp only [List.mem_append] at this
      rcases this with h | h | h | h | h | h
      · revert h; decide
      · exact (hwhite _ (hw _ (by simp [h]))).2.1 rfl
      · have := hds.1 _ h
        revert this; decide
      · exact (hwhite _ (hw _ (by simp [h]))).2.1 rfl
      · revert h; decide
      · exact (hw3' _ h).2 rfl
  rw [hr1, hr2]
  simp only [posOf]
  obtain ⟨c2, w2', rfl⟩ : ∃ c r, w2 = c :: r := by
    cases w2 with
    | nil => exact absurd rfl hw2
    | cons c r => exact ⟨c, r, rfl⟩
  have hd9 : F.drop (A.length + 9) = w1 ++ (ds ++ c2 :: (w2' ++ (b!"%%EOF" ++ w3))) := by
    have := drop_add_of (text := F) (i := A.length) (a := b!"startxref") (b := w1 ++ (ds ++ (c2 :: w2' ++ (b!"%%EOF" ++ w3))))
      (by rw [hdA, hE])
    rw [show A.length + 9 = A.length + (b!"startxref").length from rfl, this]
    simp
  have htok := nextToken_at (tokAt_intText (natText_int hds) (hwhite c2 (hw c2 (by simp))).2.2.2 (w2' ++ (b!"%%EOF" ++ w3)))
    (fun c hc => (hwhite c (hw c (by simp [hc]))).2.2.1) hd9
  have hsl := slice_of_drop (drop_add_of hd9)
  rw [show ((A.length : Int) + 9).toNat = A.length + 9 by omega, htok]
  simp only [hsl, pyInt_intText (natText_int hds), orRaise, readSection_x h1]
  have hnext : nextSections s.tr 0 0 = .ok (false, (l.head?.map fun s => (s.pos : Int)).getD 0, 0) := by
    unfold nextSections
    simp only [and_self, if_true, h2, bind, Except.bind, h3]
    cases l with
    | nil => rfl
    | cons s' l => rfl
  obtain ⟨xs, e1, e2⟩ := chainLoop_x l h5 (4 * F.length + 4) (by omega)
  rw [hnext]
  simp only [e1]
  refine ⟨_, _, A ++ (b!"startxref" ++ (w1 ++ (ds ++ (c2 :: w2')))), w3, rfl, ⟨⟨_, s.head_flag _⟩, rfl, by simp; omega, ?_⟩, ?_, hw3, ?_, e2⟩
  · simp only [hFl, hel, List.length_cons]; omega
  · rw [hA, hE]; simp
  · simp; omega

theorem eofCut_ends {F A w : Bytes} (h : F = A ++ (b!"%%EOF" ++ w)) (hw : ∀ c ∈ w, c = 10 ∨ c = 13) : eofCut A.length (.single F) = .ok F.length := by
  have hsl : slice F A.length (A.length + 5) = b!"%%EOF" := by
    refine slice_of_drop (s := b!"%%EOF") (post := w) ?_
    rw [h]
    simp
  obtain ⟨j, h1, h2, h3, h4, h5⟩ := C49_eof_cut F A.length hsl
  have hl : F.length = A.length + (5 + w.length) := by rw [h]; simp; omega
  rw [h1]
  congr 1
  refine Classical.byContradiction fun hne => ?_
  obtain ⟨c, hc, k1, k2⟩ := h5 (by omega)
  have hmem : c ∈ w := by
    rw [h, List.getElem?_append_right (by omega), List.getElem?_append_right (by simp; omega)] at hc
    exact List.mem_of_getElem? hc
  rcases hw c hmem with rfl | rfl
  · exact k2 rfl
  · exact k1 rfl

/-! ### Positions -/

/-- What the rest of the loading needs of a section. -/
structure XReady (nxt : List Int) (nb : Int) (x : Section) : Prop where
  trailer : ∃ (s : XSec) (y : Int), x.trailer = s.head y ∧ 0 < s.tp ∧ (nxtOf nxt s.tp).isSome = true
  objs : ∀ e ∈ x.objs, (∃ n p gen : Nat, 1 ≤ n ∧ (n : Int) ≤ nb ∧ (nxtOf nxt p).isSome = true ∧
      e = { num := n, gen := gen, absPos := some (.at (p : Nat)) }) ∨
    ∃ n gen env rank : Nat, 1 ≤ n ∧ (n : Int) ≤ nb ∧
      e = { num := n, gen := gen, envNum := some env, oPos := some rank, absPos := some (.tup env rank) }
  eof0 : 0 ≤ x.eofPos
  eof1 : (nxtOf nxt x.eofPos).isSome = true

/-- The pairs of a section. -/
def seqPairsX (s : XSec) (x : Section) : List (Int × Int) :=
  ((s.tp : Int), 0) :: (x.objs.filter (·.envNum.isNone)).map (fun e => (startOf e, e.num)) ++ [(x.eofPos, -1)]

theorem seqOf_x [Zlib] {F : Bytes} {s : XSec} {x : Section} (hs : XSecAt F s) (hx : IsXSec F s x) :
    seqOf x = .ok (seqPairsX s x) := by
  obtain ⟨y, hy⟩ := hx.trailer
  unfold seqOf
  have ht : directPos x.trailer = .ok (s.tp : Int) := by rw [hy]; simp [directPos, XSec.head_absPos]
  rw [ht, mapM_pure' (fun e => (startOf e, e.num))]
  · rfl
  · intro e he
    obtain ⟨he, hk⟩ := List.mem_filter.1 he
    rw [hx.objs] at he
    obtain ⟨n, gen, -, ⟨p, -, rfl⟩ | ⟨env, rank, rfl⟩⟩ := hs.objs e he
    · rfl
    · cases hk

theorem seqPairsX_lt [Zlib] {F : Bytes} {s : XSec} {x : Section} (hs : XSecAt F s) (hx : IsXSec F s x) :
    ∀ q ∈ seqPairsX s x, q.1 < F.length := by
  have h2 := hs.room
  intro q hq
  unfold seqPairsX at hq
  rcases List.mem_append.1 hq with hq | hq
  · rcases List.mem_cons.1 hq with rfl | hq
    · simp only; omega
    · obtain ⟨e, he, rfl⟩ := List.mem_map.1 hq
      obtain ⟨he, hk⟩ := List.mem_filter.1 he
      rw [hx.objs] at he
      obtain ⟨n, gen, -, ⟨p, hp, rfl⟩ | ⟨env, rank, rfl⟩⟩ := hs.objs e he
      · simp only [startOf, directPos, Except.toOption, Option.getD_some]
        omega
      · cases hk
  · simp only [List.mem_singleton] at hq
    subst hq
    exact hx.eof1

theorem seqs_x [Zlib] {F : Bytes} {l : List XSec} {xs : List Section} (hx : All₂ (IsXSec F) l xs) :
    (∀ s ∈ l, XSecAt F s) → ∃ seqs, xs.mapM seqOf = .ok seqs ∧
      (∀ x ∈ xs, ∃ s ∈ l, XSecAt F s ∧ IsXSec F s x ∧ ∀ q ∈ seqPairsX s x, q ∈ seqs.flatten) ∧
      (∀ s ∈ l, ∃ x ∈ xs, IsXSec F s x ∧ ∀ q ∈ seqPairsX s x, q ∈ seqs.flatten) ∧
      ∀ q ∈ seqs.flatten, q.1 < F.length := by
  induction hx with
  | nil => intro _; exact ⟨[], rfl, by simp, by simp, by simp⟩
  | @cons s x l m h _ ih =>
    intro hl
    have hs := hl s (by simp)
    obtain ⟨seqs, e1, e2, e2', e3⟩ := ih (fun s hs => hl s (by simp [hs]))
    refine ⟨seqPairsX s x :: seqs, ?_, ?_, ?_, ?_⟩
    · rw [List.mapM_cons, seqOf_x hs h, e1]
      rfl
    · intro x' hx'
      rcases List.mem_cons.1 hx' with rfl | hx'
      · exact ⟨s, by simp, hs, h, fun q hq => by simp [hq]⟩
      · obtain ⟨s', k0, k1, k2, k3⟩ := e2 x' hx'
        exact ⟨s', by simp [k0], k1, k2, fun q hq => by rw [List.flatten_cons, List.mem_append]; exact .inr (k3 q hq)⟩
    · intro s' hs'
      rcases List.mem_cons.1 hs' with rfl | hs'
      · exact ⟨x, by simp, h, fun q hq => by simp [hq]⟩
      · obtain ⟨x', k0, k2, k3⟩ := e2' s' hs'
        exact ⟨x', by simp [k0], k2, fun q hq => by rw [List.flatten_cons, List.mem_append]; exact .inr (k3 q hq)⟩
    · intro q hq
      rw [List.flatten_cons, List.mem_append] at hq
      rcases hq with hq | hq
      · exact seqPairsX_lt hs h q hq
      · exact e3 q hq

/-- Every embedded number is at most the number of some object of the file that is not embedded. -/
def EnvBound (E : List Entry) : Prop :=
  ∀ e ∈ E, e.envNum ≠ none → ∃ e' ∈ E, e'.envNum = none ∧ e.num ≤ e'.num

theorem mem_listedX {e : Entry} {l : List XSec} : e ∈ listedX l ↔ ∃ s ∈ l, e ∈ s.objs := by
  simp [listedX]

theorem nextMap_x [Zlib] {F : Bytes} {l : List XSec} {xs : List Section} (hl : ∀ s ∈ l, XSecAt F s)
    (hb : EnvBound (listedX l)) (hx : All₂ (IsXSec F) l xs) :
    ∃ nxt nb, nextMap (.single F) xs = .ok (nxt, nb) ∧ ∀ x ∈ xs, XReady nxt nb x := by
  obtain ⟨seqs, h1, h2, h2', h3⟩ := seqs_x hx hl
  refine ⟨_, _, by unfold nextMap; rw [h1]; rfl, ?_⟩
  have hsome : ∀ q ∈ seqs.flatten, (nxtOf (sortInts (seqs.flatten.map Prod.fst) ++ [(F.length : Int)]) q.1).isSome = true := by
    intro q hq
    refine nxtOf_some (z := F.length) ?_ ?_ (by simp) (h3 q hq)
    · rw [List.pairwise_append]
      refine ⟨sortInts_sorted _, by simp, ?_⟩
      intro a ha b hb
      simp only [List.mem_singleton] at hb
      subst hb
      obtain ⟨q', hq', rfl⟩ := List.mem_map.1 (mem_sortInts.1 ha)
      have := h3 q' hq'
      omega
    · rw [List.mem_append]
      exact .inl (mem_sortInts.2 (List.mem_map.2 ⟨q, hq, rfl⟩))
  have hnum : ∀ q ∈ seqs.flatten, q.2 ≤ (seqs.flatten.map Prod.snd).foldl max (-1) := by
    intro q hq
    exact (le_foldl_max _ _).2 _ (List.mem_map.2 ⟨q, hq, rfl⟩)
  have hdir : ∀ e ∈ listedX l, e.envNum = none → (startOf e, e.num) ∈ seqs.flatten := by
    intro e he hn
    obtain ⟨s, hs, he⟩ := mem_listedX.1 he
    obtain ⟨x, -, k2, k3⟩ := h2' s hs
    apply k3
    unfold seqPairsX
    refine List.mem_append_left _ (List.mem_cons_of_mem _ (List.mem_map.2 ⟨e, List.mem_filter.2 ⟨?_, by simp [hn]⟩, rfl⟩))
    rw [k2.objs]
    exact he
  intro x hx
  obtain ⟨s, k0, k1, k2, k3⟩ := h2 x hx
  obtain ⟨y, hy⟩ := k2.trailer
  have h4 := k1.tp
  have h5 := k1.pos
  refine ⟨⟨s, y, hy, by omega, hsome _ (k3 ((s.tp : Int), 0) (by simp [seqPairsX]))⟩, ?_, k2.eof0,
    hsome _ (k3 (x.eofPos, -1) (by simp [seqPairsX]))⟩
  intro e he
  rw [k2.objs] at he
  have hel : e ∈ listedX l := mem_listedX.2 ⟨s, k0, he⟩
  obtain ⟨n, gen, hn, ⟨p, hp, rfl⟩ | ⟨env, rank, rfl⟩⟩ := k1.objs e he
  · have := hdir _ hel rfl
    exact .inl ⟨n, p, gen, hn, hnum _ this, hsome _ this, rfl⟩
  · obtain ⟨e', j1, j2, j3⟩ := hb _ hel (by simp)
    have := hnum _ (hdir e' j1 j2)
    exact .inr ⟨n, gen, env, rank, hn, by simp only at j3 this; omega, rfl⟩

/-! ### Columns -/

/-- A cell that can be completed. -/
def XCell (nxt : List Int) : Slot → Prop
  | .hole => True
  | .one e => e.deleted = false ∧
      ((e.envNum = none ∧ ∃ p : Int, 0 ≤ p ∧ e.absPos = some (.at p) ∧ (nxtOf nxt p).isSome = true) ∨
        ∃ env rank : Nat, e.envNum = some env ∧ e.absPos = some (.tup env rank))
  | .many es => ∀ e ∈ es, ∃ p : Int, 0 ≤ p ∧ e.absPos = some (.at p) ∧ (nxtOf nxt p).isSome = true

/-- Cells that can be completed, with lists in cell 0 only. -/
def XRev (nxt : List Int) (m : Rev) : Prop := ∀ (i : Nat) (sl : Slot), m[i]? = some sl → XCell nxt sl ∧ ∀ es, sl = .many es → i = 0

theorem xRev_set {nxt : List Int} {m : Rev} (h : XRev nxt m) (i : Nat) {sl : Slot} (hs : XCell nxt sl) (hi : ∀ es, sl = .many es → i = 0) :
    XRev nxt (m.set i sl) := by
  intro j x hx
  rw [List.getElem?_set] at hx
  split at hx
  · rename_i hij
    split at hx
    · cases hx; subst hij; exact ⟨hs, hi⟩
    · cases hx
  · exact h j x hx

theorem placeEntry_x {nxt : List Int} {v i : Nat} {m : Rev} {e : Entry} (h : XRev nxt m) (hi : i < m.length) (h0 : i ≠ 0)
    (he : XCell nxt (.one e)) : ∃ m', placeEntry v m i e = .ok m' ∧ XRev nxt m' := by
  have hg : m[i]? = some m[i] := List.getElem?_eq_getElem hi
  have hp := h i _ hg
  unfold placeEntry
  rw [slotAt_eq hg]
  simp only [bind, Except.bind]
  cases hs : m[i] with
  | hole => exact ⟨_, rfl, xRev_set h i he (by simp)⟩
  | one old =>
    simp only
    split
    · exact ⟨_, rfl, h⟩
    · exact ⟨_, rfl, xRev_set h i he (by simp)⟩
  | many es => exact absurd (hp.2 es hs) h0

theorem placeAll_x {nxt : List Int} {v : Nat} : ∀ (es : List Entry) {m : Rev}, XRev nxt m → 1 < m.length →
    (∀ e ∈ es, XCell nxt (.one e) ∧ e.num < m.length ∧ e.num ≠ 0) → ∃ m', placeAll v m es = .ok m' ∧ XRev nxt m' := by
  intro es
  induction es with
  | nil => intro m h _ _; exact ⟨m, rfl, h⟩
  | cons e es ih =>
    intro m h hm hes
    obtain ⟨h1, h2, h3⟩ := hes e (by simp)
    obtain ⟨m1, e1, e2⟩ := placeEntry_x (v := v) (i := if e.num < 0 then m.length - 1 else e.num.toNat) h (by split <;> omega) (by split <;> omega) h1
    have hl := (placeEntry_get e1).1
    obtain ⟨m2, e3, e4⟩ := ih e2 (by omega) (fun e he => by rw [hl]; exact hes e (by simp [he]))
    refine ⟨m2, ?_, e4⟩
    unfold placeAll
    rw [e1]
    exact e3

/-- A column that records the entries `E`: its cells, its trailer, its end marker. -/
structure XColumn (nxt : List Int) (nb : Int) (E : List Entry) (m : Rev) : Prop where
  cells : XRev nxt m
  len : m.length = (nb + 2).toNat
  head : ∀ e, m[0]? = some (.one e) → ∀ env rank, e.absPos ≠ some (.tup env rank)
  last : ∃ (e : Entry) (p : Int), m.getLast? = some (.one e) ∧ 0 ≤ p ∧ e.absPos = some (.at p)
  get : ∀ n : Nat, 1 ≤ n → (n : Int) ≤ nb → match lastFor n E with
    | none => m[n]? = some .hole
    | some e => ∃ e', m[n]? = some (.one e') ∧ e'.absPos = e.absPos

/-- The trailer and the end marker of a column are those of a section. -/
def HeadIs (x : Section) (m : Rev) : Prop :=
  (∃ w : Nat, m[0]? = some (.one { x.trailer with ver := w, docVer := w })) ∧
    ∃ e, m.getLast? = some (.one e) ∧ e.absPos = some (.at x.eofPos)

theorem xcell_head {nxt : List Int} {s : XSec} (y : Int) (w : Nat) (h : (nxtOf nxt s.tp).isSome = true) :
    XCell nxt (.one { s.head y with ver := w, docVer := w }) := by
  refine ⟨by simpa using s.head_deleted y, .inl ⟨by simpa using s.head_env y, s.tp, by omega, by simpa using s.head_absPos y, h⟩⟩

/-- A column, whatever its trailers. -/
theorem column_gen {nxt : List Int} {nb : Int} {x : Section} {m : Rev} {E : List Entry} (hx : XReady nxt nb x) (h : XRev nxt m)
    (hl : m.length = (nb + 2).toNat) (hnb : 0 ≤ nb)
    (hget : ∀ n : Nat, 1 ≤ n → (n : Int) ≤ nb → match lastFor n E with
      | none => m[n]? = some .hole
      | some e => ∃ e', m[n]? = some (.one e') ∧ e'.absPos = e.absPos) (v : Nat) {hd : Slot} (hplain : XCell nxt hd)
    (hhd : ∀ e, hd = .one e → ∀ env rank, e.absPos ≠ some (.tup env rank)) :
    ∃ m', placeAll v (m.set 0 hd) (x.objs ++ [eofEntry x]) = .ok m' ∧
      XColumn nxt nb (E ++ x.objs) m' ∧ m'[0]? = some hd ∧ ∃ e, m'.getLast? = some (.one e) ∧ e.absPos = some (.at x.eofPos) := by
  have hm : XRev nxt (m.set 0 hd) := xRev_set h 0 hplain (fun _ _ => rfl)
  have hpos : ∀ e ∈ x.objs, ∃ n : Nat, 1 ≤ n ∧ (n : Int) ≤ nb ∧ e.num = n := by
    intro e he
    rcases hx.objs e he with ⟨n, p, g, h1, h2, h3, rfl⟩ | ⟨n, g, env, rank, h1, h2, rfl⟩ <;> exact ⟨n, h1, h2, rfl⟩
  obtain ⟨m', e1, e2⟩ := placeAll_x (v := v) (x.objs ++ [eofEntry x]) hm (by simp; omega) (by
    intro e he
    rcases List.mem_append.1 he with he | he
    · obtain ⟨n, h1, h2, h3⟩ := hpos e he
      refine ⟨?_, by simp; omega, by omega⟩
      rcases hx.objs e he with ⟨n', p, g, -, -, j3, rfl⟩ | ⟨n', g, env, rank, -, -, rfl⟩
      · exact ⟨rfl, .inl ⟨rfl, p, by omega, rfl, j3⟩⟩
      · exact ⟨rfl, .inr ⟨env, rank, rfl, rfl⟩⟩
    · simp only [List.mem_singleton] at he
      subst he
      refine ⟨⟨rfl, .inl ⟨rfl, x.eofPos, hx.eof0, rfl, hx.eof1⟩⟩, ?_⟩
      simp [eofEntry]; omega)
  obtain ⟨g1, g2⟩ := placeAll_get _ e1
  simp only [List.length_set] at g1 g2
  have g0 := g2 0 (by omega)
  have hno : lastFor 0 (x.objs ++ [eofEntry x]) = none := by
    rw [lastFor_eof]
    refine lastFor_none fun e he => ?_
    obtain ⟨n, h1, h2, h3⟩ := hpos e he
    omega
  rw [hno] at g0
  simp only at g0
  rw [getElem?_set_eq' _ _ (by omega)] at g0
  obtain ⟨e, k1, k2⟩ := placeAll_last e1
  have hlast : m'.getLast? = some (.one e) := by
    rw [List.getLast?_eq_getElem?, g1]
    simpa using k1
  refine ⟨m', e1, ⟨e2, by omega, ?_, ⟨e, x.eofPos, hlast, hx.eof0, k2⟩, ?_⟩, g0, e, hlast, k2⟩
  · intro e he
    rw [g0] at he
    cases he
    exact hhd e rfl
  intro n h1 h2
  have g := g2 n (by omega)
  rw [lastFor_eof] at g
  rw [lastFor_append]
  rcases hlf : lastFor n x.objs with _ | le
  · rw [hlf] at g
    simp only [Option.none_or] at g ⊢
    rw [getElem?_set_ne' _ _ (by omega)] at g
    rw [g]
    exact hget n h1 h2
  · rw [hlf] at g
    exact g

theorem column_x {nxt : List Int} {nb : Int} {x : Section} {m : Rev} {E : List Entry} (hx : XReady nxt nb x) (h : XRev nxt m)
    (hl : m.length = (nb + 2).toNat) (hnb : 0 ≤ nb)
    (hget : ∀ n : Nat, 1 ≤ n → (n : Int) ≤ nb → match lastFor n E with
      | none => m[n]? = some .hole
      | some e => ∃ e', m[n]? = some (.one e') ∧ e'.absPos = e.absPos) (v w : Nat) :
    ∃ m', placeAll v (m.set 0 (.one { x.trailer with ver := w, docVer := w })) (x.objs ++ [eofEntry x]) = .ok m' ∧
      XColumn nxt nb (E ++ x.objs) m' ∧ HeadIs x m' := by
  obtain ⟨s, y, ht, hp, hn⟩ := hx.trailer
  have hplain : XCell nxt (.one { x.trailer with ver := w, docVer := w }) := by
    rw [ht]
    exact xcell_head y w hn
  obtain ⟨m', h1, h2, h3, h4⟩ := column_gen hx h hl hnb hget v hplain (by
    intro e he env rank
    cases he
    simp [ht, s.head_absPos])
  exact ⟨m', h1, h2, ⟨w, h3⟩, h4⟩

/-- The condition on object streams, for every column. -/
def EnvAll : List Entry → List Section → Prop
  | _, [] => True
  | E, x :: xs => EnvOk (E ++ x.objs) ∧ EnvAll (E ++ x.objs) xs

theorem envAll_snoc : ∀ {xs : List Section} {E : List Entry} {x : Section}, EnvAll E xs → EnvOk (E ++ xs.flatMap (·.objs) ++ x.objs) →
    EnvAll E (xs ++ [x])
  | [], E, x, _, h => by simpa [EnvAll] using h
  | z :: xs, E, x, ⟨h1, h2⟩, h => by
    refine ⟨h1, envAll_snoc h2 ?_⟩
    simpa [List.append_assoc] using h

/-- A column some entries of which are recorded, the object streams being found. -/
def GoodColumn (nxt : List Int) (nb : Int) (m : Rev) : Prop :=
  ∃ E, EnvOk E ∧ (∀ e ∈ E, ∃ lim, XEntry lim e ∧ e.num ≤ nb) ∧ XColumn nxt nb E m

theorem columns_x {nxt : List Int} {nb : Int} (hnb : 0 ≤ nb) : ∀ (xs : List Section) (p : Int) (done : List Rev) (m : Rev) (E : List Entry),
    (∀ x ∈ xs, XReady nxt nb x) → Rising p xs → EnvAll E xs → EnvOk E → (∀ e ∈ E, ∃ lim, XEntry lim e ∧ e.num ≤ nb) →
    (∀ c ∈ done, GoodColumn nxt nb c) → XColumn nxt nb E m →
    ∃ m' rest, columns xs p done m = .ok (m' :: rest) ∧ (∀ c ∈ m' :: rest, GoodColumn nxt nb c) ∧
      XColumn nxt nb (E ++ xs.flatMap (·.objs)) m' ∧ (m' :: rest).getLast? = (m :: done).getLast? ∧
      match xs.getLast? with
      | none => m' = m
      | some x => HeadIs x m' := by
  intro xs
  induction xs with
  | nil =>
    intro p done m E _ _ _ hE hk hd hm
    exact ⟨m, done, rfl, forall_cons' ⟨E, hE, hk, hm⟩ hd, by simpa using hm, rfl, rfl⟩
  | cons x xs ih =>
    intro p done m E hr hrise henv hE hk hd hm
    obtain ⟨q, hq, hpq, hrise⟩ := hrise
    obtain ⟨v1, v2⟩ := henv
    have hxr := hr x (by simp)
    obtain ⟨m1, e1, e2, e3⟩ := column_x hxr hm.cells hm.len hnb hm.get (done.length + 1) (done.length + 1)
    obtain ⟨m', rest, k1, k2, k3, k4, k5⟩ := ih q (m :: done) m1 (E ++ x.objs) (fun x hx => hr x (by simp [hx])) hrise v2 v1 (by
      intro e he
      rcases List.mem_append.1 he with he | he
      · exact hk e he
      · rcases hxr.objs e he with ⟨n, p, g, h1, h2, h3, rfl⟩ | ⟨n, g, env, rank, h1, h2, rfl⟩
        · exact ⟨p + 1, ⟨n, g, h1, .inl ⟨p, by omega, rfl⟩⟩, h2⟩
        · exact ⟨0, ⟨n, g, h1, .inr ⟨env, rank, rfl⟩⟩, h2⟩) (forall_cons' ⟨E, hE, hk, hm⟩ hd) e2
    refine ⟨m', rest, ?_, k2, ?_, ?_, ?_⟩
    · unfold columns
      have : directPos x.trailer = .ok q := by simp [directPos, hq]
      simp only [this, bind, Except.bind]
      rw [if_pos (by omega), e1]
      exact k1
    · simpa [List.append_assoc] using k3
    · rw [k4]; rfl
    · rw [List.getLast?_cons]
      rcases hl : xs.getLast? with _ | x'
      · rw [hl] at k5
        simp only at k5
        subst k5
        exact e3
      · rw [hl] at k5
        exact k5

/-! ### Completion -/

/-- A cell and its completed version. -/
def FinishedX : Slot → Slot → Prop
  | .hole, s => s = .hole
  | .one e, s => ∃ (ap : Option Pos) (n : Int), s = .one { e with absPos := ap, absNext := some n } ∧
      ∀ p, e.absPos = some (.at p) → ap = some (.at p)
  | .many es, s => ∃ es', s = .many es' ∧ All₂ (fun e e' => ∃ n : Int, e' = { e with absNext := some n }) es es'

def FinishedRevX (m m' : Rev) : Prop := m'.length = m.length ∧ ∀ (i : Nat) (sl : Slot), m[i]? = some sl →
  ∃ sl', m'[i]? = some sl' ∧ FinishedX sl sl'

theorem All₂.append' {α β : Type} {R : α → β → Prop} {l l' : List α} {m m' : List β} (h : All₂ R l m) (h' : All₂ R l' m') :
    All₂ R (l ++ l') (m ++ m') := by
  induction h with
  | nil => exact h'
  | cons h _ ih => exact .cons h ih

theorem All₂.reverse' {α β : Type} {R : α → β → Prop} {l : List α} {m : List β} (h : All₂ R l m) : All₂ R l.reverse m.reverse := by
  induction h with
  | nil => exact .nil
  | cons h _ ih => rw [List.reverse_cons, List.reverse_cons]; exact ih.append' (.cons h .nil)

theorem All₂.getLast' {α β : Type} {R : α → β → Prop} {l : List α} {m : List β} (h : All₂ R l m) {a : α} (ha : l.getLast? = some a) :
    ∃ b, m.getLast? = some b ∧ R a b := by
  induction h with
  | nil => cases ha
  | @cons a' b l m h h' ih =>
    rw [List.getLast?_cons] at ha ⊢
    cases h' with
    | nil => simp at ha; subst ha; exact ⟨b, rfl, h⟩
    | @cons a'' b' l' m' k k' =>
      rw [List.getLast?_cons] at ha ⊢
      simp only [Option.getD_some] at ha
      obtain ⟨c, c1, c2⟩ := ih (by rw [List.getLast?_cons]; exact ha)
      rw [List.getLast?_cons] at c1
      exact ⟨c, by simpa using c1, c2⟩

/-- The object stream of an embedded cell has a cell in the same column. -/
theorem goodColumn_env {nxt : List Int} {nb : Int} {m : Rev} (h : GoodColumn nxt nb m) {i : Nat} {e : Entry} {env rank : Nat}
    (hi : m[i]? = some (.one e)) (he : e.absPos = some (.tup env rank)) :
    ∃ (ce : Entry) (p : Int), m[env]? = some (.one ce) ∧ ce.absPos = some (.at p) ∧ (nxtOf nxt p).isSome = true := by
  obtain ⟨E, hE, hk, hm⟩ := h
  have hlen := hm.len
  have hlt := lt_of_getElem? hi
  have h0 : i ≠ 0 := by
    rintro rfl
    exact hm.head e hi _ _ he
  have hl : (i : Int) ≤ nb := by
    refine Classical.byContradiction fun hh => ?_
    have : i = m.length - 1 := by omega
    obtain ⟨e', p, k, -, k2⟩ := hm.last
    rw [List.getLast?_eq_getElem?, ← this, hi] at k
    cases k
    rw [he] at k2
    cases k2
  have hg := hm.get i (by omega) hl
  rcases hlf : lastFor i E with _ | le
  · rw [hlf] at hg
    simp only [hi] at hg
    cases hg
  rw [hlf] at hg
  obtain ⟨e', k1, k2⟩ := hg
  rw [hi] at k1
  cases k1
  have hle : le.envNum = some env := by
    obtain ⟨lim, ⟨n, g, -, ⟨p, -, rfl⟩ | ⟨env', rank', rfl⟩⟩, -⟩ := hk le (lastFor_mem hlf).1
    · rw [he] at k2; cases k2
    · rw [he] at k2; cases k2; rfl
  obtain ⟨ce, c1, c2⟩ := hE i le env (by omega) hlf hle
  obtain ⟨c3, c4⟩ := lastFor_mem c1
  obtain ⟨lim, ⟨n, g, hn, hce⟩, hb⟩ := hk ce c3
  have hce : ∃ p : Nat, ce = { num := n, gen := g, absPos := some (.at p) } := by
    rcases hce with ⟨p, -, hce⟩ | ⟨env', rank', rfl⟩
    · exact ⟨p, hce⟩
    · cases c2
  obtain ⟨p, hce⟩ := hce
  have hen : env = n := by rw [hce] at c4; simp only at c4; omega
  have hg2 := hm.get env (by omega) (by omega)
  rw [c1] at hg2
  obtain ⟨ce', j1, j2⟩ := hg2
  rw [hce] at j2
  obtain ⟨⟨-, ⟨-, p', -, j3, j4⟩ | ⟨_, _, -, j3⟩⟩, -⟩ := hm.cells _ _ j1
  · exact ⟨ce', p', j1, j3, j4⟩
  · rw [j2] at j3; cases j3

theorem completeEntries_at {nxt : List Int} {cur : Rev} : ∀ (es : List Entry), (∀ e ∈ es, ∃ p : Int, 0 ≤ p ∧ e.absPos = some (.at p) ∧ (nxtOf nxt p).isSome = true) →
    ∃ es', es.mapM (completeEntry nxt cur) = .ok es' ∧ All₂ (fun e e' => ∃ n : Int, e' = { e with absNext := some n }) es es'
  | [], _ => ⟨[], rfl, .nil⟩
  | e :: es, h => by
    obtain ⟨es', k1, k2⟩ := completeEntries_at es (fun e he => h e (by simp [he]))
    obtain ⟨p, -, g2, g3⟩ := h e (by simp)
    obtain ⟨n, hn⟩ := Option.isSome_iff_exists.1 g3
    refine ⟨{ e with absNext := some n } :: es', ?_, .cons ⟨n, rfl⟩ k2⟩
    rw [List.mapM_cons, k1]
    simp only [completeEntry, g2, hn, orRaise, bind, Except.bind, pure, Except.pure]

theorem completeAll_x {nxt : List Int} {nb : Int} : ∀ (l : List Rev) (before : Rev) (acc : List Rev),
    (∀ c ∈ l, GoodColumn nxt nb c) → FinishedRevX before (acc.head?.getD []) →
    ∃ out, completeAll nxt before acc l = .ok (out.reverse ++ acc) ∧ All₂ FinishedRevX l out := by
  intro l
  induction l with
  | nil =>
    intro before acc _ h
    exact ⟨[], rfl, .nil⟩
  | cons cur l ih =>
    intro before acc hl hb
    have hgood := hl cur (by simp)
    have hcur : XRev nxt cur := by obtain ⟨E, -, -, h⟩ := hgood; exact h.cells
    obtain ⟨col, e1, e2, e3⟩ := mapM_range_ok (f := completeCell nxt before (acc.head?.getD []) cur)
      (P := fun i y => ∃ sl, cur[i]? = some sl ∧ FinishedX sl y) cur.length 0 (by
      intro i _ hi
      have hi : i < cur.length := by omega
      have h0 : cur[i]? = some cur[i] := List.getElem?_eq_getElem hi
      have hp := hcur i _ h0
      unfold completeCell
      rw [slotAt_eq h0]
      simp only [bind, Except.bind]
      split
      · rename_i hbi
        obtain ⟨sl', g1, g2⟩ := hb.2 i _ hbi
        exact ⟨sl', by rw [g1]; rfl, _, h0, g2⟩
      · cases hs : cur[i] with
        | hole => exact ⟨.hole, rfl, .hole, by rw [h0, hs], rfl⟩
        | many es =>
          rw [hs] at hp h0
          obtain ⟨es', k1, k2⟩ := completeEntries_at (cur := cur) es hp.1
          exact ⟨.many es', by simp only [k1], .many es, h0, es', rfl, k2⟩
        | one e =>
          rw [hs] at hp h0
          obtain ⟨⟨-, ⟨-, p, -, g2, g3⟩ | ⟨env, rank, -, g2⟩⟩, -⟩ := hp
          · obtain ⟨n, hn⟩ := Option.isSome_iff_exists.1 g3
            refine ⟨.one { e with absNext := some n }, ?_, .one e, h0, e.absPos, n, rfl, fun p hp => hp⟩
            simp only [completeEntry, g2, hn, orRaise, bind, Except.bind, pure, Except.pure]
          · obtain ⟨ce, p, c1, c2, c3⟩ := goodColumn_env hgood h0 g2
            obtain ⟨n, hn⟩ := Option.isSome_iff_exists.1 c3
            refine ⟨.one { e with absPos := some (.emb p rank), absNext := some n }, ?_, .one e, h0, _, n, rfl, ?_⟩
            · simp only [completeEntry, g2, entryAt_eq c1, directPos, c2, hn, orRaise, bind, Except.bind, pure, Except.pure]
            · intro p hp
              rw [g2] at hp
              cases hp)
    have hfin : FinishedRevX cur col := by
      refine ⟨e2, ?_⟩
      intro i sl hi
      have hlt := lt_of_getElem? hi
      have h0 : col[i]? = some col[i] := List.getElem?_eq_getElem (by omega)
      obtain ⟨sl', k1, k2⟩ := e3 i _ h0
      simp only [Nat.zero_add] at k1
      rw [hi] at k1
      cases k1
      exact ⟨_, h0, k2⟩
    obtain ⟨out, r1, r2⟩ := ih cur (col :: acc) (fun c hc => hl c (by simp [hc])) hfin
    refine ⟨col :: out, ?_, .cons hfin r2⟩
    unfold completeAll
    rw [List.range_eq_range', e1]
    simp only [bind, Except.bind, r1]
    simp

/-! ### The document before its first commit -/

/-- The sections in file order: rising, or rising but for the two oldest ones. -/
def FileOrder (s : XSec) (l : List XSec) (xs : List Section) : Prop :=
  (Rising 0 xs.reverse ∧ Above s l) ∨
    ∃ b a rest q q', xs.reverse = b :: a :: rest ∧ b.trailer.absPos = some (.at q) ∧ a.trailer.absPos = some (.at q') ∧ q' ≤ q ∧ 0 < q ∧
      Rising q rest ∧ (rest = [] → Lin s l) ∧ (rest ≠ [] → Above s l)

theorem lin_not_above {s : XSec} {l : List XSec} (h : Above s l) (h' : Lin s l) : False := by
  obtain ⟨m, rfl, h'⟩ := h'
  have := (h m (by simp)).1
  omega

theorem chain_order_x [Zlib] {F : Bytes} : ∀ {s : XSec} {l : List XSec} {xs : List Section}, XChain F (s :: l) → All₂ (IsXSec F) (s :: l) xs →
    FileOrder s l xs
  | s, l, x :: xs, ⟨h1, _, _, h4, _, h5⟩, .cons hx hxs => by
    obtain ⟨y, hy⟩ := hx.trailer
    have := h1.tp
    have := h1.pos
    have hxp : x.trailer.absPos = some (.at s.tp) := by rw [hy, s.head_absPos]
    unfold FileOrder
    rw [List.reverse_cons]
    rcases h4 with h4 | h4
    · have hall : ∀ x' ∈ xs, ∃ r, x'.trailer.absPos = some (.at r) ∧ r < s.tp := by
        intro x' hx'
        obtain ⟨s', k0, k1⟩ := hxs.mem_right x' hx'
        obtain ⟨y', hy'⟩ := k1.trailer
        refine ⟨s'.tp, by rw [hy', s'.head_absPos], ?_⟩
        have := (h4 s' k0).1
        omega
      cases hxs with
      | nil => exact .inl ⟨⟨s.tp, hxp, by omega, trivial⟩, h4⟩
      | @cons s' x' l' xs' k1 k2 =>
        rcases chain_order_x h5 (.cons k1 k2) with ⟨k, -⟩ | ⟨b, a, rest, q, q', e1, e2, e3, e4, e5, e6, -, -⟩
        · refine .inl ⟨rising_append (q := s.tp) k (by simp) ?_ hxp, h4⟩
          intro z hz
          exact hall z (List.mem_reverse.1 (List.mem_of_getLast? hz))
        · have hmem : ∀ z ∈ b :: a :: rest, z ∈ x' :: xs' := by
            intro z hz
            rw [← e1] at hz
            exact List.mem_reverse.1 hz
          refine .inr ⟨b, a, rest ++ [x], q, q', by rw [e1]; rfl, e2, e3, e4, e5, rising_append (q := s.tp) e6 ?_ ?_ hxp, by simp, fun _ => h4⟩
          · intro _
            obtain ⟨r, r1, r2⟩ := hall b (hmem b (by simp))
            rw [e2] at r1
            cases r1
            exact r2
          · intro z hz
            have := List.mem_of_getLast? hz
            exact hall z (hmem z (by simp [this]))
    · have h4' := h4
      obtain ⟨m, rfl, hm⟩ := h4
      cases hxs with
      | @cons _ xm _ xs' k1 k2 =>
        cases k2
        obtain ⟨y', hy'⟩ := k1.trailer
        obtain ⟨g1, -⟩ := h5
        have := g1.tp
        have := g1.pos
        exact .inr ⟨xm, x, [], m.tp, s.tp, rfl, by rw [hy', m.head_absPos], hxp, by omega, by omega, trivial, fun _ => h4', fun h => absurd rfl h⟩

theorem all₂_objs_x {F : Bytes} {l : List XSec} {xs : List Section} (h : All₂ (IsXSec F) l xs) :
    xs.reverse.flatMap (·.objs) = listedX l := by
  have : xs.map (·.objs) = l.map (·.objs) := by
    induction h with
    | nil => rfl
    | cons h _ ih => simp [ih, h.objs]
  unfold listedX
  rw [List.flatMap_def, List.flatMap_def, List.map_reverse, List.map_reverse, this]

theorem chain_env_x [Zlib] {F : Bytes} : ∀ {l : List XSec} {xs : List Section}, XChain F l → All₂ (IsXSec F) l xs →
    EnvAll [] xs.reverse
  | _, _, _, .nil => trivial
  | s :: l, x :: xs, ⟨_, _, _, _, h5, h6⟩, .cons hx hxs => by
    rw [List.reverse_cons]
    refine envAll_snoc (chain_env_x h6 hxs) ?_
    rw [all₂_objs_x hxs, hx.objs, List.nil_append, ← listedX_cons]
    exact h5

/-- Cell 0 of the first column. -/
def OldestIs (z : Section) (c : Rev) : Prop := ∃ w : Nat, c[0]? = some (.one { z.trailer with ver := w, docVer := w }) ∨
  ∃ es, c[0]? = some (.many ({ z.trailer with ver := w, docVer := w } :: es))

/-- The column of a linearized file: both trailers, and the end marker of the newer section. -/
def LinHead (xm x : Section) (m : Rev) : Prop :=
  m[0]? = some (.many [{ xm.trailer with ver := 0, docVer := 0 }, { x.trailer with ver := 0, docVer := 0 }]) ∧
    ∃ e, m.getLast? = some (.one e) ∧ e.absPos = some (.at x.eofPos)

/-- The columns of a file. -/
theorem buildColumns_x [Zlib] {F : Bytes} {s : XSec} {l : List XSec} {x : Section} {xs : List Section} {nxt : List Int}
    {nb : Int} (h : XChain F (s :: l)) (hx : All₂ (IsXSec F) (s :: l) (x :: xs)) (hr : ∀ y ∈ x :: xs, XReady nxt nb y)
    (hnb : 0 ≤ nb) :
    ∃ m rest, buildColumns (x :: xs) nb = .ok (m :: rest) ∧ (∀ c ∈ m :: rest, GoodColumn nxt nb c) ∧
      XColumn nxt nb (listedX (s :: l)) m ∧ (Above s l ∧ HeadIs x m ∨ Lin s l ∧ ∃ xm, xs = [xm] ∧ LinHead xm x m) ∧
      ∃ c z, (m :: rest).getLast? = some c ∧ (x :: xs).getLast? = some z ∧ OldestIs z c := by
  have hst : ∀ y ∈ (x :: xs).reverse, y.trailer.xrefStm = false := by
    intro y hy
    obtain ⟨s', -, k⟩ := hx.mem_right y (List.mem_reverse.1 hy)
    obtain ⟨z, hz⟩ := k.trailer
    rw [hz, s'.head_stm]
  have hord := chain_order_x h hx
  have henv := chain_env_x h hx
  have hobjs := all₂_objs_x hx
  unfold buildColumns
  rw [mergeHybrid_id _ _ hst]
  simp only [List.reverse_nil, List.nil_append, bind, Except.bind]
  have hlast : (x :: xs).reverse.getLast? = some x := by simp
  have hlast' : (x :: xs).getLast? = (x :: xs).reverse.head? := by rw [List.getLast?_eq_head?_reverse]
  have hmem : ∀ z ∈ (x :: xs).reverse, XReady nxt nb z := fun z hz => hr z (List.mem_reverse.1 hz)
  have hxe : ∀ z ∈ (x :: xs).reverse, ∀ e ∈ z.objs, ∃ lim, XEntry lim e ∧ e.num ≤ nb := by
    intro z hz e he
    rcases (hmem z hz).objs e he with ⟨n, p, g, h1, h2, h3, rfl⟩ | ⟨n, g, env, rank, h1, h2, rfl⟩
    · exact ⟨p + 1, ⟨n, g, h1, .inl ⟨p, by omega, rfl⟩⟩, h2⟩
    · exact ⟨0, ⟨n, g, h1, .inr ⟨env, rank, rfl⟩⟩, h2⟩
  have hrep : XRev nxt (List.replicate (nb + 2).toNat Slot.hole) := by
    intro i sl hi
    rw [List.getElem?_replicate] at hi
    split at hi <;> cases hi
    exact ⟨trivial, by simp⟩
  have hrep0 : ∀ n : Nat, 1 ≤ n → (n : Int) ≤ nb → match lastFor n [] with
      | none => (List.replicate (nb + 2).toNat Slot.hole)[n]? = some .hole
      | some e => ∃ e', (List.replicate (nb + 2).toNat Slot.hole)[n]? = some (.one e') ∧ e'.absPos = e.absPos := by
    intro n h1 h2
    rw [show lastFor n [] = none from rfl]
    simp only
    rw [List.getElem?_replicate, if_pos (by omega)]
  unfold FileOrder at hord
  rcases hord with ⟨hrise, habove⟩ | ⟨y, a, ys, q, q', hrev, o1, o2, o3, o4, o5, o6, o7⟩
  · rcases hrev : (x :: xs).reverse with _ | ⟨y, ys⟩
    · simp at hrev
    rw [hrev] at hrise henv hobjs hlast hlast' hmem hxe
    obtain ⟨p, g1, g2, g3⟩ := hrise
    obtain ⟨v1, v2⟩ := henv
    have hdir : directPos y.trailer = .ok p := by simp [directPos, g1]
    simp only [hdir]
    rw [if_neg (by omega)]
    obtain ⟨m, e1, e2, e3⟩ := column_x (E := []) (hmem y (by simp)) hrep (by simp) hnb hrep0 0 0
    rw [e1]
    simp only
    obtain ⟨m', rest, k1, k2, k3, k4, k5⟩ := columns_x hnb ys p [] m ([] ++ y.objs) (fun z hz => hmem z (by simp [hz])) g3 v2 v1
      (fun e he => hxe y (by simp) e (by simpa using he)) (by simp) e2
    refine ⟨m', rest, k1, k2, ?_, .inl ⟨habove, ?_⟩, m, y, by rw [k4]; rfl, by rw [hlast']; rfl, e3.1.imp fun _ h => .inl h⟩
    · rw [← hobjs]
      simpa using k3
    · rw [List.getLast?_cons] at hlast
      rcases hl : ys.getLast? with _ | w
      · rw [hl] at k5 hlast
        simp only [Option.getD_none, Option.some.injEq] at k5 hlast
        subst k5 hlast
        exact e3
      · rw [hl] at k5 hlast
        simp only [Option.getD_some, Option.some.injEq] at k5 hlast
        subst hlast
        exact k5
  · rw [hrev] at henv hobjs hlast hlast' hmem hxe
    simp only [hrev]
    obtain ⟨v1, v2, v3⟩ := henv
    have hdir : directPos y.trailer = .ok q := by simp [directPos, o1]
    simp only [hdir]
    rw [if_neg (by omega)]
    have hyr := hmem y (by simp)
    have har := hmem a (by simp)
    obtain ⟨m0, e1, e2, ⟨w0, e3⟩, -⟩ := column_x (E := []) hyr hrep (by simp) hnb hrep0 0 0
    have e3 : m0[0]? = some (.one { y.trailer with ver := 0, docVer := 0 }) := by
      have := (placeAll_get _ e1).2 0 (by simp; omega)
      have hno : lastFor 0 (y.objs ++ [eofEntry y]) = none := by
        rw [lastFor_eof]
        refine lastFor_none fun e he => ?_
        rcases hyr.objs e he with ⟨n, p, g, h1, h2, h3, rfl⟩ | ⟨n, g, env, rank, h1, h2, rfl⟩ <;> simp only <;> omega
      rw [hno] at this
      simp only at this
      rw [this, getElem?_set_eq' _ _ (by simp; omega)]
    rw [e1]
    simp only
    obtain ⟨s1, y1, t1, -, n1⟩ := hyr.trailer
    obtain ⟨s2, y2, t2, -, n2⟩ := har.trailer
    obtain ⟨m, c1, c2, c3, c4⟩ := column_gen har e2.cells e2.len hnb e2.get 0
      (hd := .many [{ y.trailer with ver := 0, docVer := 0 }, { a.trailer with ver := 0, docVer := 0 }])
      (by
        intro e he
        simp only [List.mem_cons, List.not_mem_nil, or_false] at he
        rcases he with rfl | rfl
        · exact ⟨s1.tp, by omega, by simp [t1, s1.head_absPos], n1⟩
        · exact ⟨s2.tp, by omega, by simp [t2, s2.head_absPos], n2⟩) (by simp)
    have hcol : columns (a :: ys) q [] m0 = columns ys q [] m := by
      rw [columns]
      have : directPos a.trailer = .ok q' := by simp [directPos, o2]
      simp only [this, bind, Except.bind]
      rw [if_neg (by omega)]
      have hh : m0.head? = some (.one { y.trailer with ver := 0, docVer := 0 }) := by rw [List.head?_eq_getElem?, e3]
      rw [hh]
      simp only [List.length_nil, c1]
    rw [hcol]
    obtain ⟨m', rest, k1, k2, k3, k4, k5⟩ := columns_x hnb ys q [] m ([] ++ y.objs ++ a.objs) (fun z hz => hmem z (by simp [hz])) o5 v3 v2
      (fun e he => by
        simp only [List.nil_append, List.mem_append] at he
        rcases he with he | he
        · exact hxe y (by simp) e he
        · exact hxe a (by simp) e he) (by simp) c2
    refine ⟨m', rest, k1, k2, ?_, ?_, m, y, by rw [k4]; rfl, by rw [hlast']; rfl, ⟨0, .inr ⟨_, c3⟩⟩⟩
    · rw [← hobjs]
      simpa [List.append_assoc] using k3
    · cases ys with
      | nil =>
        simp only [List.getLast?_nil] at k5
        subst k5
        have hxx : x :: xs = [a, y] := by
          have := congrArg List.reverse hrev
          simpa using this
        cases hxx
        exact .inr ⟨o6 rfl, y, rfl, c3, c4⟩
      | cons z zs =>
        refine .inl ⟨o7 (by simp), ?_⟩
        rw [List.getLast?_cons, List.getLast?_cons, List.getLast?_cons] at hlast
        simp only [Option.getD_some, Option.some.injEq] at hlast
        rw [List.getLast?_cons] at k5
        rw [← hlast]
        exact k5

theorem fileData_x {nxt : List Int} {nb : Int} {E : List Entry} {m c : Rev} {F : Bytes} (hF : F.length ≠ 0) (hm : XColumn nxt nb E m)
    (h : FinishedRevX m c) : ∃ d, fileData (.single F) c = .ok d := by
  obtain ⟨e, p, he, hp, hap⟩ := hm.last
  rw [List.getLast?_eq_getElem?] at he
  obtain ⟨sl', k1, ap, n, rfl, k2⟩ := h.2 _ _ he
  obtain ⟨k, rfl⟩ := Int.eq_ofNat_of_zero_le hp
  obtain ⟨cut, hcut⟩ := eofCut_single hF k
  unfold fileData
  rw [List.getLast?_eq_getElem?, h.1, k1]
  simp only [directPos, k2 _ hap, bind, Except.bind, natPos]
  rw [if_neg (by omega)]
  simp [hcut, pure, Except.pure]

/-- The cell of a number in a document that was just read, given the newest entry for this number. -/
def CellFor (m : Rev) (n : Nat) : Option Entry → Prop
  | none => m[n]? = none ∨ m[n]? = some .hole
  | some le => ∃ (e : Entry) (nx : Int), m[n]? = some (.one e) ∧ e.envNum = le.envNum ∧ e.deleted = false ∧ e.absNext = some nx ∧
      ∀ p, le.absPos = some (.at p) → e.absPos = some (.at p)

/-- What is read from the file, before the first commit; `T` is the trailer. -/
structure ReadDoc [Zlib] (F : Bytes) (s : XSec) (l : List XSec) (d : Doc) (T : Dict) : Prop where
  data : d.curData = { fdata := .single F, eofCut := some F.length }
  cache : d.cache = (List.replicate d.cur.length .null).set 0 (.dict T)
  head : (Above s l ∧ T = s.tr ∧
      ∃ e, d.cur[0]? = some (.one e) ∧ e.absPos = some (.at s.tp) ∧ e.deleted = false ∧ e.envNum = none ∧ prevPos e = .int s.pos) ∨
    ∃ sm, l = [sm] ∧ s.tp ≤ sm.tp ∧ T = Dict.update (Dict.update [] sm.tr) s.tr ∧ ∃ es, d.cur[0]? = some (.many es)
  oldest : firstXrefStreamNum d = .ok (((s :: l).getLast?.bind (·.num)).map fun k => (k : Int))
  many : ∀ (n : Nat) (es : List Entry), 1 ≤ n → d.cur[n]? ≠ some (.many es)
  cell : ∀ n : Nat, 1 ≤ n → CellFor d.cur n (lastFor n (listedX (s :: l)))
  bound : ∀ e ∈ listedX (s :: l), e.num < d.cur.length

/-- The trailers of cell 0. -/
theorem buildCache_x [Zlib] {F : Bytes} {c : Rev} {sl : Slot} {T : Dict} (h0 : c[0]? = some sl) (hd : sl.isDeleted = .ok false)
    (hm : mergeTrailers (.single F) sl.entries = .ok T) :
    buildCache (.single F) c = .ok ((List.replicate c.length .null).set 0 (.dict T)) := by
  unfold buildCache memoize
  have := lt_of_getElem? h0
  rw [slotAt_eq h0]
  simp only [bind, Except.bind, hd]
  have : cacheAt (List.replicate c.length Obj.null) 0 = .ok .null :=
    cacheAt_eq (by rw [List.getElem?_replicate, if_pos (by omega)])
  rw [this]
  simp only [Bool.false_eq_true, if_false, ne_eq, not_true_eq_false, if_true, hm]
  rfl

theorem merge_one [Zlib] {f : Provider} {e : Entry} {t : Dict} (h : parseTrailer f e = .ok t) (hn : (t.map Prod.fst).Nodup) :
    mergeTrailers f [e] = .ok t := by
  simp only [mergeTrailers, List.foldlM_cons, List.foldlM_nil, h, bind, Except.bind, pure, Except.pure, update_nil t hn]

theorem merge_two [Zlib] {f : Provider} {e e' : Entry} {t t' : Dict} (h : parseTrailer f e = .ok t) (h' : parseTrailer f e' = .ok t') :
    mergeTrailers f [e, e'] = .ok (Dict.update (Dict.update [] t) t') := by
  simp only [mergeTrailers, List.foldlM_cons, List.foldlM_nil, h, h', bind, Except.bind, pure, Except.pure]

theorem initialDoc_x [Zlib] {F : Bytes} {s : XSec} {l : List XSec} (h : XChain F (s :: l)) (hb : EnvBound (listedX (s :: l)))
    (hend : EndsAt F s.pos) (hmin : 100 ≤ F.length) (hmax : F.length < 10 ^ 80) :
    ∃ d T, initialDoc (.single F) = .ok d ∧ ReadDoc F s l d T := by
  obtain ⟨x, xs, A, w3, q1, q2, hA, hw3, q3, q4⟩ := xrefSections_x h hend hmin hmax
  have hall : All₂ (IsXSec F) (s :: l) (x :: xs) := .cons q2 q4
  obtain ⟨nxt, nb, n1, n2⟩ := nextMap_x h.mem hb hall
  have hnb : 0 ≤ nb := nextMap_nb n1 (by simp)
  obtain ⟨m, rest, b1, b2, b3, b4, m0, z0, b8, b9, w1, b10⟩ := buildColumns_x h hall n2 hnb
  obtain ⟨out, r1, r2⟩ := completeAll_x (nb := nb) (m :: rest).reverse [] [] (fun c hc => b2 c (List.mem_reverse.1 hc)) ⟨rfl, by simp⟩
  have hF0 : F.length ≠ 0 := by omega
  have r2 := r2.reverse'
  rw [List.reverse_reverse] at r2
  rw [List.append_nil] at r1
  generalize hres : out.reverse = res at r1 r2
  cases r2 with
  | @cons _ c _ cs r3 r4 =>
    have hrev : All₂ FinishedRevX (m :: rest) (c :: cs) := .cons r3 r4
    obtain ⟨ds, hds⟩ := mapM_ok_of (f := fileData (.single F)) (l := cs) (fun c' hc' => by
      obtain ⟨m', k1, k2⟩ := r4.mem_right c' hc'
      obtain ⟨E, -, -, k3⟩ := b2 m' (by simp [k1])
      exact fileData_x hF0 k3 k2)
    have hlen : c.length = (nb + 2).toNat := by rw [r3.1, b3.len]
    have hd : fileData (.single F) c = .ok { fdata := .single F, eofCut := some F.length } := by
      obtain ⟨e1, b6, b7⟩ : ∃ e, m.getLast? = some (.one e) ∧ e.absPos = some (.at x.eofPos) := by
        rcases b4 with ⟨-, -, k⟩ | ⟨-, -, -, -, k⟩ <;> exact k
      rw [List.getLast?_eq_getElem?] at b6
      obtain ⟨sl', k1, ap, n, rfl, k2⟩ := r3.2 _ _ b6
      unfold fileData
      rw [List.getLast?_eq_getElem?, r3.1, k1]
      have : eofCut A.length (.single F) = .ok F.length := eofCut_ends hA hw3
      simp only [directPos, k2 _ b7, q3, bind, Except.bind, natPos]
      rw [if_neg (by omega)]
      simp [this, pure, Except.pure]
    obtain ⟨y, hy⟩ := q2.trailer
    have hsec : XSecAt F s := h.1
    have hsp := hsec.pos
    have hdl : c.dropLast.length = (nb + 1).toNat := by rw [List.length_dropLast]; omega
    have hpt : ∀ (s' : XSec) (E0 : Entry) (nx : Int), s' ∈ s :: l → E0.absPos = some (.at s'.tp) → E0.absNext = some nx →
        parseTrailer (.single F) E0 = .ok s'.tr := by
      intro s' E0 nx hs' k1 k2
      have := (h.mem s' hs').trailer [] E0 nx k1 k2
      rwa [List.append_nil] at this
    obtain ⟨T, hcache, hhead⟩ : ∃ T, buildCache (.single F) c.dropLast = .ok ((List.replicate c.dropLast.length .null).set 0 (.dict T)) ∧
        ((Above s l ∧ T = s.tr ∧
          ∃ e, c.dropLast[0]? = some (.one e) ∧ e.absPos = some (.at s.tp) ∧ e.deleted = false ∧ e.envNum = none ∧ prevPos e = .int s.pos) ∨
        ∃ sm, l = [sm] ∧ s.tp ≤ sm.tp ∧ T = Dict.update (Dict.update [] sm.tr) s.tr ∧ ∃ es, c.dropLast[0]? = some (.many es)) := by
      rcases b4 with ⟨habove, ⟨w0, b4⟩, -⟩ | ⟨⟨sm, rfl, hsm⟩, xm, rfl, b4, -⟩
      · obtain ⟨sl0, k1, ap, nx, hsl0, k2⟩ := r3.2 0 _ b4
        rw [hy] at hsl0 k2
        have hap := k2 s.tp (by simpa using s.head_absPos y)
        subst hap
        subst hsl0
        have hc0 : c.dropLast[0]? = some (.one { s.head y with ver := w0, docVer := w0, absPos := some (.at s.tp), absNext := some nx }) := by
          rw [List.getElem?_dropLast, if_pos (by omega), k1]
        refine ⟨s.tr, buildCache_x hc0 ?_ ?_, .inl ⟨habove, rfl, _, hc0, rfl, by simpa using s.head_deleted y, by simpa using s.head_env y, ?_⟩⟩
        · simpa [Slot.isDeleted] using s.head_deleted y
        · exact merge_one (hpt s _ nx (by simp) rfl rfl) hsec.nodup
        · have := s.head_prev y hsp
          unfold prevPos at this ⊢
          exact this
      · obtain ⟨sl0, k1, es', rfl, k2⟩ := r3.2 0 _ b4
        cases k2 with
        | cons g1 g2 =>
        cases g2 with
        | cons g2 g3 =>
        cases g3
        obtain ⟨nx1, rfl⟩ := g1
        obtain ⟨nx2, rfl⟩ := g2
        have hxm : ∃ ym, xm.trailer = sm.head ym := by
          cases q4 with
          | cons k _ => exact k.trailer
        obtain ⟨ym, hym⟩ := hxm
        have hc0 := k1
        rw [show c[0]? = c.dropLast[0]? by rw [List.getElem?_dropLast, if_pos (by omega)]] at hc0
        refine ⟨Dict.update (Dict.update [] sm.tr) s.tr, buildCache_x hc0 rfl ?_, .inr ⟨sm, rfl, hsm, rfl, _, hc0⟩⟩
        refine merge_two (hpt sm _ nx1 (by simp) ?_ rfl) (hpt s _ nx2 (by simp) ?_ rfl)
        · show xm.trailer.absPos = _
          rw [hym, sm.head_absPos]
        · show x.trailer.absPos = _
          rw [hy, s.head_absPos]
    have hent : ∀ e ∈ listedX (s :: l), ∃ n : Nat, e.num = n ∧ 1 ≤ n ∧ (n : Int) ≤ nb ∧ XEntry F.length e := by
      intro e he
      rw [← all₂_objs_x hall] at he
      obtain ⟨y, hy, he⟩ := List.mem_flatMap.1 he
      have hy := List.mem_reverse.1 hy
      obtain ⟨s', hs', k⟩ := hall.mem_right y hy
      have hx := (h.mem s' hs').objs e (by rw [← k.objs]; exact he)
      rcases (n2 y hy).objs e he with ⟨n, p, g, h1, h2, h3, rfl⟩ | ⟨n, g, env, rank, h1, h2, rfl⟩ <;>
        exact ⟨n, rfl, h1, h2, hx⟩
    refine ⟨{ cur := c.dropLast, past := cs.map List.dropLast, cache := (List.replicate c.dropLast.length .null).set 0 (.dict T),
              curData := { fdata := .single F, eofCut := some F.length }, pastData := ds }, T, ?_, rfl, rfl, hhead, ?_, ?_, ?_, ?_⟩
    · unfold initialDoc
      simp only [Provider.size, bind, Except.bind, q1, n1, b1, r1]
      rw [List.mapM_cons, hd, hds]
      simp only [List.map_cons, bind, Except.bind, pure, Except.pure, hcache]
    · obtain ⟨c', k1, k2⟩ := hrev.getLast' b8
      obtain ⟨s', t1, t2⟩ : ∃ s', (s :: l).getLast? = some s' ∧ IsXSec F s' z0 := by
        obtain ⟨s', t1⟩ : ∃ s', (s :: l).getLast? = some s' := ⟨_, List.getLast?_cons⟩
        obtain ⟨z, t2, t3⟩ := hall.getLast' t1
        rw [b9] at t2
        cases t2
        exact ⟨s', t1, t3⟩
      obtain ⟨y', hy'⟩ := t2.trailer
      have hfr : (Doc.firstRev { cur := c.dropLast, past := cs.map List.dropLast, cache := (List.replicate c.dropLast.length .null).set 0 (.dict T), curData := { fdata := .single F, eofCut := some F.length }, pastData := ds }) = c'.dropLast := by
        unfold Doc.firstRev
        rw [List.getLastD_eq_getLast?, List.getLast?_map]
        simp only
        rw [List.getLast?_cons] at k1
        simp only [Option.some.injEq] at k1
        cases hcs : cs.getLast? with
        | none => rw [hcs] at k1; simp at k1; simp [k1]
        | some q => rw [hcs] at k1; simp at k1; simp [k1]
      have hlen' : c'.length = (nb + 2).toNat := by
        obtain ⟨E, -, -, k3⟩ := b2 m0 (List.mem_of_getLast? b8)
        rw [k2.1, k3.len]
      unfold firstXrefStreamNum
      rw [hfr, t1]
      rcases b10 with b10 | ⟨es, b10⟩
      · obtain ⟨sl, j1, ap, nx, rfl, -⟩ := k2.2 0 _ b10
        rw [slotAt_eq (by rw [List.getElem?_dropLast, if_pos (by omega), j1])]
        simp only [bind, Except.bind, pure, Except.pure, hy', s'.head_num, Option.bind_some]
      · obtain ⟨sl, j1, es', rfl, j2⟩ := k2.2 0 _ b10
        cases j2 with
        | cons g1 g2 =>
        obtain ⟨nx, rfl⟩ := g1
        rw [slotAt_eq (by rw [List.getElem?_dropLast, if_pos (by omega), j1])]
        simp only [bind, Except.bind, pure, Except.pure, hy', s'.head_num, Option.bind_some]
    · intro n es hn1 hn
      have hn := (getLast?_dropLast_get hn).1
      have hlt : n < m.length := by rw [← r3.1]; exact lt_of_getElem? hn
      have h0 : m[n]? = some m[n] := List.getElem?_eq_getElem hlt
      obtain ⟨sl', j1, j2⟩ := r3.2 n _ h0
      rw [hn] at j1
      cases j1
      cases hs : m[n] with
      | hole => rw [hs] at j2; cases j2
      | many es =>
        have := (b3.cells n _ h0).2 es hs
        omega
      | one e => rw [hs] at j2; obtain ⟨ap, k, hk, -⟩ := j2; cases hk
    · intro n hn
      rcases hlf : lastFor n (listedX (s :: l)) with _ | le
      · by_cases hle : (n : Int) ≤ nb
        · have k2 := b3.get n hn hle
          rw [hlf] at k2
          obtain ⟨sl', j1, j2⟩ := r3.2 n _ k2
          cases j2
          refine Or.inr ?_
          rw [List.getElem?_dropLast, if_pos (by omega), j1]
        · refine Or.inl ?_
          rw [List.getElem?_eq_none_iff]
          simp only
          omega
      · obtain ⟨hle1, hle2⟩ := lastFor_mem hlf
        obtain ⟨n', t1, t2, t3, t4⟩ := hent le hle1
        have hnn : n' = n := by omega
        subst hnn
        have hlt : n' < c.length - 1 := by omega
        have k2 := b3.get n' hn t3
        rw [hlf] at k2
        obtain ⟨e', k3, k4⟩ := k2
        obtain ⟨sl', j1, ap, nn, rfl, j3⟩ := r3.2 n' _ k3
        obtain ⟨⟨d1, d2⟩, -⟩ := b3.cells _ _ k3
        have hcell : c.dropLast[n']? = some (.one { e' with absPos := ap, absNext := some nn }) := by
          rw [List.getElem?_dropLast, if_pos hlt, j1]
        refine ⟨_, nn, hcell, ?_, d1, rfl, fun p hp => j3 p (by rw [k4]; exact hp)⟩
        obtain ⟨_, g, -, ⟨p, -, rfl⟩ | ⟨env, rank, rfl⟩⟩ := t4
        · rcases d2 with ⟨d3, -⟩ | ⟨env', rank', -, d4⟩
          · exact d3
          · rw [k4] at d4; cases d4
        · rcases d2 with ⟨d3, p, -, d4, -⟩ | ⟨env', rank', d3, d4⟩
          · rw [k4] at d4; cases d4
          · rw [k4] at d4; cases d4; exact d3
    · intro e he
      obtain ⟨n, t1, t2, t3, -⟩ := hent e he
      simp only
      omega

end Pdf
