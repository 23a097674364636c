/-
Scanning a file at the places where something was written.
-/
import Verif.Lemmas.FileMap
import Verif.Lemmas.Indirect
import Verif.Lemmas.Reload2

namespace Pdf
open Spec

/-! ### Tokens -/

theorem tokAt_comment {body : Bytes} (hb : ∀ c ∈ body, isEol c = false) {c : UInt8} (hc : isEol c = true) (post : Bytes) :
    TokAt (37 :: body) (c :: post) .comment := by
  intro text h i _
  have key : ∀ (body : Bytes) (h k : Nat), (∀ c ∈ body, isEol c = false) →
      tokLoop text ⟨.comment, 1, false, h, k⟩ (body ++ c :: post) = (h, k + body.length, some .comment) := by
    intro body
    induction body with
    | nil =>
      intro h k _
      rw [List.nil_append, tokLoop]
      simp [tokStep, hc]
    | cons x body ih =>
      intro h k hb
      rw [List.cons_append, tokLoop]
      simp only [tokStep, hb x (by simp), Bool.false_eq_true, if_false]
      rw [ih _ _ (fun y hy => hb y (by simp [hy]))]
      simp only [List.length_cons, Prod.mk.injEq, true_and, and_true]
      omega
  rw [List.cons_append, tokLoop]
  have : tokStep text ⟨.tbd, 1, false, h, i⟩ 37 (body ++ c :: post) = .next ⟨.comment, 1, false, i, i + 1⟩ := by
    simp [tokStep, startsWith, isNumStart, isAlpha, List.isPrefixOf, isDigit]
  rw [this]
  simp only
  rw [key body i (i + 1) hb]
  simp only [List.length_cons, Prod.mk.injEq, true_and, and_true]
  omega

section
variable [Zlib]

/-! ### Regions -/

theorem region_void {text ws s post : Bytes} {i : Nat} {t : TokT} (ht : TokAt s post t) (hws : ∀ c ∈ ws, isSpace c = true)
    (hne : ws ≠ []) (hd : text.drop i = ws ++ (s ++ post)) :
    parseRegion text i = .ok (some (.void i (i + ws.length) ws)) := by
  have hl : 0 < ws.length := List.length_pos_iff.2 hne
  unfold parseRegion
  rw [nextToken_at ht hws hd]
  simp only
  rw [if_pos (by omega), slice_of_drop hd]

theorem region_last {text : Bytes} {i : Nat} (hd : text.drop i = b!"\n") :
    parseRegion text i = .ok (some (.void i (i + 1) b!"\n")) := by
  have hn : nextToken text i = (i, i + 1, none) := by
    unfold nextToken
    rw [hd]
    simp [tokLoop, tokStep, startsWith, isNumStart, isAlpha, List.isPrefixOf, isDigit]
  have hs : slice text i (i + 1) = b!"\n" := slice_of_drop (s := b!"\n") (post := []) (by rw [hd]; rfl)
  unfold parseRegion
  rw [hn]
  simp [hs]

theorem region_comment {text body post : Bytes} {i : Nat} (hb : ∀ c ∈ body, isEol c = false)
    (hd : text.drop i = 37 :: body ++ 10 :: post) :
    parseRegion text i = .ok (some (.comment i (i + (body.length + 1)) (37 :: body))) := by
  have ht := tokAt_comment hb (c := 10) (by decide) post
  have hn := nextToken_at (ws := []) ht (by simp) (text := text) (i := i) hd
  simp only [List.length_nil, Nat.add_zero] at hn
  have hs : slice text i (i + 1) = b!"%" := slice_of_drop (s := b!"%") (post := body ++ 10 :: post) (by rw [hd]; rfl)
  unfold parseRegion
  rw [hn]
  simp only [ne_eq, not_true_eq_false, if_false, hs, if_true, reduceCtorEq]
  rw [slice_of_drop hd]
  rfl

theorem region_startxref {text post : Bytes} {i n : Nat} (hd : text.drop i = b!"startxref\n" ++ natDec n ++ 10 :: post) :
    parseRegion text i = .ok (some (.startxref i (i + (10 + (natDec n).length)) (natDec n))) := by
  have h0 : text.drop i = [] ++ (b!"startxref" ++ 10 :: (natDec n ++ 10 :: post)) := by rw [hd]; simp
  have e0 := nextToken_at (tokAt_keyword (s := b!"startxref") (by decide) (c := 10) (by decide) _) (by simp) h0
  have h1 : text.drop (i + ([] : Bytes).length + (b!"startxref").length) = [10] ++ (natDec n ++ 10 :: post) := by
    rw [drop_add_of (drop_add_of h0)]; simp
  have e1 := nextToken_at (tokAt_nat n (c := 10) (by decide) _) (by decide) h1
  have h2 := slice_of_drop (drop_add_of h1)
  have hs : slice text i (i + 1) = b!"s" := slice_of_drop (s := b!"s") (post := b!"tartxref" ++ 10 :: (natDec n ++ 10 :: post)) (by rw [h0]; rfl)
  have hs9 : slice text i (i + 9) = b!"startxref" := slice_of_drop (s := b!"startxref") (by rw [h0]; rfl)
  unfold parseRegion
  rw [e0]
  simp only [List.length_nil, Nat.add_zero] at e1 h2 e0 ⊢
  simp only [ne_eq, not_true_eq_false, if_false, hs, hs9, if_true, reduceCtorEq, e0, e1, h2]
  simp
  omega

/-- The tokens of the header of an indirect object and of what follows. -/
theorem header_tokens {text s post : Bytes} {t : TokT} {i num gen : Nat} (ht : TokAt s post t)
    (hd : text.drop i = header num gen ++ (s ++ post)) :
    ∃ j1 i2 j2 i3 j3, nextToken text i = (i, j1, some .integer) ∧ nextToken text j1 = (i2, j2, some .integer) ∧
      nextToken text j2 = (i3, j3, some .keyword) ∧
      nextToken text j3 = (i + (header num gen).length, i + (header num gen).length + s.length, some t) ∧
      slice text i j1 = natDec num ∧ slice text i2 j2 = natDec gen ∧ slice text i3 j3 = b!"obj" := by
  have h0 : text.drop i = [] ++ (natDec num ++ 32 :: (natDec gen ++ b!" obj\n" ++ (s ++ post))) := by
    rw [hd]; simp [header]
  have e0 := nextToken_at (tokAt_nat num (c := 32) (by decide) _) (by simp) h0
  have s0 := slice_of_drop (drop_add_of h0)
  have h1 : text.drop (i + ([] : Bytes).length + (natDec num).length) =
      [32] ++ (natDec gen ++ 32 :: (b!"obj\n" ++ (s ++ post))) := by
    rw [drop_add_of (drop_add_of h0)]; simp
  have e1 := nextToken_at (tokAt_nat gen (c := 32) (by decide) _) (by decide) h1
  have s1 := slice_of_drop (drop_add_of h1)
  have h2' : text.drop (i + ([] : Bytes).length + (natDec num).length + [(32 : UInt8)].length + (natDec gen).length) =
      [32] ++ (b!"obj" ++ 10 :: (s ++ post)) := by
    rw [drop_add_of (drop_add_of h1)]; simp
  have e2 := nextToken_at (tokAt_keyword (s := b!"obj") (by decide) (c := 10) (by decide) _) (by decide) h2'
  have s2 := slice_of_drop (drop_add_of h2')
  have h3' : text.drop (i + ([] : Bytes).length + (natDec num).length + [(32 : UInt8)].length +
      (natDec gen).length + [(32 : UInt8)].length + (b!"obj").length) = [10] ++ (s ++ post) := by
    rw [drop_add_of (drop_add_of h2')]; simp
  have e3 := nextToken_at ht (by decide) h3'
  refine ⟨_, _, _, _, _, e0, e1, e2, ?_, s0, s1, s2⟩
  rw [e3]
  simp only [header, List.length_append, List.length_nil, List.length_cons, Prod.mk.injEq, and_true]
  omega

omit [Zlib] in
theorem nextLine_header {text rest : Bytes} {i num gen : Nat} (hd : text.drop i = header num gen ++ rest) :
    (nextLine text i).map (·.1) = some i := by
  obtain ⟨c, w, hw, hc, -⟩ := natDec_cons num
  have hne : isEol c = false := by
    revert hc
    simp only [isDigit, isEol]
    intro h
    rw [Bool.eq_false_iff]
    intro hh
    simp only [Bool.or_eq_true, beq_iff_eq] at hh
    rcases hh with rfl | rfl <;> revert h <;> decide
  have hex : ∀ (l : Bytes) (j : Nat), (∃ c ∈ l, isEol c = true) → ∃ k, nextLineEnd j l = some k := by
    intro l j hl
    rcases hk : nextLineEnd j l with _ | k
    · obtain ⟨c, hc, he⟩ := hl
      rw [nextLineEnd_none _ _ hk c hc] at he
      cases he
    · exact ⟨k, rfl⟩
  obtain ⟨k, hk⟩ := hex (text.drop i) i ⟨10, by rw [hd]; simp [header], by decide⟩
  unfold nextLine
  have hl : nextLineStart i (text.drop i) = some (i, text.drop i) := by
    have : text.drop i = c :: (w ++ b!" " ++ natDec gen ++ b!" obj\n" ++ rest) := by
      rw [hd, header, hw]; simp
    rw [this, nextLineStart, hne]
    rfl
  rw [hl]
  simp only [hk]
  rfl

omit [Zlib] in
theorem header_length {num gen : Nat} {s : Bytes} : (indirect num gen s).length = (header num gen).length + s.length + 8 := by
  simp only [indirect, header, List.length_append, List.length_cons, List.length_nil]

omit [Zlib] in
theorem slice_first {text w : Bytes} {c : UInt8} {i n : Nat} (h : text.drop i = c :: w) :
    (slice text i (i + (n + 1))).head? = some c := by
  unfold slice
  rw [List.drop_take, h]
  simp

/-- The rows of a table with the rank of their subsection, from `s` on, and their rank in it. -/
def numbered (nf : List (Nat × Nat)) (s : Nat) (blocks : List (List XElem)) : List (Nat × Nat × XRow) :=
  (blocks.zipIdx s).flatMap fun b => (b.1.map (tableRow nf)).zipIdx.map fun x => (b.2, x.2, x.1)

omit [Zlib] in
theorem numberRows_entries (nf : List (Nat × Nat)) (s : Nat) (rest : List XRow) : ∀ (es : List XElem) (l : Nat),
    numberRows (some (s, l)) (es.map (tableRow nf) ++ rest) =
      (numberRows (some (s, l + es.length)) rest).map
        (((es.map (tableRow nf)).zipIdx l).map (fun x => (s, x.2, x.1)) ++ ·)
  | [], l => by cases h : numberRows (some (s, l)) rest <;> simp [h, Except.map]
  | e :: es, l => by
    have hrow : ∃ a b c k, tableRow nf e = .entry a b c k := by
      unfold tableRow
      split <;> exact ⟨_, _, _, _, rfl⟩
    obtain ⟨a, b, c, k, hrow⟩ := hrow
    rw [List.map_cons, List.cons_append, hrow, numberRows, numberRows_entries nf s rest es (l + 1)]
    · rw [show l + (e :: es).length = l + 1 + es.length by simp only [List.length_cons]; omega]
      cases numberRows (some (s, l + 1 + es.length)) rest <;> simp [Except.map, bind, Except.bind]
    · intro _ _ h; cases h

omit [Zlib] in
theorem numberRows_blocks (nf : List (Nat × Nat)) : ∀ (blocks : List (List XElem)) (s l : Nat),
    numberRows (some (s, l)) (blocks.flatMap (subsection nf)) = .ok (numbered nf (s + 1) blocks)
  | [], _, _ => rfl
  | b :: bs, s, l => by
    rw [List.flatMap_cons, subsection, List.cons_append, numberRows, numberRows_entries, numberRows_blocks nf bs]
    simp [Except.map, numbered]

/-- An indirect object. -/
theorem region_obj {text rest s : Bytes} {i num gen : Nat} {o : Obj} (ho : Storable o)
    (hs : serialize 0 o = .ok s) (hd : text.drop i = indirect num gen s ++ rest) :
    parseRegion text i = .ok (some (.indObj (some i) (i + (indirect num gen s).length - 1) num gen (readBack o))) := by
  have hd' : text.drop i = header num gen ++ (s ++ (b!"\nendobj\n" ++ rest)) := by
    rw [hd]; simp [indirect, header]
  have hparse := parse_indirect ho hs hd
  -- the tokens of the object
  obtain ⟨s1, tail, t, rfl, ht, htail⟩ : ∃ s1 tail t, s = s1 ++ tail ∧ TokAt s1 (tail ++ (b!"\nendobj\n" ++ rest)) t ∧
      (tail = [] ∨ ∃ enc, tail = b!"\n" ++ streamPart enc ∧ ¬ b!"endstream" <:+: enc ∧ enc.getLast? ≠ some 13) := by
    cases o with
    | ref => exact absurd ho id
    | stream d content enc =>
      obtain ⟨h1, h2, h3, h4, h5⟩ := ho
      have h1' := h1
      simp only [WF, Bool.and_eq_true, decide_eq_true_eq] at h1'
      have hs' : s = ser 0 (.dict d) ++ (b!"\n" ++ streamPart enc) := by
        rw [serialize, serializeEntries_eq d _ _ 0 h1'.1] at hs
        simp [bind, Except.bind, h2] at hs
        rw [← hs]
        simp [ser, streamPart]
      exact ⟨_, _, _, hs', tokAt_dict 0 (serEntries_dtrans d _ 0 h1'.1) _, .inr ⟨enc, rfl, h3, h4⟩⟩
    | null => simp [Storable, WF] at ho
    | _ =>
      have hwf := ho
      simp only [Storable] at hwf
      have hs' := (serialize_eq _ _ _ 0 hwf).symm.trans hs
      simp only [Except.ok.injEq] at hs'
      subst hs'
      exact ⟨_, [], _, (List.append_nil _).symm, tokAt_obj hwf (by simp) 0 (c := 10) (by decide) (b!"endobj\n" ++ rest), .inl rfl⟩
  obtain ⟨j1, i2, j2, i3, j3, e0, e1, e2, e3, q0, q1, q2⟩ := header_tokens (num := num) (gen := gen) ht (by rw [hd']; simp)
  have hnth : (nthToken text 3 i).1 = i + (header num gen).length := by
    simp only [nthToken, e0, e1, e2, e3]
  rw [hnth] at hparse
  -- the end
  have hafter : text.drop (i + (header num gen).length + s1.length) = tail ++ (b!"\nendobj\n" ++ rest) := by
    have : text.drop i = (header num gen ++ s1) ++ (tail ++ (b!"\nendobj\n" ++ rest)) := by rw [hd']; simp
    have := drop_add_of this
    rwa [List.length_append, ← Nat.add_assoc] at this
  have hlast : ∀ k, text.drop k = b!"\nendobj\n" ++ rest → nextToken text k = (k + 1, k + 7, some .keyword) := by
    intro k hk
    have := nextToken_at (tokAt_keyword (s := b!"endobj") (by decide) (c := 10) (by decide) rest)
      (text := text) (ws := [10]) (i := k) (by decide) (by rw [hk]; simp)
    rw [this]
    rfl
  have hfin : ∃ a b t', nextToken text (i + (header num gen).length + s1.length) = (a, b, t') ∧
      (if t' = some .stream then (nextToken text b).2.1 else b) = i + (indirect num gen (s1 ++ tail)).length - 1 := by
    rcases htail with rfl | ⟨enc, rfl, h3, h4⟩
    · refine ⟨_, _, _, hlast _ (by rw [hafter]; rfl), ?_⟩
      rw [if_neg (by simp), header_length]
      simp only [List.append_nil]
      omega
    · have hst := tokAt_stream h3 h4 (b!"\nendobj\n" ++ rest)
      have hd2 : text.drop (i + (header num gen).length + s1.length) = [10] ++ (streamPart enc ++ (b!"\nendobj\n" ++ rest)) := by
        rw [hafter]; simp
      have e4 := nextToken_at hst (by decide) hd2
      refine ⟨_, _, _, e4, ?_⟩
      rw [if_pos rfl, hlast _ (drop_add_of (drop_add_of hd2)), header_length]
      simp only [List.length_append, List.length_cons, List.length_nil]
      omega
  obtain ⟨a, b, t', e4, hb⟩ := hfin
  have hfirst : ∃ c w, text.drop i = c :: w ∧ isDigit c = true := by
    obtain ⟨c, w, hw, hc, -⟩ := natDec_cons num
    exact ⟨c, _, by rw [hd', header, hw]; rfl, hc⟩
  obtain ⟨c, w, hcw, hc⟩ := hfirst
  have hs1 : slice text i (i + 1) = [c] := slice_of_drop (s := [c]) (post := w) (by rw [hcw]; rfl)
  have hs9 : slice text i (i + 9) ≠ b!"startxref" := by
    intro hh
    have : (slice text i (i + 9)).head? = some c := slice_first hcw
    rw [hh] at this
    cases this
    revert hc; decide
  have hsp : slice text i (i + 1) ≠ b!"%" := by
    rw [hs1]
    intro hh
    cases hh
    revert hc; decide
  unfold parseRegion
  rw [e0]
  simp only [ne_eq, not_true_eq_false, if_false, hsp, hs9, reduceCtorEq, if_true, e0, e1, e2, q2, true_and]
  unfold parseIndirectObj
  simp only [e0, e1, e2, e3, e4, q0, q1, pyInt_natDec, orRaise, bind, Except.bind, hparse, hb, nextLine_header hd', Except.map]

/-- A table. -/
theorem region_table {elems : List XElem} {t : Dict} {nf : List (Nat × Nat)} {out : Bytes}
    (h : formatXrefTable elems t nf = .ok out) (hwf : WF false false (.dict t) = true) (pre : Bytes) (n : Nat) (rest : Bytes) :
    ∃ rows tr blocks, blocks.flatten = elems ∧ (∀ b ∈ blocks, IsRun b) ∧ pyEq (.dict t) tr = true ∧ parseRegion (pre ++ out ++ (fileEnd n ++ rest)) pre.length =
        .ok (some (.xrefTable pre.length (pre.length + out.length - 1) rows tr)) ∧
      numberRows none rows = .ok (numbered nf 0 blocks) := by
  obtain ⟨k, k1, k2, k3, -, -⟩ := readTable_at h hwf
  obtain ⟨blocks, tr', c1, c2, c3, c4⟩ := C14_xref_table _ _ _ _ h hwf pre (fileEnd n ++ rest) (noStream_fileEnd' n rest)
  refine ⟨blocks.flatMap (subsection nf), tr', blocks, c1, c2, c4, ?_, ?_⟩
  · have h4 := k3 pre n rest
    obtain ⟨w, hw⟩ : ∃ w, out = b!"xref" ++ 10 :: w := by
      obtain ⟨rows, h1, h⟩ := bind_eq_ok h
      obtain ⟨ls, h2, h⟩ := bind_eq_ok h
      obtain ⟨s0, h3, h⟩ := bind_eq_ok h
      cases h
      exact ⟨ls.flatMap (· ++ b!"\n") ++ b!"trailer\n" ++ s0 ++ b!"\n", by simp⟩
    have hd : (pre ++ out ++ (fileEnd n ++ rest)).drop pre.length = [] ++ (b!"xref" ++ 10 :: (w ++ (fileEnd n ++ rest))) := by
      rw [List.append_assoc, List.drop_left' rfl, hw]; simp
    have e0 := nextToken_at (tokAt_keyword (s := b!"xref") (by decide) (c := 10) (by decide) _) (by simp) hd
    generalize pre ++ out ++ (fileEnd n ++ rest) = text at *
    simp only [List.length_nil, Nat.add_zero, List.length_cons] at e0
    have hs1 : slice text pre.length (pre.length + 1) = b!"x" := slice_of_drop (s := b!"x") (post := b!"ref" ++ 10 :: (w ++ (fileEnd n ++ rest))) (by rw [hd]; rfl)
    have hs9 : slice text pre.length (pre.length + 9) ≠ b!"startxref" := by
      intro hh
      have : (slice text pre.length (pre.length + 9)).head? = some 120 := slice_first hd
      rw [hh] at this
      cases this
    unfold parseRegion
    rw [e0]
    simp only [ne_eq, not_true_eq_false, if_false, hs1, hs9, reduceCtorEq]
    rw [if_neg (by decide), if_neg (by decide), if_pos (by rw [← h4]; rfl)]
    rw [c3]
    rfl
  · cases blocks with
    | nil => rfl
    | cons b bs =>
      rw [List.flatMap_cons, subsection, List.cons_append, numberRows, numberRows_entries, numberRows_blocks]
      simp [Except.map, numbered]

end

end Pdf
