/-
A revision written in table mode is a section that can be read again.
-/
import Verif.Lemmas.Reload

namespace Pdf
open Spec

/-! ### Searching -/

theorem findAux_first {p : Bytes} {x : UInt8} {q : Bytes} (hp : p = x :: q) : ∀ (A rest : Bytes) (i : Nat), x ∉ A →
    findAux p i (A ++ (p ++ rest)) = some (i + A.length)
  | [], rest, i, _ => by
    rw [hp]
    simp only [List.nil_append, List.cons_append, findAux, List.length_nil, Nat.add_zero]
    rw [if_pos]
    rw [startsWith_iff]
    exact ⟨rest, by simp⟩
  | c :: A, rest, i, h => by
    simp only [List.mem_cons, not_or] at h
    rw [List.cons_append, findAux, if_neg, findAux_first hp A rest (i + 1) h.2]
    · simp only [List.length_cons, Option.some.injEq]
      omega
    · rw [startsWith_iff, hp]
      rintro ⟨t, ht⟩
      simp only [List.cons_append, List.cons.injEq] at ht
      exact h.1 ht.1

theorem findAux_append {p : Bytes} : ∀ (text rest : Bytes) {i k : Nat}, findAux p i text = some k →
    findAux p i (text ++ rest) = some k
  | [], rest, i, k, h => by
    unfold findAux at h
    split at h
    · rename_i hp
      cases h
      subst hp
      cases rest with
      | nil => rfl
      | cons c r => simp [findAux, startsWith]
    · cases h
  | c :: text, rest, i, k, h => by
    rw [findAux] at h
    rw [List.cons_append, findAux]
    split at h
    · rename_i hs
      cases h
      rw [if_pos]
      rw [startsWith_iff] at hs ⊢
      obtain ⟨t, ht⟩ := hs
      exact ⟨t ++ rest, by rw [← List.append_assoc, ht, List.cons_append]⟩
    · rename_i hs
      rw [if_neg, findAux_append text rest h]
      rw [startsWith_iff] at hs ⊢
      rintro ⟨t, ht⟩
      apply hs
      have hlen : p.length ≤ (c :: text).length := by
        obtain ⟨j, -, hat⟩ := findAux_at h
        have h2 := hat.length_le
        simp only [List.length_cons, List.length_drop] at h2 ⊢
        omega
      have := congrArg (List.take p.length) ht
      rw [List.take_left, ← List.cons_append, List.take_append_of_le_length hlen] at this
      exact List.prefix_iff_eq_take.2 this

theorem findAux_exists {p : Bytes} : ∀ (text : Bytes) (i j : Nat), p <+: text.drop j → j ≤ text.length →
    ∃ k, k ≤ j ∧ findAux p i text = some (i + k)
  | [], i, j, h, _ => by
    simp only [List.drop_nil, List.prefix_nil] at h
    exact ⟨0, by omega, by simp [findAux, h]⟩
  | c :: text, i, j, h, hj => by
    rw [findAux]
    split
    · exact ⟨0, by omega, rfl⟩
    · rename_i hs
      cases j with
      | zero => exact absurd ((startsWith_iff _ _).2 h) hs
      | succ j =>
        obtain ⟨k, h1, h2⟩ := findAux_exists text (i + 1) j (by simpa using h) (by simpa using hj)
        exact ⟨k + 1, by omega, by rw [h2]; simp only [Option.some.injEq]; omega⟩

/-! ### The lines of a table -/

theorem natPad_mem {w n : Nat} {c : UInt8} (h : c ∈ natPad w n) : isDigit c = true := by
  exact List.all_eq_true.1 (natPad_digits w n) _ h

theorem linesText_no_t {ls : List TLine} (h : ∀ l ∈ ls, goodLine l) : (116 : UInt8) ∉ linesText ls := by
  intro hm
  unfold linesText at hm
  obtain ⟨t, ht, hm⟩ := List.mem_flatMap.1 hm
  obtain ⟨l, hl, rfl⟩ := List.mem_map.1 ht
  rcases List.mem_append.1 hm with hm | hm
  · cases l with
    | hdr n nb =>
      simp only [TLine.text, subHeader, List.mem_append] at hm
      have hd : ∀ n, (116 : UInt8) ∉ natDec n := by
        intro n hh
        have := List.all_eq_true.1 (natDec_all n) _ hh
        revert this; decide
      rcases hm with (hm | hm) | hm
      · exact hd _ hm
      · revert hm; decide
      · exact hd _ hm
    | ent off gen kw =>
      have hk := h _ hl
      simp only [TLine.text, List.mem_append] at hm
      have hd : ∀ w n, (116 : UInt8) ∉ natPad w n := by
        intro w n hh
        have := natPad_mem hh
        revert this; decide
      rcases hm with ((hm | hm) | hm) | hm
      · exact hd _ _ hm
      · revert hm; decide
      · exact hd _ _ hm
      · simp only [goodLine] at hk
        rcases hk with rfl | rfl <;> revert hm <;> decide
  · revert hm; decide

/-- The entry that is read for an element of a table. -/
def elemEntry (e : XElem) : Option Entry :=
  if e.free ∨ e.num = 0 then none
  else some { num := e.num, gen := e.gen, absPos := some (.at (e.counter.getD 0 : Nat)) }

theorem tableEntries_append : ∀ (a b : List XRow) {x y : List Entry}, tableEntries a = .ok x → tableEntries b = .ok y →
    tableEntries (a ++ b) = .ok (x ++ y)
  | [], b, x, y, h1, h2 => by cases h1; exact h2
  | .sub _ _ :: a, b, x, y, h1, h2 => by
    rw [tableEntries] at h1
    rw [List.cons_append, tableEntries]
    exact tableEntries_append a b h1 h2
  | .entry off num gen kw :: a, b, x, y, h1, h2 => by
    unfold tableEntries at h1
    rw [List.cons_append]
    unfold tableEntries
    by_cases ha : (!isAscii kw) = true
    · simp [ha, bind, Except.bind] at h1
    by_cases hn : gen < 0 ∨ num < 0
    · simp [ha, hn, bind, Except.bind] at h1
    simp only [ha, hn, if_false, bind, Except.bind, Bool.false_eq_true] at h1 ⊢
    rcases hx : tableEntries a with er | x'
    · rw [hx] at h1; cases h1
    rw [hx] at h1
    rw [tableEntries_append a b hx h2]
    simp only at h1 ⊢
    split at h1
    · rename_i hk
      cases h1
      rw [if_pos hk]
      rfl
    · rename_i hk
      cases h1
      rw [if_neg hk]

theorem tableEntries_entry {off num gen : Int} {kw : Bytes} {rows : List XRow} {x : List Entry} (ha : isAscii kw = true)
    (hg : 0 ≤ gen) (hn : 0 ≤ num) (h : tableEntries rows = .ok x) :
    tableEntries (.entry off num gen kw :: rows) = .ok (if kw ≠ b!"f" ∧ num ≠ 0 then
      { num := num, gen := gen.toNat, absPos := some (.at off) } :: x else x) := by
  unfold tableEntries
  rw [h]
  have h1 : ¬ (gen < 0 ∨ num < 0) := by omega
  simp only [ha, Bool.not_true, Bool.false_eq_true, if_false, h1, bind, Except.bind]
  split <;> rfl

theorem tableEntries_rows (nf : List (Nat × Nat)) : ∀ (es : List XElem),
    tableEntries (es.map (tableRow nf)) = .ok (es.filterMap elemEntry)
  | [] => rfl
  | e :: es => by
    have ih := tableEntries_rows nf es
    rw [List.map_cons, List.filterMap_cons]
    by_cases hf : e.free = true
    · have h1 : elemEntry e = none := by simp [elemEntry, hf]
      have h2 : tableRow nf e = .entry (((nf.lookup e.num).getD 0 : Nat) : Int) e.num ((e.gen + 1 : Nat) : Int) b!"f" := by
        simp [tableRow, hf]
      rw [h1, h2, tableEntries_entry (by decide) (by omega) (by omega) ih]
      simp
    · have h2 : tableRow nf e = .entry ((e.counter.getD 0 : Nat) : Int) e.num e.gen b!"n" := by
        simp [tableRow, hf]
      rw [h2, tableEntries_entry (by decide) (by omega) (by omega) ih]
      by_cases hn : e.num = 0
      · have h1 : elemEntry e = none := by simp [elemEntry, hn]
        simp [h1, hn]
      · have h1 : elemEntry e = some { num := e.num, gen := e.gen, absPos := some (.at (e.counter.getD 0 : Nat)) } := by
          simp [elemEntry, hf, hn]
        simp [h1, hn]

theorem tableEntries_blocks (nf : List (Nat × Nat)) : ∀ (bs : List (List XElem)),
    tableEntries (bs.flatMap (subsection nf)) = .ok (bs.flatten.filterMap elemEntry)
  | [] => rfl
  | b :: bs => by
    rw [List.flatMap_cons, List.flatten_cons, List.filterMap_append]
    refine tableEntries_append _ _ ?_ (tableEntries_blocks nf bs)
    unfold subsection
    rw [tableEntries]
    exact tableEntries_rows nf b

/-! ### The section of a revision -/

theorem noStream_fileEnd' (n : Nat) (rest : Bytes) : NoStreamNext (b!"\n" ++ (fileEnd n ++ rest)) := by
  rintro gap r hg e
  cases gap with
  | nil => simp [fileEnd] at e
  | cons c gap =>
    cases gap with
    | nil => simp [fileEnd] at e
    | cons d gap =>
      have hd := hg d (by simp)
      simp [fileEnd] at e
      rw [← e.2.1] at hd
      exact absurd hd (by unfold Skipped; decide)

theorem readTable_at [Zlib] {elems : List XElem} {t : Dict} {nf : List (Nat × Nat)} {out : Bytes}
    (h : formatXrefTable elems t nf = .ok out) (hwf : WF false false (.dict t) = true) :
    ∃ k, 4 < k ∧ k < out.length ∧
      (∀ pre n rest, slice (pre ++ out ++ (fileEnd n ++ rest)) pre.length (pre.length + 4) = b!"xref") ∧
      (∀ pre n rest, readTableSection (pre ++ out ++ (fileEnd n ++ rest)) pre.length =
        .ok ({ num := 0, absPos := some (.at ((pre.length + k : Nat) : Int)), xrefTablePos := some pre.length },
          elems.filterMap elemEntry, .dict (normEntries t).reverse)) ∧
      ∀ pre n rest, (pre ++ out ++ (fileEnd n ++ rest)).drop (pre.length + k) =
        b!"trailer\n" ++ ser 0 (.dict t) ++ b!"\nstartxref\n" ++ (natDec n ++ b!"\n%%EOF\n" ++ rest) := by
  obtain ⟨blocks, ser', hb1, hb2, hne, hser, hout⟩ := formatXrefTable_inv h
  rw [serialize_eq _ _ _ 0 hwf] at hser
  simp only [Except.ok.injEq] at hser
  subst hser
  generalize hA : b!"xref\n" ++ linesText (blocks.flatMap (blockLines nf)) = A at hout
  have hAt : (116 : UInt8) ∉ A := by
    rw [← hA]
    intro hm
    rcases List.mem_append.1 hm with hm | hm
    · revert hm; decide
    · refine linesText_no_t ?_ hm
      intro l hl
      obtain ⟨b, -, hx⟩ := List.mem_flatMap.1 hl
      rcases List.mem_cons.1 hx with rfl | hx
      · trivial
      · obtain ⟨e, -, rfl⟩ := List.mem_map.1 hx
        exact elemLine_good nf e
  have hA4 : 4 < A.length := by rw [← hA]; simp
  have hdropA : ∀ (pre : Bytes) n rest, (pre ++ out ++ (fileEnd n ++ rest)).drop pre.length =
      A ++ (b!"trailer" ++ ([10] ++ (ser 0 (.dict t) ++ 10 :: (fileEnd n ++ rest)))) := by
    intro pre n rest
    rw [List.append_assoc, List.drop_left' rfl, hout]
    simp
  refine ⟨A.length, hA4, by rw [hout]; simp, ?_, ?_, ?_⟩
  · intro pre n rest
    have := hdropA pre n rest
    rw [← hA] at this
    refine slice_of_drop (s := b!"xref") (post := b!"\n" ++ linesText (blocks.flatMap (blockLines nf)) ++ (b!"trailer" ++ ([10] ++ (ser 0 (.dict t) ++ 10 :: (fileEnd n ++ rest))))) ?_
    rw [this]
    simp
  · intro pre n rest
    obtain ⟨blocks', tr', c1, c2, c3, -⟩ := C14_xref_table _ _ _ _ h hwf pre (fileEnd n ++ rest) (noStream_fileEnd' n rest)
    have hd := hdropA pre n rest
    generalize pre ++ out ++ (fileEnd n ++ rest) = text at c3 hd ⊢
    have hfind : find text b!"trailer" pre.length = some (pre.length + A.length) := by
      unfold find
      rw [hd]
      exact findAux_first (x := 116) (q := b!"railer") rfl A _ _ hAt
    have hpx : parseXrefTable text pre.length =
        .ok ({ num := 0, absPos := some (.at ((pre.length + A.length : Nat) : Int)), xrefTablePos := some pre.length }, elems.filterMap elemEntry) := by
      unfold parseXrefTable
      rw [c3]
      simp only [bind, Except.bind, hfind, posOf, tableEntries_blocks, c1]
    have d0 : text.drop (pre.length + A.length) = [] ++ (b!"trailer" ++ 10 :: (ser 0 (.dict t) ++ 10 :: (fileEnd n ++ rest))) := by
      rw [drop_add_of hd]; simp
    have e0 := nextToken_at (tokAt_keyword (s := b!"trailer") (by decide) (c := 10) (by decide) _) (by simp) d0
    have d1 : text.drop (pre.length + A.length + ([] : Bytes).length + (b!"trailer").length) =
        [10] ++ (ser 0 (.dict t) ++ 10 :: (fileEnd n ++ rest)) := by
      rw [drop_add_of (drop_add_of d0)]; simp
    have htok : TokAt (ser 0 (.dict t)) (10 :: (fileEnd n ++ rest)) .dict := tokAt_container hwf (.inr (.inl ⟨_, rfl⟩)) 0 _
    have e1 := nextToken_at htok (by decide) d1
    have hsl := slice_of_drop (drop_add_of d1)
    have hparse := parse_ser hwf (by simp) 0 [] [] (.inr (.inr (.inl ⟨_, rfl⟩))) (fun _ => by decide)
    simp only [List.nil_append, List.append_nil, List.length_nil] at hparse
    unfold readTableSection
    rw [hpx]
    have hn : natPos ((pre.length + A.length : Nat) : Int) = .ok (pre.length + A.length) := by
      unfold natPos
      rw [if_neg (by omega), Int.toNat_natCast]
    simp only [bind, Except.bind, hn, e0, e1]
    rw [hsl, hparse]
    rfl
  · intro pre n rest
    rw [drop_add_of (hdropA pre n rest)]
    simp [fileEnd]

/-- Reading at a position of a file. -/
theorem readEntry_single {B : Bytes} {e : Entry} {p : Nat} {n : Int} (h1 : e.absPos = some (.at p)) (h2 : e.absNext = some n)
    (h3 : p < B.length) : readEntry (.single B) e = .ok (B, p) := by
  unfold readEntry
  simp only [h1, h2, orRaise, bind, Except.bind, single_read_at (B := B) (p := p) (by omega) (by omega)]
  rw [if_neg (by omega)]
  simp [pure, Except.pure]

theorem parseIndirect_single [Zlib] {B : Bytes} {e : Entry} {off num gen : Nat} {next : Int} {o : Obj}
    (h1 : e.absPos = some (.at off)) (h2 : e.absNext = some next) (ho : Storable o)
    (hp : PointsAt B off num gen o) : parseIndirect (.single B) e = .ok (readBack o) := by
  obtain ⟨s, p1, rest, p2⟩ := hp
  have hlt : off < B.length := by
    refine Classical.byContradiction fun hlt => ?_
    rw [List.drop_eq_nil_of_le (by omega)] at p2
    simp [indirect] at p2
  unfold parseIndirect
  rw [readEntry_single h1 h2 hlt]
  simp only [bind, Except.bind]
  exact parse_indirect (num := num) (gen := gen) (rest := rest) ho p1 p2.symm

end Pdf
