/-
C13-C17: cross-reference streams and tables.
-/
import Verif.Lemmas.Xref
import Verif.Lemmas.KernelRfl

namespace Pdf
open Spec

/-! ## C15 -/

/-- Numbers and tags described by index pairs, written with plain ranges. -/
def Spec.describe : List (Nat × Nat) → Nat → List (Int × Nat)
  | [], _ => []
  | (s, n) :: rest, k =>
    (List.range' s n).map (fun (j : Nat) => ((j : Int), k)) ++ Spec.describe rest (k + 1)

/-- **C15, expansion.** For every list of index pairs with counts at least one,
`expand_xref_index` lists the numbers of each pair in order, tagged with the rank of the pair. -/
theorem C15_expand (pairs : List (Nat × Nat)) (h : ∀ p ∈ pairs, 1 ≤ p.2) (k : Nat) :
    expandXrefIndex (pairs.flatMap fun p => [(p.1 : Int), (p.2 : Int)]) k
      = .ok (Spec.describe pairs k) := by
  induction pairs generalizing k with
  | nil => rfl
  | cons p rest ih =>
    obtain ⟨s, n⟩ := p
    simp only [List.flatMap_cons, List.cons_append, List.nil_append]
    rw [expand_run s n _ k (h (s, n) (by simp)), ih (fun p hp => h p (by simp [hp]))]
    rfl

example : ∀ p ∈ [(3, 2), (9, 1)], 1 ≤ p.2 := by decide
example : expandXrefIndex [3, 2, 9, 1] 0 = .ok [(3, 0), (4, 0), (9, 1)] := by decide

/-- **C15, grouping.** Grouping any non-empty list of object numbers into `/Index` pairs (as
`format_xref_stream` does) and expanding the pairs returns that list. No ordering is required. -/
theorem C15_group (nums : List Nat) (h : nums ≠ []) :
    ∃ idx t, indexPairs nums = .ok idx ∧ expandXrefIndex (idx.map Int.ofNat) 0 = .ok t ∧
      t.map Prod.fst = nums.map Int.ofNat :=
  expand_indexPairs nums h

example : indexPairs [0, 4, 5, 6, 9] = .ok [0, 1, 4, 3, 9, 1] := by decide

/-- The restriction to counts of at least one is necessary: an empty subsection yields a number
that it does not contain. -/
theorem C15_zero_count : expandXrefIndex [7, 0] 0 = .ok [(7, 0)] := rfl

/-! ## C13 -/

/-- `C13_xref_stream`, with the rows. -/
theorem xrefStream_parts [Zlib] (elems : List XElem) (trailer : Dict) (nf : List (Nat × Nat))
    (oNum : Nat) (out : Bytes) (trailer' : Dict)
    (h : formatXrefStream elems trailer nf oNum = .ok (out, trailer')) :
    ∃ content enc ser table,
      out = natDec oNum ++ b!" 0 obj\n" ++ ser ++ b!"\n" ++ b!"endobj\n" ∧
      serialize 0 (.stream trailer' content enc) = .ok ser ∧
      encodeStream content trailer' = .ok enc ∧
      parseXrefStreamRaw trailer' content = .ok table ∧
      table.map (fun r => (r.offset, r.env, r.num, r.gen, r.kw)) = elems.map (Spec.entryOf nf) ∧
      ∃ (b : Nat) (rows : List Bytes), 1 ≤ b ∧ content = rows.flatten ∧ elems.mapM (xrefRow nf b) = .ok rows ∧
        Dict.get? trailer' b!"/W" = some (.list [.int 1, .int b, .int b]) := by
  obtain ⟨maxc, rows, index, enc, ser, d, hm, hr, hi, hd, he, ht, hs, ho⟩ := formatXrefStream_inv h
  have hW : Dict.get? trailer' b!"/W" = some (.list [.int 1, .int (xrefWidth maxc),
      .int (xrefWidth maxc)]) := by
    rw [ht, hd, Dict.get?_set, if_neg (by decide), Dict.get?_set, if_neg (by decide),
      Dict.get?_set, if_pos rfl]
  have hI : Dict.get? trailer' b!"/Index" = some (.list (index.map fun (n : Nat) => .int n)) := by
    rw [ht, hd, Dict.get?_set, if_neg (by decide), Dict.get?_set, if_pos rfl]
  obtain ⟨h1, h2⟩ := mapM_inv ([] : Bytes) hr
  have hne : elems.map (·.num) ≠ [] := by
    intro hh; rw [hh] at hi; cases hi
  obtain ⟨idx, t, e1, e2, e3⟩ := expand_indexPairs _ hne
  rw [hi] at e1
  cases e1
  obtain ⟨table, e4, e5⟩ := xrefStreamLoop_rows (nf := nf) (b := xrefWidth maxc) _ elems t []
    rows.flatten h1 (by rw [e3]; simp) (by rw [h2]; rfl)
  have hfil : encodeStream rows.flatten trailer' = encodeStream rows.flatten d := by
    rw [ht]
    simp only [encodeStream]
    rw [Dict.get?_set, if_neg (by decide)]
  refine ⟨rows.flatten, enc, ser, table, ho, hs, by rw [hfil, he], ?_, e5, xrefWidth maxc, rows, by simp [xrefWidth], rfl, hr, hW⟩
  unfold parseXrefStreamRaw
  simp only [hW, hI, orRaise, bind, Except.bind, strictInts_nats, e2]
  have hcols : intList (.list [.int 1, .int (xrefWidth maxc), .int (xrefWidth maxc)])
      = .ok [1, (xrefWidth maxc : Int), (xrefWidth maxc : Int)] := rfl
  rw [hcols]
  have hnn : ([1, (xrefWidth maxc : Int), (xrefWidth maxc : Int)]).any (· < 0) = false := by
    simp
  simp only [hnn]
  exact e4

/-- **C13.** Whenever `format_xref_stream` succeeds (every field fits in its column), the stream
object it writes is such that `parse_xref_stream_raw`, applied to its dictionary and its content,
returns exactly the entries given to the writer: same free / in-use / embedded status, same
positions, generations, envelopes and ranks, same object numbers, same order. -/
theorem C13_xref_stream [Zlib] (elems : List XElem) (trailer : Dict) (nf : List (Nat × Nat))
    (oNum : Nat) (out : Bytes) (trailer' : Dict)
    (h : formatXrefStream elems trailer nf oNum = .ok (out, trailer')) :
    ∃ content enc ser table,
      out = natDec oNum ++ b!" 0 obj\n" ++ ser ++ b!"\n" ++ b!"endobj\n" ∧
      serialize 0 (.stream trailer' content enc) = .ok ser ∧
      encodeStream content trailer' = .ok enc ∧
      parseXrefStreamRaw trailer' content = .ok table ∧
      table.map (fun r => (r.offset, r.env, r.num, r.gen, r.kw)) = elems.map (Spec.entryOf nf) := by
  obtain ⟨content, enc, ser, table, h1, h2, h3, h4, h5, -⟩ := xrefStream_parts _ _ _ _ _ _ h
  exact ⟨content, enc, ser, table, h1, h2, h3, h4, h5⟩

/-- A concrete use: a free entry, an object at offset 300, an embedded object; unfiltered. -/
example [Zlib] : (formatXrefStream
    [⟨true, 0, 9, none, none⟩, ⟨false, 4, 0, some 300, none⟩, ⟨false, 5, 0, some 1, some 4⟩]
    [(b!"/Size", .int 6)] [(0, 0)] 7).isOk = true := by kernel_rfl

theorem readCols_fields (st : Bytes) : ∀ (cols : List Nat) (i : Nat),
    ∃ fields : List Bytes, readCols st cols i =
        (fields.map fromBytesBig, fields.flatMap (fun f => asciihex f ++ b!" "), i + cols.sum) ∧
      fields.flatten = slice st i (i + cols.sum) ∧ fields.length = cols.length
  | [], i => ⟨[], by simp [readCols], by simp [slice_self], rfl⟩
  | c :: cols, i => by
    obtain ⟨fields, h1, h2, h3⟩ := readCols_fields st cols (i + c)
    refine ⟨slice st i (i + c) :: fields, ?_, ?_, by simp [h3]⟩
    · simp only [readCols, h1]
      simp [Nat.add_assoc]
    · simp only [List.flatten_cons, h2, List.sum_cons]
      rw [slice_append_slice st (by omega) (by omega), Nat.add_assoc]

theorem rows_fields (st : Bytes) (cols : List Nat) : ∀ (nums : List (Int × Nat)) (k : Nat) (rows : List XSRow),
    xrefStreamLoop st cols nums (k * cols.sum) = .ok rows → ∀ r ∈ rows, ∃ (j : Nat) (fields : List Bytes),
      fields.flatten = slice st (j * cols.sum) ((j + 1) * cols.sum) ∧ fields.length = cols.length ∧
      r.raw = fields.flatMap (fun f => asciihex f ++ b!" ")
  | [], k, rows, h, r, hr => by
    rw [xrefStreamLoop] at h
    split at h <;> cases h
    cases hr
  | (num, sub) :: nums, k, rows, h, r, hr => by
    rw [xrefStreamLoop] at h
    split at h
    · obtain ⟨fields, h1, h2, h3⟩ := readCols_fields st cols (k * cols.sum)
      rw [h1] at h
      simp only at h
      obtain ⟨row, hrow, h⟩ := bind_eq_ok h
      obtain ⟨rest, hrest, h⟩ := bind_eq_ok h
      cases h
      rcases List.mem_append.mp hr with hr | hr
      · refine ⟨k, fields, by rw [h2, Nat.add_mul, Nat.one_mul], h3, ?_⟩
        unfold rowOf at hrow
        split at hrow
        · cases hrow
        · split at hrow
          · split at hrow
            · split at hrow
              · cases hrow; simp only [List.mem_singleton] at hr; rw [hr]
              · split at hrow <;> · cases hrow; simp only [List.mem_singleton] at hr; rw [hr]
            · cases hrow
          · cases hrow; cases hr
      · rw [← Nat.succ_mul] at hrest
        exact rows_fields st cols nums (k + 1) rest hrest r hr
    · cases h; cases hr

/-- **C13, the text of a row.** Whatever the stream, written by any program: the text kept with a row to be displayed is
made of the hexadecimal digits of the columns of one row of the data, each one followed by a blank. -/
theorem C13_text (entries : Dict) (st : Bytes) (rows : List XSRow) (h : parseXrefStreamRaw entries st = .ok rows) :
    ∃ cols : List Nat, ∀ r ∈ rows, ∃ (j : Nat) (fields : List Bytes),
      fields.flatten = slice st (j * cols.sum) ((j + 1) * cols.sum) ∧ fields.length = cols.length ∧
      r.raw = fields.flatMap (fun f => asciihex f ++ b!" ") := by
  unfold parseXrefStreamRaw at h
  obtain ⟨w, -, h⟩ := bind_eq_ok h
  obtain ⟨cols, -, h⟩ := bind_eq_ok h
  refine ⟨cols.map Int.toNat, ?_⟩
  have key : ∀ x : Py (List Int), (x >>= fun rg => expandXrefIndex rg 0 >>= fun nums =>
      xrefStreamLoop st (cols.map Int.toNat) nums 0) = .ok rows → ∀ r ∈ rows, ∃ (j : Nat) (fields : List Bytes),
      fields.flatten = slice st (j * (cols.map Int.toNat).sum) ((j + 1) * (cols.map Int.toNat).sum) ∧
      fields.length = (cols.map Int.toNat).length ∧ r.raw = fields.flatMap (fun f => asciihex f ++ b!" ") := by
    intro x hx
    obtain ⟨rg, -, hx⟩ := bind_eq_ok hx
    obtain ⟨nums, -, hx⟩ := bind_eq_ok hx
    exact rows_fields st _ nums 0 rows (by simpa using hx)
  simp only at h
  split at h
  · cases h
  · split at h
    · rename_i o _
      exact key (strictInts o) h
    · obtain ⟨size, -, h⟩ := bind_eq_ok h
      split at h
      · rename_i n
        exact key (.ok [0, n]) h
      · cases h

/-- A row of an object at offset 300. -/
example : (parseXrefStreamRaw [(b!"/W", .list [.int 1, .int 2, .int 0]), (b!"/Size", .int 1)] [1, 1, 44]).map
    (·.map fun r => (r.offset, r.raw)) = .ok [(300, b!"01 012C  ")] := by kernel_rfl

/-! ## C14 -/

/-- **C14.** Whenever `format_xref_table` succeeds with a well-formed trailer, the text it produces,
put anywhere in a file, is parsed back by `parse_xref_table_raw`: the section starts at its keyword,
ends at the end of the trailer dictionary, and its rows are the elements given to the writer, in
order, with their offsets, generations and keywords, cut into runs of consecutive numbers, each
preceded by a header giving the first number and the exact number of lines that follow; the trailer
dictionary is equal to the one written. -/
theorem C14_xref_table [Zlib] (elems : List XElem) (trailer : Dict) (nf : List (Nat × Nat))
    (out : Bytes) (h : formatXrefTable elems trailer nf = .ok out)
    (hwf : WF false false (.dict trailer) = true) (pre post : Bytes)
    (hpost : NoStreamNext (b!"\n" ++ post)) :
    ∃ (blocks : List (List XElem)) (trailer' : Obj),
      blocks.flatten = elems ∧ (∀ b ∈ blocks, IsRun b) ∧
      parseXrefTableRaw (pre ++ out ++ post) pre.length
        = .ok (some (pre.length, pre.length + out.length - 1,
            blocks.flatMap (Spec.subsection nf), trailer')) ∧
      pyEq (.dict trailer) trailer' = true := by
  obtain ⟨blocks, ser', hb1, hb2, hne, hser, hout⟩ := formatXrefTable_inv h
  rw [serialize_eq _ _ _ 0 hwf] at hser
  simp only [Except.ok.injEq] at hser
  subst hser
  refine ⟨blocks, norm (.dict trailer), hb2, hb1, ?_, pyEq_norm _ _ _ hwf⟩
  obtain ⟨b0, bs, hbs⟩ : ∃ b0 bs, blocks = b0 :: bs := by
    cases blocks with
    | nil => exact absurd hb2.symm (by simpa using hne)
    | cons b bs => exact ⟨b, bs, rfl⟩
  have hL : ∃ l ls, blocks.flatMap (blockLines nf) = l :: ls := by
    rw [hbs]; exact ⟨_, _, rfl⟩
  obtain ⟨l, ls, hL⟩ := hL
  rw [hL] at hout
  have hgood : ∀ x ∈ l :: ls, goodLine x := by
    rw [← hL]
    intro x hx
    obtain ⟨b, -, hx⟩ := List.mem_flatMap.1 hx
    rcases List.mem_cons.1 hx with rfl | hx
    · trivial
    · obtain ⟨e, -, rfl⟩ := List.mem_map.1 hx
      exact elemLine_good nf e
  have hinterp : interp none (l :: ls) = some (blocks.flatMap (Spec.subsection nf)) := by
    rw [← hL]; exact interp_blocks nf blocks hb1 none
  generalize htext : pre ++ out ++ post = text
  have hd0 : text.drop pre.length = b!"xref" ++ ([10] ++ (linesText (l :: ls) ++
      (b!"trailer" ++ 10 :: (ser 0 (.dict trailer) ++ 10 :: post)))) := by
    rw [← htext, hout]
    simp
  have hx : slice text pre.length (pre.length + 4) = b!"xref" := slice_of_drop hd0
  have hd1 : text.drop (pre.length + 4) = [10] ++ (linesText (l :: ls) ++
      (b!"trailer" ++ 10 :: (ser 0 (.dict trailer) ++ 10 :: post))) := drop_add_of' hd0
  have hd2 : text.drop (pre.length + 4 + 1) = linesText (l :: ls) ++
      (b!"trailer" ++ 10 :: (ser 0 (.dict trailer) ++ 10 :: post)) := drop_add_of' hd1
  obtain ⟨f1, f2, f3⟩ := l.text_facts (hgood l (by simp))
  have hd1' : text.drop (pre.length + 4) = [10] ++ (l.text ++ 10 :: (linesText ls ++
      (b!"trailer" ++ 10 :: (ser 0 (.dict trailer) ++ 10 :: post)))) := by
    rw [hd1]; simp [linesText]
  have hnl := nextLine_at hd1' (by decide) f1 f2 (by decide)
  have hlt : ls.length + 1 < text.length + 1 := by
    have := congrArg List.length hd2
    simp only [List.length_drop, List.length_append, List.length_cons] at this
    have h3 : ∀ L : List TLine, L.length ≤ (linesText L).length := by
      intro L
      induction L with
      | nil => simp
      | cons a L ih => simp [linesText] at ih ⊢; omega
    have := h3 (l :: ls)
    simp only [List.length_cons] at this
    omega
  have hloop := xrefTableLoop_lines (text := text) (tail := b!"trailer")
    (rest := ser 0 (.dict trailer) ++ 10 :: post) (by decide) (by decide) (by decide) ls l
    (pre.length + 4 + 1) none [] (text.length + 1) _ hgood hd2 hinterp hlt
  have hd3 : text.drop (pre.length + 4 + 1 + (linesText (l :: ls)).length + 7)
      = [10] ++ (ser 0 (.dict trailer) ++ 10 :: post) := by
    have := drop_add_of' hd2
    have := drop_add_of' this
    simpa using this
  have htok : TokAt (ser 0 (.dict trailer)) (10 :: post) .dict :=
    tokAt_container hwf (.inr (.inl ⟨_, rfl⟩)) 0 _
  have hnt := nextToken_at htok (by decide) hd3
  have hparse := parse_ser hwf (by simp) 0 (text.take (pre.length + 4 + 1 +
    (linesText (l :: ls)).length + 7 + 1)) (10 :: post) (.inr (.inr (.inl ⟨_, rfl⟩)))
    (fun _ => noStreamNext hpost)
  have hd4 : text.drop (pre.length + 4 + 1 + (linesText (l :: ls)).length + 7 + 1)
      = ser 0 (.dict trailer) ++ 10 :: post := drop_add_of' hd3
  rw [← hd4, List.take_append_drop] at hparse
  have hl4 : (text.take (pre.length + 4 + 1 + (linesText (l :: ls)).length + 7 + 1)).length
      = pre.length + 4 + 1 + (linesText (l :: ls)).length + 7 + 1 := by
    rw [List.length_take, Nat.min_eq_left]
    have := congrArg List.length hd4
    simp only [List.length_drop, List.length_append, List.length_cons] at this
    omega
  rw [hl4] at hparse
  unfold parseXrefTableRaw
  rw [hx, if_neg (by simp), hnl]
  simp only [List.length_cons, List.length_nil, Nat.zero_add, hloop, bind, Except.bind,
    List.nil_append]
  rw [show pre.length + 4 + 1 + (linesText (l :: ls)).length + (0 + 1 + 1 + 1 + 1 + 1 + 1 + 1)
    = pre.length + 4 + 1 + (linesText (l :: ls)).length + 7 by omega]
  simp only [hnt, List.length_cons, List.length_nil, Nat.zero_add, hparse, pure, Except.pure]
  rw [show pre.length + out.length - 1 = pre.length + 4 + 1 + (linesText (l :: ls)).length + 7 + 1
    + (ser 0 (.dict trailer)).length by
      rw [hout]; simp only [List.length_append, List.length_cons, List.length_nil]; omega]

/-- Writing a table succeeds whenever there is at least one entry, every free entry has a successor
in the free list, every entry in use has a position, and the trailer is well-formed. -/
theorem C14_writes (elems : List XElem) (trailer : Dict) (nf : List (Nat × Nat))
    (hne : elems ≠ []) (hfree : ∀ e ∈ elems, e.free = true → ∃ n, nf.lookup e.num = some n)
    (huse : ∀ e ∈ elems, e.free = false → ∃ c, e.counter = some c)
    (hwf : WF false false (.dict trailer) = true) :
    ∃ out, formatXrefTable elems trailer nf = .ok out := by
  have hrow : ∀ e ∈ elems, ∃ r, (do let x ← xrefLine nf e; return (x, e.num) : Py (Bytes × Nat))
      = .ok r := by
    intro e he
    by_cases hf : e.free = true
    · obtain ⟨n, hn⟩ := hfree e he hf
      simp [xrefLine, hf, nextFree, hn, orRaise, bind, Except.bind, pure, Except.pure]
    · obtain ⟨c, hc⟩ := huse e he (by simpa using hf)
      simp [xrefLine, hf, hc, orRaise, bind, Except.bind, pure, Except.pure]
  have hm := mapM_ok (fun e => (do let x ← xrefLine nf e; return (x, e.num) : Py (Bytes × Nat)))
    (fun e => okD ([], 0) (do let x ← xrefLine nf e; return (x, e.num) : Py (Bytes × Nat))) elems
    (fun e he => by obtain ⟨r, hr⟩ := hrow e he; rw [hr]; rfl)
  unfold formatXrefTable
  rw [hm]
  have hr : (elems.map fun e => okD ([], 0) (do let x ← xrefLine nf e; return (x, e.num) :
      Py (Bytes × Nat))).reverse ≠ [] := by simpa using hne
  simp only [bind, Except.bind, addSubsections] at hr ⊢
  split
  · rename_i h
    split at h
    · rename_i h'; exact absurd h' hr
    · cases h
  · rw [serialize_eq _ _ _ 0 hwf]
    exact ⟨_, rfl⟩

/-- A concrete use, with a gap between object numbers and something after the section. -/
example : formatXrefTable
    [⟨true, 0, 65534, none, none⟩, ⟨false, 1, 0, some 17, none⟩, ⟨false, 5, 2, some 1234, none⟩]
    [(b!"/Size", .int 6)] [(0, 0)] = .ok
      b!"xref\n0 2\n0000000000 65535 f\n0000000017 00000 n\n5 1\n0000001234 00002 n\ntrailer\n<< /Size 6 >>\n" ∧
    WF false false (.dict [(b!"/Size", .int 6)]) = true := by decide +kernel

/-! ## C16 -/

theorem natSet_lookup (l : List (Nat × Nat)) (k v k' : Nat) :
    (natSet l k v).lookup k' = if k' = k then some v else l.lookup k' := by
  induction l with
  | nil => 
    simp only [natSet, List.lookup]
    by_cases h : k' = k
    · simp [h]
    · rw [show (k' == k) = false by simpa using h]; simp [h]
  | cons p l ih =>
    obtain ⟨a, b⟩ := p
    simp only [natSet]
    split
    · rename_i h; subst h
      simp only [List.lookup]
      by_cases h : k' = a
      · simp [h]
      · rw [show (k' == a) = false by simpa using h]; simp [h]
    · rename_i h
      simp only [List.lookup, ih]
      by_cases h' : k' = a
      · subst h'; simp [h]
      · rw [show (k' == a) = false by simpa using h']

theorem circLoop_lookup : ∀ (del : List Nat) (res : List (Nat × Nat)) (e : Nat),
    (e :: del).Nodup →
    (∀ k, k ∉ e :: del → (circLoop res e del).lookup k = res.lookup k) ∧
    (∀ i (h : i < (e :: del).length), (circLoop res e del).lookup ((e :: del)[i])
      = some ((del ++ [0])[i]'(by simpa using h)))
  | [], res, e, _ => by
    constructor
    · intro k hk
      rw [circLoop, natSet_lookup, if_neg (by simpa using hk)]
    · intro i h
      have : i = 0 := by simpa using h
      subst this
      simp [circLoop, natSet_lookup]
  | t :: del, res, e, hnd => by
    rw [List.nodup_cons] at hnd
    obtain ⟨h1, h2⟩ := circLoop_lookup del (natSet res e t) t hnd.2
    constructor
    · intro k hk
      rw [circLoop, h1 k (fun h => hk (List.mem_cons_of_mem _ h)), natSet_lookup, if_neg]
      intro h; exact hk (by simp [h])
    · intro i h
      rw [circLoop]
      cases i with
      | zero =>
        simp only [List.getElem_cons_zero, List.cons_append]
        rw [h1 e hnd.1, natSet_lookup, if_pos rfl]
      | succ i =>
        simp only [List.getElem_cons_succ, List.cons_append]
        exact h2 i (by simpa using h)

/-- The object numbers reached from `k` by following a lookup table `n` times. -/
def Spec.follow (table : List (Nat × Nat)) : Nat → Nat → Option Nat
  | 0, k => some k
  | n + 1, k => (table.lookup k).bind (Spec.follow table n)

/-- **C16.** For every change list with distinct non-zero object numbers, following the free list
from object 0 visits the deleted objects one by one, in the order of the change list, and then comes
back to 0. -/
theorem C16_circular (changes : List Change) (hnd : (changes.map (·.num)).Nodup)
    (h0 : ∀ c ∈ changes, c.num ≠ 0) :
    let deleted := (changes.filter (fun c => c.act = .d)).map (·.num)
    (∀ i (h : i < deleted.length),
      Spec.follow (circularDeleted changes) (i + 1) 0 = some deleted[i]) ∧
    Spec.follow (circularDeleted changes) (deleted.length + 1) 0 = some 0 := by
  intro deleted
  have hdel : ((changes.filter (·.act == .d)).map (·.num)) = deleted := rfl
  have hnd' : deleted.Nodup :=
    List.Nodup.sublist (List.Sublist.map _ List.filter_sublist) hnd
  have h0' : (0 :: deleted).Nodup := by
    rw [List.nodup_cons]
    refine ⟨?_, hnd'⟩
    intro h
    obtain ⟨c, hc, hc'⟩ := List.mem_map.1 h
    exact h0 c (List.mem_filter.1 hc).1 hc'
  have htab : circularDeleted changes = circLoop [] 0 deleted := rfl
  obtain ⟨-, h2⟩ := circLoop_lookup deleted [] 0 h0'
  rw [← htab] at h2
  -- following from position `j` of the cycle
  have key : ∀ n j, j + n ≤ deleted.length → (hj : j < (0 :: deleted).length) →
      Spec.follow (circularDeleted changes) n ((0 :: deleted)[j]) = (0 :: deleted)[j + n]? := by
    intro n
    induction n with
    | zero => intro j _ hj; simp [Spec.follow, List.getElem?_eq_getElem hj]
    | succ n ih =>
      intro j h hj
      rw [Spec.follow, h2 j hj]
      have hj' : j + 1 < (0 :: deleted).length := by simp; omega
      have : (deleted ++ [0])[j]'(by simpa using hj) = (0 :: deleted)[j + 1] := by
        rw [List.getElem_append_left (by simp at hj'; omega)]; rfl
      rw [this]
      simp only [Option.bind_some]
      rw [ih (j + 1) (by omega) hj']
      congr 1; omega
  constructor
  · intro i h
    have := key (i + 1) 0 (by omega) (by simp)
    simp only [List.getElem_cons_zero, Nat.zero_add] at this
    rw [this, List.getElem?_cons_succ, List.getElem?_eq_getElem h]
  · have hlast : ∀ n k x, Spec.follow (circularDeleted changes) n k = some x →
        Spec.follow (circularDeleted changes) (n + 1) k = (circularDeleted changes).lookup x := by
      intro n
      induction n with
      | zero =>
        intro k x h
        simp only [Spec.follow, Option.some.injEq] at h
        subst h
        simp [Spec.follow]
      | succ n ih =>
        intro k x h
        rw [Spec.follow] at h ⊢
        cases hl : (circularDeleted changes).lookup k with
        | none => rw [hl] at h; cases h
        | some y =>
          rw [hl] at h
          simp only [Option.bind_some] at h ⊢
          exact ih y x h
    have hk := key deleted.length 0 (by omega) (by simp)
    simp only [List.getElem_cons_zero, Nat.zero_add] at hk
    rw [List.getElem?_eq_getElem (by simp)] at hk
    rw [hlast _ _ _ hk, h2 deleted.length (by simp)]
    simp

example : circularDeleted [⟨0, 7, .d⟩, ⟨0, 2, .u⟩, ⟨0, 3, .d⟩] = [(0, 7), (7, 3), (3, 0)] := by
  decide

/-! ## C17 -/

theorem pyMax_ge : ∀ (l : List Nat) (m : Nat), pyMax l = .ok m → ∀ c ∈ l, c ≤ m := by
  intro l m h c hc
  cases l with
  | nil => simp at hc
  | cons a l =>
    simp only [pyMax, Except.ok.injEq] at h
    have key : ∀ (l : List Nat) (a : Nat), a ≤ l.foldl max a ∧ ∀ c ∈ l, c ≤ l.foldl max a := by
      intro l
      induction l with
      | nil => intro a; simp
      | cons b l ih =>
        intro a
        obtain ⟨h1, h2⟩ := ih (max a b)
        refine ⟨by simp only [List.foldl_cons]; omega, ?_⟩
        intro c hc
        rcases List.mem_cons.1 hc with rfl | hc
        · simp only [List.foldl_cons]; omega
        · simp only [List.foldl_cons]; exact h2 c hc
    obtain ⟨h1, h2⟩ := key l a
    rw [← h]
    rcases List.mem_cons.1 hc with rfl | hc
    · exact h1
    · exact h2 c hc

theorem xrefWidth_fits (m c : Nat) (h : c ≤ m) : c < 256 ^ xrefWidth m := by
  have h1 : m + 1 < 2 ^ (Nat.log2 (m + 1) + 1) := Nat.lt_log2_self
  have h2 : (256 : Nat) ^ xrefWidth m = 2 ^ (8 * xrefWidth m) := by
    rw [show (256 : Nat) = 2 ^ 8 by rfl, ← Nat.pow_mul]
  rw [h2]
  have h3 : Nat.log2 (m + 1) + 1 ≤ 8 * xrefWidth m := by unfold xrefWidth; omega
  have := Nat.pow_le_pow_right (n := 2) (by omega) h3
  omega

/-- **C17, the part that holds.** The column width always holds every position; hence writing the
rows succeeds whenever the other fields (next free number, generation plus one of a free entry,
generation, envelope number) do not exceed the greatest position. -/
theorem C17_width_partial (elems : List XElem) (nf : List (Nat × Nat)) (m : Nat)
    (hm : pyMax (elems.filterMap (·.counter)) = .ok m)
    (hfree : ∀ e ∈ elems, e.free = true →
      (∃ n, nf.lookup e.num = some n ∧ n ≤ m) ∧ e.gen + 1 ≤ m)
    (huse : ∀ e ∈ elems, e.free = false → e.counter.isSome ∧ e.gen ≤ m ∧ e.env.getD 0 ≤ m) :
    (∀ e ∈ elems, ∀ c, e.counter = some c → c < 256 ^ xrefWidth m) ∧
    ∃ rows, elems.mapM (xrefRow nf (xrefWidth m)) = .ok rows := by
  have hpos : ∀ e ∈ elems, ∀ c, e.counter = some c → c ≤ m := fun e he c hc =>
    pyMax_ge _ _ hm c (List.mem_filterMap.2 ⟨e, he, hc⟩)
  refine ⟨fun e he c hc => xrefWidth_fits m c (hpos e he c hc), ?_⟩
  have hrow : ∀ e ∈ elems, ∃ r, xrefRow nf (xrefWidth m) e = .ok r := by
    intro e he
    unfold xrefRow
    by_cases hf : e.free = true
    · obtain ⟨⟨n, hn, hn'⟩, hg⟩ := hfree e he hf
      rw [if_pos hf]
      simp only [nextFree, hn, orRaise, toBytes, bind, Except.bind, pure, Except.pure,
        if_pos (xrefWidth_fits m n hn'), if_pos (xrefWidth_fits m _ hg)]
      exact ⟨_, rfl⟩
    · obtain ⟨hc, hg, henv⟩ := huse e he (by simpa using hf)
      obtain ⟨c, hc⟩ := Option.isSome_iff_exists.1 hc
      have hc' := xrefWidth_fits m c (hpos e he c hc)
      rw [if_neg hf]
      simp only [hc, orRaise, toBytes, bind, Except.bind, pure, Except.pure, if_pos hc',
        if_pos (xrefWidth_fits m _ hg), if_pos (xrefWidth_fits m _ henv)]
      split <;> exact ⟨_, rfl⟩
  have := mapM_ok (xrefRow nf (xrefWidth m)) (fun e => okD [] (xrefRow nf (xrefWidth m) e)) elems
    (fun e he => by obtain ⟨r, hr⟩ := hrow e he; rw [hr]; rfl)
  exact ⟨_, this⟩

/-- The hypotheses are met by an ordinary revision whose file is longer than 65534 bytes. -/
example : pyMax ([⟨true, 0, 65534, none, none⟩, ⟨false, 3, 0, some 70000, none⟩].filterMap
    (XElem.counter ·)) = .ok 70000 := by decide

/-- **C17 is false of the code.** The head of the free list is always written with generation
65535, which needs two bytes; when every position is below 255 the width is one byte and writing
raises `OverflowError`. -/
theorem C17_counterexample [Zlib] :
    formatXrefStream [⟨true, 0, 65534, none, none⟩, ⟨false, 1, 0, some 200, none⟩] [] [(0, 0)] 1
      = .error .overflowError := rfl

/-- Same failure in a long file when an object number (here of an envelope) is large: the width
only takes positions into account. -/
theorem C17_envelope_counterexample [Zlib] :
    formatXrefStream [⟨true, 0, 65534, none, none⟩, ⟨false, 1, 0, some 60000, none⟩,
      ⟨false, 70001, 0, some 0, some 70000⟩] [] [(0, 0)] 1 = .error .overflowError := rfl

end Pdf
