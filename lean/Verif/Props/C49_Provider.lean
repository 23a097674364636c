/-
C49-C52: data providers, the merged provider, the revision cut, hexdump.
-/
import Verif.Model.Provider
import Verif.Spec.Provider
import Verif.Lemmas.Dec
import Verif.Lemmas.KernelRfl

namespace Pdf

/-! ## C49 -/

theorem skipEol_spec : ∀ (l : Bytes) (i : Nat),
    i ≤ skipEol i l ∧ skipEol i l ≤ i + l.length ∧
    (∀ k, i ≤ k → k < skipEol i l → ∃ c, l[k - i]? = some c ∧ (c = 13 ∨ c = 10)) ∧
    (skipEol i l < i + l.length → ∃ c, l[skipEol i l - i]? = some c ∧ c ≠ 13 ∧ c ≠ 10)
  | [], i => by simp [skipEol]
  | c :: l, i => by
    have hc : isEol c = true ↔ (c = 13 ∨ c = 10) := by
      revert c; apply forall_byte; decide +kernel
    obtain ⟨h1, h2, h3, h4⟩ := skipEol_spec l (i + 1)
    simp only [skipEol]
    split
    · rename_i h
      refine ⟨by omega, by simp; omega, ?_, ?_⟩
      · intro k hk hk'
        by_cases hki : k = i
        · subst hki; exact ⟨c, by simp, hc.1 h⟩
        · obtain ⟨d, hd, hd'⟩ := h3 k (by omega) hk'
          refine ⟨d, ?_, hd'⟩
          rw [show k - i = (k - (i + 1)) + 1 by omega, List.getElem?_cons_succ]; exact hd
      · intro hlt
        obtain ⟨d, hd, hd'⟩ := h4 (by simp at hlt; omega)
        refine ⟨d, ?_, hd'⟩
        rw [show skipEol (i + 1) l - i = (skipEol (i + 1) l - (i + 1)) + 1 by omega,
          List.getElem?_cons_succ]
        exact hd
    · rename_i h
      refine ⟨Nat.le_refl _, by simp, by intro k hk hk'; omega, ?_⟩
      intro _
      refine ⟨c, by simp, ?_, ?_⟩ <;> intro hh <;> exact h (hc.2 (by simp [hh]))

/-- **C49.** For every file and every position `i` of a `%%EOF` marker, the revision cut is the
first position after the marker that is not an end-of-line byte, or the end of the file. -/
theorem C49_eof_cut (data : Bytes) (i : Nat) (h : slice data i (i + 5) = b!"%%EOF") :
    ∃ j, eofCut i (.single data) = .ok j ∧ i + 5 ≤ j ∧ j ≤ data.length ∧
      (∀ k, i + 5 ≤ k → k < j → ∃ c, data[k]? = some c ∧ (c = 13 ∨ c = 10)) ∧
      (j < data.length → ∃ c, data[j]? = some c ∧ c ≠ 13 ∧ c ≠ 10) := by
  have hlen : i + 5 ≤ data.length := by
    have := congrArg List.length h
    rw [slice_length] at this
    simp at this; omega
  have hmod : ((i : Int) + data.length) % (data.length : Int) = i := by
    rw [Int.add_emod_right]; exact Int.emod_eq_of_lt (by omega) (by omega)
  have hcut : eofCut i (.single data) = .ok (skipEol (i + 5) (data.drop (i + 5))) := by
    simp only [eofCut, Provider.size, Provider.read, bind, Except.bind, pure, Except.pure,
      if_neg (show ¬ data.length = 0 by omega), hmod]
    rw [if_neg (by omega)]
    congr 2
    have : (Int.toNat (i : Int)) + (min ((data.length : Int) - i) (data.length - i)).toNat
        = data.length := by omega
    rw [this]
    simp [slice]
  obtain ⟨h1, h2, h3, h4⟩ := skipEol_spec (data.drop (i + 5)) (i + 5)
  rw [List.length_drop] at h2 h4
  refine ⟨_, hcut, h1, by omega, ?_, ?_⟩
  · intro k hk hk'
    obtain ⟨c, hc, hc'⟩ := h3 k hk hk'
    rw [List.getElem?_drop, show i + 5 + (k - (i + 5)) = k by omega] at hc
    exact ⟨c, hc, hc'⟩
  · intro hlt
    obtain ⟨c, hc, hc'⟩ := h4 (by omega)
    rw [List.getElem?_drop, show ∀ j, i + 5 ≤ j → i + 5 + (j - (i + 5)) = j by
      intro j hj; omega] at hc
    · exact ⟨c, hc, hc'⟩
    · exact h1

/-- The hypothesis is met by a marker followed by CR LF and a comment: the cut is after LF. -/
example : slice b!"x\n%%EOF\r\n%more" 2 7 = b!"%%EOF" ∧
    eofCut 2 (.single b!"x\n%%EOF\r\n%more") = .ok 9 := by decide +kernel

/-! ## C50 -/

theorem requested_pos {data : Bytes} {start length : Int} (h : Spec.Inside data start length) :
    ∃ i : Nat, (start + data.length) % (data.length : Int) = i ∧ i < data.length ∧
      i = (if start < 0 then (data.length + start).toNat else start.toNat) := by
  obtain ⟨h1, h2, -⟩ := h
  by_cases hs : start < 0
  · refine ⟨(data.length + start).toNat, ?_, by omega, by simp [hs]⟩
    rw [Int.emod_eq_of_lt (by omega) (by omega)]; omega
  · refine ⟨start.toNat, ?_, by omega, by simp [hs]⟩
    rw [Int.add_emod_right, Int.emod_eq_of_lt (by omega) (by omega)]; omega

theorem single_contract (data : Bytes) (start length : Int) (h : Spec.Inside data start length) :
    ∃ (buf : Bytes) (i n : Nat), (Provider.single data).read start length = .ok (buf, i, 0, n) ∧
      slice buf i (i + n) = Spec.requested data start length ∧
      n = (Spec.requested data start length).length := by
  obtain ⟨i, hi, hlt, hi'⟩ := requested_pos h
  obtain ⟨h1, h2, h3⟩ := h
  simp only [Provider.read, if_neg (show ¬ data.length = 0 by omega), hi]
  simp only [Spec.requested, ← hi']
  by_cases hl : length = -1
  · simp only [hl, if_true]
    refine ⟨data, i, data.length - i, ?_, ?_, by simp⟩
    · congr 4; omega
    · rw [show i + (data.length - i) = data.length by omega]; simp [slice]
  · simp only [hl, if_false]
    refine ⟨data, i, min (data.length - i) length.toNat, ?_, ?_, by simp; omega⟩
    · congr 4; omega
    · apply List.ext_getElem?
      intro k
      simp only [slice, List.getElem?_drop, List.getElem?_take]
      by_cases hk : i + k < data.length
      · split <;> split <;> first | rfl | omega
      · rw [List.getElem?_eq_none (by omega)]; simp

/-- **C50 (single mode).** For all data and every request inside it, the answer of the provider in
`SINGLE` mode designates exactly the requested bytes, the count is the number of bytes available up
to the requested length, and the size it reports is the size of the data. -/
theorem C50_single_partial (data : Bytes) (start length : Int)
    (h : Spec.Inside data start length) :
    (∃ (buf : Bytes) (i n : Nat), (Provider.single data).read start length = .ok (buf, i, 0, n) ∧
      slice buf i (i + n) = Spec.requested data start length ∧
      n = (Spec.requested data start length).length) ∧
    (Provider.single data).size = .ok data.length :=
  ⟨single_contract data start length h, rfl⟩

example : Spec.Inside b!"abcdef" (-4) 3 ∧ Spec.requested b!"abcdef" (-4) 3 = b!"cde" := by
  unfold Spec.Inside; decide +kernel

/-- **C50 (continuous mode), the part that holds**: requests that start at the beginning of the
file honour the contract. -/
theorem C50_continuous_partial (data : Bytes) (length : Int) (hd : data ≠ [])
    (hl : -1 ≤ length) :
    ∃ (buf : Bytes) (n : Nat), (Provider.continuous data).read 0 length = .ok (buf, 0, 0, n) ∧
      slice buf 0 (0 + n) = Spec.requested data 0 length ∧
      n = (Spec.requested data 0 length).length := by
  have hlen : 0 < data.length := List.length_pos_iff.2 hd
  simp only [Provider.read, if_neg (show ¬ data.length = 0 by omega), Spec.requested, fileRead]
  simp only [Int.zero_add, Int.emod_self, Int.toNat_zero, List.drop_zero, Int.lt_irrefl, if_false]
  by_cases h1 : length = -1
  · subst h1
    refine ⟨data, data.length, ?_, by simp [slice], by simp⟩
    simp only [if_true, Int.sub_zero]
    rw [if_neg (by omega), Int.toNat_natCast, List.take_length]
  · simp only [h1, if_false, Int.sub_zero]
    refine ⟨data.take length.toNat, min data.length length.toNat, ?_, ?_, by simp; omega⟩
    · rw [if_neg (by omega)]
      congr 2
      · rw [show (min (data.length : Int) length).toNat = min data.length length.toNat by omega]
        rw [Nat.min_comm, ← List.take_take, List.take_length]
      · congr 2; omega
    · simp only [slice, List.drop_zero, Nat.zero_add, List.take_take]
      rw [show min (min data.length length.toNat) length.toNat = min length.toNat data.length
        by omega, ← List.take_take, List.take_length]

/-- **C50 is false of `CONTINUOUS` mode**: for every request inside the data that does not start at
the beginning, the returned index is relative to the file while the buffer starts at the requested
position, so the answer designates other bytes (here none at all). -/
theorem C50_continuous_counterexample :
    Spec.Inside b!"abcdef" 3 2 ∧
    (Provider.continuous b!"abcdef").read 3 2 = .ok (b!"de", 3, 0, 2) ∧
    slice b!"de" 3 (3 + 2) = [] ∧ Spec.requested b!"abcdef" 3 2 = b!"de" := by
  unfold Spec.Inside; decide +kernel

/-- The two modes disagree on a request inside the data: the index is the same but the buffers
differ. -/
theorem C50_modes_disagree :
    (Provider.single b!"abcdef").read 3 2 = .ok (b!"abcdef", 3, 0, 2) ∧
    (Provider.continuous b!"abcdef").read 3 2 = .ok (b!"de", 3, 0, 2) := by decide +kernel

/-- In fact the continuous answer is exactly: the requested bytes, but at buffer index 0 rather
than at the index it reports. -/
theorem C50_continuous_actual (data : Bytes) (start length : Int)
    (h : Spec.Inside data start length) :
    ∃ (i n : Nat), (Provider.continuous data).read start length =
      .ok (Spec.requested data start length, i, 0, n) ∧
      n = (Spec.requested data start length).length := by
  obtain ⟨i, hi, hlt, hi'⟩ := requested_pos h
  obtain ⟨h1, h2, h3⟩ := h
  simp only [Provider.read, if_neg (show ¬ data.length = 0 by omega), hi, fileRead]
  simp only [Spec.requested, ← hi']
  by_cases hl : length = -1
  · simp only [hl, if_true, Int.toNat_natCast]
    rw [if_neg (by omega)]
    refine ⟨i, data.length - i, ?_, by simp⟩
    congr 2
    · apply List.take_of_length_le; simp
    · congr 2; omega
  · simp only [hl, if_false, Int.toNat_natCast]
    rw [if_neg (by omega)]
    refine ⟨i, min (data.length - i) length.toNat, ?_, by simp; omega⟩
    congr 2
    · rw [show (min ((data.length : Int) - i) length).toNat
        = min length.toNat (data.drop i).length by simp; omega]
      rw [← List.take_take, List.take_length]
    · congr 2; omega

/-- **C50 (dummy provider).** For every request at a non-negative position inside the data. -/
theorem C50_dummy_partial (data : Bytes) (start : Nat) (length : Int) (hs : start < data.length)
    (hl : -1 ≤ length) :
    ∃ (buf : Bytes) (i n : Nat), (Provider.dummy data).read start length = .ok (buf, i, 0, n) ∧
      slice buf i (i + n) = Spec.requested data start length ∧
      n = (Spec.requested data start length).length := by
  simp only [Provider.read, Spec.requested]
  rw [if_neg (by omega), if_neg (show ¬ ((start : Int) = -1) by omega),
    if_neg (show ¬ ((start : Int) < 0) by omega)]
  by_cases h1 : length = -1
  · simp only [h1, if_true]
    refine ⟨data, start, data.length - start, ?_, ?_, by simp⟩
    · congr 4; omega
    · rw [show start + (data.length - start) = data.length by omega]; simp [slice]
  · simp only [h1, if_false]
    refine ⟨data, start, min (data.length - start) length.toNat, ?_, ?_, by simp; omega⟩
    · congr 4; omega
    · rw [Int.toNat_natCast]
      apply List.ext_getElem?
      intro k
      simp only [slice, List.getElem?_drop, List.getElem?_take]
      by_cases hk : start + k < data.length
      · split <;> split <;> first | rfl | omega
      · rw [List.getElem?_eq_none (by omega)]; simp

/-- The dummy provider does not honour requests counted from the end: the count it announces
exceeds the data. -/
theorem C50_dummy_counterexample :
    (Provider.dummy b!"abcdef").read (-3) 7 = .ok (b!"abcdef", -3, 0, 7) := by decide +kernel

/-! ## C51 -/

/-- **C51, after the cut.** A request strictly after the cut is answered with exactly the requested
bytes of `old[:cut] + new`. -/
theorem C51_after (fdata : Provider) (old new : Bytes) (cut : Nat) (hcut : cut ≤ old.length)
    (start : Nat) (length : Int) (hs : cut < start) (hs' : start < cut + new.length)
    (hl : -1 ≤ length) :
    ∃ (buf : Bytes) (i n : Nat),
      (Provider.merged fdata cut new).read start length = .ok (buf, i, 0, n) ∧
      slice buf i (i + n) = Spec.requested (Spec.appended old cut [new]) start length ∧
      n = (Spec.requested (Spec.appended old cut [new]) start length).length := by
  have hfile : (Spec.appended old cut [new]).drop start = new.drop (start - cut) := by
    simp only [Spec.appended, List.flatten_cons, List.flatten_nil, List.append_nil]
    rw [List.drop_append, List.drop_eq_nil_of_le (by simp; omega), List.nil_append]
    rw [List.length_take, Nat.min_eq_left hcut]
  simp only [Provider.read]
  rw [if_pos (show (start : Int) > cut by omega),
    if_neg (show ¬ ((start : Int) - cut = -1) by omega)]
  simp only [Spec.requested, if_neg (show ¬ ((start : Int) < 0) by omega), Int.toNat_natCast, hfile]
  by_cases h1 : length = -1
  · simp only [h1, if_true]
    refine ⟨new, start - cut, new.length - (start - cut), ?_, ?_, by simp⟩
    · congr 3
      · omega
      · congr 1; omega
    · rw [show start - cut + (new.length - (start - cut)) = new.length by omega]; simp [slice]
  · simp only [h1, if_false]
    refine ⟨new, start - cut, min (new.length - (start - cut)) length.toNat, ?_, ?_, by simp; omega⟩
    · congr 3
      · omega
      · congr 1; omega
    · apply List.ext_getElem?
      intro k
      simp only [slice, List.getElem?_drop, List.getElem?_take]
      by_cases hk : start - cut + k < new.length
      · split <;> split <;> first | rfl | omega
      · rw [List.getElem?_eq_none (by omega)]; simp

/-- **C51, before the cut.** Any other request is answered as the old provider does. -/
theorem C51_before (fdata : Provider) (cut : Nat) (new : Bytes) (start length : Int)
    (hs : start ≤ cut) :
    (Provider.merged fdata cut new).read start length = fdata.read start length := by
  simp only [Provider.read]
  rw [if_neg (by omega)]

/-- **C51, size.** The merged provider reports the size of `old[:cut] + new`. -/
theorem C51_size (fdata : Provider) (old new : Bytes) (cut : Nat) (hcut : cut ≤ old.length) :
    (Provider.merged fdata cut new).size = .ok (Spec.appended old cut [new]).length := by
  simp [Provider.size, Spec.appended, hcut]

/-- The providers built by successive commits: each chunk is merged at the current total size. -/
def mergeAll (base : Provider) (cut : Nat) : List Bytes → Provider
  | [] => base
  | new :: rest => mergeAll (.merged base cut new) (cut + new.length) rest

theorem mergeAll_before (cut : Nat) (start length : Int) (hs : start ≤ cut) :
    ∀ (chunks : List Bytes) (base : Provider) (cut' : Nat), cut ≤ cut' →
      (mergeAll base cut' chunks).read start length = base.read start length
  | [], _, _, _ => rfl
  | new :: rest, base, cut', h => by
    rw [mergeAll, mergeAll_before cut start length hs rest _ _ (by omega),
      C51_before _ _ _ _ _ (by omega)]

theorem mergeAll_append (c : List Bytes) : ∀ (a : List Bytes) (base : Provider) (cut : Nat),
    mergeAll base cut (a ++ c) = mergeAll (mergeAll base cut a) (cut + a.flatten.length) c
  | [], _, _ => by simp [mergeAll]
  | x :: a, base, cut => by
    simp only [List.cons_append, mergeAll, mergeAll_append c a]
    congr 1; simp; omega

/-- **C51, any number of nested merges.** After any number of commits, a request that starts inside
an appended chunk (after its first byte) is answered with the bytes of the whole file at that
position, up to the end of the chunk. -/
theorem C51_nested (base : Provider) (old : Bytes) (cut : Nat) (hcut : cut ≤ old.length)
    (before after : List Bytes) (new : Bytes) (start : Nat) (length : Int) (hl : -1 ≤ length)
    (hs : cut + before.flatten.length < start)
    (hs' : start < cut + before.flatten.length + new.length) :
    ∃ (buf : Bytes) (i n : Nat),
      (mergeAll base cut (before ++ new :: after)).read start length = .ok (buf, i, 0, n) ∧
      slice buf i (i + n)
        = slice (Spec.appended old cut (before ++ new :: after)) start (start + n) ∧
      n = (if length = -1 then cut + before.flatten.length + new.length - start
           else min length.toNat (cut + before.flatten.length + new.length - start)) := by
  rw [mergeAll_append, mergeAll]
  rw [mergeAll_before (cut + before.flatten.length + new.length) start length (by omega) _ _ _
    (Nat.le_refl _)]
  have hflen : cut + before.flatten.length = (Spec.appended old cut before).length := by
    simp [Spec.appended, hcut]
  have key := C51_after (mergeAll base cut before) (Spec.appended old cut before) new
    (cut + before.flatten.length) (by omega) start length hs hs' hl
  obtain ⟨buf, i, n, h1, h2, h3⟩ := key
  have hfull : Spec.appended (Spec.appended old cut before) (cut + before.flatten.length) [new]
      = Spec.appended old cut before ++ new := by
    rw [hflen, show ∀ x : Bytes, Spec.appended x x.length [new] = x ++ new by
      intro x; simp [Spec.appended]]
  rw [hfull] at h2 h3
  refine ⟨buf, i, n, h1, ?_, ?_⟩
  · rw [h2, show Spec.appended old cut (before ++ new :: after)
      = Spec.appended old cut before ++ new ++ after.flatten by simp [Spec.appended]]
    have hn : start + n ≤ (Spec.appended old cut before ++ new).length := by
      rw [h3]
      simp only [Spec.requested, if_neg (show ¬ ((start : Int) < 0) by omega), Int.toNat_natCast]
      split <;> simp only [List.length_take, List.length_drop, List.length_append] <;> omega
    rw [slice, List.take_append_of_le_length hn]
    simp only [Spec.requested, if_neg (show ¬ ((start : Int) < 0) by omega),
      Int.toNat_natCast] at h3 ⊢
    split at h3 <;> rename_i hm
    · rw [if_pos hm, List.take_of_length_le]
      rw [h3, List.length_drop]; omega
    · rw [if_neg hm, h3, List.length_take, List.length_drop]
      apply List.ext_getElem?
      intro k
      simp only [List.getElem?_drop, List.getElem?_take]
      by_cases hk : start + k < (Spec.appended old cut before ++ new).length
      · split <;> split <;> first | rfl | omega
      · rw [List.getElem?_eq_none (by omega)]; simp
  · rw [h3]
    simp only [Spec.requested, if_neg (show ¬ ((start : Int) < 0) by omega), Int.toNat_natCast]
    split
    · simp [← hflen]
    · simp [← hflen]

/-- Two commits on top of `%PDF..` cut at 3: a request at position 7, inside the first chunk. -/
example : (mergeAll (.single b!"%PDFxx") 3 [b!"\nabc", b!"\ndef"]).read 5 2
      = .ok (b!"\nabc", 2, 0, 2) ∧
    slice (Spec.appended b!"%PDFxx" 3 [b!"\nabc", b!"\ndef"]) 5 7 = b!"bc" := by decide +kernel

/-- Exactly at the cut (the newline that separates revisions) the request goes to the old provider:
with a single-mode provider cut at its very end the position wraps to the start of the file. The
claim therefore says *strictly after*. -/
theorem C51_at_cut :
    (Provider.merged (.single b!"abc") 3 b!"\nxy").read 3 1 = .ok (b!"abc", 0, 0, 1) := by
  decide +kernel

/-! ## C52 -/

theorem linesAux_line (l rest : Bytes) (h : (10 : UInt8) ∉ l) : ∀ cur,
    Spec.linesAux cur (l ++ 10 :: rest) = (cur ++ l) :: Spec.linesAux [] rest := by
  induction l with
  | nil => intro cur; simp [Spec.linesAux]
  | cons c l ih =>
    intro cur
    simp only [List.mem_cons, not_or] at h
    rw [List.cons_append, Spec.linesAux, if_neg (Ne.symm h.1), ih h.2]
    simp

theorem lowHex_val (c : UInt8) :
    UInt8.ofNat (Spec.hexVal (lowHexDigit (c.toNat / 16)) * 16
      + Spec.hexVal (lowHexDigit (c.toNat % 16))) = c ∧
    lowHexDigit (c.toNat / 16) ≠ 32 ∧ lowHexDigit (c.toNat % 16) ≠ 32 ∧
    lowHexDigit (c.toNat / 16) ≠ 10 ∧ lowHexDigit (c.toNat % 16) ≠ 10 := by
  revert c; apply forall_byte; decide +kernel

theorem hexSep_length : ∀ l : Bytes, (hexSep l).length ≤ 3 * l.length
  | [] => by simp [hexSep]
  | [c] => by simp [hexSep]
  | c :: c' :: l => by
    have := hexSep_length (c' :: l)
    simp only [hexSep, List.length_cons] at *; omega

theorem hexSep_length' : ∀ l : Bytes, (hexSep l).length ≤ 3 * l.length - 1
  | [] => by simp [hexSep]
  | [c] => by simp [hexSep]
  | c :: c' :: l => by
    have := hexSep_length' (c' :: l)
    simp only [hexSep, List.length_cons] at *; omega

theorem hexPairs_hexSep : ∀ l : Bytes, Spec.hexPairs ((hexSep l).filter (· ≠ 32)) = l
  | [] => by simp [hexSep, Spec.hexPairs]
  | [c] => by
    obtain ⟨h1, h2, h3, -, -⟩ := lowHex_val c
    simp [hexSep, Spec.hexPairs, h1, h2, h3]
  | c :: c' :: l => by
    obtain ⟨h1, h2, h3, -, -⟩ := lowHex_val c
    have ih := hexPairs_hexSep (c' :: l)
    rw [hexSep]
    simp only [List.filter_cons, decide_not, h2, h3, decide_false, Bool.not_false, if_true,
      decide_true, Bool.not_true, Spec.hexPairs, h1]
    simp only [decide_not] at ih
    simp [ih]

theorem hexSep_no_nl : ∀ l : Bytes, (10 : UInt8) ∉ hexSep l
  | [] => by simp [hexSep]
  | [c] => by
    obtain ⟨-, -, -, h4, h5⟩ := lowHex_val c
    simp [hexSep, Ne.symm h4, Ne.symm h5]
  | c :: c' :: l => by
    obtain ⟨-, -, -, h4, h5⟩ := lowHex_val c
    have ih := hexSep_no_nl (c' :: l)
    simp [hexSep, Ne.symm h4, Ne.symm h5, ih]

theorem decVal_eq : ∀ (s : Bytes) (acc : Nat), s.all isDigit = true →
    digitsVal acc s = some (s.foldl (fun acc c => acc * 10 + (c.toNat - 48)) acc)
  | [], _, _ => rfl
  | c :: s, acc, h => by
    simp only [List.all_cons, Bool.and_eq_true] at h
    rw [digitsVal_digit h.1, decVal_eq s _ h.2]; rfl

theorem decVal_natPad (w n : Nat) : Spec.decVal (natPad w n) = n := by
  rw [Spec.decVal, natPad, List.foldl_append]
  have h0 : ∀ k, (List.replicate k (48 : UInt8)).foldl
      (fun acc c => acc * 10 + (c.toNat - 48)) 0 = 0 := by
    intro k
    induction k with
    | zero => rfl
    | succ k ih => simpa [List.replicate_succ] using ih
  rw [h0]
  have := decVal_eq (natDec n) 0 (natDec_all n)
  rw [digitsVal_natDec] at this
  exact (Option.some.inj this).symm

theorem natPad_all (w n : Nat) : (natPad w n).all isDigit = true := by
  simp only [natPad, List.all_append, Bool.and_eq_true]
  refine ⟨?_, natDec_all n⟩
  simp only [List.all_eq_true, List.mem_replicate]
  rintro x ⟨-, rfl⟩; rfl

theorem takeWhile_label (a b : Bytes) (ha : a.all isDigit = true) :
    (a ++ 32 :: b).takeWhile (fun c => decide (48 ≤ c ∧ c ≤ 57)) = a := by
  have : (fun c : UInt8 => decide (48 ≤ c ∧ c ≤ 57)) = isDigit := by
    funext c; simp [isDigit]
  rw [this, takeWhile_digits a 32 b ha (by decide)]

theorem readHexLine_line (i : Nat) (l : Bytes) (hl : l.length ≤ 10) :
    Spec.readHexLine (natPad 10 i ++ b!"  " ++ padRight 29 (hexSep l) ++ b!"  |" ++
      l.map asciiHexdumpPrintable ++ b!"|") = (i, l) := by
  rw [Spec.readHexLine]
  have htw : List.takeWhile (fun c : UInt8 => decide (48 ≤ c ∧ c ≤ 57))
      (natPad 10 i ++ b!"  " ++ padRight 29 (hexSep l) ++ b!"  |" ++
        l.map asciiHexdumpPrintable ++ b!"|") = natPad 10 i := by
    simp only [List.append_assoc, List.cons_append]
    exact takeWhile_label _ _ (natPad_all _ _)
  simp only [htw, decVal_natPad]
  have hdrop : (natPad 10 i ++ b!"  " ++ padRight 29 (hexSep l) ++ b!"  |" ++
        l.map asciiHexdumpPrintable ++ b!"|").drop ((natPad 10 i).length + 2)
      = padRight 29 (hexSep l) ++ (b!"  |" ++ l.map asciiHexdumpPrintable ++ b!"|") := by
    have h2 : (natPad 10 i).length + 2 = (natPad 10 i ++ b!"  ").length := by simp
    rw [h2]
    simp only [List.append_assoc]
    rw [← List.append_assoc (natPad 10 i), List.drop_left]
  have hlen : (padRight 29 (hexSep l)).length = 29 := by
    have := hexSep_length' l
    simp only [padRight, List.length_append, List.length_replicate]; omega
  rw [hdrop, List.take_append_of_le_length (by omega), List.take_of_length_le (by omega)]
  congr 1
  rw [padRight, List.filter_append]
  have : (List.replicate (29 - (hexSep l).length) (32 : UInt8)).filter (· ≠ 32) = [] := by
    rw [List.filter_eq_nil_iff]
    intro x hx; rw [List.mem_replicate] at hx; simp [hx.2]
  rw [this, List.append_nil, hexPairs_hexSep]

theorem hexdumpLine_no_nl (i : Nat) (l : Bytes) :
    (10 : UInt8) ∉ (natPad 10 i ++ b!"  " ++ padRight 29 (hexSep l) ++ b!"  |" ++
      l.map asciiHexdumpPrintable ++ b!"|") := by
  have h1 : (10 : UInt8) ∉ natPad 10 i := by
    intro h
    have := List.all_eq_true.1 (natPad_all 10 i) _ h
    exact absurd this (by decide)
  have h2 : (10 : UInt8) ∉ l.map asciiHexdumpPrintable := by
    intro h
    obtain ⟨c, -, hc⟩ := List.mem_map.1 h
    revert hc; revert c; apply forall_byte; decide +kernel
  have h3 := hexSep_no_nl l
  simp only [List.mem_append, not_or, padRight]
  refine ⟨⟨⟨⟨⟨h1, by decide⟩, h3, ?_⟩, by decide⟩, h2⟩, by decide⟩
  intro h; rw [List.mem_replicate] at h; exact absurd h.2 (by decide)

theorem hexdumpLoop_read (buf : Bytes) (stop : Nat) : ∀ (fuel k : Nat), stop < 10 * k + 10 * fuel →
    ((Spec.lines (hexdumpLoop buf stop fuel (10 * k))).map Spec.readHexLine)
      = (List.range' k ((stop + 9) / 10 - k)).map
          fun j => (10 * j, (buf.drop (10 * j)).take 10)
  | 0, k, h => by
    rw [show (stop + 9) / 10 - k = 0 by omega]; rfl
  | fuel + 1, k, h => by
    rw [hexdumpLoop]
    split
    · rename_i hlt
      rw [hexdumpLine, show ∀ (a b : Bytes), a ++ b!"|\n" ++ b = a ++ b!"|" ++ 10 :: b by simp,
        Spec.lines, linesAux_line _ _ (hexdumpLine_no_nl _ _), List.map_cons, List.nil_append,
        readHexLine_line _ _ (by rw [slice_length]; omega)]
      have ih := hexdumpLoop_read buf stop fuel (k + 1) (by omega)
      rw [show 10 * k + 10 = 10 * (k + 1) by omega]
      rw [Spec.lines] at ih
      rw [ih, show (stop + 9) / 10 - k = ((stop + 9) / 10 - (k + 1)) + 1 by omega,
        List.range'_succ, List.map_cons]
      congr 2
      rw [slice, List.drop_take]
      congr 1; omega
    · rw [show (stop + 9) / 10 - k = 0 by omega]; rfl

/-- **C52, any range.** For every file and every range `[start, stop)` inside it, the dump consists
of lines labelled with consecutive multiples of ten, from the one that contains `start` up to
`stop`, each showing the ten bytes of the file at its label (fewer at the end of the file). -/
theorem C52_hexdump_range (data : Bytes) (start stop : Nat) (h1 : start ≤ stop)
    (h2 : stop ≤ data.length) (h3 : start < data.length) :
    ∃ out, hexdump (.single data) (some start) (some stop) = .ok out ∧
      (Spec.lines out).map Spec.readHexLine
        = (List.range' (start / 10) ((stop + 9) / 10 - start / 10)).map
            fun k => (10 * k, (data.drop (10 * k)).take 10) := by
  have hne : ¬ data.length = 0 := by omega
  have hmod : (((start / 10 * 10 : Nat) : Int) + data.length) % (data.length : Int)
      = ((start / 10 * 10 : Nat) : Int) := by
    rw [Int.add_emod_right]; exact Int.emod_eq_of_lt (by omega) (by omega)
  simp only [hexdump, Provider.size, Provider.read, bind, Except.bind, pure, Except.pure,
    Option.getD_some, if_neg hne, if_neg (show ¬ stop > data.length by omega), hmod]
  refine ⟨_, rfl, ?_⟩
  rw [if_neg (by omega)]
  have e1 : (0 + ((start / 10 * 10 : Nat) : Int)).toNat = start / 10 * 10 := by omega
  have e2 : ((start / 10 * 10 : Nat) + (0 : Int) +
      min ((data.length : Int) - (start / 10 * 10 : Nat))
        ((stop : Int) - start + (start - (start / 10 * 10 : Nat)))).toNat = stop := by omega
  have e3 : ((start / 10 * 10 : Nat) + (0 : Int)).toNat = 10 * (start / 10) := by omega
  rw [e2, e3, hexdumpLoop_read _ _ _ _ (by omega)]

/-- **C52.** The dump of a whole (non-empty) file: reading its hexadecimal column line by line gives
the consecutive groups of ten bytes, each labelled by the offset of its first byte; together they
are exactly the file. -/
theorem C52_hexdump_partial (data : Bytes) (hd : data ≠ []) :
    ∃ out, hexdump (.single data) none none = .ok out ∧
      (Spec.lines out).map Spec.readHexLine
        = (List.range ((data.length + 9) / 10)).map
            (fun k => (10 * k, (data.drop (10 * k)).take 10)) ∧
      ((Spec.lines out).map Spec.readHexLine).flatMap Prod.snd = data := by
  have hlen : 0 < data.length := List.length_pos_iff.2 hd
  obtain ⟨out, h1, h2⟩ := C52_hexdump_range data 0 data.length (by omega) (by omega) hlen
  have hout : hexdump (.single data) none none = .ok out := by
    rw [← h1]
    simp only [hexdump, Provider.size, bind, Except.bind, Option.getD_some, Option.getD_none,
      if_neg (show ¬ data.length > data.length by omega)]
  simp only [Nat.zero_div, Nat.sub_zero] at h2
  rw [← List.range_eq_range'] at h2
  refine ⟨out, hout, h2, ?_⟩
  rw [h2]
  have key : ∀ (n : Nat) (d : Bytes), d.length ≤ 10 * n →
      ((List.range n).map (fun k => (10 * k, (d.drop (10 * k)).take 10))).flatMap Prod.snd = d := by
    intro n
    induction n with
    | zero => intro d h; simp at h; simp [h]
    | succ n ih =>
      intro d h
      rw [List.range_succ_eq_map, List.map_cons, List.flatMap_cons, List.map_map]
      have : ((fun k => (10 * k, (d.drop (10 * k)).take 10)) ∘ Nat.succ)
          = fun k => (10 * (k + 1), (d.drop (10 * (k + 1))).take 10) := rfl
      have ih' := ih (d.drop 10) (by simp; omega)
      simp only [List.flatMap_map, Function.comp_def, List.drop_drop] at ih' ⊢
      rw [show (fun k : Nat => List.take 10 (List.drop (10 * k.succ) d))
        = fun k => List.take 10 (List.drop (10 + 10 * k) d) by
          funext k; rw [Nat.succ_eq_add_one, Nat.mul_add, Nat.add_comm]]
      rw [ih']
      simp
  exact key _ _ (by omega)

/-- A dump of thirteen bytes: two lines, the second one short and padded. -/
example : hexdump (.single b!"%PDF-1.4\n\r<<>") none none
    = .ok (b!"0000000000  25 50 44 46 2d 31 2e 34 0a 0d  |%PDF-1.4..|\n" ++
        b!"0000000010  3c 3c 3e                       |<<>|\n") := by decide +kernel

/-- An empty file cannot be dumped at all: the provider divides by its length. -/
theorem C52_empty_counterexample : hexdump (.single []) none none = .error .zeroDivision := rfl

/-- In `CONTINUOUS` mode a dump that does not start at the beginning shows the wrong bytes (here the
line labelled 10 is empty) because of the index error recorded under C50. -/
theorem C52_continuous_counterexample :
    hexdump (.continuous b!"0123456789abc") (some 10) none
      = .ok b!"0000000010                                 ||\n" := by decide +kernel

end Pdf
