/-
Reading the cross-reference streams of any program (`Spec/FileText.lean`), and both kinds of sections of a file.
-/
import Verif.Lemmas.FileText
import Verif.Lemmas.MixFiled

namespace Pdf
open Spec

set_option linter.unusedSectionVars false

variable [Zlib]

theorem fromBytesBig_eq (s : Bytes) : fromBytesBig s = bigVal s := by
  unfold fromBytesBig bigVal
  congr 1
  funext a c
  omega

/-- The row of a mark, without what only serves to display. -/
def rowMark (n : Nat) (r : XSRow) : Mark → Prop
  | .inUse p g => r.num = n ∧ r.kw = b!"n" ∧ r.env = none ∧ r.offset = p ∧ r.gen = g
  | .inside c k => r.num = n ∧ r.kw = b!"n" ∧ r.env = some c ∧ c ≠ 0 ∧ r.offset = k ∧ r.gen = 0
  | .free _ _ => r.num = n ∧ r.kw = b!"f"

theorem readCols_three {st x y z post : Bytes} {i a b c : Nat} (h : st.drop i = (x ++ (y ++ z)) ++ post) (hx : x.length = a)
    (hy : y.length = b) (hz : z.length = c) :
    ∃ ppr, readCols st [a, b, c] i = ([bigVal x, bigVal y, bigVal z], ppr, i + (x ++ (y ++ z)).length) := by
  subst hx hy hz
  have h0 : st.drop i = x ++ (y ++ (z ++ post)) := by rw [h]; simp
  have h1 := drop_add_of h0
  have h2 := drop_add_of h1
  refine ⟨asciihex x ++ b!" " ++ (asciihex y ++ b!" " ++ (asciihex z ++ b!" " ++ [])), ?_⟩
  simp only [readCols, slice_of_drop h0, slice_of_drop h1, slice_of_drop h2, fromBytesBig_eq]
  simp only [List.length_append, Prod.mk.injEq, true_and]
  omega

theorem rows_marks {a b c : Nat} (ha : 1 ≤ a) {st : Bytes} : ∀ {marks : List Mark} {t : Bytes}, AllCols a b c marks t →
    ∀ (nums : List (Nat × Nat)) (i : Nat), nums.length = marks.length → st.drop i = t →
      ∃ rows, xrefStreamLoop st [a, b, c] (nums.map fun x => ((x.1 : Int), x.2)) i = .ok rows ∧
        All₂ (fun r (x : Nat × Mark) => rowMark x.1 r x.2) rows ((nums.map Prod.fst).zip marks) := by
  intro marks t h
  induction h with
  | nil =>
    intro nums i hl hd
    obtain rfl : nums = [] := List.length_eq_zero_iff.1 hl
    have : st.length ≤ i := by
      have := List.length_drop (i := i) (l := st)
      rw [hd] at this
      simp at this
      omega
    refine ⟨[], ?_, .nil⟩
    simp only [List.map_nil, xrefStreamLoop]
    rw [if_neg (by omega)]
  | @cons m l s t h1 h2 ih =>
    intro nums i hl hd
    cases nums with
    | nil => simp at hl
    | cons q nums =>
      obtain ⟨n, k⟩ := q
      have hs : 1 ≤ s.length := by cases h1 <;> (simp only [List.length_append]; omega)
      have hlt : i < st.length := by
        have := List.length_drop (i := i) (l := st)
        rw [hd] at this
        simp only [List.length_append] at this
        omega
      obtain ⟨rows, r1, r2⟩ := ih nums (i + s.length) (by simpa using hl) (drop_add_of hd)
      have key : ∀ x y z : Bytes, s = x ++ (y ++ z) → x.length = a → y.length = b → z.length = c →
          ∃ ppr, readCols st [a, b, c] i = ([bigVal x, bigVal y, bigVal z], ppr, i + s.length) := by
        intro x y z e hx hy hz
        subst e
        exact readCols_three hd hx hy hz
      simp only [List.map_cons, xrefStreamLoop]
      rw [if_pos hlt]
      cases h1 with
      | free hx hy hz hv =>
        obtain ⟨ppr, hc⟩ := key _ _ _ rfl hx hy hz
        simp only [hc, hv, rowOf, bind, Except.bind, r1]
        exact ⟨_, rfl, .cons ⟨rfl, rfl⟩ r2⟩
      | inUse hx hy hz hv =>
        obtain ⟨ppr, hc⟩ := key _ _ _ rfl hx hy hz
        simp only [hc, hv, rowOf, bind, Except.bind, r1]
        exact ⟨_, rfl, .cons ⟨rfl, rfl, rfl, rfl, rfl⟩ r2⟩
      | inside hx hy hz hv hne =>
        obtain ⟨ppr, hc⟩ := key _ _ _ rfl hx hy hz
        simp only [hc, hv, rowOf, bind, Except.bind, r1]
        exact ⟨_, rfl, .cons ⟨rfl, rfl, rfl, hne, rfl, rfl⟩ r2⟩

theorem streamEntries_marks : ∀ {rows : List XSRow} {l : List (Nat × Mark)}, All₂ (fun r (x : Nat × Mark) => rowMark x.1 r x.2) rows l →
    streamEntries rows = .ok (l.flatMap listed1) := by
  intro rows l h
  induction h with
  | nil => rfl
  | @cons r x rows l h1 h2 ih =>
    obtain ⟨n, m⟩ := x
    simp only [streamEntries, ih, bind, Except.bind, List.flatMap_cons]
    cases m with
    | free p g =>
      obtain ⟨k1, k2⟩ := h1
      rw [if_pos (.inr k2)]
      simp [listed1]
    | inUse p g =>
      obtain ⟨k1, k2, k3, k4, k5⟩ := h1
      by_cases hn : n = 0
      · subst hn
        rw [if_pos (.inl (by simpa using k1))]
        simp [listed1]
      · rw [if_neg (by rw [k1, k2]; simp [hn]), if_neg (by rw [k1]; omega), k3]
        simp [listed1, hn, k1, k4, k5]
    | inside c k =>
      obtain ⟨k1, k2, k3, k4, k5, k6⟩ := h1
      by_cases hn : n = 0
      · subst hn
        rw [if_pos (.inl (by simpa using k1))]
        simp [listed1]
      · rw [if_neg (by rw [k1, k2]; simp [hn]), if_neg (by rw [k1]; omega), k3]
        simp [listed1, hn, k1, k4, k5, k6]

/-! ### The numbers of `/Index` -/

theorem zip_range'_marks : ∀ (l : List Mark) (n : Nat), (List.range' n l.length).zip l = (l.zipIdx n).map fun x => (x.2, x.1)
  | [], _ => rfl
  | m :: l, n => by
    have := zip_range'_marks l (n + 1)
    simp [List.range'_succ, this]

theorem expand_runs : ∀ (runs : List Run) (k : Nat), (∀ r ∈ runs, r.marks ≠ []) →
    ∃ nums : List (Nat × Nat), expandXrefIndex (runs.flatMap fun r => [(r.first : Int), (r.marks.length : Int)]) k =
        .ok (nums.map fun x => ((x.1 : Int), x.2)) ∧ nums.length = (runs.flatMap (·.marks)).length ∧
      (nums.map Prod.fst).zip (runs.flatMap (·.marks)) = runs.flatMap Run.listing
  | [], _, _ => ⟨[], rfl, rfl, rfl⟩
  | r :: runs, k, h => by
    obtain ⟨nums, h1, h2, h3⟩ := expand_runs runs (k + 1) fun r hr => h r (by simp [hr])
    have hr := List.length_pos_iff.2 (h r (by simp))
    have hz : (List.range' r.first r.marks.length).zip r.marks = r.listing := by
      exact zip_range'_marks _ _
    refine ⟨(List.range' r.first r.marks.length).map (fun n => (n, k)) ++ nums, ?_, ?_, ?_⟩
    · simp only [List.flatMap_cons, List.cons_append, List.nil_append, expandXrefIndex, h1, bind, Except.bind]
      obtain ⟨m, hm⟩ : ∃ m, r.marks.length = m + 1 := ⟨r.marks.length - 1, by omega⟩
      rw [hm, List.range'_succ, List.range'_eq_map_range, show ((m + 1 : Nat) : Int) - 1 = (m : Int) by omega, Int.toNat_natCast]
      simp only [List.map_cons, List.map_append, List.map_map, List.cons_append, Function.comp_def, Except.ok.injEq, List.cons.injEq, true_and]
      congr 1
      refine List.map_congr_left fun j _ => ?_
      simp only [Prod.mk.injEq, and_true]
      omega
    · simp [h2]
    · rw [List.map_append, List.map_map]
      simp only [Function.comp_def, List.map_id', List.flatMap_cons]
      rw [List.zip_append (by simp), h3, hz]

theorem mapM_int : ∀ (l : List Obj) (f : Obj → Py Int) (g : List Int), l = g.map Obj.int → (∀ n, f (.int n) = .ok n) → l.mapM f = .ok g
  | _, f, [], rfl, _ => rfl
  | _, f, n :: g, rfl, h => by
    rw [List.map_cons, List.mapM_cons, h, mapM_int (g.map Obj.int) f g rfl h]
    rfl

theorem indexOf_ints (runs : List Run) : indexOf runs = (runs.flatMap fun r => [(r.first : Int), (r.marks.length : Int)]).map Obj.int := by
  simp [indexOf, List.map_flatMap]

theorem raw_marks {tr : List (Bytes × Obj)} (hnd : (tr.map Prod.fst).Nodup) {content : Bytes} {a b c : Nat} (ha : 1 ≤ a) {runs : List Run}
    (hw : Dict.get? tr b!"/W" = some (.list [.int a, .int b, .int c]))
    (hi : Dict.get? tr b!"/Index" = some (.list (indexOf runs)) ∨
      Dict.get? tr b!"/Index" = none ∧ ∃ marks, runs = [⟨0, marks⟩] ∧ Dict.get? tr b!"/Size" = some (.int marks.length))
    (hne : ∀ r ∈ runs, r.marks ≠ []) (hc : AllCols a b c (runs.flatMap (·.marks)) content) :
    ∃ rows, parseXrefStreamRaw (normEntries tr).reverse content = .ok rows ∧
      streamEntries rows = .ok ((runs.flatMap Run.listing).flatMap listed1) := by
  obtain ⟨nums, n1, n2, n3⟩ := expand_runs runs 0 hne
  obtain ⟨rows, r1, r2⟩ := rows_marks ha (st := content) hc nums 0 n2 rfl
  rw [n3] at r2
  refine ⟨rows, ?_, streamEntries_marks r2⟩
  unfold parseXrefStreamRaw
  have hwn : Dict.get? (normEntries tr).reverse b!"/W" = some (.list [.int a, .int b, .int c]) := by
    rw [get?_norm hnd, hw]
    simp [norm, normItems]
  rw [hwn]
  have hcols : intList (.list [.int a, .int b, .int c]) = .ok [(a : Int), b, c] :=
    mapM_int _ _ [(a : Int), b, c] rfl fun n => rfl
  have hneg : ([(a : Int), b, c].any fun x => decide (x < 0)) = false := by
    simp only [List.any_cons, List.any_nil, Bool.or_false, Bool.or_eq_false_iff, decide_eq_false_iff_not]
    omega
  simp only [orRaise, bind, Except.bind, hcols, hneg]
  rw [if_neg (by simp)]
  rcases hi with hi | ⟨hi, marks, rfl, hs⟩
  · rw [get?_norm hnd, hi]
    have hnorm : norm (.list (indexOf runs)) = .list (indexOf runs) := by
      rw [norm, normItems_int]
      intro o ho
      obtain ⟨r, -, hr⟩ := List.mem_flatMap.1 ho
      simp only [List.mem_cons, List.not_mem_nil, or_false] at hr
      rcases hr with rfl | rfl
      · exact ⟨_, rfl⟩
      · exact ⟨_, rfl⟩
    have hst : strictInts (.list (indexOf runs)) = .ok (runs.flatMap fun r => [(r.first : Int), (r.marks.length : Int)]) :=
      mapM_int _ _ _ (indexOf_ints runs) fun n => rfl
    simp only [Option.map_some, hnorm, hst, n1]
    exact r1
  · rw [get?_norm hnd, get?_norm hnd, hi, hs]
    simp only [List.flatMap_cons, List.flatMap_nil, List.append_nil] at n1
    simp only [Option.map_none, Option.map_some, norm]
    rw [show ((0 : Nat) : Int) = 0 from rfl] at n1
    rw [n1]
    exact r1

/-- A cross-reference stream where it is. -/
theorem stream_at {F s r : Bytes} {pos num : Nat} {runs : List Run} {tr : List (Bytes × Obj)} (h : XStreamText num runs tr s)
    (hd : F.drop pos = s ++ r) : pos < F.length ∧ slice F pos (pos + 4) ≠ b!"xref" ∧ (∃ c, s.head? = some c ∧ (isDigit c = true ∨ c = 43 ∨ c = 45)) ∧
      ((normEntries tr).reverse.map Prod.fst).Nodup ∧ 0 < s.length ∧
      readStreamSection F pos pos = .ok
        ({ num := 0, absPos := some (.at pos), xrefStreamPos := some pos, xrefStreamNum := some num },
          (runs.flatMap Run.listing).flatMap listed1, .dict (normEntries tr).reverse) ∧
      (∀ e next, e.absPos = some (.at pos) → e.absNext = some next → parseTrailer (.single F) e = .ok (normEntries tr).reverse) := by
  obtain ⟨gen, content, enc, a, b, c, hind, ha, hw, hi, hne, hc⟩ := h
  have hobj := parse_indirectText hind hd
  obtain ⟨n, g, w1, w2, w3, v, w4, hs, hn, hg, hv, h1, h2, hww, h4, h5, h6⟩ := hind
  have hnd : (tr.map Prod.fst).Nodup := by
    cases hv with
    | obj h _ => cases h
    | stream h _ _ _ => cases h with
      | dict _ _ hn => exact hn
  obtain ⟨rows, r1, r2⟩ := raw_marks hnd ha hw hi hne hc
  have hd0 : F.drop pos = n ++ (w1 ++ (g ++ (w2 ++ (b!"obj" ++ (w3 ++ (v ++ (w4 ++ (b!"endobj" ++ r)))))))) := by rw [hd, hs]; simp
  have hhead : ∃ x l, n = x :: l ∧ (isDigit x = true ∨ x = 43 ∨ x = 45) := by
    obtain ⟨sg, neg, ds, rfl, hsg, hds, hdne, -⟩ := hn
    cases hsg with
    | none =>
      cases ds with
      | nil => exact absurd rfl hdne
      | cons x ds =>
        have := digits_all hds
        simp only [List.all_cons, Bool.and_eq_true] at this
        exact ⟨x, ds, rfl, .inl this.1⟩
    | plus => exact ⟨43, ds, rfl, .inr (.inl rfl)⟩
    | minus => exact ⟨45, ds, rfl, .inr (.inr rfl)⟩
  obtain ⟨x, l, hxl, hx⟩ := hhead
  obtain ⟨y, w, hyw⟩ : ∃ y w, w1 = y :: w := by
    cases w1 with
    | nil => exact absurd rfl h1
    | cons y w => exact ⟨y, w, rfl⟩
  have hyb : isBreak y = true := by
    have hwb : ∀ y ∈ white, isBreak y = true := by decide
    exact hwb y (hww y (by simp [hyw]))
  obtain ⟨q1, q2⟩ := drop_split hd0 (by simp [hxl])
  have hd1 : F.drop pos = [] ++ (n ++ y :: (w ++ (g ++ (w2 ++ (b!"obj" ++ (w3 ++ (v ++ (w4 ++ (b!"endobj" ++ r))))))))) := by
    rw [hd0, hyw]; simp
  have htok := nextToken_at (tokAt_intText hn hyb _) (by simp) hd1
  simp only [List.length_nil, Nat.add_zero] at htok
  have hnum : parseObj F pos = .ok (.int num) := by
    have := parse_spells (Spells.int (inD := false) (inA := false) hn) (by simp) (F.take pos)
      (w1 ++ (g ++ (w2 ++ (b!"obj" ++ (w3 ++ (v ++ (w4 ++ (b!"endobj" ++ r)))))))) (.inr ⟨y, _, by rw [hyw]; rfl, hyb⟩) (by simp)
    rw [← q1, q2] at this
    exact this
  have hlt : pos < F.length := by
    refine Classical.byContradiction fun hlt => ?_
    rw [List.drop_eq_nil_of_le (by omega)] at hd0
    simp [hxl] at hd0
  refine ⟨hlt, ?_, ⟨x, by rw [hs, hxl]; rfl, hx⟩, ?_, ?_, ?_, ?_⟩
  · intro hxr
    have : slice F pos (pos + 4) = (F.drop pos).take 4 := by
      unfold slice
      rw [List.drop_take]
      congr 1
      omega
    rw [this, hd0, hxl] at hxr
    simp only [List.cons_append, List.take_succ_cons] at hxr
    have := (List.cons.inj hxr).1
    subst this
    revert hx
    decide
  · rw [List.map_reverse, normEntries_keys]
    exact (List.reverse_perm _).nodup_iff.2 hnd
  · rw [hs, hxl]; simp
  · unfold readStreamSection
    rw [htok]
    simp only [hnum, bind, Except.bind]
    have h3 : (nthToken F 3 pos).1 = (nextToken F (nextToken F (nextToken F (pos + n.length)).2.1).2.1).1 := by
      simp only [nthToken, htok]
    rw [h3] at hobj
    rw [hobj]
    simp only [normTop, parseXrefStream, r1, r2, bind, Except.bind, pure, Except.pure]
  · intro e next h1 h2
    unfold parseTrailer
    rw [readEntry_single h1 h2 hlt]
    have h0 : nthToken F 0 pos = (pos, pos + n.length) := by simp [nthToken, htok]
    simp only [bind, Except.bind, h0]
    have hne : slice F pos (pos + n.length) ≠ b!"trailer" := by
      intro hxr
      rw [slice_of_drop hd0, hxl] at hxr
      have := (List.cons.inj hxr).1
      subst this
      revert hx
      decide
    rw [if_neg hne]
    have h3 : (nthToken F 2 (pos + n.length)).1 = (nthToken F 3 pos).1 := by
      conv => rhs; unfold nthToken
      rw [htok]
    rw [h3, hobj]
    rfl

/-! ### Sections -/

/-- A section as the library keeps it. -/
def secX (s : FileSec) : XSec :=
  ⟨s.pos, match s.num with
    | none => s.pos + (find s.text b!"trailer" 0).getD 0
    | some _ => s.pos, s.num, s.listing.flatMap listed1, (normEntries s.tr).reverse⟩

/-- Where the objects of a file are: at positions of the file. -/
def Placed (F : Bytes) (s : FileSec) : Prop := ∀ n p g, (n, Mark.inUse p g) ∈ s.listing → p < F.length

theorem listed1_entry {F : Bytes} {s : FileSec} (h : Placed F s) : ∀ e ∈ s.listing.flatMap listed1, XEntry F.length e := by
  intro e he
  obtain ⟨⟨n, m⟩, hx, he⟩ := List.mem_flatMap.1 he
  cases m with
  | free => simp [listed1] at he
  | inUse p g =>
    by_cases hn : n = 0
    · simp [listed1, hn] at he
    · simp only [listed1, hn, if_false, List.mem_singleton] at he
      exact ⟨n, g, by omega, .inl ⟨p, h n p g hx, he⟩⟩
  | inside c k =>
    by_cases hn : n = 0
    · simp [listed1, hn] at he
    · simp only [listed1, hn, if_false, List.mem_singleton] at he
      exact ⟨n, 0, by omega, .inr ⟨c, k, he⟩⟩

theorem eof_of_text {F A t : Bytes} {p q : Nat} {c : UInt8} (hF : F = A ++ t) (ht : EndText p t)
    (hq : (F.drop q).head? = some c) (hc : isDigit c = true ∨ c = 43 ∨ c = 45 ∨ c = 120) :
    ∃ j, j < F.length ∧ ∀ rest, find (F ++ rest) b!"%%EOF" q = some j := by
  obtain ⟨w1, ds, w2, w3, rfl, -, -, -, -, hw3, -⟩ := ht
  have hF2 : F = (A ++ (b!"startxref" ++ (w1 ++ (ds ++ w2)))) ++ (b!"%%EOF" ++ w3) := by rw [hF]; simp
  generalize A ++ (b!"startxref" ++ (w1 ++ (ds ++ w2))) = B at hF2
  have hqB : q ≤ B.length := by
    refine Classical.byContradiction fun hlt => ?_
    have : F.drop q = (b!"%%EOF" ++ w3).drop (q - B.length) := by
      rw [hF2, List.drop_append, List.drop_eq_nil_of_le (by omega), List.nil_append]
    rw [this] at hq
    have hm : c ∈ (b!"%%EOF" ++ w3) := List.mem_of_mem_drop (List.mem_of_mem_head? hq)
    rcases List.mem_append.1 hm with hm | hm
    · have : ∀ c ∈ b!"%%EOF", ¬ (isDigit c = true ∨ c = 43 ∨ c = 45 ∨ c = 120) := by decide
      exact this c hm hc
    · rcases hw3 c hm with rfl | rfl <;> revert hc <;> decide
  have hdr : F.drop q = B.drop q ++ (b!"%%EOF" ++ w3) := by rw [hF2, List.drop_append_of_le_length hqB]
  obtain ⟨j, j1, j2⟩ := findAux_exists (p := b!"%%EOF") (B.drop q ++ (b!"%%EOF" ++ w3)) q (B.drop q).length
    ⟨w3, by rw [List.drop_left' rfl]⟩ (by simp)
  refine ⟨q + j, ?_, ?_⟩
  · have : F.length = B.length + 5 + w3.length := by rw [hF2]; simp; omega
    simp only [List.length_drop] at j1
    omega
  · intro rest
    have hl : q ≤ F.length := by rw [hF2]; simp; omega
    unfold find
    rw [List.drop_append_of_le_length hl, hdr]
    exact findAux_append _ _ j2

/-- A section where it is in a file. -/
theorem sec_at {F A t r : Bytes} {p : Nat} {s : FileSec} (h : s.Text) (hpos : 0 < s.pos) (hd : F.drop s.pos = s.text ++ r)
    (hpl : Placed F s) (hF : F = A ++ t) (ht : EndText p t) :
    XSecAt F (secX s) ∧ (secX s).tp < s.pos + s.text.length ∧ s.pos ≤ (secX s).tp := by
  have hlen : 0 < s.text.length → s.pos < F.length := by
    intro h0
    refine Classical.byContradiction fun hlt => ?_
    rw [List.drop_eq_nil_of_le (by omega)] at hd
    have := congrArg List.length hd
    simp only [List.length_nil, List.length_append] at this
    omega
  have hdr : ∀ rest, 0 < s.text.length → (F ++ rest).drop s.pos = s.text ++ (r ++ rest) := by
    intro rest h0
    rw [List.drop_append_of_le_length (Nat.le_of_lt (hlen h0)), hd, List.append_assoc]
  obtain ⟨pos, text, num, runs, tr⟩ := s
  cases num with
  | none =>
    have h : TableText runs tr text := h
    simp only at hd hdr hlen hpos
    obtain ⟨tp, a0, a1, a2, a3, a4, a5, a6, a7, a8⟩ := table_at h hd
    have h0 : 0 < text.length := by omega
    refine ⟨⟨hpos, ?_, ?_, listed1_entry hpl, ?_, ?_, a6, ?_⟩, ?_, ?_⟩
    · simp only [secX]; omega
    · simp only [secX]; omega
    · intro rest x ep last
      obtain ⟨tp', b0, b1, b2, b3, b4, b5, b6, b7, b8⟩ := table_at h (hdr rest h0)
      simp only [secX]
      unfold readSection
      rw [single_read_at (by omega) (by omega)]
      have hn : natPos (pos : Int) = .ok pos := by simp [natPos]
      simp only [bind, Except.bind, hn]
      rw [if_pos b3, b7, ← b0]
      rfl
    · intro rest e next h1 h2
      obtain ⟨tp', b0, b1, b2, b3, b4, b5, b6, b7, b8⟩ := table_at h (hdr rest h0)
      refine b8 e next ?_ h2
      rw [h1, b0]
      rfl
    · refine eof_of_text hF ht (c := 120) ?_ (by simp)
      simp only [secX, hd]
      rw [List.head?_append, a5]
      rfl
    · simp only [secX]; omega
    · simp only [secX]; omega
  | some n =>
    have h : XStreamText n runs tr text := h
    simp only at hd hdr hlen hpos
    obtain ⟨a1, a2, ⟨c, a3, a4⟩, a5, h0, a6, a7⟩ := stream_at h hd
    refine ⟨⟨hpos, Nat.le_refl _, a1, listed1_entry hpl, ?_, ?_, a5, ?_⟩, ?_, Nat.le_refl _⟩
    · intro rest x ep last
      obtain ⟨b1, b2, -, -, -, b6, b7⟩ := stream_at h (hdr rest h0)
      simp only [secX]
      unfold readSection
      rw [single_read_at (by omega) (by omega), single_read_at (by omega) (by omega)]
      have hn : natPos (pos : Int) = .ok pos := by simp [natPos]
      simp only [bind, Except.bind, hn]
      rw [if_neg b2, b6]
      rfl
    · intro rest e next h1 h2
      exact (stream_at h (hdr rest h0)).2.2.2.2.2.2 e next h1 h2
    · refine eof_of_text hF ht (c := c) ?_ (by rcases a4 with h | h | h <;> simp [h])
      simp only [secX, hd]
      rw [List.head?_append, a3]
      rfl
    · simp only [secX]; omega

/-! ### Files -/

theorem listedX_secX (secs : List FileSec) : listedX (secs.map secX) = (listings secs).flatMap listed1 := by
  simp only [listedX, listings, ← List.map_reverse, List.flatMap_map, secX, List.flatMap_assoc]

theorem mem_listed1 {l : List (Nat × Mark)} {e : Entry} (h : e ∈ l.flatMap listed1) :
    ∃ n m, (n, m) ∈ l ∧ n ≠ 0 ∧ e.num = n ∧ listed1 (n, m) = [e] := by
  obtain ⟨⟨n, m⟩, hx, he⟩ := List.mem_flatMap.1 h
  refine ⟨n, m, hx, ?_⟩
  cases m with
  | free => simp [listed1] at he
  | _ =>
    by_cases hn : n = 0
    · simp [listed1, hn] at he
    · simp only [listed1, hn, if_false, List.mem_singleton] at he
      subst he
      exact ⟨hn, rfl, by simp [listed1, hn]⟩

/-- The newest entry in use, from the newest mark. -/
theorem lastFor_newest {secs : List FileSec} {n : Nat} {m : Mark} {e : Entry} (h : newest secs n = some m) (he : listed1 (n, m) = [e]) :
    lastFor n (listedX (secs.map secX)) = some e := by
  obtain ⟨⟨n', m'⟩, h1, h2⟩ := Option.map_eq_some_iff.1 h
  simp only at h2
  subst h2
  obtain ⟨hn, a, b, hs, hb⟩ := List.find?_eq_some_iff_append.1 h1
  simp only [beq_iff_eq] at hn
  subst hn
  have hL : listings secs = b.reverse ++ (n', m') :: a.reverse := by
    have := congrArg List.reverse hs
    simpa using this
  have hen : e.num = n' := by
    obtain ⟨n2, m2, k1, -, k3, -⟩ := mem_listed1 (l := [(n', m')]) (e := e) (by simp [he])
    simp only [List.mem_singleton, Prod.mk.injEq] at k1
    rw [k3, k1.1]
  have hno : (a.reverse.flatMap listed1).filter (fun x => x.num = (n' : Int)) = [] := by
    rw [List.filter_eq_nil_iff]
    intro x hx
    obtain ⟨n2, m2, k1, -, k3, -⟩ := mem_listed1 hx
    have := hb (n2, m2) (List.mem_reverse.1 k1)
    simp only [Bool.not_eq_true', beq_eq_false_iff_ne] at this
    rw [k3]
    simpa using fun h => this (by omega)
  rw [listedX_secX, hL]
  unfold lastFor
  rw [List.flatMap_append, List.flatMap_cons, he, List.filter_append, List.filter_append, hno]
  simp [hen]

theorem lastFor_unused {secs : List FileSec} {n : Nat} (h : ∀ m, (n, m) ∈ listings secs → ∃ p g, m = .free p g) :
    lastFor n (listedX (secs.map secX)) = none := by
  refine lastFor_none ?_
  intro e he hn
  rw [listedX_secX] at he
  obtain ⟨n2, m2, k1, -, k3, k4⟩ := mem_listed1 he
  rw [k3] at hn
  have : n2 = n := by omega
  subst this
  obtain ⟨p, g, rfl⟩ := h m2 k1
  simp [listed1] at k4

theorem allCols_inside {a b d : Nat} {l : List Mark} {t : Bytes} (h : AllCols a b d l t) {c k : Nat} (hm : .inside c k ∈ l) : c ≠ 0 := by
  induction h with
  | nil => simp at hm
  | cons h1 h2 ih =>
    rcases List.mem_cons.1 hm with h | h
    · subst h
      cases h1
      assumption
    · exact ih h

theorem inside_pos {s : FileSec} (h : s.Text) {n c k : Nat} (hx : (n, .inside c k) ∈ s.listing) : c ≠ 0 := by
  obtain ⟨r, hr, hx⟩ := List.mem_flatMap.1 hx
  obtain ⟨y, hy, e⟩ := List.mem_map.1 hx
  simp only [Prod.mk.injEq] at e
  have hm : .inside c k ∈ r.marks := e.2 ▸ List.fst_mem_of_mem_zipIdx hy
  obtain ⟨pos, text, num, runs, tr⟩ := s
  cases num with
  | none =>
    have h : TableText runs tr text := h
    rcases h with ⟨_, _, _, _, _, _, _, _, _, hrows, _⟩ | ⟨_, _, _, _, _, _, _, _, _, _, hrows, _⟩ <;>
      exact absurd rfl (runs_noInside hrows r hr _ hm c k)
  | some q =>
    have h : XStreamText q runs tr text := h
    obtain ⟨_, _, _, _, _, _, _, _, _, _, _, hc⟩ := h
    have hm2 : .inside c k ∈ runs.flatMap (·.marks) := List.mem_flatMap.2 ⟨r, hr, hm⟩
    exact allCols_inside hc hm2

theorem mem_listings {secs : List FileSec} {x : Nat × Mark} : x ∈ listings secs ↔ ∃ s ∈ secs, x ∈ s.listing := by
  simp [listings]

/-- What an embedded entry of a file says of its object stream. -/
theorem fileText_env {F : Bytes} {secs newer older : List FileSec} (h : FileText F secs) (hs : secs = newer ++ older) :
    EnvOk (listedX (older.map secX)) := by
  intro n le env hn hl henv
  obtain ⟨hmem, hnum⟩ := lastFor_mem hl
  rw [listedX_secX] at hmem
  obtain ⟨n2, m, k1, k2, k3, k4⟩ := mem_listed1 hmem
  have hin : ∃ k, m = .inside env k := by
    cases m with
    | free => simp [listed1] at k4
    | inUse p g =>
      simp only [listed1, k2, if_false, List.cons.injEq, and_true] at k4
      rw [← k4] at henv
      cases henv
    | inside c k =>
      simp only [listed1, k2, if_false, List.cons.injEq, and_true] at k4
      rw [← k4] at henv
      simp only [Option.some.injEq] at henv
      have : c = env := by omega
      subst this
      exact ⟨k, rfl⟩
  obtain ⟨k, rfl⟩ := hin
  obtain ⟨s, hso, hsl⟩ := mem_listings.1 k1
  have hold : ∀ x ∈ listings older, x ∈ listings secs := by
    intro x hx
    obtain ⟨s', h1, h2⟩ := mem_listings.1 hx
    exact mem_listings.2 ⟨s', by rw [hs]; simp [h1], h2⟩
  have henv0 : env ≠ 0 := inside_pos (h.sections s (by rw [hs]; simp [hso])).1 hsl
  obtain ⟨a, b, hab⟩ := List.append_of_mem hso
  obtain ⟨p, g, hp⟩ := h.streams (newer ++ a) s b (by rw [hs, hab]; simp) _ _ _ hsl
  have hp' : (env, .inUse p g) ∈ listings older := by
    obtain ⟨s', h1, h2⟩ := mem_listings.1 hp
    exact mem_listings.2 ⟨s', by rw [hab]; simp [List.mem_cons.1 h1], h2⟩
  obtain ⟨ce, hce⟩ := lastFor_some (n := env) (l := listedX (older.map secX)) (e := { num := env, gen := g, absPos := some (.at p) })
    (by rw [listedX_secX]; exact List.mem_flatMap.2 ⟨_, hp', by simp [listed1, henv0]⟩) rfl
  refine ⟨ce, hce, ?_⟩
  obtain ⟨hcm, hcn⟩ := lastFor_mem hce
  rw [listedX_secX] at hcm
  obtain ⟨n3, m3, j1, j2, j3, j4⟩ := mem_listed1 hcm
  have : n3 = env := by omega
  subst this
  cases m3 with
  | free => simp [listed1] at j4
  | inUse p g =>
    simp only [listed1, j2, if_false, List.cons.injEq, and_true] at j4
    rw [← j4]
  | inside c' k' => exact absurd (hold _ j1) (h.direct _ _ _ _ _ (hold _ k1))

theorem fileText_chain {F : Bytes} {secs : List FileSec} (h : FileText F secs) : XChain F (secs.map secX) := by
  obtain ⟨A, t, s0, -, hF, ht⟩ := h.ends
  have hsec : ∀ s ∈ secs, XSecAt F (secX s) ∧ (secX s).tp < s.pos + s.text.length ∧ s.pos ≤ (secX s).tp := by
    intro s hs
    obtain ⟨h1, h2, r, h3⟩ := h.sections s hs
    exact sec_at h1 h2 h3 (fun n p g hx => h.placed n p g (mem_listings.2 ⟨s, hs, hx⟩)) hF ht
  have key : ∀ (l newer : List FileSec), secs = newer ++ l → Linked l → XChain F (l.map secX) := by
    intro l
    induction l with
    | nil => intro _ _ _; trivial
    | cons s l ih =>
      intro newer hs hl
      obtain ⟨a1, a2, a3, a4⟩ := hl
      have hsm : s ∈ secs := by rw [hs]; simp
      obtain ⟨b1, b2, b3⟩ := hsec s hsm
      have hnd : (s.tr.map Prod.fst).Nodup := by
        have := b1.nodup
        simp only [secX, List.map_reverse, normEntries_keys] at this
        exact (List.reverse_perm _).nodup_iff.1 this
      refine ⟨b1, ?_, ?_, ?_, fileText_env h (newer := newer) hs, ih (newer ++ [s]) (by rw [hs]; simp) a4⟩
      · show Dict.get? (normEntries s.tr).reverse _ = _
        rw [get?_norm hnd, a1]; rfl
      · show Dict.get? (normEntries s.tr).reverse _ = _
        rw [get?_norm hnd, a2]
        cases l <;> rfl
      · rcases a3 with a3 | ⟨m, rfl, a3⟩
        · refine .inl fun s' hs' => ?_
          obtain ⟨q, hq, rfl⟩ := List.mem_map.1 hs'
          have := a3 q hq
          obtain ⟨-, c2, c3⟩ := hsec q (by rw [hs]; simp [hq])
          refine ⟨by omega, ?_⟩
          show q.pos < s.pos
          omega
        · obtain ⟨-, c2, c3⟩ := hsec m (by rw [hs]; simp)
          exact .inr ⟨secX m, rfl, by omega⟩
  exact key secs [] rfl h.linked

theorem fileText_bound {F : Bytes} {secs : List FileSec} (h : FileText F secs) : EnvBound (listedX (secs.map secX)) := by
  intro e he henv
  rw [listedX_secX] at he ⊢
  obtain ⟨n, m, k1, k2, k3, k4⟩ := mem_listed1 he
  cases m with
  | free => simp [listed1] at k4
  | inUse p g =>
    simp only [listed1, k2, if_false, List.cons.injEq, and_true] at k4
    rw [← k4] at henv
    exact absurd rfl henv
  | inside c k =>
    obtain ⟨m, p, g, j1, j2⟩ := h.bound n c k k1
    refine ⟨{ num := m, gen := g, absPos := some (.at p) }, List.mem_flatMap.2 ⟨_, j1, by simp [listed1, show m ≠ 0 by omega]⟩, rfl, ?_⟩
    rw [k3]
    simpa using j2

theorem fileText_above {F : Bytes} {s : FileSec} {l : List FileSec} (h : FileText F (s :: l)) (hn : NewestLast (s :: l)) : Above (secX s) (l.map secX) := by
  have hc := fileText_chain h
  obtain ⟨-, -, -, hc | ⟨m, h1, h2⟩, -⟩ := hc
  · exact hc
  · exfalso
    obtain ⟨main, rfl, rfl⟩ : ∃ main, l = [main] ∧ secX main = m := by
      cases l with
      | nil => cases h1
      | cons a l =>
        cases l with
        | nil => cases h1; exact ⟨a, rfl, rfl⟩
        | cons b l => cases h1
    obtain ⟨A, t, s0, -, hF, ht⟩ := h.ends
    have hsec : ∀ q ∈ [s, main], XSecAt F (secX q) ∧ (secX q).tp < q.pos + q.text.length ∧ q.pos ≤ (secX q).tp := by
      intro q hq
      obtain ⟨h1, h2, r, h3⟩ := h.sections q hq
      exact sec_at h1 h2 h3 (fun n p g hx => h.placed n p g (mem_listings.2 ⟨q, hq, hx⟩)) hF ht
    obtain ⟨-, c1, c2⟩ := hsec s (by simp)
    obtain ⟨-, c3, c4⟩ := hsec main (by simp)
    have hpos := hn s [main] rfl main (by simp)
    obtain ⟨-, -, k | ⟨m', k1, k2⟩, -⟩ := h.linked
    · have := k main (by simp)
      omega
    · cases k1
      omega

/-- Loading a file that any program wrote. -/
theorem fileText_loads {F : Bytes} {secs : List FileSec} (h : FileText F secs) (hn : NewestLast secs) : ∃ (d : Doc) (t : Dict) (s : FileSec), secs.head? = some s ∧
    loads F = .ok d ∧ FreshX d F (secs.map secX) ∧ d.cache[0]? = some (.dict t) ∧
      ∀ k, ¬ FileKey k → Dict.get? t k = (Dict.get? s.tr k).map norm := by
  obtain ⟨A, t, s, hs, hF, ht⟩ := h.ends
  obtain ⟨l, rfl⟩ : ∃ l, secs = s :: l := by
    cases secs with
    | nil => simp at hs
    | cons q l =>
      simp only [List.head?_cons, Option.some.injEq] at hs
      exact ⟨l, by rw [hs]⟩
  have hc := fileText_chain h
  obtain ⟨d, t', h1, h2, h3, -, h5, -⟩ := loads_x (s := secX s) (l := l.map secX) hc (fileText_above h hn) (fileText_bound h) (.inr ⟨A, t, hF, ht⟩) h.min h.max
  refine ⟨d, t', s, hs, h1, h2, h3, ?_⟩
  intro k hk
  rw [h5 k hk]
  have hnd : (s.tr.map Prod.fst).Nodup := by
    have := hc.1.nodup
    simp only [secX, List.map_reverse, normEntries_keys] at this
    exact (List.reverse_perm _).nodup_iff.1 this
  exact get?_norm hnd k

theorem readsAs_text {F s r : Bytes} {p num gen : Nat} {o : Obj} (h : IndirectText num gen o s) (hd : F.drop p = s ++ r) (hlt : p < F.length) :
    ReadsAs F p (normTop o) := by
  intro rest e next h1 h2
  unfold parseIndirect
  rw [readEntry_single h1 h2 (by rw [List.length_append]; omega)]
  simp only [bind, Except.bind]
  exact parse_indirectText h (by rw [List.drop_append_of_le_length (Nat.le_of_lt hlt), hd, List.append_assoc])

end Pdf
