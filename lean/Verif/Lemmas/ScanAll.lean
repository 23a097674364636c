/-
Scanning a whole file that was written in table mode.
-/
import Verif.Lemmas.ScanFile
import Verif.Lemmas.Filed

namespace Pdf
open Spec

/-- The regions found one after the other from `i` to `j`. -/
inductive Regions [Zlib] (F : Bytes) : Nat → List Region → Nat → Prop
  | nil (i : Nat) : Regions F i [] i
  | cons {i j : Nat} {r : Region} {rs : List Region} (hi : i < F.length) (hr : parseRegion F i = .ok (some r))
      (hf : i < r.fin) (t : Regions F r.fin rs j) : Regions F i (r :: rs) j

theorem Regions.append [Zlib] {F : Bytes} {i j k : Nat} {a b : List Region} (h1 : Regions F i a j) (h2 : Regions F j b k) :
    Regions F i (a ++ b) k := by
  induction h1 with
  | nil => exact h2
  | cons hi hr hf _ ih => exact .cons hi hr hf (ih h2)

theorem Regions.loop [Zlib] {F : Bytes} {i j : Nat} {rs : List Region} (h : Regions F i rs j) (hj : j = F.length) :
    ∀ fuel, F.length < fuel + i → fileMapLoop F fuel i = (rs.mapM regionItems).map List.flatten := by
  induction h with
  | nil i =>
    intro fuel hf
    cases fuel with
    | zero => omega
    | succ n =>
      rw [fileMapLoop, if_neg (by omega)]
      rfl
  | cons hi hr hf t ih =>
    intro fuel hfu
    cases fuel with
    | zero => omega
    | succ n =>
      rw [fileMapLoop, if_pos hi, hr]
      rw [List.mapM_cons]
      simp only [bind, Except.bind]
      rw [ih hj n (by omega)]
      rename_i r rs
      cases regionItems r with
      | error => rfl
      | ok its =>
        simp only
        cases rs.mapM regionItems with
        | error => rfl
        | ok l => rfl

/-- The regions of objects written one after the other. -/
def blockRegions : Nat → Bytes → List Blk → List Region
  | i, ws, [] => [.void i (i + ws.length) ws]
  | i, ws, b :: bs =>
    .void i (i + ws.length) ws ::
    .indObj (some (i + ws.length)) (i + ws.length + b.text.length - 1) b.num b.gen (readBack b.obj) ::
    blockRegions (i + ws.length + b.text.length - 1) b!"\n" bs

theorem lt_of_drop {F : Bytes} {i : Nat} {l : Bytes} (h : F.drop i = l) (hl : l ≠ []) : i < F.length := by
  refine Classical.byContradiction fun hh => hl ?_
  rw [← h, List.drop_eq_nil_of_le (by omega)]

theorem regions_blocks [Zlib] {text s post : Bytes} {t : TokT} (ht : TokAt s post t) (hs : s ≠ []) :
    ∀ (bs : List Blk) (i : Nat) (ws : Bytes), ws ≠ [] → (∀ c ∈ ws, isSpace c = true) →
    (∀ b ∈ bs, serialize 0 b.obj = .ok b.ser ∧ Storable b.obj) →
    text.drop i = ws ++ (blocksText bs ++ (s ++ post)) →
    Regions text i (blockRegions i ws bs) (i + ws.length + (blocksText bs).length)
  | [], i, ws, hne, hws, _, hd => by
    simp only [blocksText, List.flatMap_nil, List.nil_append] at hd
    have hl := List.length_pos_iff.2 hne
    refine .cons (lt_of_drop hd (by simp [hne])) (region_void ht hws hne hd) ?_ (.nil _)
    simp only [Region.fin]
    omega
  | b :: bs, i, ws, hne, hws, hg, hd => by
    have hl := List.length_pos_iff.2 hne
    obtain ⟨hb1, hb2⟩ := hg b (by simp)
    have hd0 : text.drop i = ws ++ (natDec b.num ++ 32 :: (natDec b.gen ++ b!" obj\n" ++ b.ser ++ b!"\nendobj\n" ++ (blocksText bs ++ (s ++ post)))) := by
      rw [hd]
      simp [blocksText, Blk.text, indirect]
    have hd1 : text.drop (i + ws.length) = indirect b.num b.gen b.ser ++ (blocksText bs ++ (s ++ post)) := by
      rw [drop_add_of hd]
      simp [blocksText, Blk.text]
    have hlen : 8 ≤ b.text.length := by
      unfold Blk.text
      rw [header_length]
      omega
    have hd2 : text.drop (i + ws.length + b.text.length - 1) = b!"\n" ++ (blocksText bs ++ (s ++ post)) := by
      have h1 : indirect b.num b.gen b.ser = (natDec b.num ++ b!" " ++ natDec b.gen ++ b!" obj\n" ++ b.ser ++ b!"\nendobj") ++ b!"\n" := by
        simp [indirect]
      have hlen' := congrArg List.length h1
      rw [List.length_append] at hlen'
      rw [h1, List.append_assoc] at hd1
      have := drop_add_of hd1
      rw [← this]
      congr 1
      unfold Blk.text at hlen ⊢
      simp only [List.length_cons, List.length_nil] at hlen'
      omega
    have hrest := regions_blocks ht hs bs _ b!"\n" (by simp) (by decide) (fun b hb => hg b (by simp [hb])) hd2
    refine .cons (lt_of_drop hd (by simp [hne])) (region_void (tokAt_nat b.num (c := 32) (by decide) _) hws hne hd0)
      (by simp only [Region.fin]; omega) ?_
    refine .cons (lt_of_drop hd1 (by simp [indirect])) (show parseRegion text (i + ws.length) = .ok (some (.indObj _ (i + ws.length + b.text.length - 1) _ _ _)) from region_obj hb2 hb1 hd1) ?_ ?_
    · simp only [Region.fin]
      omega
    · have he : i + ws.length + b.text.length - 1 + (b!"\n").length + (blocksText bs).length =
          i + ws.length + (blocksText (b :: bs)).length := by
        simp [blocksText]
        omega
      rw [← he]
      exact hrest

/-- The entry of an index which leads to a region. -/
def regionEntry : Region → Option Entry
  | .indObj (some b) _ num gen _ => some { num := num, gen := gen.toNat, absPos := some (.at (b : Nat)) }
  | _ => none

theorem blockRegions_entries : ∀ (bs : List Blk) (i : Nat) (ws : Bytes),
    (blockRegions i ws bs).filterMap regionEntry = placedEntries (i + ws.length) bs
  | [], _, _ => rfl
  | b :: bs, i, ws => by
    have hlen : 8 ≤ b.text.length := by
      unfold Blk.text
      rw [header_length]
      omega
    have ih := blockRegions_entries bs (i + ws.length + b.text.length - 1) b!"\n"
    have he : i + ws.length + b.text.length - 1 + (b!"\n").length = i + ws.length + b.text.length := by
      simp only [List.length_cons, List.length_nil]
      omega
    rw [he] at ih
    simp only [blockRegions, List.filterMap_cons, regionEntry, ih, placedEntries, Int.toNat_natCast]

/-- An object that the scan does not unfold into others. -/
def PlainRegion [Zlib] : Region → Prop
  | .indObj b _ num gen o => (∃ p, b = some p) ∧ 0 ≤ num ∧ 0 ≤ gen ∧ isObjStm o = false
  | _ => True

theorem readBack_objStm [Zlib] {o : Obj} (hs : Storable o) (h : isObjStm o = false) : isObjStm (readBack o) = false := by
  cases o with
  | stream d c e =>
    obtain ⟨hw, -⟩ := hs
    have hnd := (wf_dict_iff.1 hw).2
    simp only [isObjStm, beq_eq_false_iff_ne, ne_eq] at h ⊢
    simp only [readBack, beq_eq_false_iff_ne, ne_eq]
    rw [get?_norm hnd]
    intro hh
    apply h
    rcases hg : Dict.get? d b!"/Type" with _ | v
    · rw [hg] at hh; cases hh
    · rw [hg] at hh
      simp only [Option.map_some, Option.some.injEq] at hh
      cases v <;> simp [norm] at hh
      rw [hh]
  | list => rfl
  | dict => rfl
  | _ => exact h

theorem blockRegions_plain [Zlib] : ∀ (bs : List Blk) (i : Nat) (ws : Bytes),
    (∀ b ∈ bs, Storable b.obj ∧ isObjStm b.obj = false) → ∀ r ∈ blockRegions i ws bs, PlainRegion r
  | [], _, _, _, r, hr => by
    simp only [blockRegions, List.mem_singleton] at hr
    subst hr
    trivial
  | b :: bs, i, ws, hg, r, hr => by
    simp only [blockRegions, List.mem_cons] at hr
    rcases hr with rfl | rfl | hr
    · trivial
    · obtain ⟨h1, h2⟩ := hg b (by simp)
      exact ⟨⟨_, rfl⟩, by omega, by omega, readBack_objStm h1 h2⟩
    · exact blockRegions_plain bs _ _ (fun b hb => hg b (by simp [hb])) r hr

/-- The region of the table of a section. -/
def TableRegion (s : Sec) (r : Region) : Prop :=
  ∃ (fin : Nat) (rows : List XRow) (tr : Obj) (nf : List (Nat × Nat)) (blocks : List (List XElem)),
    r = .xrefTable s.pos fin rows tr ∧ numberRows none rows = .ok (numbered nf 0 blocks) ∧ (∀ b ∈ blocks, IsRun b) ∧
    blocks.flatten.filterMap elemEntry = s.objs

theorem blockRegions_noTable (b e : Nat) (rows : List XRow) (tr : Obj) : ∀ (bs : List Blk) (i : Nat) (ws : Bytes),
    Region.xrefTable b e rows tr ∉ blockRegions i ws bs
  | [], _, _ => by simp [blockRegions]
  | b' :: bs, i, ws => by
    simp only [blockRegions, List.mem_cons, reduceCtorEq, false_or]
    exact blockRegions_noTable b e rows tr bs _ _

theorem regions_rev [Zlib] {pre new : Bytes} {s : Sec} (h : RevAt (fun b => Storable b.obj ∧ isObjStm b.obj = false) pre new s)
    (i : Nat) (ws : Bytes) (hws : ∀ c ∈ ws, isSpace c = true) (hi : i + ws.length = pre.length)
    (hpre : pre.drop i = ws) (rest : Bytes) :
    ∃ rs, Regions (pre ++ new ++ rest) i rs ((pre ++ new).length - 1) ∧
      (∀ e, e ∈ rs.filterMap regionEntry ↔ e ∈ s.objs) ∧ (∀ r ∈ rs, PlainRegion r) ∧ (∃ r ∈ rs, TableRegion s r) ∧
      (∀ r ∈ rs, ∀ b e rows tr, r = .xrefTable b e rows tr → TableRegion s r) ∧ (pre ++ new).drop ((pre ++ new).length - 1) = b!"\n" := by
  obtain ⟨bs, elems, t, nf, built, rfl, h2, h3, h4, h5, h6, h7⟩ := h
  have hfile : pre ++ (b!"\n" ++ blocksText bs ++ built ++ fileEnd s.pos) ++ rest =
      (pre ++ b!"\n" ++ blocksText bs) ++ built ++ (fileEnd s.pos ++ rest) := by simp
  have hlen : (pre ++ b!"\n" ++ blocksText bs).length = s.pos := by
    rw [h2]; simp only [List.length_append, List.length_cons, List.length_nil]
  have hend : (pre ++ (b!"\n" ++ blocksText bs ++ built ++ fileEnd s.pos)).length =
      s.pos + built.length + (10 + (natDec s.pos).length + 7) := by
    simp only [List.length_append, List.length_cons, List.length_nil, fileEnd] at hlen ⊢
    omega
  obtain ⟨rows, tr, blocks, b1, b2, b3, b4, b5⟩ := region_table h3 h4 (pre ++ b!"\n" ++ blocksText bs) s.pos rest
  rw [← hfile, hlen] at b4
  obtain ⟨w, hw⟩ : ∃ w, built = b!"xref" ++ 10 :: w := by
    obtain ⟨rows, h1, h⟩ := bind_eq_ok h3
    obtain ⟨ls, h2, h⟩ := bind_eq_ok h
    obtain ⟨s0, h3, h⟩ := bind_eq_ok h
    cases h
    exact ⟨ls.flatMap (· ++ b!"\n") ++ b!"trailer\n" ++ s0 ++ b!"\n", by simp⟩
  obtain ⟨w', hw'⟩ : ∃ w', built = w' ++ b!"\n" := by
    obtain ⟨rows, h1, h⟩ := bind_eq_ok h3
    obtain ⟨ls, h2, h⟩ := bind_eq_ok h
    obtain ⟨s0, h3, h⟩ := bind_eq_ok h
    cases h
    exact ⟨_, rfl⟩
  have hdrop : (pre ++ (b!"\n" ++ blocksText bs ++ built ++ fileEnd s.pos)).drop
      ((pre ++ (b!"\n" ++ blocksText bs ++ built ++ fileEnd s.pos)).length - 1) = b!"\n" := by
    have : pre ++ (b!"\n" ++ blocksText bs ++ built ++ fileEnd s.pos) =
        (pre ++ (b!"\n" ++ blocksText bs ++ built ++ (b!"startxref\n" ++ natDec s.pos ++ b!"\n%%EOF"))) ++ b!"\n" := by
      simp [fileEnd]
    rw [this]
    generalize pre ++ (b!"\n" ++ blocksText bs ++ built ++ (b!"startxref\n" ++ natDec s.pos ++ b!"\n%%EOF")) = A
    simp
  generalize htext : pre ++ (b!"\n" ++ blocksText bs ++ built ++ fileEnd s.pos) ++ rest = text at b4 hfile ⊢
  have hd0 : text.drop i = (ws ++ b!"\n") ++ (blocksText bs ++ (b!"xref" ++ (10 :: w ++ fileEnd s.pos ++ rest))) := by
    rw [← htext, List.append_assoc, List.drop_append_of_le_length (by omega), hpre, hw]
    simp
  have c1 := regions_blocks (tokAt_keyword (s := b!"xref") (by decide) (c := 10) (by decide) (w ++ fileEnd s.pos ++ rest)) (by simp)
    bs i (ws ++ b!"\n") (by simp) (by
      intro c hc
      rcases List.mem_append.1 hc with hc | hc
      · exact hws c hc
      · simp only [List.mem_singleton] at hc
        subst hc
        decide) (fun b hb => ⟨(h7 b hb).1, (h7 b hb).2.1⟩) (by rw [hd0]; simp)
  have he1 : i + (ws ++ b!"\n").length + (blocksText bs).length = s.pos := by
    rw [List.length_append, List.length_cons, List.length_nil, h2]
    omega
  rw [he1] at c1
  have hd1 : text.drop s.pos = built ++ (fileEnd s.pos ++ rest) := by
    rw [hfile, List.append_assoc, List.drop_left' hlen]
  have hd2 : text.drop (s.pos + built.length - 1) = b!"\n" ++ (b!"startxref" ++ 10 :: (natDec s.pos ++ b!"\n%%EOF\n" ++ rest)) := by
    rw [hw', List.append_assoc] at hd1
    have := drop_add_of hd1
    rw [show s.pos + built.length - 1 = s.pos + w'.length by rw [hw']; simp, this]
    simp [fileEnd]
  have hd3 : text.drop (s.pos + built.length) = b!"startxref\n" ++ natDec s.pos ++ 10 :: (b!"%%EOF\n" ++ rest) := by
    rw [drop_add_of hd1]
    simp [fileEnd]
  have hd4 : text.drop (s.pos + built.length + (10 + (natDec s.pos).length)) = b!"\n" ++ (37 :: b!"%EOF" ++ 10 :: rest) := by
    have := drop_add_of hd3
    rw [List.length_append] at this
    rw [show (10 + (natDec s.pos).length) = (b!"startxref\n").length + (natDec s.pos).length from rfl, this]
    simp
  have hd5 : text.drop (s.pos + built.length + (10 + (natDec s.pos).length) + 1) = 37 :: b!"%EOF" ++ 10 :: rest := by
    have := drop_add_of hd4
    simpa using this
  have hbl : 1 < built.length := by rw [hw]; simp
  have e2 := region_void (tokAt_keyword (s := b!"startxref") (by decide) (c := 10) (by decide) _) (by decide) (by simp) hd2
  have e3 := region_startxref hd3
  have e4 := region_void (tokAt_comment (body := b!"%EOF") (by decide) (c := 10) (by decide) rest) (by decide) (by simp) hd4
  have e5 := region_comment (body := b!"%EOF") (by decide) hd5
  rw [show s.pos + built.length - 1 + (b!"\n").length = s.pos + built.length by simp; omega] at e2
  have c2 : Regions text s.pos [.xrefTable s.pos (s.pos + built.length - 1) rows tr,
      .void (s.pos + built.length - 1) (s.pos + built.length) b!"\n",
      .startxref (s.pos + built.length) (s.pos + built.length + (10 + (natDec s.pos).length)) (natDec s.pos),
      .void (s.pos + built.length + (10 + (natDec s.pos).length)) (s.pos + built.length + (10 + (natDec s.pos).length) + 1) b!"\n",
      .comment (s.pos + built.length + (10 + (natDec s.pos).length) + 1) (s.pos + built.length + (10 + (natDec s.pos).length) + 1 + 5) (37 :: b!"%EOF")]
      (s.pos + built.length + (10 + (natDec s.pos).length) + 1 + 5) := by
    refine .cons (lt_of_drop hd1 (by rw [hw]; simp)) b4 (by simp only [Region.fin]; omega) ?_
    refine .cons (lt_of_drop hd2 (by simp)) e2 (by simp only [Region.fin]; omega) ?_
    refine .cons (lt_of_drop hd3 (by simp)) e3 (by simp only [Region.fin]; omega) ?_
    refine .cons (lt_of_drop hd4 (by simp)) e4 (by simp only [Region.fin]; omega) ?_
    exact .cons (lt_of_drop hd5 (by simp)) e5 (by simp only [Region.fin]; omega) (.nil _)
  have hT : TableRegion s (.xrefTable s.pos (s.pos + built.length - 1) rows tr) :=
    ⟨_, rows, tr, nf, blocks, rfl, b5, b2, by rw [b1, h5]⟩
  have c3 := c1.append c2
  rw [show s.pos + built.length + (10 + (natDec s.pos).length) + 1 + 5 =
    (pre ++ (b!"\n" ++ blocksText bs ++ built ++ fileEnd s.pos)).length - 1 by rw [hend]; omega] at c3
  clear e2 e3 e4 e5 hd2 hd3 hd4 hd5
  refine ⟨_, c3, ?_, ?_, ⟨_, ?_, hT⟩, ?_, hdrop⟩
  · intro e
    rw [h6, List.filterMap_append, blockRegions_entries]
    rw [show i + (ws ++ b!"\n").length = pre.length + 1 by simp; omega]
    simp [regionEntry]
  · intro r hr
    rcases List.mem_append.1 hr with hr | hr
    · exact blockRegions_plain bs _ _ (fun b hb => (h7 b hb).2) r hr
    · simp only [List.mem_cons, List.not_mem_nil, or_false] at hr
      rcases hr with rfl | rfl | rfl | rfl | rfl <;> trivial
  · simp
  · intro r hr b e rows' tr' hre
    rcases List.mem_append.1 hr with hr | hr
    · exfalso
      subst hre
      exact blockRegions_noTable _ _ _ _ bs _ _ hr
    · simp only [List.mem_cons, List.not_mem_nil, or_false] at hr
      rcases hr with rfl | rfl | rfl | rfl | rfl <;> first | exact hT | cases hre

/-- The regions of a whole file. -/
theorem laid_regions [Zlib] : ∀ (l : List Sec) {F : Bytes} {s : Sec}, Laid F (s :: l) → ∀ rest : Bytes,
    ∃ rs, Regions (F ++ rest) 0 rs (F.length - 1) ∧
      (∀ e, e ∈ rs.filterMap regionEntry ↔ ∃ s' ∈ s :: l, e ∈ s'.objs) ∧ (∀ r ∈ rs, PlainRegion r) ∧
      (∀ s' ∈ s :: l, ∃ r ∈ rs, TableRegion s' r) ∧
      (∀ r ∈ rs, ∀ b e rows tr, r = .xrefTable b e rows tr → ∃ s' ∈ s :: l, TableRegion s' r) ∧
      F.drop (F.length - 1) = b!"\n"
  | [], F, s, h, rest => by
    obtain ⟨pre, new, rfl, h1, h2⟩ := h
    rcases h2 with ⟨-, v, hv, hpre⟩ | ⟨h2, -⟩
    case inr => exact absurd rfl h2
    obtain ⟨rs, r1, r2, r3, r4, r5, r6⟩ := regions_rev h1 pre.length [] (by simp) (by simp) (by simp) rest
    have hnew : ∃ w, new = 10 :: w := by
      obtain ⟨bs, elems, t, nf, built, rfl, -⟩ := h1
      exact ⟨_, rfl⟩
    obtain ⟨w, hw⟩ := hnew
    have hc := region_comment (text := pre ++ new ++ rest) (i := 0) (body := b!"PDF-" ++ v) (post := w ++ rest) (by
      intro c hc
      rcases List.mem_append.1 hc with hc | hc
      · exact (by decide : ∀ c ∈ (b!"PDF-" : Bytes), isEol c = false) c hc
      · exact hv c hc) (by rw [hpre, hw]; simp)
    have hlen : 0 + ((b!"PDF-" ++ v).length + 1) = pre.length := by rw [hpre]; simp
    rw [hlen] at hc
    have hp : 0 < pre.length := by omega
    refine ⟨.comment 0 pre.length (37 :: (b!"PDF-" ++ v)) :: rs, .cons (by simp; omega) hc hp r1, ?_, ?_, ?_, ?_, r6⟩
    · intro e
      rw [List.filterMap_cons]
      simp [regionEntry, r2 e]
    · intro r hr
      rcases List.mem_cons.1 hr with rfl | hr
      · trivial
      · exact r3 r hr
    · intro s' hs'
      simp only [List.mem_singleton] at hs'
      subst hs'
      obtain ⟨r, k1, k2⟩ := r4
      exact ⟨r, by simp [k1], k2⟩
    · intro r hr b e rows tr hre
      rcases List.mem_cons.1 hr with rfl | hr
      · cases hre
      · exact ⟨s, by simp, r5 r hr b e rows tr hre⟩
  | s0 :: l, F, s, h, rest => by
    obtain ⟨pre, new, rfl, h1, h2⟩ := h
    rcases h2 with ⟨h2, -⟩ | ⟨-, h2⟩
    · cases h2
    obtain ⟨rs0, q1, q2, q3, q4, q5, q6⟩ := laid_regions l h2 (new ++ rest)
    have hlt : pre.length - 1 < pre.length := lt_of_drop q6 (by simp)
    obtain ⟨rs, r1, r2, r3, r4, r5, r6⟩ := regions_rev h1 (pre.length - 1) b!"\n" (by decide)
      (by simp only [List.length_cons, List.length_nil]; omega) q6 rest
    rw [← List.append_assoc] at q1
    refine ⟨rs0 ++ rs, q1.append r1, ?_, ?_, ?_, ?_, r6⟩
    · intro e
      rw [List.filterMap_append, List.mem_append, q2, r2]
      simp only [List.mem_cons, exists_eq_or_imp]
      rw [or_comm]
    · intro r hr
      rcases List.mem_append.1 hr with hr | hr
      · exact q3 r hr
      · exact r3 r hr
    · intro s' hs'
      rcases List.mem_cons.1 hs' with rfl | hs'
      · obtain ⟨r, k1, k2⟩ := r4
        exact ⟨r, by simp [k1], k2⟩
      · obtain ⟨r, k1, k2⟩ := q4 s' hs'
        exact ⟨r, by simp [k1], k2⟩
    · intro r hr b e rows tr hre
      rcases List.mem_append.1 hr with hr | hr
      · obtain ⟨s', k1, k2⟩ := q5 r hr b e rows tr hre
        exact ⟨s', by simp only [List.mem_cons] at k1 ⊢; exact .inr k1, k2⟩
      · exact ⟨s, by simp, r5 r hr b e rows tr hre⟩

end Pdf
