/-
Lemmas on the disassembler.
-/
import Verif.Model.FileMap
import Verif.Lemmas.Terminates
import Verif.Lemmas.Shift
import Verif.Lemmas.Xref

namespace Pdf
open Spec

theorem nextLineStart_spec : ∀ (rest : Bytes) (i : Nat) {k : Nat} {tail : Bytes},
    nextLineStart i rest = some (k, tail) →
    i ≤ k ∧ tail = rest.drop (k - i) ∧ tail ≠ [] ∧ (rest.head?.any isEol = true → i < k) ∧
      (rest.head?.any isEol = false → k = i)
  | [], _, _, _, h => by simp [nextLineStart] at h
  | c :: rest, i, k, tail, h => by
    rw [nextLineStart] at h
    split at h
    · rename_i hc
      obtain ⟨h1, h2, h3, -, -⟩ := nextLineStart_spec rest (i + 1) h
      refine ⟨by omega, ?_, h3, fun _ => by omega, by simp [hc]⟩
      rw [h2, show k - i = (k - (i + 1)) + 1 by omega, List.drop_succ_cons]
    · rename_i hc
      simp only [Option.some.injEq, Prod.mk.injEq] at h
      obtain ⟨rfl, rfl⟩ := h
      exact ⟨by omega, by simp, by simp, by simp [hc], fun _ => rfl⟩

theorem nextLineEnd_spec : ∀ (rest : Bytes) (j : Nat) {k : Nat}, nextLineEnd j rest = some k →
    j ≤ k ∧ k < j + rest.length ∧ (rest.drop (k - j)).head?.any isEol = true
  | [], _, _, h => by simp [nextLineEnd] at h
  | c :: rest, j, k, h => by
    rw [nextLineEnd] at h
    split at h
    · rename_i hc
      simp only [Option.some.injEq] at h
      subst h
      simp [hc]
    · obtain ⟨h1, h2, h3⟩ := nextLineEnd_spec rest (j + 1) h
      refine ⟨by omega, by simp; omega, ?_⟩
      rw [show k - j = (k - (j + 1)) + 1 by omega, List.drop_succ_cons]
      exact h3

theorem nextLineEnd_none : ∀ (rest : Bytes) (j : Nat), nextLineEnd j rest = none →
    ∀ c ∈ rest, isEol c = false
  | [], _, _ => by simp
  | c :: rest, j, h => by
    rw [nextLineEnd] at h
    split at h
    · cases h
    · rename_i hc
      intro x hx
      rcases List.mem_cons.1 hx with rfl | hx
      · simpa using hc
      · exact nextLineEnd_none rest (j + 1) h x hx

theorem nextLine_spec {text : Bytes} {start i j : Nat} (h : nextLine text start = some (i, j)) :
    start ≤ i ∧ i ≤ j ∧ j < text.length ∧ ((text.drop start).head?.any isEol = true → start < j) ∧
      ((text.drop start).head?.any isEol = false → i = start) ∧
      (text.drop j).head?.any isEol = true := by
  unfold nextLine at h
  split at h
  · cases h
  · rename_i k tail hs
    obtain ⟨h1, h2, h3, h4, h5⟩ := nextLineStart_spec _ _ hs
    cases he : nextLineEnd k tail with
    | none => rw [he] at h; cases h
    | some e =>
      rw [he] at h
      simp only [Option.map_some, Option.some.injEq, Prod.mk.injEq] at h
      obtain ⟨rfl, rfl⟩ := h
      obtain ⟨e1, e2, e3⟩ := nextLineEnd_spec _ _ he
      rw [h2] at e2 e3
      simp only [List.length_drop] at e2
      refine ⟨h1, e1, by omega, fun hh => by have := h4 hh; omega, h5, ?_⟩
      rw [List.drop_drop, List.drop_drop] at e3
      rwa [show start + (k - start + (e - k)) = e by omega] at e3

theorem xrefTableLoop_le {bdata : Bytes} : ∀ (fuel bl el : Nat) (oNum : Option Int) (res rows : List XRow)
    (e : Nat), el ≤ bdata.length → xrefTableLoop bdata fuel bl el oNum res = .ok (e, rows) →
    el ≤ e ∧ e ≤ bdata.length
  | 0, _, _, _, _, _, _, _, h => by simp [xrefTableLoop] at h
  | fuel + 1, bl, el, oNum, res, rows, e, hel, h => by
    rw [xrefTableLoop] at h
    split at h
    · have key : ∀ o r, (match nextLine bdata el with
          | none => (.error .typeError : Py (Nat × List XRow))
          | some (bl, el) => xrefTableLoop bdata fuel bl el o r) = .ok (e, rows) →
          el ≤ e ∧ e ≤ bdata.length := by
        intro o r h
        cases hn : nextLine bdata el with
        | none => rw [hn] at h; cases h
        | some p =>
          obtain ⟨b', e'⟩ := p
          rw [hn] at h
          obtain ⟨n1, n2, n3, -⟩ := nextLine_spec hn
          have := xrefTableLoop_le fuel b' e' o r rows e (by omega) h
          omega
      simp only at h
      split at h
      · obtain ⟨n, -, h⟩ := bind_eq_ok h
        obtain ⟨nb, -, h⟩ := bind_eq_ok h
        exact key _ _ h
      · obtain ⟨n, -, h⟩ := bind_eq_ok h
        obtain ⟨nb, -, h⟩ := bind_eq_ok h
        obtain ⟨nb, -, h⟩ := bind_eq_ok h
        exact key _ _ h
      · exact key _ _ h
    · cases h
      omega

theorem xrefTableLoop_term {bdata : Bytes} : ∀ (fuel bl el : Nat) (oNum : Option Int) (res : List XRow),
    bdata.length < fuel + el → el ≤ bdata.length → (bdata.drop el).head?.any isEol = true →
    Term (xrefTableLoop bdata fuel bl el oNum res)
  | 0, _, el, _, _, hf, hl, _ => by omega
  | fuel + 1, bl, el, oNum, res, hf, hl, he => by
    rw [xrefTableLoop]
    split
    · have ho : ∀ {α : Type} (x : Option α) (e : PyErr), e ≠ .nonterm → Term (orRaise e x) := by
        intro α x e h; cases x
        · exact .error h
        · exact .ok _
      have key : ∀ o r, Term (match nextLine bdata el with
          | none => (.error .typeError : Py (Nat × List XRow))
          | some (bl, el) => xrefTableLoop bdata fuel bl el o r) := by
        intro o r
        cases hn : nextLine bdata el with
        | none => exact .error (by simp)
        | some p =>
          obtain ⟨b', e'⟩ := p
          obtain ⟨n1, n2, n3, n4, -, n6⟩ := nextLine_spec hn
          have := n4 he
          exact xrefTableLoop_term fuel b' e' o r (by omega) (by omega) n6
      simp only
      split
      · exact .bind (ho _ _ (by simp)) fun _ => .bind (ho _ _ (by simp)) fun _ => key _ _
      · exact .bind (ho _ _ (by simp)) fun _ => .bind (ho _ _ (by simp)) fun _ =>
          .bind (ho _ _ (by simp)) fun _ => key _ _
      · exact key _ _
    · exact .ok _

section
variable [Zlib]

theorem parseXrefTableRaw_spec {text : Bytes} {start b e : Nat} {rows : List XRow} {t : Obj}
    (h : parseXrefTableRaw text start = .ok (some (b, e, rows, t))) :
    b = start ∧ start + 4 ≤ e ∧ e ≤ text.length := by
  unfold parseXrefTableRaw at h
  split at h
  · cases h
  · split at h
    · cases h
    · rename_i bl el hn
      obtain ⟨n1, n2, n3, -⟩ := nextLine_spec hn
      obtain ⟨⟨el', res⟩, hl, h⟩ := bind_eq_ok h
      simp only at h
      obtain ⟨l1, l2⟩ := xrefTableLoop_le _ _ _ _ _ _ _ (by omega) hl
      obtain ⟨tr, -, h⟩ := bind_eq_ok h
      rcases hnt : nextToken text el' with ⟨x, y, z⟩
      have := nextToken_le hnt l2
      simp only [hnt] at h
      cases h
      omega

/-- The begin of a region. -/
def BeginOk (text : Bytes) (start : Nat) (b : Option Nat) : Prop :=
  b = some start ∨ b = none ∧ ∀ c ∈ text.drop start, isEol c = false

omit [Zlib] in
theorem nextLine_begin {text : Bytes} {start j : Nat}
    (ht : nextToken text start = (start, j, some .integer)) :
    BeginOk text start ((nextLine text start).map (·.1)) := by
  have hle := nextToken_typed ht
  have hg := nextToken_good text start (by omega)
  rw [ht] at hg
  obtain ⟨-, -, -, -, hsh, -⟩ := hg
  obtain ⟨⟨hw, -⟩, -⟩ := hsh
  obtain ⟨c, body, hs, hc⟩ := hw
  have hd : text.drop start = c :: (body ++ text.drop j) := by
    have : text.drop start = slice text start j ++ text.drop j := by
      rw [slice, ← List.drop_append_of_le_length (by simp; omega), List.take_append_drop]
    rw [this, hs]
    rfl
  have hne : isEol c = false := by
    have hall : ∀ x ∈ numStart, isEol x = false := by decide
    exact hall c hc.1
  cases hn : nextLine text start with
  | some p =>
    obtain ⟨i, k⟩ := p
    obtain ⟨-, -, -, -, n5, -⟩ := nextLine_spec hn
    exact .inl (by simp [n5 (by simp [hd, hne])])
  | none =>
    refine .inr ⟨rfl, ?_⟩
    unfold nextLine at hn
    rw [hd, nextLineStart, hne] at hn
    simp only [Bool.false_eq_true, if_false, Option.map_eq_none_iff] at hn
    rw [hd]
    exact nextLineEnd_none _ _ hn

theorem parseIndirectObj_spec {text : Bytes} {start : Nat} {r : Region} (hs : start ≤ text.length)
    (h : parseIndirectObj text start = .ok r) :
    r.begin = (nextLine text start).map (·.1) ∧ (nextToken text start).2.1 ≤ r.fin ∧ r.fin ≤ text.length := by
  unfold parseIndirectObj at h
  rcases h1 : nextToken text start with ⟨i1, j1, t1⟩
  rcases h2 : nextToken text j1 with ⟨i2, j2, t2⟩
  rcases h3 : nextToken text j2 with ⟨i3, j3, t3⟩
  rcases h4 : nextToken text j3 with ⟨i4, j4, t4⟩
  rcases h5 : nextToken text j4 with ⟨i5, j5, t5⟩
  simp only [h1, h2, h3, h4, h5] at h
  obtain ⟨num, -, h⟩ := bind_eq_ok h
  obtain ⟨gen, -, h⟩ := bind_eq_ok h
  obtain ⟨o, -, h⟩ := bind_eq_ok h
  cases h
  have b1 := nextToken_le h1 hs
  have b2 := nextToken_le h2 b1.2.2
  have b3 := nextToken_le h3 b2.2.2
  have b4 := nextToken_le h4 b3.2.2
  have b5 := nextToken_le h5 b4.2.2
  refine ⟨rfl, ?_⟩
  simp only [Region.fin]
  split
  · rcases h6 : nextToken text j5 with ⟨i6, j6, t6⟩
    have b6 := nextToken_le h6 b5.2.2
    simp only
    omega
  · omega

/-- A region begins where asked (or nowhere, when no end of line follows), and ends after, except at a closing
bracket. -/
theorem parseRegion_spec {text : Bytes} {start : Nat} {r : Region} (hs : start < text.length)
    (h : parseRegion text start = .ok (some r)) :
    BeginOk text start r.begin ∧ r.fin ≤ text.length ∧
      (start < r.fin ∨ r.fin = start ∧ text[start]? = some 93) := by
  unfold parseRegion at h
  rcases h1 : nextToken text start with ⟨bl, el, typ⟩
  have b1 := nextToken_le h1 (by omega)
  simp only [h1] at h
  by_cases e0 : bl = start
  case neg =>
    rw [if_pos e0] at h
    cases h
    exact ⟨.inl rfl, by simp only [Region.fin]; omega, .inl (by simp only [Region.fin]; omega)⟩
  subst e0
  rw [if_neg (by simp)] at h
  cases typ with
  | none =>
    rw [if_pos rfl] at h
    cases h
    have hg := nextToken_good text bl (by omega)
    rw [h1] at hg
    obtain ⟨-, -, -, hc⟩ := hg
    refine ⟨.inl rfl, b1.2.2, ?_⟩
    simp only [Region.fin]
    rcases hc with hc | ⟨hc, -⟩ | ⟨-, hc, -⟩
    · exact .inl (by omega)
    · by_cases he : el = bl
      · subst he; exact .inr ⟨rfl, hc⟩
      · exact .inl (by omega)
    · exact .inl hc
  | some t =>
    have b2 := nextToken_typed h1
    rw [if_neg (by simp)] at h
    split at h
    · cases h
      exact ⟨.inl rfl, b1.2.2, .inl b2.2.1⟩
    split at h
    · rcases h2 : nextToken text el with ⟨i2, j2, t2⟩
      have b3 := nextToken_le h2 b1.2.2
      simp only [h1, h2] at h
      cases h
      exact ⟨.inl rfl, by simp only [Region.fin]; omega, .inl (by simp only [Region.fin]; omega)⟩
    split at h
    · rename_i hint
      cases hint
      rcases h2 : nextToken text el with ⟨i2, j2, t2⟩
      rcases h3 : nextToken text j2 with ⟨i3, j3, t3⟩
      simp only [h1, h2, h3] at h
      split at h
      · cases hp : parseIndirectObj text bl with
        | error e => rw [hp] at h; cases h
        | ok r' =>
          rw [hp] at h
          cases h
          obtain ⟨p1, p2, p3⟩ := parseIndirectObj_spec (by omega) hp
          rw [h1] at p2
          rw [p1]
          exact ⟨nextLine_begin h1, p3, .inl (by simp only at p2; omega)⟩
      · cases h
    split at h
    · obtain ⟨o, ho, h⟩ := bind_eq_ok h
      cases o with
      | none => cases h
      | some x =>
        obtain ⟨b, e, rows, tr⟩ := x
        cases h
        obtain ⟨rfl, q1, q2⟩ := parseXrefTableRaw_spec ho
        exact ⟨.inl rfl, q2, .inl (by simp only [Region.fin]; omega)⟩
    · cases h

/-- Where the scan stops before the end. -/
theorem parseRegion_none {text : Bytes} {start : Nat} (h : parseRegion text start = .ok none) :
    ∃ j t, nextToken text start = (start, j, some t) ∧ t ≠ .comment ∧
      slice text start (start + 9) ≠ b!"startxref" := by
  unfold parseRegion at h
  rcases h1 : nextToken text start with ⟨bl, el, typ⟩
  simp only [h1] at h
  by_cases e0 : bl = start
  case neg => rw [if_pos e0] at h; cases h
  subst e0
  rw [if_neg (by simp)] at h
  cases typ with
  | none => rw [if_pos rfl] at h; cases h
  | some t =>
    rw [if_neg (by simp)] at h
    split at h
    · cases h
    rename_i hp
    split at h
    · cases h
    rename_i hx
    refine ⟨el, t, rfl, ?_, hx⟩
    rintro rfl
    apply hp
    have b1 := nextToken_typed h1
    have hg := nextToken_good text bl (by omega)
    rw [h1] at hg
    obtain ⟨-, -, -, -, ⟨⟨body, hb, -⟩, -⟩, -⟩ := hg
    have : slice text bl (bl + 1) = (slice text bl el).take 1 := by
      simp only [slice, List.drop_take, List.take_take]
      congr 1
      omega
    rw [this, hb]
    rfl

/-- A parsed stream comes from a stream token. -/
theorem parseObj_stream_token {text : Bytes} {i : Nat} {e : Dict} {st enc : Bytes}
    (h : parseObj text i = .ok (.stream e st enc)) :
    ∃ a j h' j', nextToken text i = (a, j, some .dict) ∧ nextToken text j = (h', j', some .stream) := by
  unfold parseObj at h
  rw [show parseFuel text = (2 * text.length + 3) + 1 from rfl, parseObjF] at h
  rcases hnt : nextToken text i with ⟨h1, j1, t1⟩
  have ded : ∀ s t, dedicatedType s t ≠ .ok (.stream e st enc) := by
    intro s t hd
    unfold dedicatedType at hd
    split at hd
    · cases hp : orRaise .valueError (pyInt s) <;> rw [hp] at hd <;> cases hd
    · unfold pyFloat at hd
      simp only at hd
      repeat' split at hd
      all_goals cases hd
    · cases hd
    · cases hd
    · split at hd <;> cases hd
    · split at hd <;> cases hd
    · cases hd
  cases t1 with
  | none => simp only [hnt] at h; exact absurd h (ded _ _)
  | some t1 =>
    cases t1 with
    | dict =>
      simp only [hnt] at h
      rcases hnt2 : nextToken text j1 with ⟨h2, j2, t2⟩
      rw [hnt2] at h
      cases t2 with
      | some t2 =>
        cases t2 with
        | stream => exact ⟨h1, j1, h2, j2, rfl, hnt2⟩
        | _ =>
          simp only at h
          split at h
          · cases h
          · split at h
            · cases h
            · rename_i items _ items' _
              cases hp : pairUp [] items'.reverse <;> rw [hp] at h <;> cases h
      | none =>
        simp only at h
        split at h
        · cases h
        · split at h
          · cases h
          · rename_i items _ items' _
            cases hp : pairUp [] items'.reverse <;> rw [hp] at h <;> cases h
    | array =>
      simp only [hnt] at h
      split at h
      · cases h
      · rename_i items _
        cases hp : replaceRef items <;> rw [hp] at h <;> cases h
    | stream =>
      simp only [hnt] at h
      split at h <;> cases h
    | comment => simp only [hnt] at h; cases h
    | _ => simp only [hnt] at h; exact absurd h (ded _ _)

omit [Zlib] in
theorem orRaise_term {α : Type} (x : Option α) {e : PyErr} (h : e ≠ .nonterm) : Term (orRaise e x) := by
  cases x
  · exact .error h
  · exact .ok _

/-- The only source of divergence of `parse_region` is `parse_obj`. -/
theorem parseRegion_nonterm {text : Bytes} {start : Nat} (hs : start ≤ text.length)
    (h : ¬ Term (parseRegion text start)) : ∃ j, j ≤ text.length ∧ ¬ Term (parseObj text j) := by
  refine Classical.byContradiction fun hno => h ?_
  have hp : ∀ j, j ≤ text.length → Term (parseObj text j) := fun j hj =>
    Classical.byContradiction fun hh => hno ⟨j, hj, hh⟩
  unfold parseRegion
  rcases h1 : nextToken text start with ⟨bl, el, typ⟩
  have b1 := nextToken_le h1 hs
  simp only
  refine .ite (.ok _) (.ite (.ok _) (.ite (.ok _) (.ite (.ok _) (.ite (.ite ?_ (.ok _)) (.ite ?_ (.ok _))))))
  · apply Term.map
    unfold parseIndirectObj
    rcases h2 : nextToken text bl with ⟨i1, j1, t1⟩
    rcases h3 : nextToken text j1 with ⟨i2, j2, t2⟩
    rcases h4 : nextToken text j2 with ⟨i3, j3, t3⟩
    rcases h5 : nextToken text j3 with ⟨i4, j4, t4⟩
    have b2 := nextToken_le h2 (by omega)
    have b3 := nextToken_le h3 (by omega)
    have b4 := nextToken_le h4 (by omega)
    have b5 := nextToken_le h5 (by omega)
    simp only [h3, h4, h5]
    exact .bind (orRaise_term _ (by simp)) fun _ => .bind (orRaise_term _ (by simp)) fun _ =>
      .bind (hp _ (by omega)) fun _ => .ok _
  · refine .bind ?_ ?_
    · unfold parseXrefTableRaw
      split
      · exact .ok _
      · split
        · exact .error (by simp)
        · rename_i bl' el' hn
          obtain ⟨n1, n2, n3, -, -, n6⟩ := nextLine_spec hn
          have hl := xrefTableLoop_term (text.length + 1) bl' el' none [] (by omega) (by omega) n6
          cases hr : xrefTableLoop text (text.length + 1) bl' el' none [] with
          | error e => rw [hr] at hl; exact fun h => hl (by cases h; rfl)
          | ok p =>
            obtain ⟨e', rows⟩ := p
            obtain ⟨l1, l2⟩ := xrefTableLoop_le _ _ _ _ _ _ _ (by omega) hr
            rcases h2 : nextToken text e' with ⟨i1, j1, t1⟩
            have b2 := nextToken_le h2 (by omega)
            change Term (parseObj text (nextToken text e').1 >>= _)
            rw [h2]
            exact .bind (hp _ (by simp only; omega)) fun _ => .ok _
    · intro o
      cases o
      · exact .ok _
      · exact .ok _

omit [Zlib] in
theorem numberRows_term : ∀ (rows : List XRow) (cur : Option (Nat × Nat)), Term (numberRows cur rows)
  | [], cur => by cases cur <;> exact .ok _
  | .sub _ _ :: rest, none => by rw [numberRows]; exact numberRows_term rest _
  | .sub _ _ :: rest, some (s, l) => by rw [numberRows]; exact numberRows_term rest _
  | .entry _ _ _ _ :: rest, none => by rw [numberRows]; exact .error (by simp)
  | .entry _ _ _ _ :: rest, some (s, l) => by
    rw [numberRows]
    · exact .bind (numberRows_term rest _) fun _ => .ok _
    · intros; simp_all

omit [Zlib] in
theorem mapM_term {α β : Type} {f : α → Py β} (hf : ∀ a, Term (f a)) : ∀ l : List α, Term (l.mapM f)
  | [] => .ok _
  | a :: l => by
    rw [List.mapM_cons]
    exact .bind (hf a) fun _ => .bind (mapM_term hf l) fun _ => .ok _

omit [Zlib] in
theorem expandXrefIndex_term : ∀ (l : List Int) (k : Nat), Term (expandXrefIndex l k)
  | [], _ => .ok _
  | [_], _ => .error (by simp)
  | _ :: _ :: rest, k => by
    rw [expandXrefIndex]
    exact .bind (expandXrefIndex_term rest _) fun _ => .ok _

omit [Zlib] in
theorem xrefStreamLoop_term (st : Bytes) (cols : List Nat) : ∀ (nums : List (Int × Nat)) (i : Nat),
    Term (xrefStreamLoop st cols nums i)
  | [], i => by rw [xrefStreamLoop]; exact .ite (.error (by simp)) (.ok _)
  | (num, sub) :: nums, i => by
    rw [xrefStreamLoop]
    refine .ite ?_ (.ok _)
    refine .bind ?_ fun _ => .bind (xrefStreamLoop_term st cols nums _) fun _ => .ok _
    unfold rowOf
    split
    · exact .error (by simp)
    · refine .ite ?_ (.ok _)
      split
      · exact .ite (.ok _) (.ite (.ok _) (.ok _))
      · exact .error (by simp)

omit [Zlib] in
theorem parseXrefStreamRaw_term (entries : Dict) (st : Bytes) : Term (parseXrefStreamRaw entries st) := by
  unfold parseXrefStreamRaw
  refine .bind (orRaise_term _ (by simp)) fun w => .bind ?_ fun cols => ?_
  · unfold intList
    split
    · exact mapM_term (fun _ => orRaise_term _ (by simp)) _
    · exact .error (by simp)
  have last : ∀ r, Term (expandXrefIndex r 0 >>= fun nums => xrefStreamLoop st (cols.map Int.toNat) nums 0) :=
    fun r => .bind (expandXrefIndex_term _ _) fun _ => xrefStreamLoop_term _ _ _ _
  have key : Term (do
      let objRange ← match Dict.get? entries b!"/Index" with
        | some o => strictInts o
        | none => do
          let size ← orRaise .keyError (Dict.get? entries b!"/Size")
          match size with
          | .int n => .ok [0, n]
          | _ => .error .typeError
      let nums ← expandXrefIndex objRange 0
      xrefStreamLoop st (cols.map Int.toNat) nums 0) := by
    simp only
    split
    · refine .bind ?_ last
      unfold strictInts
      split
      · refine mapM_term (fun o => ?_) _
        split
        · exact .ok _
        · exact .error (by simp)
      · exact .error (by simp)
    · refine .bind (orRaise_term _ (by simp)) fun size => ?_
      split
      · exact .bind (.ok _) last
      · exact .error (by simp)
  by_cases hc : (cols.any (· < 0)) = true
  · rw [if_pos hc]; exact .error (by simp)
  · rw [if_neg hc]; exact key

/-- The only source of divergence in unfolding a region is `parse_object_stream`. -/
theorem regionItems_nonterm {r : Region} (h : ¬ Term (regionItems r)) :
    ∃ b e num gen o, r = .indObj b e num gen o ∧ ¬ Term (parseObjectStream o) ∧
      ∃ entries st enc, o = .stream entries st enc ∧ Dict.get? entries b!"/Type" = some (.str b!"/ObjStm") := by
  unfold regionItems at h
  split at h
  · exact absurd (Term.bind (numberRows_term _ _) fun _ => .ok _) h
  · rename_i bo e num gen entries data enc
    have hty : Dict.get? entries b!"/Type" = some (.str b!"/ObjStm") := by
      split at h
      · rename_i ty hty
        by_cases hx : ty = b!"/XRef"
        · rw [if_pos hx] at h
          exact absurd (.bind (parseXrefStreamRaw_term _ _) fun _ => .ok _) h
        · by_cases ho : ty = b!"/ObjStm"
          · rw [hty, ho]
          · rw [if_neg hx, if_neg ho] at h
            exact absurd (.ok _) h
      · exact absurd (.ok _) h
    refine ⟨bo, e, num, gen, _, rfl, fun ht => h ?_, entries, data, enc, rfl, hty⟩
    split
    · refine .ite (.bind (parseXrefStreamRaw_term _ _) fun _ => .ok _) (.ite (.bind ht fun _ => ?_) (.ok _))
      split
      · exact .ok _
      · exact .ok _
      · exact .error (by simp)
    · exact .ok _
  · exact absurd (Term.ok _) h

/-- The object of a region is what `parse_obj` returns somewhere. -/
theorem parseRegion_obj {text : Bytes} {start : Nat} {b : Option Nat} {e : Nat} {num gen : Int} {o : Obj}
    (hs : start ≤ text.length) (h : parseRegion text start = .ok (some (.indObj b e num gen o))) :
    ∃ j, j ≤ text.length ∧ parseObj text j = .ok o := by
  unfold parseRegion at h
  rcases h1 : nextToken text start with ⟨bl, el, typ⟩
  have b1 := nextToken_le h1 hs
  simp only [h1] at h
  split at h
  · cases h
  split at h
  · cases h
  split at h
  · cases h
  split at h
  · cases h
  split at h
  · split at h
    · cases hp : parseIndirectObj text bl with
      | error e => rw [hp] at h; cases h
      | ok r =>
        rw [hp] at h
        cases h
        unfold parseIndirectObj at hp
        rcases h2 : nextToken text bl with ⟨i1, j1, t1⟩
        rcases h3 : nextToken text j1 with ⟨i2, j2, t2⟩
        rcases h4 : nextToken text j2 with ⟨i3, j3, t3⟩
        rcases h5 : nextToken text j3 with ⟨i4, j4, t4⟩
        have b2 := nextToken_le h2 (by omega)
        have b3 := nextToken_le h3 (by omega)
        have b4 := nextToken_le h4 (by omega)
        have b5 := nextToken_le h5 (by omega)
        simp only [h2, h3, h4, h5] at hp
        obtain ⟨num, -, hp⟩ := bind_eq_ok hp
        obtain ⟨gen, -, hp⟩ := bind_eq_ok hp
        obtain ⟨o, ho, hp⟩ := bind_eq_ok hp
        cases hp
        exact ⟨i4, by omega, ho⟩
    · cases h
  split at h
  · obtain ⟨x, -, h⟩ := bind_eq_ok h
    cases x <;> cases h
  · cases h

end
end Pdf
