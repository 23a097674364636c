/-
C75: the text fragments of a page (api.py:341-371).
-/
import Verif.Props.C73_Shown

namespace Pdf

open Spec

/-- The operator of a command. -/
def Spec.OpIs (te : List Obj) (op : Bytes) : Prop := te.getLast? = some (.str op)

/-- The texts shown by commands, in order, with the font selected by the last `Tf` before each of them. -/
inductive Spec.Texts (fonts : Bytes → Option FontFns) : Arg Rat → List (List Obj) → List Str → Prop
  | nil {tf} : Texts fonts tf [] []
  | font {tf te a rest ts} : Spec.OpIs te b!"Tf" → te[0]? = some a → Texts fonts (argOf a) rest ts →
      Texts fonts tf (te :: rest) ts
  | shown {tf te op s w rest ts} : Spec.OpIs te op → op ∈ [b!"Tj", b!"TJ"] → elementText fonts te tf = .ok (s, w) →
      Texts fonts tf rest ts → Texts fonts tf (te :: rest) (s :: ts)
  | other {tf te op rest ts} : Spec.OpIs te op → op ∉ [b!"Tf", b!"Tj", b!"TJ"] → Texts fonts tf rest ts →
      Texts fonts tf (te :: rest) ts

/-- `x` yields states whose font satisfies `P`. -/
def FontIs (P : Arg Rat → Prop) (x : Py (GState Rat)) : Prop := ∀ s, x = .ok s → P s.ts.Tf

theorem FontIs.pure {P : Arg Rat → Prop} {s : GState Rat} (h : P s.ts.Tf) : FontIs P (.ok s) := by
  intro s' e; cases e; exact h

theorem FontIs.ite {P : Arg Rat → Prop} {c : Prop} [Decidable c] {x y : Py (GState Rat)} (hx : FontIs P x)
    (hy : FontIs P y) : FontIs P (if c then x else y) := by
  split <;> assumption

theorem FontIs.bind {P : Arg Rat → Prop} {α : Type} {x : Py α} {f : α → Py (GState Rat)}
    (h : ∀ a, FontIs P (f a)) : FontIs P (x >>= f) := by
  cases x with
  | error e => intro s e; cases e
  | ok a => exact h a

theorem FontIs.tstar {P : Arg Rat → Prop} {ts : TextState Rat} {f : TextState Rat → Py (GState Rat)}
    (h : ∀ ts' : TextState Rat, ts'.Tf = ts.Tf → FontIs P (f ts')) : FontIs P (opTstar ts >>= f) := by
  unfold opTstar
  split
  · exact h _ rfl
  · intro s e; cases e

theorem applyOp_font {c : List (Arg Rat)} {op : Bytes} (hop : op ≠ b!"Tf") {top : Mat Rat} {below : List (Mat Rat)}
    {ts : TextState Rat} : FontIs (· = ts.Tf) (applyOp c op top below ts) := by
  unfold applyOp
  simp only [hop, if_false]
  repeat' first
    | exact FontIs.pure rfl
    | apply FontIs.ite
    | (apply FontIs.tstar; intro ts' hts; exact FontIs.pure hts)
    | (apply FontIs.bind; intro _)

/-- What `getLast?` says of the converted command. -/
theorem argOf_last {te : List Obj} {op : Bytes} (h : Spec.OpIs te op) :
    (te.map argOf).getLast? = some (argOf (.str op)) := by
  unfold Spec.OpIs at h
  rw [List.getLast?_map, h]
  rfl

theorem command_font {te : List Obj} {op : Bytes} (h : Spec.OpIs te op) (hop : op ≠ b!"Tf") {s s' : GState Rat}
    (he : applyCommand (te.map argOf) s = .ok s') : s'.ts.Tf = s.ts.Tf := by
  unfold applyCommand at he
  rw [argOf_last h] at he
  have harg : argOf (.str op) = if op.take 1 = b!"/" then .oth (.str op) else .op op := rfl
  rw [harg] at he
  by_cases hs : op.take 1 = b!"/"
  · simp only [hs, if_true] at he
    cases he
    rfl
  · simp only [hs, if_false] at he
    exact applyOp_font hop s' he

theorem command_Tf {te : List Obj} (h : Spec.OpIs te b!"Tf") {s s' : GState Rat}
    (he : applyCommand (te.map argOf) s = .ok s') : ∃ a, te[0]? = some a ∧ s'.ts.Tf = argOf a := by
  unfold applyCommand at he
  rw [argOf_last h] at he
  have harg : argOf (.str b!"Tf") = .op b!"Tf" := rfl
  rw [harg] at he
  cases h0 : te[0]? with
  | none =>
    exfalso
    simp only [applyOp, argAt, List.getElem?_map, h0] at he
    cases he
  | some a =>
    refine ⟨a, rfl, ?_⟩
    cases h1 : te[1]? with
    | none =>
      exfalso
      simp only [applyOp, argAt, List.getElem?_map, h0, h1] at he
      cases he
    | some b =>
      simp only [applyOp, argAt, List.getElem?_map, h0, h1] at he
      cases he
      rfl

theorem showFragment_text {fonts : Bytes → Option FontFns} {te : List Obj} {top : Mat Rat} {ts ts' : TextState Rat}
    {fr : Fragment} (h : showFragment fonts te top ts = .ok (ts', fr)) :
    (∃ w, elementText fonts te ts.Tf = .ok (fr.text, w)) ∧ ts'.Tf = ts.Tf := by
  unfold showFragment at h
  obtain ⟨old, _, h⟩ := bind_ok h
  obtain ⟨⟨uc, w⟩, h1, h⟩ := bind_ok h
  simp only at h
  split at h
  · obtain ⟨new, _, h⟩ := bind_ok h
    cases h
    exact ⟨⟨w, h1⟩, rfl⟩
  · cases h

theorem fragmentLoop_texts (fonts : Bytes → Option FontFns) : ∀ (cmds : List (List Obj)) (s : GState Rat)
    (frs : List Fragment), fragmentLoop fonts s cmds = .ok frs → Spec.Texts fonts s.ts.Tf cmds (frs.map Fragment.text)
  | [], s, frs, h => by cases h; exact .nil
  | te :: cmds, s, frs, h => by
    rw [fragmentLoop] at h
    obtain ⟨⟨s1, fr⟩, h1, h⟩ := bind_ok h
    obtain ⟨frs', h2, h⟩ := bind_ok h
    cases h
    have ih := fragmentLoop_texts fonts cmds s1 frs' h2
    unfold fragmentStep at h1
    split at h1
    · cases h1
    · rename_i op hop
      obtain ⟨s2, h3, h1⟩ := bind_ok h1
      by_cases ht : op = b!"TJ" ∨ op = b!"Tj"
      · simp only [ht, if_true] at h1
        have hne : op ≠ b!"Tf" := by rintro rfl; revert ht; decide
        have hfont := command_font hop hne h3
        split at h1
        · rename_i top below ts hst htx
          obtain ⟨⟨ts', fr'⟩, h4, h1⟩ := bind_ok h1
          cases h1
          obtain ⟨⟨w, h5⟩, h6⟩ := showFragment_text h4
          have hts : s2.ts.Tf = ts.Tf := by simp [GState.ts, htx]
          have e1 : ts.Tf = s.ts.Tf := by rw [← hts, hfont]
          rw [e1] at h5
          refine .shown hop (by rcases ht with rfl | rfl <;> simp) h5 ?_
          have : (⟨s2.stack, some ts'⟩ : GState Rat).ts.Tf = s.ts.Tf := by rw [← e1]; exact h6
          rw [← this]
          exact ih
        · cases h1
      · simp only [ht, if_false] at h1
        cases h1
        by_cases hf : op = b!"Tf"
        · subst hf
          obtain ⟨a, ha, hb⟩ := command_Tf hop h3
          rw [hb] at ih
          exact .font hop ha ih
        · rw [command_font hop hf h3] at ih
          refine .other hop ?_ ih
          simp only [List.mem_cons, List.not_mem_nil, or_false]
          tauto
    · cases h1

/-- C75. One fragment for each `Tj` and `TJ`, in order, with the text of the command in the font in
force; no other command gives a fragment. Missing from the full claim: text shown by the operators `'`
and `"` (`C75_quote_counterexample`), content divided into several streams
(`C75_streams_counterexample`), the displacement (`C75_spacing_counterexample`). -/
theorem C75_texts_partial [Zlib] {contents : List Obj} {fonts : Bytes → Option FontFns} {frs : List Fragment}
    (h : buildTextFragments contents fonts = .ok frs) :
    ∃ cs cmds, contents.mapM streamOf = .ok cs ∧ parseStreamContent cs.flatten = .ok cmds ∧
      Spec.Texts fonts (.oth .null) cmds (frs.map Fragment.text) := by
  unfold buildTextFragments at h
  obtain ⟨cs, h1, h⟩ := bind_ok h
  obtain ⟨cmds, h2, h⟩ := bind_ok h
  exact ⟨cs, cmds, h1, h2, fragmentLoop_texts fonts cmds _ frs h⟩

/-- C75. Where a fragment is: its origin, raised by the text rise, goes through the text matrix then the
current transformation matrix; its end is shifted by `tx` in text space; the text matrix is moved by as
much (ISO 32000-1, 9.4.4). -/
theorem C75_position {fonts : Bytes → Option FontFns} {te : List Obj} {top : Mat Rat} {ts ts' : TextState Rat}
    {fr : Fragment} (h : showFragment fonts te top ts = .ok (ts', fr)) :
    ∃ rise tx, ts.Trise = .num rise ∧
      Spec.mapPoint fr.old (0, 0) = Spec.mapPoint top (Spec.mapPoint ts.tm (0, rise)) ∧
      Spec.mapPoint fr.new (0, 0) = Spec.mapPoint top (Spec.mapPoint ts.tm (tx, rise)) ∧
      ∀ p, Spec.mapPoint ts'.tm p = Spec.mapPoint ts.tm (p.1 + tx, p.2) := by
  unfold showFragment at h
  obtain ⟨old, h0, h⟩ := bind_ok h
  obtain ⟨⟨uc, w⟩, h1, h⟩ := bind_ok h
  simp only at h
  split at h
  · rename_i tfs tc tw th e1 e2 e3 e4
    obtain ⟨new, h2, h⟩ := bind_ok h
    cases h
    simp only [trm, e1, e4] at h0 h2
    cases e5 : ts.Trise with
    | num rise =>
      simp only [e5] at h0 h2
      cases h0; cases h2
      refine ⟨rise, (w * tfs + tc + tw) * th / 100, rfl, ?_, ?_, ?_⟩
      · rw [C42_action, C42_action]
        congr 2
        simp [Spec.mapPoint]
      · rw [C42_action, C42_action, C42_action]
        congr 2
        simp [Spec.mapPoint]
      · intro p
        rw [C42_action]
        congr 1
        simp [Spec.mapPoint]
    | op => simp only [e5] at h0; cases h0
    | oth => simp only [e5] at h0; cases h0
  · cases h

/-- C75, displacement. `Tj` when there is no character nor word spacing: the displacement of the
standard, `w0 × Tfs × Th`. -/
theorem C75_displacement_partial {fonts : Bytes → Option FontFns} {name : Bytes} {f : FontFns}
    (hf : fonts name = some f) {W : Nat → Rat} (hW : ∀ c, f.width c = .ok (W c)) {t : Bytes} {us : Str} {cs : List Nat}
    (hd : f.dec t = .ok (us, cs)) {top : Mat Rat} {ts : TextState Rat} {tfs th rise : Rat}
    (h1 : ts.Tf = .oth (.str name)) (h2 : ts.Tfs = .num tfs) (h3 : ts.Tc = .num 0) (h4 : ts.Tw = .num 0)
    (h5 : ts.Th = .num th) (h6 : ts.Trise = .num rise) :
    ∃ ts' fr, showFragment fonts [.bytes t, .str b!"Tj"] top ts = .ok (ts', fr) ∧ fr.text = us ∧
      ∀ p, Spec.mapPoint ts'.tm p
        = Spec.mapPoint ts.tm (p.1 + (cs.map (fun c => W c / 1000 * tfs * (th / 100))).sum, p.2) := by
  have hsum : (cs.map (fun c => W c / 1000 * tfs * (th / 100))).sum = (cs.map W).sum / 1000 * tfs * (th / 100) := by
    clear hd
    induction cs with
    | nil => simp
    | cons c cs ih => simp only [List.map_cons, List.sum_cons, ih]; ring
  let m : Mat Rat := Mat.mul ⟨1, 0, 0, 1, ((cs.map W).sum / 1000 * tfs + 0 + 0) * th / 100, 0⟩ ts.tm
  let k : Mat Rat := ⟨tfs * th / 100, 0, 0, tfs, 0, rise⟩
  refine ⟨{ ts with tm := m }, ⟨(k.mul ts.tm).mul top, us, (k.mul m).mul top⟩, ?_, rfl, ?_⟩
  · unfold showFragment
    simp only [trm, h2, h5, h6]
    rw [h1, show elementText fonts [Obj.bytes t, .str b!"Tj"] (.oth (.str name)) = _ from C74_Tj fonts name f hf W hW t us cs hd []]
    show (match (Arg.num tfs : Arg Rat), ts.Tc, ts.Tw, (Arg.num th : Arg Rat) with
      | .num tfs, .num tc, .num tw, .num th => _
      | _, _, _, _ => _ : Py (TextState Rat × Fragment)) = _
    rw [h3, h4]
    rfl
  · intro p
    show Spec.mapPoint (Mat.mul _ _) p = _
    rw [C42_action, hsum]
    congr 1
    simp only [Spec.mapPoint]
    congr 1 <;> ring

section
variable [Zlib]

/-- Texts and ends of the fragments of contents, with a font of 500 units per character. -/
def fragmentsOf (contents : List Bytes) : Py (List (Str × Rat)) :=
  (buildTextFragments (contents.map (fun c => Obj.stream [] c c)) (fun _ => some plainFont)).map
    (List.map (fun fr => (fr.text, fr.new.e)))

/-- Text shown by `'` is lost. -/
theorem C75_quote_counterexample :
    fragmentsOf [b!"BT /F1 10 Tf (a) Tj (b) ' ET"] = .ok [([97], 5)] := by
  kernel_rfl

/-- The streams are joined without white space: here `Tj` and `ET` make one word, and the text is lost. -/
theorem C75_streams_counterexample :
    fragmentsOf [b!"BT /F1 10 Tf (a) Tj", b!"ET"] = .ok [] ∧
    fragmentsOf [b!"BT /F1 10 Tf (a) Tj\n", b!"ET"] = .ok [([97], 5)] := by
  refine ⟨?_, ?_⟩ <;> kernel_rfl

/-- A character spacing of 2 is counted once: the end of `ab` should be at 2 * (5 + 2) = 14. -/
theorem C75_spacing_counterexample :
    fragmentsOf [b!"BT /F1 10 Tf 2 Tc (ab) Tj ET"] = .ok [([97, 98], 12)] := by
  kernel_rfl

example : fragmentsOf [b!"BT /F1 10 Tf 1 0 0 1 100 50 Tm (a) Tj [(b) -1000 (c)] TJ ET"]
    = .ok [([97], 105), ([98, 32, 32, 99], 126)] := by
  kernel_rfl

end

end Pdf
