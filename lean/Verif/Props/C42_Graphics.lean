/-
C42 matrices, C43 q/Q, C44 splitting content streams, C45 text positioning operators.
-/
import Verif.Model.Graphics
import Verif.Lemmas.PyEq
import Verif.Lemmas.KernelRfl
import Mathlib.Tactic.Ring

set_option linter.unusedSectionVars false

namespace Pdf

section
variable {R : Type} [CommRing R]

/-! ## C42 -/

/-- The point `(x, y)` in the coordinate system of `m`, seen from the enclosing one:
`[x y 1] × m` (ISO 32000-1, 8.3.4). -/
def Spec.mapPoint (m : Mat R) (p : R × R) : R × R :=
  (m.a * p.1 + m.c * p.2 + m.e, m.b * p.1 + m.d * p.2 + m.f)

theorem C42_assoc (m1 m2 m3 : Mat R) : (m1.mul m2).mul m3 = m1.mul (m2.mul m3) := by
  ext <;> simp only [Mat.mul] <;> ring

theorem C42_identity (m : Mat R) : Mat.identity.mul m = m ∧ m.mul Mat.identity = m := by
  constructor <;> ext <;> simp only [Mat.mul, Mat.identity] <;> ring

/-- A product acts on points as its factors one after the other. -/
theorem C42_action (m1 m2 : Mat R) (p : R × R) :
    Spec.mapPoint (m1.mul m2) p = Spec.mapPoint m2 (Spec.mapPoint m1 p) := by
  ext <;> simp only [Mat.mul, Spec.mapPoint] <;> ring

/-- The action determines the matrix, so the three theorems above leave no freedom to `Mat.mul`. -/
theorem C42_faithful (m m' : Mat R) (h : ∀ p, Spec.mapPoint m p = Spec.mapPoint m' p) : m = m' := by
  have h0 := h (0, 0); have h1 := h (1, 0); have h2 := h (0, 1)
  simp only [Spec.mapPoint, mul_zero, add_zero, zero_add, mul_one, Prod.mk.injEq] at h0 h1 h2
  obtain ⟨he, hf⟩ := h0
  rw [he, hf] at h1 h2
  ext
  · exact add_right_cancel h1.1
  · exact add_right_cancel h1.2
  · exact add_right_cancel h2.1
  · exact add_right_cancel h2.2
  · exact he
  · exact hf

example : Mat.mul (⟨2, 0, 0, 3, 1, 1⟩ : Mat Int) ⟨0, 1, -1, 0, 5, 7⟩ = ⟨0, 2, -3, 0, 4, 8⟩ := by decide

/-! ## C43 -/

/-- The command's operator is `s`. -/
def Spec.HasOp (c : List (Arg R)) (s : Bytes) : Prop := c.getLast? = some (.op s)

/-- Command sequences balanced in `q` and `Q`. -/
inductive Spec.Balanced : List (List (Arg R)) → Prop
  | nil : Spec.Balanced []
  | other (c : List (Arg R)) (cs : List (List (Arg R))) :
      ¬ Spec.HasOp c b!"q" → ¬ Spec.HasOp c b!"Q" → Spec.Balanced cs → Spec.Balanced (c :: cs)
  | nest (c b c' cs) : Spec.HasOp c b!"q" → Spec.Balanced b → Spec.HasOp c' b!"Q" → Spec.Balanced cs →
      Spec.Balanced (c :: (b ++ c' :: cs))

theorem bind_ok {α β : Type} {x : Py α} {f : α → Py β} {b : β} (h : x.bind f = .ok b) :
    ∃ a, x = .ok a ∧ f a = .ok b := by
  cases x with
  | error e => exact absurd h (by simp [Except.bind])
  | ok a => exact ⟨a, rfl, h⟩

/-- Whenever the computation succeeds, the resulting stack satisfies `P`. -/
def Keeps (P : List (Mat R) → Prop) (x : Py (GState R)) : Prop := ∀ s', x = .ok s' → P s'.stack

theorem Keeps.pure {P : List (Mat R) → Prop} {s : GState R} (h : P s.stack) : Keeps P (.ok s) := by
  intro s' e; cases e; exact h

theorem Keeps.ite {P : List (Mat R) → Prop} {c : Prop} [Decidable c] {x y : Py (GState R)} (hx : Keeps P x)
    (hy : Keeps P y) : Keeps P (if c then x else y) := by
  split
  · exact hx
  · exact hy

theorem Keeps.bind {P : List (Mat R) → Prop} {α : Type} {x : Py α} {f : α → Py (GState R)}
    (h : ∀ a, Keeps P (f a)) : Keeps P (x >>= f) := by
  intro s' e
  obtain ⟨a, _, h2⟩ := bind_ok e
  exact h a s' h2

/-- No operator but `q` and `Q` changes the part of the stack below the current state. -/
theorem applyOp_below {c : List (Arg R)} {op : Bytes} {top : Mat R} {below : List (Mat R)}
    {ts : TextState R} {s' : GState R} (hq : op ≠ b!"q") (hQ : op ≠ b!"Q")
    (h : applyOp c op top below ts = .ok s') : ∃ top', s'.stack = top' :: below := by
  unfold applyOp at h
  rw [if_neg hq, if_neg hQ] at h
  revert h s'
  show Keeps (fun l => ∃ top', l = top' :: below) _
  repeat' first
    | exact Keeps.pure ⟨_, rfl⟩
    | apply Keeps.ite
    | (apply Keeps.bind; intro _)

theorem applyCommand_below {c : List (Arg R)} {s s' : GState R} {top : Mat R} {below : List (Mat R)}
    (hs : s.stack = top :: below) (hq : ¬ Spec.HasOp c b!"q") (hQ : ¬ Spec.HasOp c b!"Q")
    (h : applyCommand c s = .ok s') : ∃ top', s'.stack = top' :: below := by
  unfold applyCommand at h
  simp only [hs] at h
  split at h
  · cases h
  · rename_i op ho
    exact applyOp_below (fun e => hq (by rw [← e]; exact ho)) (fun e => hQ (by rw [← e]; exact ho)) h
  · cases h; exact ⟨_, rfl⟩

theorem applyCommand_q {c : List (Arg R)} {s : GState R} {top : Mat R} {below : List (Mat R)}
    (hs : s.stack = top :: below) (hq : Spec.HasOp c b!"q") :
    applyCommand c s = .ok ⟨top :: top :: below, some (s.text.getD .init)⟩ := by
  unfold applyCommand
  unfold Spec.HasOp at hq
  simp only [hs, hq, applyOp, if_true]

theorem applyCommand_Q {c : List (Arg R)} {s : GState R} {top : Mat R} {below : List (Mat R)}
    (hs : s.stack = top :: below) (hq : Spec.HasOp c b!"Q") :
    applyCommand c s = .ok ⟨below, some (s.text.getD .init)⟩ := by
  unfold applyCommand
  unfold Spec.HasOp at hq
  simp only [hs, hq, applyOp]
  rfl

theorem runCommands_append (cs cs' : List (List (Arg R))) : ∀ s : GState R,
    runCommands s (cs ++ cs') = (runCommands s cs).bind (fun s' => runCommands s' cs') := by
  induction cs with
  | nil => intro s; rfl
  | cons c cs ih =>
    intro s
    rw [List.cons_append, runCommands, runCommands]
    cases applyCommand c s with
    | error e => rfl
    | ok s' => exact ih s'

theorem balanced_below {cs : List (List (Arg R))} (hb : Spec.Balanced cs) :
    ∀ {s s' : GState R} {top : Mat R} {below : List (Mat R)}, s.stack = top :: below →
    runCommands s cs = .ok s' → ∃ top', s'.stack = top' :: below := by
  induction hb with
  | nil => intro s s' top below hs h; cases h; exact ⟨top, hs⟩
  | other c cs hq hQ _ ih =>
    intro s s' top below hs h
    rw [runCommands] at h
    obtain ⟨s1, h1, h2⟩ := bind_ok h
    obtain ⟨top1, hs1⟩ := applyCommand_below hs hq hQ h1
    exact ih hs1 h2
  | nest c b c' cs hq _ hQ _ ihb ihcs =>
    intro s s' top below hs h
    rw [runCommands, applyCommand_q hs hq] at h
    change runCommands _ (b ++ c' :: cs) = _ at h
    rw [runCommands_append] at h
    obtain ⟨s2, h2, h3⟩ := bind_ok h
    obtain ⟨top2, hs2⟩ := ihb rfl h2
    rw [runCommands, applyCommand_Q hs2 hQ] at h3
    change runCommands _ cs = _ at h3
    exact ihcs rfl h3

/-- Executing `q`, a balanced sequence, then `Q`, leaves the stack exactly as it was. -/
theorem C43_restores (c c' : List (Arg R)) (cs : List (List (Arg R))) (hq : Spec.HasOp c b!"q")
    (hQ : Spec.HasOp c' b!"Q") (hb : Spec.Balanced cs) (s s' : GState R) (hs : s.stack ≠ [])
    (h : runCommands s (c :: (cs ++ [c'])) = .ok s') : s'.stack = s.stack := by
  obtain ⟨top, below, hs'⟩ := List.exists_cons_of_ne_nil hs
  rw [runCommands, applyCommand_q hs' hq] at h
  change runCommands _ (cs ++ [c']) = _ at h
  rw [runCommands_append] at h
  obtain ⟨s2, h2, h3⟩ := bind_ok h
  obtain ⟨top2, hs2⟩ := balanced_below hb rfl h2
  rw [runCommands, applyCommand_Q hs2 hQ] at h3
  cases h3
  rw [hs']

/-- An empty stack stands for the initial state: it becomes the one-element stack `[identity]` at the
first command, and `q ... Q` leaves that one. -/
theorem C43_restores_initial (c c' : List (Arg R)) (cs : List (List (Arg R))) (hq : Spec.HasOp c b!"q")
    (hQ : Spec.HasOp c' b!"Q") (hb : Spec.Balanced cs) (t : Option (TextState R)) (s' : GState R)
    (h : runCommands ⟨[], t⟩ (c :: (cs ++ [c'])) = .ok s') : s'.stack = [.identity] := by
  have e : applyCommand c ⟨[], t⟩ = applyCommand c ⟨[.identity], t⟩ := rfl
  rw [runCommands, e, ← runCommands] at h
  exact C43_restores c c' cs hq hQ hb _ _ (by simp) h

/-- `q` and `Q` never raise, even unbalanced. -/
theorem C43_never_raises (c : List (Arg R)) (s : GState R) (h : Spec.HasOp c b!"q" ∨ Spec.HasOp c b!"Q") :
    ∃ s', applyCommand c s = .ok s' := by
  have key : ∀ (top : Mat R) (below : List (Mat R)) t, ∃ s', applyCommand c ⟨top :: below, t⟩ = .ok s' := by
    intro top below t
    rcases h with h | h
    · exact ⟨_, applyCommand_q rfl h⟩
    · exact ⟨_, applyCommand_Q rfl h⟩
  obtain ⟨stack, t⟩ := s
  cases stack with
  | nil => exact key .identity [] t
  | cons top below => exact key top below t

/-- Operand lists, for examples. -/
abbrev nums (l : List Int) (op : Bytes) : List (Arg Int) := l.map .num ++ [.op op]

example : (runCommands (R := Int) ⟨[], none⟩
    [nums [2, 0, 0, 2, 0, 0] b!"cm", nums [] b!"q", nums [1, 0, 0, 1, 7, 8] b!"cm", nums [] b!"Q"]).map
    GState.stack = .ok [⟨2, 0, 0, 2, 0, 0⟩] := by decide

example : Spec.Balanced [nums [] b!"q", nums [] b!"BT", nums [] b!"Q", nums [1] b!"w"] :=
  .nest _ [_] _ [_] rfl (.other _ _ (by simp [Spec.HasOp, nums]) (by simp [Spec.HasOp, nums]) .nil) rfl
    (.other _ _ (by simp [Spec.HasOp, nums]) (by simp [Spec.HasOp, nums]) .nil)

/-- `Q` does not restore the text state, although its parameters belong to the graphics state
(ISO 32000-1, 9.3.1): a leading set between `q` and `Q` survives. -/
theorem C43_text_state_not_restored :
    ∃ s' : GState Int, runCommands ⟨[], none⟩ [nums [] b!"q", nums [12] b!"TL", nums [] b!"Q"] = .ok s' ∧
      (s'.text.map TextState.Tl) = some (.num 12) := ⟨_, rfl, rfl⟩

/-- `cm` concatenates its matrix to the current one: a point goes through the new matrix first, then
through the old one (ISO 32000-1, 8.4.4). The rest of the stack and the text state are kept. -/
theorem C42_cm (m top : Mat R) (below : List (Mat R)) (t : Option (TextState R)) :
    ∃ s', applyCommand [.num m.a, .num m.b, .num m.c, .num m.d, .num m.e, .num m.f, .op b!"cm"] ⟨top :: below, t⟩
        = .ok s' ∧ s'.text = some (t.getD .init) ∧
      ∃ top', s'.stack = top' :: below ∧ ∀ p, Spec.mapPoint top' p = Spec.mapPoint top (Spec.mapPoint m p) :=
  ⟨_, rfl, rfl, _, rfl, C42_action _ _⟩

/-! ## C45 -/

/-- The text state a command sees. -/
def GState.ts (s : GState R) : TextState R := s.text.getD .init

/-- The operators of text objects, positioning, state and showing (ISO 32000-1, 9.3 and 9.4). -/
def Spec.textOps : List Bytes :=
  [b!"BT", b!"ET", b!"Tc", b!"Tw", b!"Tz", b!"TL", b!"Tf", b!"Tr", b!"Ts", b!"Td", b!"TD", b!"Tm", b!"T*",
   b!"Tj", b!"TJ", b!"'", [34]]

/-- No text operator touches the graphics state stack. -/
theorem C45_stack_untouched (c : List (Arg R)) (op : Bytes) (hop : op ∈ Spec.textOps) (hc : Spec.HasOp c op)
    (s s' : GState R) (hs : s.stack ≠ []) (h : applyCommand c s = .ok s') : s'.stack = s.stack := by
  obtain ⟨top, below, hs'⟩ := List.exists_cons_of_ne_nil hs
  have hq : op ≠ b!"q" ∧ op ≠ b!"Q" ∧ op ≠ b!"cm" := by
    simp only [Spec.textOps, List.mem_cons, List.not_mem_nil, or_false] at hop
    clear hc h
    rcases hop with rfl | rfl | rfl | rfl | rfl | rfl | rfl | rfl | rfl | rfl | rfl | rfl | rfl | rfl | rfl |
      rfl | rfl <;> decide
  unfold applyCommand at h
  unfold Spec.HasOp at hc
  simp only [hs', hc] at h
  unfold applyOp at h
  rw [if_neg hq.1, if_neg hq.2.1, if_neg hq.2.2] at h
  rw [hs']
  revert h s'
  show Keeps (fun l => l = top :: below) _
  repeat' first
    | exact Keeps.pure rfl
    | apply Keeps.ite
    | (apply Keeps.bind; intro _)

/-- `Td`: both matrices become the line matrix translated by `(tx, ty)` in its own coordinates;
everything else is unchanged. -/
theorem C45_Td (tx ty : R) (s : GState R) : ∃ s', applyCommand [.num tx, .num ty, .op b!"Td"] s = .ok s' ∧
    s'.ts.tm = s'.ts.tlm ∧ s'.ts = { s.ts with tm := s'.ts.tm, tlm := s'.ts.tlm } ∧
    ∀ p, Spec.mapPoint s'.ts.tlm p = Spec.mapPoint s.ts.tlm (p.1 + tx, p.2 + ty) := by
  refine ⟨_, rfl, rfl, rfl, ?_⟩
  intro p
  show Spec.mapPoint (Mat.mul ⟨1, 0, 0, 1, tx, ty⟩ s.ts.tlm) p = _
  simp only [Mat.mul, Spec.mapPoint]
  ext <;> ring

/-- Successive `Td`s accumulate. -/
theorem C45_Td_Td (tx ty tx' ty' : R) (s : GState R) :
    runCommands s [[.num tx, .num ty, .op b!"Td"], [.num tx', .num ty', .op b!"Td"]] =
    runCommands s [[.num (tx + tx'), .num (ty + ty'), .op b!"Td"]] := by
  have key : ∀ m : Mat R, Mat.mul ⟨1, 0, 0, 1, tx', ty'⟩ (Mat.mul ⟨1, 0, 0, 1, tx, ty⟩ m) =
      Mat.mul ⟨1, 0, 0, 1, tx + tx', ty + ty'⟩ m := by
    intro m; ext <;> simp only [Mat.mul] <;> ring
  have e : ∀ ts : TextState R, opTd tx' ty' (opTd tx ty ts) = opTd (tx + tx') (ty + ty') ts := by
    intro ts; simp only [opTd, key]
  have : ∀ (top : Mat R) below, runCommands (R := R) ⟨top :: below, some s.ts⟩
      [[.num tx, .num ty, .op b!"Td"], [.num tx', .num ty', .op b!"Td"]] =
      .ok ⟨top :: below, some (opTd tx' ty' (opTd tx ty s.ts))⟩ := fun _ _ => rfl
  cases hs : s.stack with
  | nil =>
    have h1 := this .identity []
    rw [e] at h1
    obtain ⟨stack, t⟩ := s
    cases hs
    exact h1
  | cons top below =>
    have h1 := this top below
    rw [e] at h1
    obtain ⟨stack, t⟩ := s
    cases hs
    exact h1

/-- `Tm` replaces both matrices, whatever they were. -/
theorem C45_Tm (m : Mat R) (s : GState R) :
    ∃ s', applyCommand [.num m.a, .num m.b, .num m.c, .num m.d, .num m.e, .num m.f, .op b!"Tm"] s = .ok s' ∧
      s'.ts = { s.ts with tm := m, tlm := m } := by
  refine ⟨_, rfl, ?_⟩
  show ({ s.ts with tm := m.mul .identity, tlm := m.mul .identity } : TextState R) = _
  rw [(C42_identity m).2]

/-- `BT` resets both matrices to the identity. -/
theorem C45_BT (s : GState R) :
    ∃ s', applyCommand [.op b!"BT"] s = .ok s' ∧ s'.ts = { s.ts with tm := .identity, tlm := .identity } :=
  ⟨_, rfl, rfl⟩

/-- The parameters that no operator has set have the initial values of ISO 32000-1, 9.3.1 (Table 104): no spacing, no leading, no rise,
a horizontal scaling of 100 %, the mode 0, and no font. -/
theorem C45_initial (stack : List (Mat R)) :
    ∃ s', applyCommand [.op b!"BT"] ⟨stack, none⟩ = .ok s' ∧ s'.ts.Tc = .num 0 ∧ s'.ts.Tw = .num 0 ∧ s'.ts.Th = .num 100 ∧ s'.ts.Tl = .num 0 ∧
      s'.ts.Trise = .num 0 ∧ s'.ts.Tmode = .num 0 ∧ s'.ts.Tf = .oth .null ∧ s'.ts.Tfs = .oth .null ∧ ∀ p, Spec.mapPoint s'.ts.tm p = p ∧ Spec.mapPoint s'.ts.tlm p = p := by
  refine ⟨_, rfl, rfl, rfl, rfl, rfl, rfl, rfl, rfl, rfl, fun p => ?_⟩
  have : Spec.mapPoint (Mat.identity : Mat R) p = p := by
    simp only [Mat.identity, Spec.mapPoint]
    ext <;> ring
  exact ⟨this, this⟩

/-- `TD` is `-ty TL` followed by `tx ty Td`. -/
theorem C45_TD (tx ty : R) (s : GState R) :
    runCommands s [[.num tx, .num ty, .op b!"TD"]] =
    runCommands s [[.num (-ty), .op b!"TL"], [.num tx, .num ty, .op b!"Td"]] := by
  obtain ⟨stack, t⟩ := s
  cases stack <;> rfl

/-- `T*` is `0 -leading Td`, where the leading is the last value given to `TL`. -/
theorem C45_Tstar (l : R) (s : GState R) :
    runCommands s [[.num l, .op b!"TL"], [.op b!"T*"]] =
    runCommands s [[.num l, .op b!"TL"], [.num 0, .num (-l), .op b!"Td"]] := by
  obtain ⟨stack, t⟩ := s
  cases stack <;> rfl

/-- Hence a `TD` followed by `T*`s keeps moving by `ty`. -/
theorem C45_TD_Tstar (tx ty : R) (s : GState R) :
    runCommands s [[.num tx, .num ty, .op b!"TD"], [.op b!"T*"]] =
    runCommands s [[.num (-ty), .op b!"TL"], [.num tx, .num (ty + ty), .op b!"Td"]] := by
  have h1 : runCommands s [[.num tx, .num ty, .op b!"TD"], [.op b!"T*"]] =
      runCommands s [[.num (-ty), .op b!"TL"], [.num tx, .num ty, .op b!"Td"], [.num 0, .num (-(-ty)), .op b!"Td"]] := by
    obtain ⟨stack, t⟩ := s
    cases stack <;> rfl
  rw [h1, runCommands, runCommands]
  cases applyCommand [Arg.num (-ty), Arg.op b!"TL"] s with
  | error e => rfl
  | ok s' =>
    show runCommands s' _ = runCommands s' _
    rw [C45_Td_Td, add_zero, neg_neg]

/-- `'` is `T*`, and `"` sets the word and character spacings first. -/
theorem C45_quotes (aw ac str : Arg R) (s : GState R) :
    runCommands s [[str, .op b!"'"]] = runCommands s [[.op b!"T*"]] ∧
    runCommands s [[aw, ac, str, .op [34]]] =
      runCommands s [[aw, .op b!"Tw"], [ac, .op b!"Tc"], [str, .op b!"'"]] := by
  obtain ⟨stack, t⟩ := s
  cases stack <;> exact ⟨rfl, rfl⟩

/-- Each text state operator sets its parameter and nothing else. -/
theorem C45_parameters (x y : Arg R) (s : GState R) :
    (∃ s', applyCommand [x, .op b!"Tc"] s = .ok s' ∧ s'.ts = { s.ts with Tc := x }) ∧
    (∃ s', applyCommand [x, .op b!"Tw"] s = .ok s' ∧ s'.ts = { s.ts with Tw := x }) ∧
    (∃ s', applyCommand [x, .op b!"Tz"] s = .ok s' ∧ s'.ts = { s.ts with Th := x }) ∧
    (∃ s', applyCommand [x, .op b!"TL"] s = .ok s' ∧ s'.ts = { s.ts with Tl := x }) ∧
    (∃ s', applyCommand [x, y, .op b!"Tf"] s = .ok s' ∧ s'.ts = { s.ts with Tf := x, Tfs := y }) ∧
    (∃ s', applyCommand [x, .op b!"Tr"] s = .ok s' ∧ s'.ts = { s.ts with Tmode := x }) ∧
    (∃ s', applyCommand [x, .op b!"Ts"] s = .ok s' ∧ s'.ts = { s.ts with Trise := x }) :=
  ⟨⟨_, rfl, rfl⟩, ⟨_, rfl, rfl⟩, ⟨_, rfl, rfl⟩, ⟨_, rfl, rfl⟩, ⟨_, rfl, rfl⟩, ⟨_, rfl, rfl⟩, ⟨_, rfl, rfl⟩⟩

example : (runCommands (R := Int) ⟨[], none⟩ [nums [2, 0, 0, 2, 10, 10] b!"Tm", nums [1, -3] b!"TD", nums [] b!"T*"]).map
    (fun s => s.ts.tm) = .ok ⟨2, 0, 0, 2, 12, -2⟩ := by decide

end

/-! ## C44 -/

/-- An operator: a bare word, not a name. -/
def Spec.IsOp (o : Obj) : Prop := ∃ s, o = .str s ∧ ¬ b!"/" <+: s

/-- A complete command: operands, then one operator. -/
def Spec.Command (c : List Obj) : Prop := ∃ ops o, c = ops ++ [o] ∧ Spec.IsOp o ∧ ∀ x ∈ ops, ¬ Spec.IsOp x

/-- A correct split of the tokens: their concatenation is the token list, each command is complete;
operands left at the end without operator are grouped in a last item. -/
def Spec.IsSplit (tokens : List Obj) (cs : List (List Obj)) : Prop :=
  cs.flatten = tokens ∧ ∃ full tail, cs = full ++ tail ∧ (∀ c ∈ full, Spec.Command c) ∧
    (tail = [] ∨ ∃ t, tail = [t] ∧ t ≠ [] ∧ ∀ x ∈ t, ¬ Spec.IsOp x)

theorem isOperator_iff (o : Obj) : isOperator o = true ↔ Spec.IsOp o := by
  unfold Spec.IsOp
  cases o with
  | str s =>
    cases s with
    | nil => simp [isOperator]
    | cons c s => simp [isOperator, List.prefix_cons_iff]; exact ⟨fun h e => h e.symm, fun h e => h e.symm⟩
  | _ => simp [isOperator]

/-- The shape part of `Spec.IsSplit`. -/
def Shaped (cs : List (List Obj)) : Prop :=
  ∃ full tail, cs = full ++ tail ∧ (∀ c ∈ full, Spec.Command c) ∧
    (tail = [] ∨ ∃ t, tail = [t] ∧ t ≠ [] ∧ ∀ x ∈ t, ¬ Spec.IsOp x)

theorem Shaped.op {cs : List (List Obj)} (h : Shaped cs) {t : Obj} (ht : Spec.IsOp t) : Shaped ([t] :: cs) := by
  obtain ⟨full, tail, rfl, hf, htl⟩ := h
  refine ⟨[t] :: full, tail, rfl, ?_, htl⟩
  intro c hc
  rcases List.mem_cons.1 hc with rfl | hc
  · exact ⟨[], t, rfl, ht, by simp⟩
  · exact hf c hc

theorem Shaped.operand {c : List Obj} {cs : List (List Obj)} (h : Shaped (c :: cs)) {t : Obj}
    (ht : ¬ Spec.IsOp t) : Shaped ((t :: c) :: cs) := by
  obtain ⟨full, tail, e, hf, htl⟩ := h
  cases full with
  | nil =>
    rcases htl with rfl | ⟨c', rfl, hne, hc'⟩
    · cases e
    · cases e
      refine ⟨[], [t :: c], rfl, by simp, Or.inr ⟨_, rfl, by simp, ?_⟩⟩
      intro x hx
      rcases List.mem_cons.1 hx with rfl | hx
      · exact ht
      · exact hc' x hx
  | cons c' full =>
    cases e
    refine ⟨(t :: c) :: full, tail, rfl, ?_, htl⟩
    intro x hx
    rcases List.mem_cons.1 hx with rfl | hx
    · obtain ⟨ops, o, rfl, ho, hops⟩ := hf c (by simp)
      refine ⟨t :: ops, o, rfl, ho, ?_⟩
      intro y hy
      rcases List.mem_cons.1 hy with rfl | hy
      · exact ht
      · exact hops y hy
    · exact hf x (by simp [hx])

/-- The commands so far. -/
def soFar (current : List Obj) (ret : List (List Obj)) : List (List Obj) :=
  if current ≠ [] then current :: ret else ret

theorem splitLoop_spec : ∀ (rest current : List Obj) (ret : List (List Obj)), Shaped (soFar current ret) →
    (current = [] → ret = []) → ∃ cs, Shaped cs ∧ cs.flatten = rest.reverse ++ (current ++ ret.flatten) ∧
      ((∀ t ∈ rest.getLast?, Spec.IsOp t) → splitLoop rest current ret = cs) ∧
      ((∃ t ∈ rest.getLast?, ¬ Spec.IsOp t) → ∃ c cs', cs = c :: cs' ∧ splitLoop rest current ret = c :: cs)
  | [], current, ret, hs, _ => by
    refine ⟨soFar current ret, hs, ?_, fun _ => rfl, by simp⟩
    unfold soFar; split
    · simp
    · rename_i h; simp only [ne_eq, Decidable.not_not] at h; simp [h]
  | t :: rest, current, ret, hs, hc => by
    have hlast : rest ≠ [] → (t :: rest).getLast? = rest.getLast? := by
      intro h; obtain ⟨x, l, rfl⟩ := List.exists_cons_of_ne_nil h; rfl
    by_cases ht : isOperator t = true
    · have ht' := (isOperator_iff t).1 ht
      have hs' : Shaped (soFar [t] (soFar current ret)) := by
        unfold soFar; rw [if_pos (by simp)]; exact hs.op ht'
      obtain ⟨cs, h1, h2, h3, h4⟩ := splitLoop_spec rest [t] (soFar current ret) hs' (by simp)
      have e : splitLoop (t :: rest) current ret = splitLoop rest [t] (soFar current ret) := by
        rw [splitLoop, if_pos ht]; rfl
      refine ⟨cs, h1, ?_, ?_, ?_⟩
      · rw [h2]
        have : (soFar current ret).flatten = current ++ ret.flatten := by
          unfold soFar; split
          · simp
          · rename_i h; simp only [ne_eq, Decidable.not_not] at h; simp [h]
        simp [this]
      · intro h
        rw [e]
        apply h3
        intro x hx
        by_cases hr : rest = []
        · subst hr; simp at hx
        · exact h x (by rw [hlast hr]; exact hx)
      · rintro ⟨x, hx, hx'⟩
        rw [e]
        apply h4
        by_cases hr : rest = []
        · subst hr; simp only [List.getLast?_singleton, Option.mem_def, Option.some.injEq] at hx
          subst hx; exact absurd ht' hx'
        · exact ⟨x, by rw [← hlast hr]; exact hx, hx'⟩
    · have ht' : ¬ Spec.IsOp t := fun h => ht ((isOperator_iff t).2 h)
      have hs' : Shaped (soFar (t :: current) ret) := by
        unfold soFar at hs ⊢
        rw [if_pos (by simp)]
        by_cases hcur : current = []
        · rw [hc hcur, hcur]
          exact ⟨[], [[t]], rfl, by simp, Or.inr ⟨_, rfl, by simp, by simpa using ht'⟩⟩
        · rw [if_pos hcur] at hs
          exact hs.operand ht'
      by_cases hr : rest = []
      · subst hr
        refine ⟨(t :: current) :: ret, ?_, by simp, ?_, ?_⟩
        · unfold soFar at hs'; rw [if_pos (by simp)] at hs'; exact hs'
        · intro h; exact absurd (h t rfl) ht'
        · intro _
          refine ⟨t :: current, ret, rfl, ?_⟩
          rw [splitLoop, if_neg ht]
          rfl
      · obtain ⟨cs, h1, h2, h3, h4⟩ := splitLoop_spec rest (t :: current) ret hs' (by simp)
        have e : splitLoop (t :: rest) current ret = splitLoop rest (t :: current) ret := by
          rw [splitLoop, if_neg ht]
          simp only [if_neg hr]
        refine ⟨cs, h1, by rw [h2]; simp, ?_, ?_⟩
        · rw [hlast hr, e]; exact h3
        · rw [hlast hr, e]; exact h4

/-- Token lists that start with an operator are split correctly. -/
theorem C44_split_partial (tokens : List Obj) (h : ∀ t ∈ tokens.head?, Spec.IsOp t) :
    Spec.IsSplit tokens (splitCommands tokens) := by
  obtain ⟨cs, h1, h2, h3, _⟩ := splitLoop_spec tokens.reverse [] [] ⟨[], [], rfl, by simp, Or.inl rfl⟩ (fun _ => rfl)
  rw [splitCommands, h3 (by simpa [List.getLast?_reverse] using h)]
  exact ⟨by simpa using h2, h1⟩

/-- All others are split correctly except that the first command is repeated. -/
theorem C44_first_repeated (tokens : List Obj) (t : Obj) (ht : tokens.head? = some t) (h : ¬ Spec.IsOp t) :
    ∃ c cs, Spec.IsSplit tokens (c :: cs) ∧ splitCommands tokens = c :: c :: cs := by
  obtain ⟨cs, h1, h2, _, h4⟩ := splitLoop_spec tokens.reverse [] [] ⟨[], [], rfl, by simp, Or.inl rfl⟩ (fun _ => rfl)
  obtain ⟨c, cs', rfl, e⟩ := h4 ⟨t, by simp [List.getLast?_reverse, ht], h⟩
  exact ⟨c, cs', ⟨by simpa using h2, h1⟩, e⟩

/-- The claim is false: the first command of this stream is returned, hence executed, twice. -/
theorem C44_counterexample [Zlib] :
    parseStreamContent b!"2 0 0 2 0 0 cm q" = .ok
      [[.int 2, .int 0, .int 0, .int 2, .int 0, .int 0, .str b!"cm"],
       [.int 2, .int 0, .int 0, .int 2, .int 0, .int 0, .str b!"cm"], [.str b!"q"]] := by kernel_rfl

/-- And the operators `'` and `"` are not tokens for the parser: they are lost. -/
theorem C44_quote_counterexample [Zlib] :
    parseStreamContent b!"q (a) ' Q" = .ok [[.str b!"q"], [.bytes b!"(a)", .str b!"Q"]] := by kernel_rfl

/-- From the bytes: for every list of well-formed tokens, parsing their serialisation gives commands
made of the same tokens. -/
theorem C44_content_partial [Zlib] (tokens : List Obj) (hw : Spec.WF false false (.list tokens) = true)
    (hop : ∀ t ∈ tokens.head?, Spec.IsOp t) (content : Bytes)
    (hc : serialize 0 (.list tokens) = .ok (b!"[" ++ content ++ b!"]")) :
    ∃ tokens' cs, parseStreamContent content = .ok cs ∧ Spec.IsSplit tokens' cs ∧
      Spec.pyEq (.list tokens) (.list tokens') = true := by
  rw [serialize_eq _ false false 0 hw, Except.ok.injEq] at hc
  have hp := parse_ser hw (by simp) 0 [] [] (Or.inr (Or.inl ⟨_, rfl⟩)) (by simp)
  rw [List.append_nil, hc, List.nil_append] at hp
  refine ⟨tokens.map norm, splitCommands (tokens.map norm), ?_, ?_, ?_⟩
  · unfold parseStreamContent
    change parseObj _ 0 = _ at hp
    rw [hp, norm, normItems_eq]; rfl
  · apply C44_split_partial
    intro t ht
    rw [List.head?_map, Option.mem_def, Option.map_eq_some_iff] at ht
    obtain ⟨t', h1, rfl⟩ := ht
    obtain ⟨s, rfl, hs⟩ := hop t' h1
    exact ⟨s, rfl, hs⟩
  · have := pyEq_norm _ false false hw
    rwa [norm, normItems_eq] at this

example : Spec.WF false false (.list [.str b!"q", .int 1, .str b!"w", .list [.bytes b!"(a)"], .str b!"TJ"]) = true := by
  decide
example : splitCommands [.str b!"q", .int 1, .str b!"w", .list [.bytes b!"(a)"], .str b!"TJ", .int 3] =
    [[.str b!"q"], [.int 1, .str b!"w"], [.list [.bytes b!"(a)"], .str b!"TJ"], [.int 3]] := by decide

end Pdf
