/-
Serialise, then parse (continued): the parser on the text of an object.
-/
import Verif.Lemmas.RoundTrip

namespace Pdf
open Spec

set_option linter.unusedSectionVars false

variable [Zlib]

/-- The token text of `o` converts to `norm o`. -/
def ItemOk (o : Obj) : Prop :=
  ∀ depth, (if tokType o = .dict ∨ tokType o = .array then parseObj (ser depth o) 0
    else dedicatedType (ser depth o) (some (tokType o))) = .ok (norm o)

theorem tokType_ne_comment (o : Obj) : tokType o ≠ .comment := by
  cases o <;> simp [tokType] <;> split <;> simp

theorem step_tok {F} (hF : StepFn F) {s post ws text : Bytes} {t : TokT} {i j1 : Nat} {o : Obj}
    (ht : TokAt s post t) (htc : t ≠ .comment) (hws : ∀ c ∈ ws, isSpace c = true)
    (hd : text.drop i = ws ++ (s ++ post)) (hj : i + ws.length + s.length < j1)
    (ho : (if t = .dict ∨ t = .array then parseObj s 0 else dedicatedType s (some t)) = .ok o) :
    F text i j1 = (F text (i + ws.length + s.length) j1).map (o :: ·) := by
  have e := nextToken_at ht hws hd
  have b := nextToken_typed e
  refine hF _ _ _ _ _ _ _ e htc (by omega) hj ?_
  unfold itemVal
  have hs : slice text (i + ws.length) (i + ws.length + s.length) = s := by
    apply slice_of_drop (post := post)
    rw [← List.drop_drop, hd]; simp
  rw [hs, ho]

theorem drop_add_of {text a b : Bytes} {i : Nat} (h : text.drop i = a ++ b) :
    text.drop (i + a.length) = b := by
  rw [← List.drop_drop, h]; simp

theorem except_map_map {ε α β γ} (x : Except ε α) (f : α → β) (g : β → γ) :
    (x.map f).map g = x.map (g ∘ f) := by cases x <;> rfl

theorem step_obj {F} (hF : StepFn F) {o : Obj} {inD inA : Bool} (h : WF inD inA o = true)
    (hok : (∀ g n, o ≠ .ref g n) → ItemOk o) (depth : Nat) {ws text post : Bytes} {i j1 : Nat}
    (hws : ∀ c ∈ ws, isSpace c = true) (hd : text.drop i = ws ++ (ser depth o ++ 32 :: post))
    (hj : i + ws.length + (ser depth o).length < j1) :
    F text i j1 = (F text (i + ws.length + (ser depth o).length) j1).map (flat o ++ ·) := by
  by_cases hr : ∀ g n, o ≠ .ref g n
  · have hf : flat o = [norm o] := by
      cases o <;> first | rfl | (exact absurd rfl (hr _ _))
    rw [hf]
    exact step_tok hF (tokAt_obj h hr depth (by decide) post) (tokType_ne_comment o) hws hd hj
      (hok hr depth)
  · have : ∃ g n, o = .ref g n := by
      cases o <;> simp at hr ⊢
    obtain ⟨g, n, rfl⟩ := this
    simp only [WF, Bool.and_eq_true, decide_eq_true_eq] at h
    obtain ⟨rfl, -⟩ := h
    simp only [ser] at hd hj ⊢
    have hg : intDec 0 = [48] := rfl
    rw [hg] at hd hj ⊢
    simp only [List.length_append, List.length_cons, List.length_nil] at hj ⊢
    have ho1 : (if TokT.integer = .dict ∨ TokT.integer = .array then parseObj (intDec n) 0 else
        dedicatedType (intDec n) (some .integer)) = .ok (.int n) := by
      simp [dedicatedType, pyInt_intDec, orRaise]
      rfl
    have hd1 : text.drop i = ws ++ (intDec n ++ 32 :: (b!"0 R" ++ 32 :: post)) := by
      rw [hd]; simp
    rw [step_tok hF (tokAt_int n (by decide) _) (by decide) hws hd1 (by omega) ho1]
    have hd2 : text.drop (i + ws.length + (intDec n).length) = [32] ++ (b!"0" ++ 32 :: (b!"R" ++ 32 :: post)) := by
      rw [drop_add_of (drop_add_of hd1)]; rfl
    rw [step_tok hF (tokAt_int 0 (by decide) _) (by decide) (by decide) hd2
      (by simp [hg]; omega) (o := .int 0) (by rfl)]
    have hd3 := drop_add_of (drop_add_of hd2)
    rw [show (32 :: (b!"R" ++ 32 :: post)) = [32] ++ (b!"R" ++ 32 :: post) from rfl] at hd3
    have hR := tokAt_word (x := 82) (body := []) (by decide) (by decide) (c := 32) (by decide) post
      (by simp [List.isPrefixOf])
    rw [if_neg (by decide), if_neg (by decide)] at hR
    rw [hg, step_tok hF hR (by decide) (by decide) hd3 (by simp; omega) (o := .str b!"R") (by rfl)]
    rw [except_map_map, except_map_map]
    simp only [flat, List.length_cons, List.length_nil]
    rw [show i + ws.length + (intDec n).length + (0 + 1) + (0 + 1) + (0 + 1) + (0 + 1) =
      i + ws.length + ((intDec n).length + (0 + 1) + (0 + 1) + (0 + 1 + 1)) by omega]
    rfl

theorem step_items {F} (hF : StepFn F) {inD inA : Bool} {text rest : Bytes} {j1 : Nat} :
    ∀ (l : List Obj), WFItems inD inA l = true →
      (∀ o ∈ l, (∀ g n, o ≠ .ref g n) → ItemOk o) →
      ∀ (ws : Bytes) (i : Nat), (∀ c ∈ ws, isSpace c = true) →
      text.drop i = ws ++ (serItems l ++ rest) → i + ws.length + (serItems l).length < j1 →
      ∃ ws' k, F text i j1 = (F text k j1).map (flatItems l ++ ·) ∧
        text.drop k = ws' ++ rest ∧ (∀ c ∈ ws', isSpace c = true) ∧
        k + ws'.length = i + ws.length + (serItems l).length := by
  intro l
  induction l with
  | nil =>
    intro _ _ ws i hws hd _
    refine ⟨ws, i, ?_, hd, hws, rfl⟩
    cases F text i j1 <;> rfl
  | cons o l ih =>
    intro h hok ws i hws hd hj
    simp only [WFItems, Bool.and_eq_true] at h
    simp only [serItems, List.append_assoc, List.cons_append, List.nil_append] at hd
    simp only [serItems, List.length_append, List.length_cons, List.length_nil] at hj ⊢
    rw [step_obj hF h.1 (hok o (by simp)) 0 hws hd (by omega)]
    have hd2 : text.drop (i + ws.length + (ser 0 o).length) = [32] ++ (serItems l ++ rest) := by
      rw [drop_add_of (drop_add_of hd)]; rfl
    obtain ⟨ws', k, e, a, b, c⟩ := ih h.2 (fun o ho => hok o (by simp [ho])) [32] _ (by decide) hd2
      (by simp; omega)
    refine ⟨ws', k, ?_, a, b, ?_⟩
    · rw [e, except_map_map]
      simp only [flatItems, Function.comp_def, List.append_assoc]
    · rw [c]; simp; omega

theorem step_entries {F} (hF : StepFn F) {inD inA : Bool} {text rest : Bytes} {j1 : Nat} (depth : Nat) :
    ∀ (d : List (Bytes × Obj)), WFEntries inD inA d = true →
      (∀ p ∈ d, (∀ g n, p.2 ≠ .ref g n) → ItemOk p.2) →
      ∀ (ws : Bytes) (i : Nat), (∀ c ∈ ws, isSpace c = true) →
      text.drop i = ws ++ (serEntries depth d ++ rest) →
      i + ws.length + (serEntries depth d).length < j1 →
      ∃ ws' k, F text i j1 = (F text k j1).map (flatEntries d ++ ·) ∧
        text.drop k = ws' ++ rest ∧ (∀ c ∈ ws', isSpace c = true) ∧
        k + ws'.length = i + ws.length + (serEntries depth d).length := by
  intro d
  induction d with
  | nil =>
    intro _ _ ws i hws hd _
    refine ⟨ws, i, ?_, hd, hws, rfl⟩
    cases F text i j1 <;> rfl
  | cons p d ih =>
    obtain ⟨k, v⟩ := p
    intro h hok ws i hws hd hj
    simp only [WFEntries, Bool.and_eq_true] at h
    simp only [serEntries, List.append_assoc, List.cons_append, List.nil_append] at hd
    simp only [serEntries, List.length_append, List.length_cons, List.length_nil,
      List.length_replicate] at hj ⊢
    rw [← List.append_assoc] at hd
    have hws1 : ∀ c ∈ ws ++ List.replicate depth 32, isSpace c = true := by
      intro c hc
      simp only [List.mem_append, List.mem_replicate] at hc
      rcases hc with hc | ⟨-, rfl⟩
      · exact hws c hc
      · decide
    have hko : (if TokT.name = .dict ∨ TokT.name = .array then parseObj k 0 else
        dedicatedType k (some .name)) = .ok (.str k) := by
      simp [dedicatedType, name_ascii h.1.1]
    rw [step_tok hF (tokAt_name h.1.1 (by decide) _) (by decide) hws1 hd
      (by simp; omega) hko]
    have hd2 := drop_add_of (drop_add_of hd)
    rw [show 32 :: (ser (depth + 1) v ++ 32 :: (serEntries depth d ++ rest)) =
      [32] ++ (ser (depth + 1) v ++ 32 :: (serEntries depth d ++ rest)) from rfl] at hd2
    rw [step_obj hF h.1.2 (hok (k, v) (by simp)) (depth + 1) (by decide) hd2 (by simp; omega)]
    have hd3 := drop_add_of (drop_add_of hd2)
    rw [show 32 :: (serEntries depth d ++ rest) = [32] ++ (serEntries depth d ++ rest) from rfl] at hd3
    obtain ⟨ws', m, e, a, b, c⟩ := ih h.2 (fun o ho => hok o (by simp [ho])) [32] _ (by decide) hd3
      (by simp; omega)
    refine ⟨ws', m, ?_, a, b, ?_⟩
    · rw [e, except_map_map, except_map_map]
      simp only [flatEntries, Function.comp_def, List.append_assoc, List.cons_append]
    · rw [c]; simp; omega

theorem nextToken_close_array {text ws post : Bytes} {i : Nat} (hws : ∀ c ∈ ws, isSpace c = true)
    (hd : text.drop i = ws ++ (93 :: post)) : ∃ h, nextToken text i = (h, i + ws.length, none) := by
  unfold nextToken
  rw [hd]
  obtain ⟨h', e⟩ := scan_ws text (93 :: post) ws i i hws
  rw [e]
  exact ⟨h', rfl⟩

theorem nextToken_close_dict {text ws post : Bytes} {i : Nat} (hws : ∀ c ∈ ws, isSpace c = true)
    (hd : text.drop i = ws ++ (62 :: 62 :: post)) :
    ∃ h, nextToken text i = (h, i + ws.length + 1, none) := by
  unfold nextToken
  rw [hd]
  obtain ⟨h', e⟩ := scan_ws text (62 :: 62 :: post) ws i i hws
  rw [e]
  exact ⟨h', by simp [tokLoop, tokStep, startsWith, List.isPrefixOf]⟩

theorem parse_array {l : List Obj} {inD : Bool} (h : WFItems inD true l = true)
    (hok : ∀ o ∈ l, (∀ g n, o ≠ .ref g n) → ItemOk o) (depth : Nat) (post : Bytes) :
    parseObj (ser depth (.list l) ++ post) 0 = .ok (.list (normItems l)) := by
  have ht : TokAt (ser depth (.list l)) post .array := tokAt_array (serItems_atrans l _ h) _
  have hd0 : (ser depth (.list l) ++ post).drop 0 = [] ++ (ser depth (.list l) ++ post) := rfl
  have e := nextToken_at ht (by simp) hd0
  rw [parseObj_array e]
  have hlen : (ser depth (.list l)).length = (serItems l).length + 3 := by simp [ser]
  have hd1 : (ser depth (.list l) ++ post).drop (0 + 1) = [32] ++ (serItems l ++ 93 :: post) := by
    simp [ser]
  obtain ⟨ws', k, e1, hk, hws', hlk⟩ := step_items stepFn_array
    (j1 := 0 + ([] : Bytes).length + (ser depth (.list l)).length) l h hok
    [32] (0 + 1) (by decide) hd1 (by simp [hlen]; omega)
  rw [e1]
  have hdone : arrayItems (ser depth (.list l) ++ post) k
      (0 + ([] : Bytes).length + (ser depth (.list l)).length) = .ok [] := by
    simp only [List.length_cons, List.length_nil] at hlk ⊢
    by_cases hw : ws' = []
    · subst hw
      simp only [List.length_nil] at hlk
      exact arrayItems_done (by omega)
    · have := List.length_pos_iff.2 hw
      obtain ⟨h', e2⟩ := nextToken_close_array hws' hk
      rw [arrayItems_none (by omega) e2 (by omega)]
      exact arrayItems_done (by omega)
  rw [hdone]
  simp only [Except.map, List.append_nil]
  rw [replaceRef_flatItems l _ _ h]

theorem normItems_eq (l : List Obj) : normItems l = l.map norm := by
  induction l with
  | nil => rfl
  | cons o l ih => simp [normItems, ih]

theorem parse_dict {d : List (Bytes × Obj)} {inA : Bool} (h : WFEntries true inA d = true)
    (hnd : (d.map Prod.fst).Nodup)
    (hok : ∀ p ∈ d, (∀ g n, p.2 ≠ .ref g n) → ItemOk p.2) (depth : Nat) (post : Bytes)
    (hns : (nextToken post 0).2.2 ≠ some .stream) :
    parseObj (ser depth (.dict d) ++ post) 0 = .ok (.dict (normEntries d).reverse) := by
  have ht : TokAt (ser depth (.dict d)) post .dict := tokAt_dict depth (serEntries_dtrans d _ depth h) _
  have hd0 : (ser depth (.dict d) ++ post).drop 0 = [] ++ (ser depth (.dict d) ++ post) := rfl
  have e := nextToken_at ht (by simp) hd0
  rw [parseObj_dict e]
  · have hlen : (ser depth (.dict d)).length = (serEntries depth d).length + depth + 5 := by
      simp [ser]; omega
    have hd1 : (ser depth (.dict d) ++ post).drop (0 + 2) =
        [32] ++ (serEntries depth d ++ (List.replicate depth 32 ++ 62 :: 62 :: post)) := by
      simp [ser]
    obtain ⟨ws', k, e1, hk, hws', hlk⟩ := step_entries stepFn_dict
      (j1 := 0 + ([] : Bytes).length + (ser depth (.dict d)).length) depth d h hok
      [32] (0 + 2) (by decide) hd1 (by simp [hlen]; omega)
    rw [e1]
    have hdone : dictItems (ser depth (.dict d) ++ post) k
        (0 + ([] : Bytes).length + (ser depth (.dict d)).length) = .ok [] := by
      simp only [List.length_cons, List.length_nil] at hlk ⊢
      rw [← List.append_assoc] at hk
      have hws2 : ∀ c ∈ ws' ++ List.replicate depth 32, isSpace c = true := by
        intro c hc
        simp only [List.mem_append, List.mem_replicate] at hc
        rcases hc with hc | ⟨-, rfl⟩
        · exact hws' c hc
        · decide
      obtain ⟨h', e2⟩ := nextToken_close_dict hws2 hk
      rw [List.length_append, List.length_replicate] at e2
      rw [dictItems_none (by omega) e2 (by omega)]
      exact dictItems_done (by omega)
    rw [hdone]
    simp only [Except.map, List.append_nil]
    rw [flatEntries_eq, replaceRef_flatItems _ _ _ (WFItems_interleave d _ _ h),
      normItems_interleave]
    simp only
    rw [pairUp_entries d hnd]
  · intro hs
    apply hns
    rw [← hs]
    have := nextToken_shift (ser depth (.dict d)) post 0
    rw [Nat.add_zero] at this
    simp only [List.length_nil, Nat.zero_add]
    rw [this]
    rfl

theorem nextToken_nil : nextToken [] 0 = (0, 0, none) := rfl

mutual
theorem itemOk : ∀ (o : Obj) (inD inA : Bool), WF inD inA o = true → (∀ g n, o ≠ .ref g n) → ItemOk o
  | .null, _, _, h, _ => by simp [WF] at h
  | .bool b, _, _, _, _ => by cases b <;> (intro depth; rfl)
  | .int n, _, _, _, _ => by
    intro depth
    simp [tokType, ser, norm, dedicatedType, pyInt_intDec, orRaise]
    rfl
  | .real neg ip frac, _, _, h, _ => by
    simp only [WF, isDecimal_eq] at h
    intro depth
    simp [tokType, ser, norm, dedicatedType, pyFloat_realStr _ _ _ h]
  | .str s, _, _, h, _ => by
    simp only [WF] at h
    intro depth
    simp only [tokType, ser, norm]
    split <;> simp [dedicatedType, str_ascii h]
  | .bytes s, _, _, h, _ => by
    intro depth
    simp [tokType, ser, norm, dedicatedType]
  | .ref g n, _, _, _, hr => absurd rfl (hr g n)
  | .list l, inD, inA, h, _ => by
    simp only [WF] at h
    intro depth
    simp only [tokType, or_true, if_true, norm]
    have := parse_array h (itemsOk l _ _ h) depth []
    rwa [List.append_nil] at this
  | .dict d, inD, inA, h, _ => by
    simp only [WF, Bool.and_eq_true, decide_eq_true_eq] at h
    intro depth
    simp only [tokType, true_or, if_true, norm]
    have := parse_dict h.1 h.2 (entriesOk d _ _ h.1) depth [] (by simp [nextToken_nil])
    rwa [List.append_nil] at this
  | .stream _ _ _, _, _, h, _ => by simp [WF] at h
theorem itemsOk : ∀ (l : List Obj) (inD inA : Bool), WFItems inD inA l = true →
    ∀ o ∈ l, (∀ g n, o ≠ .ref g n) → ItemOk o
  | [], _, _, _ => by simp
  | o :: l, inD, inA, h => by
    simp only [WFItems, Bool.and_eq_true] at h
    intro x hx
    rw [List.mem_cons] at hx
    rcases hx with hx | hx
    · rw [hx]; exact itemOk o _ _ h.1
    · exact itemsOk l _ _ h.2 x hx
theorem entriesOk : ∀ (d : List (Bytes × Obj)) (inD inA : Bool), WFEntries inD inA d = true →
    ∀ p ∈ d, (∀ g n, p.2 ≠ .ref g n) → ItemOk p.2
  | [], _, _, _ => by simp
  | (k, v) :: d, inD, inA, h => by
    simp only [WFEntries, Bool.and_eq_true] at h
    intro x hx
    rw [List.mem_cons] at hx
    rcases hx with hx | hx
    · rw [hx]; exact itemOk v _ _ h.1.2
    · exact entriesOk d _ _ h.2 x hx
end

/-- Parsing the serialisation of a well-formed object, in place. -/
theorem parse_ser {o : Obj} {inD inA : Bool} (h : WF inD inA o = true) (hr : ∀ g n, o ≠ .ref g n)
    (depth : Nat) (pre post : Bytes)
    (hpost : (∃ c p, post = c :: p ∧ isBreak c = true) ∨
      ((∃ l, o = .list l) ∨ (∃ d, o = .dict d) ∨ (∃ s, o = .bytes s)))
    (hns : (∃ d, o = .dict d) → (nextToken post 0).2.2 ≠ some .stream) :
    parseObj (pre ++ (ser depth o ++ post)) pre.length = .ok (norm o) := by
  have := parseObj_shift pre (ser depth o ++ post) 0
  rw [Nat.add_zero] at this
  rw [this]
  have ht : TokAt (ser depth o) post (tokType o) := by
    rcases hpost with ⟨c, p, rfl, hc⟩ | hc
    · exact tokAt_obj h hr depth hc p
    · exact tokAt_container h hc depth post
  have hd0 : (ser depth o ++ post).drop 0 = [] ++ (ser depth o ++ post) := rfl
  have e := nextToken_at ht (by simp) hd0
  have hs : slice (ser depth o ++ post) (0 + ([] : Bytes).length)
      (0 + ([] : Bytes).length + (ser depth o).length) = ser depth o :=
    slice_of_drop (post := post) (by simp)
  cases o with
  | null => simp [WF] at h
  | stream _ _ _ => simp [WF] at h
  | ref g n => exact absurd rfl (hr g n)
  | list l =>
    simp only [WF] at h
    exact parse_array h (itemsOk l _ _ h) depth post
  | dict d =>
    simp only [WF, Bool.and_eq_true, decide_eq_true_eq] at h
    exact parse_dict h.1 h.2 (entriesOk d _ _ h.1) depth post (hns ⟨d, rfl⟩)
  | bool b =>
    have hi := itemOk _ _ _ h hr depth
    rw [parseObj_atom e (by cases b <;> simp [tokType]), hs]
    rwa [if_neg (by cases b <;> simp [tokType])] at hi
  | int n =>
    have hi := itemOk _ _ _ h hr depth
    rw [parseObj_atom e (by simp [tokType]), hs]
    rwa [if_neg (by simp [tokType])] at hi
  | real _ _ _ =>
    have hi := itemOk _ _ _ h hr depth
    rw [parseObj_atom e (by simp [tokType]), hs]
    rwa [if_neg (by simp [tokType])] at hi
  | str s =>
    have hi := itemOk _ _ _ h hr depth
    rw [parseObj_atom e (by simp only [tokType]; split <;> simp), hs]
    rwa [if_neg (by simp only [tokType]; split <;> simp)] at hi
  | bytes s =>
    have hi := itemOk _ _ _ h hr depth
    rw [parseObj_atom e (by simp [tokType]), hs]
    rwa [if_neg (by simp [tokType])] at hi

end Pdf
