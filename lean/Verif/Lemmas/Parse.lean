/-
Fuel-free equations of the parser.
-/
import Verif.Lemmas.Scan

namespace Pdf

variable [Zlib]

/-- The item loops with enough fuel. -/
def dictItems (text : Bytes) (i j1 : Nat) : Py (List Obj) :=
  dictItemsF (2 * text.length + 4) text i j1

def arrayItems (text : Bytes) (i j1 : Nat) : Py (List Obj) :=
  arrayItemsF (2 * text.length + 4) text i j1

theorem dictItemsF_eq (text : Bytes) (i j1 n : Nat) (h : 2 * (text.length - i) + 2 ≤ n) :
    dictItemsF n text i j1 = dictItems text i j1 :=
  (fuel_stable n).2.1 _ _ _ _ h (by omega)

theorem arrayItemsF_eq (text : Bytes) (i j1 n : Nat) (h : 2 * (text.length - i) + 2 ≤ n) :
    arrayItemsF n text i j1 = arrayItems text i j1 :=
  (fuel_stable n).2.2 _ _ _ _ h (by omega)

/-- The value of one item token. -/
def itemVal (text : Bytes) (h i : Nat) (t : TokT) : Py Obj :=
  if t = .dict ∨ t = .array then parseObj (slice text h i) 0 else dedicatedType (slice text h i) (some t)

theorem parseObj_dict {text : Bytes} {start h1 j1 : Nat}
    (e : nextToken text start = (h1, j1, some .dict))
    (hns : (nextToken text j1).2.2 ≠ some .stream) :
    parseObj text start =
      match dictItems text (start + 2) j1 with
      | .error e => .error e
      | .ok items =>
        match replaceRef items with
        | .error e => .error e
        | .ok items => (pairUp [] items.reverse).map .dict := by
  unfold parseObj parseFuel
  rw [parseObjF, e]
  simp only
  rcases hnt : nextToken text j1 with ⟨h2, j2, t2⟩
  rw [hnt] at hns
  rw [dictItemsF_eq _ _ _ _ (by omega)]
  cases t2 with
  | none => rfl
  | some t2 => cases t2 <;> first | rfl | (exact absurd rfl hns)

theorem parseObj_stream {text : Bytes} {start h1 j1 h2 j2 : Nat}
    (e : nextToken text start = (h1, j1, some .dict))
    (e2 : nextToken text j1 = (h2, j2, some .stream)) :
    parseObj text start =
      match parseObj (slice text h1 j1) 0 with
      | .error e => .error e
      | .ok (.dict def_) =>
        match streamContent (slice text h2 j2) with
        | none => .error .outside
        | some enc =>
          match decodeStream enc def_ with
          | .error e => .error e
          | .ok content => .ok (.stream def_ content enc)
      | .ok _ => .error .outside := by
  have b1 := nextToken_typed e
  have b2 := nextToken_typed e2
  conv => lhs; unfold parseObj parseFuel
  rw [parseObjF, e]
  simp only
  rw [e2]
  simp only
  rw [parseObjF_eq _ _ _ (by rw [slice_length]; omega)]
  rfl

theorem parseObj_array {text : Bytes} {start h1 j1 : Nat}
    (e : nextToken text start = (h1, j1, some .array)) :
    parseObj text start =
      match arrayItems text (start + 1) j1 with
      | .error e => .error e
      | .ok items => (replaceRef items).map .list := by
  unfold parseObj parseFuel
  rw [parseObjF, e]
  simp only
  rw [arrayItemsF_eq _ _ _ _ (by omega)]
  rfl

theorem parseObj_atom {text : Bytes} {start h1 j1 : Nat} {t : TokT}
    (e : nextToken text start = (h1, j1, some t))
    (ht : t ≠ .dict ∧ t ≠ .array ∧ t ≠ .stream ∧ t ≠ .comment) :
    parseObj text start = dedicatedType (slice text h1 j1) (some t) := by
  unfold parseObj parseFuel
  rw [parseObjF, e]
  cases t <;> first | rfl | simp at ht

theorem dictItems_done {text : Bytes} {i j1 : Nat} (h : ¬ i < j1 - 1) :
    dictItems text i j1 = .ok [] := by
  unfold dictItems
  rw [dictItemsF, if_neg h]

theorem arrayItems_done {text : Bytes} {i j1 : Nat} (h : ¬ i < j1 - 1) :
    arrayItems text i j1 = .ok [] := by
  unfold arrayItems
  rw [arrayItemsF, if_neg h]

theorem dictItems_none {text : Bytes} {i j1 h i' : Nat} (hij : i < j1 - 1)
    (e : nextToken text i = (h, i', none)) (hlt : i < i') :
    dictItems text i j1 = dictItems text i' j1 := by
  conv => lhs; unfold dictItems
  rw [dictItemsF, if_pos hij, e]
  simp only
  rw [if_neg (by omega)]
  by_cases hl : i ≤ text.length
  · have := nextToken_le e hl
    exact dictItemsF_eq _ _ _ _ (by omega)
  · rw [nextToken_end _ _ (by omega)] at e; simp at e; omega

theorem arrayItems_none {text : Bytes} {i j1 h i' : Nat} (hij : i < j1 - 1)
    (e : nextToken text i = (h, i', none)) (hlt : i < i') :
    arrayItems text i j1 = arrayItems text i' j1 := by
  conv => lhs; unfold arrayItems
  rw [arrayItemsF, if_pos hij, e]
  simp only
  rw [if_neg (by omega)]
  by_cases hl : i ≤ text.length
  · have := nextToken_le e hl
    exact arrayItemsF_eq _ _ _ _ (by omega)
  · rw [nextToken_end _ _ (by omega)] at e; simp at e; omega

/-- Both item loops read one more item. -/
def StepFn (F : Bytes → Nat → Nat → Py (List Obj)) : Prop :=
  ∀ (text : Bytes) (i j1 h i' : Nat) (t : TokT) (o : Obj), nextToken text i = (h, i', some t) →
    t ≠ .comment → i < j1 - 1 → i' < j1 → itemVal text h i' t = .ok o →
    F text i j1 = (F text i' j1).map (o :: ·)

theorem stepFn_dict : StepFn dictItems := by
  intro text i j1 h i' t o e ht hij hj ho
  have b := nextToken_typed e
  conv => lhs; unfold dictItems
  rw [dictItemsF, if_pos hij, e]
  unfold itemVal at ho
  rw [← parseObjF_eq _ _ (2 * text.length + 3) (by rw [slice_length]; omega)] at ho
  have hrec := dictItemsF_eq text i' j1 (2 * text.length + 3) (by omega)
  cases t <;>
  · first
      | exact absurd rfl ht
      | (simp only [true_or, or_true, if_true, if_false, reduceCtorEq, or_self, hj, hrec] at ho ⊢
         rw [ho]
         cases dictItems text i' j1 <;> rfl)

theorem stepFn_array : StepFn arrayItems := by
  intro text i j1 h i' t o e ht hij hj ho
  have b := nextToken_typed e
  conv => lhs; unfold arrayItems
  rw [arrayItemsF, if_pos hij, e]
  unfold itemVal at ho
  rw [← parseObjF_eq _ _ (2 * text.length + 3) (by rw [slice_length]; omega)] at ho
  have hrec := arrayItemsF_eq text i' j1 (2 * text.length + 3) (by omega)
  cases t <;>
  · first
      | exact absurd rfl ht
      | (simp only [true_or, or_true, if_true, if_false, reduceCtorEq, or_self, hrec] at ho ⊢
         rw [ho]
         cases arrayItems text i' j1 <;> rfl)

end Pdf
