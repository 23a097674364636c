/-
Serialised values are transparent to the DICT and ARRAY scanning modes.
-/
import Verif.Lemmas.Parse

namespace Pdf
open Spec

/-- Text that leaves the DICT mode as it found it, when followed by a space. -/
def DTrans (w : Bytes) : Prop :=
  ∀ (text : Bytes) (n : Nat) (b : Bool) (h i : Nat) (post : Bytes), 1 ≤ n →
    tokLoop text ⟨.dict, n, b, h, i⟩ (w ++ 32 :: post) =
      tokLoop text ⟨.dict, n, b, h, i + w.length⟩ (32 :: post)

/-- The same, whatever follows. -/
def DTransS (w : Bytes) : Prop :=
  ∀ (text : Bytes) (n : Nat) (b : Bool) (h i : Nat) (post : Bytes), 1 ≤ n →
    tokLoop text ⟨.dict, n, b, h, i⟩ (w ++ post) =
      tokLoop text ⟨.dict, n, b, h, i + w.length⟩ post

theorem DTransS.nil : DTransS [] := fun _ _ _ _ _ _ _ => rfl

theorem DTransS.toDTrans {w : Bytes} (h : DTransS w) : DTrans w :=
  fun text n b h' i post hn => h text n b h' i (32 :: post) hn

theorem DTransS.append {a b : Bytes} (ha : DTransS a) (hb : DTransS b) : DTransS (a ++ b) := by
  intro text n bb h i post hn
  rw [List.append_assoc, ha _ _ _ _ _ _ hn, hb _ _ _ _ _ _ hn, List.length_append, Nat.add_assoc]

theorem DTransS.space : DTransS [32] := by
  intro text n b h i post hn
  rw [List.cons_append, tokLoop]
  simp only [tokStep, startsWith_ne (c := 32) (a := 60) (by decide),
    startsWith_ne (c := 32) (a := 62) (by decide)]
  simp

theorem DTransS.spaces (k : Nat) : DTransS (List.replicate k 32) := by
  induction k with
  | zero => exact DTransS.nil
  | succ k ih => rw [List.replicate_succ]; exact DTransS.append DTransS.space ih

theorem DTrans.append_space {w : Bytes} (h : DTrans w) : DTransS (w ++ [32]) := by
  intro text n b h' i post hn
  have := h text n b h' i post hn
  rw [List.append_assoc]
  simp only [List.cons_append, List.nil_append]
  rw [this]
  have := DTransS.space text n b h' (i + w.length) post hn
  simp only [List.cons_append, List.nil_append] at this
  rw [this]; simp [Nat.add_assoc]

theorem DTrans.of_noDoubleAngle : ∀ {w : Bytes}, noDoubleAngle w = true → DTrans w := by
  intro w
  induction w with
  | nil => intro _ text n b h i post hn; rfl
  | cons c w ih =>
    intro hw text n b h i post hn
    have hlt : startsWith b!"<<" (c :: (w ++ 32 :: post)) = false ∧
        startsWith b!">>" (c :: (w ++ 32 :: post)) = false ∧ noDoubleAngle w = true := by
      cases w with
      | nil => simp [startsWith, List.isPrefixOf, noDoubleAngle]
      | cons d w =>
        simp only [noDoubleAngle, Bool.and_eq_true, Bool.not_eq_true', Bool.and_eq_false_imp,
          decide_eq_true_eq, decide_eq_false_iff_not] at hw
        refine ⟨?_, ?_, hw.2⟩
        · simp only [startsWith, List.cons_append, List.isPrefixOf, Bool.and_true,
            Bool.and_eq_false_imp, beq_iff_eq, beq_eq_false_iff_ne]
          intro h1 h2; exact hw.1.1 h1.symm h2.symm
        · simp only [startsWith, List.cons_append, List.isPrefixOf, Bool.and_true,
            Bool.and_eq_false_imp, beq_iff_eq, beq_eq_false_iff_ne]
          intro h1 h2; exact hw.1.2 h1.symm h2.symm
    rw [List.cons_append, tokLoop]
    simp only [tokStep, hlt.1, hlt.2.1]
    have := ih hlt.2.2 text n b h (i + 1) post hn
    simp only [Bool.false_eq_true, if_false, this, List.length_cons]
    rw [show i + 1 + w.length = i + (w.length + 1) by omega]

theorem noDoubleAngle_of_no {w : Bytes} (h : ∀ c ∈ w, c ≠ 60 ∧ c ≠ 62) : noDoubleAngle w = true := by
  induction w with
  | nil => rfl
  | cons a w ih =>
    cases w with
    | nil => rfl
    | cons b w =>
      have ha := h a (by simp)
      simp only [noDoubleAngle, Bool.and_eq_true]
      refine ⟨⟨by simp [ha.1], by simp [ha.2]⟩, ih (fun c hc => h c (by simp [hc]))⟩

theorem DTrans.dict {B : Bytes} (k : Nat) (hB : DTransS B) :
    DTransS (b!"<< " ++ B ++ List.replicate k 32 ++ b!">>") := by
  intro text n b h i post hn
  have e1 : tokLoop text ⟨.dict, n, b, h, i⟩
      (b!"<< " ++ B ++ List.replicate k 32 ++ b!">>" ++ post) =
      tokLoop text ⟨.dict, n + 1, b, h, i + 2⟩ ([32] ++ B ++ List.replicate k 32 ++ b!">>" ++ post) := by
    simp only [List.cons_append, List.nil_append, List.append_assoc]
    rw [tokLoop]
    simp [tokStep, startsWith, List.isPrefixOf]
  rw [e1, List.append_assoc]
  rw [DTransS.append (DTransS.append DTransS.space hB) (DTransS.spaces k) text (n + 1) b h (i + 2) _
    (by omega)]
  simp only [List.cons_append, List.nil_append, List.length_append, List.length_cons,
    List.length_nil, List.length_replicate]
  rw [tokLoop]
  have hn0 : ¬ (n = 0) := by omega
  simp [tokStep, startsWith, List.isPrefixOf, hn0]
  congr 2; omega

/-- Text that leaves the ARRAY mode as it found it. -/
def ATrans (w : Bytes) : Prop :=
  ∀ (text : Bytes) (n : Nat) (h i : Nat) (post : Bytes), 1 ≤ n →
    tokLoop text ⟨.array, n, false, h, i⟩ (w ++ post) =
      tokLoop text ⟨.array, n, false, h, i + w.length⟩ post

theorem ATrans.append {a b : Bytes} (ha : ATrans a) (hb : ATrans b) : ATrans (a ++ b) := by
  intro text n h i post hn
  rw [List.append_assoc, ha _ _ _ _ _ hn, hb _ _ _ _ _ hn, List.length_append, Nat.add_assoc]

theorem ATrans.nil : ATrans [] := fun _ _ _ _ _ _ => rfl

theorem ATrans.plain : ∀ {w : Bytes}, (∀ c ∈ w, c ≠ 40 ∧ c ≠ 41 ∧ c ≠ 91 ∧ c ≠ 93) → ATrans w := by
  intro w
  induction w with
  | nil => intro _; exact ATrans.nil
  | cons c w ih =>
    intro hw text n h i post hn
    have hc := hw c (by simp)
    have := ih (fun x hx => hw x (by simp [hx])) text n h (i + 1) post hn
    rw [List.cons_append, tokLoop]
    simp [tokStep, hc.1, hc.2.1, hc.2.2.1, hc.2.2.2, this]
    congr 2; omega

theorem ATrans.spaces (k : Nat) : ATrans (List.replicate k 32) :=
  ATrans.plain (by intro c hc; rw [List.mem_replicate] at hc; rw [hc.2]; decide)

theorem ATrans.space : ATrans [32] := ATrans.spaces 1

theorem scan_array_text (text : Bytes) (n : Nat) (h : Nat) (post : Bytes) :
    ∀ (w : Bytes) (o : Bool) (i : Nat), bracketSafe o w = true →
    tokLoop text ⟨.array, n, o, h, i⟩ (w ++ 41 :: post) =
      tokLoop text ⟨.array, n, false, h, i + w.length + 1⟩ post := by
  intro w
  induction w with
  | nil => intro o i _; simp [tokLoop, tokStep]
  | cons c w ih =>
    intro o i hw
    rw [List.cons_append, tokLoop]
    simp only [bracketSafe] at hw
    by_cases h40 : c = 40
    · simp only [h40, if_true] at hw
      simp [tokStep, h40, ih true (i + 1) hw]
      congr 2; omega
    · by_cases h41 : c = 41
      · simp only [h41] at hw
        simp [tokStep, h41, ih false (i + 1) hw]
        congr 2; omega
      · simp only [h40, h41, if_false, Bool.and_eq_true] at hw
        obtain ⟨hw1, hw2⟩ := hw
        cases o with
        | true =>
          simp [tokStep, h40, h41, ih true (i + 1) hw2]
          congr 2; omega
        | false =>
          simp at hw1
          simp [tokStep, h40, h41, hw1.1, hw1.2, ih false (i + 1) hw2]
          congr 2; omega

theorem bracketSafe_append_paren : ∀ {w : Bytes} {o : Bool}, bracketSafe o (w ++ [41]) = true →
    bracketSafe o w = true := by
  intro w
  induction w with
  | nil => intro o _; rfl
  | cons c w ih =>
    intro o h
    simp only [List.cons_append, bracketSafe] at h ⊢
    split
    · rename_i h40; rw [if_pos h40] at h; exact ih h
    · rename_i h40; rw [if_neg h40] at h
      split
      · rename_i h41; rw [if_pos h41] at h; exact ih h
      · rename_i h41; rw [if_neg h41] at h
        simp only [Bool.and_eq_true] at h ⊢
        exact ⟨h.1, ih h.2⟩

theorem ATrans.array {I : Bytes} (hI : ATrans I) : ATrans (b!"[ " ++ I ++ b!"]") := by
  intro text n h i post hn
  have e1 : tokLoop text ⟨.array, n, false, h, i⟩ (b!"[ " ++ I ++ b!"]" ++ post) =
      tokLoop text ⟨.array, n + 1, false, h, i + 1⟩ ([32] ++ I ++ (b!"]" ++ post)) := by
    simp only [List.cons_append, List.nil_append, List.append_assoc]
    rw [tokLoop]
    simp [tokStep]
  rw [e1, ATrans.append ATrans.space hI text (n + 1) h (i + 1) _ (by omega)]
  simp only [List.cons_append, List.nil_append]
  rw [tokLoop]
  have hn0 : ¬ (n = 0) := by omega
  simp [tokStep, hn0]
  congr 2; omega

theorem tokAt_dict {B : Bytes} (k : Nat) (hB : DTransS B) (post : Bytes) :
    TokAt (b!"<< " ++ B ++ List.replicate k 32 ++ b!">>") post .dict := by
  intro text h i _
  have e1 : tokLoop text ⟨.tbd, 1, false, h, i⟩
      (b!"<< " ++ B ++ List.replicate k 32 ++ b!">>" ++ post) =
      tokLoop text ⟨.dict, 1, false, i, i + 2⟩ ([32] ++ B ++ List.replicate k 32 ++ (b!">>" ++ post)) := by
    simp only [List.cons_append, List.nil_append, List.append_assoc]
    rw [tokLoop]
    simp [tokStep, startsWith, List.isPrefixOf]
    rw [tokLoop]
    simp [tokStep, startsWith, List.isPrefixOf]
  rw [e1]
  rw [DTransS.append (DTransS.append DTransS.space hB) (DTransS.spaces k) text 1 false i (i + 2) _
    (by omega)]
  simp only [List.cons_append, List.nil_append]
  rw [tokLoop]
  simp [tokStep, startsWith, List.isPrefixOf]
  omega

theorem tokAt_array {I : Bytes} (hI : ATrans I) (post : Bytes) :
    TokAt (b!"[ " ++ I ++ b!"]") post .array := by
  intro text h i _
  have e1 : tokLoop text ⟨.tbd, 1, false, h, i⟩ (b!"[ " ++ I ++ b!"]" ++ post) =
      tokLoop text ⟨.array, 1, false, i, i + 1⟩ ([32] ++ I ++ (b!"]" ++ post)) := by
    simp only [List.cons_append, List.nil_append, List.append_assoc]
    rw [tokLoop]
    simp [tokStep, startsWith, List.isPrefixOf]
  rw [e1, ATrans.append ATrans.space hI text 1 i (i + 1) _ (by omega)]
  simp only [List.cons_append, List.nil_append]
  rw [tokLoop]
  simp [tokStep]
  omega

end Pdf
