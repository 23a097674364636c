/-
Serialise, then parse: the result is `norm`, the object with every dictionary reversed.
-/
import Verif.Lemmas.Trans

namespace Pdf
open Spec

mutual
/-- What `serialize` writes for objects it accepts. -/
def ser : Nat → Obj → Bytes
  | depth, .dict d => b!"<< " ++ serEntries depth d ++ List.replicate depth 32 ++ b!">>"
  | _, .list l => b!"[ " ++ serItems l ++ b!"]"
  | _, .bool b => if b then b!"true" else b!"false"
  | _, .int n => intDec n
  | _, .real neg ip frac => realStr neg ip frac
  | _, .str s => s
  | _, .bytes s => s
  | _, .ref g n => intDec n ++ b!" " ++ intDec g ++ b!" R"
  | _, _ => []
def serEntries : Nat → List (Bytes × Obj) → Bytes
  | _, [] => []
  | depth, (k, v) :: d =>
    List.replicate depth 32 ++ k ++ b!" " ++ ser (depth + 1) v ++ b!" " ++ serEntries depth d
def serItems : List Obj → Bytes
  | [] => []
  | o :: l => ser 0 o ++ b!" " ++ serItems l
end

theorem name_ascii {s : Bytes} (h : isName s = true) : isAscii s = true := by
  cases s with
  | nil => simp [isName] at h
  | cons c s =>
    simp only [isName, regular, Bool.and_eq_true, decide_eq_true_eq, List.all_eq_true] at h
    simp only [isAscii, List.all_eq_true, List.mem_cons, decide_eq_true_eq]
    rintro x (rfl | hx)
    · rw [h.1]; decide
    · exact (h.2 x hx).2

theorem keyword_ascii {s : Bytes} (h : isKeyword s = true) : isAscii s = true := by
  cases s with
  | nil => simp [isKeyword] at h
  | cons c s =>
    simp only [isKeyword, regular, Bool.and_eq_true, decide_eq_true_eq, List.all_eq_true] at h
    simp only [isAscii, List.all_eq_true, List.mem_cons, decide_eq_true_eq]
    rintro x (rfl | hx)
    · have := h.1.1.1.1.1
      revert this; clear h; revert x; apply forall_byte; decide +kernel
    · exact (h.1.1.1.1.2 x hx).2

theorem str_ascii {s : Bytes} (h : (isName s || isKeyword s) = true) : isAscii s = true := by
  rw [Bool.or_eq_true] at h
  rcases h with h | h
  · exact name_ascii h
  · exact keyword_ascii h

mutual
theorem serialize_eq : ∀ (o : Obj) (inD inA : Bool) (depth : Nat), WF inD inA o = true →
    serialize depth o = .ok (ser depth o)
  | .null, _, _, _, h => by simp [WF] at h
  | .bool b, _, _, _, _ => by cases b <;> rfl
  | .int _, _, _, _, _ => rfl
  | .real _ ip frac, _, _, _, h => by
    simp only [WF, isDecimal_eq] at h
    simp [serialize, toStr, ser, h]
  | .str s, _, _, _, h => by
    simp only [WF] at h
    simp [serialize, toStr, ser, str_ascii h]
  | .bytes _, _, _, _, _ => rfl
  | .ref _ _, _, _, _, _ => rfl
  | .list l, inD, inA, depth, h => by
    simp only [WF] at h
    rw [serialize, serializeItems_eq l _ _ h]
    rfl
  | .dict d, inD, inA, depth, h => by
    simp only [WF, Bool.and_eq_true] at h
    rw [serialize, serializeEntries_eq d _ _ depth h.1]
    rfl
  | .stream _ _ _, _, _, _, h => by simp [WF] at h
theorem serializeItems_eq : ∀ (l : List Obj) (inD inA : Bool), WFItems inD inA l = true →
    serializeItems l = .ok (serItems l)
  | [], _, _, _ => rfl
  | o :: l, inD, inA, h => by
    simp only [WFItems, Bool.and_eq_true] at h
    rw [serializeItems, serialize_eq o _ _ 0 h.1, serializeItems_eq l _ _ h.2]
    rfl
theorem serializeEntries_eq : ∀ (d : List (Bytes × Obj)) (inD inA : Bool) (depth : Nat),
    WFEntries inD inA d = true → serializeEntries depth d = .ok (serEntries depth d)
  | [], _, _, _, _ => rfl
  | (k, v) :: d, inD, inA, depth, h => by
    simp only [WFEntries, Bool.and_eq_true] at h
    rw [serializeEntries, serialize_eq v _ _ _ h.1.2, serializeEntries_eq d _ _ depth h.2]
    simp only [toStr, name_ascii h.1.1, if_true]
    rfl
end

/-- The characters of names, numbers and keywords. -/
def wordChar (c : UInt8) : Prop := c ≠ 60 ∧ c ≠ 62 ∧ c ≠ 40 ∧ c ≠ 41 ∧ c ≠ 91 ∧ c ≠ 93

theorem wordChar_of_regular {c : UInt8} (h : isBreak c = false ∨ c = 47 ∨ c = 32) : wordChar c := by
  unfold wordChar
  revert c; apply forall_byte; decide +kernel

theorem dtrans_word {w : Bytes} (h : ∀ c ∈ w, wordChar c) : DTrans w :=
  DTrans.of_noDoubleAngle (noDoubleAngle_of_no (fun c hc => ⟨(h c hc).1, (h c hc).2.1⟩))

theorem atrans_word {w : Bytes} (h : ∀ c ∈ w, wordChar c) : ATrans w :=
  ATrans.plain (fun c hc => (h c hc).2.2)

theorem name_word {s : Bytes} (h : isName s = true) : ∀ c ∈ s, wordChar c := by
  cases s with
  | nil => simp [isName] at h
  | cons c s =>
    simp only [isName, Bool.and_eq_true, decide_eq_true_eq, List.all_eq_true] at h
    intro x hx
    rw [List.mem_cons] at hx
    rcases hx with rfl | hx
    · exact wordChar_of_regular (.inr (.inl h.1))
    · exact wordChar_of_regular (.inl (regular_break (h.2 x hx)))

theorem keyword_word {s : Bytes} (h : isKeyword s = true) : ∀ c ∈ s, wordChar c := by
  cases s with
  | nil => simp [isKeyword] at h
  | cons c s =>
    simp only [isKeyword, Bool.and_eq_true, decide_eq_true_eq, List.all_eq_true] at h
    intro x hx
    rw [List.mem_cons] at hx
    rcases hx with rfl | hx
    · have := h.1.1.1.1.1
      unfold wordChar
      clear h
      revert this; revert x; apply forall_byte; decide +kernel
    · exact wordChar_of_regular (.inl (regular_break (h.1.1.1.1.2 x hx)))

theorem digits_word {s : Bytes} (h : s.all isDigit = true) : ∀ c ∈ s, wordChar c := by
  rw [List.all_eq_true] at h
  exact fun c hc => wordChar_of_regular (.inl (digit_facts (h c hc)).2.1)

theorem intDec_word (n : Int) : ∀ c ∈ intDec n, wordChar c := by
  cases n with
  | ofNat n => exact digits_word (natDec_all n)
  | negSucc n =>
    intro c hc
    simp only [intDec, List.mem_cons] at hc
    rcases hc with rfl | hc
    · unfold wordChar; decide
    · exact digits_word (natDec_all _) c hc

theorem real_word (neg : Bool) (ip : Nat) (frac : Bytes) (h : realOk ip frac = true) :
    ∀ c ∈ realStr neg ip frac, wordChar c := by
  obtain ⟨r, h1, -, -, h4⟩ := pyFloat_body neg ip frac h
  rw [h4]
  intro c hc
  simp only [List.mem_append, List.mem_cons] at hc
  rcases hc with hc | hc | rfl | hc
  · cases neg <;> simp at hc; subst hc; unfold wordChar; decide
  · exact digits_word (natDec_all _) c hc
  · unfold wordChar; decide
  · exact digits_word h1 c hc

theorem ref_word (n g : Int) : ∀ c ∈ intDec n ++ b!" " ++ intDec g ++ b!" R", wordChar c := by
  intro c hc
  simp only [List.mem_append] at hc
  rcases hc with ((hc | hc) | hc) | hc
  · exact intDec_word n c hc
  · simp at hc; subst hc; unfold wordChar; decide
  · exact intDec_word g c hc
  · simp at hc; rcases hc with rfl | rfl <;> (unfold wordChar; decide)

theorem hex_chars {s : Bytes} (hs : isHexString s = true) :
    ∃ body, s = 60 :: (body ++ [62]) ∧ ∀ c ∈ body, wordChar c := by
  unfold isHexString at hs
  split at hs
  · rename_i rest
    simp only [Bool.and_eq_true, decide_eq_true_eq] at hs
    obtain ⟨h1, h2⟩ := hs
    refine ⟨rest.dropLast, by rw [← getLast?_append_dropLast h1], ?_⟩
    rw [List.all_eq_true] at h2
    intro x hx
    have := h2 x hx
    unfold wordChar
    revert this; clear hx; revert x; apply forall_byte; decide +kernel
  · simp at hs

theorem hex_noDouble {body : Bytes} (h : ∀ c ∈ body, wordChar c) :
    noDoubleAngle (60 :: (body ++ [62])) = true := by
  have key : ∀ (b : Bytes), (∀ c ∈ b, wordChar c) → noDoubleAngle (b ++ [62]) = true := by
    intro b
    induction b with
    | nil => intro _; rfl
    | cons x b ih =>
      intro hb
      have hx := hb x (by simp)
      have := ih (fun c hc => hb c (by simp [hc]))
      cases b with
      | nil => simp [noDoubleAngle, hx.1, hx.2.1]
      | cons y b =>
        simp only [List.cons_append, noDoubleAngle, Bool.and_eq_true] at this ⊢
        exact ⟨⟨by simp [hx.1], by simp [hx.2.1]⟩, this⟩
  cases body with
  | nil => rfl
  | cons x b =>
    have := key (x :: b) h
    simp only [List.cons_append, noDoubleAngle, Bool.and_eq_true]
    exact ⟨⟨by simp [(h x (by simp)).1], by simp⟩, this⟩

theorem literal_shape {s : Bytes} (hs : isLiteral s = true) : ∃ body, s = 40 :: (body ++ [41]) := by
  unfold isLiteral at hs
  split at hs
  · rename_i rest
    simp only [Bool.and_eq_true, decide_eq_true_eq] at hs
    exact ⟨rest.dropLast, by rw [← getLast?_append_dropLast hs.1]⟩
  · simp at hs

mutual
theorem ser_dtrans : ∀ (o : Obj) (inA : Bool) (depth : Nat), WF true inA o = true →
    DTrans (ser depth o)
  | .null, _, _, h => by simp [WF] at h
  | .bool b, _, _, _ => by cases b <;> exact DTrans.of_noDoubleAngle rfl
  | .int n, _, _, _ => dtrans_word (intDec_word n)
  | .real neg ip frac, _, _, h => by
    simp only [WF, isDecimal_eq] at h
    exact dtrans_word (real_word neg ip frac h)
  | .str s, _, _, h => by
    simp only [WF, Bool.or_eq_true] at h
    rcases h with h | h
    · exact dtrans_word (name_word h)
    · exact dtrans_word (keyword_word h)
  | .bytes s, _, _, h => by
    simp only [WF, Bool.or_eq_true, Bool.and_eq_true, Bool.not_true, Bool.false_eq_true,
      false_or] at h
    rcases h with ⟨⟨_, h⟩, _⟩ | h
    · exact DTrans.of_noDoubleAngle h
    · obtain ⟨body, rfl, hb⟩ := hex_chars h
      exact DTrans.of_noDoubleAngle (hex_noDouble hb)
  | .ref g n, _, _, _ => dtrans_word (ref_word n g)
  | .list l, inA, depth, h => by
    simp only [WF] at h
    have h1 := serItems_dtrans l _ h
    have h2 : DTransS (b!"[ " ++ serItems l) :=
      DTransS.append (DTrans.append_space (w := [91]) (DTrans.of_noDoubleAngle rfl)) h1
    intro text n b h' i post hn
    simp only [ser]
    rw [List.append_assoc, h2 _ _ _ _ _ _ hn]
    rw [(DTrans.of_noDoubleAngle (w := b!"]") rfl) text n b h' _ post hn]
    simp [Nat.add_assoc]
  | .dict d, inA, depth, h => by
    simp only [WF, Bool.and_eq_true] at h
    exact (DTrans.dict depth (serEntries_dtrans d _ depth h.1)).toDTrans
  | .stream _ _ _, _, _, h => by simp [WF] at h
theorem serItems_dtrans : ∀ (l : List Obj) (inA : Bool), WFItems true inA l = true →
    DTransS (serItems l)
  | [], _, _ => DTransS.nil
  | o :: l, inA, h => by
    simp only [WFItems, Bool.and_eq_true] at h
    exact DTransS.append (DTrans.append_space (ser_dtrans o _ 0 h.1)) (serItems_dtrans l _ h.2)
theorem serEntries_dtrans : ∀ (d : List (Bytes × Obj)) (inA : Bool) (depth : Nat),
    WFEntries true inA d = true → DTransS (serEntries depth d)
  | [], _, _, _ => DTransS.nil
  | (k, v) :: d, inA, depth, h => by
    simp only [WFEntries, Bool.and_eq_true] at h
    have hk := DTrans.append_space (dtrans_word (name_word h.1.1))
    have hv := DTrans.append_space (ser_dtrans v _ (depth + 1) h.1.2)
    have := DTransS.append (DTransS.append (DTransS.append (DTransS.spaces depth) hk) hv)
      (serEntries_dtrans d _ depth h.2)
    simpa [serEntries] using this
end

mutual
theorem ser_atrans : ∀ (o : Obj) (inD : Bool) (depth : Nat), WF inD true o = true →
    ATrans (ser depth o)
  | .null, _, _, h => by simp [WF] at h
  | .bool b, _, _, _ => by 
    cases b
    · exact ATrans.plain (w := b!"false") (by decide)
    · exact ATrans.plain (w := b!"true") (by decide)
  | .int n, _, _, _ => atrans_word (intDec_word n)
  | .real neg ip frac, _, _, h => by
    simp only [WF, isDecimal_eq] at h
    exact atrans_word (real_word neg ip frac h)
  | .str s, _, _, h => by
    simp only [WF, Bool.or_eq_true] at h
    rcases h with h | h
    · exact atrans_word (name_word h)
    · exact atrans_word (keyword_word h)
  | .bytes s, _, _, h => by
    simp only [WF, Bool.or_eq_true, Bool.and_eq_true, Bool.not_true, Bool.false_eq_true,
      false_or] at h
    rcases h with ⟨⟨hl, _⟩, h⟩ | h
    · obtain ⟨body, rfl⟩ := literal_shape hl
      intro text n h' i post _
      have h2 : bracketSafe false (40 :: body) = true := bracketSafe_append_paren h
      have := scan_array_text text n h' post (40 :: body) false i h2
      simp only [ser]
      rw [show 40 :: (body ++ [41]) ++ post = (40 :: body) ++ 41 :: post by simp, this]
      simp [Nat.add_assoc]
    · obtain ⟨body, rfl, hb⟩ := hex_chars h
      refine ATrans.plain ?_
      intro c hc
      simp only [ser, List.mem_cons, List.mem_append, List.not_mem_nil, or_false] at hc
      rcases hc with rfl | hc | rfl
      · decide
      · exact (hb c hc).2.2
      · decide
  | .ref g n, _, _, _ => atrans_word (ref_word n g)
  | .list l, inD, depth, h => by
    simp only [WF] at h
    exact ATrans.array (serItems_atrans l _ h)
  | .dict d, inD, depth, h => by
    simp only [WF, Bool.and_eq_true] at h
    have h1 := serEntries_atrans d _ depth h.1
    exact ATrans.append (ATrans.append (ATrans.append (ATrans.plain (by decide)) h1)
      (ATrans.spaces depth)) (ATrans.plain (by decide))
  | .stream _ _ _, _, _, h => by simp [WF] at h
theorem serItems_atrans : ∀ (l : List Obj) (inD : Bool), WFItems inD true l = true →
    ATrans (serItems l)
  | [], _, _ => ATrans.nil
  | o :: l, inD, h => by
    simp only [WFItems, Bool.and_eq_true] at h
    exact ATrans.append (ATrans.append (ser_atrans o _ 0 h.1) ATrans.space)
      (serItems_atrans l _ h.2)
theorem serEntries_atrans : ∀ (d : List (Bytes × Obj)) (inD : Bool) (depth : Nat),
    WFEntries inD true d = true → ATrans (serEntries depth d)
  | [], _, _, _ => ATrans.nil
  | (k, v) :: d, inD, depth, h => by
    simp only [WFEntries, Bool.and_eq_true] at h
    exact ATrans.append (ATrans.append (ATrans.append (ATrans.append (ATrans.append
      (ATrans.spaces depth) (atrans_word (name_word h.1.1))) ATrans.space)
      (ser_atrans v _ (depth + 1) h.1.2)) ATrans.space) (serEntries_atrans d _ depth h.2)
end

mutual
/-- The object read back: every dictionary has its entries in reverse order. -/
def norm : Obj → Obj
  | .list l => .list (normItems l)
  | .dict d => .dict (normEntries d).reverse
  | o => o
def normItems : List Obj → List Obj
  | [] => []
  | o :: l => norm o :: normItems l
def normEntries : List (Bytes × Obj) → List (Bytes × Obj)
  | [] => []
  | (k, v) :: d => (k, norm v) :: normEntries d
end

/-- The item tokens of a value: three for a reference. -/
def flat : Obj → List Obj
  | .ref _ n => [.int n, .int 0, .str b!"R"]
  | o => [norm o]

def flatItems : List Obj → List Obj
  | [] => []
  | o :: l => flat o ++ flatItems l

def flatEntries : List (Bytes × Obj) → List Obj
  | [] => []
  | (k, v) :: d => .str k :: (flat v ++ flatEntries d)

theorem norm_ne_R {o : Obj} {inD inA : Bool} (h : WF inD inA o = true) : norm o ≠ .str b!"R" := by
  cases o <;> simp [norm]
  rename_i s
  intro hs
  subst hs
  revert h
  simp only [WF]
  decide

/-- The second token of a sequence of items is never the keyword `R`. -/
theorem flatItems_second {l : List Obj} {inD inA : Bool} (h : WFItems inD inA l = true) :
    ∀ a b r, flatItems l = a :: b :: r → b ≠ .str b!"R" := by
  intro a b r e
  cases l with
  | nil => simp [flatItems] at e
  | cons o l =>
    simp only [WFItems, Bool.and_eq_true] at h
    by_cases ho : ∃ g n, o = .ref g n
    · obtain ⟨g, n, rfl⟩ := ho
      simp [flatItems, flat] at e
      rw [← e.2.1]; simp
    · have hf : flat o = [norm o] := by
        cases o <;> first | rfl | (exact absurd ⟨_, _, rfl⟩ ho)
      simp only [flatItems, hf, List.cons_append, List.nil_append, List.cons.injEq] at e
      obtain ⟨-, e⟩ := e
      cases l with
      | nil => simp [flatItems] at e
      | cons o' l =>
        simp only [WFItems, Bool.and_eq_true] at h
        by_cases ho' : ∃ g n, o' = .ref g n
        · obtain ⟨g, n, rfl⟩ := ho'
          simp [flatItems, flat] at e
          rw [← e.1]; simp
        · have hf' : flat o' = [norm o'] := by
            cases o' <;> first | rfl | (exact absurd ⟨_, _, rfl⟩ ho')
          simp only [flatItems, hf', List.cons_append, List.nil_append, List.cons.injEq] at e
          rw [← e.1]
          exact norm_ne_R h.2.1

theorem replaceRef_flatItems : ∀ (l : List Obj) (inD inA : Bool), WFItems inD inA l = true →
    replaceRef (flatItems l) = .ok (normItems l) := by
  intro l
  induction l with
  | nil => intro _ _ _; rfl
  | cons o l ih =>
    intro inD inA h
    have h0 := h
    simp only [WFItems, Bool.and_eq_true] at h
    have ih := ih _ _ h.2
    by_cases ho : ∃ g n, o = .ref g n
    · obtain ⟨g, n, rfl⟩ := ho
      have hw := h.1
      simp only [WF, Bool.and_eq_true, decide_eq_true_eq] at hw
      simp only [flatItems, flat, List.cons_append, List.nil_append, replaceRef, if_true, complexOf,
        maxExact, hw.2, ih, normItems, norm, hw.1]
      rfl
    · have hf : flat o = [norm o] := by
        cases o <;> first | rfl | (exact absurd ⟨_, _, rfl⟩ ho)
      simp only [flatItems, hf, List.cons_append, List.nil_append, normItems]
      have hsec := flatItems_second h.2
      cases hfl : flatItems l with
      | nil => rw [hfl] at ih; simp [replaceRef] at ih; simp [replaceRef, ← ih]
      | cons b r =>
        cases r with
        | nil => rw [hfl] at ih; simp [replaceRef] at ih; simp [replaceRef, ← ih]
        | cons c r =>
          have hc := hsec b c r hfl
          rw [replaceRef, if_neg hc, ← hfl, ih]
          rfl

/-- Keys and values alternating. -/
def interleave : List (Bytes × Obj) → List Obj
  | [] => []
  | (k, v) :: d => .str k :: v :: interleave d

theorem flatEntries_eq : ∀ d : List (Bytes × Obj), flatEntries d = flatItems (interleave d)
  | [] => rfl
  | (k, v) :: d => by
    simp only [flatEntries, interleave, flatItems, flatEntries_eq d]
    rfl

theorem WFItems_interleave : ∀ (d : List (Bytes × Obj)) (inD inA : Bool),
    WFEntries inD inA d = true → WFItems inD inA (interleave d) = true
  | [], _, _, _ => rfl
  | (k, v) :: d, inD, inA, h => by
    simp only [WFEntries, Bool.and_eq_true] at h
    simp only [interleave, WFItems, Bool.and_eq_true, WF, Bool.or_eq_true]
    exact ⟨.inl h.1.1, h.1.2, WFItems_interleave d _ _ h.2⟩

theorem normItems_interleave : ∀ d : List (Bytes × Obj),
    normItems (interleave d) = interleave (normEntries d)
  | [] => rfl
  | (k, v) :: d => by simp [interleave, normItems, normEntries, norm, normItems_interleave d]

theorem interleave_append (a b : List (Bytes × Obj)) :
    interleave (a ++ b) = interleave a ++ interleave b := by
  induction a with
  | nil => rfl
  | cons p a ih => obtain ⟨k, v⟩ := p; simp [interleave, ih]

theorem Dict.set_new {d : Dict} {k : Bytes} {v : Obj} (h : k ∉ d.map Prod.fst) :
    Dict.set d k v = d ++ [(k, v)] := by
  induction d with
  | nil => rfl
  | cons p d ih =>
    obtain ⟨k', v'⟩ := p
    simp at h
    simp [Dict.set, Ne.symm h.1]
    exact ih (by simpa using h.2)

theorem pairUp_interleave : ∀ (d acc : List (Bytes × Obj)),
    ((acc ++ d).map Prod.fst).Nodup →
    pairUp acc (interleave d.reverse).reverse = .ok (acc ++ d) := by
  intro d
  induction d with
  | nil => intro acc _; simp [interleave, pairUp]
  | cons p d ih =>
    intro acc hnd
    obtain ⟨k, v⟩ := p
    rw [List.reverse_cons, interleave_append, List.reverse_append]
    simp only [interleave, List.reverse_cons, List.reverse_nil, List.nil_append, List.cons_append]
    rw [pairUp]
    have hk : k ∉ acc.map Prod.fst := by
      simp only [List.map_append, List.map_cons] at hnd
      intro hmem
      have := (List.nodup_append.1 hnd).2.2 k hmem k (by simp)
      exact this rfl
    simp only [setKey, Dict.set_new hk]
    have := ih (acc ++ [(k, v)]) (by simpa using hnd)
    simp only [List.append_assoc, List.cons_append, List.nil_append] at this
    exact this

theorem normEntries_keys : ∀ d : List (Bytes × Obj),
    (normEntries d).map Prod.fst = d.map Prod.fst
  | [] => rfl
  | (k, v) :: d => by simp [normEntries, normEntries_keys d]

theorem normEntries_length : ∀ d : List (Bytes × Obj), (normEntries d).length = d.length
  | [] => rfl
  | (k, v) :: d => by simp [normEntries, normEntries_length d]

theorem pairUp_entries (d : List (Bytes × Obj)) (h : (d.map Prod.fst).Nodup) :
    pairUp [] (interleave (normEntries d)).reverse = .ok (normEntries d).reverse := by
  have := pairUp_interleave (normEntries d).reverse [] (by
    simp only [List.nil_append, List.map_reverse, normEntries_keys]
    exact (List.reverse_perm _).nodup_iff.2 h)
  simpa using this

/-- The token type of a value that is not a reference. -/
def tokType : Obj → TokT
  | .bool b => if b then .true else .false
  | .int _ => .integer
  | .real _ _ _ => .real
  | .str s => if isName s then .name else .keyword
  | .bytes _ => .string
  | .list _ => .array
  | .dict _ => .dict
  | _ => .keyword

theorem tokAt_obj {o : Obj} {inD inA : Bool} (h : WF inD inA o = true) (hr : ∀ g n, o ≠ .ref g n)
    (depth : Nat) {c : UInt8} (hc : isBreak c = true) (post : Bytes) :
    TokAt (ser depth o) (c :: post) (tokType o) := by
  cases o with
  | null => simp [WF] at h
  | bool b =>
    cases b
    · exact tokAt_false hc post
    · exact tokAt_true hc post
  | int n => exact tokAt_int n hc post
  | real neg ip frac =>
    simp only [WF, isDecimal_eq] at h
    exact tokAt_real neg ip frac h hc post
  | str s =>
    simp only [WF] at h
    simp only [tokType]
    by_cases hn : isName s = true
    · rw [if_pos hn]; exact tokAt_name hn hc post
    · rw [if_neg hn]
      simp only [hn, Bool.false_or] at h
      exact tokAt_keyword h hc post
  | bytes s =>
    simp only [WF, Bool.or_eq_true, Bool.and_eq_true] at h
    rcases h with ⟨⟨h, _⟩, _⟩ | h
    · exact tokAt_literal h _
    · exact tokAt_hex h _
  | ref g n => exact absurd rfl (hr g n)
  | list l =>
    simp only [WF] at h
    exact tokAt_array (serItems_atrans l _ h) _
  | dict d =>
    simp only [WF, Bool.and_eq_true] at h
    exact tokAt_dict depth (serEntries_dtrans d _ depth h.1) _
  | stream _ _ _ => simp [WF] at h

/-- Containers and strings need nothing after them. -/
theorem tokAt_container {o : Obj} {inD inA : Bool} (h : WF inD inA o = true)
    (hc : (∃ l, o = .list l) ∨ (∃ d, o = .dict d) ∨ (∃ s, o = .bytes s)) (depth : Nat) (post : Bytes) :
    TokAt (ser depth o) post (tokType o) := by
  rcases hc with ⟨l, rfl⟩ | ⟨d, rfl⟩ | ⟨s, rfl⟩
  · simp only [WF] at h
    exact tokAt_array (serItems_atrans l _ h) _
  · simp only [WF, Bool.and_eq_true] at h
    exact tokAt_dict depth (serEntries_dtrans d _ depth h.1) _
  · simp only [WF, Bool.or_eq_true, Bool.and_eq_true] at h
    rcases h with ⟨⟨h, _⟩, _⟩ | h
    · exact tokAt_literal h _
    · exact tokAt_hex h _

end Pdf
