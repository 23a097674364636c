/-
The texts of objects (`Spec/Spelling.lean`) in the DICT and ARRAY scanning modes.
-/
import Verif.Spec.Spelling
import Verif.Lemmas.RoundTrip2

namespace Pdf
open Spec

theorem dscan_of (c : UInt8) : ∀ {w : Bytes}, noDoubleAngle (w ++ [c]) = true →
    ∀ (text : Bytes) (n : Nat) (b : Bool) (h i : Nat) (post : Bytes), 1 ≤ n →
    tokLoop text ⟨.dict, n, b, h, i⟩ (w ++ c :: post) =
      tokLoop text ⟨.dict, n, b, h, i + w.length⟩ (c :: post) := by
  intro w
  induction w with
  | nil => intro _ text n b h i post hn; rfl
  | cons x w ih =>
    intro hw text n b h i post hn
    have hlt : startsWith b!"<<" (x :: (w ++ c :: post)) = false ∧
        startsWith b!">>" (x :: (w ++ c :: post)) = false ∧ noDoubleAngle (w ++ [c]) = true := by
      obtain ⟨d, r, hdr⟩ : ∃ d r, w ++ [c] = d :: r := by
        cases w with
        | nil => exact ⟨_, _, rfl⟩
        | cons y w => exact ⟨_, _, rfl⟩
      have hdr2 : w ++ c :: post = d :: (r ++ post) := by
        rw [show w ++ c :: post = (w ++ [c]) ++ post by simp, hdr]; rfl
      rw [List.cons_append, hdr] at hw
      simp only [noDoubleAngle, Bool.and_eq_true, Bool.not_eq_true', Bool.and_eq_false_imp,
        decide_eq_true_eq, decide_eq_false_iff_not] at hw
      rw [hdr2, hdr]
      refine ⟨?_, ?_, hw.2⟩
      · simp only [startsWith, List.isPrefixOf, Bool.and_true,
          Bool.and_eq_false_imp, beq_iff_eq, beq_eq_false_iff_ne]
        intro h1 h2; exact hw.1.1 h1.symm h2.symm
      · simp only [startsWith, List.isPrefixOf, Bool.and_true,
          Bool.and_eq_false_imp, beq_iff_eq, beq_eq_false_iff_ne]
        intro h1 h2; exact hw.1.2 h1.symm h2.symm
    rw [List.cons_append, tokLoop]
    simp only [tokStep, hlt.1, hlt.2.1]
    have := ih hlt.2.2 text n b h (i + 1) post hn
    simp only [Bool.false_eq_true, if_false, this, List.length_cons]
    rw [show i + 1 + w.length = i + (w.length + 1) by omega]

theorem dscan_one {c : UInt8} (h1 : c ≠ 60) (h2 : c ≠ 62) : DTransS [c] := by
  intro text n b h i post hn
  rw [List.cons_append, tokLoop]
  simp only [tokStep, startsWith_ne h1, startsWith_ne h2]
  simp

/-- No double angle inside and no angle at the end. -/
theorem dtransS_of {w : Bytes} {c : UInt8} (hw : noDoubleAngle (w ++ [c]) = true) (h1 : c ≠ 60) (h2 : c ≠ 62) :
    DTransS (w ++ [c]) := by
  intro text n b h i post hn
  rw [List.append_assoc, List.cons_append, dscan_of c hw _ _ _ _ _ _ hn]
  have := dscan_one h1 h2 text n b h (i + w.length) post hn
  simp only [List.cons_append, List.nil_append] at this ⊢
  rw [this]
  simp [Nat.add_assoc]

theorem dtransS_no {w : Bytes} (h : ∀ c ∈ w, c ≠ 60 ∧ c ≠ 62) : DTransS w := by
  induction w with
  | nil => exact DTransS.nil
  | cons c w ih =>
    exact DTransS.append (dscan_one (h c (by simp)).1 (h c (by simp)).2) (ih (fun x hx => h x (by simp [hx])))

theorem dtransS_word {w : Bytes} (h : ∀ c ∈ w, wordChar c) : DTransS w :=
  dtransS_no (fun c hc => ⟨(h c hc).1, (h c hc).2.1⟩)

/-- Text that ends with `>` and that leaves the DICT mode as it found it up to that `>`. -/
def DPend (w : Bytes) : Prop :=
  ∃ a, w = a ++ [62] ∧ ∀ (text : Bytes) (n : Nat) (b : Bool) (h i : Nat) (post : Bytes), 1 ≤ n →
    tokLoop text ⟨.dict, n, b, h, i⟩ (a ++ 62 :: post) =
      tokLoop text ⟨.dict, n, b, h, i + a.length⟩ (62 :: post)

def DPass (w : Bytes) : Prop := DTransS w ∨ DPend w

theorem dscan_close (text : Bytes) (n : Nat) (b : Bool) (h i : Nat) (post : Bytes) (hp : post.head? ≠ some 62) :
    tokLoop text ⟨.dict, n, b, h, i⟩ (62 :: post) = tokLoop text ⟨.dict, n, b, h, i + 1⟩ post := by
  rw [tokLoop]
  have : startsWith b!">>" (62 :: post) = false := by
    cases post with
    | nil => rfl
    | cons c post =>
      simp only [List.head?_cons, ne_eq, Option.some.injEq] at hp
      simp [startsWith, List.isPrefixOf, Ne.symm hp]
  simp only [tokStep, this, startsWith_ne (c := 62) (a := 60) (by decide)]
  simp

theorem DPass.scan {w : Bytes} (hw : DPass w) (text : Bytes) (n : Nat) (b : Bool) (h i : Nat) (post : Bytes) (hn : 1 ≤ n)
    (hp : post.head? ≠ some 62) : tokLoop text ⟨.dict, n, b, h, i⟩ (w ++ post) =
      tokLoop text ⟨.dict, n, b, h, i + w.length⟩ post := by
  rcases hw with hw | ⟨a, rfl, hw⟩
  · exact hw _ _ _ _ _ _ hn
  · rw [List.append_assoc, List.cons_append, hw _ _ _ _ _ _ hn]
    simp only [List.nil_append]
    rw [dscan_close _ _ _ _ _ _ hp]
    simp [Nat.add_assoc]

theorem DPass.append {a b : Bytes} (ha : DPass a) (hb : DPass b) (h : b.head? ≠ some 62) : DPass (a ++ b) := by
  by_cases hb0 : b = []
  · subst hb0; rwa [List.append_nil]
  have hh : ∀ post : Bytes, (b ++ post).head? ≠ some 62 := by
    intro post
    cases b with
    | nil => exact absurd rfl hb0
    | cons x b => simpa using h
  rcases hb with hb | ⟨b', rfl, hb⟩
  · left
    intro text n bb h' i post hn
    rw [List.append_assoc, ha.scan _ _ _ _ _ _ hn (hh post), hb _ _ _ _ _ _ hn, List.length_append, Nat.add_assoc]
  · right
    refine ⟨a ++ b', by simp, ?_⟩
    intro text n bb h' i post hn
    have := hh post
    rw [List.append_assoc, List.cons_append, List.nil_append] at this
    rw [List.append_assoc, ha.scan _ _ _ _ _ _ hn this, hb _ _ _ _ _ _ hn, List.length_append, Nat.add_assoc]

theorem DPass.closed {w : Bytes} {c : UInt8} (hw : DPass w) (h1 : c ≠ 60) (h2 : c ≠ 62) : DTransS (w ++ [c]) := by
  intro text n b h i post hn
  rw [List.append_assoc, hw.scan _ _ _ _ _ _ hn (by simpa using h2), dscan_one h1 h2 _ _ _ _ _ _ hn]
  simp [Nat.add_assoc]

theorem dscan_open (text : Bytes) (n : Nat) (b : Bool) (h i : Nat) (post : Bytes) :
    tokLoop text ⟨.dict, n, b, h, i⟩ (b!"<<" ++ post) = tokLoop text ⟨.dict, n + 1, b, h, i + 2⟩ post := by
  simp only [List.cons_append, List.nil_append]
  rw [tokLoop]
  simp [tokStep, startsWith, List.isPrefixOf]

theorem dscan_closing (text : Bytes) (n : Nat) (b : Bool) (h i : Nat) (post : Bytes) (hn : 1 ≤ n) :
    tokLoop text ⟨.dict, n + 1, b, h, i⟩ (62 :: 62 :: post) = tokLoop text ⟨.dict, n, b, h, i + 2⟩ post := by
  rw [tokLoop]
  have hn0 : ¬ (n = 0) := by omega
  simp [tokStep, startsWith, List.isPrefixOf, hn0]

theorem DPass.dict {t : Bytes} (ht : DPass t) : DPass (b!"<<" ++ (t ++ b!">>")) := by
  rcases ht with ht | ⟨a, rfl, ht⟩
  · left
    intro text n b h i post hn
    rw [List.append_assoc, dscan_open, List.append_assoc, ht _ _ _ _ _ _ (by omega)]
    simp only [List.cons_append, List.nil_append]
    rw [dscan_closing _ _ _ _ _ _ hn]
    simp [Nat.add_assoc]; congr 2; omega
  · right
    refine ⟨b!"<<" ++ (a ++ b!">>"), by simp, ?_⟩
    intro text n b h i post hn
    rw [List.append_assoc, dscan_open, List.append_assoc]
    simp only [List.cons_append, List.nil_append]
    rw [ht _ _ _ _ _ _ (by omega), dscan_closing _ _ _ _ _ _ hn]
    simp [Nat.add_assoc]; congr 2; omega

theorem hex_pend {s : Bytes} (hs : isHexString s = true) : DPend s := by
  obtain ⟨body, rfl, hb⟩ := hex_chars hs
  refine ⟨60 :: body, rfl, ?_⟩
  exact dscan_of 62 (w := 60 :: body) (hex_noDouble hb)

/-! ### Gaps -/

theorem isSpace_of_white {c : UInt8} (h : c ∈ white) : isSpace c = true := by
  revert c; apply forall_byte; decide +kernel

theorem isBreak_of_ends {c : UInt8} (h : Ends c) : isBreak c = true := by
  unfold Ends at h
  revert c; apply forall_byte; decide +kernel

theorem noDouble_snoc {b : Bytes} {e : UInt8} (h : noDoubleAngle b = true) (h1 : e ≠ 60) (h2 : e ≠ 62) :
    noDoubleAngle (b ++ [e]) = true := by
  induction b with
  | nil => rfl
  | cons x b ih =>
    cases b with
    | nil => simp [noDoubleAngle, h1, h2]
    | cons y b =>
      simp only [List.cons_append, noDoubleAngle, Bool.and_eq_true] at h ih ⊢
      exact ⟨h.1, ih h.2⟩

theorem gap_dtrans {inA : Bool} {g : Bytes} (h : Gap true inA g) : DTransS g := by
  induction h with
  | nil => exact DTransS.nil
  | @white c g hc _ ih =>
    have := isSpace_facts (isSpace_of_white hc)
    exact DTransS.append (dscan_one this.2.2.1 this.2.1) ih
  | @comment body g e h1 h2 h3 he _ ih =>
    have e1 : e ≠ 60 ∧ e ≠ 62 := by rcases he with rfl | rfl <;> decide
    have := dtransS_of (noDouble_snoc (h2 rfl) e1.1 e1.2) e1.1 e1.2
    have := DTransS.append (DTransS.append (dscan_one (c := 37) (by decide) (by decide)) this) ih
    simpa using this

theorem gap_atrans {inD : Bool} {g : Bytes} (h : Gap inD true g) : ATrans g := by
  induction h with
  | nil => exact ATrans.nil
  | @white c g hc _ ih =>
    refine ATrans.append (a := [c]) (ATrans.plain ?_) ih
    intro x hx
    rw [List.mem_singleton] at hx
    subst hx
    revert hc; revert x; apply forall_byte; decide +kernel
  | @comment body g e h1 h2 h3 he _ ih =>
    have hp : ATrans (37 :: (body ++ [e])) := by
      refine ATrans.plain ?_
      intro c hc
      simp only [List.mem_cons, List.mem_append, List.not_mem_nil, or_false] at hc
      rcases hc with rfl | hc | rfl
      · decide
      · have := h3 rfl c hc
        simp at this
        exact ⟨this.1, this.2.1, this.2.2.1, this.2.2.2⟩
      · rcases he with rfl | rfl <;> decide
    have := ATrans.append hp ih
    simpa using this

theorem gap_head {inD inA : Bool} {g : Bytes} (h : Gap inD inA g) : g = [] ∨ ∃ c r, g = c :: r ∧ (c = 37 ∨ isSpace c = true) := by
  cases h with
  | nil => exact .inl rfl
  | white hc _ => exact .inr ⟨_, _, rfl, .inr (isSpace_of_white hc)⟩
  | comment _ _ _ _ _ => exact .inr ⟨_, _, rfl, .inl rfl⟩

theorem gap_break {inD inA : Bool} {g : Bytes} (h : Gap inD inA g) (hg : g ≠ []) : ∃ c r, g = c :: r ∧ isBreak c = true ∧ c ≠ 62 := by
  rcases gap_head h with h | ⟨c, r, rfl, rfl | h⟩
  · exact absurd h hg
  · exact ⟨_, _, rfl, by decide, by decide⟩
  · exact ⟨_, _, rfl, by simp [isBreak, h], (isSpace_facts h).2.1⟩

theorem head_append {a b : Bytes} (ha : a.head? ≠ some 62) (hb : a = [] → b.head? ≠ some 62) : (a ++ b).head? ≠ some 62 := by
  cases a with
  | nil => exact hb rfl
  | cons x a => simpa using ha

/-! ### Numbers -/

theorem digits_all {ds : Bytes} (h : Digits ds) : ds.all isDigit = true := by
  rw [List.all_eq_true]; exact fun c hc => (isDigit_iff c).2 (h c hc)

theorem digitsVal_acc : ∀ (ds : Bytes) (acc : Nat), ds.all isDigit = true →
    digitsVal acc ds = some (ds.foldl (fun a c => 10 * a + (c.toNat - 48)) acc) := by
  intro ds
  induction ds with
  | nil => intro acc _; rfl
  | cons c ds ih =>
    intro acc h
    rw [List.all_cons, Bool.and_eq_true] at h
    rw [digitsVal_digit h.1, ih _ h.2, List.foldl_cons, Nat.mul_comm acc]

theorem digitsVal_numVal {ds : Bytes} (h : Digits ds) : digitsVal 0 ds = some (numVal ds) :=
  digitsVal_acc ds 0 (digits_all h)

theorem sign_shape {sg : Bytes} {neg : Bool} (h : Sign sg neg) : ∀ c ∈ sg, c = 43 ∨ c = 45 := by
  cases h <;> simp

theorem int_word {s : Bytes} {n : Int} (h : IntText s n) : ∀ c ∈ s, wordChar c := by
  obtain ⟨sg, neg, ds, rfl, hs, hd, _, _⟩ := h
  intro c hc
  rw [List.mem_append] at hc
  rcases hc with hc | hc
  · rcases sign_shape hs c hc with rfl | rfl <;> (unfold wordChar; decide)
  · exact digits_word (digits_all hd) c hc

theorem real_text_word {s : Bytes} {neg : Bool} {ip : Nat} {frac : Bytes} (h : RealText s neg ip frac) : ∀ c ∈ s, wordChar c := by
  obtain ⟨sg, ids, fds, k, rfl, hs, hi, hf, _⟩ := h
  intro c hc
  simp only [List.mem_append, List.mem_singleton] at hc
  rcases hc with ((hc | hc) | rfl) | hc
  · rcases sign_shape hs c hc with rfl | rfl <;> (unfold wordChar; decide)
  · exact digits_word (digits_all hi) c hc
  · unfold wordChar; decide
  · exact digits_word (digits_all hf) c hc

theorem tokAt_intText {s : Bytes} {n : Int} (h : IntText s n) {c : UInt8} (hc : isBreak c = true) (post : Bytes) :
    TokAt s (c :: post) .integer := by
  obtain ⟨sg, neg, ds, rfl, hs, hd, hne, _⟩ := h
  have key : ∀ (x : UInt8) (s : Bytes), isNumStart x = true → x ≠ 46 → s.all isDigit = true →
      TokAt (x :: s) (c :: post) .integer := by
    intro x s hx hx2 hs
    rw [List.all_eq_true] at hs
    have := tokAt_value hx (fun y hy => (digit_facts (hs y hy)).2.1) hc post
    have hno : (x :: s).contains 46 = false := by
      rw [← Bool.not_eq_true, List.contains_iff_mem, List.mem_cons, not_or]
      exact ⟨Ne.symm hx2, fun hm => (digit_facts (hs _ hm)).2.2 rfl⟩
    rwa [hno] at this
  have hall := digits_all hd
  cases hs with
  | none =>
    cases ds with
    | nil => exact absurd rfl hne
    | cons x ds =>
      rw [List.all_cons, Bool.and_eq_true] at hall
      have := digit_facts hall.1
      exact key x ds this.1 this.2.2 hall.2
  | plus => exact key 43 ds (by decide) (by decide) hall
  | minus => exact key 45 ds (by decide) (by decide) hall

theorem pyInt_intText {s : Bytes} {n : Int} (h : IntText s n) : pyInt s = some n := by
  obtain ⟨sg, neg, ds, rfl, hs, hd, hne, rfl⟩ := h
  have hall := digits_all hd
  have hv := digitsVal_numVal hd
  have hsp := all_digit_not_space hall
  have hn : pyNat ds = some (numVal ds) := by
    cases ds with
    | nil => exact absurd rfl hne
    | cons x ds =>
      rw [List.all_cons, Bool.and_eq_true] at hall
      rw [pyNat_eq_digitsVal hall.1, hv]
  unfold pyInt
  cases hs with
  | none =>
    rw [List.nil_append, strip_id hsp]
    cases ds with
    | nil => exact absurd rfl hne
    | cons x ds =>
      rw [List.all_cons, Bool.and_eq_true] at hall
      have := digit_ne hall.1
      simp only [this.1, this.2.1, if_false, hn]
      rfl
  | plus =>
    rw [strip_id (by rw [List.all_append, hsp]; decide)]
    simp [hn]
  | minus =>
    rw [strip_id (by rw [List.all_append, hsp]; decide)]
    simp [hn]

theorem trimZeros_replicate {f : Bytes} (h : f.getLast? ≠ some 48) : ∀ k, trimZeros (f ++ List.replicate k 48) = f := by
  intro k
  have h0 := getLast?_trimZeros h
  unfold trimZeros at h0 ⊢
  rw [List.reverse_append, List.reverse_replicate]
  have : (List.replicate k (48 : UInt8) ++ f.reverse).dropWhile (fun x => decide (x = 48)) =
      f.reverse.dropWhile (fun x => decide (x = 48)) := by
    induction k with
    | zero => rfl
    | succ k ih => rw [List.replicate_succ, List.cons_append, List.dropWhile_cons]; simp [ih]
  rw [this, h0]

theorem pyFloat_text {s : Bytes} {neg : Bool} {ip : Nat} {frac : Bytes} (h : RealText s neg ip frac) :
    pyFloat s = .ok (.real neg ip frac) := by
  obtain ⟨sg, ids, fds, k, rfl, hs, hi, hf, hne, rfl, hk, hdec⟩ := h
  have hia := digits_all hi
  have hfa := digits_all hf
  have htrim : trimZeros fds = frac := by
    rw [hk]; apply trimZeros_replicate
    simp only [isDecimal, Bool.and_eq_true, decide_eq_true_eq] at hdec
    exact hdec.1.1.1.2
  have hall : (sg ++ ids ++ b!"." ++ fds).all (fun c => !isPySpace c) = true := by
    rw [List.all_append, List.all_append, List.all_append, all_digit_not_space hia, all_digit_not_space hfa]
    cases hs <;> decide
  have hsplit : signSplit (sg ++ ids ++ b!"." ++ fds) = (neg, ids ++ 46 :: fds) := by
    cases hs with
    | none =>
      cases ids with
      | nil => simp [signSplit]
      | cons x ids =>
        rw [List.all_cons, Bool.and_eq_true] at hia
        have := digit_ne hia.1
        simp [signSplit, this.1, this.2.1]
    | plus => simp [signSplit]
    | minus => simp [signSplit]
  rw [isDecimal_eq] at hdec
  have hne2 : (ids != [] || fds != []) = true := by
    rcases hne with h | h <;> simp [h]
  unfold pyFloat
  rw [strip_id hall, hsplit]
  simp only [takeWhile_digits ids 46 fds hia (by decide), List.drop_left, hfa, hne2, Bool.and_self, if_true, htrim,
    digitsVal_numVal hi, Option.getD_some, hdec]

theorem tokAt_realText {s : Bytes} {neg : Bool} {ip : Nat} {frac : Bytes} (h : RealText s neg ip frac) {c : UInt8}
    (hc : isBreak c = true) (post : Bytes) : TokAt s (c :: post) .real := by
  obtain ⟨sg, ids, fds, k, rfl, hs, hi, hf, _⟩ := h
  have hia := digits_all hi
  have hfa := digits_all hf
  rw [List.all_eq_true] at hia hfa
  have key : ∀ (x : UInt8) (s : Bytes), isNumStart x = true → (∀ y ∈ s, isBreak y = false) → 46 ∈ x :: s →
      TokAt (x :: s) (c :: post) .real := by
    intro x s hx hb hm
    have := tokAt_value hx hb hc post
    rwa [if_pos (by simpa [List.contains_iff_mem] using hm)] at this
  have hb : ∀ y ∈ ids ++ b!"." ++ fds, isBreak y = false := by
    intro y hy
    simp only [List.mem_append, List.mem_singleton] at hy
    rcases hy with (hy | rfl) | hy
    · exact (digit_facts (hia y hy)).2.1
    · decide
    · exact (digit_facts (hfa y hy)).2.1
  rw [List.append_assoc sg, List.append_assoc sg, List.append_assoc ids]
  rw [List.append_assoc ids] at hb
  cases hs with
  | none =>
    cases ids with
    | nil => exact key 46 fds (by decide) (fun y hy => hb y (by simp [hy])) (by simp)
    | cons x ids =>
      exact key x (ids ++ (b!"." ++ fds)) (digit_facts (hia x (by simp))).1
        (fun y hy => hb y (List.mem_cons_of_mem _ hy)) (by simp)
  | plus => exact key 43 _ (by decide) hb (by simp)
  | minus => exact key 45 _ (by decide) hb (by simp)

/-! ### Objects -/

theorem WFEntries_inLine : ∀ (d : List (Bytes × Obj)) (inD inA : Bool), WFItems inD inA (inLine d) = true →
    (∀ p ∈ d, isName p.1 = true) → WFEntries inD inA d = true
  | [], _, _, _, _ => rfl
  | (k, v) :: d, inD, inA, h, hk => by
    simp only [inLine, WFItems, Bool.and_eq_true] at h
    simp only [WFEntries, Bool.and_eq_true]
    exact ⟨⟨hk (k, v) (by simp), h.2.1⟩, WFEntries_inLine d _ _ h.2.2 (fun p hp => hk p (by simp [hp]))⟩

theorem inLine_eq : ∀ d : List (Bytes × Obj), inLine d = interleave d
  | [] => rfl
  | (k, v) :: d => by simp [inLine, interleave, inLine_eq d]

mutual
theorem Spells.wf : ∀ {inD inA : Bool} {o : Obj} {s : Bytes}, Spells inD inA o s → WF inD inA o = true
  | _, _, _, _, .true => rfl
  | _, _, _, _, .false => rfl
  | _, _, _, _, .int _ => rfl
  | _, _, _, _, .real h => by
    obtain ⟨_, _, _, _, _, _, _, _, _, _, _, h⟩ := h
    exact h
  | _, _, _, _, .name h => by simp [WF, h]
  | _, _, _, _, .keyword h => by simp [WF, h]
  | inD, inA, _, _, .literal h h1 h2 => by
    simp only [WF, h, Bool.true_and, Bool.or_eq_true, Bool.and_eq_true, Bool.not_eq_true']
    left
    constructor
    · cases inD
      · exact .inl rfl
      · exact .inr (h1 rfl)
    · cases inA
      · exact .inl rfl
      · exact .inr (h2 rfl)
  | _, _, _, _, .hex h => by simp [WF, h]
  | _, _, _, _, .ref _ _ h _ _ _ _ => by simp [WF, h]
  | _, _, _, _, .array h => by simp only [WF]; exact SpellsAll.wf h
  | _, _, _, _, .dict h hk hn => by
    simp only [WF, Bool.and_eq_true, decide_eq_true_eq]
    exact ⟨WFEntries_inLine _ _ _ (SpellsAll.wf h) hk, hn⟩
theorem SpellsAll.wf : ∀ {inD inA : Bool} {l : List Obj} {s : Bytes}, SpellsAll inD inA l s → WFItems inD inA l = true
  | _, _, _, _, .nil _ => rfl
  | _, _, _, _, .cons _ h1 h2 _ => by
    simp only [WFItems, Bool.and_eq_true]
    exact ⟨Spells.wf h1, SpellsAll.wf h2⟩
end

theorem intText_ne {s : Bytes} {n : Int} (h : IntText s n) : s ≠ [] := by
  obtain ⟨sg, neg, ds, rfl, hs, hd, hne, _⟩ := h
  simp [hne]

theorem wordChar_head {s : Bytes} (h : ∀ c ∈ s, wordChar c) : s.head? ≠ some 62 := by
  cases s with
  | nil => simp
  | cons c s =>
    have := (h c (by simp)).2.1
    simpa using this

theorem spells_head {inD inA : Bool} {o : Obj} {s : Bytes} (h : Spells inD inA o s) : s ≠ [] ∧ s.head? ≠ some 62 := by
  cases h with
  | true => decide
  | false => decide
  | int h => exact ⟨intText_ne h, wordChar_head (int_word h)⟩
  | real h =>
    refine ⟨?_, wordChar_head (real_text_word h)⟩
    obtain ⟨sg, ids, fds, k, rfl, _⟩ := h
    simp
  | name h =>
    refine ⟨?_, wordChar_head (name_word h)⟩
    rintro rfl; simp [isName] at h
  | keyword h =>
    refine ⟨?_, wordChar_head (keyword_word h)⟩
    rintro rfl; simp [isKeyword] at h
  | literal h _ _ => obtain ⟨body, rfl⟩ := literal_shape h; simp
  | hex h => obtain ⟨body, rfl, _⟩ := hex_chars h; simp
  | ref h _ _ _ _ _ _ =>
    exact ⟨by simp [intText_ne h], head_append (wordChar_head (int_word h)) (fun e => absurd e (intText_ne h))⟩
  | array _ => simp
  | dict _ _ _ => simp

theorem gap_head_ne {inD inA : Bool} {g : Bytes} (h : Gap inD inA g) : g.head? ≠ some 62 := by
  by_cases hg : g = []
  · subst hg; simp
  · obtain ⟨c, r, rfl, _, hc⟩ := gap_break h hg
    simpa using hc

theorem spellsAll_head {inD inA : Bool} {l : List Obj} {t : Bytes} (h : SpellsAll inD inA l t) : t.head? ≠ some 62 := by
  cases h with
  | nil hg => exact gap_head_ne hg
  | cons hg hs _ _ =>
    refine head_append (gap_head_ne hg) (fun _ => head_append (spells_head hs).2 (fun e => absurd e (spells_head hs).1))

mutual
theorem Spells.pass : ∀ {inD inA : Bool} {o : Obj} {s : Bytes}, Spells inD inA o s → inD = true → DPass s
  | _, _, _, _, .true, hD => .inl (dtransS_no (by decide))
  | _, _, _, _, .false, hD => .inl (dtransS_no (by decide))
  | _, _, _, _, .int h, hD => .inl (dtransS_word (int_word h))
  | _, _, _, _, .real h, hD => .inl (dtransS_word (real_text_word h))
  | _, _, _, _, .name h, hD => .inl (dtransS_word (name_word h))
  | _, _, _, _, .keyword h, hD => .inl (dtransS_word (keyword_word h))
  | _, _, _, _, .literal h h1 h2, hD => by
    obtain ⟨body, rfl⟩ := literal_shape h
    have := h1 hD
    exact .inl (dtransS_of (w := 40 :: body) this (by decide) (by decide))
  | _, _, _, _, .hex h, hD => .inr (hex_pend h)
  | _, _, _, _, .ref h h' _ hg _ hg' _, hD => .inl <|
    DTransS.append (dtransS_word (int_word h)) <| DTransS.append (gap_dtrans (hD ▸ hg)) <|
      DTransS.append (dtransS_word (int_word h')) <| DTransS.append (gap_dtrans (hD ▸ hg')) (dtransS_no (by decide))
  | _, _, _, _, .array h, hD => by
    have := (SpellsAll.pass h hD).closed (c := 93) (by decide) (by decide)
    exact .inl (DTransS.append (a := b!"[") (dtransS_no (by decide)) this)
  | _, _, _, _, .dict h _ _, _ => (SpellsAll.pass h rfl).dict
theorem SpellsAll.pass : ∀ {inD inA : Bool} {l : List Obj} {t : Bytes}, SpellsAll inD inA l t → inD = true → DPass t
  | _, _, _, _, .nil hg, hD => .inl (gap_dtrans (hD ▸ hg))
  | _, _, _, _, .cons hg h1 h2 _, hD => by
    refine DPass.append (.inl (gap_dtrans (hD ▸ hg))) (DPass.append (Spells.pass h1 hD) (SpellsAll.pass h2 hD) (spellsAll_head h2)) ?_
    exact head_append (spells_head h1).2 (fun e => absurd e (spells_head h1).1)
end

theorem ATrans.bracketed {I : Bytes} (hI : ATrans I) : ATrans (b!"[" ++ (I ++ b!"]")) := by
  intro text n h i post hn
  simp only [List.cons_append, List.nil_append, List.append_assoc]
  rw [tokLoop]
  simp only [tokStep]
  simp only [show ((91 : UInt8) = 40) = False by decide, show ((91 : UInt8) = 41) = False by decide, if_false]
  simp only [Bool.not_false, Bool.true_and, decide_true, if_true]
  rw [hI _ _ _ _ _ (by omega), tokLoop]
  have hn0 : ¬ (n = 0) := by omega
  simp [tokStep, hn0]
  congr 2; omega

mutual
theorem Spells.atrans : ∀ {inD inA : Bool} {o : Obj} {s : Bytes}, Spells inD inA o s → inA = true → ATrans s
  | _, _, _, _, .true, hA => ATrans.plain (by decide)
  | _, _, _, _, .false, hA => ATrans.plain (by decide)
  | _, _, _, _, .int h, hA => atrans_word (int_word h)
  | _, _, _, _, .real h, hA => atrans_word (real_text_word h)
  | _, _, _, _, .name h, hA => atrans_word (name_word h)
  | _, _, _, _, .keyword h, hA => atrans_word (keyword_word h)
  | _, _, _, _, .literal h h1 h2, hA => by
    obtain ⟨body, rfl⟩ := literal_shape h
    intro text n h' i post _
    have := scan_array_text text n h' post (40 :: body) false i (bracketSafe_append_paren (w := 40 :: body) (h2 hA))
    rw [show 40 :: (body ++ [41]) ++ post = (40 :: body) ++ 41 :: post by simp, this]
    simp [Nat.add_assoc]
  | _, _, _, _, .hex h, hA => by
    obtain ⟨body, rfl, hb⟩ := hex_chars h
    refine ATrans.plain ?_
    intro c hc
    simp only [List.mem_cons, List.mem_append, List.not_mem_nil, or_false] at hc
    rcases hc with rfl | hc | rfl
    · decide
    · exact (hb c hc).2.2
    · decide
  | _, _, _, _, .ref h h' _ hg _ hg' _, hA =>
    ATrans.append (atrans_word (int_word h)) <| ATrans.append (gap_atrans (hA ▸ hg)) <|
      ATrans.append (atrans_word (int_word h')) <| ATrans.append (gap_atrans (hA ▸ hg')) (ATrans.plain (by decide))
  | _, _, _, _, .array h, _ => (SpellsAll.atrans h rfl).bracketed
  | _, _, _, _, .dict h _ _, hA => ATrans.append (a := b!"<<") (ATrans.plain (by decide)) <|
      ATrans.append (SpellsAll.atrans h hA) (ATrans.plain (by decide))
theorem SpellsAll.atrans : ∀ {inD inA : Bool} {l : List Obj} {t : Bytes}, SpellsAll inD inA l t → inA = true → ATrans t
  | _, _, _, _, .nil hg, hA => gap_atrans (hA ▸ hg)
  | _, _, _, _, .cons hg h1 h2 _, hA => ATrans.append (gap_atrans (hA ▸ hg)) (ATrans.append (Spells.atrans h1 hA) (SpellsAll.atrans h2 hA))
end

theorem tokAt_bracketed {I : Bytes} (hI : ATrans I) (post : Bytes) : TokAt (b!"[" ++ (I ++ b!"]")) post .array := by
  intro text h i _
  have e1 : tokLoop text ⟨.tbd, 1, false, h, i⟩ (b!"[" ++ (I ++ b!"]") ++ post) =
      tokLoop text ⟨.array, 1, false, i, i + 1⟩ (I ++ (b!"]" ++ post)) := by
    simp only [List.cons_append, List.nil_append, List.append_assoc]
    rw [tokLoop]
    simp [tokStep, startsWith, List.isPrefixOf]
  rw [e1, hI text 1 i (i + 1) _ (by omega)]
  simp only [List.cons_append, List.nil_append]
  rw [tokLoop]
  simp [tokStep]
  omega

/-- The token of a dictionary: its whole text, or the text without the last `>` when a string in angle brackets comes just before the end. -/
theorem tokAt_angles {t : Bytes} (ht : DPass t) (h60 : t.head? ≠ some 60) :
    ∃ a x, t = a ++ x ∧ (x = [] ∨ x = [62]) ∧ ∀ post, TokAt (b!"<<" ++ (a ++ b!">>")) post .dict := by
  have enter : ∀ (text : Bytes) (h i : Nat) (r : Bytes), r.head? ≠ some 60 →
      tokLoop text ⟨.tbd, 1, false, h, i⟩ (60 :: 60 :: r) = tokLoop text ⟨.dict, 1, false, i, i + 2⟩ r := by
    intro text h i r hr
    rw [tokLoop]
    simp [tokStep, startsWith, List.isPrefixOf]
    rw [tokLoop]
    have : startsWith b!"<<" (60 :: r) = false := by
      cases r with
      | nil => rfl
      | cons c r =>
        simp only [List.head?_cons, ne_eq, Option.some.injEq] at hr
        simp [startsWith, List.isPrefixOf, Ne.symm hr]
    simp only [tokStep, this, startsWith_ne (c := 60) (a := 62) (by decide)]
    simp
  have leave : ∀ (text : Bytes) (h i : Nat) (r : Bytes),
      tokLoop text ⟨.dict, 1, false, h, i⟩ (62 :: 62 :: r) = (h, i + 2, some .dict) := by
    intro text h i r
    rw [tokLoop]; simp [tokStep, startsWith, List.isPrefixOf]
  rcases ht with ht | ⟨a, rfl, ht⟩
  · refine ⟨t, [], by simp, .inl rfl, ?_⟩
    intro post text h i _
    simp only [List.cons_append, List.nil_append, List.append_assoc]
    rw [enter _ _ _ _ (by cases t with | nil => simp | cons c t => simpa using h60),
      ht _ _ _ _ _ _ (by omega), leave]
    simp; omega
  · refine ⟨a, [62], rfl, .inr rfl, ?_⟩
    intro post text h i _
    simp only [List.cons_append, List.nil_append, List.append_assoc]
    rw [enter _ _ _ _ (by cases a with | nil => simp | cons c a => simpa using h60),
      ht _ _ _ _ _ _ (by omega), leave]
    simp; omega

end Pdf
