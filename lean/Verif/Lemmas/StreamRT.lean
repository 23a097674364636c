/-
Serialise, then parse a stream object.
-/
import Verif.Lemmas.PyEq

namespace Pdf
open Spec

theorem prefix_of_stop {p s post : Bytes} {c : UInt8} (hc : c ∉ p)
    (h : p <+: s ++ c :: post) : p <+: s := by
  by_cases hl : p.length ≤ s.length
  · exact List.prefix_of_prefix_length_le h (List.prefix_append _ _) hl
  · have h2 : s ++ [c] <+: p := by
      apply List.prefix_of_prefix_length_le (l₃ := s ++ c :: post)
      · exact ⟨post, by simp⟩
      · exact h
      · simp; omega
    obtain ⟨t, ht⟩ := h2
    exact absurd (by rw [← ht]; simp) hc

theorem startsWith_stop {p s post : Bytes} {c : UInt8} (hc : c ∉ p) (h : ¬ p <+: s) :
    startsWith p (s ++ c :: post) = false := by
  rw [Bool.eq_false_iff]
  intro hp
  exact h (prefix_of_stop hc ((startsWith_iff _ _).1 hp))

theorem scan_stream (text : Bytes) (n : Nat) (b : Bool) (h : Nat) (post : Bytes) :
    ∀ (w : Bytes) (i : Nat), ¬ b!"endstream" <:+: w → w.getLast? ≠ some 13 →
      tokLoop text ⟨.stream, n, b, h, i⟩ (w ++ (b!"\nendstream" ++ post)) =
        (h, i + w.length + 10, some .stream) := by
  intro w
  induction w with
  | nil =>
    intro i _ _
    simp [tokLoop, tokStep, startsWith, List.isPrefixOf]
  | cons c w ih =>
    intro i hno hl
    have hno' : ¬ b!"endstream" <:+: w := fun ⟨a, b, e⟩ => hno ⟨c :: a, b, by rw [← e]; simp⟩
    have hl' : w.getLast? ≠ some 13 := by
      cases w with
      | nil => simp
      | cons x w => simpa [List.getLast?_cons_cons] using hl
    have p4 : startsWith b!"endstream" (c :: (w ++ (b!"\nendstream" ++ post))) = false := by
      have := startsWith_stop (p := b!"endstream") (s := c :: w) (post := b!"endstream" ++ post)
        (c := 10) (by decide) (fun hp => hno hp.isInfix)
      exact this
    have p0 : startsWith b!"endstream" (w ++ (b!"\nendstream" ++ post)) = false := by
      have := startsWith_stop (p := b!"endstream") (s := w) (post := b!"endstream" ++ post)
        (c := 10) (by decide) (fun hp => hno' hp.isInfix)
      exact this
    have cons_eq : ∀ (a : UInt8) (p l : Bytes), startsWith (a :: p) (c :: l) = (a == c && startsWith p l) :=
      fun _ _ _ => rfl
    have p3 : startsWith b!"\rendstream" (c :: (w ++ (b!"\nendstream" ++ post))) = false := by
      rw [cons_eq, p0, Bool.and_false]
    have p2 : startsWith b!"\nendstream" (c :: (w ++ (b!"\nendstream" ++ post))) = false := by
      rw [cons_eq, p0, Bool.and_false]
    have p1 : startsWith b!"\r\nendstream" (c :: (w ++ (b!"\nendstream" ++ post))) = false := by
      rw [cons_eq]
      cases w with
      | nil =>
        have : c ≠ 13 := by simpa using hl
        have : ((13 : UInt8) == c) = false := by simpa using Ne.symm this
        rw [this, Bool.false_and]
      | cons x w =>
        have : startsWith b!"endstream" (w ++ (b!"\nendstream" ++ post)) = false := by
          have := startsWith_stop (p := b!"endstream") (s := w) (post := b!"endstream" ++ post)
            (c := 10) (by decide) (fun hp => hno' (hp.isInfix.trans (List.suffix_cons x w).isInfix))
          exact this
        have : startsWith b!"\nendstream" (x :: w ++ (b!"\nendstream" ++ post)) = false := by
          show ((10 : UInt8) == x && startsWith b!"endstream" (w ++ (b!"\nendstream" ++ post))) = false
          rw [this, Bool.and_false]
        rw [this, Bool.and_false]
    rw [List.cons_append, tokLoop]
    simp only [tokStep, p1, p2, p3, p4, Bool.false_eq_true, if_false]
    rw [ih (i + 1) hno' hl']
    simp [Nat.add_comm, Nat.add_left_comm]

/-- The stream part of a serialised stream object. -/
def streamPart (enc : Bytes) : Bytes := b!"stream\n" ++ enc ++ b!"\nendstream"

theorem tokAt_stream {enc : Bytes} (hno : ¬ b!"endstream" <:+: enc) (hl : enc.getLast? ≠ some 13)
    (post : Bytes) : TokAt (streamPart enc) post .stream := by
  intro text h i _
  have hno2 : ¬ b!"endstream" <:+: b!"tream\n" ++ enc := by
    rintro ⟨a, b, e⟩
    apply hno
    -- the word cannot start in the first six bytes
    have h6 : 6 ≤ a.length := by
      apply Decidable.byContradiction
      intro hlt
      have : a.length < 6 := by omega
      rw [List.append_assoc] at e
      have e0 : (b!"tream\n" ++ enc)[a.length]? = some 101 ∧ (b!"tream\n" ++ enc)[a.length + 1]? = some 110 := by
        rw [← e]; constructor <;> simp
      have : a.length = 0 ∨ a.length = 1 ∨ a.length = 2 ∨ a.length = 3 ∨ a.length = 4 ∨ a.length = 5 := by
        omega
      rcases this with k | k | k | k | k | k <;> rw [k] at e0 <;> simp at e0
    refine ⟨a.drop 6, b, ?_⟩
    have := congrArg (List.drop 6) e
    rw [List.append_assoc, List.drop_append_of_le_length h6] at this
    simpa using this
  have hl2 : (b!"tream\n" ++ enc).getLast? ≠ some 13 := by
    rw [List.getLast?_append]
    cases he : enc.getLast? with
    | none => simp
    | some x => rw [he] at hl; simpa using hl
  have := scan_stream text 1 false i post _ (i + 1) hno2 hl2
  rw [show streamPart enc ++ post = 115 :: (b!"tream\n" ++ enc ++ (b!"\nendstream" ++ post)) by
    simp [streamPart]]
  rw [tokLoop]
  have hs : tokStep text ⟨.tbd, 1, false, h, i⟩ 115 (b!"tream\n" ++ enc ++ (b!"\nendstream" ++ post)) =
      .next ⟨.stream, 1, false, i, i + 1⟩ := by
    simp [tokStep, startsWith, List.isPrefixOf]
  rw [hs]
  simp only
  rw [this]
  simp [streamPart]
  omega

theorem lastN_append {s t : Bytes} {k : Nat} (h : t.length = k) : lastN (s ++ t) k = t := by
  unfold lastN
  simp [← h]

theorem lastN_append_le {s t : Bytes} {k : Nat} (h : k ≤ t.length) : lastN (s ++ t) k = lastN t k := by
  unfold lastN
  rw [List.length_append, show s.length + t.length - k = s.length + (t.length - k) by omega,
    List.drop_append]
  simp

theorem streamContent_part {enc : Bytes} (hl : enc.getLast? ≠ some 13) :
    streamContent (streamPart enc) = some enc := by
  unfold streamContent
  have h1 : startsWith b!"stream\r\n" (streamPart enc) = false := by
    simp [streamPart, startsWith, List.isPrefixOf]
  have h2 : startsWith b!"stream\n" (streamPart enc) = true := by
    simp [streamPart, startsWith, List.isPrefixOf]
  have h4 : lastN (streamPart enc) 10 = b!"\nendstream" := lastN_append rfl
  have h3 : lastN (streamPart enc) 11 ≠ b!"\r\nendstream" := by
    unfold streamPart
    cases henc : enc.getLast? with
    | none =>
      rw [List.getLast?_eq_none_iff] at henc
      subst henc
      decide
    | some x =>
      rw [henc] at hl
      obtain ⟨ys, rfl⟩ := List.getLast?_eq_some_iff.1 henc
      rw [show b!"stream\n" ++ (ys ++ [x]) ++ b!"\nendstream" =
        (b!"stream\n" ++ ys) ++ (x :: b!"\nendstream") by simp, lastN_append (by simp)]
      intro e
      apply hl
      rw [List.cons.injEq] at e
      rw [e.1]
  simp only [h1, h2, h3, h4, if_true, if_false, Bool.false_eq_true]
  congr 1
  unfold sliceNeg streamPart
  simp only [List.length_append, List.length_cons, List.length_nil]
  rw [show 0 + 1 + 1 + 1 + 1 + 1 + 1 + 1 + enc.length + (0 + 1 + 1 + 1 + 1 + 1 + 1 + 1 + 1 + 1 + 1) - 10 =
    (b!"stream\n" ++ enc).length by simp; omega]
  rw [List.take_left']
  · simp
  · rfl

set_option linter.unusedSectionVars false

variable [Zlib]

theorem parse_stream {d : List (Bytes × Obj)} (h : WFEntries true false d = true)
    (hnd : (d.map Prod.fst).Nodup) {enc : Bytes} (hno : ¬ b!"endstream" <:+: enc)
    (hl : enc.getLast? ≠ some 13) (depth : Nat) (post : Bytes) :
    parseObj (ser depth (.dict d) ++ b!"\n" ++ streamPart enc ++ post) 0 =
      (decodeStream enc (normEntries d).reverse).map
        (fun c => .stream (normEntries d).reverse c enc) := by
  have ht : TokAt (ser depth (.dict d)) (b!"\n" ++ streamPart enc ++ post) .dict :=
    tokAt_dict depth (serEntries_dtrans d _ depth h) _
  have hd0 : (ser depth (.dict d) ++ b!"\n" ++ streamPart enc ++ post).drop 0 =
      [] ++ (ser depth (.dict d) ++ (b!"\n" ++ streamPart enc ++ post)) := by simp
  have e := nextToken_at ht (by simp) hd0
  have hd1 : (ser depth (.dict d) ++ b!"\n" ++ streamPart enc ++ post).drop
      (0 + ([] : Bytes).length + (ser depth (.dict d)).length) =
      b!"\n" ++ (streamPart enc ++ post) := by
    rw [drop_add_of (drop_add_of hd0)]; simp
  have e2 := nextToken_at (ws := b!"\n") (tokAt_stream hno hl post) (by decide) hd1
  rw [parseObj_stream e e2]
  have s1 : slice (ser depth (.dict d) ++ b!"\n" ++ streamPart enc ++ post) (0 + ([] : Bytes).length)
      (0 + ([] : Bytes).length + (ser depth (.dict d)).length) = ser depth (.dict d) :=
    slice_of_drop (drop_add_of hd0)
  have s2 := slice_of_drop (drop_add_of hd1)
  rw [s1, s2]
  have := parse_dict h hnd (entriesOk d _ _ h) depth [] (by simp [nextToken_nil])
  rw [List.append_nil] at this
  rw [this, streamContent_part hl]
  simp only
  cases decodeStream enc (normEntries d).reverse <;> rfl

/-- Filter lists are read the same. -/
theorem decodeLoop_norm (s : Bytes) (parms parms' : List (Option Obj))
    (hp : ∀ i, flateStage s parms i = flateStage s parms' i) :
    ∀ (fs : List Obj) (i : Nat) (r : Option Bytes),
    decodeLoop s parms i fs r = decodeLoop s parms' i (normItems fs) r := by
  intro fs
  induction fs with
  | nil => intro i r; cases r <;> rfl
  | cons f fs ih =>
    intro i r
    cases f <;> simp only [normItems, norm, decodeLoop, hp, ih]

theorem intOf_norm (o : Obj) : intOf (norm o) = intOf o := by
  cases o <;> rfl

theorem hasPredictor_norm {o : Obj} {inD inA : Bool} (h : WF inD inA o = true) :
    hasPredictor (some (norm o)) = hasPredictor (some o) := by
  cases o with
  | dict p =>
    simp only [WF, Bool.and_eq_true, decide_eq_true_eq] at h
    simp [norm, hasPredictor, Dict.has, get?_norm h.2]
  | list l =>
    simp only [norm, hasPredictor, normItems_eq]
    congr 1
    rw [List.any_map]
    congr 1
    funext o
    cases o <;> rfl
  | _ => rfl

theorem flateStage_norm (s : Bytes) (parms : List (Option Obj)) (i : Nat)
    (h : ∀ o, some o ∈ parms → WF true false o = true ∨ WF true true o = true) :
    flateStage s parms i = flateStage s (parms.map (Option.map norm)) i := by
  unfold flateStage
  cases Zlib.decompress s with
  | none => rfl
  | some res =>
    simp only [List.getElem?_map]
    cases hp : parms[i]? with
    | none => rfl
    | some parm =>
      cases parm with
      | none => rfl
      | some o =>
        have ho : ∃ a, WF true a o = true := by
          rcases h o (List.mem_of_getElem? hp) with h | h
          · exact ⟨_, h⟩
          · exact ⟨_, h⟩
        obtain ⟨a, ho⟩ := ho
        simp only [Option.map_some, hasPredictor_norm ho]
        cases hasPredictor (some o) with
        | none => rfl
        | some b =>
          cases b with
          | false => rfl
          | true =>
            cases o with
            | dict p =>
              simp only [WF, Bool.and_eq_true, decide_eq_true_eq] at ho
              simp only [norm, get?_norm ho.2]
              have : ∀ k, ((Dict.get? p k).map norm).bind intOf = (Dict.get? p k).bind intOf := by
                intro k
                cases Dict.get? p k with
                | none => rfl
                | some v => simp [intOf_norm]
              rw [this, this]
            | _ => rfl

theorem WFEntries_get {d : List (Bytes × Obj)} {inD inA : Bool} (h : WFEntries inD inA d = true)
    {k : Bytes} {v : Obj} (hv : Dict.get? d k = some v) : WF inD inA v = true := by
  induction d with
  | nil => simp [Dict.get?, List.lookup] at hv
  | cons p d ih =>
    obtain ⟨k', v'⟩ := p
    simp only [WFEntries, Bool.and_eq_true] at h
    simp only [Dict.get?, List.lookup] at hv ih
    split at hv
    · cases hv; exact h.1.2
    · exact ih h.2 hv

theorem WFItems_mem {l : List Obj} {inD inA : Bool} (h : WFItems inD inA l = true) {o : Obj}
    (ho : o ∈ l) : WF inD inA o = true := by
  induction l with
  | nil => simp at ho
  | cons x l ih =>
    simp only [WFItems, Bool.and_eq_true] at h
    rw [List.mem_cons] at ho
    rcases ho with rfl | ho
    · exact h.1
    · exact ih h.2 ho

theorem normItems_str (l : List Bytes) : normItems (l.map .str) = l.map .str := by
  induction l with
  | nil => rfl
  | cons x l ih => simp [normItems, norm, ih]

theorem normItems_length (l : List Obj) : (normItems l).length = l.length := by
  rw [normItems_eq]; simp

theorem decodeStream_norm {d : List (Bytes × Obj)} (h : WFEntries true false d = true)
    (hnd : (d.map Prod.fst).Nodup) (s : Bytes) :
    decodeStream s (normEntries d).reverse = decodeStream s d := by
  unfold decodeStream
  rw [get?_norm hnd, get?_norm hnd]
  cases hf : Dict.get? d b!"/Filter" with
  | none => rfl
  | some flt =>
    have key : ∀ fs : List Obj,
        (match Option.map norm (Dict.get? d b!"/DecodeParms") with
          | none => decodeLoop s (List.replicate (normItems fs).length none) 0 (normItems fs) none
          | some (.dict p) => decodeLoop s [some (.dict p)] 0 (normItems fs) none
          | some (.list l) => decodeLoop s (l.map some) 0 (normItems fs) none
          | some _ => .error .outside) =
        (match Dict.get? d b!"/DecodeParms" with
          | none => decodeLoop s (List.replicate fs.length none) 0 fs none
          | some (.dict p) => decodeLoop s [some (.dict p)] 0 fs none
          | some (.list l) => decodeLoop s (l.map some) 0 fs none
          | some _ => .error .outside) := by
      intro fs
      cases hp : Dict.get? d b!"/DecodeParms" with
      | none =>
        simp only [Option.map_none, normItems_length]
        exact (decodeLoop_norm s _ _ (fun _ => rfl) fs 0 none).symm
      | some o =>
        have ho := WFEntries_get h hp
        cases o with
        | dict p =>
          simp only [Option.map_some, norm]
          refine (decodeLoop_norm s _ _ (fun i => ?_) fs 0 none).symm
          rw [flateStage_norm s [some (.dict p)] i (by simp; exact .inl ho)]
          rfl
        | list l =>
          simp only [Option.map_some, norm]
          refine (decodeLoop_norm s _ _ (fun i => ?_) fs 0 none).symm
          simp only [WF] at ho
          rw [flateStage_norm s (l.map some) i (by
            intro o hm
            simp only [List.mem_map, Option.some.injEq, exists_eq_right] at hm
            exact .inr (WFItems_mem ho hm))]
          simp [normItems_eq, Function.comp_def]
        | _ => rfl
    cases flt with
    | str f =>
      have := key ((strSplit f).map .str)
      rw [normItems_str] at this
      exact this
    | list l => exact key l
    | _ => rfl

end Pdf
