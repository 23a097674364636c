/-
Exact description of the divergence of the parser.
-/
import Verif.Lemmas.Terminates

namespace Pdf
open Spec

variable [Zlib]

/-- The item loop of a dictionary (`true`) or of an array. -/
def itemsOf (d : Bool) (text : Bytes) (i j1 : Nat) : Py (List Obj) :=
  if d then dictItems text i j1 else arrayItems text i j1

/-- One turn of the item loops. -/
theorem itemsOf_eq (d : Bool) (text : Bytes) (i j1 : Nat) :
    itemsOf d text i j1 =
      if i < j1 - 1 then
        match nextToken text i with
        | (_, i', none) => if i' ≤ i then .error .nonterm else itemsOf d text i' j1
        | (h, i', some t) =>
          if t = .comment ∨ (d = true ∧ ¬ i' < j1) then itemsOf d text i' j1
          else
            match itemVal text h i' t with
            | .error e => .error e
            | .ok obj => (itemsOf d text i' j1).map (obj :: ·)
      else .ok [] := by
  cases d
  · simp only [itemsOf, Bool.false_eq_true, if_false, false_and, or_false]
    conv => lhs; unfold arrayItems
    rw [arrayItemsF]
    by_cases hij : i < j1 - 1
    rotate_left
    · simp only [hij, if_false]
    simp only [hij, if_true]
    rcases hnt : nextToken text i with ⟨h, i', t⟩
    cases t with
    | none =>
      simp only
      by_cases hl : i' ≤ i
      · simp only [hl, if_true]
      simp only [hl, if_false]
      by_cases hl2 : i ≤ text.length
      · have := nextToken_le hnt hl2
        exact arrayItemsF_eq _ _ _ _ (by omega)
      · rw [nextToken_end _ _ (by omega)] at hnt; simp at hnt; omega
    | some t =>
      have b := nextToken_typed hnt
      have hrec := arrayItemsF_eq text i' j1 (2 * text.length + 3) (by omega)
      have ho : itemVal text h i' t = if t = .dict ∨ t = .array
          then parseObjF (2 * text.length + 3) (slice text h i') 0
          else dedicatedType (slice text h i') (some t) := by
        unfold itemVal
        rw [parseObjF_eq _ _ _ (by rw [slice_length]; omega)]
      cases t <;> simp only [ho, hrec, reduceCtorEq, if_false, if_true] <;>
        first | rfl | (split <;> first | rfl | (split <;> simp_all [Except.map]))
  · simp only [itemsOf, if_true, true_and]
    conv => lhs; unfold dictItems
    rw [dictItemsF]
    by_cases hij : i < j1 - 1
    rotate_left
    · simp only [hij, if_false]
    simp only [hij, if_true]
    rcases hnt : nextToken text i with ⟨h, i', t⟩
    cases t with
    | none =>
      simp only
      by_cases hl : i' ≤ i
      · simp only [hl, if_true]
      simp only [hl, if_false]
      by_cases hl2 : i ≤ text.length
      · have := nextToken_le hnt hl2
        exact dictItemsF_eq _ _ _ _ (by omega)
      · rw [nextToken_end _ _ (by omega)] at hnt; simp at hnt; omega
    | some t =>
      have b := nextToken_typed hnt
      have hrec := dictItemsF_eq text i' j1 (2 * text.length + 3) (by omega)
      have ho : itemVal text h i' t = if t = .dict ∨ t = .array
          then parseObjF (2 * text.length + 3) (slice text h i') 0
          else dedicatedType (slice text h i') (some t) := by
        unfold itemVal
        rw [parseObjF_eq _ _ _ (by rw [slice_length]; omega)]
      by_cases hj : i' < j1 <;>
      cases t <;> simp only [ho, hrec, hj, reduceCtorEq, if_false, if_true, not_true_eq_false, not_false_eq_true,
        or_false, or_true] <;>
        first | rfl | (split <;> first | rfl | (split <;> simp_all [Except.map]))

omit [Zlib] in
/-- A turn at a closing bracket. -/
theorem nextToken_bracket {text : Bytes} {i : Nat} (h : text[i]? = some 93) :
    nextToken text i = (i, i, none) := by
  obtain ⟨hl, he⟩ := List.getElem?_eq_some_iff.mp h
  unfold nextToken
  rw [List.drop_eq_getElem_cons hl, he]
  rfl

omit [Zlib] in
theorem nextToken_stays {text : Bytes} {i h i' : Nat} (hi : i < text.length)
    (e : nextToken text i = (h, i', none)) (hl : i' ≤ i) : text[i]? = some 93 := by
  have hg := nextToken_good text i (by omega)
  rw [e] at hg
  obtain ⟨h1, h2, -, h4⟩ := hg
  rcases h4 with h4 | ⟨h4, -⟩ | ⟨-, h4, -⟩
  · omega
  · rwa [show i = i' by omega]
  · omega

mutual
/-- `parse_obj(text, start)` never returns. -/
inductive Stuck : Bytes → Nat → Prop
  /-- An item loop never ends, in a dictionary. -/
  | dict {text : Bytes} {start h j : Nat} : nextToken text start = (h, j, some .dict) →
      (nextToken text j).2.2 ≠ some .stream → StuckAmong true text (start + 2) j → Stuck text start
  /-- The same in an array. -/
  | array {text : Bytes} {start h j : Nat} : nextToken text start = (h, j, some .array) →
      StuckAmong false text (start + 1) j → Stuck text start
  /-- The same in the dictionary of a stream. -/
  | entries {text : Bytes} {start h j h2 j2 : Nat} : nextToken text start = (h, j, some .dict) →
      nextToken text j = (h2, j2, some .stream) → Stuck (slice text h j) 0 → Stuck text start
  /-- The data of a stream are never decoded. -/
  | data {text : Bytes} {start h j h2 j2 : Nat} {d : Dict} {enc : Bytes} :
      nextToken text start = (h, j, some .dict) → nextToken text j = (h2, j2, some .stream) →
      parseObj (slice text h j) 0 = .ok (.dict d) → streamContent (slice text h2 j2) = some enc →
      decodeStream enc d = .error .nonterm → Stuck text start
/-- The loop over the items of a dictionary (`true`) or of an array never ends, from index `i` in a token that
ends at `j`. -/
inductive StuckAmong : Bool → Bytes → Nat → Nat → Prop
  /-- A closing bracket where an item is expected. -/
  | bracket {d : Bool} {text : Bytes} {i j : Nat} : i + 1 < j → text[i]? = some 93 → StuckAmong d text i j
  /-- After characters without type, or a comment. -/
  | skip {d : Bool} {text : Bytes} {i j h i' : Nat} {t : Option TokT} : i + 1 < j →
      nextToken text i = (h, i', t) → t = none ∨ t = some .comment → i < i' → StuckAmong d text i' j →
      StuckAmong d text i j
  /-- In a nested dictionary or array. -/
  | inside {d : Bool} {text : Bytes} {i j h i' : Nat} {t : TokT} : i + 1 < j →
      nextToken text i = (h, i', some t) → t = .dict ∨ t = .array → (d = true → i' < j) →
      Stuck (slice text h i') 0 → StuckAmong d text i j
  /-- After an item. -/
  | after {d : Bool} {text : Bytes} {i j h i' : Nat} {t : TokT} {o : Obj} : i + 1 < j →
      nextToken text i = (h, i', some t) → t ≠ .comment → itemVal text h i' t = .ok o →
      StuckAmong d text i' j → StuckAmong d text i j
end

omit [Zlib] in
theorem map_nonterm {α β : Type} {x : Py α} {f : α → β} : x.map f = .error .nonterm ↔ x = .error .nonterm := by
  cases x <;> simp [Except.map]

theorem tail_dict {text : Bytes} {start h1 j1 : Nat} (e : nextToken text start = (h1, j1, some .dict))
    (hns : (nextToken text j1).2.2 ≠ some .stream) :
    parseObj text start = .error .nonterm ↔ itemsOf true text (start + 2) j1 = .error .nonterm := by
  rw [parseObj_dict e hns]
  simp only [itemsOf, if_true]
  cases dictItems text (start + 2) j1 with
  | error e => simp
  | ok items =>
    simp only [reduceCtorEq, iff_false]
    have hR := replaceRef_term _ items (Nat.le_refl _)
    cases hr : replaceRef items with
    | error e => rw [hr] at hR; exact fun h => hR (by cases h; rfl)
    | ok items => exact Term.map (pairUp_term _ _ _ (Nat.le_refl _))

theorem tail_array {text : Bytes} {start h1 j1 : Nat} (e : nextToken text start = (h1, j1, some .array)) :
    parseObj text start = .error .nonterm ↔ itemsOf false text (start + 1) j1 = .error .nonterm := by
  rw [parseObj_array e]
  simp only [itemsOf, Bool.false_eq_true, if_false]
  cases arrayItems text (start + 1) j1 with
  | error e => simp
  | ok items =>
    simp only [reduceCtorEq, iff_false]
    exact Term.map (replaceRef_term _ items (Nat.le_refl _))

mutual
theorem stuck_parse {text : Bytes} {start : Nat} : Stuck text start → parseObj text start = .error .nonterm
  | .dict e hns h => by
    rw [tail_dict e hns]
    exact stuck_items h
  | .array e h => by
    rw [tail_array e]
    exact stuck_items h
  | .entries e e2 h => by
    rw [parseObj_stream e e2, stuck_parse h]
  | .data e e2 hd hc hs => by
    rw [parseObj_stream e e2, hd]
    simp only [hc, hs]
theorem stuck_items {d : Bool} {text : Bytes} {i j : Nat} :
    StuckAmong d text i j → itemsOf d text i j = .error .nonterm
  | .bracket hij h => by
    rw [itemsOf_eq, if_pos (by omega), nextToken_bracket h]
    simp
  | .skip (h := h0) (i' := i') hij e ht hl h => by
    rw [itemsOf_eq, if_pos (by omega), e]
    rcases ht with rfl | rfl
    · simp only
      rw [if_neg (by omega)]
      exact stuck_items h
    · simp only [true_or, if_true]
      exact stuck_items h
  | .inside (t := t) hij e ht hd h => by
    rw [itemsOf_eq, if_pos (by omega), e]
    simp only
    rw [if_neg]
    · unfold itemVal
      rw [if_pos ht, stuck_parse h]
    · rintro (rfl | ⟨h1, h2⟩)
      · simp at ht
      · exact h2 (hd h1)
  | .after (o := o) hij e ht ho h => by
    rw [itemsOf_eq, if_pos (by omega), e]
    simp only
    split
    · exact stuck_items h
    · rw [ho]
      simp only
      rw [map_nonterm]
      exact stuck_items h
end

theorem parse_stuck : ∀ n : Nat,
    (∀ text start, 2 * text.length + 1 ≤ n → start ≤ text.length →
      parseObj text start = .error .nonterm → Stuck text start) ∧
    (∀ d text i j1, j1 ≤ text.length → 2 * (text.length - i) + 2 ≤ n → 1 ≤ i →
      itemsOf d text i j1 = .error .nonterm → StuckAmong d text i j1) := by
  intro n
  induction n with
  | zero => refine ⟨?_, ?_⟩ <;> intros <;> omega
  | succ n ih =>
    obtain ⟨ihP, ihD⟩ := ih
    refine ⟨?_, ?_⟩
    · intro text start hn hs hp
      rcases hnt : nextToken text start with ⟨h1, j1, t1⟩
      have hb := nextToken_le hnt hs
      by_cases hd : t1 = some .dict
      · subst hd
        have b1 := nextToken_typed hnt
        rcases hnt2 : nextToken text j1 with ⟨h2, j2, t2⟩
        by_cases h2s : t2 = some .stream
        · subst h2s
          have b2 := nextToken_typed hnt2
          rw [parseObj_stream hnt hnt2] at hp
          cases hpe : parseObj (slice text h1 j1) 0 with
          | error e =>
            rw [hpe] at hp
            cases hp
            exact .entries hnt hnt2 (ihP _ _ (by rw [slice_length]; omega) (by omega) hpe)
          | ok o =>
            rw [hpe] at hp
            cases o <;> simp only at hp <;> try cases hp
            rename_i d
            cases hc : streamContent (slice text h2 j2) with
            | none => rw [hc] at hp; cases hp
            | some enc =>
              rw [hc] at hp
              simp only at hp
              cases hs : decodeStream enc d with
              | error e =>
                rw [hs] at hp
                cases hp
                exact .data hnt hnt2 hpe hc hs
              | ok c => rw [hs] at hp; cases hp
        · have hns : (nextToken text j1).2.2 ≠ some .stream := by rw [hnt2]; exact h2s
          rw [tail_dict hnt hns] at hp
          exact .dict hnt hns (ihD true _ _ _ b1.2.2 (by omega) (by omega) hp)
      by_cases ha : t1 = some .array
      · subst ha
        have b1 := nextToken_typed hnt
        rw [tail_array hnt] at hp
        exact .array hnt (ihD false _ _ _ b1.2.2 (by omega) (by omega) hp)
      exfalso
      unfold parseObj parseFuel at hp
      rw [parseObjF, hnt] at hp
      cases t1 with
      | none => exact dedicatedType_term _ _ hp
      | some t =>
        cases t <;> first | exact hd rfl | exact ha rfl | exact dedicatedType_term _ _ hp | cases hp
    · intro d text i j1 hj hn h1i hp
      rw [itemsOf_eq] at hp
      by_cases hij : i < j1 - 1
      rotate_left
      · rw [if_neg hij] at hp; cases hp
      rw [if_pos hij] at hp
      rcases hnt : nextToken text i with ⟨h, i', t⟩
      have hb := nextToken_le hnt (by omega)
      rw [hnt] at hp
      cases t with
      | none =>
        simp only at hp
        by_cases hl : i' ≤ i
        · exact .bracket (by omega) (nextToken_stays (by omega) hnt hl)
        · rw [if_neg hl] at hp
          exact .skip (by omega) hnt (.inl rfl) (by omega) (ihD _ _ _ _ hj (by omega) (by omega) hp)
      | some t =>
        have b := nextToken_typed hnt
        simp only at hp
        by_cases hc : t = .comment
        · rw [if_pos (.inl hc)] at hp
          exact .skip (by omega) hnt (.inr (by rw [hc])) (by omega)
            (ihD _ _ _ _ hj (by omega) (by omega) hp)
        by_cases hlast : d = true ∧ ¬ i' < j1
        · rw [if_pos (.inr hlast), itemsOf_eq, if_neg (by omega)] at hp
          cases hp
        · rw [if_neg (fun h => h.elim hc hlast)] at hp
          cases ho : itemVal text h i' t with
          | error e =>
            rw [ho] at hp
            cases hp
            unfold itemVal at ho
            by_cases ht : t = .dict ∨ t = .array
            · rw [if_pos ht] at ho
              exact .inside (by omega) hnt ht
                (fun hd => Decidable.not_not.mp fun hx => hlast ⟨hd, hx⟩)
                (ihP _ _ (by rw [slice_length]; omega) (by omega) ho)
            · rw [if_neg ht] at ho
              exact absurd ho (dedicatedType_term _ _)
          | ok o =>
            rw [ho] at hp
            simp only at hp
            rw [map_nonterm] at hp
            exact .after (by omega) hnt hc ho (ihD _ _ _ _ hj (by omega) (by omega) hp)

theorem stuck_iff (text : Bytes) (start : Nat) :
    parseObj text start = .error .nonterm ↔ Stuck text start := by
  refine ⟨fun h => ?_, stuck_parse⟩
  by_cases hs : start ≤ text.length
  · exact (parse_stuck _).1 text start (Nat.le_refl _) hs h
  · exfalso
    unfold parseObj parseFuel at h
    rw [parseObjF, nextToken_end _ _ (by omega)] at h
    exact dedicatedType_term _ _ h

omit [Zlib] in
/-- The divergence of the predictor. -/
theorem decodePredictor_stuck {b : Bytes} {c : Int} :
    decodePredictor b c = .error .nonterm ↔ b ≠ [] ∧ (c = -1 ∨ c < -1 ∧ (b.length : Int) ≤ -1 - c) := by
  unfold decodePredictor
  simp only
  by_cases hb : b = []
  · simp [hb]
  rw [if_neg hb]
  by_cases h1 : c + 1 < 0 ∧ (c + 1).natAbs < b.length
  · rw [if_pos h1]
    simp only [Except.error.injEq, reduceCtorEq, false_iff]
    omega
  rw [if_neg h1]
  by_cases h2 : c + 1 ≤ 0
  · rw [if_pos h2]
    simp only [true_iff]
    exact ⟨hb, by omega⟩
  · rw [if_neg h2]
    simp only [reduceCtorEq, false_iff]
    omega

/-- The data `s` of a stream whose parameters are `p`: /FlateDecode data, not empty, under a predictor with a
negative number of columns. -/
def BadColumns (s : Bytes) (p : Dict) : Prop :=
  ∃ (res : Bytes) (o : Obj) (c : Int), Zlib.decompress s = some res ∧ res ≠ [] ∧
    Dict.has p b!"/Predictor" = true ∧ Dict.get? p b!"/Columns" = some o ∧ intOf o = some c ∧
    (c = -1 ∨ c < -1 ∧ (res.length : Int) ≤ -1 - c)

theorem flateStage_stuck {s : Bytes} {parms : List (Option Obj)} {i : Nat}
    (h : flateStage s parms i = .error .nonterm) :
    ∃ p, parms[i]? = some (some (.dict p)) ∧ BadColumns s p := by
  unfold flateStage at h
  cases hz : Zlib.decompress s with
  | none => rw [hz] at h; cases h
  | some res =>
    rw [hz] at h
    simp only at h
    cases hp : parms[i]? with
    | none => rw [hp] at h; cases h
    | some parm =>
      rw [hp] at h
      simp only at h
      cases hh : hasPredictor parm with
      | none => rw [hh] at h; cases h
      | some b =>
        rw [hh] at h
        cases b with
        | false => cases h
        | true =>
          simp only at h
          split at h
          · rename_i p
            split at h
            · rename_i c h1 h2
              obtain ⟨o, ho, hc⟩ := Option.bind_eq_some_iff.mp h2
              cases hd : decodePredictor res c with
              | ok r => rw [hd] at h; cases h
              | error e =>
                have he : e = .nonterm := by
                  rw [hd] at h
                  cases e <;> first | rfl | cases h
                subst he
                obtain ⟨hne, hc2⟩ := decodePredictor_stuck.mp hd
                exact ⟨p, rfl, res, o, c, hz, hne, by simpa [hasPredictor] using hh, ho, hc, hc2⟩
            · cases h
          · cases h

theorem decodeLoop_stuck {s : Bytes} {parms : List (Option Obj)} : ∀ (fs : List Obj) (i : Nat)
    (r : Option Bytes), decodeLoop s parms i fs r = .error .nonterm →
    .str b!"/FlateDecode" ∈ fs ∧ ∃ p, some (.dict p) ∈ parms ∧ BadColumns s p := by
  intro fs
  induction fs with
  | nil => intro i r h; cases r <;> cases h
  | cons f fs ih =>
    intro i r h
    rw [decodeLoop.eq_def] at h
    simp only at h
    split at h
    · rename_i f
      have go : ∀ (x : Option Bytes) (err : Bytes), (match x with
          | none => .ok err
          | some r => decodeLoop s parms (i + 1) fs (some r) : Py Bytes) = .error .nonterm →
          .str b!"/FlateDecode" ∈ Obj.str f :: fs ∧ ∃ p, some (.dict p) ∈ parms ∧ BadColumns s p := by
        intro x err hx
        cases x with
        | none => cases hx
        | some r =>
          obtain ⟨h1, h2⟩ := ih _ _ hx
          exact ⟨List.mem_cons_of_mem _ h1, h2⟩
      by_cases h1 : f = b!"/FlateDecode"
      · rw [if_pos h1] at h
        cases hf : flateStage s parms i with
        | error e =>
          rw [hf] at h
          cases h
          obtain ⟨p, hp, hb⟩ := flateStage_stuck hf
          exact ⟨by rw [h1]; exact List.mem_cons_self, p, List.mem_of_getElem? hp, hb⟩
        | ok x =>
          rw [hf] at h
          refine go x errFlate ?_
          cases x <;> exact h
      rw [if_neg h1] at h
      by_cases h2 : f = b!"/ASCIIHexDecode"
      · rw [if_pos h2] at h
        refine go (unhexlify s) errHex ?_
        cases hx : unhexlify s <;> rw [hx] at h <;> exact h
      rw [if_neg h2] at h
      by_cases h3 : f = b!"/ASCII85Decode"
      · rw [if_pos h3] at h
        refine go (a85decode s) err85 ?_
        cases hx : a85decode s <;> rw [hx] at h <;> exact h
      rw [if_neg h3] at h
      cases h
    · cases h

/-- Data that are never decoded. -/
theorem decodeStream_stuck {s : Bytes} {d : Dict} (h : decodeStream s d = .error .nonterm) :
    ∃ o p, Dict.get? d b!"/DecodeParms" = some o ∧ (o = .dict p ∨ ∃ l, o = .list l ∧ .dict p ∈ l) ∧
      BadColumns s p := by
  unfold decodeStream at h
  cases hf : Dict.get? d b!"/Filter" with
  | none => rw [hf] at h; cases h
  | some flt =>
    rw [hf] at h
    simp only at h
    split at h
    · cases h
    · rename_i filters _
      split at h
      · obtain ⟨-, p, hp, hb⟩ := decodeLoop_stuck _ _ _ h
        exact absurd (List.eq_of_mem_replicate hp) (by simp)
      · rename_i p hp
        obtain ⟨-, q, hq, hb⟩ := decodeLoop_stuck _ _ _ h
        simp only [List.mem_cons, List.not_mem_nil, or_false, Option.some.injEq, Obj.dict.injEq] at hq
        subst hq
        exact ⟨_, _, hp, .inl rfl, hb⟩
      · rename_i l hl
        obtain ⟨-, q, hq, hb⟩ := decodeLoop_stuck _ _ _ h
        obtain ⟨o, ho, he⟩ := List.mem_map.mp hq
        cases he
        exact ⟨_, q, hl, .inr ⟨l, rfl, ho⟩, hb⟩
      · cases h

end Pdf
