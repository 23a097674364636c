/-
What a text on which the parser diverges contains.
-/
import Verif.Lemmas.Stuck
import Verif.Lemmas.ObjStm

namespace Pdf
open Spec

/-- The string `k` appears in an object, as a key or as a value, outside of streams. -/
inductive Holds (k : Bytes) : Obj → Prop
  | str : Holds k (.str k)
  | key {d : Dict} {v : Obj} : (k, v) ∈ d → Holds k (.dict d)
  | val {d : Dict} {k' : Bytes} {v : Obj} : (k', v) ∈ d → Holds k v → Holds k (.dict d)
  | item {l : List Obj} {o : Obj} : o ∈ l → Holds k o → Holds k (.list l)

theorem pairUp_holds {k : Bytes} : ∀ (n : Nat) (l : List Obj) (d d' : Dict), l.length ≤ n →
    pairUp d l = .ok d' → Holds k (.dict d') → Holds k (.dict d) ∨ ∃ o ∈ l, Holds k o := by
  intro n
  induction n with
  | zero =>
    intro l d d' hl h hh
    cases l with
    | nil => cases h; exact .inl hh
    | cons => simp at hl
  | succ n ih =>
    intro l d d' hl h hh
    rw [pairUp.eq_def] at h
    split at h
    · rename_i val key rest
      obtain ⟨d1, h1, h2⟩ := bind_eq_ok h
      simp only [List.length_cons] at hl
      rcases ih rest d1 d' (by omega) h2 hh with hd | ⟨o, ho, hk⟩
      · unfold setKey at h1
        split at h1 <;> try cases h1
        rename_i k0
        cases hd with
        | key hm =>
          rcases mem_set hm with hm | hm
          · exact .inl (.key hm)
          · cases hm; exact .inr ⟨.str k, by simp, .str⟩
        | val hm hv =>
          rcases mem_set hm with hm | hm
          · exact .inl (.val hm hv)
          · cases hm; exact .inr ⟨_, by simp, hv⟩
      · exact .inr ⟨o, by simp [ho], hk⟩
    · cases h; exact .inl hh

theorem complexOf_holds {k : Bytes} {a r : Obj} (h : complexOf a = .ok r) : ¬ Holds k r := by
  unfold complexOf at h
  split at h
  · split at h <;> cases h; intro hh; cases hh
  · cases h; intro hh; cases hh
  · split at h <;> cases h; intro hh; cases hh
  · cases h; intro hh; cases hh
  · cases h

theorem replaceRef_holds {k : Bytes} : ∀ (n : Nat) (l l' : List Obj) (o : Obj), l.length ≤ n →
    replaceRef l = .ok l' → o ∈ l' → Holds k o → o ∈ l := by
  intro n
  induction n with
  | zero =>
    intro l l' o hl h ho hk
    cases l with
    | nil => cases h; exact ho
    | cons => simp at hl
  | succ n ih =>
    intro l l' o hl h ho hk
    rw [replaceRef.eq_def] at h
    split at h
    · rename_i a b c rest
      simp only [List.length_cons] at hl
      split at h
      · obtain ⟨r, h1, h2⟩ := bind_eq_ok h
        obtain ⟨l1, h3, h4⟩ := bind_eq_ok h2
        cases h4
        rcases List.mem_cons.mp ho with rfl | ho
        · exact absurd hk (complexOf_holds h1)
        · have := ih rest l1 o (by omega) h3 ho hk
          simp [this]
      · obtain ⟨l1, h3, h4⟩ := bind_eq_ok h
        cases h4
        rcases List.mem_cons.mp ho with rfl | ho
        · simp
        · have := ih _ l1 o (by simp; omega) h3 ho hk
          exact List.mem_cons_of_mem _ this
    · cases h; exact ho

theorem slice_infix (text : Bytes) (a b : Nat) : slice text a b <:+: text :=
  (List.drop_suffix _ _).isInfix.trans (List.take_prefix _ _).isInfix

theorem dedicatedType_holds {k s : Bytes} {t : Option TokT} {o : Obj} (h : dedicatedType s t = .ok o)
    (hk : Holds k o) : k = s := by
  unfold dedicatedType at h
  split at h
  · cases hp : pyInt s <;> rw [hp] at h <;> cases h
    cases hk
  · unfold pyFloat at h
    simp only at h
    split at h
    · split at h
      · split at h <;> cases h
        cases hk
      · split at h <;> cases h
    · split at h <;> cases h
  · cases h; cases hk
  · cases h; cases hk
  · split at h <;> cases h
    cases hk; rfl
  · split at h <;> cases h
    cases hk; rfl
  · cases h; cases hk

theorem entry_of_lookup {k : Bytes} {v : Obj} : ∀ {d : Dict}, Dict.get? d k = some v → (k, v) ∈ d
  | [], h => by cases h
  | (k', v') :: d, h => by
    unfold Dict.get? List.lookup at h
    split at h
    · rename_i hk
      cases h
      simp only [beq_iff_eq] at hk
      simp [hk]
    · exact List.mem_cons_of_mem _ (entry_of_lookup h)

variable [Zlib]

theorem holds_infix (k : Bytes) : ∀ n : Nat,
    (∀ text start o, 2 * text.length + 1 ≤ n → start ≤ text.length →
      parseObj text start = .ok o → Holds k o → k <:+: text) ∧
    (∀ d text i j1 l o, j1 ≤ text.length → 2 * (text.length - i) + 2 ≤ n → 1 ≤ i →
      itemsOf d text i j1 = .ok l → o ∈ l → Holds k o → k <:+: text) := by
  intro n
  induction n with
  | zero => refine ⟨?_, ?_⟩ <;> intros <;> omega
  | succ n ih =>
    obtain ⟨ihP, ihD⟩ := ih
    refine ⟨?_, ?_⟩
    · intro text start o hn hs hp hk
      rcases hnt : nextToken text start with ⟨h1, j1, t1⟩
      have hb := nextToken_le hnt hs
      by_cases hd : t1 = some .dict
      · subst hd
        have b1 := nextToken_typed hnt
        rcases hnt2 : nextToken text j1 with ⟨h2, j2, t2⟩
        by_cases h2s : t2 = some .stream
        · subst h2s
          rw [parseObj_stream hnt hnt2] at hp
          exfalso
          split at hp
          · cases hp
          · split at hp
            · cases hp
            · split at hp
              · cases hp
              · cases hp; cases hk
          · cases hp
        · rw [parseObj_dict hnt (by rw [hnt2]; exact h2s)] at hp
          split at hp
          · cases hp
          rename_i items hi
          split at hp
          · cases hp
          rename_i items' hr
          cases hq : pairUp [] items'.reverse with
          | error e => rw [hq] at hp; cases hp
          | ok d =>
            rw [hq] at hp
            cases hp
            rcases pairUp_holds _ _ _ _ (Nat.le_refl _) hq hk with h0 | ⟨o, ho, hk⟩
            · cases h0 with
              | key hm => cases hm
              | val hm => cases hm
            · have := replaceRef_holds _ _ _ _ (Nat.le_refl _) hr (List.mem_reverse.mp ho) hk
              exact ihD true text (start + 2) j1 items o b1.2.2 (by omega) (by omega)
                (by simpa [itemsOf] using hi) this hk
      by_cases ha : t1 = some .array
      · subst ha
        have b1 := nextToken_typed hnt
        rw [parseObj_array hnt] at hp
        split at hp
        · cases hp
        rename_i items hi
        cases hr : replaceRef items with
        | error e => rw [hr] at hp; cases hp
        | ok items' =>
          rw [hr] at hp
          cases hp
          cases hk with
          | item ho hk =>
            have := replaceRef_holds _ _ _ _ (Nat.le_refl _) hr ho hk
            exact ihD false text (start + 1) j1 items _ b1.2.2 (by omega) (by omega)
                (by simpa [itemsOf] using hi) this hk
      unfold parseObj parseFuel at hp
      rw [parseObjF, hnt] at hp
      have fin : ∀ t, dedicatedType (slice text h1 j1) t = .ok o → k <:+: text := by
        intro t ht
        rw [dedicatedType_holds ht hk]
        exact slice_infix _ _ _
      cases t1 with
      | none => exact fin _ hp
      | some t =>
        cases t <;> first | exact absurd rfl hd | exact absurd rfl ha | exact fin _ hp | skip
        all_goals simp only [Except.ok.injEq] at hp
        all_goals subst hp
        all_goals first
          | (cases hk; exact ⟨[], text, rfl⟩)
          | (exfalso; split at hk <;> cases hk)
    · intro d text i j1 l o hj hn h1i hp ho hk
      rw [itemsOf_eq] at hp
      by_cases hij : i < j1 - 1
      rotate_left
      · rw [if_neg hij] at hp; cases hp; cases ho
      rw [if_pos hij] at hp
      rcases hnt : nextToken text i with ⟨h, i', t⟩
      have hb := nextToken_le hnt (by omega)
      rw [hnt] at hp
      cases t with
      | none =>
        simp only at hp
        by_cases hl : i' ≤ i
        · rw [if_pos hl] at hp; cases hp
        · rw [if_neg hl] at hp
          exact ihD d text i' j1 l o hj (by omega) (by omega) hp ho hk
      | some t =>
        have b := nextToken_typed hnt
        simp only at hp
        split at hp
        · exact ihD d text i' j1 l o hj (by omega) (by omega) hp ho hk
        · cases hv : itemVal text h i' t with
          | error e => rw [hv] at hp; cases hp
          | ok v =>
            rw [hv] at hp
            simp only at hp
            cases hr : itemsOf d text i' j1 with
            | error e => rw [hr] at hp; cases hp
            | ok l' =>
              rw [hr] at hp
              cases hp
              rcases List.mem_cons.mp ho with rfl | ho
              · unfold itemVal at hv
                split at hv
                · exact (ihP _ _ _ (by rw [slice_length]; omega) (by omega) hv hk).trans (slice_infix _ _ _)
                · rw [dedicatedType_holds hv hk]
                  exact slice_infix _ _ _
              · exact ihD d text i' j1 l' o hj (by omega) (by omega) hr ho hk

/-- A key of a parsed dictionary is written in the text. -/
theorem parse_holds {k text : Bytes} {o : Obj} (h : parseObj text 0 = .ok o) (hk : Holds k o) : k <:+: text :=
  (holds_infix k _).1 text 0 o (Nat.le_refl _) (by omega) h hk

/-- What a text that is never parsed contains. -/
def Suspect (text : Bytes) : Prop := 93 ∈ text ∨ b!"/Columns" <:+: text

omit [Zlib] in
theorem Suspect.of_slice {text : Bytes} {a b : Nat} (h : Suspect (slice text a b)) : Suspect text :=
  h.elim (fun h => .inl ((slice_infix _ _ _).subset h)) (fun h => .inr (h.trans (slice_infix _ _ _)))

mutual
theorem stuck_suspect {text : Bytes} {start : Nat} : Stuck text start → Suspect text
  | .dict _ _ h => stuckAmong_suspect h
  | .array _ h => stuckAmong_suspect h
  | .entries _ _ h => (stuck_suspect h).of_slice
  | .data (h := a) (j := b) (d := d) _ _ hp _ hs => by
    obtain ⟨o, p, ho, hop, res, oc, c, -, -, -, hc, -⟩ := decodeStream_stuck hs
    have hcol : Holds b!"/Columns" (.dict p) := .key (entry_of_lookup hc)
    have : Holds b!"/Columns" (.dict d) := by
      rcases hop with rfl | ⟨l, rfl, hl⟩
      · exact .val (entry_of_lookup ho) hcol
      · exact .val (entry_of_lookup ho) (.item hl hcol)
    exact Suspect.of_slice (.inr (parse_holds hp this))
theorem stuckAmong_suspect {d : Bool} {text : Bytes} {i j : Nat} : StuckAmong d text i j → Suspect text
  | .bracket _ h => .inl (List.mem_of_getElem? h)
  | .skip _ _ _ _ h => stuckAmong_suspect h
  | .inside _ _ _ _ h => (stuck_suspect h).of_slice
  | .after _ _ _ _ h => stuckAmong_suspect h
end

end Pdf
