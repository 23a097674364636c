/-
What the names and keywords of parsed objects are made of.
-/
import Verif.Lemmas.Parse
import Verif.Lemmas.Xref
import Verif.Lemmas.Shift

namespace Pdf
open Spec

mutual
/-- Every name or keyword in the object (keys included) satisfies `P`. -/
def strsIn (P : Bytes → Prop) : Obj → Prop
  | .str s => P s
  | .list l => strsItems P l
  | .dict d => strsEntries P d
  | .stream d _ _ => strsEntries P d
  | _ => True
def strsItems (P : Bytes → Prop) : List Obj → Prop
  | [] => True
  | o :: l => strsIn P o ∧ strsItems P l
def strsEntries (P : Bytes → Prop) : List (Bytes × Obj) → Prop
  | [] => True
  | (k, v) :: d => P k ∧ strsIn P v ∧ strsEntries P d
end

variable {P : Bytes → Prop}

theorem strsItems_iff : ∀ l : List Obj, strsItems P l ↔ ∀ o ∈ l, strsIn P o
  | [] => by simp [strsItems]
  | o :: l => by simp [strsItems, strsItems_iff l]

theorem strsEntries_iff : ∀ d : Dict, strsEntries P d ↔ ∀ p ∈ d, P p.1 ∧ strsIn P p.2
  | [] => by simp [strsEntries]
  | (k, v) :: d => by simp [strsEntries, strsEntries_iff d, and_assoc]

theorem strsEntries_set : ∀ (d : Dict) (k : Bytes) (v : Obj), strsEntries P d → P k → strsIn P v →
    strsEntries P (Dict.set d k v)
  | [], k, v, _, hk, hv => by simp [Dict.set, strsEntries, hk, hv]
  | (k', v') :: d, k, v, hd, hk, hv => by
    obtain ⟨h1, h2, h3⟩ := hd
    rw [Dict.set]
    split
    · exact ⟨by assumption, hv, h3⟩
    · exact ⟨h1, h2, strsEntries_set d k v h3 hk hv⟩

theorem complexOf_strs {o r : Obj} (h : complexOf o = .ok r) : strsIn P r := by
  unfold complexOf at h
  split at h
  · split at h <;> cases h; trivial
  · cases h; trivial
  · split at h <;> cases h; trivial
  · cases h; trivial
  · cases h

theorem replaceRef_strs : ∀ (n : Nat) (l l' : List Obj), l.length ≤ n → replaceRef l = .ok l' →
    strsItems P l → strsItems P l' := by
  intro n
  induction n with
  | zero =>
    intro l l' hl h hs
    cases l with
    | nil => cases h; trivial
    | cons => simp at hl
  | succ n ih =>
    intro l l' hl h hs
    rw [replaceRef.eq_def] at h
    split at h
    · rename_i a b c rest
      obtain ⟨h1, h2, h3, h4⟩ := hs
      simp only [List.length_cons] at hl
      split at h
      · obtain ⟨r, hr, h⟩ := bind_eq_ok h
        obtain ⟨l1, hl1, h⟩ := bind_eq_ok h
        cases h
        exact ⟨complexOf_strs hr, ih _ _ (by omega) hl1 h4⟩
      · obtain ⟨l1, hl1, h⟩ := bind_eq_ok h
        cases h
        exact ⟨h1, ih _ _ (by simp; omega) hl1 ⟨h2, h3, h4⟩⟩
    · cases h; exact hs

theorem setKey_strs {d d' : Dict} {k v : Obj} (h : setKey d k v = .ok d') (hd : strsEntries P d)
    (hk : strsIn P k) (hv : strsIn P v) : strsEntries P d' := by
  unfold setKey at h
  split at h
  · cases h; exact strsEntries_set _ _ _ hd hk hv
  all_goals cases h

theorem pairUp_strs : ∀ (n : Nat) (l : List Obj) (d d' : Dict), l.length ≤ n → pairUp d l = .ok d' →
    strsEntries P d → strsItems P l → strsEntries P d' := by
  intro n
  induction n with
  | zero =>
    intro l d d' hl h hd hs
    cases l with
    | nil => cases h; exact hd
    | cons => simp at hl
  | succ n ih =>
    intro l d d' hl h hd hs
    rw [pairUp.eq_def] at h
    split at h
    · simp only [List.length_cons] at hl
      obtain ⟨h1, h2, h3⟩ := hs
      obtain ⟨d1, hd1, h⟩ := bind_eq_ok h
      exact ih _ _ _ (by omega) h (setKey_strs hd1 hd h2 h1) h3
    · cases h; exact hd

theorem strsItems_reverse {l : List Obj} (h : strsItems P l) : strsItems P l.reverse := by
  rw [strsItems_iff] at *
  intro o ho
  exact h o (List.mem_reverse.1 ho)

/-- Lexical: `P` holds of names and keywords. -/
def LexOk (P : Bytes → Prop) : Prop :=
  P [] ∧ ∀ first s after, (first = b!"/" ∨ first = letters) → Word first s after → P s

theorem dedicated_strs (hP : LexOk P) {text : Bytes} {i h j : Nat} {t : Option TokT} {o : Obj}
    (hnt : nextToken text i = (h, j, t)) (hd : dedicatedType (slice text h j) t = .ok o) : strsIn P o := by
  have word : ∀ t', t = some t' → Shape t' (slice text h j) (text.drop j) := by
    rintro t' rfl
    have b := nextToken_typed hnt
    have hg := nextToken_good text i (by omega)
    rw [hnt] at hg
    exact hg.2.2.2.2.1
  unfold dedicatedType at hd
  split at hd
  · cases hp : orRaise .valueError (pyInt (slice text h j)) <;> rw [hp] at hd <;> cases hd
    trivial
  · unfold pyFloat at hd
    simp only at hd
    repeat' split at hd
    all_goals cases hd
    all_goals trivial
  · cases hd; trivial
  · cases hd; trivial
  · split at hd <;> cases hd
    exact hP.2 _ _ _ (.inr rfl) (word _ rfl).1
  · split at hd <;> cases hd
    exact hP.2 _ _ _ (.inl rfl) (word _ rfl)
  · cases hd; trivial

variable [Zlib]

theorem parse_strs (hP : LexOk P) : ∀ n : Nat,
    (∀ text start o, parseObjF n text start = .ok o → strsIn P o) ∧
    (∀ text i j1 l, dictItemsF n text i j1 = .ok l → strsItems P l) ∧
    (∀ text i j1 l, arrayItemsF n text i j1 = .ok l → strsItems P l) := by
  intro n
  induction n with
  | zero =>
    refine ⟨?_, ?_, ?_⟩
    · intro text start o h; rw [parseObjF] at h; cases h
    · intro text i j1 l h; rw [dictItemsF] at h; cases h
    · intro text i j1 l h; rw [arrayItemsF] at h; cases h
  | succ n ih =>
    obtain ⟨ihP, ihD, ihA⟩ := ih
    have item : ∀ {text : Bytes} {i h i' : Nat} {t : TokT} {o : Obj}, nextToken text i = (h, i', some t) →
        (if t = .dict ∨ t = .array then parseObjF n (slice text h i') 0
          else dedicatedType (slice text h i') (some t)) = .ok o → strsIn P o := by
      intro text i h i' t o hnt ho
      split at ho
      · exact ihP _ _ _ ho
      · exact dedicated_strs hP hnt ho
    refine ⟨?_, ?_, ?_⟩
    · intro text start o h
      rw [parseObjF] at h
      rcases hnt : nextToken text start with ⟨h1, j1, t1⟩
      rw [hnt] at h
      cases t1 with
      | none => exact dedicated_strs hP hnt h
      | some t1 =>
        cases t1 with
        | dict =>
          simp only at h
          have key : (match dictItemsF n text (start + 2) j1 with
              | .error e => .error e
              | .ok items =>
                match replaceRef items with
                | .error e => .error e
                | .ok items => (pairUp [] items.reverse).map .dict : Py Obj) = .ok o → strsIn P o := by
            intro h
            cases hd : dictItemsF n text (start + 2) j1 with
            | error e => rw [hd] at h; cases h
            | ok items =>
              rw [hd] at h
              simp only at h
              cases hr : replaceRef items with
              | error e => rw [hr] at h; cases h
              | ok items' =>
                rw [hr] at h
                simp only at h
                cases hp : pairUp [] items'.reverse with
                | error e => rw [hp] at h; cases h
                | ok d =>
                  rw [hp] at h
                  cases h
                  exact pairUp_strs _ _ _ _ (Nat.le_refl _) hp trivial
                    (strsItems_reverse (replaceRef_strs _ _ _ (Nat.le_refl _) hr (ihD _ _ _ _ hd)))
          rcases hnt2 : nextToken text j1 with ⟨h2, j2, t2⟩
          rw [hnt2] at h
          cases t2 with
          | none => exact key h
          | some t2 =>
            cases t2 with
            | stream =>
              simp only at h
              cases hp : parseObjF n (slice text h1 j1) 0 with
              | error e => rw [hp] at h; cases h
              | ok x =>
                rw [hp] at h
                cases x with
                | dict d =>
                  simp only at h
                  cases hc : streamContent (slice text h2 j2) with
                  | none => rw [hc] at h; cases h
                  | some enc =>
                    rw [hc] at h
                    simp only at h
                    cases hd : decodeStream enc d with
                    | error e => rw [hd] at h; cases h
                    | ok c =>
                      rw [hd] at h
                      cases h
                      have := ihP _ _ _ hp
                      simpa only [strsIn] using this
                | _ => cases h
            | _ => exact key h
        | array =>
          simp only at h
          cases hd : arrayItemsF n text (start + 1) j1 with
          | error e => rw [hd] at h; cases h
          | ok items =>
            rw [hd] at h
            simp only at h
            cases hr : replaceRef items with
            | error e => rw [hr] at h; cases h
            | ok items' =>
              rw [hr] at h
              cases h
              exact replaceRef_strs _ _ _ (Nat.le_refl _) hr (ihA _ _ _ _ hd)
        | stream =>
          cases h
          cases streamContent (slice text h1 j1) <;> trivial
        | comment => cases h; exact hP.1
        | _ => exact dedicated_strs hP hnt h
    · intro text i j1 l h
      rw [dictItemsF] at h
      split at h
      · rcases hnt : nextToken text i with ⟨h0, i', t⟩
        rw [hnt] at h
        cases t with
        | none =>
          simp only at h
          split at h
          · cases h
          · exact ihD _ _ _ _ h
        | some t =>
          by_cases hc : t = .comment
          · subst hc; exact ihD _ _ _ _ h
          · have h' : (if i' < j1 then
                match (if t = .dict ∨ t = .array then parseObjF n (slice text h0 i') 0
                  else dedicatedType (slice text h0 i') (some t)) with
                | .error e => .error e
                | .ok obj =>
                  match dictItemsF n text i' j1 with
                  | .error e => .error e
                  | .ok l => .ok (obj :: l)
              else dictItemsF n text i' j1 : Py (List Obj)) = .ok l := by
              cases t <;> first | exact h | exact absurd rfl hc
            split at h'
            · split at h'
              · cases h'
              · rename_i ho
                split at h'
                · cases h'
                · rename_i hd
                  cases h'
                  exact ⟨item hnt ho, ihD _ _ _ _ hd⟩
            · exact ihD _ _ _ _ h'
      · cases h; trivial
    · intro text i j1 l h
      rw [arrayItemsF] at h
      split at h
      · rcases hnt : nextToken text i with ⟨h0, i', t⟩
        rw [hnt] at h
        cases t with
        | none =>
          simp only at h
          split at h
          · cases h
          · exact ihA _ _ _ _ h
        | some t =>
          by_cases hc : t = .comment
          · subst hc; exact ihA _ _ _ _ h
          · have h' : (match (if t = .dict ∨ t = .array then parseObjF n (slice text h0 i') 0
                  else dedicatedType (slice text h0 i') (some t)) with
                | .error e => .error e
                | .ok obj =>
                  match arrayItemsF n text i' j1 with
                  | .error e => .error e
                  | .ok l => .ok (obj :: l) : Py (List Obj)) = .ok l := by
              cases t <;> first | exact h | exact absurd rfl hc
            split at h'
            · cases h'
            · rename_i ho
              split at h'
              · cases h'
              · rename_i hd
                cases h'
                exact ⟨item hnt ho, ihA _ _ _ _ hd⟩
      · cases h; trivial

/-- The names and keywords of a parsed object. -/
theorem parseObj_strs (hP : LexOk P) {text : Bytes} {i : Nat} {o : Obj} (h : parseObj text i = .ok o) :
    strsIn P o := (parse_strs hP _).1 _ _ _ h

end Pdf
