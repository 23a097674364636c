/-
Renumbering of references: what `deep_ref_retarget` does, and walks in a renumbered document.
-/
import Verif.Spec.Renumber
import Verif.Lemmas.Refs
import Verif.Lemmas.RemovalEval

namespace Pdf
open Spec

/-- The mapping, as a function. -/
def RefMap.apply (m : RefMap) (r : Ref) : Ref := (List.lookup r m).getD r

theorem renumberItems_get (f : Ref → Ref) : ∀ (l : List Obj) (i : Nat),
    (renumberItems f l)[i]? = (l[i]?).map (renumber f)
  | [], _ => by simp [renumberItems]
  | o :: l, 0 => by simp [renumberItems]
  | o :: l, i + 1 => by simp [renumberItems, renumberItems_get f l i]

theorem renumberEntries_get (f : Ref → Ref) (k : Bytes) : ∀ (d : List (Bytes × Obj)),
    Dict.get? (renumberEntries f d) k = (Dict.get? d k).map (renumber f)
  | [] => rfl
  | (k', v) :: d => by
    have ih := renumberEntries_get f k d
    unfold Dict.get? at ih ⊢
    by_cases h : k = k'
    · simp [renumberEntries, h]
    · have hb : (k == k') = false := by simpa using h
      simp only [renumberEntries, List.lookup_cons, hb, ih]

theorem occurs_ref {r : Ref} {g n : Int} (h : Occurs r (.ref g n)) : r = (g, n) := by
  cases h
  rfl

mutual
theorem renumber_congr {f g : Ref → Ref} : ∀ (o : Obj), (∀ r, Occurs r o → f r = g r) → renumber f o = renumber g o
  | .ref a n, h => by simp only [renumber, h (a, n) .here]
  | .list l, h => by
    simp only [renumber]
    rw [renumberItems_congr l fun o ho r hr => h r (.item ho hr)]
  | .dict d, h => by
    simp only [renumber]
    rw [renumberEntries_congr d fun k o ho r hr => h r (.entry ho hr)]
  | .stream d _ _, h => by
    simp only [renumber]
    rw [renumberEntries_congr d fun k o ho r hr => h r (.streamEntry ho hr)]
  | .null, _ => rfl
  | .bool _, _ => rfl
  | .int _, _ => rfl
  | .real _ _ _, _ => rfl
  | .str _, _ => rfl
  | .bytes _, _ => rfl
theorem renumberItems_congr {f g : Ref → Ref} : ∀ (l : List Obj),
    (∀ o ∈ l, ∀ r, Occurs r o → f r = g r) → renumberItems f l = renumberItems g l
  | [], _ => rfl
  | o :: l, h => by
    simp only [renumberItems]
    rw [renumber_congr o (h o (by simp)), renumberItems_congr l fun x hx => h x (by simp [hx])]
theorem renumberEntries_congr {f g : Ref → Ref} : ∀ (d : List (Bytes × Obj)),
    (∀ k o, (k, o) ∈ d → ∀ r, Occurs r o → f r = g r) → renumberEntries f d = renumberEntries g d
  | [], _ => rfl
  | (k, o) :: l, h => by
    simp only [renumberEntries]
    rw [renumber_congr o (h k o (by simp)), renumberEntries_congr l fun k' x hx => h k' x (by simp [hx])]
end

mutual
theorem renumber_id : ∀ (o : Obj), renumber (fun r => r) o = o
  | .ref a n => rfl
  | .list l => by simp only [renumber, renumberItems_id l]
  | .dict d => by simp only [renumber, renumberEntries_id d]
  | .stream d _ _ => by simp only [renumber, renumberEntries_id d]
  | .null => rfl
  | .bool _ => rfl
  | .int _ => rfl
  | .real _ _ _ => rfl
  | .str _ => rfl
  | .bytes _ => rfl
theorem renumberItems_id : ∀ (l : List Obj), renumberItems (fun r => r) l = l
  | [] => rfl
  | o :: l => by simp only [renumberItems, renumber_id o, renumberItems_id l]
theorem renumberEntries_id : ∀ (d : List (Bytes × Obj)), renumberEntries (fun r => r) d = d
  | [] => rfl
  | (k, o) :: d => by simp only [renumberEntries, renumber_id o, renumberEntries_id d]
end

theorem renumber_fixed {f : Ref → Ref} {o : Obj} (h : ∀ r, Occurs r o → f r = r) : renumber f o = o := by
  rw [renumber_congr (g := fun r => r) o h, renumber_id]

theorem noStream_item {l : List Obj} {o : Obj} (h : NoStream (.list l)) (ho : o ∈ l) : NoStream o := by
  intro p d s e hp
  obtain ⟨i, hi⟩ := List.mem_iff_getElem?.1 ho
  refine h (i :: p) d s e ?_
  simp only [at?, hi, Option.bind_some, hp]

theorem noStream_entry {l : List (Bytes × Obj)} {k : Bytes} {o : Obj} (h : NoStream (.dict l)) (ho : (k, o) ∈ l) :
    NoStream o := by
  intro p d s e hp
  obtain ⟨i, hi⟩ := List.mem_iff_getElem?.1 ho
  refine h (i :: p) d s e ?_
  simp only [at?, hi, Option.bind_some, hp]

mutual
theorem retarget_noStream (m : RefMap) : ∀ (o : Obj), NoStream o → deepRefRetarget m o = renumber m.apply o
  | .ref a n, h => by
    simp only [deepRefRetarget, renumber, RefMap.apply]
    cases List.lookup (a, n) m <;> rfl
  | .list l, h => by
    simp only [renumber, deepRefRetarget]
    rw [retargetItems_noStream m l fun o ho => noStream_item h ho]
  | .dict d, h => by
    simp only [renumber, deepRefRetarget]
    rw [retargetEntries_noStream m d fun k o ho => noStream_entry h ho]
  | .stream d s e, h => absurd rfl (h [] d s e)
  | .null, _ => rfl
  | .bool _, _ => rfl
  | .int _, _ => rfl
  | .real _ _ _, _ => rfl
  | .str _, _ => rfl
  | .bytes _, _ => rfl
theorem retargetItems_noStream (m : RefMap) : ∀ (l : List Obj),
    (∀ o ∈ l, NoStream o) → deepRefRetargetItems m l = renumberItems m.apply l
  | [], _ => rfl
  | o :: l, h => by
    simp only [renumberItems, deepRefRetargetItems]
    rw [retarget_noStream m o (h o (by simp)), retargetItems_noStream m l fun x hx => h x (by simp [hx])]
theorem retargetEntries_noStream (m : RefMap) : ∀ (d : List (Bytes × Obj)),
    (∀ k o, (k, o) ∈ d → NoStream o) → deepRefRetargetEntries m d = renumberEntries m.apply d
  | [], _ => rfl
  | (k, o) :: l, h => by
    simp only [renumberEntries, deepRefRetargetEntries]
    rw [retarget_noStream m o (h k o (by simp)), retargetEntries_noStream m l fun k' x hx => h k' x (by simp [hx])]
end

/-- Where it has no reference to move in a stream dictionary, `deep_ref_retarget` renumbers. -/
theorem retarget_renumber {m : RefMap} {f : Ref → Ref} {o : Obj} (hs : StreamsFixed f o)
    (h : ∀ r, Occurs r o → m.apply r = f r) : deepRefRetarget m o = renumber f o := by
  rcases hs with hs | ⟨d, s, e, rfl, hfix⟩
  · rw [retarget_noStream m o hs, renumber_congr o h]
  · rw [renumber_fixed hfix]
    rfl

/-- A walk in a document and in the renumbered document. -/
theorem walk_renumber {s s' : Store} {f : Ref → Ref} {P : Ref → Prop}
    (hget : ∀ g n, P (g, n) → ∃ v, s.get (.ref g n) = .ok v ∧
      s'.get (renumber f (.ref g n)) = .ok (renumber f v) ∧ ∀ r, Occurs r v → P r) :
    ∀ (p : List Step) (o : Obj), (∀ r, Occurs r o → P r) →
      walk s' p (renumber f o) = (walk s p o).map (renumber f)
  | [], o, _ => by simp [walk]
  | .key k :: p, o, ho => by
    cases o with
    | dict d =>
      simp only [renumber, walk, renumberEntries_get]
      rcases hk : Dict.get? d k with _ | v
      · rfl
      · exact walk_renumber hget p v fun r hr => ho r (.entry (Dict.mem_of_get? hk) hr)
    | stream d _ _ =>
      simp only [renumber, walk, renumberEntries_get]
      rcases hk : Dict.get? d k with _ | v
      · rfl
      · exact walk_renumber hget p v fun r hr => ho r (.streamEntry (Dict.mem_of_get? hk) hr)
    | _ => rfl
  | .idx i :: p, o, ho => by
    cases o with
    | list l =>
      simp only [renumber, walk, renumberItems_get]
      rcases hk : l[i]? with _ | v
      · rfl
      · exact walk_renumber hget p v fun r hr => ho r (.item (List.mem_of_getElem? hk) hr)
    | _ => rfl
  | .go :: p, o, ho => by
    cases o with
    | ref g n =>
      obtain ⟨v, h1, h2, h3⟩ := hget g n (ho _ .here)
      simp only [renumber] at h2
      simp only [renumber, walk, h1, h2]
      exact walk_renumber hget p v h3
    | _ => rfl

/-! ### Checks on given objects -/

mutual
def noStreamB : Obj → Bool
  | .stream _ _ _ => false
  | .list l => noStreamItems l
  | .dict d => noStreamEntries d
  | _ => true
def noStreamItems : List Obj → Bool
  | [] => true
  | o :: l => noStreamB o && noStreamItems l
def noStreamEntries : List (Bytes × Obj) → Bool
  | [] => true
  | (_, o) :: d => noStreamB o && noStreamEntries d
end

theorem noStreamItems_mem : ∀ {l : List Obj}, noStreamItems l = true → ∀ o ∈ l, noStreamB o = true
  | [], _, o, h => by simp at h
  | a :: l, hl, o, h => by
    simp only [noStreamItems, Bool.and_eq_true] at hl
    rcases List.mem_cons.1 h with rfl | h
    · exact hl.1
    · exact noStreamItems_mem hl.2 o h

theorem noStreamEntries_mem : ∀ {l : List (Bytes × Obj)}, noStreamEntries l = true → ∀ e ∈ l, noStreamB e.2 = true
  | [], _, o, h => by simp at h
  | (k, a) :: l, hl, o, h => by
    simp only [noStreamEntries, Bool.and_eq_true] at hl
    rcases List.mem_cons.1 h with rfl | h
    · exact hl.1
    · exact noStreamEntries_mem hl.2 o h

theorem noStream_of : ∀ (p : List Nat) (o : Obj), noStreamB o = true → ∀ d s e, at? p o ≠ some (.stream d s e)
  | [], o, h, d, s, e => by
    intro hp
    simp only [at?, Option.some.injEq] at hp
    subst hp
    cases h
  | i :: p, o, h, d, s, e => by
    cases o with
    | list l =>
      simp only [at?]
      rcases hi : l[i]? with _ | x
      · simp
      · exact noStream_of p x (noStreamItems_mem h x (List.mem_of_getElem? hi)) d s e
    | dict l =>
      simp only [at?]
      rcases hi : l[i]? with _ | x
      · simp
      · exact noStream_of p x.2 (noStreamEntries_mem h x (List.mem_of_getElem? hi)) d s e
    | stream _ _ _ => cases h
    | _ => simp [at?]

theorem noStream_check {o : Obj} (h : noStreamB o = true) : NoStream o := fun p => noStream_of p o h

theorem occurs_collect {r : Ref} {o : Obj} : Occurs r o ↔ r ∈ deepRefCollect [] o := by
  rw [collect_mem]; simp

end Pdf
