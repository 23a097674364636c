/-
Lemmas on `deep_ref_retarget` and `deep_ref_detect`.
-/
import Verif.Spec.Refs

namespace Pdf
open Spec

theorem retargetItems_get (m : RefMap) : ∀ (l : List Obj) (i : Nat),
    (deepRefRetargetItems m l)[i]? = (l[i]?).map (deepRefRetarget m)
  | [], _ => by simp [deepRefRetargetItems]
  | o :: l, 0 => by simp [deepRefRetargetItems]
  | o :: l, i + 1 => by simp [deepRefRetargetItems, retargetItems_get m l i]

theorem retargetEntries_get (m : RefMap) : ∀ (d : List (Bytes × Obj)) (i : Nat),
    (deepRefRetargetEntries m d)[i]? = (d[i]?).map (fun e => (e.1, deepRefRetarget m e.2))
  | [], _ => by simp [deepRefRetargetEntries]
  | (k, v) :: d, 0 => by simp [deepRefRetargetEntries]
  | (k, v) :: d, i + 1 => by simp [deepRefRetargetEntries, retargetEntries_get m d i]

theorem retargetItems_length (m : RefMap) : ∀ l : List Obj, (deepRefRetargetItems m l).length = l.length
  | [] => rfl
  | _ :: l => by simp [deepRefRetargetItems, retargetItems_length m l]

theorem retargetEntries_keys (m : RefMap) : ∀ d : List (Bytes × Obj),
    (deepRefRetargetEntries m d).map Prod.fst = d.map Prod.fst
  | [] => rfl
  | (_, _) :: d => by simp [deepRefRetargetEntries, retargetEntries_keys m d]

theorem nodeRetargeted_self (m : RefMap) (o : Obj) :
    NodeRetargeted (fun r => List.lookup r m) o (deepRefRetarget m o) := by
  cases o <;> simp [NodeRetargeted, deepRefRetarget, retargetItems_length, retargetEntries_keys]
  rfl

theorem refAdd_mem (l : List Ref) (x r : Ref) : r ∈ refAdd l x ↔ r ∈ l ∨ r = x := by
  unfold refAdd
  split
  · constructor
    · exact .inl
    · rintro (h | rfl) <;> assumption
  · simp

theorem refAdd_nodup {l : List Ref} (h : l.Nodup) (x : Ref) : (refAdd l x).Nodup := by
  unfold refAdd
  split
  · exact h
  · rename_i hx
    rw [List.nodup_append]
    refine ⟨h, by simp, ?_⟩
    intro a ha b hb e
    simp at hb
    subst hb; subst e
    exact hx ha

mutual
theorem collect_mem (r : Ref) : ∀ (o : Obj) (l : List Ref), r ∈ deepRefCollect l o ↔ r ∈ l ∨ Occurs r o
  | .ref g n, l => by
    rw [deepRefCollect, refAdd_mem]
    refine or_congr Iff.rfl ⟨?_, ?_⟩
    · rintro rfl; exact .here
    · intro h; cases h; rfl
  | .dict d, l => by
    rw [deepRefCollect, collectEntries_mem r d l]
    refine or_congr Iff.rfl ⟨?_, ?_⟩
    · rintro ⟨k, o, h1, h2⟩; exact .entry h1 h2
    · intro h; cases h with | entry h1 h2 => exact ⟨_, _, h1, h2⟩
  | .stream d s e, l => by
    rw [deepRefCollect, collectEntries_mem r d l]
    refine or_congr Iff.rfl ⟨?_, ?_⟩
    · rintro ⟨k, o, h1, h2⟩; exact .streamEntry h1 h2
    · intro h; cases h with | streamEntry h1 h2 => exact ⟨_, _, h1, h2⟩
  | .list os, l => by
    rw [deepRefCollect, collectItems_mem r os l]
    refine or_congr Iff.rfl ⟨?_, ?_⟩
    · rintro ⟨o, h1, h2⟩; exact .item h1 h2
    · intro h; cases h with | item h1 h2 => exact ⟨_, h1, h2⟩
  | .null, l => by simp [deepRefCollect]; intro h; cases h
  | .bool _, l => by simp [deepRefCollect]; intro h; cases h
  | .int _, l => by simp [deepRefCollect]; intro h; cases h
  | .real _ _ _, l => by simp [deepRefCollect]; intro h; cases h
  | .str _, l => by simp [deepRefCollect]; intro h; cases h
  | .bytes _, l => by simp [deepRefCollect]; intro h; cases h
theorem collectEntries_mem (r : Ref) : ∀ (d : List (Bytes × Obj)) (l : List Ref),
    r ∈ deepRefCollectEntries l d ↔ r ∈ l ∨ ∃ k o, (k, o) ∈ d ∧ Occurs r o
  | [], l => by simp [deepRefCollectEntries]
  | (k, v) :: d, l => by
    rw [deepRefCollectEntries, collectEntries_mem r d, collect_mem r v l, or_assoc]
    refine or_congr Iff.rfl ⟨?_, ?_⟩
    · rintro (h | ⟨k', o, h1, h2⟩)
      · exact ⟨k, v, by simp, h⟩
      · exact ⟨k', o, by simp [h1], h2⟩
    · rintro ⟨k', o, h1, h2⟩
      rw [List.mem_cons] at h1
      rcases h1 with h1 | h1
      · cases h1; exact .inl h2
      · exact .inr ⟨k', o, h1, h2⟩
theorem collectItems_mem (r : Ref) : ∀ (os : List Obj) (l : List Ref),
    r ∈ deepRefCollectItems l os ↔ r ∈ l ∨ ∃ o, o ∈ os ∧ Occurs r o
  | [], l => by simp [deepRefCollectItems]
  | v :: d, l => by
    rw [deepRefCollectItems, collectItems_mem r d, collect_mem r v l, or_assoc]
    refine or_congr Iff.rfl ⟨?_, ?_⟩
    · rintro (h | ⟨o, h1, h2⟩)
      · exact ⟨v, by simp, h⟩
      · exact ⟨o, by simp [h1], h2⟩
    · rintro ⟨o, h1, h2⟩
      rw [List.mem_cons] at h1
      rcases h1 with h1 | h1
      · cases h1; exact .inl h2
      · exact .inr ⟨o, h1, h2⟩
end

mutual
theorem collect_nodup : ∀ (o : Obj) (l : List Ref), l.Nodup → (deepRefCollect l o).Nodup
  | .ref _ _, _, h => by rw [deepRefCollect]; exact refAdd_nodup h _
  | .dict d, l, h => by rw [deepRefCollect]; exact collectEntries_nodup d l h
  | .stream d _ _, l, h => by rw [deepRefCollect]; exact collectEntries_nodup d l h
  | .list os, l, h => by rw [deepRefCollect]; exact collectItems_nodup os l h
  | .null, _, h | .bool _, _, h | .int _, _, h | .real _ _ _, _, h | .str _, _, h | .bytes _, _, h => by
    simpa [deepRefCollect] using h
theorem collectEntries_nodup : ∀ (d : List (Bytes × Obj)) (l : List Ref), l.Nodup →
    (deepRefCollectEntries l d).Nodup
  | [], _, h => h
  | (_, v) :: d, l, h => by
    rw [deepRefCollectEntries]; exact collectEntries_nodup d _ (collect_nodup v l h)
theorem collectItems_nodup : ∀ (os : List Obj) (l : List Ref), l.Nodup →
    (deepRefCollectItems l os).Nodup
  | [], _, h => h
  | v :: d, l, h => by
    rw [deepRefCollectItems]; exact collectItems_nodup d _ (collect_nodup v l h)
end

end Pdf
