/-
What `dependencies` collects.
-/
import Verif.Spec.Removal
import Verif.Lemmas.Pages

namespace Pdf
open Spec Spec.PageTree

theorem mem_refUnion {a b : List Ref} {r : Ref} : r ∈ refUnion a b ↔ r ∈ a ∨ r ∈ b := by
  unfold refUnion
  rw [List.mem_append, List.mem_filter]
  constructor
  · rintro (h | h)
    · exact .inl h
    · exact .inr h.1
  · rintro (h | h)
    · exact .inl h
    · by_cases ha : r ∈ a
      · exact .inl ha
      · exact .inr ⟨h, by simpa using ha⟩

theorem readOnly_depsItems {sub : Obj → Prog (List Ref)} (h : ∀ o, ReadOnly (sub o)) :
    ∀ l, ReadOnly (depsItems sub l) := by
  intro l
  induction l with
  | nil => exact .ret _
  | cons o l ih =>
    unfold depsItems
    exact (h o).bind fun _ => ih.bind fun _ => .ret _

theorem readOnly_dependencies : ∀ lim o, ReadOnly (dependencies lim o) := by
  intro lim
  induction lim with
  | zero => intro o; cases o <;> exact .raise _
  | succ lim ih =>
    intro o
    cases o with
    | dict d => exact readOnly_depsItems ih _
    | list l => exact readOnly_depsItems ih _
    | ref g n =>
      exact (ReadOnly.fetch _).bind fun _ => (ih _).bind fun _ => .ret _
    | _ => exact .ret _

theorem depsItems_spec {s : Store} {sub : Obj → Prog (List Ref)} {P : Obj → Ref → Prop}
    (hro : ∀ o, ReadOnly (sub o)) : ∀ (l : List Obj) (L : List Ref) (s' : Store),
    (∀ o ∈ l, ∀ L s', eval (sub o) s = .ok (L, s') → ∀ r, r ∈ L ↔ P o r) →
    eval (depsItems sub l) s = .ok (L, s') → ∀ r, r ∈ L ↔ ∃ o ∈ l, P o r := by
  intro l
  induction l with
  | nil => intro L s' _ h r; cases h; simp
  | cons o l ih =>
    intro L s' hsub h r
    unfold depsItems at h
    rw [eval_bind] at h
    obtain ⟨⟨a, s1⟩, h1, ha⟩ := bind_eq_ok h
    clear h
    have e1 := eval_readOnly (hro o) h1
    subst e1
    simp only at ha
    rw [eval_bind] at ha
    obtain ⟨⟨b, s2⟩, h2, hb⟩ := bind_eq_ok ha
    cases hb
    rw [mem_refUnion, hsub o (by simp) _ _ h1, ih _ _ (fun o ho => hsub o (by simp [ho])) h2]
    simp

theorem mem_downValues {d : Dict} {v : Obj} :
    v ∈ downValues d ↔ ∃ k, (k, v) ∈ d ∧ k ≠ b!"/Parent" ∧ k ≠ b!"/P" := by
  unfold downValues
  simp only [List.mem_map, List.mem_filter, Bool.and_eq_true, decide_eq_true_eq]
  constructor
  · rintro ⟨⟨k, v'⟩, ⟨h1, h2, h3⟩, rfl⟩
    exact ⟨k, h1, h2, h3⟩
  · rintro ⟨k, h1, h2, h3⟩
    exact ⟨(k, v), ⟨h1, h2, h3⟩, rfl⟩

/-- `dependencies` collects the references that the object leads to, those of streams excepted. -/
theorem dependencies_spec {s : Store} : ∀ (lim : Nat) (o : Obj) (L : List Ref) (s' : Store),
    eval (dependencies lim o) s = .ok (L, s') → ∀ r, r ∈ L ↔ Uses false s o r := by
  intro lim
  induction lim with
  | zero => intro o L s' h; cases o <;> cases h
  | succ lim ih =>
    intro o L s' h r
    cases o with
    | dict d =>
      rw [depsItems_spec (P := Uses false s) (readOnly_dependencies lim) _ _ _ (fun o _ => ih o) h]
      constructor
      · rintro ⟨v, hv, hu⟩
        obtain ⟨k, h1, h2, h3⟩ := mem_downValues.1 hv
        exact .entry h1 h2 h3 hu
      · intro hu
        cases hu with
        | entry h1 h2 h3 hu => exact ⟨_, mem_downValues.2 ⟨_, h1, h2, h3⟩, hu⟩
    | list l =>
      rw [depsItems_spec (P := Uses false s) (readOnly_dependencies lim) _ _ _ (fun o _ => ih o) h]
      constructor
      · rintro ⟨v, hv, hu⟩
        exact .item hv hu
      · intro hu
        cases hu with
        | item h1 hu => exact ⟨_, h1, hu⟩
    | ref g n =>
      unfold dependencies at h
      rw [eval_bind] at h
      obtain ⟨⟨v, s1⟩, h1, ha⟩ := bind_eq_ok h
      clear h
      have hv : s.get (.ref g n) = .ok v ∧ s1 = s := by
        unfold Prog.fetch eval at h1
        obtain ⟨v', hv, h1⟩ := bind_eq_ok h1
        cases h1
        exact ⟨hv, rfl⟩
      obtain ⟨hv, rfl⟩ := hv
      simp only at ha
      rw [eval_bind] at ha
      obtain ⟨⟨b, s2⟩, h2, hb⟩ := bind_eq_ok ha
      cases hb
      rw [mem_refUnion, ih _ _ _ h2, List.mem_singleton]
      constructor
      · rintro (rfl | hu)
        · exact .here g n
        · exact .through hv hu
      · intro hu
        cases hu with
        | here => exact .inl rfl
        | through h1 hu => rw [hv] at h1; cases h1; exact .inr hu
    | stream d x y =>
      cases h
      simp only [List.not_mem_nil, false_iff]
      intro hu
      cases hu with
      | stream hf => cases hf
    | _ =>
      cases h
      simp only [List.not_mem_nil, false_iff]
      intro hu
      cases hu

theorem readOnly_depsAll (lim : Nat) (l : List Ref) : ReadOnly (depsAll lim l) :=
  readOnly_depsItems (readOnly_dependencies lim) _

theorem depsAll_spec {s s' : Store} {lim : Nat} {l L : List Ref} (h : eval (depsAll lim l) s = .ok (L, s')) (r : Ref) :
    r ∈ L ↔ ∃ q ∈ l, Uses false s (refObj q) r := by
  unfold depsAll at h
  rw [depsItems_spec (P := Uses false s) (readOnly_dependencies lim) _ _ _ (fun o _ => dependencies_spec lim o) h]
  simp only [List.mem_map, refObj]
  constructor
  · rintro ⟨_, ⟨q, hq, rfl⟩, hu⟩; exact ⟨q, hq, hu⟩
  · rintro ⟨q, hq, hu⟩; exact ⟨_, ⟨q, hq, rfl⟩, hu⟩

end Pdf
