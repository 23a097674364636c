/-
`norm` is invisible: equality in Python's sense, and the dictionary lookups of `decode_stream`.
-/
import Verif.Lemmas.RoundTrip2

namespace Pdf
open Spec

theorem lookup_reverse_of_nodup {d : List (Bytes × Obj)} (hnd : (d.map Prod.fst).Nodup) (k : Bytes) :
    List.lookup k d.reverse = List.lookup k d := by
  induction d with
  | nil => rfl
  | cons p d ih =>
    obtain ⟨k', v⟩ := p
    simp only [List.map_cons, List.nodup_cons] at hnd
    rw [List.reverse_cons, List.lookup_append, ih hnd.2]
    by_cases hk : k = k'
    · subst hk
      have : List.lookup k d = none := by
        rw [List.lookup_eq_none_iff]
        intro p hp
        have : k ≠ p.1 := by
          intro e; apply hnd.1; rw [e]; exact List.mem_map_of_mem hp
        simpa using this
      simp [this, List.lookup]
    · have : (k == k') = false := by simpa using hk
      simp [List.lookup, this]

theorem lookup_normEntries (d : List (Bytes × Obj)) (k : Bytes) :
    List.lookup k (normEntries d) = (List.lookup k d).map norm := by
  induction d with
  | nil => rfl
  | cons p d ih =>
    obtain ⟨k', v⟩ := p
    simp only [normEntries, List.lookup]
    cases k == k' <;> simp [ih]

theorem Dict.get?_eq_lookup (d : Dict) (k : Bytes) : Dict.get? d k = List.lookup k d := rfl

theorem lookup_of_mem {d : List (Bytes × Obj)} (hnd : (d.map Prod.fst).Nodup) {k : Bytes} {v : Obj}
    (h : (k, v) ∈ d) : List.lookup k d = some v := by
  induction d with
  | nil => simp at h
  | cons p d ih =>
    obtain ⟨k', v'⟩ := p
    simp only [List.map_cons, List.nodup_cons] at hnd
    rw [List.mem_cons] at h
    rcases h with h | h
    · cases h; simp [List.lookup]
    · have : (k == k') = false := by
        have : k ≠ k' := by
          intro e; apply hnd.1; rw [← e]; exact List.mem_map_of_mem (f := Prod.fst) h
        simpa using this
      simp only [List.lookup, this]
      exact ih hnd.2 h

theorem get?_norm {d : List (Bytes × Obj)} (hnd : (d.map Prod.fst).Nodup) (k : Bytes) :
    Dict.get? (normEntries d).reverse k = (Dict.get? d k).map norm := by
  rw [Dict.get?_eq_lookup, Dict.get?_eq_lookup, lookup_reverse_of_nodup, lookup_normEntries]
  rwa [normEntries_keys]

mutual
theorem pyEq_norm : ∀ (o : Obj) (inD inA : Bool), WF inD inA o = true → pyEq o (norm o) = true
  | .null, _, _, h => by simp [WF] at h
  | .bool _, _, _, _ => by simp [norm, pyEq]
  | .int _, _, _, _ => by simp [norm, pyEq]
  | .real _ _ _, _, _, _ => by simp [norm, pyEq]
  | .str _, _, _, _ => by simp [norm, pyEq]
  | .bytes _, _, _, _ => by simp [norm, pyEq]
  | .ref _ _, _, _, _ => by simp [norm, pyEq]
  | .list l, _, _, h => by
    simp only [WF] at h
    simp only [norm, pyEq]
    exact pyEqItems_norm l _ _ h
  | .dict d, _, inA, h => by
    simp only [WF, Bool.and_eq_true, decide_eq_true_eq] at h
    simp only [norm, pyEq, Bool.and_eq_true, decide_eq_true_eq]
    refine ⟨by simp [normEntries_length], ?_⟩
    apply pyEqEntries_norm d _ _ h.1 d h.2
    intro k v hkv
    exact lookup_of_mem h.2 hkv
  | .stream _ _ _, _, _, h => by simp [WF] at h
theorem pyEqItems_norm : ∀ (l : List Obj) (inD inA : Bool), WFItems inD inA l = true →
    pyEqItems l (normItems l) = true
  | [], _, _, _ => rfl
  | o :: l, _, _, h => by
    simp only [WFItems, Bool.and_eq_true] at h
    simp only [normItems, pyEqItems, Bool.and_eq_true]
    exact ⟨pyEq_norm o _ _ h.1, pyEqItems_norm l _ _ h.2⟩
theorem pyEqEntries_norm : ∀ (e : List (Bytes × Obj)) (inD inA : Bool), WFEntries inD inA e = true →
    ∀ d : List (Bytes × Obj), (d.map Prod.fst).Nodup →
    (∀ k v, (k, v) ∈ e → List.lookup k d = some v) →
    pyEqEntries e (normEntries d).reverse = true
  | [], _, _, _, _, _, _ => rfl
  | (k, v) :: e, _, _, h, d, hnd, hl => by
    simp only [WFEntries, Bool.and_eq_true] at h
    simp only [pyEqEntries, Bool.and_eq_true]
    refine ⟨?_, pyEqEntries_norm e _ _ h.2 d hnd (fun k v hm => hl k v (by simp [hm]))⟩
    rw [lookup_reverse_of_nodup (by rwa [normEntries_keys]), lookup_normEntries,
      hl k v (by simp)]
    exact pyEq_norm v _ _ h.1.2
end

theorem noStreamNext {post : Bytes} (h : NoStreamNext post) :
    (nextToken post 0).2.2 ≠ some .stream := by
  have hg := nextToken_good post 0 (by omega)
  rcases e : nextToken post 0 with ⟨a, b, t⟩
  rw [e] at hg
  rintro ht
  simp only at ht
  subst ht
  obtain ⟨h1, h2, h3, h4, ⟨body, hs, -⟩, h6⟩ := hg
  apply h (slice post 0 a) (body ++ b!"endstream" ++ post.drop b) h6
  rw [slice_zero]
  have : post = post.take a ++ (slice post a b ++ post.drop b) := by
    have h5 : post.take a = (post.take b).take a := by rw [List.take_take]; congr 1; omega
    rw [slice, h5, ← List.append_assoc, List.take_append_drop, List.take_append_drop]
  conv => lhs; rw [this, hs]
  simp

end Pdf
