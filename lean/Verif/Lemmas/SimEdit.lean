/-
The text of a page on two maps of objects of which the second one comes from the first one by changes of dicts that leave alone what
is read to lay out pages.
-/
import Verif.Lemmas.SimRead

namespace Pdf
open Spec PageTree Prog

/-- The same object, or two dicts that agree on the entries that are read to lay out a page. -/
def Near (a b : Obj) : Prop :=
  a = b ∨ ∃ d d', a = .dict d ∧ b = .dict d' ∧ d ≠ [] ∧ d' ≠ [] ∧ ∀ k ∈ textKeys, Dict.get? d' k = Dict.get? d k

/-- `U` contains what is read from what it contains, and the objects it contains are about the same in both maps. -/
structure Safe (s s' : Store) (U : Obj → Prop) : Prop where
  null : U .null
  dw : U (.int 1000)
  entry : ∀ {d k v}, U (.dict d) → k ∈ textKeys → Dict.get? d k = some v → U v
  item : ∀ {l o}, U (.list l) → o ∈ l → U o
  font : ∀ {d f k r}, U (.dict d) → Dict.get? d b!"/Font" = some (.dict f) → (k, r) ∈ f → U r
  fetch : ∀ {a v}, U a → s.get a = .ok v → U v ∧ ∃ w, s'.get a = .ok w ∧ Near v w

theorem pointwise_self {α : Type} {R : α → α → Prop} : ∀ {l : List α}, (∀ a ∈ l, R a a) → Pointwise R l l
  | [], _ => .nil
  | _ :: _, h => .cons (h _ (List.mem_cons_self ..)) (pointwise_self fun a ha => h a (List.mem_cons_of_mem _ ha))

theorem get?_mem' {d : Dict} {k : Bytes} {v : Obj} (h : Dict.get? d k = some v) : (k, v) ∈ d := get?_mem h

theorem Safe.agree {s s' : Store} {U : Obj → Prop} (S : Safe s s' U) :
    Agree s s' (fun a b => a = b ∧ U a) (fun a b => U a ∧ Near a b) where
  up := fun h => ⟨h.2, .inl h.1⟩
  null := ⟨rfl, S.null⟩
  dw := ⟨rfl, S.dw⟩
  truthy := by
    rintro a b ⟨-, rfl | ⟨d, d', rfl, rfl, h1, h2, -⟩⟩
    · rfl
    · cases d with
      | nil => exact absurd rfl h1
      | cons _ _ => cases d' with
        | nil => exact absurd rfl h2
        | cons _ _ => rfl
  fetch := by
    rintro a b v ⟨hU, rfl | ⟨d, d', rfl, rfl, h⟩⟩ hv
    · obtain ⟨h1, w, h2, h3⟩ := S.fetch hU hv
      exact ⟨w, h2, h1, h3⟩
    · cases hv
      exact ⟨.dict d', rfl, hU, .inr ⟨d, d', rfl, rfl, h⟩⟩
  dict := by
    rintro d b ⟨hU, rfl | ⟨d1, d', h0, rfl, -, -, h⟩⟩
    · exact ⟨d, rfl, fun k hk => ⟨fun v hv => ⟨v, hv, rfl, S.entry hU hk hv⟩, fun h => h⟩⟩
    · cases h0
      refine ⟨d', rfl, fun k hk => ?_⟩
      rw [h k hk]
      exact ⟨fun v hv => ⟨v, hv, rfl, S.entry hU hk hv⟩, fun h => h⟩
  list := by
    rintro l b ⟨hU, rfl | ⟨d1, d', h0, -⟩⟩
    · exact ⟨l, rfl, pointwise_self fun a ha => ⟨rfl, S.item hU ha⟩⟩
    · cases h0
  list' := by
    rintro a l ⟨-, rfl | ⟨d1, d', -, h0, -⟩⟩
    · exact ⟨l, rfl⟩
    · cases h0
  ref := by
    rintro g n b ⟨-, rfl | ⟨d1, d', h0, -⟩⟩
    · exact ⟨g, n, rfl⟩
    · cases h0
  stream := by
    rintro a b x ⟨-, rfl | ⟨d1, d', rfl, rfl, -⟩⟩ hx
    · exact hx
    · cases hx
  rat := by
    rintro a b ⟨-, rfl | ⟨d1, d', rfl, rfl, -⟩⟩
    · rfl
    · rfl
  kw := by
    rintro a b ⟨-, rfl | ⟨d1, d', rfl, rfl, -⟩⟩ k
    · rfl
    · rfl
  int := by
    rintro n b ⟨-, rfl | ⟨d1, d', h0, -⟩⟩
    · rfl
    · cases h0
  int' := by
    rintro n b ⟨-, rfl | ⟨d1, d', -, h0, -⟩⟩
    · rfl
    · cases h0
  isNull := by
    rintro b ⟨-, rfl | ⟨d1, d', h0, -⟩⟩
    · rfl
    · cases h0
  isNull' := by
    rintro b ⟨-, rfl | ⟨d1, d', -, h0, -⟩⟩
    · rfl
    · cases h0
  fonts := by
    intro d b v e h hv he
    have hU := h.1
    have : ∃ d', b = .dict d' ∧ Dict.get? d' b!"/Font" = some v := by
      rcases h.2 with rfl | ⟨d1, d', h0, rfl, -, -, h⟩
      · exact ⟨d, rfl, hv⟩
      · cases h0
        exact ⟨d', rfl, by rw [h _ (by decide)]; exact hv⟩
    obtain ⟨d', rfl, hv'⟩ := this
    refine ⟨d', v, e, rfl, hv', he, ?_⟩
    cases v with
    | dict f =>
      cases he
      exact ⟨fun k r hm => ⟨r, hm, rfl, S.font hU hv hm⟩,
        fun k => ⟨fun w hw => ⟨w, hw, rfl, S.font hU hv (get?_mem hw)⟩, fun h => h⟩⟩
    | list l =>
      cases l with
      | nil =>
        cases he
        exact ⟨fun _ _ h => (List.not_mem_nil h).elim, fun k => ⟨fun v hv => (nomatch hv), fun _ => rfl⟩⟩
      | cons _ _ => cases he
    | _ => cases he

theorem pyIndex_nat {α : Type} (l : List α) (i : Nat) : pyIndex l (i : Int) = orRaise .indexError l[i]? := by
  unfold pyIndex
  rw [if_pos (by omega)]
  simp

/-- The pages at positions `i` and `j` of two trees. -/
theorem trees_agree {s s' : Store} {R : Obj → Obj → Prop} {t t' : PageTree} {lim lim' : Nat} (hd : depth t ≤ lim) (h : IsRoot s t)
    (hd' : depth t' ≤ lim') (h' : IsRoot s' t') {i j : Nat}
    (hij : ∀ b, (leaves [] t)[i]? = some b → ∃ b', (leaves [] t')[j]? = some b' ∧ R (refObj b.1) (refObj b'.1)) :
    PagesAgree s s' R (fun _ _ => True) lim lim' i j := by
  intro J J' _ x u hx
  obtain ⟨l, K, h1, h2, -⟩ := flatPageTree_root (leak := J) hd h
  obtain ⟨l', K', h1', h2', -⟩ := flatPageTree_root (leak := J') hd' h'
  rw [h1] at hx
  cases hx
  refine ⟨rfl, (l', K'), h1', ?_, trivial⟩
  intro a ha
  rw [pyIndex_nat] at ha ⊢
  cases hl : l[i]? with
  | none => simp only [hl] at ha; cases ha
  | some a0 =>
    simp only [hl] at ha
    cases ha
    obtain ⟨b, hb, hab⟩ := h2.at hl
    obtain ⟨b', hb', hR⟩ := hij b hb
    obtain ⟨c, hc, hcb⟩ := h2'.get j b' hb'
    simp only [hc]
    exact ⟨c, rfl, by rw [hab.1, hcb.1]; exact hR⟩

end Pdf
