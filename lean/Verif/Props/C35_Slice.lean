/-
C35: slicing.
-/
import Verif.Props.C33_Remove

namespace Pdf
open Spec Spec.PageTree

namespace Spec

/-- A bound of a slice, counted from the end when it is negative, and brought back between `lo` and `hi`. -/
def bound (n lo hi : Int) (a : Int) : Int := max lo (min hi (if a < 0 then a + n else a))

/-- The positions that Python selects among `n`: `seq[i]` with `i` modulo `n`, or `seq[a:b:c]` (Python reference,
6.3.3 and the built-in `slice`). -/
def Chosen (n : Nat) : Key → Nat → Prop
  | .at i, j => j < n ∧ (n : Int) ∣ i - j
  | .slice a b c, j =>
    let step := c.getD 1
    if 0 < step then
      let start := (a.map (bound n 0 n)).getD 0
      let stop := (b.map (bound n 0 n)).getD n
      start ≤ j ∧ j < stop ∧ step ∣ j - start
    else
      let start := (a.map (bound n (-1) (n - 1))).getD (n - 1)
      let stop := (b.map (bound n (-1) (n - 1))).getD (-1)
      stop < j ∧ j ≤ start ∧ step ∣ start - j

instance (n : Nat) (k : Key) (j : Nat) : Decidable (Chosen n k j) := by
  cases k <;> unfold Chosen <;> dsimp only <;> infer_instance

/-- The elements of a list at some positions. -/
def keepAt {α : Type} (l : List α) (P : Nat → Prop) [DecidablePred P] : List α :=
  (l.zipIdx.filter fun p => P p.2).map Prod.fst

end Spec

theorem mem_pyRange {a b c x : Int} : x ∈ pyRange a b c ↔
    (0 < c ∧ a ≤ x ∧ x < b ∧ c ∣ x - a) ∨ (c < 0 ∧ b < x ∧ x ≤ a ∧ c ∣ a - x) := by
  have key : ∀ (k m : Int), 0 < k → ∀ i : Nat, i < ((m + k - 1) / k).toNat ↔ k * i < m := by
    intro k m hk i
    have h1 : i < ((m + k - 1) / k).toNat ↔ (i : Int) + 1 ≤ (m + k - 1) / k := by omega
    rw [h1, Int.le_ediv_iff_mul_le hk, Int.add_mul, Int.one_mul, Int.mul_comm (i : Int) k]
    omega
  unfold pyRange
  by_cases hc : c > 0
  · rw [if_pos hc]
    simp only [List.mem_map, List.mem_range, key c (b - a) hc]
    constructor
    · rintro ⟨i, hi, rfl⟩
      have : 0 ≤ c * (i : Int) := Int.mul_nonneg (by omega) (by omega)
      exact .inl ⟨hc, by omega, by omega, ⟨i, by omega⟩⟩
    · rintro (⟨_, h1, h2, k, hk⟩ | ⟨h, _⟩)
      · have hk0 : 0 ≤ k := by
          apply Classical.byContradiction
          intro hn
          have : c * k < 0 := Int.mul_neg_of_pos_of_neg hc (by omega)
          omega
        refine ⟨k.toNat, ?_, ?_⟩ <;> rw [Int.toNat_of_nonneg hk0] <;> omega
      · omega
  · rw [if_neg hc]
    by_cases hc' : c < 0
    · rw [if_pos hc']
      have hrw : ∀ i : Nat, i < ((a - b + (-c) - 1) / (-c)).toNat ↔ (-c) * i < a - b := key (-c) (a - b) (by omega)
      simp only [List.mem_map, List.mem_range, hrw]
      constructor
      · rintro ⟨i, hi, rfl⟩
        have : 0 ≤ (-c) * (i : Int) := Int.mul_nonneg (by omega) (by omega)
        rw [Int.neg_mul] at this hi
        exact .inr ⟨hc', by omega, by omega, ⟨-i, by rw [Int.mul_neg]; omega⟩⟩
      · rintro (⟨h, _⟩ | ⟨_, h1, h2, k, hk⟩)
        · omega
        · have hk0 : k ≤ 0 := by
            apply Classical.byContradiction
            intro hn
            have : c * k < 0 := Int.mul_neg_of_neg_of_pos hc' (by omega)
            omega
          refine ⟨(-k).toNat, ?_, ?_⟩ <;> rw [Int.toNat_of_nonneg (by omega)]
          · rw [Int.neg_mul_neg]; omega
          · rw [Int.mul_neg]; omega
    · rw [if_neg hc']
      simp only [List.not_mem_nil, false_iff]
      omega

/-- The pages computed by `doc[key]`. -/
theorem keyPages_spec {key : Key} {n : Nat} (hn : 0 < n) (hk : ∀ a b, key ≠ .slice a b (some 0)) :
    ∃ l, keyPages key (.int n) = .ok l ∧ ∀ j : Nat, (j : Int) ∈ l ∧ j < n ↔ Chosen n key j ∧ j < n := by
  cases key with
  | «at» i =>
    refine ⟨[i.fmod n], ?_, ?_⟩
    · unfold keyPages
      simp only
      rw [if_neg (by omega)]
    · intro j
      rw [List.mem_singleton, Int.fmod_eq_emod_of_nonneg _ (by omega)]
      unfold Chosen
      constructor
      · rintro ⟨h1, h2⟩
        refine ⟨⟨h2, i / n, ?_⟩, h2⟩
        have := Int.emod_add_mul_ediv i n
        omega
      · rintro ⟨⟨h1, k, hk⟩, _⟩
        refine ⟨?_, h1⟩
        have : i = j + n * k := by omega
        rw [this, Int.add_mul_emod_self_left, Int.emod_eq_of_lt (by omega) (by omega)]
  | slice a b c =>
    have hc : c.getD 1 ≠ 0 := by
      cases c with
      | none => decide
      | some c =>
        intro h
        simp only [Option.getD_some] at h
        subst h
        exact hk a b rfl
    have hcl : ∀ lo hi : Int, lo ≤ hi → lo ≤ 0 → (n : Int) - 1 ≤ hi → ∀ x dflt,
        clamp lo hi n dflt x = (x.map (bound n lo hi)).getD dflt := by
      intro lo hi h1 h2 h3 x dflt
      cases x with
      | none => rfl
      | some x =>
        simp only [clamp, Option.map_some, Option.getD_some, bound]
        repeat' split
        all_goals omega
    refine ⟨_, by
      unfold keyPages sliceIndices
      simp only
      rw [if_neg hc, if_neg (by omega)]
      rfl, ?_⟩
    intro j
    rw [mem_pyRange]
    unfold Chosen
    simp only
    generalize c.getD 1 = st at hc
    by_cases hst : st < 0
    · have h0 : ¬ 0 < st := by omega
      simp only [if_pos hst, if_neg h0]
      rw [hcl _ _ (by omega) (by omega) (by omega), hcl _ _ (by omega) (by omega) (by omega)]
      simp only [h0, hst, false_and, false_or, true_and]
    · have h0 : 0 < st := by omega
      simp only [if_neg hst, if_pos h0]
      rw [hcl _ _ (by omega) (by omega) (by omega), hcl _ _ (by omega) (by omega) (by omega)]
      simp only [h0, hst, false_and, or_false, true_and]

/-- All the positions. -/
def allPages (n : Nat) : List Int := (List.range n).map fun (i : Nat) => (i : Int)

theorem mem_allPages {n : Nat} {i : Int} : i ∈ allPages n ↔ ∃ j : Nat, j < n ∧ i = j := by
  unfold allPages
  simp only [List.mem_map, List.mem_range]
  exact ⟨fun ⟨j, h, e⟩ => ⟨j, h, e.symm⟩, fun ⟨j, h, e⟩ => ⟨j, h, e.symm⟩⟩

theorem removable_sub {s : Store} {t : PageTree} {lim : Nat} {all del : List Int} (h : Removable s t lim all)
    (hsub : ∀ i ∈ del, i ∈ all) : Removable s t lim del :=
  ⟨h.root, h.linked, h.nodup, h.depth, fun i hi => h.inside i (hsub i hi), h.reads, h.gens,
    fun r ⟨i, hi, hr⟩ => h.nodes r ⟨i, hsub i hi, hr⟩⟩

theorem dropAt_keep {α : Type} {l : List α} {pages : List Int} :
    dropAt l ((allPages l.length).filter (· ∉ pages)) = keepAt l (fun j => (j : Int) ∈ pages) := by
  unfold dropAt keepAt
  congr 1
  apply List.filter_congr
  intro p hp
  have hlt : p.2 < l.length := by
    have h1 := (List.mk_mem_zipIdx_iff_getElem? (x := p.1) (i := p.2) (l := l)).1 hp
    exact lt_of_getElem? h1
  apply decide_eq_decide.2
  constructor
  · intro h
    apply Classical.byContradiction
    intro hn
    refine h ⟨(p.2 : Int), ?_, hlt, .inl rfl⟩
    rw [List.mem_filter]
    exact ⟨mem_allPages.2 ⟨p.2, hlt, rfl⟩, by simpa using hn⟩
  · rintro h ⟨i, hi, hpos⟩
    rw [List.mem_filter] at hi
    obtain ⟨⟨hi1, hi2⟩, hi3⟩ := And.intro (And.intro hi.1 hi.2) hpos
    obtain ⟨j, hj, rfl⟩ := mem_allPages.1 hi1
    have : j = p.2 := by
      obtain ⟨a, b⟩ := hi3
      omega
    subst this
    exact absurd h (by simpa using hi2)

theorem eval_numberPages {s : Store} {t : PageTree} (h : IsRoot s t) {r : Ref} {d : Dict} {kids : List PageTree}
    (ht : t = .node r d kids) {c : Int} (hc : Dict.get? d b!"/Count" = some (.int c)) :
    eval numberPages s = .ok (.int c, s) := by
  obtain ⟨r', d', kids', he, hroot⟩ := eval_pagesRoot h
  rw [ht] at he
  cases he
  unfold numberPages
  show eval (pagesRoot >>= _) s = _
  rw [eval_bind_ok hroot]
  simp only [getKey, hc, orRaise]
  rfl

theorem keep_eval {s : Store} {t : PageTree} {lim : Nat} {ord : List Ref → List Ref} {leak : Dict} {n : Nat}
    (h : Removable s t lim (allPages n)) {r : Ref} {d : Dict} {kids : List PageTree} (ht : t = .node r d kids)
    (hc : Dict.get? d b!"/Count" = some (.int n)) (pages : List Int) :
    eval (keepPages lim ord leak pages) s = eval (removePages lim ord leak ((allPages n).filter (· ∉ pages))) s := by
  unfold keepPages
  show eval (numberPages >>= _) s = _
  rw [eval_bind_ok (eval_numberPages h.root ht hc)]
  simp only [rangeOf, Int.toNat_natCast]
  rw [eval_bind_ok (eval_lift_ok _ _)]
  rfl

/-- `keep_pages`: the pages at the given positions remain, in document order. -/
theorem C35_keep_partial [Zlib] {doc : Doc} {x : Option Int} (hed : Editable doc x) {t : PageTree} {lim : Nat}
    {ord : List Ref → List Ref} (hord : ∀ l, (ord l).Perm l) {leak : Dict} {n : Nat}
    (h : Removable (storeOf doc) t lim (allPages n)) (hn : n = (leaves [] t).length) {r : Ref} {d : Dict}
    {kids : List PageTree} (ht : t = .node r d kids) (hc : Dict.get? d b!"/Count" = some (.int n))
    (pages : List Int) :
    ∃ (leak' : Dict) (doc' : Doc) (t' : PageTree), (keepPages lim ord leak pages).run doc = .ok (leak', doc') ∧
      Editable doc' x ∧ IsRoot (storeOf doc') t' ∧ Linked none t' ∧
      (leaves [] t').map shownPage = keepAt ((leaves [] t).map shownPage) (fun j => (j : Int) ∈ pages) := by
  have hsub : Removable (storeOf doc) t lim ((allPages n).filter (· ∉ pages)) :=
    removable_sub h fun i hi => (List.mem_filter.1 hi).1
  obtain ⟨J, s', t', rs, e1, e2, e3, e4, e5, e6, -⟩ := remove_spec (leak := leak) hsub hord
  rw [← keep_eval h ht hc pages] at e1
  obtain ⟨d', r1, r2, rfl, -⟩ := run_eval _ hed e1
  refine ⟨J, d', t', r1, r2, e3, e4, ?_⟩
  rw [e6, hn]
  have := dropAt_keep (l := (leaves [] t).map shownPage) (pages := pages)
  rwa [List.length_map] at this

theorem slice_eval {s : Store} {t : PageTree} {lim : Nat}
    {ord : List Ref → List Ref} (hord : ∀ l, (ord l).Perm l) {leak : Dict} {n : Nat}
    (h : Removable s t lim (allPages n)) (hn : n = (leaves [] t).length) (hpos : 0 < n) {r : Ref}
    {d : Dict} {kids : List PageTree} (ht : t = .node r d kids) (hc : Dict.get? d b!"/Count" = some (.int n))
    {key : Key} (hkey : ∀ a b, key ≠ .slice a b (some 0)) :
    ∃ (leak' : Dict) (s' : Store) (t' : PageTree), eval (getItem lim ord leak key) s = .ok (leak', s') ∧
      IsRoot s' t' ∧ Linked none t' ∧
      (leaves [] t').map shownPage = keepAt ((leaves [] t).map shownPage) (Chosen n key) := by
  obtain ⟨pages, p1, p2⟩ := keyPages_spec hpos hkey
  have hsub : Removable s t lim ((allPages n).filter (· ∉ pages)) :=
    removable_sub h fun i hi => (List.mem_filter.1 hi).1
  obtain ⟨J, s', t', rs, e1, e2, e3, e4, e5, e6, -⟩ := remove_spec (leak := leak) hsub hord
  have e0 : eval (getItem lim ord leak key) s = .ok (J, s') := by
    unfold getItem
    show eval (numberPages >>= _) _ = _
    rw [eval_bind_ok (eval_numberPages h.root ht hc), p1, eval_bind_ok (eval_lift_ok _ _),
      keep_eval h ht hc pages]
    exact e1
  refine ⟨J, s', t', e0, e3, e4, ?_⟩
  rw [e6]
  have := dropAt_keep (l := (leaves [] t).map shownPage) (pages := pages)
  rw [List.length_map, ← hn] at this
  rw [this]
  unfold keepAt
  congr 1
  apply List.filter_congr
  intro p hp
  have hlt : p.2 < n := by
    have h1 := (List.mk_mem_zipIdx_iff_getElem? (x := p.1) (i := p.2) (l := (leaves [] t).map shownPage)).1 hp
    have := lt_of_getElem? h1
    rw [List.length_map, ← hn] at this
    exact this
  have := p2 p.2
  simp only [hlt, and_true] at this
  exact decide_eq_decide.2 this

/-- C35. `doc[i]` and `doc[a:b:c]` keep exactly the pages that Python chooses, in document order.

Partial: for the documents of `C33_remove_partial` whose root has the number of pages as `/Count`, and which have at
least one page. -/
theorem C35_slice_partial [Zlib] {doc : Doc} {x : Option Int} (hed : Editable doc x) {t : PageTree} {lim : Nat}
    {ord : List Ref → List Ref} (hord : ∀ l, (ord l).Perm l) {leak : Dict} {n : Nat}
    (h : Removable (storeOf doc) t lim (allPages n)) (hn : n = (leaves [] t).length) (hpos : 0 < n) {r : Ref}
    {d : Dict} {kids : List PageTree} (ht : t = .node r d kids) (hc : Dict.get? d b!"/Count" = some (.int n))
    {key : Key} (hkey : ∀ a b, key ≠ .slice a b (some 0)) :
    ∃ (leak' : Dict) (doc' : Doc) (t' : PageTree), (getItem lim ord leak key).run doc = .ok (leak', doc') ∧
      Editable doc' x ∧ IsRoot (storeOf doc') t' ∧ Linked none t' ∧
      (leaves [] t').map shownPage = keepAt ((leaves [] t).map shownPage) (Chosen n key) := by
  obtain ⟨J, s', t', e0, e3, e4, e6⟩ := slice_eval (leak := leak) hord h hn hpos ht hc hkey
  obtain ⟨d', r1, r2, rfl, -⟩ := run_eval _ hed e0
  exact ⟨J, d', t', r1, r2, e3, e4, e6⟩

/-- A step of 0 is refused, as by Python. -/
theorem C35_step [Zlib] {doc doc' : Doc} {lim : Nat} {ord : List Ref → List Ref} {leak leak' : Dict}
    {a b : Option Int} : (getItem lim ord leak (.slice a b (some 0))).run doc ≠ .ok (leak', doc') := by
  intro h
  unfold getItem at h
  rw [Prog.bind_run] at h
  obtain ⟨⟨n, d1⟩, -, h2⟩ := bind_eq_ok h
  simp only at h2
  rw [Prog.bind_run] at h2
  obtain ⟨⟨pages, d2⟩, h3, -⟩ := bind_eq_ok h2
  have : ∀ n, ∃ e, keyPages (.slice a b (some 0)) n = .error e := by
    intro n
    cases n <;> exact ⟨_, rfl⟩
  obtain ⟨e, he⟩ := this n
  simp only [he] at h3
  cases h3

example : (List.range 5).filter (Chosen 5 (.at (-1))) = [4] := by decide
example : (List.range 5).filter (Chosen 5 (.slice (some 1) (some (-1)) none)) = [1, 2, 3] := by decide
example : (List.range 5).filter (Chosen 5 (.slice none none (some (-2)))) = [0, 2, 4] := by decide
example : (List.range 5).filter (Chosen 5 (.slice (some 100) (some (-100)) (some (-3)))) = [1, 4] := by decide
example [Zlib] : Editable (memDoc removeObjs) none ∧
    Removable (storeOf (memDoc removeObjs)) removeTree 10 (allPages 3) ∧ 3 = (leaves [] removeTree).length := by
  rw [memDoc_store (by simp [removeObjs, removeObjsWith])]
  refine ⟨memDoc_editable (by simp [removeObjs, removeObjsWith]) rfl, removeTree_removable ?_, rfl⟩
  intro i hi
  obtain ⟨j, hj, rfl⟩ := mem_allPages.1 hi
  exact ⟨j, hj, .inl rfl⟩

/-- **C35 is false when `/Count` is a reference**: the number of pages is read without following it. -/
theorem C35_counterexample [Zlib] :
    ((getItem 1000 id [] (.at 0)).run (memDoc
      [.dict [(b!"/Root", .ref 0 1)],
       .dict [(b!"/Type", .str b!"/Catalog"), (b!"/Pages", .ref 0 2)],
       .dict [(b!"/Type", .str b!"/Pages"), (b!"/Kids", .list [.ref 0 3, .ref 0 4]), (b!"/Count", .ref 0 5)],
       .dict [(b!"/Type", .str b!"/Page"), (b!"/Parent", .ref 0 2)],
       .dict [(b!"/Type", .str b!"/Page"), (b!"/Parent", .ref 0 2)],
       .int 2])).map (fun _ => ()) = .error .typeError := by
  kernel_rfl

end Pdf
