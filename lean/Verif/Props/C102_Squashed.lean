/-
C102: a squashed document is written, and the file shows the same document.
-/
import Verif.Props.C37_Squash
import Verif.Props.C28_Reload
import Verif.Props.C85_Metadata
import Verif.Lemmas.Concat

namespace Pdf
open Spec

/-! ### Walks in stores that show equal objects -/

theorem pyEqItems_get : ∀ {a b : List Obj}, pyEqItems a b = true → ∀ {i : Nat} {v : Obj}, a[i]? = some v →
    ∃ w, b[i]? = some w ∧ pyEq v w = true
  | [], _, _, i, v, hv => by simp at hv
  | x :: a, [], h, i, v, hv => by simp [pyEqItems] at h
  | x :: a, y :: b, h, i, v, hv => by
    simp only [pyEqItems, Bool.and_eq_true] at h
    rcases i with _ | i
    · cases hv
      exact ⟨y, rfl, h.1⟩
    · exact pyEqItems_get h.2 (i := i) hv

/-- Every reference in the object has a positive number. -/
def Inner (o : Obj) : Prop := ∀ r, Occurs r o → 1 ≤ r.2

theorem walk_same {s s' : Store}
    (hs : ∀ (n : Nat) (v : Obj), 1 ≤ n → s.val n = .ok v → Inner v ∧ ∃ w, s'.val n = .ok w ∧ Same v w) :
    ∀ (p : List Step) (a b v : Obj), Inner a → Same a b → walk s p a = some v → ∃ w, walk s' p b = some w ∧ Same v w
  | [], a, b, v, _, he, hw => by
    simp only [walk, Option.some.injEq] at hw
    subst hw
    exact ⟨b, rfl, he⟩
  | .key k :: p, .dict d, b, v, hi, he, hw => by
    simp only [walk, Option.bind_eq_some_iff] at hw
    obtain ⟨o, h1, h2⟩ := hw
    have hi' : Inner o := fun r hr => hi r (.entry (get?_mem h1) hr)
    rcases he with rfl | he
    · obtain ⟨w, k1, k2⟩ := walk_same hs p o o v hi' (.inl rfl) h2
      exact ⟨w, by simp [walk, h1, k1], k2⟩
    · cases b <;> simp [pyEq] at he
      obtain ⟨o', j1, j2⟩ := pyEqEntries_mem he.2 k o (get?_mem h1)
      obtain ⟨w, k1, k2⟩ := walk_same hs p o o' v hi' (.inr j2) h2
      have j1 : Dict.get? _ k = some o' := j1
      exact ⟨w, by simp [walk, j1, k1], k2⟩
  | .key k :: p, .stream d c e, b, v, hi, he, hw => by
    simp only [walk, Option.bind_eq_some_iff] at hw
    obtain ⟨o, h1, h2⟩ := hw
    have hi' : Inner o := fun r hr => hi r (.streamEntry (get?_mem h1) hr)
    rcases he with rfl | he
    · obtain ⟨w, k1, k2⟩ := walk_same hs p o o v hi' (.inl rfl) h2
      exact ⟨w, by simp [walk, h1, k1], k2⟩
    · cases b <;> simp [pyEq] at he
      obtain ⟨o', j1, j2⟩ := pyEqEntries_mem he.1.1.2 k o (get?_mem h1)
      obtain ⟨w, k1, k2⟩ := walk_same hs p o o' v hi' (.inr j2) h2
      have j1 : Dict.get? _ k = some o' := j1
      exact ⟨w, by simp [walk, j1, k1], k2⟩
  | .idx i :: p, .list l, b, v, hi, he, hw => by
    simp only [walk, Option.bind_eq_some_iff] at hw
    obtain ⟨o, h1, h2⟩ := hw
    have hi' : Inner o := fun r hr => hi r (.item (List.mem_of_getElem? h1) hr)
    rcases he with rfl | he
    · obtain ⟨w, k1, k2⟩ := walk_same hs p o o v hi' (.inl rfl) h2
      exact ⟨w, by simp [walk, h1, k1], k2⟩
    · cases b <;> simp [pyEq] at he
      obtain ⟨o', j1, j2⟩ := pyEqItems_get he h1
      obtain ⟨w, k1, k2⟩ := walk_same hs p o o' v hi' (.inr j2) h2
      exact ⟨w, by simp [walk, j1, k1], k2⟩
  | .go :: p, .ref g n, b, v, hi, he, hw => by
    have hb : b = .ref g n := by
      rcases he with rfl | he
      · rfl
      · cases b <;> simp [pyEq] at he
        rw [he.1, he.2]
    subst hb
    have hn : (1 : Int) ≤ n := hi (g, n) .here
    simp only [walk, Store.get] at hw ⊢
    rw [if_neg (by omega)] at hw ⊢
    rcases hv : s.val n.toNat with x | o
    · rw [hv] at hw; cases hw
    · rw [hv] at hw
      obtain ⟨ho, o', h1, h2⟩ := hs n.toNat o (by omega) hv
      rw [h1]
      exact walk_same hs p o o' v ho h2 hw

/-! ### The squashed document is a new one -/

/-- The squashed document can be written: its objects are those that survive writing and reading, and there are no
xref streams. -/
theorem squash_fresh [Zlib] {d new d' : Doc} {L : List Nat} {f : Ref → Ref} {root : Obj} (he : Editable new none)
    (hx : firstXrefStreamNum new = .ok none) (h : SquashOf d new d' L f root)
    (hroot : WF false false (.dict [(b!"/Root", renumber f root)]) = true)
    (hkeep : ∀ n ∈ L, ∀ v, (storeOf d).val n = .ok v → Keepable (renumber f v))
    (hver : ∀ w, (version d).map Prod.fst = .ok w → isAscii (w.take 3) = true ∧ ∀ c ∈ w.take 3, isEol c = false) :
    Fresh new := by
  obtain ⟨w, hw, hdata, hpd⟩ := h.version
  obtain ⟨ha, hl⟩ := hver w hw
  have hprev : prevRev new = List.replicate new.cur.length Slot.hole := by
    unfold prevRev
    rw [h.past]
  have hno : ∀ (n : Nat) (p : Entry), (prevRev new)[n]? ≠ some (.one p) := by
    intro n p hp
    rw [hprev] at hp
    have := List.mem_of_getElem? hp
    rw [List.mem_replicate] at this
    cases this.2
  have hlive : ∀ (n : Nat) (e : Entry), new.cur[n]? = some (.one e) → e.deleted = false := by
    intro n e hn
    obtain ⟨⟨e', h1, h2⟩, -⟩ := h.cells n (lt_of_getElem? hn)
    rw [hn] at h1
    cases h1
    exact h2
  refine ⟨⟨he, by rw [hdata], ?_, ?_, ?_, ?_, ?_, ?_⟩, h.past, hpd, ⟨_, h.cache0, hroot, ?_, ?_⟩, ?_⟩
  · obtain ⟨⟨e, h1, -⟩, -⟩ := h.cells 0 he.pos
    unfold firstXrefStreamNum Doc.firstRev at hx
    rw [h.past] at hx
    simp only [List.getLastD_nil] at hx
    rw [slotAt_eq h1] at hx
    simp only [bind, Except.bind, pure, Except.pure, Except.ok.injEq] at hx
    rw [h1]
    simpa [Slot.xrefStreamNum?] using hx
  · rw [hprev]; simp
  · intro n e _ hn hdel
    rw [hlive n e hn] at hdel
    cases hdel
  · intro n p e _ hp
    exact absurd hp (hno n p)
  · intro n e hn1 hn _ _
    have hlt := lt_of_getElem? hn
    rw [h.length] at hlt
    obtain ⟨k, rfl⟩ : ∃ k, n = k + 1 := ⟨n - 1, by omega⟩
    have hk : L[k]? = some (L[k]'(by omega)) := List.getElem?_eq_getElem (by omega)
    obtain ⟨v, h1, h2⟩ := h.cached k _ hk
    exact ⟨_, h2, hkeep _ (List.mem_of_getElem? hk) v h1⟩
  · intro n e _ hn _ hp
    rw [hn] at hp
    exact absurd hp (hno n e)
  · simp [Dict.get?, List.lookup]
  · simp [Dict.get?, List.lookup]
  · intro v hv
    unfold headerVersion Doc.firstData at hv
    rw [hpd, hdata] at hv
    simp only [List.getLastD_nil, Provider.read] at hv
    rw [if_neg (by simp)] at hv
    simp only [show ¬ ((3 : Int) = -1) by omega, show ¬ ((5 : Int) = -1) by omega, if_false, bind, Except.bind] at hv
    rw [if_neg (by omega)] at hv
    have hsl : slice (b!"%PDF-" ++ w) (Int.toNat 5) (Int.toNat 5 + 3) = w.take 3 := by
      simp [slice]
    rw [hsl, if_pos ha] at hv
    cases hv
    exact hl

/-- **C102.** A document whose objects survive writing and reading (`Keepable`) and can be squashed (the conditions
of `C37_squash_partial`), in a document that has no xref stream at first: the squashed document is written, the file
loads, the objects of the file are those of the document given, renumbered from 1, and nothing else; every walk from the
root that leads somewhere in the document given leads to an equal thing in the file, up to the new numbers.

Missing from the full claim: documents whose first revision has an xref stream, and the conditions of
`C37_squash_partial` (references to moved objects in stream dictionaries, dangling references). -/
theorem C102_squash_reload_partial [Zlib] {d : Doc} {x : Option Int} {L : List Nat} {f : Ref → Ref} (hd : Editable d x)
    (hr : Ranks d L f) (h : Squashable d x L f) (hx : x = none ∨ x = some 0) (hlen : L.length ≤ 9007199254740992)
    (hkeep : ∀ n ∈ L, ∀ v, (storeOf d).val n = .ok v → Keepable (renumber f v))
    (hver : ∀ w, (version d).map Prod.fst = .ok w → isAscii (w.take 3) = true ∧ ∀ c ∈ w.take 3, isEol c = false) :
    ∃ (new d' : Doc) (t : Dict) (root : Obj), squash d = .ok (some new, d') ∧ Made new ∧
      (storeOf d).val 0 = .ok (.dict t) ∧ Dict.get? t b!"/Root" = some root ∧
      ∀ (out : Bytes) (d'' : Doc), writeFile new = .ok (out, d'') → 100 ≤ out.length → out.length < 10 ^ 80 →
        ∃ dl, loads out = .ok dl ∧
          (∃ t', (storeOf dl).val 0 = .ok (.dict t') ∧ Dict.get? t' b!"/Root" = some (renumber f root)) ∧
          (∀ (k n : Nat), L[k]? = some n → ∃ v w, (storeOf d).val n = .ok v ∧ (storeOf dl).val (k + 1) = .ok w ∧
            Same (renumber f v) w) ∧
          (∀ n, L.length < n → ∃ e, (storeOf dl).val n = .error e) ∧
          ∀ p v, walk (storeOf d) p root = some v → ∃ w, walk (storeOf dl) p (renumber f root) = some w ∧
            Same (renumber f v) w := by
  obtain ⟨new, d', t, root, h1, h2, h3, h4, h5⟩ := squash_spec hd hr h
  obtain ⟨new', d1, t1, root1, g1, g2, g3, -, -, -, -, -, g9⟩ := C37_squash_partial hd hr h
  rw [h1] at g1
  cases g1
  rw [h3] at g2
  cases g2
  rw [h4] at g3
  cases g3
  have hx' : (if x = some 0 then none else x) = none := by
    rcases hx with rfl | rfl <;> simp
  rw [hx'] at h2
  have hfx := h5.xnum h.first
  rw [hx'] at hfx
  -- the root
  obtain ⟨n0, hn0, hroot⟩ : ∃ n ∈ L, root = .ref (genOf d n : Int) (n : Int) := by
    obtain ⟨t', n, cat, q1, q2, q3, -⟩ := h.root
    rw [h3] at q1
    cases q1
    rw [h4] at q3
    cases q3
    exact ⟨n, q2, rfl⟩
  obtain ⟨k0, hk0⟩ := List.mem_iff_getElem?.1 hn0
  have hroot' : renumber f root = .ref 0 ((k0 + 1 : Nat) : Int) := by
    rw [hroot]
    simp only [renumber, hr.rank k0 n0 hk0]
  have hk0lt := lt_of_getElem? hk0
  have hwf : WF false false (.dict [(b!"/Root", renumber f root)]) = true := by
    rw [hroot']
    simp only [WF, WFEntries, Bool.and_true, List.map_cons, List.map_nil]
    simp only [Bool.and_eq_true, decide_eq_true_eq]
    refine ⟨⟨by decide, trivial, ?_⟩, by simp⟩
    omega
  have hmade : Made new := .start (squash_fresh h2 hfx h5 hwf hkeep hver)
  refine ⟨new, d', t, root, h1, hmade, h3, h4, ?_⟩
  intro out d'' hw hmin hmax
  obtain ⟨dl, l1, l2, l3, tn, tl, l4, l5, l6⟩ := C28_reload_partial new d'' out hmade hw hmin hmax
  have hobj : ∀ (k n : Nat), L[k]? = some n → ∃ v w, (storeOf d).val n = .ok v ∧ (storeOf dl).val (k + 1) = .ok w ∧
      Same (renumber f v) w := by
    intro k n hk
    have hlt := lt_of_getElem? hk
    obtain ⟨⟨e, c1, c2⟩, -⟩ := h5.cells (k + 1) (by rw [h5.length]; omega)
    obtain ⟨v', w, j1, j2, j3⟩ := l2 (k + 1) 0 e (by omega) c1 c2
    obtain ⟨v, q1, -⟩ := h.vals n (List.mem_of_getElem? hk)
    have ho := h5.objects k n hk
    rw [q1] at ho
    have j1 : (storeOf new).val (k + 1) = .ok v' := j1
    rw [ho] at j1
    cases j1
    exact ⟨v, w, q1, j2, j3⟩
  have hnone : ∀ n, L.length < n → ∀ s, ((s = new ∨ s = dl) → ∃ e, (storeOf s).val n = .error e) := by
    intro n hn s hs
    have hc : new.cur[n]? = none := by
      rw [List.getElem?_eq_none_iff, h5.length]
      omega
    rcases hs with rfl | rfl
    · refine ⟨.indexError, ?_⟩
      show view s (.ref 0 n) = _
      rw [view_num]
      unfold memoize slotAt
      rw [hc]
      rfl
    · exact l3 n 0 (by omega) (.inl hc)
  refine ⟨dl, l1, ⟨tl, l5, ?_⟩, hobj, fun n hn => hnone n hn dl (.inr rfl), ?_⟩
  · have := l6 b!"/Root" (by decide) (by decide) (by decide)
    have l4 : (storeOf new).val 0 = .ok (.dict tn) := l4
    rw [h5.trailer] at l4
    cases l4
    rw [show Dict.get? [(b!"/Root", renumber f root)] b!"/Root" = some (renumber f root) by simp [Dict.get?]] at this
    rw [hroot'] at this ⊢
    rcases hg : Dict.get? tl b!"/Root" with _ | w
    · rw [hg] at this
      exact this.elim
    · rw [hg] at this
      rcases this with rfl | this
      · rfl
      · cases w <;> simp [pyEq] at this
        rw [← this.1, ← this.2]
        rfl
  · intro p v hv
    have hin : ∀ v, NoDangling d L v → Inner (renumber f v) := by
      intro v hv r hr'
      obtain ⟨q, q1, rfl⟩ := occurs_renumber v hr'
      obtain ⟨n, hn, rfl⟩ := hv q q1
      obtain ⟨k, hk⟩ := List.mem_iff_getElem?.1 hn
      rw [hr.rank k n hk]
      show (1 : Int) ≤ ((k + 1 : Nat) : Int)
      omega
    refine walk_same (s := storeOf new) ?_ p (renumber f root) (renumber f root) (renumber f v) ?_ (.inl rfl) ?_
    · intro n v' hn hv'
      by_cases hlt : L.length < n
      · obtain ⟨e, he⟩ := hnone n hlt new (.inl rfl)
        rw [he] at hv'
        cases hv'
      · obtain ⟨k, rfl⟩ : ∃ k, n = k + 1 := ⟨n - 1, by omega⟩
        have hk : L[k]? = some (L[k]'(by omega)) := List.getElem?_eq_getElem (by omega)
        obtain ⟨u, w, j1, j2, j3⟩ := hobj k _ hk
        obtain ⟨u', q1, -, q3, -⟩ := h.vals _ (List.mem_of_getElem? hk)
        rw [j1] at q1
        cases q1
        have ho := h5.objects k _ hk
        rw [j1, hv'] at ho
        cases ho
        exact ⟨hin u q3, w, j2, j3⟩
    · refine hin root ?_
      intro r hocc
      rw [hroot] at hocc
      exact ⟨n0, hn0, occurs_ref hocc⟩
    · rw [g9 p, hv]
      rfl

/-- The hypotheses of `C102_squash_reload_partial` are met by a document whose object 1 is deleted. -/
theorem squashObjs_keepable [Zlib] : ∀ n ∈ [2, 3, 4, 5], ∀ v, (storeOf (gapDoc squashObjs)).val n = .ok v →
    Keepable (renumber (fun r => (0, r.2 - 1)) v) := by
  have hval : ∀ n o, squashObjs[n]? = some o → (storeOf (gapDoc squashObjs)).val n = .ok o :=
    fun n o h => gapDoc_view h 0
  intro n hn v hv
  simp only [List.mem_cons, List.not_mem_nil, or_false] at hn
  rcases hn with rfl | rfl | rfl | rfl
  · rw [hval 2 _ rfl] at hv; cases hv
    exact ⟨show WF _ _ _ = true by decide, rfl⟩
  · rw [hval 3 _ rfl] at hv; cases hv
    exact ⟨⟨by decide, by decide, by decide, by decide, rfl⟩, by decide⟩
  · rw [hval 4 _ rfl] at hv; cases hv
    exact ⟨show WF _ _ _ = true by decide, rfl⟩
  · rw [hval 5 _ rfl] at hv; cases hv
    exact ⟨show WF _ _ _ = true by decide, rfl⟩

example [Zlib] : ∀ w, (version (gapDoc squashObjs)).map Prod.fst = .ok w →
    isAscii (w.take 3) = true ∧ ∀ c ∈ w.take 3, isEol c = false := by
  intro w hw
  have : (version (gapDoc squashObjs)).map Prod.fst = .ok b!"1.4" := rfl
  rw [this] at hw
  cases hw
  decide

/-- The squashed document is written, in a file that is long enough, and the page of the file is that of the document. -/
example [Zlib] : (do
    let (new, _) ← squash (gapDoc squashObjs)
    let (out, _) ← writeFile (new.getD (gapDoc squashObjs))
    let dl ← loads out
    return (decide (100 ≤ out.length ∧ out.length < 10 ^ 80), walk (storeOf dl)
      [.go, .key b!"/Pages", .go, .key b!"/Kids", .idx 0, .go, .key b!"/Contents", .go] (.ref 0 1))) =
      .ok (true, some (.stream [(b!"/Length", .int 1)] b!"q" b!"q")) := by
  kernel_rfl

end Pdf
