/-
C37: `squash` renumbers the objects of a document without gap, and keeps the document otherwise.
-/
import Verif.Lemmas.Squash
import Verif.Lemmas.MemDoc

namespace Pdf
open Spec

/-- What is known of the squashed document, and of the document that was given, afterwards. -/
structure SquashOf [Zlib] (d new d' : Doc) (L : List Nat) (f : Ref → Ref) (root : Obj) : Prop where
  past : new.past = []
  length : new.cur.length = L.length + 1
  cells : ∀ n, n < new.cur.length → Live new n ∧ genOf new n = 0
  objects : ∀ k n, L[k]? = some n → (storeOf new).val (k + 1) = ((storeOf d).val n).map (renumber f)
  trailer : (storeOf new).val 0 = .ok (.dict [(b!"/Root", renumber f root)])
  version : ∃ w, (version d).map Prod.fst = .ok w ∧ new.curData = { fdata := .dummy (b!"%PDF-" ++ w) } ∧
    new.pastData = []
  nums : ∀ (k n : Nat), L[k]? = some n → ∃ e, new.cur[k + 1]? = some (.one e) ∧ e.num = (n : Int)
  zero : ∀ e, new.cur[0]? = some (.one e) → e.num = 0
  xnum : ∀ {x}, firstXrefStreamNum d = .ok x → firstXrefStreamNum new = .ok (if x = some 0 then none else x)
  source : (∀ n ∈ L, ∀ v, (storeOf d).val n = .ok v → renumber f v = v) → storeOf d' = storeOf d
  cached : ∀ k n, L[k]? = some n → ∃ v, (storeOf d).val n = .ok v ∧ new.cache[k + 1]? = some (renumber f v)
  cache0 : new.cache[0]? = some (.dict [(b!"/Root", renumber f root)])

theorem squash_spec [Zlib] {d : Doc} {x : Option Int} {L : List Nat} {f : Ref → Ref} (hd : Editable d x)
    (hr : Ranks d L f) (h : Squashable d x L f) :
    ∃ (new d' : Doc) (t : Dict) (root : Obj), squash d = .ok (some new, d') ∧
      Editable new (if x = some 0 then none else x) ∧ (storeOf d).val 0 = .ok (.dict t) ∧
      Dict.get? t b!"/Root" = some root ∧ SquashOf d new d' L f root := by
  obtain ⟨all, hall⟩ := all_one d.cur fun n hn => by
    obtain ⟨e, he, -⟩ := h.cells n hn
    exact ⟨e, he⟩
  have hpos := hd.pos
  rcases all with _ | ⟨e0, ents⟩
  · rw [hall] at hpos; simp at hpos
  have hnum : ∀ (i : Nat) (e : Entry), ents[i]? = some e → e.num = ((i + 1 : Nat) : Int) := by
    intro i e he
    obtain ⟨e', h1, h2⟩ := h.cells (i + 1) (by
      rw [hall]; simpa using lt_of_getElem? he)
    rw [hall] at h1
    simp only [List.map_cons, List.getElem?_cons_succ, List.getElem?_map, he, Option.map_some, Option.some.injEq, Slot.one.injEq] at h1
    rw [h1, h2]
  have hcell : ∀ (i : Nat), d.cur[i + 1]? = (ents[i]?).map Slot.one := by
    intro i
    rw [hall]
    simp
  -- the live entries
  let lives := ents.filter fun e => !e.deleted
  have hlives : ∀ e ∈ lives, ∃ i : Nat, ents[i]? = some e ∧ e.deleted = false := by
    intro e he
    obtain ⟨h1, h2⟩ := List.mem_filter.1 he
    obtain ⟨i, hi⟩ := List.mem_iff_getElem?.1 h1
    exact ⟨i, hi, by simpa using h2⟩
  have hL : L = lives.map fun e => e.num.toNat := by
    apply sorted_unique hr.sorted
    · rw [List.pairwise_map]
      apply List.Pairwise.filter
      rw [List.pairwise_iff_getElem]
      intro i j hi hj hij
      rw [hnum i _ (List.getElem?_eq_getElem hi), hnum j _ (List.getElem?_eq_getElem hj)]
      omega
    · intro n
      rw [hr.live, List.mem_map]
      constructor
      · rintro ⟨h1, e, h2, h3⟩
        obtain ⟨i, rfl⟩ : ∃ i, n = i + 1 := ⟨n - 1, by omega⟩
        rw [hcell, Option.map_eq_some_iff] at h2
        obtain ⟨e', h2, h4⟩ := h2
        cases h4
        refine ⟨e, List.mem_filter.2 ⟨List.mem_of_getElem? h2, by simp [h3]⟩, ?_⟩
        rw [hnum i e h2]
        simp
      · rintro ⟨e, he, rfl⟩
        obtain ⟨i, hi, hdel⟩ := hlives e he
        rw [hnum i e hi]
        refine ⟨by simp, e, ?_, hdel⟩
        simp only [Int.toNat_natCast]
        rw [hcell, hi]; rfl
  have hlive : ∀ e ∈ lives, ∃ n : Nat, n ≠ 0 ∧ n ∈ L ∧ e.num = (n : Int) ∧ d.cur[n]? = some (.one e) ∧
      e.deleted = false ∧ e.envNum = none ∧ genOf d n = e.gen := by
    intro e he
    obtain ⟨i, hi, hdel⟩ := hlives e he
    have hc : d.cur[i + 1]? = some (.one e) := by rw [hcell, hi]; rfl
    refine ⟨i + 1, by omega, (hr.live _).2 ⟨by omega, e, hc, hdel⟩, hnum i e hi, hc, hdel, hd.good.noEmb _ _ hc, ?_⟩
    unfold genOf
    rw [hc]
  have hLnd : L.Nodup := by
    refine List.Pairwise.imp ?_ hr.sorted
    intro a b hab
    omega
  have href : (lives.map entryRef).Nodup := by
    have : (lives.map fun e => e.num.toNat).Nodup := hL ▸ hLnd
    rw [show (fun e : Entry => e.num.toNat) = (fun r : Ref => r.2.toNat) ∘ entryRef from rfl, ← List.map_map] at this
    exact nodup_of_map _ this
  obtain ⟨m, hm1, hm2, hm3⟩ := defragLoop_spec ents 0 [] href
  have hmf : ∀ n ∈ L, m.apply ((genOf d n : Int), (n : Int)) = f ((genOf d n : Int), (n : Int)) := by
    intro n hn
    obtain ⟨k, hk⟩ := List.mem_iff_getElem?.1 hn
    rw [hr.rank k n hk]
    rw [hL, List.getElem?_map, Option.map_eq_some_iff] at hk
    obtain ⟨e, he, hen⟩ := hk
    obtain ⟨n', -, -, h1, -, -, -, h2⟩ := hlive e (List.mem_of_getElem? he)
    have hnn : n' = n := by rw [← hen, h1]; simp
    subst hnn
    have := hm3 k e he rfl
    unfold entryRef at this
    rw [h1, ← h2] at this
    rw [this]
    simp
  have hmo : ∀ v, NoDangling d L v → ∀ r, Occurs r v → m.apply r = f r := by
    intro v hv r hocc
    obtain ⟨n, hn, rfl⟩ := hv r hocc
    exact hmf n hn
  -- the objects
  let val : Entry → Obj := fun e => match view d (.ref 0 e.num) with | .ok v => v | .error _ => .null
  let items := lives.map fun e => (defragEntry e, e.num.toNat, val e)
  have hval : ∀ e ∈ lives, ∀ n : Nat, e.num = (n : Int) → n ∈ L → view d (.ref 0 n) = .ok (val e) := by
    intro e he n hen hn
    obtain ⟨v, hv, -⟩ := h.vals n hn
    have hv : view d (.ref 0 (n : Int)) = .ok v := hv
    show _ = Except.ok (match view d (.ref 0 e.num) with | .ok v => v | .error _ => .null)
    rw [hen, hv]
  have hitems1 : items.map (fun i => i.2.1) = L := by
    rw [hL]
    show List.map _ (List.map _ lives) = _
    rw [List.map_map]
    rfl
  have hitems2 : items.map Prod.fst = lives.map defragEntry := by
    show List.map _ (List.map _ lives) = _
    rw [List.map_map]
    rfl
  obtain ⟨c', hs1, hs2, hs3, hs4⟩ := squashLoop_spec m d items d.cache (by rw [hitems1]; exact hLnd) (by
    intro i hi
    obtain ⟨e, he, rfl⟩ := List.mem_map.1 hi
    obtain ⟨n, h0, h1, h2, h3, h4, h5, h6⟩ := hlive e he
    have hn : e.num.toNat = n := by rw [h2]; simp
    simp only [hn]
    exact ⟨h0, e, h3, h4, h5, by simp [defragEntry, h2], hval e he n h2 h1, trivial⟩)
  rw [hitems2] at hs1
  -- the trailer and the version
  obtain ⟨hv, hhead⟩ := h.header
  obtain ⟨t, nr, cat, ht, hnr, hroot, hcat, hver⟩ := h.root
  obtain ⟨t', ht'⟩ := hd.root
  obtain ⟨s0, hs0, hs0d⟩ := hd.zero
  have htt : t' = t := by
    have h1 : view d (.ref 0 (0 : Nat)) = .ok (.dict t) := ht
    rw [view_zero hd, cacheAt_eq ht'] at h1
    cases h1; rfl
  subst htt
  have hv1 := version_eq (d := d) hhead hs0 hs0d ht' hroot (by
    obtain ⟨e, hne, hdel⟩ := ((hr.live nr).1 hnr).2
    rw [view_num, ← view_num d 0]; exact hcat)
  have hnr0 : nr ≠ 0 := by
    have := ((hr.live nr).1 hnr).1
    omega
  have hnri : ∃ i ∈ items, i.2.1 = nr ∧ i.2.2 = .dict cat := by
    rw [← hitems1] at hnr
    obtain ⟨i, hi, hin⟩ := List.mem_map.1 hnr
    refine ⟨i, hi, hin, ?_⟩
    obtain ⟨e, he, rfl⟩ := List.mem_map.1 hi
    obtain ⟨n, h0, h1, h2, -⟩ := hlive e he
    have := hval e he n h2 h1
    have hnn : n = nr := by rw [← hin, h2]; simp
    rw [hnn] at this
    have hcat : view d (.ref 0 (nr : Int)) = .ok (.dict cat) := hcat
    rw [hcat] at this
    injection this with this
    exact this.symm
  have hv2 := version_eq (d := { d with cache := c' }) (v := hv) (s := s0) (t := t')
    (cat := deepRefRetargetEntries m cat) (r := .ref (genOf d nr : Int) (nr : Int)) hhead hs0 hs0d
    (by
      show c'[0]? = _
      rw [hs2 0 ?_, ht']
      rw [hitems1]
      intro h0
      have := ((hr.live 0).1 h0).1
      omega) hroot (by
      obtain ⟨i, hi, h1, h2⟩ := hnri
      obtain ⟨e, hne, hdel⟩ := ((hr.live nr).1 hnr).2
      refine view_cached (v := .dict (deepRefRetargetEntries m cat)) (d := { d with cache := c' }) hne
        (by simp [Slot.isDeleted, hdel]) ?_ (by simp) _
      have := hs3 i hi cat h2
      rw [h1] at this
      exact this)
  have hvv : versionFrom hv (deepRefRetargetEntries m cat) = versionFrom hv cat := by
    unfold versionFrom
    rw [retargetEntries_get?]
    rcases hk : Dict.get? cat b!"/Version" with _ | o
    · rfl
    · obtain ⟨w, rfl⟩ := hver o hk
      rfl
  obtain ⟨w, hw⟩ : ∃ w, versionFrom hv cat = .ok w := by
    unfold versionFrom
    rcases hk : Dict.get? cat b!"/Version" with _ | o
    · exact ⟨_, rfl⟩
    · obtain ⟨w, rfl⟩ := hver o hk
      exact ⟨_, rfl⟩
  rw [hw] at hv1 hvv
  rw [hvv] at hv2
  rcases hvd : version { d with cache := c' } with e | ⟨w', dv⟩
  · rw [hvd] at hv2; cases hv2
  rw [hvd] at hv2
  obtain rfl : w' = w := by
    injection hv2
  -- the new document
  let x' : Option Int := if x = some 0 then none else x
  let zero : Entry := { num := 0, xrefStreamNum := x' }
  let os := items.map fun i => deepRefRetarget m i.2.2
  let root := Obj.ref (genOf d nr : Int) (nr : Int)
  let new0 : Doc := { cur := .one zero :: (lives.map defragEntry).map Slot.one, past := [],
                      cache := deepRefRetarget m (.dict [(b!"/Root", root)]) :: os,
                      curData := { fdata := .dummy [] }, pastData := [] }
  let new : Doc := { new0 with curData := { fdata := .dummy (b!"%PDF-" ++ w') } }
  have hlenL : lives.length = L.length := by rw [hL, List.length_map]
  have hoslen : os.length = L.length := by simp [os, items, hlenL]
  have hnewcell : ∀ k e, lives[k]? = some e → new.cur[k + 1]? = some (.one (defragEntry e)) := by
    intro k e he
    show (Slot.one zero :: (lives.map defragEntry).map Slot.one)[k + 1]? = _
    simp [he]
  have hnewlen : new.cur.length = L.length + 1 := by
    show (Slot.one zero :: (lives.map defragEntry).map Slot.one).length = _
    simp [hlenL]
  have hx'1 : x' ≠ some (-1) := by
    show (if x = some 0 then none else x) ≠ _
    split
    · simp
    · exact hd.good.xnum
  have hobj : ∀ k n, L[k]? = some n → ∃ v e, lives[k]? = some e ∧ (storeOf d).val n = .ok v ∧ v ≠ .null ∧
      new.cache[k + 1]? = some (renumber f v) ∧ renumber f v ≠ .null := by
    intro k n hk
    have hn := List.mem_of_getElem? hk
    obtain ⟨v, hv, hne, hdang, hstr⟩ := h.vals n hn
    rw [hL, List.getElem?_map, Option.map_eq_some_iff] at hk
    obtain ⟨e, he, hen⟩ := hk
    obtain ⟨n', -, h0, h1, -⟩ := hlive e (List.mem_of_getElem? he)
    have hnn : n' = n := by rw [← hen, h1]; simp
    subst hnn
    have hve := hval e (List.mem_of_getElem? he) n' h1 h0
    have hv' : view d (.ref 0 (n' : Int)) = .ok v := hv
    rw [hv'] at hve
    have hret := retarget_renumber hstr (hmo v hdang)
    refine ⟨v, e, he, hv, hne, ?_, ?_⟩
    · show (deepRefRetarget m (.dict [(b!"/Root", root)]) :: os)[k + 1]? = _
      simp only [List.getElem?_cons_succ, os, items, List.getElem?_map, he, Option.map_some]
      injection hve with hve
      rw [← hve, hret]
    · rw [← hret]
      exact retarget_ne_null hne
  have hfirst : firstXrefStreamNum new = .ok x' := rfl
  have hedit : Editable new x' := by
    refine ⟨⟨?_, ?_, ?_, hx'1, ?_⟩, ?_, ?_, ⟨_, rfl⟩, ⟨_, rfl, rfl⟩⟩
    · rw [hnewlen]
      show _ ≤ (deepRefRetarget m (.dict [(b!"/Root", root)]) :: os).length
      simp [hoslen]
    · intro n e he
      rcases n with _ | k
      · cases he
        rfl
      · have he : ((lives.map defragEntry).map Slot.one)[k]? = some (.one e) := he
        simp only [List.getElem?_map, Option.map_eq_some_iff] at he
        obtain ⟨e1, ⟨e2, h1, h2⟩, h3⟩ := he
        cases h3
        obtain ⟨-, -, -, -, -, -, h5, -⟩ := hlive e2 (List.mem_of_getElem? h1)
        rw [← h2]
        exact h5
    · intro y hy
      rw [hfirst] at hy
      cases hy
      rfl
    · intro n e hn1 hnx he hdel hnull
      exfalso
      obtain ⟨k, rfl⟩ : ∃ k, n = k + 1 := ⟨n - 1, by omega⟩
      have hlt := lt_of_getElem? he
      rw [hnewlen] at hlt
      obtain ⟨v, -, -, -, -, h1, h2⟩ := hobj k _ (List.getElem?_eq_getElem (by omega))
      rw [h1] at hnull
      injection hnull with hnull
      exact h2 hnull
    · intro n es hn1 he
      obtain ⟨k, rfl⟩ : ∃ k, n = k + 1 := ⟨n - 1, by omega⟩
      have he : ((lives.map defragEntry).map Slot.one)[k]? = some (.many es) := he
      simp only [List.getElem?_map, Option.map_eq_some_iff] at he
      obtain ⟨_, _, h3⟩ := he
      cases h3
    · rw [hnewlen]; omega
  have hchg : changes new0 ≠ [] := by
    obtain ⟨k, hk, hkx⟩ : ∃ k, k < L.length ∧ x' ≠ some ((k + 1 : Nat) : Int) := by
      have hpos : 0 < L.length := List.length_pos_of_mem hnr
      rcases h.some with hx | hx
      · refine ⟨0, hpos, ?_⟩
        show (if x = some 0 then none else x) ≠ _
        rw [hx]; simp
      · by_cases hx1 : x' = some 1
        · exact ⟨1, hx, by rw [hx1]; simp⟩
        · exact ⟨0, hpos, by simpa using hx1⟩
    obtain ⟨v, e, he, -⟩ := hobj k _ (List.getElem?_eq_getElem hk)
    have : (⟨0, k + 1, .a⟩ : Change) ∈ changes new0 := by
      rw [mem_changes]
      refine ⟨defragEntry e, by simp, hnewcell k e he, rfl, hkx, ?_⟩
      have hpr : (prevRev new0)[k + 1]? = some .hole := by
        show (List.replicate new0.cur.length Slot.hole)[k + 1]? = _
        rw [List.getElem?_replicate, if_pos]
        exact lt_of_getElem? (hnewcell k e he)
      unfold changeOf
      rw [hpr]
      rfl
    intro h0
    rw [h0] at this
    simp at this
  have hrootnew : deepRefRetarget m (.dict [(b!"/Root", root)]) = .dict [(b!"/Root", renumber f root)] := by
    refine retarget_renumber (f := f) (Or.inl ?_) ?_
    · intro p d s e hp
      rcases p with _ | ⟨i, p⟩
      · cases hp
      · rcases i with _ | i
        · rcases p with _ | ⟨j, p⟩ <;> cases hp
        · cases hp
    · intro r hocc
      cases hocc with
      | entry hm ho =>
        simp only [List.mem_singleton, Prod.mk.injEq] at hm
        obtain ⟨-, rfl⟩ := hm
        have hrr : r = ((genOf d nr : Int), (nr : Int)) := occurs_ref ho
        rw [hrr]
        exact hmf nr hnr
  refine ⟨new, dv, t', root, ?_, hedit, ht, hroot, ⟨rfl, hnewlen, ?_, ?_, ?_, ?_, ?_, ?_, ?_, ?_, ?_, ?_⟩⟩
  · unfold squash
    have hdrop : d.cur.drop 1 = ents.map Slot.one := by rw [hall]; rfl
    rw [hdrop, hm1, h.first, envelopeNums_none d.cur ?_, trailerOf_cached hs0 hs0d ht']
    · simp only [bind, Except.bind, getKey, hroot, orRaise]
      have hs1 : squashLoop m (lives.map defragEntry) d = .ok (os, { d with cache := c' }) := hs1
      show (squashLoop m (lives.map defragEntry) d >>= _) = _
      rw [hs1]
      show (if changes new0 = [] then _ else _) = _
      rw [if_neg hchg, hvd]
      rfl
    · intro s hs
      obtain ⟨n, hn⟩ := List.mem_iff_getElem?.1 hs
      obtain ⟨e, he, -⟩ := h.cells n (lt_of_getElem? hn)
      rw [hn] at he
      cases he
      exact ⟨e, rfl, hd.good.noEmb n e hn⟩
  · intro n hn
    rcases n with _ | k
    · exact ⟨⟨zero, rfl, rfl⟩, rfl⟩
    · rw [hnewlen] at hn
      obtain ⟨v, e, he, -⟩ := hobj k _ (List.getElem?_eq_getElem (by omega))
      obtain ⟨-, -, -, -, -, hdel, -⟩ := hlive e (List.mem_of_getElem? he)
      refine ⟨⟨_, hnewcell k e he, hdel⟩, ?_⟩
      unfold genOf
      rw [hnewcell k e he]
      rfl
  · intro k n hk
    obtain ⟨v, e, he, h1, h2, h3, h4⟩ := hobj k n hk
    obtain ⟨-, -, -, -, -, hdel, -⟩ := hlive e (List.mem_of_getElem? he)
    rw [h1]
    exact view_cached (hnewcell k e he) (by simp [Slot.isDeleted, defragEntry, hdel]) h3 h4 0
  · rw [← hrootnew]
    exact view_cached (n := 0) (e := .one zero) (d := new) rfl rfl rfl (retarget_ne_null (by simp)) 0
  · exact ⟨w', hv1, rfl, rfl⟩
  · intro k n hk
    obtain ⟨v, e, he, -⟩ := hobj k n hk
    refine ⟨_, hnewcell k e he, ?_⟩
    rw [hL, List.getElem?_map, he] at hk
    obtain ⟨n', -, -, h1, -⟩ := hlive e (List.mem_of_getElem? he)
    injection hk with hk
    show e.num = _
    simp only [h1, Int.toNat_natCast] at hk
    rw [h1, hk]
  · intro e he
    cases he
    rfl
  · intro y hy
    rw [h.first] at hy
    cases hy
    exact hfirst
  · intro hfix
    rw [version_doc (C25_no_object_stream { d with cache := c' } hd.good.noEmb) hs0 hs0d
      (by
        show c'[0]? = _
        rw [hs2 0 ?_, ht']
        rw [hitems1]
        intro h0
        have := ((hr.live 0).1 h0).1
        omega) hvd]
    unfold storeOf
    congr 1
    funext n
    by_cases hn : n ∈ L
    · obtain ⟨e, hne, hdel⟩ := ((hr.live n).1 hn).2
      obtain ⟨v, hv, hne', hdang, hstr⟩ := h.vals n hn
      have hv' : view d (.ref 0 (n : Int)) = .ok v := hv
      rw [hv']
      refine view_cached (d := { d with cache := c' }) hne (by simp [Slot.isDeleted, hdel]) ?_ hne' 0
      show c'[n]? = _
      have hn' := hn
      rw [← hitems1] at hn'
      obtain ⟨i, hi, hin⟩ := List.mem_map.1 hn'
      have hiv : i.2.2 = v := by
        obtain ⟨e, he, rfl⟩ := List.mem_map.1 hi
        obtain ⟨n2, h0, h1, h2, -⟩ := hlive e he
        have := hval e he n2 h2 h1
        have hnn : n2 = n := by rw [← hin, h2]; simp
        rw [hnn, hv'] at this
        injection this with this
        exact this.symm
      have := hs4 i hi (by rw [hiv, retarget_renumber hstr (hmo v hdang)]; exact hfix n hn v hv)
      rw [hin, hiv] at this
      exact this
    · have hcn : c'[n]? = d.cache[n]? := hs2 n (by rw [hitems1]; exact hn)
      by_cases hn0 : n = 0
      · subst hn0
        rw [show view d (.ref 0 ((0 : Nat) : Int)) = _ from view_cached hs0 hs0d ht' (by simp) 0]
        exact view_cached (d := { d with cache := c' }) hs0 hs0d (by rw [← ht']; exact hcn) (by simp) 0
      · by_cases hlt : n < d.cur.length
        · obtain ⟨e, he, -⟩ := h.cells n hlt
          exact view_cache hn0 he (hd.good.noEmb n e he) hcn
        · rw [view_num, view_num]
          have hs : slotAt d.cur n = .error .indexError := by
            unfold slotAt
            rw [List.getElem?_eq_none (by omega)]
            rfl
          unfold memoize
          simp only [hs]
          rfl
  · intro k n hk
    obtain ⟨v, -, -, h1, -, h3, -⟩ := hobj k n hk
    exact ⟨v, h1, h3⟩
  · rw [← hrootnew]
    rfl

/-- **C37** (partial: no object stream, no dangling reference, no live object that is `None`, and stream dictionaries
without a reference to a moved object; `C37_stream_counterexample` and `C37_dangling_counterexample` show that this is
needed; a live object is only `None` when it is a malformed stream). The squashed document has a single revision, with one number
per live object, from 1 to their number, in the same order; and every walk from the root by keys, positions and
references leads to the same thing in both, up to the new numbers. -/
theorem C37_squash_partial [Zlib] {d : Doc} {x : Option Int} {L : List Nat} {f : Ref → Ref} (hd : Editable d x)
    (hr : Ranks d L f) (h : Squashable d x L f) :
    ∃ (new d' : Doc) (t : Dict) (root : Obj), squash d = .ok (some new, d') ∧
      (storeOf d).val 0 = .ok (.dict t) ∧ Dict.get? t b!"/Root" = some root ∧
      new.past = [] ∧ new.cur.length = L.length + 1 ∧ (∀ n, n < new.cur.length → Live new n ∧ genOf new n = 0) ∧
      (storeOf new).val 0 = .ok (.dict [(b!"/Root", renumber f root)]) ∧
      (∀ (k n : Nat), L[k]? = some n → (storeOf new).val (k + 1) = ((storeOf d).val n).map (renumber f)) ∧
      ∀ p, walk (storeOf new) p (renumber f root) = (walk (storeOf d) p root).map (renumber f) := by
  obtain ⟨new, d', t, root, h1, -, h3, h4, h5⟩ := squash_spec hd hr h
  refine ⟨new, d', t, root, h1, h3, h4, h5.past, h5.length, h5.cells, h5.trailer, h5.objects, ?_⟩
  intro p
  refine walk_renumber (P := fun r => ∃ n ∈ L, r = ((genOf d n : Int), (n : Int))) ?_ p root ?_
  · rintro g n ⟨m, hm, heq⟩
    cases heq
    obtain ⟨v, hv, -, hdang, -⟩ := h.vals m hm
    obtain ⟨k, hk⟩ := List.mem_iff_getElem?.1 hm
    refine ⟨v, ?_, ?_, hdang⟩
    · simp only [Store.get]
      rw [if_neg (by omega), Int.toNat_natCast, hv]
    · have := h5.objects k m hk
      rw [hv] at this
      simp only [renumber, hr.rank k m hk, Store.get]
      rw [if_neg (by omega), Int.toNat_natCast, this]
      rfl
  · obtain ⟨t', n, cat, q1, q2, q3, -⟩ := h.root
    rw [h3] at q1
    cases q1
    rw [h4] at q3
    cases q3
    intro r hocc
    exact ⟨n, q2, occurs_ref hocc⟩

/-- When nothing is deleted and all generations are 0, no reference has to change: the stream dictionaries may hold
any reference. -/
theorem C37_no_gap_partial [Zlib] {d : Doc} {x : Option Int} {L : List Nat} (hd : Editable d x)
    (hr : Ranks d L id) (h : Squashable d x L id) :
    ∃ (new d' : Doc) (root : Obj), squash d = .ok (some new, d') ∧ new.cur.length = L.length + 1 ∧
      (∀ n ∈ L, (storeOf new).val n = (storeOf d).val n) ∧
      ∀ p, walk (storeOf new) p root = walk (storeOf d) p root := by
  obtain ⟨new, d', t, root, h1, -, -, -, h5, -, -, h7, h8⟩ := C37_squash_partial hd hr h
  have hid : ∀ o, renumber id o = o := fun o => renumber_id o
  refine ⟨new, d', root, h1, h5, ?_, ?_⟩
  · intro n hn
    obtain ⟨k, hk⟩ := List.mem_iff_getElem?.1 hn
    have hkn := hr.rank k n hk
    have : n = k + 1 := by
      have := congrArg Prod.snd hkn
      simp only [id] at this
      omega
    subst this
    rw [h7 k _ hk]
    rcases (storeOf d).val (k + 1) with e | v
    · rfl
    · simp [Except.map, hid]
  · intro p
    have := h8 p
    rw [hid] at this
    rw [this]
    cases walk (storeOf d) p root <;> simp [hid]

/-! ### A document with a deleted object -/

def squashObjs : List Obj :=
  [.dict [(b!"/Root", .ref 0 2)], .null,
   .dict [(b!"/Type", .str b!"/Catalog"), (b!"/Pages", .ref 0 4)],
   .stream [(b!"/Length", .int 1)] b!"q" b!"q",
   .dict [(b!"/Kids", .list [.ref 0 5]), (b!"/Count", .int 1)],
   .dict [(b!"/Parent", .ref 0 4), (b!"/Contents", .ref 0 3)]]


theorem squashObjs_ranks : Ranks (gapDoc squashObjs) [2, 3, 4, 5] (fun r => (0, r.2 - 1)) := by
  refine ⟨by decide, ?_, ?_⟩
  · intro n
    rw [gapDoc_live]
    constructor
    · intro hn
      simp only [List.mem_cons, List.not_mem_nil, or_false] at hn
      rcases hn with rfl | rfl | rfl | rfl <;> exact ⟨by omega, _, rfl, by simp⟩
    · rintro ⟨h1, o, h2, h3⟩
      have hlt : n < 6 := lt_of_getElem? h2
      have : n ≠ 1 := by
        rintro rfl
        cases h2
        exact h3 rfl
      simp only [List.mem_cons, List.not_mem_nil, or_false]
      omega
  · intro k n hk
    have hlt : k < 4 := lt_of_getElem? hk
    rw [gapDoc_gen]
    rcases k with _ | _ | _ | _ | k <;> simp at hk <;> first | (subst hk; rfl) | omega

theorem squashObjs_squashable [Zlib] :
    Squashable (gapDoc squashObjs) none [2, 3, 4, 5] (fun r => (0, r.2 - 1)) := by
  have hval : ∀ n o, squashObjs[n]? = some o → (storeOf (gapDoc squashObjs)).val n = .ok o :=
    fun n o h => gapDoc_view h 0
  refine ⟨?_, rfl, ?_, ⟨b!"1.4", rfl⟩, ?_, Or.inl rfl⟩
  · intro n hn
    rw [gapDoc_cur]
    have hn : n < 6 := hn
    have : squashObjs[n]? = some (squashObjs[n]'hn) := List.getElem?_eq_getElem hn
    rw [this]
    exact ⟨_, rfl, rfl⟩
  · have hd : ∀ v : Obj, (∀ r ∈ deepRefCollect [] v, r.1 = 0 ∧ r.2.toNat ∈ [2, 3, 4, 5] ∧ 0 ≤ r.2) →
        NoDangling (gapDoc squashObjs) [2, 3, 4, 5] v := by
      intro v hv r hr
      obtain ⟨h1, h2, h3⟩ := hv r (occurs_collect.1 hr)
      refine ⟨_, h2, ?_⟩
      rw [gapDoc_gen]
      apply Prod.ext
      · exact h1
      · simp only
        omega
    intro n hn
    simp only [List.mem_cons, List.not_mem_nil, or_false] at hn
    rcases hn with rfl | rfl | rfl | rfl
    · exact ⟨_, hval 2 _ rfl, by simp, hd _ (by decide), Or.inl (noStream_check rfl)⟩
    · refine ⟨_, hval 3 _ rfl, by simp, hd _ (by decide), Or.inr ⟨_, _, _, rfl, ?_⟩⟩
      intro r hr
      exact absurd (occurs_collect.1 hr) (by simp [deepRefCollect, deepRefCollectEntries])
    · exact ⟨_, hval 4 _ rfl, by simp, hd _ (by decide), Or.inl (noStream_check rfl)⟩
    · exact ⟨_, hval 5 _ rfl, by simp, hd _ (by decide), Or.inl (noStream_check rfl)⟩
  · refine ⟨_, 2, _, hval 0 _ rfl, by simp, ?_, hval 2 _ rfl, ?_⟩
    · rw [gapDoc_gen]; rfl
    · intro v hv
      cases hv

/-- The hypotheses of `C37_squash_partial` are met by a document whose object 1 is deleted. -/
example [Zlib] : Editable (gapDoc squashObjs) none ∧ Ranks (gapDoc squashObjs) [2, 3, 4, 5] (fun r => (0, r.2 - 1)) ∧
    Squashable (gapDoc squashObjs) none [2, 3, 4, 5] (fun r => (0, r.2 - 1)) :=
  ⟨gapDoc_editable rfl, squashObjs_ranks, squashObjs_squashable⟩

/-- The objects of that document, squashed. -/
example [Zlib] : (squash (gapDoc squashObjs)).map (fun r => r.1.map Doc.cache) = .ok (some
    [.dict [(b!"/Root", .ref 0 1)],
     .dict [(b!"/Type", .str b!"/Catalog"), (b!"/Pages", .ref 0 3)],
     .stream [(b!"/Length", .int 1)] b!"q" b!"q",
     .dict [(b!"/Kids", .list [.ref 0 4]), (b!"/Count", .int 1)],
     .dict [(b!"/Parent", .ref 0 3), (b!"/Contents", .ref 0 2)]]) := rfl

/-- Where a walk from the catalog leads, in a document and in the document squashed. -/
def walks [Zlib] (d : Doc) (p : List Step) : Option Obj × Option Obj :=
  match squash d with
  | .ok (some new, _) => (walk (storeOf d) (.key b!"/Root" :: .go :: p) (d.cache.headD .null),
      walk (storeOf new) (.key b!"/Root" :: .go :: p) (new.cache.headD .null))
  | _ => (none, none)

/-- **C37 is false of the code** in general: a reference in a stream dictionary keeps its old number, and leads
to another object (here from the stream to itself instead of the catalog). -/
theorem C37_stream_counterexample [Zlib] :
    walks (gapDoc [.dict [(b!"/Root", .ref 0 2)], .null, .dict [(b!"/S", .ref 0 3)],
      .stream [(b!"/Next", .ref 0 2)] [] []]) [.key b!"/S", .go, .key b!"/Next", .go] =
    (some (.dict [(b!"/S", .ref 0 3)]), some (.stream [(b!"/Next", .ref 0 2)] [] [])) := rfl

/-- A reference to a deleted object, which stands for `null`, keeps its number, which may be given to another
object (here to the catalog itself). -/
theorem C37_dangling_counterexample [Zlib] :
    walks (gapDoc [.dict [(b!"/Root", .ref 0 2)], .null, .dict [(b!"/S", .ref 0 1)]]) [.key b!"/S", .go] =
    (some .null, some (.dict [(b!"/S", .ref 0 1)])) := rfl

/-! ### C64 -/

/-- **C64** in the case that holds: when no live object has a reference to a moved object, the document that
was given shows the same objects afterwards. -/
theorem C64_squash_source_partial [Zlib] {d : Doc} {x : Option Int} {L : List Nat} {f : Ref → Ref} (hd : Editable d x)
    (hr : Ranks d L f) (h : Squashable d x L f)
    (hfix : ∀ n ∈ L, ∀ v, (storeOf d).val n = .ok v → ∀ r, Occurs r v → f r = r) :
    ∃ new d', squash d = .ok (new, d') ∧ ∀ r, view d' r = view d r := by
  obtain ⟨new, d', t, root, h1, -, h3, h4, h5⟩ := squash_spec hd hr h
  refine ⟨new, d', h1, fun r => ?_⟩
  rw [view_get, view_get, h5.source fun n hn v hv => renumber_fixed (hfix n hn v hv)]

/-- **C64 is false of the code**: the references of the given document are renumbered in place. Here the object 2 of
the given document then has another value (and its page tree is the page itself). -/
theorem C64_squash_counterexample [Zlib] :
    view (gapDoc squashObjs) (.ref 0 2) = .ok (.dict [(b!"/Type", .str b!"/Catalog"), (b!"/Pages", .ref 0 4)]) ∧
    ∃ new d', squash (gapDoc squashObjs) = .ok (new, d') ∧
      view d' (.ref 0 2) = .ok (.dict [(b!"/Type", .str b!"/Catalog"), (b!"/Pages", .ref 0 3)]) :=
  ⟨rfl, _, _, rfl, rfl⟩

/-! ### C65 -/

/-- **C65 is false of the code**: the entries of a squashed document keep the old numbers, which a second `squash`
takes for the present ones; here it raises. -/
theorem C65_counterexample [Zlib] :
    ∃ new d', squash (gapDoc squashObjs) = .ok (some new, d') ∧ squash new = .error .indexError :=
  ⟨_, _, rfl, rfl⟩

/-- **C65** in the case that holds: when nothing was deleted and all generations are 0, the squashed document may be
squashed again, and the result shows the same objects. The version is one that a header can show. -/
theorem C65_twice_partial [Zlib] {d : Doc} {x : Option Int} {L : List Nat} (hd : Editable d x)
    (hr : Ranks d L id) (h : Squashable d x L id)
    (hver : ∀ w, (version d).map Prod.fst = .ok w → isAscii (w.take 3) = true) :
    ∃ new d' new' d'', squash d = .ok (some new, d') ∧ squash new = .ok (some new', d'') ∧
      new'.cur.length = new.cur.length ∧ ∀ n ∈ L, view new' (.ref 0 n) = view new (.ref 0 n) := by
  obtain ⟨new, d', t, root, h1, h2, h3, h4, h5⟩ := squash_spec hd hr h
  have hid : ∀ o, renumber id o = o := fun o => renumber_id o
  have hk1 : ∀ (k n : Nat), L[k]? = some n → n = k + 1 ∧ genOf d n = 0 := by
    intro k n hk
    have := hr.rank k n hk
    simp only [id, Prod.mk.injEq] at this
    omega
  have hmem : ∀ n, n ∈ L ↔ 1 ≤ n ∧ n < L.length + 1 := by
    intro n
    constructor
    · intro hn
      obtain ⟨k, hk⟩ := List.mem_iff_getElem?.1 hn
      have := lt_of_getElem? hk
      have := hk1 k n hk
      omega
    · rintro ⟨h6, h7⟩
      have hk : L[n - 1]? = some (L[n - 1]'(by omega)) := List.getElem?_eq_getElem (by omega)
      have := hk1 _ _ hk
      have hn : L[n - 1]'(by omega) = n := by omega
      rw [hn] at hk
      exact List.mem_of_getElem? hk
  have hgen : ∀ n ∈ L, genOf new n = 0 ∧ genOf d n = 0 := by
    intro n hn
    obtain ⟨k, hk⟩ := List.mem_iff_getElem?.1 hn
    refine ⟨(h5.cells n ?_).2, (hk1 k n hk).2⟩
    rw [h5.length]
    exact ((hmem n).1 hn).2
  have hobj : ∀ n ∈ L, (storeOf new).val n = (storeOf d).val n := by
    intro n hn
    obtain ⟨k, hk⟩ := List.mem_iff_getElem?.1 hn
    obtain ⟨rfl, -⟩ := hk1 k n hk
    rw [h5.objects k _ hk]
    rcases (storeOf d).val (k + 1) with e | v
    · rfl
    · simp [Except.map, hid]
  have hr' : Ranks new L id := by
    refine ⟨hr.sorted, ?_, ?_⟩
    · intro n
      rw [hmem]
      constructor
      · rintro ⟨h6, h7⟩
        exact ⟨h6, (h5.cells n (by rw [h5.length]; exact h7)).1⟩
      · rintro ⟨h6, e, h7, -⟩
        have := lt_of_getElem? h7
        rw [h5.length] at this
        exact ⟨h6, this⟩
    · intro k n hk
      rw [(hgen n (List.mem_of_getElem? hk)).1, (hk1 k n hk).1]
      rfl
  obtain ⟨w, hw, hdata, hpd⟩ := h5.version
  have hsq : Squashable new (if x = some 0 then none else x) L id := by
    refine ⟨?_, ?_, ?_, ?_, ?_, ?_⟩
    · intro n hn
      rcases n with _ | k
      · obtain ⟨e, he, -⟩ := (h5.cells 0 hn).1
        refine ⟨e, he, ?_⟩
        exact h5.zero e he
      · rw [h5.length] at hn
        have hk : L[k]? = some (L[k]'(by omega)) := List.getElem?_eq_getElem (by omega)
        obtain ⟨e, he, hen⟩ := h5.nums k _ hk
        exact ⟨e, he, by rw [hen, (hk1 k _ hk).1]⟩
    · exact h5.xnum h.first
    · intro n hn
      obtain ⟨v, q1, q2, q3, q4⟩ := h.vals n hn
      refine ⟨v, by rw [hobj n hn, q1], q2, ?_, q4⟩
      intro r hocc
      obtain ⟨m, hm, rfl⟩ := q3 r hocc
      exact ⟨m, hm, by rw [(hgen m hm).1, (hgen m hm).2]⟩
    · have ha := hver w hw
      refine ⟨w.take 3, ?_⟩
      unfold headerVersion Doc.firstData
      rw [hpd, hdata]
      simp only [List.getLastD_nil, Provider.read]
      rw [if_neg (by simp)]
      simp only [show ¬ ((3 : Int) = -1) by omega, show ¬ ((5 : Int) = -1) by omega, if_false, bind, Except.bind]
      rw [if_neg (by omega)]
      have hsl : slice (b!"%PDF-" ++ w) (Int.toNat 5) (Int.toNat 5 + 3) = w.take 3 := by
        simp [slice]
      rw [hsl, if_pos ha]
    · obtain ⟨t', n, cat, q1, q2, q3, q4, q5⟩ := h.root
      rw [h3] at q1
      cases q1
      rw [h4] at q3
      cases q3
      refine ⟨_, n, cat, h5.trailer, q2, ?_, by rw [hobj n q2, q4], q5⟩
      rw [hid, (hgen n q2).1, (hgen n q2).2]
      rfl
    · rcases h.some with hx | hx
      · left; rw [hx]; rfl
      · exact Or.inr hx
  obtain ⟨new', d'', t', root', k1, k2, k3, k4, k5⟩ := squash_spec h2 hr' hsq
  refine ⟨new, d', new', d'', h1, k1, by rw [k5.length, h5.length], ?_⟩
  intro n hn
  obtain ⟨k, hk⟩ := List.mem_iff_getElem?.1 hn
  obtain ⟨rfl, -⟩ := hk1 k n hk
  have := k5.objects k _ hk
  show (storeOf new').val (k + 1) = (storeOf new).val (k + 1)
  rw [this]
  rcases (storeOf new).val (k + 1) with e | v
  · rfl
  · simp [Except.map, hid]

/-- A document without gap, with a reference in a stream dictionary. -/
def fullObjs : List Obj :=
  [.dict [(b!"/Root", .ref 0 1)], .dict [(b!"/S", .ref 0 2)], .stream [(b!"/Next", .ref 0 1)] [] []]

theorem fullObjs_squashable [Zlib] : Ranks (gapDoc fullObjs) [1, 2] id ∧ Squashable (gapDoc fullObjs) none [1, 2] id := by
  have hval : ∀ n o, fullObjs[n]? = some o → (storeOf (gapDoc fullObjs)).val n = .ok o :=
    fun n o h => gapDoc_view h 0
  refine ⟨⟨by decide, ?_, ?_⟩, ⟨?_, rfl, ?_, ⟨b!"1.4", rfl⟩, ?_, Or.inl rfl⟩⟩
  · intro n
    rw [gapDoc_live]
    constructor
    · intro hn
      simp only [List.mem_cons, List.not_mem_nil, or_false] at hn
      rcases hn with rfl | rfl <;> exact ⟨by omega, _, rfl, by simp⟩
    · rintro ⟨h1, o, h2, h3⟩
      have hlt : n < 3 := lt_of_getElem? h2
      simp only [List.mem_cons, List.not_mem_nil, or_false]
      omega
  · intro k n hk
    have hlt : k < 2 := lt_of_getElem? hk
    rw [gapDoc_gen]
    rcases k with _ | _ | k <;> simp at hk <;> first | (subst hk; rfl) | omega
  · intro n hn
    rw [gapDoc_cur]
    have hn : n < 3 := hn
    have : fullObjs[n]? = some (fullObjs[n]'hn) := List.getElem?_eq_getElem hn
    rw [this]
    exact ⟨_, rfl, rfl⟩
  · have hd : ∀ v : Obj, (∀ r ∈ deepRefCollect [] v, r.1 = 0 ∧ r.2.toNat ∈ [1, 2] ∧ 0 ≤ r.2) →
        NoDangling (gapDoc fullObjs) [1, 2] v := by
      intro v hv r hr
      obtain ⟨h1, h2, h3⟩ := hv r (occurs_collect.1 hr)
      refine ⟨_, h2, ?_⟩
      rw [gapDoc_gen]
      apply Prod.ext
      · exact h1
      · simp only
        omega
    intro n hn
    simp only [List.mem_cons, List.not_mem_nil, or_false] at hn
    rcases hn with rfl | rfl
    · exact ⟨_, hval 1 _ rfl, by simp, hd _ (by decide), Or.inl (noStream_check rfl)⟩
    · exact ⟨_, hval 2 _ rfl, by simp, hd _ (by decide), Or.inr ⟨_, _, _, rfl, fun _ _ => rfl⟩⟩
  · refine ⟨_, 1, _, hval 0 _ rfl, by simp, ?_, hval 1 _ rfl, ?_⟩
    · rw [gapDoc_gen]; rfl
    · intro v hv
      cases hv

/-- The hypotheses of `C37_no_gap_partial`, `C64_squash_source_partial` and `C65_twice_partial` are met. -/
example [Zlib] : Editable (gapDoc fullObjs) none ∧ Ranks (gapDoc fullObjs) [1, 2] id ∧
    Squashable (gapDoc fullObjs) none [1, 2] id ∧ (∀ n ∈ [1, 2], ∀ v, (storeOf (gapDoc fullObjs)).val n = .ok v →
      ∀ r, Occurs r v → id r = r) ∧
    (∀ w, (version (gapDoc fullObjs)).map Prod.fst = .ok w → isAscii (w.take 3) = true) := by
  refine ⟨gapDoc_editable rfl, fullObjs_squashable.1, fullObjs_squashable.2, fun _ _ _ _ _ _ => rfl, ?_⟩
  intro w hw
  have : (version (gapDoc fullObjs)).map Prod.fst = .ok b!"1.4" := rfl
  rw [this] at hw
  cases hw
  decide

end Pdf
