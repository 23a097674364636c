/-
C104: slices of documents and joined documents, written and loaded.
-/
import Verif.Props.C103_PagesFile
import Verif.Props.C35_Slice
import Verif.Props.C36_Concat

namespace Pdf
open Spec Spec.PageTree

/-! ### Slices -/

theorem emits_numberPages [Zlib] : Emits FitNode numberPages (fun _ => True) :=
  readOnly_numberPages.emits

theorem emits_keepPages [Zlib] (lim : Nat) (ord : List Ref → List Ref) (leak : Dict) (pages : List Int) :
    Emits FitNode (keepPages lim ord leak pages) (fun _ => True) := by
  unfold keepPages
  refine emits_numberPages.bind fun n _ => ?_
  refine (emits_lift (P := fun _ => True) fun _ _ => trivial).bind fun _ _ => ?_
  exact emits_removePages _ _ _ _

theorem emits_getItem [Zlib] (lim : Nat) (ord : List Ref → List Ref) (leak : Dict) (key : Key) :
    Emits FitNode (getItem lim ord leak key) (fun _ => True) := by
  unfold getItem
  refine emits_numberPages.bind fun n _ => ?_
  refine (emits_lift (P := fun _ => True) fun _ _ => trivial).bind fun _ _ => ?_
  exact emits_keepPages _ _ _ _

/-- **C104** for slices: the file that `doc[i]` or `doc[a:b:c]` is written to shows exactly the pages that Python chooses,
in document order, each with the same entries and the same inherited attributes.

Missing from the full claim: what is missing of C33, C35 and C28. -/
theorem C104_slice_partial [Zlib] {doc : Doc} (hm : Made doc) (hf : AllObjs FitNode (storeOf doc)) {t : PageTree} {lim : Nat}
    {ord : List Ref → List Ref} (hord : ∀ l, (ord l).Perm l) {leak : Dict} {n : Nat}
    (h : Removable (storeOf doc) t lim (allPages n)) (hn : n = (leaves [] t).length) (hpos : 0 < n) {r : Ref}
    {d : Dict} {kids : List PageTree} (ht : t = .node r d kids) (hc : Dict.get? d b!"/Count" = some (.int n))
    {key : Key} (hkey : ∀ a b, key ≠ .slice a b (some 0)) :
    ∃ leak' d', (getItem lim ord leak key).run doc = .ok (leak', d') ∧ Made d' ∧ AllObjs FitNode (storeOf d') ∧
      ∀ (out : Bytes) (d'' : Doc), writeFile d' = .ok (out, d'') → 100 ≤ out.length → out.length < 10 ^ 80 →
        ∃ dl t', loads out = .ok dl ∧ IsRoot (storeOf dl) t' ∧
          Pointwise SamePage (keepAt ((leaves [] t).map shownPage) (Chosen n key)) ((leaves [] t').map shownPage) := by
  obtain ⟨J, s', t1, e0, e3, -, e6⟩ := slice_eval (leak := leak) hord h hn hpos ht hc hkey
  obtain ⟨d', r1, r2, rfl, r4, -⟩ := made_eval (Q := FitNode) (fun _ h => h.1) _ hm hf (emits_getItem lim ord leak key) e0
  refine ⟨J, d', r1, r2, r4, ?_⟩
  intro out d'' hw hmin hmax
  obtain ⟨dl, t', h1, h2, h3, -⟩ := C103_pages_partial r2 (fun n v hn hv => (r4 n v hn hv).1) e3 hw hmin hmax
  refine ⟨dl, t', h1, h2, ?_⟩
  rw [← e6]; exact h3

/-! ### Joined documents -/

theorem keys_renumber (F : Ref → Ref) : ∀ d : List (Bytes × Obj), (renumberEntries F d).map Prod.fst = d.map Prod.fst
  | [] => rfl
  | (_, _) :: d => by simp only [renumberEntries, List.map_cons, keys_renumber F d]

mutual
theorem wf_renumber {F : Ref → Ref} : ∀ (o : Obj) (inD inA : Bool), WF inD inA o = true →
    (∀ r, Occurs r o → (F r).1 = 0 ∧ (F r).2.natAbs ≤ 9007199254740992) → WF inD inA (renumber F o) = true
  | .ref g n, inD, inA, _, hF => by
    have := hF (g, n) .here
    simp only [renumber, WF, Bool.and_eq_true, decide_eq_true_eq]
    exact this
  | .list l, inD, inA, h, hF => by
    simp only [renumber, WF] at h ⊢
    exact wfItems_renumber l inD true h fun r ⟨o, ho, hr⟩ => hF r (.item ho hr)
  | .dict d, inD, inA, h, hF => by
    simp only [renumber, WF, Bool.and_eq_true, decide_eq_true_eq] at h ⊢
    refine ⟨wfEntries_renumber d true inA h.1 fun r ⟨k, o, ho, hr⟩ => hF r (.entry ho hr), ?_⟩
    rw [keys_renumber]
    exact h.2
  | .null, _, _, h, _ => by simpa [renumber] using h
  | .bool _, _, _, h, _ => by simpa [renumber] using h
  | .int _, _, _, h, _ => by simpa [renumber] using h
  | .real _ _ _, _, _, h, _ => by simpa [renumber] using h
  | .str _, _, _, h, _ => by simpa [renumber] using h
  | .bytes _, _, _, h, _ => by simpa [renumber] using h
  | .stream _ _ _, _, _, h, _ => by simp [WF] at h
theorem wfItems_renumber {F : Ref → Ref} : ∀ (l : List Obj) (inD inA : Bool), WFItems inD inA l = true →
    (∀ r, (∃ o ∈ l, Occurs r o) → (F r).1 = 0 ∧ (F r).2.natAbs ≤ 9007199254740992) →
    WFItems inD inA (renumberItems F l) = true
  | [], _, _, _, _ => by simp [renumberItems, WFItems]
  | o :: l, inD, inA, h, hF => by
    simp only [renumberItems, WFItems, Bool.and_eq_true] at h ⊢
    exact ⟨wf_renumber o inD inA h.1 fun r hr => hF r ⟨o, by simp, hr⟩,
      wfItems_renumber l inD inA h.2 fun r ⟨o', ho', hr⟩ => hF r ⟨o', by simp [ho'], hr⟩⟩
theorem wfEntries_renumber {F : Ref → Ref} : ∀ (d : List (Bytes × Obj)) (inD inA : Bool), WFEntries inD inA d = true →
    (∀ r, (∃ k o, (k, o) ∈ d ∧ Occurs r o) → (F r).1 = 0 ∧ (F r).2.natAbs ≤ 9007199254740992) →
    WFEntries inD inA (renumberEntries F d) = true
  | [], _, _, _, _ => by simp [renumberEntries, WFEntries]
  | (k, o) :: d, inD, inA, h, hF => by
    simp only [renumberEntries, WFEntries, Bool.and_eq_true] at h ⊢
    exact ⟨⟨h.1.1, wf_renumber o inD inA h.1.2 fun r hr => hF r ⟨k, o, by simp, hr⟩⟩,
      wfEntries_renumber d inD inA h.2 fun r ⟨k', o', ho', hr⟩ => hF r ⟨k', o', by simp [ho'], hr⟩⟩
end


theorem keepable_renumber [Zlib] {F : Ref → Ref} {o : Obj} (h : Keepable o)
    (hs : ∀ e s y, o = .stream e s y → ∀ r, ¬ Occurs r o)
    (hF : ∀ r, Occurs r o → (F r).1 = 0 ∧ (F r).2.natAbs ≤ 9007199254740992) : Keepable (renumber F o) := by
  cases o with
  | stream e s y =>
    rw [renumber_fixed fun r hr => absurd hr (hs e s y rfl r)]
    exact h
  | ref g n => exact h.1.elim
  | null => simp [Keepable, Storable, WF] at h
  | list l => exact ⟨wf_renumber (.list l) false false h.1 hF, rfl⟩
  | dict d => exact ⟨wf_renumber (.dict d) false false h.1 hF, rfl⟩
  | _ => exact h

theorem made_get [Zlib] {d d' : Doc} {r o : Obj} (h : Made d) (hg : getObject d r = .ok (o, d')) : Made d' := by
  refine .op (o := .get r) h trivial ?_
  simp [ops, Op.run, reads, hg, bind, Except.bind]

theorem made_add [Zlib] {d d' : Doc} {o : Obj} {n : Nat} (h : Made d) (ho : Keepable o) (hg : addObject d o = .ok (d', n)) :
    Made d' := by
  refine .op (o := .add o) h ho ?_
  simp [ops, Op.run, hg, bind, Except.bind, Except.map]

theorem made_set [Zlib] {d d' : Doc} {o : Obj} {n : Nat} (h : Made d) (hn : n ≠ 0) (ho : FitObj o)
    (hg : updateObject d n o = .ok d') : Made d' := by
  refine .op (o := .set n o) h ⟨by omega, ho⟩ ?_
  simp [ops, Op.run, hg, bind, Except.bind]

theorem copyLoop_made [Zlib] (m : RefMap) {y : Option Int} : ∀ (refs : List Ref) (source target target' : Doc),
    Editable source y → Made target →
    (∀ r ∈ refs, ∃ v, (storeOf source).get (refObj r) = .ok v ∧ Keepable (deepRefRetarget m v)) →
    copyLoop m refs source target = .ok target' → Made target'
  | [], _, _, _, _, hm, _, h => by cases h; exact hm
  | r :: refs, source, target, target', hs, hm, hk, h => by
    obtain ⟨v, h1, h2⟩ := hk r (by simp)
    obtain ⟨source', q1, q2, q3, -⟩ := get_step hs h1
    unfold copyLoop at h
    rw [show Obj.ref r.1 r.2 = refObj r from rfl] at h
    obtain ⟨p, k0, h⟩ := bind_eq_ok h
    rw [q1] at k0
    cases k0
    obtain ⟨⟨T1, n1⟩, k1, h⟩ := bind_eq_ok h
    exact copyLoop_made m refs source' T1 target' q2 (made_add hm h2 k1)
      (by rw [q3]; exact fun r hr => hk r (by simp [hr])) h

theorem catalog_made [Zlib] {d d' : Doc} {cat root : Obj} (h : Made d) (hc : catalog d = .ok (cat, root, d')) : Made d' := by
  unfold catalog at hc
  obtain ⟨⟨t, d1⟩, h1, hc⟩ := bind_eq_ok hc
  obtain ⟨root', h2, hc⟩ := bind_eq_ok hc
  obtain ⟨⟨cat', d2⟩, h3, hc⟩ := bind_eq_ok hc
  cases hc
  unfold trailerOf at h1
  exact made_get (made_get h h1) h3

theorem hookPages_inv [Zlib] {atEnd : Bool} {d d' : Doc} {x : Option Int} (h : Editable d x) {r kid : Ref} {dt : Dict} {l : List Obj} {c : Int} {count : Obj}
    (hr : 0 < r.2) (hg : (storeOf d).get (refObj r) = .ok (.dict dt)) (hk : Dict.get? dt b!"/Kids" = some (.list l))
    (hc : Dict.get? dt b!"/Count" = some (.int c)) (hh : hookPages atEnd d (refObj r) kid count = .ok d') :
    ∃ d3 p, storeOf d' = (storeOf d).set r.2.toNat p ∧ updateObject d3 r.2.toNat p = .ok d' ∧ (Made d → Made d3) := by
  unfold hookPages at hh
  obtain ⟨d1, q1, q2, q3, -⟩ := get_step h hg
  obtain ⟨p, k0, hh⟩ := bind_eq_ok hh
  rw [q1] at k0
  cases k0
  obtain ⟨d2, w1, w2, s2, -⟩ := get_step q2 (r := .int c) (o := .int c) rfl
  obtain ⟨d3, v1, v2, v3, -⟩ := get_step w2 (r := .list l) (o := .list l) rfl
  simp only [getKey, hc, hk, orRaise] at hh
  obtain ⟨c', h1, hh⟩ := bind_eq_ok hh
  cases h1
  obtain ⟨p, h2, hh⟩ := bind_eq_ok hh
  rw [w1] at h2
  cases h2
  obtain ⟨k, h3, hh⟩ := bind_eq_ok hh
  cases h3
  obtain ⟨p, h2, hh⟩ := bind_eq_ok hh
  rw [v1] at h2
  cases h2
  obtain ⟨kids, h4, hh⟩ := bind_eq_ok hh
  obtain ⟨sum, h5, hh⟩ := bind_eq_ok hh
  obtain ⟨p1, h6, hh⟩ := bind_eq_ok hh
  obtain ⟨p2, h7, hh⟩ := bind_eq_ok hh
  obtain ⟨num, h8, hh⟩ := bind_eq_ok hh
  have hnum : num = r.2.toNat := by
    simp only [refNum, refObj] at h8
    rw [if_neg (by omega)] at h8
    cases h8
    rfl
  subst hnum
  have hh : updateObject d3 r.2.toNat p2 = .ok d' := hh
  rw [get_refObj hr] at hg
  obtain ⟨d4, e, u1, u2, u3, -⟩ := set_step v2 (n := r.2.toNat) (by omega) (by rw [v3, s2, q3]; exact hg) p2
  rw [hh] at u1
  cases u1
  exact ⟨d3, p2, by rw [u3, v3, s2, q3], hh, fun h => made_get (made_get (made_get h q1) w1) v1⟩

theorem concat_made [Zlib] (atEnd : Bool) {target source res : Doc} {y : Option Int} {t1 t2 : PageTree} {c1 c2 : Int}
    {L : List Nat} {f F : Ref → Ref} {nr : Nat} (hm : Made target) (hs : Editable source y)
    (hroot : IsRoot (storeOf target) t1) (hrt : RootOk t1 c1) (hc : Copyable source y L f nr t2 c2)
    (hF : SentTo source target.cur.length (L.filter (· ≠ nr)) F)
    (hcon : concat (if atEnd then target else source) (if atEnd then source else target) atEnd = .ok res)
    (hfit : ∀ n v, n ∈ L → n ≠ nr → (storeOf source).val n = .ok v → Keepable (renumber F v))
    (hnode : ∀ v, (storeOf res).val t1.ref.2.toNat = .ok v → FitObj v) : Made res := by
  have ht := made_editable hm
  obtain ⟨r, d, kids, res', rfl, e1, e2, e3, -⟩ := concat_spec atEnd ht hs hroot hrt hc hF
  rw [hcon] at e1
  cases e1
  obtain ⟨r', d', kids', heq, -, hcount⟩ := hrt
  cases heq
  obtain ⟨tr, root, cat, n1, n2, n3, n4⟩ := hroot.named
  obtain ⟨T1, a1, a2, a3, a4, -⟩ := catalog_step ht n1 n2 n3
  obtain ⟨S1, b1, b2, b3, b4⟩ := prepareSource_spec hs hc
  have hreads : ∀ q ∈ inUse S1, ∃ v, (storeOf S1).get (refObj q) = .ok v ∧ v ≠ .null := by
    intro q hq
    rw [b3, List.mem_map] at hq
    obtain ⟨n, hn, rfl⟩ := hq
    rw [List.mem_filter] at hn
    have hne : n ≠ nr := by simpa using hn.2
    obtain ⟨v, k1, k2, -⟩ := hc.squashable.vals n hn.1
    refine ⟨_, b4 n hn.1 hne v k1, ?_⟩
    cases v with
    | null => exact absurd rfl k2
    | _ => simp [renumber]
  obtain ⟨T2, w1, w2, w3, w4, w5⟩ := copyLoop_spec (copyMap target.cur.length (inUse S1)) (inUse S1) S1 T1 b2 a2 hreads
  rw [a3] at w3 w4 w5
  have hnext : (storeOf target).next = target.cur.length := rfl
  rw [hnext] at w3 w4 w5
  have hr1 : r.2.toNat < target.cur.length := by
    have h1 := hroot.shown.2.1
    rw [get_refObj hroot.shown.1] at h1
    exact storeOf_fresh target _ _ h1
  have e2' : getKey (.dict cat) b!"/Pages" = .ok (refObj r) := by
    simp only [getKey, n4, orRaise]
    rfl
  obtain ⟨kid, hook⟩ : ∃ kid, hookPages atEnd T2 (refObj r) kid (.int c2) = .ok res := by
    unfold concat at hcon
    cases atEnd
    · simp only [Bool.false_eq_true, if_false, a1, bind, Except.bind, b1, w1, e2'] at hcon
      split at hcon
      · cases hcon
      · exact ⟨_, hcon⟩
    · simp only [if_true, a1, bind, Except.bind, b1, w1, e2'] at hcon
      split at hcon
      · cases hcon
      · exact ⟨_, hcon⟩
  have hget : (storeOf T2).get (refObj r) = .ok (.dict d) := by
    have h1 := hroot.shown.2.1
    rw [get_refObj hroot.shown.1] at h1 ⊢
    rw [w4 _ hr1, h1]
  obtain ⟨d3, p, u1, u2, u3⟩ := hookPages_inv w2 hroot.shown.1 hget hroot.shown.2.2.2.1 hcount hook
  have hT2 : Made T2 := by
    refine copyLoop_made _ (inUse S1) S1 T1 T2 b2 (catalog_made hm a1) ?_ w1
    intro q hq
    obtain ⟨v, v1, v2⟩ := hreads q hq
    refine ⟨v, v1, ?_⟩
    obtain ⟨j, hj⟩ := List.mem_iff_getElem?.1 hq
    have h1 := w5 j q v hj v1
    rw [b3, List.getElem?_map] at hj
    rcases hjn : (L.filter (· ≠ nr))[j]? with _ | n
    · rw [hjn] at hj; cases hj
    have hmem := List.mem_of_getElem? hjn
    rw [List.mem_filter] at hmem
    have hne : n ≠ nr := by simpa using hmem.2
    have h2 := e3.copied j n hjn
    obtain ⟨v0, k1, -⟩ := hc.squashable.vals n hmem.1
    rw [u1, set_val_ne (by omega), h1, k1] at h2
    rw [Except.ok.inj h2]
    exact hfit n v0 hmem.1 hne k1
  refine made_set (u3 hT2) (by have := hroot.shown.1; omega) (hnode p ?_) u2
  show (storeOf res).val r.2.toNat = _
  rw [u1, set_val_eq]

/-- Two pages that are the same: reference and entries. -/
def SameEntries (x y : Ref × Dict) : Prop := x.1 = y.1 ∧ SameDict x.2 y.2

theorem join_reload [Zlib] (atEnd : Bool) {target source : Doc} {y : Option Int} {t1 t2 : PageTree} {c1 c2 : Int}
    {L : List Nat} {f F : Ref → Ref} {nr : Nat} (hm : Made target) (hs : Editable source y)
    (hft : AllObjs FitObj (storeOf target)) (hfs : ∀ n v, n ∈ L → n ≠ nr → (storeOf source).val n = .ok v → Keepable v)
    (hroot : IsRoot (storeOf target) t1) (hrt : RootOk t1 c1) (hc : Copyable source y L f nr t2 c2)
    (hF : SentTo source target.cur.length (L.filter (· ≠ nr)) F)
    (hlen : target.cur.length + L.length ≤ 9007199254740992) :
    ∃ r d kids res, t1 = .node r d kids ∧
      concat (if atEnd then target else source) (if atEnd then source else target) atEnd = .ok res ∧ Made res ∧
      AllObjs FitObj (storeOf res) ∧ JoinOf target source res r (L.filter (· ≠ nr)) F
        (joinedTree atEnd r d kids (renumberTree F t2) (c1 + c2)) := by
  obtain ⟨r, d, kids, res, rfl, e1, e2, e3, -⟩ := concat_spec atEnd (made_editable hm) hs hroot hrt hc hF
  have hnum : ∀ n, n ∈ L → n ≠ nr → ∃ j : Nat, j < L.length ∧ (L.filter (· ≠ nr))[j]? = some n ∧
      F (refTo source n) = (0, ((target.cur.length + j : Nat) : Int)) := by
    intro n h1 h2
    have hmem : n ∈ L.filter (· ≠ nr) := List.mem_filter.2 ⟨h1, by simpa using h2⟩
    obtain ⟨j, hj⟩ := List.mem_iff_getElem?.1 hmem
    have := lt_of_getElem? hj
    have := List.length_filter_le (· ≠ nr) L
    exact ⟨j, by omega, hj, hF j n hj⟩
  have hfit : ∀ n v, n ∈ L → n ≠ nr → (storeOf source).val n = .ok v → Keepable (renumber F v) := by
    intro n v h1 h2 hv
    refine keepable_renumber (hfs n v h1 h2 hv) ?_ ?_
    · rintro e s y rfl
      exact hc.streams n h1 e s y hv
    · intro q hq
      obtain ⟨m, m1, m2, rfl⟩ := copyable_ref hc h1 hv hq
      obtain ⟨j, j1, -, j2⟩ := hnum m m1 m2
      rw [j2]
      refine ⟨rfl, ?_⟩
      simp only
      omega
  have hr0 := hroot.shown.1
  have hnode : FitObj (.dict (joinedDict atEnd d kids (renumberTree F t2) (c1 + c2))) := by
    have h1 := hroot.shown.2.1
    rw [get_refObj hr0] at h1
    rcases hft _ _ (by have := hr0; omega) h1 with h | h
    · cases h
    have hwf := keepable_dict.1 h
    have hk : WF true false (.list (kids.map fun t => refObj t.ref)) = true := by
      simp only [WF, Bool.and_eq_true] at hwf
      exact WFEntries_get hwf.1 hroot.shown.2.2.2.1
    refine .inr (keepable_dict.2 (wf_set (wf_set hwf (by decide) ?_) (by decide) (by simp [WF])))
    simp only [WF] at hk ⊢
    have hone : WF true true (refObj (renumberTree F t2).ref) = true := by
      obtain ⟨m, m1, m2, m3⟩ := copyable_root hc
      obtain ⟨j, j1, -, j2⟩ := hnum m m1 m2
      rw [renumberTree_ref, m3, j2]
      simp only [refObj, WF, Bool.and_eq_true, decide_eq_true_eq]
      refine ⟨trivial, ?_⟩
      omega
    have happ : ∀ (a b : List Obj), WFItems true true a = true → WFItems true true b = true → WFItems true true (a ++ b) = true := by
      intro a b ha hb
      induction a with
      | nil => exact hb
      | cons o a ih =>
        simp only [List.cons_append, WFItems, Bool.and_eq_true] at ha ⊢
        exact ⟨ha.1, ih ha.2⟩
    cases atEnd
    · simp only [Bool.false_eq_true, if_false, List.map_cons, WFItems, Bool.and_eq_true]
      exact ⟨hone, hk⟩
    · simp only [if_true, List.map_append, List.map_cons, List.map_nil]
      exact happ _ _ hk (by simp [WFItems, hone])
  have hnode' : ∀ v, (storeOf res).val r.2.toNat = .ok v → FitObj v := by
    intro v hv
    have h1 := e3.pages.shown.2.1
    rw [get_refObj hr0, hv] at h1
    rw [Except.ok.inj h1]
    exact hnode
  refine ⟨r, d, kids, res, rfl, e1, concat_made atEnd hm hs hroot hrt hc hF e1 hfit hnode', ?_, e3⟩
  intro n v hn hv
  by_cases h1 : n = r.2.toNat
  · exact hnode' v (h1 ▸ hv)
  by_cases h2 : n < target.cur.length
  · rw [e3.kept n h2 h1] at hv
    exact hft n v hn hv
  · have h3 : n < res.cur.length := storeOf_fresh res n v hv
    rw [e3.length] at h3
    obtain ⟨j, rfl⟩ : ∃ j, n = target.cur.length + j := ⟨n - target.cur.length, by omega⟩
    have hj : (L.filter (· ≠ nr))[j]? = some ((L.filter (· ≠ nr))[j]'(by omega)) := List.getElem?_eq_getElem (by omega)
    have hmem := List.mem_of_getElem? hj
    rw [List.mem_filter] at hmem
    rw [e3.copied j _ hj] at hv
    rcases hv' : (storeOf source).val ((L.filter (· ≠ nr))[j]'(by omega)) with e | v'
    · rw [hv'] at hv; cases hv
    · rw [hv'] at hv
      cases hv
      exact .inr (hfit _ v' hmem.1 (by simpa using hmem.2) hv')

/-- **C104** for `concat`: a document that can be written, and another that can be copied into it (see C36), all of whose
objects survive writing and reading. In the file that the result is written to, the pages are those of the first document
followed by those of the second one, with the same entries up to the new numbers (the other way round when the update is
applied to the document on the right); every object of the first document, the root page node excepted, has the same value; the
copied objects of the second one come after those of the first, with the same values up to the new numbers.

Missing from the full claim: the conditions of `C36_concat_partial` and of C28 (object streams and xref streams). -/
theorem C104_concat_partial [Zlib] (atEnd : Bool) {target source : Doc} {y : Option Int} {t1 t2 : PageTree} {c1 c2 : Int}
    {L : List Nat} {f F : Ref → Ref} {nr : Nat} (hm : Made target) (hs : Editable source y)
    (hft : AllObjs FitObj (storeOf target)) (hfs : ∀ n v, n ∈ L → n ≠ nr → (storeOf source).val n = .ok v → Keepable v)
    (hroot : IsRoot (storeOf target) t1) (hrt : RootOk t1 c1) (hc : Copyable source y L f nr t2 c2)
    (hF : SentTo source target.cur.length (L.filter (· ≠ nr)) F)
    (hlen : target.cur.length + L.length ≤ 9007199254740992) :
    ∃ res, concat (if atEnd then target else source) (if atEnd then source else target) atEnd = .ok res ∧ Made res ∧
      AllObjs FitObj (storeOf res) ∧
      ∀ (out : Bytes) (d'' : Doc), writeFile res = .ok (out, d'') → 100 ≤ out.length → out.length < 10 ^ 80 →
        ∃ dl t', loads out = .ok dl ∧ IsRoot (storeOf dl) t' ∧
          Pointwise SameEntries (if atEnd then pageList t1 ++ (pageList t2).map (renumberPage F)
            else (pageList t2).map (renumberPage F) ++ pageList t1) (pageList t') ∧
          (∀ n v, 1 ≤ n → n ≠ t1.ref.2.toNat → (storeOf target).val n = .ok v → v ≠ .null →
            ∃ w, (storeOf dl).val n = .ok w ∧ Same v w) ∧
          (∀ j n, (L.filter (· ≠ nr))[j]? = some n → ∃ v w, (storeOf source).val n = .ok v ∧
            (storeOf dl).val (target.cur.length + j) = .ok w ∧ Same (renumber F v) w) := by
  obtain ⟨r, d, kids, res, rfl, e1, e2, e3, e4⟩ := join_reload atEnd hm hs hft hfs hroot hrt hc hF hlen
  refine ⟨res, e1, e2, e3, ?_⟩
  intro out d'' hw hmin hmax
  obtain ⟨dl, t', h1, h2, h3, h4⟩ := reload_root e2 e3 e4.pages hw hmin hmax
  refine ⟨dl, t', h1, h3, ?_, ?_, ?_⟩
  · rw [← pageList_joined atEnd r d kids t2 (c1 + c2) F]
    exact h4.mapBoth fun _ _ h => ⟨h.1, h.2.1⟩
  · intro n v hn hne hv hnull
    refine h2 n v hn ?_ hnull
    rw [e4.kept n (storeOf_fresh target n v hv) hne]
    exact hv
  · intro j n hj
    have hmem := List.mem_of_getElem? hj
    rw [List.mem_filter] at hmem
    obtain ⟨v, k1, k2, -⟩ := hc.squashable.vals n hmem.1
    have h5 := e4.copied j n hj
    rw [k1] at h5
    obtain ⟨w, h6, h7⟩ := h2 _ (renumber F v) (by have := (made_editable hm).pos; omega) h5 (by
      cases v with
      | null => exact absurd rfl k2
      | _ => simp [renumber])
    exact ⟨v, w, k1, h6, h7⟩

/-! ### Samples -/

/-- The hypotheses of `C104_slice_partial` are met by the sample of C33, committed (see also `C103_remove_partial`). -/
example [Zlib] : ∃ d, Made d ∧ AllObjs FitNode (storeOf d) ∧ Removable (storeOf d) removeTree 10 (allPages 3) ∧
    3 = (leaves [] removeTree).length := by
  obtain ⟨d, h1, h2, t, h3, h4⟩ := removeObjs_made
  refine ⟨d, h1, h2, ?_, rfl⟩
  rw [h3]
  refine removeTree_removableWith h4 ?_
  intro i hi
  obtain ⟨j, hj, rfl⟩ := mem_allPages.1 hi
  exact ⟨j, hj, .inl rfl⟩

/-- `doc[-1]`: the file shows the last page. -/
example [Zlib] : (do
    let d ← commit (memDoc removeObjs)
    let (_, d) ← (getItem 10 id [] (.at (-1))).run d
    let (out, _) ← writeFile d
    let dl ← loads out
    let (l, _) ← (flatPageTree 10 .null [] none).run dl
    return (decide (100 ≤ out.length ∧ out.length < 10 ^ 80), l.1.map Prod.fst)) = .ok (true, [.ref 0 4]) := by
  kernel_rfl

theorem joinLeft_fit [Zlib] : ∀ (n : Nat) (o : Obj), 1 ≤ n → joinLeft[n]? = some o → Keepable o := by
  intro n o hn ho
  rcases n with _ | _ | _ | _ | n
  · omega
  all_goals simp [joinLeft] at ho
  all_goals subst ho; exact keepable_dict.2 (by decide)

/-- The hypotheses of `C104_concat_partial` are met by the sample of C36 (see there for the others). -/
example [Zlib] : Made (memDoc joinLeft) ∧ AllObjs FitObj (storeOf (memDoc joinLeft)) ∧
    ∀ n v, n ∈ [2, 3, 4, 5] → n ≠ 3 → (storeOf (gapDoc joinRight)).val n = .ok v → Keepable v := by
  refine ⟨.start (memDoc_fresh rfl joinLeft_fit (by decide) rfl rfl), allObjs_mem (by simp [joinLeft]) ?_, ?_⟩
  · intro o ho
    obtain ⟨n, hn⟩ := List.mem_iff_getElem?.1 ho
    rw [List.getElem?_drop] at hn
    exact .inr (joinLeft_fit _ o (by omega) hn)
  · intro n v hn hne hv
    have hval : ∀ n o, joinRight[n]? = some o → (storeOf (gapDoc joinRight)).val n = .ok o := fun n o h => gapDoc_view h 0
    simp only [List.mem_cons, List.not_mem_nil, or_false] at hn
    rcases hn with rfl | rfl | rfl | rfl
    · rw [hval 2 _ rfl] at hv
      cases hv
      exact ⟨⟨by decide, by decide, by decide, by decide, rfl⟩, by decide⟩
    · exact absurd rfl hne
    · rw [hval 4 _ rfl] at hv
      cases hv
      exact keepable_dict.2 (by decide)
    · rw [hval 5 _ rfl] at hv
      cases hv
      exact keepable_dict.2 (by decide)

/-- The two pages in the file. -/
example [Zlib] : (do
    let d ← concat (memDoc joinLeft) (gapDoc joinRight)
    let (out, _) ← writeFile d
    let dl ← loads out
    let (l, _) ← (flatPageTree 10 .null [] none).run dl
    return (decide (100 ≤ out.length ∧ out.length < 10 ^ 80), l.1.map Prod.fst, view dl (.ref 0 6))) =
      .ok (true, [.ref 0 3, .ref 0 6],
        .ok (.dict [(b!"/Contents", .ref 0 4), (b!"/Parent", .ref 0 5), (b!"/Type", .str b!"/Page")])) := by
  kernel_rfl

end Pdf
