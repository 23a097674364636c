/-
C114: what the `text` command prints on the file that is written after an operation on pages.
-/
import Verif.Props.C112_TextFile
import Verif.Props.C113_TextPages
import Verif.Props.C104_JoinedFile

namespace Pdf
open Spec PageTree Prog

/-- `s` are the texts of the pages of the document, in order. -/
def PageTexts [Zlib] (d : Doc) (lim : Nat) (t : PageTree) (s : List Str) : Prop :=
  s.length = (leaves [] t).length ∧
  ∀ (j : Nat) x, s[j]? = some x → ((extractPageText lim [] (j : Int)).run d).map (fun r => r.1.1) = .ok x

/-- The command `text` on a file with these bytes prints these texts, one after the other, and nothing else. -/
def Prints [Zlib] [FloatText] (lim : Nat) (out : Bytes) (s : List Str) : Prop :=
  ∀ (pct : Nat → Nat → Bytes) (input : Bytes) (output : Option Bytes) (w : World), w.files input = some out →
    runCommand lim pct .text input output w = (.ok (), { w with out := w.out ++ s.map .text })

theorem eval_pagesP_length {s : Store} {t : PageTree} {lim : Nat} (hd : depth t ≤ lim) (h : IsRoot s t) :
    ∃ pl J, eval (pagesP lim [] none) s = .ok ((pl, J), s) ∧ pl.length = (leaves [] t).length := by
  obtain ⟨l, J, h1, h2, -⟩ := flatPageTree_root (leak := []) hd h
  obtain ⟨pl, h3, h4⟩ := pagesLoop_spec h2 (leaves_shown t [] h.shown)
  refine ⟨pl, J, ?_, h4.len.symm⟩
  unfold pagesP
  rw [eval_bind_ok h1]
  show eval (pagesLoop l >>= _) s = _
  rw [eval_bind_ok h3]
  rfl

theorem printed [Zlib] [FloatText] {d d' : Doc} {out : Bytes} (h : Made d) (hf : AllObjs FitObj (storeOf d)) (hr : Closed d)
    {t : PageTree} {lim : Nat} (hd : depth t ≤ lim) (ht : IsRoot (storeOf d) t) {s : List Str} (hs : PageTexts d lim t s)
    (hw : writeFile d = .ok (out, d')) (hmin : 100 ≤ out.length) (hmax : out.length < 10 ^ 80) : Prints lim out s := by
  intro pct input output w hF
  refine C112_command_partial h hf hr hw hmin hmax lim s ?_ hs.2 pct input output w hF
  obtain ⟨pl, J, h1, h2⟩ := eval_pagesP_length hd ht
  obtain ⟨d1, h3, -⟩ := run_readOnly_ok (readOnly_pagesP lim [] none) (made_editable h).good.coherent h1
  rw [h3]
  show Except.ok pl.length = _
  rw [h2, hs.1]

/-! ### Rotation -/

theorem inUse_val [Zlib] {d : Doc} {r : Int × Int} : InUse d r ↔ 1 ≤ r.2 ∧ ∃ v, (storeOf d).val r.2.toNat = .ok v ∧ v ≠ .null := by
  unfold InUse
  constructor
  · rintro ⟨h1, v, h2, h3⟩
    rw [view_get] at h2
    simp only [Store.get] at h2
    rw [if_neg (by omega)] at h2
    exact ⟨h1, v, h2, h3⟩
  · rintro ⟨h1, v, h2, h3⟩
    refine ⟨h1, v, ?_, h3⟩
    rw [view_get]
    simp only [Store.get]
    rw [if_neg (by omega)]
    exact h2

/-- Objects that only change by an entry without references leave the references as they are. -/
theorem closed_turned [Zlib] {d d' : Doc} (h : Closed d) (h0 : (storeOf d').val 0 = (storeOf d).val 0)
    (hk : ∀ n, (storeOf d').val n = (storeOf d).val n ∨ ∃ e i, (storeOf d).val n = .ok (.dict e) ∧
      (storeOf d').val n = .ok (.dict (Dict.set e b!"/Rotate" (.int i)))) : Closed d' := by
  have huse : ∀ r, InUse d r → InUse d' r := by
    intro r hr
    rw [inUse_val] at hr ⊢
    obtain ⟨h1, v, h2, h3⟩ := hr
    refine ⟨h1, ?_⟩
    rcases hk r.2.toNat with he | ⟨e, i, -, he⟩
    · exact ⟨v, he ▸ h2, h3⟩
    · exact ⟨_, he, fun h => by cases h⟩
  constructor
  · intro n v hn hv r hr
    apply huse
    rcases hk n with he | ⟨e, i, he, he'⟩
    · exact h.objs n v hn (by rw [← hv]; exact he.symm) r hr
    · have : v = .dict (Dict.set e b!"/Rotate" (.int i)) := by
        have h1 : (storeOf d').val n = .ok v := hv
        rw [he'] at h1
        exact (Except.ok.inj h1).symm
      subst this
      refine h.objs n (.dict e) hn he r ?_
      cases hr with
      | entry hm ho =>
        rcases mem_set hm with hm | hm
        · exact .entry hm ho
        · cases hm
          cases ho
  · intro t v ht hv
    obtain ⟨g, n, h1, h2⟩ := h.root t v (by rw [← ht]; exact h0.symm) hv
    exact ⟨g, n, h1, huse _ h2⟩

/-- **C114, rotation.** After a rotation, `text` on the file that is written prints the texts that the pages had before.

Missing from the full claim: as in `C112_text_partial` and `C113_rotate_partial`. -/
theorem C114_rotate_partial [Zlib] [FloatText] {d : Doc} (h : Made d) (hf : AllObjs FitObj (storeOf d)) (hr : Closed d) {t : PageTree}
    (ht : IsRoot (storeOf d) t) {lim : Nat} (hd : depth t ≤ lim) (hturn : Turnable t) {leak : Dict} (ho : Own leak t)
    (a : Int) (sel : List Int) {s : List Str} (hs : PageTexts d lim t s) :
    ∃ leak' d', (rotate lim leak a sel).run d = .ok (leak', d') ∧
      ∀ (out : Bytes) (d'' : Doc), writeFile d' = .ok (out, d'') → 100 ≤ out.length → out.length < 10 ^ 80 → Prints lim out s := by
  obtain ⟨J, d', r1, r2, r3, -⟩ := C103_rotate_partial h hf ht hd hturn ho a sel
  obtain ⟨J', d1, q1, q2⟩ := C113_rotate_partial (made_editable h) ht hd hturn ho a sel
  obtain ⟨J'', d2, f, k1, k2, k3, -, -, k4, -, k5⟩ := C32_rotate_partial (made_editable h) ht hd hturn ho a sel
  rw [r1] at q1 k1
  cases q1
  cases k1
  have hpos : ∀ b ∈ leaves [] t, 0 < b.1.2 := fun b hb => (leaves_type t [] ht.shown b hb).1
  have hcl : Closed d' := by
    refine closed_turned hr ?_ ?_
    · refine k5 0 fun i b hb _ he => ?_
      have := hpos b (List.mem_of_getElem? hb)
      omega
    · intro n
      by_cases hn : ∃ i b, (leaves [] t)[i]? = some b ∧ Selected sel i ∧ n = b.1.2.toNat
      · obtain ⟨i, b, hb, hs, rfl⟩ := hn
        have m1 := hpos b (List.mem_of_getElem? hb)
        have m2 := leaves_shown t [] ht.shown b (List.mem_of_getElem? hb)
        have hb' : (leaves [] (mapPages f t))[i]? = some (b.1, Dict.set b.2.1 b!"/Rotate" (.int ((rotation b + a) % 360)), b.2.2) := by
          rw [k4, List.getElem?_mapIdx, hb]
          simp only [Option.map_some, if_pos hs]
        have m3 := leaves_shown _ [] k3.shown _ (List.mem_of_getElem? hb')
        simp only [refObj, Store.get] at m2 m3
        rw [if_neg (by omega)] at m2 m3
        exact .inr ⟨_, _, m2, m3⟩
      · exact .inl (k5 n fun i b hb hs he => hn ⟨i, b, hb, hs, he⟩)
  refine ⟨J, d', r1, fun out d'' hw hmin hmax => ?_⟩
  refine printed r2 r3 hcl (by rw [depth_mapPages]; exact hd) k3 ⟨?_, ?_⟩ hw hmin hmax
  · rw [k4, List.length_mapIdx, hs.1]
  · intro j x hj
    exact (q2 j [] [] x).1 (hs.2 j x hj)

/-! ### Removal and slices -/

theorem dropAt_get {α : Type} {l : List α} {del : List Int} {j : Nat} {a : α} (h : (dropAt l del)[j]? = some a) :
    ∃ i, (dropAt (List.range l.length) del)[j]? = some i ∧ l[i]? = some a := by
  have h1 := dropAt_map (fun i => l[i]?) (List.range l.length) del
  rw [range_map_getElem?, dropAt_map] at h1
  have h2 := congrArg (fun m => m[j]?) h1
  simp only [List.getElem?_map, h, Option.map_some] at h2
  obtain ⟨i, h3, h4⟩ := Option.map_eq_some_iff.1 h2.symm
  exact ⟨i, h3, h4⟩

theorem dropAt_length {α β : Type} {l : List α} {m : List β} (h : l.length = m.length) (del : List Int) :
    (dropAt l del).length = (dropAt m del).length := by
  have h1 := dropAt_map (fun i => l[i]?) (List.range l.length) del
  have h2 := dropAt_map (fun i => m[i]?) (List.range m.length) del
  rw [range_map_getElem?, dropAt_map] at h1 h2
  have h3 := congrArg List.length h1
  have h4 := congrArg List.length h2
  simp only [List.length_map] at h3 h4
  rw [h3, h4, h]

/-- The object is used by a page that is removed, and by no other page. -/
def OnlyRemoved (s : Store) (t : PageTree) (del : List Int) (n : Nat) : Prop :=
  UsedBy s (PageAt t del) n ∧ ¬ UsedBy s (KeptPage t del) n

/-- Apart from the lists of the pages, nothing that stays refers to what only the removed pages use. -/
structure Apart (s : Store) (t : PageTree) (del : List Int) : Prop where
  objs : ∀ (n : Nat) v, 1 ≤ n → s.val n = .ok v → ¬ OnlyRemoved s t del n → (∀ x ∈ nodes t, x.1.2.toNat ≠ n) →
    ∀ q, Occurs q v → ¬ OnlyRemoved s t del q.2.toNat
  nodes : ∀ x ∈ nodes t, ∀ k o, k ≠ b!"/Kids" → Dict.get? x.2.1 k = some o → ∀ q, Occurs q o → ¬ OnlyRemoved s t del q.2.toNat

theorem fitObj_nodup [Zlib] {d : Dict} (h : FitObj (.dict d)) : (d.map Prod.fst).Nodup := by
  rcases neat_of_fit h with h1 | ⟨i, j, h1⟩ | ⟨_, _, _, h1⟩ | ⟨_, _, h1⟩
  · cases h1
  · simp only [WF, Bool.and_eq_true, decide_eq_true_eq] at h1
    exact h1.2
  · cases h1
  · cases h1

theorem closed_removed [Zlib] {d d' : Doc} (hcl : Closed d) {t : PageTree} {lim : Nat} {ord : List Ref → List Ref}
    (hord : ∀ l, (ord l).Perm l) {leak leak' : Dict} {del : List Int} (hr : Removable (storeOf d) t lim del)
    (ha : Apart (storeOf d) t del) (hf : AllObjs FitObj (storeOf d'))
    (he : eval (removePages lim ord leak del) (storeOf d) = .ok (leak', storeOf d')) : Closed d' := by
  obtain ⟨J, s', t', rs, e1, -, e3, e4, e5, -, e7, -, e8, e9⟩ := remove_spec (leak := leak) hr hord
  rw [he] at e1
  obtain ⟨-, rfl⟩ : leak' = J ∧ storeOf d' = s' := by
    cases e1
    exact ⟨rfl, rfl⟩
  have hsound : Sound (storeOf d) t := ⟨hr.root.shown, hr.linked, hr.nodup, hr.root.isNode⟩
  have hsound' : Sound (storeOf d') t' := ⟨e3.shown, e4, e5, e3.isNode⟩
  have hsame : ∀ n, (∀ x ∈ nodes t, x.1.2.toNat ≠ n) → ¬ OnlyRemoved (storeOf d) t del n → (storeOf d').val n = (storeOf d).val n :=
    fun n hn hg => (e9 n hn).2 fun hu => Classical.byContradiction fun hk => hg ⟨hu, hk⟩
  have huse : ∀ q, InUse d q → ¬ OnlyRemoved (storeOf d) t del q.2.toNat → InUse d' q := by
    intro q hq hg
    rw [inUse_val] at hq ⊢
    obtain ⟨h1, v, h2, h3⟩ := hq
    refine ⟨h1, ?_⟩
    by_cases hn : ∃ x ∈ nodes t, x.1.2.toNat = q.2.toNat
    · obtain ⟨x, hx, hxe⟩ := hn
      obtain ⟨e, he⟩ := (e8 x hx).2
      rw [hxe] at he
      exact ⟨_, he, fun h => by cases h⟩
    · exact ⟨v, by rw [hsame _ (fun x hx hxe => hn ⟨x, hx, hxe⟩) hg]; exact h2, h3⟩
  constructor
  · intro n v hn hv q hq
    have hv : (storeOf d').val n = .ok v := hv
    by_cases hx : ∃ x ∈ nodes t, x.1.2.toNat = n
    · obtain ⟨x, hx, rfl⟩ := hx
      obtain ⟨y, hy, hxy⟩ := e7.mem x hx
      have hok := hsound'.ok y hy
      have hpos := hok.pos
      have hg := hok.get
      rw [get_refObj hpos, hxy.ref, hv] at hg
      cases Except.ok.inj hg
      have hnd := fitObj_nodup (hf _ _ hn hv)
      cases hq with
      | @entry _ k o hm ho =>
        have hget := get?_of_mem hnd hm
        by_cases hk : k = b!"/Kids"
        · subst hk
          obtain ⟨ks, k1, -, k2⟩ := hok.kids
          rw [k1] at hget
          cases hget
          cases ho with
          | item hm2 ho =>
            obtain ⟨kid, hkid, rfl⟩ := List.mem_map.1 hm2
            obtain ⟨k3, dk, k4, -⟩ := k2 kid hkid
            have : q = kid := by
              generalize hz : refObj kid = z at ho
              cases ho with
              | here =>
                unfold refObj at hz
                simp only [Obj.ref.injEq] at hz
                exact Prod.ext hz.1.symm hz.2.symm
              | _ => cases hz
            subst this
            rw [get_refObj k3] at k4
            exact inUse_val.2 ⟨by omega, _, k4, fun h => by cases h⟩
        · by_cases hk2 : k = b!"/Count"
          · subst hk2
            rw [hxy.count] at hget
            cases hget
            cases ho
          · rw [hxy.other k hk hk2] at hget
            have hokx := hsound.ok x hx
            have hgx := hokx.get
            rw [get_refObj hokx.pos] at hgx
            exact huse q (hcl.objs _ _ hn hgx q (.entry (get?_mem hget) ho)) (ha.nodes x hx k o hk hget q ho)
    · have hx : ∀ x ∈ nodes t, x.1.2.toNat ≠ n := fun x hx' hxe => hx ⟨x, hx', hxe⟩
      by_cases hg : OnlyRemoved (storeOf d) t del n
      · rw [(e9 n hx).1 hg.1 hg.2] at hv
        cases hv
        cases hq
      · rw [hsame n hx hg] at hv
        exact huse q (hcl.objs n v hn hv q hq) (ha.objs n v hn hv hg hx q hq)
  · intro tr v htr hv
    have htr : (storeOf d').val 0 = .ok (.dict tr) := htr
    have hx : ∀ x ∈ nodes t, x.1.2.toNat ≠ 0 := by
      intro x hx
      have := (hsound.ok x hx).pos
      omega
    have hg : ¬ OnlyRemoved (storeOf d) t del 0 := by
      intro hg
      rw [(e9 0 hx).1 hg.1 hg.2] at htr
      cases htr
    obtain ⟨tr', root, cat, n1, n2, n3, -⟩ := e3.named
    rw [htr] at n1
    cases Except.ok.inj n1
    rw [hv] at n2
    cases Option.some.inj n2
    obtain ⟨g, n, h1, h2⟩ := hcl.root tr v (by rw [hsame 0 hx hg] at htr; exact htr) hv
    subst h1
    have hpos := h2.1
    simp only at hpos
    simp only [Store.get] at n3
    rw [if_neg (by omega)] at n3
    exact ⟨g, n, rfl, inUse_val.2 ⟨hpos, _, n3, fun h => by cases h⟩⟩

theorem removed_texts [Zlib] {d : Doc} (h : Made d) (hf : AllObjs FitNode (storeOf d)) {t : PageTree} {lim : Nat}
    {ord : List Ref → List Ref} (hord : ∀ l, (ord l).Perm l) {leak : Dict} {del : List Int}
    (hr : Removable (storeOf d) t lim del) (hd : depth t ≤ lim) (hn : ∀ n v, (storeOf d).val n = .ok v → FontsNamed v)
    (hcl : Closed d) (ha : Apart (storeOf d) t del) {s : List Str} (hs : PageTexts d lim t s) {p : Prog Dict}
    (hp : ∀ r, eval (removePages lim ord leak del) (storeOf d) = .ok r → eval p (storeOf d) = .ok r)
    (hem : Emits FitNode p fun _ => True) :
    ∃ leak' d' t', p.run d = .ok (leak', d') ∧ Made d' ∧ AllObjs FitObj (storeOf d') ∧ Closed d' ∧ depth t' ≤ lim ∧
      IsRoot (storeOf d') t' ∧ PageTexts d' lim t' (dropAt s del) := by
  obtain ⟨J, s', t', rs, e1, -, e3, -, -, e6, -, ⟨-, e7⟩, -⟩ := remove_spec (leak := leak) hr hord
  obtain ⟨J1, s1, t1, q1, -, -, q2⟩ := remove_agree (leak := leak) hord hr hn
  rw [e1] at q1
  cases q1
  obtain ⟨d', r1, r2, rfl, r4, -⟩ := made_eval (Q := FitNode) (fun _ h => h.1) _ h hf hem (hp _ e1)
  have hfit : AllObjs FitObj (storeOf d') := fun n v hn hv => (r4 n v hn hv).1
  refine ⟨J, d', t', r1, r2, hfit, closed_removed hcl hord hr ha hfit e1, by omega, e3, ?_, ?_⟩
  · have h1 := congrArg List.length e6
    rw [List.length_map] at h1
    rw [h1]
    exact dropAt_length (by rw [List.length_map, hs.1]) del
  · intro j x hj
    obtain ⟨i, h1, h2⟩ := dropAt_get hj
    rw [hs.1] at h1
    obtain ⟨V, R, A, hpa⟩ := q2 i j h1
    exact sim_text (made_editable h).good.coherent (made_editable r2).good.coherent A hpa [] [] (hs.2 i x h2)

/-- **C114, removal.** If nothing that stays refers to what only the removed pages use, `text` on the file that is written after the
removal prints the texts that the other pages had before, in order.

Missing from the full claim: as in `C112_text_partial` and `C113_remove_partial`; that a reference to a removed object does not matter
when it is not below a page. -/
theorem C114_remove_partial [Zlib] [FloatText] {d : Doc} (h : Made d) (hf : AllObjs FitNode (storeOf d)) {t : PageTree} {lim : Nat}
    {ord : List Ref → List Ref} (hord : ∀ l, (ord l).Perm l) {leak : Dict} {del : List Int}
    (hr : Removable (storeOf d) t lim del) (hd : depth t ≤ lim) (hn : ∀ n v, (storeOf d).val n = .ok v → FontsNamed v)
    (hcl : Closed d) (ha : Apart (storeOf d) t del) {s : List Str} (hs : PageTexts d lim t s) :
    ∃ leak' d', (removePages lim ord leak del).run d = .ok (leak', d') ∧
      ∀ (out : Bytes) (d'' : Doc), writeFile d' = .ok (out, d'') → 100 ≤ out.length → out.length < 10 ^ 80 →
        Prints lim out (dropAt s del) := by
  obtain ⟨J, d', t', r1, r2, r3, hcl', r4, r5, r6⟩ := removed_texts (leak := leak) h hf hord hr hd hn hcl ha hs (fun _ h => h)
    (emits_removePages lim ord leak del)
  exact ⟨J, d', r1, fun out d'' hw hmin hmax => printed r2 r3 hcl' r4 r5 r6 hw hmin hmax⟩

/-- The positions that Python does not choose. -/
def unchosen (n : Nat) (key : Key) : List Int := ((List.range n).filter fun j => ¬ Chosen n key j).map fun (j : Nat) => (j : Int)

/-- **C114, slices.** If nothing that stays refers to what only the other pages use, `text` on the file that `doc[key]` is written to
prints the texts of the pages that Python chooses, in document order.

Missing from the full claim: as in `C114_remove_partial` and `C35_slice_partial`. -/
theorem C114_slice_partial [Zlib] [FloatText] {doc : Doc} (hm : Made doc) (hf : AllObjs FitNode (storeOf doc)) {t : PageTree} {lim : Nat}
    {ord : List Ref → List Ref} (hord : ∀ l, (ord l).Perm l) {leak : Dict} {n : Nat}
    (h : Removable (storeOf doc) t lim (allPages n)) (hn : n = (leaves [] t).length) (hpos : 0 < n) {r : Ref}
    {d : Dict} {kids : List PageTree} (ht : t = .node r d kids) (hc : Dict.get? d b!"/Count" = some (.int n))
    {key : Key} (hkey : ∀ a b, key ≠ .slice a b (some 0)) (hd : depth t ≤ lim)
    (hnm : ∀ n v, (storeOf doc).val n = .ok v → FontsNamed v) (hcl : Closed doc) (ha : Apart (storeOf doc) t (unchosen n key))
    {s : List Str} (hs : PageTexts doc lim t s) :
    ∃ leak' d', (getItem lim ord leak key).run doc = .ok (leak', d') ∧
      ∀ (out : Bytes) (d'' : Doc), writeFile d' = .ok (out, d'') → 100 ≤ out.length → out.length < 10 ^ 80 →
        Prints lim out (keepAt s (Chosen n key)) := by
  obtain ⟨pages, p1, p2⟩ := keyPages_spec hpos hkey
  have hsub : Removable (storeOf doc) t lim ((allPages n).filter (· ∉ pages)) :=
    removable_sub h fun i hi => (List.mem_filter.1 hi).1
  have hdel : (allPages n).filter (· ∉ pages) = unchosen n key := by
    unfold unchosen allPages
    rw [List.filter_map]
    congr 1
    apply List.filter_congr
    intro j hj
    have := p2 j
    simp only [List.mem_range.1 hj, and_true] at this
    simp only [Function.comp, decide_eq_decide]
    exact not_congr this
  obtain ⟨J, d', t', r1, r2, r3, hcl', r4, r5, r6⟩ := removed_texts (leak := leak) hm hf hord hsub hd hnm hcl (hdel ▸ ha) hs
    (p := getItem lim ord leak key) (by
      intro x hx
      unfold getItem
      show eval (numberPages >>= _) _ = _
      rw [eval_bind_ok (eval_numberPages h.root ht hc), p1, eval_bind_ok (eval_lift_ok _ _), keep_eval h ht hc pages]
      exact hx) (emits_getItem lim ord leak key)
  have hlen : s.length = n := by rw [hs.1, hn]
  have heq : dropAt s ((allPages n).filter (· ∉ pages)) = keepAt s (Chosen n key) := by
    have := dropAt_keep (l := s) (pages := pages)
    rw [hlen] at this
    rw [this]
    unfold keepAt
    congr 1
    apply List.filter_congr
    intro p hp
    have hlt : p.2 < n := by
      have h1 := (List.mk_mem_zipIdx_iff_getElem? (x := p.1) (i := p.2) (l := s)).1 hp
      have := lt_of_getElem? h1
      rwa [hlen] at this
    have := p2 p.2
    simp only [hlt, and_true] at this
    exact decide_eq_decide.2 this
  rw [heq] at r6
  exact ⟨J, d', r1, fun out d'' hw hmin hmax => printed r2 r3 hcl' r4 r5 r6 hw hmin hmax⟩

/-! ### Concatenation -/

theorem closed_join [Zlib] {target source res : Doc} {x y : Option Int} {L : List Nat} {f F : Ref → Ref} {nr : Nat}
    {t2 : PageTree} {c1 c2 : Int} {r : Ref} {d : Dict} {kids : List PageTree} (hcl : Closed target) (ht : Editable target x)
    (hroot : IsRoot (storeOf target) (.node r d kids)) (hc : Copyable source y L f nr t2 c2)
    (hF : SentTo source target.cur.length (L.filter (· ≠ nr)) F)
    (hj : JoinOf target source res r (L.filter (· ≠ nr)) F (joinedTree true r d kids (renumberTree F t2) c1)) : Closed res := by
  have hr0 := hroot.shown.1
  have g1 := hroot.shown.2.1
  have g2 := hj.pages.shown.2.1
  rw [get_refObj hr0] at g1 g2
  have hold : ∀ q, InUse target q → InUse res q := by
    intro q hq
    rw [inUse_val] at hq ⊢
    obtain ⟨h1, v, h2, h3⟩ := hq
    refine ⟨h1, ?_⟩
    by_cases hn : q.2.toNat = r.2.toNat
    · rw [hn]
      exact ⟨_, g2, fun h => by cases h⟩
    · exact ⟨v, by rw [hj.kept _ (storeOf_fresh target _ v h2) hn]; exact h2, h3⟩
  have hnew : ∀ m, m ∈ L → m ≠ nr → InUse res (F (refTo source m)) := by
    intro m m1 m2
    obtain ⟨j, hjm⟩ := List.mem_iff_getElem?.1 (List.mem_filter.2 ⟨m1, by simpa using m2⟩ : m ∈ L.filter (· ≠ nr))
    obtain ⟨v, k1, k2, -⟩ := hc.squashable.vals m m1
    have hpos : 0 < target.cur.length := ht.pos
    rw [show F (refTo source m) = _ from hF j m hjm, inUse_val]
    refine ⟨by show (1 : Int) ≤ ((target.cur.length + j : Nat) : Int); omega, renumber F v, ?_, ?_⟩
    · show (storeOf res).val (((target.cur.length + j : Nat) : Int).toNat) = _
      rw [Int.toNat_natCast, hj.copied j m hjm, k1]
      rfl
    · cases v with
      | null => exact absurd rfl k2
      | _ => simp [renumber]
  have hkid : InUse res (renumberTree F t2).ref := by
    obtain ⟨m, m1, m2, m3⟩ := copyable_root hc
    rw [renumberTree_ref, m3]
    exact hnew m m1 m2
  constructor
  · intro n v hn hv q hq
    have hv : (storeOf res).val n = .ok v := hv
    by_cases h1 : n = r.2.toNat
    · subst h1
      rw [g2] at hv
      cases hv
      have hd : ∀ q, Occurs q (.dict d) → InUse res q := fun q hq => hold q (hcl.objs _ _ hn g1 q hq)
      cases hq with
      | entry hm ho =>
        rcases mem_set hm with hm | hm
        · rcases mem_set hm with hm | hm
          · exact hd q (.entry hm ho)
          · cases hm
            cases ho with
            | item hm2 ho =>
              obtain ⟨t, ht1, rfl⟩ := List.mem_map.1 hm2
              rw [if_pos rfl, List.mem_append, List.mem_singleton] at ht1
              rcases ht1 with ht1 | rfl
              · refine hd q (.entry (get?_mem hroot.shown.2.2.2.1) (.item (List.mem_map.2 ⟨t, ht1, rfl⟩) ho))
              · have : q = (renumberTree F t2).ref := by
                  generalize hz : refObj (renumberTree F t2).ref = z at ho
                  cases ho with
                  | here =>
                    unfold refObj at hz
                    simp only [Obj.ref.injEq] at hz
                    exact Prod.ext hz.1.symm hz.2.symm
                  | _ => cases hz
                rw [this]
                exact hkid
        · cases hm
          cases ho
    by_cases h2 : n < target.cur.length
    · rw [hj.kept n h2 h1] at hv
      exact hold q (hcl.objs n v hn hv q hq)
    · have h3 : n < res.cur.length := storeOf_fresh res n v hv
      rw [hj.length] at h3
      obtain ⟨m, hm⟩ : ∃ m, (L.filter (· ≠ nr))[n - target.cur.length]? = some m :=
        ⟨_, List.getElem?_eq_getElem (by omega)⟩
      have h4 := hj.copied _ m hm
      rw [show target.cur.length + (n - target.cur.length) = n by omega, hv] at h4
      have hmem := (List.mem_filter.1 (List.mem_of_getElem? hm)).1
      obtain ⟨w, k1, -⟩ := hc.squashable.vals m hmem
      rw [k1] at h4
      cases Except.ok.inj h4
      obtain ⟨q', o1, rfl⟩ := occurs_renumber w hq
      obtain ⟨m', m1, m2, rfl⟩ := copyable_ref hc hmem k1 o1
      exact hnew m' m1 m2
  · intro tr v htr hv
    have htr : (storeOf res).val 0 = .ok (.dict tr) := htr
    rw [hj.kept 0 ht.pos (by omega)] at htr
    obtain ⟨g, n, h1, h2⟩ := hcl.root tr v htr hv
    exact ⟨g, n, h1, hold _ h2⟩

/-- **C114, concatenation.** `text` on the file that the concatenation is written to prints the texts of the pages of the first document,
then those of the second one.

Missing from the full claim: as in `C112_text_partial` and `C113_concat_partial`. -/
theorem C114_concat_partial [Zlib] [FloatText] {target source : Doc} {y : Option Int} {t1 t2 : PageTree} {c1 c2 : Int}
    {L : List Nat} {f F : Ref → Ref} {nr lim : Nat} (hm : Made target) (hs : Editable source y)
    (hft : AllObjs FitObj (storeOf target)) (hfs : ∀ n v, n ∈ L → n ≠ nr → (storeOf source).val n = .ok v → Keepable v)
    (hcl : Closed target) (hroot : IsRoot (storeOf target) t1) (hrt : RootOk t1 c1) (hc : Copyable source y L f nr t2 c2)
    (hF : SentTo source target.cur.length (L.filter (· ≠ nr)) F)
    (hlen : target.cur.length + L.length ≤ 9007199254740992) (h1 : depth t1 ≤ lim) (h2 : depth t2 + 1 ≤ lim)
    {s s' : List Str} (hs1 : PageTexts target lim t1 s) (hs2 : PageTexts source lim t2 s') :
    ∃ res, concat target source = .ok res ∧
      ∀ (out : Bytes) (d'' : Doc), writeFile res = .ok (out, d'') → 100 ≤ out.length → out.length < 10 ^ 80 →
        Prints lim out (s ++ s') := by
  obtain ⟨r, d, kids, res, rfl, e1, e2, e3, e4⟩ := join_reload true hm hs hft hfs hroot hrt hc hF hlen
  obtain ⟨res', q1, q2, q3⟩ := C113_concat_partial (made_editable hm) hs hroot hrt hc hF h1 h2
  have e1 : concat target source = .ok res := e1
  rw [e1] at q1
  cases q1
  refine ⟨res, e1, fun out d'' hw hmin hmax => ?_⟩
  refine printed e2 e3 (closed_join hcl (made_editable hm) hroot hc hF e4) ?_ e4.pages ⟨?_, ?_⟩ hw hmin hmax
  · simp only [joinedTree, depth, if_true, depths_append, depths, depth_renumber] at h1 ⊢
    omega
  · have hp := congrArg List.length (pageList_joined true r d kids t2 (c1 + c2) F)
    simp only [if_true, pageList, List.length_append, List.length_map] at hp
    rw [List.length_append, hs1.1, hs2.1, hp]
  · intro j x hj
    rw [List.getElem?_append] at hj
    split at hj
    · exact q2 j [] [] x (hs1.2 j x hj)
    · rename_i hlt
      have := q3 (j - s.length) [] [] x (hs2.2 _ x hj)
      rw [← hs1.1, show s.length + (j - s.length) = j by omega] at this
      exact this

/-! ### Samples -/

/-- `InUse`, by evaluation. -/
def inUseB [Zlib] (d : Doc) (r : Int × Int) : Bool :=
  decide (1 ≤ r.2) && match view d (.ref r.1 r.2) with
    | .ok .null => false
    | .ok _ => true
    | .error _ => false

/-- `Closed`, by evaluation. -/
def closedB [Zlib] (d : Doc) : Bool :=
  ((List.range d.cur.length).all fun n => match view d (.ref 0 n) with
    | .ok v => n == 0 || (deepRefCollect [] v).all (inUseB d)
    | .error _ => true) &&
  match view d (.ref 0 0) with
    | .ok (.dict t) => (match Dict.get? t b!"/Root" with
      | some (.ref g n) => inUseB d (g, n)
      | some _ => false
      | none => true)
    | _ => true

theorem inUseB_spec [Zlib] {d : Doc} {r : Int × Int} (h : inUseB d r = true) : InUse d r := by
  unfold inUseB at h
  rw [Bool.and_eq_true, decide_eq_true_eq] at h
  refine ⟨h.1, ?_⟩
  cases hv : view d (.ref r.1 r.2) with
  | error e => rw [hv] at h; cases h.2
  | ok v =>
    refine ⟨v, rfl, ?_⟩
    rintro rfl
    rw [hv] at h
    cases h.2

theorem closedB_spec [Zlib] {d : Doc} (h : closedB d = true) : Closed d := by
  unfold closedB at h
  rw [Bool.and_eq_true] at h
  constructor
  · intro n v hn hv r hr
    have h1 := List.all_eq_true.1 h.1 n (List.mem_range.2 (storeOf_fresh d n v hv))
    rw [hv] at h1
    simp only [Bool.or_eq_true, beq_iff_eq] at h1
    rcases h1 with h1 | h1
    · omega
    · exact inUseB_spec (List.all_eq_true.1 h1 r ((collect_mem r v []).2 (.inr hr)))
  · intro t v ht hv
    have h1 := h.2
    rw [ht] at h1
    simp only [hv] at h1
    cases v with
    | ref g n => exact ⟨g, n, rfl, inUseB_spec h1⟩
    | _ => cases h1

theorem paper_fit [Zlib] : ∀ o ∈ (paperObjs b!"/F2").drop 1, FitNode o := by
  intro o ho
  simp only [paperObjs, List.drop_succ_cons, List.drop_zero, List.mem_cons, List.not_mem_nil, or_false] at ho
  have hdict : ∀ d : Dict, WF false false (.dict d) = true → (∀ g n, Dict.get? d b!"/Count" ≠ some (.ref g n)) → FitNode (.dict d) :=
    fun d h1 h2 => ⟨.inr (keepable_dict.2 h1), fun d' hd => by cases hd; exact h2⟩
  rcases ho with rfl | rfl | rfl | rfl | rfl | rfl | rfl | rfl | rfl
  all_goals first
    | exact ⟨.inr ⟨⟨by decide, by decide, by decide, by decide, rfl⟩, by decide⟩, fun _ h => by cases h⟩
    | exact hdict _ (by decide) (fun g n => by simp [Dict.get?, List.lookup])

theorem paper_made [Zlib] : Made (memDoc (paperObjs b!"/F2")) := by
  refine .start (memDoc_fresh rfl ?_ (by decide) rfl rfl)
  intro n o hn ho
  have := (paper_fit o (List.mem_iff_getElem?.2 ⟨n - 1, by
    rw [List.getElem?_drop, ← ho]; congr 1; omega⟩)).1
  rcases this with rfl | h
  · have : ∀ o ∈ paperObjs b!"/F2", o ≠ .null := by simp [paperObjs]
    exact absurd rfl (this _ (List.mem_of_getElem? ho))
  · exact h

theorem paper_texts [Zlib] : PageTexts (memDoc (paperObjs b!"/F2")) 10 (paperTree b!"/F2")
    ["HI\n".toList.map Char.toNat, "IH\n".toList.map Char.toNat, "HI\n".toList.map Char.toNat] := by
  refine ⟨rfl, ?_⟩
  intro j x hj
  rcases j with _ | _ | _ | j
  · cases hj; kernel_rfl
  · cases hj; kernel_rfl
  · cases hj; kernel_rfl
  · cases hj

/-- The hypotheses of `C114_rotate_partial` hold of the sample of C113 (see there for the others). -/
example [Zlib] : Made (memDoc (paperObjs b!"/F2")) ∧ AllObjs FitObj (storeOf (memDoc (paperObjs b!"/F2"))) ∧
    Closed (memDoc (paperObjs b!"/F2")) ∧ depth (paperTree b!"/F2") ≤ 10 :=
  ⟨paper_made, allObjs_mem (by simp [paperObjs]) fun o ho => (paper_fit o ho).1, closedB_spec (by kernel_rfl), by decide⟩

/-- A file, and what `text` prints on it. -/
def printedOn [Zlib] [FloatText] (d : Doc) : Py (Bool × List (Option Str)) := do
  let (out, _) ← writeFile d
  let w : World := { files := fun _ => some out, writable := fun _ => false, out := [] }
  return (decide (100 ≤ out.length ∧ out.length < 10 ^ 80), textsOf (runCommand 1000 (fun _ _ => []) .text b!"a.pdf" none w).2)

/-- The hypothesis of `C114_remove_partial` on the references holds of the sample, when its second page is removed. -/
theorem paper_apart : Apart (memStore (paperObjs b!"/F2")) (paperTree b!"/F2") [1] := by
  have hdep : ∀ r L, eval (dependencies 10 (refObj r)) (memStore (paperObjs b!"/F2")) = .ok (L, memStore (paperObjs b!"/F2")) →
      ∀ q, Uses false (memStore (paperObjs b!"/F2")) (refObj r) q ↔ q ∈ L :=
    fun r L hL q => (dependencies_spec _ _ _ _ hL q).symm
  have h3 := hdep (0, 3) [(0, 3), (0, 6), (0, 8)] (by kernel_rfl)
  have h4 := hdep (0, 4) [(0, 4), (0, 7), (0, 9)] (by kernel_rfl)
  have h5 := hdep (0, 5) [(0, 5), (0, 7), (0, 8)] (by kernel_rfl)
  have hat : ∀ q, PageAt (paperTree b!"/F2") [1] q ↔ q = (0, 4) := by
    intro q
    constructor
    · rintro ⟨i, hi, j, b, hj, hb, rfl⟩
      simp only [List.mem_singleton] at hi
      subst hi
      have : j = 1 := by
        obtain ⟨h1, h2⟩ := hj
        simp only [paperTree, leaves, leavesAll, List.length_append, List.length_cons, List.length_nil] at h1 h2
        omega
      subst this
      cases hb
      rfl
    · rintro rfl
      exact ⟨1, by simp, 1, _, by decide, rfl, rfl⟩
  have hkept : ∀ q, KeptPage (paperTree b!"/F2") [1] q ↔ q = (0, 3) ∨ q = (0, 5) := by
    intro q
    unfold KeptPage
    rw [hat]
    simp only [paperTree, leaves, leavesAll, List.append_nil, List.cons_append, List.nil_append, List.map_cons, List.map_nil,
      List.mem_cons, List.not_mem_nil, or_false]
    constructor
    · rintro ⟨rfl | rfl | rfl, h⟩
      · exact .inl rfl
      · exact absurd rfl h
      · exact .inr rfl
    · rintro (rfl | rfl)
      · exact ⟨.inl rfl, by decide⟩
      · exact ⟨.inr (.inr rfl), by decide⟩
  have hgone : ∀ n, OnlyRemoved (memStore (paperObjs b!"/F2")) (paperTree b!"/F2") [1] n ↔ n = 4 ∨ n = 9 := by
    intro n
    unfold OnlyRemoved UsedBy
    simp only [hat, hkept]
    constructor
    · rintro ⟨⟨q, rfl, r, hr, rfl⟩, hk⟩
      rw [h4] at hr
      simp only [List.mem_cons, List.not_mem_nil, or_false] at hr
      rcases hr with rfl | rfl | rfl
      · exact .inl rfl
      · exact absurd ⟨(0, 5), .inr rfl, (0, 7), (h5 _).2 (by decide), rfl⟩ hk
      · exact .inr rfl
    · intro hn
      refine ⟨⟨(0, 4), rfl, (0, (n : Int)), (h4 _).2 ?_, by simp⟩, ?_⟩
      · rcases hn with rfl | rfl <;> decide
      · rintro ⟨q, rfl | rfl, r, hr, rfl⟩
        · rw [h3] at hr
          simp only [List.mem_cons, List.not_mem_nil, or_false] at hr
          rcases hr with rfl | rfl | rfl <;> revert hn <;> decide
        · rw [h5] at hr
          simp only [List.mem_cons, List.not_mem_nil, or_false] at hr
          rcases hr with rfl | rfl | rfl <;> revert hn <;> decide
  constructor
  · intro n v hn hv hg hx q hq
    rw [hgone] at hg ⊢
    have h2 : n ≠ 2 := fun h => hx _ (List.mem_cons_self ..) h.symm
    have hall : (((paperObjs b!"/F2").zipIdx).all fun p => decide (p.2 = 2 ∨ p.2 = 4) ||
        (deepRefCollect [] p.1).all fun r => decide (¬ (r.2.toNat = 4 ∨ r.2.toNat = 9))) = true := by decide
    simp only [memStore] at hv
    cases ho : (paperObjs b!"/F2")[n]? with
    | none => rw [ho] at hv; cases hv
    | some o =>
      rw [ho] at hv
      cases hv
      have k1 := List.all_eq_true.1 hall (v, n) (List.mk_mem_zipIdx_iff_getElem?.2 ho)
      simp only [Bool.or_eq_true, decide_eq_true_eq] at k1
      rcases k1 with k1 | k1
      · omega
      · exact of_decide_eq_true (List.all_eq_true.1 k1 q ((collect_mem q v []).2 (.inr hq)))
  · intro x hx k o hk hget q hq
    rw [hgone]
    simp only [paperTree, nodes, nodesAll, List.append_nil, List.mem_singleton] at hx
    subst hx
    have hm := get?_mem hget
    simp only [List.mem_cons, List.not_mem_nil, or_false, Prod.mk.injEq] at hm
    rcases hm with ⟨-, rfl⟩ | ⟨rfl, -⟩ | ⟨-, rfl⟩ | ⟨-, rfl⟩
    · cases hq
    · exact absurd rfl hk
    · cases hq
    · have := (collect_mem q _ []).2 (.inr hq)
      rw [show deepRefCollect [] (.list [.int 0, .int 0, .int 595, .int 842]) = [] from by decide] at this
      cases this

/-- The second page of the sample is removed: nothing refers to what is deleted. -/
example [Zlib] : (do
    let d ← commit (memDoc (paperObjs b!"/F2"))
    let (_, d) ← (removePages 10 id [] [1]).run d
    return closedB d) = .ok true := by
  kernel_rfl

/-- `doc[-2]`: `text` on the file prints the text of the second page. -/
example : letI := plainZlib; letI := noFloat
    (do
      let d ← commit (memDoc (paperObjs b!"/F2"))
      let (_, d) ← (getItem 10 id [] (.at (-2))).run d
      return (closedB d, ← printedOn d)) = Except.ok (ε := PyErr) (true, true, [some ("IH\n".toList.map Char.toNat)]) := by
  kernel_rfl

end Pdf
