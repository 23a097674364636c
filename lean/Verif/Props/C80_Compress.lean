/-
C80: compression of a document (compress).
-/
import Verif.Props.C37_Squash
import Verif.Props.C53_Version
import Verif.Props.C69_Filter
import Verif.Props.C79_Packed

namespace Pdf
open Spec


/-! ### The version -/

/-- The catalog of a document whose objects are in memory. -/
structure CatalogAt (d : Doc) (rt : Nat) (cat : Dict) : Prop where
  pos : 1 ≤ rt
  zero : ∃ e, d.cur[0]? = some (.one e) ∧ e.deleted = false
  root : ∃ t g, d.cache[0]? = some (.dict t) ∧ Dict.get? t b!"/Root" = some (.ref g rt)
  live : ∃ e, d.cur[rt]? = some (.one e) ∧ e.deleted = false
  obj : d.cache[rt]? = some (.dict cat)

theorem catalog_cached [Zlib] {d : Doc} {rt : Nat} {cat : Dict} (h : CatalogAt d rt cat) :
    ∃ g, catalog d = .ok (.dict cat, .ref g rt, d) := by
  obtain ⟨e0, z1, z2⟩ := h.zero
  obtain ⟨t, g, r1, r2⟩ := h.root
  obtain ⟨e, l1, l2⟩ := h.live
  refine ⟨g, ?_⟩
  unfold catalog trailerOf
  have := getObject_cached (g := 0) z1 (b := false) (by simp [Slot.isDeleted, z2]) r1 (by simp)
  rw [show (Obj.ref 0 0) = Obj.ref 0 ((0 : Nat) : Int) from rfl, this]
  simp only [bind, Except.bind, getKey, r2, orRaise]
  rw [getObject_cached (g := g) l1 (b := false) (by simp [Slot.isDeleted, l2]) h.obj (by simp)]
  rfl

/-- What `compress` does to the catalog: nothing if the version is already 1.5 or more, and else the version of the catalog
becomes 1.5. -/
def Raised (ver : Bytes) (cat cat' : Dict) : Prop :=
  if strLt ver b!"1.5" then (∀ k, k ≠ b!"/Version" → Dict.get? cat' k = Dict.get? cat k) ∧
    ∃ w, Dict.get? cat' b!"/Version" = some (.str w) ∧ strLt (w.drop 1) b!"1.5" = false
  else cat' = cat

/-- The document with another dictionary at a number. -/
theorem raiseVersion_spec [Zlib] {d d' : Doc} {rt : Nat} {cat : Dict} (h : CatalogAt d rt cat) (hr : raiseVersion d = .ok d') :
    ∃ ver cat', version d = .ok (ver, d) ∧ Raised ver cat cat' ∧ (cat' = cat ∨ cat' = Dict.set cat b!"/Version" (.str b!"/1.5")) ∧
      (d' = d ∧ cat' = cat ∨ updateObject d rt (.dict cat') = .ok d') := by
  obtain ⟨g, hcat⟩ := catalog_cached h
  unfold raiseVersion at hr
  obtain ⟨⟨ver, d1⟩, hv, hr'⟩ := bind_eq_ok hr
  clear hr
  have hd1 : d1 = d := by
    unfold version at hv
    obtain ⟨hver, -, hv⟩ := bind_eq_ok hv
    rw [hcat] at hv
    simp only [bind, Except.bind] at hv
    split at hv
    · rename_i v hv'
      rcases hvo : versionOf v with er | v2
      · rw [hvo] at hv; cases hv
      · rw [hvo] at hv
        simp only at hv
        split at hv <;> cases hv <;> rfl
    · cases hv; rfl
  subst hd1
  have hr := hr'
  simp only at hr
  by_cases hlow : strLt ver b!"1.5" = true
  · rw [if_pos hlow] at hr
    unfold updateVersion at hr
    rw [hcat] at hr
    simp only [bind, Except.bind] at hr
    have hset : Raised ver cat (Dict.set cat b!"/Version" (.str b!"/1.5")) := by
      unfold Raised
      rw [if_pos hlow]
      refine ⟨fun k hk => by rw [Dict.get?_set, if_neg hk], b!"/1.5", by rw [Dict.get?_set, if_pos rfl], by decide⟩
    have hnum : refNum (.ref g rt) = .ok rt := by
      simp [refNum]
    split at hr
    · rename_i v hv'
      rcases hvo : versionOf v with er | v2
      · rw [hvo] at hr; cases hr
      · rw [hvo] at hr
        simp only at hr
        by_cases hlt : strLt v2 b!"1.5" = true
        · rw [if_pos hlt, hnum] at hr
          exact ⟨ver, _, hv, hset, .inr rfl, .inr hr⟩
        · rw [if_neg hlt] at hr
          cases hr
          refine ⟨ver, cat, hv, ?_, .inl rfl, .inl ⟨rfl, rfl⟩⟩
          unfold Raised
          rw [if_pos hlow]
          refine ⟨fun _ _ => rfl, ?_⟩
          cases v <;> simp [versionOf] at hvo
          subst hvo
          exact ⟨_, hv', by simpa using hlt⟩
    · rw [hnum] at hr
      exact ⟨ver, _, hv, hset, .inr rfl, .inr hr⟩
  · rw [if_neg hlow] at hr
    cases hr
    refine ⟨ver, cat, hv, ?_, .inl rfl, .inl ⟨rfl, rfl⟩⟩
    unfold Raised
    rw [if_neg hlow]

theorem raise_inMemory [Zlib] {d d' : Doc} {rt : Nat} {cat : Dict} (hM : InMemory d) (h : CatalogAt d rt cat)
    (hr : raiseVersion d = .ok d') :
    ∃ ver cat', version d = .ok (ver, d) ∧ Raised ver cat cat' ∧ (cat' = cat ∨ cat' = Dict.set cat b!"/Version" (.str b!"/1.5")) ∧
      InMemory d' ∧ d'.cur.length = d.cur.length ∧ d'.cache[rt]? = some (.dict cat') ∧
      (∃ e e', d.cur[rt]? = some (.one e) ∧ d'.cur[rt]? = some (.one e') ∧ e'.gen = e.gen) ∧
      ∀ n : Nat, n ≠ rt → d'.cur[n]? = d.cur[n]? ∧ d'.cache[n]? = d.cache[n]? := by
  obtain ⟨ver, cat', h1, h2, h3, h4⟩ := raiseVersion_spec h hr
  obtain ⟨e, l1, l2⟩ := h.live
  refine ⟨ver, cat', h1, h2, h3, ?_⟩
  rcases h4 with ⟨rfl, rfl⟩ | h4
  · exact ⟨hM, rfl, h.obj, ⟨e, e, l1, l1, rfl⟩, fun _ _ => ⟨rfl, rfl⟩⟩
  · obtain ⟨old, u1, u2, rfl⟩ := updateObject_inv h4
    rw [l1] at u1
    cases u1
    have hpos := h.pos
    have hoth : ∀ n : Nat, n ≠ rt → (d.cur.set rt (.one (newEntry e rt d.past.length (.dict cat'))))[n]? = d.cur[n]? ∧
        (d.cache.set rt (.dict cat'))[n]? = d.cache[n]? :=
      fun n hn => ⟨getElem?_set_ne' _ _ (Ne.symm hn), getElem?_set_ne' _ _ (Ne.symm hn)⟩
    have hat := getElem?_set_eq' (x := Slot.one (newEntry e rt d.past.length (.dict cat'))) _ (lt_of_getElem? l1)
    have hat' := getElem?_set_eq' (x := Obj.dict cat') _ u2
    refine ⟨⟨hM.past, hM.pastData, hM.opened, ?_, ?_, ?_, ?_⟩, by simp, hat', ⟨e, _, l1, hat, rfl⟩, hoth⟩
    · simp only [List.length_set]; exact hM.len
    · obtain ⟨e0, m1, m2⟩ := hM.mode
      exact ⟨e0, by simp only; rw [(hoth 0 (by omega)).1, m1], m2⟩
    · obtain ⟨t, t1, t2⟩ := hM.trailer
      exact ⟨t, by simp only; rw [(hoth 0 (by omega)).2, t1], t2⟩
    · intro n e' hn he'
      simp only at he' ⊢
      by_cases hne : n = rt
      · subst hne
        rw [hat] at he'
        cases he'
        exact ⟨by simp [newEntry], rfl, _, hat', by simp⟩
      · rw [(hoth n hne).1] at he'
        rw [(hoth n hne).2]
        exact hM.cells n e' hn he'

/-! ### The streams -/

theorem inStream_wf {d : Doc} {c : Nat} {o : Obj} (h : InStream d c o) : ∀ a b x, o ≠ .stream a b x := by
  rintro a b x rfl
  have := h.2.1
  simp [WF] at this

theorem listStreamsLoop_cached [Zlib] {d : Doc} : ∀ (rs : List Ref) {l : List Nat} {d' : Doc},
    (∀ r ∈ rs, ∃ n : Nat, r.2 = n ∧ ∃ e o, d.cur[n]? = some (.one e) ∧ e.deleted = false ∧ d.cache[n]? = some o ∧ o ≠ .null) →
    listStreamsLoop rs d = .ok (l, d') →
    d' = d ∧ (∀ n, n ∈ l ↔ (∃ r ∈ rs, r.2 = (n : Int)) ∧ ∃ a b x, d.cache[n]? = some (.stream a b x)) := by
  intro rs
  induction rs with
  | nil =>
    intro l d' _ h
    simp only [listStreamsLoop, Except.ok.injEq, Prod.mk.injEq] at h
    obtain ⟨rfl, rfl⟩ := h
    exact ⟨rfl, by simp⟩
  | cons r rs ih =>
    obtain ⟨g, m⟩ := r
    intro l d' hall h
    obtain ⟨n, hn, e, o, h1, h2, h3, h4⟩ := hall (g, m) (by simp)
    simp only at hn
    subst hn
    unfold listStreamsLoop at h
    rw [getObject_cached (g := g) h1 (b := false) (by simp [Slot.isDeleted, h2]) h3 h4] at h
    simp only [bind, Except.bind] at h
    rcases hl : listStreamsLoop rs d with er | ⟨l', d2⟩
    · rw [hl] at h; cases h
    rw [hl] at h
    simp only at h
    obtain ⟨rfl, hm⟩ := ih (fun r hr => hall r (by simp [hr])) hl
    have hcase : d' = d2 ∧ ((∃ a b x, o = .stream a b x) ∧ l = n :: l' ∨ (¬ ∃ a b x, o = .stream a b x) ∧ l = l') := by
      cases o <;> simp only [pure, Except.pure, Except.ok.injEq, Prod.mk.injEq, Int.toNat_natCast] at h <;>
        obtain ⟨rfl, rfl⟩ := h <;> simp
    obtain ⟨rfl, ⟨⟨a, b, x, rfl⟩, rfl⟩ | ⟨hs, rfl⟩⟩ := hcase
    · refine ⟨rfl, fun k => ?_⟩
      constructor
      · intro hk
        rcases List.mem_cons.1 hk with rfl | hk
        · exact ⟨⟨(g, k), by simp, rfl⟩, _, _, _, h3⟩
        · obtain ⟨⟨r, k1, k2⟩, k3⟩ := (hm k).1 hk
          exact ⟨⟨r, by simp [k1], k2⟩, k3⟩
      · rintro ⟨⟨r, k1, k2⟩, k3⟩
        rcases List.mem_cons.1 k1 with rfl | k1
        · simp only at k2
          have : n = k := by omega
          simp [this]
        · exact List.mem_cons_of_mem _ ((hm k).2 ⟨⟨r, k1, k2⟩, k3⟩)
    · refine ⟨rfl, fun k => ?_⟩
      rw [hm k]
      constructor
      · rintro ⟨⟨r, k1, k2⟩, k3⟩
        exact ⟨⟨r, by simp [k1], k2⟩, k3⟩
      · rintro ⟨⟨r, k1, k2⟩, a, b, x, k3⟩
        rcases List.mem_cons.1 k1 with rfl | k1
        · simp only at k2
          have : n = k := by omega
          subst this
          rw [h3] at k3
          cases k3
          exact absurd ⟨_, _, _, rfl⟩ hs
        · exact ⟨⟨r, k1, k2⟩, a, b, x, k3⟩

theorem listStreamsLoop_nodup [Zlib] : ∀ (rs : List Ref) {d d' : Doc} {l : List Nat},
    listStreamsLoop rs d = .ok (l, d') → l.Sublist (rs.map fun r => r.2.toNat) := by
  intro rs
  induction rs with
  | nil =>
    intro d d' l h
    simp only [listStreamsLoop, Except.ok.injEq, Prod.mk.injEq] at h
    rw [← h.1]
    simp
  | cons r rs ih =>
    obtain ⟨g, m⟩ := r
    intro d d' l h
    unfold listStreamsLoop at h
    obtain ⟨⟨o, d1⟩, -, h⟩ := bind_eq_ok h
    obtain ⟨⟨l', d2⟩, h2, h⟩ := bind_eq_ok h
    have := ih h2
    cases o <;> simp only [pure, Except.pure, Except.ok.injEq, Prod.mk.injEq] at h <;> obtain ⟨rfl, rfl⟩ := h <;>
      simp [this, List.Sublist.cons]

/-- `list_streams` of a document that is ready to be written. -/
theorem listStreams_packable [Zlib] {d d' : Doc} {l : List Nat} (hP : Packable d) (h : listStreams d = .ok (l, d')) :
    d' = d ∧ l.Nodup ∧ ∀ n, n ∈ l ↔ 1 ≤ n ∧ ∃ e a b x, d.cur[n]? = some (.one e) ∧ d.cache[n]? = some (.stream a b x) := by
  obtain ⟨hmem, hord⟩ := C58_in_use d
  unfold listStreams at h
  obtain ⟨h1, h2⟩ := listStreamsLoop_cached _ (by
    intro r hr
    obtain ⟨n, k1, ⟨e, k2, k3⟩, rfl⟩ := (hmem r).1 hr
    obtain ⟨-, o, j1, j2, -⟩ := hP.cells n e k1 k2
    exact ⟨n, rfl, e, o, k2, k3, j1, j2⟩) h
  refine ⟨h1, ?_, fun n => ?_⟩
  · refine (listStreamsLoop_nodup _ h).nodup ?_
    rw [List.Nodup, List.pairwise_map]
    refine hord.imp_of_mem ?_
    intro a b ha hb hab
    obtain ⟨n, -, -, rfl⟩ := (hmem a).1 ha
    obtain ⟨m, -, -, rfl⟩ := (hmem b).1 hb
    simp only [Int.toNat_natCast] at hab ⊢
    omega
  rw [h2]
  constructor
  · rintro ⟨⟨r, hr, hrn⟩, a, b, x, hc⟩
    obtain ⟨m, k1, ⟨e, k2, k3⟩, rfl⟩ := (hmem r).1 hr
    simp only at hrn
    have : m = n := by omega
    subst this
    exact ⟨k1, e, a, b, x, k2, hc⟩
  · rintro ⟨k1, e, a, b, x, k2, hc⟩
    exact ⟨⟨_, (hmem _).2 ⟨n, k1, ⟨e, k2, (hP.cells n e k1 k2).1⟩, rfl⟩, rfl⟩, a, b, x, hc⟩

/-- One stream. -/
theorem applyFilterTo_packable [Zlib] (hz : ZlibLaw) {d d' : Doc} {n : Nat} {e : Entry} {flt : Bytes} (hflt : supported flt) {o : Obj}
    (hP : Packable d) (hn : 1 ≤ n) (he : d.cur[n]? = some (.one e)) (hc : d.cache[n]? = some o) (hconv : Convertible flt o)
    (h : applyFilterTo d n flt = .ok d') :
    Packable d' ∧ d'.cur.length = d.cur.length ∧ (∀ m : Nat, m ≠ n → d'.cur[m]? = d.cur[m]? ∧ d'.cache[m]? = d.cache[m]?) ∧
      ∃ e' o', d'.cur[n]? = some (.one e') ∧ e'.envNum = none ∧ d'.cache[n]? = some o' ∧ Refiltered flt o o' := by
  have hne : flt ≠ [] := by rcases hflt with rfl | rfl | rfl <;> simp
  obtain ⟨j1, o2, j2, j3, j4⟩ := hP.cells n e hn he
  rw [hc] at j2
  cases j2
  unfold applyFilterTo at h
  rw [objAt_cached he j1 hc j3] at h
  obtain ⟨en, data, enc, h1, h2, h3⟩ := hconv
  have henv : e.envNum = none := by
    rcases j4 with j4 | ⟨c, -, j4⟩
    · exact j4
    · exact absurd rfl (inStream_wf j4 _ _ _)
  simp only [bind, Except.bind] at h
  by_cases hsame : Dict.get? en b!"/Filter" = some (.str flt)
  · rw [if_pos hsame] at h
    cases h
    refine ⟨hP, rfl, fun _ _ => ⟨rfl, rfl⟩, e, _, he, henv, hc, ?_⟩
    refine .intro _ _ _ _ _ (fun _ _ _ => rfl) ?_ h3 ?_ id
    · rw [if_neg hne, hsame]
    · rintro ⟨-, h⟩
      exact absurd rfl h
  · rw [if_neg hsame] at h
    have hchk : checkFilter (Dict.get? en b!"/Filter") = .ok () := by
      rcases h1 with ⟨h1, -⟩ | ⟨f, -, h1⟩ <;> rw [h1] <;> rfl
    obtain ⟨o', l, hf, hnull, hr⟩ := forge_refiltered hz (.inr hflt) (.intro en data enc h1 h2 h3)
    rw [hchk, hf] at h
    simp only at h
    obtain ⟨old, u1, u2, rfl⟩ := updateObject_inv h
    rw [he] at u1
    cases u1
    have hoth : ∀ m : Nat, m ≠ n → (d.cur.set n (.one (newEntry e n d.past.length o')))[m]? = d.cur[m]? ∧
        (d.cache.set n o')[m]? = d.cache[m]? :=
      fun m hm => ⟨getElem?_set_ne' _ _ (Ne.symm hm), getElem?_set_ne' _ _ (Ne.symm hm)⟩
    have hat := getElem?_set_eq' (x := Slot.one (newEntry e n d.past.length o')) _ (lt_of_getElem? he)
    have hat' := getElem?_set_eq' (x := o') _ u2
    refine ⟨⟨hP.past, hP.pastData, hP.opened, ?_, ?_, ?_⟩, by simp, hoth, _, o', hat, rfl, hat', hr⟩
    · obtain ⟨e0, m1, m2⟩ := hP.mode
      exact ⟨e0, by simp only; rw [(hoth 0 (by omega)).1, m1], m2⟩
    · obtain ⟨t, t1, t2⟩ := hP.trailer
      exact ⟨t, by simp only; rw [(hoth 0 (by omega)).2, t1], t2⟩
    · intro m e' hm he'
      simp only at he' ⊢
      by_cases hmn : m = n
      · subst hmn
        rw [hat] at he'
        cases he'
        exact ⟨by simp [newEntry, hnull], o', hat', hnull, .inl rfl⟩
      · rw [(hoth m hmn).1] at he'
        rw [(hoth m hmn).2]
        obtain ⟨q1, o2, q2, q3, q4⟩ := hP.cells m e' hm he'
        refine ⟨q1, o2, q2, q3, ?_⟩
        rcases q4 with q4 | ⟨c, q4, q5⟩
        · exact .inl q4
        refine .inr ⟨c, q4, ?_⟩
        obtain ⟨w1, w2, w3, ⟨ce, w4, w5⟩, entries, enc2, w6, w7, w8, w9, w10⟩ := q5
        refine ⟨w1, w2, w3, ?_⟩
        by_cases hcn : c = n
        · subst hcn
          rw [hc] at w6
          cases w6
          cases hr with
          | intro _ e2 _ _ enc3 r1 r2 r3 r4 =>
            refine ⟨⟨_, hat, rfl⟩, e2, enc3, hat', ?_⟩
            rw [r1 _ (by decide) (by decide), r1 _ (by decide) (by decide), r1 _ (by decide) (by decide), r1 _ (by decide) (by decide)]
            exact ⟨w7, w8, w9, w10⟩
        · refine ⟨⟨ce, ?_, w5⟩, entries, enc2, ?_, w7, w8, w9, w10⟩
          · simp only; rw [(hoth c hcn).1, w4]
          · simp only; rw [(hoth c hcn).2, w6]

theorem refiltered_stream [Zlib] {flt : Bytes} {o o' : Obj} (h : Refiltered flt o o') : ∃ a b x, o' = .stream a b x := by
  cases h; exact ⟨_, _, _, rfl⟩

/-- All of them. -/
theorem applyFilter_packable [Zlib] (hz : ZlibLaw) {flt : Bytes} (hflt : supported flt) : ∀ (l : List Nat) {d d' : Doc}, l.Nodup → Packable d →
    (∀ n ∈ l, 1 ≤ n ∧ ∃ e o, d.cur[n]? = some (.one e) ∧ d.cache[n]? = some o ∧ Convertible flt o) →
    applyFilter flt l d = .ok d' →
    Packable d' ∧ d'.cur.length = d.cur.length ∧ (∀ m : Nat, m ∉ l → d'.cur[m]? = d.cur[m]? ∧ d'.cache[m]? = d.cache[m]?) ∧
      ∀ n ∈ l, ∀ o, d.cache[n]? = some o →
        ∃ e' o', d'.cur[n]? = some (.one e') ∧ e'.envNum = none ∧ d'.cache[n]? = some o' ∧ Refiltered flt o o' := by
  intro l
  induction l with
  | nil =>
    intro d d' _ hP _ h
    simp only [applyFilter, Except.ok.injEq] at h
    subst h
    exact ⟨hP, rfl, fun _ _ => ⟨rfl, rfl⟩, by simp⟩
  | cons n l ih =>
    intro d d' hnd hP hall h
    unfold applyFilter at h
    obtain ⟨d1, ha, h⟩ := bind_eq_ok h
    obtain ⟨hn, e, o, he, hc, hconv⟩ := hall n (by simp)
    obtain ⟨hnl, hnd⟩ := List.nodup_cons.1 hnd
    obtain ⟨p1, p2, p3, p4⟩ := applyFilterTo_packable hz hflt hP hn he hc hconv ha
    obtain ⟨q1, q2, q3, q4⟩ := ih hnd p1 (by
      intro m hm
      have hmn : m ≠ n := fun hh => hnl (hh ▸ hm)
      obtain ⟨k1, e, o, k2⟩ := hall m (by simp [hm])
      refine ⟨k1, e, o, ?_⟩
      rw [(p3 m hmn).1, (p3 m hmn).2]
      exact k2) h
    refine ⟨q1, q2.trans p2, ?_, ?_⟩
    · intro m hm
      have hmn : m ≠ n := fun hh => hm (by simp [hh])
      rw [(q3 m (fun hh => hm (by simp [hh]))).1, (q3 m (fun hh => hm (by simp [hh]))).2]
      exact p3 m hmn
    · intro m hm o2 ho2
      rcases List.mem_cons.1 hm with rfl | hm
      · rw [hc] at ho2
        cases ho2
        obtain ⟨e', o', r1, r2, r3, r4⟩ := p4
        exact ⟨e', o', by rw [(q3 m hnl).1, r1], r2, by rw [(q3 m hnl).2, r3], r4⟩
      · refine q4 m hm o2 ?_
        rw [(p3 m (fun hh => hnl (hh ▸ hm))).2, ho2]

/-! ### The whole of it -/

/-- An object that compression keeps: it can be written (C01), or it is a stream that may be given the filter (C69). -/
def Compressible [Zlib] (o : Obj) : Prop :=
  (WF false false o = true ∧ ∀ g m, o ≠ .ref g m) ∨ Convertible b!"/FlateDecode" o

theorem groupAll_direct [Zlib] {d d' : Doc} (h : groupAll d = .ok d')
    (hdir : ∀ (n : Nat) (e : Entry), d.cur[n]? = some (.one e) → e.envNum = none) : groupObjIntoStream d 0 [] = .ok d' := by
  unfold groupAll at h
  obtain ⟨envs, h1, h⟩ := bind_eq_ok h
  have : ∀ (rev : Rev) (envs : List Nat), (∀ (n : Nat) (e : Entry), rev[n]? = some (.one e) → e.envNum = none) →
      envelopeNums rev = .ok envs → envs = [] := by
    intro rev
    induction rev with
    | nil => intro envs _ h; simp only [envelopeNums, Except.ok.injEq] at h; exact h.symm
    | cons s rev ih =>
      intro envs hall h
      unfold envelopeNums at h
      obtain ⟨rest, h1, h⟩ := bind_eq_ok h
      have := ih rest (fun n e hn => hall (n + 1) e (by simpa using hn)) h1
      subst this
      cases s with
      | one e =>
        have := hall 0 e rfl
        simp only [this, Except.ok.injEq] at h
        exact h.symm
      | _ => cases h
  have := this _ _ hdir h1
  subst this
  exact h

theorem force_zero {d d' : Doc} {filt : Bytes} {e e' : Entry} (h : forceXrefStream d false filt = .ok d')
    (he : d.cur[0]? = some (.one e)) (hx : e.xrefStreamNum = none) (he' : d'.cur[0]? = some (.one e')) : e'.envNum = e.envNum := by
  unfold forceXrefStream at h
  rw [he] at h
  simp only [Option.bind_some, Slot.xrefStreamNum?, hx] at h
  rw [if_neg (by decide)] at h
  unfold setXrefStreamNum at h
  rw [entryAt_eq he] at h
  simp only [bind, Except.bind, pure, Except.pure] at h
  have hcur : d'.cur = d.cur.set 0 (.one { e with xrefStreamNum := some (-1) }) := by
    unfold setFilter at h
    split at h
    · cases h; rfl
    · obtain ⟨t, -, h⟩ := bind_eq_ok h
      cases h; rfl
  rw [hcur, getElem?_set_eq' _ _ (lt_of_getElem? he)] at he'
  cases he'
  rfl

/-- After the copy: raising the version, forcing a cross-reference stream, grouping the objects, compressing the streams,
and writing. -/
theorem compress_core [Zlib] (hz : ZlibLaw) {d d1 d2 d3 d4 d5 dw : Doc} {l : List Nat} {out : Bytes} {rt : Nat} {cat : Dict}
    (hM : InMemory d) (hcat : CatalogAt d rt cat) (henv0 : ∀ e, d.cur[0]? = some (.one e) → e.envNum = none)
    (hobj : ∀ (n : Nat) (e : Entry) (o : Obj), 1 ≤ n → d.cur[n]? = some (.one e) → d.cache[n]? = some o → Compressible o)
    (h1 : raiseVersion d = .ok d1) (h2 : forceXrefStream d1 false b!"/FlateDecode" = .ok d2) (h3 : groupAll d2 = .ok d3)
    (h4 : listStreams d3 = .ok (l, d4)) (h5 : applyFilter b!"/FlateDecode" l d4 = .ok d5)
    (hw : writeFile d5 = .ok (out, dw)) (hmin : 100 ≤ out.length) (hmax : out.length < 10 ^ 80)
    (hclean : ∀ (n : Nat) (obj : Obj), 1 ≤ n → n ≤ d.cur.length → ToWrite dw.cache n obj → Storable obj)
    (htr : ∀ t, d.cache[0]? = some (.dict t) → Parms t)
    (hx : ∀ p t content, XrefContent t content → fileEnd p <:+ out →
      PointsAt out p (d.cur.length + 1) 0 (.stream t content (Zlib.compress content)) →
      (∃ t', dw.cache[0]? = some (.dict t') ∧ Dict.get? t b!"/W" = Dict.get? t' b!"/W") → Clean (Zlib.compress content)) :
    ∃ dl ver cat', loads out = .ok dl ∧ Coherent dl ∧ version d = .ok (ver, d) ∧ Raised ver cat cat' ∧
      (∀ (g : Int) (n : Nat) (e : Entry) (o : Obj), 1 ≤ n → d.cur[n]? = some (.one e) → d.cache[n]? = some o →
        isObjStm o = false → ∃ o' v, view dl (.ref g n) = .ok v ∧ pyEq o' v = true ∧
          ((∃ a b x, o = .stream a b x) ∧ Refiltered b!"/FlateDecode" o o' ∨
            (¬ ∃ a b x, o = .stream a b x) ∧ o' = if n = rt then .dict cat' else o)) ∧
      ∃ t tl, d.cache[0]? = some (.dict t) ∧ dl.cache[0]? = some (.dict tl) ∧
        ∀ k, ¬ FileKey k → k ≠ b!"/Filter" → SameOpt (Dict.get? t k) (Dict.get? tl k) := by
  obtain ⟨ver, cat', a1, a2, a3, a4, a5, a6, ⟨er, er', a7, a8, -⟩, a9⟩ := raise_inMemory hM hcat h1
  have hpos := hcat.pos
  obtain ⟨f1, f2, f3, f4, f5⟩ := C79_force_partial a4 (.inr (by decide)) h2
  -- the objects after the version is raised
  have hobj1 : ∀ (n : Nat) (e : Entry) (o : Obj), 1 ≤ n → d1.cur[n]? = some (.one e) → d1.cache[n]? = some o → Compressible o := by
    intro n e o hn he ho
    by_cases hnr : n = rt
    · subst hnr
      rw [a6] at ho
      cases ho
      rcases hobj n er _ hn a7 hcat.obj with ⟨k1, -⟩ | k
      · refine .inl ⟨?_, by simp⟩
        rcases a3 with rfl | rfl
        · exact k1
        · exact wf_set k1 (by decide) (by decide)
      · cases k
    · rw [(a9 n hnr).1] at he
      rw [(a9 n hnr).2] at ho
      exact hobj n e o hn he ho
  have hback : ∀ (n : Nat) (e : Entry), 1 ≤ n → d2.cur[n]? = some (.one e) → d1.cur[n]? = some (.one e) :=
    fun n e hn he => by rw [← (f4 n hn).1, he]
  have hdir : ∀ (n : Nat) (e : Entry), 1 ≤ n → d2.cur[n]? = some (.one e) → e.envNum = none :=
    fun n e hn he => (a4.cells n e hn (hback n e hn he)).2.1
  have h3 := groupAll_direct h3 (by
    intro n e he
    rcases Nat.eq_zero_or_pos n with rfl | hn
    · obtain ⟨e0, m1, m2⟩ := a4.mode
      rw [force_zero h2 m1 m2 he]
      refine henv0 e0 ?_
      rw [← (a9 0 (by omega)).1, m1]
    · exact hdir n e hn he)
  obtain ⟨g1, g2, g3, g4, g5, g6⟩ := C79_group_partial f1 (by rw [f2, f3]; exact a4.len) hdir
    (fun n e o hn he ho hso => by
      rw [(f4 n hn).2] at ho
      rcases hobj1 n e o hn (hback n e hn he) ho with k | k
      · exact k
      · cases k
        exact absurd (.inl ⟨_, _, _, rfl⟩) hso) h3
  obtain ⟨rfl, b1, b2⟩ := listStreams_packable g1 h4
  have hlen2 : d2.cur.length = d.cur.length := f3.trans a5
  have hone : ∀ (n : Nat) (e : Entry), n < d2.cur.length → d4.cur[n]? = some (.one e) → ∃ e', d2.cur[n]? = some (.one e') := by
    intro n e hn he
    rcases g6 n hn with k | k
    · exact ⟨e, by rw [← k, he]⟩
    · exact k
  obtain ⟨p1, p2, p3, p4⟩ := applyFilter_packable hz (.inl rfl) l b1 g1 (by
    intro n hn
    obtain ⟨k1, e, a, b, x, k2, k3⟩ := (b2 n).1 hn
    refine ⟨k1, e, _, k2, k3, ?_⟩
    have hlt := lt_of_getElem? k2
    rw [g4] at hlt
    by_cases hne : n = d2.cur.length
    · subst hne
      rw [g5] at k3
      cases k3
      exact .intro _ _ _ (.inl ⟨by decide, by decide⟩) (.inl (by decide)) rfl
    · have hlt : n < d2.cur.length := by omega
      rw [g3 n hlt, (f4 n k1).2] at k3
      obtain ⟨e', k4⟩ := hone n e hlt k2
      rcases hobj1 n e' _ k1 (hback n e' k1 k4) k3 with ⟨k, -⟩ | k
      · simp [WF] at k
      · exact k) h5
  have hlen5 : d5.cur.length = d.cur.length + 1 := by rw [p2, g4, hlen2]
  obtain ⟨t, t1, -⟩ := hM.trailer
  obtain ⟨t', q1, q2, q3⟩ := f5 t (by rw [(a9 0 (by omega)).2, t1])
  have h0 : (0 : Nat) ∉ l := fun hh => by have := ((b2 0).1 hh).1; omega
  have hz2 : 0 < d2.cur.length := by rw [hlen2]; have := hcat.zero; obtain ⟨e, k, -⟩ := this; exact lt_of_getElem? k
  have htr5 : d5.cache[0]? = some (.dict t') := by rw [(p3 0 h0).2, g3 0 hz2, q1]
  obtain ⟨dl, l1, l2, l3, -, -, t5, tl, t6, t7, t8⟩ := C79_flate_partial hz p1 hw hmin hmax
    (fun n e obj hn he _ htw => hclean n obj hn (by have := lt_of_getElem? he; omega) htw)
    (by
      intro t3 k
      rw [htr5] at k
      cases k
      refine ⟨by rw [q3, if_neg (by decide)], ?_⟩
      unfold Parms
      rw [q2 _ (by decide)]
      exact htr t t1)
    (fun p t c k1 k2 k3 k4 => hx p t c k1 k2 (by rw [hlen5] at k3; exact k3) k4)
  refine ⟨dl, ver, cat', l1, l2, a1, a2, ?_, ?_⟩
  · intro g n e o hn he ho hs
    have hlt : n < d2.cur.length := by rw [hlen2]; exact lt_of_getElem? he
    -- the object with the version raised
    obtain ⟨e1, o1, c1, c2, c3, c4⟩ : ∃ e1 o1, d1.cur[n]? = some (.one e1) ∧ d1.cache[n]? = some o1 ∧
        (o1 = if n = rt then .dict cat' else o) ∧ (n = rt → ∃ c, o = .dict c) := by
      by_cases hnr : n = rt
      · subst hnr
        rw [hcat.obj] at ho
        cases ho
        exact ⟨er', _, a8, a6, by rw [if_pos rfl], fun _ => ⟨_, rfl⟩⟩
      · exact ⟨e, o, by rw [(a9 n hnr).1, he], by rw [(a9 n hnr).2, ho], by rw [if_neg hnr], fun h => absurd h hnr⟩
    have hc2 : d4.cache[n]? = some o1 := by rw [g3 n hlt, (f4 n hn).2, c2]
    obtain ⟨-, e4, k2, -, -⟩ := g2 n e1 o1 hn (by rw [(f4 n hn).1, c1]) (by rw [(f4 n hn).2, c2])
    by_cases hst : ∃ a b x, o = .stream a b x
    · have hnr : n ≠ rt := by
        intro hh
        obtain ⟨c, hc⟩ := c4 hh
        obtain ⟨a, b, x, hst⟩ := hst
        rw [hc] at hst
        cases hst
      rw [if_neg hnr] at c3
      subst c3
      have hmem : n ∈ l := by
        obtain ⟨a, b, x, hst⟩ := hst
        exact (b2 n).2 ⟨hn, e4, a, b, x, k2, by rw [hc2, hst]⟩
      obtain ⟨e5, o', q1, q2, q3, q4⟩ := p4 n hmem o1 hc2
      have hso : isObjStm o' = false := by
        cases q4 with
        | intro _ _ _ _ _ r1 =>
          simp only [isObjStm] at hs ⊢
          rw [r1 _ (by decide) (by decide)]
          exact hs
      obtain ⟨v, -, v2, v3⟩ := l3 g n e5 o' hn q1 q3 hso
      exact ⟨o', v, v2, v3, .inl ⟨hst, q4⟩⟩
    · have hst1 : ¬ ∃ a b x, o1 = .stream a b x := by
        rw [c3]
        split
        · simp
        · exact hst
      have hmem : n ∉ l := by
        intro hh
        obtain ⟨-, e6, a, b, x, -, k⟩ := (b2 n).1 hh
        rw [hc2] at k
        exact hst1 ⟨a, b, x, Option.some.inj k⟩
      have hso : isObjStm o1 = false := by
        cases o1 with
        | stream a b x => exact absurd ⟨a, b, x, rfl⟩ hst1
        | _ => rfl
      obtain ⟨v, -, v2, v3⟩ := l3 g n e4 o1 hn (by rw [(p3 n hmem).1, k2]) (by rw [(p3 n hmem).2, hc2]) hso
      exact ⟨o1, v, v2, v3, .inr ⟨hst, c3⟩⟩
  · rw [htr5] at t6
    cases t6
    refine ⟨t, tl, t1, t7, ?_⟩
    intro k hk hkf
    have := t8 k hk
    rwa [q2 k hkf] at this

theorem strLt_take : ∀ (w : Bytes) (n : Nat), strLt (w.take n) w = false → w.take n = w
  | [], n, _ => by simp
  | a :: w, 0, h => by simp [strLt] at h
  | a :: w, n + 1, h => by
    simp only [List.take_succ_cons, strLt] at h
    have := strLt_take w n (by simpa using h)
    simp [this]

/-- The version of the copy. -/
theorem versionFrom_copy {hv w : Bytes} {cat cat' : Dict} (h3 : hv.length ≤ 3) (h : versionFrom hv cat = .ok w)
    (hs : ∀ v, Dict.get? cat b!"/Version" = some v → ∃ s, v = .str s)
    (hc : Dict.get? cat' b!"/Version" = Dict.get? cat b!"/Version") : versionFrom (w.take 3) cat' = .ok w := by
  unfold versionFrom at h ⊢
  rw [hc]
  rcases hg : Dict.get? cat b!"/Version" with _ | v
  · rw [hg] at h
    cases h
    simp [List.take_of_length_le h3]
  · obtain ⟨s, rfl⟩ := hs v hg
    rw [hg] at h
    simp only [versionOf, bind, Except.bind] at h ⊢
    by_cases hlt : strLt hv (s.drop 1) = true
    · rw [if_pos hlt] at h
      cases h
      by_cases hl2 : strLt ((s.drop 1).take 3) (s.drop 1) = true
      · rw [if_pos hl2]; rfl
      · rw [if_neg hl2, strLt_take _ _ (by simpa using hl2)]; rfl
    · rw [if_neg hlt] at h
      cases h
      rw [List.take_of_length_le h3, if_neg hlt]; rfl

theorem headerVersion_short {d : Doc} {v : Bytes} (h : headerVersion d = .ok v) : v.length ≤ 3 := by
  unfold headerVersion at h
  obtain ⟨⟨b, a0, x, y⟩, -, h⟩ := bind_eq_ok h
  simp only at h
  by_cases ha : a0 < 0
  · rw [if_pos ha] at h; cases h
  · rw [if_neg ha] at h
    split at h
    · cases h
      simp only [slice, List.length_drop, List.length_take]
      omega
    · cases h

/-- A document without pending edit, and its copy by `squash`, in memory. -/
theorem squash_inMemory [Zlib] {d new d' : Doc} {L : List Nat} {f : Ref → Ref} {n : Nat} {root : Obj} (hr : Ranks d L f)
    (h : Squashable d none L f) (hed : Editable new none) (hnL : n ∈ L) (hroot : root = .ref (genOf d n : Int) (n : Int))
    (hN : L.length ≤ 9007199254740992) (h5 : SquashOf d new d' L f root) :
    InMemory new ∧ (∀ (k m : Nat) (o : Obj), L[k]? = some m → (storeOf d).val m = .ok o → new.cache[k + 1]? = some (renumber f o)) ∧
    (∀ e, new.cur[0]? = some (.one e) → e.envNum = none ∧ e.deleted = false) ∧
    ∃ k : Nat, L[k]? = some n ∧ renumber f root = .ref 0 ((k + 1 : Nat) : Int) ∧
      new.cache[0]? = some (.dict [(b!"/Root", .ref 0 ((k + 1 : Nat) : Int))]) := by
  obtain ⟨k, hk⟩ := List.mem_iff_getElem?.1 hnL
  have hren : renumber f root = .ref 0 ((k + 1 : Nat) : Int) := by
    rw [hroot]
    simp only [renumber, hr.rank k n hk]
  have hlen := h5.length
  have hgood := hed.good
  obtain ⟨w, -, hdata, hpd⟩ := h5.version
  have hopen : new.curData.eofCut = none := by rw [hdata]
  obtain ⟨e0, z1, z2⟩ := h5.cells 0 (by omega) |>.1
  have hzero : new.cache[0]? = some (.dict [(b!"/Root", .ref 0 ((k + 1 : Nat) : Int))]) := by
    have := h5.trailer
    have hv := view_zero hed 0
    have hval : (storeOf new).val 0 = view new (.ref 0 (0 : Nat)) := rfl
    rw [hval, hv, hren] at this
    exact cacheAt_ok this
  have hcell : ∀ (m : Nat) (e : Entry), 1 ≤ m → new.cur[m]? = some (.one e) → e.deleted = false ∧ e.envNum = none ∧
      ∃ o, new.cache[m]? = some o ∧ o ≠ .null := by
    intro m e hm he
    have hlt := lt_of_getElem? he
    obtain ⟨e', k1, k2⟩ := (h5.cells m hlt).1
    rw [he] at k1
    cases k1
    refine ⟨k2, hgood.noEmb m e he, ?_⟩
    have hl := hgood.len
    obtain ⟨o, ho⟩ : ∃ o, new.cache[m]? = some o := ⟨_, List.getElem?_eq_getElem (by omega)⟩
    refine ⟨o, ho, ?_⟩
    rintro rfl
    obtain ⟨p, -, -, k3⟩ := hgood.stored m e hm (by simp) he k2 ho
    have := (k3 hopen).1
    rw [he] at this
    unfold prevRev at this
    rw [h5.past] at this
    simp only [List.getElem?_replicate] at this
    rw [if_pos hlt] at this
    cases this
  refine ⟨⟨h5.past, hpd, hopen, hgood.len, ⟨e0, z1, ?_⟩, ⟨_, hzero, ?_, rfl, rfl⟩, hcell⟩, ?_, ?_, k, hk, hren, hzero⟩
  · have := h5.xnum h.first
    unfold firstXrefStreamNum Doc.firstRev at this
    rw [h5.past] at this
    simp only [List.getLastD_nil] at this
    rw [slotAt_eq z1] at this
    simpa [bind, Except.bind, pure, Except.pure] using this
  · have := lt_of_getElem? hk
    simp only [WF, WFEntries]
    simp
    refine ⟨by decide, ?_⟩
    omega
  · intro j m o hj ho
    have hlt : j + 1 < new.cur.length := by rw [hlen]; have := lt_of_getElem? hj; omega
    obtain ⟨e, k1, k2⟩ := (h5.cells (j + 1) hlt).1
    obtain ⟨-, -, o', k3, k4⟩ := hcell (j + 1) e (by omega) k1
    have hv := view_cached k1 (by simp [Slot.isDeleted, k2]) k3 k4 0
    have := h5.objects j m hj
    rw [ho] at this
    have hval : (storeOf new).val (j + 1) = view new (.ref 0 (j + 1 : Nat)) := rfl
    rw [hval, hv] at this
    cases this
    exact k3
  · intro e he
    rw [z1] at he
    cases he
    exact ⟨hgood.noEmb 0 e0 z1, z2⟩

/-- **C80.** `compress` on a document whose objects are not in object streams, that has no cross-reference stream, and where
the objects are within C01 and C69: the compressed document, written and loaded again, has the objects of the document, at
their new numbers. Streams have the same data, under /FlateDecode; the others are the same, but that the catalog has the
version 1.5 if it was lower. The trailer leads to the catalog. -/
theorem C80_compress_partial [Zlib] (hz : ZlibLaw) {d dc dw : Doc} {L : List Nat} {f : Ref → Ref} {out : Bytes} (hd : Editable d none)
    (hr : Ranks d L f) (h : Squashable d none L f) (hN : L.length ≤ 9007199254740992)
    (hobj : ∀ n ∈ L, ∀ o, view d (.ref 0 (n : Nat)) = .ok o → Compressible (renumber f o))
    (hc : compress d = .ok dc) (hw : writeFile dc = .ok (out, dw)) (hmin : 100 ≤ out.length) (hmax : out.length < 10 ^ 80)
    (hclean : ∀ (n : Nat) (obj : Obj), 1 ≤ n → n ≤ L.length + 1 → ToWrite dc.cache n obj → Storable obj)
    (hx : ∀ p t content, XrefContent t content → fileEnd p <:+ out →
      PointsAt out p (L.length + 2) 0 (.stream t content (Zlib.compress content)) →
      (∃ t', dc.cache[0]? = some (.dict t') ∧ Dict.get? t b!"/W" = Dict.get? t' b!"/W") → Clean (Zlib.compress content)) :
    ∃ (dl : Doc) (ver : Bytes) (kr rt : Nat) (cat cat' : Dict), loads out = .ok dl ∧ Coherent dl ∧
      (version d).map Prod.fst = .ok ver ∧
      (∃ t, view d (.ref 0 (0 : Nat)) = .ok (.dict t) ∧ Dict.get? t b!"/Root" = some (.ref (genOf d rt : Int) (rt : Int))) ∧
      L[kr]? = some rt ∧ view d (.ref 0 rt) = .ok (.dict cat) ∧
      Raised ver (renumberEntries f cat) cat' ∧
      (∃ tl, dl.cache[0]? = some (.dict tl) ∧ Dict.get? tl b!"/Root" = some (.ref 0 ((kr + 1 : Nat) : Int))) ∧
      ∀ (k n : Nat) (o : Obj), L[k]? = some n → view d (.ref 0 n) = .ok o → isObjStm o = false →
        ∃ o' v, view dl (.ref 0 ((k + 1 : Nat) : Int)) = .ok v ∧ pyEq o' v = true ∧
          ((∃ a b x, o = .stream a b x) ∧ Refiltered b!"/FlateDecode" (renumber f o) o' ∨
            (¬ ∃ a b x, o = .stream a b x) ∧ o' = if n = rt then .dict cat' else renumber f o) := by
  obtain ⟨new, d', t, root, s1, s2, s3, s4, s5⟩ := squash_spec hd hr h
  have s2 : Editable new none := s2
  obtain ⟨t', rt, cat, r1, r2, r3, r4, r5⟩ := h.root
  rw [s3] at r1
  cases r1
  rw [s4] at r3
  cases r3
  obtain ⟨hM, m1, m2, kr, m3, m4, m5⟩ := squash_inMemory hr h s2 r2 rfl hN s5
  have hcat : CatalogAt new (kr + 1) (renumberEntries f cat) := by
    have hlt : kr + 1 < new.cur.length := by rw [s5.length]; have := lt_of_getElem? m3; omega
    refine ⟨by omega, ?_, ⟨_, _, m5, rfl⟩, (s5.cells _ hlt).1, ?_⟩
    · exact (s5.cells 0 (by omega)).1
    · exact m1 kr rt _ m3 r4
  unfold compress at hc
  rw [s1] at hc
  simp only [bind, Except.bind, orRaise] at hc
  rcases h1 : raiseVersion new with er | d1 <;> rw [h1] at hc
  · cases hc
  simp only at hc
  rcases h2 : forceXrefStream d1 false b!"/FlateDecode" with er | d2 <;> rw [h2] at hc
  · cases hc
  simp only at hc
  rcases h3 : groupAll d2 with er | d3 <;> rw [h3] at hc
  · cases hc
  simp only at hc
  rcases h4 : listStreams d3 with er | ⟨l, d4⟩ <;> rw [h4] at hc
  · cases hc
  simp only at hc
  rcases h5 : applyFilter b!"/FlateDecode" l d4 with er | d5 <;> rw [h5] at hc
  · cases hc
  simp only at hc
  have hdw : dw = dc := by
    have := (writeFile_inv hw).1
    rw [C21_idempotent d5 dc hc] at this
    cases this
    rfl
  subst hdw
  rw [C21_write d5 dw hc] at hw
  have hback : ∀ (n : Nat) (o : Obj), 1 ≤ n → n < new.cur.length → new.cache[n]? = some o →
      ∃ k m v, n = k + 1 ∧ L[k]? = some m ∧ (storeOf d).val m = .ok v ∧ o = renumber f v := by
    intro n o hn hlt ho
    rw [s5.length] at hlt
    have hk : L[n - 1]? = some (L[n - 1]'(by omega)) := List.getElem?_eq_getElem (by omega)
    obtain ⟨v, hv, -⟩ := h.vals _ (List.mem_of_getElem? hk)
    refine ⟨n - 1, _, v, by omega, hk, hv, ?_⟩
    have := m1 _ _ _ hk hv
    rw [show n - 1 + 1 = n by omega, ho] at this
    exact Option.some.inj this
  obtain ⟨dl, ver, cat', l1, l2, l3, l4, l5, tn, tl, l6, l7, l8⟩ := compress_core hz hM hcat (fun e he => (m2 e he).1)
    (by
      intro n e o hn he ho
      obtain ⟨k, m, v, -, k2, k3, rfl⟩ := hback n o hn (lt_of_getElem? he) ho
      exact hobj m (List.mem_of_getElem? k2) v k3)
    h1 h2 h3 h4 h5 hw hmin hmax (fun n obj a b c => hclean n obj a (by rw [s5.length] at b; exact b) c)
    (by intro t0 k; rw [m5] at k; cases k; exact Or.inl rfl)
    (fun p t c k1 k2 k3 k4 => hx p t c k1 k2 (by rw [s5.length] at k3; exact k3) k4)
  refine ⟨dl, ver, kr, rt, cat, cat', l1, l2, ?_, ⟨t, s3, s4⟩, m3, r4, l4, ⟨tl, l7, ?_⟩, ?_⟩
  · obtain ⟨w, w1, w2, w3⟩ := s5.version
    obtain ⟨hv, q1⟩ := h.header
    obtain ⟨e0, z1, z2⟩ := hd.zero
    have ht : d.cache[0]? = some (.dict t) := by
      have hval : (storeOf d).val 0 = view d (.ref 0 (0 : Nat)) := rfl
      rw [hval, view_zero hd 0] at s3
      exact cacheAt_ok s3
    have hve := version_eq q1 z1 z2 ht s4 (cat := cat) r4
    rw [w1] at hve
    have hve2 := versionFrom_copy (cat' := renumberEntries f cat) (headerVersion_short q1) hve.symm r5 (by
      rw [renumberEntries_get]
      rcases hg : Dict.get? cat b!"/Version" with _ | v
      · rfl
      · obtain ⟨s, rfl⟩ := r5 v hg
        rfl)
    obtain ⟨n0, y1, y2⟩ := hcat.zero
    obtain ⟨nr, y3, y4⟩ := hcat.live
    have hhv : headerVersion new = .ok (w.take 3) := by
      have hl3 := l3
      unfold version at hl3
      obtain ⟨hv', hh, -⟩ := bind_eq_ok hl3
      rw [hh]
      unfold headerVersion Doc.firstData at hh
      rw [w3, w2] at hh
      simp only [List.getLastD_nil, Provider.read] at hh
      rw [if_neg (by simp)] at hh
      simp only [show ¬ ((3 : Int) = -1) by omega, show ¬ ((5 : Int) = -1) by omega, if_false, bind, Except.bind] at hh
      rw [if_neg (by omega)] at hh
      have hsl : slice (b!"%PDF-" ++ w) (Int.toNat 5) (Int.toNat 5 + 3) = w.take 3 := by
        simp [slice]
      rw [hsl] at hh
      split at hh
      · exact hh.symm ▸ rfl
      · cases hh
    have hnv := version_eq hhv y1 (by simp [Slot.isDeleted, y2]) m5 rfl (cat := renumberEntries f cat)
      (view_cached y3 (by simp [Slot.isDeleted, y4]) hcat.obj (by simp) 0)
    rw [hve2, l3] at hnv
    have : ver = w := Except.ok.inj hnv
    rw [this]
    exact w1
  · rw [m5] at l6
    cases l6
    have := l8 b!"/Root" (by unfold FileKey MovingKey XrefKey; decide) (by decide)
    have hg : Dict.get? [(b!"/Root", Obj.ref 0 ((kr + 1 : Nat) : Int))] b!"/Root" = some (Obj.ref 0 ((kr + 1 : Nat) : Int)) := rfl
    rw [hg] at this
    rcases hq : Dict.get? tl b!"/Root" with _ | b
    · rw [hq] at this
      exact absurd this (by simp [SameOpt])
    · rw [hq] at this
      rcases this with rfl | this
      · rfl
      · simp only [pyEq, decide_eq_true_eq] at this
        rw [this]
  · intro k n o hk ho hs
    have hlt : k + 1 < new.cur.length := by rw [s5.length]; have := lt_of_getElem? hk; omega
    obtain ⟨e, q1, -⟩ := (s5.cells (k + 1) hlt).1
    have hstm : (∃ a b x, renumber f o = .stream a b x) ↔ ∃ a b x, o = .stream a b x := by
      cases o <;> simp [renumber]
    obtain ⟨o', v, u1, u2, u3⟩ := l5 0 (k + 1) e (renumber f o) (by omega) q1 (m1 k n o hk ho) (by
      cases o <;> simp only [renumber, isObjStm] at hs ⊢
      rename_i a b x
      rw [renumberEntries_get]
      rcases hg : Dict.get? a b!"/Type" with _ | v
      · rfl
      · rw [hg] at hs
        cases v <;> simp_all [renumber])
    refine ⟨o', v, u1, u2, ?_⟩
    rw [hstm] at u3
    have hiff : (k + 1 = kr + 1) ↔ n = rt := by
      have hlk := lt_of_getElem? hk
      have hlr := lt_of_getElem? m3
      have hsort := hr.sorted
      rw [List.pairwise_iff_getElem] at hsort
      rw [List.getElem?_eq_getElem hlk] at hk
      rw [List.getElem?_eq_getElem hlr] at m3
      have hk := Option.some.inj hk
      have hm := Option.some.inj m3
      constructor
      · intro hh
        have : k = kr := by omega
        subst this
        rw [← hk, hm]
      · intro hh
        rcases Nat.lt_trichotomy k kr with hlt | heq | hgt
        · have := hsort k kr hlk hlr hlt; omega
        · omega
        · have := hsort kr k hlr hlk hgt; omega
    simpa only [hiff] using u3

/-! ### A document -/

/-- A compressor that stores. -/
@[reducible] def storedZlib : Zlib := ⟨id, some⟩

theorem storedZlib_law : @ZlibLaw storedZlib := fun _ => rfl

/-- The document of C37, with a longer stream. -/
def compObjs : List Obj :=
  [.dict [(b!"/Root", .ref 0 2)], .null,
   .dict [(b!"/Type", .str b!"/Catalog"), (b!"/Pages", .ref 0 4)],
   .stream [(b!"/Length", .int 200)] (List.replicate 200 65) (List.replicate 200 65),
   .dict [(b!"/Kids", .list [.ref 0 5]), (b!"/Count", .int 1)],
   .dict [(b!"/Parent", .ref 0 4), (b!"/Contents", .ref 0 3)]]

theorem compObjs_ranks : Ranks (gapDoc compObjs) [2, 3, 4, 5] (fun r => (0, r.2 - 1)) := by
  refine ⟨by decide, ?_, ?_⟩
  · intro n
    rw [gapDoc_live]
    constructor
    · intro hn
      simp only [List.mem_cons, List.not_mem_nil, or_false] at hn
      rcases hn with rfl | rfl | rfl | rfl <;> exact ⟨by omega, _, rfl, by simp⟩
    · rintro ⟨h1, o, h2, h3⟩
      have hlt : n < 6 := lt_of_getElem? h2
      have : n ≠ 1 := by
        rintro rfl
        cases h2
        exact h3 rfl
      simp only [List.mem_cons, List.not_mem_nil, or_false]
      omega
  · intro k n hk
    have hlt : k < 4 := lt_of_getElem? hk
    rw [gapDoc_gen]
    rcases k with _ | _ | _ | _ | k <;> simp at hk <;> first | (subst hk; rfl) | omega

theorem compObjs_squashable [Zlib] :
    Squashable (gapDoc compObjs) none [2, 3, 4, 5] (fun r => (0, r.2 - 1)) := by
  have hval : ∀ n o, compObjs[n]? = some o → (storeOf (gapDoc compObjs)).val n = .ok o :=
    fun n o h => gapDoc_view h 0
  refine ⟨?_, rfl, ?_, ⟨b!"1.4", rfl⟩, ?_, Or.inl rfl⟩
  · intro n hn
    rw [gapDoc_cur]
    have hn : n < 6 := hn
    have : compObjs[n]? = some (compObjs[n]'hn) := List.getElem?_eq_getElem hn
    rw [this]
    exact ⟨_, rfl, rfl⟩
  · have hd : ∀ v : Obj, (∀ r ∈ deepRefCollect [] v, r.1 = 0 ∧ r.2.toNat ∈ [2, 3, 4, 5] ∧ 0 ≤ r.2) →
        NoDangling (gapDoc compObjs) [2, 3, 4, 5] v := by
      intro v hv r hr
      obtain ⟨h1, h2, h3⟩ := hv r (occurs_collect.1 hr)
      refine ⟨_, h2, ?_⟩
      rw [gapDoc_gen]
      apply Prod.ext
      · exact h1
      · simp only
        omega
    intro n hn
    simp only [List.mem_cons, List.not_mem_nil, or_false] at hn
    rcases hn with rfl | rfl | rfl | rfl
    · exact ⟨_, hval 2 _ rfl, by simp, hd _ (by decide), Or.inl (noStream_check rfl)⟩
    · refine ⟨_, hval 3 _ rfl, by simp, hd _ (by decide), Or.inr ⟨_, _, _, rfl, ?_⟩⟩
      intro r hr
      exact absurd (occurs_collect.1 hr) (by simp [deepRefCollect, deepRefCollectEntries])
    · exact ⟨_, hval 4 _ rfl, by simp, hd _ (by decide), Or.inl (noStream_check rfl)⟩
    · exact ⟨_, hval 5 _ rfl, by simp, hd _ (by decide), Or.inl (noStream_check rfl)⟩
  · refine ⟨_, 2, _, hval 0 _ rfl, by simp, ?_, hval 2 _ rfl, ?_⟩
    · rw [gapDoc_gen]; rfl
    · intro v hv
      cases hv

/-- Every hypothesis of `C80_compress_partial` that is about results of the functions. -/
def compTest [Zlib] : Bool :=
  match compress (gapDoc compObjs) with
  | .ok dc => match writeFile dc with
    | .ok (out, _) => decide (100 ≤ out.length) && decide (out.length < 1000) && widthB dc.cache &&
      (List.range 6).all fun n => n == 0 || match dc.cache[n]? with
        | some o => if isObjStm o then
            match finalizeStream o with
            | .ok obj => storableB obj
            | .error _ => true
          else storableB o
        | none => true
    | .error _ => false
  | .error _ => false

theorem compTest_true : @compTest storedZlib = true := by kernel_rfl

/-- The hypotheses can be met. -/
example : letI := storedZlib
    ∃ dc dw out dl v, compress (gapDoc compObjs) = .ok dc ∧ writeFile dc = .ok (out, dw) ∧ loads out = .ok dl ∧
      view dl (.ref 0 4) = .ok v ∧ pyEq (.dict [(b!"/Parent", .ref 0 3), (b!"/Contents", .ref 0 2)]) v = true := by
  letI := storedZlib
  have h := compTest_true
  unfold compTest at h
  split at h
  · rename_i dc h1
    split at h
    · rename_i out dw h2
      simp only [Bool.and_eq_true, decide_eq_true_eq] at h
      obtain ⟨⟨⟨k1, k2⟩, k3⟩, k4⟩ := h
      rw [List.all_eq_true] at k4
      obtain ⟨dl, ver, kr, rt, cat, cat', l1, -, -, ⟨t, l4, l5⟩, -, -, -, -, l8⟩ := C80_compress_partial storedZlib_law (gapDoc_editable rfl) compObjs_ranks
        compObjs_squashable (by decide) (by
          intro n hn o ho
          simp only [List.mem_cons, List.not_mem_nil, or_false] at hn
          rcases hn with rfl | rfl | rfl | rfl
          · rw [gapDoc_view (objs := compObjs) (n := 2) rfl 0] at ho
            cases ho
            exact .inl ⟨by decide, by simp [renumber]⟩
          · rw [gapDoc_view (objs := compObjs) (n := 3) rfl 0] at ho
            cases ho
            exact .inr (.intro _ _ _ (.inl ⟨by decide, by decide⟩) (.inl (by decide)) rfl)
          · rw [gapDoc_view (objs := compObjs) (n := 4) rfl 0] at ho
            cases ho
            exact .inl ⟨by decide, by simp [renumber]⟩
          · rw [gapDoc_view (objs := compObjs) (n := 5) rfl 0] at ho
            cases ho
            exact .inl ⟨by decide, by simp [renumber]⟩) h1 h2 k1 (by
          have : (1000 : Nat) ≤ 10 ^ 80 := by decide
          omega) (by
          intro n obj hn hlt ⟨o, o1, o2⟩
          have := k4 n (List.mem_range.2 (by simp only [List.length_cons, List.length_nil] at hlt; omega))
          rw [o1] at this
          simp only [Bool.or_eq_true, beq_iff_eq] at this
          rcases this with k | k
          · omega
          · split at o2
            · rename_i hs
              rw [if_pos hs, o2] at k
              exact storable_of_test k
            · rename_i hs
              rw [if_neg hs] at k
              subst o2
              exact storable_of_test k) (by
          intro p t content hc _ _ ⟨t', w1, w2⟩
          refine xrefContent_clean hc ?_
          intro b hb
          rw [w2] at hb
          unfold widthB at k3
          rw [w1] at k3
          simp only [hb] at k3
          split at k3
          · rename_i heq
            cases heq
            decide
          · cases k3)
      obtain ⟨o', v, v1, v2, v3⟩ := l8 3 5 _ rfl (gapDoc_view (objs := compObjs) (n := 5) rfl 0) rfl
      rcases v3 with ⟨⟨a, b, x, hh⟩, -⟩ | ⟨-, hh⟩
      · cases hh
      · have hrt : (5 : Nat) ≠ rt := by
          rintro rfl
          rw [gapDoc_view (objs := compObjs) (n := 0) rfl 0] at l4
          cases l4
          simp only [Dict.get?] at l5
          simp at l5
        rw [if_neg hrt] at hh
        subst hh
        exact ⟨dc, dw, out, dl, v, h1, h2, l1, v1, v2⟩
    · cases h
  · cases h

/-! ### What compression loses -/

/-- What a document shows once compressed, written and loaded: the catalog, and the object `n`. -/
def afterwards [Zlib] (d : Doc) (n : Nat) : Option (Obj × Obj) :=
  match compress d with
  | .ok dc => match writeFile dc with
    | .ok (out, _) => match loads out with
      | .ok dl => match catalog dl, view dl (.ref 0 n) with
        | .ok (cat, _, _), .ok o => some (cat, o)
        | _, _ => none
      | .error _ => none
    | .error _ => none
  | .error _ => none

/-- A document with a cross-reference stream (the object 4), and a number that is not in use before it. -/
def staleDoc : Doc :=
  let d := gapDoc [.dict [(b!"/Root", .ref 0 5)], .null, .str b!"/A", .str b!"/B", .stream [(b!"/Type", .str b!"/XRef")] [] [],
    .dict [(b!"/Type", .str b!"/Catalog"), (b!"/Pages", .ref 0 2)],
    .stream [(b!"/Length", .int 200)] (List.replicate 200 65) (List.replicate 200 65)]
  { d with cur := d.cur.set 0 (.one { num := 0, xrefStreamNum := some 4 }) }

/-- **C80 is false of the code** for a document with a cross-reference stream: the number of that stream is kept, and in the
new numbering it is that of the catalog here, which is not written. The cross-reference stream is in its place. -/
theorem C80_stale_counterexample : letI := storedZlib
    (catalog staleDoc).map Prod.fst = .ok (.dict [(b!"/Type", .str b!"/Catalog"), (b!"/Pages", .ref 0 2)]) ∧
    (afterwards staleDoc 1).map (fun x => match x.1 with
      | .stream e _ _ => Dict.get? e b!"/Type"
      | _ => none) = some (some (.str b!"/XRef")) := by
  refine ⟨?_, ?_⟩ <;> kernel_rfl

/-- An image is lost: its bytes are replaced by a message. -/
theorem C80_image_counterexample : letI := storedZlib
    let jpeg : Bytes := List.replicate 200 65
    let image := Obj.stream [(b!"/Filter", .str b!"/DCTDecode"), (b!"/Length", .int 200)] errUnsupported jpeg
    (afterwards (gapDoc (compObjs.set 3 image)) 2).map (fun x => match x.2 with
      | .stream e data enc => (Dict.get? e b!"/Filter", data, enc)
      | _ => (none, [], [])) = some (some (.str b!"/FlateDecode"), errUnsupported, errUnsupported) := by
  intro jpeg image
  kernel_rfl

/-- A document with an array of filters cannot be compressed. -/
theorem C80_array_counterexample [Zlib] :
    (compress (gapDoc (compObjs.set 3 (.stream [(b!"/Filter", .list [.str b!"/ASCIIHexDecode"])] b!"AB" b!"4142")))).map
      (fun d => d.cur.length) = .error .attributeError := by
  kernel_rfl

end Pdf
