/-
C20: the original bytes are never altered by writing.
-/
import Verif.Props.C23_Map
import Verif.Spec.History

namespace Pdf
open Spec

/-- The data records of a document that comes from the file `B`, whose last revision ends at `cut`: first
those of the file, then those of the new revisions. -/
def FromFile (B : Bytes) (cut : Nat) (d : Doc) : Prop :=
  d.past.length = d.pastData.length ∧ ∃ F E, d.data = F ++ E ∧ F ≠ [] ∧
    (∀ x ∈ F, x.fdata = .single B ∧ x.eofCut.isSome = true) ∧
    (F.getLast?.bind (·.eofCut)) = some cut ∧ (∀ x ∈ E, x.eofCut = none) ∧
    ∀ x ∈ E.dropLast, x.bdata.isSome = true

theorem data_inj {a b : List Data} {x y : Data} (h : a.reverse ++ [x] = b.reverse ++ [y]) :
    a = b ∧ x = y := by
  have := List.append_inj' h rfl
  exact ⟨List.reverse_inj.1 this.1, by simpa using this.2⟩

theorem fromFile_edit {B : Bytes} {cut : Nat} {d d' : Doc} (h : FromFile B cut d)
    (h1 : d'.past.length = d.past.length) (h2 : d'.data = d.data) : FromFile B cut d' := by
  obtain ⟨f1, F, E, f2⟩ := h
  have : d'.pastData = d.pastData := (data_inj h2).1
  exact ⟨by rw [h1, this, f1], F, E, by rw [h2]; exact f2.1, f2.2⟩

/-- The data record of the revision that is closed by a commit. -/
theorem commit_data [Zlib] {d d' : Doc} (h : commit d = .ok d') :
    d' = d ∨ ∃ data, d'.past.length = d.past.length + 1 ∧ d'.pastData = data :: d.pastData ∧
      d'.curData = { fdata := data.fdata } ∧ data.eofCut = d.curData.eofCut ∧
      (d.curData.eofCut.isSome = true → data = d.curData) ∧
      (d.curData.eofCut = none → data.bdata.isSome = true) := by
  by_cases hch : changes d = []
  · rw [C21_noop d hch] at h
    cases h
    exact .inl rfl
  right
  obtain ⟨p, cur, cache, data, t0, t1, h1, h2, h3, h4, rfl⟩ := commit_inv h hch
  refine ⟨data, rfl, rfl, rfl, ?_⟩
  unfold writeRevision at h2
  split at h2
  · rename_i cut hcut
    simp only [Except.ok.injEq, Prod.mk.injEq] at h2
    obtain ⟨rfl, rfl, rfl⟩ := h2
    exact ⟨rfl, fun _ => rfl, fun hh => by rw [hcut] at hh; cases hh⟩
  · rename_i hcut
    split at h2
    · obtain ⟨⟨v, dv⟩, -, h2⟩ := bind_eq_ok h2
      obtain ⟨⟨new, cur', cache'⟩, hb, h2⟩ := bind_eq_ok h2
      simp only [Except.ok.injEq, Prod.mk.injEq] at h2
      obtain ⟨rfl, rfl, rfl⟩ := h2
      refine ⟨rfl, ?_, fun _ => rfl⟩
      intro hh
      rw [hcut] at hh
      cases hh
    · obtain ⟨idx, hidx, h2⟩ := bind_eq_ok h2
      obtain ⟨⟨new, cur', cache'⟩, hb, h2⟩ := bind_eq_ok h2
      simp only [Except.ok.injEq, Prod.mk.injEq] at h2
      obtain ⟨rfl, rfl, rfl⟩ := h2
      refine ⟨rfl, ?_, fun _ => rfl⟩
      intro hh
      rw [hcut] at hh
      cases hh

theorem fromFile_commit [Zlib] {B : Bytes} {cut : Nat} {d d' : Doc} (h : FromFile B cut d)
    (hc : commit d = .ok d') : FromFile B cut d' := by
  rcases commit_data hc with rfl | ⟨data, c1, c2, c3, c4, c5, c6⟩
  · exact h
  obtain ⟨f1, F, E, f2, f3, f4, f5, f6, f7⟩ := h
  refine ⟨by rw [c1, c2, f1]; rfl, ?_⟩
  have hdata' : d'.data = d.pastData.reverse ++ [data] ++ [{ fdata := data.fdata }] := by
    simp [Doc.data, c2, c3]
  rcases List.eq_nil_or_concat E with rfl | ⟨E0, last, rfl⟩
  · -- the current record is one of the file
    rw [List.append_nil] at f2
    refine ⟨F, [{ fdata := data.fdata }], ?_, f3, f4, f5, by simp, by simp⟩
    rw [hdata']
    congr 1
    rw [← f2]
    unfold Doc.data
    congr 2
    have hm : d.curData ∈ F := by rw [← f2]; simp [Doc.data]
    exact c5 (f4 _ hm).2
  · have hE : d.pastData.reverse = F ++ E0 ∧ d.curData = last := by
      unfold Doc.data at f2
      rw [List.concat_eq_append, ← List.append_assoc] at f2
      have := List.append_inj' f2 rfl
      exact ⟨this.1, by simpa using this.2⟩
    have hlast : d.curData.eofCut = none := by
      rw [hE.2]
      exact f6 last (by simp)
    refine ⟨F, E0 ++ [data] ++ [{ fdata := data.fdata }], ?_, f3, f4, f5, ?_, ?_⟩
    · rw [hdata', hE.1]
      simp
    · intro x hx
      simp only [List.mem_append, List.mem_singleton] at hx
      rcases hx with (hx | rfl) | rfl
      · exact f6 x (by simp [hx])
      · rw [c4, hlast]
      · rfl
    · intro x hx
      rw [List.dropLast_concat] at hx
      simp only [List.mem_append, List.mem_singleton] at hx
      rcases hx with hx | rfl
      · exact f7 x (by simpa using hx)
      · exact c6 hlast

theorem mapM_mem {α β : Type} {f : α → Py β} : ∀ {l : List α} {r : List β}, l.mapM f = .ok r →
    r.length = l.length ∧ ∀ y ∈ r, ∃ x ∈ l, f x = .ok y
  | [], r, h => by
    cases h
    simp
  | a :: l, r, h => by
    rw [List.mapM_cons] at h
    obtain ⟨b, h1, h⟩ := bind_eq_ok h
    obtain ⟨bs, h2, h⟩ := bind_eq_ok h
    cases h
    obtain ⟨i1, i2⟩ := mapM_mem h2
    refine ⟨by simp [i1], ?_⟩
    intro y hy
    rcases List.mem_cons.1 hy with rfl | hy
    · exact ⟨a, by simp, h1⟩
    · obtain ⟨x, hx, hfx⟩ := i2 y hy
      exact ⟨x, by simp [hx], hfx⟩

/-- A document that has just been loaded. -/
theorem initialDoc_fromFile [Zlib] {B : Bytes} {d : Doc} (h : initialDoc (.single B) = .ok d) :
    ∃ cut p : Nat, FromFile B cut d ∧ eofCut p (.single B) = .ok cut ∧
      d.curData.eofCut = some cut := by
  unfold initialDoc at h
  obtain ⟨size, -, h⟩ := bind_eq_ok h
  obtain ⟨secs, -, h⟩ := bind_eq_ok h
  obtain ⟨⟨nxt, nb⟩, -, h⟩ := bind_eq_ok h
  obtain ⟨cols, -, h⟩ := bind_eq_ok h
  obtain ⟨revs, -, h⟩ := bind_eq_ok h
  obtain ⟨datas, hd, h⟩ := bind_eq_ok h
  obtain ⟨m1, m2⟩ := mapM_mem hd
  have hfile : ∀ x ∈ datas, x.fdata = .single B ∧ ∃ cut p : Nat, x.eofCut = some cut ∧
      eofCut p (.single B) = .ok cut := by
    intro x hx
    obtain ⟨rev, -, hr⟩ := m2 x hx
    unfold fileData at hr
    split at hr
    · rename_i e he
      obtain ⟨p, -, hr⟩ := bind_eq_ok hr
      obtain ⟨p', -, hr⟩ := bind_eq_ok hr
      obtain ⟨cut, hc, hr⟩ := bind_eq_ok hr
      cases hr
      exact ⟨rfl, cut, p', rfl, hc⟩
    · cases hr
  split at h
  · rename_i cur past d0 ds hcur
    obtain ⟨cache, -, h⟩ := bind_eq_ok h
    cases h
    obtain ⟨-, cut, p, q1, q2⟩ := hfile d0 (by simp)
    refine ⟨cut, p, ⟨?_, ds.reverse ++ [d0], [], by simp [Doc.data], by simp, ?_, ?_, by simp, by simp⟩,
      q2, q1⟩
    · have : (revs.map List.dropLast).length = past.length + 1 := by rw [hcur]; rfl
      simp only [List.length_map] at this
      simp only [List.length_cons] at m1
      simp only
      omega
    · intro x hx
      simp only [List.mem_append, List.mem_reverse, List.mem_singleton] at hx
      obtain ⟨g1, cut', p', g2, -⟩ := hfile x (by
        rcases hx with hx | rfl
        · simp [hx]
        · simp)
      exact ⟨g1, by rw [g2]; rfl⟩
    · simp [q1]
  · cases h

theorem leadingCuts_append : ∀ (F E : List Data), F ≠ [] → (∀ x ∈ F, x.eofCut.isSome = true) →
    (∀ x ∈ E, x.eofCut = none) →
    leadingCuts (F ++ E) = (F.length, F.getLast?.bind (·.eofCut))
  | [], _, h, _, _ => absurd rfl h
  | a :: F, E, _, h1, h2 => by
    obtain ⟨c, hc⟩ := Option.isSome_iff_exists.1 (h1 a (by simp))
    cases F with
    | nil =>
      cases E with
      | nil => simp [leadingCuts, hc]
      | cons e E => simp [leadingCuts, hc, h2 e (by simp)]
    | cons b F =>
      have ih := leadingCuts_append (b :: F) E (by simp) (fun x hx => h1 x (by simp [hx])) h2
      rw [List.cons_append, leadingCuts, hc]
      simp only
      rw [ih]
      have : ((b :: F).getLast?.bind (·.eofCut)).isSome = true := by
        rw [List.getLast?_eq_some_getLast (by simp)]
        exact h1 _ (by simp [List.getLast_mem])
      obtain ⟨c', hc'⟩ := Option.isSome_iff_exists.1 this
      rw [hc']
      simp only [Option.getD_some, List.length_cons, Prod.mk.injEq, true_and]
      rw [← hc', List.getLast?_cons_cons]

/-- **C20.** Whatever commits and edits of any kind are applied to a document loaded from the bytes `B`,
the bytes produced by `writefile` are the bytes of `B` up to the end of its last revision (the cut computed
by `eof_cut` at loading), followed by the bytes of the new revisions, oldest first. -/
theorem C20_prefix [Zlib] (B out : Bytes) (d0 d d' : Doc) (hl : loads B = .ok d0)
    (hh : History d0 d) (hw : writeFile d = .ok (out, d')) :
    ∃ (di : Doc) (cut p : Nat), initialDoc (.single B) = .ok di ∧ di.curData.eofCut = some cut ∧
      eofCut p (.single B) = .ok cut ∧
      ∃ frags : List Bytes, out = B.take cut ++ frags.flatten ∧
        (d'.pastData.reverse.filter (·.eofCut.isNone)).map (·.bdata) = frags.map some := by
  unfold loads docConstructor at hl
  obtain ⟨di, hi, hc⟩ := bind_eq_ok hl
  obtain ⟨cut, p, hf, hp, hcut⟩ := initialDoc_fromFile hi
  have hall : FromFile B cut d := by
    have h0 : FromFile B cut d0 := fromFile_commit hf hc
    clear hw
    induction hh with
    | start => exact h0
    | edit _ h1 h2 ih => exact fromFile_edit ih h1 h2
    | commit _ h1 ih => exact fromFile_commit ih h1
  refine ⟨di, cut, p, hi, hcut, hp, ?_⟩
  unfold writeFile at hw
  obtain ⟨d1, h1, hw⟩ := bind_eq_ok hw
  obtain ⟨g1, F, E, f2, f3, f4, f5, f6, f7⟩ := fromFile_commit hall h1
  have hlen : d1.data.length = d1.past.length + 1 := by simp [Doc.data, g1]
  have hfirst : d1.firstData.fdata = .single B := by
    have hm : d1.firstData ∈ F := by
      obtain ⟨a, F', rfl⟩ := List.exists_cons_of_ne_nil f3
      have : d1.data.head? = some d1.firstData := by
        unfold Doc.data Doc.firstData
        rcases hpd : d1.pastData.reverse with _ | ⟨b, l⟩
        · have : d1.pastData = [] := by simpa using hpd
          simp [this]
        · have : d1.pastData = l.reverse ++ [b] := by
            rw [← List.reverse_reverse d1.pastData, hpd]
            simp
          simp [this]
      rw [f2] at this
      simp only [List.cons_append, List.head?_cons, Option.some.injEq] at this
      rw [← this]
      simp
    exact (f4 _ hm).1
  simp only at hw
  rw [List.take_of_length_le (by omega), f2, leadingCuts_append F E f3 (fun x hx => (f4 x hx).2) f6,
    f5, hfirst] at hw
  simp only [Provider.read] at hw
  split at hw
  · cases hw
  rename_i hB
  simp only [bind, Except.bind] at hw
  have hz : ((0 : Int) + (B.length : Int)) % (B.length : Int) = 0 := by simp
  rw [hz] at hw
  simp only [Int.lt_irrefl, if_false, Int.toNat_zero] at hw
  rcases hfr : allFragments (List.take (d1.past.length + 1 - 1 - F.length) (List.drop F.length (F ++ E)))
    with e | rest
  · rw [hfr] at hw
    cases hw
  rw [hfr] at hw
  simp only [pure, Except.pure, Except.ok.injEq, Prod.mk.injEq] at hw
  obtain ⟨rfl, rfl⟩ := hw
  rw [List.drop_left] at hfr
  have hEl : d1.past.length + 1 - 1 - F.length = E.length - 1 := by
    have : d1.data.length = F.length + E.length := by rw [f2]; simp
    omega
  rw [hEl] at hfr
  have hEd : List.take (E.length - 1) E = E.dropLast := by rw [List.dropLast_eq_take]
  rw [hEd] at hfr
  have hin : d1.pastData.reverse.filter (·.eofCut.isNone) = E.dropLast := by
    have hF : ∀ l : List Data, (∀ x ∈ l, x ∈ F) → l.filter (·.eofCut.isNone) = [] := by
      intro l hl
      rw [List.filter_eq_nil_iff]
      intro x hx
      have := (f4 x (hl x hx)).2
      cases hc : x.eofCut <;> simp [hc] at this ⊢
    rcases List.eq_nil_or_concat E with rfl | ⟨E0, last, rfl⟩
    · rw [List.append_nil] at f2
      apply hF
      intro x hx
      rw [← f2]
      simp only [Doc.data, List.mem_append]
      exact .inl hx
    · unfold Doc.data at f2
      rw [List.concat_eq_append, ← List.append_assoc] at f2
      rw [(List.append_inj' f2 rfl).1, List.filter_append, hF F (fun x hx => hx)]
      rw [List.concat_eq_append, List.dropLast_concat, List.nil_append, List.filter_eq_self]
      intro x hx
      rw [f6 x (by simp [hx])]
      rfl
  have hfrag : ∀ (l : List Data) (r : Bytes), allFragments l = .ok r → ∃ frags : List Bytes,
      r = frags.flatten ∧ l.map (·.bdata) = frags.map some := by
    intro l
    induction l with
    | nil =>
      intro r hr
      cases hr
      exact ⟨[], rfl, rfl⟩
    | cons a l ih =>
      intro r hr
      unfold allFragments at hr
      obtain ⟨b, hb, hr⟩ := bind_eq_ok hr
      obtain ⟨rest, hrest, hr⟩ := bind_eq_ok hr
      cases hr
      obtain ⟨frags, i1, i2⟩ := ih rest hrest
      exact ⟨b :: frags, by simp [i1], by simp [i2, orRaise_eq_ok hb]⟩
  obtain ⟨frags, q1, q2⟩ := hfrag _ _ hfr
  refine ⟨frags, ?_, ?_⟩
  · rw [← q1]
    simp [slice]
  · rw [hin]
    exact q2

/-- The operations of C23 make histories. -/
theorem C20_ops [Zlib] (l : List Op) (d0 d : Doc) (h : ops l d0 = .ok d) : History d0 d := by
  suffices H : ∀ (l : List Op) (d1 : Doc), History d0 d1 → ops l d1 = .ok d → History d0 d from
    H l d0 .start h
  intro l
  induction l with
  | nil =>
    intro d1 h1 h2
    cases h2
    exact h1
  | cons a l ih =>
    intro d1 h1 h2
    simp only [ops] at h2
    obtain ⟨d2, ha, h3⟩ := bind_eq_ok h2
    refine ih d2 ?_ h3
    cases a with
    | add o =>
      simp only [Op.run] at ha
      rcases hao : addObject d1 o with e | ⟨d3, n⟩
      · rw [hao] at ha; cases ha
      rw [hao] at ha
      cases ha
      obtain ⟨-, -, rfl⟩ := addObject_inv hao
      exact .edit h1 rfl rfl
    | set n o =>
      obtain ⟨old, -, -, rfl⟩ := updateObject_inv ha
      exact .edit h1 rfl rfl
    | get r =>
      simp only [Op.run, Except.ok.injEq] at ha
      subst ha
      simp only [reads]
      split
      · rename_i o d3 hg
        have : ∃ c, d3 = { d1 with cache := c } := by
          unfold getObject at hg
          split at hg
          · split at hg
            · cases hg
            obtain ⟨c, -, hg⟩ := bind_eq_ok hg
            obtain ⟨o', -, hg⟩ := bind_eq_ok hg
            cases hg
            exact ⟨c, rfl⟩
          · cases hg
            exact ⟨d1.cache, rfl⟩
        obtain ⟨c, rfl⟩ := this
        exact .edit h1 rfl rfl
      · exact h1
    | commit => exact .commit h1 ha

/-- The file of `C23`, loaded, edited with two commits, and written: its 182 bytes come first and
418 others follow. -/
example [Zlib] : ((loads mapFile).bind fun d => (ops mapOps d).bind fun d => (writeFile d).map fun r =>
    (r.1.take 182 == mapFile, r.1.length)) = .ok (true, 600) := by
  kernel_rfl

end Pdf
