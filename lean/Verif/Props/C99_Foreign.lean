/-
C99: files written by any program.
-/
import Verif.Lemmas.ObjStmText
import Verif.Props.C86_Streams

namespace Pdf
open Spec

/-! ### Equality -/

theorem mem_of_lookup {k : Bytes} {v : Obj} : ∀ {d : List (Bytes × Obj)}, List.lookup k d = some v → (k, v) ∈ d
  | [], h => by simp at h
  | (k0, v0) :: d, h => by
    rw [List.lookup_cons] at h
    split at h
    · rename_i hk
      simp only [beq_iff_eq] at hk
      cases h
      rw [hk]
      simp
    · exact List.mem_cons_of_mem _ (mem_of_lookup h)

theorem pyEqEntries_get : ∀ {d d' : List (Bytes × Obj)}, pyEqEntries d d' = true → ∀ {k : Bytes} {v : Obj}, (k, v) ∈ d →
    ∃ v', List.lookup k d' = some v' ∧ pyEq v v' = true
  | [], _, _, k, v, h => by simp at h
  | (k0, v0) :: d, d', h, k, v, hm => by
    simp only [pyEqEntries, Bool.and_eq_true] at h
    rcases List.mem_cons.1 hm with e | hm
    · obtain ⟨rfl, rfl⟩ := Prod.mk.inj e
      cases hl : List.lookup k d' with
      | none => rw [hl] at h; simp at h
      | some v' => rw [hl] at h; exact ⟨v', rfl, h.1⟩
    · exact pyEqEntries_get h.2 hm

mutual
theorem pyEq_trans : ∀ {a b c : Obj}, pyEq a b = true → pyEq b c = true → pyEq a c = true
  | .list l, b, c, h1, h2 => by
    cases b <;> simp [pyEq] at h1
    cases c <;> simp [pyEq] at h2
    simp only [pyEq]
    exact pyEqItems_trans h1 h2
  | .dict d, b, c, h1, h2 => by
    cases b <;> simp [pyEq] at h1
    cases c <;> simp [pyEq] at h2
    simp only [pyEq, Bool.and_eq_true, decide_eq_true_eq]
    exact ⟨by omega, pyEqEntries_trans h1.2 h2.2⟩
  | .stream d x y, b, c, h1, h2 => by
    cases b <;> simp [pyEq] at h1
    cases c <;> simp [pyEq] at h2
    simp only [pyEq, Bool.and_eq_true, decide_eq_true_eq]
    obtain ⟨⟨⟨i1, i2⟩, i3⟩, i4⟩ := h1
    obtain ⟨⟨⟨j1, j2⟩, j3⟩, j4⟩ := h2
    exact ⟨⟨⟨by omega, pyEqEntries_trans i2 j2⟩, i3.trans j3⟩, i4.trans j4⟩
  | .null, b, c, h1, h2 => by simp only [pyEq, decide_eq_true_eq] at h1; subst h1; exact h2
  | .bool _, b, c, h1, h2 => by simp only [pyEq, decide_eq_true_eq] at h1; subst h1; exact h2
  | .int _, b, c, h1, h2 => by simp only [pyEq, decide_eq_true_eq] at h1; subst h1; exact h2
  | .real _ _ _, b, c, h1, h2 => by simp only [pyEq, decide_eq_true_eq] at h1; subst h1; exact h2
  | .str _, b, c, h1, h2 => by simp only [pyEq, decide_eq_true_eq] at h1; subst h1; exact h2
  | .bytes _, b, c, h1, h2 => by simp only [pyEq, decide_eq_true_eq] at h1; subst h1; exact h2
  | .ref _ _, b, c, h1, h2 => by simp only [pyEq, decide_eq_true_eq] at h1; subst h1; exact h2
theorem pyEqItems_trans : ∀ {a b c : List Obj}, pyEqItems a b = true → pyEqItems b c = true → pyEqItems a c = true
  | [], b, c, h1, h2 => by
    cases b <;> simp [pyEqItems] at h1
    exact h2
  | x :: a, b, c, h1, h2 => by
    cases b <;> simp [pyEqItems] at h1
    cases c <;> simp [pyEqItems] at h2
    simp only [pyEqItems, Bool.and_eq_true]
    exact ⟨pyEq_trans h1.1 h2.1, pyEqItems_trans h1.2 h2.2⟩
theorem pyEqEntries_trans : ∀ {a b c : List (Bytes × Obj)}, pyEqEntries a b = true → pyEqEntries b c = true → pyEqEntries a c = true
  | [], _, _, _, _ => by simp [pyEqEntries]
  | (k, v) :: a, b, c, h1, h2 => by
    simp only [pyEqEntries, Bool.and_eq_true] at h1 ⊢
    refine ⟨?_, pyEqEntries_trans h1.2 h2⟩
    cases hl : List.lookup k b with
    | none => rw [hl] at h1; simp at h1
    | some v' =>
      rw [hl] at h1
      obtain ⟨v'', q1, q2⟩ := pyEqEntries_get h2 (mem_of_lookup hl)
      rw [q1]
      exact pyEq_trans h1.1 q2
end

/-! ### From the text to the entries -/

section
set_option linter.unusedSectionVars false
variable [Zlib]

/-- A number in use has an entry. -/
theorem lastFor_used {secs : List FileSec} {n : Nat} (hn : 1 ≤ n) (h : Used secs n) : ∃ e, lastFor n (listedX (secs.map secX)) = some e := by
  obtain ⟨m, h1, h2⟩ := h
  obtain ⟨e, he⟩ : ∃ e, listed1 (n, m) = [e] := by
    cases m with
    | free p g => exact absurd rfl (h2 p g)
    | inUse p g => exact ⟨_, by simp [listed1, show n ≠ 0 by omega]; rfl⟩
    | inside c k => exact ⟨_, by simp [listed1, show n ≠ 0 by omega]; rfl⟩
  have hmem : e ∈ listedX (secs.map secX) := by
    rw [listedX_secX]
    exact List.mem_flatMap.2 ⟨_, h1, by simp [he]⟩
  have hen : e.num = n := by
    obtain ⟨n2, m2, k1, -, k3, -⟩ := mem_listed1 (l := [(n, m)]) (e := e) (by simp [he])
    simp only [List.mem_singleton, Prod.mk.injEq] at k1
    rw [k3, k1.1]
  exact lastFor_some hmem hen

theorem used_lastFor {secs : List FileSec} {n : Nat} {e : Entry} (h : lastFor n (listedX (secs.map secX)) = some e) : Used secs n := by
  by_cases hu : Used secs n
  · exact hu
  · rw [lastFor_unused (secs := secs) (n := n)] at h
    · cases h
    · intro m hm
      cases m with
      | free p g => exact ⟨p, g, rfl⟩
      | inUse p g => exact absurd ⟨_, hm, by simp⟩ hu
      | inside c k => exact absurd ⟨_, hm, by simp⟩ hu

theorem textAt_lt {F : Bytes} {p n g : Nat} {o : Obj} (h : TextAt F p n g o) : p < F.length := by
  obtain ⟨s, r, h1, a, b, w1, w2, w3, v, w4, rfl, -⟩ := h
  have := congrArg List.length h1
  simp only [List.length_drop, List.length_append, List.length_cons] at this
  omega

theorem textAt_reads {F : Bytes} {p n g : Nat} {o : Obj} (h : TextAt F p n g o) : ReadsAs F p (normTop o) := by
  have hlt := textAt_lt h
  obtain ⟨s, r, h1, h2⟩ := h
  exact readsAs_text h2 h1 hlt

theorem textAt_eq {F : Bytes} {p n g : Nat} {o : Obj} (h : TextAt F p n g o) : pyEq o (normTop o) = true := by
  obtain ⟨s, r, -, a, b, w1, w2, w3, v, w4, -, -, -, h, -⟩ := h
  exact pyEq_normTop h

theorem readsAs_unique {F : Bytes} {p : Nat} {v v' : Obj} (h : ReadsAs F p v) (h' : ReadsAs F p v') : v = v' := by
  have h1 := h [] { num := 0, gen := 0, absPos := some (.at p), absNext := some 0 } 0 rfl rfl
  have h2 := h' [] { num := 0, gen := 0, absPos := some (.at p), absNext := some 0 } 0 rfl rfl
  rw [h1] at h2
  cases h2
  rfl

theorem newest_mem {secs : List FileSec} {n : Nat} {m : Mark} (h : newest secs n = some m) : (n, m) ∈ listings secs := by
  obtain ⟨⟨n', m'⟩, h1, h2⟩ := Option.map_eq_some_iff.1 h
  simp only at h2
  subst h2
  have := List.find?_some h1
  simp only [beq_iff_eq] at this
  subst this
  simpa using List.mem_of_find?_eq_some h1

theorem body_eq {k : Nat} {l : List Obj} {offs : List Nat} {t : Bytes} (h : BodyText k l offs t) : ∀ o ∈ l, pyEq o (norm o) = true := by
  induction h with
  | nil => simp
  | cons hs hr hw hend hb ih =>
    intro o ho
    rcases List.mem_cons.1 ho with rfl | ho
    · exact pyEq_norm _ _ _ (Spells.wf hs)
    · exact ih o ho

/-- An object stream in the file. -/
theorem objStm_at {F : Bytes} {p c g : Nat} {objs : List (Nat × Obj)} {d : List (Bytes × Obj)} {content enc : Bytes}
    (h : TextAt F p c g (.stream d content enc)) (hs : ObjStmText objs d content) :
    ∃ members, parseObjectStream (normTop (.stream d content enc)) = .ok members ∧
      members.map (fun m => (m.num, m.obj)) = objs.map fun x => (.int x.1, norm x.2) := by
  obtain ⟨s, r, -, a, b, w1, w2, w3, v, w4, -, -, -, ht, -⟩ := h
  refine objStm_text hs ?_ enc
  cases ht with
  | obj h _ => cases h
  | stream h =>
    cases h with
    | dict _ _ h => exact h

theorem embObj_rank {objs : List (Nat × Obj)} (hnd : (objs.map Prod.fst).Nodup) {members : List Embedded}
    (h : members.map (fun m => (m.num, m.obj)) = objs.map fun x => (.int x.1, norm x.2)) {k n : Nat} {o : Obj} (hk : objs[k]? = some (n, o)) :
    embObj members n = some (norm o) := by
  induction objs generalizing members k with
  | nil => simp at hk
  | cons y objs ih =>
    cases members with
    | nil => simp at h
    | cons m members =>
      simp only [List.map_cons, List.cons.injEq, Prod.mk.injEq] at h
      obtain ⟨⟨e1, e2⟩, e3⟩ := h
      rw [List.map_cons, List.nodup_cons] at hnd
      unfold embObj at ih ⊢
      cases k with
      | zero =>
        simp only [List.getElem?_cons_zero, Option.some.injEq] at hk
        subst hk
        simp [e1, e2]
      | succ k =>
        simp only [List.getElem?_cons_succ] at hk
        have hne : y.1 ≠ n := by
          rintro rfl
          exact hnd.1 (List.mem_map.2 ⟨_, List.mem_of_getElem? hk, rfl⟩)
        rw [List.find?_cons_of_neg (by simp only [e1, Obj.int.injEq, decide_eq_true_eq]; omega)]
        exact ih hnd.2 e3 hk

theorem gives_says {F : Bytes} {secs : List FileSec} {n : Nat} {o : Obj} (hF : FileText F secs) (hn : 1 ≤ n) (h : Gives F secs n o) :
    ∃ v, FileSays F (secs.map secX) n v ∧ pyEq o v = true := by
  cases h with
  | @direct p g _ h1 h2 =>
    exact ⟨normTop o, ⟨_, lastFor_newest h1 (by simp [listed1, show n ≠ 0 by omega]; rfl), .inl ⟨rfl, p, rfl, textAt_lt h2, textAt_reads h2⟩⟩, textAt_eq h2⟩
  | @inside c k p g objs d content enc _ h1 h2 h3 h4 h5 h6 h7 =>
    have hc : c ≠ 0 := by
      obtain ⟨s, k1, k2⟩ := mem_listings.1 (newest_mem h1)
      exact inside_pos (hF.sections s k1).1 k2
    obtain ⟨members, m1, m2⟩ := objStm_at h3 h4
    have hmn : members.map (·.num) = (objs.map Prod.fst).map fun n => Obj.int (n : Nat) := by
      have := congrArg (List.map Prod.fst) m2
      simpa [Function.comp_def] using this
    refine ⟨norm o, ⟨_, lastFor_newest h1 (by simp [listed1, show n ≠ 0 by omega]; rfl), .inr ⟨c, _, p, _, members, rfl, by omega,
      lastFor_newest h2 (by simp [listed1, hc]; rfl), rfl, rfl, textAt_lt h3, textAt_reads h3, m1, ?_, embObj_rank h5 m2 h7, ?_⟩⟩, ?_⟩
    · rw [hmn]
      refine List.Pairwise.map _ ?_ h5
      intro a b hab e
      simp only [Obj.int.injEq] at e
      exact hab (by omega)
    · intro x hx
      have : x.num ∈ members.map (·.num) := List.mem_map.2 ⟨x, hx, rfl⟩
      rw [hmn] at this
      obtain ⟨a, ha, e⟩ := List.mem_map.1 this
      obtain ⟨y, hy, rfl⟩ := List.mem_map.1 ha
      obtain ⟨q1, q2⟩ := h6 y hy
      exact ⟨y.1, e.symm, q1, lastFor_used q1 q2⟩
    · obtain ⟨head, body, offs, -, -, -, hb, -⟩ := h4
      have ho : o ∈ objs.map Prod.snd := List.mem_map.2 ⟨_, List.mem_of_getElem? h7, rfl⟩
      exact body_eq hb o ho

theorem sec_wf {s : FileSec} (h : s.Text) : WF false false (.dict s.tr) = true := by
  obtain ⟨pos, text, num, runs, tr⟩ := s
  cases num with
  | none =>
    have h : TableText runs tr text := h
    rcases h with ⟨_, _, _, _, _, _, _, _, _, _, _, _, _, h⟩ | ⟨_, _, _, _, _, _, _, _, _, _, _, _, _, _, _, _, _, h⟩ <;>
      exact Spells.wf h
  | some q =>
    have h : XStreamText q runs tr text := h
    obtain ⟨_, _, _, _, _, _, ⟨_, _, _, _, _, _, _, _, _, _, h, _⟩, _⟩ := h
    cases h with
    | obj h _ => cases h
    | stream h => exact Spells.wf h

/-- **C99, loading.** A file written by any program, with tables and cross-reference streams, can be loaded; each number shows
the object that the file gives for it; a number that no section says in use shows nothing; the entries of the trailer are
those of the newest section.

Missing from the full claim: what the specification of the text leaves out (see `FileText`, `TableText`, `XStreamText`,
`ObjStmText`, `Gives`); linearized files without updates (`C106_load_partial`); the numbers that were in use and are free in a newer section (`C99_freed_counterexample`). -/
theorem C99_load_partial {F : Bytes} {secs : List FileSec} (hF : FileText F secs) (hlast : NewestLast secs) : ∃ (d : Doc) (t : Dict) (s : FileSec),
    secs.head? = some s ∧ loads F = .ok d ∧ d.cache[0]? = some (.dict t) ∧
      (∀ (n : Nat) (o : Obj), 1 ≤ n → Gives F secs n o → ∀ g : Int, ∃ v, view d (.ref g n) = .ok v ∧ pyEq o v = true) ∧
      (∀ n : Nat, 1 ≤ n → ¬ Used secs n → ∀ g : Int, ∃ x, view d (.ref g n) = .error x) ∧
      ∀ k, ¬ FileKey k → match Dict.get? s.tr k with
        | none => Dict.get? t k = none
        | some o => ∃ v, Dict.get? t k = some v ∧ pyEq o v = true := by
  obtain ⟨d, t, s, h1, h2, h3, h4, h5⟩ := fileText_loads hF hlast
  refine ⟨d, t, s, h1, h2, h4, ?_, ?_, ?_⟩
  · intro n o hn hg g
    obtain ⟨v, k1, k2⟩ := gives_says hF hn hg
    exact ⟨v, fresh_view h3 hn k1 g, k2⟩
  · intro n hn hu g
    refine fresh_none h3 hn ?_ g
    cases hl : lastFor n (listedX (secs.map secX)) with
    | none => rfl
    | some e => exact absurd (used_lastFor hl) hu
  · intro k hk
    have hwf : WF false false (.dict s.tr) = true := sec_wf (hF.sections s (List.mem_of_mem_head? h1)).1
    rw [h5 k hk]
    split
    · rename_i h
      rw [h]
      rfl
    · rename_i o h
      rw [h]
      exact ⟨norm o, rfl, pyEq_norm o _ _ ((wf_dict_iff.1 hwf).1 _ (mem_of_lookup h)).2⟩

theorem oldestNum_secX (secs : List FileSec) : oldestNum (secs.map secX) = oldestOf secs := by
  unfold oldestNum oldestOf
  rw [List.getLast?_map]
  cases secs.getLast? <;> rfl

theorem gives_newest {F : Bytes} {secs : List FileSec} {n : Nat} {o : Obj} (h : Gives F secs n o) :
    ∃ m, newest secs n = some m ∧ ∀ p g, m ≠ .free p g := by
  cases h with
  | direct h => exact ⟨_, h, by simp⟩
  | inside h => exact ⟨_, h, by simp⟩

/-- A file written by any program is one that the library can edit. -/
theorem foreign_streamFile {F : Bytes} {s : FileSec} {l : List FileSec} (hF : FileText F (s :: l)) (hlast : NewestLast (s :: l)) (hw : Whole F (s :: l)) :
    StreamFile F (secX s) (l.map secX) := by
  have hmap : secX s :: l.map secX = (s :: l).map secX := rfl
  have hN := oldestNum_secX (s :: l)
  obtain ⟨A, t, s', hs, hA, ht⟩ := hF.ends
  simp only [List.head?_cons, Option.some.injEq] at hs
  subst hs
  -- the newest mark of a number that has an entry in an object stream
  have hinside : ∀ (n : Nat) (le : Entry) (c : Nat), 1 ≤ n → n ≠ oldestOf (s :: l) → lastFor n (listedX ((s :: l).map secX)) = some le →
      le.envNum = some c → ∃ k, newest (s :: l) n = some (.inside c k) := by
    intro n le c hn hne hl henv
    obtain ⟨o, ho⟩ := hw.given n hn hne (used_lastFor hl)
    obtain ⟨m, hm, hfree⟩ := gives_newest ho
    cases m with
    | free p g => exact absurd rfl (hfree p g)
    | inUse p g =>
      rw [lastFor_newest hm (by simp [listed1, show n ≠ 0 by omega]; rfl)] at hl
      cases hl
      cases henv
    | inside c' k =>
      rw [lastFor_newest hm (by simp [listed1, show n ≠ 0 by omega]; rfl)] at hl
      cases hl
      simp only [Option.some.injEq] at henv
      have : c' = c := by omega
      subst this
      exact ⟨k, hm⟩
  refine ⟨by rw [hmap]; exact fileText_chain hF, fileText_above hF hlast, by rw [hmap]; exact fileText_bound hF, .inr ⟨A, t, hA, ht⟩, ?_, ⟨?_, ?_, ?_⟩, hF.min, hF.max⟩
  · exact wf_norm (.dict s.tr) _ _ (sec_wf (hF.sections s (by simp)).1)
  · rw [hmap, hN]
    intro h
    obtain ⟨p, g, hp⟩ := hw.own h
    exact ⟨_, lastFor_newest hp (by simp [listed1, h]; rfl), rfl⟩
  · rw [hmap, hN]
    intro n le hn hne hl
    obtain ⟨o, ho⟩ := hw.given n hn hne (used_lastFor hl)
    obtain ⟨v, hv, -⟩ := gives_says hF hn ho
    exact ⟨v, hv⟩
  · rw [hmap, hN]
    intro n le c hn hl henv
    have hne : n ≠ oldestOf (s :: l) := by
      rintro rfl
      obtain ⟨p, g, hp⟩ := hw.own (by omega)
      rw [lastFor_newest hp (by simp [listed1, show oldestOf (s :: l) ≠ 0 by omega]; rfl)] at hl
      cases hl
      cases henv
    obtain ⟨k, hk⟩ := hinside n le c hn hne hl henv
    refine ⟨hw.apart n c k hk, ?_⟩
    obtain ⟨p, g, objs, d, content, enc, h2, h3, h4, h6⟩ := hw.exact n c k hk
    intro ce q stm members j1 j2 j3 j4 x hx m hm
    have hc : c ≠ 0 := by
      obtain ⟨s0, k1, k2⟩ := mem_listings.1 (newest_mem hk)
      exact inside_pos (hF.sections s0 k1).1 k2
    rw [lastFor_newest h2 (by simp [listed1, hc]; rfl)] at j1
    cases j1
    simp only [Option.some.injEq, Pos.at.injEq] at j2
    obtain rfl : p = q := by omega
    have := readsAs_unique j3 (textAt_reads h3)
    subst this
    obtain ⟨members', m1, m2⟩ := objStm_at h3 h4
    rw [m1] at j4
    cases j4
    have : (x.num, x.obj) ∈ objs.map fun x => (Obj.int (x.1 : Nat), norm x.2) := by
      rw [← m2]
      exact List.mem_map.2 ⟨x, hx, rfl⟩
    obtain ⟨y, hy, e⟩ := List.mem_map.1 this
    simp only [Prod.mk.injEq] at e
    rw [hm] at e
    have hym : y.1 = m := by
      have := e.1
      simp only [Obj.int.injEq] at this
      omega
    obtain ⟨hy1, k2, hk2⟩ := h6 y hy
    rw [hym] at hk2 hy1
    exact ⟨_, lastFor_newest hk2 (by simp [listed1, show m ≠ 0 by omega]; rfl), rfl⟩

/-- During a session, the deleted objects are those that were set to null. -/
theorem deletedX {N : Nat} {T0 : Dict} : ∀ (l : List Op) {d d' : Doc} {F : Bytes} {secs : List XSec} {w : Written},
    FiledX d F secs N T0 → FitOps N d l → ops l d = .ok d' → (∀ out, stored d' = .ok out → XsOk T0 N out) → d.cur.length = w.next →
    (∀ (n : Nat) (e : Entry), 1 ≤ n → n ≠ N → d.cur[n]? = some (.one e) → e.deleted = true → w.val n = some .null) →
    ∀ (n : Nat) (e : Entry), 1 ≤ n → n ≠ N → d'.cur[n]? = some (.one e) → e.deleted = true → (l.foldl Written.op w).val n = some .null
  | [], d, d', F, secs, w, h, _, hl, _, hw, hv => by
    cases hl
    exact hv
  | o :: l, d, d', F, secs, w, h, hf, hl, hx, hw, hv => by
    unfold ops at hl
    obtain ⟨d1, h1, hl'⟩ := bind_eq_ok hl
    clear hl
    obtain ⟨hfo, hrest0⟩ := hf
    have hrest := hrest0 d1 h1
    clear hrest0
    rw [List.foldl_cons]
    cases o with
    | add o =>
      simp only [Op.run] at h1
      rcases ha : addObject d o with x | ⟨d2, n⟩
      · rw [ha] at h1; cases h1
      · rw [ha] at h1; cases h1
        have hF := filedX_add h hfo ha
        obtain ⟨rfl, g2, rfl⟩ := addObject_inv ha
        refine deletedX l hF hrest hl' hx (by simp only [Written.op, Written.step, List.length_append, List.length_cons, List.length_nil]; omega) ?_
        intro m e hm hmN he hdel
        simp only [Written.op, Written.step]
        by_cases hmn : m = d.cur.length
        · subst hmn
          simp only [List.getElem?_append_right (Nat.le_refl _), Nat.sub_self, List.getElem?_cons_zero, Option.some.injEq, Slot.one.injEq] at he
          rw [← he] at hdel
          cases hdel
        · have hlt := lt_of_getElem? he
          simp only [List.length_append, List.length_cons, List.length_nil] at hlt
          rw [if_neg (by omega)]
          refine hv m e hm hmN ?_ hdel
          simpa [List.getElem?_append_left (show m < d.cur.length by omega)] using he
    | set n o =>
      have hF := filedX_set h hfo h1
      obtain ⟨old, g1, g2, rfl⟩ := updateObject_inv h1
      refine deletedX l hF hrest hl' hx (by simp only [Written.op, Written.step, List.length_set]; omega) ?_
      intro m e hm hmN he hdel
      simp only [Written.op, Written.step]
      by_cases hmn : m = n
      · subst hmn
        simp only [List.getElem?_set_self (lt_of_getElem? g1), Option.some.injEq, Slot.one.injEq] at he
        rw [if_pos rfl]
        rw [← he] at hdel
        simp only [newEntry, decide_eq_true_eq] at hdel
        rw [hdel]
      · rw [if_neg hmn]
        refine hv m e hm hmN ?_ hdel
        simpa [List.getElem?_set_ne (Ne.symm hmn)] using he
    | get r =>
      cases h1
      have hcur : (reads [r] d).cur = d.cur := by
        unfold reads
        rcases hg : getObject d r with x | ⟨o, d1⟩
        · rfl
        · simp only [reads]
          rw [(getObject_filled h.coh hg).eq]
      refine deletedX l (filedX_reads h r) hrest hl' hx (by rw [hcur]; exact hw) ?_
      rw [hcur]
      exact hv
    | commit =>
      simp only [Op.run] at h1
      by_cases hch : changes d = []
      · rw [C21_noop d hch] at h1
        cases h1
        exact deletedX l h hrest hl' hx hw hv
      · obtain ⟨b, s, h2, h3, h4, h5⟩ := filedX_commit h hch h1 (by
          intro F1 hF1
          obtain ⟨b1, k1⟩ := storedAs_commit h.storedAs h1
          obtain ⟨b2, k2⟩ := storedAs_ops l k1 hl'
          rw [k1.bytes] at hF1
          cases hF1
          exact (hx _ k2.bytes).prefix)
        refine deletedX l h2 hrest hl' hx (w := w.op .commit) (by simp only [Written.op]; omega) ?_
        intro m e hm hmN he hdel
        obtain ⟨q1, q2⟩ := h5 m hm hmN
        rcases hc : d.cur[m]? with _ | sl
        · rw [q2 (.inl hc), hc] at he
          cases he
        · cases sl with
          | hole => rw [q2 (.inr hc), hc] at he; cases he
          | many es => exact absurd hc (h.plain m es hm)
          | one e0 =>
            obtain ⟨e', k1, k2⟩ := q1 e0 hc
            rw [he] at k1
            cases k1
            exact hv m e0 hm hmN hc (by rw [← k2]; exact hdel)

/-- **C99, sessions.** A file written by any program is loaded, edited by a session of any number of operations and
revisions, and written. The file begins with the bytes of the first one and can be loaded. The numbers that the session
never sets show, in the document and in the new file, the object that the first file gives for them; the others show the
last value given to them.

Missing from the full claim: what `C99_load_partial` and `C86_map_partial` leave out; files with a number in use that
cannot be read (`Whole`). -/
theorem C99_session_partial {F out : Bytes} {s : FileSec} {l : List FileSec} {d0 d d' : Doc} {os : List Op} (hF : FileText F (s :: l))
    (hlast : NewestLast (s :: l)) (hW : Whole F (s :: l)) (h0 : loads F = .ok d0) (hopen : d0.curData.eofCut = none) (hfit : FitOps (oldestOf (s :: l)) d0 os)
    (hos : ops os d0 = .ok d) (hw : writeFile d = .ok (out, d')) (hmax : out.length < 10 ^ 80)
    (hxs : XsOk (normEntries s.tr).reverse (oldestOf (s :: l)) out) :
    let w := os.foldl Written.op ⟨d0.cur.length, fun _ => none⟩
    F <+: out ∧ ∃ dl, loads out = .ok dl ∧
      (∀ (n : Nat) (o : Obj), 1 ≤ n → n ≠ oldestOf (s :: l) → w.val n = none → Gives F (s :: l) n o → ∀ g : Int, ∃ v v',
        view d (.ref g n) = .ok v ∧ pyEq o v = true ∧ view dl (.ref g n) = .ok v' ∧ pyEq o v' = true) ∧
      ∀ (n : Nat) (o : Obj), 1 ≤ n → n ≠ oldestOf (s :: l) → w.val n = some o → ∀ g : Int, view d (.ref g n) = .ok o ∧
        (o ≠ .null → ∃ v', view dl (.ref g n) = .ok v' ∧ (o = v' ∨ pyEq o v' = true)) := by
  intro w
  have hS := foreign_streamFile hF hlast hW
  have hN : oldestNum (secX s :: l.map secX) = oldestOf (s :: l) := oldestNum_secX (s :: l)
  have hfit' : FitOps (oldestNum (secX s :: l.map secX)) d0 os := by rw [hN]; exact hfit
  have hxs' : XsOk (secX s).tr (oldestNum (secX s :: l.map secX)) out := by rw [hN]; exact hxs
  have hf0 := streamFile_filed hS h0 hopen
  have hst : ∀ o, stored d = .ok o → XsOk (secX s).tr (oldestNum (secX s :: l.map secX)) o := by
    intro F1 hF1
    obtain ⟨w1, w2⟩ := writeFile_inv hw
    obtain ⟨b1, k1⟩ := storedAs_ops os hf0.storedAs hos
    obtain ⟨b2, k2⟩ := storedAs_commit k1 w1
    rw [k1.bytes] at hF1
    cases hF1
    rw [k2.bytes] at w2
    cases w2
    exact hxs'.prefix
  obtain ⟨m1, m2⟩ := C86_map_partial hS h0 hopen hfit' hos hst
  obtain ⟨r1, dl, r2, r3, -, -⟩ := C86_reload_partial hS h0 hopen hfit' hos hw hmax hxs'
  obtain ⟨d1, -, -, -, L1, -, L2, -⟩ := C99_load_partial hF hlast
  rw [h0] at L1
  cases L1
  obtain ⟨b, more, hf⟩ := filedX_ops os hf0 hfit' hos hst
  have hdel := deletedX os hf0 hfit' hos hst (w := ⟨d0.cur.length, fun _ => none⟩) rfl (by
    intro n e hn hne he hdel
    obtain ⟨d2, -, -, -, k1, k2, -⟩ := fileText_loads hF hlast
    rw [h0] at k1
    cases k1
    have hc := k2.cell n hn
    rcases hl : lastFor n (listedX ((s :: l).map secX)) with _ | le
    · rw [hl] at hc
      rcases hc with k | k <;> rw [he] at k <;> cases k
    · rw [hl] at hc
      obtain ⟨e1, nx, j1, j2, j3, -⟩ := hc
      rw [he] at j1
      cases j1
      rw [j3] at hdel
      cases hdel)
  -- a number that shows something is a number in use
  have hcell : ∀ (n : Nat) (g : Int) (v : Obj), 1 ≤ n → n ≠ oldestOf (s :: l) → view d (.ref g n) = .ok v → w.val n ≠ some .null →
      ∃ v', view dl (.ref g n) = .ok v' ∧ (v = v' ∨ pyEq v v' = true) := by
    intro n g v hn hne hv hnull
    rcases hc : d.cur[n]? with _ | sl
    · rw [view_num] at hv
      simp [memoize, slotAt, hc, orRaise, bind, Except.bind] at hv
    · cases sl with
      | hole =>
        rw [view_num] at hv
        simp [memoize, slotAt, hc, orRaise, bind, Except.bind, Slot.isDeleted] at hv
      | many es => exact absurd hc (hf.plain n es hn)
      | one e =>
        have he : e.deleted = false := by
          cases hed : e.deleted with
          | false => rfl
          | true => exact absurd (hdel n e hn (by rw [hN]; exact hne) hc hed) hnull
        obtain ⟨v1, v', j1, j2, j3⟩ := r3 g n e hn (by rw [hN]; exact hne) hc he
        rw [hv] at j1
        cases j1
        exact ⟨v', j2, j3⟩
  refine ⟨r1, dl, r2, ?_, ?_⟩
  · intro n o hn hne hwn hg g
    obtain ⟨v, k1, k2⟩ := L2 n o hn hg g
    have hv := m2 n g hn (by rw [hN]; exact hne)
    rw [show (os.foldl Written.op ⟨d0.cur.length, fun _ => none⟩).val n = none from hwn] at hv
    simp only [k1] at hv
    obtain ⟨v', j1, j2⟩ := hcell n g v hn hne hv (by rw [hwn]; simp)
    refine ⟨v, v', hv, k2, j1, ?_⟩
    rcases j2 with rfl | j2
    · exact k2
    · exact pyEq_trans k2 j2
  · intro n o hn hne hwn g
    have hv := m2 n g hn (by rw [hN]; exact hne)
    rw [show (os.foldl Written.op ⟨d0.cur.length, fun _ => none⟩).val n = some o from hwn] at hv
    refine ⟨hv, fun ho => hcell n g o hn hne hv (by rw [hwn]; simpa using ho)⟩

end

end Pdf
