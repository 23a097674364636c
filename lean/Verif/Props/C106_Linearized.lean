/-
C106: linearized files.
-/
import Verif.Props.C99_Limits
import Verif.Lemmas.LinEdit

namespace Pdf
open Spec

section
set_option linter.unusedSectionVars false
variable [Zlib]

/-- Two sections, the one that is read first before the other one in the file (ISO 32000 Annex F): the file was linearized
and has no update since. -/
def Linearized (secs : List FileSec) : Prop := ∃ first main, secs = [first, main] ∧ first.pos + first.text.length ≤ main.pos

/-- A file of the specification has its newest section last (`C99_load_partial`) or is linearized (`C106_load_partial`). -/
theorem C106_cases {F : Bytes} {secs : List FileSec} (hF : FileText F secs) : NewestLast secs ∨ Linearized secs := by
  obtain ⟨A, t, s, hs, -⟩ := hF.ends
  cases secs with
  | nil => cases hs
  | cons q l =>
    obtain ⟨-, -, k | ⟨main, rfl, k⟩, -⟩ := hF.linked
    · refine .inl ?_
      intro s' l' e s'' h''
      cases e
      have := k s'' h''
      omega
    · exact .inr ⟨_, _, rfl, k⟩

theorem linearized_tp {F : Bytes} {first main : FileSec} (hF : FileText F [first, main]) (hlin : first.pos + first.text.length ≤ main.pos) :
    (secX first).tp ≤ (secX main).tp := by
  obtain ⟨A, t, s0, -, hA, ht⟩ := hF.ends
  have hsec : ∀ q ∈ [first, main], (secX q).tp < q.pos + q.text.length ∧ q.pos ≤ (secX q).tp := by
    intro q hq
    obtain ⟨h1, h2, r, h3⟩ := hF.sections q hq
    exact (sec_at h1 h2 h3 (fun n p g hx => hF.placed n p g (mem_listings.2 ⟨q, hq, hx⟩)) hA ht).2
  have h1 := hsec first (by simp)
  have h2 := hsec main (by simp)
  omega

/-- What a linearized file gives, with the internal facts. -/
theorem linearized_loads {F : Bytes} {first main : FileSec} (hF : FileText F [first, main]) (hlin : first.pos + first.text.length ≤ main.pos)
    (hone : Used [first, main] 1) : ∃ (d : Doc) (t : Dict), loads F = .ok d ∧ FreshX d F [secX first, secX main] ∧ d.cache[0]? = some (.dict t) ∧
      (∀ k, ¬ FileKey k → Dict.get? t k = ((Dict.get? first.tr k).map norm).or ((Dict.get? main.tr k).map norm)) ∧
      (d.curData.eofCut = none → Dict.get? t b!"/Prev" = some .null) := by
  obtain ⟨A, t, s, hs, hA, ht⟩ := hF.ends
  cases hs
  have hc := fileText_chain hF
  obtain ⟨e1, he1⟩ := lastFor_used (by omega) hone
  obtain ⟨d, t', h1, h2, h3, h4, h5⟩ := loads_lin (s := secX first) (sm := secX main) hc (linearized_tp hF hlin) (fileText_bound hF) (.inr ⟨A, t, hA, ht⟩)
    hF.min hF.max he1
  refine ⟨d, t', h1, h2, h3, ?_, h5⟩
  intro k hk
  have hnd : ∀ q, XSecAt F (secX q) → (q.tr.map Prod.fst).Nodup := by
    intro q hq
    have := hq.nodup
    simp only [secX, List.map_reverse, normEntries_keys] at this
    exact (List.reverse_perm _).nodup_iff.1 this
  rw [h4 k hk]
  have e1 : Dict.get? (secX first).tr k = (Dict.get? first.tr k).map norm := get?_norm (hnd first (hc.mem _ (by simp))) k
  have e2 : Dict.get? (secX main).tr k = (Dict.get? main.tr k).map norm := get?_norm (hnd main (hc.mem _ (by simp))) k
  rw [e1, e2]

/-- **C106, loading.** A linearized file in which the number 1 is in use can be loaded; each number shows the object that the
file gives for it; a number that no section says in use shows nothing; the entries of the trailer are those of the section
that is read first, and for other keys those of the main section.

Missing from the full claim: what the specification of the text leaves out (see `FileText`); the files in which the number 1
is not in use, which cannot be loaded (`C106_one_counterexample`). -/
theorem C106_load_partial {F : Bytes} {first main : FileSec} (hF : FileText F [first, main]) (hlin : Linearized [first, main])
    (hone : Used [first, main] 1) : ∃ (d : Doc) (t : Dict), loads F = .ok d ∧ d.cache[0]? = some (.dict t) ∧
      (∀ (n : Nat) (o : Obj), 1 ≤ n → Gives F [first, main] n o → ∀ g : Int, ∃ v, view d (.ref g n) = .ok v ∧ pyEq o v = true) ∧
      (∀ n : Nat, 1 ≤ n → ¬ Used [first, main] n → ∀ g : Int, ∃ x, view d (.ref g n) = .error x) ∧
      ∀ k, ¬ FileKey k → match (Dict.get? first.tr k).or (Dict.get? main.tr k) with
        | none => Dict.get? t k = none
        | some o => ∃ v, Dict.get? t k = some v ∧ pyEq o v = true := by
  obtain ⟨_, _, e, hlin⟩ := hlin
  cases e
  obtain ⟨d, t, h2, h3, h4, h5, -⟩ := linearized_loads hF hlin hone
  refine ⟨d, t, h2, h4, ?_, ?_, ?_⟩
  · intro n o hn hg g
    obtain ⟨v, k1, k2⟩ := gives_says hF hn hg
    exact ⟨v, fresh_view h3 hn k1 g, k2⟩
  · intro n hn hu g
    refine fresh_none h3 hn ?_ g
    cases hl : lastFor n (listedX ([first, main].map secX)) with
    | none => exact hl
    | some e => exact absurd (used_lastFor hl) hu
  · intro k hk
    have hwf : ∀ q ∈ [first, main], ∀ o, Dict.get? q.tr k = some o → pyEq o (norm o) = true := by
      intro q hq o ho
      exact pyEq_norm o _ _ ((wf_dict_iff.1 (sec_wf (hF.sections q hq).1)).1 _ (mem_of_lookup ho)).2
    rw [h5 k hk]
    cases h1 : Dict.get? first.tr k with
    | some o => exact ⟨norm o, rfl, hwf first (by simp) o h1⟩
    | none =>
      cases h2 : Dict.get? main.tr k with
      | some o => exact ⟨norm o, rfl, hwf main (by simp) o h2⟩
      | none => rfl

/-- **C106, updates.** No linearized file can be updated: whatever objects are set or added, no revision can be committed, so
that no file can be written. (The position of the section that `commit` writes in the trailer is looked for in the entry of the
object number 1, docstruct.py:591-592; it is `None`, which cannot be written.) -/
theorem C106_updates_rejected {F : Bytes} {first main : FileSec} (hF : FileText F [first, main]) (hlin : Linearized [first, main])
    (hone : Used [first, main] 1) {d d' : Doc} (hd : loads F = .ok d) (hcut : d.curData.eofCut = none) {edits : List Op}
    (he : ∀ o ∈ edits, (∃ n x, o = .set n x ∧ 1 ≤ n) ∨ ∃ x, o = .add x) (h : ops edits d = .ok d') (hch : changes d' ≠ []) :
    (∃ x, commit d' = .error x) ∧ ∃ x, writeFile d' = .error x := by
  obtain ⟨_, _, e, hlin⟩ := hlin
  cases e
  obtain ⟨d0, t, h2, h3, h4, -, h5⟩ := linearized_loads hF hlin hone
  rw [hd] at h2
  cases h2
  obtain ⟨k1, k2⟩ := edits_root he (by rw [h3.len]; exact lt_of_getElem? h4) h
  rw [h4] at k1
  obtain ⟨x, hx⟩ := commit_null k1 (h5 hcut) (by rw [k2]; exact hcut) hch
  refine ⟨⟨x, hx⟩, x, ?_⟩
  unfold writeFile
  rw [hx]
  rfl

end

/-! ### A linearized file -/

def linPlain : Bytes := b!"%PDF-1.5\n3 0 obj <</Linearized 1/O 4>> endobj\nxref\n3 2\n0000000009 00000 n \n0000000153 00000 n \ntrailer\n<</Size 5/Root 4 0 R/Prev 265>>\nstartxref\n0\n%%EOF\n4 0 obj <</Type/Catalog/Pages 1 0 R>> endobj\n1 0 obj <</Kids[]/Count 0>> endobj\n2 0 obj <</Title/Plain>> endobj\nxref\n0 3\n0000000000 65535 f \n0000000198 00000 n \n0000000233 00000 n \ntrailer\n<</Size 3/Info 2 0 R>>\nstartxref\n46\n%%EOF\n"

def linFirst : FileSec := ⟨46, b!"xref\n3 2\n0000000009 00000 n \n0000000153 00000 n \ntrailer\n<</Size 5/Root 4 0 R/Prev 265>>\nstartxref", none, [⟨3, [.inUse 9 0, .inUse 153 0]⟩], [(b!"/Size", .int 5), (b!"/Root", .ref 0 4), (b!"/Prev", .int 265)]⟩

theorem linFirst_text [Zlib] : linFirst.Text := by
  have hd : Spells false false (.dict [(b!"/Size", .int 5), (b!"/Root", .ref 0 4), (b!"/Prev", .int 265)]) b!"<</Size 5/Root 4 0 R/Prev 265>>" := (.dict (t := b!"/Size 5/Root 4 0 R/Prev 265") (.cons (g := []) (s := b!"/Size") (t := b!" 5/Root 4 0 R/Prev 265") .nil (.name (s := b!"/Size") (by decide)) (.cons (g := b!" ") (s := b!"5") (t := b!"/Root 4 0 R/Prev 265") (white_gap (by decide)) (.int (s := b!"5") ⟨[], false, b!"5", rfl, .none, by decide, by decide, by decide⟩) (.cons (g := []) (s := b!"/Root") (t := b!" 4 0 R/Prev 265") .nil (.name (s := b!"/Root") (by decide)) (.cons (g := b!" ") (s := b!"4 0 R") (t := b!"/Prev 265") (white_gap (by decide)) (.ref (s := b!"4") (t := b!"0") (g := b!" ") (g' := b!" ") (n := 4) (m := 0) ⟨[], false, b!"4", rfl, .none, by decide, by decide, by decide⟩ ⟨[], false, b!"0", rfl, .none, by decide, by decide, by decide⟩ (by decide) (white_gap (by decide)) (by decide) (white_gap (by decide)) (by decide)) (.cons (g := []) (s := b!"/Prev") (t := b!" 265") .nil (.name (s := b!"/Prev") (by decide)) (.cons (g := b!" ") (s := b!"265") (t := b!"") (white_gap (by decide)) (.int (s := b!"265") ⟨[], false, b!"265", rfl, .none, by decide, by decide, by decide⟩) (.nil .nil) (.inr (.inl rfl))) (.inr (.inr ⟨_, _, rfl, by decide⟩))) (.inr (.inr ⟨_, _, rfl, by decide⟩))) (.inr (.inr ⟨_, _, rfl, by decide⟩))) (.inr (.inr ⟨_, _, rfl, by decide⟩))) (.inr (.inr ⟨_, _, rfl, by decide⟩))) (by decide) (by decide))
  have hr : RunsText [⟨3, [.inUse 9 0, .inUse 153 0]⟩] b!"3 2\n0000000009 00000 n \n0000000153 00000 n \n" :=
    .cons (r := ⟨3, [.inUse 9 0, .inUse 153 0]⟩) (x := b!"3") (y := b!"2") (b1 := b!" ") (b2 := []) (e := b!"\n") (s := b!"0000000009 00000 n \n0000000153 00000 n \n") (t := [])
      ⟨by decide, by decide, by decide⟩ ⟨by decide, by decide, by decide⟩ (by unfold Blanks; decide) (by decide) ⟨by decide, by decide⟩
      (.cons (s := b!"0000000009 00000 n \n") (t := b!"0000000153 00000 n \n") (.inUse (x := b!"0000000009") (y := b!"00000") (b1 := b!" ") (b2 := b!" ") (b3 := b!" ") (e := b!"\n") ⟨by decide, by decide, by decide⟩ ⟨by decide, by decide, by decide⟩ (by unfold Blanks; decide) (by decide) (by decide) ⟨by decide, by decide⟩)
        (.cons (s := b!"0000000153 00000 n \n") (t := b!"") (.inUse (x := b!"0000000153") (y := b!"00000") (b1 := b!" ") (b2 := b!" ") (b3 := b!" ") (e := b!"\n") ⟨by decide, by decide, by decide⟩ ⟨by decide, by decide, by decide⟩ (by unfold Blanks; decide) (by decide) (by decide) ⟨by decide, by decide⟩)
        .nil)) .nil
  exact .inl ⟨b!"\n", b!"3 2\n0000000009 00000 n \n0000000153 00000 n \n", [], b!"\n", [], b!"<</Size 5/Root 4 0 R/Prev 265>>", b!"\n", rfl, ⟨by decide, by decide⟩, hr, by unfold Blanks; decide, ⟨by decide, by decide⟩, by decide, hd⟩

def linMain : FileSec := ⟨265, b!"xref\n0 3\n0000000000 65535 f \n0000000198 00000 n \n0000000233 00000 n \ntrailer\n<</Size 3/Info 2 0 R>>\nstartxref", none, [⟨0, [.free 0 65535, .inUse 198 0, .inUse 233 0]⟩], [(b!"/Size", .int 3), (b!"/Info", .ref 0 2)]⟩

theorem linMain_text [Zlib] : linMain.Text := by
  have hd : Spells false false (.dict [(b!"/Size", .int 3), (b!"/Info", .ref 0 2)]) b!"<</Size 3/Info 2 0 R>>" := (.dict (t := b!"/Size 3/Info 2 0 R") (.cons (g := []) (s := b!"/Size") (t := b!" 3/Info 2 0 R") .nil (.name (s := b!"/Size") (by decide)) (.cons (g := b!" ") (s := b!"3") (t := b!"/Info 2 0 R") (white_gap (by decide)) (.int (s := b!"3") ⟨[], false, b!"3", rfl, .none, by decide, by decide, by decide⟩) (.cons (g := []) (s := b!"/Info") (t := b!" 2 0 R") .nil (.name (s := b!"/Info") (by decide)) (.cons (g := b!" ") (s := b!"2 0 R") (t := b!"") (white_gap (by decide)) (.ref (s := b!"2") (t := b!"0") (g := b!" ") (g' := b!" ") (n := 2) (m := 0) ⟨[], false, b!"2", rfl, .none, by decide, by decide, by decide⟩ ⟨[], false, b!"0", rfl, .none, by decide, by decide, by decide⟩ (by decide) (white_gap (by decide)) (by decide) (white_gap (by decide)) (by decide)) (.nil .nil) (.inr (.inl rfl))) (.inr (.inr ⟨_, _, rfl, by decide⟩))) (.inr (.inr ⟨_, _, rfl, by decide⟩))) (.inr (.inr ⟨_, _, rfl, by decide⟩))) (by decide) (by decide))
  have hr : RunsText [⟨0, [.free 0 65535, .inUse 198 0, .inUse 233 0]⟩] b!"0 3\n0000000000 65535 f \n0000000198 00000 n \n0000000233 00000 n \n" :=
    .cons (r := ⟨0, [.free 0 65535, .inUse 198 0, .inUse 233 0]⟩) (x := b!"0") (y := b!"3") (b1 := b!" ") (b2 := []) (e := b!"\n") (s := b!"0000000000 65535 f \n0000000198 00000 n \n0000000233 00000 n \n") (t := [])
      ⟨by decide, by decide, by decide⟩ ⟨by decide, by decide, by decide⟩ (by unfold Blanks; decide) (by decide) ⟨by decide, by decide⟩
      (.cons (s := b!"0000000000 65535 f \n") (t := b!"0000000198 00000 n \n0000000233 00000 n \n") (.free (x := b!"0000000000") (y := b!"65535") (b1 := b!" ") (b2 := b!" ") (b3 := b!" ") (e := b!"\n") ⟨by decide, by decide, by decide⟩ ⟨by decide, by decide, by decide⟩ (by unfold Blanks; decide) (by decide) (by decide) ⟨by decide, by decide⟩)
        (.cons (s := b!"0000000198 00000 n \n") (t := b!"0000000233 00000 n \n") (.inUse (x := b!"0000000198") (y := b!"00000") (b1 := b!" ") (b2 := b!" ") (b3 := b!" ") (e := b!"\n") ⟨by decide, by decide, by decide⟩ ⟨by decide, by decide, by decide⟩ (by unfold Blanks; decide) (by decide) (by decide) ⟨by decide, by decide⟩)
        (.cons (s := b!"0000000233 00000 n \n") (t := b!"") (.inUse (x := b!"0000000233") (y := b!"00000") (b1 := b!" ") (b2 := b!" ") (b3 := b!" ") (e := b!"\n") ⟨by decide, by decide, by decide⟩ ⟨by decide, by decide, by decide⟩ (by unfold Blanks; decide) (by decide) (by decide) ⟨by decide, by decide⟩)
        .nil))) .nil
  exact .inl ⟨b!"\n", b!"0 3\n0000000000 65535 f \n0000000198 00000 n \n0000000233 00000 n \n", [], b!"\n", [], b!"<</Size 3/Info 2 0 R>>", b!"\n", rfl, ⟨by decide, by decide⟩, hr, by unfold Blanks; decide, ⟨by decide, by decide⟩, by decide, hd⟩

theorem linDict_at [Zlib] : TextAt linPlain 9 3 0 (.dict [(b!"/Linearized", .int 1), (b!"/O", .int 4)]) := by
  have hd : Spells false false (.dict [(b!"/Linearized", .int 1), (b!"/O", .int 4)]) b!"<</Linearized 1/O 4>>" := (.dict (t := b!"/Linearized 1/O 4") (.cons (g := []) (s := b!"/Linearized") (t := b!" 1/O 4") .nil (.name (s := b!"/Linearized") (by decide)) (.cons (g := b!" ") (s := b!"1") (t := b!"/O 4") (white_gap (by decide)) (.int (s := b!"1") ⟨[], false, b!"1", rfl, .none, by decide, by decide, by decide⟩) (.cons (g := []) (s := b!"/O") (t := b!" 4") .nil (.name (s := b!"/O") (by decide)) (.cons (g := b!" ") (s := b!"4") (t := b!"") (white_gap (by decide)) (.int (s := b!"4") ⟨[], false, b!"4", rfl, .none, by decide, by decide, by decide⟩) (.nil .nil) (.inr (.inl rfl))) (.inr (.inr ⟨_, _, rfl, by decide⟩))) (.inr (.inr ⟨_, _, rfl, by decide⟩))) (.inr (.inr ⟨_, _, rfl, by decide⟩))) (by decide) (by decide))
  refine ⟨b!"3 0 obj <</Linearized 1/O 4>> endobj", linPlain.drop 45, by decide +kernel, b!"3", b!"0", b!" ", b!" ", b!" ", b!"<</Linearized 1/O 4>>", b!" ", rfl, ⟨[], false, b!"3", rfl, .none, by decide, by decide, by decide⟩, ⟨[], false, b!"0", rfl, .none, by decide, by decide, by decide⟩, .obj hd (by simp), by decide, by decide, by decide, white_gap (by decide), .inl (by decide), .inl (by decide)⟩

theorem linCatalog_at [Zlib] : TextAt linPlain 153 4 0 (.dict [(b!"/Type", .str b!"/Catalog"), (b!"/Pages", .ref 0 1)]) := by
  have hd : Spells false false (.dict [(b!"/Type", .str b!"/Catalog"), (b!"/Pages", .ref 0 1)]) b!"<</Type/Catalog/Pages 1 0 R>>" := (.dict (t := b!"/Type/Catalog/Pages 1 0 R") (.cons (g := []) (s := b!"/Type") (t := b!"/Catalog/Pages 1 0 R") .nil (.name (s := b!"/Type") (by decide)) (.cons (g := []) (s := b!"/Catalog") (t := b!"/Pages 1 0 R") .nil (.name (s := b!"/Catalog") (by decide)) (.cons (g := []) (s := b!"/Pages") (t := b!" 1 0 R") .nil (.name (s := b!"/Pages") (by decide)) (.cons (g := b!" ") (s := b!"1 0 R") (t := b!"") (white_gap (by decide)) (.ref (s := b!"1") (t := b!"0") (g := b!" ") (g' := b!" ") (n := 1) (m := 0) ⟨[], false, b!"1", rfl, .none, by decide, by decide, by decide⟩ ⟨[], false, b!"0", rfl, .none, by decide, by decide, by decide⟩ (by decide) (white_gap (by decide)) (by decide) (white_gap (by decide)) (by decide)) (.nil .nil) (.inr (.inl rfl))) (.inr (.inr ⟨_, _, rfl, by decide⟩))) (.inr (.inr ⟨_, _, rfl, by decide⟩))) (.inr (.inr ⟨_, _, rfl, by decide⟩))) (by decide) (by decide))
  refine ⟨b!"4 0 obj <</Type/Catalog/Pages 1 0 R>> endobj", linPlain.drop 197, by decide +kernel, b!"4", b!"0", b!" ", b!" ", b!" ", b!"<</Type/Catalog/Pages 1 0 R>>", b!" ", rfl, ⟨[], false, b!"4", rfl, .none, by decide, by decide, by decide⟩, ⟨[], false, b!"0", rfl, .none, by decide, by decide, by decide⟩, .obj hd (by simp), by decide, by decide, by decide, white_gap (by decide), .inl (by decide), .inl (by decide)⟩

theorem linPages_at [Zlib] : TextAt linPlain 198 1 0 (.dict [(b!"/Kids", .list []), (b!"/Count", .int 0)]) := by
  have hd : Spells false false (.dict [(b!"/Kids", .list []), (b!"/Count", .int 0)]) b!"<</Kids[]/Count 0>>" := (.dict (t := b!"/Kids[]/Count 0") (.cons (g := []) (s := b!"/Kids") (t := b!"[]/Count 0") .nil (.name (s := b!"/Kids") (by decide)) (.cons (g := []) (s := b!"[]") (t := b!"/Count 0") .nil (.array (t := b!"") (.nil .nil)) (.cons (g := []) (s := b!"/Count") (t := b!" 0") .nil (.name (s := b!"/Count") (by decide)) (.cons (g := b!" ") (s := b!"0") (t := b!"") (white_gap (by decide)) (.int (s := b!"0") ⟨[], false, b!"0", rfl, .none, by decide, by decide, by decide⟩) (.nil .nil) (.inr (.inl rfl))) (.inr (.inr ⟨_, _, rfl, by decide⟩))) (.inr (.inr ⟨_, _, rfl, by decide⟩))) (.inr (.inr ⟨_, _, rfl, by decide⟩))) (by decide) (by decide))
  refine ⟨b!"1 0 obj <</Kids[]/Count 0>> endobj", linPlain.drop 232, by decide +kernel, b!"1", b!"0", b!" ", b!" ", b!" ", b!"<</Kids[]/Count 0>>", b!" ", rfl, ⟨[], false, b!"1", rfl, .none, by decide, by decide, by decide⟩, ⟨[], false, b!"0", rfl, .none, by decide, by decide, by decide⟩, .obj hd (by simp), by decide, by decide, by decide, white_gap (by decide), .inl (by decide), .inl (by decide)⟩

theorem lin_listings : listings [linFirst, linMain] = [(0, .free 0 65535), (1, .inUse 198 0), (2, .inUse 233 0), (3, .inUse 9 0), (4, .inUse 153 0)] := by decide

theorem lin_inside {n c k : Nat} (h : (n, Mark.inside c k) ∈ listings [linFirst, linMain]) : False := by
  rw [lin_listings] at h
  simp at h

set_option maxRecDepth 10000 in
theorem C106_sample [Zlib] : FileText linPlain [linFirst, linMain] := by
  refine ⟨⟨linPlain.take 365, b!"startxref\n46\n%%EOF\n", linFirst, rfl, by decide +kernel, ?_⟩, ?_, ?_, ?_, ?_, ?_, ?_, by decide +kernel, by decide +kernel⟩
  · exact ⟨b!"\n", b!"46", b!"\n", b!"\n", rfl, ⟨by decide, by decide, by decide⟩, by decide, by decide, by decide, by decide, by decide⟩
  · intro s hs
    simp only [List.mem_cons, List.not_mem_nil, or_false] at hs
    rcases hs with rfl | rfl
    · exact ⟨linFirst_text, by decide, linPlain.drop 144, by decide +kernel⟩
    · exact ⟨linMain_text, by decide, linPlain.drop 374, by decide +kernel⟩
  · intro n p g h
    rw [lin_listings] at h
    have hl : linPlain.length = 384 := by decide +kernel
    simp only [List.mem_cons, Prod.mk.injEq, Mark.inUse.injEq, reduceCtorEq, and_false, false_or, List.not_mem_nil, or_false] at h
    omega
  · exact ⟨rfl, rfl, .inr ⟨_, rfl, by decide⟩, rfl, rfl, .inl (by simp), trivial⟩
  · intro newer s older hs n c k h
    exact (lin_inside (mem_listings.2 ⟨s, by rw [hs]; simp, h⟩)).elim
  · intro n c k c' k' h h'
    exact (lin_inside h).elim
  · intro n c k h
    exact (lin_inside h).elim

theorem C106_sample_linearized : Linearized [linFirst, linMain] := ⟨_, _, rfl, by decide⟩

theorem C106_sample_one : Used [linFirst, linMain] 1 := ⟨.inUse 198 0, by rw [lin_listings]; decide, by simp⟩

/-- The hypotheses can be met: the catalog and the root of the pages are shown; the trailer has keys of both sections. -/
example [Zlib] : ∃ d t, loads linPlain = .ok d ∧ d.cache[0]? = some (.dict t) ∧
    (∃ v, view d (.ref 0 4) = .ok v ∧ pyEq (.dict [(b!"/Type", .str b!"/Catalog"), (b!"/Pages", .ref 0 1)]) v = true) ∧
    (∃ v, view d (.ref 0 1) = .ok v ∧ pyEq (.dict [(b!"/Kids", .list []), (b!"/Count", .int 0)]) v = true) ∧
    (∃ x, view d (.ref 0 5) = .error x) ∧
    (∃ v, Dict.get? t b!"/Root" = some v ∧ pyEq (.ref 0 4) v = true) ∧ ∃ v, Dict.get? t b!"/Info" = some v ∧ pyEq (.ref 0 2) v = true := by
  obtain ⟨d, t, h1, h2, h3, h4, h5⟩ := C106_load_partial C106_sample C106_sample_linearized C106_sample_one
  refine ⟨d, t, h1, h2, h3 4 _ (by decide) (.direct (by decide) linCatalog_at) 0, h3 1 _ (by decide) (.direct (by decide) linPages_at) 0, h4 5 (by decide) ?_ 0,
    h5 b!"/Root" (by unfold FileKey MovingKey XrefKey; decide), h5 b!"/Info" (by unfold FileKey MovingKey XrefKey; decide)⟩
  rintro ⟨m, hm, -⟩
  rw [lin_listings] at hm
  simp at hm

/-- An update of the linearized file: the hypotheses of `C106_updates_rejected` that are about results of the functions. -/
def linTest [Zlib] : Bool :=
  match loads linPlain with
  | .ok d => decide (d.curData.eofCut = none) &&
    match ops [.set 2 (.int 7), .add (.str b!"/New")] d with
    | .ok d' => decide (changes d' ≠ [])
    | .error _ => false
  | .error _ => false

theorem linTest_true [Zlib] : linTest = true := by kernel_rfl

/-- The hypotheses can be met. -/
example [Zlib] : ∃ d d', loads linPlain = .ok d ∧ ops [.set 2 (.int 7), .add (.str b!"/New")] d = .ok d' ∧ ∃ x, commit d' = .error x := by
  have h := linTest_true
  unfold linTest at h
  split at h
  · rename_i d h1
    simp only [Bool.and_eq_true, decide_eq_true_eq] at h
    obtain ⟨k1, h⟩ := h
    split at h
    · rename_i d' h2
      simp only [decide_eq_true_eq] at h
      refine ⟨d, d', h1, h2, (C106_updates_rejected C106_sample C106_sample_linearized C106_sample_one h1 k1 ?_ h2 h).1⟩
      intro o ho
      simp only [List.mem_cons, List.not_mem_nil, or_false] at ho
      rcases ho with rfl | rfl
      · exact .inl ⟨2, _, rfl, by decide⟩
      · exact .inr ⟨_, rfl⟩
    · cases h
  · cases h

/-- A linearized file in which the number 1 is free. -/
def linFree : Bytes := b!"%PDF-1.5\n3 0 obj <</Linearized 1/O 4>> endobj\nxref\n3 2\n0000000009 00000 n \n0000000153 00000 n \ntrailer\n<</Size 5/Root 4 0 R/Prev 233>>\nstartxref\n0\n%%EOF\n4 0 obj <</Type/Catalog/Pages 2 0 R>> endobj\n2 0 obj <</Kids[]/Count 0>> endobj\nxref\n0 3\n0000000001 65535 f \n0000000000 00001 f \n0000000198 00000 n \ntrailer\n<</Size 3/Info 2 0 R>>\nstartxref\n46\n%%EOF\n"

/-- **C106, the number 1.** A linearized file in which the number 1 is free cannot be loaded. -/
theorem C106_one_counterexample [Zlib] : loads linFree = .error .attributeError := by kernel_rfl

end Pdf
