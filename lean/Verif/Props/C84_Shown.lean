/-
C84: all that `overview` shows, from the objects of the document.
-/
import Verif.Props.C85_Metadata
import Verif.Props.C31_MaxNb
import Verif.Props.C35_Slice
import Verif.Props.C53_Version

namespace Pdf
open Spec Spec.PageTree

theorem fileData_fdata {p : Provider} {rev : Rev} {x : Data} (h : fileData p rev = .ok x) : x.fdata = p ∧ x.eofCut ≠ none := by
  unfold fileData at h
  rcases hr : rev.getLast? with _ | ⟨_ | e | es⟩
  · rw [hr] at h; cases h
  · rw [hr] at h; cases h
  · rw [hr] at h
    simp only at h
    obtain ⟨a, -, h⟩ := bind_eq_ok h
    obtain ⟨b, -, h⟩ := bind_eq_ok h
    obtain ⟨c, -, h⟩ := bind_eq_ok h
    cases h
    exact ⟨rfl, by simp⟩
  · rw [hr] at h; cases h

theorem mapM_each {α β : Type} {f : α → Py β} {P : β → Prop} (hf : ∀ a b, f a = .ok b → P b) : ∀ {l : List α} {r : List β},
    l.mapM f = .ok r → ∀ y ∈ r, P y
  | [], r, h => by cases h; simp
  | a :: l, r, h => by
    rw [List.mapM_cons] at h
    obtain ⟨b, h1, h⟩ := bind_eq_ok h
    obtain ⟨bs, h2, h⟩ := bind_eq_ok h
    cases h
    intro y hy
    rcases List.mem_cons.1 hy with rfl | hy
    · exact hf _ _ h1
    · exact mapM_each hf h2 y hy

/-- The header and the first object are read in the file itself. -/
theorem loads_first [Zlib] {F : Bytes} {d : Doc} (h : loads F = .ok d) : d.firstData.fdata = .single F := by
  unfold loads docConstructor at h
  obtain ⟨d0, h0, h⟩ := bind_eq_ok h
  have hd : (∀ x ∈ d0.pastData, x.fdata = .single F) ∧ d0.curData.fdata = .single F ∧ d0.curData.eofCut ≠ none := by
    unfold initialDoc at h0
    obtain ⟨size, -, h0⟩ := bind_eq_ok h0
    obtain ⟨secs, -, h0⟩ := bind_eq_ok h0
    obtain ⟨⟨nxt, nb⟩, -, h0⟩ := bind_eq_ok h0
    obtain ⟨cols, -, h0⟩ := bind_eq_ok h0
    obtain ⟨revs, -, h0⟩ := bind_eq_ok h0
    obtain ⟨datas, hm, h0⟩ := bind_eq_ok h0
    have hall := mapM_each (P := fun x => x.fdata = .single F ∧ x.eofCut ≠ none) (fun a b => fileData_fdata) hm
    rcases hr : revs.map List.dropLast with _ | ⟨cur, past⟩
    · rw [hr] at h0; cases h0
    rcases datas with _ | ⟨x, xs⟩
    · rw [hr] at h0; cases h0
    · rw [hr] at h0
      simp only at h0
      obtain ⟨cache, -, h0⟩ := bind_eq_ok h0
      cases h0
      exact ⟨fun y hy => (hall y (by simp [hy])).1, hall x (by simp)⟩
  obtain ⟨h1, h2, h3⟩ := hd
  have last : ∀ (l : List Data) (x : Data), (∀ y ∈ l, y.fdata = .single F) → x.fdata = .single F → (l.getLastD x).fdata = .single F := by
    intro l x hl hx
    rw [List.getLastD_eq_getLast?]
    rcases he : l.getLast? with _ | y
    · exact hx
    · exact hl y (List.mem_of_getLast? he)
  by_cases hch : changes d0 = []
  · rw [C21_noop d0 hch] at h
    cases h
    exact last _ _ h1 h2
  · obtain ⟨p, cur, cache, data, t0, t1, -, hw, -, -, rfl⟩ := commit_inv h hch
    have hdata : data = d0.curData := by
      unfold writeRevision at hw
      rcases he : d0.curData.eofCut with _ | c
      · exact absurd he h3
      · rw [he] at hw
        cases hw
        rfl
    subst hdata
    exact last _ _ (by
      intro y hy
      rcases List.mem_cons.1 hy with rfl | hy
      · exact h2
      · exact h1 y hy) h2

theorem getObject_coherent [Zlib] {d d' : Doc} {r o : Obj} (hc : Coherent d) (h : getObject d r = .ok (o, d')) :
    Coherent d' ∧ storeOf d' = storeOf d ∧ (storeOf d).get r = .ok o := by
  have hr : (Prog.fetch r).run d = .ok (o, d') := by simp [Prog.fetch, Prog.run, h, bind, Except.bind]
  have ro : ReadOnly (Prog.fetch r) := .get _ _ fun o => .ret o
  have he := eval_of_run ro hc (m := o) (by rw [hr]; rfl)
  obtain ⟨d2, h1, h2, h3⟩ := run_readOnly_ok ro hc he
  rw [hr] at h1
  cases h1
  exact ⟨h2, h3, (eval_fetch_inv he).1⟩

theorem run_coherent [Zlib] {α : Type} {p : Prog α} (hp : ReadOnly p) {d d' : Doc} (hc : Coherent d) {a : α} (h : p.run d = .ok (a, d')) :
    Coherent d' ∧ storeOf d' = storeOf d ∧ eval p (storeOf d) = .ok (a, storeOf d) := by
  have he := eval_of_run hp hc (m := a) (by rw [h]; rfl)
  obtain ⟨d2, h1, h2, h3⟩ := run_readOnly_ok hp hc he
  rw [h] at h1
  cases h1
  exact ⟨h2, h3, he⟩

/-- The version, for a file. -/
theorem version_shown [Zlib] {F : Bytes} {d d' : Doc} {v : Bytes} (hF : d.firstData.fdata = .single F) (h8 : 8 ≤ F.length)
    (hc : Coherent d) {tr cat : Dict} {root : Obj} (htr : view d (.ref 0 0) = .ok (.dict tr))
    (hroot : Dict.get? tr b!"/Root" = some root) (hcat : view d root = .ok (.dict cat)) (h : version d = .ok (v, d')) :
    Coherent d' ∧ storeOf d' = storeOf d ∧
      Greatest v ((F.drop 5).take 3 :: (match Dict.get? cat b!"/Version" with
        | some (.str s) => [s.drop 1]
        | _ => [])) := by
  have hh : ∀ ver, headerVersion d = .ok ver → ver = (F.drop 5).take 3 := by
    intro ver hv
    unfold headerVersion at hv
    rw [hF] at hv
    simp only [Provider.read] at hv
    rw [if_neg (by omega)] at hv
    have e : (5 + (F.length : Int)) % (F.length : Int) = 5 := by
      rw [Int.add_emod_right]
      exact Int.emod_eq_of_lt (by omega) (by omega)
    rw [e] at hv
    simp only [bind, Except.bind] at hv
    rw [if_neg (by omega)] at hv
    split at hv
    · cases hv
      simp only [slice, List.drop_take]
      rfl
    · cases hv
  unfold version at h
  obtain ⟨ver, hv, h⟩ := bind_eq_ok h
  obtain rfl := hh ver hv
  obtain ⟨⟨co, ro, d1⟩, h1, h⟩ := bind_eq_ok h
  obtain ⟨t', d0, g1, g2, g3⟩ := catalog_inv h1
  obtain ⟨c1, s1, e1⟩ := getObject_coherent hc g1
  obtain ⟨c2, s2, e2⟩ := getObject_coherent c1 g3
  rw [← view_get, htr] at e1
  cases e1
  rw [hroot] at g2
  cases g2
  rw [s1, ← view_get, hcat] at e2
  cases e2
  have hs : storeOf d1 = storeOf d := by rw [s2, s1]
  simp only at h
  rcases hver : Dict.get? cat b!"/Version" with _ | x
  · rw [hver] at h
    cases h
    refine ⟨c2, hs, by simp, ?_⟩
    intro y hy
    simp only [List.mem_singleton] at hy
    rw [hy]
    exact strLt_irrefl _
  · rw [hver] at h
    simp only at h
    obtain ⟨x', hx, h⟩ := bind_eq_ok h
    cases x with
    | str s =>
      cases hx
      by_cases hlt : strLt ((F.drop 5).take 3) (s.drop 1) = true
      · rw [if_pos hlt] at h
        cases h
        refine ⟨c2, hs, by simp, ?_⟩
        intro y hy
        simp only [List.mem_cons, List.not_mem_nil, or_false] at hy
        rcases hy with rfl | rfl
        · cases hq : strLt (s.drop 1) ((F.drop 5).take 3)
          · rfl
          · have := strLt_trans hlt hq
            rw [strLt_irrefl] at this
            cases this
        · exact strLt_irrefl _
      · rw [if_neg hlt] at h
        cases h
        refine ⟨c2, hs, by simp, ?_⟩
        intro y hy
        simp only [List.mem_cons, List.not_mem_nil, or_false] at hy
        rcases hy with rfl | rfl
        · exact strLt_irrefl _
        · simpa using hlt
    | _ => cases hx

/-- The first page, as `page_layouts` shows it. -/
theorem layouts_first {s : Store} {t : PageTree} {lim : Nat} (hl : depth t ≤ lim) (ht : IsRoot s t) {l : List (Obj × Obj)} {lk : Dict}
    {x : Obj × Obj} (h : eval (pageLayouts lim [] (some 1)) s = .ok ((l, lk), s)) (hx : l.head? = some x) :
    ∃ b, (leaves [] t).head? = some b ∧ (Dict.get? b.2.1 b!"/MediaBox").or (nearest b!"/MediaBox" b.2.2) = some x.1 := by
  obtain ⟨full, J, h1, h2, -⟩ := flatPageTree_root (leak := []) hl ht
  obtain ⟨R, J', h3, h4⟩ := flatPageTree_bounded (m := 1) _ _ _ _ _ h1
  have h5 := flatPageTree_one _ _ _ _ _ h3
  unfold pageLayouts pagesP at h
  rw [eval_bind] at h
  obtain ⟨⟨⟨pl, lk'⟩, s1⟩, k1, k2⟩ := bind_eq_ok h
  clear h
  have h3' : eval (flatPageTree lim .null [] (some 1)) s = .ok ((R, J'), s) := h3
  rw [eval_bind_ok h3'] at k1
  dsimp only at k1
  have hbox : ∀ (fx : Obj × Dict) (b : Ref × Dict × List Dict) (pl' : List Obj) (s' : Store), Listed [] fx b → b ∈ leaves [] t →
      eval (pagesLoop [fx]) s = .ok (pl', s') → s' = s ∧ ∃ e, pl' = [.dict e] ∧ Dict.get? e b!"/MediaBox" =
        (Dict.get? b.2.1 b!"/MediaBox").or (nearest b!"/MediaBox" b.2.2) := by
    intro fx b pl' s' hL hb he
    obtain ⟨pl2, p1, p2⟩ := pagesLoop_spec (s := s) (.cons hL .nil) (m := [b]) (by
      intro b' hb'
      simp only [List.mem_singleton] at hb'
      subst hb'
      exact leaves_shown t [] ht.shown _ hb)
    rw [p1] at he
    cases he
    cases p2 with
    | cons p3 p4 =>
      cases p4
      obtain ⟨e, rfl, p5⟩ := p3
      refine ⟨rfl, e, rfl, ?_⟩
      rw [p5]
      have : b!"/MediaBox" ∈ inheritable := by decide
      simp [inh, this, Dict.get?]
  have key : ∀ fx b, R = [fx] → Listed [] fx b → b ∈ leaves [] t → ((Dict.get? b.2.1 b!"/MediaBox").or (nearest b!"/MediaBox" b.2.2)) = some x.1 := by
    intro fx b hR hL hb
    subst hR
    rw [eval_bind] at k1
    obtain ⟨⟨pl', s'⟩, k3, k4⟩ := bind_eq_ok k1
    clear k1
    obtain ⟨rfl, e, rfl, k5⟩ := hbox fx b pl' s' hL hb k3
    cases k4
    rw [eval_bind] at k2
    obtain ⟨⟨l', s2⟩, k6, k7⟩ := bind_eq_ok k2
    clear k2
    obtain ⟨k6', rfl⟩ := eval_lift_inv k6
    cases k7
    rw [List.mapM_cons] at k6'
    obtain ⟨y, k8, k9⟩ := bind_eq_ok k6'
    clear k6'
    cases k9
    cases hx
    unfold layoutOf at k8
    obtain ⟨box, k10, k11⟩ := bind_eq_ok k8
    clear k8
    obtain ⟨rot, -, k12⟩ := bind_eq_ok k11
    cases k12
    rw [← k5]
    simp only [getKey] at k10
    cases hg : Dict.get? e b!"/MediaBox" with
    | none => rw [hg] at k10; cases k10
    | some z => rw [hg] at k10; cases k10; rfl
  rcases hR : R with _ | ⟨fx, R'⟩
  · exfalso
    subst hR
    cases k1
    cases k2
    cases hx
  · have hR' : R' = [] := by
      rw [hR, List.length_cons] at h5
      exact List.eq_nil_of_length_eq_zero (by omega)
    subst hR'
    obtain ⟨full', hfull⟩ : ∃ full', full = fx :: full' := by
      rcases h4 with h4 | ⟨-, h4⟩
      · exact ⟨[], by rw [← h4, hR]⟩
      · rw [hR] at h4
        cases full with
        | nil => simp at h4
        | cons a f => simp at h4; exact ⟨f, by rw [h4]⟩
    subst hfull
    cases hlv : leaves [] t with
    | nil => rw [hlv] at h2; cases h2
    | cons b bs =>
      rw [hlv] at h2
      cases h2 with
      | cons h6 h7 => exact ⟨b, rfl, key fx b hR h6 (by rw [hlv]; simp)⟩

/-- **C84**: what `overview` shows, from the file and the objects of the document: the version is the greatest of the header and of the
catalog, the number of pages is the `/Count` of the root, the format is that of the first page (its box may be inherited), the
encryption is that of the trailer and the metadata are those of `metadata` (C85), hidden when the file is encrypted.

Missing from the full claim: page trees that are not well-formed (see C29). -/
theorem C84_shown_partial [Zlib] (lim : Nat) (F : Bytes) (d : Doc) (s : Structure) (m : List (Bytes × ShownText)) (hl : loads F = .ok d)
    (h8 : 8 ≤ F.length) (hc : Coherent d) (h : overview lim F = .ok (s, m)) {r : Ref} {nd : Dict} {kids : List PageTree}
    (ht : IsRoot (storeOf d) (.node r nd kids)) (hdep : depth (.node r nd kids) ≤ lim) (c : Int)
    (hcnt : Dict.get? nd b!"/Count" = some (.int c)) {tr cat : Dict} {root : Obj} (htr : view d (.ref 0 0) = .ok (.dict tr))
    (hroot : Dict.get? tr b!"/Root" = some root) (hcat : view d root = .ok (.dict cat)) :
    Greatest s.version ((F.drop 5).take 3 :: (match Dict.get? cat b!"/Version" with
        | some (.str v) => [v.drop 1]
        | _ => [])) ∧
    s.pages = .int c ∧
    s.encrypted = (match Dict.get? tr b!"/Encrypt" with | some o => truthy o | none => false) ∧
    (∃ o, linearized (.single F) = .ok o ∧ s.linearized = o.isSome) ∧
    (∃ b box, (leaves [] (.node r nd kids)).head? = some b ∧
      (Dict.get? b.2.1 b!"/MediaBox").or (nearest b!"/MediaBox" b.2.2) = some box ∧ paperName box = .ok s.paper) ∧
    ∃ mm, (metadataP.run d).map Prod.fst = .ok mm ∧ m = mm.map fun e => (e.1, match e.2, s.encrypted with
      | none, _ => .nothing
      | some _, true => .hidden
      | some t, false => .text t) := by
  unfold overview at h
  rw [hl] at h
  simp only [bind, Except.bind] at h
  obtain ⟨⟨s', d1⟩, hs, h⟩ := bind_eq_ok h
  obtain ⟨⟨mm, d2⟩, hm, h⟩ := bind_eq_ok h
  cases h
  have hF := loads_first hl
  unfold structureOf at hs
  obtain ⟨⟨v, d3⟩, g1, hs⟩ := bind_eq_ok hs
  obtain ⟨⟨pg, d4⟩, g2, hs⟩ := bind_eq_ok hs
  obtain ⟨⟨en, d5⟩, g3, hs⟩ := bind_eq_ok hs
  obtain ⟨hy, g4, hs⟩ := bind_eq_ok hs
  obtain ⟨li, g5, hs⟩ := bind_eq_ok hs
  obtain ⟨⟨⟨l, lk⟩, d6⟩, g6, hs⟩ := bind_eq_ok hs
  obtain ⟨box, g7, hs⟩ := bind_eq_ok hs
  obtain ⟨pp, g8, hs⟩ := bind_eq_ok hs
  cases hs
  obtain ⟨c3, s3, hver⟩ := version_shown hF h8 hc htr hroot hcat g1
  obtain ⟨c4, s4, e4⟩ := run_coherent readOnly_numberPages c3 g2
  obtain ⟨c5, s5, e5⟩ := run_coherent readOnly_encrypted c4 g3
  obtain ⟨c6, s6, e6⟩ := run_coherent (readOnly_pageLayouts _ _ _) c5 g6
  obtain ⟨c7, s7, e7⟩ := run_coherent readOnly_metadata c6 hm
  refine ⟨hver, ?_, ?_, ?_, ?_, mm, ?_, ?_⟩
  · rw [s3, eval_numberPages ht rfl hcnt] at e4
    cases e4
    rfl
  · obtain ⟨d', he⟩ := C84_encrypted d tr htr
    have := (run_coherent readOnly_encrypted hc he).2.2
    rw [s4, s3, this] at e5
    cases e5
    rfl
  · have f5 : d5 = { d with cache := d5.cache } := by
      rw [run_frame readOnly_encrypted g3, run_frame readOnly_numberPages g2, version_frame g1]
    refine ⟨li, ?_, rfl⟩
    rw [f5] at g5
    rw [← hF]
    exact g5
  · rw [s5, s4, s3] at e6
    cases hh : l.head? with
    | none => rw [hh] at g7; cases g7
    | some x =>
      rw [hh] at g7
      cases g7
      obtain ⟨b, q1, q2⟩ := layouts_first hdep ht e6 hh
      exact ⟨b, _, q1, q2, g8⟩
  · rw [s6, s5, s4, s3] at e7
    obtain ⟨d', q1, -⟩ := run_readOnly_ok readOnly_metadata hc e7
    rw [q1]
    rfl
  · refine List.map_congr_left ?_
    rintro ⟨k, t⟩ -
    cases t with
    | none => rfl
    | some t => cases en <;> rfl

/-- A file with a version in the catalog, two pages, the box of which is inherited, and a title. -/
def shownObjs : List Obj :=
  [.dict [(b!"/Root", .ref 0 1), (b!"/Info", .dict [(b!"/Title", .bytes b!"(a)")])],
   .dict [(b!"/Type", .str b!"/Catalog"), (b!"/Version", .str b!"/1.7"), (b!"/Pages", .ref 0 2)],
   .dict [(b!"/Type", .str b!"/Pages"), (b!"/Kids", .list [.ref 0 3, .ref 0 4]), (b!"/Count", .int 2),
     (b!"/MediaBox", .list [.int 10, .int 10, .int 622, .int 802])],
   .dict [(b!"/Type", .str b!"/Page"), (b!"/Parent", .ref 0 2)],
   .dict [(b!"/Type", .str b!"/Page"), (b!"/Parent", .ref 0 2)]]

/-- What is shown of it. -/
example [Zlib] : (do
    let (out, _) ← writeFile (memDoc shownObjs)
    let (s, m) ← overview 100 out
    return (s.version, s.pages, s.revisions, s.encrypted, s.paper, m.take 2)) =
      .ok (b!"1.7", .int 2, 1, false, b!"US Letter", [(b!"Title", .text [97]), (b!"Author", .nothing)]) := by
  kernel_rfl

/-- The hypotheses of `C84_shown_partial` about the objects are met by the loaded file. -/
example [Zlib] : (do
    let (out, _) ← writeFile (memDoc shownObjs)
    let d ← loads out
    let cat ← view d (.ref 0 1)
    let root ← view d (.ref 0 2)
    let kid ← view d (.ref 0 4)
    return (decide (8 ≤ out.length), getOr cat b!"/Pages", getOr root b!"/Count", getOr root b!"/Kids", getOr kid b!"/Type")) =
      .ok (true, .ok (.ref 0 2), .ok (.int 2), .ok (.list [.ref 0 3, .ref 0 4]), .ok (.str b!"/Page")) := by
  kernel_rfl

end Pdf
