/-
Writing a first revision with a cross-reference stream.
-/
import Verif.Lemmas.StreamLoad
import Verif.Props.C56_ObjStm

namespace Pdf
open Spec

/-- The object stream that a change is assigned to (0 for none). -/
def envOf (rev : Rev) (c : Change) : Nat :=
  if c.act = .d then 0 else match rev[c.num]? with
    | some (.one e) => e.envNum.getD 0
    | _ => 0

theorem envPass_elems (rev : Rev) : ∀ (l : List Change) (cache : List Obj) (xref : List XElem)
    {cache' : List Obj} {xref' : List XElem}, envPass rev l cache xref = .ok (cache', xref') →
    xref'.map (·.num) = xref.map (·.num) ++ (l.filter (fun c => envOf rev c ≠ 0)).map (·.num)
  | [], cache, xref, cache', xref', h => by
    cases h
    simp
  | c :: l, cache, xref, cache', xref', h => by
    unfold envPass at h
    obtain ⟨en, hen, h⟩ := bind_eq_ok h
    have hen' := entryAt_ok hen
    split at h
    · rename_i hc
      obtain ⟨obj, ho, h⟩ := bind_eq_ok h
      obtain ⟨old, hold, h⟩ := bind_eq_ok h
      obtain ⟨newEnv, hnew, h⟩ := bind_eq_ok h
      obtain ⟨pos, hpos, h⟩ := bind_eq_ok h
      have he : envOf rev c ≠ 0 := by simp [envOf, hc.1, hen', hc.2]
      rw [envPass_elems rev l _ _ h, List.filter_cons_of_pos (by simpa using he)]
      simp
    · rename_i hc
      have he : envOf rev c = 0 := by
        unfold envOf
        split
        · rfl
        · rename_i hd
          simp only [hen']
          exact Classical.byContradiction fun hh => hc ⟨hd, hh⟩
      rw [envPass_elems rev l _ _ h, List.filter_cons_of_neg (by simpa using he)]

theorem mainPass_elems [Zlib] (rev : Rev) (cache : List Obj) : ∀ (l : List Change) (st : Build) {st' : Build},
    mainPass rev cache l st = .ok st' →
    st'.xref.map (·.num) = st.xref.map (·.num) ++ (l.filter (fun c => ¬ envOf rev c ≠ 0)).map (·.num)
  | [], st, st', h => by
    cases h
    simp
  | c :: l, st, st', h => by
    unfold mainPass at h
    split at h
    · rename_i hd
      obtain ⟨gen, hgen, h⟩ := bind_eq_ok h
      have he : envOf rev c = 0 := by simp [envOf, hd]
      rw [mainPass_elems rev cache l _ h, List.filter_cons_of_pos (by simpa using he)]
      simp
    · rename_i hd
      obtain ⟨en, hen, h⟩ := bind_eq_ok h
      have hen' := entryAt_ok hen
      have he : envOf rev c = en.envNum.getD 0 := by simp [envOf, hd, hen']
      split at h
      · rename_i henv
        obtain ⟨o, ho, h⟩ := bind_eq_ok h
        obtain ⟨obj, hobj, h⟩ := bind_eq_ok h
        obtain ⟨block, hblk, h⟩ := bind_eq_ok h
        obtain ⟨index, hset, h⟩ := bind_eq_ok h
        rw [mainPass_elems rev cache l _ h, List.filter_cons_of_pos (by simp [he, henv])]
        simp
      · rename_i henv
        rw [mainPass_elems rev cache l _ h, List.filter_cons_of_neg (by simpa [he] using henv)]

theorem insertElem_perm (x : XElem) : ∀ l, (insertElem x l).Perm (x :: l)
  | [] => by simp [insertElem]
  | y :: l => by
    unfold insertElem
    split
    · exact .refl _
    · exact ((insertElem_perm x l).cons y).trans (.swap x y l)

theorem sortElems_perm (l : List XElem) : (sortElems l).Perm l := by
  unfold sortElems
  have : ∀ (l acc : List XElem), (l.foldl (fun acc x => insertElem x acc) acc).Perm (acc ++ l) := by
    intro l
    induction l with
    | nil => intro acc; simp
    | cons x l ih =>
      intro acc
      rw [List.foldl_cons]
      refine (ih _).trans ?_
      refine ((insertElem_perm x acc).append_right l).trans ?_
      exact (List.perm_middle (l₁ := acc) (l₂ := l) (a := x)).symm
  simpa using this l []

/-- Every change has exactly one element. -/
theorem passes_nodup [Zlib] {rev : Rev} {cache cache' : List Obj} {l : List Change}
    {xref : List XElem} {st st' : Build} (h1 : envPass rev l cache [] = .ok (cache', xref))
    (h2 : mainPass rev cache' l st = .ok st') (hx : st.xref = xref) (hnd : (l.map (·.num)).Nodup) :
    ((sortElems st'.xref).map (·.num)).Nodup := by
  refine (((sortElems_perm st'.xref).map (·.num)).nodup_iff).2 ?_
  rw [mainPass_elems rev cache' l st h2, hx, envPass_elems rev l cache [] h1, List.map_nil, List.nil_append, ← List.map_append]
  have := ((List.filter_append_perm (fun c => decide (envOf rev c ≠ 0)) l).map (·.num)).nodup_iff.2 hnd
  simpa using this

/-- The objects that go into an object stream, in order. -/
def membersOf (rev : Rev) (cache : List Obj) (l : List Change) (x : Nat) : List (Nat × Obj) :=
  (l.filter (fun c => envOf rev c = x)).map fun c => (c.num, (cache[c.num]?).getD .null)

theorem membersOf_set {rev : Rev} {cache : List Obj} {l : List Change} {x y : Nat} {o : Obj}
    (h : ∀ c ∈ l, envOf rev c = x → c.num ≠ y) : membersOf rev (cache.set y o) l x = membersOf rev cache l x := by
  unfold membersOf
  apply List.map_congr_left
  intro c hc
  obtain ⟨h1, h2⟩ := List.mem_filter.1 hc
  rw [getElem?_set_ne' _ _ (fun hh => h c h1 (by simpa using h2) hh.symm)]

/-- The object streams receive their objects. -/
theorem envPass_cache (rev : Rev) : ∀ (l : List Change) (cache : List Obj) (xref : List XElem)
    {cache' : List Obj} {xref' : List XElem}, envPass rev l cache xref = .ok (cache', xref') →
    (∀ c ∈ l, ∀ c' ∈ l, envOf rev c ≠ 0 → envOf rev c' ≠ 0 → c.num ≠ envOf rev c') →
    ∀ (x : Nat) (old : Obj), x ≠ 0 → cache[x]? = some old →
      ∃ new, cache'[x]? = some new ∧ appendAll (membersOf rev cache l x) old = .ok new
  | [], cache, xref, cache', xref', h => by
    cases h
    intro _ x old _ hx
    exact ⟨old, hx, rfl⟩
  | c :: l, cache, xref, cache', xref', h => by
    intro hsep x old hx hold
    have hsep' : ∀ c ∈ l, ∀ c' ∈ l, envOf rev c ≠ 0 → envOf rev c' ≠ 0 → c.num ≠ envOf rev c' :=
      fun a ha b hb => hsep a (by simp [ha]) b (by simp [hb])
    unfold envPass at h
    obtain ⟨en, hen, h⟩ := bind_eq_ok h
    have hen' := entryAt_ok hen
    split at h
    · rename_i hc
      obtain ⟨obj, ho, h⟩ := bind_eq_ok h
      obtain ⟨old', hold', h⟩ := bind_eq_ok h
      obtain ⟨newEnv, hnew, h⟩ := bind_eq_ok h
      obtain ⟨pos, hpos, h⟩ := bind_eq_ok h
      have he : envOf rev c = en.envNum.getD 0 := by simp [envOf, hc.1, hen']
      rw [← he] at h hold' hc
      have hlt := lt_of_getElem? (cacheAt_ok hold')
      have hm : ∀ z, z ≠ 0 → membersOf rev (cache.set (envOf rev c) newEnv) l z = membersOf rev cache l z := by
        intro z hz
        apply membersOf_set
        intro a ha hz'
        exact hsep a (by simp [ha]) c (by simp) (by omega) hc.2
      by_cases hxy : envOf rev c = x
      · subst hxy
        obtain ⟨new, k1, k2⟩ := envPass_cache rev l _ _ h hsep' (envOf rev c) newEnv hx (getElem?_set_eq' _ _ hlt)
        refine ⟨new, k1, ?_⟩
        rw [hm _ hx] at k2
        have := cacheAt_ok hold'
        rw [hold] at this
        cases this
        have hobj := cacheAt_ok ho
        unfold membersOf at k2 ⊢
        rw [List.filter_cons_of_pos (by simp)]
        simp only [List.map_cons, appendAll, hobj, Option.getD_some, hnew, bind, Except.bind]
        exact k2
      · obtain ⟨new, k1, k2⟩ := envPass_cache rev l _ _ h hsep' x old hx (by rw [getElem?_set_ne' _ _ hxy, hold])
        refine ⟨new, k1, ?_⟩
        rw [hm _ hx] at k2
        unfold membersOf at k2 ⊢
        rw [List.filter_cons_of_neg (by simpa using hxy)]
        exact k2
    · rename_i hc
      have he : envOf rev c = 0 := by
        unfold envOf
        split
        · rfl
        · rename_i hd
          simp only [hen']
          exact Classical.byContradiction fun hh => hc ⟨hd, hh⟩
      obtain ⟨new, k1, k2⟩ := envPass_cache rev l _ _ h hsep' x old hx hold
      refine ⟨new, k1, ?_⟩
      unfold membersOf at k2 ⊢
      rw [List.filter_cons_of_neg (by simp [he]; omega)]
      exact k2

/-- The entry that is read for an element. -/
def elemRead (x : XElem) : Option Entry :=
  if x.num = 0 ∨ x.free = true then none
  else if x.env.getD 0 ≠ 0 then
    some { num := x.num, envNum := some (x.env.getD 0), oPos := some (x.counter.getD 0),
           absPos := some (.tup (x.env.getD 0) (x.counter.getD 0)) }
  else some { num := x.num, gen := x.gen, absPos := some (.at (x.counter.getD 0 : Nat)) }

theorem streamEntries_elems {nf : List (Nat × Nat)} : ∀ (table : List XSRow) (elems : List XElem),
    table.map (fun r => (r.offset, r.env, r.num, r.gen, r.kw)) = elems.map (Spec.entryOf nf) →
    streamEntries table = .ok (elems.filterMap elemRead)
  | [], elems, h => by
    cases elems with
    | nil => rfl
    | cons => cases h
  | r :: table, [], h => by cases h
  | r :: table, x :: elems, h => by
    simp only [List.map_cons, List.cons.injEq] at h
    obtain ⟨h1, h2⟩ := h
    have ih := streamEntries_elems table elems h2
    unfold streamEntries
    rw [ih]
    unfold Spec.entryOf at h1
    simp only [bind, Except.bind]
    split at h1
    · rename_i hf
      simp only [Prod.mk.injEq] at h1
      rw [if_pos (.inr h1.2.2.2.2), List.filterMap_cons_none (by simp [elemRead, hf])]
    · rename_i hf
      have hf' : x.free = false := by simpa using hf
      split at h1
      · rename_i he
        simp only [Prod.mk.injEq] at h1
        obtain ⟨a1, a2, a3, a4, a5⟩ := h1
        by_cases hz : x.num = 0
        · rw [if_pos (.inl (by omega)), List.filterMap_cons_none (by simp [elemRead, hz])]
        · rw [if_neg (by rw [a5]; intro hh; rcases hh with hh | hh; omega; revert hh; decide), if_neg (by omega), a2]
          cases hxe : x.env with
          | none => simp [hxe] at he
          | some env =>
            have he' : env ≠ 0 := by simpa [hxe] using he
            simp only [if_pos he', a1, a3, a4]
            rw [List.filterMap_cons_some (b := { num := x.num, envNum := some env, oPos := some (x.counter.getD 0), absPos := some (.tup env (x.counter.getD 0)) }) (by simp [elemRead, hz, hf', hxe, he'])]
      · rename_i he
        simp only [Prod.mk.injEq] at h1
        obtain ⟨a1, a2, a3, a4, a5⟩ := h1
        by_cases hz : x.num = 0
        · rw [if_pos (.inl (by omega)), List.filterMap_cons_none (by simp [elemRead, hz])]
        · rw [if_neg (by rw [a5]; intro hh; rcases hh with hh | hh; omega; revert hh; decide), if_neg (by omega), a2]
          simp only [a1, a3, a4]
          rw [List.filterMap_cons_some (b := { num := x.num, gen := x.gen, absPos := some (.at (x.counter.getD 0 : Nat)) })
            (by simp only [elemRead]; rw [if_neg (by simp [hz, hf']), if_neg he])]

/-! ### What is written -/

/-- A set of new objects, some of them assigned to object streams that are new too. -/
structure Packing (chg : List Change) (rev : Rev) (cache : List Obj) (xnum : Nat) : Prop where
  nodup : (chg.map (·.num)).Nodup
  nums : ∀ c ∈ chg, 1 ≤ c.num ∧ c.num < xnum ∧ c.act ≠ .d
  cell : ∀ c ∈ chg, ∃ en o, rev[c.num]? = some (.one en) ∧ cache[c.num]? = some o ∧ (en.envNum = none ∨
    ∃ env, en.envNum = some env ∧ WF false false o = true ∧ (∀ g n, o ≠ .ref g n) ∧ ∃ ce ∈ chg, ce.num = env ∧
      ∃ een, rev[env]? = some (.one een) ∧ een.envNum = none ∧ ∃ entries enc, cache[env]? = some (.stream entries [] enc) ∧
        Dict.get? entries b!"/Type" = some (.str b!"/ObjStm") ∧ Dict.get? entries b!"/First" = none ∧
        Dict.get? entries b!"/N" = none ∧ Dict.get? entries b!"/FirstLine" = none)
  root : ∃ t, cache[0]? = some (.dict t) ∧ WF false false (.dict t) = true ∧ Dict.get? t b!"/Prev" = none ∧
    Dict.get? t b!"/XRefStm" = none

theorem parseObjectStream_readBack [Zlib] {d : Dict} {c e : Bytes} (hnd : (d.map Prod.fst).Nodup) {f n : Int}
    (hf : Dict.get? d b!"/First" = some (.int f)) (hn : Dict.get? d b!"/N" = some (.int n)) :
    parseObjectStream (readBack (.stream d c e)) = parseObjectStream (.stream d c e) := by
  simp only [readBack, parseObjectStream]
  rw [get?_norm hnd, get?_norm hnd, hf, hn]
  rfl

theorem embObj_at : ∀ {members : List Embedded} {x : Nat} {m : Embedded} {n : Nat}, (members.map (·.num)).Nodup →
    members[x]? = some m → m.num = .int n → embObj members n = some m.obj
  | [], x, m, n, _, h, _ => by simp at h
  | a :: members, 0, m, n, _, h, hn => by
    simp only [List.getElem?_cons_zero, Option.some.injEq] at h
    subst h
    simp [embObj, hn]
  | a :: members, x + 1, m, n, hnd, h, hn => by
    rw [List.getElem?_cons_succ] at h
    rw [List.map_cons, List.nodup_cons] at hnd
    have := embObj_at hnd.2 h hn
    unfold embObj at this ⊢
    rw [List.find?_cons_of_neg]
    · exact this
    · simp only [decide_eq_true_eq]
      intro ha
      apply hnd.1
      rw [ha, ← hn]
      exact List.mem_map_of_mem (List.mem_of_getElem? h)

theorem elemRead_num {x : XElem} {e : Entry} (h : elemRead x = some e) : e.num = x.num ∧ x.num ≠ 0 ∧ x.free = false := by
  unfold elemRead at h
  split at h
  · cases h
  · rename_i hh
    refine ⟨?_, fun h => hh (.inl h), by simpa using fun h => hh (.inr h)⟩
    split at h <;> (cases h; rfl)

theorem elemRead_nodup : ∀ {elems : List XElem}, (elems.map (·.num)).Nodup → ((elems.filterMap elemRead).map (·.num)).Nodup
  | [], _ => by simp
  | x :: l, hnums => by
    rw [List.map_cons, List.nodup_cons] at hnums
    have ih := elemRead_nodup hnums.2
    cases hr : elemRead x with
    | none => rw [List.filterMap_cons_none hr]; exact ih
    | some e =>
      rw [List.filterMap_cons_some hr, List.map_cons, List.nodup_cons]
      refine ⟨?_, ih⟩
      intro hh
      obtain ⟨e', k1, k2⟩ := List.mem_map.1 hh
      obtain ⟨x', k3, k4⟩ := List.mem_filterMap.1 k1
      apply hnums.1
      refine List.mem_map.2 ⟨x', k3, ?_⟩
      have a := (elemRead_num hr).1
      have b := (elemRead_num k4).1
      omega

/-- The result of writing a set of new objects: the file has one cross-reference section, and the objects can be found. -/
structure PackedOut [Zlib] (F : Bytes) (pos xnum : Nat) (t : Dict) (objs : List Entry) (chg : List Change) (rev : Rev)
    (cache cache' : List Obj) : Prop where
  file : PackedFile F pos xnum (normEntries t).reverse objs
  ends : fileEnd pos <:+ F
  listed : ∀ e ∈ objs, (e.num = xnum ∧ e.envNum = none) ∨ ∃ c ∈ chg, e.num = c.num ∧ ∃ en, rev[c.num]? = some (.one en) ∧
    e.envNum = en.envNum
  direct : ∀ c ∈ chg, ∀ en, rev[c.num]? = some (.one en) → en.envNum = none → ∃ e ∈ objs, ∃ p obj, e.num = c.num ∧
    e.envNum = none ∧ e.absPos = some (.at (p : Nat)) ∧ PointsAt F p c.num en.gen obj ∧ ToWrite cache' c.num obj
  packed : ∀ c ∈ chg, ∀ en env, rev[c.num]? = some (.one en) → en.envNum = some env → ∃ e ∈ objs, e.num = c.num ∧
    e.envNum = some env
  holds : ∀ c ∈ chg, ∀ en env o, rev[c.num]? = some (.one en) → en.envNum = some env → cache[c.num]? = some o →
    ∃ members, HoldsAt F objs env members ∧ ∃ m, embObj members c.num = some m ∧ pyEq o m = true
  source : ∃ (A content enc : Bytes) (table : List XSRow) (w ix : List Obj), F = A ++ fileEnd pos ∧ pos ≤ A.length ∧
    PointsAt F pos xnum 0 (.stream t content enc) ∧ Storable (.stream t content enc) ∧
    Dict.get? t b!"/W" = some (.list w) ∧ (∀ o ∈ w, ∃ k : Nat, o = .int k) ∧
    Dict.get? t b!"/Index" = some (.list ix) ∧ (∀ o ∈ ix, ∃ k : Nat, o = .int k) ∧
    parseXrefStreamRaw t content = .ok table ∧ streamEntries table = .ok objs

/-- What is known of a file made of one cross-reference stream: where it is, and what each of its entries leads to. -/
structure PackedSource [Zlib] (F : Bytes) (pos xnum : Nat) (t : Dict) (objs : List Entry) : Prop where
  file : PackedFile F pos xnum (normEntries t).reverse objs
  wf : WF false false (.dict t) = true
  source : ∃ (A content enc : Bytes) (table : List XSRow) (w ix : List Obj), F = A ++ fileEnd pos ∧ pos ≤ A.length ∧
    PointsAt F pos xnum 0 (.stream t content enc) ∧ Storable (.stream t content enc) ∧
    Dict.get? t b!"/W" = some (.list w) ∧ (∀ o ∈ w, ∃ k : Nat, o = .int k) ∧
    Dict.get? t b!"/Index" = some (.list ix) ∧ (∀ o ∈ ix, ∃ k : Nat, o = .int k) ∧
    parseXrefStreamRaw t content = .ok table ∧ streamEntries table = .ok objs
  says : ∀ e ∈ objs, e.num ≠ xnum → (∃ (p n gen : Nat) (obj : Obj), e.envNum = none ∧ e.absPos = some (.at p) ∧ PointsAt F p n gen obj ∧
      Storable obj) ∨ ∃ (n env : Nat) (members : List Embedded) (m : Obj), e.num = n ∧ e.envNum = some env ∧ env ≠ xnum ∧
        HoldsAt F objs env members ∧ embObj members n = some m
  self : ∀ e ∈ objs, e.num = xnum → e.envNum = none

/-- The trailer of a cross-reference stream, compared with what it was. -/
def XrefKey (k : Bytes) : Prop := k = b!"/Type" ∨ k = b!"/Length" ∨ k = b!"/W" ∨ k = b!"/Index"

/-- The content of a cross-reference stream: rows of the same width, beginning with their type; the last byte is the
generation of the stream itself. -/
def XrefContent (t : Dict) (content : Bytes) : Prop :=
  ∃ (b : Nat) (rows : List Bytes), content = rows.flatten ∧ Dict.get? t b!"/W" = some (.list [.int 1, .int b, .int b]) ∧
    (∀ r ∈ rows, ∃ ty rest, r = ty :: rest ∧ ty ≤ 2 ∧ rest.length = 2 * b) ∧ content.getLast? = some 0

theorem toBytes_length {b n : Nat} {x : Bytes} (h : toBytes b n = .ok x) : x.length = b := by
  unfold toBytes at h
  split at h
  · cases h; exact beBytes_length _ _
  · cases h

theorem xrefRow_shape {nf : List (Nat × Nat)} {b : Nat} {e : XElem} {r : Bytes} (h : xrefRow nf b e = .ok r) :
    ∃ ty rest, r = ty :: rest ∧ ty ≤ 2 ∧ rest.length = 2 * b := by
  unfold xrefRow at h
  split at h
  · obtain ⟨n, -, h⟩ := bind_eq_ok h
    obtain ⟨x, hx, h⟩ := bind_eq_ok h
    obtain ⟨y, hy, h⟩ := bind_eq_ok h
    cases h
    exact ⟨0, x ++ y, rfl, by decide, by rw [List.length_append, toBytes_length hx, toBytes_length hy]; omega⟩
  · obtain ⟨c, -, h⟩ := bind_eq_ok h
    split at h
    · obtain ⟨x, hx, h⟩ := bind_eq_ok h
      obtain ⟨y, hy, h⟩ := bind_eq_ok h
      cases h
      exact ⟨2, x ++ y, rfl, by decide, by rw [List.length_append, toBytes_length hx, toBytes_length hy]; omega⟩
    · obtain ⟨x, hx, h⟩ := bind_eq_ok h
      obtain ⟨y, hy, h⟩ := bind_eq_ok h
      cases h
      exact ⟨1, x ++ y, rfl, by decide, by rw [List.length_append, toBytes_length hx, toBytes_length hy]; omega⟩

theorem mapM_append_one {α β : Type} {f : α → Py β} : ∀ {l : List α} {a : α} {r : List β}, (l ++ [a]).mapM f = .ok r →
    ∃ r1 b, r = r1 ++ [b] ∧ f a = .ok b
  | [], a, r, h => by
    rw [List.nil_append, List.mapM_cons, List.mapM_nil] at h
    obtain ⟨b, hb, h⟩ := bind_eq_ok h
    cases h
    exact ⟨[], b, rfl, hb⟩
  | x :: l, a, r, h => by
    rw [List.cons_append, List.mapM_cons] at h
    obtain ⟨b, hb, h⟩ := bind_eq_ok h
    obtain ⟨r', hr, h⟩ := bind_eq_ok h
    cases h
    obtain ⟨r1, b', rfl, h2⟩ := mapM_append_one hr
    exact ⟨b :: r1, b', rfl, h2⟩

theorem xrefContent_of {nf : List (Nat × Nat)} {b : Nat} {elems : List XElem} {xnum c : Nat} {rows : List Bytes} {t : Dict}
    {content : Bytes} (hb : 1 ≤ b) (hc : content = rows.flatten)
    (hm : (elems ++ [(⟨false, xnum, 0, some c, none⟩ : XElem)]).mapM (xrefRow nf b) = .ok rows)
    (hw : Dict.get? t b!"/W" = some (.list [.int 1, .int b, .int b])) : XrefContent t content := by
  refine ⟨b, rows, hc, hw, ?_, ?_⟩
  · intro r hr
    obtain ⟨i, hi⟩ := List.mem_iff_getElem?.1 hr
    obtain ⟨hl, hat⟩ := mapM_at hm
    have hlt : i < (elems ++ [(⟨false, xnum, 0, some c, none⟩ : XElem)]).length := by
      rw [← hl]; exact lt_of_getElem? hi
    obtain ⟨y, y1, y2⟩ := hat i _ (List.getElem?_eq_getElem hlt)
    rw [hi] at y1
    cases y1
    exact xrefRow_shape y2
  · obtain ⟨r1, r, rfl, hr⟩ := mapM_append_one hm
    rw [hc, List.flatten_append]
    unfold xrefRow at hr
    simp only [Bool.false_eq_true, if_false, Option.getD_none, ne_eq, not_true_eq_false] at hr
    obtain ⟨c', -, hr⟩ := bind_eq_ok hr
    obtain ⟨x, hx, hr⟩ := bind_eq_ok hr
    obtain ⟨y, hy, hr⟩ := bind_eq_ok hr
    cases hr
    obtain ⟨k, rfl⟩ : ∃ k, b = k + 1 := ⟨b - 1, by omega⟩
    unfold toBytes at hy
    split at hy
    · cases hy
      have : ∀ (a b : Bytes), (a ++ (1 :: x ++ (b ++ [(0 : UInt8)]))).getLast? = some 0 := by
        intro a b
        rw [← List.append_assoc, ← List.append_assoc, List.getLast?_concat]
      simpa [beBytes] using this r1.flatten (beBytes k 0)
    · cases hy

/-- Rows of at most nine bytes never contain the keyword, since their types are small. -/
theorem rows_at {w : Nat} : ∀ {rows : List Bytes} {j : Nat} {c : UInt8},
    (∀ r ∈ rows, ∃ ty rest, r = ty :: rest ∧ ty ≤ 2 ∧ rest.length = w) → rows.flatten[(w + 1) * j]? = some c → c ≤ 2
  | [], j, c, _, h => by simp at h
  | r :: rows, j, c, hr, h => by
    obtain ⟨ty, rest, rfl, h1, h2⟩ := hr r (by simp)
    cases j with
    | zero => simp at h; rw [← h]; exact h1
    | succ j =>
      rw [List.flatten_cons, List.getElem?_append_right (by simp [h2, Nat.mul_add])] at h
      refine rows_at (w := w) (rows := rows) (fun r hr' => hr r (by simp [hr'])) (j := j) ?_
      rw [← h]
      congr 1
      simp [h2, Nat.mul_add]

theorem xrefContent_clean {t : Dict} {content : Bytes} (h : XrefContent t content)
    (hw : ∀ b : Nat, Dict.get? t b!"/W" = some (.list [.int 1, .int b, .int b]) → b ≤ 4) :
    content ≠ [] ∧ ¬ b!"endstream" <:+: content ∧ content.getLast? ≠ some 13 := by
  obtain ⟨b, rows, h1, h2, h3, h4⟩ := h
  have hb := hw b h2
  refine ⟨(fun e => by rw [e] at h4; cases h4), ?_, by rw [h4]; decide⟩
  rintro ⟨A, B, hAB⟩
  have hk : ∃ j, A.length ≤ (2 * b + 1) * j ∧ (2 * b + 1) * j < A.length + 9 := by
    refine ⟨(A.length + 2 * b) / (2 * b + 1), ?_, ?_⟩
    · have := Nat.div_add_mod (A.length + 2 * b) (2 * b + 1)
      have := Nat.mod_lt (A.length + 2 * b) (show 0 < 2 * b + 1 by omega)
      omega
    · have := Nat.div_add_mod (A.length + 2 * b) (2 * b + 1)
      omega
  obtain ⟨j, k1, k2⟩ := hk
  generalize hm : (2 * b + 1) * j = m at k1 k2
  have hc : content[m]? = (b!"endstream")[m - A.length]? := by
    rw [← hAB, List.append_assoc, List.getElem?_append_right k1, List.getElem?_append_left (by simp; omega)]
  have hlt : m - A.length < 9 := by omega
  have hval : ∀ i, i < 9 → ∃ c, (b!"endstream")[i]? = some c ∧ ¬ c ≤ 2 := by decide
  obtain ⟨c, c1, c2⟩ := hval _ hlt
  rw [c1, h1, ← hm] at hc
  exact c2 (rows_at h3 hc)

theorem packed_build [Zlib] {chg : List Change} {rev : Rev} {cache cache' : List Obj} {pre new : Bytes} {xnum : Nat} {idx : Rev}
    (hP : Packing chg rev cache xnum) (h : buildRevision chg rev cache pre.length xnum = .ok (new, idx, cache'))
    (hx0 : xnum ≠ 0)
    (hclean : ∀ c ∈ chg, ∀ obj, ToWrite cache' c.num obj → (∃ en, rev[c.num]? = some (.one en) ∧ en.envNum = none) → Storable obj)
    (hxs : ∀ p t content enc, WF false false (.dict t) = true → fileEnd p <:+ new →
      PointsAt (pre ++ new) p xnum 0 (.stream t content enc) → encodeStream content t = .ok enc →
      XrefContent t content → cache'[0]? = some (.dict t) →
      (∀ t0, cache[0]? = some (.dict t0) → ∀ k, ¬ XrefKey k → Dict.get? t k = Dict.get? t0 k) → Storable (.stream t content enc)) :
    ∃ pos t t' objs, cache[0]? = some (.dict t) ∧ (∀ k, ¬ XrefKey k → Dict.get? t' k = Dict.get? t k) ∧
      WF false false (.dict t') = true ∧ cache'[0]? = some (.dict t') ∧
      (∀ n, (∀ c ∈ chg, ∀ en, rev[c.num]? = some (.one en) → en.envNum ≠ some n) → n ≠ 0 → cache'[n]? = cache[n]?) ∧
      PackedOut (pre ++ new) pos xnum t' objs chg rev cache cache' := by
  obtain ⟨xref, st, trailer, trailer', built, e0, ex, block, cache1, h1, h2, h3, h4, h5, h6, h7, h8, h9, h10⟩ :=
    buildRevision_stream_inv hx0 h
  obtain ⟨p1, -, p3, -, p5⟩ := envPass_spec rev _ _ _ h1
  obtain ⟨t, r1, r2, r3, r4⟩ := hP.root
  have h0 : ∀ c ∈ chg, c.num ≠ 0 := fun c hc => by have := hP.nums c hc; omega
  have hcell0 : ∀ c ∈ (⟨0, 0, .d⟩ :: chg : List Change), ∀ en, c.act ≠ .d → rev[c.num]? = some (.one en) →
      en.envNum = none ∨ ∃ env, en.envNum = some env ∧ env ≠ 0 := by
    intro c hc en hd hen
    rcases List.mem_cons.1 hc with rfl | hc
    · exact absurd rfl hd
    obtain ⟨en', o, k1, -, k3⟩ := hP.cell c hc
    rw [hen] at k1
    cases k1
    rcases k3 with k3 | ⟨env, k3, -, -, ce, hce, rfl, -⟩
    · exact .inl k3
    · exact .inr ⟨_, k3, h0 ce hce⟩
  have hkeep : ∀ n, (∀ c ∈ chg, ∀ en, rev[c.num]? = some (.one en) → en.envNum ≠ some n) → cache1[n]? = cache[n]? := by
    intro n hn
    apply p5 n
    intro c hc en hd hen
    rcases List.mem_cons.1 hc with rfl | hc
    · exact absurd rfl hd
    · exact .inr (hn c hc en hen)
  have ht0 : trailer = t := by
    rw [hkeep 0 ?_, r1] at h3
    · cases h3; rfl
    intro c hc en hen hh
    rcases hcell0 c (by simp [hc]) en (hP.nums c hc).2.2 hen with k | ⟨env, k, k'⟩ <;> rw [k] at hh <;> cases hh
    exact k' rfl
  subst ht0
  obtain ⟨g1, ⟨more, g2⟩, -, -⟩ := mainPass_grows _ _ pre.length _ _ h2 rfl
  obtain ⟨maxc, rows, index, enc0, ser0, dd, -, -, -, hdd, -, htr', -, -⟩ := formatXrefStream_inv h5
  have hW : Dict.get? trailer' b!"/W" = some (.list [.int 1, .int (xrefWidth maxc), .int (xrefWidth maxc)]) := by
    rw [htr', hdd, Dict.get?_set, if_neg (by decide), Dict.get?_set, if_neg (by decide),
      Dict.get?_set, if_pos rfl]
  have hI : Dict.get? trailer' b!"/Index" = some (.list (index.map fun (n : Nat) => .int n)) := by
    rw [htr', hdd, Dict.get?_set, if_neg (by decide), Dict.get?_set, if_pos rfl]
  have hother : ∀ k, ¬ XrefKey k → Dict.get? trailer' k = Dict.get? trailer k := by
    intro k hk
    unfold XrefKey at hk
    have a1 : k ≠ b!"/Type" := fun e => hk (.inl e)
    have a2 : k ≠ b!"/Length" := fun e => hk (.inr (.inl e))
    have a3 : k ≠ b!"/W" := fun e => hk (.inr (.inr (.inl e)))
    have a4 : k ≠ b!"/Index" := fun e => hk (.inr (.inr (.inr e)))
    rw [htr', hdd, Dict.get?_set, if_neg a2, Dict.get?_set, if_neg a4, Dict.get?_set, if_neg a3, Dict.get?_set, if_neg a2,
      Dict.get?_set, if_neg a1]
  have hwf' : WF false false (.dict trailer') = true := by
    have hint : ∀ l : List Nat, WFItems true true (l.map fun (n : Nat) => Obj.int n) = true := by
      intro l
      induction l with
      | nil => rfl
      | cons a l ih => simp [WFItems, WF, ih]
    rw [htr', hdd]
    refine wf_set (wf_set (wf_set (wf_set (wf_set r2 (by decide) (by decide)) (by decide) rfl) (by decide) rfl) (by decide) ?_) (by decide) rfl
    simp only [WF]
    exact hint _
  obtain ⟨content, enc, ser, table, q1, q2, q3, q4, q5, bw, rws, q6, q7, q8, q9⟩ := xrefStream_parts _ _ _ _ _ _ h5
  have hF : pre ++ new = pre ++ st.frags ++ built ++ fileEnd st.counter := by rw [h9]; simp
  have hn : (pre ++ st.frags).length = st.counter := by rw [g1]; simp
  have hend : fileEnd st.counter <:+ new := ⟨_, h9.symm⟩
  have hpts : PointsAt (pre ++ new) st.counter xnum 0 (.stream trailer' content enc) := by
    refine ⟨ser, q2, ?_⟩
    rw [hF, List.append_assoc (pre ++ st.frags), List.drop_append, List.drop_eq_nil_of_le (by omega), hn, Nat.sub_self]
    refine ⟨fileEnd st.counter, ?_⟩
    rw [q1]
    simp [indirect, show natDec 0 = b!"0" from rfl]
  have hnd' : ((⟨0, 0, .d⟩ :: chg : List Change).map (·.num)).Nodup := by
    rw [List.map_cons, List.nodup_cons]
    refine ⟨?_, hP.nodup⟩
    intro hh
    obtain ⟨c, hc, hc'⟩ := List.mem_map.1 hh
    exact h0 c hc hc'
  generalize helems : sortElems st.xref ++ [⟨false, xnum, 0, some st.counter, none⟩] = elems at q5
  have hst := streamEntries_elems table elems q5
  generalize hobjs : elems.filterMap elemRead = objs at hst
  have hmem : ∀ e, e ∈ objs ↔ ∃ x ∈ elems, elemRead x = some e := by
    intro e
    rw [← hobjs, List.mem_filterMap]
  have hel : ∀ x, x ∈ elems ↔ x ∈ st.xref ∨ x = ⟨false, xnum, 0, some st.counter, none⟩ := by
    intro x
    rw [← helems, List.mem_append, mem_sortElems, List.mem_singleton]
  have hlim : (pre ++ new).length > st.counter := by
    rw [hF, List.length_append, List.length_append, hn]
    simp [fileEnd]
    omega
  have hdir := direct_elem h1 h2 hP.nodup h0
  have hcomp := passes_complete h1 h2 rfl pre.length rfl
  obtain ⟨moreM, -, -, -, -, -, m6⟩ := mainPass_spec rev cache1 pre _ _ h2 hnd' rfl (fun c _ e he => ⟨e, he, rfl⟩)
  -- every element
  have hclass : ∀ x ∈ st.xref, x.num ≠ 0 → ∃ c ∈ chg, x.num = c.num ∧ x.free = false ∧ ∃ en, rev[c.num]? = some (.one en) ∧
      x.env = en.envNum := by
    intro x hx hx0
    rcases m6 x hx with k | ⟨k1, k2, c, k3, k4, k5⟩ | ⟨c, hc, en, obj, off, d1, d2, d3, d4, d5, d6, d7, d8, -⟩
    · rcases p1 x k with k | ⟨k1, k2, k3, c, k4, en, k5, k6, k7, k8⟩
      · cases k
      · rcases List.mem_cons.1 k4 with rfl | k4
        · exact absurd rfl k5
        · exact ⟨c, k4, k6, k1, en, k7, k8.symm⟩
    · rcases List.mem_cons.1 k3 with rfl | k3
      · exact absurd k5 hx0
      · exact absurd k4 (hP.nums c k3).2.2
    · rcases List.mem_cons.1 hc with rfl | hc
      · exact absurd rfl d1
      · exact ⟨c, hc, d2, d8, en, d3, d7⟩
  have hlisted : ∀ e ∈ objs, (e.num = xnum ∧ e.envNum = none) ∨ ∃ c ∈ chg, e.num = c.num ∧ ∃ en, rev[c.num]? = some (.one en) ∧
      e.envNum = en.envNum := by
    intro e he
    obtain ⟨x, hx, hr⟩ := (hmem e).1 he
    rcases (hel x).1 hx with hx | rfl
    · obtain ⟨a1, a2, a3⟩ := elemRead_num hr
      obtain ⟨c, hc, b1, b2, en, b3, b4⟩ := hclass x hx a2
      refine .inr ⟨c, hc, by rw [a1, b1], en, b3, ?_⟩
      unfold elemRead at hr
      rw [if_neg (by simp [a2, a3])] at hr
      rcases hcell0 c (by simp [hc]) en (hP.nums c hc).2.2 b3 with k | ⟨env, k, k'⟩ <;> rw [b4, k] at hr
      · rw [if_neg (by simp)] at hr
        cases hr
        rw [k]
      · rw [if_pos (by simpa using k')] at hr
        cases hr
        rw [k]; rfl
    · left
      unfold elemRead at hr
      rw [if_neg (by simp [hx0]), if_neg (by simp)] at hr
      cases hr
      exact ⟨rfl, rfl⟩
  have hdirect : ∀ c ∈ chg, ∀ en, rev[c.num]? = some (.one en) → en.envNum = none → ∃ e ∈ objs, ∃ p obj, e.num = c.num ∧
      e.envNum = none ∧ e.absPos = some (.at (p : Nat)) ∧ PointsAt (pre ++ new) p c.num en.gen obj ∧ ToWrite cache' c.num obj := by
    intro c hc en hen hnone
    obtain ⟨x, hx, e1, e2, e3, -⟩ := hcomp c (by simp [hc])
    obtain ⟨en', f1, f2, f3⟩ := e3 (hP.nums c hc).2.2
    rw [hen] at f1
    cases f1
    have hfree : x.free = false := by rw [e2]; simpa using (hP.nums c hc).2.2
    obtain ⟨c', hc', en', obj, off, d1, d2, d3, d4, d5, d6, d7, d8, d9, d10, -⟩ := hdir x hx hfree (by rw [f3, hnone]; rfl)
    have hcn : c'.num = c.num := by rw [← d2, e1]
    rw [hcn] at d3 d9 d10
    rw [hen] at d3
    cases d3
    refine ⟨{ num := x.num, gen := x.gen, absPos := some (.at (off : Nat)) }, ?_, off, obj, by simp [e1], rfl, rfl, ?_, ?_⟩
    · refine (hmem _).2 ⟨x, (hel x).2 (.inl hx), ?_⟩
      unfold elemRead
      rw [if_neg (by simp [hfree, e1, h0 c hc]), if_neg (by simp [f3, hnone]), d6]
      rfl
    · rw [hF, List.append_assoc]
      exact pointsAt_append _ d10
    · obtain ⟨o, w1, w2⟩ := d9
      exact ⟨o, by rw [h4, getElem?_set_ne' _ _ (Ne.symm (h0 c hc)), w1], w2⟩
  have hpacked : ∀ c ∈ chg, ∀ en env, rev[c.num]? = some (.one en) → en.envNum = some env → ∃ e ∈ objs, e.num = c.num ∧
      e.envNum = some env := by
    intro c hc en env hen henv
    obtain ⟨x, hx, e1, e2, e3, -⟩ := hcomp c (by simp [hc])
    obtain ⟨en', f1, f2, f3⟩ := e3 (hP.nums c hc).2.2
    rw [hen] at f1
    cases f1
    have hfree : x.free = false := by rw [e2]; simpa using (hP.nums c hc).2.2
    have henv0 : env ≠ 0 := by
      rcases hcell0 c (by simp [hc]) en (hP.nums c hc).2.2 hen with k | ⟨env', k, k'⟩ <;> rw [henv] at k <;> cases k
      exact k'
    refine ⟨{ num := x.num, envNum := some env, oPos := some (x.counter.getD 0), absPos := some (.tup env (x.counter.getD 0)) }, ?_, by simp [e1], rfl⟩
    refine (hmem _).2 ⟨x, (hel x).2 (.inl hx), ?_⟩
    unfold elemRead
    rw [if_neg (by simp [hfree, e1, h0 c hc]), f3, henv, if_pos (by simpa using henv0)]
    rfl
  have hself : ∃ e ∈ objs, e.num = xnum ∧ e.envNum = none := by
    refine ⟨{ num := xnum, gen := 0, absPos := some (.at (st.counter : Nat)) }, (hmem _).2 ⟨_, (hel _).2 (.inr rfl), ?_⟩, rfl, rfl⟩
    unfold elemRead
    rw [if_neg (by simp [hx0]), if_neg (by simp)]
    rfl
  have hdistinct : (objs.map (·.num)).Nodup := by
    have hnums : (elems.map (·.num)).Nodup := by
      rw [← helems, List.map_append, List.map_cons, List.map_nil, List.nodup_append]
      refine ⟨passes_nodup h1 h2 rfl hnd', by simp, ?_⟩
      intro a ha b hb
      simp only [List.mem_singleton] at hb
      subst hb
      obtain ⟨x, hx, rfl⟩ := List.mem_map.1 ha
      rw [mem_sortElems] at hx
      by_cases hz : x.num = 0
      · omega
      · obtain ⟨c, hc, b1, -⟩ := hclass x hx hz
        have := (hP.nums c hc).2.1
        omega
    rw [← hobjs]
    exact elemRead_nodup hnums
  have hkinds : ∀ e ∈ objs, PackedEntry (pre ++ new).length xnum objs e := by
    intro e he
    obtain ⟨x, hx, hr⟩ := (hmem e).1 he
    obtain ⟨a1, a2, a3⟩ := elemRead_num hr
    rcases (hel x).1 hx with hx | rfl
    · obtain ⟨c, hc, b1, b2, en, b3, b4⟩ := hclass x hx a2
      have hb := hP.nums c hc
      unfold elemRead at hr
      rw [if_neg (by simp [a2, a3])] at hr
      obtain ⟨en', o, k1, k2, k3⟩ := hP.cell c hc
      rw [b3] at k1
      cases k1
      rcases k3 with k3 | ⟨env, k3, k4, k5, ce, hce, k6, een, k7, k8, -⟩
      · obtain ⟨c', hc', en', obj, off, d1, d2, d3, d4, d5, d6, d7, d8, d9, d10, -⟩ := hdir x hx a3 (by rw [b4, k3]; rfl)
        rw [b4, k3, if_neg (by simp), d6] at hr
        cases hr
        refine ⟨x.num, x.gen, by omega, by omega, .inl ⟨off, ?_, rfl⟩⟩
        obtain ⟨s, -, rest, hs⟩ := d10
        have : off < (pre ++ st.frags).length := by
          refine Classical.byContradiction fun hlt => ?_
          rw [List.drop_eq_nil_of_le (by omega)] at hs
          simp [indirect] at hs
        omega
      · have henv0 : env ≠ 0 := by rw [← k6]; exact h0 ce hce
        rw [b4, k3, if_pos (by simpa using henv0)] at hr
        cases hr
        refine ⟨x.num, _, by omega, by omega, .inr ⟨env, x.counter.getD 0, rfl, ?_⟩⟩
        obtain ⟨e', j1, p, obj, j2, j3, -⟩ := hdirect ce hce een (by rw [k6]; exact k7) k8
        exact ⟨e', j1, by rw [j2, k6], j3⟩
    · unfold elemRead at hr
      rw [if_neg (by simp [hx0]), if_neg (by simp)] at hr
      cases hr
      exact ⟨xnum, 0, by omega, by omega, .inl ⟨st.counter, hlim, rfl⟩⟩
  have hholds : ∀ c ∈ chg, ∀ en env o, rev[c.num]? = some (.one en) → en.envNum = some env → cache[c.num]? = some o →
      ∃ members, HoldsAt (pre ++ new) objs env members ∧ ∃ m, embObj members c.num = some m ∧ pyEq o m = true := by
    intro c hc en env o hen henv ho
    obtain ⟨en', o', k1, k2, k3⟩ := hP.cell c hc
    rw [hen] at k1
    cases k1
    rw [ho] at k2
    cases k2
    rcases k3 with k3 | ⟨env', k3, -, -, ce, hce, k6, een, k7, k8, entries, encE, k9, k10, k11, k12, k13⟩
    · rw [henv] at k3; cases k3
    rw [henv] at k3
    cases k3
    have henv0 : env ≠ 0 := by rw [← k6]; exact h0 ce hce
    have hof : ∀ c ∈ chg, ∀ en, rev[c.num]? = some (.one en) → envOf rev c = en.envNum.getD 0 := by
      intro c hc en hen
      simp [envOf, (hP.nums c hc).2.2, hen]
    have hsep : ∀ c ∈ (⟨0, 0, .d⟩ :: chg : List Change), ∀ c' ∈ (⟨0, 0, .d⟩ :: chg : List Change), envOf rev c ≠ 0 → envOf rev c' ≠ 0 →
        c.num ≠ envOf rev c' := by
      intro a ha b hb ha0 hb0 hab
      rcases List.mem_cons.1 ha with rfl | ha
      · exact ha0 rfl
      rcases List.mem_cons.1 hb with rfl | hb
      · exact hb0 rfl
      obtain ⟨eb, ob, j1, j2, j3⟩ := hP.cell b hb
      obtain ⟨ea, oa, i1, i2, i3⟩ := hP.cell a ha
      rw [hof b hb eb j1] at hab hb0
      rw [hof a ha ea i1] at ha0
      rcases j3 with j3 | ⟨envb, j3, -, -, cb, -, -, eenb, j7, j8, -⟩
      · rw [j3] at hb0; exact hb0 rfl
      · rw [j3] at hab
        simp only [Option.getD_some] at hab
        rw [← hab, i1] at j7
        cases j7
        rw [j8] at ha0
        exact ha0 rfl
    obtain ⟨envObj, f1, f2⟩ := envPass_cache rev _ _ _ h1 hsep env _ henv0 k9
    generalize hL : membersOf rev cache (⟨0, 0, .d⟩ :: chg) env = L at f2
    have hLmem : ∀ q ∈ L, ∃ c ∈ chg, ∃ en o, q = (c.num, o) ∧ rev[c.num]? = some (.one en) ∧ en.envNum = some env ∧
        cache[c.num]? = some o ∧ WF false false o = true ∧ ∀ g n, o ≠ .ref g n := by
      intro q hq
      rw [← hL] at hq
      unfold membersOf at hq
      obtain ⟨a, ha, rfl⟩ := List.mem_map.1 hq
      obtain ⟨ha1, ha2⟩ := List.mem_filter.1 ha
      simp only [decide_eq_true_eq] at ha2
      rcases List.mem_cons.1 ha1 with rfl | ha1
      · exact absurd ha2 (Ne.symm henv0)
      obtain ⟨ea, oa, i1, i2, i3⟩ := hP.cell a ha1
      rw [hof a ha1 ea i1] at ha2
      rcases i3 with i3 | ⟨enva, i3, i4, i5, -⟩
      · rw [i3] at ha2; exact absurd ha2 (Ne.symm henv0)
      · rw [i3] at ha2
        exact ⟨a, ha1, ea, oa, by rw [i2]; rfl, i1, by rw [i3]; exact congrArg some ha2, i2, i4, i5⟩
    have hcL : (c.num, o) ∈ L := by
      rw [← hL]
      unfold membersOf
      refine List.mem_map.2 ⟨c, List.mem_filter.2 ⟨by simp [hc], ?_⟩, by rw [ho]; rfl⟩
      rw [hof c hc en hen, henv]
      simp
    have hLnd : (L.map Prod.fst).Nodup := by
      rw [← hL]
      unfold membersOf
      rw [List.map_map]
      exact hnd'.sublist ((List.filter_sublist).map _)
    have hne : L ≠ [] := fun e => by rw [e] at hcL; cases hcL
    have hLwf : ∀ q ∈ L, WF false false q.2 = true ∧ ∀ g n, q.2 ≠ .ref g n := by
      intro q hq
      obtain ⟨a, -, ea, oa, rfl, -, -, -, i4, i5⟩ := hLmem q hq
      exact ⟨i4, i5⟩
    obtain ⟨ent', u1, u2, u3⟩ := appendAll_spec L entries [] [] encE (fun q hq => (hLwf q hq).1) (.inl ⟨k13, rfl⟩) f2 hne
    have hstm : isObjStm envObj = true := by
      rw [u1]
      unfold isObjStm
      simp only
      rw [u3 _ (by decide), k10]
      rfl
    obtain ⟨le, l1, p, obj, l2, l3, l4, l5, l6⟩ := hdirect ce hce een (by rw [k6]; exact k7) k8
    have hstor := hclean ce hce obj l6 ⟨een, by rw [k6]; exact k7, k8⟩
    rw [k6] at l5 l6
    obtain ⟨w, w1, w2⟩ := l6
    rw [h4, getElem?_set_ne' _ _ (Ne.symm henv0), f1] at w1
    cases w1
    rw [if_pos hstm] at w2
    obtain ⟨res, v1, v2, v3⟩ := C56_roundtrip_partial L entries encE envObj obj hne hLwf k11 k12 k13 f2 w2
    obtain ⟨fd, fe, x1, x2, x3, -⟩ := finalize_spec hne (fun q hq => (hLwf q hq).1) k11 k12 k13 f2 w2
    have hfnd : (fd.map Prod.fst).Nodup := by
      rw [x1] at hstor
      exact (wf_dict_iff.1 hstor.1).2
    have hback : parseObjectStream (readBack obj) = .ok res := by
      rw [← v1, x1]
      exact parseObjectStream_readBack hfnd x2 x3
    have hresnum : res.map (·.num) = L.map fun q => Obj.int q.1 := by
      apply List.ext_getElem?
      intro i
      rw [List.getElem?_map, List.getElem?_map]
      cases hq : L[i]? with
      | none =>
        have := List.getElem?_eq_none_iff.1 hq
        rw [List.getElem?_eq_none (by omega)]
        rfl
      | some q =>
        obtain ⟨e, y1, y2, -⟩ := v3 i q hq
        rw [y1]
        simp [y2]
    have hresnd : (res.map (·.num)).Nodup := by
      rw [hresnum, show (L.map fun q => Obj.int q.1) = (L.map Prod.fst).map fun n : Nat => Obj.int n by rw [List.map_map]; rfl]
      refine List.pairwise_map.2 (hLnd.imp ?_)
      intro a b hab hh
      apply hab
      have := Obj.int.inj hh
      omega
    refine ⟨res, ⟨le, p, env, een.gen, obj, l1, by rw [l2, k6], l3, l4, l5, hstor, hback, hresnd, ?_⟩, ?_⟩
    · intro x hx
      have : x.num ∈ L.map fun q => Obj.int q.1 := by rw [← hresnum]; exact List.mem_map_of_mem hx
      obtain ⟨q, hq, hqx⟩ := List.mem_map.1 this
      obtain ⟨a, ha, ea, oa, rfl, i1, i2, -⟩ := hLmem q hq
      obtain ⟨e, z1, z2, z3⟩ := hpacked a ha ea env i1 i2
      exact ⟨e, z1, by rw [← hqx, z2], z3⟩
    · obtain ⟨i, hi⟩ := List.mem_iff_getElem?.1 hcL
      obtain ⟨e, y1, y2, y3, -⟩ := v3 i _ hi
      exact ⟨e.obj, embObj_at hresnd y1 y2, y3⟩
  refine ⟨st.counter, trailer, trailer', objs, r1, hother, hwf', ?_, ?_, ?_⟩
  · rw [h4, getElem?_set_eq' _ _ (lt_of_getElem? h3)]
  · intro n hn' hn0
    rw [h4, getElem?_set_ne' _ _ (Ne.symm hn0), hkeep n hn']
  · have hstor := hxs _ _ _ _ hwf' hend hpts q3 (xrefContent_of q6 q7 q8 q9)
      (by rw [h4, getElem?_set_eq' _ _ (lt_of_getElem? h3)]) (fun t0 k0 => by rw [r1] at k0; cases k0; exact hother)
    have hw' : ∀ o ∈ [Obj.int 1, .int (xrefWidth maxc), .int (xrefWidth maxc)], ∃ k : Nat, o = .int k := by
      intro o ho
      simp only [List.mem_cons, List.not_mem_nil, or_false] at ho
      rcases ho with rfl | rfl | rfl
      · exact ⟨1, rfl⟩
      · exact ⟨_, rfl⟩
      · exact ⟨_, rfl⟩
    have hi' : ∀ o ∈ index.map fun (n : Nat) => Obj.int n, ∃ k : Nat, o = .int k := by
      intro o ho
      obtain ⟨k, -, rfl⟩ := List.mem_map.1 ho
      exact ⟨k, rfl⟩
    refine ⟨?_, ⟨pre ++ st.frags ++ built, hF.symm⟩, hlisted, hdirect, hpacked, hholds, pre ++ st.frags ++ built, content, enc, table,
      _, _, hF, by rw [List.length_append, hn]; omega, hpts, hstor, hW, hw', hI, hi', q4, hst⟩
    refine packedFile_of (by rw [g1, g2]; simp; omega) hpts hstor hW hw' hI hi' q4 hst ?_ ?_ hkinds hself hdistinct
    · rw [hother _ (by unfold XrefKey; decide), r3]
    · rw [hother _ (by unfold XrefKey; decide), r4]

end Pdf
