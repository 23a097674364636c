/-
Lemmas for the disassembly: what the sections of a file and the regions of its map have in common.
-/
import Verif.Model.Disasm
import Verif.Props.C46_FileMap
import Verif.Props.C48_Checks
import Verif.Props.C62_Pending

namespace Pdf

/-- The token where the object of an indirect object begins. -/
def objStart (F : Bytes) (a : Nat) : Nat :=
  (nextToken F (nextToken F (nextToken F (nextToken F a).2.1).2.1).2.1).1

/-- What a section of the chain was read from. -/
def SecRead [Zlib] (F : Bytes) (s : Section) : Prop :=
  s.trailer.num = 0 ∧
  ((∃ (a : Nat) (b e : Nat) (rows : List XRow) (tr : Obj), s.trailer.xrefTablePos = some (a : Int) ∧
      slice F a (a + 4) = b!"xref" ∧ parseXrefTableRaw F a = .ok (some (b, e, rows, tr)) ∧
      tableEntries rows = .ok s.objs) ∨
   (∃ (x : Int) (a : Nat) (entries : Dict) (st enc : Bytes) (rows : List XSRow), s.trailer.xrefTablePos = none ∧
      s.trailer.xrefStreamPos = some x ∧ (a : Int) = (x + F.length) % (F.length : Int) ∧ slice F a (a + 4) ≠ b!"xref" ∧
      parseObj F (objStart F a) = .ok (.stream entries st enc) ∧ parseXrefStreamRaw entries st = .ok rows ∧
      streamEntries rows = .ok s.objs))

theorem single_read_pos {B b : Bytes} {start length x y z : Int}
    (h : (Provider.single B).read start length = .ok (b, x, y, z)) :
    b = B ∧ x = (start + B.length) % (B.length : Int) := by
  unfold Provider.read at h
  split at h
  · cases h
  · simp only [Except.ok.injEq, Prod.mk.injEq] at h
    exact ⟨h.1.symm, h.2.1.symm⟩

theorem natPos_ok {x : Int} {a : Nat} (h : natPos x = .ok a) : (a : Int) = x := by
  unfold natPos at h
  split at h
  · cases h
  · cases h; omega

theorem readSection_read [Zlib] {B : Bytes} {p q e l : Int} {s : Section} {t : Dict} {b : Bytes}
    (h : readSection (.single B) p q e l = .ok (s, t, b)) : SecRead B s := by
  unfold readSection at h
  obtain ⟨⟨b1, x, y, z⟩, h1, h⟩ := bind_eq_ok h
  obtain ⟨rfl, hx⟩ := single_read_pos h1
  simp only at h
  obtain ⟨a, ha, h⟩ := bind_eq_ok h
  obtain ⟨⟨b2, t2, o2, tr⟩, h2, h⟩ := bind_eq_ok h
  simp only at h
  split at h
  case h_2 => cases h
  simp only [Except.ok.injEq, Prod.mk.injEq] at h
  obtain ⟨rfl, rfl, rfl⟩ := h
  split at h2
  · rename_i hxr
    obtain ⟨r, h2', h2⟩ := bind_eq_ok h2
    cases h2
    unfold readTableSection at h2'
    obtain ⟨⟨t3, o3⟩, h3, h2'⟩ := bind_eq_ok h2'
    simp only at h2'
    have hto : t2 = t3 ∧ o2 = o3 := by
      split at h2'
      · obtain ⟨p4, h4, h2'⟩ := bind_eq_ok h2'
        obtain ⟨tr4, h5, h2'⟩ := bind_eq_ok h2'
        cases h2'
        exact ⟨rfl, rfl⟩
      · cases h2'
    obtain ⟨rfl, rfl⟩ := hto
    unfold parseXrefTable at h3
    obtain ⟨o, ho, h3⟩ := bind_eq_ok h3
    split at h3
    · cases h3
    · rename_i bb ee rows tt
      obtain ⟨objs, hobj, h3⟩ := bind_eq_ok h3
      cases h3
      exact ⟨rfl, .inl ⟨a, bb, ee, rows, tt, rfl, hxr, ho, hobj⟩⟩
  · rename_i hxr
    obtain ⟨⟨b3, x3, y3, z3⟩, h3, k2⟩ := bind_eq_ok h2
    clear h2
    obtain ⟨hb3, hx3⟩ := single_read_pos h3
    subst hb3
    obtain ⟨a3, ha3, k3⟩ := bind_eq_ok k2
    obtain ⟨⟨r1, r2, r3⟩, h4, k4⟩ := bind_eq_ok k3
    cases k4
    have e1 := natPos_ok ha
    have e3 := natPos_ok ha3
    have : a3 = a := by
      have : (a3 : Int) = a := by rw [e3, e1, hx, hx3]
      omega
    subst this
    unfold readStreamSection at h4
    obtain ⟨on, hon, h4⟩ := bind_eq_ok h4
    obtain ⟨so, hso, h4⟩ := bind_eq_ok h4
    rcases so with _ | _ | _ | _ | _ | _ | _ | _ | _ | ⟨entries, st, enc⟩ <;> try cases h4
    rcases on with _ | _ | n | _ | _ | _ | _ | _ | _ | _ <;> try cases h4
    obtain ⟨⟨t5, o5⟩, h5, h4⟩ := bind_eq_ok h4
    cases h4
    unfold parseXrefStream at h5
    obtain ⟨rows, hrows, h5⟩ := bind_eq_ok h5
    obtain ⟨objs, hobj, h5⟩ := bind_eq_ok h5
    cases h5
    exact ⟨rfl, .inr ⟨p, a3, _, st, enc, rows, rfl, rfl, by rw [e1, hx], hxr, hso, hrows, hobj⟩⟩

theorem SecRead.stm [Zlib] {F : Bytes} {s : Section} (h : SecRead F s) (b : Bool) :
    SecRead F { s with trailer := { s.trailer with xrefStm := b } } := h

theorem chainLoop_read [Zlib] (B : Bytes) : ∀ (fuel : Nat) (p x : Int) (secs : List Section),
    chainLoop (.single B) fuel B p x = .ok secs → ∀ s ∈ secs, SecRead B s := by
  intro fuel
  induction fuel with
  | zero => intro p x secs h; cases h
  | succ fuel ih =>
    intro p x secs h s hs
    unfold chainLoop at h
    split at h
    · cases h
      cases hs
    obtain ⟨⟨s1, b1, p1, x1⟩, h1, h⟩ := bind_eq_ok h
    obtain ⟨rest, h2, h⟩ := bind_eq_ok h
    cases h
    unfold chainTurn at h1
    obtain ⟨i, -, g1⟩ := bind_eq_ok h1
    obtain ⟨⟨s3, t3, b3⟩, h3, g2⟩ := bind_eq_ok g1
    obtain ⟨⟨y1, y2, y3⟩, -, g3⟩ := bind_eq_ok g2
    obtain ⟨e1, rfl⟩ := readSection_single h3
    simp only [Except.ok.injEq, Prod.mk.injEq] at g3
    obtain ⟨rfl, rfl, rfl, rfl⟩ := g3
    rcases List.mem_cons.1 hs with rfl | hs
    · exact (readSection_read h3).stm _
    · exact ih _ _ _ h2 s hs

theorem xrefSections_read [Zlib] {B : Bytes} {n : Nat} {secs : List Section}
    (h : xrefSections (.single B) n = .ok secs) : ∀ s ∈ secs, SecRead B s := by
  unfold xrefSections at h
  obtain ⟨⟨b0, x0, y0, z0⟩, h0, h⟩ := bind_eq_ok h
  have hb := single_read h0
  subst hb
  simp only at h
  obtain ⟨a, -, h⟩ := bind_eq_ok h
  obtain ⟨xp, -, h⟩ := bind_eq_ok h
  obtain ⟨⟨s1, t1, b1⟩, h1, h⟩ := bind_eq_ok h
  obtain ⟨e1, rfl⟩ := readSection_single h1
  simp only at h
  obtain ⟨⟨y1, y2, y3⟩, -, h⟩ := bind_eq_ok h
  obtain ⟨rest, h2, h⟩ := bind_eq_ok h
  cases h
  intro s hs
  rcases List.mem_cons.1 hs with rfl | hs
  · exact (readSection_read h1).stm _
  · exact chainLoop_read b1 _ _ _ _ h2 s hs

/-! ### Entries and rows -/

theorem tableEntries_row (off num gen : Int) (kw : Bytes) (rows : List XRow) :
    tableEntries (.entry off num gen kw :: rows) =
      if isAscii kw = false then .error .unicodeError
      else if gen < 0 ∨ num < 0 then .error .outside
      else tableEntries rows >>= fun rest =>
        .ok (if kw ≠ b!"f" ∧ num ≠ 0 then { num := num, gen := gen.toNat, absPos := some (.at off) } :: rest else rest) := by
  rw [tableEntries]
  cases isAscii kw
  · rfl
  · by_cases h : gen < 0 ∨ num < 0
    · simp only [h, if_true]
      rfl
    · simp only [h, if_false, Bool.not_true, Bool.true_eq_false]
      by_cases h2 : kw ≠ b!"f" ∧ num ≠ 0
      · rw [if_neg (by simp)]
        simp only [if_pos h2]
      · rw [if_neg (by simp)]
        simp only [if_neg h2]

theorem tableEntries_mem : ∀ {rows : List XRow} {es : List Entry}, tableEntries rows = .ok es → ∀ e,
    e ∈ es ↔ ∃ off num gen kw, XRow.entry off num gen kw ∈ rows ∧ kw ≠ b!"f" ∧ num ≠ 0 ∧ 0 ≤ gen ∧ 0 ≤ num ∧
      e = { num := num, gen := gen.toNat, absPos := some (.at off) }
  | [], es, h, e => by cases h; simp
  | .sub _ _ :: rows, es, h, e => by
    rw [tableEntries] at h
    rw [tableEntries_mem h e]
    simp
  | .entry off num gen kw :: rows, es, h, e => by
    rw [tableEntries_row] at h
    split at h
    · cases h
    · split at h
      · cases h
      rename_i h1 h2
      obtain ⟨rest, hr, h⟩ := bind_eq_ok h
      have ih := tableEntries_mem hr e
      cases h
      split
      · rename_i h3
        rw [List.mem_cons, ih]
        constructor
        · rintro (rfl | ⟨o, n, g, k, hm, h⟩)
          · exact ⟨off, num, gen, kw, by simp, h3.1, h3.2, by omega, by omega, rfl⟩
          · exact ⟨o, n, g, k, by simp [hm], h⟩
        · rintro ⟨o, n, g, k, hm, hh⟩
          rcases List.mem_cons.1 hm with hm | hm
          · cases hm
            exact .inl hh.2.2.2.2
          · exact .inr ⟨o, n, g, k, hm, hh⟩
      · rename_i h3
        rw [ih]
        constructor
        · rintro ⟨o, n, g, k, hm, h⟩
          exact ⟨o, n, g, k, by simp [hm], h⟩
        · rintro ⟨o, n, g, k, hm, hh⟩
          rcases List.mem_cons.1 hm with hm | hm
          · cases hm
            exact absurd ⟨hh.1, hh.2.1⟩ h3
          · exact ⟨o, n, g, k, hm, hh⟩

/-- All rows of a table that was read have numbers which are not negative. -/
theorem tableEntries_nonneg : ∀ {rows : List XRow} {es : List Entry}, tableEntries rows = .ok es →
    ∀ off num gen kw, XRow.entry off num gen kw ∈ rows → 0 ≤ gen ∧ 0 ≤ num
  | [], es, h => by simp
  | .sub _ _ :: rows, es, h => by
    rw [tableEntries] at h
    intro off num gen kw hm
    exact tableEntries_nonneg h off num gen kw (by simpa using hm)
  | .entry off num gen kw :: rows, es, h => by
    rw [tableEntries_row] at h
    split at h
    · cases h
    · split at h
      · cases h
      rename_i h1 h2
      obtain ⟨rest, hr, h⟩ := bind_eq_ok h
      intro o n g k hm
      rcases List.mem_cons.1 hm with hm | hm
      · cases hm
        omega
      · exact tableEntries_nonneg hr o n g k hm

/-- The entry of a row of a cross-reference stream. -/
def xsEntry (x : XSRow) : Entry :=
  match x.env with
  | some (env + 1) =>
    { num := x.num, gen := x.gen, envNum := some (env + 1), oPos := some x.offset,
      absPos := some (.tup (env + 1) x.offset) }
  | _ => { num := x.num, gen := x.gen, absPos := some (.at x.offset) }

theorem streamEntries_mem : ∀ {rows : List XSRow} {es : List Entry}, streamEntries rows = .ok es → ∀ e,
    e ∈ es ↔ ∃ x ∈ rows, x.num ≠ 0 ∧ x.kw ≠ b!"f" ∧ 0 ≤ x.num ∧ e = xsEntry x
  | [], es, h, e => by cases h; simp
  | row :: rows, es, h, e => by
    rw [streamEntries] at h
    obtain ⟨rest, hr, h⟩ := bind_eq_ok h
    have ih := streamEntries_mem hr e
    split at h
    · rename_i h1
      cases h
      rw [ih]
      constructor
      · rintro ⟨x, hx, hh⟩; exact ⟨x, by simp [hx], hh⟩
      · rintro ⟨x, hx, hh⟩
        rcases List.mem_cons.1 hx with rfl | hx
        · rcases h1 with h1 | h1
          · exact absurd h1 hh.1
          · exact absurd h1 hh.2.1
        · exact ⟨x, hx, hh⟩
    · rename_i h1
      rw [not_or] at h1
      split at h
      · cases h
      rename_i h2
      have hes : es = xsEntry row :: rest := by
        unfold xsEntry
        split at h
        · rename_i env henv
          split at h
          · rename_i h0
            cases h
            rw [henv]
            cases env with
            | zero => exact absurd rfl h0
            | succ n => rfl
          · rename_i h0
            cases h
            rw [henv]
            cases env with
            | zero => rfl
            | succ n => exact absurd (by simp) h0
        · rename_i henv
          cases h
          rw [henv]
      rw [hes, List.mem_cons, ih]
      constructor
      · rintro (rfl | ⟨x, hx, hh⟩)
        · exact ⟨row, by simp, h1.1, h1.2, by omega, rfl⟩
        · exact ⟨x, by simp [hx], hh⟩
      · rintro ⟨x, hx, hh⟩
        rcases List.mem_cons.1 hx with rfl | hx
        · exact .inl hh.2.2.2
        · exact .inr ⟨x, hx, hh⟩

theorem streamEntries_nonneg : ∀ {rows : List XSRow} {es : List Entry}, streamEntries rows = .ok es →
    ∀ x ∈ rows, x.num ≠ 0 → x.kw ≠ b!"f" → 0 ≤ x.num
  | [], es, h => by simp
  | row :: rows, es, h => by
    rw [streamEntries] at h
    obtain ⟨rest, hr, h⟩ := bind_eq_ok h
    intro x hx h0 hk
    rcases List.mem_cons.1 hx with rfl | hx
    · rw [if_neg (by rintro (h | h) <;> contradiction)] at h
      split at h
      · cases h
      · omega
    · exact streamEntries_nonneg hr x hx h0 hk

theorem SecRead.pos [Zlib] {F : Bytes} {s : Section} (h : SecRead F s) : ∀ e ∈ s.objs, 0 < e.num := by
  obtain ⟨-, h | h⟩ := h
  · obtain ⟨a, b, e, rows, tr, -, -, -, h⟩ := h
    intro e he
    obtain ⟨off, num, gen, kw, -, -, h0, -, h1, rfl⟩ := (tableEntries_mem h e).1 he
    simp only
    omega
  · obtain ⟨x, a, entries, st, enc, rows, -, -, -, -, -, -, h⟩ := h
    intro e he
    obtain ⟨x, -, h0, -, h1, rfl⟩ := (streamEntries_mem h e).1 he
    unfold xsEntry
    split <;> (simp only; omega)

theorem SecRead.headed [Zlib] {F : Bytes} {s : Section} (h : SecRead F s) :
    HeadedAt (entryPos s.trailer) (s.trailer :: (s.objs ++ [eofEntry s])) := by
  refine ⟨h.1, rfl, ?_⟩
  intro e he
  rcases List.mem_append.1 he with he | he
  · have := h.pos e he
    omega
  · rcases List.mem_singleton.1 he with rfl
    simp [eofEntry]

/-- The sections of a file, as lists of entries. -/
theorem xrefSequence_read [Zlib] {F : Bytes} {seq : List (List Entry)} (h : xrefSequence F = .ok seq) :
    ∀ xref ∈ seq, ∃ s, SecRead F s ∧ xref = s.trailer :: (s.objs ++ [eofEntry s]) := by
  unfold xrefSequence at h
  obtain ⟨xs, hx, h⟩ := bind_eq_ok h
  cases h
  intro xref hxr
  obtain ⟨s, hs, rfl⟩ := List.mem_map.1 hxr
  exact ⟨s, xrefSections_read hx s hs, rfl⟩

/-- The entries in use of a section. -/
theorem secEntries_pos [Zlib] {F : Bytes} {s : Section} (h : SecRead F s) (e : Entry) :
    (e ∈ s.trailer :: (s.objs ++ [eofEntry s]) ∧ 0 < e.num) ↔ e ∈ s.objs := by
  constructor
  · rintro ⟨he, hp⟩
    rcases List.mem_cons.1 he with rfl | he
    · have := h.1
      omega
    · rcases List.mem_append.1 he with he | he
      · exact he
      · rcases List.mem_singleton.1 he with rfl
        simp [eofEntry] at hp
  · intro he
    exact ⟨by simp [he], h.pos e he⟩

/-! ### The errors kept for a position -/

/-- Every section has one entry numbered 0: the errors kept for a position are those of a section at this position. -/
theorem targetsLoop_at {objs : List (Option Target)} (p : Option Int) : ∀ {seq : List (List Entry)}
    {pos : Option (Option Int)} {ret ret' : Option Int → Option (List Target)},
    (∀ s ∈ seq, ∃ q, HeadedAt q s) → targetsLoop objs pos seq ret = .ok ret' →
    (ret' p = ret p ∧ ∀ s ∈ seq, ¬ HeadedAt p s) ∨
    ∃ s ∈ seq, HeadedAt p s ∧ ∃ pos1 errs pos2, sectionErrors objs pos1 s = .ok (errs, pos2) ∧ ret' p = some errs
  | [], _, _, _, _, h => by cases h; simp
  | xref :: seq, pos, ret, ret', hs, h => by
    rw [targetsLoop] at h
    obtain ⟨⟨errs, pos'⟩, he, h⟩ := bind_eq_ok h
    obtain ⟨q, hq⟩ := hs xref (by simp)
    have := sectionErrors_pos hq he
    subst this
    rcases targetsLoop_at p (fun s hs' => hs s (by simp [hs'])) h with ⟨h1, h2⟩ | ⟨s, h1, h2⟩
    · by_cases hqp : p = q
      · subst hqp
        exact .inr ⟨xref, by simp, hq, pos, errs, _, he, by rw [h1]; simp⟩
      · refine .inl ⟨by rw [h1]; simp [hqp], ?_⟩
        intro s hs'
        rcases List.mem_cons.1 hs' with rfl | hs'
        · intro hp
          apply hqp
          cases s with
          | nil => exact hp.elim
          | cons e rest => exact hp.2.1.symm.trans hq.2.1
        · exact h2 s hs'
    · exact .inr ⟨s, by simp [h1], h2⟩

/-- The errors kept for a position: none when no section is there, else the entries of a section which is there. -/
theorem checkIndexTargets_at {m : List MapItem} {seq : List (List Entry)} {ret : Option Int → Option (List Target)}
    (hs : ∀ s ∈ seq, ∃ q, HeadedAt q s) (h : checkIndexTargets m seq = .ok ret) (p : Option Int) :
    (ret p = none ∧ ∀ s ∈ seq, ¬ HeadedAt p s) ∨
    ∃ xref ∈ seq, HeadedAt p xref ∧ ∃ errs, ret p = some errs ∧
      ∀ t, t ∈ errs ↔ ∃ e ∈ xref, 0 < e.num ∧ ReportedAs e t ∧ ∀ x ∈ m, ¬ Leads e x := by
  obtain ⟨objs, ho, h⟩ := bind_eq_ok h
  rcases targetsLoop_at p hs h with h | ⟨s, h1, h2, pos1, errs, pos2, h3, h4⟩
  · exact .inl h
  · refine .inr ⟨s, h1, h2, errs, h4, fun t => ?_⟩
    obtain ⟨i1, i2, -⟩ := sectionErrors_spec h3
    rw [i1]
    constructor
    · rintro ⟨e, he, hp, ht, hn⟩
      refine ⟨e, he, hp, (reported_of ht t).2 rfl, fun x hx hl => hn ?_⟩
      exact (scanned_leads ho ht).2 ⟨x, hx, hl⟩
    · rintro ⟨e, he, hp, ht, hn⟩
      obtain ⟨t', ht'⟩ := i2 e he hp
      have := (reported_of ht' t).1 ht
      subst this
      refine ⟨e, he, hp, ht', fun hm => ?_⟩
      obtain ⟨x, hx, hl⟩ := (scanned_leads ho ht').1 hm
      exact hn x hx hl

/-! ### The items of the file map -/

/-- Where an item of the file map comes from. -/
theorem fileMapLoop_mem [Zlib] {F : Bytes} : ∀ {fuel i : Nat} {items : List MapItem},
    fileMapLoop F fuel i = .ok items → ∀ x ∈ items, ∃ k r its, parseRegion F k = .ok (some r) ∧
      regionItems r = .ok its ∧ x ∈ its ∧ k < F.length
  | 0, _, _, h => by cases h
  | fuel + 1, i, items, h => by
    rw [fileMapLoop] at h
    split at h
    case isFalse => cases h; simp
    rename_i hl
    obtain ⟨o, ho, h⟩ := bind_eq_ok h
    cases o with
    | none => cases h; simp
    | some r =>
      obtain ⟨its, hits, h⟩ := bind_eq_ok h
      obtain ⟨rest, hrest, h⟩ := bind_eq_ok h
      cases h
      intro x hx
      rcases List.mem_append.1 hx with hx | hx
      · exact ⟨i, r, its, ho, hits, hx, hl⟩
      · exact fileMapLoop_mem hrest x hx

theorem embeddedItems_region {bo : Nat} {env : Int} : ∀ {l : List Embedded} {j : Nat} {r : Region}
    {rows : List (Nat × Nat × XRow)}, .region r rows ∈ embeddedItems bo env j l → False
  | [], _, _, _, h => by cases h
  | _ :: l, j, r, rows, h => by
    rw [embeddedItems] at h
    rcases List.mem_cons.1 h with h | h
    · cases h
    · exact embeddedItems_region h

theorem embeddedItems_xref {bo : Nat} {env : Int} : ∀ {l : List Embedded} {j : Nat} {b : Option Nat}
    {rows : List (Nat × Nat × XSRow)} {t : Dict}, .xrefStream b rows t ∈ embeddedItems bo env j l → False
  | [], _, _, _, _, h => by cases h
  | _ :: l, j, b, rows, t, h => by
    rw [embeddedItems] at h
    rcases List.mem_cons.1 h with h | h
    · cases h
    · exact embeddedItems_xref h

/-- A table of the file map, read again. -/
theorem parseRegion_table [Zlib] {F : Bytes} {k b e : Nat} {rows : List XRow} {tr : Obj}
    (h : parseRegion F k = .ok (some (.xrefTable b e rows tr))) :
    b = k ∧ parseXrefTableRaw F k = .ok (some (b, e, rows, tr)) ∧ slice F k (k + 4) = b!"xref" := by
  unfold parseRegion at h
  rcases h1 : nextToken F k with ⟨bl, el, typ⟩
  simp only [h1] at h
  split at h
  · cases h
  rename_i hb
  rw [Decidable.not_not] at hb
  subst hb
  split at h
  · cases h
  split at h
  · cases h
  split at h
  · cases h
  split at h
  · split at h
    · cases hp : parseIndirectObj F bl with
      | error e => rw [hp] at h; cases h
      | ok r =>
        rw [hp] at h
        cases h
        unfold parseIndirectObj at hp
        obtain ⟨num, -, hp⟩ := bind_eq_ok hp
        obtain ⟨gen, -, hp⟩ := bind_eq_ok hp
        obtain ⟨o, ho, hp⟩ := bind_eq_ok hp
        cases hp
    · cases h
  split at h
  · obtain ⟨x, hx, h⟩ := bind_eq_ok h
    cases x with
    | none => cases h
    | some x =>
      obtain ⟨b', e', rows', tr'⟩ := x
      cases h
      refine ⟨(parseXrefTableRaw_spec hx).1, hx, ?_⟩
      unfold parseXrefTableRaw at hx
      split at hx
      · cases hx
      · rename_i hs
        rwa [Decidable.not_not] at hs
  · cases h

theorem stripRight_cons {c : UInt8} (hc : isPySpace c = false) (t : Bytes) : ∃ t', stripRight (c :: t) = c :: t' := by
  unfold stripRight
  rw [List.reverse_cons]
  induction t.reverse with
  | nil => exact ⟨[], by simp [hc]⟩
  | cons d l ih =>
    rw [List.cons_append, List.dropWhile_cons]
    split
    · exact ih
    · exact ⟨(d :: l).reverse, by simp⟩

theorem pyInt_x (t : Bytes) : pyInt (120 :: t) = none := by
  unfold pyInt
  have h1 : stripLeft (120 :: t) = 120 :: t := rfl
  obtain ⟨t', h2⟩ := stripRight_cons (c := 120) rfl t
  rw [h1, h2]
  rfl

/-- An indirect object of the file map, read again. -/
theorem parseRegion_indObj [Zlib] {F : Bytes} {k e : Nat} {b : Option Nat} {num gen : Int} {o : Obj}
    (h : parseRegion F k = .ok (some (.indObj b e num gen o))) :
    parseObj F (objStart F k) = .ok o ∧ slice F k (k + 4) ≠ b!"xref" := by
  unfold parseRegion at h
  rcases h1 : nextToken F k with ⟨bl, el, typ⟩
  simp only [h1] at h
  split at h
  · cases h
  rename_i hb
  rw [Decidable.not_not] at hb
  subst hb
  split at h
  · cases h
  split at h
  · cases h
  split at h
  · cases h
  split at h
  · split at h
    · cases hp : parseIndirectObj F bl with
      | error e => rw [hp] at h; cases h
      | ok r =>
        rw [hp] at h
        cases h
        unfold parseIndirectObj at hp
        obtain ⟨num, hn, hp⟩ := bind_eq_ok hp
        obtain ⟨gen, -, hp⟩ := bind_eq_ok hp
        obtain ⟨o, ho, hp⟩ := bind_eq_ok hp
        cases hp
        refine ⟨ho, fun hx => ?_⟩
        change orRaise PyErr.valueError (pyInt (slice F (nextToken F bl).1 (nextToken F bl).2.1)) = .ok num at hn
        rw [h1] at hn
        simp only at hn
        have hd : ∃ t, F.drop bl = 120 :: t := by
          unfold slice at hx
          cases hd : F.drop bl with
          | nil =>
            rw [List.drop_take, hd] at hx
            simp at hx
          | cons c t =>
            rw [List.drop_take, hd, show bl + 4 - bl = 3 + 1 by omega, List.take_succ_cons] at hx
            injection hx with hc
            exact ⟨t, by rw [hc]⟩
        obtain ⟨t, hd⟩ := hd
        unfold slice at hn
        rw [List.drop_take, hd] at hn
        cases hk : el - bl with
        | zero => rw [hk] at hn; simp [pyInt, stripLeft, stripRight, orRaise] at hn
        | succ n => rw [hk, List.take_succ_cons, pyInt_x] at hn; cases hn
    · cases h
  split at h
  · obtain ⟨x, -, h⟩ := bind_eq_ok h
    cases x <;> cases h
  · cases h

/-- The rows of a table in the file map are its entries. -/
theorem numberRows_mem : ∀ {rows : List XRow} {cur : Option (Nat × Nat)} {l : List (Nat × Nat × XRow)},
    numberRows cur rows = .ok l → ∀ y, (∃ x ∈ l, x.2.2 = y) ↔ y ∈ rows ∧ ∃ off num gen kw, y = .entry off num gen kw
  | [], cur, l, h, y => by cases h; simp
  | .sub a b :: rows, cur, l, h, y => by
    have ih : ∃ c, numberRows c rows = .ok l := by
      cases cur with
      | none => exact ⟨_, h⟩
      | some c => exact ⟨_, h⟩
    obtain ⟨c, ih⟩ := ih
    rw [numberRows_mem ih y, List.mem_cons]
    constructor
    · rintro ⟨h1, h2⟩; exact ⟨.inr h1, h2⟩
    · rintro ⟨rfl | h1, h2⟩
      · obtain ⟨_, _, _, _, h2⟩ := h2; cases h2
      · exact ⟨h1, h2⟩
  | .entry off num gen kw :: rows, cur, l, h, y => by
    cases cur with
    | none => cases h
    | some c =>
      obtain ⟨s, ln⟩ := c
      rw [numberRows] at h
      · obtain ⟨l', hl, h⟩ := bind_eq_ok h
        cases h
        have ih := numberRows_mem hl y
        simp only [List.mem_cons, exists_eq_or_imp, ih]
        constructor
        · rintro (rfl | ⟨h1, h2⟩)
          · exact ⟨.inl rfl, _, _, _, _, rfl⟩
          · exact ⟨.inr h1, h2⟩
        · rintro ⟨rfl | h1, h2⟩
          · exact .inl rfl
          · exact .inr ⟨h1, h2⟩
      · intro _ _ h; cases h

/-- The rows of a cross-reference stream in the file map are all of its rows. -/
theorem numberXSRows_map : ∀ (rows : List XSRow) (cur : Option (Nat × Nat)),
    (numberXSRows cur rows).map (·.2.2) = rows
  | [], _ => rfl
  | x :: rows, none => by
    rw [numberXSRows.eq_def]
    simp only [List.map_cons, numberXSRows_map rows]
  | x :: rows, some c => by
    rw [numberXSRows.eq_def]
    simp only [List.map_cons, numberXSRows_map rows]

end Pdf
