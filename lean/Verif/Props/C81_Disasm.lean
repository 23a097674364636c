/-
C81: the lines of the command `disasm`.
-/
import Verif.Lemmas.Disasm
import Verif.Props.C70_OwnFiles

namespace Pdf

/-! ### What the lines should say -/

/-- The scan of the file finds the object `num gen` at `pos`. -/
def Found (m : List MapItem) (num gen pos : Int) : Prop :=
  ∃ (b fin : Nat) (o : Obj) (rows : List (Nat × Nat × XRow)), .region (.indObj (some b) fin num gen o) rows ∈ m ∧ (b : Int) = pos

/-- The scan of the file finds the object `num` at the rank `rank` of the object stream `env`. -/
def FoundIn (m : List MapItem) (num env rank : Int) : Prop :=
  ∃ (bo act j : Nat) (o : Obj), .embedded bo act j (.int num) o env ∈ m ∧ (j : Int) = rank

/-- Some cross-reference section lists the object `num gen` at `pos`. -/
def IndexedAt (seq : List (List Entry)) (num gen pos : Int) : Prop :=
  ∃ xref ∈ seq, ∃ e ∈ xref, 0 < e.num ∧ e.envNum = none ∧ e.num = num ∧ (e.gen : Int) = gen ∧ e.absPos = some (.at pos)

/-- Some cross-reference section lists the object `num` at the rank `rank` of the object stream `env`. -/
def IndexedIn (seq : List (List Entry)) (num env rank : Int) : Prop :=
  ∃ xref ∈ seq, ∃ e ∈ xref, ∃ v p : Nat, 0 < e.num ∧ e.envNum = some v ∧ e.oPos = some p ∧ e.num = num ∧
    (v : Int) = env ∧ (p : Int) = rank

/-- The chain of cross-reference sections goes through the position. -/
def Followed (seq : List (List Entry)) (b : Option Nat) : Prop :=
  ∃ p : Nat, b = some p ∧ ∃ e rest, e :: rest ∈ seq ∧ e.num = 0 ∧
    (e.xrefTablePos = some (p : Int) ∨ e.xrefTablePos = none ∧ e.xrefStreamPos = some (p : Int))

/-- A row of a table in use. -/
def XRow.used : XRow → Prop
  | .entry _ num _ kw => num ≠ 0 ∧ kw ≠ b!"f"
  | .sub _ _ => False

/-- The address of a row of a table. -/
def XRow.address : XRow → Int
  | .entry off _ _ _ => off
  | .sub _ _ => 0

/-- A row of a table leads to an object that the scan finds. -/
def XRow.good (m : List MapItem) : XRow → Prop
  | .entry off num gen _ => Found m num gen off
  | .sub _ _ => True

/-- A row of a cross-reference stream leads to an object that the scan finds. -/
def XSRow.good (m : List MapItem) (x : XSRow) : Prop :=
  match x.env with
  | some (env + 1) => FoundIn m x.num (env + 1) x.offset
  | _ => Found m x.num x.gen x.offset

/-- The line of a region of the file, from `b` to `e`. -/
structure RegionLine (kind : Bytes) (b : Option Nat) (e : Nat) (l : DLine) : Prop where
  macroInd : l.macroInd = .str b!"+"
  kind : l.regionType = .str kind
  pos : l.pos = match b with | some b => .int b | none => .none_
  size : l.size = match b with | some b => .int ((e : Int) - b) | none => .none_

/-- The line of an entry: its object, its address, its state, and the mark `-?` or `-@`. -/
structure EntryLine (num gen off : Int) (used : Bool) (wrong : Prop) (l : DLine) : Prop where
  macroInd : l.macroInd = .str b!"-"
  kind : l.regionType = .str b!"xref"
  iref : l.iref = .str (intDec num ++ b!"," ++ intDec gen)
  addr : l.addr = .int off
  cl : l.cl = .str (if used then b!"inuse" else b!"free")
  bad : wrong → l.st = .str b!"-?"
  fine : ¬ wrong → l.st = .str b!"-@"

/-- The short names of the filters. -/
def filterNames : List (Bytes × Bytes) :=
  [(b!"/ASCIIHexDecode", b!"AHex"), (b!"/ASCII85Decode", b!"A85"), (b!"/LZWDecode", b!"LZW"), (b!"/FlateDecode", b!"Flate"),
   (b!"/RunLengthDecode", b!"RunL"), (b!"/CCITTFaxDecode", b!"Fax"), (b!"/JBIG2Decode", b!"JBIG2"), (b!"/DCTDecode", b!"DCT"),
   (b!"/JPXDecode", b!"JPX"), (b!"/Crypt", b!"Crypt")]

/-- The short name of a filter; nothing for the others. -/
def shortName (f : Bytes) : Bytes := (filterNames.lookup f).getD []

/-- What the line of an object says of it: its kind and, for a stream, its filters and `pct` of its two lengths. -/
structure ObjectLine (pct : Nat → Nat → Bytes) (o : Obj) (l : DLine) : Prop where
  dict : ∀ t, o = .dict t → l.cl = .str b!"dict"
  array : ∀ x, o = .list x → l.cl = .str b!"array"
  int : ∀ i, o = .int i → l.cl = .str b!"int"
  stream : ∀ t data enc, o = .stream t data enc → l.cl = .str b!"stream" ∧
    (data ≠ [] → l.ratio = .str (pct enc.length data.length)) ∧ (data = [] → l.ratio = .str b!"!!") ∧
    (Dict.get? t b!"/Filter" = none → l.filters = .str b!"_") ∧
    (∀ f, Dict.get? t b!"/Filter" = some (.str f) → l.filters = .str (b!"_" ++ shortName f)) ∧
    ∀ fs : List Bytes, Dict.get? t b!"/Filter" = some (.list (fs.map .str)) →
      l.filters = .str (fs.flatMap fun f => b!"_" ++ shortName f)
  other : (∀ t, o ≠ .dict t) → (∀ x, o ≠ .list x) → (∀ i, o ≠ .int i) → (∀ t data enc, o ≠ .stream t data enc) →
    l.cl = .str b!"other"
  plain : (∀ t data enc, o ≠ .stream t data enc) → l.ratio = .str [] ∧ l.filters = .str []

/-- What the lines of an item of the file map say. -/
def Describes (pct : Nat → Nat → Bytes) (m : List MapItem) (seq : List (List Entry)) : MapItem → List DLine → Prop
  | .region (.void b e _) _, ls => ∃ l, ls = [l] ∧ RegionLine b!"void" (some b) e l
  | .region (.comment b e _) _, ls => ∃ l, ls = [l] ∧ RegionLine b!"comment" (some b) e l
  | .region (.startxref b e t) _, ls => ∃ l n, ls = [l] ∧ RegionLine b!"startxref" (some b) e l ∧
      pyInt t = some n ∧ l.addr = .int n
  | .region (.indObj b e num gen o) _, ls => ∃ l, ls = [l] ∧ RegionLine b!"ind_obj" b e l ∧
      l.iref = .str (intDec num ++ b!"," ++ intDec gen) ∧ ObjectLine pct o l ∧
      ∀ p, b = some p → (IndexedAt seq num gen p → l.st = .str b!"@-") ∧ (¬ IndexedAt seq num gen p → l.st = .str b!"?-")
  | .region (.xrefTable b e _ _) rows, ls => ∃ l rest, ls = l :: rest ∧ RegionLine b!"xreftable" (some b) e l ∧
      All₂ (fun x l => ∃ off num gen kw, x.2.2 = .entry off num gen kw ∧ EntryLine num gen off (kw == b!"n")
        (Followed seq (some b) ∧ ∃ y ∈ rows, y.2.2.used ∧ y.2.2.address = off ∧ ¬ y.2.2.good m) l) rows rest
  | .xrefStream b rows _, ls =>
      All₂ (fun x l => EntryLine x.2.2.num x.2.2.gen x.2.2.offset (x.2.2.kw == b!"n")
        (Followed seq b ∧ ∃ y ∈ rows, y.2.2.num ≠ 0 ∧ y.2.2.kw ≠ b!"f" ∧ y.2.2.offset = x.2.2.offset ∧ ¬ y.2.2.good m) l ∧
        l.addrMode = .str (match x.2.2.env with | none => b!"abs" | some e => natDec e ++ b!",")) rows ls
  | .embedded _ act j num o env, ls => ∃ l n, ls = [l] ∧ num = .int n ∧ l.macroInd = .str b!"-" ∧
      l.regionType = .str b!"ind_obj" ∧ l.pos = .int act ∧ l.seqNum = .int j ∧ l.envIref = .str (intDec env ++ b!",") ∧
      l.iref = .str (intDec n ++ b!",") ∧ ObjectLine pct o l ∧
      ((∃ r, FoundIn m j env r ∧ ¬ IndexedIn seq j env r) → l.st = .str b!"?-") ∧
      ((¬ ∃ r, FoundIn m j env r ∧ ¬ IndexedIn seq j env r) → l.st = .str b!"@-")

/-! ### Proofs -/

theorem filterInLine_name (f : Bytes) : filterInLine (.str f) = b!"_" ++ shortName f := by
  by_cases h0 : f = b!"/ASCIIHexDecode"
  · subst h0; rfl
  by_cases h1 : f = b!"/ASCII85Decode"
  · subst h1; rfl
  by_cases h2 : f = b!"/LZWDecode"
  · subst h2; rfl
  by_cases h3 : f = b!"/FlateDecode"
  · subst h3; rfl
  by_cases h4 : f = b!"/RunLengthDecode"
  · subst h4; rfl
  by_cases h5 : f = b!"/CCITTFaxDecode"
  · subst h5; rfl
  by_cases h6 : f = b!"/JBIG2Decode"
  · subst h6; rfl
  by_cases h7 : f = b!"/DCTDecode"
  · subst h7; rfl
  by_cases h8 : f = b!"/JPXDecode"
  · subst h8; rfl
  by_cases h9 : f = b!"/Crypt"
  · subst h9; rfl
  have e1 : filterInLine (.str f) = b!"_" := by
    unfold filterInLine
    simp only
    rw [if_neg h0, if_neg h1, if_neg h2, if_neg h3, if_neg h4, if_neg h5, if_neg h6, if_neg h7, if_neg h8, if_neg h9]
    rfl
  have e2 : filterNames.lookup f = none := by
    unfold filterNames
    simp only [List.lookup_cons, beq_eq_false_iff_ne.2 h0, beq_eq_false_iff_ne.2 h1, beq_eq_false_iff_ne.2 h2, beq_eq_false_iff_ne.2 h3, beq_eq_false_iff_ne.2 h4, beq_eq_false_iff_ne.2 h5, beq_eq_false_iff_ne.2 h6, beq_eq_false_iff_ne.2 h7, beq_eq_false_iff_ne.2 h8, beq_eq_false_iff_ne.2 h9, List.lookup_nil]
  rw [e1, shortName, e2]
  rfl

theorem objectLine_of {pct : Nat → Nat → Bytes} {o : Obj} {l : DLine} (h1 : l.cl = .str (classOf o)) (h2 : l.ratio = .str (ratioOf pct o))
    (h3 : l.filters = .str (filtersOf o)) : ObjectLine pct o l := by
  refine ⟨?_, ?_, ?_, ?_, ?_, ?_⟩
  · rintro t rfl; exact h1
  · rintro t rfl; exact h1
  · rintro t rfl; exact h1
  · rintro t data enc rfl
    refine ⟨h1, ?_, ?_, ?_, ?_, ?_⟩
    · intro hd
      rw [h2]
      unfold ratioOf
      simp only
      rw [if_neg (by simpa using hd)]
    · rintro rfl
      exact h2
    · intro hf
      rw [h3, filtersOf, hf]
      rfl
    · intro f hf
      rw [h3, filtersOf, hf, ← filterInLine_name]
      rfl
    · intro fs hf
      rw [h3, filtersOf, hf, filtersInLine, List.flatMap_map]
      simp only [filterInLine_name]
  · intro a b c d
    rw [h1]
    cases o <;> simp_all [classOf]
  · intro a
    rw [h2, h3]
    cases o <;> simp_all [ratioOf, filtersOf]


theorem all₂_map {α β : Type} {R : α → β → Prop} (f : α → β) : ∀ (l : List α), (∀ x ∈ l, R x (f x)) → All₂ R l (l.map f)
  | [], _ => .nil
  | x :: l, h => .cons (h x (by simp)) (all₂_map f l fun y hy => h y (by simp [hy]))

theorem all₂_flatMap {α β : Type} {R : α → β → Prop} (f : α → List β) : ∀ (l : List α),
    (∀ x ∈ l, ∃ y, f x = [y] ∧ R x y) → All₂ R l (l.flatMap f)
  | [], _ => .nil
  | x :: l, h => by
    obtain ⟨y, h1, h2⟩ := h x (by simp)
    rw [List.flatMap_cons, h1]
    exact .cons h2 (all₂_flatMap f l fun y hy => h y (by simp [hy]))

theorem mapM_all₂ {α β : Type} {f : α → Py β} {R : α → β → Prop} : ∀ {l : List α} {r : List β}, l.mapM f = .ok r →
    (∀ x ∈ l, ∀ y, f x = .ok y → R x y) → All₂ R l r
  | [], r, h, _ => by cases h; exact .nil
  | x :: l, r, h, hR => by
    rw [List.mapM_cons] at h
    obtain ⟨a, ha, h⟩ := bind_eq_ok h
    obtain ⟨l', hl, h⟩ := bind_eq_ok h
    cases h
    exact .cons (hR x (by simp) a ha) (mapM_all₂ hl fun y hy => hR y (by simp [hy]))

theorem leads_dir {m : List MapItem} {e : Entry} {pos : Int} (he : e.envNum = none) (hp : e.absPos = some (.at pos)) :
    (∃ x ∈ m, Leads e x) ↔ Found m e.num e.gen pos := by
  constructor
  · rintro ⟨x, hx, hl⟩
    cases x with
    | region r rows =>
      cases r with
      | indObj b fin num gen o =>
        cases b with
        | none => exact hl.elim
        | some b =>
          obtain ⟨h1, rfl, rfl, h4⟩ := hl
          rw [hp] at h4
          cases h4
          exact ⟨b, fin, o, rows, hx, rfl⟩
      | _ => exact hl.elim
    | xrefStream => exact hl.elim
    | embedded bo act j num o env =>
      cases num with
      | int n =>
        obtain ⟨v, hv, -⟩ := hl
        rw [he] at hv
        cases hv
      | _ => exact hl.elim
  · rintro ⟨b, fin, o, rows, hm, rfl⟩
    exact ⟨_, hm, he, rfl, rfl, hp⟩

theorem leads_emb {m : List MapItem} {e : Entry} {v p : Nat} (he : e.envNum = some v) (hp : e.oPos = some p) :
    (∃ x ∈ m, Leads e x) ↔ FoundIn m e.num v p := by
  constructor
  · rintro ⟨x, hx, hl⟩
    cases x with
    | region r rows =>
      cases r with
      | indObj b fin num gen o =>
        cases b with
        | none => exact hl.elim
        | some b =>
          obtain ⟨h1, -⟩ := hl
          rw [he] at h1
          cases h1
      | _ => exact hl.elim
    | xrefStream => exact hl.elim
    | embedded bo act j num o env =>
      cases num with
      | int n =>
        obtain ⟨v', hv, rfl, rfl, hj⟩ := hl
        rw [he] at hv
        cases hv
        rw [hp] at hj
        cases hj
        exact ⟨bo, act, p, o, hx, rfl⟩
      | _ => exact hl.elim
  · rintro ⟨bo, act, j, o, hm, hj⟩
    have : j = p := by omega
    subst this
    exact ⟨_, hm, v, he, rfl, rfl, hp⟩

/-- The address of a reported entry. -/
def Target.address : Target → Int
  | .dir _ _ p => p
  | .emb _ _ r => r

theorem wrongAddrs_some {wrong : Option Int → Option (List Target)} {p : Option Int} {errs : List Target}
    (h : wrong p = some errs) (a : Int) : a ∈ wrongAddrs wrong p ↔ ∃ t ∈ errs, t.address = a := by
  unfold wrongAddrs
  rw [h]
  simp only [List.mem_map]
  rfl

theorem followed_iff {seq : List (List Entry)} {b : Option Nat} (hs : ∀ s ∈ seq, ∃ q, HeadedAt q s) :
    Followed seq b ↔ b ≠ none ∧ ∃ xref ∈ seq, HeadedAt (b.map fun n => (n : Int)) xref := by
  constructor
  · rintro ⟨p, rfl, e, rest, he, h0, hp⟩
    refine ⟨by simp, _, he, ?_⟩
    obtain ⟨q, hq⟩ := hs _ he
    refine ⟨h0, ?_, hq.2.2⟩
    unfold entryPos
    rcases hp with hp | ⟨hp, hp2⟩
    · rw [hp]; rfl
    · rw [hp, hp2]; rfl
  · rintro ⟨hb, xref, hx, hq⟩
    cases b with
    | none => exact absurd rfl hb
    | some p =>
      cases xref with
      | nil => exact hq.elim
      | cons e rest =>
        refine ⟨p, rfl, e, rest, hx, hq.1, ?_⟩
        have := hq.2.1
        unfold entryPos at this
        cases ht : e.xrefTablePos with
        | some t => rw [ht] at this; left; exact this
        | none => rw [ht] at this; right; exact ⟨rfl, this⟩

section
variable [Zlib] {F : Bytes} {m : List MapItem} {seq : List (List Entry)}

/-- A table of the map and a section at its position have the same rows. -/
theorem table_section {k b e : Nat} {rows : List XRow} {tr : Obj} (hk : k < F.length)
    (hr : parseRegion F k = .ok (some (.xrefTable b e rows tr))) {s : Section} (hs : SecRead F s)
    (hp : entryPos s.trailer = some (b : Int)) : tableEntries rows = .ok s.objs := by
  obtain ⟨rfl, hx, hsl⟩ := parseRegion_table hr
  obtain ⟨-, hs | hs⟩ := hs
  · obtain ⟨a, b', e', rows', tr', h1, h2, h3, h4⟩ := hs
    unfold entryPos at hp
    rw [h1] at hp
    simp only [Option.some.injEq] at hp
    have : a = b := by omega
    subst this
    rw [h3] at hx
    cases hx
    exact h4
  · obtain ⟨x, a, entries, st, enc, rows', h1, h2, h3, h4, -⟩ := hs
    unfold entryPos at hp
    rw [h1, h2] at hp
    simp only [Option.some.injEq] at hp
    subst hp
    rw [Int.add_emod_right, Int.emod_eq_of_lt (by omega) (by omega)] at h3
    have : a = b := by omega
    subst this
    exact absurd hsl h4

/-- A cross-reference stream of the map and a section at its position have the same rows. -/
theorem stream_section {k e : Nat} {b : Nat} {num gen : Int} {entries : Dict} {st enc : Bytes} {rows : List XSRow}
    (hk : k < F.length) (hr : parseRegion F k = .ok (some (.indObj (some b) e num gen (.stream entries st enc))))
    (hx : parseXrefStreamRaw entries st = .ok rows) {s : Section} (hs : SecRead F s)
    (hp : entryPos s.trailer = some (b : Int)) : streamEntries rows = .ok s.objs := by
  obtain ⟨ho, hsl⟩ := parseRegion_indObj hr
  have hb : b = k := by
    rcases (parseRegion_spec hk hr).1 with h | ⟨h, -⟩ <;> cases h
    rfl
  subst hb
  obtain ⟨-, hs | hs⟩ := hs
  · obtain ⟨a, b', e', rows', tr', h1, h2, h3, h4⟩ := hs
    unfold entryPos at hp
    rw [h1] at hp
    simp only [Option.some.injEq] at hp
    have : a = b := by omega
    subst this
    exact absurd h2 hsl
  · obtain ⟨x, a, entries', st', enc', rows', h1, h2, h3, h4, h5, h6, h7⟩ := hs
    unfold entryPos at hp
    rw [h1, h2] at hp
    simp only [Option.some.injEq] at hp
    subst hp
    rw [Int.add_emod_right, Int.emod_eq_of_lt (by omega) (by omega)] at h3
    have : a = b := by omega
    subst this
    rw [h5] at ho
    cases ho
    rw [h6] at hx
    cases hx
    exact h7

end

section
variable [Zlib] {F : Bytes} {m : List MapItem} {seq : List (List Entry)} {wrong : Option Int → Option (List Target)}

/-- The addresses that the marks of a table are compared to. -/
theorem table_wrong (hseq : xrefSequence F = .ok seq) (hw : checkIndexTargets m seq = .ok wrong)
    {k b e : Nat} {rows : List XRow} {tr : Obj} (hk : k < F.length)
    (hr : parseRegion F k = .ok (some (.xrefTable b e rows tr))) (a : Int) :
    a ∈ wrongAddrs wrong (some (b : Int)) ↔
      Followed seq (some b) ∧ ∃ y ∈ rows, y.used ∧ y.address = a ∧ ¬ y.good m := by
  have hread := xrefSequence_read hseq
  have hhead : ∀ s ∈ seq, ∃ q, HeadedAt q s := by
    intro s hs
    obtain ⟨x, hx, rfl⟩ := hread s hs
    exact ⟨_, hx.headed⟩
  rcases checkIndexTargets_at hhead hw (some (b : Int)) with ⟨h1, h2⟩ | ⟨xref, h1, h2, errs, h3, h4⟩
  · constructor
    · intro h
      unfold wrongAddrs at h
      rw [h1] at h
      cases h
    · rintro ⟨hf, -⟩
      obtain ⟨-, xref, hx, hh⟩ := (followed_iff hhead).1 hf
      exact absurd hh (h2 xref hx)
  · rw [wrongAddrs_some h3]
    have hfol : Followed seq (some b) := (followed_iff hhead).2 ⟨by simp, xref, h1, h2⟩
    obtain ⟨s, hs, rfl⟩ := hread xref h1
    have hobj := table_section hk hr hs h2.2.1
    have hmem := tableEntries_mem hobj
    constructor
    · rintro ⟨t, ht, rfl⟩
      obtain ⟨en, he, hpos, hrep, hno⟩ := (h4 t).1 ht
      obtain ⟨off, num, gen, kw, hrow, hkw, hn0, hg, hn, rfl⟩ := (hmem en).1 ((secEntries_pos hs en).1 ⟨he, hpos⟩)
      refine ⟨hfol, _, hrow, ⟨hn0, hkw⟩, ?_, ?_⟩
      · cases t with
        | dir n g p =>
          obtain ⟨-, -, -, h⟩ := hrep
          cases h
          rfl
        | emb => obtain ⟨v, p, h, -⟩ := hrep; cases h
      · intro hgood
        obtain ⟨x, hx, hl⟩ := (leads_dir (m := m) (e := { num := num, gen := gen.toNat, absPos := some (.at off) })
          rfl rfl).2 (by simpa [XRow.good, Int.toNat_of_nonneg hg] using hgood)
        exact hno x hx hl
    · rintro ⟨-, y, hy, hu, rfl, hbad⟩
      cases y with
      | sub => exact hu.elim
      | entry off num gen kw =>
        obtain ⟨hg, hn⟩ := tableEntries_nonneg hobj off num gen kw hy
        have he := (hmem { num := num, gen := gen.toNat, absPos := some (.at off) }).2
          ⟨off, num, gen, kw, hy, hu.2, hu.1, hg, hn, rfl⟩
        obtain ⟨hx, hpos⟩ := (secEntries_pos hs _).2 he
        refine ⟨.dir num gen.toNat off, (h4 _).2 ⟨_, hx, hpos, ⟨rfl, rfl, rfl, rfl⟩, fun x hxm hl => hbad ?_⟩, rfl⟩
        have := (leads_dir (m := m) (e := { num := num, gen := gen.toNat, absPos := some (.at off) })
          rfl rfl).1 ⟨x, hxm, hl⟩
        simpa [XRow.good, Int.toNat_of_nonneg hg] using this

/-- The addresses that the marks of a cross-reference stream are compared to. -/
theorem stream_wrong (hseq : xrefSequence F = .ok seq) (hw : checkIndexTargets m seq = .ok wrong)
    {k e : Nat} {b : Option Nat} {num gen : Int} {entries : Dict} {st enc : Bytes} {rows : List XSRow}
    (hk : k < F.length) (hr : parseRegion F k = .ok (some (.indObj b e num gen (.stream entries st enc))))
    (hrows : parseXrefStreamRaw entries st = .ok rows) (a : Nat) :
    (a : Int) ∈ wrongAddrs wrong (b.map fun n => (n : Int)) ↔
      Followed seq b ∧ ∃ y ∈ rows, y.num ≠ 0 ∧ y.kw ≠ b!"f" ∧ y.offset = a ∧ ¬ y.good m := by
  have hread := xrefSequence_read hseq
  have hhead : ∀ s ∈ seq, ∃ q, HeadedAt q s := by
    intro s hs
    obtain ⟨x, hx, rfl⟩ := hread s hs
    exact ⟨_, hx.headed⟩
  rcases checkIndexTargets_at hhead hw (b.map fun n => (n : Int)) with ⟨h1, h2⟩ | ⟨xref, h1, h2, errs, h3, h4⟩
  · constructor
    · intro h
      unfold wrongAddrs at h
      rw [h1] at h
      cases h
    · rintro ⟨hf, -⟩
      obtain ⟨-, xref, hx, hh⟩ := (followed_iff hhead).1 hf
      exact absurd hh (h2 xref hx)
  · rw [wrongAddrs_some h3]
    obtain ⟨s, hs, rfl⟩ := hread xref h1
    have hsome : ∃ p, b = some p := by
      cases b with
      | some p => exact ⟨p, rfl⟩
      | none =>
        exfalso
        have := h2.2.1
        unfold entryPos at this
        obtain ⟨-, hs | hs⟩ := hs
        · obtain ⟨_, _, _, _, _, h, -⟩ := hs
          rw [h] at this
          cases this
        · obtain ⟨_, _, _, _, _, _, h, h', -⟩ := hs
          rw [h, h'] at this
          cases this
    obtain ⟨b, rfl⟩ := hsome
    have hfol : Followed seq (some b) := (followed_iff hhead).2 ⟨by simp, _, h1, h2⟩
    have hobj := stream_section hk hr hrows hs h2.2.1
    have hmem := streamEntries_mem hobj
    have hlead : ∀ x : XSRow, (∃ y ∈ m, Leads (xsEntry x) y) ↔ x.good m := by
      intro x
      unfold xsEntry XSRow.good
      rcases x.env with _ | _ | env
      · exact leads_dir (e := { num := _, gen := _, absPos := _ }) rfl rfl
      · exact leads_dir (e := { num := _, gen := _, absPos := _ }) rfl rfl
      · exact leads_emb (e := { num := _, gen := _, envNum := _, oPos := _, absPos := _ }) rfl rfl
    have hrepa : ∀ (x : XSRow) (t : Target), ReportedAs (xsEntry x) t → t.address = x.offset := by
      intro x t ht
      unfold xsEntry at ht
      split at ht
      · cases t with
        | dir => obtain ⟨h, -⟩ := ht; cases h
        | emb n e r =>
          obtain ⟨v, p, -, h, -, -, rfl⟩ := ht
          cases h
          rfl
      · cases t with
        | dir n g p => obtain ⟨-, -, -, h⟩ := ht; cases h; rfl
        | emb => obtain ⟨v, p, h, -⟩ := ht; cases h
    have hrepb : ∀ x : XSRow, ∃ t, ReportedAs (xsEntry x) t := by
      intro x
      unfold xsEntry
      split
      · exact ⟨.emb x.num _ x.offset, _, _, rfl, rfl, rfl, rfl, rfl⟩
      · exact ⟨.dir x.num x.gen x.offset, rfl, rfl, rfl, rfl⟩
    constructor
    · rintro ⟨t, ht, hta⟩
      obtain ⟨en, he, hpos, hrep, hno⟩ := (h4 t).1 ht
      obtain ⟨x, hrow, hn0, hkw, -, rfl⟩ := (hmem en).1 ((secEntries_pos hs en).1 ⟨he, hpos⟩)
      refine ⟨hfol, x, hrow, hn0, hkw, ?_, ?_⟩
      · have := hrepa x t hrep
        omega
      · intro hgood
        obtain ⟨y, hy, hl⟩ := (hlead x).2 hgood
        exact hno y hy hl
    · rintro ⟨-, y, hy, hn0, hkw, rfl, hbad⟩
      have hn : 0 ≤ y.num := streamEntries_nonneg hobj y hy hn0 hkw
      obtain ⟨hx, hpos⟩ := (secEntries_pos hs _).2 ((hmem _).2 ⟨y, hy, hn0, hkw, hn, rfl⟩)
      obtain ⟨t, ht⟩ := hrepb y
      exact ⟨t, (h4 t).2 ⟨_, hx, hpos, ht, fun x hxm hl => hbad ((hlead y).1 ⟨x, hxm, hl⟩)⟩, hrepa y t ht⟩

end

theorem mem_dirNotIndexed {un : List (Option Target)} {p : Int} :
    p ∈ dirNotIndexed un ↔ ∃ num gen, some (.dir num gen p) ∈ un := by
  unfold dirNotIndexed
  rw [List.mem_filterMap]
  constructor
  · rintro ⟨t, ht, h⟩
    split at h
    · cases h; exact ⟨_, _, ht⟩
    · cases h
  · rintro ⟨n, g, h⟩
    exact ⟨_, h, rfl⟩

theorem mem_embNotIndexed {un : List (Option Target)} {e n : Int} :
    (e, n) ∈ embNotIndexed un ↔ ∃ rank, some (.emb n e rank) ∈ un := by
  unfold embNotIndexed
  rw [List.mem_filterMap]
  constructor
  · rintro ⟨t, ht, h⟩
    split at h
    · cases h; exact ⟨_, ht⟩
    · cases h
  · rintro ⟨r, h⟩
    exact ⟨_, h, rfl⟩

/-- An object of the scan that is not indexed. -/
theorem unindexed_dir {m : List MapItem} {seq : List (List Entry)} {un : List (Option Target)}
    (h : checkNotIndexed m seq = .ok un) (num gen p : Int) :
    some (.dir num gen p) ∈ un ↔ Found m num gen p ∧ ¬ IndexedAt seq num gen p := by
  rw [C48_not_indexed m seq un h]
  constructor
  · rintro ⟨x, hx, hr, hn⟩
    cases x with
    | region r rows =>
      cases r with
      | indObj b fin n g o =>
        cases b with
        | none => exact hr.elim
        | some b =>
          cases hr
          refine ⟨⟨b, fin, o, rows, hx, rfl⟩, ?_⟩
          rintro ⟨xref, hxr, e, he, hp, h1, h2, h3, h4⟩
          exact hn xref hxr e he hp ⟨h1, h2.symm, h3.symm, h4⟩
      | _ => exact hr.elim
    | xrefStream => exact hr.elim
    | embedded bo act j n o env =>
      cases n with
      | int n => cases hr
      | _ => exact hr.elim
  · rintro ⟨⟨b, fin, o, rows, hm, rfl⟩, hn⟩
    refine ⟨_, hm, rfl, ?_⟩
    rintro xref hxr e he hp ⟨h1, h2, h3, h4⟩
    exact hn ⟨xref, hxr, e, he, hp, h1, h2.symm, h3.symm, h4⟩

theorem unindexed_emb {m : List MapItem} {seq : List (List Entry)} {un : List (Option Target)}
    (h : checkNotIndexed m seq = .ok un) (num env r : Int) :
    some (.emb num env r) ∈ un ↔ FoundIn m num env r ∧ ¬ IndexedIn seq num env r := by
  rw [C48_not_indexed m seq un h]
  constructor
  · rintro ⟨x, hx, hr, hn⟩
    cases x with
    | region r rows =>
      cases r with
      | indObj b fin n g o =>
        cases b with
        | none => exact hr.elim
        | some b => cases hr
      | _ => exact hr.elim
    | xrefStream => exact hr.elim
    | embedded bo act j n o env =>
      cases n with
      | int n =>
        cases hr
        refine ⟨⟨bo, act, j, o, hx, rfl⟩, ?_⟩
        rintro ⟨xref, hxr, e, he, v, p, hp, h1, h2, h3, h4, h5⟩
        have : p = j := by omega
        subst this
        exact hn xref hxr e he hp ⟨v, h1, h3.symm, h4.symm, h2⟩
      | _ => exact hr.elim
  · rintro ⟨⟨bo, act, j, o, hm, rfl⟩, hn⟩
    refine ⟨_, hm, rfl, ?_⟩
    rintro xref hxr e he hp ⟨v, h1, h2, h3, h4⟩
    exact hn ⟨xref, hxr, e, he, v, j, hp, h1, h4, h2.symm, h3.symm, rfl⟩

section
variable [Zlib] {F : Bytes} {m : List MapItem}

/-- Where the items of the map come from. -/
theorem item_table (hm : fileObjectMap F = .ok m) {b e : Nat} {rows : List XRow} {tr : Obj} {l : List (Nat × Nat × XRow)}
    (h : .region (.xrefTable b e rows tr) l ∈ m) :
    b < F.length ∧ parseRegion F b = .ok (some (.xrefTable b e rows tr)) ∧ numberRows none rows = .ok l := by
  obtain ⟨k, r, its, h1, h2, h3, hk⟩ := fileMapLoop_mem hm _ h
  have : r = .xrefTable b e rows tr ∧ numberRows none rows = .ok l := by
    unfold regionItems at h2
    split at h2
    · obtain ⟨l', hl, h2⟩ := bind_eq_ok h2
      cases h2
      rcases List.mem_singleton.1 h3 with h3
      cases h3
      exact ⟨rfl, hl⟩
    · exfalso
      split at h2
      · split at h2
        · obtain ⟨l, -, h2⟩ := bind_eq_ok h2
          cases h2
          simp at h3
        · split at h2
          · obtain ⟨l, -, h2⟩ := bind_eq_ok h2
            split at h2 <;> cases h2
            · rcases List.mem_cons.1 h3 with h3 | h3
              · cases h3
              · exact embeddedItems_region h3
            · simp at h3
          · cases h2; simp at h3
      · cases h2; simp at h3
    · rename_i hx1 hx2
      cases h2
      rcases List.mem_singleton.1 h3 with h3
      cases h3
      exact absurd rfl (hx1 _ _ _ _)
  obtain ⟨rfl, hl⟩ := this
  obtain ⟨rfl, -, -⟩ := parseRegion_table h1
  exact ⟨hk, h1, hl⟩

theorem item_direct (hm : fileObjectMap F = .ok m) {b e : Nat} {num gen : Int} {o : Obj} {l : List (Nat × Nat × XRow)}
    (h : .region (.indObj (some b) e num gen o) l ∈ m) :
    parseRegion F b = .ok (some (.indObj (some b) e num gen o)) := by
  obtain ⟨k, r, its, h1, h2, h3, hk⟩ := fileMapLoop_mem hm _ h
  have hr : r = .indObj (some b) e num gen o := by
    unfold regionItems at h2
    split at h2
    · obtain ⟨l', hl, h2⟩ := bind_eq_ok h2
      cases h2
      rcases List.mem_singleton.1 h3 with h3
      cases h3
    · split at h2
      · split at h2
        · obtain ⟨l, -, h2⟩ := bind_eq_ok h2
          cases h2
          simp only [List.mem_cons, List.not_mem_nil, or_false, reduceCtorEq] at h3
          cases h3
          rfl
        · split at h2
          · obtain ⟨l, -, h2⟩ := bind_eq_ok h2
            split at h2 <;> cases h2
            · rcases List.mem_cons.1 h3 with h3 | h3
              · cases h3; rfl
              · exact (embeddedItems_region h3).elim
            · rcases List.mem_singleton.1 h3 with h3
              cases h3
          · cases h2
            rcases List.mem_singleton.1 h3 with h3
            cases h3; rfl
      · cases h2
        rcases List.mem_singleton.1 h3 with h3
        cases h3; rfl
    · cases h2
      rcases List.mem_singleton.1 h3 with h3
      cases h3; rfl
  subst hr
  have : b = k := by
    rcases (parseRegion_spec hk h1).1 with h | ⟨h, -⟩ <;> cases h
    rfl
  subst this
  exact h1

theorem item_stream (hm : fileObjectMap F = .ok m) {b : Option Nat} {l : List (Nat × Nat × XSRow)} {t : Dict}
    (h : .xrefStream b l t ∈ m) : ∃ k e num gen st enc rows, k < F.length ∧
      parseRegion F k = .ok (some (.indObj b e num gen (.stream t st enc))) ∧ parseXrefStreamRaw t st = .ok rows ∧
      l.map (·.2.2) = rows := by
  obtain ⟨k, r, its, h1, h2, h3, hk⟩ := fileMapLoop_mem hm _ h
  unfold regionItems at h2
  split at h2
  · obtain ⟨l', hl, h2⟩ := bind_eq_ok h2
    cases h2
    simp at h3
  · split at h2
    · split at h2
      · obtain ⟨rows, hrows, h2⟩ := bind_eq_ok h2
        cases h2
        simp only [List.mem_cons, List.not_mem_nil, or_false, reduceCtorEq, false_or, MapItem.xrefStream.injEq] at h3
        obtain ⟨rfl, rfl, rfl⟩ := h3
        exact ⟨k, _, _, _, _, _, rows, hk, h1, hrows, numberXSRows_map _ _⟩
      · split at h2
        · obtain ⟨l', -, h2⟩ := bind_eq_ok h2
          split at h2 <;> cases h2
          · rcases List.mem_cons.1 h3 with h3 | h3
            · cases h3
            · exact (embeddedItems_xref h3).elim
          · simp at h3
        · cases h2; simp at h3
    · cases h2; simp at h3
  · cases h2; simp at h3

end

theorem itemLines_describes [Zlib] {pct : Nat → Nat → Bytes} {F : Bytes} {m : List MapItem} {seq : List (List Entry)}
    {wrong : Option Int → Option (List Target)} {un : List (Option Target)} (hm : fileObjectMap F = .ok m)
    (hseq : xrefSequence F = .ok seq) (hw : checkIndexTargets m seq = .ok wrong) (hun : checkNotIndexed m seq = .ok un) :
    ∀ x ∈ m, ∀ y, itemLines pct wrong un x = .ok y → Describes pct m seq x y := by
  intro x hx y hy
  cases x with
  | region r rows =>
    cases r with
    | void b e t => cases hy; exact ⟨_, rfl, rfl, rfl, rfl, rfl⟩
    | comment b e t =>
      rw [itemLines] at hy
      split at hy
      · cases hy
      · cases hy; exact ⟨_, rfl, rfl, rfl, rfl, rfl⟩
    | startxref b e t =>
      rw [itemLines] at hy
      cases ht : pyInt t with
      | none => rw [ht] at hy; cases hy
      | some n =>
        rw [ht] at hy
        cases hy
        exact ⟨_, n, rfl, ⟨rfl, rfl, rfl, rfl⟩, ht, rfl⟩
    | indObj b e num gen o =>
      cases hy
      refine ⟨_, rfl, ⟨rfl, rfl, ?_, ?_⟩, rfl, objectLine_of rfl rfl rfl, ?_⟩
      · cases b <;> rfl
      · cases b <;> rfl
      · rintro p rfl
        have hiff : (p : Int) ∈ dirNotIndexed un ↔ ¬ IndexedAt seq num gen p := by
          rw [mem_dirNotIndexed]
          constructor
          · rintro ⟨n, g, hmem⟩
            obtain ⟨⟨b', fin', o', rows', hm', hb'⟩, hno⟩ := (unindexed_dir hun n g p).1 hmem
            have : b' = p := by omega
            subst this
            have e1 := item_direct hm hx
            rw [item_direct hm hm'] at e1
            cases e1
            exact hno
          · intro hno
            exact ⟨num, gen, (unindexed_dir hun num gen p).2 ⟨⟨p, e, o, rows, hx, rfl⟩, hno⟩⟩
        constructor
        · intro hi
          simp only [Option.any_some, hiff, hi, not_true_eq_false, decide_false, Bool.false_eq_true, if_false]
        · intro hi
          simp only [Option.any_some, hiff, hi, not_false_eq_true, decide_true, if_true]
    | xrefTable b e rws tr =>
      unfold itemLines at hy
      simp only at hy
      split at hy
      case h_2 => cases hy
      cases hy
      obtain ⟨hb, hr, hl⟩ := item_table hm hx
      have hmem := numberRows_mem hl
      refine ⟨_, _, rfl, ⟨rfl, rfl, rfl, rfl⟩, all₂_flatMap _ _ ?_⟩
      intro x hxr
      obtain ⟨hin, off, num, gen, kw, hxe⟩ := (hmem x.2.2).1 ⟨x, hxr, rfl⟩
      have hwr : off ∈ wrongAddrs wrong (some (b : Int)) ↔
          Followed seq (some b) ∧ ∃ y ∈ rows, y.2.2.used ∧ y.2.2.address = off ∧ ¬ y.2.2.good m := by
        rw [table_wrong hseq hw hb hr]
        constructor
        · rintro ⟨h1, y, hy, hu, h2⟩
          refine ⟨h1, ?_⟩
          cases y with
          | sub => exact hu.elim
          | entry o n g k =>
            obtain ⟨z, hz, hzy⟩ := (hmem (.entry o n g k)).2 ⟨hy, _, _, _, _, rfl⟩
            exact ⟨z, hz, by rw [hzy]; exact ⟨hu, h2⟩⟩
        · rintro ⟨h1, z, hz, h2⟩
          exact ⟨h1, z.2.2, ((hmem z.2.2).1 ⟨z, hz, rfl⟩).1, h2⟩
      refine ⟨_, by rw [hxe]; rfl, off, num, gen, kw, hxe, rfl, rfl, rfl, rfl, ?_, ?_, ?_⟩
      · simp
      · intro hwg
        rw [if_pos (hwr.2 hwg)]
      · intro hwg
        rw [if_neg fun hh => hwg (hwr.1 hh)]
  | xrefStream b rows t =>
    cases hy
    obtain ⟨k, e, num, gen, st, enc, rws, hk, hr, hrows, hmap⟩ := item_stream hm hx
    refine all₂_map _ _ ?_
    intro x hxr
    have hwr := stream_wrong hseq hw hk hr hrows x.2.2.offset
    have hiff : (∃ y ∈ rws, y.num ≠ 0 ∧ y.kw ≠ b!"f" ∧ y.offset = x.2.2.offset ∧ ¬ y.good m) ↔
        ∃ y ∈ rows, y.2.2.num ≠ 0 ∧ y.2.2.kw ≠ b!"f" ∧ y.2.2.offset = x.2.2.offset ∧ ¬ y.2.2.good m := by
      rw [← hmap]
      simp only [List.mem_map]
      constructor
      · rintro ⟨y, ⟨z, hz, rfl⟩, h⟩; exact ⟨z, hz, h⟩
      · rintro ⟨z, hz, h⟩; exact ⟨_, ⟨z, hz, rfl⟩, h⟩
    rw [hiff] at hwr
    refine ⟨⟨rfl, rfl, rfl, rfl, ?_, ?_, ?_⟩, rfl⟩
    · simp [streamLine]
    · intro hwg
      simp only [streamLine]
      rw [if_pos (hwr.2 hwg)]
    · intro hwg
      simp only [streamLine]
      rw [if_neg fun hh => hwg (hwr.1 hh)]
  | embedded bo act j num o env =>
    unfold itemLines at hy
    simp only at hy
    split at hy
    · cases hy
    rename_i henv
    cases num with
    | int n =>
      cases hy
      have hiff : (env, (j : Int)) ∈ embNotIndexed un ↔ ∃ r, FoundIn m j env r ∧ ¬ IndexedIn seq j env r := by
        rw [mem_embNotIndexed]
        constructor
        · rintro ⟨r, h⟩; exact ⟨r, (unindexed_emb hun j env r).1 h⟩
        · rintro ⟨r, h⟩; exact ⟨r, (unindexed_emb hun j env r).2 h⟩
      refine ⟨_, n, rfl, rfl, rfl, rfl, rfl, rfl, rfl, rfl, objectLine_of rfl rfl rfl, ?_, ?_⟩
      · intro hh
        simp only [if_pos (hiff.2 hh)]
      · intro hh
        simp only [if_neg fun h => hh (hiff.1 h)]
    | _ => cases hy

/-- C81. Each item of the scan gives the lines that describe it: a region its position and size; an object the mark `@-`
exactly when some cross-reference section lists it at its position; an entry of a table or of a cross-reference stream
the mark `-?` exactly when the chain of sections goes through this table or stream and one of its entries in use with
the same address leads to no object that the scan finds.
Partial: the address alone is compared (`C81_address_counterexample`), the entries out of the chain are not checked
(`C81_chain_counterexample`), and the mark of an embedded object is that of the object whose number is its rank
(`C81_embedded_counterexample`). -/
theorem C81_lines_partial [Zlib] (pct : Nat → Nat → Bytes) (F : Bytes) (ls : List DLine)
    (h : disasmLines pct F = .ok ls) : ∃ m seq groups, fileObjectMap F = .ok m ∧ xrefSequence F = .ok seq ∧
      ls = groups.flatten ∧ All₂ (Describes pct m seq) m groups := by
  obtain ⟨m, hm, h⟩ := bind_eq_ok h
  obtain ⟨seq, hseq, h⟩ := bind_eq_ok h
  obtain ⟨wrong, hw, h⟩ := bind_eq_ok h
  obtain ⟨un, hun, h⟩ := bind_eq_ok h
  obtain ⟨groups, hg, h⟩ := bind_eq_ok h
  cases h
  refine ⟨m, seq, groups, hm, hseq, rfl, mapM_all₂ hg (itemLines_describes hm hseq hw hun)⟩

/-! ### The regions cover the file -/

/-- The lines of the regions. -/
def plusLines (ls : List DLine) : List DLine := ls.filter fun l => l.macroInd = .str b!"+"

theorem plusLines_append (a b : List DLine) : plusLines (a ++ b) = plusLines a ++ plusLines b := by
  simp [plusLines]

theorem all₂_plus {α : Type} {R : α → DLine → Prop} {l : List α} {ls : List DLine} (h : All₂ R l ls)
    (hR : ∀ a l, R a l → l.macroInd = .str b!"-") : plusLines ls = [] := by
  induction h with
  | nil => rfl
  | cons h _ ih =>
    unfold plusLines at ih ⊢
    rw [List.filter_cons, hR _ _ h, ih]
    rfl

/-- The lines of an item which begin with `+`: one for a region, with its bounds, none for the others. -/
theorem describes_plus {pct : Nat → Nat → Bytes} {m : List MapItem} {seq : List (List Entry)} {x : MapItem} {ls : List DLine}
    (h : Describes pct m seq x ls) :
    (plusLines ls).map (fun l => (l.pos, l.size)) = (spans [x]).map fun p =>
      (match p.1 with | some b => .int b | none => .none_, match p.1 with | some b => .int ((p.2 : Int) - b) | none => .none_) := by
  have one : ∀ {kind : Bytes} {b : Option Nat} {e : Nat} {l : DLine}, RegionLine kind b e l →
      (plusLines [l]).map (fun l => (l.pos, l.size)) =
        [(match b with | some b => .int b | none => .none_, match b with | some b => .int ((e : Int) - b) | none => .none_)] := by
    intro kind b e l h
    unfold plusLines
    rw [List.filter_cons, h.macroInd, if_pos (by simp), List.filter_nil, List.map_cons, List.map_nil, h.pos, h.size]
    cases b <;> rfl
  cases x with
  | region r rows =>
    cases r with
    | void b e t => obtain ⟨l, rfl, h⟩ := h; exact one h
    | comment b e t => obtain ⟨l, rfl, h⟩ := h; exact one h
    | startxref b e t => obtain ⟨l, n, rfl, h, -⟩ := h; exact one h
    | indObj b e num gen o => obtain ⟨l, rfl, h, -⟩ := h; exact one h
    | xrefTable b e rws tr =>
      obtain ⟨l, rest, rfl, h, h2⟩ := h
      have hr : plusLines rest = [] := all₂_plus h2 (by rintro a l ⟨_, _, _, _, -, h⟩; exact h.macroInd)
      rw [show l :: rest = [l] ++ rest from rfl, plusLines_append, hr, List.append_nil]
      exact one h
  | xrefStream b rows t =>
    rw [all₂_plus h (by rintro a l ⟨h, -⟩; exact h.macroInd)]
    rfl
  | embedded bo act j num o env =>
    obtain ⟨l, n, rfl, -, h, -⟩ := h
    unfold plusLines
    rw [List.filter_cons, h]
    rfl

theorem describes_spans {pct : Nat → Nat → Bytes} {m' : List MapItem} {seq : List (List Entry)} {m : List MapItem} {groups : List (List DLine)}
    (h : All₂ (Describes pct m' seq) m groups) :
    (plusLines groups.flatten).map (fun l => (l.pos, l.size)) = (spans m).map fun p =>
      (match p.1 with | some b => .int b | none => .none_, match p.1 with | some b => .int ((p.2 : Int) - b) | none => .none_) := by
  induction h with
  | nil => rfl
  | @cons a b l m h t ih =>
    rw [List.flatten_cons, plusLines_append, List.map_append, ih, describes_plus h,
      show a :: l = [a] ++ l from rfl, spans_append, List.map_append]

theorem Tiles.sizes {F : Bytes} {i e : Nat} {l : List (Option Nat × Nat)} (t : Tiles F i l e) (hn : ∀ p ∈ l, p.1 ≠ none) :
    ∃ sizes : List Nat, sizes.length = l.length ∧ (∀ s ∈ sizes, 0 < s) ∧ i + sizes.sum = e ∧
      ∀ (k : Nat) (hk : k < l.length), ∃ s, sizes[k]? = some s ∧
        l[k] = (some (i + (sizes.take k).sum), i + (sizes.take k).sum + s) := by
  induction t with
  | nil i => exact ⟨[], rfl, by simp, by simp, by simp⟩
  | lost h n t ih => exact absurd rfl (hn _ (List.mem_cons_self ..))
  | @cons i j e rest h t ih =>
    obtain ⟨sizes, h1, h2, h3, h4⟩ := ih fun q hq => hn q (by simp [hq])
    refine ⟨(j - i) :: sizes, by simp [h1], ?_, ?_, ?_⟩
    · intro s hs
      rcases List.mem_cons.1 hs with rfl | hs
      · omega
      · exact h2 s hs
    · rw [List.sum_cons]; omega
    · intro k hk
      cases k with
      | zero => exact ⟨j - i, rfl, by simp; omega⟩
      | succ k =>
        obtain ⟨s, hs, hl⟩ := h4 k (by simpa using hk)
        refine ⟨s, by simpa using hs, ?_⟩
        rw [List.getElem_cons_succ, hl, List.take_succ_cons, List.sum_cons]
        simp only [Prod.mk.injEq, Option.some.injEq]
        omega

/-- C81, positions and sizes. In a file which ends with an end of line, the lines of the regions follow each other: each
begins where the previous one ends, and together they cover the file up to its end, or up to a token which begins no
region.
Partial: for the other files, see `C46_begin_counterexample`. -/
theorem C81_regions_partial [Zlib] (pct : Nat → Nat → Bytes) (F : Bytes) (ls : List DLine)
    (h : disasmLines pct F = .ok ls) (hF : F.getLast?.any isEol = true) :
    ∃ sizes : List Nat, (∀ s ∈ sizes, 0 < s) ∧
      (plusLines ls).map (fun l => (l.pos, l.size)) =
        (List.range sizes.length).map (fun k => (.int ((sizes.take k).sum : Nat), .int (sizes[k]?.getD 0 : Nat))) ∧
      (sizes.sum = F.length ∨ ∃ j t, nextToken F sizes.sum = (sizes.sum, j, some t) ∧ t ≠ .comment ∧
        slice F sizes.sum (sizes.sum + 9) ≠ b!"startxref") := by
  obtain ⟨m, seq, groups, hm, -, rfl, hd⟩ := C81_lines_partial pct F ls h
  obtain ⟨e, t, he, hend⟩ := C46_tiles_partial F m hm
  obtain ⟨sizes, s1, s2, s3, s4⟩ := t.sizes (t.known hF he)
  rw [Nat.zero_add] at s3
  subst s3
  refine ⟨sizes, s2, ?_, hend⟩
  rw [describes_spans hd, s1]
  apply List.ext_getElem
  · simp
  · intro k h1 h2
    have hk : k < (spans m).length := by simpa using h1
    obtain ⟨s, hs, hl⟩ := s4 k hk
    simp only [List.getElem_map, List.getElem_range, hl, hs, Nat.zero_add, Option.getD_some, Prod.mk.injEq, Cell.int.injEq,
      true_and]
    omega

/-! ### The columns -/

/-- The width of a value. -/
theorem growWidths_spec : ∀ {ws : List Nat} {cs : List Cell} {ws' : List Nat}, growWidths ws cs = .ok ws' →
    ws'.length = ws.length ∧ ∀ (k : Nat), ws[k]?.getD 0 ≤ ws'[k]?.getD 0 ∧
      ∀ c, cs[k]? = some c → k < ws.length → ∃ n, c.width = .ok n ∧ n ≤ ws'[k]?.getD 0
  | [], cs, ws', h => by
    cases cs <;> cases h <;> simp
  | w :: ws, [], ws', h => by cases h; simp
  | w :: ws, c :: cs, ws', h => by
    rw [growWidths] at h
    obtain ⟨n, hn, h⟩ := bind_eq_ok h
    obtain ⟨rest, hr, h⟩ := bind_eq_ok h
    cases h
    obtain ⟨i1, i2⟩ := growWidths_spec hr
    refine ⟨by simp [i1], fun k => ?_⟩
    cases k with
    | zero =>
      simp only [List.getElem?_cons_zero, Option.getD_some, Option.some.injEq]
      refine ⟨by split <;> omega, ?_⟩
      rintro _ rfl -
      exact ⟨n, hn, by split <;> omega⟩
    | succ k =>
      simp only [List.getElem?_cons_succ]
      refine ⟨(i2 k).1, fun c hc hk => (i2 k).2 c hc (by simpa using hk)⟩

theorem columnWidths_spec : ∀ {ls : List DLine} {ws ws' : List Nat}, columnWidths ls ws = .ok ws' →
    ws'.length = ws.length ∧ ∀ (k : Nat), ws[k]?.getD 0 ≤ ws'[k]?.getD 0 ∧
      ∀ l ∈ ls, ∀ c, l.cells[k]? = some c → k < ws.length → ∃ n, c.width = .ok n ∧ n ≤ ws'[k]?.getD 0
  | [], ws, ws', h => by cases h; simp
  | l :: ls, ws, ws', h => by
    rw [columnWidths] at h
    obtain ⟨w1, h1, h⟩ := bind_eq_ok h
    obtain ⟨i1, i2⟩ := growWidths_spec h1
    obtain ⟨j1, j2⟩ := columnWidths_spec h
    refine ⟨by rw [j1, i1], fun k => ⟨Nat.le_trans (i2 k).1 (j2 k).1, ?_⟩⟩
    intro l' hl' c hc hk
    rcases List.mem_cons.1 hl' with rfl | hl'
    · obtain ⟨n, hn, hle⟩ := (i2 k).2 c hc hk
      exact ⟨n, hn, Nat.le_trans hle (j2 k).1⟩
    · exact (j2 k).2 l' hl' c hc (by omega)

/-- The text of a value. -/
def Cell.text : Cell → Bytes
  | .none_ => []
  | .int n => intDec n
  | .str s => s

/-- How a value is written in the space of a column: the blanks and the leading zeros added around it. -/
def Shows (c : Cell) (t : Bytes) : Prop :=
  ∃ pre post : Bytes, (∀ x ∈ pre, x = 32 ∨ x = 48 ∨ x = 91) ∧ (∀ x ∈ post, x = 32 ∨ x = 93) ∧ t = pre ++ c.text ++ post

theorem blanks_mem {n : Nat} {x : UInt8} (h : x ∈ blanks n) : x = 32 := (List.mem_replicate.1 h).2

theorem blanks_length (n : Nat) : (blanks n).length = n := List.length_replicate ..

theorem cellWidth_len {c : Cell} {n : Nat} (h : c.width = .ok n) :
    c.text.length = n := by
  cases c with
  | none_ => cases h; rfl
  | int i =>
    rw [Cell.width] at h
    split at h
    · cases h
    · rename_i hn
      cases h
      have : i = Int.ofNat i.toNat := (Int.toNat_of_nonneg (by omega)).symm
      rw [this]
      rfl
  | str s => cases h; rfl

theorem cellText_ok {c : Cell} {n w : Nat} (h : c.width = .ok n) (hw : n ≤ w) :
    (cellText w c).length = w ∧ Shows c (cellText w c ++ b!" ") := by
  have hl := cellWidth_len h
  cases c with
  | none_ =>
    refine ⟨blanks_length w, blanks w, b!" ", fun x hx => .inl (blanks_mem hx), by simp, by simp [cellText, Cell.text]⟩
  | int i =>
    simp only [Cell.text] at hl
    refine ⟨by rw [cellText, List.length_append, blanks_length, hl]; omega, blanks (w - (intDec i).length), b!" ",
      fun x hx => .inl (blanks_mem hx), by simp, by simp [cellText, Cell.text]⟩
  | str s =>
    simp only [Cell.text] at hl
    refine ⟨by rw [cellText, List.length_append, blanks_length, hl]; omega, [], blanks (w - s.length) ++ b!" ",
      by simp, ?_, by simp [cellText, Cell.text]⟩
    intro x hx
    rcases List.mem_append.1 hx with hx | hx
    · exact .inl (blanks_mem hx)
    · exact .inl (by simpa using hx)

theorem numText_ok {c : Cell} {n w : Nat} (h : c.width = .ok n) (hw : n ≤ w) (hc : ∀ s, c ≠ .str s) :
    (numText w c).length = w ∧ Shows c (numText w c ++ b!" ") := by
  have hl := cellWidth_len h
  cases c with
  | none_ =>
    refine ⟨blanks_length w, blanks w, b!" ", fun x hx => .inl (blanks_mem hx), by simp, by simp [numText, Cell.text]⟩
  | int i =>
    have hi : natDec i.toNat = intDec i := by
      rw [Cell.width] at h
      split at h
      · cases h
      · conv => rhs; rw [show i = Int.ofNat i.toNat from (Int.toNat_of_nonneg (by omega)).symm]
        rfl
    simp only [Cell.text] at hl
    refine ⟨?_, List.replicate (w - (intDec i).length) 48, b!" ", fun x hx => .inr (.inl (List.mem_replicate.1 hx).2),
      by simp, ?_⟩
    · rw [numText, natPad, hi, List.length_append, List.length_replicate, hl]; omega
    · rw [numText, natPad, hi, Cell.text]
  | str s => exact absurd rfl (hc s)

theorem sizeText_ok {c : Cell} {n w : Nat} (hc : ∀ s, c ≠ .str s) (h : c.width = .ok n) (hw : n ≤ w) {t : Bytes}
    (ht : t = match (generalizing := false) c with
      | .int n => b!"[" ++ intDec n ++ blanks (w - (intDec n).length) ++ b!"] "
      | _ => blanks (w + 3)) : t.length = w + 3 ∧ Shows c t := by
  have hl := cellWidth_len h
  subst ht
  cases c with
  | none_ =>
    refine ⟨blanks_length _, blanks (w + 3), [], fun x hx => .inl (blanks_mem hx), by simp, by simp [Cell.text]⟩
  | int i =>
    simp only [Cell.text] at hl
    refine ⟨?_, b!"[", blanks (w - (intDec i).length) ++ b!"] ", by simp, ?_, by simp [Cell.text]⟩
    · simp only [List.length_append, blanks_length, hl, List.length_cons, List.length_nil]
      omega
    · intro x hx
      rcases List.mem_append.1 hx with hx | hx
      · exact .inl (blanks_mem hx)
      · simp only [List.mem_cons, List.not_mem_nil, or_false] at hx
        rcases hx with rfl | rfl <;> simp
  | str s => exact absurd rfl (hc s)

/-- The columns of positions, sizes and addresses hold numbers. -/
def Numeric (l : DLine) : Prop := ∀ c ∈ [l.pos, l.size, l.addr], ∀ s, c ≠ .str s

theorem itemLines_numeric {pct : Nat → Nat → Bytes} {wrong : Option Int → Option (List Target)} {un : List (Option Target)}
    {x : MapItem} {ls : List DLine} (h : itemLines pct wrong un x = .ok ls) : ∀ l ∈ ls, Numeric l := by
  cases x with
  | region r rows =>
    cases r with
    | void b e t =>
      cases h
      simp [Numeric, sizeCell]
    | comment b e t =>
      rw [itemLines] at h
      split at h
      · cases h
      · cases h; simp [Numeric, sizeCell]
    | startxref b e t =>
      rw [itemLines] at h
      obtain ⟨n, -, h⟩ := bind_eq_ok h
      cases h
      simp [Numeric, sizeCell]
    | indObj b e num gen o =>
      cases h
      cases b <;> simp [Numeric, sizeCell, posCell]
    | xrefTable b e rws tr =>
      unfold itemLines at h
      simp only at h
      split at h
      case h_2 => cases h
      cases h
      intro l hl
      rcases List.mem_cons.1 hl with rfl | hl
      · simp [Numeric, sizeCell]
      · obtain ⟨x, -, hx⟩ := List.mem_flatMap.1 hl
        unfold tableLine at hx
        split at hx
        · cases hx
        · rcases List.mem_singleton.1 hx with rfl
          simp [Numeric]
  | xrefStream b rows t =>
    cases h
    intro l hl
    obtain ⟨x, -, rfl⟩ := List.mem_map.1 hl
    simp [Numeric, streamLine]
  | embedded bo act j num o env =>
    unfold itemLines at h
    simp only at h
    split at h
    · cases h
    cases num with
    | int n => cases h; simp [Numeric]
    | _ => cases h

/-- C81, layout: the lines are cut into the same columns; in each line, each column shows the value of the line. The last
column, `detail`, is in C109. -/
theorem C81_columns [Zlib] (pct : Nat → Nat → Bytes) (F : Bytes) (ls : List DLine) (texts : List (List Bytes))
    (h : disasmLines pct F = .ok ls) (ht : disasmColumns ls = .ok texts) :
    ∃ widths : List Nat, widths.length = 13 ∧ All₂ (fun l t => t.length = 13 ∧ ∀ (k : Nat) c, l.cells[k]? = some c →
      ∃ x, t[k]? = some x ∧ x.length = widths[k]?.getD 0 ∧ Shows c x) ls texts := by
  have hnum : ∀ l ∈ ls, Numeric l := by
    obtain ⟨m, hm, h⟩ := bind_eq_ok h
    obtain ⟨seq, hseq, h⟩ := bind_eq_ok h
    obtain ⟨wrong, hw, h⟩ := bind_eq_ok h
    obtain ⟨un, hun, h⟩ := bind_eq_ok h
    obtain ⟨groups, hg, h⟩ := bind_eq_ok h
    cases h
    intro l hl
    obtain ⟨g, hgm, hl⟩ := List.mem_flatten.1 hl
    obtain ⟨x, -, hx⟩ := (mapM_ok_mem hg).1 g hgm
    exact itemLines_numeric hx l hl
  obtain ⟨ws, hws, ht⟩ := bind_eq_ok ht
  cases ht
  obtain ⟨hlen, hspec⟩ := columnWidths_spec hws
  rw [List.length_replicate] at hlen
  match ws, hlen with
  | [w0, w1, w2, w3, w4, w5, w6, w7, w8, w9, w10, w11, w12], _ =>
    refine ⟨[w0 + 1, w1 + 1, w2 + 3, w3 + 1, w4 + 1, w5 + 1, w6 + 1, w7 + 1, w8 + 1, w9 + 1, w10 + 1, w11 + 1, w12 + 1], rfl,
      all₂_map _ _ ?_⟩
    intro l hl
    refine ⟨rfl, ?_⟩
    intro k c hc
    have hk : k < 13 := by
      have := lt_of_getElem? hc
      simpa [DLine.cells] using this
    obtain ⟨n, hn, hle⟩ := (hspec k).2 l hl c hc (by simpa using hk)
    have hN := hnum l hl
    have cell : ∀ {w : Nat} {c : Cell}, c.width = .ok n → n ≤ w →
        (cellText w c ++ b!" ").length = w + 1 ∧ Shows c (cellText w c ++ b!" ") := by
      intro w c h1 h2
      have := cellText_ok h1 h2
      exact ⟨by rw [List.length_append, this.1]; rfl, this.2⟩
    have num : ∀ {w : Nat} {c : Cell}, c.width = .ok n → n ≤ w → (∀ s, c ≠ .str s) →
        (numText w c ++ b!" ").length = w + 1 ∧ Shows c (numText w c ++ b!" ") := by
      intro w c h1 h2 h3
      have := numText_ok h1 h2 h3
      exact ⟨by rw [List.length_append, this.1]; rfl, this.2⟩
    match k, hk with
    | 0, _ => cases hc; exact ⟨_, rfl, cell hn hle⟩
    | 1, _ => cases hc; exact ⟨_, rfl, num hn hle (hN _ (by simp))⟩
    | 2, _ => cases hc; exact ⟨_, rfl, sizeText_ok (hN _ (by simp)) hn hle rfl⟩
    | 3, _ => cases hc; exact ⟨_, rfl, cell hn hle⟩
    | 4, _ => cases hc; exact ⟨_, rfl, cell hn hle⟩
    | 5, _ => cases hc; exact ⟨_, rfl, cell hn hle⟩
    | 6, _ => cases hc; exact ⟨_, rfl, cell hn hle⟩
    | 7, _ => cases hc; exact ⟨_, rfl, cell hn hle⟩
    | 8, _ => cases hc; exact ⟨_, rfl, cell hn hle⟩
    | 9, _ => cases hc; exact ⟨_, rfl, cell hn hle⟩
    | 10, _ => cases hc; exact ⟨_, rfl, cell hn hle⟩
    | 11, _ => cases hc; exact ⟨_, rfl, num hn hle (hN _ (by simp))⟩
    | 12, _ => cases hc; exact ⟨_, rfl, cell hn hle⟩

/-! ### Files written by the library -/

/-- C81, for the files written by the library (with tables): no mark `?`.
Partial: when the listing is made; see `C70_scan_counterexample`. -/
theorem C81_own_partial [Zlib] (pct : Nat → Nat → Bytes) (d d' : Doc) (out : Bytes) (h : Made d)
    (hw : writeFile d = .ok (out, d')) (hmin : 100 ≤ out.length) (hmax : out.length < 10 ^ 80) (ls : List DLine)
    (hl : disasmLines pct out = .ok ls) : ∀ l ∈ ls, l.st = .none_ ∨ l.st = .str b!"@-" ∨ l.st = .str b!"-@" := by
  obtain ⟨m, hm, hl⟩ := bind_eq_ok hl
  obtain ⟨seq, hseq, hl⟩ := bind_eq_ok hl
  obtain ⟨wrong, hwr, hl⟩ := bind_eq_ok hl
  obtain ⟨un, hun, hl⟩ := bind_eq_ok hl
  obtain ⟨groups, hg, hl⟩ := bind_eq_ok hl
  cases hl
  obtain ⟨seq', ret, c1, c2, -, c4, c5⟩ := C70_checks_partial d d' out h hw hmin hmax m hm
  rw [hseq] at c1
  cases c1
  rw [hwr] at c2
  cases c2
  rw [hun] at c5
  cases c5
  have hno : ∀ p, wrongAddrs wrong p = [] := by
    intro p
    unfold wrongAddrs
    cases hp : wrong p with
    | none => rfl
    | some errs => rw [c4 p errs hp]; rfl
  intro l hl
  obtain ⟨g, hgm, hl⟩ := List.mem_flatten.1 hl
  obtain ⟨x, -, hx⟩ := (mapM_ok_mem hg).1 g hgm
  cases x with
  | region r rows =>
    cases r with
    | void b e t => cases hx; rcases List.mem_singleton.1 hl with rfl; exact .inl rfl
    | comment b e t =>
      rw [itemLines] at hx
      split at hx
      · cases hx
      · cases hx; rcases List.mem_singleton.1 hl with rfl; exact .inl rfl
    | startxref b e t =>
      rw [itemLines] at hx
      obtain ⟨n, -, hx⟩ := bind_eq_ok hx
      cases hx; rcases List.mem_singleton.1 hl with rfl; exact .inl rfl
    | indObj b e num gen o =>
      cases hx
      rcases List.mem_singleton.1 hl with rfl
      right; left
      cases b <;> simp [dirNotIndexed]
    | xrefTable b e rws tr =>
      unfold itemLines at hx
      simp only at hx
      split at hx
      case h_2 => cases hx
      cases hx
      rcases List.mem_cons.1 hl with rfl | hl
      · exact .inl rfl
      · obtain ⟨x, -, hx⟩ := List.mem_flatMap.1 hl
        unfold tableLine at hx
        split at hx
        · cases hx
        · rcases List.mem_singleton.1 hx with rfl
          right; right
          simp [hno]
  | xrefStream b rows t =>
    cases hx
    obtain ⟨x, -, rfl⟩ := List.mem_map.1 hl
    right; right
    simp [streamLine, hno]
  | embedded bo act j num o env =>
    unfold itemLines at hx
    simp only at hx
    split at hx
    · cases hx
    cases num with
    | int n =>
      cases hx
      rcases List.mem_singleton.1 hl with rfl
      right; left
      simp [embNotIndexed]
    | _ => cases hx

/-! ### Cases -/

/-- A file whose table gives the position of object 1 to object 2 as well. -/
def sharedFile : Bytes := b!"%PDF-1.4\n1 0 obj 5 endobj\n2 0 obj 7 endobj\nxref\n0 3\n0000000000 65535 f \n0000000009 00000 n \n0000000009 00000 n \ntrailer\n<</A 1>>\nstartxref\n43\n%%EOF\n"

/-- Object 2 is marked as not indexed, its entry as wrong; the columns are aligned. -/
example [Zlib] : (do
    let ls ← disasmLines (fun _ _ => []) sharedFile
    let ts ← disasmColumns ls
    return ts.map List.flatten) = .ok [
      b!"+ 000 [8 ]            comment                      ", b!"+ 008 [1 ]            void                         ",
      b!"+ 009 [16]         @- ind_obj   1,0          int   ", b!"+ 025 [1 ]            void                         ",
      b!"+ 026 [16]         ?- ind_obj   2,0          int   ", b!"+ 042 [1 ]            void                         ",
      b!"+ 043 [85]            xreftable                    ", b!"-                  -@ xref      0,65535   00 free  ",
      b!"-                  -? xref      1,0       09 inuse ", b!"-                  -? xref      2,0       09 inuse ",
      b!"+ 128 [1 ]            void                         ", b!"+ 129 [12]            startxref           43       ",
      b!"+ 141 [1 ]            void                         ", b!"+ 142 [5 ]            comment                      ",
      b!"+ 147 [1 ]            void                         "] := by kernel_rfl

/-- The mark of an entry would be false of the entry alone: in this file, the entry of object 1 leads to the object,
and has the mark of the wrong entry which gives the same address to object 2. -/
theorem C81_address_counterexample [Zlib] : (disasmLines (fun _ _ => []) sharedFile).map (fun ls =>
      (ls.filter fun l => l.regionType = .str b!"xref" ∧ l.iref = .str b!"1,0").map (·.st)) = .ok [.str b!"-?"] ∧
    (fileObjectMap sharedFile).map (fun m => m.filterMap fun x => match x with
      | .region (.indObj b _ num gen _) _ => some (b, num, gen) | _ => none) = .ok [(some 9, 1, 0), (some 26, 2, 0)] := by
  constructor <;> kernel_rfl

/-- A table out of the chain is not checked: its wrong entry has the mark of the right ones. -/
theorem C81_chain_counterexample [Zlib] : (disasmLines (fun _ _ => []) b!"%PDF-1.4\n1 0 obj 5 endobj\nxref\n0 2\n0000000000 65535 f \n0000000700 00000 n \ntrailer\n<</A 1>>\nxref\n0 2\n0000000000 65535 f \n0000000009 00000 n \ntrailer\n<</A 1>>\nstartxref\n92\n%%EOF\n").map (fun ls =>
      (ls.filter fun l => l.regionType = .str b!"xref").map fun l => (l.addr, l.st)) =
      .ok [(.int 0, .str b!"-@"), (.int 700, .str b!"-@"), (.int 0, .str b!"-@"), (.int 9, .str b!"-@")] := by
  kernel_rfl

/-- The mark of an embedded object is not its own: object 3, at the rank 0 of the object stream 7, is not indexed at
this rank and has the mark of the indexed objects; and if it had the number 1, the object of rank 1, which is indexed,
would have its mark. -/
theorem C81_embedded_counterexample :
    (markedLines (fun _ _ => []) checkMap checkSeq).map (fun ls => ls.map fun l => (l.iref, l.seqNum, l.st)) =
      .ok [(.str b!"1,0", .str [], .str b!"@-"), (.str b!"7,0", .str [], .str b!"@-"),
        (.str b!"3,", .int 0, .str b!"@-"), (.str b!"4,", .int 1, .str b!"@-")] ∧
    (markedLines (fun _ _ => []) [.embedded 30 12 0 (.int 1) .null 7, .embedded 30 14 1 (.int 4) .null 7] checkSeq).map
      (fun ls => ls.map fun l => (l.iref, l.seqNum, l.st)) =
      .ok [(.str b!"1,", .int 0, .str b!"@-"), (.str b!"4,", .int 1, .str b!"?-")] := by
  constructor <;> kernel_rfl

end Pdf
