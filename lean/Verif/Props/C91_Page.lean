/-
C91 and C92: the page that shows a file is well-formed markup, with one id for each block; its links lead to blocks.
-/
import Verif.Lemmas.PageMarkup

namespace Pdf
open Spec

/-! ### Specification -/

/-- The ids of the block of an item: that of its position, and, for an object, that of its number, generation and version. For an
object of the file they are those of a revision of the index which places an object there. -/
inductive Spec.BlockIds [FloatText] (index : List Rev) : MapItem → List Bytes → Prop
  | comment {b fin : Nat} {t : Bytes} {l : List (Nat × Nat × XRow)} : BlockIds index (.region (.comment b fin t) l) [b!"idx" ++ natDec b]
  | startxref {b fin : Nat} {t : Bytes} {l : List (Nat × Nat × XRow)} : BlockIds index (.region (.startxref b fin t) l) [b!"idx" ++ natDec b]
  | table {b fin : Nat} {rows : List XRow} {tr : Obj} {l : List (Nat × Nat × XRow)} :
      BlockIds index (.region (.xrefTable b fin rows tr) l) [b!"idx" ++ natDec b]
  | direct {b fin n : Nat} {num gen : Int} {o : Obj} {l : List (Nat × Nat × XRow)} {rev : Rev} {e : Entry} :
      rev ∈ index → rev[n]? = some (.one e) → e.absPos = some (.at b) →
      BlockIds index (.region (.indObj (some b) fin num gen o) l)
        [b!"idx" ++ natDec b, b!"obj" ++ natDec n ++ b!"." ++ natDec e.gen ++ b!"." ++ natDec e.ver]
  | embedded {bo act j : Nat} {n : Int} {o : Obj} {env : Int} :
      BlockIds index (.embedded bo act j (.int n) o env) [b!"idx" ++ FloatText.text bo j, b!"obj" ++ intDec n ++ b!".0.0"]
  | rows {b : Option Nat} {rows : List (Nat × Nat × XSRow)} {t : Dict} : BlockIds index (.xrefStream b rows t) []

/-! ### Ids -/

theorem intDec_nat (n : Nat) : intDec (n : Int) = natDec n := by simp [intDec]

theorem all2_mem {α β : Type} {R : α → β → Prop} : ∀ {a : List α} {b : List β}, All₂ R a b →
    (∀ x ∈ a, ∃ y ∈ b, R x y) ∧ ∀ y ∈ b, ∃ x ∈ a, R x y
  | _, _, .nil => ⟨fun _ h => by (cases h), fun _ h => by (cases h)⟩
  | _, _, .cons h1 h2 => by
    obtain ⟨i1, i2⟩ := all2_mem h2
    constructor
    · intro x hx
      rcases List.mem_cons.1 hx with rfl | hx
      · exact ⟨_, List.mem_cons_self, h1⟩
      · obtain ⟨y, hy, h⟩ := i1 x hx
        exact ⟨y, List.mem_cons_of_mem _ hy, h⟩
    · intro y hy
      rcases List.mem_cons.1 hy with rfl | hy
      · exact ⟨_, List.mem_cons_self, h1⟩
      · obtain ⟨x, hx, h⟩ := i2 y hy
        exact ⟨x, List.mem_cons_of_mem _ hx, h⟩

theorem All₂.imp_mem {α β : Type} {R S : α → β → Prop} : ∀ {a : List α} {b : List β}, All₂ R a b → (∀ x ∈ a, ∀ y, R x y → S x y) → All₂ S a b
  | _, _, .nil, _ => .nil
  | _, _, .cons h1 h2, h => .cons (h _ List.mem_cons_self _ h1) (h2.imp_mem fun x hx => h x (List.mem_cons_of_mem _ hx))

theorem itemIds_block [FloatText] {m : List MapItem} {index : List Rev} {cross : List (BlockKey × Cross)} (hc : crossMap m index = .ok cross)
    (hn : (m.filterMap MapItem.key?).Nodup) {x : MapItem} (hx : x ∈ m) (hk : Known x) (hv : ∀ b e t l, x ≠ .region (.void b e t) l)
    {ids : List Bytes} (h : ItemIds index cross x ids) : BlockIds index x ids := by
  cases x with
  | xrefStream b rows t => cases h; exact .rows
  | embedded bo a j n o env =>
    obtain ⟨hd, p, n', h1, h2, h3, rfl⟩ := h
    unfold objHeader at h1
    obtain ⟨c, -, h1⟩ := bind_eq_ok h1
    cases h1
    cases h2
    unfold numberText at h3
    split at h3
    · cases h3
      rename_i hz
      cases hz
      rename_i n
      have hz : objId (intDec n) 0 0 = b!"obj" ++ intDec n ++ b!".0.0" := by
        rw [objId, show natDec 0 = b!"0" from rfl]
        simp
      rw [hz]
      exact .embedded
    · cases h3
  | region r l =>
    cases r with
    | void b e t => exact absurd rfl (hv b e t l)
    | comment b f c => cases h; exact .comment
    | startxref b f c => cases h; exact .startxref
    | xrefTable b f rows tr => cases h; exact .table
    | indObj b f n g o =>
      cases b with
      | none => exact absurd rfl hk.1
      | some b =>
        obtain ⟨hd, p, n', h1, h2, h3, rfl⟩ := h
        obtain ⟨hd', k, ver, rev, e, e1, f1, f2, f3, f4, f5, f6, f7⟩ := objHeader_direct hc hn hx h1
        cases e1
        obtain ⟨-, rev', g1, ⟨e', g2, g3⟩, -⟩ := findAbsPos_some f1
        rw [f2] at g1
        cases g1
        rw [f3] at g2
        cases g2
        rw [f4, posText_at] at h2
        cases h2
        rw [f5] at h3
        cases h3
        rw [intDec_nat, f6, f7]
        exact .direct (List.mem_of_getElem? f2) f3 g3

/-- The id of the position of a block is among its ids. -/
theorem itemIds_key [FloatText] {index : List Rev} {cross : List (BlockKey × Cross)} {x : MapItem} {ids : List Bytes} (h : ItemIds index cross x ids)
    {k : BlockKey} (hk : x.key? = some k) {p : Bytes} (hp : posText k = .ok p) : b!"idx" ++ p ∈ ids := by
  cases x with
  | xrefStream b rows t => cases hk
  | embedded bo a j n o env =>
    obtain ⟨hd, p', n', h1, h2, h3, rfl⟩ := h
    have := objHeader_key h1
    rw [hk] at this
    cases this
    rw [hp] at h2
    cases h2
    exact List.mem_cons_self
  | region r l =>
    cases r with
    | xrefTable b f rows tr =>
      cases h
      cases hk
      rw [posText_at] at hp
      cases hp
      exact List.mem_cons_self
    | indObj b f n g o =>
      obtain ⟨hd, p', n', h1, h2, h3, rfl⟩ := h
      have := objHeader_key h1
      rw [hk] at this
      cases this
      rw [hp] at h2
      cases h2
      exact List.mem_cons_self
    | _ => cases hk

theorem withoutVoid_novoid {m : List MapItem} {x : MapItem} (h : x ∈ withoutVoid m) : x ∈ m ∧ ∀ b e t l, x ≠ .region (.void b e t) l := by
  obtain ⟨h1, h2⟩ := List.mem_filter.1 h
  refine ⟨h1, ?_⟩
  rintro b e t l rfl
  cases h2

/-- All that is known of the page. -/
theorem browse_marked [Zlib] [FloatText] {lim : Nat} {filename F : Bytes} {h : Html} (e : browse lim filename F = .ok h)
    (hF : F.getLast?.any isEol = true) (hm : ∀ m, fileObjectMap F = .ok m → ∀ x ∈ m, Showable x) (hname : IsText (basename filename))
    (hv : ∀ doc s doc', loads F = .ok doc → structureOf lim [] doc = .ok (s, doc') → IsText s.version) :
    ∃ m index cross doc s doc' l doc'' pages links, fileObjectMap F = .ok m ∧ fileIndex F = .ok index ∧ crossMap (withoutVoid m) index = .ok cross ∧
      loads F = .ok doc ∧ structureOf lim [] doc = .ok (s, doc') ∧ (flatPageTree lim .null [] none).run doc' = .ok (l, doc'') ∧
      l.1.mapM pageRef = .ok pages ∧ pageLinks index pages = .ok links ∧
      ∃ rest ids inner minimap, h.raw = pageStart ++ rest ∧ All₂ (ItemIds index cross) (withoutVoid m) ids ∧
        All₂ LinkTo (m.filterMap MapItem.key?) minimap ∧
        Marked rest (ids.flatten ++ [b!"end"]) (inner ++ [b!"https://pdfsyntax.dev"] ++ links.map pageHref ++ minimap ++ [b!"#idx0", b!"#end"]) := by
  obtain ⟨index, h1, e⟩ := bind_eq_ok e
  obtain ⟨m, h2, e⟩ := bind_eq_ok e
  obtain ⟨cross, h3, e⟩ := bind_eq_ok e
  obtain ⟨doc, h4, e⟩ := bind_eq_ok e
  obtain ⟨⟨s, doc'⟩, h5, e⟩ := bind_eq_ok e
  obtain ⟨⟨l, doc''⟩, h6, e⟩ := bind_eq_ok e
  obtain ⟨pages, h7, e⟩ := bind_eq_ok e
  have hknown := fileObjectMap_known hF h2
  have hshow := hm m h2
  have hin : NoInner m := by
    intro bo a j n o env hx
    have := (hshow _ hx).2.2
    cases o with
    | stream d c enc =>
      have := this d c enc rfl
      simpa [isXrefStream, typeOf] using this
    | _ => rfl
  have hg := grouped_withoutVoid (fileMapLoop_grouped _ _ m h2 hin)
  obtain ⟨rest, ids, inner, links, mini, r1, r2, r3, r4, r5⟩ := buildHtml_marked e hg
    (fun x hx => ⟨hknown x (withoutVoid_novoid hx).1, hshow x (withoutVoid_novoid hx).1⟩) hname (hv doc s doc' h4 h5)
  rw [withoutVoid_keys] at r4
  exact ⟨m, index, cross, doc, s, doc', l, doc'', pages, links, h2, h1, h3, h4, h5, h6, h7, r3, rest, ids, inner, mini, r1, r2, r4, r5⟩

/-- **C91.** The page that shows a file which ends with an end of line is, after the tag `<html>` (which is never closed), well-formed
markup: its elements are closed in the reverse order of their opening, whatever the objects, strings and streams of the file. The
ids of its elements are those of the blocks, one block for each item of the file in the order of the file, then `end`.
Partial: for tidy objects (`C91_prev_counterexample`, `C91_script_counterexample`), when comments, keywords of
tables, types that are strings, the version and the name of the file have no angle bracket (`C55_comment_counterexample` and
following), and when the page is made (`C91_unbound_counterexample`). -/
theorem C91_page_partial [Zlib] [FloatText] (lim : Nat) (filename F : Bytes) (h : Html) (e : browse lim filename F = .ok h)
    (hF : F.getLast?.any isEol = true) (hm : ∀ m, fileObjectMap F = .ok m → ∀ x ∈ m, Showable x) (hname : IsText (basename filename))
    (hv : ∀ doc s doc', loads F = .ok doc → structureOf lim [] doc = .ok (s, doc') → IsText s.version) :
    ∃ m index rest els ids, fileObjectMap F = .ok m ∧ fileIndex F = .ok index ∧
      h.raw = b!"<!DOCTYPE html>\n<html lang=\"en\">\n" ++ rest ∧ Markup rest els ∧
      All₂ (BlockIds index) (withoutVoid m) ids ∧ vals b!"id" els = ids.flatten ++ [b!"end"] := by
  obtain ⟨m, index, cross, doc, s, doc', l, doc'', pages, links, h1, h2, h3, -, -, -, -, -, rest, ids, inner, mini, r1, r2, r3, els, r4, r5, r6⟩ :=
    browse_marked e hF hm hname hv
  refine ⟨m, index, rest, els, ids, h1, h2, r1, r4, r2.imp_mem fun x hx y hy => ?_, r5⟩
  have hn := (fileMapLoop_keys hF _ 0 m (by omega) h1).1
  exact itemIds_block h3 (by rw [withoutVoid_keys]; exact hn) hx (fileObjectMap_known hF h1 x (withoutVoid_novoid hx).1) (withoutVoid_novoid hx).2 hy

/-! ### Links -/

/-- The text of the id of a header. -/
def Header.id (h : Header) : Bytes := objId (match h.num with | .int n => intDec n | _ => []) h.gen h.ver

/-- Ids of objects. -/
def isObjId (s : Bytes) : Bool := s.take 3 = b!"obj"

theorem idx_notObj (s : Bytes) : isObjId (b!"idx" ++ s) = false := by
  simp [isObjId]

theorem objId_isObj (n : Bytes) (g v : Nat) : isObjId (objId n g v) = true := by
  simp [isObjId, objId]

/-- The ids of objects among the ids are those of the headers. -/
theorem items_headers [FloatText] {index : List Rev} {cross : List (BlockKey × Cross)} : ∀ {m : List MapItem} {ids : List (List Bytes)},
    All₂ (ItemIds index cross) m ids → ∃ l, m.mapM (objHeader index cross) = .ok l ∧
      ids.flatten.filter isObjId = (l.filterMap id).map Header.id ∧ ∀ h ∈ l.filterMap id, ∃ n, h.num = .int n
  | _, _, .nil => ⟨[], rfl, rfl, fun _ h => by cases h⟩
  | x :: m, ids :: idss, .cons h1 h2 => by
    obtain ⟨l, l1, l2, l3⟩ := items_headers h2
    have key : ∃ y, objHeader index cross x = .ok y ∧ ids.filter isObjId = (y.toList).map Header.id ∧ ∀ h, y = some h → ∃ n, h.num = .int n := by
      have none' : objHeader index cross x = .ok none → (∀ i ∈ ids, isObjId i = false) →
          ∃ y, objHeader index cross x = .ok y ∧ ids.filter isObjId = (y.toList).map Header.id ∧ ∀ h, y = some h → ∃ n, h.num = .int n := by
        intro h hi
        refine ⟨none, h, ?_, fun _ h => by cases h⟩
        rw [List.filter_eq_nil_iff.2 fun i hi' => by rw [hi i hi']; simp]
        rfl
      have some' : ∀ h p n, objHeader index cross x = .ok (some h) → numberText h.num = .ok n → ids = [b!"idx" ++ p, objId n h.gen h.ver] →
          ∃ y, objHeader index cross x = .ok y ∧ ids.filter isObjId = (y.toList).map Header.id ∧ ∀ h, y = some h → ∃ n, h.num = .int n := by
        intro h p n hh hn he
        unfold numberText at hn
        split at hn
        · rename_i k hk
          cases hn
          refine ⟨some h, hh, ?_, fun h' e => by cases e; exact ⟨k, hk⟩⟩
          rw [he, List.filter_cons, idx_notObj, List.filter_cons, objId_isObj]
          simp [Header.id, hk]
        · cases hn
      cases x with
      | xrefStream b rows t => cases h1; exact none' rfl fun i hi => by cases hi
      | embedded bo a j n o env =>
        obtain ⟨h, p, n, a1, a2, a3, a4⟩ := h1
        exact some' h p n a1 a3 a4
      | region r l =>
        have one : ∀ b, ids = [b!"idx" ++ natDec b] → ∀ i ∈ ids, isObjId i = false := by
          rintro b rfl i hi
          rw [List.mem_singleton.1 hi]
          exact idx_notObj _
        cases r with
        | void b e t => cases h1; exact none' rfl fun i hi => by cases hi
        | comment b f c => exact none' rfl (one _ h1)
        | startxref b f c => exact none' rfl (one _ h1)
        | xrefTable b f rows tr => exact none' rfl (one _ h1)
        | indObj b f n g o =>
          obtain ⟨h, p, n, a1, a2, a3, a4⟩ := h1
          exact some' h p n a1 a3 a4
    obtain ⟨y, y1, y2, y3⟩ := key
    refine ⟨y :: l, by rw [List.mapM_cons, y1, l1]; rfl, ?_, ?_⟩
    · rw [List.flatten_cons, List.filter_append, y2, l2]
      cases y <;> rfl
    · intro h hh
      cases y with
      | none => exact l3 h hh
      | some h' =>
        rcases List.mem_cons.1 (show h ∈ h' :: l.filterMap id from hh) with rfl | hh
        · exact y3 _ rfl
        · exact l3 h hh

theorem dot_split {a a' b b' : Bytes} (h : a ++ 46 :: b = a' ++ 46 :: b') (ha : 46 ∉ a) (ha' : 46 ∉ a') : a = a' ∧ b = b' := by
  induction a generalizing a' with
  | nil =>
    cases a' with
    | nil => exact ⟨rfl, by simpa using h⟩
    | cons c a' =>
      have : (46 : UInt8) = c := by simpa using congrArg List.head? h
      exact absurd (this ▸ List.mem_cons_self) ha'
  | cons c a ih =>
    cases a' with
    | nil =>
      have : c = (46 : UInt8) := by simpa using congrArg List.head? h
      exact absurd (this ▸ List.mem_cons_self) ha
    | cons c' a' =>
      have h' := List.cons.inj h
      obtain ⟨i1, i2⟩ := ih h'.2 (fun h => ha (List.mem_cons_of_mem _ h)) fun h => ha' (List.mem_cons_of_mem _ h)
      exact ⟨by rw [h'.1, i1], i2⟩

theorem natDec_noDot (n : Nat) : 46 ∉ natDec n := fun h => by
  have := List.all_eq_true.1 (natDec_all n) 46 h
  revert this
  decide

theorem intDec_noDot (n : Int) : 46 ∉ intDec n := by
  unfold intDec
  split
  · exact natDec_noDot _
  · intro h
    rcases List.mem_cons.1 h with h | h
    · revert h; decide
    · exact natDec_noDot _ h

theorem intDec_inj {a b : Int} (h : intDec a = intDec b) : a = b := by
  have := congrArg pyInt h
  rw [pyInt_intDec, pyInt_intDec] at this
  exact Option.some.inj this

/-- The text of an id determines the numbers. -/
theorem header_named {h : Header} {n : Int} (hn : h.num = .int n) (link : Nat × Int × Nat) :
    h.id = (pageHref link).drop 1 ↔ h.named link = true := by
  have e1 : h.id = b!"obj" ++ (intDec n ++ 46 :: (intDec (h.gen : Int) ++ 46 :: intDec (h.ver : Int))) := by
    rw [Header.id, hn, intDec_nat, intDec_nat]
    simp [objId]
  have e2 : (pageHref link).drop 1 = b!"obj" ++ (intDec (link.1 : Int) ++ 46 :: (intDec link.2.1 ++ 46 :: intDec (link.2.2 : Int))) := by
    rw [pageHref, intDec_nat, intDec_nat]
    simp
  rw [e1, e2]
  simp only [Header.named, hn, decide_eq_true_eq, Obj.int.injEq]
  constructor
  · intro h
    obtain ⟨i1, i2⟩ := dot_split (List.append_cancel_left h) (intDec_noDot _) (intDec_noDot _)
    obtain ⟨i2, i3⟩ := dot_split i2 (intDec_noDot _) (intDec_noDot _)
    exact ⟨intDec_inj i1, intDec_inj i2, Int.ofNat.inj (intDec_inj i3)⟩
  · rintro ⟨rfl, h2, h3⟩
    rw [h2, h3]

theorem count_filter_eq {l : List Header} (hl : ∀ h ∈ l, ∃ n, h.num = .int n) (link : Nat × Int × Nat) :
    (l.map Header.id).count ((pageHref link).drop 1) = (l.filter (·.named link)).length := by
  induction l with
  | nil => rfl
  | cons h l ih =>
    obtain ⟨n, hn⟩ := hl h List.mem_cons_self
    have ih := ih fun h hh => hl h (List.mem_cons_of_mem _ hh)
    have hiff := header_named hn link
    rw [List.map_cons, List.count_cons, List.filter_cons, ih]
    by_cases hh : h.named link = true
    · rw [if_pos hh, if_pos (by rw [beq_iff_eq]; exact hiff.2 hh), List.length_cons]
    · rw [if_neg hh, if_neg (by rw [beq_iff_eq]; exact fun h => hh (hiff.1 h)), Nat.add_zero]

/-- **C92**, the minimap. In the page that shows a file which ends with an end of line, the panel has one link for each object and
each table, in the order of the file, each leads to an element of the page, and so does the link to the end.
Partial: as for C91. -/
theorem C92_minimap_partial [Zlib] [FloatText] (lim : Nat) (filename F : Bytes) (h : Html) (e : browse lim filename F = .ok h)
    (hF : F.getLast?.any isEol = true) (hm : ∀ m, fileObjectMap F = .ok m → ∀ x ∈ m, Showable x) (hname : IsText (basename filename))
    (hv : ∀ doc s doc', loads F = .ok doc → structureOf lim [] doc = .ok (s, doc') → IsText s.version) :
    ∃ m rest els before minimap, fileObjectMap F = .ok m ∧ h.raw = b!"<!DOCTYPE html>\n<html lang=\"en\">\n" ++ rest ∧ Markup rest els ∧
      vals b!"href" els = before ++ minimap ++ [b!"#idx0", b!"#end"] ∧
      All₂ (fun k l => ∃ p, posText k = .ok p ∧ l = b!"#idx" ++ p) (m.filterMap MapItem.key?) minimap ∧
      ∀ l ∈ minimap ++ [b!"#end"], ∃ i ∈ vals b!"id" els, l = b!"#" ++ i := by
  obtain ⟨m, index, cross, doc, s, doc', l, doc'', pages, links, h1, h2, h3, -, -, -, -, -, rest, ids, inner, mini, r1, r2, r3, els, r4, r5, r6⟩ :=
    browse_marked e hF hm hname hv
  refine ⟨m, rest, els, _, mini, h1, r1, r4, r6, r3, ?_⟩
  intro l hl
  rw [r5]
  rcases List.mem_append.1 hl with hl | hl
  · obtain ⟨k, hk, p, hp, rfl⟩ := (all2_mem r3).2 l hl
    obtain ⟨x, hx, hxk⟩ := List.mem_filterMap.1 hk
    have hx' : x ∈ withoutVoid m := List.mem_filter.2 ⟨hx, by
      cases x with
      | region r rows => cases r <;> first | rfl | cases hxk
      | _ => rfl⟩
    obtain ⟨i, hi, hii⟩ := (all2_mem r2).1 x hx'
    exact ⟨b!"idx" ++ p, List.mem_append_left _ (List.mem_flatten.2 ⟨i, hi, itemIds_key hii hxk hp⟩), by simp⟩
  · rw [List.mem_singleton.1 hl]
    exact ⟨b!"end", by simp, rfl⟩

/-- **C92**, the pages. In the page that shows a file which ends with an end of line, the panel has one link for each page in the order of
the pages, and exactly one element of the page has the id to which the link of a page leads.
Partial: as for C91, and for each page as for C83. -/
theorem C92_pages_partial [Zlib] [FloatText] (lim : Nat) (filename F : Bytes) (h : Html) (e : browse lim filename F = .ok h)
    (hF : F.getLast?.any isEol = true) (hm : ∀ m, fileObjectMap F = .ok m → ∀ x ∈ m, Showable x) (hname : IsText (basename filename))
    (hv : ∀ doc s doc', loads F = .ok doc → structureOf lim [] doc = .ok (s, doc') → IsText s.version)
    (hu : ∀ m index, fileObjectMap F = .ok m → fileIndex F = .ok index → ∀ k ∈ m.filterMap MapItem.key?, OnePlace index k) :
    ∃ (m : List MapItem) (index : List Rev) (doc : Doc) (s : Structure) (doc' : Doc) (l : List (Obj × Dict) × Dict) (doc'' : Doc) (rest : Bytes)
      (els : List (Bytes × Attrs)) (links : List (Nat × Int × Nat)) (before after : List Bytes), fileObjectMap F = .ok m ∧ fileIndex F = .ok index ∧
      loads F = .ok doc ∧ structureOf lim [] doc = .ok (s, doc') ∧ (flatPageTree lim .null [] none).run doc' = .ok (l, doc'') ∧
      h.raw = b!"<!DOCTYPE html>\n<html lang=\"en\">\n" ++ rest ∧ Markup rest els ∧
      (links.map fun k => Obj.ref k.2.1 (k.1 : Int)) = l.1.map Prod.fst ∧
      vals b!"href" els = before ++ links.map (fun k => b!"#obj" ++ (natDec k.1 ++ b!"." ++ intDec k.2.1 ++ b!"." ++ natDec k.2.2)) ++ after ∧
      ∀ link ∈ links, ∃ last e, index.getLast? = some last ∧ last[link.1]? = some (.one e) ∧ link.2.2 = e.ver ∧
        ∀ p, e.absPos = some p → (e.gen : Int) = link.2.1 → Shown m link.1 e p →
          (∀ (bo : Nat) act j o env, .embedded bo act j (.int link.1) o env ∈ m →
            ∃ rev ∈ index, ∃ e', rev[link.1]? = some (.one e') ∧ e'.absPos = some (.emb bo j)) →
          (vals b!"id" els).count (b!"obj" ++ (natDec link.1 ++ b!"." ++ intDec link.2.1 ++ b!"." ++ natDec link.2.2)) = 1 := by
  obtain ⟨m, index, cross, doc, s, doc', l, doc'', pages, links, h1, h2, h3, h4, h5, h6, h7, h8, rest, ids, inner, mini, r1, r2, r3, els, r4, r5, r6⟩ :=
    browse_marked e hF hm hname hv
  obtain ⟨hs, a1, a2, a3⟩ := items_headers r2
  have hhs : objHeaders index cross (withoutVoid m) = .ok (hs.filterMap id) := by
    unfold objHeaders
    rw [a1]
    rfl
  obtain ⟨c1, c2⟩ := C83_links_partial F hF m h1 index h2 (hu m index h1 h2) cross h3 _ hhs pages links h8
  refine ⟨m, index, doc, s, doc', l, doc'', rest, els, links, inner ++ [b!"https://pdfsyntax.dev"], mini ++ [b!"#idx0", b!"#end"],
    h1, h2, h4, h5, h6, r1, r4, ?_, ?_, ?_⟩
  rotate_left
  · rw [r6]
    have : links.map pageHref = links.map fun k => b!"#obj" ++ (natDec k.1 ++ b!"." ++ intDec k.2.1 ++ b!"." ++ natDec k.2.2) :=
      List.map_congr_left fun k _ => by simp [pageHref]
    rw [this]
    simp only [List.append_assoc]
  rotate_left
  · have hp : ∀ (a : List (Obj × Dict)) (b : List Ref), a.mapM pageRef = .ok b → a.map Prod.fst = b.map fun r => Obj.ref r.1 r.2 := by
      intro a
      induction a with
      | nil => intro b hb; cases hb; rfl
      | cons x a ih =>
        intro b hb
        rw [List.mapM_cons] at hb
        obtain ⟨r, hr, hb⟩ := bind_eq_ok hb
        obtain ⟨b', hb', hb⟩ := bind_eq_ok hb
        cases hb
        obtain ⟨o, d⟩ := x
        unfold pageRef at hr
        split at hr
        · rename_i heq
          cases heq
          cases hr
          rw [List.map_cons, List.map_cons, ih b' hb']
        · cases hr
    rw [hp _ _ h7, ← c1, List.map_map]
    rfl
  · intro link hlink
    obtain ⟨last, e, d1, d2, d3, d4⟩ := c2 link hlink
    refine ⟨last, e, d1, d2, d3, fun p hp hg hsh hemb => ?_⟩
    obtain ⟨hd, hfil, -⟩ := d4 p hp hg hsh hemb
    have key := count_filter_eq a3 link
    rw [hfil, ← a2] at key
    have hob : isObjId ((pageHref link).drop 1) = true := by simp [isObjId, pageHref]
    rw [List.count_filter hob] at key
    have hd1 : (pageHref link).drop 1 = b!"obj" ++ (natDec link.1 ++ b!"." ++ intDec link.2.1 ++ b!"." ++ natDec link.2.2) := by
      simp [pageHref]
    rw [r5, ← hd1, List.count_append, key, List.count_eq_zero.2 (by
      intro hin
      rw [List.mem_singleton.1 hin] at hob
      revert hob
      decide)]
    rfl

/-! ### Cases -/

/-- A file with one page. -/
def pageFile : Bytes := b!"%PDF-1.4\n1 0 obj\n<< /Type /Catalog /Pages 2 0 R >>\nendobj\n2 0 obj\n<< /Type /Pages /Kids [ 3 0 R ] /Count 1 /MediaBox [ 0 0 612 792 ] >>\nendobj\n3 0 obj\n<< /Type /Page /Parent 2 0 R /T (<b>) >>\nendobj\nxref\n0 4\n0000000000 65535 f \n0000000009 00000 n \n0000000058 00000 n \n0000000143 00000 n \ntrailer\n<< /Root 1 0 R >>\nstartxref\n199\n%%EOF\n"

/-- Its map. -/
def pageMap : List MapItem :=
  [.region (.comment 0 8 b!"%PDF-1.4") [], .region (.void 8 9 b!"\n") [],
   .region (.indObj (some 9) 57 1 0 (.dict [(b!"/Pages", .ref 0 2), (b!"/Type", .str b!"/Catalog")])) [], .region (.void 57 58 b!"\n") [],
   .region (.indObj (some 58) 142 2 0 (.dict [(b!"/MediaBox", .list [.int 0, .int 0, .int 612, .int 792]), (b!"/Count", .int 1),
     (b!"/Kids", .list [.ref 0 3]), (b!"/Type", .str b!"/Pages")])) [], .region (.void 142 143 b!"\n") [],
   .region (.indObj (some 143) 198 3 0 (.dict [(b!"/T", .bytes b!"(<b>)"), (b!"/Parent", .ref 0 2), (b!"/Type", .str b!"/Page")])) [],
   .region (.void 198 199 b!"\n") [],
   .region (.xrefTable 199 313 [.sub 0 4, .entry 0 0 65535 b!"f", .entry 9 1 0 b!"n", .entry 58 2 0 b!"n", .entry 143 3 0 b!"n"]
     (.dict [(b!"/Root", .ref 0 1)])) [(0, 0, .entry 0 0 65535 b!"f"), (0, 1, .entry 9 1 0 b!"n"), (0, 2, .entry 58 2 0 b!"n"),
       (0, 3, .entry 143 3 0 b!"n")], .region (.void 313 314 b!"\n") [], .region (.startxref 314 327 b!"199") [],
   .region (.void 327 328 b!"\n") [], .region (.comment 328 333 b!"%%EOF") [], .region (.void 333 334 b!"\n") []]

theorem pageMap_showable : ∀ x ∈ pageMap, Showable x := by
  simp only [pageMap, List.forall_mem_cons]
  refine ⟨(by decide : IsText b!"%PDF-1.4"), trivial, ⟨?_, ?_⟩, trivial, ⟨?_, ?_⟩, trivial, ⟨?_, ?_⟩, trivial, ⟨?_, ?_⟩, trivial, trivial, trivial, (by decide : IsText b!"%%EOF"), trivial, fun _ h => by cases h⟩
  all_goals first | (intro s h; cases h; done) | (simp [Tidy, TidyEntries, TidyItems, Listable]; done) | skip
  intro o n g kw h
  simp only [List.mem_cons, XRow.entry.injEq, reduceCtorEq, false_or, List.not_mem_nil, or_false] at h
  rcases h with ⟨-, -, -, rfl⟩ | ⟨-, -, -, rfl⟩ | ⟨-, -, -, rfl⟩ | ⟨-, -, -, rfl⟩ <;> decide

theorem pageFile_map [Zlib] : fileObjectMap pageFile = .ok pageMap := by kernel_rfl

theorem pageFile_version [Zlib] (doc : Doc) (s : Structure) (doc' : Doc) (h : loads pageFile = .ok doc) (h' : structureOf 50 [] doc = .ok (s, doc')) :
    IsText s.version := by
  have : ((loads pageFile).bind fun d => (structureOf 50 [] d).map fun x => x.1.version) = .ok b!"1.4" := by kernel_rfl
  rw [h] at this
  simp only [Except.bind, h', Except.map, Except.ok.injEq] at this
  rw [this]
  decide

theorem pageFile_links [Zlib] : ((loads pageFile).bind fun d => (structureOf 50 [] d).bind fun x => ((flatPageTree 50 .null [] none).run x.2).map fun x => x.1.1.map Prod.fst) =
    .ok [.ref 0 3] := by kernel_rfl

theorem pageFile_index [Zlib] : ((fileIndex pageFile).map fun index => (onePlaceCheck index (pageMap.filterMap MapItem.key?),
    index.getLast?.map fun last => last[3]?.map fun s => match s with | .one e => (e.ver, e.gen, e.absPos) | _ => (0, 0, none))) = .ok (true, some (some (0, 0, some (.at 143)))) := by kernel_rfl

/-- The hypotheses of C91 and C92 hold of this file, and the link of its page leads to one element. -/
example [Zlib] [FloatText] : ∃ h rest els, browse 50 b!"a.pdf" pageFile = .ok h ∧ h.raw = b!"<!DOCTYPE html>\n<html lang=\"en\">\n" ++ rest ∧ Markup rest els ∧
    b!"#obj3.0.0" ∈ vals b!"href" els ∧ (vals b!"id" els).count b!"obj3.0.0" = 1 := by
  have e : (browse 50 b!"a.pdf" pageFile).isOk = true := by kernel_rfl
  cases hb : browse 50 b!"a.pdf" pageFile with
  | error x => rw [hb] at e; cases e
  | ok h =>
    refine ⟨h, ?_⟩
    have hi := pageFile_index
    obtain ⟨m, index, doc, s, doc', l, doc'', rest, els, links, before, after, h1, h2, h3, h4, h5, h6, h7, h8, h9, h10⟩ :=
      C92_pages_partial 50 b!"a.pdf" pageFile h hb (by kernel_rfl) (fun m h => by rw [pageFile_map] at h; cases h; exact pageMap_showable)
        (by decide) pageFile_version (fun m index hm h => by
          rw [pageFile_map] at hm
          cases hm
          rw [h] at hi
          simp only [Except.map, Except.ok.injEq, Prod.mk.injEq] at hi
          exact onePlace_of_check hi.1)
    rw [pageFile_map] at h1
    cases h1
    rw [h2] at hi
    simp only [Except.map, Except.ok.injEq, Prod.mk.injEq] at hi
    have hl := pageFile_links
    simp only [h3, h4, h5, Except.bind, Except.map, Except.ok.injEq] at hl
    rw [hl] at h8
    cases links with
    | nil => cases h8
    | cons link links =>
      have hl0 : links = [] := by
        cases links with
        | nil => rfl
        | cons a b => simp at h8
      subst hl0
      simp only [List.map_cons, List.map_nil, List.cons.injEq, Obj.ref.injEq, and_true] at h8
      obtain ⟨last, e, d1, d2, d3, d4⟩ := h10 link List.mem_cons_self
      obtain ⟨n, g, v⟩ := link
      have hn : n = 3 := by have := h8.2; simp only at this; omega
      have hg : g = 0 := h8.1
      subst hn hg
      rw [d1] at hi
      simp only [Option.map_some, d2] at hi
      obtain ⟨-, hi⟩ := hi
      simp only [Option.some.injEq, Prod.mk.injEq] at hi
      simp only at d3
      rw [hi.1] at d3
      subst d3
      refine ⟨rest, els, rfl, h6, h7, ?_, d4 _ hi.2.2 (by rw [hi.2.1]; rfl) ?_ ?_⟩
      · rw [h9]
        exact List.mem_append_left _ (List.mem_append_right _ (by decide))
      · exact .inl ⟨143, rfl, 198, 3, 0, .dict [(b!"/T", .bytes b!"(<b>)"), (b!"/Parent", .ref 0 2), (b!"/Type", .str b!"/Page")], [], by simp [pageMap]⟩
      · intro bo act j o env h
        simp [pageMap] at h

/-- Not well-formed after the tag `<html>`. -/
theorem not_markup [Zlib] [FloatText] {F : Bytes} (h : (browse 50 b!"a.pdf" F).map (fun h => (alternates false h.raw).isSome) = .ok false) :
    ∃ h, browse 50 b!"a.pdf" F = .ok h ∧ ∀ rest els, h.raw = b!"<!DOCTYPE html>\n<html lang=\"en\">\n" ++ rest → ¬ Markup rest els := by
  cases hb : browse 50 b!"a.pdf" F with
  | error x => rw [hb] at h; cases h
  | ok p =>
    refine ⟨p, rfl, fun rest els hr hm => ?_⟩
    rw [hb] at h
    simp only [Except.map, Except.ok.injEq] at h
    rw [hr, alternates_append false false b!"<!DOCTYPE html>\n<html lang=\"en\">\n" rest (by decide), Pdf.Markup.alternates hm] at h
    cases h

/-- The page of a file where a reference is the value of `/Prev` is not well-formed: the attribute `href` of the link has the
whole element of the reference. -/
theorem C91_prev_counterexample [Zlib] [FloatText] : ∃ h, browse 50 b!"a.pdf" b!"%PDF-1.4\n1 0 obj\n<< /Type /Catalog /Pages 2 0 R >>\nendobj\n2 0 obj\n<< /Type /Pages /Kids [ 3 0 R ] /Count 1 /MediaBox [ 0 0 612 792 ] >>\nendobj\n3 0 obj\n<< /Type /Page /Parent 2 0 R /Prev 1 0 R >>\nendobj\nxref\n0 4\n0000000000 65535 f \n0000000009 00000 n \n0000000058 00000 n \n0000000143 00000 n \ntrailer\n<< /Root 1 0 R >>\nstartxref\n202\n%%EOF\n" = .ok h ∧
    ∀ rest els, h.raw = b!"<!DOCTYPE html>\n<html lang=\"en\">\n" ++ rest → ¬ Markup rest els :=
  not_markup (by kernel_rfl)

/-- The page of a file with an action in an array (here `/A [<</S /JavaScript /JS (x)>>]`) is not well-formed: the text of the
item is cut in the tag which marks the script. -/
theorem C91_script_counterexample [Zlib] [FloatText] : ∃ h, browse 50 b!"a.pdf" b!"%PDF-1.4\n1 0 obj\n<< /Type /Catalog /Pages 2 0 R >>\nendobj\n2 0 obj\n<< /Type /Pages /Kids [ 3 0 R ] /Count 1 /MediaBox [ 0 0 612 792 ] >>\nendobj\n3 0 obj\n<< /Type /Page /Parent 2 0 R /A [ << /S /JavaScript /JS (x) >> ] >>\nendobj\nxref\n0 4\n0000000000 65535 f \n0000000009 00000 n \n0000000058 00000 n \n0000000143 00000 n \ntrailer\n<< /Root 1 0 R >>\nstartxref\n226\n%%EOF\n" = .ok h ∧
    ∀ rest els, h.raw = b!"<!DOCTYPE html>\n<html lang=\"en\">\n" ++ rest → ¬ Markup rest els :=
  not_markup (by kernel_rfl)

/-- There is no page for a file where a table comes before every object: the trailer is shown with the
version of the object which comes before it. -/
theorem C91_unbound_counterexample [Zlib] [FloatText] : (browse 50 b!"a.pdf" b!"%PDF-1.4\nxref\n0 4\n0000000000 65535 f \n0000000124 00000 n \n0000000173 00000 n \n0000000258 00000 n \ntrailer\n<< /Root 1 0 R >>\n1 0 obj\n<< /Type /Catalog /Pages 2 0 R >>\nendobj\n2 0 obj\n<< /Type /Pages /Kids [ 3 0 R ] /Count 1 /MediaBox [ 0 0 612 792 ] >>\nendobj\n3 0 obj\n<< /Type /Page /Parent 2 0 R >>\nendobj\nstartxref\n9\n%%EOF\n").map (fun _ => ()) = .error .unboundLocal := by
  kernel_rfl

end Pdf
