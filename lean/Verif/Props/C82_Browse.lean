/-
C82 and C83: in the view of a file, the uses of each object, and the links to pages.
-/
import Verif.Lemmas.Browse
import Verif.Props.C07_Refs
import Verif.Props.C70_OwnFiles
import Verif.Props.C71_Index

namespace Pdf
open Spec

/-! ### Specification -/

/-- The map of the file has, at the position `k`, the object `o` with the number `num`, which is part of the last
revision. The trailers of tables count as objects 0, at the position of their table. -/
inductive Current (m : List MapItem) (index : List Rev) : BlockKey → Obj → Obj → Prop
  | trailer {b fin : Nat} {rows : List XRow} {tr : Obj} {l : List (Nat × Nat × XRow)} :
      .region (.xrefTable b fin rows tr) l ∈ m → LastTrailer index b → Current m index (some (.at b)) (.int 0) tr
  | direct {b fin : Nat} {num gen : Int} {o : Obj} {l : List (Nat × Nat × XRow)} :
      .region (.indObj (some b) fin num gen o) l ∈ m → InLast index (some (.at b)) →
      Current m index (some (.at b)) (.int num) o
  | unplaced {fin : Nat} {num gen : Int} {o : Obj} {l : List (Nat × Nat × XRow)} :
      .region (.indObj none fin num gen o) l ∈ m → InLast index none → Current m index none (.int num) o
  | embedded {bo act j : Nat} {num o : Obj} {env : Int} :
      .embedded bo act j num o env ∈ m → InLast index (some (.emb bo j)) → Current m index (some (.emb bo j)) num o

/-- The object `o` has a reference to an object that the last revision places at `k`. -/
def LeadsTo (index : List Rev) (o : Obj) (k : BlockKey) : Prop :=
  ∃ last, index.getLast? = some last ∧ ∃ r e, Occurs r o ∧ CellOf last r.2 e ∧ e.absPos = k

/-! ### The uses -/

theorem detect_mem {o : Obj} {ts : List Ref} (h : deepRefDetect o = some ts) (r : Ref) : r ∈ ts ↔ Occurs r o := by
  have ho : ∀ g n, o ≠ .ref g n := by
    rintro g n rfl
    cases h
  obtain ⟨l, h1, -, h2⟩ := C08_detect o ho
  rw [h] at h1
  cases h1
  exact h2 r

theorem cell_unique {rev : Rev} {n : Int} {e e' : Entry} (h : CellOf rev n e) (h' : CellOf rev n e') : e = e' := by
  obtain ⟨i, h1, h2⟩ := h
  obtain ⟨j, h3, h4⟩ := h'
  have l1 := lt_of_getElem? h1
  have l2 := lt_of_getElem? h3
  have : i = j := by omega
  subst this
  rw [h1] at h3
  cases h3
  rfl

/-- A block that is made: it is current exactly when its relevance is the last revision. -/
theorem crossItem_current {m : List MapItem} {index : List Rev} {k : BlockKey} (hu : OnePlace index k) {x : MapItem} (hx : x ∈ m) {c : Cross}
    (h : crossItem index x = .ok (some (k, c))) {rel : Nat × Nat} (hr : c.rel = some rel) :
    ∃ o, c.targets = deepRefDetect o ∧ c.usedBy = [] ∧ (¬ rel.2 < index.length - 1 → Current m index k c.num o) := by
  cases x with
  | region r rows =>
    cases r with
    | xrefTable b e rws tr =>
      obtain ⟨rl, h1, h⟩ := bind_eq_ok h
      cases h
      cases hr
      exact ⟨tr, rfl, rfl, fun hv => .trailer hx ((findXrefTablePos_last h1).1 hv)⟩
    | indObj b e num gen o =>
      obtain ⟨rl, h1, h⟩ := bind_eq_ok h
      cases h
      cases hr
      refine ⟨o, rfl, rfl, fun hv => ?_⟩
      cases b with
      | none => exact .unplaced hx ((findAbsPos_last hu h1).1 hv)
      | some b => exact .direct hx ((findAbsPos_last hu h1).1 hv)
    | _ => cases h
  | xrefStream b rows t => cases h
  | embedded bo act j num o env =>
    obtain ⟨rl, h1, h⟩ := bind_eq_ok h
    cases h
    cases hr
    exact ⟨o, rfl, rfl, fun hv => .embedded hx ((findAbsPos_last hu h1).1 hv)⟩

theorem Current.key {m : List MapItem} {index : List Rev} {q : BlockKey} {n o : Obj} (h : Current m index q n o) :
    q ∈ m.filterMap MapItem.key? := by
  cases h with
  | trailer h => exact List.mem_filterMap.2 ⟨_, h, rfl⟩
  | direct h => exact List.mem_filterMap.2 ⟨_, h, rfl⟩
  | unplaced h => exact List.mem_filterMap.2 ⟨_, h, rfl⟩
  | embedded h => exact List.mem_filterMap.2 ⟨_, h, rfl⟩

/-- A current object of the map has a block, whose relevance is the last revision. -/
theorem current_item {m : List MapItem} {index : List Rev} {q : BlockKey} {n o : Obj} (hu : OnePlace index q)
    (h : Current m index q n o) : ∃ x ∈ m, ∀ r, crossItem index x = .ok r → ∃ c, r = some (q, c) ∧ c.num = n ∧
      c.targets = deepRefDetect o ∧ ∀ rel, c.rel = some rel → ¬ rel.2 < index.length - 1 := by
  cases h with
  | trailer hm hl =>
    refine ⟨_, hm, fun r hr => ?_⟩
    obtain ⟨rl, h1, hr⟩ := bind_eq_ok hr
    cases hr
    exact ⟨_, rfl, rfl, rfl, by rintro rel rfl; exact (findXrefTablePos_last h1).2 hl⟩
  | direct hm hl =>
    refine ⟨_, hm, fun r hr => ?_⟩
    obtain ⟨rl, h1, hr⟩ := bind_eq_ok hr
    cases hr
    exact ⟨_, rfl, rfl, rfl, by rintro rel rfl; exact (findAbsPos_last hu h1).2 hl⟩
  | unplaced hm hl =>
    refine ⟨_, hm, fun r hr => ?_⟩
    obtain ⟨rl, h1, hr⟩ := bind_eq_ok hr
    cases hr
    exact ⟨_, rfl, rfl, rfl, by rintro rel rfl; exact (findAbsPos_last hu h1).2 hl⟩
  | embedded hm hl =>
    refine ⟨_, hm, fun r hr => ?_⟩
    obtain ⟨rl, h1, hr⟩ := bind_eq_ok hr
    cases hr
    exact ⟨_, rfl, rfl, rfl, by rintro rel rfl; exact (findAbsPos_last hu h1).2 hl⟩

theorem mem_usesIn {last : Rev} {u v : Obj × BlockKey} {ts : List Ref} {k : BlockKey} :
    v ∈ usesIn last u ts k ↔ v = u ∧ ∃ t ∈ ts, ∃ e, CellOf last t.2 e ∧ e.absPos = k ∧ k ≠ none := by
  unfold usesIn
  simp only [List.mem_map, List.mem_filter]
  constructor
  · rintro ⟨t, ⟨h1, h2⟩, rfl⟩
    cases hp : targetPos last t.2 with
    | error x => rw [hp] at h2; cases h2
    | ok p =>
      rw [hp] at h2
      simp only [decide_eq_true_eq] at h2
      obtain ⟨e, h3, h4⟩ := targetPos_iff.1 hp
      exact ⟨rfl, t, h1, e, h3, by rw [h4, h2], by rw [← h2]; simp⟩
  · rintro ⟨rfl, t, h1, e, h2, h3, h4⟩
    cases k with
    | none => exact absurd rfl h4
    | some p => exact ⟨t, ⟨h1, by rw [targetPos_iff.2 ⟨e, h2, h3⟩]; simp⟩, rfl⟩

/-- **C82**, for the index and the map of a file: the uses shown in the block at `k` are exactly the current objects, and
trailer, which have a reference to the object that the last revision places at `k`. -/
theorem crossMap_uses {m : List MapItem} {index : List Rev} {cross : List (BlockKey × Cross)} (h : crossMap m index = .ok cross)
    (hn : (m.filterMap MapItem.key?).Nodup) (hu : ∀ k ∈ m.filterMap MapItem.key?, OnePlace index k) :
    cross.map Prod.fst = m.filterMap MapItem.key? ∧
    ∀ k c, (k, c) ∈ cross → ∀ n q, (n, q) ∈ c.usedBy ↔ ∃ o, Current m index q n o ∧ LeadsTo index o k := by
  obtain ⟨ret, hret, h⟩ := bind_eq_ok h
  obtain ⟨l, l1, l2, l3⟩ := crossItems_spec hret (by simpa using hn)
  rw [List.nil_append] at l2
  subst l2
  have hitem := mapM_ok_mem l1
  cases hlast : index.getLast? with
  | none =>
    rw [hlast] at h
    simp only at h
    split at h
    · rename_i h0
      cases h
      rw [h0] at l3
      exact ⟨l3, by simp⟩
    · cases h
  | some last =>
    rw [hlast] at h
    simp only at h
    obtain ⟨h1, rfl⟩ := crossUses_spec h (by rw [l3]; exact hn)
    refine ⟨by rw [List.map_map]; exact l3, ?_⟩
    intro k c hc n q
    obtain ⟨⟨k', c0⟩, hc0, he⟩ := List.mem_map.1 hc
    cases he
    have hused : c0.usedBy = [] := by
      obtain ⟨y, hy, hy'⟩ := List.mem_filterMap.1 hc0
      obtain ⟨x, hx, hxy⟩ := hitem.1 y hy
      simp only [id] at hy'
      subst hy'
      obtain ⟨rel, hr, -⟩ := h1 _ hc0
      obtain ⟨o, -, ho, -⟩ := crossItem_current (m := m) (hu _ (l3 ▸ List.mem_map_of_mem hc0)) hx hxy hr
      exact ho
    simp only [hused, List.nil_append]
    unfold usesOf
    rw [List.mem_flatMap]
    constructor
    · rintro ⟨⟨q', cq⟩, hq, hm⟩
      obtain ⟨rel, hr, hr2⟩ := h1 _ hq
      obtain ⟨rn, ver⟩ := rel
      simp only at hr hr2 hm
      rw [hr] at hm
      cases ht : cq.targets with
      | none => rw [ht] at hm; cases hm
      | some ts =>
        rw [ht] at hm
        simp only at hm
        split at hm
        · cases hm
        rename_i hv
        obtain ⟨he, t, htm, e, h3, h4, h5⟩ := mem_usesIn.1 hm
        cases he
        obtain ⟨y, hy, hy'⟩ := List.mem_filterMap.1 hq
        obtain ⟨x, hx, hxy⟩ := hitem.1 y hy
        simp only [id] at hy'
        subst hy'
        obtain ⟨o, ho, -, hcur⟩ := crossItem_current (m := m) (hu _ (l3 ▸ List.mem_map_of_mem hq)) hx hxy hr
        exact ⟨o, hcur hv, last, hlast, t, e, (detect_mem (by rw [← ho, ht]) t).1 htm, h3, h4⟩
    · rintro ⟨o, hcur, last', hl', r, e, ho, hcell, hk⟩
      rw [hlast] at hl'
      cases hl'
      obtain ⟨x, hx, hxr⟩ := current_item (hu _ hcur.key) hcur
      obtain ⟨y, hyl, hy⟩ := hitem.2 x hx
      obtain ⟨cq, rfl, hnum, htar, hver⟩ := hxr y hy
      have hq : (q, cq) ∈ l.filterMap id := List.mem_filterMap.2 ⟨_, hyl, rfl⟩
      obtain ⟨rel, hr, hr2⟩ := h1 _ hq
      have hv := hver rel hr
      obtain ⟨ts, ht, hts⟩ := hr2 hv
      refine ⟨(q, cq), hq, ?_⟩
      obtain ⟨rn, ver⟩ := rel
      simp only at hr ht hv ⊢
      rw [hr, ht]
      simp only [if_neg hv]
      have hin : r ∈ ts := (detect_mem (by rw [← htar, ht]) r).2 ho
      obtain ⟨p, hp, -⟩ := hts r hin
      obtain ⟨e', c1, c2⟩ := targetPos_iff.1 hp
      rw [cell_unique c1 hcell, hk] at c2
      rw [mem_usesIn]
      exact ⟨by rw [hnum], r, hin, e, hcell, hk, by rw [c2]; simp⟩

/-! ### Files -/

/-- The position where the block of an item begins, or that of its object stream. -/
def MapItem.base? : MapItem → Option Nat
  | .region r _ => r.begin
  | .xrefStream b _ _ => b
  | .embedded bo _ _ _ _ _ => some bo

theorem embeddedItems_keys {bo : Nat} {env : Int} : ∀ (l : List Embedded) (j : Nat),
    (embeddedItems bo env j l).filterMap MapItem.key? = (List.range' j l.length).map fun i => some (.emb bo i)
  | [], j => rfl
  | x :: l, j => by
    rw [embeddedItems, List.filterMap_cons]
    simp only [MapItem.key?, embeddedItems_keys l (j + 1), List.length_cons, List.range'_succ, List.map_cons]

/-- The keys of the items of a region are distinct, and are about its begin. -/
theorem regionItems_keys [Zlib] {r : Region} {its : List MapItem} (h : regionItems r = .ok its) {i : Nat} (hb : r.begin = some i) :
    (its.filterMap MapItem.key?).Nodup ∧
      ∀ k ∈ its.filterMap MapItem.key?, k = some (.at i) ∨ ∃ j, k = some (.emb i j) := by
  have single : ∀ {rows : List (Nat × Nat × XRow)}, ([MapItem.region r rows].filterMap MapItem.key?).Nodup ∧
      ∀ k ∈ [MapItem.region r rows].filterMap MapItem.key?, k = some (.at i) ∨ ∃ j, k = some (.emb i j) := by
    intro rows
    cases r with
    | indObj b e num gen o =>
      cases hb
      simp [MapItem.key?]
    | xrefTable b e rws tr =>
      cases hb
      simp [MapItem.key?]
    | _ => exact ⟨List.Pairwise.nil, fun k hk => by cases hk⟩
  cases r with
  | xrefTable b e rws tr =>
    obtain ⟨l, -, h⟩ := bind_eq_ok h
    cases h
    exact single
  | indObj b e num gen o =>
    cases hb
    unfold regionItems at h
    split at h
    · rename_i heq; cases heq
    · rename_i heq
      cases heq
      split at h
      · split at h
        · obtain ⟨rows, -, h⟩ := bind_eq_ok h
          cases h
          exact single (rows := [])
        · split at h
          · obtain ⟨embs, -, h⟩ := bind_eq_ok h
            simp only at h
            cases h
            rw [List.filterMap_cons]
            simp only [MapItem.key?, Option.map_some, embeddedItems_keys]
            constructor
            · rw [List.nodup_cons]
              refine ⟨by simp, ?_⟩
              refine List.Pairwise.map _ (fun a b hab h => hab (by simpa using h)) (List.nodup_range' ..)
            · intro k hk
              rcases List.mem_cons.1 hk with rfl | hk
              · exact .inl rfl
              · obtain ⟨j, -, rfl⟩ := List.mem_map.1 hk
                exact .inr ⟨j, rfl⟩
          · cases h
            exact single
      · cases h
        exact single
    · cases h
      exact single
  | _ => cases h; exact single

theorem fileMapLoop_keys [Zlib] {F : Bytes} (hF : F.getLast?.any isEol = true) : ∀ (fuel i : Nat) (m : List MapItem), i ≤ F.length →
    fileMapLoop F fuel i = .ok m → (m.filterMap MapItem.key?).Nodup ∧
      ∀ k ∈ m.filterMap MapItem.key?, ∃ b : Nat, i ≤ b ∧ (k = some (.at b) ∨ ∃ j, k = some (.emb b j))
  | 0, _, _, _, h => by cases h
  | fuel + 1, i, items, hi, h => by
    have h0 := h
    rw [fileMapLoop] at h
    split at h
    case isFalse hl => cases h; simp
    rename_i hl
    obtain ⟨o, ho, h⟩ := bind_eq_ok h
    cases o with
    | none => cases h; simp
    | some r =>
      obtain ⟨its, hits, h⟩ := bind_eq_ok h
      obtain ⟨rest, hrest, h⟩ := bind_eq_ok h
      cases h
      obtain ⟨r1, r2, r3⟩ := parseRegion_spec hl ho
      rcases r3 with r3 | ⟨-, r3⟩
      case inr => rw [fileMapLoop_bracket r3] at h0; cases h0
      obtain ⟨i1, i2⟩ := fileMapLoop_keys hF fuel r.fin rest r2 hrest
      have hb : r.begin = some i := by
        rcases r1 with r1 | ⟨r1, rn⟩
        · exact r1
        · exfalso
          obtain ⟨e, t, he, -⟩ := fileMapLoop_tiles _ _ _ hi h0
          have := t.known hF he (none, r.fin) (by
            rw [spans_append, regionItems_spans hits, r1]; simp)
          exact this rfl
      obtain ⟨k1, k2⟩ := regionItems_keys hits hb
      rw [List.filterMap_append]
      constructor
      · rw [List.nodup_append]
        refine ⟨k1, i1, ?_⟩
        rintro a ha b hb rfl
        obtain ⟨p, hp, h⟩ := i2 a hb
        have : p = i := by
          rcases k2 a ha with rfl | ⟨j, rfl⟩ <;> rcases h with h | ⟨j', h⟩ <;> cases h <;> rfl
        omega
      · intro k hk
        rcases List.mem_append.1 hk with hk | hk
        · exact ⟨i, Nat.le_refl _, k2 k hk⟩
        · obtain ⟨b, hb, h⟩ := i2 k hk
          exact ⟨b, by omega, h⟩

theorem withoutVoid_keys (m : List MapItem) : (withoutVoid m).filterMap MapItem.key? = m.filterMap MapItem.key? := by
  induction m with
  | nil => rfl
  | cons x m ih =>
    have h : withoutVoid (x :: m) = x :: withoutVoid m ∨ withoutVoid (x :: m) = withoutVoid m ∧ x.key? = none := by
      unfold withoutVoid
      rw [List.filter_cons]
      split
      · exact .inr ⟨rfl, rfl⟩
      · exact .inl rfl
    rcases h with h | ⟨h, hk⟩
    · rw [h, List.filterMap_cons, List.filterMap_cons, ih]
    · rw [h, List.filterMap_cons, hk, ih]

theorem current_withoutVoid {m : List MapItem} {index : List Rev} {q : BlockKey} {n o : Obj} :
    Current (withoutVoid m) index q n o ↔ Current m index q n o := by
  constructor
  · intro h
    cases h with
    | trailer h1 h2 => exact .trailer (List.mem_filter.1 h1).1 h2
    | direct h1 h2 => exact .direct (List.mem_filter.1 h1).1 h2
    | unplaced h1 h2 => exact .unplaced (List.mem_filter.1 h1).1 h2
    | embedded h1 h2 => exact .embedded (List.mem_filter.1 h1).1 h2
  · intro h
    cases h with
    | trailer h1 h2 => exact .trailer (List.mem_filter.2 ⟨h1, rfl⟩) h2
    | direct h1 h2 => exact .direct (List.mem_filter.2 ⟨h1, rfl⟩) h2
    | unplaced h1 h2 => exact .unplaced (List.mem_filter.2 ⟨h1, rfl⟩) h2
    | embedded h1 h2 => exact .embedded (List.mem_filter.2 ⟨h1, rfl⟩) h2

/-- **C82.** In the view of a file which ends with an end of line, there is one block with uses for each object found in the file and
each table, and the uses shown are exactly the objects (and the trailer) of the last revision that have a reference to
the object which the last revision places there.
Partial: when the view is made (`C82_orphan_counterexample`, `C82_dangling_counterexample`), and when the index does not give
one position to two numbers (`C82_shared_counterexample`). -/
theorem C82_uses_partial [Zlib] (F : Bytes) (hF : F.getLast?.any isEol = true) (m : List MapItem) (hm : fileObjectMap F = .ok m)
    (index : List Rev) (hu : ∀ k ∈ m.filterMap MapItem.key?, OnePlace index k) (cross : List (BlockKey × Cross)) (h : crossMap (withoutVoid m) index = .ok cross) :
    cross.map Prod.fst = m.filterMap MapItem.key? ∧ (cross.map Prod.fst).Nodup ∧
    ∀ k c, (k, c) ∈ cross → ∀ n q, (n, q) ∈ c.usedBy ↔ ∃ o, Current m index q n o ∧ LeadsTo index o k := by
  have hn := (fileMapLoop_keys hF _ 0 m (by omega) hm).1
  obtain ⟨h1, h2⟩ := crossMap_uses h (by rw [withoutVoid_keys]; exact hn) (by rw [withoutVoid_keys]; exact hu)
  rw [withoutVoid_keys] at h1
  refine ⟨h1, by rw [h1]; exact hn, fun k c hc n q => ?_⟩
  rw [h2 k c hc n q]
  simp only [current_withoutVoid]

theorem inj_of_nodup_filterMap {α β : Type} {f : α → Option β} : ∀ {l : List α} {x y : α} {b : β}, (l.filterMap f).Nodup → x ∈ l → y ∈ l →
    f x = some b → f y = some b → x = y
  | a :: l, x, y, b, hn, hx, hy, h1, h2 => by
    rw [List.filterMap_cons] at hn
    rcases List.mem_cons.1 hx with rfl | hx <;> rcases List.mem_cons.1 hy with rfl | hy
    · rfl
    · rw [h1] at hn
      exact absurd (List.mem_filterMap.2 ⟨y, hy, h2⟩) (List.nodup_cons.1 hn).1
    · rw [h2] at hn
      exact absurd (List.mem_filterMap.2 ⟨x, ‹_›, h1⟩) (List.nodup_cons.1 hn).1
    · split at hn
      · exact inj_of_nodup_filterMap hn hx hy h1 h2
      · exact inj_of_nodup_filterMap (List.nodup_cons.1 hn).2 hx hy h1 h2

/-! ### Ids of the blocks, links to the pages -/

/-- A later revision of the index of a file has each object of a former one, the same or with a greater version. -/
theorem fileIndex_later [Zlib] {F : Bytes} {index : List Rev} (h : fileIndex F = .ok index) : index.reverse.Pairwise Later := by
  unfold fileIndex at h
  obtain ⟨secs, -, h⟩ := bind_eq_ok h
  obtain ⟨⟨nxt, nb⟩, -, h⟩ := bind_eq_ok h
  obtain ⟨cols, h4, h⟩ := bind_eq_ok h
  obtain ⟨revs, h5, h⟩ := bind_eq_ok h
  cases h
  obtain ⟨r1, -⟩ := completeAll_spec (cols := cols) h5 ⟨rfl, fun n => by simp⟩ (by simp)
    (.inl ⟨rfl, rfl⟩) (by rw [List.reverse_reverse]; exact build_later h4) .nil (by simp)
  rw [List.reverse_reverse]
  exact r1

/-- The last revision has each object of the index, the same or with a greater version. -/
theorem fileIndex_last [Zlib] {F : Bytes} {index : List Rev} (h : fileIndex F = .ok index) {last : Rev} (hl : index.getLast? = some last)
    {rev : Rev} (hr : rev ∈ index) : Later last rev := by
  have hp := fileIndex_later h
  obtain ⟨ys, rfl⟩ := List.getLast?_eq_some_iff.1 hl
  rw [List.reverse_append, List.reverse_singleton, List.singleton_append, List.pairwise_cons] at hp
  rcases List.mem_append.1 hr with hr | hr
  · exact hp.1 rev (List.mem_reverse.2 hr)
  · rw [List.mem_singleton.1 hr]
    exact .refl _

theorem lookup_mem' {k : BlockKey} {c : Cross} : ∀ {l : List (BlockKey × Cross)}, l.lookup k = some c → (k, c) ∈ l
  | [], h => by cases h
  | (k', c') :: l, h => by
    rw [List.lookup_cons] at h
    split at h
    · rename_i hk
      cases h
      rw [beq_iff_eq.1 hk]
      exact List.mem_cons_self
    · exact List.mem_cons_of_mem _ (lookup_mem' h)

/-- A block of the result is one of those of the first loop, with its uses. -/
theorem crossMap_block {m : List MapItem} {index : List Rev} {cross : List (BlockKey × Cross)} (h : crossMap m index = .ok cross)
    (hn : (m.filterMap MapItem.key?).Nodup) {k : BlockKey} {c : Cross} (hc : (k, c) ∈ cross) :
    ∃ x ∈ m, ∃ c0, crossItem index x = .ok (some (k, c0)) ∧ c.rel = c0.rel ∧ c.num = c0.num := by
  obtain ⟨ret, hret, h⟩ := bind_eq_ok h
  obtain ⟨l, l1, l2, l3⟩ := crossItems_spec hret (by simpa using hn)
  rw [List.nil_append] at l2
  subst l2
  have hitem := mapM_ok_mem l1
  cases hlast : index.getLast? with
  | none =>
    rw [hlast] at h
    simp only at h
    split at h
    · cases h
      cases hc
    · cases h
  | some last =>
    rw [hlast] at h
    simp only at h
    obtain ⟨h1, rfl⟩ := crossUses_spec h (by rw [l3]; exact hn)
    obtain ⟨⟨k', c0⟩, hc0, he⟩ := List.mem_map.1 hc
    cases he
    obtain ⟨y, hy, hy'⟩ := List.mem_filterMap.1 hc0
    obtain ⟨x, hx, hxy⟩ := hitem.1 y hy
    simp only [id] at hy'
    subst hy'
    exact ⟨x, hx, c0, hxy, rfl, rfl⟩

/-- The header of an object of the file: its number and version come from the index. -/
theorem objHeader_direct {m : List MapItem} {index : List Rev} {cross : List (BlockKey × Cross)} (hc : crossMap m index = .ok cross)
    (hn : (m.filterMap MapItem.key?).Nodup) {b fin : Nat} {num gen : Int} {o : Obj} {l : List (Nat × Nat × XRow)}
    (hm : .region (.indObj (some b) fin num gen o) l ∈ m) {y : Option Header}
    (h : objHeader index cross (.region (.indObj (some b) fin num gen o) l) = .ok y) :
    ∃ hd n ver rev e, y = some hd ∧ findAbsPos (some (.at b)) index = .ok (some (n, ver)) ∧ index[ver]? = some rev ∧
      rev[n]? = some (.one e) ∧ hd.key = some (.at b) ∧ hd.num = .int n ∧ hd.gen = e.gen ∧ hd.ver = e.ver := by
  unfold objHeader at h
  obtain ⟨c, h1, h⟩ := bind_eq_ok h
  obtain ⟨⟨n, ver⟩, h2, h⟩ := bind_eq_ok h
  obtain ⟨rev, h3, h⟩ := bind_eq_ok h
  obtain ⟨e, h4, h⟩ := bind_eq_ok h
  cases h
  have h1 := lookup_mem' (orRaise_eq_ok h1)
  have h2 := orRaise_eq_ok h2
  have h3 := orRaise_eq_ok h3
  obtain ⟨x, hx, c0, hx0, hr, -⟩ := crossMap_block hc hn h1
  have hxe : x = .region (.indObj (some b) fin num gen o) l := by
    refine inj_of_nodup_filterMap hn hx hm ?_ (by rfl)
    have := crossItem_key hx0
    rw [← this]
    rfl
  subst hxe
  obtain ⟨rel, hf, hx0⟩ := bind_eq_ok hx0
  cases hx0
  have hr : rel = some (n, ver) := by rw [← h2, hr]
  subst hr
  exact ⟨_, n, ver, rev, e, rfl, hf, h3, entryAt_ok h4, rfl, rfl, rfl, rfl⟩

theorem objHeader_key {index : List Rev} {cross : List (BlockKey × Cross)} {x : MapItem} {h : Header}
    (hh : objHeader index cross x = .ok (some h)) : x.key? = some h.key := by
  cases x with
  | region r rows =>
    cases r with
    | indObj b e num gen o =>
      cases b with
      | none => cases hh
      | some b =>
        unfold objHeader at hh
        obtain ⟨c, -, hh⟩ := bind_eq_ok hh
        obtain ⟨⟨n, ver⟩, -, hh⟩ := bind_eq_ok hh
        obtain ⟨rev, -, hh⟩ := bind_eq_ok hh
        obtain ⟨en, -, hh⟩ := bind_eq_ok hh
        cases hh
        rfl
    | _ => cases hh
  | xrefStream b rows t => cases hh
  | embedded bo act j num o env =>
    unfold objHeader at hh
    obtain ⟨c, -, hh⟩ := bind_eq_ok hh
    cases hh
    rfl

theorem objHeaders_keys {index : List Rev} {cross : List (BlockKey × Cross)} : ∀ {m : List MapItem} {l : List (Option Header)},
    m.mapM (objHeader index cross) = .ok l → ((l.filterMap id).map Header.key).Sublist (m.filterMap MapItem.key?)
  | [], l, h => by cases h; simp
  | x :: m, l, h => by
    rw [List.mapM_cons] at h
    obtain ⟨y, hy, h⟩ := bind_eq_ok h
    obtain ⟨l', hl, h⟩ := bind_eq_ok h
    cases h
    have ih := objHeaders_keys hl
    cases y with
    | none =>
      rw [List.filterMap_cons_none (by rfl), List.filterMap_cons]
      split
      · exact ih
      · exact ih.cons _
    | some hd =>
      rw [List.filterMap_cons_some (b := hd) (by rfl), List.map_cons, List.filterMap_cons, objHeader_key hy]
      exact ih.cons_cons _

theorem filter_single {α β : Type} [DecidableEq β] {f : α → β} {p : α → Bool} : ∀ {l : List α} {x : α}, (l.map f).Nodup → x ∈ l → p x = true →
    (∀ y ∈ l, p y = true → f y = f x) → l.filter p = [x]
  | a :: l, x, hn, hx, hp, hu => by
    rw [List.map_cons, List.nodup_cons] at hn
    rcases List.mem_cons.1 hx with rfl | hx
    · rw [List.filter_cons_of_pos hp]
      congr 1
      rw [List.filter_eq_nil_iff]
      intro y hy hpy
      exact hn.1 (List.mem_map.2 ⟨y, hy, hu y (by simp [hy]) hpy⟩)
    · have : p a ≠ true := fun ha => hn.1 (List.mem_map.2 ⟨x, hx, (hu a (by simp) ha).symm⟩)
      rw [List.filter_cons_of_neg this]
      exact filter_single hn.2 hx hp fun y hy => hu y (by simp [hy])

/-- The id of a block is `obj<num>.<gen>.<ver>`. -/
def Header.named (h : Header) (link : Nat × Int × Nat) : Bool := h.num = .int link.1 ∧ (h.gen : Int) = link.2.1 ∧ h.ver = link.2.2

/-- The map has, at the position `p`, an object that can be the object `n` of the entry `e`: outside object streams, or in an
object stream under this number, in its first version. -/
def Shown (m : List MapItem) (n : Nat) (e : Entry) (p : Pos) : Prop :=
  (∃ (b : Nat), p = .at b ∧ ∃ fin num gen o l, .region (.indObj (some b) fin num gen o) l ∈ m) ∨
  (∃ (bo j : Nat), p = .emb bo j ∧ e.gen = 0 ∧ e.ver = 0 ∧ ∃ act o env, .embedded bo act j (.int n) o env ∈ m)

/-- **C83.** In the view of a file which ends with an end of line, the link to a page leads to exactly one block, and it is the
one at the position that the last revision gives to the page.
Partial: for pages outside object streams, or in an object stream and never updated (`C83_updated_counterexample`), when the
reference of the page has the generation of the index, and the objects of object streams which have the number of the
page have it in the index too (`C83_number_counterexample`). -/
theorem C83_links_partial [Zlib] (F : Bytes) (hF : F.getLast?.any isEol = true) (m : List MapItem) (hm : fileObjectMap F = .ok m)
    (index : List Rev) (hi : fileIndex F = .ok index) (hu : ∀ k ∈ m.filterMap MapItem.key?, OnePlace index k)
    (cross : List (BlockKey × Cross)) (hc : crossMap (withoutVoid m) index = .ok cross)
    (hs : List Header) (hhs : objHeaders index cross (withoutVoid m) = .ok hs)
    (pages : List Ref) (links : List (Nat × Int × Nat)) (hl : pageLinks index pages = .ok links) :
    links.map (fun k => (k.2.1, (k.1 : Int))) = pages ∧
    ∀ link ∈ links, ∃ last e, index.getLast? = some last ∧ last[link.1]? = some (.one e) ∧ link.2.2 = e.ver ∧
      ∀ p, e.absPos = some p → (e.gen : Int) = link.2.1 → Shown m link.1 e p →
        (∀ (bo : Nat) act j o env, .embedded bo act j (.int link.1) o env ∈ m →
          ∃ rev ∈ index, ∃ e', rev[link.1]? = some (.one e') ∧ e'.absPos = some (.emb bo j)) →
        ∃ h, hs.filter (·.named link) = [h] ∧ h.key = some p := by
  have hlast : ∀ (gen num : Int) (k : Nat × Int × Nat), (match index.getLast? with
      | none => (.error .indexError : Py (Nat × Int × Nat))
      | some last =>
        if num ≤ 0 then .error .outside
        else do
          let e ← entryAt last num.toNat
          .ok (num.toNat, gen, e.ver)) = .ok k → (k.1 : Int) = num ∧ 0 < k.1 ∧ k.2.1 = gen ∧
        ∃ last e, index.getLast? = some last ∧ last[k.1]? = some (.one e) ∧ k.2.2 = e.ver := by
    intro gen num k h
    split at h
    · cases h
    · rename_i last hla
      split at h
      · cases h
      · obtain ⟨e, he, h⟩ := bind_eq_ok h
        cases h
        exact ⟨by simp only; omega, by simp only; omega, rfl, last, e, hla, entryAt_ok he, rfl⟩
  constructor
  · clear hc hhs
    unfold pageLinks at hl
    induction pages generalizing links with
    | nil => cases hl; rfl
    | cons p pages ih =>
      rw [List.mapM_cons] at hl
      obtain ⟨k, hk, hl⟩ := bind_eq_ok hl
      obtain ⟨ks, hks, hl⟩ := bind_eq_ok hl
      cases hl
      obtain ⟨h1, -, h2, -⟩ := hlast _ _ _ hk
      rw [List.map_cons, ih _ hks, h1, h2]
  · intro link hlink
    obtain ⟨⟨pg, pn⟩, -, hpk⟩ := (mapM_ok_mem hl).1 link hlink
    obtain ⟨-, h0, -, last, e, h1, h2, h3⟩ := hlast _ _ _ hpk
    refine ⟨last, e, h1, h2, h3, ?_⟩
    intro p hb hg hsh hemb
    have hn : ((withoutVoid m).filterMap MapItem.key?).Nodup := by
      rw [withoutVoid_keys]
      exact (fileMapLoop_keys hF _ 0 m (by omega) hm).1
    unfold objHeaders at hhs
    obtain ⟨ys, hys, hhs⟩ := bind_eq_ok hhs
    cases hhs
    obtain ⟨m1, m2⟩ := mapM_ok_mem hys
    have hex : ∃ hd, some hd ∈ ys ∧ hd.key = some p ∧ hd.named link = true := by
      rcases hsh with ⟨b, rfl, fin, num, gen, o, l, hin⟩ | ⟨bo, j, rfl, hg0, hv0, act, o, env, hin⟩
      · have hu' := hu (some (.at b)) (List.mem_filterMap.2 ⟨_, hin, rfl⟩)
        have hin' : .region (.indObj (some b) fin num gen o) l ∈ withoutVoid m := List.mem_filter.2 ⟨hin, rfl⟩
        obtain ⟨y, hy, hyy⟩ := m2 _ hin'
        obtain ⟨hd, n, ver, rev, en, rfl, g1, g2, g3, g4, g5, g6, g7⟩ := objHeader_direct hc hn hin' hyy
        have hver := (findAbsPos_last hu' g1).2 ⟨last, h1, link.1, e, h0, h2, hb⟩
        simp only at hver
        obtain ⟨f1, rev', f2, ⟨en', f3, f4⟩, -⟩ := findAbsPos_some g1
        rw [g2] at f2
        cases f2
        rw [g3] at f3
        cases f3
        have hn1 : n = link.1 := hu' rev (List.mem_of_getElem? g2) last (List.mem_of_getLast? h1) n link.1 en e f1 h0 g3 h2 f4 hb
        subst hn1
        have hrl : rev = last := by
          have hlt := lt_of_getElem? g2
          have : ver = index.length - 1 := by omega
          rw [this, getLast?_index h1] at g2
          cases g2
          rfl
        subst hrl
        rw [h2] at g3
        cases g3
        exact ⟨hd, hy, g4, by simp [Header.named, g5, g6, g7, hg, h3]⟩
      · have hin' : .embedded bo act j (.int link.1) o env ∈ withoutVoid m := List.mem_filter.2 ⟨hin, rfl⟩
        obtain ⟨y, hy, hyy⟩ := m2 _ hin'
        obtain ⟨c, -, hyy⟩ := bind_eq_ok hyy
        cases hyy
        refine ⟨_, hy, rfl, ?_⟩
        simp only [Header.named, ← hg, hg0, h3, hv0]
        simp
    obtain ⟨hd, hy, g4, hname⟩ := hex
    have same : ∀ rev ∈ index, ∀ e' : Entry, rev[link.1]? = some (.one e') → e'.ver = e.ver → e'.absPos = some p := by
      intro rev hrev e' he' hv
      obtain ⟨e2, j1, j2⟩ := (fileIndex_last hi h1 hrev).2 link.1 h0 e' he'
      rw [h2] at j1
      cases j1
      rcases j2 with rfl | j2
      · exact hb
      · omega
    refine ⟨hd, filter_single (f := Header.key) ((objHeaders_keys hys).nodup hn) (List.mem_filterMap.2 ⟨_, hy, rfl⟩)
      hname ?_, g4⟩
    intro h' hh' hp
    obtain ⟨y', hy', he⟩ := List.mem_filterMap.1 hh'
    simp only [id] at he
    subst he
    obtain ⟨x, hx, hxy⟩ := m1 _ hy'
    simp only [Header.named, decide_eq_true_eq] at hp
    obtain ⟨p1, p2, p3⟩ := hp
    cases x with
    | region r rows =>
      cases r with
      | indObj b' e' num' gen' o' =>
        cases b' with
        | none => cases hxy
        | some b' =>
          obtain ⟨hd', n', ver', rev', en', he, k1, k2, k3, k4, k5, k6, k7⟩ := objHeader_direct hc hn hx hxy
          cases he
          rw [k5] at p1
          cases p1
          obtain ⟨q1, rv, q2, ⟨en2, q3, q4⟩, -⟩ := findAbsPos_some k1
          rw [k2] at q2
          cases q2
          rw [k3] at q3
          cases q3
          rw [k4, g4, ← same rev' (List.mem_of_getElem? k2) en' k3 (by rw [← k7, p3, h3]), q4]
      | _ => cases hxy
    | xrefStream b rows t => cases hxy
    | embedded bo act j num' o' env =>
      obtain ⟨c, -, hxy⟩ := bind_eq_ok hxy
      cases hxy
      simp only at p1 p3
      subst p1
      obtain ⟨rev', r1, e', r2, r3⟩ := hemb _ _ _ _ _ (List.mem_filter.1 hx).1
      have hv : e'.ver = e.ver := by
        obtain ⟨e2, j1, j2⟩ := (fileIndex_last hi h1 r1).2 link.1 h0 e' r2
        rw [h2] at j1
        cases j1
        rcases j2 with rfl | j2
        · rfl
        · omega
      simp only
      rw [g4, ← same rev' r1 e' r2 hv, r3]

/-! ### Cases -/

/-- The numbers above 0 of an index, with their positions. -/
def placedAt (index : List Rev) : List (Nat × BlockKey) :=
  index.flatMap fun rev => rev.zipIdx.filterMap fun (s, n) => match s with
    | .one e => if 0 < n then some (n, e.absPos) else none
    | _ => none

def onePlaceCheck (index : List Rev) (keys : List BlockKey) : Bool :=
  keys.all fun k => (placedAt index).all fun x => (placedAt index).all fun y => !(x.2 = k && y.2 = k) || x.1 = y.1

theorem onePlace_of_check {index : List Rev} {keys : List BlockKey} (h : onePlaceCheck index keys = true) : ∀ k ∈ keys, OnePlace index k := by
  intro k hk rev hr rev' hr' n n' e e' hn hn' he he' h1 h2
  have mem : ∀ rev ∈ index, ∀ (n : Nat) (e : Entry), 0 < n → rev[n]? = some (.one e) → (n, e.absPos) ∈ placedAt index := by
    intro rev hr n e hn he
    refine List.mem_flatMap.2 ⟨rev, hr, List.mem_filterMap.2 ⟨(.one e, n), ?_, by simp [hn]⟩⟩
    rw [List.mem_zipIdx_iff_getElem?]
    exact he
  have h := List.all_eq_true.1 (List.all_eq_true.1 (List.all_eq_true.1 h k hk) _ (mem rev hr n e hn he)) _ (mem rev' hr' n' e' hn' he')
  simpa [h1, h2] using h

/-- The view of a file: whether the hypothesis of `C82` holds, the uses, the ids of the blocks, the links to `pages`. -/
def browseCase [Zlib] (F : Bytes) (pages : List Ref) :
    Py (Bool × List (BlockKey × List (Obj × BlockKey)) × List (BlockKey × Obj × Nat × Nat) × List (Nat × Int × Nat)) := do
  let m ← fileObjectMap F
  let index ← fileIndex F
  let cross ← crossMap (withoutVoid m) index
  let hs ← objHeaders index cross (withoutVoid m)
  let links ← pageLinks index pages
  return (onePlaceCheck index (m.filterMap MapItem.key?), cross.map fun (k, c) => (k, c.usedBy),
    hs.map fun h => (h.key, h.num, h.gen, h.ver), links)

/-- Two revisions; object 3, a page, is updated. Its first version is not a use any more, and the link is to the second one. -/
def browseFile : Bytes := b!"%PDF-1.4\n1 0 obj <</Pages 2 0 R>> endobj\n2 0 obj <</Kids [3 0 R]>> endobj\n3 0 obj <</Parent 2 0 R /X 1 0 R>> endobj\nxref\n0 4\n0000000000 65535 f \n0000000009 00000 n \n0000000041 00000 n \n0000000074 00000 n \ntrailer\n<</Root 1 0 R>>\nstartxref\n116\n%%EOF\n3 0 obj <</Parent 2 0 R /Y 4 0 R>> endobj\n4 0 obj 5 endobj\nxref\n3 2\n0000000249 00000 n \n0000000291 00000 n \ntrailer\n<</Root 1 0 R /Prev 116>>\nstartxref\n308\n%%EOF\n"

example [Zlib] : browseCase browseFile [(0, 3)] = .ok (true,
    [(some (.at 9), [(.int 0, some (.at 308))]), (some (.at 41), [(.int 1, some (.at 9)), (.int 3, some (.at 249))]),
      (some (.at 74), []), (some (.at 116), []), (some (.at 249), [(.int 2, some (.at 41))]),
      (some (.at 291), [(.int 3, some (.at 249))]), (some (.at 308), [])],
    [(some (.at 9), .int 1, 0, 0), (some (.at 41), .int 2, 0, 0), (some (.at 74), .int 3, 0, 0),
      (some (.at 249), .int 3, 0, 1), (some (.at 291), .int 4, 0, 0)], [(3, 0, 1)]) := by kernel_rfl

/-- A page in an object stream, and a new version of the object which refers to it. -/
example [Zlib] : browseCase b!"%PDF-1.5\n1 0 obj\n<</Pages 2 0 R>>\nendobj\n3 0 obj\n<< /Type /ObjStm /N 1 /First 4 /Length 17 >>\nstream\n2 0 <</P 1 0 R>> \nendstream\nendobj\n4 0 obj\n<< /Type /XRef /Size 5 /Root 1 0 R /W [ 1 2 1 ] /Index [ 1 4 ] /Filter /ASCIIHexDecode /Length 32 >>\nstream\n01000900020003000100290001008800\nendstream\nendobj\nstartxref\n136\n%%EOF\n1 0 obj\n<</Pages 2 0 R /Q 3 0 R>>\nendobj\n6 0 obj\n<< /Type /XRef /Size 7 /Root 1 0 R /W [ 1 2 1 ] /Index [ 1 1 6 1 ] /Filter /ASCIIHexDecode /Prev 136 /Length 16 >>\nstream\n0101420001016b00\nendstream\nendobj\nstartxref\n363\n%%EOF\n" [(0, 2)] = .ok (true,
    [(some (.at 9), []), (some (.at 41), [(.int 1, some (.at 322))]), (some (.emb 41 0), [(.int 1, some (.at 322))]),
      (some (.at 136), []), (some (.at 322), [(.int 2, some (.emb 41 0)), (.int 4, some (.at 136)), (.int 6, some (.at 363))]),
      (some (.at 363), [])],
    [(some (.at 9), .int 1, 0, 0), (some (.at 41), .int 3, 0, 0), (some (.emb 41 0), .int 2, 0, 0), (some (.at 136), .int 4, 0, 0),
      (some (.at 322), .int 1, 0, 1), (some (.at 363), .int 6, 0, 0)], [(2, 0, 0)]) := by kernel_rfl

/-- The view is not made of a file with an object that its tables do not list. -/
theorem C82_orphan_counterexample [Zlib] : (browseCase b!"%PDF-1.4\n1 0 obj 5 endobj\n2 0 obj 7 endobj\nxref\n0 2\n0000000000 65535 f \n0000000009 00000 n \ntrailer\n<</Root 1 0 R>>\nstartxref\n43\n%%EOF\n" []) = .error .typeError := by kernel_rfl

/-- The view is not made of a file with a reference to an object which does not exist, though it is valid, and is read as `null`. -/
theorem C82_dangling_counterexample [Zlib] : (browseCase b!"%PDF-1.4\n1 0 obj <</A 3 0 R>> endobj\n2 0 obj 7 endobj\nxref\n0 3\n0000000000 65535 f \n0000000009 00000 n \n0000000037 00000 n \ntrailer\n<</Root 1 0 R>>\nstartxref\n54\n%%EOF\n" []) = .error .keyError := by kernel_rfl

/-- The last revision of this file replaces object 2, and places object 3 where object 2 was. This object, which
refers to object 1, is current, but it is not among the uses of object 1. -/
theorem C82_shared_counterexample [Zlib] : (browseCase b!"%PDF-1.4\n1 0 obj <</A 3 0 R>> endobj\n2 0 obj <</B 1 0 R>> endobj\nxref\n0 3\n0000000000 65535 f \n0000000009 00000 n \n0000000037 00000 n \ntrailer\n<</Root 1 0 R>>\nstartxref\n65\n%%EOF\n2 0 obj 7 endobj\nxref\n2 2\n0000000177 00000 n \n0000000037 00000 n \ntrailer\n<</Root 1 0 R /Prev 65>>\nstartxref\n194\n%%EOF\n" []).map (fun r => (r.1, r.2.1.lookup (some (.at 9)))) =
      .ok (false, some [(.int 0, some (.at 194))]) ∧
    (fileIndex b!"%PDF-1.4\n1 0 obj <</A 3 0 R>> endobj\n2 0 obj <</B 1 0 R>> endobj\nxref\n0 3\n0000000000 65535 f \n0000000009 00000 n \n0000000037 00000 n \ntrailer\n<</Root 1 0 R>>\nstartxref\n65\n%%EOF\n2 0 obj 7 endobj\nxref\n2 2\n0000000177 00000 n \n0000000037 00000 n \ntrailer\n<</Root 1 0 R /Prev 65>>\nstartxref\n194\n%%EOF\n").map (fun index => index.getLast?.map fun last => last.map fun s => match s with | .one e => e.absPos | _ => none) =
      .ok (some [some (.at 243), some (.at 9), some (.at 177), some (.at 37), some (.at 290)]) := by
  constructor <;> kernel_rfl

/-- Object 2, in an object stream, is updated: both versions have the same id, and it is not that of the link. -/
theorem C83_updated_counterexample [Zlib] : (browseCase b!"%PDF-1.5\n1 0 obj\n<</Pages 2 0 R>>\nendobj\n3 0 obj\n<< /Type /ObjStm /N 1 /First 4 /Length 17 >>\nstream\n2 0 <</P 1 0 R>> \nendstream\nendobj\n4 0 obj\n<< /Type /XRef /Size 5 /Root 1 0 R /W [ 1 2 1 ] /Index [ 1 4 ] /Filter /ASCIIHexDecode /Length 32 >>\nstream\n01000900020003000100290001008800\nendstream\nendobj\nstartxref\n136\n%%EOF\n5 0 obj\n<< /Type /ObjStm /N 1 /First 4 /Length 17 >>\nstream\n2 0 <</Q 1 0 R>> \nendstream\nendobj\n6 0 obj\n<< /Type /XRef /Size 7 /Root 1 0 R /W [ 1 2 1 ] /Index [ 2 1 5 2 ] /Filter /ASCIIHexDecode /Prev 136 /Length 24 >>\nstream\n02000500010142000101a100\nendstream\nendobj\nstartxref\n417\n%%EOF\n" [(0, 2)]).map (fun r => (r.1,
      r.2.2.1.filter fun x => x.2.1 = .int 2, r.2.2.2)) =
    .ok (true, [(some (.emb 41 0), .int 2, 0, 0), (some (.emb 322 0), .int 2, 0, 0)], [(2, 0, 1)]) := by kernel_rfl

/-- An object has the number 2 in an object stream, but the number 4 in the index: its block has the id of object 2. -/
theorem C83_number_counterexample [Zlib] : (browseCase b!"%PDF-1.5\n1 0 obj\n<</Pages 2 0 R>>\nendobj\n2 0 obj\n<</P 1 0 R>>\nendobj\n3 0 obj\n<< /Type /ObjStm /N 1 /First 4 /Length 17 >>\nstream\n2 0 <</Q 1 0 R>> \nendstream\nendobj\n5 0 obj\n<< /Type /XRef /Size 6 /Root 1 0 R /W [ 1 2 1 ] /Index [ 1 5 ] /Filter /ASCIIHexDecode /Length 40 >>\nstream\n010009000100290001004500020003000100a400\nendstream\nendobj\nstartxref\n164\n%%EOF\n" [(0, 2)]).map (fun r => (r.1,
      r.2.2.1.filter fun x => x.2.1 = .int 2, r.2.2.2)) =
    .ok (true, [(some (.at 41), .int 2, 0, 0), (some (.emb 69 0), .int 2, 0, 0)], [(2, 0, 0)]) := by kernel_rfl

end Pdf
