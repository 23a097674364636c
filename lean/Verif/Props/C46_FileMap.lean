/-
C46, C47: the disassembly of a file.
-/
import Verif.Lemmas.FileMap
import Verif.Lemmas.StuckText
import Verif.Lemmas.KernelRfl

namespace Pdf
open Spec

/-- Begin and end of the items which have both. -/
def spans : List MapItem → List (Option Nat × Nat)
  | [] => []
  | .region r _ :: rest => (r.begin, r.fin) :: spans rest
  | .xrefStream _ _ _ :: rest => spans rest
  | .embedded _ _ _ _ _ _ :: rest => spans rest

/-- From `i` to `e` in non-empty steps. An unknown begin is tolerated only where no end of line follows. -/
inductive Tiles (F : Bytes) : Nat → List (Option Nat × Nat) → Nat → Prop
  | nil (i : Nat) : Tiles F i [] i
  | cons {i j e : Nat} {rest : List (Option Nat × Nat)} (h : i < j) (t : Tiles F j rest e) :
      Tiles F i ((some i, j) :: rest) e
  | lost {i j e : Nat} {rest : List (Option Nat × Nat)} (h : i < j) (n : ∀ c ∈ F.drop i, c ≠ 10 ∧ c ≠ 13)
      (t : Tiles F j rest e) : Tiles F i ((none, j) :: rest) e

theorem ok_bind' {α β : Type} (a : α) (f : α → Py β) : ((.ok a : Py α) >>= f) = f a := rfl

theorem Tiles.le {F : Bytes} {i e : Nat} {l : List (Option Nat × Nat)} (t : Tiles F i l e) : i ≤ e := by
  induction t with
  | nil => omega
  | cons h _ ih => omega
  | lost h _ _ ih => omega

theorem spans_append : ∀ a b : List MapItem, spans (a ++ b) = spans a ++ spans b
  | [], _ => rfl
  | .region _ _ :: a, b => by simp [spans, spans_append a b]
  | .xrefStream _ _ _ :: a, b => by simp [spans, spans_append a b]
  | .embedded _ _ _ _ _ _ :: a, b => by simp [spans, spans_append a b]

theorem spans_embedded (bo : Nat) (env : Int) : ∀ (l : List Embedded) (j : Nat),
    spans (embeddedItems bo env j l) = []
  | [], _ => rfl
  | _ :: l, j => by rw [embeddedItems, spans, spans_embedded bo env l]

section
variable [Zlib]

theorem regionItems_spans {r : Region} {items : List MapItem} (h : regionItems r = .ok items) :
    spans items = [(r.begin, r.fin)] := by
  unfold regionItems at h
  split at h
  · obtain ⟨l, -, h⟩ := bind_eq_ok h
    cases h
    rfl
  · split at h
    · split at h
      · obtain ⟨l, -, h⟩ := bind_eq_ok h
        cases h
        rfl
      · split at h
        · obtain ⟨l, -, h⟩ := bind_eq_ok h
          split at h <;> cases h
          · simp [spans, spans_embedded]
          · rfl
        · cases h; rfl
    · cases h; rfl
  · cases h; rfl

/-- At a closing bracket the scan does not advance. -/
theorem parseRegion_bracket {F : Bytes} {i : Nat} (h : F[i]? = some 93) :
    parseRegion F i = .ok (some (.void i i [])) := by
  have hl : i < F.length := (List.getElem?_eq_some_iff.1 h).1
  have hd : F.drop i = 93 :: F.drop (i + 1) := by
    rw [List.drop_eq_getElem_cons hl, (List.getElem?_eq_some_iff.1 h).2]
  have hn : nextToken F i = (i, i, none) := by
    unfold nextToken
    rw [hd]
    rfl
  unfold parseRegion
  rw [hn]
  simp [slice_self]

theorem fileMapLoop_bracket {F : Bytes} {i : Nat} (h : F[i]? = some 93) :
    ∀ fuel, fileMapLoop F fuel i = .error .nonterm
  | 0 => rfl
  | fuel + 1 => by
    have hl : i < F.length := (List.getElem?_eq_some_iff.1 h).1
    rw [fileMapLoop, if_pos hl, parseRegion_bracket h]
    change (fileMapLoop F fuel i >>= fun rest => _) = _
    rw [fileMapLoop_bracket h fuel]
    rfl

theorem fileMapLoop_tiles {F : Bytes} : ∀ (fuel i : Nat) (items : List MapItem), i ≤ F.length →
    fileMapLoop F fuel i = .ok items →
    ∃ e, Tiles F i (spans items) e ∧ e ≤ F.length ∧ (e = F.length ∨ parseRegion F e = .ok none)
  | 0, _, _, _, h => by cases h
  | fuel + 1, i, items, hi, h => by
    have h0 := h
    rw [fileMapLoop] at h
    split at h
    case isFalse hl => cases h; exact ⟨i, .nil i, hi, .inl (by omega)⟩
    rename_i hl
    obtain ⟨o, ho, h⟩ := bind_eq_ok h
    cases o with
    | none => cases h; exact ⟨i, .nil i, hi, .inr ho⟩
    | some r =>
      obtain ⟨its, hits, h⟩ := bind_eq_ok h
      obtain ⟨rest, hrest, h⟩ := bind_eq_ok h
      cases h
      obtain ⟨r1, r2, r3⟩ := parseRegion_spec hl ho
      rcases r3 with r3 | ⟨-, r3⟩
      case inr => rw [fileMapLoop_bracket r3] at h0; cases h0
      obtain ⟨e, t, e1, e2⟩ := fileMapLoop_tiles fuel r.fin rest r2 hrest
      refine ⟨e, ?_, e1, e2⟩
      rw [spans_append, regionItems_spans hits]
      rcases r1 with r1 | ⟨r1, rn⟩
      · rw [r1]; exact .cons r3 t
      · rw [r1]
        refine .lost r3 (fun c hc => ?_) t
        have := rn c hc
        constructor <;> rintro rfl <;> cases this

end

/-- C46. The regions follow each other from the begin of the file, without gap nor overlap, up to the end of the
file or up to a token which begins no region: neither a comment nor `startxref`.
Partial: the begin of an indirect object is `None` when no end of line follows it in the file, and the bytes after
an unrecognised token are not reported (`C46_begin_counterexample`, `C46_rest_counterexample`). -/
theorem C46_tiles_partial [Zlib] (F : Bytes) (items : List MapItem) (h : fileObjectMap F = .ok items) :
    ∃ e, Tiles F 0 (spans items) e ∧ e ≤ F.length ∧
      (e = F.length ∨ ∃ j t, nextToken F e = (e, j, some t) ∧ t ≠ .comment ∧
        slice F e (e + 9) ≠ b!"startxref") := by
  obtain ⟨e, t, e1, e2⟩ := fileMapLoop_tiles _ 0 items (by omega) h
  exact ⟨e, t, e1, e2.imp_right parseRegion_none⟩

/-- No unknown begin. -/
theorem Tiles.known {F : Bytes} (hF : F.getLast?.any isEol = true) {i e : Nat} {l : List (Option Nat × Nat)}
    (t : Tiles F i l e) (he : e ≤ F.length) : ∀ p ∈ l, p.1 ≠ none := by
  have hlast : ∃ c, F.getLast? = some c ∧ (c = 10 ∨ c = 13) := by
    cases hl : F.getLast? with
    | none => rw [hl] at hF; cases hF
    | some c =>
      rw [hl] at hF
      refine ⟨c, rfl, ?_⟩
      simpa [isEol, or_comm] using hF
  induction t with
  | nil => simp
  | cons h t ih =>
    intro p hp
    rcases List.mem_cons.1 hp with rfl | hp
    · simp
    · exact ih he p hp
  | @lost i0 j0 e0 rest0 h n t ih =>
    exfalso
    obtain ⟨c, hc, hcc⟩ := hlast
    have hj := t.le
    have hd : c ∈ F.drop i0 := by
      have : (F.drop i0).getLast? = some c := by
        rw [List.getLast?_drop, if_neg (by omega), hc]
      exact List.mem_of_getLast? this
    have := n c hd
    rcases hcc with rfl | rfl
    · exact this.1 rfl
    · exact this.2 rfl

/-- C46, for the files which end with an end of line: each region begins at the end of the previous one. -/
theorem C46_lines_partial [Zlib] (F : Bytes) (items : List MapItem) (h : fileObjectMap F = .ok items)
    (hF : F.getLast?.any isEol = true) (k : Nat) (hk : k < (spans items).length) :
    (spans items)[k].1 = some (if k = 0 then 0 else (spans items)[k - 1].2) := by
  obtain ⟨e, t, e1, -⟩ := C46_tiles_partial F items h
  have hn := t.known hF e1
  have key : ∀ (l : List (Option Nat × Nat)) (i : Nat) (k : Nat) (hk : k < l.length), Tiles F i l e →
      (∀ p ∈ l, p.1 ≠ none) → l[k].1 = some (if k = 0 then i else l[k - 1].2) := by
    intro l
    induction l with
    | nil => intro i k hk; simp at hk
    | cons p l ih =>
      intro i k hk t hn
      cases t with
      | lost h n t => exact absurd rfl (hn _ (List.mem_cons_self ..))
      | @cons i j e _ h t =>
        cases k with
        | zero => rfl
        | succ k =>
          have hk' : k < l.length := by simpa using hk
          rw [List.getElem_cons_succ, ih j k hk' t fun q hq => hn q (by simp [hq])]
          cases k with
          | zero => rfl
          | succ k => simp
  exact key _ 0 k hk t hn

/-- A whole small file. -/
example [Zlib] : (fileObjectMap b!"%PDF-1.4\n1 0 obj 5 endobj\n  xref\n0 1\n0000000000 65535 f \ntrailer\n<</A 1>>\nstartxref\n5\n%%EOF\n").map spans
    = .ok [(some 0, 8), (some 8, 9), (some 9, 25), (some 25, 28), (some 28, 73), (some 73, 74), (some 74, 85),
        (some 85, 86), (some 86, 91), (some 91, 92)] := by kernel_rfl

/-- A file whose trailer is on one line. -/
def oneLineFile : Bytes := b!"%PDF-1.4\n1 0 obj 5 endobj\nxref\n0 1\n0000000000 65535 f \ntrailer <</A 1>>\nstartxref\n27\n%%EOF\n"

/-- **C46, a trailer on one line.** When the word `trailer` and its dictionary are on one line, `parse_xref_table_raw` takes the
word `startxref` for the trailer: the section of the table runs to the end of this word, and the number and the mark of the end
that follow are in no section. -/
theorem C46_one_line_counterexample [Zlib] :
    (parseXrefTableRaw oneLineFile 26).map (·.map fun t => (t.2.1, t.2.2.2)) = .ok (some (81, .str b!"startxref")) ∧
    (fileObjectMap oneLineFile).map spans = .ok [(some 0, 8), (some 8, 9), (some 9, 25), (some 25, 26), (some 26, 81), (some 81, 82)] ∧
    oneLineFile.length = 91 := ⟨by kernel_rfl, by kernel_rfl, by decide⟩

/-- A subsection of a table: its header and its entries. -/
structure Subsection where
  first : Int
  count : Int
  rows : List (Int × Int × Int × Bytes)

def Subsection.entries (s : Subsection) : List XRow := s.rows.map fun x => .entry x.1 x.2.1 x.2.2.1 x.2.2.2

theorem numberRows_rows (s : Nat) (rest : List XRow) : ∀ (es : List (Int × Int × Int × Bytes)) (l : Nat),
    numberRows (some (s, l)) (es.map (fun x => XRow.entry x.1 x.2.1 x.2.2.1 x.2.2.2) ++ rest) =
      (numberRows (some (s, l + es.length)) rest).map
        ((((es.map fun x => XRow.entry x.1 x.2.1 x.2.2.1 x.2.2.2).zipIdx l).map fun x => (s, x.2, x.1)) ++ ·)
  | [], l => by cases h : numberRows (some (s, l)) rest <;> simp [h, Except.map]
  | e :: es, l => by
    rw [List.map_cons, List.cons_append, numberRows, numberRows_rows s rest es (l + 1)]
    · rw [show l + (e :: es).length = l + 1 + es.length by simp only [List.length_cons]; omega]
      cases numberRows (some (s, l + 1 + es.length)) rest <;> simp [Except.map, bind, Except.bind]
    · intro _ _ h; cases h

theorem numberRows_subs : ∀ (subs : List Subsection) (s l : Nat),
    numberRows (some (s, l)) (subs.flatMap fun x => .sub x.first x.count :: x.entries) =
      .ok ((subs.zipIdx (s + 1)).flatMap fun x => x.1.entries.zipIdx.map fun y => (x.2, y.2, y.1))
  | [], _, _ => rfl
  | b :: bs, s, l => by
    rw [List.flatMap_cons, List.cons_append, numberRows, Subsection.entries, numberRows_rows, numberRows_subs bs]
    simp [Except.map, Subsection.entries]

/-- C46, what is listed inside tables: each entry is listed with the rank of its subsection in the table and its rank in
the subsection, both from 0. -/
theorem C46_table_rows [Zlib] (b e : Nat) (tr : Obj) (subs : List Subsection) :
    regionItems (.xrefTable b e (subs.flatMap fun x => .sub x.first x.count :: x.entries) tr) =
      .ok [.region (.xrefTable b e (subs.flatMap fun x => .sub x.first x.count :: x.entries) tr)
        (subs.zipIdx.flatMap fun x => x.1.entries.zipIdx.map fun y => (x.2, y.2, y.1))] := by
  rw [regionItems]
  cases subs with
  | nil => rfl
  | cons x xs =>
    have := numberRows_subs (x :: xs) 0 0
    rw [List.flatMap_cons, List.cons_append, numberRows, Subsection.entries, numberRows_rows, numberRows_subs xs]
    simp [Except.map, Subsection.entries, bind, Except.bind]

/-- Rows that all have the subsection `s`, numbered after `n` rows of it. -/
theorem numberXSRows_group (s : Nat) (more : List XSRow) : ∀ (rows : List XSRow) (n : Nat), (∀ x ∈ rows, x.sub = s) →
    numberXSRows (some (s, n)) (rows ++ more) = (rows.zipIdx (n + 1)).map (fun y => (s, y.2, y.1)) ++
      numberXSRows (some (s, n + rows.length)) more
  | [], n, _ => by simp
  | x :: rows, n, h => by
    have hx := h x List.mem_cons_self
    rw [List.cons_append, numberXSRows.eq_def]
    simp only [hx, if_true]
    rw [numberXSRows_group s more rows (n + 1) fun y hy => h y (List.mem_cons_of_mem _ hy)]
    simp [Nat.add_assoc, Nat.add_comm 1]

theorem numberXSRows_groups : ∀ (groups : List (Nat × List XSRow)) (cur : Option (Nat × Nat)),
    (∀ g ∈ groups, g.2 ≠ [] ∧ ∀ x ∈ g.2, x.sub = g.1) → (∀ s n g, cur = some (s, n) → groups.head? = some g → g.1 ≠ s) →
    (groups.map (·.1)).Pairwise (· ≠ ·) →
    numberXSRows cur (groups.flatMap (·.2)) = groups.flatMap fun g => g.2.zipIdx.map fun y => (g.1, y.2, y.1)
  | [], cur, _, _, _ => by cases cur <;> rfl
  | g :: gs, cur, h, hc, hp => by
    obtain ⟨hne, hg⟩ := h g List.mem_cons_self
    obtain ⟨s, rows⟩ := g
    cases rows with
    | nil => exact absurd rfl hne
    | cons x rows =>
      have hx : x.sub = s := hg x List.mem_cons_self
      have hln : ∀ rest, numberXSRows cur (x :: rest) = (s, 0, x) :: numberXSRows (some (s, 0)) rest := by
        intro rest
        rw [numberXSRows.eq_def]
        cases cur with
        | none => simp only [hx]
        | some c =>
          have := hc c.1 c.2 _ rfl rfl
          simp only [hx]
          rw [if_neg this]
      rw [List.flatMap_cons, List.flatMap_cons, List.cons_append, hln]
      rw [numberXSRows_group s _ rows 0 fun y hy => hg y (List.mem_cons_of_mem _ hy),
        numberXSRows_groups gs _ (fun g hg => h g (List.mem_cons_of_mem _ hg)) ?_ (List.pairwise_cons.mp hp).2]
      · simp
      · intro s' n g' e hh
        simp only [Option.some.injEq, Prod.mk.injEq] at e
        obtain ⟨rfl, -⟩ := e
        have hm : g' ∈ gs := List.mem_of_mem_head? (by rw [hh]; rfl)
        exact fun e => (List.pairwise_cons.mp hp).1 g'.1 (List.mem_map_of_mem hm) e.symm

/-- C46, what is listed after a cross-reference stream: its rows, each with the number of its subsection and its rank in
the subsection, from 0. -/
theorem C46_stream_rows [Zlib] (b : Option Nat) (e : Nat) (num gen : Int) (entries : Dict) (data enc : Bytes)
    (groups : List (Nat × List XSRow)) (ht : Dict.get? entries b!"/Type" = some (.str b!"/XRef"))
    (hp : parseXrefStreamRaw entries data = .ok (groups.flatMap (·.2)))
    (hg : ∀ g ∈ groups, g.2 ≠ [] ∧ ∀ x ∈ g.2, x.sub = g.1) (hd : (groups.map (·.1)).Pairwise (· ≠ ·)) :
    regionItems (.indObj b e num gen (.stream entries data enc)) =
      .ok [.region (.indObj b e num gen (.stream entries data enc)) [],
        .xrefStream b (groups.flatMap fun g => g.2.zipIdx.map fun y => (g.1, y.2, y.1)) entries] := by
  rw [regionItems]
  simp only [ht]
  rw [if_pos trivial, hp]
  simp only [bind, Except.bind]
  rw [numberXSRows_groups groups none hg (fun _ _ _ e => by cases e) hd]

/-- Two subsections, of two rows and of one. -/
example [Zlib] : let entries : Dict := [(b!"/Type", .str b!"/XRef"), (b!"/W", .list [.int 1, .int 1, .int 1]),
      (b!"/Index", .list [.int 0, .int 2, .int 7, .int 1])]
    (regionItems (.indObj (some 3) 90 9 0 (.stream entries [0, 0, 0, 1, 15, 0, 1, 40, 0] []))).map (fun l => l.map fun x => match x with
      | .xrefStream _ rows _ => rows.map fun y => (y.1, y.2.1, y.2.2.num)
      | _ => []) = .ok [[], [(0, 0, 0), (0, 1, 1), (1, 0, 7)]] := by
  intro entries
  kernel_rfl

theorem embeddedItems_eq (bo : Nat) (env : Int) : ∀ (l : List Embedded) (j : Nat),
    embeddedItems bo env j l = (l.zipIdx j).map fun x => .embedded bo x.1.actual x.2 x.1.num x.1.obj env
  | [], _ => rfl
  | x :: l, j => by rw [embeddedItems, embeddedItems_eq bo env l (j + 1)]; rfl

/-- C46, what is listed after an object stream: its objects, each with its rank from 0 and with the number of the
stream. -/
theorem C46_embedded [Zlib] (b e : Nat) (num gen : Int) (entries : Dict) (data enc : Bytes) (embs : List Embedded)
    (ht : Dict.get? entries b!"/Type" = some (.str b!"/ObjStm"))
    (hp : parseObjectStream (.stream entries data enc) = .ok embs) :
    regionItems (.indObj (some b) e num gen (.stream entries data enc)) =
      .ok (.region (.indObj (some b) e num gen (.stream entries data enc)) [] ::
        embs.zipIdx.map fun x => .embedded b x.1.actual x.2 x.1.num x.1.obj num) := by
  rw [regionItems]
  simp only [ht]
  rw [if_neg (by decide), if_pos trivial, hp]
  simp [bind, Except.bind, embeddedItems_eq]

example [Zlib] : (regionItems (.xrefTable 9 80 [.sub 0 1, .entry 0 0 65535 b!"f", .sub 4 2, .entry 20 4 0 b!"n", .entry 33 5 0 b!"n"]
    (.dict []))).map (fun l => l.map fun x => match x with | .region _ r => r.map (fun y => (y.1, y.2.1)) | _ => []) =
    .ok [[(0, 0), (1, 0), (1, 1)]] := by rfl

/-- C46 is false when no end of line follows an object: its begin is not known. -/
theorem C46_begin_counterexample [Zlib] :
    (fileObjectMap b!"1 0 obj 5 endobj").map spans = .ok [(none, 16)] := by kernel_rfl

/-- What follows an unrecognised token is skipped. -/
theorem C46_rest_counterexample [Zlib] :
    (fileObjectMap b!"%PDF-1.4\ntrue\n1 0 obj 5 endobj\n").map spans = .ok [(some 0, 8), (some 8, 9)] := by
  kernel_rfl

/-- The positions at which the scan arrives. -/
inductive Arrives [Zlib] (F : Bytes) : Nat → Prop
  | start : Arrives F 0
  | step {i : Nat} {r : Region} {items : List MapItem} (a : Arrives F i) (hi : i < F.length)
      (h : parseRegion F i = .ok (some r)) (hit : regionItems r = .ok items) : Arrives F r.fin

/-- C47 is false: a closing bracket where a region should begin is met again forever. -/
theorem C47_diverges [Zlib] : fileObjectMap b!"%PDF-1.4\n]\n" = .error .nonterm ∧
    parseRegion b!"%PDF-1.4\n]\n" 9 = .ok (some (.void 9 9 [])) := by
  constructor <;> kernel_rfl

/-- The scan diverges exactly when it arrives at a closing bracket, at an object on which the parser diverges, or
at an object stream on which `parse_object_stream` diverges. -/
theorem C47_divergence [Zlib] (F : Bytes) : fileObjectMap F = .error .nonterm ↔
    ∃ i, Arrives F i ∧ i < F.length ∧ (F[i]? = some 93 ∨ parseRegion F i = .error .nonterm ∨
      ∃ r, parseRegion F i = .ok (some r) ∧ regionItems r = .error .nonterm) := by
  constructor
  · have key : ∀ (fuel i : Nat), Arrives F i → i ≤ F.length → F.length < fuel + i →
        fileMapLoop F fuel i = .error .nonterm →
        ∃ i, Arrives F i ∧ i < F.length ∧ (F[i]? = some 93 ∨ parseRegion F i = .error .nonterm ∨
          ∃ r, parseRegion F i = .ok (some r) ∧ regionItems r = .error .nonterm) := by
      intro fuel
      induction fuel with
      | zero => intro i _ _ hf; omega
      | succ fuel ih =>
        intro i ha hi hf h
        rw [fileMapLoop] at h
        split at h
        case isFalse => cases h
        rename_i hl
        cases hp : parseRegion F i with
        | error e =>
          rw [hp] at h
          cases h
          exact ⟨i, ha, hl, .inr (.inl hp)⟩
        | ok o =>
          rw [hp] at h
          cases o with
          | none => cases h
          | some r =>
            simp only [ok_bind'] at h
            cases hr : regionItems r with
            | error e => rw [hr] at h; cases h; exact ⟨i, ha, hl, .inr (.inr ⟨r, hp, hr⟩)⟩
            | ok items =>
              rw [hr] at h
              simp only [ok_bind'] at h
              obtain ⟨-, r2, r3⟩ := parseRegion_spec hl hp
              rcases r3 with r3 | ⟨-, r3⟩
              case inr => exact ⟨i, ha, hl, .inl r3⟩
              cases hq : fileMapLoop F fuel r.fin with
              | ok l => rw [hq] at h; cases h
              | error e =>
                rw [hq] at h
                cases h
                exact ih r.fin (.step ha hl hp hr) r2 (by omega) hq
    exact fun h => key _ 0 .start (by omega) (by omega) h
  · rintro ⟨i, ha, hl, hc⟩
    have stuck : ∀ fuel, fileMapLoop F fuel i = .error .nonterm := by
      intro fuel
      rcases hc with hc | hc | ⟨r, hc, hr⟩
      · exact fileMapLoop_bracket hc fuel
      · cases fuel with
        | zero => rfl
        | succ fuel => rw [fileMapLoop, if_pos hl, hc]; rfl
      · cases fuel with
        | zero => rfl
        | succ fuel => rw [fileMapLoop, if_pos hl, hc]; simp only [ok_bind', hr]; rfl
    have back : ∀ j, Arrives F j → (∀ fuel, fileMapLoop F fuel j = .error .nonterm) →
        ∀ fuel, fileMapLoop F fuel 0 = .error .nonterm := by
      intro j hj
      induction hj with
      | start => exact id
      | @step k r items a hk h hit ih =>
        intro hs
        apply ih
        intro fuel
        cases fuel with
        | zero => rfl
        | succ fuel =>
          rw [fileMapLoop, if_pos hk, h]
          simp only [ok_bind', hit, hs fuel]
          rfl
    exact back i ha stuck _

/-- C47. A file without `]` and without the names `/Columns` and `/ObjStm` is disassembled, or an exception is
raised, in finitely many steps.
Partial: `C47_diverges`; with these, termination depends on the object parser (`C06_exact`), applied to the file
and to the decoded data of its object streams (`C47_divergence`). -/
theorem C47_terminates_partial [Zlib] (F : Bytes) (h1 : 93 ∉ F) (h2 : ¬ b!"/Columns" <:+: F)
    (h3 : ¬ b!"/ObjStm" <:+: F) : fileObjectMap F ≠ .error .nonterm := by
  intro h
  obtain ⟨i, -, hi, hc⟩ := (C47_divergence F).1 h
  have hp : ∀ j, Term (parseObj F j) := fun j hn => (stuck_suspect ((stuck_iff _ _).mp hn)).elim h1 h2
  rcases hc with hc | hc | ⟨r, hc, hr⟩
  · exact h1 (List.mem_of_getElem? hc)
  · obtain ⟨j, hj, hn⟩ := parseRegion_nonterm (by omega) (start := i) (text := F) (fun ht => ht hc)
    exact hn (hp j)
  · obtain ⟨b, e, num, gen, o, rfl, -, entries, st, enc, rfl, hty⟩ :=
      regionItems_nonterm (r := r) (fun ht => ht hr)
    obtain ⟨j, hj, ho⟩ := parseRegion_obj (by omega) hc
    obtain ⟨a, k, h', j', n1, n2⟩ := parseObj_stream_token ho
    rw [parseObj_stream n1 n2] at ho
    split at ho
    · cases ho
    · rename_i d hd
      split at ho
      · cases ho
      · split at ho
        · cases ho
        · cases ho
          exact h3 ((parse_holds hd (.val (entry_of_lookup hty) .str)).trans (slice_infix _ _ _))
    · cases ho

/-- A malformed file with a stream. -/
example : 93 ∉ b!"%PDF\n1 0 obj << ( >> stream\n endstream endobj xref trailer" ∧
    ¬ b!"/Columns" <:+: b!"%PDF\n1 0 obj << ( >> stream\n endstream endobj xref trailer" ∧
    ¬ b!"/ObjStm" <:+: b!"%PDF\n1 0 obj << ( >> stream\n endstream endobj xref trailer" := by decide

end Pdf
