/-
C84: the structure shown by `overview`.
-/
import Verif.Lemmas.Overview
import Verif.Lemmas.ScanFile
import Verif.Props.C38_Text
import Verif.Props.C59_Files

namespace Pdf
open Spec

/-! ## Revisions -/

/-- The number of revisions of a document grows by one with each commit that has something to write, and with nothing else. -/
theorem C84_commits [Zlib] (d d' : Doc) (o : Op) (h : ops [o] d = .ok d') :
    (o = .commit → changes d ≠ [] → updates d' = updates d + 1) ∧
    (o ≠ .commit ∨ changes d = [] → updates d' = updates d) := by
  rw [updates_eq, updates_eq]
  simp only [ops] at h
  obtain ⟨d1, h1, h⟩ := bind_eq_ok h
  cases h
  cases o with
  | add o =>
    simp only [Op.run] at h1
    rcases ha : addObject d o with x | ⟨d2, n⟩
    · rw [ha] at h1; cases h1
    · rw [ha] at h1; cases h1
      obtain ⟨-, -, rfl⟩ := addObject_inv ha
      simp
  | set n o =>
    obtain ⟨old, -, -, rfl⟩ := updateObject_inv h1
    simp
  | get r =>
    cases h1
    unfold reads
    rcases hg : getObject d r with x | ⟨o, d'⟩
    · simp [reads]
    · simp only [reads]
      rw [getObject_frame hg]
      simp
  | commit =>
    simp only [Op.run] at h1
    rw [commit_count h1]
    by_cases hch : changes d = [] <;> simp [hch]

/-- **C84**, number of revisions: a document made with the functions of the library, without object streams nor xref streams, is
written; `overview` of the file shows as many revisions as the document has.

Missing from the full claim: object streams and xref streams; a last revision that only deletes is not counted
(`C84_deletion_counterexample`). -/
theorem C84_revisions_partial [Zlib] (d d' dl : Doc) (out : Bytes) (h : Made d) (hw : writeFile d = .ok (out, d'))
    (hmin : 100 ≤ out.length) (hmax : out.length < 10 ^ 80) (hl : loads out = .ok dl) (lim : Nat) (s : Structure)
    (m : List (Bytes × ShownText)) (ho : overview lim out = .ok (s, m)) :
    s.revisions + (if dl.curData.eofCut = none then 0 else 1) = updates d' := by
  obtain ⟨F, secs, hf, hn⟩ := made_count h
  obtain ⟨secs', hf', hn'⟩ := filed_write_count hf hn hw
  obtain ⟨sc, l, rfl⟩ := filed_sec hf' hmin
  have hc := loads_count hf'.chain (hf'.ends sc rfl) hmin hmax hl
  unfold overview at ho
  rw [hl] at ho
  simp only [bind, Except.bind] at ho
  obtain ⟨⟨s', d1⟩, h1, ho⟩ := bind_eq_ok ho
  obtain ⟨⟨mm, d2⟩, -, ho⟩ := bind_eq_ok ho
  cases ho
  rw [(structureOf_inv h1).2.1, updates_eq, updates_eq, hc, hn']
  by_cases k : dl.curData.eofCut = none <;> simp [k]

/-! ## Linearized files -/

/-- **C84**, linearized files: in a file that starts with a header of eight bytes, a comment and a dictionary object, `linearized`
tells whether this dictionary has the key `/Linearized`.

Missing from the full claim: files without a comment after the header (`C84_comment_counterexample`), dictionaries laid out otherwise
than the library does. -/
theorem C84_linearized_partial [Zlib] (F ws body rest : Bytes) (c : UInt8) (num gen : Nat) (o : Dict)
    (hws : ∀ x ∈ ws, isSpace x = true) (hb : ∀ x ∈ body, isEol x = false) (hc : isEol c = true)
    (ho : WF false false (.dict o) = true)
    (hF : F.drop 8 = ws ++ b!"%" ++ body ++ [c] ++ natDec num ++ b!" " ++ natDec gen ++ b!" obj\n" ++ ser 0 (.dict o) ++ rest) :
    ∃ r, linearized (.single F) = .ok r ∧ (r.isSome = true ↔ Dict.has o b!"/Linearized" = true) := by
  have hlen : 8 < F.length := by
    refine Classical.byContradiction fun hn => ?_
    rw [List.drop_eq_nil_of_le (by omega)] at hF
    simp at hF
  have hw := ho
  simp only [WF, Bool.and_eq_true, decide_eq_true_eq] at hw
  have h0 : F.drop 8 = ws ++ ((37 :: body) ++ c :: (natDec num ++ 32 :: (natDec gen ++ b!" obj\n" ++ (ser 0 (.dict o) ++ rest)))) := by
    rw [hF]; simp
  have e0 := nextToken_at (tokAt_comment hb hc _) hws h0
  have h1 := drop_add_of (drop_add_of h0)
  have h1' : F.drop (8 + ws.length + (37 :: body).length) =
      [c] ++ (natDec num ++ 32 :: (natDec gen ++ b!" obj\n" ++ (ser 0 (.dict o) ++ rest))) := by
    rw [h1]; simp
  have hcs : ∀ x ∈ [c], isSpace x = true := by
    intro x hx
    simp only [List.mem_singleton] at hx
    subst hx
    simp only [isEol, Bool.or_eq_true, beq_iff_eq] at hc
    rcases hc with rfl | rfl <;> rfl
  have e1 := nextToken_at (tokAt_nat num (c := 32) (by decide) _) hcs h1'
  have h2 := drop_add_of (drop_add_of h1')
  have h2' : F.drop (8 + ws.length + (37 :: body).length + [c].length + (natDec num).length) =
      [32] ++ (natDec gen ++ 32 :: (b!"obj\n" ++ (ser 0 (.dict o) ++ rest))) := by
    rw [h2]; simp
  have e2 := nextToken_at (tokAt_nat gen (c := 32) (by decide) _) (by decide) h2'
  have h3 := drop_add_of (drop_add_of h2')
  have h3' : F.drop (8 + ws.length + (37 :: body).length + [c].length + (natDec num).length + [(32 : UInt8)].length + (natDec gen).length) =
      [32] ++ (b!"obj" ++ 10 :: (ser 0 (.dict o) ++ rest)) := by
    rw [h3]; simp
  have e3 := nextToken_at (tokAt_keyword (s := b!"obj") (by decide) (c := 10) (by decide) _) (by decide) h3'
  have h4 := drop_add_of (drop_add_of h3')
  have h4' : F.drop (8 + ws.length + (37 :: body).length + [c].length + (natDec num).length + [(32 : UInt8)].length + (natDec gen).length +
      [(32 : UInt8)].length + (b!"obj").length) = [10] ++ (ser 0 (.dict o) ++ rest) := by
    rw [h4]; simp
  have ht : TokAt (ser 0 (.dict o)) rest .dict := tokAt_dict 0 (serEntries_dtrans o _ 0 hw.1) _
  have e4 := nextToken_at ht (by decide) h4'
  have hsl := slice_of_drop (drop_add_of h4')
  have hread : (Provider.single F).read 8 (1024 - 8) = .ok (F, 8, 0, min (F.length - 8) 1016) := by
    simp only [Provider.read]
    rw [if_neg (by omega)]
    have : (8 + (F.length : Int)) % (F.length : Int) = 8 := by
      rw [Int.add_emod_right]
      exact Int.emod_eq_of_lt (by omega) (by omega)
    rw [this, if_neg (by omega)]
    rfl
  have hp := parse_ser ho (by simp) 0 [] [] (.inr (.inr (.inl ⟨o, rfl⟩))) (fun _ => by decide)
  simp only [List.nil_append, List.append_nil, List.length_nil] at hp
  refine ⟨if Dict.has (normEntries o).reverse b!"/Linearized" then some (normEntries o).reverse else none, ?_, ?_⟩
  · unfold linearized fifthToken
    rw [hread]
    simp only [bind, Except.bind]
    rw [if_neg (by omega)]
    simp only [show Int.toNat 8 = 8 from rfl, e0, e1, e2, e3, e4, hsl, hp, norm, pure, Except.pure]
  · have := sameOpt_norm ho rfl b!"/Linearized"
    unfold Dict.has
    generalize Dict.get? (normEntries o).reverse b!"/Linearized" = y at this
    cases hy : y <;> cases hx : Dict.get? o b!"/Linearized" <;> simp [hy, hx, SameOpt] at this ⊢

/-! ## Encrypted files -/

/-- **C84**: a document is shown as encrypted when its trailer has an entry `/Encrypt` (that is not empty, null nor false). -/
theorem C84_encrypted [Zlib] (d : Doc) (t : Dict) (ht : view d (.ref 0 0) = .ok (.dict t)) :
    ∃ d', encryptedP.run d = .ok (match Dict.get? t b!"/Encrypt" with | some o => truthy o | none => false, d') := by
  unfold view at ht
  rcases hg : getObject d (.ref 0 0) with e | ⟨o, d'⟩
  · rw [hg] at ht; cases ht
  rw [hg] at ht
  cases ht
  refine ⟨d', ?_⟩
  unfold encryptedP
  rw [Prog.bind_run]
  have : (Prog.fetch (.ref 0 0)).run d = .ok (.dict t, d') := by
    simp [Prog.fetch, Prog.run, hg, bind, Except.bind]
  rw [this]
  simp only [getOr, bind, Except.bind]
  cases Dict.get? t b!"/Encrypt" <;> rfl

/-- **C84**: of an encrypted file, `overview` shows no metadata; otherwise it shows what `metadata` finds. -/
theorem C84_hidden [Zlib] (lim : Nat) (F : Bytes) (s : Structure) (m : List (Bytes × ShownText))
    (h : overview lim F = .ok (s, m)) :
    (s.encrypted = true → ∀ k v, (k, v) ∈ m → v = .nothing ∨ v = .hidden) ∧
    (s.encrypted = false → ∀ k v, (k, v) ∈ m → v ≠ .hidden) := by
  unfold overview at h
  obtain ⟨d, -, h⟩ := bind_eq_ok h
  obtain ⟨⟨s', d1⟩, h1, h⟩ := bind_eq_ok h
  obtain ⟨⟨mm, d2⟩, -, h⟩ := bind_eq_ok h
  cases h
  constructor
  · intro he k v hv
    obtain ⟨⟨k', t⟩, -, e⟩ := List.mem_map.1 hv
    cases e
    cases t with
    | none => exact .inl rfl
    | some t => exact .inr (by simp [showText, he])
  · intro he k v hv
    obtain ⟨⟨k', t⟩, -, e⟩ := List.mem_map.1 hv
    cases e
    cases t with
    | none => simp [showText]
    | some t => simp [showText, he]

/-! ## Paper -/

/-- The sizes of the paper formats, in points. -/
def papers : List (Bytes × Int × Int) :=
  [(b!"US Tabloid", 792, 1224), (b!"US Legal", 612, 1008), (b!"US Letter", 612, 792), (b!"A0", 2384, 3370),
   (b!"A1", 1684, 2384), (b!"A2", 1191, 1684), (b!"A3", 842, 1191), (b!"A4", 595, 842), (b!"A5", 420, 595),
   (b!"A6", 298, 420), (b!"A7", 210, 298), (b!"A8", 147, 210), (b!"A9", 105, 147), (b!"A10", 74, 105)]

theorem paperSizes_eq : paperSizes = papers := by decide +kernel

/-- **C84**, paper: the name of the format whose size is that of the box, wherever its corner is; `unknown` when there is none. -/
theorem C84_paper (a b x y : Int) :
    (∀ t, (t, x, y) ∈ papers → paperName (.list [.int a, .int b, .int (a + x), .int (b + y)]) = .ok t) ∧
    ((∀ t, (t, x, y) ∉ papers) → paperName (.list [.int a, .int b, .int (a + x), .int (b + y)]) = .ok b!"unknown") := by
  have hx : paperName (.list [.int a, .int b, .int (a + x), .int (b + y)]) =
      .ok (papers.foldl (fun ptype t => if t.2 = (x, y) then t.1 else ptype) b!"unknown") := by
    have h1 : a + x - a = x := by omega
    have h2 : b + y - b = y := by omega
    simp [paperName, boxSide, orRaise, bind, Except.bind, pure, Except.pure, h1, h2, paperSizes_eq]
  rw [hx]
  constructor
  · intro t ht
    simp only [papers, List.mem_cons, Prod.mk.injEq, List.not_mem_nil, or_false] at ht
    rcases ht with ⟨rfl, rfl, rfl⟩ | ⟨rfl, rfl, rfl⟩ | ⟨rfl, rfl, rfl⟩ | ⟨rfl, rfl, rfl⟩ | ⟨rfl, rfl, rfl⟩ | ⟨rfl, rfl, rfl⟩ |
      ⟨rfl, rfl, rfl⟩ | ⟨rfl, rfl, rfl⟩ | ⟨rfl, rfl, rfl⟩ | ⟨rfl, rfl, rfl⟩ | ⟨rfl, rfl, rfl⟩ | ⟨rfl, rfl, rfl⟩ | ⟨rfl, rfl, rfl⟩ |
      ⟨rfl, rfl, rfl⟩ <;> rfl
  · intro h
    have key : ∀ (l : List (Bytes × Int × Int)) (p : Bytes), (∀ e ∈ l, e.2 ≠ (x, y)) →
        l.foldl (fun ptype t => if t.2 = (x, y) then t.1 else ptype) p = p := by
      intro l
      induction l with
      | nil => intro p _; rfl
      | cons e l ih =>
        intro p hl
        rw [List.foldl_cons, if_neg (hl e (by simp)), ih _ (fun e he => hl e (by simp [he]))]
    rw [key papers _ (by
      rintro ⟨t, x', y'⟩ he hh
      cases hh
      exact h t he)]

/-- A blank document of each format, written: `overview` shows its format, one page and one revision. -/
theorem C84_blank [Zlib] : ∀ f ∈ papers, (do
    let d ← blank f.2.1 f.2.2
    let (out, _) ← writeFile d
    let (s, _) ← overview 100 out
    return (s.version, s.pages, s.revisions, [s.encrypted, s.hybrid, s.linearized], s.paper)) =
      .ok (b!"1.4", .int 1, 1, [false, false, false], f.1) := by
  intro f hf
  simp only [papers, List.mem_cons, List.not_mem_nil, or_false] at hf
  rcases hf with rfl | rfl | rfl | rfl | rfl | rfl | rfl | rfl | rfl | rfl | rfl | rfl | rfl | rfl <;> kernel_rfl

/-! ## Counterexamples -/

/-- **C84 is false of a last revision that only deletes**: it is not counted. The document has three revisions, the overview of the
file shows two. -/
theorem C84_deletion_counterexample [Zlib] : (do
    let d0 ← blank 595 842
    let d ← ops [.add (.bytes b!"(a)"), .commit, .set 4 .null] d0
    let (out, d') ← writeFile d
    let (s, _) ← overview 100 out
    return (updates d', s.revisions)) = .ok (3, 2) := by
  kernel_rfl

/-- **C84 is false of a hybrid file** with one revision: it is not shown as hybrid. -/
theorem C84_hybrid_counterexample [Zlib] : (loads hybridFile >>= hybrid) = .ok false := by
  kernel_rfl

/-- A file whose second revision is hybrid. -/
def hybridUpdateFile : Bytes :=
  b!"%PDF-1.4\n1 0 obj\n<< /Type /Catalog >>\nendobj\nxref\n0 2\n0000000000 65535 f\n0000000009 00000 n\n" ++
  b!"trailer\n<< /Root 1 0 R /Size 2 >>\nstartxref\n45\n%%EOF\n" ++
  b!"2 0 obj\n12\nendobj\n3 0 obj\n<< /Type /XRef /Size 4 /Root 1 0 R /W [ 1 2 1 ] /Index [ 2 1 ] " ++
  b!"/Filter /ASCIIHexDecode /Length 8 >>\nstream\n01009100\nendstream\nendobj\n" ++
  b!"xref\n0 1\n0000000000 65535 f\n" ++
  b!"trailer\n<< /Root 1 0 R /Size 4 /Prev 45 /XRefStm 163 >>\nstartxref\n304\n%%EOF\n"

/-- It is shown as hybrid. -/
example [Zlib] : (loads hybridUpdateFile >>= hybrid) = .ok true := by
  kernel_rfl

/-- A linearized file whose header is not followed by a comment. -/
def linFile (comment : Bytes) : Bytes :=
  b!"%PDF-1.4\n" ++ comment ++ b!"1 0 obj\n<< /Linearized 1 /L 54567 >>\nendobj\n"

/-- **C84 is false of a linearized file without a comment** after the header. With it, the file is shown as linearized. -/
theorem C84_comment_counterexample [Zlib] :
    (linearized (.single (linFile []))).map Option.isSome = .ok false ∧
    (linearized (.single (linFile [37, 226, 227, 207, 211, 10]))).map Option.isSome = .ok true := by
  constructor <;> kernel_rfl

/-- A page in landscape has no known format. -/
example : paperName (.list [.int 0, .int 0, .int 842, .int 595]) = .ok b!"unknown" := by decide +kernel

/-! ## Samples -/

/-- The hypotheses of `C84_revisions_partial` are met: a document written after two commits, whose file shows three revisions. -/
example [Zlib] : (do
    let d0 ← blank 595 842
    let d ← ops [.add (.bytes b!"(a)"), .get (.ref 0 1), .commit, .add (.int 7), .set 4 .null] d0
    let (out, d') ← writeFile d
    let dl ← loads out
    let (s, _) ← overview 100 out
    return (decide (100 ≤ out.length ∧ out.length < 10 ^ 80), decide (dl.curData.eofCut = none), s.revisions, updates d')) =
      .ok (true, true, 3, 3) := by
  kernel_rfl

/-- The hypotheses of `C84_linearized_partial` are met by the linearized file with a comment. -/
example : (linFile [37, 226, 227, 207, 211, 10]).drop 8 = b!"\n" ++ b!"%" ++ [226, 227, 207, 211] ++ [10] ++ natDec 1 ++ b!" " ++ natDec 0 ++
    b!" obj\n" ++ ser 0 (.dict [(b!"/Linearized", .int 1), (b!"/L", .int 54567)]) ++ b!"\nendobj\n" := by
  decide +kernel

/-- An encrypted file with a title and no author. -/
example [Zlib] : (do
    let (out, _) ← writeFile (memDoc
      [.dict [(b!"/Root", .ref 0 1), (b!"/Info", .dict [(b!"/Title", .bytes b!"(a)")]), (b!"/Encrypt", .ref 0 4)],
       .dict [(b!"/Type", .str b!"/Catalog"), (b!"/Pages", .ref 0 2)],
       .dict [(b!"/Type", .str b!"/Pages"), (b!"/Kids", .list [.ref 0 3]), (b!"/Count", .int 1)],
       .dict [(b!"/Type", .str b!"/Page"), (b!"/Parent", .ref 0 2), (b!"/MediaBox", .list [.int 0, .int 0, .int 595, .int 842])],
       .dict [(b!"/Filter", .str b!"/Standard")]])
    let (s, m) ← overview 100 out
    return (s.encrypted, m.take 2)) = .ok (true, [(b!"Title", .hidden), (b!"Author", .nothing)]) := by
  kernel_rfl

end Pdf
