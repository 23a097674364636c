/-
C111: what the commands of the command line do to the files and to the standard output.
-/
import Verif.Model.Cli
import Verif.Lemmas.Leak
import Verif.Lemmas.KernelRfl
import Verif.Props.C49_Provider

namespace Pdf
open Spec Spec.PageTree

/-! ### Lemmas -/

theorem report_cases (F : Option Bytes) (f : Bytes → Py Printed) (w : World) :
    (∃ e, report F f w = (.error e, w)) ∨ ∃ B p, F = some B ∧ f B = .ok p ∧ report F f w = (.ok (), w.print p) := by
  unfold report
  cases F with
  | none => exact .inl ⟨_, rfl⟩
  | some F =>
    simp only
    split
    · exact .inl ⟨_, rfl⟩
    · rename_i p h
      exact .inr ⟨F, p, rfl, h, rfl⟩

theorem report_failed {F : Option Bytes} {f : Bytes → Py Printed} {w : World} {e : CmdErr} (h : (report F f w).1 = .error e) :
    (report F f w).2 = w := by
  rcases report_cases F f w with ⟨e', h1⟩ | ⟨B, p, -, -, h1⟩
  · rw [h1]
  · rw [h1] at h; cases h

theorem report_files (F : Option Bytes) (f : Bytes → Py Printed) (w : World) : (report F f w).2.files = w.files := by
  rcases report_cases F f w with ⟨e, h⟩ | ⟨_, p, _, _, h⟩
  · rw [h]
  · rw [h]; rfl

theorem printPages_files [Zlib] (lim : Nat) : ∀ (is : List Nat) (J : Dict) (d : Doc) (w : World),
    (printPages lim is J d w).2.files = w.files
  | [], _, _, _ => rfl
  | i :: is, J, d, w => by
    unfold printPages
    split
    · rfl
    · rw [printPages_files]; rfl

theorem spatial_files [Zlib] (lim : Nat) (F : Option Bytes) (w : World) : (spatial lim F w).2.files = w.files := by
  unfold spatial
  split
  · rfl
  · split
    · rfl
    · exact printPages_files _ _ _ _ _

/-- What `compress_file` does. -/
theorem compressFile_cases [Zlib] (F : Option Bytes) (output : Option Bytes) (w : World) :
    (∃ e, compressFile F output w = (.error e, w)) ∨
    ∃ B d dc dw b, F = some B ∧ loads B = .ok d ∧ compress d = .ok dc ∧ writeFile dc = .ok (b, dw) ∧
      ((output = none ∨ output = some []) ∧ compressFile F output w = (.ok (), w.print (.bytes b)) ∨
       ∃ name, output = some name ∧ name ≠ [] ∧ w.writable name = true ∧
         compressFile F output w = (.ok (), w.write name b)) := by
  unfold compressFile
  cases F with
  | none => exact .inl ⟨_, rfl⟩
  | some B =>
    simp only
    split
    · exact .inl ⟨_, rfl⟩
    · rename_i b dw h
      obtain ⟨d, h1, h⟩ := bind_eq_ok h
      obtain ⟨dc, h2, h⟩ := bind_eq_ok h
      unfold deliver
      split
      · exact .inr ⟨B, d, dc, dw, b, rfl, h1, h2, h, .inl ⟨.inl rfl, rfl⟩⟩
      · exact .inr ⟨B, d, dc, dw, b, rfl, h1, h2, h, .inl ⟨.inr rfl, rfl⟩⟩
      · rename_i name hn
        split
        · rename_i hw
          exact .inr ⟨B, d, dc, dw, b, rfl, h1, h2, h, .inr ⟨name, rfl, fun h => hn (by rw [h]), hw, rfl⟩⟩
        · exact .inl ⟨_, rfl⟩

/-! ### C111 -/

/-- **C111, files.** Whatever the files are and whatever the command is, the only file that it can change is the one that
`-o` of `compress` names, and it changes it only when it ends without an exception. -/
theorem C111_files [Zlib] [FloatText] (lim : Nat) (pct : Nat → Nat → Bytes) (c : Command) (input : Bytes) (output : Option Bytes)
    (w : World) (name : Bytes) (h : (runCommand lim pct c input output w).2.files name ≠ w.files name) :
    c = .compress ∧ output = some name ∧ (runCommand lim pct c input output w).1 = .ok () := by
  cases c
  case compress =>
    rcases compressFile_cases (w.files input) output w with ⟨e, h1⟩ | ⟨B, d, dc, dw, b, -, -, -, -, h1 | h1⟩
    · exact absurd (by show (compressFile _ _ w).2.files name = _; rw [h1]) h
    · exact absurd (by show (compressFile _ _ w).2.files name = _; rw [h1.2]; rfl) h
    · obtain ⟨nm, h2, -, -, h3⟩ := h1
      have h4 : runCommand lim pct .compress input output w = (.ok (), w.write nm b) := h3
      rw [h4] at h ⊢
      by_cases hn : name = nm
      · subst hn
        exact ⟨rfl, h2, rfl⟩
      · refine absurd ?_ h
        show (if name = nm then some b else w.files name) = _
        rw [if_neg hn]
  case text => exact absurd (congrFun (spatial_files _ _ _) _) h
  all_goals exact absurd (congrFun (report_files _ _ _) _) h

/-- **C111, failures.** A command that raises leaves the files and the standard output as they were, except `text`, which
may have printed. -/
theorem C111_failed [Zlib] [FloatText] (lim : Nat) (pct : Nat → Nat → Bytes) (c : Command) (input : Bytes) (output : Option Bytes)
    (w : World) (e : CmdErr) (h : (runCommand lim pct c input output w).1 = .error e) (hc : c ≠ .text) :
    (runCommand lim pct c input output w).2 = w := by
  cases c
  case text => exact absurd rfl hc
  case compress =>
    rcases compressFile_cases (w.files input) output w with ⟨e, h1⟩ | ⟨B, d, dc, dw, b, -, -, -, -, h1 | h1⟩
    · show (compressFile _ _ w).2 = w
      rw [h1]
    · have h2 : (compressFile (w.files input) output w).1 = .error e := h
      rw [h1.2] at h2; cases h2
    · obtain ⟨nm, -, -, -, h3⟩ := h1
      have h2 : (compressFile (w.files input) output w).1 = .error e := h
      rw [h3] at h2; cases h2
  all_goals exact report_failed h

/-- **C111, compress.** When `compress` ends without an exception, the bytes are those of the compressed document; they are in
the file that `-o` names, the other files and the standard output being the same; without a name (or with an empty one)
the very same bytes go to the standard output. -/
theorem C111_compress [Zlib] [FloatText] (lim : Nat) (pct : Nat → Nat → Bytes) (input : Bytes) (output : Option Bytes) (w : World)
    (h : (runCommand lim pct .compress input output w).1 = .ok ()) :
    ∃ B d dc dw b, w.files input = some B ∧ loads B = .ok d ∧ compress d = .ok dc ∧ writeFile dc = .ok (b, dw) ∧
      (∀ name, output = some name → name ≠ [] →
        (runCommand lim pct .compress input output w).2.files name = some b ∧
        (∀ n, n ≠ name → (runCommand lim pct .compress input output w).2.files n = w.files n) ∧
        (runCommand lim pct .compress input output w).2.out = w.out) ∧
      (output = none ∨ output = some [] →
        (runCommand lim pct .compress input output w).2.files = w.files ∧
        (runCommand lim pct .compress input output w).2.out = w.out ++ [.bytes b]) := by
  rcases compressFile_cases (w.files input) output w with ⟨e, h1⟩ | ⟨B, d, dc, dw, b, k1, k2, k3, k4, h1 | h1⟩
  · have h2 : (compressFile (w.files input) output w).1 = .ok () := h
    rw [h1] at h2; cases h2
  · have h4 : runCommand lim pct .compress input output w = (.ok (), w.print (.bytes b)) := h1.2
    rw [h4]
    refine ⟨B, d, dc, dw, b, k1, k2, k3, k4, ?_, fun _ => ⟨rfl, rfl⟩⟩
    intro name hn hne
    rcases h1.1 with h5 | h5 <;> rw [hn] at h5 <;> cases h5
    exact absurd rfl hne
  · obtain ⟨nm, h2, hne, -, h3⟩ := h1
    have h4 : runCommand lim pct .compress input output w = (.ok (), w.write nm b) := h3
    rw [h4]
    refine ⟨B, d, dc, dw, b, k1, k2, k3, k4, ?_, ?_⟩
    · intro name hn _
      rw [h2] at hn
      cases hn
      refine ⟨?_, ?_, rfl⟩
      · show (if nm = nm then some b else w.files nm) = _
        rw [if_pos rfl]
      · intro n hn
        show (if n = nm then some b else w.files n) = _
        rw [if_neg hn]
    · rintro (h5 | h5) <;> rw [h2] at h5 <;> cases h5
      exact absurd rfl hne

/-- **C111, when `compress` succeeds.** Conversely, with a document that can be compressed and a file that can be opened for
writing, or no name, the command ends without an exception: the bytes are delivered. -/
theorem C111_compress_total [Zlib] [FloatText] (lim : Nat) (pct : Nat → Nat → Bytes) (input : Bytes) (output : Option Bytes)
    (w : World) {B b : Bytes} {d dc dw : Doc} (h1 : w.files input = some B) (h2 : loads B = .ok d) (h3 : compress d = .ok dc)
    (h4 : writeFile dc = .ok (b, dw)) (h5 : ∀ name, output = some name → name ≠ [] → w.writable name = true) :
    (runCommand lim pct .compress input output w).1 = .ok () := by
  have he : (do let doc ← loads B; let doc ← compress doc; writeFile doc : Py (Bytes × Doc)) = .ok (b, dw) := by
    simp only [bind, Except.bind, h2, h3, h4]
  show (compressFile (w.files input) output w).1 = _
  unfold compressFile
  rw [h1]
  simp only
  rw [he]
  simp only
  unfold deliver
  split
  · rfl
  · rfl
  · rename_i name hn
    rw [if_pos (h5 name rfl fun h => hn (by rw [h]))]

/-- **C111, reports.** The commands other than `text` and `compress` print once, after they have computed everything. -/
theorem C111_reports [Zlib] [FloatText] (lim : Nat) (pct : Nat → Nat → Bytes) (c : Command) (input : Bytes) (output : Option Bytes)
    (w : World) (h1 : c ≠ .text) (h2 : c ≠ .compress) (h : (runCommand lim pct c input output w).1 = .ok ()) :
    ∃ F p, w.files input = some F ∧ (runCommand lim pct c input output w).2.out = w.out ++ [p] ∧
      match c with
      | .browse => ∃ html, browse lim input F = .ok html ∧ p = .html html
      | .disasm => ∃ l, dumpDisasm pct F = .ok l ∧ p = .lines l
      | .overview => ∃ s m, overview lim F = .ok (s, m) ∧ p = .info s m
      | .fonts => ∃ d l, loads F = .ok d ∧ printFonts lim [] d = .ok l ∧ p = .lines l
      | .hexdump => ∃ b, hexdump (.single F) none none = .ok b ∧ p = .bytes b
      | _ => False := by
  have key : ∀ f : Bytes → Py Printed, runCommand lim pct c input output w = report (w.files input) f w →
      ∃ F p, w.files input = some F ∧ (runCommand lim pct c input output w).2.out = w.out ++ [p] ∧ f F = .ok p := by
    intro f hf
    rw [hf] at h ⊢
    rcases report_cases (w.files input) f w with ⟨e', k1⟩ | ⟨B, p, k1, k2, k3⟩
    · rw [k1] at h; cases h
    · rw [k3]
      exact ⟨B, p, k1, rfl, k2⟩
  cases c
  case text => exact absurd rfl h1
  case compress => exact absurd rfl h2
  case browse =>
    obtain ⟨F, p, k1, k2, k3⟩ := key _ rfl
    obtain ⟨x, k4, k3⟩ := bind_eq_ok k3
    cases k3
    exact ⟨F, _, k1, k2, x, k4, rfl⟩
  case disasm =>
    obtain ⟨F, p, k1, k2, k3⟩ := key _ rfl
    obtain ⟨x, k4, k3⟩ := bind_eq_ok k3
    cases k3
    exact ⟨F, _, k1, k2, x, k4, rfl⟩
  case overview =>
    obtain ⟨F, p, k1, k2, k3⟩ := key _ rfl
    obtain ⟨⟨s, m⟩, k4, k3⟩ := bind_eq_ok k3
    cases k3
    exact ⟨F, _, k1, k2, s, m, k4, rfl⟩
  case fonts =>
    obtain ⟨F, p, k1, k2, k3⟩ := key _ rfl
    obtain ⟨d, k4, k3⟩ := bind_eq_ok k3
    obtain ⟨x, k5, k3⟩ := bind_eq_ok k3
    cases k3
    exact ⟨F, _, k1, k2, d, x, k4, k5, rfl⟩
  case hexdump =>
    obtain ⟨F, p, k1, k2, k3⟩ := key _ rfl
    obtain ⟨x, k4, k3⟩ := bind_eq_ok k3
    cases k3
    exact ⟨F, _, k1, k2, x, k4, rfl⟩

/-- **C111, hexdump.** The command on a file that is not empty succeeds, and the file can be read back from what it prints. -/
theorem C111_hexdump_partial [Zlib] [FloatText] (lim : Nat) (pct : Nat → Nat → Bytes) (input : Bytes) (output : Option Bytes)
    (w : World) {F : Bytes} (hF : w.files input = some F) (hne : F ≠ []) :
    ∃ t, runCommand lim pct .hexdump input output w = (.ok (), w.print (.bytes t)) ∧
      ((Spec.lines t).map Spec.readHexLine).flatMap Prod.snd = F := by
  obtain ⟨t, h1, -, h2⟩ := C52_hexdump_partial F hne
  refine ⟨t, ?_, h2⟩
  show report (w.files input) _ w = _
  unfold report
  rw [hF]
  simp only [h1, bind, Except.bind]

/-- The loop over the pages. -/
theorem printPages_spec [Zlib] {d : Doc} (hc : Coherent d) (lim : Nat) (n : Nat) : ∀ (k i : Nat) (J : Dict) (d' : Doc) (w : World),
    i + k = n → Coherent d' → storeOf d' = storeOf d →
    ∃ texts : List Str, (printPages lim (List.range' i k) J d' w).2 = { w with out := w.out ++ texts.map .text } ∧
      (∀ j s, texts[j]? = some s → ((extractPageText lim [] ((i + j : Nat) : Int)).run d).map (fun r => r.1.1) = .ok s) ∧
      match (printPages lim (List.range' i k) J d' w).1 with
      | .ok _ => texts.length = k
      | .error x => texts.length < k ∧ ∃ e, x = .raised e ∧
          (extractPageText lim [] ((i + texts.length : Nat) : Int)).run d = .error e
  | 0, i, J, d', w, _, _, _ => ⟨[], by simp [printPages], by simp, rfl⟩
  | k + 1, i, J, d', w, hn, hc', hs => by
    rw [List.range'_succ]
    unfold printPages
    rcases extract_same hc hc' hs lim [] J (i : Int) with ⟨e, h1, h2⟩ | ⟨t, K, K', d1, d2, h1, h2, h3, h4⟩
    · rw [h2]
      exact ⟨[], by simp, by simp, by simp, e, rfl, h1⟩
    · rw [h2]
      simp only
      obtain ⟨texts, k1, k2, k3⟩ := printPages_spec hc lim n k (i + 1) K' d2 (w.print (.text t)) (by omega) h3 h4
      refine ⟨t :: texts, ?_, ?_, ?_⟩
      · rw [k1]
        simp [World.print]
      · intro j s hj
        cases j with
        | zero =>
          simp only [List.getElem?_cons_zero, Option.some.injEq] at hj
          subst hj
          show ((extractPageText lim [] (i : Int)).run d).map _ = _
          rw [h1]; rfl
        | succ j =>
          have := k2 j s (by simpa using hj)
          rwa [show i + 1 + j = i + (j + 1) by omega] at this
      · revert k3
        cases (printPages lim (List.range' (i + 1) k) K' d2 (w.print (.text t))).1 with
        | ok _ =>
          intro k3
          simp only [List.length_cons] at k3 ⊢
          omega
        | error x =>
          rintro ⟨k3, e, k4, k5⟩
          refine ⟨?_, e, k4, ?_⟩
          · simp only [List.length_cons]; omega
          · rw [← k5, show i + 1 + texts.length = i + (t :: texts).length by simp; omega]

/-- **C111, text.** On a file that loads, with object streams that agree with the index (`Coherent`), `text` prints the text of
the pages in order. Each is the text that `extract_page_text` gives on the document as it was loaded, whatever was printed
before. If a page cannot be laid out, the pages before it are printed, and nothing else. -/
theorem C111_text_partial [Zlib] [FloatText] (lim : Nat) (pct : Nat → Nat → Bytes) (input : Bytes) (output : Option Bytes)
    (w : World) {F : Bytes} {d : Doc} (hF : w.files input = some F) (hd : loads F = .ok d) (hc : Coherent d) :
    ∃ texts : List Str,
      (runCommand lim pct .text input output w).2 = { w with out := w.out ++ texts.map .text } ∧
      (∀ (j : Nat) s, texts[j]? = some s → ((extractPageText lim [] (j : Int)).run d).map (fun r => r.1.1) = .ok s) ∧
      match (runCommand lim pct .text input output w).1 with
      | .ok _ => ((pagesP lim [] none).run d).map (fun r => r.1.1.length) = .ok texts.length
      | .error x => ∃ e, x = .raised e ∧
          ((pagesP lim [] none).run d = .error e ∧ texts = [] ∨
           (extractPageText lim [] (texts.length : Int)).run d = .error e ∧
           ∃ n, ((pagesP lim [] none).run d).map (fun r => r.1.1.length) = .ok n ∧ texts.length < n) := by
  show ∃ texts : List Str, (spatial lim (w.files input) w).2 = _ ∧ _ ∧
    match (spatial lim (w.files input) w).1 with
    | .ok _ => _
    | .error x => _
  unfold spatial
  rw [hF]
  simp only [hd, bind, Except.bind]
  have hro := run_readOnly (readOnly_pagesP lim [] none) hc
  revert hro
  cases eval (pagesP lim [] none) (storeOf d) with
  | error e =>
    intro hro
    simp only at hro
    rw [hro]
    exact ⟨[], by simp, by simp, e, rfl, .inl ⟨rfl, rfl⟩⟩
  | ok r =>
    obtain ⟨⟨l, J⟩, s⟩ := r
    rintro ⟨-, d', h1, h2, h3, -⟩
    rw [h1]
    simp only
    obtain ⟨texts, k1, k2, k3⟩ := printPages_spec hc lim l.length l.length 0 J d' w (by omega) h2 h3
    rw [← List.range_eq_range'] at k1 k3
    refine ⟨texts, k1, ?_, ?_⟩
    · intro j s hj
      have := k2 j s hj
      rwa [Nat.zero_add] at this
    · revert k3
      cases (printPages lim (List.range l.length) J d' w).1 with
      | ok _ =>
        intro k3
        show Except.ok l.length = Except.ok texts.length
        rw [k3]
      | error x =>
        rintro ⟨k3, e, k4, k5⟩
        rw [Nat.zero_add] at k5
        exact ⟨e, k4, .inr ⟨k5, l.length, rfl, k3⟩⟩

/-- **C111, text of a file that cannot be read.** Nothing is printed. -/
theorem C111_text_unread [Zlib] [FloatText] (lim : Nat) (pct : Nat → Nat → Bytes) (input : Bytes) (output : Option Bytes)
    (w : World) (h : ∀ F d, w.files input = some F → loads F ≠ .ok d) :
    (∃ e, (runCommand lim pct .text input output w).1 = .error e) ∧ (runCommand lim pct .text input output w).2 = w := by
  show (∃ e, (spatial lim (w.files input) w).1 = .error e) ∧ (spatial lim (w.files input) w).2 = w
  unfold spatial
  cases hF : w.files input with
  | none => exact ⟨⟨_, rfl⟩, rfl⟩
  | some F =>
    cases hd : loads F with
    | error e => simp only [bind, Except.bind, hd]; exact ⟨⟨_, rfl⟩, trivial⟩
    | ok d => exact absurd hd (h F d hF)

/-- **`pprint_page_contents` never prints a content**: on every page that has at least one content stream it raises NameError,
as it calls a function that does not exist, and nothing is printed. -/
theorem C111_pprint_counterexample [Zlib] {d : Doc} (hc : Coherent d) {t : PageTree} (ht : IsRoot (storeOf d) t) {lim : Nat}
    (hl : depth t ≤ lim) (leak : Dict) {p : Int} {j : Nat} {b : Ref × Dict × List Dict}
    (hp : Position (leaves [] t).length p j) (hb : (leaves [] t)[j]? = some b) {c : Obj} {sts : List Obj}
    (hk : Dict.get? b.2.1 b!"/Contents" = some c) (hs : Contents (storeOf d) c sts) (hne : sts ≠ []) (w : World) :
    pprintPageContents lim leak p d w = (.error .undefinedName, w) := by
  obtain ⟨J, d', h, -⟩ := C77_contents_partial hc ht hl leak hp hb hk hs
  unfold pprintPageContents
  rw [h]
  cases sts with
  | nil => exact absurd rfl hne
  | cons a l => rfl

/-! ### Samples -/

/-- Two pages; the second has no resources of its own. -/
def twoPagesFile : Bytes := b!"%PDF-1.4\n1 0 obj\n<</Type/Catalog/Pages 2 0 R>>\nendobj\n2 0 obj\n<</Type/Pages/Count 2/Kids[3 0 R 7 0 R]>>\nendobj\n3 0 obj\n<</Type/Page/Parent 2 0 R/Resources<</Font<</F1 4 0 R>>>>/Contents 5 0 R>>\nendobj\n4 0 obj\n<</Type/Font/Subtype/Type1/BaseFont/Helvetica/FirstChar 72/Widths 6 0 R/Encoding/WinAnsiEncoding>>\nendobj\n5 0 obj\n<</Length 33>>\nstream\nBT /F1 10 Tf 72 700 Td (HI) Tj ET\nendstream\nendobj\n6 0 obj\n[722 278]\nendobj\n7 0 obj\n<</Type/Page/Parent 2 0 R/Contents 5 0 R>>\nendobj\nxref\n0 8\n0000000000 65535 f \n0000000009 00000 n \n0000000054 00000 n \n0000000111 00000 n \n0000000201 00000 n \n0000000315 00000 n \n0000000396 00000 n \n0000000421 00000 n \ntrailer\n<</Root 1 0 R/Size 8>>\nstartxref\n479\n%%EOF\n"

@[reducible] def noFloat : FloatText := ⟨fun _ _ => [], by intro _ _ c h; cases h⟩
@[reducible] def plainZlib : Zlib := ⟨id, some⟩

def sampleWorld : World :=
  { files := fun n => if n = b!"a.pdf" then some twoPagesFile else none, writable := fun n => n = b!"b.pdf", out := [] }

/-- The texts that were printed. -/
def textsOf (w : World) : List (Option Str) := w.out.map fun
  | .text s => some s
  | _ => none

/-- `text` prints the first page, then raises KeyError on the second. -/
example : letI := plainZlib; letI := noFloat
    (runCommand 1000 (fun _ _ => []) .text b!"a.pdf" none sampleWorld).1 = .error (.raised .keyError) ∧
    textsOf (runCommand 1000 (fun _ _ => []) .text b!"a.pdf" none sampleWorld).2 = [some ("HI\n".toList.map Char.toNat)] := by
  refine ⟨?_, ?_⟩ <;> kernel_rfl

/-- The hypotheses of `C111_text_partial` hold of the sample. -/
example : letI := plainZlib
    ∃ d, sampleWorld.files b!"a.pdf" = some twoPagesFile ∧ loads twoPagesFile = .ok d ∧ Coherent d := by
  let := plainZlib
  have h : ((loads twoPagesFile).map fun d => d.cur.all fun
      | .one e => e.envNum = none
      | _ => true) = .ok true := by kernel_rfl
  cases hd : loads twoPagesFile with
  | error e => rw [hd] at h; cases h
  | ok d =>
    rw [hd] at h
    simp only [Except.map, Except.ok.injEq] at h
    refine ⟨d, rfl, rfl, ?_⟩
    intro n e c _ hn _ he
    have := List.all_eq_true.1 h _ (List.mem_of_getElem? hn)
    simp [he] at this

/-- `compress` of the sample: to a file, to the standard output, and to a file that cannot be opened. -/
example : letI := plainZlib; letI := noFloat
    let go (o : Option Bytes) := runCommand 1000 (fun _ _ => []) .compress b!"a.pdf" o sampleWorld
    (go (some b!"b.pdf")).1 = .ok () ∧ ((go (some b!"b.pdf")).2.files b!"b.pdf").map (fun b => b.take 8) = some b!"%PDF-1.5" ∧
    ((go (some b!"b.pdf")).2.files b!"a.pdf").isSome = true ∧ (go (some b!"b.pdf")).2.out.length = 0 ∧
    (go none).1 = .ok () ∧ (go none).2.out.length = 1 ∧ ((go none).2.files b!"b.pdf").isSome = false ∧
    (go (some b!"c.pdf")).1 = .error .cannotOpen := by
  refine ⟨?_, ?_, ?_, ?_, ?_, ?_, ?_, ?_⟩ <;> kernel_rfl

/-- A file that does not exist. -/
example [Zlib] [FloatText] : (runCommand 1000 (fun _ _ => []) .overview b!"z.pdf" none sampleWorld).1 = .error .cannotOpen := rfl

end Pdf
