/-
C98: every text of an object is read as this object.
-/
import Verif.Lemmas.SpellStream
import Verif.Lemmas.KernelRfl

namespace Pdf
open Spec

instance (c : UInt8) : Decidable (Ends c) := inferInstanceAs (Decidable (_ ∨ _))

instance (ds : Bytes) : Decidable (Digits ds) := inferInstanceAs (Decidable (∀ c ∈ ds, c ∈ b!"0123456789"))

/-- **C98, texts of objects.** Whatever the way an object is written (white space or comments between the tokens or none where
none is needed, signs, leading and final zeros, end of lines around the data of streams), and wherever, the parser gives this object.

Missing from the full claim: the restrictions stated in `Spells` (comments, strings and arrays: the counterexamples below and
`C01_angle_counterexample`, `C01_bracket_counterexample`), and a reference alone at the top (`C01_bare_ref_counterexample`). -/
theorem C98_parse_partial [Zlib] (o : Obj) (s pre post : Bytes) (h : SpellsTop o s)
    (hpost : selfEnded o = true ∨ ∃ c r, post = c :: r ∧ Ends c) (hns : (∃ d, o = .dict d) → NoStreamNext post) :
    ∃ v, parseObj (pre ++ (s ++ post)) pre.length = .ok v ∧ pyEq o v = true := by
  refine ⟨normTop o, ?_, pyEq_normTop h⟩
  have hpost' : selfEnded o = true ∨ ∃ c r, post = c :: r ∧ isBreak c = true := by
    rcases hpost with h | ⟨c, r, e, h⟩
    · exact .inl h
    · exact .inr ⟨c, r, e, isBreak_of_ends h⟩
  cases h with
  | obj h hr =>
    have := parse_spells h hr pre post hpost' hns
    cases o with
    | stream => cases h
    | _ => exact this
  | stream h hws ht hdec => exact parse_spells_stream h hws ht hdec pre post

/-- **C98, two texts.** Two texts of the same object are read as equal objects: how it is written makes no difference. -/
theorem C98_same_partial [Zlib] (o : Obj) (s s' pre pre' post post' : Bytes) (h : SpellsTop o s) (h' : SpellsTop o s')
    (hpost : ∃ c r, post = c :: r ∧ Ends c) (hpost' : ∃ c r, post' = c :: r ∧ Ends c)
    (hns : NoStreamNext post) (hns' : NoStreamNext post') :
    ∃ v, parseObj (pre ++ (s ++ post)) pre.length = .ok v ∧ parseObj (pre' ++ (s' ++ post')) pre'.length = .ok v := by
  obtain ⟨c, r, e, hc⟩ := hpost
  obtain ⟨c', r', e', hc'⟩ := hpost'
  exact ⟨normTop o, parse_top h pre post (.inr ⟨c, r, e, isBreak_of_ends hc⟩) hns,
    parse_top h' pre' post' (.inr ⟨c', r', e', isBreak_of_ends hc'⟩) hns'⟩

theorem indirectText_top [Zlib] {num gen : Nat} {o : Obj} {s : Bytes} (h : IndirectText num gen o s) : 0 < s.length ∧ ∃ v, SpellsTop o v := by
  obtain ⟨n, g, w1, w2, w3, v, w4, e, -, -, hv, -⟩ := h
  refine ⟨?_, v, hv⟩
  rw [e]
  simp only [List.length_append, List.length_cons]
  omega

theorem readEntry_after [Zlib] {F pre s : Bytes} {e : Entry} {next : Int} (hF : F = pre ++ s) (hs : 0 < s.length)
    (hp : e.absPos = some (.at pre.length)) (hn : e.absNext = some next) : readEntry (.single F) e = .ok (F, pre.length) := by
  unfold readEntry
  have hlen : F.length = pre.length + s.length := by rw [hF, List.length_append]
  have hne : ¬ F.length = 0 := by omega
  have hmod : ((pre.length : Int) + (F.length : Int)) % (F.length : Int) = pre.length := by
    rw [Int.add_emod_right, Int.emod_eq_of_lt (by omega) (by omega)]
  simp only [hp, hn, orRaise, bind, Except.bind, Provider.read, if_neg hne, hmod]
  rw [if_neg (by omega)]
  rfl

/-- **C98, indirect objects.** At a position of the index where there is a text of an indirect object, the library reads this
object, whatever follows. -/
theorem C98_indirect_partial [Zlib] (F pre s post : Bytes) (num gen : Nat) (o : Obj) (e : Entry) (next : Int)
    (h : IndirectText num gen o s) (hF : F = pre ++ (s ++ post)) (hp : e.absPos = some (.at pre.length)) (hn : e.absNext = some next) :
    ∃ v, parseIndirect (.single F) e = .ok v ∧ pyEq o v = true := by
  obtain ⟨hs, v, hv⟩ := indirectText_top h
  refine ⟨normTop o, ?_, pyEq_normTop hv⟩
  have hread : readEntry (.single F) e = .ok (F, pre.length) :=
    readEntry_after hF (by rw [List.length_append]; omega) hp hn
  unfold parseIndirect
  rw [hread]
  simp only [bind, Except.bind]
  have hd : F.drop pre.length = s ++ post := by rw [hF, List.drop_left]
  exact parse_indirectText h hd

/-! ### Texts -/

theorem white_gap {inD inA : Bool} : ∀ {g : Bytes}, (∀ c ∈ g, c ∈ white) → Gap inD inA g
  | [], _ => .nil
  | c :: _, h => .white (h c (by simp)) (white_gap fun x hx => h x (by simp [hx]))

/-- A dictionary without white space, with a hexadecimal string before its end. -/
example : Spells false false (.dict [(b!"/A", .bytes b!"<AB>")]) b!"<</A<AB>>>" := by
  have h1 : SpellsAll true false (inLine [(b!"/A", .bytes b!"<AB>")]) (b!"/A<AB>") :=
    .cons (g := []) .nil (.name (s := b!"/A") (by decide))
      (.cons (g := []) .nil (.hex (s := b!"<AB>") (by decide)) (.nil .nil) (.inl rfl)) (.inr (.inr ⟨_, _, rfl, by decide⟩))
  exact .dict h1 (by decide) (by decide)

example [Zlib] : parseObj b!"<</A<AB>>>" 0 = .ok (.dict [(b!"/A", .bytes b!"<AB>")]) := by kernel_rfl

/-- An array with a comment, a sign, leading zeros, a real number without a digit before the point, and a reference. -/
example : Spells false false (.list [.int 7, .real false 0 b!"5", .ref 0 3]) b!"[% one\n+007 .50\r3 0 R]" := by
  have h1 : SpellsAll false true [.int 7, .real false 0 b!"5", .ref 0 3] b!"% one\n+007 .50\r3 0 R" :=
    .cons (g := b!"% one\n") (s := b!"+007") (t := b!" .50\r3 0 R")
      (.comment (body := b!" one") (g := []) (e := 10) (by decide) (by decide) (by decide) (.inl rfl) .nil)
      (.int ⟨b!"+", false, b!"007", rfl, .plus, by decide, by decide, by decide⟩)
      (.cons (g := b!" ") (s := b!".50") (t := b!"\r3 0 R") (white_gap (by decide))
        (.real ⟨[], [], b!"50", 1, rfl, .none, by decide, by decide, .inr (by decide), by decide, rfl, by decide⟩)
        (.cons (g := b!"\r") (s := b!"3 0 R") (t := []) (white_gap (by decide))
          (.ref (s := b!"3") (t := b!"0") (g := b!" ") (g' := b!" ") (n := 3) (m := 0)
            ⟨[], false, b!"3", rfl, .none, by decide, by decide, by decide⟩
            ⟨[], false, b!"0", rfl, .none, by decide, by decide, by decide⟩ (by decide)
            (white_gap (by decide)) (by decide) (white_gap (by decide)) (by decide))
          (.nil .nil) (.inr (.inl rfl)))
        (.inr (.inr ⟨_, _, rfl, by decide⟩)))
      (.inr (.inr ⟨_, _, rfl, by decide⟩))
  exact .array h1

example [Zlib] : parseObj b!"[% one\n+007 .50\r3 0 R]" 0 = .ok (.list [.int 7, .real false 0 b!"5", .ref 0 3]) := by kernel_rfl

/-- An indirect object that is a stream, with carriage returns, no end of line before `endstream`. -/
theorem C98_sample_indirect [Zlib] : IndirectText 12 0 (.stream [(b!"/Length", .int 3)] b!"abc" b!"abc")
    b!"12 0 obj<</Length 3>>\rstream\r\nabcendstream%x\nendobj" := by
  have h1 : SpellsAll true false (inLine [(b!"/Length", .int 3)]) b!"/Length 3" :=
    .cons (g := []) (s := b!"/Length") (t := b!" 3") .nil (.name (by decide))
      (.cons (g := b!" ") (s := b!"3") (t := []) (white_gap (by decide))
        (.int ⟨[], false, b!"3", rfl, .none, by decide, by decide, by decide⟩) (.nil .nil) (.inr (.inl rfl)))
      (.inr (.inr ⟨_, _, rfl, by decide⟩))
  have h2 : Spells false false (.dict [(b!"/Length", .int 3)]) b!"<</Length 3>>" := .dict h1 (by decide) (by decide)
  refine ⟨b!"12", b!"0", b!" ", b!" ", [], b!"<</Length 3>>\rstream\r\nabcendstream", b!"%x\n", rfl,
    ⟨[], false, b!"12", rfl, .none, by decide, by decide, by decide⟩, ⟨[], false, b!"0", rfl, .none, by decide, by decide, by decide⟩, ?_,
    by decide, by decide, by decide,
    .comment (body := b!"x") (g := []) (e := 10) (by decide) (by decide) (by decide) (.inl rfl) .nil,
    .inr ⟨_, _, rfl, by decide⟩, .inl (by decide)⟩
  refine .stream (s := b!"<</Length 3>>") (ws := b!"\r") (t := b!"stream\r\nabcendstream") h2 (by decide)
    ⟨b!"\r\n", [], rfl, .inr rfl, ?_, .inr (.inr (.inr ⟨rfl, by decide, by decide⟩))⟩ rfl
  intro h
  have := h.length_le
  simp at this

/-! ### Texts that are not read as they should be -/

/-- **C98 is false of comments with a delimiter in an array or a dictionary**, and of a comment between a dictionary and its data:
the array ends in the comment; the stream is read as a dictionary. -/
theorem C98_comment_counterexample [Zlib] :
    parseObj b!"[1 % a]\n2] " 0 = .ok (.list [.int 1]) ∧
      parseObj b!"<</A 1 %>>\n/B 2>> " 0 = .ok (.dict [(b!"/A", .int 1)]) ∧
      parseObj b!"<</Length 1>>%\nstream\nx\nendstream" 0 = .ok (.dict [(b!"/Length", .int 1)]) :=
  ⟨by kernel_rfl, by kernel_rfl, by kernel_rfl⟩

/-- **C98 is false of the data of streams that contain the keyword or that end with a carriage return**: `/Length` is not
looked at. -/
theorem C98_endstream_counterexample [Zlib] :
    parseObj b!"<</Length 11>>stream\nxendstreamy\nendstream" 0 = .ok (.stream [(b!"/Length", .int 11)] b!"x" b!"x") ∧
      parseObj b!"<</Length 2>>stream\nx\r\nendstream" 0 = .ok (.stream [(b!"/Length", .int 2)] b!"x" b!"x") :=
  ⟨by kernel_rfl, by kernel_rfl⟩

/-- **C98 is false of null**: it is read as a name-like text, not as the null object. -/
theorem C98_null_counterexample [Zlib] : parseObj b!"[null]" 0 = .ok (.list [.str b!"null"]) := by kernel_rfl

/-- **C98 is false of names with bytes above 127**: they raise. -/
theorem C98_name_counterexample [Zlib] : parseObj b!"[/\xe9 1]" 0 = .error .unicodeError := by kernel_rfl

/-- Conversely, texts that are no numbers in PDF are read as numbers (`int` of Python). -/
theorem C98_underscore_counterexample [Zlib] : parseObj b!"[1_23 2]" 0 = .ok (.list [.int 123, .int 2]) := by kernel_rfl

end Pdf
