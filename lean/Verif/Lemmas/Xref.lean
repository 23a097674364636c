/-
Helper lemmas for cross-reference sections.
-/
import Verif.Spec.Xref
import Verif.Lemmas.Text
import Verif.Lemmas.PyEq
import Verif.Lemmas.Filters

namespace Pdf
open Spec

theorem bind_eq_ok {α β : Type} {x : Py α} {f : α → Py β} {b : β} (h : (x >>= f) = .ok b) :
    ∃ a, x = .ok a ∧ f a = .ok b := by
  cases x with
  | error e => cases h
  | ok a => exact ⟨a, rfl, h⟩

theorem orRaise_eq_ok {α : Type} {e : PyErr} {o : Option α} {a : α} (h : orRaise e o = .ok a) :
    o = some a := by
  cases o with
  | none => cases h
  | some b => simp only [orRaise, Except.ok.injEq] at h; rw [h]

/-- The value of a successful computation. -/
def okD {β : Type} (d : β) : Py β → β
  | .ok y => y
  | .error _ => d

theorem mapM_inv {α β : Type} (d : β) {f : α → Py β} : ∀ {l : List α} {r : List β},
    l.mapM f = .ok r →
    (∀ x ∈ l, f x = .ok (okD d (f x))) ∧ r = l.map fun x => okD d (f x)
  | [], r, h => by
    simp only [List.mapM_nil, pure, Except.pure, Except.ok.injEq] at h
    simp [← h]
  | x :: l, r, h => by
    rw [List.mapM_cons] at h
    obtain ⟨y, hy, h⟩ := bind_eq_ok h
    obtain ⟨ys, hys, h⟩ := bind_eq_ok h
    obtain ⟨h1, h2⟩ := mapM_inv d hys
    simp only [pure, Except.pure, Except.ok.injEq] at h
    subst h
    constructor
    · intro z hz
      rcases List.mem_cons.1 hz with rfl | hz
      · rw [hy]; rfl
      · exact h1 z hz
    · rw [List.map_cons, hy, ← h2]; rfl

/-! ### Big-endian numbers -/

theorem beBytes_length : ∀ b n, (beBytes b n).length = b
  | 0, _ => rfl
  | b + 1, n => by simp [beBytes, beBytes_length b]

theorem fromBytesBig_snoc (s : Bytes) (c : UInt8) :
    fromBytesBig (s ++ [c]) = fromBytesBig s * 256 + c.toNat := by
  simp [fromBytesBig]

theorem fromBytesBig_beBytes : ∀ b n, n < 256 ^ b → fromBytesBig (beBytes b n) = n
  | 0, n, h => by
    have : n = 0 := by simpa using h
    simp [beBytes, fromBytesBig, this]
  | b + 1, n, h => by
    rw [beBytes, fromBytesBig_snoc, fromBytesBig_beBytes b (n / 256)]
    · rw [UInt8.toNat_ofNat']; omega
    · rw [Nat.pow_succ] at h; omega

theorem toBytes_ok {b n : Nat} {x : Bytes} (h : toBytes b n = .ok x) :
    x.length = b ∧ fromBytesBig x = n ∧ n < 256 ^ b := by
  unfold toBytes at h
  split at h
  · rename_i hn
    simp only [Except.ok.injEq] at h
    subst h
    exact ⟨beBytes_length _ _, fromBytesBig_beBytes _ _ hn, hn⟩
  · cases h

/-! ### `/Index` pairs -/

theorem expand_run (num nb : Nat) (rest : List Int) (k : Nat) (hnb : 1 ≤ nb) :
    expandXrefIndex ((num : Int) :: (nb : Int) :: rest) k
      = (expandXrefIndex rest (k + 1)).map
          fun t => (List.range' num nb).map (fun (n : Nat) => ((n : Int), k)) ++ t := by
  rw [expandXrefIndex]
  have : ((num : Int), k) :: (List.range ((nb : Int) - 1).toNat).map
      (fun (j : Nat) => ((num : Int) + j + 1, k))
      = (List.range' num nb).map (fun (n : Nat) => ((n : Int), k)) := by
    rw [show ((nb : Int) - 1).toNat = nb - 1 by omega]
    obtain ⟨m, rfl⟩ : ∃ m, nb = m + 1 := ⟨nb - 1, by omega⟩
    rw [List.range'_succ, List.map_cons, Nat.add_sub_cancel, List.range'_eq_map_range,
      List.map_map]
    congr 1
    apply List.map_congr_left
    intro j _
    simp only [Function.comp]
    congr 1
    omega
  cases expandXrefIndex rest (k + 1) with
  | error e => rfl
  | ok t => simp only [bind, Except.bind, Except.map]; rw [← this]

/-- Expanding the result of the grouping loop gives back the numbers. -/
theorem expand_idxLoop : ∀ (p : List Nat) (num nb : Nat) (acc : List Nat) (tailNums : List Int),
    1 ≤ nb →
    (∀ k, ∃ t, expandXrefIndex (acc.map Int.ofNat) k = .ok t ∧ t.map Prod.fst = tailNums) →
    ∀ k, ∃ t, expandXrefIndex ((idxLoop p num nb acc).map Int.ofNat) k = .ok t ∧
      t.map Prod.fst = p.reverse.map Int.ofNat ++ (List.range' num nb).map Int.ofNat ++ tailNums
  | [], num, nb, acc, tailNums, hnb, hacc => by
    intro k
    obtain ⟨t, h1, h2⟩ := hacc (k + 1)
    refine ⟨(List.range' num nb).map (fun (n : Nat) => ((n : Int), k)) ++ t, ?_, ?_⟩
    · rw [idxLoop, List.map_cons, List.map_cons]
      have := expand_run num nb (acc.map Int.ofNat) k hnb
      rw [h1] at this
      exact this
    · simp only [List.map_append, List.map_map, List.reverse_nil, List.map_nil, List.nil_append, h2]
      rfl
  | n :: p, num, nb, acc, tailNums, hnb, hacc => by
    intro k
    rw [idxLoop]
    split
    · rename_i h
      obtain ⟨t, h1, h2⟩ := expand_idxLoop p n (nb + 1) acc tailNums (by omega) hacc k
      refine ⟨t, h1, ?_⟩
      rw [h2, List.range'_succ, h]
      simp
    · have := expand_idxLoop p n 1 (num :: nb :: acc)
        ((List.range' num nb).map Int.ofNat ++ tailNums) (by omega) ?_ k
      · obtain ⟨t, h1, h2⟩ := this
        refine ⟨t, h1, ?_⟩
        rw [h2]
        simp
      · intro k
        obtain ⟨t, h1, h2⟩ := hacc (k + 1)
        refine ⟨(List.range' num nb).map (fun (n : Nat) => ((n : Int), k)) ++ t, ?_, ?_⟩
        · rw [List.map_cons, List.map_cons]
          have := expand_run num nb (acc.map Int.ofNat) k hnb
          rw [h1] at this
          exact this
        · simp only [List.map_append, List.map_map, h2]
          rfl

theorem expand_indexPairs (nums : List Nat) (h : nums ≠ []) :
    ∃ idx t, indexPairs nums = .ok idx ∧ expandXrefIndex (idx.map Int.ofNat) 0 = .ok t ∧
      t.map Prod.fst = nums.map Int.ofNat := by
  unfold indexPairs
  cases hr : nums.reverse with
  | nil => simp at hr; exact absurd hr h
  | cons n p =>
    obtain ⟨t, h1, h2⟩ := expand_idxLoop p n 1 [] [] (by omega) (fun k => ⟨[], rfl, rfl⟩) 0
    refine ⟨_, t, rfl, h1, ?_⟩
    rw [h2]
    have : nums = p.reverse ++ [n] := by
      rw [← List.reverse_reverse nums, hr]; simp
    rw [this]
    simp

/-! ### Rows of an xref stream -/

theorem readCols_row (st : Bytes) (t : UInt8) (x y pre post : Bytes) (b : Nat)
    (hx : x.length = b) (hy : y.length = b) (hst : st = pre ++ (t :: x ++ y) ++ post) :
    ∃ ppr, readCols st [1, b, b] pre.length
      = ([t.toNat, fromBytesBig x, fromBytesBig y], ppr, pre.length + (1 + b + b)) := by
  subst hst
  have h1 : slice (pre ++ (t :: x ++ y) ++ post) pre.length (pre.length + 1) = [t] := by
    have := slice_mid pre [t] (x ++ y ++ post)
    simpa using this
  have h2 : slice (pre ++ (t :: x ++ y) ++ post) (pre.length + 1) (pre.length + 1 + b) = x := by
    have := slice_mid (pre ++ [t]) x (y ++ post)
    simpa [hx] using this
  have h3 : slice (pre ++ (t :: x ++ y) ++ post) (pre.length + 1 + b) (pre.length + 1 + b + b)
      = y := by
    have := slice_mid (pre ++ [t] ++ x) y post
    simpa [hx, hy, Nat.add_assoc, Nat.add_comm, Nat.add_left_comm] using this
  simp only [readCols, h1, h2, h3]
  rw [show pre.length + 1 + b + b = pre.length + (1 + b + b) by omega,
    show fromBytesBig [t] = t.toNat by simp [fromBytesBig]]
  exact ⟨_, rfl⟩

theorem xrefRow_ok {nf : List (Nat × Nat)} {b : Nat} {e : XElem} {row : Bytes}
    (h : xrefRow nf b e = .ok row) :
    ∃ t x y, row = t :: x ++ y ∧ x.length = b ∧ y.length = b ∧
      ∀ num raw sub, num = (e.num : Int) →
      ∃ r, rowOf [t.toNat, fromBytesBig x, fromBytesBig y] num raw sub = .ok [r] ∧
        (r.offset, r.env, r.num, r.gen, r.kw) = entryOf nf e := by
  unfold xrefRow at h
  by_cases hf : e.free = true
  · rw [if_pos hf] at h
    obtain ⟨n, hn, h⟩ := bind_eq_ok h
    obtain ⟨x, hx, h⟩ := bind_eq_ok h
    obtain ⟨y, hy, h⟩ := bind_eq_ok h
    simp only [pure, Except.pure, Except.ok.injEq] at h
    obtain ⟨hx1, hx2, -⟩ := toBytes_ok hx
    obtain ⟨hy1, hy2, -⟩ := toBytes_ok hy
    refine ⟨0, x, y, h.symm, hx1, hy1, ?_⟩
    rintro num raw sub rfl
    refine ⟨_, rfl, ?_⟩
    simp [entryOf, hf, hx2, hy2, orRaise_eq_ok hn]
  · rw [if_neg hf] at h
    obtain ⟨c, hc, h⟩ := bind_eq_ok h
    have hc' := orRaise_eq_ok hc
    split at h
    · rename_i he
      obtain ⟨x, hx, h⟩ := bind_eq_ok h
      obtain ⟨y, hy, h⟩ := bind_eq_ok h
      simp only [pure, Except.pure, Except.ok.injEq] at h
      obtain ⟨hx1, hx2, -⟩ := toBytes_ok hx
      obtain ⟨hy1, hy2, -⟩ := toBytes_ok hy
      refine ⟨2, x, y, h.symm, hx1, hy1, ?_⟩
      rintro num raw sub rfl
      refine ⟨_, rfl, ?_⟩
      have : e.env = some (e.env.getD 0) := by
        cases hh : e.env with
        | none => rw [hh] at he; exact absurd rfl he
        | some v => rfl
      simp only [entryOf, hf, if_neg, Bool.false_eq_true, not_false_eq_true, if_pos he, hc',
        Option.getD_some, hx2, hy2]
      rw [← this]
    · rename_i he
      obtain ⟨x, hx, h⟩ := bind_eq_ok h
      obtain ⟨y, hy, h⟩ := bind_eq_ok h
      simp only [pure, Except.pure, Except.ok.injEq] at h
      obtain ⟨hx1, hx2, -⟩ := toBytes_ok hx
      obtain ⟨hy1, hy2, -⟩ := toBytes_ok hy
      refine ⟨1, x, y, h.symm, hx1, hy1, ?_⟩
      rintro num raw sub rfl
      refine ⟨_, rfl, ?_⟩
      simp only [entryOf, hf, if_neg, Bool.false_eq_true, not_false_eq_true, if_neg he, hc',
        Option.getD_some, hx2, hy2]

theorem xrefStreamLoop_rows {nf : List (Nat × Nat)} {b : Nat} (f : XElem → Bytes) :
    ∀ (elems : List XElem) (nums : List (Int × Nat)) (pre st : Bytes),
      (∀ e ∈ elems, xrefRow nf b e = .ok (f e)) →
      nums.map Prod.fst = elems.map (fun e => Int.ofNat e.num) →
      st = pre ++ (elems.map f).flatten →
      ∃ rows, xrefStreamLoop st [1, b, b] nums pre.length = .ok rows ∧
        rows.map (fun r => (r.offset, r.env, r.num, r.gen, r.kw)) = elems.map (entryOf nf)
  | [], nums, pre, st, _, _, hst => by
    refine ⟨[], ?_, rfl⟩
    have : ¬ pre.length < st.length := by rw [hst]; simp
    cases nums <;> rw [xrefStreamLoop, if_neg this]
  | e :: elems, [], pre, st, _, hn, _ => by simp at hn
  | e :: elems, (num, sub) :: nums, pre, st, hf, hn, hst => by
    simp only [List.map_cons, List.cons.injEq] at hn
    obtain ⟨t, x, y, hrow, hx, hy, hr⟩ := xrefRow_ok (hf e (by simp))
    simp only [List.map_cons, List.flatten_cons, hrow] at hst
    have hst' : st = pre ++ (t :: x ++ y) ++ (elems.map f).flatten := by
      rw [hst]; simp
    obtain ⟨ppr, hrc⟩ := readCols_row st t x y pre _ b hx hy hst'
    obtain ⟨r, hr1, hr2⟩ := hr num ppr sub hn.1
    have ih := xrefStreamLoop_rows f elems nums (pre ++ (t :: x ++ y)) st
      (fun e he => hf e (by simp [he])) hn.2 hst'
    obtain ⟨rows, h1, h2⟩ := ih
    have hl : (pre ++ (t :: x ++ y)).length = pre.length + (1 + b + b) := by
      simp [hx, hy]; omega
    rw [hl] at h1
    refine ⟨r :: rows, ?_, ?_⟩
    · rw [xrefStreamLoop, if_pos]
      · simp only [hrc, hr1, h1, bind, Except.bind]; rfl
      · rw [hst']; simp
    · simp [hr2, h2]

theorem strictInts_nats (l : List Nat) :
    strictInts (.list (l.map fun (n : Nat) => .int n)) = .ok (l.map Int.ofNat) := by
  unfold strictInts
  induction l with
  | nil => rfl
  | cons n l ih =>
    simp only [List.map_cons, List.mapM_cons, bind, Except.bind, pure, Except.pure] at ih ⊢
    rw [ih]; rfl

theorem formatXrefStream_inv [Zlib] {elems : List XElem} {tr : Dict} {nf : List (Nat × Nat)}
    {oNum : Nat} {out : Bytes} {tr' : Dict}
    (h : formatXrefStream elems tr nf oNum = .ok (out, tr')) :
    ∃ (maxc : Nat) (rows : List Bytes) (index : List Nat) (enc ser : Bytes) (d : Dict),
      pyMax (elems.filterMap (·.counter)) = .ok maxc ∧
      elems.mapM (xrefRow nf (xrefWidth maxc)) = .ok rows ∧
      indexPairs (elems.map (·.num)) = .ok index ∧
      d = Dict.set (Dict.set (Dict.set (Dict.set tr b!"/Type" (.str b!"/XRef"))
        b!"/Length" (.int (-1))) b!"/W" (.list [.int 1, .int (xrefWidth maxc),
          .int (xrefWidth maxc)])) b!"/Index" (.list (index.map fun (n : Nat) => .int n)) ∧
      encodeStream rows.flatten d = .ok enc ∧
      tr' = Dict.set d b!"/Length" (.int (enc.length + 1)) ∧
      serialize 0 (.stream tr' rows.flatten enc) = .ok ser ∧
      out = natDec oNum ++ b!" 0 obj\n" ++ ser ++ b!"\n" ++ b!"endobj\n" := by
  unfold formatXrefStream at h
  obtain ⟨maxc, hm, h⟩ := bind_eq_ok h
  obtain ⟨rows, hr, h⟩ := bind_eq_ok h
  obtain ⟨index, hi, h⟩ := bind_eq_ok h
  obtain ⟨⟨s, l⟩, hs, h⟩ := bind_eq_ok h
  unfold forgeStream at hs
  obtain ⟨enc, he, hs⟩ := bind_eq_ok hs
  have hlen : Dict.get? (Dict.set (Dict.set (Dict.set (Dict.set tr b!"/Type" (.str b!"/XRef"))
        b!"/Length" (.int (-1))) b!"/W" (.list [.int 1, .int (xrefWidth maxc),
          .int (xrefWidth maxc)])) b!"/Index" (.list (index.map fun (n : Nat) => .int n)))
        b!"/Length" = some (.int (-1)) := by
    rw [Dict.get?_set, if_neg (by decide), Dict.get?_set, if_neg (by decide), Dict.get?_set,
      if_pos rfl]
  simp only [updateStreamLength, hlen, Except.ok.injEq, Prod.mk.injEq] at hs
  obtain ⟨rfl, -⟩ := hs
  obtain ⟨ser, hser, h⟩ := bind_eq_ok h
  simp only [pure, Except.pure, Except.ok.injEq, Prod.mk.injEq] at h
  exact ⟨maxc, rows, index, enc, ser, _, hm, hr, hi, rfl, he, h.2.symm, h.2 ▸ hser, h.1.symm⟩

/-! ### Lines of a cross-reference table -/

theorem nextLineStart_ws : ∀ (ws rest : Bytes) (i : Nat), (∀ c ∈ ws, isEol c = true) →
    nextLineStart i (ws ++ rest) = nextLineStart (i + ws.length) rest
  | [], rest, i, _ => by simp
  | c :: ws, rest, i, h => by
    rw [List.cons_append, nextLineStart, if_pos (h c (by simp)),
      nextLineStart_ws ws rest (i + 1) (fun c hc => h c (by simp [hc]))]
    congr 1; simp; omega

theorem nextLineEnd_line : ∀ (line rest : Bytes) (nl : UInt8) (j : Nat),
    (∀ c ∈ line, isEol c = false) → isEol nl = true →
    nextLineEnd j (line ++ nl :: rest) = some (j + line.length)
  | [], rest, nl, j, _, h => by simp [nextLineEnd, h]
  | c :: line, rest, nl, j, hl, h => by
    rw [List.cons_append, nextLineEnd, hl c (by simp)]
    simp only [Bool.false_eq_true, if_false]
    rw [nextLineEnd_line line rest nl (j + 1) (fun c hc => hl c (by simp [hc])) h]
    congr 1; simp; omega

theorem nextLine_at {text ws line rest : Bytes} {nl : UInt8} {i : Nat}
    (hd : text.drop i = ws ++ (line ++ nl :: rest)) (hws : ∀ c ∈ ws, isEol c = true)
    (hne : line ≠ []) (hl : ∀ c ∈ line, isEol c = false) (hnl : isEol nl = true) :
    nextLine text i = some (i + ws.length, i + ws.length + line.length) := by
  unfold nextLine
  rw [hd, nextLineStart_ws _ _ _ hws]
  cases line with
  | nil => exact absurd rfl hne
  | cons c line =>
    rw [List.cons_append, nextLineStart, hl c (by simp)]
    simp only [Bool.false_eq_true, if_false]
    rw [← List.cons_append, nextLineEnd_line _ _ _ _ hl hnl]
    rfl

theorem splitAux_word {sp : UInt8 → Bool} : ∀ (w cur rest : Bytes),
    (∀ c ∈ w, sp c = false) → splitAux sp cur (w ++ rest) = splitAux sp (cur ++ w) rest
  | [], cur, rest, _ => by simp
  | c :: w, cur, rest, h => by
    rw [List.cons_append, splitAux, h c (by simp)]
    simp only [Bool.false_eq_true, if_false]
    rw [splitAux_word w (cur ++ [c]) rest (fun c hc => h c (by simp [hc]))]
    simp

theorem pySplit_cons {w rest : Bytes} (hne : w ≠ []) (h : ∀ c ∈ w, isPySpace c = false) :
    pySplit (w ++ 32 :: rest) = w :: pySplit rest := by
  unfold pySplit
  rw [splitAux_word w [] _ h, List.nil_append, splitAux]
  rw [if_pos (by decide), if_neg hne]

theorem pySplit_last {w : Bytes} (hne : w ≠ []) (h : ∀ c ∈ w, isPySpace c = false) :
    pySplit w = [w] := by
  unfold pySplit
  have := splitAux_word w [] [] h
  rw [List.append_nil, List.nil_append] at this
  rw [this, splitAux, if_neg hne]

theorem digits_not_space {s : Bytes} (h : s.all isDigit = true) :
    ∀ c ∈ s, isPySpace c = false := fun c hc => isDigit_not_space (List.all_eq_true.1 h c hc)

theorem digits_not_eol {s : Bytes} (h : s.all isDigit = true) : ∀ c ∈ s, isEol c = false := by
  have key : ∀ c : UInt8, isDigit c = true → isEol c = false := by
    apply forall_byte; decide +kernel
  exact fun c hc => key c (List.all_eq_true.1 h c hc)

theorem natPad_digits (w n : Nat) : (natPad w n).all isDigit = true := by
  simp only [natPad, List.all_append, Bool.and_eq_true]
  refine ⟨?_, natDec_all n⟩
  simp only [List.all_eq_true, List.mem_replicate]
  rintro x ⟨-, rfl⟩; rfl

theorem natPad_ne_nil (w n : Nat) : natPad w n ≠ [] := by
  simp [natPad, natDec_ne_nil]

theorem digitsVal_zeros (s : Bytes) : ∀ k, digitsVal 0 (List.replicate k 48 ++ s) = digitsVal 0 s
  | 0 => by simp
  | k + 1 => by
    rw [List.replicate_succ, List.cons_append, digitsVal_digit (by decide)]
    exact digitsVal_zeros s k

theorem pyInt_digits {s : Bytes} {n : Nat} (h : s.all isDigit = true) (hne : s ≠ [])
    (hv : digitsVal 0 s = some n) : pyInt s = some (n : Int) := by
  unfold pyInt
  rw [strip_id (all_digit_not_space h)]
  cases s with
  | nil => exact absurd rfl hne
  | cons c cs =>
    simp only [List.all_cons, Bool.and_eq_true] at h
    obtain ⟨h1, h2, -, -⟩ := digit_ne h.1
    simp only [h1, h2, if_false]
    rw [pyNat_eq_digitsVal h.1, hv]; rfl

theorem pyInt_natPad (w n : Nat) : pyInt (natPad w n) = some (n : Int) := by
  apply pyInt_digits (natPad_digits w n) (natPad_ne_nil w n)
  rw [natPad, digitsVal_zeros, digitsVal_natDec]

/-- A line of the table: what it says. -/
inductive TLine
  | hdr (n nb : Nat)
  | ent (off gen : Nat) (kw : UInt8)

def TLine.text : TLine → Bytes
  | .hdr n nb => subHeader n nb
  | .ent off gen kw => natPad 10 off ++ b!" " ++ natPad 5 gen ++ [32, kw]

/-- Reading lines, keeping track of the object number. -/
def interp : Option Int → List TLine → Option (List XRow)
  | _, [] => some []
  | _, .hdr n nb :: ls => (interp (some n) ls).map (.sub n nb :: ·)
  | none, .ent _ _ _ :: _ => none
  | some o, .ent off gen kw :: ls =>
    (interp (some (o + 1)) ls).map (.entry off o gen [kw] :: ·)

def goodLine : TLine → Prop
  | .hdr _ _ => True
  | .ent _ _ kw => kw = 102 ∨ kw = 110

theorem TLine.text_facts (l : TLine) (hl : goodLine l) :
    l.text ≠ [] ∧ (∀ c ∈ l.text, isEol c = false) ∧ (l.text.take 1).any isDigit = true := by
  have hd : ∀ s : Bytes, s.all isDigit = true → s ≠ [] → ∀ r : Bytes,
      ((s ++ r).take 1).any isDigit = true := by
    intro s h hne r
    cases s with
    | nil => exact absurd rfl hne
    | cons c s => simp only [List.all_cons, Bool.and_eq_true] at h; simp [h.1]
  cases l with
  | hdr n nb =>
    simp only [TLine.text, subHeader, List.append_assoc]
    refine ⟨by simp, ?_, hd _ (natDec_all n) (natDec_ne_nil n) _⟩
    intro c hc
    rcases List.mem_append.1 hc with h | h
    · exact digits_not_eol (natDec_all n) c h
    · rcases List.mem_append.1 h with h | h
      · simp at h; subst h; decide
      · exact digits_not_eol (natDec_all nb) c h
  | ent off gen kw =>
    simp only [TLine.text, List.append_assoc]
    refine ⟨by simp, ?_, hd _ (natPad_digits _ _) (natPad_ne_nil _ _) _⟩
    intro c hc
    rcases List.mem_append.1 hc with h | h
    · exact digits_not_eol (natPad_digits _ _) c h
    · rcases List.mem_append.1 h with h | h
      · simp at h; subst h; decide
      · rcases List.mem_append.1 h with h | h
        · exact digits_not_eol (natPad_digits _ _) c h
        · simp only [List.mem_cons, List.not_mem_nil, or_false] at h
          rcases h with rfl | rfl
          · decide
          · rcases hl with rfl | rfl <;> decide

theorem pySplit_hdr (n nb : Nat) :
    pySplit (TLine.hdr n nb).text = [natDec n, natDec nb] := by
  simp only [TLine.text, subHeader, List.append_assoc, List.cons_append, List.nil_append]
  rw [pySplit_cons (natDec_ne_nil n) (digits_not_space (natDec_all n)),
    pySplit_last (natDec_ne_nil nb) (digits_not_space (natDec_all nb))]

theorem pySplit_ent (off gen : Nat) (kw : UInt8) (h : goodLine (.ent off gen kw)) :
    pySplit (TLine.ent off gen kw).text = [natPad 10 off, natPad 5 gen, [kw]] := by
  simp only [TLine.text, List.append_assoc, List.cons_append, List.nil_append]
  rw [pySplit_cons (natPad_ne_nil _ _) (digits_not_space (natPad_digits _ _)),
    pySplit_cons (natPad_ne_nil _ _) (digits_not_space (natPad_digits _ _)),
    pySplit_last (by simp)]
  intro c hc
  simp at hc; subst hc
  rcases h with rfl | rfl <;> decide

theorem drop_add_of' {text a b : Bytes} {i : Nat} (h : text.drop i = a ++ b) :
    text.drop (i + a.length) = b := by
  rw [← List.drop_drop, h]; simp

/-- The text of a list of lines. -/
def linesText (ls : List TLine) : Bytes := (ls.map TLine.text).flatMap (· ++ b!"\n")

theorem slice_head {text l rest : Bytes} {i : Nat} (hd : text.drop i = l ++ rest) (hl : l ≠ []) :
    slice text i (i + 1) = l.take 1 := by
  have := slice_drop text i 0 1
  rw [Nat.add_zero] at this
  rw [← this, hd, slice_zero]
  cases l with
  | nil => exact absurd rfl hl
  | cons c l => simp

/-- Where the loop stops: a line that does not start with a digit. -/
theorem xrefTableLoop_lines {text tail rest : Bytes} (htne : tail ≠ [])
    (htd : (tail.take 1).any isDigit = false) (hte : ∀ c ∈ tail, isEol c = false) :
    ∀ (ls : List TLine) (l : TLine) (bl : Nat) (oNum : Option Int) (res : List XRow)
      (fuel : Nat) (rows : List XRow),
      (∀ x ∈ l :: ls, goodLine x) →
      text.drop bl = linesText (l :: ls) ++ (tail ++ 10 :: rest) →
      interp oNum (l :: ls) = some rows →
      ls.length + 1 < fuel →
      xrefTableLoop text fuel bl (bl + l.text.length) oNum res
        = .ok (bl + (linesText (l :: ls)).length + tail.length, res ++ rows) := by
  intro ls
  induction ls with
  | nil =>
    intro l bl oNum res fuel rows hg hd hi hf
    obtain ⟨fuel, rfl⟩ : ∃ k, fuel = k + 1 := ⟨fuel - 1, by omega⟩
    obtain ⟨fuel, rfl⟩ : ∃ k, fuel = k + 1 := ⟨fuel - 1, by simp at hf; omega⟩
    obtain ⟨h1, h2, h3⟩ := l.text_facts (hg l (by simp))
    have hd' : text.drop bl = l.text ++ (10 :: (tail ++ 10 :: rest)) := by
      rw [hd]; simp [linesText]
    have hsl : slice text bl (bl + l.text.length) = l.text := slice_of_drop hd'
    have hd2 : text.drop (bl + l.text.length) = [10] ++ (tail ++ 10 :: rest) := drop_add_of' hd'
    have hnl := nextLine_at hd2 (by decide) htne hte (by decide)
    have hd3 : text.drop (bl + l.text.length + 1) = tail ++ 10 :: rest := drop_add_of' hd2
    rw [xrefTableLoop, if_pos (by rw [slice_head hd' h1]; exact h3)]
    have hend : xrefTableLoop text (fuel + 1) (bl + l.text.length + 1)
        (bl + l.text.length + 1 + tail.length) = fun o r =>
          .ok (bl + (linesText [l]).length + tail.length, r) := by
      funext o r
      rw [xrefTableLoop, if_neg (by rw [slice_head hd3 htne, htd]; simp)]
      simp [linesText]; omega
    simp only [hsl, hnl, List.length_cons, List.length_nil, Nat.zero_add, hend]
    cases l with
    | hdr n nb =>
      simp only [interp, Option.map_some, Option.some.injEq] at hi
      subst hi
      simp only [pySplit_hdr, pyInt_natDec, orRaise, bind, Except.bind]
    | ent off gen kw =>
      cases oNum with
      | none => simp [interp] at hi
      | some o =>
        simp only [interp, Option.map_some, Option.some.injEq] at hi
        subst hi
        simp only [pySplit_ent off gen kw (hg (.ent off gen kw) (by simp)), pyInt_natPad, orRaise, bind, Except.bind]
  | cons l' ls ih =>
    intro l bl oNum res fuel rows hg hd hi hf
    obtain ⟨fuel, rfl⟩ : ∃ k, fuel = k + 1 := ⟨fuel - 1, by omega⟩
    obtain ⟨h1, h2, h3⟩ := l.text_facts (hg l (by simp))
    obtain ⟨h1', h2', h3'⟩ := l'.text_facts (hg l' (by simp))
    have hd' : text.drop bl = l.text ++ (10 :: (linesText (l' :: ls) ++ (tail ++ 10 :: rest))) := by
      rw [hd]; simp [linesText]
    have hsl : slice text bl (bl + l.text.length) = l.text := slice_of_drop hd'
    have hd2 : text.drop (bl + l.text.length) = [10] ++ (linesText (l' :: ls) ++
        (tail ++ 10 :: rest)) := drop_add_of' hd'
    have hd2' : text.drop (bl + l.text.length) = [10] ++ (l'.text ++ 10 ::
        (linesText ls ++ (tail ++ 10 :: rest))) := by
      rw [hd2]; simp [linesText]
    have hnl := nextLine_at hd2' (by decide) h1' h2' (by decide)
    have hd3 : text.drop (bl + l.text.length + 1) = linesText (l' :: ls) ++ (tail ++ 10 :: rest) :=
      drop_add_of' hd2
    rw [xrefTableLoop, if_pos (by rw [slice_head hd' h1]; exact h3)]
    simp only [hsl, hnl, List.length_cons, List.length_nil, Nat.zero_add]
    have hlen : bl + (linesText (l :: l' :: ls)).length
        = bl + l.text.length + 1 + (linesText (l' :: ls)).length := by
      simp [linesText]; omega
    cases l with
    | hdr n nb =>
      simp only [interp, Option.map_eq_some_iff] at hi
      obtain ⟨r, hr, rfl⟩ := hi
      simp only [pySplit_hdr, pyInt_natDec, orRaise, bind, Except.bind]
      rw [ih l' _ (some n) (res ++ [XRow.sub n nb]) fuel r (fun x hx => hg x (by simp [hx])) hd3 hr
        (by simp at hf; omega)]
      rw [hlen]; simp
    | ent off gen kw =>
      cases oNum with
      | none => simp [interp] at hi
      | some o =>
        simp only [interp, Option.map_eq_some_iff] at hi
        obtain ⟨r, hr, rfl⟩ := hi
        simp only [pySplit_ent off gen kw (hg (.ent off gen kw) (by simp)), pyInt_natPad, orRaise, bind, Except.bind]
        rw [ih l' _ (some (o + 1)) (res ++ [XRow.entry off o gen [kw]]) fuel r
          (fun x hx => hg x (by simp [hx])) hd3 hr (by simp at hf; omega)]
        rw [hlen]; simp

/-! ### Subsections -/

/-- The line of an element. -/
def elemLine (nf : List (Nat × Nat)) (e : XElem) : TLine :=
  if e.free then .ent ((nf.lookup e.num).getD 0) (e.gen + 1) 102
  else .ent (e.counter.getD 0) e.gen 110

theorem xrefLine_eq {nf : List (Nat × Nat)} {e : XElem} {x : Bytes} (h : xrefLine nf e = .ok x) :
    x = (elemLine nf e).text := by
  unfold xrefLine at h
  unfold elemLine
  by_cases hf : e.free = true
  · rw [if_pos hf] at h
    obtain ⟨n, hn, h⟩ := bind_eq_ok h
    simp only [pure, Except.pure, Except.ok.injEq] at h
    rw [if_pos hf, ← h, orRaise_eq_ok hn]
    simp [TLine.text]
  · rw [if_neg hf] at h
    obtain ⟨n, hn, h⟩ := bind_eq_ok h
    simp only [pure, Except.pure, Except.ok.injEq] at h
    rw [if_neg hf, ← h, orRaise_eq_ok hn]
    simp [TLine.text]

theorem elemLine_good (nf : List (Nat × Nat)) (e : XElem) : goodLine (elemLine nf e) := by
  unfold elemLine; split
  · exact .inl rfl
  · exact .inr rfl

def blockLines (nf : List (Nat × Nat)) (b : List XElem) : List TLine :=
  .hdr ((b.head?.map (·.num)).getD 0) b.length :: b.map (elemLine nf)

theorem subLoop_blocks (nf : List (Nat × Nat)) : ∀ (p cur : List XElem) (num nb : Nat)
    (rest : List Bytes), cur ≠ [] → nb = cur.length → cur.map (·.num) = List.range' num nb →
    ∃ blocks : List (List XElem), (∀ b ∈ blocks, IsRun b) ∧ blocks.flatten = p.reverse ++ cur ∧
      subLoop (p.map fun e => ((elemLine nf e).text, e.num)) num nb
          (cur.map (fun e => (elemLine nf e).text) ++ rest)
        = (blocks.flatMap (blockLines nf)).map TLine.text ++ rest
  | [], cur, num, nb, rest, hne, hnb, hrun => by
    refine ⟨[cur], ?_, by simp, ?_⟩
    · intro b hb
      simp at hb; subst hb
      exact ⟨num, hne, by rw [hrun, hnb]⟩
    · have hhead : (cur.head?.map (·.num)).getD 0 = num := by
        cases cur with
        | nil => exact absurd rfl hne
        | cons a l =>
          simp only [List.length_cons] at hnb
          subst hnb
          rw [List.range'_succ, List.map_cons, List.cons.injEq] at hrun
          simp [hrun.1]
      simp [subLoop, blockLines, hhead, TLine.text, hnb, Function.comp_def]
  | e :: p, cur, num, nb, rest, hne, hnb, hrun => by
    rw [List.map_cons, subLoop]
    split
    · rename_i h
      have := subLoop_blocks nf p (e :: cur) e.num (nb + 1) rest (by simp) (by simp [hnb])
        (by rw [List.range'_succ, List.map_cons, h, hrun])
      obtain ⟨blocks, h1, h2, h3⟩ := this
      refine ⟨blocks, h1, by simpa using h2, ?_⟩
      rw [← h3]; rfl
    · have hhead : (cur.head?.map (·.num)).getD 0 = num := by
        cases cur with
        | nil => exact absurd rfl hne
        | cons a l =>
          simp only [List.length_cons] at hnb
          subst hnb
          rw [List.range'_succ, List.map_cons, List.cons.injEq] at hrun
          simp [hrun.1]
      have := subLoop_blocks nf p [e] e.num 1
        (subHeader num nb :: (cur.map (fun e => (elemLine nf e).text) ++ rest)) (by simp)
        (by simp) (by simp)
      obtain ⟨blocks, h1, h2, h3⟩ := this
      refine ⟨blocks ++ [cur], ?_, by simp [h2], ?_⟩
      · intro b hb
        rcases List.mem_append.1 hb with hb | hb
        · exact h1 b hb
        · simp at hb; subst hb; exact ⟨num, hne, by rw [hrun, hnb]⟩
      · rw [show (elemLine nf e).text :: subHeader num nb ::
            (cur.map (fun e => (elemLine nf e).text) ++ rest)
          = [e].map (fun e => (elemLine nf e).text) ++ (subHeader num nb ::
            (cur.map (fun e => (elemLine nf e).text) ++ rest)) from rfl, h3]
        simp [blockLines, hhead, TLine.text, hnb, Function.comp_def]

theorem interp_entries (nf : List (Nat × Nat)) (rest : List TLine) (r : List XRow) :
    ∀ (b : List XElem) (first : Nat), b.map (·.num) = List.range' first b.length →
      (∀ o, interp o rest = some r ∨ b = []) →
      (∀ o : Option Int, interp o rest = some r) →
      interp (some first) (b.map (elemLine nf) ++ rest) = some (b.map (tableRow nf) ++ r)
  | [], first, _, _, h => by simpa using h _
  | e :: b, first, hrun, h0, h => by
    simp only [List.length_cons, List.range'_succ, List.map_cons, List.cons.injEq] at hrun
    have ih := interp_entries nf rest r b (first + 1) hrun.2 (fun o => .inl (h o)) h
    simp only [List.map_cons, List.cons_append]
    have hc : ((first : Int) + 1) = ((first + 1 : Nat) : Int) := by omega
    by_cases hf : e.free = true
    · rw [show elemLine nf e = .ent ((nf.lookup e.num).getD 0) (e.gen + 1) 102 from if_pos hf,
        interp, hc, ih]
      simp [tableRow, hf, hrun.1]
    · rw [show elemLine nf e = .ent (e.counter.getD 0) e.gen 110 from if_neg hf, interp, hc, ih]
      simp [tableRow, hf, hrun.1]

theorem interp_blocks (nf : List (Nat × Nat)) : ∀ (blocks : List (List XElem)),
    (∀ b ∈ blocks, IsRun b) → ∀ o : Option Int,
    interp o (blocks.flatMap (blockLines nf)) = some (blocks.flatMap (subsection nf))
  | [], _, _ => rfl
  | b :: blocks, h, o => by
    obtain ⟨first, hne, hrun⟩ := h b (by simp)
    have ih := interp_blocks nf blocks (fun b hb => h b (by simp [hb]))
    have hhead : (b.head?.map (·.num)).getD 0 = first := by
      cases b with
      | nil => exact absurd rfl hne
      | cons a l =>
        rw [List.length_cons, List.range'_succ, List.map_cons, List.cons.injEq] at hrun
        simp [hrun.1]
    simp only [List.flatMap_cons, blockLines, subsection, hhead, List.cons_append, interp]
    rw [interp_entries nf _ _ b first hrun (fun o => .inl (ih o)) ih]
    rfl

theorem formatXrefTable_inv {elems : List XElem} {tr : Dict} {nf : List (Nat × Nat)} {out : Bytes}
    (h : formatXrefTable elems tr nf = .ok out) :
    ∃ (blocks : List (List XElem)) (ser : Bytes),
      (∀ b ∈ blocks, IsRun b) ∧ blocks.flatten = elems ∧ elems ≠ [] ∧
      serialize 0 (.dict tr) = .ok ser ∧
      out = b!"xref\n" ++ linesText (blocks.flatMap (blockLines nf)) ++ b!"trailer\n" ++ ser ++
        b!"\n" := by
  unfold formatXrefTable at h
  obtain ⟨rows, hr, h⟩ := bind_eq_ok h
  obtain ⟨ls, hls, h⟩ := bind_eq_ok h
  obtain ⟨ser, hs, h⟩ := bind_eq_ok h
  simp only [pure, Except.pure, Except.ok.injEq] at h
  obtain ⟨h1, h2⟩ := mapM_inv ([], 0) hr
  have hrows : rows = elems.map fun e => ((elemLine nf e).text, e.num) := by
    rw [h2]
    apply List.map_congr_left
    intro e he
    have := h1 e he
    obtain ⟨x, hx, hx'⟩ := bind_eq_ok this
    rw [xrefLine_eq hx] at hx'
    simp only [pure, Except.pure, Except.ok.injEq] at hx'
    exact hx'.symm
  unfold addSubsections at hls
  rw [hrows, ← List.map_reverse] at hls
  cases hrev : elems.reverse with
  | nil => rw [hrev] at hls; cases hls
  | cons e p =>
    rw [hrev] at hls
    simp only [List.map_cons, Except.ok.injEq] at hls
    obtain ⟨blocks, hb1, hb2, hb3⟩ := subLoop_blocks nf p [e] e.num 1 [] (by simp) (by simp)
      (by simp)
    have hel : elems = p.reverse ++ [e] := by
      rw [← List.reverse_reverse elems, hrev]; simp
    refine ⟨blocks, ser, hb1, by rw [hb2, hel], by simp [hel], hs, ?_⟩
    rw [← h, ← hls]
    simp only [List.map_cons, List.map_nil, List.append_nil] at hb3
    rw [hb3]
    rfl

end Pdf
