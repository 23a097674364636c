/-
C95 and C96: the matrix of the cache and the history of the data.
-/
import Verif.Model.Pprint
import Verif.Lemmas.Dec
import Verif.Lemmas.Reload
import Verif.Props.C33_Remove

namespace Pdf
open Spec

/-! ### The matrix -/

/-- The beginning of the line `q`. -/
def rowHead (q : Nat) : Bytes := padLeft 5 (natDec q ++ b!"_") ++ b!" "

theorem tens (i : Nat) : (i - i % 10) / 10 = i / 10 := by omega

theorem cacheLoop_first (doc : Doc) (n : Nat) : ∀ (os : List Obj) (i : Nat) (line : Bytes), os ≠ [] → i + os.length = n →
    ∃ t rest, cacheLoop doc n i line os = (rowHead (i / 10) ++ (line ++ t)) :: rest
  | [], _, _, h, _ => absurd rfl h
  | o :: os, i, line, _, hn => by
    rw [cacheLoop]
    by_cases hc : i % 10 = 9 ∨ i = n - 1
    · simp only [if_pos hc, tens]
      exact ⟨_, _, rfl⟩
    · simp only [if_neg hc]
      have hne : os ≠ [] := by
        rintro rfl
        simp at hn
        omega
      obtain ⟨t, rest, h⟩ := cacheLoop_first doc n os (i + 1) (line ++ [cacheMark doc i o]) hne (by simp at hn; omega)
      rw [h, show (i + 1) / 10 = i / 10 by omega, List.append_assoc]
      exact ⟨_, _, rfl⟩

theorem cacheLoop_marks (doc : Doc) (n : Nat) : ∀ (os : List Obj) (i : Nat) (line : Bytes), line.length = i % 10 → i + os.length = n →
    ∀ (k : Nat) (o : Obj), os[k]? = some o → ∃ marks, (cacheLoop doc n i line os)[(i + k) / 10 - i / 10]? = some (rowHead ((i + k) / 10) ++ marks) ∧
      marks[(i + k) % 10]? = some (cacheMark doc (i + k) o)
  | [], _, _, _, _, k, o, h => by simp at h
  | o :: os, i, line, hl, hn, 0, o', h => by
    simp only [List.getElem?_cons_zero, Option.some.injEq] at h
    subst h
    rw [cacheLoop]
    simp only [Nat.add_zero, Nat.sub_self]
    have hm : ∀ t, (line ++ [cacheMark doc i o] ++ t)[i % 10]? = some (cacheMark doc i o) := by
      intro t
      rw [List.append_assoc, List.getElem?_append_right (by omega), hl, Nat.sub_self]
      rfl
    by_cases hc : i % 10 = 9 ∨ i = n - 1
    · simp only [if_pos hc, tens]
      refine ⟨_, rfl, ?_⟩
      have := hm []
      rwa [List.append_nil] at this
    · simp only [if_neg hc]
      have hne : os ≠ [] := by
        rintro rfl
        simp at hn
        omega
      obtain ⟨t, rest, h⟩ := cacheLoop_first doc n os (i + 1) (line ++ [cacheMark doc i o]) hne (by simp at hn; omega)
      rw [h, show (i + 1) / 10 = i / 10 by omega]
      exact ⟨_, rfl, hm t⟩
  | o :: os, i, line, hl, hn, k + 1, o', h => by
    rw [List.getElem?_cons_succ] at h
    have hk : k < os.length := (List.getElem?_eq_some_iff.1 h).1
    rw [List.length_cons] at hn
    rw [cacheLoop]
    by_cases h9 : i % 10 = 9
    · simp only [if_pos (Or.inl h9 : i % 10 = 9 ∨ i = n - 1)]
      obtain ⟨marks, h1, h2⟩ := cacheLoop_marks doc n os (i + 1) [] (by simp; omega) (by omega) k o' h
      rw [show i + 1 + k = i + (k + 1) by omega] at h1 h2
      refine ⟨marks, ?_, h2⟩
      rw [show (i + (k + 1)) / 10 - i / 10 = (i + (k + 1)) / 10 - (i + 1) / 10 + 1 by omega, List.getElem?_cons_succ]
      exact h1
    · have hc : ¬ (i % 10 = 9 ∨ i = n - 1) := by omega
      simp only [if_neg hc]
      obtain ⟨marks, h1, h2⟩ := cacheLoop_marks doc n os (i + 1) (line ++ [cacheMark doc i o]) (by simp [hl]; omega) (by omega) k o' h
      rw [show i + 1 + k = i + (k + 1) by omega, show (i + 1) / 10 = i / 10 by omega] at h1
      rw [show i + 1 + k = i + (k + 1) by omega] at h2
      exact ⟨marks, h1, h2⟩

theorem rowHead_length {q : Nat} (h : q < 10000) : (rowHead q).length = 6 := by
  have := (natDec_length_le q 4 (by omega)).2 (by simpa using h)
  simp only [rowHead, padLeft, List.length_append, List.length_replicate, List.length_cons, List.length_nil]
  omega

/-- The numbers of the changes are distinct. -/
theorem changes_unique (doc : Doc) : (changes doc).Pairwise fun a b => a.num ≠ b.num := by
  unfold changes
  rw [List.pairwise_filterMap]
  refine (List.pairwise_lt_range' (s := 1) (n := doc.cur.length - 1) (step := 1)).imp ?_
  intro a b hab x hx y hy
  have key : ∀ (i : Nat) (c : Change), (match doc.cur[i]? with
      | some (Slot.one e) => if (doc.cur[0]?).bind Slot.xrefStreamNum? = some (i : Int) then none
        else (changeOf (prevRev doc) i e).map fun act => (⟨e.gen, i, act⟩ : Change)
      | _ => none) = some c → c.num = i := by
    intro i c h
    split at h
    · split at h
      · cases h
      · obtain ⟨_, -, rfl⟩ := Option.map_eq_some_iff.1 h
        rfl
    · cases h
  have h1 := key a x hx
  have h2 := key b y hy
  omega

/-- **C95.** In the matrix that `pprint_cache` prints, under the digit `i % 10` of the first line and on the line `i / 10`, is the mark of the
object `i`: the letter of its change if the object is changed, else `-` if it is not in memory, else `x`.
Partial: for the first 100000 objects (on the next lines the marks are shifted). -/
theorem C95_matrix_partial (doc : Doc) (i : Nat) (o : Obj) (h : doc.cache[i]? = some o) (hi : i < 100000) :
    ∃ head line mark, (cacheMatrix doc)[0]? = some head ∧ (cacheMatrix doc)[i / 10 + 1]? = some line ∧
      head[6 + i % 10]? = some (UInt8.ofNat (48 + i % 10)) ∧ line[6 + i % 10]? = some mark ∧
      (∀ c ∈ changes doc, c.num = i → mark = match c.act with | .a => 97 | .u => 117 | .d => 100) ∧
      ((∀ c ∈ changes doc, c.num ≠ i) → mark = if o = .null then 45 else 120) := by
  obtain ⟨marks, h1, h2⟩ := cacheLoop_marks doc doc.cache.length doc.cache 0 [] rfl (by omega) i o h
  simp only [Nat.zero_add, Nat.zero_div, Nat.sub_zero] at h1 h2
  refine ⟨_, _, cacheMark doc i o, rfl, by rw [cacheMatrix, List.getElem?_cons_succ]; exact h1, ?_, ?_, ?_, ?_⟩
  · have : i % 10 < 10 := Nat.mod_lt _ (by omega)
    generalize i % 10 = j at this
    match j, this with
    | 0, _ => rfl
    | 1, _ => rfl
    | 2, _ => rfl
    | 3, _ => rfl
    | 4, _ => rfl
    | 5, _ => rfl
    | 6, _ => rfl
    | 7, _ => rfl
    | 8, _ => rfl
    | 9, _ => rfl
  · rw [List.getElem?_append_right (by rw [rowHead_length (by omega)]; omega), rowHead_length (by omega),
      show 6 + i % 10 - 6 = i % 10 by omega]
    exact h2
  · intro c hc hn
    have : (changes doc).reverse.find? (fun c => decide (c.num = i)) = some c := by
      have hu := changes_unique doc
      cases hf : (changes doc).reverse.find? (fun c => decide (c.num = i)) with
      | none =>
        have := List.find?_eq_none.1 hf c (List.mem_reverse.2 hc)
        simp [hn] at this
      | some c' =>
        have h1 := List.mem_reverse.1 (List.mem_of_find?_eq_some hf)
        have h2 : c'.num = i := by simpa using List.find?_some hf
        obtain ⟨j, hj, rfl⟩ := List.mem_iff_getElem.1 h1
        obtain ⟨k, hk, rfl⟩ := List.mem_iff_getElem.1 hc
        have := List.pairwise_iff_getElem.1 hu
        rcases Nat.lt_trichotomy j k with hjk | rfl | hjk
        · exact absurd (h2.trans hn.symm) (this j k hj hk hjk)
        · rfl
        · exact absurd (hn.trans h2.symm) (this k j hk hj hjk)
    unfold cacheMark changeLetter
    rw [this]
    simp only [Option.map_some]
    cases c.act <;> rfl
  · intro hc
    have : (changes doc).reverse.find? (fun c => decide (c.num = i)) = none := by
      rw [List.find?_eq_none]
      intro c h
      simpa using hc c (List.mem_reverse.1 h)
    unfold cacheMark changeLetter
    rw [this]
    rfl

/-- Twelve objects, the last one just added: on the second line, under the digit 1. -/
example : (addObject { memDoc (List.replicate 11 (.int 5)) with past := [(memDoc (List.replicate 11 (.int 5))).cur] } (.int 7)).map (fun r => cacheMatrix r.1) =
    .ok [b!"      0123456789", b!"   0_ xxxxxxxxxx", b!"   1_ xa", b!""] := by kernel_rfl

/-! ### The history -/

/-- A line of the history: a label, then a cell for each revision, each with a value. -/
def Spec.historyLine (label : Bytes) (values : List Bytes) : Bytes :=
  label ++ List.replicate (10 - label.length) 32 ++ values.flatMap fun v => b!"| " ++ v ++ List.replicate (10 - v.length) 32 ++ b!" "

/-- A number, `None` for nothing. -/
def Spec.shownNumber : Option Nat → Bytes
  | none => b!"None"
  | some n => if n = 0 then b!"None" else natDec n

theorem orNone_eq (x : Option Nat) : orNone x = shownNumber x := by
  cases x with
  | none => rfl
  | some n => cases n <;> rfl

theorem mapM_range {α : Type} (f : Nat → Py α) (g : Nat → α) (l : List Nat) (h : ∀ i ∈ l, f i = .ok (g i)) : l.mapM f = .ok (l.map g) := by
  induction l with
  | nil => rfl
  | cons a l ih =>
    rw [List.mapM_cons, h a List.mem_cons_self, ih fun i hi => h i (List.mem_cons_of_mem _ hi)]
    rfl

theorem mapM_sizes {data : List Data} : ∀ {sizes : List Nat}, data.mapM (fun d => d.fdata.size) = .ok sizes →
    sizes.length = data.length ∧ ∀ (i : Nat) (d : Data), data[i]? = some d → ∃ sz, sizes[i]? = some sz ∧ d.fdata.size = .ok sz := by
  induction data with
  | nil => intro sizes h; cases h; exact ⟨rfl, fun i d h => by simp at h⟩
  | cons a data ih =>
    intro sizes h
    rw [List.mapM_cons] at h
    obtain ⟨sz, h1, h⟩ := bind_eq_ok h
    obtain ⟨rest, h2, h⟩ := bind_eq_ok h
    cases h
    obtain ⟨i1, i2⟩ := ih h2
    refine ⟨by simp [i1], fun i d hd => ?_⟩
    cases i with
    | zero => simp only [List.getElem?_cons_zero, Option.some.injEq] at hd; subst hd; exact ⟨sz, rfl, h1⟩
    | succ i => exact i2 i d hd

/-- The history of the data: the kind of each provider, the size of the data, that of the added part, and for the revision `i`, but the first,
the cut of the revision `n - i`, `n` being the number of revisions. -/
theorem C96_exact (doc : Doc) (sizes : List Nat) (h : doc.data.mapM (fun d => d.fdata.size) = .ok sizes) :
    dataHistory doc = .ok [historyLine b!"data_f()" (doc.data.map fun d => providerName d.fdata),
      historyLine b!"data_sz" (sizes.map natDec),
      historyLine b!"add_data" (doc.data.map fun d => shownNumber (d.bdata.map List.length)),
      historyLine b!"eof_cut" ((doc.data.take 1 ++ (doc.data.drop 1).reverse).map fun d => shownNumber d.eofCut)] := by
  obtain ⟨hlen, hsz⟩ := mapM_sizes h
  unfold dataHistory
  generalize doc.data = data at *
  clear h
  let D : Data := ⟨.single [], none, none⟩
  have hcol : ∀ i ∈ List.range data.length, historyColumn data i = .ok [providerName (data.getD i D).fdata, natDec (sizes.getD i 0),
      shownNumber ((data.getD i D).bdata.map List.length), shownNumber ((data.take 1 ++ (data.drop 1).reverse).getD i D).eofCut] := by
    intro i hi
    have hi : i < data.length := by simpa using hi
    obtain ⟨sz, h1, h2⟩ := hsz i _ (List.getElem?_eq_getElem hi)
    have hc : data[(data.length - i) % data.length]? = (data.take 1 ++ (data.drop 1).reverse)[i]? := by
      cases i with
      | zero =>
        rw [Nat.sub_zero, Nat.mod_self]
        cases data with
        | nil => simp at hi
        | cons a l => rfl
      | succ i =>
        rw [Nat.mod_eq_of_lt (by omega), List.getElem?_append_right (by simp), List.length_take, show min 1 data.length = 1 by omega,
          List.getElem?_reverse (by simp; omega), List.length_drop, List.getElem?_drop]
        congr 1
        omega
    have hi' : (data.length - i) % data.length < data.length := Nat.mod_lt _ (by omega)
    unfold historyColumn
    rw [hc]
    have hl : i < (data.take 1 ++ (data.drop 1).reverse).length := by simp; omega
    rw [List.getElem?_eq_getElem hi, List.getElem?_eq_getElem hl]
    simp only [orRaise, List.getD, List.getElem?_eq_getElem hi, List.getElem?_eq_getElem hl, h1, Option.getD_some]
    show (do let sz ← (data[i]).fdata.size; Except.ok _) = _
    rw [h2, orNone_eq, orNone_eq]
    rfl
  have hm : ∀ {α : Type} (l : List α) (d : α) (f : α → Bytes) (n : Nat), l.length = n → (List.range n).map (fun i => f (l.getD i d)) = l.map f := by
    rintro α l d f n rfl
    apply List.ext_getElem?
    intro i
    rw [List.getElem?_map, List.getElem?_map]
    by_cases hi : i < l.length
    · rw [List.getElem?_range hi, List.getElem?_eq_getElem hi]
      simp [List.getD, List.getElem?_eq_getElem hi]
    · rw [List.getElem?_eq_none (by rw [List.length_range]; omega), List.getElem?_eq_none (by omega)]
      rfl
  rw [mapM_range _ _ _ hcol]
  show Except.ok _ = _
  have hline : ∀ (label : Bytes) (v : Nat → Bytes), padRight 10 label ++ ((List.range data.length).flatMap fun i => b!"| " ++ padRight 10 (v i) ++ b!" ") =
      historyLine label ((List.range data.length).map v) := by
    intro label v
    simp only [historyLine, padRight, List.flatMap_map, List.append_assoc]
  simp only [List.map_cons, List.map_nil, List.flatMap_map, List.getD_cons_zero, List.getD_cons_succ, hline]
  rw [hm data D (fun d => providerName d.fdata) _ rfl, hm sizes 0 natDec _ hlen, hm data D (fun d => shownNumber (d.bdata.map List.length)) _ rfl,
    hm _ D (fun d => shownNumber d.eofCut) _ (by simp; omega)]

/-- **C96.** The history of the data shows, for each revision in order, the kind of its provider, the size of its data, the size of the part it
adds, and where it is cut.
Partial: for one or two revisions (`C96_counterexample`), when the size of the data is known (it is not for a document made from scratch,
`C96_blank_counterexample`). -/
theorem C96_history_partial (doc : Doc) (sizes : List Nat) (h : doc.data.mapM (fun d => d.fdata.size) = .ok sizes) (hn : doc.data.length ≤ 2) :
    dataHistory doc = .ok [historyLine b!"data_f()" (doc.data.map fun d => providerName d.fdata),
      historyLine b!"data_sz" (sizes.map natDec),
      historyLine b!"add_data" (doc.data.map fun d => shownNumber (d.bdata.map List.length)),
      historyLine b!"eof_cut" (doc.data.map fun d => shownNumber d.eofCut)] := by
  rw [C96_exact doc sizes h]
  have : doc.data.take 1 ++ (doc.data.drop 1).reverse = doc.data := by
    match hd : doc.data, hn with
    | [], _ => rfl
    | [_], _ => rfl
    | [_, _], _ => rfl
  rw [this]

/-- The cuts of the second and third revisions of a file are exchanged. -/
theorem C96_counterexample : (dataHistory
    { cur := [], past := [], cache := [],
      curData := ⟨.single b!"abc", none, some 30⟩, pastData := [⟨.single b!"abc", none, some 20⟩, ⟨.single b!"abc", none, some 10⟩] }).map (·.getLast?) =
    .ok (some b!"eof_cut   | 10         | 30         | 20         ") := by kernel_rfl

/-- The data of a document made from scratch has no size: the display fails. -/
theorem C96_blank_counterexample (doc : Doc) (s : Bytes) (b : Option Bytes) (c : Option Nat) (hp : doc.pastData = []) (hd : doc.curData = ⟨.dummy s, b, c⟩) :
    ∃ e, dataHistory doc = .error e := by
  have : doc.data = [⟨.dummy s, b, c⟩] := by simp [Doc.data, hp, hd]
  unfold dataHistory
  rw [this]
  refine ⟨.typeError, ?_⟩
  have : List.range [(⟨.dummy s, b, c⟩ : Data)].length = [0] := rfl
  have h0 : historyColumn [(⟨.dummy s, b, c⟩ : Data)] 0 = .error .typeError := by
    unfold historyColumn
    simp [Provider.size, orRaise]
    rfl
  rw [this, List.mapM_cons, h0]
  rfl

example : dataHistory
    { cur := [], past := [], cache := [],
      curData := ⟨.merged (.single b!"abc") 3 b!"defg", some b!"defg", none⟩, pastData := [⟨.single b!"abc", none, some 3⟩] } = .ok [
    b!"data_f()  | single     | composite  ",
    b!"data_sz   | 3          | 7          ",
    b!"add_data  | None       | 4          ",
    b!"eof_cut   | 3          | None       "] := by kernel_rfl

end Pdf
