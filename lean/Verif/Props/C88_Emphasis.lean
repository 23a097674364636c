/-
C88: emphasis and code in markdown texts (markdown.py:55-105 `style`).
-/
import Verif.Lemmas.Markdown
import Verif.Lemmas.KernelRfl
import Verif.Lemmas.Revision
import Verif.Props.C87_Links

namespace Pdf

/-! ### The turns of the loop -/

/-- One turn. -/
def styleNext (s : Bytes) (st : StyleState) (c : UInt8) : StyleState :=
  let st := styleChar s c (if 0 < st.i then s.getD (st.i - 1) 0 else 32) st
  let st := { st with i := st.i + 1 }
  if st.i = s.length then { st with res := st.res ++ slice s st.current st.i } else st

theorem styleChar_i (s : Bytes) (c p : UInt8) (st : StyleState) : st.i ≤ (styleChar s c p st).i := by
  unfold styleChar
  repeat' split
  all_goals simp

theorem styleNext_i (s : Bytes) (st : StyleState) (c : UInt8) : st.i < (styleNext s st c).i := by
  have := styleChar_i s c (if 0 < st.i then s.getD (st.i - 1) 0 else 32) st
  unfold styleNext
  generalize styleChar s c (if 0 < st.i then s.getD (st.i - 1) 0 else 32) st = st' at this ⊢
  simp only
  split <;> (try simp only) <;> omega

theorem styleLoop_fuel (s : Bytes) : ∀ (n m : Nat) (st : StyleState), s.length - st.i ≤ n → s.length - st.i ≤ m →
    styleLoop s n st = styleLoop s m st
  | 0, 0, _, _, _ => rfl
  | 0, m + 1, st, h, _ => by
    unfold styleLoop
    rw [List.getElem?_eq_none (by omega)]
  | n + 1, 0, st, _, h => by
    unfold styleLoop
    rw [List.getElem?_eq_none (by omega)]
  | n + 1, m + 1, st, h1, h2 => by
    unfold styleLoop
    cases hc : s[st.i]? with
    | none => rfl
    | some c =>
      have hlt := lt_of_getElem? hc
      have := styleNext_i s st c
      exact styleLoop_fuel s n m (styleNext s st c) (by omega) (by omega)

/-- The rest of the loop. -/
def styleRun (s : Bytes) (st : StyleState) : Bytes := styleLoop s s.length st

theorem styleRun_step {s : Bytes} {st : StyleState} {c : UInt8} (h : s[st.i]? = some c) :
    styleRun s st = styleRun s (styleNext s st c) := by
  have hlt := lt_of_getElem? h
  unfold styleRun
  rw [styleLoop_fuel s s.length (s.length + 1) st (by omega) (by omega)]
  conv => lhs; unfold styleLoop
  rw [h]
  rfl

theorem styleRun_end {s : Bytes} {st : StyleState} (h : s.length ≤ st.i) : styleRun s st = st.res := by
  unfold styleRun
  rw [styleLoop_fuel s s.length 0 st (by omega) (by omega)]
  rfl

/-! ### Parts of a text -/

/-- A part of a text. -/
inductive MdMark
  | plain (s : Bytes)
  | code (s : Bytes)
  | em (s : Bytes)
  | strong (s : Bytes)
  | both (s : Bytes)

/-- How it is written. -/
def MdMark.source : MdMark → Bytes
  | .plain s => s
  | .code s => b!"`" ++ (s ++ b!"`")
  | .em s => b!"*" ++ (s ++ b!"*")
  | .strong s => b!"**" ++ (s ++ b!"**")
  | .both s => b!"***" ++ (s ++ b!"***")

/-- How it is shown. -/
def MdMark.html : MdMark → Bytes
  | .plain s => s
  | .code s => b!"<code>" ++ s ++ b!"</code>"
  | .em s => b!"<em>" ++ s ++ b!"</em>"
  | .strong s => b!"<strong>" ++ s ++ b!"</strong>"
  | .both s => b!"<em><strong>" ++ s ++ b!"</strong></em>"

/-- No mark opens in this text, which follows `p`: no backquote nor star, and underscores in words only. -/
def NoOpen : UInt8 → Bytes → Prop
  | _, [] => True
  | p, c :: s => c ≠ 96 ∧ c ≠ 42 ∧ (c = 95 → p ≠ 32 ∧ p ≠ 91 ∧ p ≠ 62) ∧ NoOpen c s

theorem NoOpen.weaken {s : Bytes} (p : UInt8) (h : NoOpen 32 s) : NoOpen p s := by
  cases s with
  | nil => trivial
  | cons c s =>
    obtain ⟨h1, h2, h3, h4⟩ := h
    exact ⟨h1, h2, fun hc => absurd rfl (h3 hc).1, h4⟩

/-- The parts have none of the marks. -/
def MdMark.Good : MdMark → Prop
  | .plain s => NoOpen 32 s
  | .code s => 96 ∉ s
  | .em s | .strong s | .both s => s ≠ [] ∧ 42 ∉ s ∧ 95 ∉ s

/-- A text of at least `n` characters comes next, or nothing does. -/
def Room (n : Nat) : List MdMark → Prop
  | [] => True
  | .plain s :: _ => n ≤ s.length
  | _ :: _ => n = 0

/-- The parts are good, and what follows an emphasis is long enough: the loop jumps over it. -/
def GoodMarks : List MdMark → Prop
  | [] => True
  | p :: ps => p.Good ∧ GoodMarks ps ∧ match p with
    | .em _ => Room 2 ps
    | .strong _ => Room 1 ps
    | _ => True

/-- The character before. -/
def lastOr (s : Bytes) : UInt8 := s.getLast?.getD 32

theorem before_eq {s X Y : Bytes} (hs : s = X ++ Y) :
    (if 0 < X.length then s.getD (X.length - 1) 0 else 32) = lastOr X := by
  unfold lastOr
  rw [List.getLast?_eq_getElem?]
  by_cases h : 0 < X.length
  · rw [if_pos h, hs, List.getD_eq_getElem?_getD, List.getElem?_append_left (by omega), List.getElem?_eq_getElem (by omega)]
    rfl
  · rw [if_neg h]
    have : X = [] := List.length_eq_zero_iff.1 (by omega)
    subst this
    rfl

theorem md_slice {s A B C : Bytes} {i k : Nat} (hs : s = A ++ (B ++ C)) (hi : i = A.length) (hk : k = A.length + B.length) :
    slice s i k = B := by
  unfold slice
  rw [hs, hi, hk, ← List.append_assoc, List.take_left' (by simp), List.drop_left]

/-- A turn on a character that does nothing. -/
theorem run_idle {s X R : Bytes} {c : UInt8} {st : StyleState} (hs : s = X ++ (c :: R)) (hi : st.i = X.length)
    (hidle : styleChar s c (lastOr X) st = st) :
    styleRun s st = if R = [] then st.res ++ slice s st.current s.length else styleRun s { st with i := st.i + 1 } := by
  rw [styleRun_step (c := c) (by rw [hi, hs]; simp)]
  unfold styleNext
  rw [hi, before_eq hs, hidle]
  have hlen : s.length = X.length + (R.length + 1) := by rw [hs]; lens
  simp only [hi]
  by_cases hR : R = []
  · subst hR
    have : X.length + 1 = s.length := by rw [hlen]; rfl
    rw [if_pos this, if_pos rfl, styleRun_end (by simp only; omega), this]
  · rw [if_neg, if_neg hR]
    have : 0 < R.length := by
      cases R with
      | nil => exact absurd rfl hR
      | cons _ _ => simp
    omega

/-- Characters that do nothing. -/
theorem run_idles {s : Bytes} {st : StyleState} : ∀ (t X R : Bytes) (i : Nat), s = X ++ (t ++ R) → i = X.length → R ≠ [] →
    (∀ c ∈ t, ∀ p i, styleChar s c p { st with i := i } = { st with i := i }) →
    styleRun s { st with i := i } = styleRun s { st with i := i + t.length }
  | [], _, _, _, _, _, _, _ => rfl
  | c :: t, X, R, i, hs, hi, hR, h => by
    rw [run_idle (X := X) (R := t ++ R) (c := c) (by rw [hs]; rfl) hi (h c (List.mem_cons_self ..) _ _), if_neg (by simp [hR])]
    simp only
    have := run_idles t (X ++ [c]) R (i + 1) (by rw [hs]; simp) (by lens) hR (fun d hd => h d (List.mem_cons_of_mem _ hd))
    rw [this, List.length_cons, Nat.add_assoc, Nat.add_comm 1]

theorem source_nil : ∀ {ps : List MdMark}, ps.flatMap MdMark.source = [] → ps.flatMap MdMark.html = []
  | [], _ => rfl
  | p :: ps, h => by
    rw [List.flatMap_cons, List.append_eq_nil_iff] at h
    rw [List.flatMap_cons, source_nil h.2]
    cases p with
    | plain s => exact (List.append_nil _).trans h.1
    | _ => simp [MdMark.source] at h

theorem NoOpen.split {b : Bytes} : ∀ {a : Bytes} {p : UInt8}, NoOpen p (a ++ b) → NoOpen ((a.getLast?).getD p) b
  | [], _, h => h
  | [c], _, h => h.2.2.2
  | c :: d :: a, p, h => by
    have := NoOpen.split (a := d :: a) h.2.2.2
    rw [List.getLast?_cons_cons]
    rw [List.getLast?_eq_some_getLast (List.cons_ne_nil d a)] at this ⊢
    exact this

theorem lastOr_append (a : Bytes) (c : UInt8) : lastOr (a ++ [c]) = c := by
  unfold lastOr
  rw [List.getLast?_concat]
  rfl

theorem idle_plain {st : StyleState} {c p : UInt8} {s : Bytes} (hst : st.search = none) (h1 : c ≠ 96) (h2 : c ≠ 42)
    (h3 : c = 95 → p ≠ 32 ∧ p ≠ 91 ∧ p ≠ 62) : styleChar s c p st = st := by
  unfold styleChar
  rw [hst]
  simp only
  rw [if_neg h1, if_neg]
  rintro (h | ⟨h | h | h, h'⟩)
  · exact h2 h
  · exact (h3 h').1 h
  · exact (h3 h').2.1 h
  · exact (h3 h').2.2 h

/-- What the loop gives from a state out of marks: `D` is shown, `A` is the text since. -/
def ShowsMarks (s : Bytes) (ps : List MdMark) : Prop := ∀ (D A res : Bytes), s = D ++ (A ++ ps.flatMap MdMark.source) →
  styleRun s ⟨D.length + A.length, D.length, false, none, res⟩ =
    if ps.flatMap MdMark.source = [] then res else res ++ (A ++ ps.flatMap MdMark.html)

theorem shows_plain {s : Bytes} {ps : List MdMark} (hp : ShowsMarks s ps) : ∀ (t D A res : Bytes), NoOpen (lastOr (D ++ A)) t →
    s = D ++ (A ++ (t ++ ps.flatMap MdMark.source)) →
    styleRun s ⟨D.length + A.length, D.length, false, none, res⟩ =
      if t ++ ps.flatMap MdMark.source = [] then res else res ++ (A ++ (t ++ ps.flatMap MdMark.html))
  | [], D, A, res, _, hs => hp D A res hs
  | c :: t, D, A, res, h, hs => by
    obtain ⟨h1, h2, h3, h4⟩ := h
    have hs' : s = (D ++ A) ++ (c :: (t ++ ps.flatMap MdMark.source)) := by rw [hs]; simp
    rw [run_idle hs' (by lens) (idle_plain rfl h1 h2 h3), if_neg (show ¬ (c :: t ++ ps.flatMap MdMark.source = []) by simp)]
    by_cases hR : t ++ ps.flatMap MdMark.source = []
    · rw [if_pos hR]
      have ht : t = [] ∧ ps.flatMap MdMark.source = [] := List.append_eq_nil_iff.1 hR
      simp only
      rw [md_slice (A := D) (B := A ++ [c]) (C := []) (by rw [hs, ht.1, ht.2]; simp) rfl (by rw [hs, ht.1, ht.2]; lens)]
      rw [source_nil ht.2, ht.1]
      simp
    · rw [if_neg hR]
      have := shows_plain hp t D (A ++ [c]) res (by rw [← List.append_assoc, lastOr_append]; exact h4) (by rw [hs]; simp)
      rw [if_neg hR] at this
      simp only
      rw [show D.length + A.length + 1 = D.length + (A ++ [c]).length by lens, this]
      simp

/-- After a mark is closed. -/
theorem run_resume {s D A R : Bytes} {i cur : Nat} {accu : Bool} {q : Option Bytes} {res : Bytes} (hs : s = D ++ (A ++ R))
    (hi : i = D.length + A.length) (hc : cur = D.length) :
    styleRun s (if i = s.length then ⟨i, cur, accu, q, res ++ slice s cur i⟩ else ⟨i, cur, accu, q, res⟩) =
      if R = [] then res ++ A else styleRun s ⟨i, cur, accu, q, res⟩ := by
  by_cases hR : R = []
  · rw [if_pos hR, if_pos (by rw [hs, hR]; lens), styleRun_end (by simp only; rw [hs, hR]; lens)]
    simp only
    rw [md_slice (A := D) (B := A) hs hc hi]
  · rw [if_neg hR, if_neg]
    have : 0 < R.length := by
      cases R with
      | nil => exact absurd rfl hR
      | cons _ _ => simp
    rw [hs]
    lens

theorem shows_code {s : Bytes} {ps : List MdMark} {t : Bytes} (hp : ShowsMarks s ps) (ht : 96 ∉ t) : ShowsMarks s (.code t :: ps) := by
  intro D A res hs
  have hs0 : s = (D ++ A) ++ (96 :: (t ++ (96 :: ps.flatMap MdMark.source))) := by
    rw [hs, List.flatMap_cons]
    simp [MdMark.source]
  rw [if_neg (by rw [List.flatMap_cons]; simp [MdMark.source])]
  rw [styleRun_step (c := 96) (by rw [hs0]; simp)]
  unfold styleNext
  rw [show D.length + A.length = (D ++ A).length by lens, before_eq hs0]
  have hlen : s.length = (D ++ A).length + (t.length + (ps.flatMap MdMark.source).length + 2) := by rw [hs0]; lens
  simp only [styleChar, if_true]
  rw [if_neg (by omega)]
  rw [md_slice (A := D) (B := A) hs rfl (by lens)]
  have e1 := run_idles (s := s) (st := ⟨0, (D ++ A).length, false, some [96], res ++ A⟩) t (D ++ A ++ [96]) (96 :: ps.flatMap MdMark.source)
    ((D ++ A).length + 1) (by rw [hs0]; simp) (by lens) (by simp) (by
      intro c hc p i
      have : c ≠ 96 := fun h => ht (h ▸ hc)
      simp [styleChar, this])
  rw [e1]
  rw [styleRun_step (c := 96) (by
    rw [hs0, List.getElem?_append_right (by lens)]
    simp only
    rw [show (D ++ A).length + 1 + t.length - (D ++ A).length = t.length + 1 by omega]
    simp)]
  unfold styleNext
  simp only [styleChar, reduceIte]
  rw [md_slice (A := D ++ A ++ [96]) (B := t) (C := 96 :: ps.flatMap MdMark.source) (by rw [hs0]; simp) (by lens) (by lens)]
  rw [run_resume (D := D ++ A ++ (96 :: (t ++ [96]))) (A := []) (R := ps.flatMap MdMark.source) (by rw [hs0]; simp) (by lens) (by lens)]
  have := hp (D ++ A ++ (96 :: (t ++ [96]))) [] (res ++ A ++ (b!"<code>" ++ t ++ b!"</code>")) (by rw [hs0]; simp)
  by_cases hR : ps.flatMap MdMark.source = []
  · rw [if_pos hR, List.flatMap_cons, source_nil hR]
    simp [MdMark.html]
  · rw [if_neg hR] at this ⊢
    rw [List.length_nil, Nat.add_zero] at this
    rw [show (D ++ A).length + 1 + t.length + 1 = (D ++ A ++ (96 :: (t ++ [96]))).length by lens]
    rw [this, List.flatMap_cons]
    simp [MdMark.html]

theorem run_accu {s : Bytes} {cur : Nat} {res : Bytes} : ∀ (n : Nat) (X Y q : Bytes), s = X ++ (List.replicate n 42 ++ Y) → Y ≠ [] →
    q ≠ [96] → 42 ∈ q → styleRun s ⟨X.length, cur, true, some q, res⟩ = styleRun s ⟨X.length + n, cur, true, some (q ++ List.replicate n 42), res⟩
  | 0, X, Y, q, _, _, _, _ => by simp
  | n + 1, X, Y, q, hs, hY, hq, hm => by
    have hs' : s = X ++ (42 :: (List.replicate n 42 ++ Y)) := by rw [hs, List.replicate_succ]; simp
    have hpos : 0 < Y.length := by
      cases Y with
      | nil => exact absurd rfl hY
      | cons _ _ => simp
    rw [styleRun_step (c := 42) (by rw [hs']; simp)]
    unfold styleNext
    simp only [styleChar]
    rw [if_neg hq]
    simp only [if_true, true_or]
    rw [if_neg (by rw [hs']; simp only [List.length_append, List.length_cons]; omega)]
    have := run_accu (s := s) (cur := cur) (res := res) n (X ++ [42]) Y (q ++ [42]) (by rw [hs']; simp) hY (by
      intro h
      cases q with
      | nil => cases hm
      | cons a q => simp at h) (by simp)
    rw [show (X ++ [(42 : UInt8)]).length = X.length + 1 by lens] at this
    rw [this, List.append_assoc, List.singleton_append, ← List.replicate_succ, Nat.add_assoc, Nat.add_comm 1]

/-- The marks, the text and the marks again. -/
def emSource (k : Nat) (t : Bytes) : Bytes := List.replicate k 42 ++ (t ++ List.replicate k 42)

/-- How it is shown. -/
def emHtml (k : Nat) (t : Bytes) : Bytes :=
  if k = 1 then b!"<em>" ++ t ++ b!"</em>"
  else if k = 2 then b!"<strong>" ++ t ++ b!"</strong>"
  else if k = 3 then b!"<em><strong>" ++ t ++ b!"</strong></em>"
  else []

/-- From the opening to the closing. -/
theorem run_em {s D A t R res : Bytes} {k : Nat} (hk : 1 ≤ k) (ht : t ≠ []) (h42 : 42 ∉ t) (h95 : 95 ∉ t)
    (hs : s = D ++ (A ++ (emSource k t ++ R))) :
    let i := (D ++ A).length + k + t.length + 3
    let cur := (D ++ (A ++ emSource k t)).length
    let res' := res ++ A ++ emHtml k t
    styleRun s ⟨D.length + A.length, D.length, false, none, res⟩ =
      styleRun s (if i = s.length then ⟨i, cur, false, none, res' ++ slice s cur i⟩ else ⟨i, cur, false, none, res'⟩) := by
  simp only
  obtain ⟨c0, t0, rfl⟩ : ∃ c t0, t = c :: t0 := by
    cases t with
    | nil => exact absurd rfl ht
    | cons c t0 => exact ⟨c, t0, rfl⟩
  obtain ⟨n, rfl⟩ : ∃ n, k = n + 1 := ⟨k - 1, by omega⟩
  simp only [List.mem_cons, not_or] at h42 h95
  have hs1 : s = (D ++ A) ++ (42 :: (List.replicate n 42 ++ (c0 :: (t0 ++ (42 :: (List.replicate n 42 ++ R)))))) := by
    rw [hs]
    simp [emSource, List.replicate_succ]
  have hlen : s.length = (D ++ A).length + (2 * n + t0.length + 3 + R.length) := by
    rw [hs1]
    simp only [List.length_append, List.length_cons, List.length_replicate]
    omega
  -- the first mark
  rw [styleRun_step (c := 42) (by rw [hs1]; simp)]
  unfold styleNext
  rw [show D.length + A.length = (D ++ A).length by lens]
  simp only [styleChar, if_neg (show ¬ (42 : UInt8) = 96 by decide), true_or, if_true]
  rw [if_neg (by omega), md_slice (A := D) (B := A) hs rfl (by lens)]
  -- the others
  have e1 := run_accu (s := s) (cur := (D ++ A).length) (res := res ++ A) n (D ++ A ++ [42]) (c0 :: (t0 ++ (42 :: (List.replicate n 42 ++ R)))) [42]
    (by rw [hs1]; simp) (by simp) (by simp) (by simp)
  rw [show (D ++ A ++ [(42 : UInt8)]).length = (D ++ A).length + 1 by lens] at e1
  rw [e1]
  -- the first character of the text
  rw [styleRun_step (c := c0) (by
    rw [hs1, List.getElem?_append_right (by simp only; omega)]
    simp only
    rw [show (D ++ A).length + 1 + n - (D ++ A).length = n + 1 by omega, List.getElem?_cons_succ,
      List.getElem?_append_right (by simp)]
    simp)]
  unfold styleNext
  have hq : [42] ++ List.replicate n 42 ≠ [(96 : UInt8)] := by simp
  simp only [styleChar]
  rw [if_neg hq]
  simp only [if_true]
  rw [if_neg (show ¬ (c0 = 42 ∨ c0 = 95) from fun h => h.elim (fun h => h42.1 h.symm) (fun h => h95.1 h.symm))]
  simp only
  rw [if_neg (by omega)]
  -- the rest of the text
  have e2 := run_idles (s := s) (st := ⟨0, (D ++ A).length, false, some ([42] ++ List.replicate n 42), res ++ A⟩) t0
    (D ++ A ++ (42 :: (List.replicate n 42 ++ [c0]))) (42 :: (List.replicate n 42 ++ R)) ((D ++ A).length + 1 + n + 1)
    (by rw [hs1]; simp) (by simp only [List.length_append, List.length_cons, List.length_replicate, List.length_nil]; omega) (by simp) (by
      intro c hc p i
      have h1 : c ≠ 42 := fun h => h42.2 (h ▸ hc)
      have h2 : c ≠ 95 := fun h => h95.2 (h ▸ hc)
      simp only [styleChar]
      rw [if_neg hq, if_neg (by simp), if_pos (.inl (by simp)), if_neg (by simp [h1, h2])])
  rw [e2]
  -- the closing
  rw [styleRun_step (c := 42) (by
    rw [hs1, List.getElem?_append_right (by simp only; omega)]
    simp only
    rw [show (D ++ A).length + 1 + n + 1 + t0.length - (D ++ A).length = n + 1 + t0.length + 1 by omega, List.getElem?_cons_succ,
      List.getElem?_append_right (by simp; omega), List.length_replicate,
      show n + 1 + t0.length - n = t0.length + 1 by omega, List.getElem?_cons_succ, List.getElem?_append_right (by omega)]
    simp)]
  unfold styleNext
  have hql : ([42] ++ List.replicate n 42 : Bytes).length = n + 1 := by simp
  have e3 : ∀ (p : UInt8) (i : Nat), styleChar s 42 p ⟨i, (D ++ A).length, false, some ([42] ++ List.replicate n 42), res ++ A⟩ =
      ⟨i + 2, i + (n + 1), false, none, res ++ A ++ emHtml (n + 1) (slice s ((D ++ A).length + (n + 1)) i)⟩ := by
    intro p i
    unfold styleChar
    simp only
    rw [if_neg hq, if_neg (by simp), if_pos (.inl (by simp)), if_pos (.inl trivial), hql]
    rfl
  simp only [e3]
  rw [md_slice (A := D ++ A ++ List.replicate (n + 1) 42) (B := c0 :: t0) (C := 42 :: (List.replicate n 42 ++ R)) (by
      rw [hs1, List.replicate_succ]; simp)
    (by simp only [List.length_append, List.length_replicate]) (by simp only [List.length_append, List.length_replicate, List.length_cons]; omega)]
  rw [show (D ++ A).length + 1 + n + 1 + t0.length + 2 + 1 = (D ++ A).length + (n + 1) + (c0 :: t0).length + 3 by
      simp only [List.length_cons]; omega,
    show (D ++ A).length + 1 + n + 1 + t0.length + (n + 1) = (D ++ (A ++ emSource (n + 1) (c0 :: t0))).length by
      unfold emSource
      simp only [List.length_append, List.length_cons, List.length_replicate]; omega]

/-- A bold and slanted text: the loop resumes just after it. -/
theorem shows_both {s : Bytes} {ps : List MdMark} {t : Bytes} (hp : ShowsMarks s ps) (hg : (MdMark.both t).Good) : ShowsMarks s (.both t :: ps) := by
  intro D A res hs
  obtain ⟨h1, h2, h3⟩ := hg
  have hs1 : s = D ++ (A ++ (emSource 3 t ++ ps.flatMap MdMark.source)) := hs
  have hl : (emSource 3 t).length = t.length + 6 := by
    unfold emSource
    simp only [List.length_append, List.length_replicate]; omega
  rw [if_neg (by rw [List.flatMap_cons]; simp [MdMark.source]), run_em (by omega) h1 h2 h3 hs1,
    run_resume (D := D ++ (A ++ emSource 3 t)) (A := []) (R := ps.flatMap MdMark.source) (by rw [hs1]; simp)
      (by simp only [List.length_append, List.length_nil, hl]; omega) rfl]
  have := hp (D ++ (A ++ emSource 3 t)) [] (res ++ A ++ emHtml 3 t) (by rw [hs1]; simp)
  have hh : MdMark.html (.both t) = emHtml 3 t := rfl
  by_cases hR : ps.flatMap MdMark.source = []
  · rw [if_pos hR, List.flatMap_cons, source_nil hR, hh]
    simp
  · rw [if_neg hR] at this ⊢
    rw [List.length_nil, Nat.add_zero] at this
    rw [show (D ++ A).length + 3 + t.length + 3 = (D ++ (A ++ emSource 3 t)).length by
      simp only [List.length_append, hl]; omega, this, List.flatMap_cons, hh]
    simp

/-- An emphasis at the end. -/
theorem shows_em_last {s : Bytes} {k : Nat} {t : Bytes} (hk : k = 1 ∨ k = 2) (h1 : t ≠ []) (h2 : 42 ∉ t) (h3 : 95 ∉ t) (D A res : Bytes)
    (hs : s = D ++ (A ++ emSource k t)) :
    styleRun s ⟨D.length + A.length, D.length, false, none, res⟩ = res ++ (A ++ emHtml k t) := by
  have hl : (emSource k t).length = t.length + 2 * k := by
    unfold emSource
    simp only [List.length_append, List.length_replicate]; omega
  rw [run_em (k := k) (R := []) (by omega) h1 h2 h3 (by simpa using hs)]
  have hlen : s.length = D.length + A.length + (t.length + 2 * k) := by rw [hs]; simp only [List.length_append, hl]; omega
  simp only [List.length_append]
  rw [if_neg (by omega), styleRun_end (by simp only; omega)]
  simp

/-- An emphasis before a text which is long enough. -/
theorem shows_em {s : Bytes} {ps : List MdMark} {k : Nat} {t u : Bytes} (hk : k = 1 ∨ k = 2) (h1 : t ≠ []) (h2 : 42 ∉ t) (h3 : 95 ∉ t)
    (hu : NoOpen 32 u) (hl : 3 - k ≤ u.length) (hp : ShowsMarks s ps) (D A res : Bytes)
    (hs : s = D ++ (A ++ (emSource k t ++ (u ++ ps.flatMap MdMark.source)))) :
    styleRun s ⟨D.length + A.length, D.length, false, none, res⟩ = res ++ (A ++ (emHtml k t ++ (u ++ ps.flatMap MdMark.html))) := by
  have hlen : (emSource k t).length = t.length + 2 * k := by
    unfold emSource
    simp only [List.length_append, List.length_replicate]; omega
  have hu2 := List.take_append_drop (3 - k) u
  generalize hu1 : u.take (3 - k) = u1 at hu2
  generalize u.drop (3 - k) = u2 at hu2
  have hl1 : u1.length = 3 - k := by rw [← hu1, List.length_take]; omega
  subst hu2
  rw [run_em (by omega) h1 h2 h3 hs,
    run_resume (D := D ++ (A ++ emSource k t)) (A := u1) (R := u2 ++ ps.flatMap MdMark.source) (by rw [hs]; simp)
      (by simp only [List.length_append, hlen]; omega) rfl]
  have hno : NoOpen (lastOr (D ++ (A ++ emSource k t) ++ u1)) u2 := by
    have := hu.split
    unfold lastOr
    rw [List.getLast?_append]
    cases hlast : u1.getLast? with
    | none =>
      have : u1 = [] := List.getLast?_eq_none_iff.1 hlast
      subst this
      simp only [List.length_nil] at hl1
      omega
    | some c =>
      rw [hlast] at this
      exact this
  have := shows_plain hp u2 (D ++ (A ++ emSource k t)) u1 (res ++ A ++ emHtml k t) hno (by rw [hs]; simp)
  by_cases hR : u2 ++ ps.flatMap MdMark.source = []
  · obtain ⟨r1, r2⟩ := List.append_eq_nil_iff.1 hR
    rw [if_pos hR, source_nil r2, r1]
    simp
  · rw [if_neg hR] at this ⊢
    rw [show (D ++ A).length + k + t.length + 3 = (D ++ (A ++ emSource k t)).length + u1.length by
      simp only [List.length_append, hlen]; omega, this]
    simp

theorem shows_all {s : Bytes} : ∀ (ps : List MdMark), GoodMarks ps → ShowsMarks s ps
  | [], _ => by
    intro D A res hs
    rw [if_pos (List.flatMap_nil ..), styleRun_end (by rw [hs]; simp only [List.length_append, List.flatMap_nil, List.length_nil]; omega)]
  | .plain t :: ps, h => by
    intro D A res hs
    exact shows_plain (shows_all ps h.2.1) t D A res (h.1.weaken _) hs
  | .code t :: ps, h => shows_code (shows_all ps h.2.1) h.1
  | .both t :: ps, h => shows_both (shows_all ps h.2.1) h.1
  | [.em t], h => by
    intro D A res hs
    rw [if_neg (by simp [MdMark.source]), shows_em_last (k := 1) (.inl rfl) h.1.1 h.1.2.1 h.1.2.2 D A res (by rw [List.flatMap_cons, List.flatMap_nil, List.append_nil] at hs; exact hs)]
    simp [MdMark.html, emHtml]
  | [.strong t], h => by
    intro D A res hs
    rw [if_neg (by simp [MdMark.source]), shows_em_last (k := 2) (.inr rfl) h.1.1 h.1.2.1 h.1.2.2 D A res (by rw [List.flatMap_cons, List.flatMap_nil, List.append_nil] at hs; exact hs)]
    simp [MdMark.html, emHtml]
  | .em t :: .plain u :: ps, h => by
    intro D A res hs
    rw [if_neg (by rw [List.flatMap_cons]; simp [MdMark.source]),
      shows_em (k := 1) (.inl rfl) h.1.1 h.1.2.1 h.1.2.2 h.2.1.1 h.2.2 (shows_all ps h.2.1.2.1) D A res hs]
    rfl
  | .strong t :: .plain u :: ps, h => by
    intro D A res hs
    rw [if_neg (by rw [List.flatMap_cons]; simp [MdMark.source]),
      shows_em (k := 2) (.inr rfl) h.1.1 h.1.2.1 h.1.2.2 h.2.1.1 h.2.2 (shows_all ps h.2.1.2.1) D A res hs]
    rfl
  | .em _ :: .code _ :: _, h => by cases h.2.2
  | .em _ :: .em _ :: _, h => by cases h.2.2
  | .em _ :: .strong _ :: _, h => by cases h.2.2
  | .em _ :: .both _ :: _, h => by cases h.2.2
  | .strong _ :: .code _ :: _, h => by cases h.2.2
  | .strong _ :: .em _ :: _, h => by cases h.2.2
  | .strong _ :: .strong _ :: _, h => by cases h.2.2
  | .strong _ :: .both _ :: _, h => by cases h.2.2

/-- **C88.** In a text made of plain parts, code and emphases, every part is shown as it should be, and the rest is as it
was.

Missing from the full claim: what follows an emphasis directly, since the loop jumps over it: it is lost at the end of the
text (`C88_lost_counterexample`), and its marks are missed elsewhere (`C88_skipped_counterexample`); marks that do not match. -/
theorem C88_shown_partial (ps : List MdMark) (h : GoodMarks ps) : style (ps.flatMap MdMark.source) = ps.flatMap MdMark.html := by
  have := shows_all (s := ps.flatMap MdMark.source) ps h [] [] [] (by simp)
  rw [show style (ps.flatMap MdMark.source) = styleRun (ps.flatMap MdMark.source) ⟨0, 0, false, none, []⟩ from rfl]
  rw [List.length_nil] at this
  rw [this]
  split
  · rename_i h0
    rw [source_nil h0]
  · simp

/-- A text with every kind of part. -/
def emphasisSample : List MdMark :=
  [.plain b!"Use ", .code b!"a*b", .plain b!" or ", .em b!"x", .plain b!", a_b", .strong b!"y y", .plain b!" and ", .both b!"z", .code b!"", .em b!"t"]

example : style b!"Use `a*b` or *x*, a_b**y y** and ***z***``*t*" =
    b!"Use <code>a*b</code> or <em>x</em>, a_b<strong>y y</strong> and <em><strong>z</strong></em><code></code><em>t</em>" :=
  C88_shown_partial emphasisSample (by simp [emphasisSample, GoodMarks, MdMark.Good, Room, NoOpen])

/-- **C88 is false**: whatever it is, the last character of a text that ends just after an emphasis is lost. -/
theorem C88_lost_counterexample (t : Bytes) (c : UInt8) (h1 : t ≠ []) (h2 : 42 ∉ t) (h3 : 95 ∉ t) :
    style (b!"*" ++ t ++ b!"*" ++ [c]) = b!"<em>" ++ t ++ b!"</em>" := by
  have hs : b!"*" ++ t ++ b!"*" ++ [c] = [] ++ ([] ++ (emSource 1 t ++ [c])) := by simp [emSource]
  rw [show style (b!"*" ++ t ++ b!"*" ++ [c]) = styleRun (b!"*" ++ t ++ b!"*" ++ [c]) ⟨([] : Bytes).length + ([] : Bytes).length, ([] : Bytes).length, false, none, []⟩ from rfl,
    run_em (by omega) h1 h2 h3 hs]
  rw [if_neg (by lens), styleRun_end (by lens)]
  rfl

/-- The marks just after an emphasis are missed. -/
theorem C88_skipped_counterexample : style b!"*a* *b* c" = b!"<em>a</em> *b* c" := by kernel_rfl

end Pdf
