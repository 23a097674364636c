/-
C109: the last column of the command `disasm`, and the lines that are printed.
-/
import Verif.Model.Details
import Verif.Lemmas.KernelRfl
import Verif.Spec.AsciiText
import Verif.Props.C81_Disasm

namespace Pdf
open Spec

/-! ### What the details should say -/

/-- The text of a value in a detail. -/
inductive DetailText : Obj → Bytes → Prop
  | name (s : Bytes) : DetailText (.str s) s
  | int (n : Int) : DetailText (.int n) (intDec n)
  | yes : DetailText (.bool true) b!"True"
  | no : DetailText (.bool false) b!"False"
  | real (neg : Bool) (ip : Nat) (frac : Bytes) : frac.all isDigit = true → DetailText (.real neg ip frac) (realStr neg ip frac)
  | ref (num gen : Int) : DetailText (.ref gen num) (intDec num ++ b!"," ++ intDec gen)
  | bytes (s : Bytes) : DetailText (.bytes s) (b!"b" ++ reprBytes s)

/-- The fields that a detail may have: the type, the mark of scripts, the listed keys. -/
inductive Field (d : Dict) (keys : List Bytes) : Bytes → Prop
  | type {v : Obj} {t : Bytes} : Dict.get? d b!"/Type" = some v → DetailText v t → Field d keys t
  | js : Dict.has d b!"/JS" = true → Field d keys b!"!/JS!"
  | key {k : Bytes} {v : Obj} {t : Bytes} : k ∈ keys → Dict.get? d k = some v → DetailText v t → Field d keys (k ++ b!"=" ++ t)

/-- A text in which no `!` comes just before a `/`. -/
def NoBang (t : Bytes) : Prop := ¬ b!"!/" <:+: t

/-- A value which is shown without `!/`: anything but a byte string, or a name with `!/` (which no name has). -/
def Quiet : Obj → Prop
  | .bytes _ => False
  | .str s => NoBang s
  | _ => True

/-- The detail of a dictionary of which `keys` are listed. -/
structure Summary (d : Dict) (keys : List Bytes) (t : Bytes) : Prop where
  /-- Nothing but the fields, each followed by two blanks; none is missing, but those of `null`. -/
  fields : ∃ fs : List Bytes, t = fs.flatMap (· ++ b!"  ") ∧ (∀ f ∈ fs, Field d keys f) ∧
    (∀ v, Dict.get? d b!"/Type" = some v → v ≠ .null → ∃ x, DetailText v x ∧ x ∈ fs) ∧
    (∀ k ∈ keys, ∀ v, Dict.get? d k = some v → v ≠ .null → ∃ x, DetailText v x ∧ k ++ b!"=" ++ x ∈ fs)
  /-- A dictionary with a script has the mark. -/
  marked : Dict.has d b!"/JS" = true → b!"!/JS!" <:+: t
  /-- A dictionary without a script has not, when its other values are no byte strings. -/
  unmarked : Dict.has d b!"/JS" = false → (∀ k ∈ b!"/Type" :: keys, ∀ v, Dict.get? d k = some v → Quiet v) → ¬ b!"!/JS!" <:+: t

/-- The detail of a comment: the first bytes, as they are or in hexadecimal. -/
structure CommentSummary (t s : Bytes) : Prop where
  version : b!"%PDF" <+: t → s = t.take 8
  eof : b!"%%EOF" <+: t → s = b!"%%EOF"
  ascii : ¬ b!"%PDF" <+: t → ¬ b!"%%EOF" <+: t → (∀ c ∈ t.take 10, c < 128) → s = t.take 10
  other : ¬ b!"%PDF" <+: t → ¬ b!"%%EOF" <+: t → (∃ c ∈ t.take 10, 128 ≤ c) → ∃ x, HexText (t.take 10) x ∧ s = b!"<" ++ x ++ b!">"

/-- The detail of an object. -/
def ObjectSummary : Obj → Bytes → Prop
  | .dict d, t => Summary d [b!"/Linearized"] t
  | .stream d _ _, t => Summary d [b!"/Root", b!"/Prev", b!"/N", b!"/First"] t
  | _, t => t = []

/-- The details of the lines of an item of the file map: one for the line of the item, none for the others. -/
def Detailed : MapItem → List Cell → Prop
  | .region (.void _ _ _) _, cs => cs = [.none_]
  | .region (.comment _ _ t) _, cs => ∃ s, cs = [.str s] ∧ CommentSummary t s
  | .region (.startxref _ _ _) _, cs => cs = [.none_]
  | .region (.xrefTable _ _ _ trailer) _, cs => ∃ d s rest, trailer = .dict d ∧ cs = .str s :: rest ∧
      (Dict.has d b!"/XRefStm" = true → Summary d [b!"/XRefStm", b!"/Prev"] s) ∧
      (Dict.has d b!"/XRefStm" = false → Summary d [b!"/Root", b!"/Prev"] s) ∧ ∀ c ∈ rest, c = .none_
  | .region (.indObj _ _ _ _ o) _, cs => ∃ s, cs = [.str s] ∧ ObjectSummary o s
  | .embedded _ _ _ _ o _, cs => ∃ s, cs = [.str s] ∧ ObjectSummary o s
  | .xrefStream _ _ _, cs => ∀ c ∈ cs, c = .none_

/-! ### Proofs -/

theorem formatted_shown {v : Obj} {t : Bytes} (h : formatted v = .ok t) : DetailText v t := by
  cases v with
  | str s => cases h; exact .name _
  | int n => cases h; exact .int n
  | bool b => cases b with
    | false => cases h; exact .no
    | true => cases h; exact .yes
  | real neg ip frac =>
    rw [formatted] at h
    split at h
    · rename_i hr
      cases h
      simp only [realOk, Bool.and_eq_true] at hr
      exact .real _ _ _ hr.1.1.1
    · cases h
  | bytes s => cases h; exact .bytes s
  | _ => cases h

/-- The fields of one key: none, or one. -/
theorem keyInLine_spec {d : Dict} {k t : Bytes} (h : keyInLine d k = .ok t) :
    (t = [] ∧ ∀ v, Dict.get? d k = some v → v = .null) ∨
      ∃ v x, Dict.get? d k = some v ∧ v ≠ .null ∧ DetailText v x ∧ t = (k ++ b!"=" ++ x) ++ b!"  " := by
  unfold keyInLine at h
  split at h
  · rename_i e; cases h; exact .inl ⟨rfl, by simp [e]⟩
  · rename_i e; cases h; refine .inl ⟨rfl, ?_⟩; rw [e]; rintro _ ⟨⟩; rfl
  · rename_i g n e
    cases h
    exact .inr ⟨_, _, e, by simp, .ref n g, by simp⟩
  · rename_i v hn hr e
    obtain ⟨x, hx, h⟩ := bind_eq_ok h
    cases h
    exact .inr ⟨v, x, e, hn, formatted_shown hx, by simp⟩

theorem typeInLine_spec {d : Dict} {t : Bytes} (h : typeInLine d = .ok t) :
    (t = [] ∧ ∀ v, Dict.get? d b!"/Type" = some v → v = .null) ∨
      ∃ v x, Dict.get? d b!"/Type" = some v ∧ v ≠ .null ∧ DetailText v x ∧ t = x ++ b!"  " := by
  unfold typeInLine at h
  split at h
  · rename_i e; cases h; exact .inl ⟨rfl, by simp [e]⟩
  · rename_i e; cases h; refine .inl ⟨rfl, ?_⟩; rw [e]; rintro _ ⟨⟩; rfl
  · rename_i v hn e
    obtain ⟨x, hx, h⟩ := bind_eq_ok h
    cases h
    exact .inr ⟨v, x, e, hn, formatted_shown hx, rfl⟩

theorem keys_fields {d : Dict} : ∀ {keys : List Bytes} {ks : List Bytes}, keys.mapM (keyInLine d) = .ok ks →
    ∃ fs : List Bytes, ks.flatten = fs.flatMap (· ++ b!"  ") ∧
      (∀ f ∈ fs, ∃ k ∈ keys, ∃ v x, Dict.get? d k = some v ∧ DetailText v x ∧ f = k ++ b!"=" ++ x) ∧
      ∀ k ∈ keys, ∀ v, Dict.get? d k = some v → v ≠ .null → ∃ x, DetailText v x ∧ k ++ b!"=" ++ x ∈ fs
  | [], ks, h => by cases h; exact ⟨[], rfl, by simp, by simp⟩
  | k :: keys, ks, h => by
    rw [List.mapM_cons] at h
    obtain ⟨t, ht, h⟩ := bind_eq_ok h
    obtain ⟨ts, hts, h⟩ := bind_eq_ok h
    cases h
    obtain ⟨fs, e1, e2, e3⟩ := keys_fields hts
    rcases keyInLine_spec ht with ⟨rfl, hn⟩ | ⟨v, x, hv, hne, hx, rfl⟩
    · refine ⟨fs, by simpa using e1, fun f hf => ?_, fun k' hk' v hv hne => ?_⟩
      · obtain ⟨k', hk', r⟩ := e2 f hf
        exact ⟨k', List.mem_cons_of_mem _ hk', r⟩
      · rcases List.mem_cons.1 hk' with rfl | hk'
        · exact absurd (hn v hv) hne
        · exact e3 k' hk' v hv hne
    · refine ⟨(k ++ b!"=" ++ x) :: fs, by rw [List.flatten_cons, e1, List.flatMap_cons], fun f hf => ?_, fun k' hk' w hw hne' => ?_⟩
      · rcases List.mem_cons.1 hf with rfl | hf
        · exact ⟨k, by simp, v, x, hv, hx, rfl⟩
        · obtain ⟨k', hk', r⟩ := e2 f hf
          exact ⟨k', List.mem_cons_of_mem _ hk', r⟩
      · rcases List.mem_cons.1 hk' with rfl | hk'
        · rw [hv] at hw
          cases hw
          exact ⟨x, hx, by simp⟩
        · obtain ⟨y, hy, hm⟩ := e3 k' hk' w hw hne'
          exact ⟨y, hy, List.mem_cons_of_mem _ hm⟩

theorem noBang_iff {t : Bytes} : NoBang t ↔ ∀ i : Nat, t[i]? = some 33 → t[i + 1]? ≠ some 47 := by
  constructor
  · intro h i h1 h2
    apply h
    obtain ⟨hi, e1⟩ := List.getElem?_eq_some_iff.1 h1
    obtain ⟨hi', e2⟩ := List.getElem?_eq_some_iff.1 h2
    refine ⟨t.take i, t.drop (i + 2), ?_⟩
    have : t.drop i = 33 :: 47 :: t.drop (i + 2) := by
      rw [List.drop_eq_getElem_cons hi, List.drop_eq_getElem_cons hi', e1, e2]
    conv => rhs; rw [← List.take_append_drop i t, this]
    simp
  · rintro h ⟨p, s, rfl⟩
    exact h p.length (by simp) (by simp)

theorem noBang_of_not_mem {t : Bytes} (h : (33 : UInt8) ∉ t) : NoBang t :=
  noBang_iff.2 fun _ hi _ => h (List.mem_of_getElem? hi)

/-- Texts are joined without making `!/`, unless the first ends with `!` or the second begins with `/`. -/
theorem noBang_append {a b : Bytes} (ha : NoBang a) (hb : NoBang b) (h : a.getLast? ≠ some 33 ∨ b.head? ≠ some 47) :
    NoBang (a ++ b) := by
  rw [noBang_iff] at *
  intro i h1 h2
  by_cases hi : i + 1 < a.length
  · rw [List.getElem?_append_left (by omega)] at h1
    rw [List.getElem?_append_left hi] at h2
    exact ha i h1 h2
  · rw [List.getElem?_append_right (by omega)] at h2
    by_cases hi' : i < a.length
    · rw [List.getElem?_append_left hi'] at h1
      rcases h with h | h
      · apply h
        rw [List.getLast?_eq_getElem?, ← h1]
        congr 1
        omega
      · apply h
        rw [List.head?_eq_getElem?, ← h2]
        congr 1
        omega
    · rw [List.getElem?_append_right (by omega)] at h1
      refine hb (i - a.length) h1 ?_
      rw [← h2]
      congr 1
      omega

theorem intDec_no33 (n : Int) : (33 : UInt8) ∉ intDec n := by
  have dig : ∀ m : Nat, (33 : UInt8) ∉ natDec m := fun m hm =>
    absurd (List.all_eq_true.1 (natDec_all m) 33 hm) (by decide)
  cases n with
  | ofNat n => exact dig n
  | negSucc n =>
    intro h
    simp only [intDec, List.mem_cons] at h
    rcases h with h | h
    · exact absurd h (by decide)
    · exact dig _ h

theorem shown_quiet {v : Obj} {x : Bytes} (h : DetailText v x) (hq : Quiet v) : NoBang x := by
  cases h with
  | name => exact hq
  | int n => exact noBang_of_not_mem (intDec_no33 n)
  | yes => exact noBang_of_not_mem (by decide)
  | no => exact noBang_of_not_mem (by decide)
  | real neg ip frac hd =>
    refine noBang_of_not_mem fun h => ?_
    have dig : ∀ s : Bytes, s.all isDigit = true → (33 : UInt8) ∉ s := fun s hs hm =>
      absurd (List.all_eq_true.1 hs 33 hm) (by decide)
    simp only [realStr, List.mem_append] at h
    rcases h with ((h | h) | h) | h
    · split at h <;> simp at h
    · exact dig _ (natDec_all ip) h
    · simp at h
    · split at h
      · simp at h
      · exact dig _ hd h
  | ref num gen =>
    refine noBang_of_not_mem fun h => ?_
    simp only [List.mem_append] at h
    rcases h with (h | h) | h
    · exact intDec_no33 _ h
    · exact absurd h (by decide)
    · exact intDec_no33 _ h
  | bytes => exact hq.elim

theorem fields_noBang : ∀ {fs : List Bytes}, (∀ f ∈ fs, NoBang f) → NoBang (fs.flatMap (· ++ b!"  "))
  | [], _ => noBang_of_not_mem (by simp)
  | f :: fs, h => by
    rw [List.flatMap_cons]
    refine noBang_append (noBang_append (h f (by simp)) (noBang_of_not_mem (by decide)) (.inr (by decide)))
      (fields_noBang fun g hg => h g (by simp [hg])) (.inl ?_)
    rw [List.getLast?_append]
    simp

/-- The detail of a dictionary, for lists of keys without `!`. -/
theorem keysInLine_summary {d : Dict} {keys : List Bytes} {t : Bytes} (hk : ∀ k ∈ keys, (33 : UInt8) ∉ k)
    (h : keysInLine d keys = .ok t) : Summary d keys t := by
  obtain ⟨ty, hty, h⟩ := bind_eq_ok h
  obtain ⟨ks, hks, h⟩ := bind_eq_ok h
  cases h
  obtain ⟨fs, e1, e2, e3⟩ := keys_fields hks
  obtain ⟨t0, f1, f2, f3⟩ : ∃ t0 : List Bytes, ty = t0.flatMap (· ++ b!"  ") ∧
      (∀ f ∈ t0, ∃ v, Dict.get? d b!"/Type" = some v ∧ DetailText v f) ∧
      ∀ v, Dict.get? d b!"/Type" = some v → v ≠ .null → ∃ x, DetailText v x ∧ x ∈ t0 := by
    rcases typeInLine_spec hty with ⟨rfl, hn⟩ | ⟨v, x, hv, -, hx, rfl⟩
    · exact ⟨[], rfl, by simp, fun v hv hne => absurd (hn v hv) hne⟩
    · refine ⟨[x], by simp, fun f hf => ?_, fun w hw _ => ?_⟩
      · rw [List.mem_singleton.1 hf]; exact ⟨v, hv, hx⟩
      · rw [hv] at hw; cases hw; exact ⟨x, hx, by simp⟩
  have all : ty ++ (if Dict.has d b!"/JS" then b!"!/JS!  " else []) ++ ks.flatten =
      (t0 ++ (if Dict.has d b!"/JS" then [b!"!/JS!"] else []) ++ fs).flatMap (· ++ b!"  ") := by
    rw [List.flatMap_append, List.flatMap_append, ← f1, ← e1]
    congr 2
    split <;> rfl
  refine ⟨⟨_, all, ?_, ?_, ?_⟩, ?_, ?_⟩
  · intro f hf
    rcases List.mem_append.1 hf with hf | hf
    · rcases List.mem_append.1 hf with hf | hf
      · obtain ⟨v, hv, hx⟩ := f2 f hf
        exact .type hv hx
      · split at hf
        · rename_i hj
          rw [List.mem_singleton.1 hf]
          exact .js hj
        · cases hf
    · obtain ⟨k, hkm, v, x, hv, hx, rfl⟩ := e2 f hf
      exact .key hkm hv hx
  · intro v hv hne
    obtain ⟨x, hx, hm⟩ := f3 v hv hne
    exact ⟨x, hx, by simp [hm]⟩
  · intro k hkm v hv hne
    obtain ⟨x, hx, hm⟩ := e3 k hkm v hv hne
    exact ⟨x, hx, List.mem_append_right _ hm⟩
  · intro hj
    rw [if_pos hj]
    exact ⟨ty, b!"  " ++ ks.flatten, by simp⟩
  · intro hj hq hin
    rw [all, if_neg (by simp [hj])] at hin
    refine fields_noBang (fs := t0 ++ [] ++ fs) ?_ (List.IsInfix.trans (show b!"!/" <:+: b!"!/JS!" from ⟨[], b!"JS!", rfl⟩) hin)
    intro f hf
    rw [List.append_nil] at hf
    rcases List.mem_append.1 hf with hf | hf
    · obtain ⟨v, hv, hx⟩ := f2 f hf
      exact shown_quiet hx (hq _ (by simp) v hv)
    · obtain ⟨k, hkm, v, x, hv, hx, rfl⟩ := e2 f hf
      refine noBang_append (noBang_of_not_mem ?_) (shown_quiet hx (hq k (by simp [hkm]) v hv)) (.inl ?_)
      · intro h
        rcases List.mem_append.1 h with h | h
        · exact hk k hkm h
        · exact absurd h (by decide)
      · rw [List.getLast?_append]; simp

theorem detail_hexDigit : ∀ n, n < 16 → HexDigit (hexLow n) n := by
  unfold HexDigit
  decide

theorem detail_hexText : ∀ s : Bytes, HexText s (hexText s)
  | [] => .nil
  | c :: s => by
    have := c.toNat_lt
    exact .byte (detail_hexDigit _ (by omega)) (detail_hexDigit _ (by omega)) (by omega) (detail_hexText s)

theorem commentDetail_summary (t : Bytes) : CommentSummary t (commentDetail t) := by
  have pre : ∀ p : Bytes, p <+: t ↔ t.take p.length = p := fun p => by
    rw [List.prefix_iff_eq_take]; exact eq_comm
  have h1 := pre b!"%PDF"
  have h2 := pre b!"%%EOF"
  change _ ↔ t.take 4 = _ at h1
  change _ ↔ t.take 5 = _ at h2
  have asc : isAscii (t.take 10) = true ↔ ∀ c ∈ t.take 10, c < 128 := by simp [isAscii]
  unfold commentDetail
  refine ⟨fun h => ?_, fun h => ?_, fun a b c => ?_, fun a b c => ?_⟩
  · rw [if_pos (h1.1 h)]
  · have e := h2.1 h
    rw [if_neg, if_pos e, e]
    intro e'
    have : (t.take 5).take 4 = b!"%PDF" := by rw [List.take_take]; exact e'
    rw [e] at this
    exact absurd this (by decide)
  · rw [if_neg (fun h => a (h1.2 h)), if_neg (fun h => b (h2.2 h)), if_pos (asc.2 c)]
  · rw [if_neg (fun h => a (h1.2 h)), if_neg (fun h => b (h2.2 h)), if_neg]
    · exact ⟨_, detail_hexText _, rfl⟩
    · intro h
      obtain ⟨x, hx, hge⟩ := c
      exact absurd (asc.1 h x hx) (UInt8.not_lt.2 hge)

theorem objectDetail_summary {o : Obj} {t : Bytes} (h : objectDetail o = .ok t) : ObjectSummary o t := by
  cases o with
  | dict d => exact keysInLine_summary (by decide) h
  | stream d a b => exact keysInLine_summary (by decide) h
  | _ => cases h; exact rfl

theorem itemDetails_spec {x : MapItem} {cs : List Cell} (h : itemDetails x = .ok cs) : Detailed x cs := by
  cases x with
  | region r rows =>
    cases r with
    | void => cases h; exact rfl
    | comment b e t => cases h; exact ⟨_, rfl, commentDetail_summary t⟩
    | startxref => cases h; exact rfl
    | xrefTable b e i trailer =>
      unfold itemDetails at h
      simp only at h
      split at h
      · rename_i d
        obtain ⟨s, hs, h⟩ := bind_eq_ok h
        cases h
        refine ⟨d, s, _, rfl, rfl, fun hx => ?_, fun hx => ?_, ?_⟩
        · rw [tableDetail, if_pos hx] at hs
          exact keysInLine_summary (by decide) hs
        · rw [tableDetail, if_neg (by simp [hx])] at hs
          exact keysInLine_summary (by decide) hs
        · intro c hc
          obtain ⟨y, -, hy⟩ := List.mem_flatMap.1 hc
          obtain ⟨z, -, rfl⟩ := List.mem_map.1 hy
          rfl
      · cases h
    | indObj b e n g o =>
      obtain ⟨s, hs, h⟩ := bind_eq_ok h
      cases h
      exact ⟨s, rfl, objectDetail_summary hs⟩
  | embedded a b c n o env =>
    obtain ⟨s, hs, h⟩ := bind_eq_ok h
    cases h
    exact ⟨s, rfl, objectDetail_summary hs⟩
  | xrefStream b rows t =>
    cases h
    intro c hc
    obtain ⟨y, -, rfl⟩ := List.mem_map.1 hc
    rfl

theorem tableLine_length (w w' : List Int) (x : XRow) : (tableLine w x).length = (tableLine w' x).length := by
  cases x <;> rfl

theorem itemDetails_length {pct : Nat → Nat → Bytes} {wrong : Option Int → Option (List Target)} {un : List (Option Target)}
    {x : MapItem} {ls : List DLine} {cs : List Cell} (h : itemLines pct wrong un x = .ok ls) (h' : itemDetails x = .ok cs) :
    ls.length = cs.length := by
  cases x with
  | region r rows =>
    cases r with
    | void => cases h; cases h'; rfl
    | comment b e t =>
      cases h'
      unfold itemLines at h
      simp only at h
      split at h <;> cases h
      rfl
    | startxref =>
      cases h'
      obtain ⟨a, -, h⟩ := bind_eq_ok h
      cases h
      rfl
    | xrefTable b e i trailer =>
      unfold itemDetails at h'
      unfold itemLines at h
      simp only at h h'
      split at h'
      · obtain ⟨s, hs, h'⟩ := bind_eq_ok h'
        cases h'
        cases h
        rw [List.length_cons, List.length_cons, List.length_flatMap, List.length_flatMap]
        congr 2
        exact List.map_congr_left fun y _ => by rw [List.length_map]; exact tableLine_length _ _ _
      · cases h'
    | indObj b e n g o =>
      obtain ⟨s, hs, h'⟩ := bind_eq_ok h'
      cases h'
      cases h
      rfl
  | embedded a b c n o env =>
    obtain ⟨s, hs, h'⟩ := bind_eq_ok h'
    cases h'
    unfold itemLines at h
    simp only at h
    split at h
    · cases h
    · split at h <;> cases h
      rfl
  | xrefStream b rows t =>
    cases h
    cases h'
    rw [List.length_map, List.length_map]

theorem groups_zip {α : Type} {f : α → Py (List DLine)} {g : α → Py (List Cell)}
    (hfg : ∀ x ls cs, f x = .ok ls → g x = .ok cs → ls.length = cs.length) : ∀ {m : List α} {a : List (List DLine)} {b : List (List Cell)},
    m.mapM f = .ok a → m.mapM g = .ok b → ∃ gs : List (List (DLine × Cell)), a.flatten.zip b.flatten = gs.flatten ∧
      a = gs.map (·.map Prod.fst) ∧ b = gs.map (·.map Prod.snd)
  | [], a, b, ha, hb => by cases ha; cases hb; exact ⟨[], rfl, rfl, rfl⟩
  | x :: m, a, b, ha, hb => by
    rw [List.mapM_cons] at ha hb
    obtain ⟨a0, ha0, ha⟩ := bind_eq_ok ha
    obtain ⟨a1, ha1, ha⟩ := bind_eq_ok ha
    obtain ⟨b0, hb0, hb⟩ := bind_eq_ok hb
    obtain ⟨b1, hb1, hb⟩ := bind_eq_ok hb
    cases ha
    cases hb
    obtain ⟨gs, e1, e2, e3⟩ := groups_zip hfg ha1 hb1
    have hl := hfg x a0 b0 ha0 hb0
    refine ⟨a0.zip b0 :: gs, ?_, ?_, ?_⟩
    · rw [List.flatten_cons, List.flatten_cons, List.flatten_cons, List.zip_append hl, e1]
    · rw [List.map_cons, List.map_fst_zip (by omega), ← e2]
    · rw [List.map_cons, List.map_snd_zip (by omega), ← e3]

theorem all₂_of_map {α β γ : Type} {R : α → β → Prop} (f : γ → β) : ∀ {l : List α} {m : List γ}, All₂ R l (m.map f) →
    All₂ (fun a c => R a (f c)) l m
  | [], [], _ => .nil
  | _ :: _, _ :: _, h => by
    cases h with
    | cons h1 h2 => exact .cons h1 (all₂_of_map f h2)
  | [], _ :: _, h => by cases h
  | _ :: _, [], h => by cases h

theorem all₂_and {α β : Type} {R S : α → β → Prop} : ∀ {l : List α} {m : List β}, All₂ R l m → All₂ S l m →
    All₂ (fun a b => R a b ∧ S a b) l m
  | _, _, .nil, .nil => .nil
  | _, _, .cons h t, .cons h' t' => .cons ⟨h, h'⟩ (all₂_and t t')

/-- C109, details. The listing has the lines of C81, and each item of the scan gives its lines their details: the
dictionary of an object or the trailer of a table is summed up by its type, by the mark `!/JS!` when it has a script and
by the listed keys; a comment by its first bytes; the other lines have none.
Partial: a script is found by the key as it is written, in the dictionary itself (`C109_script_counterexample`), and a
byte string may look like the mark (`C109_mark_counterexample`). -/
theorem C109_details_partial [Zlib] (pct : Nat → Nat → Bytes) (F : Bytes) (ls : List (DLine × Cell))
    (h : detailedLines pct F = .ok ls) : disasmLines pct F = .ok (ls.map Prod.fst) ∧
      ∃ m seq groups, fileObjectMap F = .ok m ∧ xrefSequence F = .ok seq ∧ ls = groups.flatten ∧
        All₂ (fun x g => Describes pct m seq x (g.map Prod.fst) ∧ Detailed x (g.map Prod.snd)) m groups := by
  obtain ⟨ls0, h0, h⟩ := bind_eq_ok h
  obtain ⟨m, hm, h⟩ := bind_eq_ok h
  obtain ⟨ds, hds, h⟩ := bind_eq_ok h
  cases h
  have h0' := h0
  obtain ⟨m1, hm1, h1⟩ := bind_eq_ok h0'
  obtain ⟨seq, hseq, h1⟩ := bind_eq_ok h1
  obtain ⟨wrong, hw, h1⟩ := bind_eq_ok h1
  obtain ⟨un, hun, h1⟩ := bind_eq_ok h1
  obtain ⟨groups, hg, h1⟩ := bind_eq_ok h1
  cases h1
  rw [hm] at hm1
  cases hm1
  obtain ⟨gs, e1, e2, e3⟩ := groups_zip (fun x a b ha hb => itemDetails_length ha hb) hg hds
  have d1 : All₂ (Describes pct m seq) m groups := mapM_all₂ hg (itemLines_describes hm hseq hw hun)
  have d2 : All₂ Detailed m ds := mapM_all₂ hds fun x _ y hy => itemDetails_spec hy
  refine ⟨?_, m, seq, gs, hm, hseq, e1, ?_⟩
  · rw [h0, e1, List.map_flatten, ← e2]
  · rw [e2] at d1
    rw [e3] at d2
    exact all₂_and (all₂_of_map _ d1) (all₂_of_map _ d2)

/-! ### The lines that are printed -/

theorem detailWidth_spec : ∀ {ls : List (DLine × Cell)} {w0 w : Nat}, ls.foldlM (fun w (l : DLine × Cell) => do
      let n ← l.2.width
      .ok (if w < n then n else w)) w0 = (.ok w : Py Nat) →
    w0 ≤ w ∧ ∀ l ∈ ls, ∃ n, l.2.width = .ok n ∧ n ≤ w
  | [], w0, w, h => by cases h; simp
  | l :: ls, w0, w, h => by
    rw [List.foldlM_cons] at h
    obtain ⟨w1, h1, h⟩ := bind_eq_ok h
    obtain ⟨n, hn, h1⟩ := bind_eq_ok h1
    cases h1
    obtain ⟨i1, i2⟩ := detailWidth_spec h
    refine ⟨by split at i1 <;> omega, fun l' hl' => ?_⟩
    rcases List.mem_cons.1 hl' with rfl | hl'
    · exact ⟨n, hn, by split at i1 <;> omega⟩
    · exact i2 l' hl'

theorem itemDetails_text {x : MapItem} {cs : List Cell} (h : itemDetails x = .ok cs) : ∀ c ∈ cs, ∀ n, c ≠ .int n := by
  have hd := itemDetails_spec h
  cases x with
  | region r rows =>
    cases r with
    | void => cases hd; simp
    | comment b e t => obtain ⟨s, rfl, -⟩ := hd; simp
    | startxref => cases hd; simp
    | xrefTable b e i trailer =>
      obtain ⟨d, s, rest, -, rfl, -, -, hr⟩ := hd
      intro c hc n
      rcases List.mem_cons.1 hc with rfl | hc
      · simp
      · rw [hr c hc]; simp
    | indObj => obtain ⟨s, rfl, -⟩ := hd; simp
  | embedded => obtain ⟨s, rfl, -⟩ := hd; simp
  | xrefStream =>
    intro c hc n
    rw [hd c hc]
    simp

theorem flatten_length : ∀ {t : List Bytes} {ws : List Nat}, t.length = ws.length →
    (∀ (k : Nat) x, t[k]? = some x → x.length = ws[k]?.getD 0) → t.flatten.length = ws.sum
  | [], [], _, _ => rfl
  | x :: t, w :: ws, h, hk => by
    rw [List.flatten_cons, List.length_append, List.sum_cons, hk 0 x rfl,
      flatten_length (by simpa using h) fun k y hy => by simpa using hk (k + 1) y (by simpa using hy)]
    rfl

theorem all₂_mem {α β : Type} {R : α → β → Prop} (f : α → β) : ∀ {l : List α}, All₂ R l (l.map f) → ∀ x ∈ l, R x (f x)
  | _ :: l, .cons h t, x, hx => by
    rcases List.mem_cons.1 hx with rfl | hx
    · exact h
    · exact all₂_mem f t x hx

/-- C109, layout: each printed line is the columns of C81, which take the same room in all the lines, followed by the
detail and by blanks up to a common length; a blank at least follows the detail. -/
theorem C109_printed [Zlib] (pct : Nat → Nat → Bytes) (F : Bytes) (texts : List Bytes) (h : dumpDisasm pct F = .ok texts) :
    ∃ ls cols, detailedLines pct F = .ok ls ∧ disasmColumns (ls.map Prod.fst) = .ok cols ∧
      ∃ room len : Nat, cols.length = ls.length ∧ All₂ (fun lc t => lc.2.flatten.length = room ∧ t.length = len ∧
        ∃ post : Bytes, post ≠ [] ∧ (∀ x ∈ post, x = 32) ∧ t = lc.2.flatten ++ lc.1.2.text ++ post) (ls.zip cols) texts := by
  obtain ⟨ls, hls, h⟩ := bind_eq_ok h
  obtain ⟨ws, hws, h⟩ := bind_eq_ok h
  obtain ⟨w, hwd, h⟩ := bind_eq_ok h
  cases h
  obtain ⟨h0, m, seq, groups, hm, -, hgr, hall⟩ := C109_details_partial pct F ls hls
  have hcols : disasmColumns (ls.map Prod.fst) = .ok ((ls.map Prod.fst).map (lineText ws)) := by
    rw [disasmColumns, hws]; rfl
  have hint : ∀ l ∈ ls, ∀ n, l.2 ≠ .int n := by
    obtain ⟨a, ha, hb⟩ := bind_eq_ok hls
    obtain ⟨m', hm', hb⟩ := bind_eq_ok hb
    obtain ⟨ds, hds, hb⟩ := bind_eq_ok hb
    cases hb
    intro l hl
    obtain ⟨g, hg, hc⟩ := List.mem_flatten.1 (List.of_mem_zip hl).2
    obtain ⟨x, -, hx⟩ := (mapM_ok_mem hds).1 g hg
    exact itemDetails_text hx _ hc
  obtain ⟨widths, hwl, hc⟩ := C81_columns pct F _ _ h0 hcols
  have hc := all₂_mem _ hc
  have hroom : ∀ l ∈ ls, (lineText ws l.1).flatten.length = widths.sum := by
    intro l hl
    obtain ⟨e1, e2⟩ := hc l.1 (List.mem_map_of_mem hl)
    refine flatten_length (by rw [e1, hwl]) fun k x hx => ?_
    have hk : k < l.1.cells.length := by
      have := lt_of_getElem? hx
      rw [e1] at this
      simpa [DLine.cells] using this
    obtain ⟨y, hy, hyl, -⟩ := e2 k _ (List.getElem?_eq_getElem hk)
    rw [hx] at hy
    cases hy
    exact hyl
  obtain ⟨-, hw⟩ := detailWidth_spec hwd
  refine ⟨ls, _, hls, hcols, widths.sum, widths.sum + (w + 1), by simp, ?_⟩
  rw [List.map_map]
  have : ∀ l' : List (DLine × Cell), (∀ l ∈ l', l ∈ ls) → All₂ (fun (lc : (DLine × Cell) × List Bytes) t =>
      lc.2.flatten.length = widths.sum ∧ t.length = widths.sum + (w + 1) ∧
        ∃ post : Bytes, post ≠ [] ∧ (∀ x ∈ post, x = 32) ∧ t = lc.2.flatten ++ lc.1.2.text ++ post)
      (l'.zip (l'.map (lineText ws ∘ Prod.fst)))
      (l'.map fun l => (lineText ws l.1).flatten ++ (cellText w l.2 ++ b!" ")) := by
    intro l'
    induction l' with
    | nil => intro _; exact .nil
    | cons l l' ih =>
      intro hin
      refine .cons ⟨hroom l (hin l (by simp)), ?_, ?_⟩ (ih fun x hx => hin x (by simp [hx]))
      · obtain ⟨n, hn, hle⟩ := hw l (hin l (by simp))
        rw [List.length_append, List.length_append, hroom l (hin l (by simp)), (cellText_ok hn hle).1]
        rfl
      · have hi := hint l (hin l (by simp))
        cases hl : l.2 with
        | none_ =>
          refine ⟨blanks w ++ b!" ", by simp, fun x hx => ?_, by simp [hl, cellText, Cell.text]⟩
          rcases List.mem_append.1 hx with hx | hx
          · exact blanks_mem hx
          · simpa using hx
        | int n => exact absurd hl (hi n)
        | str s =>
          refine ⟨blanks (w - s.length) ++ b!" ", by simp, fun x hx => ?_, by simp [hl, cellText, Cell.text]⟩
          rcases List.mem_append.1 hx with hx | hx
          · exact blanks_mem hx
          · simpa using hx
  exact this ls fun _ h => h

/-! ### Examples -/

/-- A file with a script. -/
def scriptFile : Bytes := b!"%PDF-1.5\n%\xe2\xe3\n1 0 obj\n<</Type/Catalog>>\nendobj\n2 0 obj\n<</S/JavaScript/JS(x)>>\nendobj\n3 0 obj\n<</Linearized 1/L 2>>\nendobj\nxref\n0 4\n0000000000 65535 f \n0000000015 00000 n \n0000000048 00000 n \n0000000087 00000 n \ntrailer\n<</Size 4/Root 1 0 R>>\nstartxref\n124\n%%EOF\n"

/-- Scripts that are written in another way, or in an inner dictionary. -/
def hiddenFile : Bytes := b!"%PDF-1.5\n%\xe2\xe3\n1 0 obj\n<</Type/Catalog>>\nendobj\n2 0 obj\n<</S/JavaScript/J#53(x)>>\nendobj\n3 0 obj\n<</A<</S/JavaScript/JS(x)>>>>\nendobj\n4 0 obj\n[<</S/JavaScript/JS(x)>>]\nendobj\nxref\n0 5\n0000000000 65535 f \n0000000015 00000 n \n0000000048 00000 n \n0000000089 00000 n \n0000000134 00000 n \ntrailer\n<</Size 5/Root 1 0 R>>\nstartxref\n175\n%%EOF\n"

/-- A byte string that looks like the mark. -/
def decoyFile : Bytes := b!"%PDF-1.5\n%\xe2\xe3\n1 0 obj\n<</Type/Catalog>>\nendobj\n2 0 obj\n<</Linearized(!/JS!)>>\nendobj\nxref\n0 3\n0000000000 65535 f \n0000000015 00000 n \n0000000048 00000 n \ntrailer\n<</Size 3/Root 1 0 R>>\nstartxref\n86\n%%EOF\n"

example [Zlib] : dumpDisasm (fun _ _ => []) scriptFile = .ok [
      b!"+ 000 [8  ]            comment                       %PDF-1.5        ",
      b!"+ 008 [1  ]            void                                          ",
      b!"+ 009 [5  ]            comment                       <25c3a2c3a3>    ",
      b!"+ 014 [1  ]            void                                          ",
      b!"+ 015 [32 ]         @- ind_obj   1,0           dict  /Catalog        ",
      b!"+ 047 [1  ]            void                                          ",
      b!"+ 048 [38 ]         @- ind_obj   2,0           dict  !/JS!           ",
      b!"+ 086 [1  ]            void                                          ",
      b!"+ 087 [36 ]         @- ind_obj   3,0           dict  /Linearized=1   ",
      b!"+ 123 [1  ]            void                                          ",
      b!"+ 124 [119]            xreftable                     /Root=1,0       ",
      b!"-                   -@ xref      0,65535   000 free                  ",
      b!"-                   -@ xref      1,0       015 inuse                 ",
      b!"-                   -@ xref      2,0       048 inuse                 ",
      b!"-                   -@ xref      3,0       087 inuse                 ",
      b!"+ 243 [1  ]            void                                          ",
      b!"+ 244 [13 ]            startxref           124                       ",
      b!"+ 257 [1  ]            void                                          ",
      b!"+ 258 [5  ]            comment                       %%EOF           ",
      b!"+ 263 [1  ]            void                                          "] := by kernel_rfl

/-- The mark does not show all the scripts: a key written with an escape, the same key for a PDF reader, and the scripts of inner
dictionaries and of arrays have none. -/
theorem C109_script_counterexample [Zlib] : (detailedLines (fun _ _ => []) hiddenFile).map (fun ls =>
      (ls.filter fun l => l.1.regionType = .str b!"ind_obj").map fun l => (l.1.iref, l.2)) =
      .ok [(.str b!"1,0", .str b!"/Catalog  "), (.str b!"2,0", .str []), (.str b!"3,0", .str []), (.str b!"4,0", .str [])] := by
  kernel_rfl

/-- The mark may be shown without a script: in a byte string. -/
theorem C109_mark_counterexample [Zlib] : (detailedLines (fun _ _ => []) decoyFile).map (fun ls =>
      (ls.filter fun l => l.1.iref = .str b!"2,0" ∧ l.1.regionType = .str b!"ind_obj").map Prod.snd) =
      .ok [.str b!"/Linearized=b'(!/JS!)'  "] := by
  kernel_rfl

end Pdf
