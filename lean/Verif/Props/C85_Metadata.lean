/-
C85: the metadata shown by `overview`.
-/
import Verif.Props.C84_Overview

namespace Pdf
open Spec

/-- A text as it is in the metadata: nothing when it is empty. -/
def shownText (t : Str) : Option Str := if t = [] then none else some t

/-- In a hexadecimal string the mark of UTF-16 is written in capitals, without spaces. -/
def CapitalMark (s : Bytes) : Prop :=
  ∀ h x, s = b!"<" ++ h ++ b!">" → Hex h ([0xfe, 0xff] ++ x) → b!"FEFF" <+: h

theorem hexF {n : Nat} (h : HexDigitOf 70 n) : n = 15 := by
  have hn : n < 16 := by
    rcases h with h | h
    · simpa using lt_of_getElem? h
    · simpa using lt_of_getElem? h
  have : ∀ n < 16, (b!"0123456789ABCDEF")[n]? = some 70 ∨ (b!"0123456789abcdef")[n]? = some 70 → n = 15 := by decide
  exact this n hn h

theorem hexE {n : Nat} (h : HexDigitOf 69 n) : n = 14 := by
  have hn : n < 16 := by
    rcases h with h | h
    · simpa using lt_of_getElem? h
    · simpa using lt_of_getElem? h
  have : ∀ n < 16, (b!"0123456789ABCDEF")[n]? = some 69 ∨ (b!"0123456789abcdef")[n]? = some 69 → n = 14 := by decide
  exact this n hn h

theorem hex_mark_inv {h s : Bytes} (hh : Hex (b!"FEFF" ++ h) s) : ∃ s', s = [0xfe, 0xff] ++ s' ∧ Hex h s' := by
  have hh : Hex (70 :: 69 :: 70 :: 70 :: h) s := hh
  cases hh with
  | space _ h1 => simp at h1
  | byte _ _ b h1 h2 h3 =>
    cases h3 with
    | space _ h4 => simp at h4
    | byte _ _ b' h4 h5 h6 =>
      refine ⟨_, ?_, h6⟩
      have e1 := hexF h1
      have e2 := hexE h2
      have e3 := hexF h4
      have e4 := hexF h5
      have hb : b = 0xfe := UInt8.toNat_inj.1 (by change b.toNat = 254; omega)
      have hb' : b' = 0xff := UInt8.toNat_inj.1 (by change b'.toNat = 255; omega)
      rw [hb, hb']
      rfl

theorem textString_textOf {s : Bytes} {t : Str} (h : TextOf docChar s t) (hm : CapitalMark s) : textString s = .ok t := by
  cases h with
  | literal16 e t h1 h2 => exact C40_literal_utf16 t h1 e h2
  | hex16 h t h1 h2 =>
    obtain ⟨h', rfl⟩ := hm h _ rfl h2
    have : Hex h' (utf16 t) := by
      obtain ⟨s', h3, h4⟩ := hex_mark_inv h2
      rw [List.append_cancel_left h3]
      exact h4
    have e := C40_hex_utf16 t h1 h' this
    simpa using e
  | literal8 e s h1 h2 => rw [C40_literal_pdfdoc e s h1 h2, decodePdfdoc_eq]
  | hex8 h s h1 h2 =>
    rw [C40_hex_pdfdoc h s h1 ?_, decodePdfdoc_eq]
    rintro ⟨h', rfl⟩
    obtain ⟨s', h3, -⟩ := hex_mark_inv h1
    exact h2 ⟨s', h3.symm⟩

theorem metaText_null : metaText .null = .ok none := rfl

theorem metaText_bytes {s : Bytes} {t : Str} (h : textString s = .ok t) : metaText (.bytes s) = .ok (shownText t) := by
  simp only [metaText, h]
  rfl

theorem eval_metaEntry {s : Store} {i : Dict} {k : Bytes} {v : Obj} {x : Option Str}
    (hv : s.get ((Dict.get? i k).getD .null) = .ok v) (hx : metaText v = .ok x) :
    eval (metaEntry (.dict i) k) s = .ok ((k.drop 1, x), s) := by
  unfold metaEntry
  rw [eval_bind_ok (a := (Dict.get? i k).getD .null) (s' := s) rfl, eval_bind_ok (eval_fetch hv), hx]
  rfl

theorem eval_metaLoop {s : Store} {i : Dict} (f : Bytes → Option Str) : ∀ (l : List Bytes),
    (∀ k ∈ l, ∃ v, s.get ((Dict.get? i k).getD .null) = .ok v ∧ metaText v = .ok (f k)) →
    eval (metaLoop (.dict i) l) s = .ok (l.map fun k => (k.drop 1, f k), s)
  | [], _ => rfl
  | k :: l, h => by
    obtain ⟨v, h1, h2⟩ := h k (by simp)
    unfold metaLoop
    rw [eval_bind_ok (eval_metaEntry h1 h2), eval_bind_ok (eval_metaLoop f l (fun k hk => h k (by simp [hk])))]
    rfl

theorem eval_info {s : Store} {t : Dict} (ht : s.val 0 = .ok (.dict t)) :
    eval infoP s = (if truthy ((Dict.get? t b!"/Info").getD .null) then
      (s.get ((Dict.get? t b!"/Info").getD .null)).map (fun v => (v, s)) else .ok (.null, s)) := by
  unfold infoP
  rw [eval_bind_ok (eval_fetch (r := .ref 0 0) (o := .dict t) (by simpa [Store.get] using ht)),
    eval_bind_ok (a := (Dict.get? t b!"/Info").getD .null) (s' := s) rfl]
  split
  · unfold Prog.fetch eval
    cases s.get ((Dict.get? t b!"/Info").getD .null) <;> rfl
  · rfl

/-- **C85**: the eight entries shown by `overview` are the texts of the entries of the information dictionary, direct or not; those
that are absent, or empty, show nothing.

Missing from the full claim: hexadecimal strings whose mark is not in capitals (`C85_mark_counterexample`); entries that are not
strings, for which the code may raise. -/
theorem C85_metadata_partial [Zlib] (d : Doc) (hc : Coherent d) (t i : Dict) (o : Obj) (texts : Bytes → Str)
    (ht : view d (.ref 0 0) = .ok (.dict t)) (hi : Dict.get? t b!"/Info" = some o) (ho : o ≠ .ref 0 0)
    (hd : view d o = .ok (.dict i))
    (hv : ∀ k ∈ [b!"/Title", b!"/Author", b!"/Subject", b!"/Keywords", b!"/Creator", b!"/Producer", b!"/CreationDate", b!"/ModDate"],
      (Dict.get? i k = none ∧ texts k = []) ∨ ∃ v s, Dict.get? i k = some v ∧ view d v = .ok (.bytes s) ∧
        TextOf docChar s (texts k) ∧ CapitalMark s) :
    ∃ d', metadataP.run d = .ok
      ([(b!"Title", shownText (texts b!"/Title")), (b!"Author", shownText (texts b!"/Author")),
        (b!"Subject", shownText (texts b!"/Subject")), (b!"Keywords", shownText (texts b!"/Keywords")),
        (b!"Creator", shownText (texts b!"/Creator")), (b!"Producer", shownText (texts b!"/Producer")),
        (b!"CreationDate", shownText (texts b!"/CreationDate")), (b!"ModDate", shownText (texts b!"/ModDate"))], d') := by
  have hinfo := eval_info (s := storeOf d) (t := t) ht
  rw [hi] at hinfo
  simp only [Option.getD_some, ← view_get, hd, Except.map] at hinfo
  have hloop := eval_metaLoop (s := storeOf d) (i := i) (fun k => shownText (texts k)) metadataKeys (by
    intro k hk
    rcases hv k hk with ⟨h1, h2⟩ | ⟨v, s, h1, h2, h3, h4⟩
    · exact ⟨.null, by rw [h1]; rfl, by simp [metaText, h2, shownText]⟩
    · exact ⟨.bytes s, by rw [h1, Option.getD_some, ← view_get]; exact h2, metaText_bytes (textString_textOf h3 h4)⟩)
  have hev : eval metadataP (storeOf d) = .ok (metadataKeys.map fun k => (k.drop 1, shownText (texts k)), storeOf d) := by
    unfold metadataP
    rw [eval_bind, hinfo]
    by_cases hto : truthy o = true
    · rw [if_pos hto]
      simp only [bind, Except.bind]
      by_cases hti : truthy (.dict i) = true
      · rw [if_pos hti]; exact hloop
      · rw [if_neg hti]
        cases i with
        | nil => exact hloop
        | cons e i => simp [truthy] at hti
    · rw [if_neg hto]
      simp only [bind, Except.bind]
      have hoi : o = .dict [] := by
        cases o with
        | ref g n =>
          simp only [truthy, Bool.or_eq_true, bne_iff_ne, ne_eq, not_or, Decidable.not_not] at hto
          exact absurd (by rw [hto.1, hto.2]) ho
        | dict e => cases e with
          | nil => rfl
          | cons a e => simp [truthy] at hto
        | _ => cases hd
      subst hoi
      cases hd
      exact hloop
  obtain ⟨d', h1, -⟩ := run_readOnly_ok readOnly_metadata hc hev
  exact ⟨d', h1⟩

/-- **C85**: a document without information dictionary shows nothing. -/
theorem C85_none [Zlib] (d : Doc) (hc : Coherent d) (t : Dict) (ht : view d (.ref 0 0) = .ok (.dict t))
    (hi : Dict.get? t b!"/Info" = none) :
    ∃ m d', metadataP.run d = .ok (m, d') ∧ m.length = 8 ∧ ∀ k v, (k, v) ∈ m → v = none := by
  have hinfo := eval_info (s := storeOf d) (t := t) ht
  rw [hi] at hinfo
  have hev : eval metadataP (storeOf d) = .ok (metadataKeys.map fun k => (k.drop 1, none), storeOf d) := by
    unfold metadataP
    rw [eval_bind, hinfo]
    exact eval_metaLoop (s := storeOf d) (i := []) (fun _ => none) metadataKeys (fun k _ => ⟨.null, rfl, rfl⟩)
  obtain ⟨d', h1, -⟩ := run_readOnly_ok readOnly_metadata hc hev
  refine ⟨_, d', h1, rfl, ?_⟩
  intro k v hv
  obtain ⟨k', -, e⟩ := List.mem_map.1 hv
  cases e
  rfl

/-! ### After a reload -/

theorem pyEq_truthy : ∀ {a b : Obj}, pyEq a b = true → truthy a = truthy b
  | .list l, b, h => by
    cases b with
    | list l' =>
      cases l <;> cases l' <;> simp [pyEq, pyEqItems, truthy] at h ⊢
    | _ => simp [pyEq] at h
  | .dict d, b, h => by
    cases b with
    | dict d' =>
      simp only [pyEq, Bool.and_eq_true, decide_eq_true_eq] at h
      simp only [truthy, h.1]
    | _ => simp [pyEq] at h
  | .stream d s e, b, h => by
    cases b with
    | stream => rfl
    | _ => simp [pyEq] at h
  | .null, b, h => by simp [pyEq] at h; rw [← h]
  | .bool x, b, h => by simp [pyEq] at h; rw [← h]
  | .int x, b, h => by simp [pyEq] at h; rw [← h]
  | .real x y z, b, h => by simp [pyEq] at h; rw [← h]
  | .str x, b, h => by simp [pyEq] at h; rw [← h]
  | .bytes x, b, h => by simp [pyEq] at h; rw [← h]
  | .ref x y, b, h => by simp [pyEq] at h; rw [← h]

theorem pyEq_metaText : ∀ {a b : Obj}, pyEq a b = true → metaText a = metaText b
  | .list l, b, h => by cases b <;> first | rfl | simp [pyEq] at h
  | .dict d, b, h => by cases b <;> first | rfl | simp [pyEq] at h
  | .stream d s e, b, h => by cases b <;> first | rfl | simp [pyEq] at h
  | .null, b, h => by simp [pyEq] at h; rw [← h]
  | .bool x, b, h => by simp [pyEq] at h; rw [← h]
  | .int x, b, h => by simp [pyEq] at h; rw [← h]
  | .real x y z, b, h => by simp [pyEq] at h; rw [← h]
  | .str x, b, h => by simp [pyEq] at h; rw [← h]
  | .bytes x, b, h => by simp [pyEq] at h; rw [← h]
  | .ref x y, b, h => by simp [pyEq] at h; rw [← h]

theorem pyEqEntries_mem : ∀ {a b : List (Bytes × Obj)}, pyEqEntries a b = true → ∀ k v, (k, v) ∈ a →
    ∃ w, List.lookup k b = some w ∧ pyEq v w = true
  | (k0, v0) :: a, b, h, k, v, hm => by
    simp only [pyEqEntries, Bool.and_eq_true] at h
    rcases List.mem_cons.1 hm with e | hm
    · obtain ⟨rfl, rfl⟩ := Prod.mk.inj e
      rcases hl : List.lookup k b with _ | w
      · rw [hl] at h; simp at h
      · rw [hl] at h; exact ⟨w, rfl, h.1⟩
    · exact pyEqEntries_mem h.2 k v hm

theorem nodup_sub_length {α : Type} [DecidableEq α] : ∀ {l m : List α}, l.Nodup → (∀ x ∈ l, x ∈ m) → l.length ≤ m.length
  | [], _, _, _ => Nat.zero_le _
  | a :: l, m, h, hs => by
    rw [List.nodup_cons] at h
    have ha := hs a (by simp)
    have hr := nodup_sub_length (l := l) (m := m.erase a) h.2 (fun x hx => (List.mem_erase_of_ne (by
      rintro rfl; exact h.1 hx)).2 (hs x (by simp [hx])))
    have := List.length_erase_of_mem ha
    have : 0 < m.length := List.length_pos_of_mem ha
    simp only [List.length_cons]
    omega

/-- Equal dictionaries give equal answers. -/
theorem pyEq_lookup {a b : Dict} (h : pyEq (.dict a) (.dict b) = true) (hn : (a.map Prod.fst).Nodup) (k : Bytes) :
    SameOpt (Dict.get? a k) (Dict.get? b k) := by
  simp only [pyEq, Bool.and_eq_true, decide_eq_true_eq] at h
  rcases ha : Dict.get? a k with _ | v
  · rcases hb : Dict.get? b k with _ | w
    · trivial
    · exfalso
      have hka : ∀ x ∈ a.map Prod.fst, x ≠ k := by
        intro x hx e
        obtain ⟨⟨k', v⟩, h1, h2⟩ := List.mem_map.1 hx
        have := List.lookup_eq_none_iff.1 ha _ h1
        simp only at h2
        rw [h2, e] at this
        simp at this
      have hkb : k ∈ b.map Prod.fst := List.mem_map.2 ⟨(k, w), get?_mem hb, rfl⟩
      have hsub : ∀ x ∈ a.map Prod.fst, x ∈ (b.map Prod.fst).erase k := by
        intro x hx
        refine (List.mem_erase_of_ne (hka x hx)).2 ?_
        obtain ⟨⟨k', v⟩, h1, h2⟩ := List.mem_map.1 hx
        cases h2
        obtain ⟨w', h3, -⟩ := pyEqEntries_mem h.2 _ _ h1
        exact List.mem_map.2 ⟨(k', w'), get?_mem h3, rfl⟩
      have h1 := nodup_sub_length hn hsub
      rw [List.length_erase_of_mem hkb, List.length_map, List.length_map] at h1
      have := List.length_pos_of_mem hkb
      rw [List.length_map] at this
      omega
  · obtain ⟨w, h1, h2⟩ := pyEqEntries_mem h.2 k v (get?_mem ha)
    have : Dict.get? b k = some w := h1
    rw [this]
    exact .inr h2

/-- The object is direct, or a reference to an object in use. -/
def Alive (d : Doc) (o : Obj) : Prop :=
  ∀ g n, o = .ref g n → ∃ (m : Nat) (e : Entry), n = m ∧ 1 ≤ m ∧ d.cur[m]? = some (.one e) ∧ e.deleted = false

def Same (a b : Obj) : Prop := a = b ∨ pyEq a b = true

theorem same_get {d dl : Doc} [Zlib] (hv : ∀ (n : Nat) (g : Int) (e : Entry), 1 ≤ n → d.cur[n]? = some (.one e) → e.deleted = false →
        ∃ v w, view d (.ref g n) = .ok v ∧ view dl (.ref g n) = .ok w ∧ (v = w ∨ pyEq v w = true))
    {a b : Obj} (hab : Same a b) (hl : Alive d a) : ∃ v w, view d a = .ok v ∧ view dl b = .ok w ∧ Same v w := by
  cases a with
  | ref g n =>
    have hb : b = .ref g n := by
      rcases hab with rfl | h
      · rfl
      · simp [pyEq] at h; exact h.symm
    subst hb
    obtain ⟨m, e, rfl, h1, h2, h3⟩ := hl g n rfl
    exact hv m g e h1 h2 h3
  | _ =>
    all_goals
      cases b with
      | ref g n => rcases hab with h | h <;> simp [pyEq] at h
      | _ => exact ⟨_, _, rfl, rfl, hab⟩

theorem eval_of_run [Zlib] {α : Type} {p : Prog α} (hp : ReadOnly p) {d : Doc} (hc : Coherent d) {m : α}
    (h : (p.run d).map Prod.fst = .ok m) : eval p (storeOf d) = .ok (m, storeOf d) := by
  have hr := run_readOnly hp hc
  rcases he : eval p (storeOf d) with x | ⟨a, s⟩
  · rw [he] at hr
    rw [hr] at h
    cases h
  · rw [he] at hr
    obtain ⟨rfl, d', h1, -⟩ := hr
    rw [h1] at h
    cases h
    rfl

theorem eval_lift_inv {α : Type} {x : Py α} {s s' : Store} {a : α} (h : eval (Prog.lift x) s = .ok (a, s')) : x = .ok a ∧ s' = s := by
  cases x with
  | error e => cases h
  | ok b => cases h; exact ⟨rfl, rfl⟩

theorem eval_fetch_inv {r a : Obj} {s s' : Store} (h : eval (Prog.fetch r) s = .ok (a, s')) : s.get r = .ok a ∧ s' = s := by
  unfold Prog.fetch eval at h
  obtain ⟨v, h1, h⟩ := bind_eq_ok h
  cases h
  exact ⟨h1, rfl⟩

theorem metaEntry_inv {s s' : Store} {i : Dict} {k : Bytes} {x : Bytes × Option Str} (h : eval (metaEntry (.dict i) k) s = .ok (x, s')) :
    s' = s ∧ ∃ v t, s.get ((Dict.get? i k).getD .null) = .ok v ∧ metaText v = .ok t ∧ x = (k.drop 1, t) := by
  unfold metaEntry at h
  rw [eval_bind_ok (a := (Dict.get? i k).getD .null) (s' := s) rfl, eval_bind] at h
  obtain ⟨⟨v, s2⟩, h2, hb⟩ := bind_eq_ok h
  clear h
  obtain ⟨h2', e⟩ := eval_fetch_inv h2
  subst e
  dsimp only at hb
  rw [eval_bind] at hb
  obtain ⟨⟨t, s3⟩, h3, hr⟩ := bind_eq_ok hb
  clear hb
  obtain ⟨h3', e⟩ := eval_lift_inv h3
  subst e
  cases hr
  exact ⟨rfl, v, t, h2', h3', rfl⟩

theorem metaLoop_same {s s' : Store} {i i' : Dict} : ∀ (l : List Bytes) {m : List (Bytes × Option Str)} {s1 : Store},
    (∀ k ∈ l, ∀ v x, s.get ((Dict.get? i k).getD .null) = .ok v → metaText v = .ok x →
      ∃ w, s'.get ((Dict.get? i' k).getD .null) = .ok w ∧ metaText w = .ok x) →
    eval (metaLoop (.dict i) l) s = .ok (m, s1) → eval (metaLoop (.dict i') l) s' = .ok (m, s')
  | [], m, s1, _, h => by cases h; rfl
  | k :: l, m, s1, hs, h => by
    unfold metaLoop at h
    rw [eval_bind] at h
    obtain ⟨⟨x, s2⟩, h1, h⟩ := bind_eq_ok h
    obtain ⟨rfl, v, t, h2, h3, rfl⟩ := metaEntry_inv h1
    rw [eval_bind] at h
    obtain ⟨⟨r, s3⟩, h4, h⟩ := bind_eq_ok h
    cases h
    obtain ⟨w, h5, h6⟩ := hs k (by simp) v t h2 h3
    have h7 := metaLoop_same l (fun k hk => hs k (by simp [hk])) h4
    unfold metaLoop
    rw [eval_bind_ok (eval_metaEntry h5 h6), eval_bind_ok h7]
    rfl

theorem metaLoop_dict {s s1 : Store} {i : Obj} {m : List (Bytes × Option Str)} (h : eval (metaLoop i metadataKeys) s = .ok (m, s1)) :
    ∃ d, i = .dict d := by
  cases i with
  | dict d => exact ⟨d, rfl⟩
  | _ => cases h

/-- **C85**: writing a document and loading the file leaves its metadata as they are, when the information dictionary and its entries
are direct or objects in use.

Missing from the full claim: see `C28_reload_partial`; references to deleted objects (`C85_deleted_counterexample`). -/
theorem C85_reload_partial [Zlib] (d d' : Doc) (out : Bytes) (h : Made d) (hw : writeFile d = .ok (out, d'))
    (hmin : 100 ≤ out.length) (hmax : out.length < 10 ^ 80) (t : Dict) (ht : view d (.ref 0 0) = .ok (.dict t))
    (hi : ∀ o, Dict.get? t b!"/Info" = some o → Alive d o ∧ ∀ i, view d o = .ok (.dict i) →
      (i.map Prod.fst).Nodup ∧ ∀ k v, Dict.get? i k = some v → Alive d v)
    (m : List (Bytes × Option Str)) (hm : (metadataP.run d).map Prod.fst = .ok m) :
    ∃ dl, loads out = .ok dl ∧ (metadataP.run dl).map Prod.fst = .ok m := by
  obtain ⟨dl, hl, hv, -, t1, t', ht1, ht', hk⟩ := C28_reload_partial d d' out h hw hmin hmax
  rw [ht] at ht1
  cases ht1
  have hcd : Coherent d := by
    obtain ⟨F, secs, hf⟩ := made_filed h
    exact hf.settled.edit.good.coherent
  have hcl : Coherent dl := by
    obtain ⟨F, secs, hf0⟩ := made_filed h
    obtain ⟨secs', hf, -, -⟩ := filed_write hf0 hw
    obtain ⟨s, l, rfl⟩ := filed_sec hf hmin
    obtain ⟨dl', tl, h1, h2, -⟩ := loads_at hf.chain (hf.ends s rfl) hmin hmax hf.kept (hf.trailer s rfl) hf.laid
    rw [hl] at h1
    cases h1
    exact h2.coherent
  refine ⟨dl, hl, ?_⟩
  have hev := eval_of_run readOnly_metadata hcd hm
  have hsame := hk b!"/Info" (by decide) (by decide) (by decide)
  have e1 := eval_info (s := storeOf d) (t := t) ht
  have e2 := eval_info (s := storeOf dl) (t := t') ht'
  suffices hs : eval metadataP (storeOf dl) = .ok (m, storeOf dl) by
    obtain ⟨d2, h1, -⟩ := run_readOnly_ok readOnly_metadata hcl hs
    rw [h1]
    rfl
  unfold metadataP at hev ⊢
  rw [eval_bind, e1] at hev
  rw [eval_bind, e2]
  have hnull : eval (metaLoop (.dict []) metadataKeys) (storeOf d) = .ok (m, storeOf d) →
      eval (metaLoop (.dict []) metadataKeys) (storeOf dl) = .ok (m, storeOf dl) := by
    refine metaLoop_same _ ?_
    intro k _ v x h1 h2
    cases h1
    exact ⟨.null, rfl, h2⟩
  rcases ho : Dict.get? t b!"/Info" with _ | o
  · rw [ho] at hsame hev
    rcases ho' : Dict.get? t' b!"/Info" with _ | o'
    · exact hnull hev
    · rw [ho'] at hsame; cases hsame
  · obtain ⟨hal, hd⟩ := hi o ho
    rcases ho' : Dict.get? t' b!"/Info" with _ | o'
    · rw [ho, ho'] at hsame; cases hsame
    · rw [ho, ho'] at hsame
      rw [ho] at hev
      have hoo : Same o o' := hsame
      have htr : truthy o' = truthy o := by
        rcases hoo with rfl | h
        · rfl
        · exact (pyEq_truthy h).symm
      simp only [Option.getD_some, htr] at hev ⊢
      by_cases htro : truthy o = true
      · rw [if_pos htro] at hev ⊢
        obtain ⟨v, w, hvv, hww, hvw⟩ := same_get hv hoo hal
        rw [← view_get, hvv] at hev
        rw [← view_get, hww]
        simp only [Except.map, bind, Except.bind] at hev ⊢
        have htv : truthy w = truthy v := by
          rcases hvw with rfl | h
          · rfl
          · exact (pyEq_truthy h).symm
        rw [htv]
        by_cases htrv : truthy v = true
        · rw [if_pos htrv] at hev ⊢
          obtain ⟨i, rfl⟩ := metaLoop_dict hev
          obtain ⟨hnd, hals⟩ := hd i hvv
          obtain ⟨i', rfl⟩ : ∃ i', w = .dict i' := by
            rcases hvw with rfl | h
            · exact ⟨i, rfl⟩
            · cases w <;> simp [pyEq] at h
              exact ⟨_, rfl⟩
          refine metaLoop_same _ ?_ hev
          intro k _ a x h1 h2
          have hkk : SameOpt (Dict.get? i k) (Dict.get? i' k) := by
            rcases hvw with h | h
            · cases h
              cases Dict.get? i k
              · trivial
              · exact .inl rfl
            · exact pyEq_lookup h hnd k
          rcases ha : Dict.get? i k with _ | p
          · rw [ha] at hkk h1
            rcases hb : Dict.get? i' k with _ | q
            · cases h1
              exact ⟨.null, rfl, h2⟩
            · rw [hb] at hkk; cases hkk
          · rcases hb : Dict.get? i' k with _ | q
            · rw [ha, hb] at hkk; cases hkk
            · rw [ha, hb] at hkk
              obtain ⟨v', w', k1, k2, k3⟩ := same_get hv (a := p) (b := q) hkk (hals k p ha)
              rw [ha, Option.getD_some, ← view_get, k1] at h1
              cases h1
              refine ⟨w', by rw [Option.getD_some, ← view_get]; exact k2, ?_⟩
              rcases k3 with rfl | k3
              · exact h2
              · rw [← pyEq_metaText k3]; exact h2
        · rw [if_neg htrv] at hev ⊢
          exact hnull hev
      · rw [if_neg htro] at hev ⊢
        simp only [bind, Except.bind, truthy, Bool.false_eq_true, if_false] at hev ⊢
        exact hnull hev

/-! ### A sample -/

/-- A document with a title (through a reference), an author in UTF-16, an empty subject and keywords in hexadecimal. -/
def infoObjs : List Obj :=
  [.dict [(b!"/Root", .ref 0 1), (b!"/Info", .ref 0 4)],
   .dict [(b!"/Type", .str b!"/Catalog"), (b!"/Pages", .ref 0 2)],
   .dict [(b!"/Type", .str b!"/Pages"), (b!"/Kids", .list [.ref 0 3]), (b!"/Count", .int 1)],
   .dict [(b!"/Type", .str b!"/Page"), (b!"/Parent", .ref 0 2), (b!"/MediaBox", .list [.int 0, .int 0, .int 595, .int 842])],
   .dict [(b!"/Title", .ref 0 5), (b!"/Author", .bytes (b!"(" ++ [254, 255, 0, 233, 32, 172] ++ b!")")), (b!"/Subject", .bytes b!"()"),
     (b!"/Keywords", .bytes b!"<6162>")],
   .bytes b!"(a \\(b\\))"]

/-- What is shown of it. -/
def infoTexts : List (Bytes × Option Str) :=
  [(b!"Title", some [97, 32, 40, 98, 41]), (b!"Author", some [233, 8364]), (b!"Subject", none), (b!"Keywords", some [97, 98]),
   (b!"Creator", none), (b!"Producer", none), (b!"CreationDate", none), (b!"ModDate", none)]

theorem info_made [Zlib] : Made (memDoc infoObjs) := by
  refine .start (memDoc_fresh rfl ?_ (by decide) rfl rfl)
  intro n o hn ho
  rcases n with _ | _ | _ | _ | _ | _ | n <;> simp [infoObjs] at ho hn <;> subst ho <;> exact ⟨show WF _ _ _ = true by decide, rfl⟩

/-- The texts of the sample, as `C85_metadata_partial` requires them. -/
example : TextOf docChar (b!"(" ++ [254, 255, 0, 233, 32, 172] ++ b!")") [233, 8364] := by
  refine .literal16 _ _ (by simp [IsScalar]) ?_
  exact .plain _ (by decide) (.plain _ (by decide) (.plain _ (by decide) (.plain _ (by decide) (.plain _ (by decide)
    (.plain _ (by decide) .nil)))))

/-- **C85 is false of a hexadecimal string** whose mark is not in capitals: it stands for `A`, but is not decoded. -/
theorem C85_mark_counterexample : TextOf docChar b!"<feff0041>" [65] ∧ metaText (.bytes b!"<feff0041>") ≠ .ok (some [65]) := by
  refine ⟨.hex16 b!"feff0041" [65] (by simp [IsScalar]) ?_, by decide⟩
  refine .byte 102 101 0xfe (.inr rfl) (.inr rfl) (.byte 102 102 0xff (.inr rfl) (.inr rfl) (.byte 48 48 0 (.inl rfl) (.inl rfl)
    (.byte 52 49 0x41 (.inl rfl) (.inl rfl) .nil)))

example [Zlib] : (metadataP.run (memDoc infoObjs)).map Prod.fst = .ok infoTexts := by kernel_rfl

/-- The hypotheses of `C85_reload_partial` are met by the sample. -/
example [Zlib] : ∃ t, view (memDoc infoObjs) (.ref 0 0) = .ok (.dict t) ∧
    ∀ o, Dict.get? t b!"/Info" = some o → Alive (memDoc infoObjs) o ∧ ∀ i, view (memDoc infoObjs) o = .ok (.dict i) →
      (i.map Prod.fst).Nodup ∧ ∀ k v, Dict.get? i k = some v → Alive (memDoc infoObjs) v := by
  refine ⟨_, rfl, ?_⟩
  intro o ho
  cases ho
  refine ⟨?_, ?_⟩
  · intro g n e
    cases e
    exact ⟨4, { num := 4 }, rfl, by decide, rfl, rfl⟩
  · intro i hi
    cases hi
    refine ⟨by decide, ?_⟩
    intro k v hv g n e
    subst e
    have := get?_mem hv
    simp at this
    obtain ⟨-, rfl, rfl⟩ := this
    exact ⟨5, { num := 5 }, rfl, by decide, rfl, rfl⟩

/-- The file of the sample. -/
example [Zlib] : (do
    let (out, _) ← writeFile (memDoc infoObjs)
    let dl ← loads out
    let (m, _) ← metadataP.run dl
    return (decide (100 ≤ out.length ∧ out.length < 10 ^ 80), m)) = .ok (true, infoTexts) := by kernel_rfl

/-- **C85 is false of a reference to a deleted object**: nothing is shown of the title before, and it
is back in the file. -/
theorem C85_deleted_counterexample [Zlib] : (do
    let d ← ops [.commit, .set 5 .null] (memDoc infoObjs)
    let (m, d) ← metadataP.run d
    let (out, _) ← writeFile d
    let dl ← loads out
    let (m', _) ← metadataP.run dl
    return (m.head?, m'.head?)) = .ok (some (b!"Title", none), some (b!"Title", some [97, 32, 40, 98, 41])) := by kernel_rfl

end Pdf
