/-
Reading an indirect object where it was written.
-/
import Verif.Props.C02_Streams
import Verif.Props.C01_RoundTrip
import Verif.Props.C23_Map
import Verif.Spec.Storable

namespace Pdf
open Spec

/-- What is read of an object that was written. -/
def readBack : Obj → Obj
  | .stream d content enc => .stream (normEntries d).reverse content enc
  | o => norm o

theorem pyEq_readBack [Zlib] {o : Obj} (h : Storable o) : pyEq o (readBack o) = true := by
  cases o with
  | stream d content enc =>
    have := pyEq_norm (.dict d) _ _ h.1
    simp only [norm, pyEq, Bool.and_eq_true, decide_eq_true_eq] at this
    simp only [readBack, pyEq, Bool.and_eq_true, decide_eq_true_eq, and_true]
    exact this
  | ref => exact absurd h id
  | _ => exact pyEq_norm _ _ _ h

/-- The header of an indirect object. -/
def header (num gen : Nat) : Bytes := natDec num ++ b!" " ++ natDec gen ++ b!" obj\n"

theorem tokAt_nat (n : Nat) {c : UInt8} (hc : isBreak c = true) (post : Bytes) :
    TokAt (natDec n) (c :: post) .integer := tokAt_int (n : Int) hc post

theorem nthToken_header [Zlib] {text s post : Bytes} {t : TokT} {i num gen : Nat} (ht : TokAt s post t)
    (hd : text.drop i = header num gen ++ (s ++ post)) :
    (nthToken text 3 i).1 = i + (header num gen).length := by
  have h0 : text.drop i = [] ++ (natDec num ++ 32 :: (natDec gen ++ b!" obj\n" ++ (s ++ post))) := by
    rw [hd]; simp [header]
  have e0 := nextToken_at (tokAt_nat num (c := 32) (by decide) _) (by simp) h0
  have h1 : text.drop (i + ([] : Bytes).length + (natDec num).length) =
      [32] ++ (natDec gen ++ 32 :: (b!"obj\n" ++ (s ++ post))) := by
    rw [drop_add_of (drop_add_of h0)]; simp
  have e1 := nextToken_at (tokAt_nat gen (c := 32) (by decide) _) (by decide) h1
  have h2 := drop_add_of (drop_add_of h1)
  have h2' : text.drop (i + ([] : Bytes).length + (natDec num).length + [(32 : UInt8)].length + (natDec gen).length) =
      [32] ++ (b!"obj" ++ 10 :: (s ++ post)) := by
    rw [h2]; simp
  have e2 := nextToken_at (tokAt_keyword (s := b!"obj") (by decide) (c := 10) (by decide) _) (by decide) h2'
  have h3 := drop_add_of (drop_add_of h2')
  have h3' : text.drop (i + ([] : Bytes).length + (natDec num).length + [(32 : UInt8)].length +
      (natDec gen).length + [(32 : UInt8)].length + (b!"obj").length) = [10] ++ (s ++ post) := by
    rw [h3]; simp
  have e3 := nextToken_at ht (by decide) h3'
  simp only [nthToken, e0, e1, e2, e3]
  simp only [header, List.length_append, List.length_nil, List.length_cons]
  omega

theorem drop_split {text x : Bytes} {i : Nat} (h : text.drop i = x) (hx : x ≠ []) :
    text = text.take i ++ x ∧ (text.take i).length = i := by
  refine ⟨by rw [← h, List.take_append_drop], ?_⟩
  rw [List.length_take]
  rcases Nat.lt_or_ge i text.length with h1 | h1
  · omega
  · exact absurd (h.symm.trans (List.drop_eq_nil_of_le h1)) hx

variable [Zlib]

/-- The value of an indirect object, where it was written. -/
theorem parse_indirect {text rest s : Bytes} {i num gen : Nat} {o : Obj} (ho : Storable o)
    (hs : serialize 0 o = .ok s) (hd : text.drop i = indirect num gen s ++ rest) :
    parseObj text (nthToken text 3 i).1 = .ok (readBack o) := by
  have hend : (nextToken (b!"\nendobj\n" ++ rest) 0).2.2 ≠ some .stream := by
    have := nextToken_at (tokAt_keyword (s := b!"endobj") (by decide) (c := 10) (by decide) rest)
      (text := b!"\nendobj\n" ++ rest) (ws := [10]) (i := 0) (by decide) (by simp)
    rw [this]
    simp
  have hd' : text.drop i = header num gen ++ (s ++ (b!"\nendobj\n" ++ rest)) := by
    rw [hd]; simp [indirect, header]
  have hne : header num gen ++ (s ++ (b!"\nendobj\n" ++ rest)) ≠ [] := by simp
  obtain ⟨p1, p2⟩ := drop_split hd' hne
  have hlen : i + (header num gen).length = (text.take i ++ header num gen).length := by
    rw [List.length_append, p2]
  have htext : text = (text.take i ++ header num gen) ++ (s ++ (b!"\nendobj\n" ++ rest)) := by
    rw [List.append_assoc]; exact p1
  cases o with
  | ref => exact absurd ho id
  | stream d content enc =>
    obtain ⟨h1, h2, h3, h4, h5⟩ := ho
    have h1' := h1
    simp only [WF, Bool.and_eq_true, decide_eq_true_eq] at h1'
    have hs' : s = ser 0 (.dict d) ++ b!"\n" ++ streamPart enc := by
      rw [serialize, serializeEntries_eq d _ _ 0 h1'.1] at hs
      simp [bind, Except.bind, h2] at hs
      rw [← hs]
      simp [ser, streamPart]
    have ht : TokAt (ser 0 (.dict d)) (b!"\n" ++ streamPart enc ++ (b!"\nendobj\n" ++ rest)) .dict :=
      tokAt_dict 0 (serEntries_dtrans d _ 0 h1'.1) _
    rw [nthToken_header (num := num) (gen := gen) ht (by rw [hd', hs']; simp), hlen]
    have := parseObj_shift (text.take i ++ header num gen) (s ++ (b!"\nendobj\n" ++ rest)) 0
    rw [← htext, Nat.add_zero] at this
    rw [this, hs', parse_stream h1'.1 h1'.2 h3 h4, decodeStream_norm h1'.1 h1'.2, h5]
    rfl
  | null => simp [Storable, WF] at ho
  | _ =>
    have hwf := ho
    simp only [Storable] at hwf
    have hs' := (serialize_eq _ _ _ 0 hwf).symm.trans hs
    simp only [Except.ok.injEq] at hs'
    subst hs'
    have ht := tokAt_obj hwf (by simp) 0 (c := 10) (by decide) (b!"endobj\n" ++ rest)
    rw [nthToken_header (num := num) (gen := gen) ht (by rw [hd']; rfl), hlen]
    conv => lhs; arg 1; rw [htext]
    exact parse_ser hwf (by simp) 0 _ _ (.inl ⟨10, _, rfl, by decide⟩) (fun _ => hend)

theorem storable_serialize {o : Obj} (ho : Storable o) : ∃ s, serialize 0 o = .ok s := by
  cases o with
  | ref => exact absurd ho id
  | null => simp [Storable, WF] at ho
  | stream d content enc =>
    obtain ⟨h1, h2, -⟩ := ho
    obtain ⟨s, -, h, -⟩ := C02_stream_roundtrip_partial d content [65] h1 (by simp) (by decide) (by simp) 0 [] []
    simp only [WF, Bool.and_eq_true, decide_eq_true_eq] at h1
    rw [serialize, serializeEntries_eq d _ _ 0 h1.1]
    simp [bind, Except.bind, h2]
  | _ => exact ⟨_, serialize_eq _ _ _ 0 ho⟩

end Pdf
