/-
C105: changing the filter of streams, written and loaded.
-/
import Verif.Props.C104_JoinedFile
import Verif.Props.C69_Filter

namespace Pdf
open Spec

/-- The data encoded with the filter `flt` can be found again in a file (C02). -/
def SafeData [Zlib] (flt data : Bytes) : Prop :=
  ∀ enc, encodeStream data (if flt = [] then [] else [(b!"/Filter", .str flt)]) = .ok enc →
    enc ≠ [] ∧ ¬ b!"endstream" <:+: enc ∧ enc.getLast? ≠ some 13

/-- Hexadecimal digits are always found again. -/
theorem safe_hex [Zlib] {data : Bytes} (h : data ≠ []) : SafeData b!"/ASCIIHexDecode" data := by
  intro enc he
  have henc : enc = asciihex data := by
    simp [encodeStream, encodeLoop, Dict.get?] at he
    exact he.symm
  subst henc
  have hdig : ∀ c ∈ asciihex data, hexVal c ≠ none := by
    clear he h
    induction data with
    | nil => simp [asciihex]
    | cons a data ih =>
      intro c hc
      simp only [asciihex, List.mem_cons] at hc
      have hd : ∀ n, n < 16 → hexVal (hexDigit n) ≠ none := by decide
      rcases hc with rfl | rfl | hc
      · exact hd _ (by have := a.toNat_lt; omega)
      · exact hd _ (by omega)
      · exact ih c hc
  refine ⟨?_, ?_, ?_⟩
  · cases data with
    | nil => exact absurd rfl h
    | cons a data => simp [asciihex]
  · intro hin
    have : (110 : UInt8) ∈ asciihex data := hin.subset (by decide)
    exact hdig _ this (by decide)
  · intro hl
    exact hdig 13 (List.mem_of_getLast? hl) (by decide)

/-- What `forge_stream` makes of the new entries survives writing and reading. -/
theorem forge_keepable [Zlib] (hz : ZlibLaw) {flt : Bytes} (hflt : flt = [] ∨ supported flt) {e : Dict}
    {data enc : Bytes} (h : Convertible flt (.stream e data enc)) (hk : Keepable (.stream e data enc))
    (hs : SafeData flt data) {o : Obj} {l : Nat} (hf : forgeStream (filterEntries e flt) data = .ok (o, l)) : Keepable o := by
  obtain ⟨_, _, _, h1, h2, h3⟩ := h
  obtain ⟨⟨hwf, -, -, -, -⟩, hstm⟩ := hk
  have hget : Dict.get? (filterEntries e flt) b!"/Filter" = (if flt = [] then none else some (.str flt)) := by
    unfold filterEntries
    by_cases hf : flt = []
    · rcases h1 with ⟨-, h1⟩ | ⟨f, -, h1⟩
      · exact absurd hf h1
      · rw [if_pos ⟨by rw [Dict.has, h1]; rfl, hf⟩, if_pos hf, Dict.get?_del]
        simp
    · rw [if_neg (fun h => hf h.2), if_neg hf, Dict.get?_set, if_pos rfl]
  have hoth : ∀ k, k ≠ b!"/Filter" → Dict.get? (filterEntries e flt) k = Dict.get? e k := by
    intro k hk
    unfold filterEntries
    split
    · rw [Dict.get?_del, if_neg hk]
    · rw [Dict.get?_set, if_neg hk]
  have hwf1 : WF false false (.dict (filterEntries e flt)) = true := by
    unfold filterEntries
    split
    · exact wf_del hwf
    · rename_i hne
      refine wf_set hwf (by decide) ?_
      rcases hflt with rfl | hflt
      · rcases h1 with ⟨-, h1⟩ | ⟨f, -, h1⟩
        · exact absurd rfl h1
        · exact absurd ⟨by rw [Dict.has, h1]; rfl, rfl⟩ hne
      · rcases hflt with rfl | rfl | rfl <;> decide
  unfold forgeStream at hf
  obtain ⟨enc', he, hf⟩ := bind_eq_ok hf
  cases hf
  have hlen : ∀ k, k ≠ b!"/Length" → Dict.get? (updateStreamLength (filterEntries e flt) enc').1 k =
      Dict.get? (filterEntries e flt) k := by
    intro k hk
    unfold updateStreamLength
    split
    · simp only
      rw [Dict.get?_set, if_neg hk]
    · rfl
  have hwf2 : WF false false (.dict (updateStreamLength (filterEntries e flt) enc').1) = true := by
    unfold updateStreamLength
    split
    · exact wf_set hwf1 (by decide) (by simp [WF])
    · exact hwf1
  have hsafe := hs enc' (by
    rw [← he]
    unfold encodeStream
    rw [hget]
    by_cases hfe : flt = []
    · simp [hfe, Dict.get?]
    · simp [hfe, Dict.get?])
  have hdec : decodeStream enc' (updateStreamLength (filterEntries e flt) enc').1 = .ok data := by
    have hf' : Dict.get? (updateStreamLength (filterEntries e flt) enc').1 b!"/Filter" = if flt = [] then none else some (.str flt) := by
      rw [hlen _ (by decide), hget]
    have henc : encodeStream data (updateStreamLength (filterEntries e flt) enc').1 = .ok enc' := by
      rw [← he]
      unfold encodeStream
      rw [hf', hget]
    rcases hflt with rfl | hflt
    · obtain ⟨y, y1, y2⟩ := C09_no_filter (updateStreamLength (filterEntries e []) enc').1 data (by rw [hf', if_pos rfl])
      rw [henc] at y1
      cases y1
      exact y2
    · have hne : flt ≠ [] := by rcases hflt with rfl | rfl | rfl <;> simp
      obtain ⟨y, y1, y2⟩ := C09_single_filter_partial hz (updateStreamLength (filterEntries e flt) enc').1 flt data hflt
        ⟨.inl (by rw [hf', if_neg hne]), by
          rw [hlen _ (by decide), hoth _ (by decide)]
          exact h2.elim .inl fun h => .inr (.inl h)⟩
      rw [henc] at y1
      cases y1
      exact y2
  refine ⟨⟨hwf2, hsafe.1, hsafe.2.1, hsafe.2.2, hdec⟩, ?_⟩
  show (Dict.get? (updateStreamLength (filterEntries e flt) enc').1 b!"/Type" == some (.str b!"/ObjStm")) = false
  rw [hlen _ (by decide), hoth _ (by decide)]
  exact hstm

theorem applyFilterTo_made [Zlib] {flt : Bytes} {d d' : Doc} {n : Nat} (hm : Made d) (hn : n ≠ 0)
    {e : Dict} {data enc : Bytes} (hv : view d (.ref 0 n) = .ok (.stream e data enc))
    (hk : ∀ o l, forgeStream (filterEntries e flt) data = .ok (o, l) → Keepable o)
    (h : applyFilterTo d n flt = .ok d') : Made d' := by
  obtain ⟨ent, hent⟩ := view_live (made_editable hm) hn hv
  obtain ⟨d1, q1, q2, q3, -⟩ := get_step (made_editable hm) (r := .ref 0 n) (o := .stream e data enc) hv
  unfold applyFilterTo objAt at h
  rw [entryAt_eq hent] at h
  obtain ⟨p, h1, h⟩ := bind_eq_ok h
  have h1 : getObject d (.ref 0 n) = .ok p := h1
  rw [q1] at h1
  cases h1
  simp only at h
  have m1 := made_get hm q1
  split at h
  · cases h
    exact m1
  · obtain ⟨_, -, h⟩ := bind_eq_ok h
    obtain ⟨⟨o, l⟩, h2, h⟩ := bind_eq_ok h
    exact made_set m1 hn (.inr (hk o l h2)) h

theorem applyFilter_made [Zlib] (hz : ZlibLaw) {flt : Bytes} (hflt : flt = [] ∨ supported flt) : ∀ (ns : List Nat) (d d' : Doc),
    Made d → ns.Nodup → 0 ∉ ns →
    (∀ n ∈ ns, ∃ e data enc, view d (.ref 0 n) = .ok (.stream e data enc) ∧ Convertible flt (.stream e data enc) ∧
      Keepable (.stream e data enc) ∧ SafeData flt data) →
    applyFilter flt ns d = .ok d' → Made d'
  | [], d, d', hm, _, _, _, h => by cases h; exact hm
  | n :: ns, d, d', hm, hnd, h0, hall, h => by
    obtain ⟨e, data, enc, v1, v2, v3, v4⟩ := hall n (by simp)
    have hn : n ≠ 0 := fun h => h0 (by simp [h])
    unfold applyFilter at h
    obtain ⟨d1, h1, h⟩ := bind_eq_ok h
    have m1 := applyFilterTo_made hm hn v1 (fun o l hf => forge_keepable hz hflt v2 v3 v4 hf) h1
    obtain ⟨d2, c1, -, -, -, -, -, -, c8⟩ := C69_apply_partial hz flt hflt none [n] d (made_editable hm) (by simp)
      (by simpa using fun h : 0 = n => hn h.symm) (by
        intro m hm'
        rw [List.mem_singleton] at hm'
        subst hm'
        exact ⟨_, v1, v2⟩)
    have : d2 = d1 := by
      simp only [applyFilter, h1, bind, Except.bind] at c1
      exact (Except.ok.inj c1).symm
    subst this
    have hnotin : n ∉ ns := (List.nodup_cons.1 hnd).1
    refine applyFilter_made hz hflt ns d2 d' m1 (List.nodup_cons.1 hnd).2 (fun h => h0 (by simp [h])) ?_ h
    intro m hm'
    rw [c8 m (by simpa using fun h : m = n => hnotin (h ▸ hm'))]
    exact hall m (by simp [hm'])

/-- **C105.** The filter of the listed streams is changed, and the document is written: in the file, each of them has the
requested filter, decodes to the same data, and has its other entries (`/Length` excepted); every other object has the same value.

Missing from the full claim: what is missing of C69 (streams with several filters or a predictor, filters that are not supported)
and of C28; encoded data that contain the keyword `endstream`, end with a carriage return or are empty (`SafeData`: see C02; this
does not happen with hexadecimal digits, `safe_hex`). -/
theorem C105_filter_partial [Zlib] (hz : ZlibLaw) {flt : Bytes} (hflt : flt = [] ∨ supported flt) {d : Doc} (hm : Made d)
    {ns : List Nat} (hnd : ns.Nodup) (h0 : 0 ∉ ns)
    (hall : ∀ n ∈ ns, ∃ e data enc, view d (.ref 0 n) = .ok (.stream e data enc) ∧ Convertible flt (.stream e data enc) ∧
      Keepable (.stream e data enc) ∧ SafeData flt data) :
    ∃ d', applyFilter flt ns d = .ok d' ∧ Made d' ∧
      ∀ (out : Bytes) (d'' : Doc), writeFile d' = .ok (out, d'') → 100 ≤ out.length → out.length < 10 ^ 80 →
        ∃ dl, loads out = .ok dl ∧
          (∀ n ∈ ns, ∃ e data enc e' enc', view d (.ref 0 n) = .ok (.stream e data enc) ∧
            view dl (.ref 0 n) = .ok (.stream e' data enc') ∧
            Dict.get? e' b!"/Filter" = (if flt = [] then none else some (.str flt)) ∧ content e' enc' = some data ∧
            ∀ k, k ≠ b!"/Filter" → k ≠ b!"/Length" → SameOpt (Dict.get? e k) (Dict.get? e' k)) ∧
          ∀ (n : Nat) v, 1 ≤ n → n ∉ ns → view d (.ref 0 n) = .ok v → v ≠ .null →
            ∃ w, view dl (.ref 0 n) = .ok w ∧ Same v w := by
  obtain ⟨d', c1, c2, -, -, -, -, c7, c8⟩ := C69_apply_partial hz flt hflt none ns d (made_editable hm) hnd h0 (by
    intro n hn
    obtain ⟨e, data, enc, v1, v2, -⟩ := hall n hn
    exact ⟨_, v1, v2⟩)
  have hm' := applyFilter_made hz hflt ns d d' hm hnd h0 hall c1
  refine ⟨d', c1, hm', ?_⟩
  intro out d'' hw hmin hmax
  obtain ⟨dl, l1, l2⟩ := reload_store hm' hw hmin hmax
  have l2 : SameStore (storeOf d') (storeOf dl) := l2
  refine ⟨dl, l1, ?_, ?_⟩
  · intro n hn
    obtain ⟨o, o', v1, v2, hr⟩ := c7 n hn
    have hn0 : n ≠ 0 := fun h => h0 (h ▸ hn)
    obtain ⟨e, e', data, enc, enc', r1, r2, r3, -, r5⟩ := hr
    obtain ⟨w, w1, w2⟩ := l2 n _ (by omega) v2 (by simp)
    obtain ⟨e'', rfl, hs⟩ : ∃ e'', w = .stream e'' data enc' ∧ SameDict e' e'' := by
      rcases w2 with rfl | w2
      · refine ⟨e', rfl, fun k => ?_⟩
        rcases Dict.get? e' k with _ | x
        · trivial
        · exact .inl rfl
      · cases w <;> simp only [pyEq, Bool.and_eq_true, decide_eq_true_eq, Bool.false_eq_true] at w2
        obtain ⟨⟨⟨q1, q2⟩, rfl⟩, rfl⟩ := w2
        obtain ⟨e0, data0, enc0, z1, -, z3, -⟩ := hall n hn
        rw [v1] at z1
        cases z1
        refine ⟨_, rfl, pyEq_lookup (by simp only [pyEq, Bool.and_eq_true, decide_eq_true_eq]; exact ⟨q1, q2⟩) (r5 ?_)⟩
        have := z3.1.1
        simp only [WF, Bool.and_eq_true, decide_eq_true_eq] at this
        exact this.2
    have hflt' : Dict.get? e'' b!"/Filter" = Dict.get? e' b!"/Filter" := by
      have := hs b!"/Filter"
      rw [r2] at this ⊢
      by_cases hf : flt = []
      · rw [if_pos hf] at this ⊢
        rcases hg : Dict.get? e'' b!"/Filter" with _ | x
        · rfl
        · rw [hg] at this; exact this.elim
      · rw [if_neg hf] at this ⊢
        rcases hg : Dict.get? e'' b!"/Filter" with _ | x
        · rw [hg] at this; exact this.elim
        · rw [hg] at this
          rw [same_str this]
    refine ⟨e, data, enc, e'', enc', v1, w1, by rw [hflt', r2], ?_, ?_⟩
    · rw [← r3]
      unfold content filterNames
      rw [hflt']
    · intro k k1 k2
      rw [← r1 k k1 k2]
      exact hs k
  · intro n v hn hnot hv hnull
    exact l2 n v hn (by show view d' (.ref 0 n) = _; rw [c8 n hnot]; exact hv) hnull

/-! ### A sample -/

theorem filterObjs_keep [Zlib] : ∀ (n : Nat) (o : Obj), 1 ≤ n → filterObjs[n]? = some o → Keepable o := by
  intro n o hn ho
  rcases n with _ | _ | _ | _ | _ | _ | n
  · omega
  all_goals simp [filterObjs] at ho
  all_goals subst ho
  · exact keepable_dict.2 (by decide)
  all_goals exact ⟨⟨by decide, by decide, by decide, by decide, rfl⟩, by decide⟩

/-- The hypotheses of `C105_filter_partial` are met by the streams 2 and 3 of the sample of C69. -/
example [Zlib] : Made (memDoc filterObjs) ∧ ∀ n ∈ [2, 3], ∃ e data enc,
    view (memDoc filterObjs) (.ref 0 (n : Nat)) = .ok (.stream e data enc) ∧
    Convertible b!"/ASCIIHexDecode" (.stream e data enc) ∧ Keepable (.stream e data enc) ∧
    SafeData b!"/ASCIIHexDecode" data := by
  refine ⟨.start (memDoc_fresh rfl filterObjs_keep (by decide) rfl rfl), ?_⟩
  have h : ∀ n : Nat, view (memDoc filterObjs) (.ref 0 n) = (memStore filterObjs).val n := fun n => by
    rw [← memDoc_store (by simp [filterObjs])]; rfl
  intro n hn
  simp only [List.mem_cons, List.not_mem_nil, or_false] at hn
  rcases hn with rfl | rfl
  · exact ⟨_, _, _, by rw [h]; rfl, .intro _ _ _ (.inr ⟨b!"/ASCIIHexDecode", by simp, by decide⟩) (.inl (by decide)) rfl,
      filterObjs_keep 2 _ (by omega) rfl, safe_hex (by decide)⟩
  · exact ⟨_, _, _, by rw [h]; rfl, .intro _ _ _ (.inl ⟨by decide, by simp⟩) (.inl (by decide)) rfl,
      filterObjs_keep 3 _ (by omega) rfl, safe_hex (by decide)⟩

/-- What is in the file. -/
example [Zlib] : (do
    let d ← applyFilter b!"/ASCIIHexDecode" [2, 3] (memDoc filterObjs)
    let (out, _) ← writeFile d
    let dl ← loads out
    return (decide (100 ≤ out.length ∧ out.length < 10 ^ 80), view dl (.ref 0 3))) =
      .ok (true, .ok (.stream [(b!"/Filter", .str b!"/ASCIIHexDecode"), (b!"/Length", .int 7)] b!"q Q" b!"712051")) := by
  kernel_rfl

/-- **C105 needs `SafeData`**: the bytes `endstream` in data whose filter is removed: in the file the
data end there. -/
theorem C105_endstream_counterexample [Zlib] : (do
    let d ← applyFilter [] [2] (memDoc
      [.dict [(b!"/Root", .ref 0 1)], .dict [(b!"/Type", .str b!"/Catalog")],
       .stream [(b!"/Length", .int 35), (b!"/Filter", .str b!"/ASCIIHexDecode")] b!"(endstream) Tj"
         (asciihex b!"(endstream) Tj")])
    let (out, _) ← writeFile d
    let dl ← loads out
    return view dl (.ref 0 2)) = .ok (.ok (.stream [(b!"/Length", .int 15)] b!"(" b!"(")) := by
  kernel_rfl

end Pdf
