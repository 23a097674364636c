/-
C69: changing the filter of streams (apply_filter, list_streams).
-/
import Verif.Model.Streams
import Verif.Lemmas.MemDoc
import Verif.Lemmas.ObjStm
import Verif.Lemmas.KernelRfl
import Verif.Props.C09_Filters
import Verif.Props.C21_Commit

namespace Pdf
open Spec

namespace Spec

/-- The names of the filters of a stream, in order (ISO 32000 7.3.8.2). -/
def filterNames (e : Dict) : Option (List Bytes) :=
  match Dict.get? e b!"/Filter" with
  | none => some []
  | some (.str f) => some [f]
  | some (.list l) => l.mapM fun o => match o with | .str f => some f | _ => none
  | some _ => none

/-- The data of a stream without predictor: the encoded bytes through the decoders of its filters. `none` when a filter
is not supported, or when the bytes are not what it produces. -/
def content [Zlib] (e : Dict) (enc : Bytes) : Option Bytes := (filterNames e).bind fun fs => pipeline fs enc

/-- The stream has no predictor. -/
def NoPredictor (e : Dict) : Prop :=
  Dict.get? e b!"/DecodeParms" = none ∨
    ∃ p, Dict.get? e b!"/DecodeParms" = some (.dict p) ∧ Dict.get? p b!"/Predictor" = none

/-- `o'` is the stream `o`, with the filter `flt` (empty: no filter): the data are the same, and the same entries but for
/Filter and /Length; a /Length that was an integer is now the extent of the data written; no key is repeated. -/
inductive Refiltered [Zlib] (flt : Bytes) : Obj → Obj → Prop
  | intro (e e' : Dict) (data enc enc' : Bytes) :
      (∀ k, k ≠ b!"/Filter" → k ≠ b!"/Length" → Dict.get? e' k = Dict.get? e k) →
      Dict.get? e' b!"/Filter" = (if flt = [] then none else some (.str flt)) →
      content e' enc' = some data →
      ((∃ n, Dict.get? e b!"/Length" = some (.int n)) ∧ enc' ≠ enc →
        Dict.get? e' b!"/Length" = some (.int (enc'.length + 1 : Nat))) →
      ((e.map Prod.fst).Nodup → (e'.map Prod.fst).Nodup) →
      Refiltered flt (.stream e data enc) (.stream e' data enc')

/-- A stream which may be given the filter `flt`: at most one filter, given by its name, no predictor, and the data are what
was decoded. A stream without filter is given one only. -/
inductive Convertible [Zlib] (flt : Bytes) : Obj → Prop
  | intro (e : Dict) (data enc : Bytes) :
      (Dict.get? e b!"/Filter" = none ∧ flt ≠ [] ∨ ∃ f, f ≠ [] ∧ Dict.get? e b!"/Filter" = some (.str f)) →
      NoPredictor e → content e enc = some data → Convertible flt (.stream e data enc)

end Spec

/-! ### As a program -/

/-- `apply_filter` for one number, as a sequence of steps. -/
def applyProg [Zlib] (flt : Bytes) (n : Nat) : Prog Unit := do
  let o ← Prog.fetch (.ref 0 n)
  match o with
  | .stream entries content _ =>
    if Dict.get? entries b!"/Filter" = some (.str flt) then pure ()
    else do
      let _ ← Prog.lift (checkFilter (Dict.get? entries b!"/Filter"))
      let r ← Prog.lift (forgeStream (filterEntries entries flt) content)
      Prog.update n r.1
  | .dict d => Prog.lift (if Dict.has d b!"entries" then .error .outside else .error .keyError)
  | _ => .raise .typeError

theorem applyFilterTo_run [Zlib] {d : Doc} {n : Nat} {flt : Bytes} {e : Entry} (h : d.cur[n]? = some (.one e)) :
    applyFilterTo d n flt = ((applyProg flt n).run d).map Prod.snd := by
  unfold applyFilterTo objAt applyProg
  rw [entryAt_eq h]
  have hg : getObject d (.ref e.gen n) = getObject d (.ref 0 n) := rfl
  simp only [bind, Except.bind, Prog.fetch, Prog.bind, Prog.run, hg]
  rcases getObject d (.ref 0 n) with er | ⟨o, d1⟩
  · rfl
  · cases o with
    | stream entries st enc =>
      simp only
      split
      · rfl
      · rcases checkFilter (Dict.get? entries b!"/Filter") with er | u
        · rfl
        · rcases forgeStream (filterEntries entries flt) st with er | ⟨s, l⟩
          · rfl
          · show updateObject d1 n s = Except.map _ (updateObject d1 n s >>= _)
            cases updateObject d1 n s <;> rfl
    | dict dd =>
      simp only
      split <;> rfl
    | _ => rfl

theorem strSplit_supported {f : Bytes} (hf : supported f) : strSplit f = [f] := by
  rcases hf with rfl | rfl | rfl <;> decide

theorem stage_encode [Zlib] (hz : ZlibLaw) {f : Bytes} (hf : supported f) (x : Bytes) :
    stage f (encodeLoop [.str f] x) = some x := by
  rcases hf with rfl | rfl | rfl
  · simp [encodeLoop, stage, hz x]
  · simp [encodeLoop, stage, unhexlify_asciihex]
  · simp [encodeLoop, stage, a85decode_a85encode]

theorem pipeline_one [Zlib] (f x : Bytes) : pipeline [f] x = stage f x := by
  simp [pipeline]

/-- What `forge_stream` makes of the new entries. -/
theorem forge_refiltered [Zlib] (hz : ZlibLaw) {flt : Bytes} (hflt : flt = [] ∨ supported flt) {e : Dict}
    {data enc : Bytes} (h : Convertible flt (.stream e data enc)) :
    ∃ o' l, forgeStream (filterEntries e flt) data = .ok (o', l) ∧ o' ≠ .null ∧
      Refiltered flt (.stream e data enc) o' := by
  obtain ⟨_, _, _, h1, h2, h3⟩ := h
  have hget : Dict.get? (filterEntries e flt) b!"/Filter" = (if flt = [] then none else some (.str flt)) := by
    unfold filterEntries
    by_cases hf : flt = []
    · rcases h1 with ⟨-, h1⟩ | ⟨f, -, h1⟩
      · exact absurd hf h1
      · rw [if_pos ⟨by rw [Dict.has, h1]; rfl, hf⟩, if_pos hf, Dict.get?_del]
        simp
    · rw [if_neg (fun h => hf h.2), if_neg hf, Dict.get?_set, if_pos rfl]
  have hoth : ∀ k, k ≠ b!"/Filter" → Dict.get? (filterEntries e flt) k = Dict.get? e k := by
    intro k hk
    unfold filterEntries
    split
    · rw [Dict.get?_del, if_neg hk]
    · rw [Dict.get?_set, if_neg hk]
  have henc : ∃ enc', encodeStream data (filterEntries e flt) = .ok enc' ∧
      (if flt = [] then some enc' else stage flt enc') = some data := by
    unfold encodeStream
    rw [hget]
    rcases hflt with rfl | hs
    · exact ⟨data, by simp, by simp⟩
    · have hne : flt ≠ [] := by rcases hs with rfl | rfl | rfl <;> simp
      rw [if_neg hne]
      exact ⟨_, rfl, by rw [if_neg hne]; exact stage_encode hz hs data⟩
  obtain ⟨enc', he1, he2⟩ := henc
  unfold forgeStream
  rw [he1]
  refine ⟨.stream (updateStreamLength (filterEntries e flt) enc').1 data enc', _, rfl, by simp, ?_⟩
  have hlen : ∀ k, k ≠ b!"/Length" → Dict.get? (updateStreamLength (filterEntries e flt) enc').1 k =
      Dict.get? (filterEntries e flt) k := by
    intro k hk
    unfold updateStreamLength
    split
    · simp only
      rw [Dict.get?_set, if_neg hk]
    · rfl
  constructor
  · intro k k1 k2
    rw [hlen k k2, hoth k k1]
  · rw [hlen _ (by decide), hget]
  · unfold content filterNames
    rw [hlen _ (by decide), hget]
    by_cases hf : flt = []
    · simp [hf, pipeline] at he2 ⊢
      exact he2
    · simp only [if_neg hf] at he2 ⊢
      simp only [Option.bind_some, pipeline_one]
      exact he2
  · rintro ⟨⟨n, hn⟩, -⟩
    have : Dict.get? (filterEntries e flt) b!"/Length" = some (.int n) := by rw [hoth _ (by decide), hn]
    unfold updateStreamLength
    rw [this]
    simp only
    rw [Dict.get?_set, if_pos rfl]
  · intro hnd
    have h0 : ((filterEntries e flt).map Prod.fst).Nodup := by
      unfold filterEntries
      split
      · exact hnd.sublist ((List.filter_sublist).map _)
      · exact nodup_set hnd
    unfold updateStreamLength
    split
    · exact nodup_set h0
    · exact h0

/-- One number, on the map. -/
theorem applyProg_eval [Zlib] (hz : ZlibLaw) {flt : Bytes} (hflt : flt = [] ∨ supported flt) {s : Store} {n : Nat}
    (hn : n ≠ 0) {o : Obj} (ho : s.val n = .ok o) (hc : Convertible flt o) :
    ∃ s' o', eval (applyProg flt n) s = .ok ((), s') ∧ s'.next = s.next ∧ s'.val n = .ok o' ∧ Refiltered flt o o' ∧
      ∀ m, m ≠ n → s'.val m = s.val m := by
  have hget : s.get (.ref 0 n) = .ok o := by
    simp only [Store.get]
    rw [if_neg (by omega), Int.toNat_natCast]
    exact ho
  unfold applyProg
  rw [eval_bind_ok (eval_fetch hget)]
  obtain ⟨e, data, enc, h1, h2, h3⟩ := hc
  simp only
  by_cases hsame : Dict.get? e b!"/Filter" = some (.str flt)
  · rw [if_pos hsame]
    refine ⟨s, _, rfl, rfl, ho, ?_, fun _ _ => rfl⟩
    refine .intro _ _ _ _ _ (fun _ _ _ => rfl) ?_ h3 ?_ id
    · rw [if_neg ?_, hsame]
      rcases h1 with ⟨h1, -⟩ | ⟨f, hf, h1⟩
      · rw [h1] at hsame; cases hsame
      · rw [h1] at hsame
        cases hsame
        exact hf
    · rintro ⟨-, h⟩
      exact absurd rfl h
  · rw [if_neg hsame]
    have hchk : checkFilter (Dict.get? e b!"/Filter") = .ok () := by
      rcases h1 with ⟨h1, -⟩ | ⟨f, -, h1⟩ <;> rw [h1] <;> rfl
    obtain ⟨o', l, hf, hnull, hr⟩ := forge_refiltered hz hflt (.intro e data enc h1 h2 h3)
    rw [hchk, eval_bind_ok (eval_lift_ok _ _), hf, eval_bind_ok (eval_lift_ok _ _), eval_update hn ho]
    exact ⟨_, o', rfl, set_next .., set_val_eq .., hr, fun m hm => set_val_ne hm⟩

/-- C69. `apply_filter` gives each listed stream the requested filter and keeps its data and its other entries; every other
object is left as it is, and so are the earlier revisions. For documents without object streams, and listed streams that
have at most one filter, given by its name, without predictor, and whose data could be decoded.
Partial: false for streams with a filter that is not supported (`C69_unsupported_counterexample`) and for streams without
filter when the filter is to be removed (`C69_remove_counterexample`): their data are lost. It raises on an array of filters
(`C69_array_counterexample`). -/
theorem C69_apply_partial [Zlib] (hz : ZlibLaw) (flt : Bytes) (hflt : flt = [] ∨ supported flt) (x : Option Int) :
    ∀ (ns : List Nat) (d : Doc), Editable d x → ns.Nodup → 0 ∉ ns →
      (∀ n ∈ ns, ∃ o, view d (.ref 0 n) = .ok o ∧ Convertible flt o) →
      ∃ d', applyFilter flt ns d = .ok d' ∧ Editable d' x ∧ d'.cur.length = d.cur.length ∧
        d'.past = d.past ∧ d'.curData = d.curData ∧ d'.pastData = d.pastData ∧
        (∀ n ∈ ns, ∃ o o', view d (.ref 0 n) = .ok o ∧ view d' (.ref 0 n) = .ok o' ∧ Refiltered flt o o') ∧
        ∀ n : Nat, n ∉ ns → view d' (.ref 0 n) = view d (.ref 0 n)
  | [], d, hd, _, _, _ => ⟨d, rfl, hd, rfl, rfl, rfl, rfl, by simp, fun _ _ => rfl⟩
  | n :: ns, d, hd, hnd, h0, hall => by
    obtain ⟨o, ho, hc⟩ := hall n (by simp)
    have hn : n ≠ 0 := fun h => h0 (by simp [h])
    obtain ⟨s', o', he, hnext, hv, hr, hoth⟩ := applyProg_eval hz hflt (s := storeOf d) hn ho hc
    obtain ⟨d1, r1, r2, r3, r4, r5, r6⟩ := run_eval _ hd he
    obtain ⟨ent, hent⟩ := view_live hd hn ho
    have h1 : applyFilterTo d n flt = .ok d1 := by rw [applyFilterTo_run hent, r1]; rfl
    have hval : ∀ m : Nat, view d1 (.ref 0 m) = s'.val m := fun m => by rw [← r3]; rfl
    have hnotin : n ∉ ns := (List.nodup_cons.1 hnd).1
    obtain ⟨d2, q1, q2, q3, q4, q5, q6, q7, q8⟩ := C69_apply_partial hz flt hflt x ns d1 r2 (List.nodup_cons.1 hnd).2
      (fun h => h0 (by simp [h])) (by
        intro m hm
        rw [hval, hoth m (fun h => hnotin (h ▸ hm))]
        exact hall m (by simp [hm]))
    refine ⟨d2, ?_, q2, ?_, q4.trans r4, q5.trans r5, q6.trans r6, ?_, ?_⟩
    · unfold applyFilter
      rw [h1]
      exact q1
    · have := congrArg Store.next r3
      rw [hnext] at this
      exact q3.trans this
    · intro m hm
      rcases List.mem_cons.1 hm with rfl | hm
      · refine ⟨o, o', ho, ?_, hr⟩
        rw [q8 m hnotin, hval, hv]
      · obtain ⟨a, b, k1, k2, k3⟩ := q7 m hm
        refine ⟨a, b, ?_, k2, k3⟩
        rw [← k1, hval, hoth m (fun h => hnotin (h ▸ hm))]
        rfl
    · intro m hm
      rw [q8 m (fun h => hm (by simp [h])), hval, hoth m (fun h => hm (by simp [h]))]
      rfl

/-! ### The list of streams -/

theorem listStreamsLoop_spec [Zlib] : ∀ (rs : List Ref) (d : Doc), Coherent d → (∀ r ∈ rs, 0 ≤ r.2) →
    (∀ r ∈ rs, ∃ o, view d (.ref r.1 r.2) = .ok o) →
    ∃ l d', listStreamsLoop rs d = .ok (l, d') ∧ storeOf d' = storeOf d ∧ d' = { d with cache := d'.cache } ∧
      l = ((rs.map fun r => r.2.toNat).filter fun n => match (storeOf d).val n with
        | .ok (.stream _ _ _) => true
        | _ => false)
  | [], d, _, _, _ => ⟨[], d, rfl, rfl, rfl, rfl⟩
  | (g, n) :: rs, d, hc, hpos, hv => by
    obtain ⟨o, ho⟩ := hv (g, n) (by simp)
    have hn : 0 ≤ n := hpos (g, n) (by simp)
    have hval : (storeOf d).val n.toNat = .ok o := by
      rw [view_get] at ho
      simp only [Store.get] at ho
      rw [if_neg (by omega)] at ho
      exact ho
    rcases hg : getObject d (.ref g n) with e | ⟨o', d1⟩
    · unfold view at ho
      rw [hg] at ho
      cases ho
    have : o' = o := by
      unfold view at ho
      rw [hg] at ho
      cases ho; rfl
    subst this
    have hf := getObject_filled hc hg
    have hst := storeOf_filled hc hf
    obtain ⟨l, d2, h1, h2, h3, h4⟩ := listStreamsLoop_spec rs d1 (filled_coherent hc hf)
      (fun r hr => hpos r (by simp [hr])) (fun r hr => by
        obtain ⟨v, h⟩ := hv r (by simp [hr])
        exact ⟨v, by rw [view_get, hst, ← view_get]; exact h⟩)
    rw [hst] at h2 h4
    refine ⟨_, d2, ?_, h2, by rw [h3, hf.eq], rfl⟩
    unfold listStreamsLoop
    rw [hg]
    simp only [bind, Except.bind]
    rw [h1]
    simp only [List.map_cons, List.filter_cons, hval, ← h4]
    cases o' <;> rfl

/-- C69. `list_streams` lists, in increasing order, exactly the numbers in use whose object is a stream; it does not change
what the document shows. -/
theorem C69_list [Zlib] (d : Doc) (hc : Coherent d) (hv : ∀ n : Nat, 1 ≤ n → Live d n → ∃ o, view d (.ref 0 n) = .ok o) :
    ∃ l d', listStreams d = .ok (l, d') ∧ l.Pairwise (· < ·) ∧
      (∀ n : Nat, n ∈ l ↔ 1 ≤ n ∧ Live d n ∧ ∃ e data enc, view d (.ref 0 n) = .ok (.stream e data enc)) ∧
      (∀ n : Nat, view d' (.ref 0 n) = view d (.ref 0 n)) ∧ d'.cur = d.cur ∧ d'.past = d.past := by
  obtain ⟨hmem, hord⟩ := C58_in_use d
  have hpos : ∀ r ∈ inUse d, 0 ≤ r.2 := by
    intro r hr
    obtain ⟨n, -, -, rfl⟩ := (hmem r).1 hr
    exact Int.natCast_nonneg n
  obtain ⟨l, d', h1, h2, h3, h4⟩ := listStreamsLoop_spec (inUse d) d hc hpos (by
    intro r hr
    obtain ⟨n, h, k, rfl⟩ := (hmem r).1 hr
    obtain ⟨o, ho⟩ := hv n h k
    exact ⟨o, ho⟩)
  refine ⟨l, d', h1, ?_, ?_, ?_, by rw [h3], by rw [h3]⟩
  · rw [h4]
    refine List.Pairwise.filter _ ?_
    rw [List.pairwise_map]
    refine hord.imp_of_mem ?_
    intro a b ha hb hab
    have := hpos a ha
    have := hpos b hb
    omega
  · intro n
    rw [h4, List.mem_filter, List.mem_map]
    constructor
    · rintro ⟨⟨r, hr, rfl⟩, hs⟩
      obtain ⟨m, k1, k2, rfl⟩ := (hmem r).1 hr
      rw [Int.toNat_natCast] at hs ⊢
      refine ⟨k1, k2, ?_⟩
      show ∃ e data enc, (storeOf d).val m = _
      revert hs
      cases (storeOf d).val m with
      | error e => intro hs; cases hs
      | ok o =>
        cases o <;> intro hs <;> first | exact ⟨_, _, _, rfl⟩ | cases hs
    · rintro ⟨k1, k2, e, data, enc, hs⟩
      refine ⟨⟨_, (hmem _).2 ⟨n, k1, k2, rfl⟩, Int.toNat_natCast n⟩, ?_⟩
      have : (storeOf d).val n = .ok (.stream e data enc) := hs
      rw [this]
  · intro n
    show (storeOf d').val n = (storeOf d).val n
    rw [h2]

/-! ### Samples -/

/-- A font program with a filter, a content stream without, a dictionary, an image with a filter that is not supported, a
stream with an array of filters. -/
def filterObjs : List Obj :=
  [.dict [(b!"/Root", .ref 0 1)],
   .dict [(b!"/Type", .str b!"/Catalog")],
   .stream [(b!"/Length", .int 5), (b!"/Filter", .str b!"/ASCIIHexDecode"), (b!"/Length1", .int 2)] b!"AB" b!"4142",
   .stream [(b!"/Length", .int 4)] b!"q Q" b!"q Q",
   .stream [(b!"/Length", .int 4), (b!"/Filter", .str b!"/DCTDecode")] errUnsupported b!"JPEG",
   .stream [(b!"/Filter", .list [.str b!"/ASCIIHexDecode"])] b!"AB" b!"4142"]

example [Zlib] : Editable (memDoc filterObjs) none ∧ (∀ n ∈ [2, 3], ∃ o,
    view (memDoc filterObjs) (.ref 0 (n : Nat)) = .ok o ∧ Convertible b!"/ASCII85Decode" o) := by
  refine ⟨memDoc_editable (by simp [filterObjs]) rfl, ?_⟩
  have h : ∀ n : Nat, view (memDoc filterObjs) (.ref 0 n) = (memStore filterObjs).val n := fun n => by
    rw [← memDoc_store (by simp [filterObjs])]; rfl
  intro n hn
  simp only [List.mem_cons, List.not_mem_nil, or_false] at hn
  rcases hn with rfl | rfl
  · exact ⟨_, by rw [h]; rfl, .intro _ _ _ (.inr ⟨b!"/ASCIIHexDecode", by simp, by decide⟩) (.inl (by decide)) rfl⟩
  · exact ⟨_, by rw [h]; rfl, .intro _ _ _ (.inl ⟨by decide, by simp⟩) (.inl (by decide)) rfl⟩

/-- What is computed on it: the streams, and the streams 2 and 3 with the filter /ASCII85Decode, and without filter. -/
example [Zlib] : (listStreams (memDoc filterObjs)).map Prod.fst = .ok [2, 3, 4, 5] ∧
    (applyFilter b!"/ASCII85Decode" [2, 3] (memDoc filterObjs)).map (fun d => [d.cache[2]?, d.cache[3]?]) = .ok
      [some (.stream [(b!"/Length", .int 8), (b!"/Filter", .str b!"/ASCII85Decode"), (b!"/Length1", .int 2)] b!"AB"
        b!"<~5sb~>"),
       some (.stream [(b!"/Length", .int 9), (b!"/Filter", .str b!"/ASCII85Decode")] b!"q Q" b!"<~E?J*~>")] ∧
    (applyFilter [] [2] (memDoc filterObjs)).map (fun d => d.cache[2]?) = .ok
      (some (.stream [(b!"/Length", .int 3), (b!"/Length1", .int 2)] b!"AB" b!"AB")) := by
  refine ⟨?_, ?_, ?_⟩ <;> kernel_rfl

/-- The bytes of an image whose filter is not supported are lost: the message that replaces its data is encoded in their
place, under the requested filter. -/
theorem C69_unsupported_counterexample [Zlib] :
    (memDoc filterObjs).cache[4]? = some (.stream [(b!"/Length", .int 4), (b!"/Filter", .str b!"/DCTDecode")]
      errUnsupported b!"JPEG") ∧
    (applyFilter b!"/ASCIIHexDecode" [4] (memDoc filterObjs)).map (fun d => d.cache[4]?) = .ok
      (some (.stream [(b!"/Length", .int (asciihex errUnsupported).length.succ), (b!"/Filter", .str b!"/ASCIIHexDecode")]
        errUnsupported (asciihex errUnsupported))) := by
  refine ⟨?_, ?_⟩ <;> kernel_rfl

/-- Removing the filter of a stream that has none gives it an empty filter, and its bytes are replaced by a message: it cannot
be decoded any more. -/
theorem C69_remove_counterexample [Zlib] :
    (applyFilter [] [3] (memDoc filterObjs)).map (fun d => d.cache[3]?) = .ok
      (some (.stream [(b!"/Length", .int (errUnsupported.length + 1 : Nat)), (b!"/Filter", .str [])] b!"q Q" errUnsupported)) ∧
    decodeStream errUnsupported [(b!"/Length", .int (errUnsupported.length + 1 : Nat)), (b!"/Filter", .str [])] =
      .error .unboundLocal := by
  refine ⟨?_, ?_⟩ <;> kernel_rfl

/-- An array of filters, even of one, makes the function fail. -/
theorem C69_array_counterexample [Zlib] :
    content [(b!"/Filter", .list [.str b!"/ASCIIHexDecode"])] b!"4142" = some b!"AB" ∧
    (applyFilter b!"/FlateDecode" [5] (memDoc filterObjs)).map (fun d => d.cache[5]?) = .error .attributeError := by
  refine ⟨?_, ?_⟩ <;> kernel_rfl

end Pdf
