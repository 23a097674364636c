/-
C09 – C12: filters and stream lengths.
-/
import Verif.Lemmas.Filters
import Verif.Lemmas.Falsy
import Verif.Model.Objects

namespace Pdf

/-- Parameters that change nothing: what Python takes for false, the word `null` as it is parsed, or a dictionary without
/Predictor. -/
def Spec.NoParms (o : Obj) : Prop := Spec.Falsy o ∨ o = .str b!"null" ∨ ∃ p, o = .dict p ∧ Dict.get? p b!"/Predictor" = none

/-- The dictionary names the single filter `f` (as a name or as a one-item array), and has either no
/DecodeParms, or a /DecodeParms dictionary without /Predictor, or a one-item array of such. -/
def Spec.Filtered (d : Dict) (f : Bytes) : Prop :=
  (Dict.get? d b!"/Filter" = some (.str f) ∨ Dict.get? d b!"/Filter" = some (.list [.str f])) ∧
  (Dict.get? d b!"/DecodeParms" = none ∨
    (∃ p, Dict.get? d b!"/DecodeParms" = some (.dict p) ∧ Dict.get? p b!"/Predictor" = none) ∨
    ∃ o, Dict.get? d b!"/DecodeParms" = some (.list [o]) ∧ Spec.NoParms o)

/-- The supported filters. -/
def Spec.supported (f : Bytes) : Prop :=
  f = b!"/FlateDecode" ∨ f = b!"/ASCIIHexDecode" ∨ f = b!"/ASCII85Decode"

/-- C09. No filter. -/
theorem C09_no_filter [Zlib] (d : Dict) (x : Bytes) (h : Dict.get? d b!"/Filter" = none) :
    ∃ y, encodeStream x d = .ok y ∧ decodeStream y d = .ok x :=
  ⟨x, by simp [encodeStream, h], by simp [decodeStream, h]⟩

/-- C09. One supported filter: decoding what was encoded with the same dictionary gives the data back, for every
byte string, given a zlib whose `decompress` inverts `compress`.
Partial: a /Predictor is not applied on encoding (`C09_predictor_counterexample`). -/
theorem C09_single_filter_partial [Zlib] (hz : ZlibLaw) (d : Dict) (f : Bytes) (x : Bytes)
    (hf : Spec.supported f) (hd : Spec.Filtered d f) :
    ∃ y, encodeStream x d = .ok y ∧ decodeStream y d = .ok x := by
  obtain ⟨h1, h2⟩ := hd
  refine ⟨encodeLoop [.str f] x, ?_, ?_⟩
  · rcases h1 with h1 | h1 <;> simp [encodeStream, h1]
  · have key : decodeStream (encodeLoop [.str f] x) d =
        match Dict.get? d b!"/DecodeParms" with
        | none => decodeLoop (encodeLoop [.str f] x) [none] 0 [.str f] none
        | some (.dict p) => decodeLoop (encodeLoop [.str f] x) [some (.dict p)] 0 [.str f] none
        | some (.list l) => decodeLoop (encodeLoop [.str f] x) (l.map some) 0 [.str f] none
        | some _ => .error .outside := by
      unfold decodeStream
      rcases h1 with h1 | h1
      · have hs : strSplit f = [f] := by rcases hf with rfl | rfl | rfl <;> decide
        rw [h1]
        simp only [hs]
        rfl
      · rw [h1]
        rfl
    rw [key]
    rcases h2 with h2 | ⟨p, h2, h3⟩ | ⟨o, h2, h3⟩
    · rw [h2]
      rcases hf with rfl | rfl | rfl
      · simp [encodeLoop, decodeLoop, flateStage, hz x, hasPredictor]
      · simp [encodeLoop, decodeLoop, unhexlify_asciihex]
      · simp [encodeLoop, decodeLoop, a85decode_a85encode]
    · rw [h2]
      rcases hf with rfl | rfl | rfl
      · simp [encodeLoop, decodeLoop, flateStage, hz x, hasPredictor, Dict.has, h3]
      · simp [encodeLoop, decodeLoop, unhexlify_asciihex]
      · simp [encodeLoop, decodeLoop, a85decode_a85encode]
    · rw [h2]
      have hp : hasPredictor (some o) = some false := by
        rcases h3 with h3 | rfl | ⟨p, rfl, h3⟩
        · exact hasPredictor_falsy h3
        · simp only [hasPredictor, show (find b!"null" b!"/Predictor" 0) = none by decide]
          rfl
        · simp [hasPredictor, Dict.has, h3]
      rcases hf with rfl | rfl | rfl
      · simp [encodeLoop, decodeLoop, flateStage, hz x, hp]
      · simp [encodeLoop, decodeLoop, unhexlify_asciihex]
      · simp [encodeLoop, decodeLoop, a85decode_a85encode]

/-- The identity satisfies the law assumed of zlib, and the three filters have their dictionaries. -/
example : @ZlibLaw ⟨id, some⟩ := fun _ => rfl
example : Spec.supported b!"/ASCII85Decode" ∧
    Spec.Filtered [(b!"/Length", .int 3), (b!"/Filter", .list [.str b!"/ASCII85Decode"])] b!"/ASCII85Decode" :=
  ⟨.inr (.inr rfl), .inr (by decide), .inl (by decide)⟩
example : Spec.Filtered [(b!"/DecodeParms", .list [.str b!"null"]), (b!"/Filter", .list [.str b!"/FlateDecode"])]
    b!"/FlateDecode" := ⟨.inr (by decide), .inr (.inr ⟨_, rfl, .inr (.inl rfl)⟩)⟩
example : a85encode [0, 0, 0, 0, 104, 105, 33] = b!"<~zBPAU~>" ∧ asciihex [10, 255] = b!"0AFF" := by decide

/-- With a predictor, decoding does not invert encoding: `encode_stream` ignores /DecodeParms. -/
theorem C09_predictor_counterexample [Zlib] (hz : ZlibLaw) :
    let d : Dict := [(b!"/Filter", .str b!"/FlateDecode"),
      (b!"/DecodeParms", .dict [(b!"/Predictor", .int 12), (b!"/Columns", .int 1)])]
    encodeStream b!"ab" d = .ok (Zlib.compress b!"ab") ∧
    decodeStream (Zlib.compress b!"ab") d = .ok b!"b" := by
  have h1 : strSplit b!"/FlateDecode" = [b!"/FlateDecode"] := by decide
  have h2 : (Dict.get? [(b!"/Predictor", .int 12), (b!"/Columns", .int 1)] b!"/Predictor") = some (.int 12) := by
    decide
  have h3 : (Dict.get? [(b!"/Predictor", .int 12), (b!"/Columns", .int 1)] b!"/Columns") = some (.int 1) := by
    decide
  constructor
  · rfl
  · simp only [decodeStream, Dict.get?, List.lookup]
    simp [h1, decodeLoop, flateStage, hz b!"ab", hasPredictor, Dict.has, h2, h3, intOf]
    rfl

/-- C10 is false: `decode_stream` gives every stage the original bytes. Encoding with two filters and decoding with the
same dictionary does not give the data back. -/
theorem C10_counterexample [Zlib] :
    let d : Dict := [(b!"/Filter", .list [.str b!"/ASCIIHexDecode", .str b!"/ASCIIHexDecode"])]
    encodeStream b!"A" d = .ok b!"3431" ∧ decodeStream b!"3431" d = .ok b!"41" := ⟨rfl, rfl⟩

/-- Nor does it decode a pipeline written by another program (the last filter applied on encoding comes first in
the array): the ASCII85 text, itself in hexadecimal, is refused. -/
theorem C10_foreign_counterexample [Zlib] :
    let d : Dict := [(b!"/Filter", .list [.str b!"/ASCIIHexDecode", .str b!"/ASCII85Decode"])]
    decodeStream (asciihex (a85encode b!"A")) d = .ok err85 := rfl

/-- The decoder of one stage (/FlateDecode without parameters). -/
def Spec.stage [Zlib] (f : Bytes) (x : Bytes) : Option Bytes :=
  if f = b!"/FlateDecode" then Zlib.decompress x
  else if f = b!"/ASCIIHexDecode" then unhexlify x
  else if f = b!"/ASCII85Decode" then a85decode x
  else none

/-- Composition of the stages, the first filter first. -/
def Spec.pipeline [Zlib] : List Bytes → Bytes → Option Bytes
  | [], x => some x
  | f :: fs, x => (Spec.stage f x).bind (Spec.pipeline fs)

/-- C10, what remains of it: with one filter the result is the composition.
Partial: only arrays of one filter; false for longer ones (`C10_counterexample`,
`C10_foreign_counterexample`) and for the empty one (`C10_empty_counterexample`). -/
theorem C10_pipeline_partial [Zlib] (f : Bytes) (s r : Bytes) (hr : Spec.pipeline [f] s = some r) :
    decodeStream s [(b!"/Filter", .list [.str f])] = .ok r := by
  simp only [Spec.pipeline, Option.bind_fun_some] at hr
  have hd : decodeStream s [(b!"/Filter", .list [.str f])] = decodeLoop s [none] 0 [.str f] none := rfl
  rw [hd]
  unfold Spec.stage at hr
  split at hr
  · rename_i h; subst h
    simp [decodeLoop, flateStage, hr, hasPredictor]
  · split at hr
    · rename_i h; subst h
      simp [decodeLoop, hr]
    · split at hr
      · rename_i h; subst h
        simp [decodeLoop, hr]
      · simp at hr

example [Zlib] : Spec.pipeline [b!"/ASCIIHexDecode"] b!"4142" = some b!"AB" := by
  simp [Spec.pipeline, Spec.stage, show unhexlify b!"4142" = some b!"AB" by decide]

/-- What the code computes for a longer array whose stages all succeed on the original bytes: the last stage only. -/
theorem C10_last_stage_only [Zlib] (s : Bytes) (fs : List Bytes) (f : Bytes) (r : Bytes)
    (hall : ∀ g ∈ fs, ∃ y, Spec.stage g s = some y) (hf : Spec.stage f s = some r) :
    decodeStream s [(b!"/Filter", .list ((fs ++ [f]).map .str))] = .ok r := by
  have step : ∀ (g : Bytes) (y : Bytes) (gs : List Obj) (parms : List (Option Obj)) (i : Nat) (res : Option Bytes),
      Spec.stage g s = some y → parms[i]? = some none →
      decodeLoop s parms i (.str g :: gs) res = decodeLoop s parms (i + 1) gs (some y) := by
    intro g y gs parms i res hg hp
    unfold Spec.stage at hg
    split at hg
    · rename_i h; subst h
      simp [decodeLoop, flateStage, hg, hp, hasPredictor]
    · split at hg
      · rename_i h; subst h
        simp [decodeLoop, hg]
      · split at hg
        · rename_i h; subst h
          simp [decodeLoop, hg]
        · simp at hg
  have main : ∀ (gs : List Bytes) (n i : Nat) (res : Option Bytes), (∀ g ∈ gs, ∃ y, Spec.stage g s = some y) →
      i + (gs ++ [f]).length = n →
      decodeLoop s (List.replicate n none) i ((gs ++ [f]).map .str) res = .ok r := by
    intro gs
    induction gs with
    | nil =>
      intro n i res _ hn
      simp at hn
      rw [List.nil_append, List.map_cons, step f r _ _ _ _ hf (by rw [List.getElem?_replicate, if_pos (by omega)])]
      simp [decodeLoop]
    | cons g gs ih =>
      intro n i res hg hn
      obtain ⟨y, hy⟩ := hg g (by simp)
      simp at hn
      rw [List.cons_append, List.map_cons, step g y _ _ _ _ hy
        (by rw [List.getElem?_replicate, if_pos (by omega)])]
      exact ih n (i + 1) _ (fun g' h' => hg g' (by simp [h'])) (by simp; omega)
  have : decodeStream s [(b!"/Filter", .list ((fs ++ [f]).map .str))] =
      decodeLoop s (List.replicate ((fs ++ [f]).map Obj.str).length none) 0 ((fs ++ [f]).map .str) none := rfl
  rw [this]
  exact main fs _ 0 none hall (by simp)

example [Zlib] : Spec.stage b!"/ASCIIHexDecode" b!"4142" = some b!"AB" := by
  simp [Spec.stage, show unhexlify b!"4142" = some b!"AB" by decide]

/-- An empty array of filters raises. -/
theorem C10_empty_counterexample [Zlib] :
    decodeStream b!"A" [(b!"/Filter", .list [])] = .error .unboundLocal := rfl

/-- PNG "Up" encoding of rows: each row is preceded by the tag 2, each byte is the difference with the byte
above. -/
def Spec.pngUp (prev : Bytes) : List Bytes → Bytes
  | [] => []
  | row :: rows => 2 :: List.zipWith (fun v p => v - p) row prev ++ Spec.pngUp row rows

/-- C11. `decode_predictor` inverts the PNG Up encoding, whatever the row length and the rows. -/
theorem C11_png_up (columns : Nat) (rows : List Bytes) (hrows : ∀ r ∈ rows, r.length = columns) :
    decodePredictor (Spec.pngUp (List.replicate columns 0) rows) columns = .ok rows.flatten := by
  have hlen : ∀ (rows : List Bytes) (prev : Bytes), prev.length = columns → (∀ r ∈ rows, r.length = columns) →
      (Spec.pngUp prev rows).length = rows.length * (columns + 1) := by
    intro rows
    induction rows with
    | nil => simp [Spec.pngUp]
    | cons r rows ih =>
      intro prev hp hr
      have h0 := hr r (by simp)
      simp [Spec.pngUp, ih r h0 (fun x hx => hr x (by simp [hx])), hp, h0, Nat.add_mul]
      omega
  have main : ∀ (rows : List Bytes) (t : UInt8) (prev : Bytes) (fuel : Nat), prev.length = columns →
      (∀ r ∈ rows, r.length = columns) → rows.length ≤ fuel →
      predictorLoop (columns + 1) fuel (t :: prev) (Spec.pngUp prev rows) = rows.flatten := by
    intro rows
    induction rows with
    | nil =>
      intro t prev fuel _ _ _
      cases fuel <;> simp [predictorLoop, Spec.pngUp]
    | cons r rows ih =>
      intro t prev fuel hp hr hf
      have h0 := hr r (by simp)
      cases fuel with
      | zero => simp at hf
      | succ fuel =>
        have e : Spec.pngUp prev (r :: rows) =
          (2 :: List.zipWith (fun v p => v - p) r prev) ++ Spec.pngUp r rows := rfl
        have e2 : (2 :: List.zipWith (fun v p => v - p) r prev : Bytes).length = columns + 1 := by
          simp [h0, hp]
        rw [predictorLoop, e, if_neg (by simp)]
        simp only
        rw [List.take_left' e2, List.drop_left' e2]
        have e3 : upRow (t :: prev) (2 :: List.zipWith (fun v p => v - p) r prev) = (2 + t) :: r := by
          have := upRow_sub r prev (by omega)
          simp only [upRow] at this
          simp [upRow, this]
        rw [e3, ih (2 + t) r fuel h0 (fun x hx => hr x (by simp [hx])) (by simp at hf; omega)]
        simp
  unfold decodePredictor
  simp only
  have hL := hlen rows (List.replicate columns 0) (by simp) hrows
  cases rows with
  | nil => simp [Spec.pngUp]
  | cons r rows =>
    have hpos : 0 < (Spec.pngUp (List.replicate columns 0) (r :: rows)).length := by
      rw [hL]; simp
    rw [if_neg (List.ne_nil_of_length_pos hpos), if_neg (by omega), if_neg (by omega)]
    congr 1
    have e : ((columns : Int) + 1).toNat = columns + 1 := by omega
    rw [e]
    have := main (r :: rows) 0 (List.replicate columns 0)
      (Spec.pngUp (List.replicate columns 0) (r :: rows)).length (by simp) hrows (by
        rw [hL]; exact Nat.le_mul_of_pos_right _ (by omega))
    rw [← this]
    rfl

example : ∀ r ∈ [[1, 2, 3], [1, 0, 255]], (r : Bytes).length = 3 := by decide
example : Spec.pngUp [0, 0, 0] [[1, 2, 3], [1, 0, 255]] = [2, 1, 2, 3, 2, 0, 254, 252] := by decide

/-- C12. After `forge_stream` on a dictionary with a direct integer /Length, when there is something to write:
the content is kept; /Length is the number of bytes between the end of line after `stream` and the keyword
`endstream` in the serialised object; every other entry is unchanged.
Partial: false when the encoded content is empty (`C12_empty_counterexample`). -/
theorem C12_length_partial [Zlib] (d : Dict) (content : Bytes) (n : Int)
    (hlen : Dict.get? d b!"/Length" = some (.int n)) (o : Obj) (len : Nat)
    (h : forgeStream d content = .ok (o, len)) (hne : encodeStream content d ≠ .ok [])
    (depth : Nat) (s : Bytes) (hs : serialize depth o = .ok s) :
    ∃ d' enc dict data, o = .stream d' content enc ∧
      s = dict ++ b!"\nstream\n" ++ data ++ b!"endstream" ∧
      Dict.get? d' b!"/Length" = some (.int data.length) ∧
      data = enc ++ b!"\n" ∧ encodeStream content d = .ok enc ∧ len = data.length ∧
      ∀ k, k ≠ b!"/Length" → Dict.get? d' k = Dict.get? d k := by
  unfold forgeStream at h
  cases he : encodeStream content d with
  | error e => rw [he] at h; cases h
  | ok enc =>
    rw [he] at h
    simp only [bind, Except.bind, updateStreamLength, hlen] at h
    cases h
    rw [he] at hne
    have hne' : enc ≠ [] := fun hh => hne (by rw [hh])
    rw [serialize] at hs
    simp only [bind, Except.bind, hne', if_false] at hs
    split at hs
    · cases hs
    · rename_i body _
      cases hs
      refine ⟨_, enc, b!"<< " ++ body ++ List.replicate depth 32 ++ b!">>", enc ++ b!"\n", rfl, ?_, ?_, rfl, rfl,
        by simp, ?_⟩
      · simp
      · rw [Dict.get?_set]; simp
      · intro k hk
        rw [Dict.get?_set, if_neg hk]

example [Zlib] : forgeStream [(b!"/Length", .int 0), (b!"/A", .int 1)] b!"q Q" =
    .ok (.stream [(b!"/Length", .int 4), (b!"/A", .int 1)] b!"q Q" b!"q Q", 4) ∧
    serialize 0 (.stream [(b!"/Length", .int 4), (b!"/A", .int 1)] b!"q Q" b!"q Q") =
      .ok b!"<< /Length 4 /A 1 >>\nstream\nq Q\nendstream" := ⟨rfl, rfl⟩

/-- Without content, /Length is 1 and no stream is written. -/
theorem C12_empty_counterexample [Zlib] :
    forgeStream [(b!"/Length", .int 0)] [] = .ok (.stream [(b!"/Length", .int 1)] [] [], 1) ∧
    serialize 0 (.stream [(b!"/Length", .int 1)] [] []) = .ok b!"<< /Length 1 >>" := ⟨rfl, rfl⟩

end Pdf
