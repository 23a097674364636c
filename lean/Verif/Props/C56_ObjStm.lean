/-
C56: object streams.
-/
import Verif.Lemmas.ObjStm
import Verif.Lemmas.KernelRfl

namespace Pdf
open Spec

/-- **C56, reading back.** After appending a sequence of well-formed objects to a fresh object stream
and finalising it, `parse_object_stream` returns the same objects, with the same numbers, in the same
order, each found where the header says.

Partial: a bare reference cannot be embedded (`C56_ref_counterexample`), and `WF` objects only. -/
theorem C56_roundtrip_partial [Zlib] (objs : List (Nat × Obj)) (entries : Dict) (enc : Bytes)
    (env fin : Obj) (hne : objs ≠ [])
    (hwf : ∀ q ∈ objs, WF false false q.2 = true ∧ ∀ g n, q.2 ≠ .ref g n)
    (hf : Dict.get? entries b!"/First" = none) (hn : Dict.get? entries b!"/N" = none)
    (hfl : Dict.get? entries b!"/FirstLine" = none)
    (h1 : appendAll objs (.stream entries [] enc) = .ok env) (h2 : finalizeStream env = .ok fin) :
    ∃ res, parseObjectStream fin = .ok res ∧ res.length = objs.length ∧
      ∀ (x : Nat) (q : Nat × Obj), objs[x]? = some q → ∃ e : Embedded, res[x]? = some e ∧ e.num = .int q.1 ∧
        pyEq q.2 e.obj = true ∧ e.theorical = some e.actual := by
  have hwf' : ∀ q ∈ objs, WF false false q.2 = true := fun q hq => (hwf q hq).1
  obtain ⟨d, e, rfl, d1, d2, -, -⟩ := finalize_spec hne hwf' hf hn hfl h1 h2
  have hI := headerItems_wf objs 0
  have hIwf : ∀ o ∈ headerItems 0 objs, WF false false o = true ∧ ∀ g n, o ≠ .ref g n := by
    intro o ho
    obtain ⟨k, rfl⟩ := hI o ho
    exact ⟨rfl, by simp⟩
  have hVwf : ∀ o ∈ objs.map Prod.snd, WF false false o = true ∧ ∀ g n, o ≠ .ref g n := by
    intro o ho
    obtain ⟨q, hq, rfl⟩ := List.mem_map.1 ho
    exact hwf q hq
  generalize hdata : serItems (headerItems 0 objs) ++ b!"\n" ++ sepItems 10 (objs.map Prod.snd) = data
  have hdata' : data = sepItems 32 (headerItems 0 objs) ++ ([10] ++ sepItems 10 (objs.map Prod.snd)) := by
    rw [← hdata, sepItems_space]; simp
  generalize hF : (serItems (headerItems 0 objs)).length + 1 = F at d1
  -- the tokens
  have l1 := sepItems_length 32 (headerItems 0 objs) (fun o ho => (hIwf o ho).1)
  have l2 := sepItems_length 10 (objs.map Prod.snd) (fun o ho => (hVwf o ho).1)
  have l3 := headerItems_length objs 0
  have hN : 0 < objs.length := List.length_pos_iff.2 hne
  have hdl : data.length = (sepItems 32 (headerItems 0 objs)).length + 1 +
      (sepItems 10 (objs.map Prod.snd)).length := by rw [hdata']; simp; omega
  rw [List.length_map] at l2
  obtain ⟨fuel, hfuel⟩ : ∃ fuel, data.length + 1 =
      (fuel + 2 + (objs.map Prod.snd).length) + (headerItems 0 objs).length :=
    ⟨data.length + 1 - 2 - objs.length - 2 * objs.length, by simp [l3]; omega⟩
  obtain ⟨ws1, k1, t1, t2, t3, t4⟩ := tokenStarts_items (text := data)
    (rest := [10] ++ sepItems 10 (objs.map Prod.snd)) (sep := 32) (by decide) (headerItems 0 objs) hIwf
    [] 0 (fuel + 2 + (objs.map Prod.snd).length) (by simp) (by rw [hdata']; rfl)
  obtain ⟨ws2, k2, u1, u2, u3, u4⟩ := tokenStarts_items (text := data) (rest := [])
    (sep := 10) (by decide) (objs.map Prod.snd) hVwf (ws1 ++ [10]) k1 (fuel + 2) (by
      intro c hc
      rcases List.mem_append.1 hc with hc | hc
      · exact t3 c hc
      · simp at hc; subst hc; decide) (by rw [t2]; simp)
  obtain ⟨extra, x1, x2⟩ := tokenStarts_end (text := data) (i := k2) (fuel := fuel) u3
    (by rw [u2]; simp)
  have hk1 : k1 + (ws1 ++ [10]).length = F := by
    simp only [List.length_append, List.length_cons, List.length_nil] at t4 ⊢
    rw [sepItems_space] at t4
    omega
  rw [hk1] at u1
  have htok : tokenStarts data (data.length + 1) 0 =
      .ok (itemStarts 0 (headerItems 0 objs) ++ (itemStarts F (objs.map Prod.snd) ++ extra)) := by
    rw [hfuel, t1, u1, x1]
    simp [Except.map]
  generalize htokens : itemStarts 0 (headerItems 0 objs) ++ (itemStarts F (objs.map Prod.snd) ++ extra)
    = tokens at htok
  have htl : tokens.length = 3 * objs.length + extra.length := by
    rw [← htokens]
    simp [itemStarts_length, l3]
    omega
  have hnb : tokens.length / 3 = objs.length := by omega
  -- the objects
  have hy : parseObj (91 :: data.take F ++ [93]) 0 = .ok (.list (headerItems 0 objs)) := by
    have : data.take F = serItems (headerItems 0 objs) ++ b!"\n" := by
      rw [← hdata, ← hF]
      rw [show (serItems (headerItems 0 objs)).length + 1 =
        (serItems (headerItems 0 objs) ++ b!"\n").length by simp, List.take_left]
    rw [this, parse_header (wfItems_int _ hI), normItems_int _ hI]
  generalize hyp : (itemStarts (F + 0) (objs.map Prod.snd)).map (fun (n : Nat) => (n : Int)) = ypos
  have hy2 : oddPlus F (headerItems 0 objs) = .ok ypos := by
    rw [oddPlus_header objs 0 F, hyp]
  have hobj : ∀ (x : Nat) (q : Nat × Obj), objs[x]? = some q → ∃ actual,
      embeddedAt data tokens objs.length ypos x = .ok ⟨.int q.1, norm q.2, some actual, actual⟩ := by
    intro x q hq
    have hx : x < objs.length := (List.getElem?_eq_some_iff.1 hq).1
    have hq' : q ∈ objs := List.mem_of_getElem? hq
    obtain ⟨pre, p1, p2⟩ := itemStarts_split 32 (headerItems 0 objs) 0 (2 * x)
      (headerItems_even objs 0 x hq)
    obtain ⟨pre', q1, q2⟩ := itemStarts_split 10 (objs.map Prod.snd) F x (o := q.2)
      (by simp [hq])
    have a1 : tokens[2 * objs.length + x]? = some (F + pre'.length) := by
      rw [← htokens, List.getElem?_append_right (by simp [itemStarts_length, l3]),
        List.getElem?_append_left (by simp [itemStarts_length, l3]; omega)]
      simpa [itemStarts_length, l3] using q2
    have a2 : tokens[2 * x]? = some pre.length := by
      rw [← htokens, List.getElem?_append_left (by simp [itemStarts_length, l3]; omega)]
      simpa using p2
    have b1 : parseObj data pre.length = .ok (.int q.1) := by
      have := parse_ser (o := .int q.1) (inD := false) (inA := false) rfl (by simp) 0 pre
        (32 :: sepItems 32 ((headerItems 0 objs).drop (2 * x + 1)) ++
          ([10] ++ sepItems 10 (objs.map Prod.snd))) (.inl ⟨_, _, rfl, by decide⟩) (by simp)
      rw [hdata', p1]
      simpa [norm] using this
    have b2 : parseObj data (F + pre'.length) = .ok (norm q.2) := by
      have hpre : data = (serItems (headerItems 0 objs) ++ b!"\n" ++ pre') ++
          (ser 0 q.2 ++ (10 :: sepItems 10 ((objs.map Prod.snd).drop (x + 1)))) := by
        rw [← hdata, q1]; simp
      have hlen : (serItems (headerItems 0 objs) ++ b!"\n" ++ pre').length = F + pre'.length := by
        rw [← hF]; simp; omega
      have := parse_ser (hwf q hq').1 (hwf q hq').2 0 (serItems (headerItems 0 objs) ++ b!"\n" ++ pre')
        (10 :: sepItems 10 ((objs.map Prod.snd).drop (x + 1))) (.inl ⟨_, _, rfl, by decide⟩) (by
          intro _
          cases hr : (objs.map Prod.snd).drop (x + 1) with
          | nil => decide
          | cons o l =>
            have ho : o ∈ objs.map Prod.snd := List.mem_of_mem_drop (i := x + 1) (by rw [hr]; simp)
            have ht := tokAt_obj (hVwf o ho).1 (hVwf o ho).2 0 (c := 10) (by decide) (sepItems 10 l)
            have := nextToken_at ht (ws := [10]) (text := 10 :: sepItems 10 (o :: l)) (i := 0)
              (by decide) rfl
            rw [this]
            cases o <;> simp [tokType] <;> split <;> simp)
      rw [← hpre, hlen] at this
      exact this
    refine ⟨F + pre'.length, ?_⟩
    have a3 : ((F + pre'.length : Nat) : Int) ∈ ypos := by
      rw [← hyp, Nat.add_zero]
      exact List.mem_map.2 ⟨_, List.mem_of_getElem? q2, rfl⟩
    unfold embeddedAt
    rw [a1, a2]
    simp only [orRaise, bind, Except.bind, b1, b2, a3, if_true]
    rfl
  have hobj' : ∀ x ∈ List.range objs.length, ∃ e, embeddedAt data tokens objs.length ypos x = .ok e := by
    intro x hx
    have hx' := List.mem_range.1 hx
    obtain ⟨a, ha⟩ := hobj x objs[x] (List.getElem?_eq_getElem hx')
    exact ⟨_, ha⟩
  let g := fun x => okD ⟨.null, .null, none, 0⟩ (embeddedAt data tokens objs.length ypos x)
  have hm := mapM_ok (embeddedAt data tokens objs.length ypos) g (List.range objs.length) (by
    intro x hx
    obtain ⟨e, he⟩ := hobj' x hx
    simp only [g, he, okD])
  refine ⟨(List.range objs.length).map g, ?_, by simp, ?_⟩
  · have hb : ∃ v, tokens[2 * objs.length]? = some v :=
      ⟨_, List.getElem?_eq_getElem (by omega)⟩
    obtain ⟨b, hb⟩ := hb
    simp only [parseObjectStream, d1, d2, orRaise, bind, Except.bind, intOf, htok, hnb, hb]
    rw [if_neg (by omega)]
    simp only [Int.toNat_natCast, hy, hy2, hm]
  · intro x q hq
    have hx : x < objs.length := (List.getElem?_eq_some_iff.1 hq).1
    obtain ⟨a, ha⟩ := hobj x q hq
    refine ⟨⟨.int q.1, norm q.2, some a, a⟩, ?_, rfl, pyEq_norm _ _ _ (hwf' q (List.mem_of_getElem? hq)), rfl⟩
    simp [hx, g, ha, okD]

/-- **C56, layout.** The finalised stream has the layout of ISO 32000-1, 7.5.7: `/N` is the number of
objects, `/First` the length of a header made of pairs `number offset`, and each object starts at its
offset after the header. The other entries are kept, and the encoded bytes are those of the whole
content. -/
theorem C56_layout_partial [Zlib] (objs : List (Nat × Obj)) (entries : Dict) (enc : Bytes)
    (env fin : Obj) (hne : objs ≠ []) (hwf : ∀ q ∈ objs, WF false false q.2 = true)
    (hf : Dict.get? entries b!"/First" = none) (hn : Dict.get? entries b!"/N" = none)
    (hfl : Dict.get? entries b!"/FirstLine" = none)
    (h1 : appendAll objs (.stream entries [] enc) = .ok env) (h2 : finalizeStream env = .ok fin) :
    ∃ (d : Dict) (content e : Bytes) (offsets : List Nat), fin = .stream d content e ∧
      offsets.length = objs.length ∧
      (((objs.map Prod.fst).zip offsets).flatMap fun p => natDec p.1 ++ b!" " ++ natDec p.2 ++ b!" ")
        ++ b!"\n" <+: content ∧
      Dict.get? d b!"/First" = some (.int (((objs.map Prod.fst).zip offsets).flatMap
        fun p => natDec p.1 ++ b!" " ++ natDec p.2 ++ b!" ").length.succ) ∧
      Dict.get? d b!"/N" = some (.int objs.length) ∧
      (∀ (x : Nat) (q : Nat × Obj), objs[x]? = some q → ∃ off s, offsets[x]? = some off ∧
        serialize 0 q.2 = .ok s ∧
        s ++ b!"\n" <+: content.drop ((((objs.map Prod.fst).zip offsets).flatMap
          fun p => natDec p.1 ++ b!" " ++ natDec p.2 ++ b!" ").length.succ + off)) ∧
      (∀ k, k ∉ [b!"/First", b!"/N", b!"/FirstLine", b!"/Length"] →
        Dict.get? d k = Dict.get? entries k) ∧
      encodeStream content d = .ok e := by
  obtain ⟨d, e, rfl, d1, d2, d3, d4⟩ := finalize_spec hne hwf hf hn hfl h1 h2
  have hh : ∀ (l : List (Nat × Obj)) (p : Nat),
      ((l.map Prod.fst).zip (itemStarts p (l.map Prod.snd))).flatMap
        (fun p => natDec p.1 ++ b!" " ++ natDec p.2 ++ b!" ") = serItems (headerItems p l) := by
    intro l
    induction l with
    | nil => intro p; rfl
    | cons q l ih =>
      intro p
      have hi : ∀ n : Nat, intDec (n : Int) = natDec n := fun n => by simp [intDec]
      simp only [List.map_cons, itemStarts, List.zip_cons_cons, List.flatMap_cons, ih, headerItems,
        serItems, ser, hi]
      simp
  refine ⟨d, _, e, itemStarts 0 (objs.map Prod.snd), rfl, by simp [itemStarts_length], ?_, ?_, d2, ?_,
    d3, d4⟩
  · rw [hh]; exact List.prefix_append _ _
  · rw [hh, d1]
  · intro x q hq
    obtain ⟨pre, q1, q2⟩ := itemStarts_split 10 (objs.map Prod.snd) 0 x (o := q.2) (by simp [hq])
    refine ⟨_, ser 0 q.2, q2, serialize_eq _ _ _ 0 (hwf q (List.mem_of_getElem? hq)), ?_⟩
    rw [hh, q1]
    refine ⟨sepItems 10 ((objs.map Prod.snd).drop (x + 1)), ?_⟩
    have : (serItems (headerItems 0 objs)).length.succ + (0 + pre.length) =
        (serItems (headerItems 0 objs) ++ b!"\n" ++ pre).length := by
      simp; omega
    rw [this, ← List.append_assoc, List.drop_left]
    simp

/-- **C56, rank.** The rank recorded for an appended object (`get_pos_in_stream`) is its position in
the sequence. -/
theorem C56_rank (objs : List (Nat × Obj)) (n : Nat) (o : Obj) (entries : Dict) (enc : Bytes)
    (env : Obj) (hwf : ∀ q ∈ objs ++ [(n, o)], WF false false q.2 = true)
    (hfl : Dict.get? entries b!"/FirstLine" = none)
    (h : appendAll (objs ++ [(n, o)]) (.stream entries [] enc) = .ok env) :
    posInStream env = .ok objs.length := by
  obtain ⟨entries', e1, e2, -⟩ := appendAll_spec (objs ++ [(n, o)]) entries [] [] enc hwf
    (.inl ⟨hfl, rfl⟩) h (by simp)
  subst e1
  simp only [posInStream, e2, List.nil_append, headerItems_length]
  simp

/-! ### A case meeting the hypotheses -/

def sampleObjs : List (Nat × Obj) :=
  [(3, .dict [(b!"/A", .ref 0 4)]), (12, .list [.int 1, .bytes b!"(x)"]), (5, .int (-7))]

example [Zlib] : ∃ env, appendAll sampleObjs (.stream [(b!"/Type", .str b!"/ObjStm")] [] []) = .ok env ∧
    (finalizeStream env).isOk = true := ⟨_, rfl, by kernel_rfl⟩
example : ∀ q ∈ sampleObjs, WF false false q.2 = true ∧ ∀ g n, q.2 ≠ .ref g n := by
  intro q hq
  simp only [sampleObjs, List.mem_cons, List.not_mem_nil, or_false] at hq
  rcases hq with rfl | rfl | rfl <;> refine ⟨by decide, by simp⟩

/-- **C56 fails for a bare reference**: the stream made of the object 3, a reference `4 0 R`, is read
back as two objects, 3 with the keyword `R` as value, and a spurious 4, because the number of objects
is taken to be a third of the number of tokens. -/
theorem C56_ref_counterexample [Zlib] :
    ∃ env fin, appendAll [(3, .ref 0 4)] (.stream [(b!"/Type", .str b!"/ObjStm")] [] []) = .ok env ∧
      finalizeStream env = .ok fin ∧
      (parseObjectStream fin).map (·.map fun e => (e.num, e.obj)) =
        .ok [(.int 3, .str b!"R"), (.int 4, .bytes b!"\n")] :=
  ⟨_, .stream [(b!"/Type", .str b!"/ObjStm"), (b!"/First", .int 5), (b!"/N", .int 1),
      (b!"/Length", .int 12)] b!"3 0 \n4 0 R\n" b!"3 0 \n4 0 R\n", rfl, by kernel_rfl, by kernel_rfl⟩

end Pdf
