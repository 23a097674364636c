/-
Object streams: tokenising and parsing what was appended.
-/
import Verif.Model.Doc
import Verif.Spec.ObjStm
import Verif.Lemmas.RoundTrip2
import Verif.Lemmas.Filters
import Verif.Lemmas.PyEq
import Verif.Lemmas.Xref

namespace Pdf
open Spec

/-! ### The header read as an array -/

theorem tokAt_array0 {I : Bytes} (hI : ATrans I) (post : Bytes) :
    TokAt (b!"[" ++ I ++ b!"]") post .array := by
  intro text h i _
  have e1 : tokLoop text ⟨.tbd, 1, false, h, i⟩ (b!"[" ++ I ++ b!"]" ++ post) =
      tokLoop text ⟨.array, 1, false, i, i + 1⟩ (I ++ (b!"]" ++ post)) := by
    simp only [List.cons_append, List.nil_append, List.append_assoc]
    rw [tokLoop]
    simp [tokStep, startsWith, List.isPrefixOf]
  rw [e1, hI text 1 i (i + 1) _ (by omega)]
  simp only [List.cons_append, List.nil_append]
  rw [tokLoop]
  simp [tokStep]
  omega

theorem parse_header [Zlib] {l : List Obj} (h : WFItems false true l = true) :
    parseObj (91 :: (serItems l ++ b!"\n") ++ [93]) 0 = .ok (.list (normItems l)) := by
  have hok := itemsOk l _ _ h
  have ht : TokAt (b!"[" ++ (serItems l ++ b!"\n") ++ b!"]") [] .array :=
    tokAt_array0 (ATrans.append (serItems_atrans l _ h) (ATrans.plain (by decide))) _
  generalize htext : (91 :: (serItems l ++ b!"\n") ++ [93] : Bytes) = text
  have htext' : text = b!"[" ++ (serItems l ++ b!"\n") ++ b!"]" := by rw [← htext]; simp
  have hd0 : text.drop 0 = [] ++ ((b!"[" ++ (serItems l ++ b!"\n") ++ b!"]") ++ []) := by
    rw [htext']; simp
  have e := nextToken_at ht (by simp) hd0
  rw [parseObj_array e]
  have hlen : (b!"[" ++ (serItems l ++ b!"\n") ++ b!"]" : Bytes).length = (serItems l).length + 3 := by
    simp
  rw [hlen]
  have hd1 : text.drop (0 + 1) = [] ++ (serItems l ++ b!"\n]") := by
    rw [htext']; simp
  obtain ⟨ws', k, e1, hk, hws', hlk⟩ := step_items stepFn_array
    (j1 := 0 + ([] : Bytes).length + ((serItems l).length + 3)) l h hok
    [] (0 + 1) (by simp) hd1 (by simp; omega)
  rw [e1]
  have hdone : arrayItems text k (0 + ([] : Bytes).length + ((serItems l).length + 3)) = .ok [] := by
    simp only [List.length_nil] at hlk ⊢
    have hk' : text.drop k = (ws' ++ [10]) ++ (93 :: []) := by rw [hk]; simp
    obtain ⟨h', e2⟩ := nextToken_close_array (by
      intro c hc
      rcases List.mem_append.1 hc with hc | hc
      · exact hws' c hc
      · simp at hc; subst hc; decide) hk'
    have hl : (ws' ++ [10]).length = ws'.length + 1 := by simp
    rw [arrayItems_none (by omega) e2 (by omega)]
    exact arrayItems_done (by omega)
  rw [hdone]
  simp only [Except.map, List.append_nil]
  rw [replaceRef_flatItems l _ _ h]

/-! ### Positions of tokens -/

/-- Serialised objects, each followed by `sep`. -/
def sepItems (sep : UInt8) : List Obj → Bytes
  | [] => []
  | o :: l => ser 0 o ++ (sep :: sepItems sep l)

/-- Their positions, the first one at `p`. -/
def itemStarts (p : Nat) : List Obj → List Nat
  | [] => []
  | o :: l => p :: itemStarts (p + (ser 0 o).length + 1) l

theorem sepItems_space : ∀ l : List Obj, sepItems 32 l = serItems l
  | [] => rfl
  | o :: l => by simp [sepItems, serItems, sepItems_space l]

theorem itemStarts_length : ∀ (l : List Obj) (p : Nat), (itemStarts p l).length = l.length
  | [], _ => rfl
  | _ :: l, p => by simp [itemStarts, itemStarts_length l]

theorem ser_ne {o : Obj} {inD inA : Bool} (h : WF inD inA o = true) (depth : Nat) :
    ser depth o ≠ [] := by
  intro he
  by_cases hr : ∀ g n, o ≠ .ref g n
  · have ht := tokAt_obj h hr depth (c := 32) (by decide) []
    rw [he] at ht
    have := ht [32] 0 0 rfl
    revert this
    simp [tokLoop, tokStep, startsWith, List.isPrefixOf, show isNumStart 32 = false by decide,
      show isAlpha 32 = false by decide]
  · have : ∃ g n, o = .ref g n := by
      cases o <;> simp at hr ⊢
    obtain ⟨g, n, rfl⟩ := this
    simp [ser] at he

theorem sepItems_length (sep : UInt8) : ∀ l : List Obj, (∀ o ∈ l, WF false false o = true) →
    2 * l.length ≤ (sepItems sep l).length
  | [], _ => by simp [sepItems]
  | o :: l, h => by
    have := sepItems_length sep l (fun x hx => h x (by simp [hx]))
    have h1 := List.length_pos_iff.2 (ser_ne (h o (by simp)) 0)
    simp only [sepItems, List.length_append, List.length_cons]
    omega

/-- The loop over tokens crosses a list of objects. -/
theorem tokenStarts_items {text rest : Bytes} {sep : UInt8} (hsep : isSpace sep = true) :
    ∀ (l : List Obj), (∀ o ∈ l, WF false false o = true ∧ ∀ g n, o ≠ .ref g n) →
    ∀ (ws : Bytes) (i fuel : Nat), (∀ c ∈ ws, isSpace c = true) →
    text.drop i = ws ++ (sepItems sep l ++ rest) →
    ∃ ws' k, tokenStarts text (fuel + l.length) i =
        (tokenStarts text fuel k).map (itemStarts (i + ws.length) l ++ ·) ∧
      text.drop k = ws' ++ rest ∧ (∀ c ∈ ws', isSpace c = true) ∧
      k + ws'.length = i + ws.length + (sepItems sep l).length := by
  intro l
  induction l with
  | nil =>
    intro _ ws i fuel hws hd
    refine ⟨ws, i, ?_, hd, hws, by simp [sepItems]⟩
    simp only [itemStarts, List.length_nil, Nat.add_zero]
    cases tokenStarts text fuel i <;> rfl
  | cons o l ih =>
    intro h ws i fuel hws hd
    obtain ⟨hwf, hnr⟩ := h o (by simp)
    have hbr : isBreak sep = true := by simp [isBreak, hsep]
    simp only [sepItems, List.append_assoc, List.cons_append] at hd
    have ht := tokAt_obj hwf hnr 0 hbr (sepItems sep l ++ rest)
    have e := nextToken_at ht hws hd
    have hlt : i < text.length := by
      have := congrArg List.length hd
      simp only [List.length_drop, List.length_append, List.length_cons] at this
      omega
    have hd2 : text.drop (i + ws.length + (ser 0 o).length) = [sep] ++ (sepItems sep l ++ rest) := by
      rw [drop_add_of' (drop_add_of' hd)]; rfl
    obtain ⟨ws', k, e1, e2, e3, e4⟩ := ih (fun x hx => h x (by simp [hx])) [sep] _ fuel
      (by simp [hsep]) hd2
    refine ⟨ws', k, ?_, e2, e3, ?_⟩
    · rw [List.length_cons, show fuel + (l.length + 1) = (fuel + l.length) + 1 by omega]
      simp only [tokenStarts, hlt, if_true, e]
      rw [e1]
      simp only [List.length_cons, List.length_nil, itemStarts]
      cases tokenStarts text fuel k <;> rfl
    · rw [e4]
      simp only [sepItems, List.length_append, List.length_cons, List.length_nil]
      omega

theorem tokenStarts_end {text ws : Bytes} {i fuel : Nat} (hws : ∀ c ∈ ws, isSpace c = true)
    (hd : text.drop i = ws) :
    ∃ extra, tokenStarts text (fuel + 2) i = .ok extra ∧ extra.length ≤ 1 := by
  unfold tokenStarts
  split
  · obtain ⟨h', e⟩ := scan_ws text [] ws i i hws
    have en : nextToken text i = (h', i + ws.length, none) := by
      unfold nextToken
      rw [hd, ← List.append_nil ws, e]
      simp [tokLoop]
    have hl : i + ws.length = text.length := by
      have := congrArg List.length hd
      simp at this
      omega
    simp only [en, hl]
    have : tokenStarts text (fuel + 1) text.length = .ok [] := by
      simp [tokenStarts]
    rw [this]
    exact ⟨[h'], rfl, by simp⟩
  · exact ⟨[], rfl, by simp⟩

theorem itemStarts_split (sep : UInt8) : ∀ (l : List Obj) (p x : Nat) {o : Obj}, l[x]? = some o →
    ∃ pre, sepItems sep l = pre ++ (ser 0 o ++ (sep :: sepItems sep (l.drop (x + 1)))) ∧
      (itemStarts p l)[x]? = some (p + pre.length)
  | [], _, _, _, h => by simp at h
  | o' :: l, p, 0, o, h => by
    simp only [List.getElem?_cons_zero, Option.some.injEq] at h
    subst h
    exact ⟨[], by simp [sepItems], by simp [itemStarts]⟩
  | o' :: l, p, x + 1, o, h => by
    simp only [List.getElem?_cons_succ] at h
    obtain ⟨pre, h1, h2⟩ := itemStarts_split sep l (p + (ser 0 o').length + 1) x h
    refine ⟨ser 0 o' ++ (sep :: pre), ?_, ?_⟩
    · simp [sepItems, h1]
    · simp only [itemStarts, List.getElem?_cons_succ, h2, List.length_append, List.length_cons]
      congr 1; omega

/-! ### What was appended -/

/-- The items of the header, when the first object is at `p` in the body. -/
def headerItems (p : Nat) : List (Nat × Obj) → List Obj
  | [] => []
  | (n, o) :: l => .int n :: .int p :: headerItems (p + (ser 0 o).length + 1) l

theorem headerItems_length : ∀ (l : List (Nat × Obj)) (p : Nat),
    (headerItems p l).length = 2 * l.length
  | [], _ => rfl
  | (n, o) :: l, p => by simp [headerItems, headerItems_length l]; omega

theorem headerItems_wf : ∀ (l : List (Nat × Obj)) (p : Nat),
    ∀ o ∈ headerItems p l, ∃ k : Nat, o = .int k
  | [], _ => by simp [headerItems]
  | (n, o) :: l, p => by
    intro x hx
    simp only [headerItems, List.mem_cons] at hx
    rcases hx with rfl | rfl | hx
    · exact ⟨_, rfl⟩
    · exact ⟨_, rfl⟩
    · exact headerItems_wf l _ x hx

theorem wfItems_int : ∀ (l : List Obj), (∀ o ∈ l, ∃ k : Nat, o = .int k) →
    WFItems false true l = true
  | [], _ => rfl
  | o :: l, h => by
    obtain ⟨k, rfl⟩ := h o (by simp)
    simp [WFItems, WF, wfItems_int l (fun x hx => h x (by simp [hx]))]

theorem normItems_int : ∀ (l : List Obj), (∀ o ∈ l, ∃ k : Nat, o = .int k) → normItems l = l
  | [], _ => rfl
  | o :: l, h => by
    obtain ⟨k, rfl⟩ := h o (by simp)
    simp [normItems, norm, normItems_int l (fun x hx => h x (by simp [hx]))]

theorem headerItems_even : ∀ (l : List (Nat × Obj)) (p x : Nat) {q : Nat × Obj}, l[x]? = some q →
    (headerItems p l)[2 * x]? = some (.int q.1)
  | [], _, _, _, h => by simp at h
  | (n, o) :: l, p, 0, q, h => by
    simp only [List.getElem?_cons_zero, Option.some.injEq] at h
    subst h
    simp [headerItems]
  | (n, o) :: l, p, x + 1, q, h => by
    simp only [List.getElem?_cons_succ] at h
    rw [show 2 * (x + 1) = 2 * x + 1 + 1 by omega]
    simp only [headerItems, List.getElem?_cons_succ]
    exact headerItems_even l _ x h

theorem oddPlus_header : ∀ (l : List (Nat × Obj)) (p k : Nat),
    oddPlus k (headerItems p l) = .ok ((itemStarts (k + p) (l.map Prod.snd)).map fun (n : Nat) => (n : Int))
  | [], _, _ => rfl
  | (n, o) :: l, p, k => by
    simp only [headerItems, oddPlus, oddPlus_header l]
    simp only [bind, Except.bind, List.map_cons, itemStarts]
    rw [show k + (p + (ser 0 o).length + 1) = k + p + (ser 0 o).length + 1 by omega]
    congr 2
    omega

/-- The stream under construction after appending `l`. -/
theorem appendAll_spec : ∀ (l : List (Nat × Obj)) (entries : Dict) (done : List Obj) (st enc : Bytes)
    {env : Obj}, (∀ q ∈ l, WF false false q.2 = true) →
    ((Dict.get? entries b!"/FirstLine" = none ∧ done = []) ∨
      Dict.get? entries b!"/FirstLine" = some (.list done)) →
    appendAll l (.stream entries st enc) = .ok env → l ≠ [] →
    ∃ entries', env = .stream entries' (st ++ sepItems 10 (l.map Prod.snd)) [] ∧
      Dict.get? entries' b!"/FirstLine" = some (.list (done ++ headerItems st.length l)) ∧
      (∀ k, k ≠ b!"/FirstLine" → Dict.get? entries' k = Dict.get? entries k)
  | [], _, _, _, _, _, _, _, _, h => absurd rfl h
  | (n, o) :: l, entries, done, st, enc, env, hwf, hfl, h, _ => by
    have hw := hwf (n, o) (by simp)
    have ha : appendToStream n o (.stream entries st enc) = .ok (.stream
        (Dict.set entries b!"/FirstLine" (.list (done ++ [.int n, .int st.length])))
        (st ++ (ser 0 o ++ b!"\n")) []) := by
      simp only [appendToStream, serialize_eq o _ _ 0 hw]
      rcases hfl with ⟨e, rfl⟩ | e <;> rw [e] <;> rfl
    rw [appendAll, ha] at h
    simp only [bind, Except.bind] at h
    by_cases hl : l = []
    · subst hl
      simp only [appendAll, Except.ok.injEq] at h
      refine ⟨Dict.set entries b!"/FirstLine" (.list (done ++ [.int n, .int st.length])), ?_, ?_, ?_⟩
      · rw [← h]; simp [sepItems]
      · rw [Dict.get?_set, if_pos rfl]; simp [headerItems]
      · intro k hk
        rw [Dict.get?_set, if_neg hk]
    · obtain ⟨entries', h1, h2, h3⟩ := appendAll_spec l _ (done ++ [.int n, .int st.length]) _ _
        (fun q hq => hwf q (by simp [hq])) (.inr (by rw [Dict.get?_set, if_pos rfl])) h hl
      refine ⟨entries', ?_, ?_, ?_⟩
      · rw [h1]; simp [sepItems]
      · rw [h2]
        simp [headerItems, Nat.add_assoc]
      · intro k hk
        rw [h3 k hk, Dict.get?_set, if_neg hk]

theorem headerItem_ints : ∀ (l : List Obj), (∀ o ∈ l, ∃ k : Nat, o = .int k) →
    ∃ items, l.mapM headerItem = .ok items ∧ items.flatten = serItems l
  | [], _ => ⟨[], rfl, rfl⟩
  | o :: l, h => by
    obtain ⟨k, rfl⟩ := h o (by simp)
    obtain ⟨items, h1, h2⟩ := headerItem_ints l (fun x hx => h x (by simp [hx]))
    refine ⟨(intDec k ++ b!" ") :: items, ?_, ?_⟩
    · rw [List.mapM_cons, h1]; rfl
    · simp [h2, serItems, ser]

theorem Dict.get?_del (d : Dict) (k k' : Bytes) :
    Dict.get? (Dict.del d k) k' = if k' = k then none else Dict.get? d k' := by
  induction d with
  | nil => simp [Dict.del, Dict.get?]
  | cons p d ih =>
    obtain ⟨a, v⟩ := p
    simp only [Dict.del, Dict.get?] at ih ⊢
    by_cases ha : a = k
    · subst ha
      rw [List.filter_cons_of_neg (by simp), ih]
      split
      · rfl
      · rename_i hk
        rw [List.lookup_cons, show (k' == a) = false by simpa using hk]
    · rw [List.filter_cons_of_pos (by simpa using ha), List.lookup_cons, List.lookup_cons, ih]
      by_cases hk : k' = a
      · subst hk
        simp [ha]
      · rw [show (k' == a) = false by simpa using hk]

/-- The finalised stream. -/
theorem finalize_spec [Zlib] {objs : List (Nat × Obj)} {entries : Dict} {enc : Bytes} {env fin : Obj}
    (hne : objs ≠ []) (hwf : ∀ q ∈ objs, WF false false q.2 = true)
    (hf : Dict.get? entries b!"/First" = none) (hn : Dict.get? entries b!"/N" = none)
    (hfl : Dict.get? entries b!"/FirstLine" = none)
    (h1 : appendAll objs (.stream entries [] enc) = .ok env) (h2 : finalizeStream env = .ok fin) :
    ∃ d e, fin = .stream d (serItems (headerItems 0 objs) ++ b!"\n" ++
        sepItems 10 (objs.map Prod.snd)) e ∧
      Dict.get? d b!"/First" = some (.int ((serItems (headerItems 0 objs)).length + 1 : Nat)) ∧
      Dict.get? d b!"/N" = some (.int objs.length) ∧
      (∀ k, k ∉ [b!"/First", b!"/N", b!"/FirstLine", b!"/Length"] →
        Dict.get? d k = Dict.get? entries k) ∧
      encodeStream (serItems (headerItems 0 objs) ++ b!"\n" ++ sepItems 10 (objs.map Prod.snd)) d =
        .ok e := by
  obtain ⟨entries', e1, e2, e3⟩ := appendAll_spec objs entries [] [] enc hwf (.inl ⟨hfl, rfl⟩) h1 hne
  subst e1
  simp only [finalizeStream, streamHeader] at h2
  rw [show Dict.has entries' b!"/First" = false by rw [Dict.has, e3 _ (by decide), hf]; rfl,
    show Dict.has entries' b!"/N" = false by rw [Dict.has, e3 _ (by decide), hn]; rfl] at h2
  simp only [Bool.not_false, Bool.and_self, if_true, e2, List.nil_append, List.length_nil] at h2
  obtain ⟨items, i1, i2⟩ := headerItem_ints _ (headerItems_wf objs 0)
  rw [i1] at h2
  simp only [bind, Except.bind, i2, headerItems_length] at h2
  split at h2
  · cases h2
  · rename_i v hv
    simp only [pure, Except.pure, Except.ok.injEq] at h2
    obtain ⟨env', len⟩ := v
    subst h2
    simp only [forgeStream] at hv
    obtain ⟨encoded, hv1, hv2⟩ := bind_eq_ok hv
    simp only [updateStreamLength] at hv2
    rw [Dict.get?_set, if_pos rfl] at hv2
    simp only [Except.ok.injEq, Prod.mk.injEq] at hv2
    obtain ⟨hv2, -⟩ := hv2
    refine ⟨_, _, by rw [← hv2], ?_, ?_, ?_, ?_⟩
    · simp [Dict.get?_set, Dict.get?_del]
    · simp only [Dict.get?_set, Dict.get?_del]
      simp
    · intro k hk
      simp only [List.mem_cons, List.not_mem_nil, or_false, not_or] at hk
      obtain ⟨k1, k2, k3, k4⟩ := hk
      simp only [Dict.get?_set, Dict.get?_del, k1, k2, k3, k4, if_false]
      exact e3 k k3
    · simp only [encodeStream, Dict.get?_set, Dict.get?_del] at hv1 ⊢
      simp only [List.append_assoc] at hv1 ⊢
      exact hv1

theorem mem_set {d : Dict} {k : Bytes} {v : Obj} {p : Bytes × Obj} (h : p ∈ Dict.set d k v) : p ∈ d ∨ p = (k, v) := by
  induction d with
  | nil => simpa [Dict.set] using h
  | cons q d ih =>
    obtain ⟨k', v'⟩ := q
    unfold Dict.set at h
    split at h
    · rename_i hk
      rcases List.mem_cons.1 h with h | h
      · right; rw [h, hk]
      · exact .inl (by simp [h])
    · rcases List.mem_cons.1 h with h | h
      · exact .inl (by simp [h])
      · rcases ih h with h | h
        · exact .inl (by simp [h])
        · exact .inr h

theorem nodup_set {d : Dict} {k : Bytes} {v : Obj} (h : (d.map Prod.fst).Nodup) :
    ((Dict.set d k v).map Prod.fst).Nodup := by
  induction d with
  | nil => simp [Dict.set]
  | cons q d ih =>
    obtain ⟨k', v'⟩ := q
    simp only [List.map_cons, List.nodup_cons] at h
    unfold Dict.set
    split
    · simpa using h
    · rename_i hk
      simp only [List.map_cons, List.nodup_cons]
      refine ⟨?_, ih h.2⟩
      intro hm
      obtain ⟨p, hp, he⟩ := List.mem_map.1 hm
      rcases mem_set hp with hp | rfl
      · exact h.1 (List.mem_map.2 ⟨p, hp, he⟩)
      · exact hk he.symm

end Pdf
