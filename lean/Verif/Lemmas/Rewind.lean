/-
What a revision written by `build_revision_byte_stream` (table mode, no object streams) gives back when
it is read.
-/
import Verif.Lemmas.Indirect
import Verif.Lemmas.Prog

namespace Pdf
open Spec

/-- The entry of an object written at `off`, up to `next`. -/
def placed (e : Entry) (off next : Int) : Entry :=
  { e with absPos := some (.at off), absNext := some next }

/-- The cells after the second loop of `build_revision_byte_stream`. -/
theorem mainPass_placed [Zlib] (rev : Rev) (cache : List Obj) (pre : Bytes) :
    ∀ (l : List Change) (st : Build) {st' : Build}, mainPass rev cache l st = .ok st' →
    (l.map (·.num)).Nodup →
    st.counter = pre.length + st.frags.length →
    (∀ c ∈ l, st.index[c.num]? = rev[c.num]?) →
    (∀ c ∈ l, c.act ≠ .d → ∀ e, rev[c.num]? = some (.one e) → e.envNum = none) →
    (∃ more, st'.frags = st.frags ++ more) ∧ st'.counter = pre.length + st'.frags.length ∧
    (∀ n : Nat, (∀ c ∈ l, c.act ≠ .d → c.num ≠ n) → st'.index[n]? = st.index[n]?) ∧
    ∀ c ∈ l, c.act ≠ .d → ∃ en obj off next, rev[c.num]? = some (.one en) ∧
      st'.index[c.num]? = some (.one (placed en (off : Nat) next)) ∧ st.counter ≤ off ∧
      ToWrite cache c.num obj ∧ PointsAt (pre ++ st'.frags) off c.num en.gen obj
  | [], st, st', h, _, hcnt, _, _ => by
    simp only [mainPass, Except.ok.injEq] at h
    subst h
    exact ⟨⟨[], by simp⟩, hcnt, fun _ _ => rfl, by simp⟩
  | c :: l, st, st', h, hnd, hcnt, hidx, hemb => by
    rw [List.map_cons, List.nodup_cons] at hnd
    have hne : ∀ c' ∈ l, c'.num ≠ c.num := fun c' hc' hh =>
      hnd.1 (hh ▸ List.mem_map_of_mem hc')
    unfold mainPass at h
    split at h
    · rename_i hd
      obtain ⟨gen, hgen, h⟩ := bind_eq_ok h
      obtain ⟨h1, h2, h3, h4⟩ := mainPass_placed rev cache pre l _ h hnd.2 hcnt
        (fun c' hc' => hidx c' (by simp [hc'])) (fun c' hc' => hemb c' (by simp [hc']))
      refine ⟨h1, h2, fun n hn => h3 n (fun c' hc' => hn c' (by simp [hc'])), ?_⟩
      intro c' hc' hc2
      rcases List.mem_cons.1 hc' with rfl | hc'
      · exact absurd hd hc2
      · exact h4 c' hc' hc2
    · rename_i hd
      obtain ⟨en, hen, h⟩ := bind_eq_ok h
      have hen' := entryAt_ok hen
      split at h
      · rename_i henv
        obtain ⟨o, ho, h⟩ := bind_eq_ok h
        have ho' := cacheAt_ok ho
        obtain ⟨obj, hobj, h⟩ := bind_eq_ok h
        obtain ⟨block, hblk, h⟩ := bind_eq_ok h
        obtain ⟨index, hset, h⟩ := bind_eq_ok h
        obtain ⟨e0, he0, hset⟩ := setAbs_ok hset
        rw [hidx c (by simp), hen'] at he0
        cases he0
        unfold serializeFragment at hblk
        obtain ⟨ser, hser, hblk⟩ := bind_eq_ok hblk
        simp only [pure, Except.pure, Except.ok.injEq] at hblk
        have hcnt' : st.counter + block.length = pre.length + (st.frags ++ block).length := by
          simp [hcnt]; omega
        obtain ⟨⟨more, h1⟩, h2, h3, h4⟩ := mainPass_placed rev cache pre l _ h hnd.2 hcnt' (by
            intro c' hc'
            simp only [hset]
            rw [getElem?_set_ne' _ _ (fun hh => hne c' hc' hh.symm), hidx c' (by simp [hc'])]) (fun c' hc' => hemb c' (by simp [hc']))
        simp only at h1
        have hfile : pre ++ st'.frags = (pre ++ st.frags) ++ (block ++ more) := by
          rw [h1]; simp
        have htw : ToWrite cache c.num obj := by
          refine ⟨o, ho', ?_⟩
          unfold toWrite at hobj
          split at hobj
          · rename_i hs; rw [if_pos hs]; exact hobj
          · rename_i hs
            rw [if_neg hs]
            simp only [Except.ok.injEq] at hobj
            exact hobj.symm
        have hpt : PointsAt (pre ++ st'.frags) st.counter c.num en.gen obj := by
          refine ⟨ser, hser, ?_⟩
          rw [hfile, hcnt, List.drop_left' (by simp), ← hblk]
          refine ⟨more, ?_⟩
          simp [indirect]
        refine ⟨⟨block ++ more, by rw [h1]; simp⟩, h2, ?_, ?_⟩
        · intro n hn
          rw [h3 n (fun c' hc' => hn c' (by simp [hc']))]
          simp only [hset]
          exact getElem?_set_ne' _ _ (hn c (by simp) hd)
        · intro c' hc' hc2
          rcases List.mem_cons.1 hc' with rfl | hc'
          · refine ⟨en, obj, st.counter, ((st.counter + block.length : Nat) : Int), hen', ?_,
              Nat.le_refl _, htw, hpt⟩
            rw [h3 c'.num (fun c'' hc'' _ => hne c'' hc'')]
            simp only [hset]
            rw [getElem?_set_eq' _ _ (by
              have := hidx c' (by simp)
              rw [hen'] at this
              exact lt_of_getElem? this)]
            rfl
          · obtain ⟨en', obj', off, next, q1, q2, q3, q4⟩ := h4 c' hc' hc2
            exact ⟨en', obj', off, next, q1, q2, by simp only at q3; omega, q4⟩
      · rename_i henv
        rw [hemb c (by simp) hd _ hen'] at henv
        exact absurd rfl henv

/-- Searching from the end a pattern of which there is a known last occurrence. -/
theorem rfindAux_none {p : Bytes} (hp : p ≠ []) : ∀ (text : Bytes) (i : Nat), ¬ p <:+: text →
    rfindAux p i text = none := by
  intro text
  induction text with
  | nil => intro i _; simp [rfindAux, hp]
  | cons c text ih =>
    intro i h
    unfold rfindAux
    rw [ih (i + 1) (fun hh => h (hh.trans (List.suffix_cons c text).isInfix))]
    simp only
    rw [if_neg]
    intro hh
    apply h
    rw [startsWith_iff] at hh
    exact hh.isInfix

theorem rfindAux_last {p : Bytes} {x : UInt8} {q : Bytes} (hp : p = x :: q) (b : Bytes)
    (h : ¬ p <:+: q ++ b) : ∀ (a : Bytes) (i : Nat), rfindAux p i (a ++ (p ++ b)) = some (i + a.length) := by
  intro a
  induction a with
  | nil =>
    intro i
    subst hp
    rw [List.nil_append, List.cons_append, rfindAux, rfindAux_none (by simp) _ _ h]
    simp only
    rw [if_pos (by rw [startsWith_iff]; exact ⟨b, by simp⟩)]
    simp
  | cons c a ih =>
    intro i
    rw [List.cons_append, rfindAux, ih (i + 1)]
    simp only [List.length_cons, Option.some.injEq]
    omega

theorem trailer_not_inside {s : Bytes} (h : ¬ b!"trailer" <:+: s) (post : Bytes) (hp : post = b!"\n") :
    ¬ b!"trailer" <:+: b!"railer\n" ++ (s ++ post) := by
  subst hp
  rintro ⟨a, b, e⟩
  have key : ∀ (p w : Bytes) (a : Bytes), (∀ c ∈ p, c ≠ 116) → a ++ b!"trailer" ++ b = p ++ w →
      ∃ a', a = p ++ a' ∧ a' ++ b!"trailer" ++ b = w := by
    intro p w
    induction p with
    | nil => intro a _ e; exact ⟨a, rfl, e⟩
    | cons c p ih =>
      intro a hc e
      cases a with
      | nil =>
        simp only [List.nil_append, List.cons_append, List.cons.injEq] at e
        exact absurd e.1.symm (hc c (by simp))
      | cons d a =>
        simp only [List.cons_append, List.cons.injEq] at e
        obtain ⟨a', q1, q2⟩ := ih a (fun c hc' => hc c (by simp [hc'])) e.2
        exact ⟨a', by rw [e.1, q1]; rfl, q2⟩
  obtain ⟨a', -, e2⟩ := key b!"railer\n" (s ++ b!"\n") a (by decide) e
  rcases List.eq_nil_or_concat b with rfl | ⟨b', x, rfl⟩
  · rw [List.append_nil] at e2
    have := congrArg List.getLast? e2
    simp at this
  · apply h
    rw [List.concat_eq_append, ← List.append_assoc] at e2
    have := List.append_inj' e2 rfl
    exact ⟨a', b', this.1⟩

/-- A revision written after `start` bytes: what its index and its bytes are. -/
structure WrittenRev [Zlib] (chg : List Change) (rev : Rev) (cache : List Obj) (pre out : Bytes) (idx : Rev) :
    Prop where
  len : idx.length = rev.length
  same : ∀ n : Nat, 1 ≤ n → (∀ c ∈ chg, c.act ≠ .d → c.num ≠ n) → idx[n]? = rev[n]?
  placed : ∀ c ∈ chg, c.act ≠ .d → ∃ en obj off next, rev[c.num]? = some (.one en) ∧
    idx[c.num]? = some (.one (placed en (off : Nat) next)) ∧ pre.length < off ∧
    ToWrite cache c.num obj ∧ PointsAt (pre ++ out) off c.num en.gen obj
  zero : ∃ (e0 : Entry) (t : Dict) (s : Bytes) (pos off : Nat) (next : Int) (rest : Bytes),
    rev[0]? = some (.one e0) ∧
    cache[0]? = some (.dict t) ∧ serialize 0 (.dict t) = .ok s ∧ pos ≠ 0 ∧
    (¬ b!"trailer" <:+: s →
      idx[0]? = some (.one { e0 with
        xrefTablePos := some pos, absPos := some (.at off), absNext := some next }) ∧
      pre.length < off ∧
      (pre ++ out).drop off = b!"trailer\n" ++ s ++ b!"\nstartxref\n" ++ rest)

theorem buildRevision_written [Zlib] {chg : List Change} {rev : Rev} {cache : List Obj}
    {out : Bytes} {idx : Rev} {cache' : List Obj} (pre : Bytes)
    (h : buildRevision chg rev cache pre.length 0 = .ok (out, idx, cache'))
    (hnd : (chg.map (·.num)).Nodup) (h1 : ∀ c ∈ chg, 1 ≤ c.num)
    (hemb : ∀ c ∈ chg, c.act ≠ .d → ∀ e, rev[c.num]? = some (.one e) → e.envNum = none) :
    cache' = cache ∧ WrittenRev chg rev cache pre out idx := by
  obtain ⟨xref, st, trailer, built, e0, k, q1, q2, q3, q4, q5, rfl, q6, rfl⟩ :=
    buildRevision_table_inv h
  obtain ⟨-, -, s1, -, s2⟩ := envPass_spec _ _ _ _ q1
  have hemb : ∀ c ∈ (⟨0, 0, .d⟩ :: chg : List Change), c.act ≠ .d → ∀ e, rev[c.num]? = some (.one e) → e.envNum = none := by
    intro c hc hd
    rcases List.mem_cons.1 hc with rfl | hc
    · exact absurd rfl hd
    · exact hemb c hc hd
  have hcache : cache' = cache := by
    apply List.ext_getElem?
    intro n
    apply s2
    intro c hc en hd hen
    left
    rw [hemb c hc hd _ hen]
    rfl
  subst hcache
  refine ⟨rfl, ?_⟩
  have hnd' : (((⟨0, 0, .d⟩ : Change) :: chg).map (·.num)).Nodup := by
    rw [List.map_cons, List.nodup_cons]
    refine ⟨?_, hnd⟩
    intro hm
    obtain ⟨c, hc, hc0⟩ := List.mem_map.1 hm
    have := h1 c hc
    simp only at hc0
    omega
  obtain ⟨⟨more, p1⟩, p2, p3, p4⟩ := mainPass_placed rev cache' pre _ _ q2 hnd' (by simp)
    (fun _ _ => rfl) hemb
  obtain ⟨m1, -, -⟩ := mainPass_cell _ _ _ _ _ q2
  refine ⟨by simpa using m1, ?_, ?_, ?_⟩
  · intro n hn hc
    rw [getElem?_set_ne' _ _ (by omega)]
    apply p3
    intro c hcm hd
    rcases List.mem_cons.1 hcm with rfl | hcm
    · exact absurd rfl hd
    · exact hc c hcm hd
  · intro c hc hd
    obtain ⟨en, obj, off, next, r1, r2, r3, r4, r5⟩ := p4 c (by simp [hc]) hd
    refine ⟨en, obj, off, next, r1, ?_, by simp only at r3; omega, r4, ?_⟩
    · have := h1 c hc
      rw [getElem?_set_ne' _ _ (by omega)]
      exact r2
    · rw [show pre ++ (st.frags ++ built ++ fileEnd st.counter) =
        (pre ++ st.frags) ++ (built ++ fileEnd st.counter) by simp]
      exact pointsAt_append _ r5
  · obtain ⟨blocks, ser, b1, b2, b3, b4, b5⟩ := formatXrefTable_inv q4
    have hz := p3 0 (by
      intro c hcm hd
      rcases List.mem_cons.1 hcm with rfl | hcm
      · exact absurd rfl hd
      · have := h1 c hcm
        omega)
    simp only at hz
    rw [q5] at hz
    generalize hA : b!"xref\n" ++ linesText (blocks.flatMap (blockLines (circularDeleted chg))) = A at b5
    have hb5 : built = A ++ (b!"trailer" ++ (b!"\n" ++ ser ++ b!"\n")) := by
      rw [b5]; simp
    refine ⟨e0, trailer, ser, st.counter, st.counter + A.length, st.counter + built.length,
      natDec st.counter ++ b!"\n%%EOF\n", hz.symm, q3, b4, ?_, ?_⟩
    · rw [p2, p1]; simp
    · intro hno
      have hk : k = (A.length : Int) := by
        rw [q6, hb5]
        unfold rfind
        rw [List.drop_zero, rfindAux_last (x := 116) (q := b!"railer") rfl]
        · simp
        · have := trailer_not_inside hno _ rfl
          simpa using this
      refine ⟨?_, ?_, ?_⟩
      · rw [getElem?_set_eq' _ _ (lt_of_getElem? q5), hk]
        simp
      · rw [p2, p1]
        simp only [List.length_append, List.length_cons]
        omega
      · rw [hb5, show pre ++ (st.frags ++ (A ++ (b!"trailer" ++ (b!"\n" ++ ser ++ b!"\n"))) ++
          fileEnd st.counter) = (pre ++ st.frags ++ A) ++ (b!"trailer" ++ (b!"\n" ++ ser ++ b!"\n") ++
          fileEnd st.counter) by simp]
        rw [List.drop_left' (by rw [List.length_append, List.length_append, ← p2])]
        simp [fileEnd]

/-- Reading what was written after `pre`: the buffer, and the index in it. -/
def ReadsAfter (fdata : Provider) (pre out : Bytes) : Prop :=
  ∀ (e : Entry) (off : Nat) (next : Int), e.absPos = some (.at off) → e.absNext = some next →
    pre.length < off →
    ∃ (buf : Bytes) (a : Nat), readEntry fdata e = .ok (buf, a) ∧ buf.drop a = (pre ++ out).drop off

theorem readsAfter_dummy (pre out : Bytes) : ReadsAfter (.dummy (pre ++ out)) pre out := by
  intro e off next h1 h2 h3
  refine ⟨pre ++ out, off, ?_, rfl⟩
  unfold readEntry
  simp only [h1, h2, orRaise, bind, Except.bind, Provider.read]
  rw [if_neg (by omega), if_neg (by omega)]
  simp [pure, Except.pure]

theorem readsAfter_merged (fdata : Provider) (pre out : Bytes) :
    ReadsAfter (.merged fdata pre.length out) pre out := by
  intro e off next h1 h2 h3
  refine ⟨out, off - pre.length, ?_, ?_⟩
  · unfold readEntry
    simp only [h1, h2, orRaise, bind, Except.bind, Provider.read]
    rw [if_pos (by omega)]
    simp only
    rw [if_neg (by omega)]
    simp only [pure, Except.pure]
    rw [if_neg (by omega)]
    congr 2
    omega
  · rw [List.drop_append, List.drop_eq_nil_of_le (as := pre) (by omega), List.nil_append]

theorem parseIndirect_written [Zlib] {fdata : Provider} {pre out : Bytes} {e : Entry} {off num gen : Nat}
    {next : Int} {o : Obj} (hr : ReadsAfter fdata pre out) (h1 : e.absPos = some (.at off))
    (h2 : e.absNext = some next) (h3 : pre.length < off) (ho : Storable o)
    (hp : PointsAt (pre ++ out) off num gen o) : parseIndirect fdata e = .ok (readBack o) := by
  obtain ⟨buf, a, q1, q2⟩ := hr e off next h1 h2 h3
  obtain ⟨s, p1, rest, p2⟩ := hp
  unfold parseIndirect
  rw [q1]
  simp only [bind, Except.bind]
  exact parse_indirect (num := num) (gen := gen) (rest := rest) ho p1 (by rw [q2, p2])

theorem update_nil : ∀ (t : Dict), (t.map Prod.fst).Nodup → Dict.update [] t = t := by
  have key : ∀ (t acc : Dict), (acc.map Prod.fst ++ t.map Prod.fst).Nodup → Dict.update acc t = acc ++ t := by
    intro t
    induction t with
    | nil => intro acc _; simp [Dict.update]
    | cons x t ih =>
      intro acc h
      have hset : ∀ (acc : Dict), x.1 ∉ acc.map Prod.fst → Dict.set acc x.1 x.2 = acc ++ [x] := by
        intro acc
        induction acc with
        | nil => intro _; rfl
        | cons y acc ih2 =>
          intro hn
          simp only [List.map_cons, List.mem_cons, not_or] at hn
          rw [Dict.set, if_neg (fun hh => hn.1 hh.symm), ih2 hn.2]
          rfl
      have hx : x.1 ∉ acc.map Prod.fst := by
        intro hh
        rw [List.nodup_append] at h
        exact h.2.2 _ hh _ (by simp) rfl
      have : Dict.update acc (x :: t) = Dict.update (acc ++ [x]) t := by
        simp only [Dict.update, List.foldl_cons, hset acc hx]
      rw [this, ih (acc ++ [x]) (by simpa using h)]
      simp
  intro t h
  exact key t [] (by simpa using h)

theorem parseTrailer_read [Zlib] {fdata : Provider} {buf : Bytes} {a : Nat} {e : Entry}
    {t : Dict} {s rest : Bytes} (q1 : readEntry fdata e = .ok (buf, a)) (ht : WF false false (.dict t) = true)
    (hs : serialize 0 (.dict t) = .ok s)
    (hp : buf.drop a = b!"trailer\n" ++ s ++ b!"\nstartxref\n" ++ rest) :
    parseTrailer fdata e = .ok (normEntries t).reverse := by
  have hs' := (serialize_eq _ _ _ 0 ht).symm.trans hs
  simp only [Except.ok.injEq] at hs'
  subst hs'
  have ht' := ht
  simp only [WF, Bool.and_eq_true, decide_eq_true_eq] at ht'
  have d0 : buf.drop a = [] ++ (b!"trailer" ++ 10 :: (ser 0 (.dict t) ++ b!"\nstartxref\n" ++ rest)) := by
    rw [hp]; simp
  have e0 := nextToken_at (tokAt_keyword (s := b!"trailer") (by decide) (c := 10) (by decide) _) (by simp) d0
  have d1 : buf.drop (a + ([] : Bytes).length + (b!"trailer").length) =
      [10] ++ (ser 0 (.dict t) ++ (b!"\nstartxref\n" ++ rest)) := by
    rw [drop_add_of (drop_add_of d0)]; simp
  have e1 := nextToken_at (tokAt_dict 0 (serEntries_dtrans t _ 0 ht'.1) _) (by decide) d1
  have hsl := slice_of_drop (drop_add_of d0)
  have d2 : buf.drop (a + ([] : Bytes).length + (b!"trailer").length + [(10 : UInt8)].length) =
      ser 0 (.dict t) ++ (b!"\nstartxref\n" ++ rest) := drop_add_of d1
  have hne : ser 0 (.dict t) ++ (b!"\nstartxref\n" ++ rest) ≠ [] := by simp
  obtain ⟨w1, w2⟩ := drop_split d2 hne
  have hend : (nextToken (b!"\nstartxref\n" ++ rest) 0).2.2 ≠ some .stream := by
    have := nextToken_at (tokAt_keyword (s := b!"startxref") (by decide) (c := 10) (by decide) rest)
      (text := b!"\nstartxref\n" ++ rest) (ws := [10]) (i := 0) (by decide) (by simp)
    rw [this]
    simp
  have hparse := parse_ser ht (by simp) 0 (buf.take (a + ([] : Bytes).length + (b!"trailer").length + [(10 : UInt8)].length))
    (b!"\nstartxref\n" ++ rest) (.inl ⟨10, _, rfl, by decide⟩) (fun _ => hend)
  rw [← w1, w2] at hparse
  unfold parseTrailer
  rw [q1]
  simp only [bind, Except.bind, nthToken, e0]
  rw [if_pos hsl, e1]
  simp only
  rw [hparse]
  rfl

theorem parseTrailer_written [Zlib] {fdata : Provider} {pre out : Bytes} {e : Entry} {off : Nat}
    {next : Int} {t : Dict} {s rest : Bytes} (hr : ReadsAfter fdata pre out) (h1 : e.absPos = some (.at off))
    (h2 : e.absNext = some next) (h3 : pre.length < off) (ht : WF false false (.dict t) = true)
    (hs : serialize 0 (.dict t) = .ok s)
    (hp : (pre ++ out).drop off = b!"trailer\n" ++ s ++ b!"\nstartxref\n" ++ rest) :
    parseTrailer fdata e = .ok (normEntries t).reverse := by
  obtain ⟨buf, a, q1, q2⟩ := hr e off next h1 h2 h3
  exact parseTrailer_read q1 ht hs (by rw [q2, hp])

end Pdf
