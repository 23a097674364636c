/-
C79: documents written with a cross-reference stream and object streams reload to the same objects.
-/
import Verif.Lemmas.StreamWrite
import Verif.Lemmas.Falsy
import Verif.Lemmas.MemDoc
import Verif.Lemmas.KernelRfl

namespace Pdf
open Spec

/-- The object `o` is assigned to the object stream `c`, which is a fresh one. -/
def InStream (d : Doc) (c : Nat) (o : Obj) : Prop :=
  c ≠ 0 ∧ WF false false o = true ∧ (∀ g n, o ≠ .ref g n) ∧
    (∃ ce, d.cur[c]? = some (.one ce) ∧ ce.envNum = none) ∧
    ∃ entries enc, d.cache[c]? = some (.stream entries [] enc) ∧
      Dict.get? entries b!"/Type" = some (.str b!"/ObjStm") ∧ Dict.get? entries b!"/First" = none ∧
      Dict.get? entries b!"/N" = none ∧ Dict.get? entries b!"/FirstLine" = none

/-- A document of one revision, not written yet, that is going to have a cross-reference stream: what
`force_xref_stream` and `group_obj_into_stream` make of a new (or squashed) document whose objects are in memory. -/
structure Packable (d : Doc) : Prop where
  past : d.past = []
  pastData : d.pastData = []
  opened : d.curData.eofCut = none
  mode : ∃ e0, d.cur[0]? = some (.one e0) ∧ e0.xrefStreamNum = some (-1)
  trailer : ∃ t, d.cache[0]? = some (.dict t) ∧ WF false false (.dict t) = true ∧ Dict.get? t b!"/Prev" = none ∧
    Dict.get? t b!"/XRefStm" = none
  cells : ∀ (n : Nat) (e : Entry), 1 ≤ n → d.cur[n]? = some (.one e) → e.deleted = false ∧
    ∃ o, d.cache[n]? = some o ∧ o ≠ .null ∧ (e.envNum = none ∨ ∃ c, e.envNum = some c ∧ InStream d c o)

/-- The keys of a trailer that are about the file and not about the document. -/
def FileKey (k : Bytes) : Prop := MovingKey k ∨ XrefKey k ∨ k = b!"/DecodeParms"

/-- The parameters left in a trailer by a former cross-reference stream: none, or a dictionary that is not empty. -/
def Parms (t : Dict) : Prop :=
  Dict.get? t b!"/DecodeParms" = none ∨ ∃ kv l, Dict.get? t b!"/DecodeParms" = some (.dict (kv :: l))

theorem parms_del {t : Dict} (h : Parms t) : Dict.get? (delDecodeParms t) b!"/DecodeParms" = none := by
  rcases h with h | ⟨kv, l, h⟩
  · unfold delDecodeParms
    rw [h]
    exact h
  · unfold delDecodeParms
    rw [h]
    simp only
    rw [if_pos (by simp [truthy]), Dict.get?_del, if_pos rfl]

/-- **C79, parameters.** The parameters that a former cross-reference stream has left in the trailer are removed, except a value that
Python takes for false, which stays; nothing else is removed. -/
theorem C79_parms (t : Dict) (k : Bytes) :
    (∀ o, Dict.get? t b!"/DecodeParms" = some o → Spec.Falsy o → Dict.get? (delDecodeParms t) k = Dict.get? t k) ∧
    (∀ o, Dict.get? t b!"/DecodeParms" = some o → ¬ Spec.Falsy o →
      Dict.get? (delDecodeParms t) k = if k = b!"/DecodeParms" then none else Dict.get? t k) := by
  have key := truthy_false
  constructor
  · intro o h hf
    unfold delDecodeParms
    rw [h]
    simp only
    rw [if_neg (by rw [(key o).2 hf]; decide)]
  · intro o h hf
    unfold delDecodeParms
    rw [h]
    simp only
    rw [if_pos (by
      cases ht : truthy o with
      | true => rfl
      | false => exact absurd ((key o).1 ht) hf), Dict.get?_del]

example : Dict.get? (delDecodeParms [(b!"/DecodeParms", .dict [(b!"/Columns", .int 4)]), (b!"/W", .int 1)]) b!"/DecodeParms" = none ∧
    Dict.get? (delDecodeParms [(b!"/DecodeParms", .dict []), (b!"/W", .int 1)]) b!"/DecodeParms" = some (.dict []) := by decide

theorem changes_first {d : Doc} (hp : d.past = []) (hm : ∃ e0, d.cur[0]? = some (.one e0) ∧ e0.xrefStreamNum = some (-1)) :
    (∀ c ∈ changes d, 1 ≤ c.num ∧ c.act = .a ∧ ∃ e, d.cur[c.num]? = some (.one e)) ∧
    ∀ (n : Nat) (e : Entry), 1 ≤ n → d.cur[n]? = some (.one e) → (⟨e.gen, n, .a⟩ : Change) ∈ changes d := by
  obtain ⟨e0, m1, m2⟩ := hm
  have hact : ∀ (n : Nat) (e : Entry), d.cur[n]? = some (.one e) → changeOf (prevRev d) n e = some .a := by
    intro n e he
    have hlt := lt_of_getElem? he
    unfold changeOf prevRev
    rw [hp]
    simp only [List.getElem?_replicate, if_pos hlt]
    rfl
  constructor
  · intro c hc
    obtain ⟨e, h1, h2, h3, h4, h5⟩ := mem_changes.1 hc
    rw [hact _ _ h2] at h5
    exact ⟨h1, (Option.some.inj h5).symm, e, h2⟩
  · intro n e hn he
    refine mem_changes.2 ⟨e, hn, he, rfl, ?_, hact n e he⟩
    rw [m1]
    simp only [Option.bind_some, Slot.xrefStreamNum?, m2]
    intro hh
    have := Option.some.inj hh
    omega

theorem prepare_packable {d : Doc} {p : Prepared} (hP : Packable d) (h : prepareCommit d = .ok p) :
    ∃ t, d.cache[0]? = some (.dict t) ∧ p.xnum = d.cur.length ∧ p.xnum ≠ 0 ∧
      p.cache = d.cache.set 0 (.dict (Dict.set (delDecodeParms t) b!"/Size" (.int (d.cur.length + 1 : Nat)))) ∧
      ∀ n : Nat, 1 ≤ n → n < d.cur.length → p.cur[n]? = d.cur[n]? := by
  obtain ⟨e0, m1, m2⟩ := hP.mode
  have hlt := lt_of_getElem? m1
  unfold prepareCommit at h
  obtain ⟨t, hq, h⟩ := bind_eq_ok h
  obtain ⟨y, hy, h⟩ := bind_eq_ok h
  obtain ⟨⟨pc, px⟩, hpx, h⟩ := bind_eq_ok h
  simp only [pure, Except.pure, Except.ok.injEq] at h
  subst h
  have hy' : y = some (-1) := by
    unfold firstXrefStreamNum at hy
    have : d.firstRev = d.cur := by unfold Doc.firstRev; rw [hP.past]; rfl
    rw [this, slotAt_eq m1] at hy
    simp only [bind, Except.bind, pure, Except.pure, m2, Except.ok.injEq] at hy
    exact hy.symm
  subst hy'
  rw [if_neg (by decide)] at hpx
  unfold xrefStreamEntry at hpx
  simp only [Option.getD_some, if_true] at hpx
  obtain ⟨cur', hc, hpx⟩ := bind_eq_ok hpx
  cases hpx
  unfold setXrefStreamNum at hc
  obtain ⟨e, he, hc⟩ := bind_eq_ok hc
  cases hc
  refine ⟨t, cacheDict_ok hq, rfl, by simp only; omega, ?_, ?_⟩
  · simp only [Option.getD_some, List.length_set, List.length_append, List.length_cons, List.length_nil]
    rfl
  · intro n h1 h2
    simp only
    rw [getElem?_set_ne' _ _ (by omega), List.getElem?_append_left h2]

theorem packed_full [Zlib] {d d' : Doc} {out : Bytes} (hP : Packable d) (hw : writeFile d = .ok (out, d'))
    (hmin : 100 ≤ out.length) (hmax : out.length < 10 ^ 80)
    (hclean : ∀ (n : Nat) (e : Entry) (obj : Obj), 1 ≤ n → d.cur[n]? = some (.one e) → e.envNum = none →
      ToWrite d'.cache n obj → Storable obj)
    (hxs : ∀ p t content enc, WF false false (.dict t) = true → fileEnd p <:+ out →
      PointsAt out p d.cur.length 0 (.stream t content enc) → encodeStream content t = .ok enc →
      XrefContent t content → (∃ t', d'.cache[0]? = some (.dict t') ∧ Dict.get? t b!"/W" = Dict.get? t' b!"/W") →
      (∀ t0, d.cache[0]? = some (.dict t0) → Dict.get? t b!"/Filter" = Dict.get? t0 b!"/Filter" ∧
        (Parms t0 → Dict.get? t b!"/DecodeParms" = none)) →
      Storable (.stream t content enc)) :
    ∃ dl, loads out = .ok dl ∧ Coherent dl ∧
      (∀ (g : Int) (n : Nat) (e : Entry) (o : Obj), 1 ≤ n → d.cur[n]? = some (.one e) → d.cache[n]? = some o →
        isObjStm o = false → ∃ v, view d (.ref g n) = .ok o ∧ view dl (.ref g n) = .ok v ∧ pyEq o v = true) ∧
      (∀ (n : Nat) (e : Entry), 1 ≤ n → d.cur[n]? = some (.one e) → ∃ e', dl.cur[n]? = some (.one e') ∧
        e'.deleted = false ∧ e'.envNum = e.envNum) ∧
      (∀ (g : Int) (n : Nat), 1 ≤ n → n ≠ d.cur.length → (∀ e, d.cur[n]? ≠ some (.one e)) → ∃ x, view dl (.ref g n) = .error x) ∧
      (∃ t tl, d.cache[0]? = some (.dict t) ∧ dl.cache[0]? = some (.dict tl) ∧
        ∀ k, ¬ FileKey k → SameOpt (Dict.get? t k) (Dict.get? tl k)) ∧
      ∃ pos t' objs t, PackedSource out pos d.cur.length t' objs ∧ d.cache[0]? = some (.dict t) ∧
        (∀ k, ¬ FileKey k → Dict.get? t' k = Dict.get? t k) ∧ (Parms t → Dict.get? t' b!"/DecodeParms" = none) := by
  obtain ⟨hc, hst⟩ := writeFile_inv hw
  obtain ⟨f1, f2⟩ := changes_first hP.past hP.mode
  have hst0 : stored d = .ok [] := by
    rw [stored_open (by rw [hP.past, hP.pastData]; rfl) hP.opened, hP.pastData]
    rfl
  have hch : changes d ≠ [] := by
    intro hch
    rw [C21_noop d hch] at hc
    cases hc
    rw [hst0] at hst
    cases hst
    simp at hmin
  obtain ⟨p, cur, cache, data, t0, t1, h1, h2, h3, h4, rfl⟩ := commit_inv hc hch
  obtain ⟨t, a1, a2, a3, a4, a5⟩ := prepare_packable hP h1
  unfold writeRevision at h2
  rw [hP.opened, hP.past] at h2
  simp only at h2
  obtain ⟨⟨v, dv⟩, hv, h2⟩ := bind_eq_ok h2
  obtain ⟨⟨new, cur', cache'⟩, hb, h2⟩ := bind_eq_ok h2
  simp only [Except.ok.injEq, Prod.mk.injEq] at h2
  obtain ⟨rfl, rfl, rfl⟩ := h2
  simp only at hb
  generalize hpre : (b!"%PDF-" ++ v) = pre at hb hst hw hclean hxs
  have hout : out = pre ++ new := by
    have := stored_commit (d := d) (x := { fdata := .dummy (pre ++ new), bdata := some (pre ++ new), eofCut := d.curData.eofCut })
      (d' := { cur := .one p.index0 :: cur'.drop 1, past := cur' :: d.past, cache := cache'.set 0 (.dict t1),
               curData := { fdata := .dummy (pre ++ new) },
               pastData := { fdata := .dummy (pre ++ new), bdata := some (pre ++ new), eofCut := d.curData.eofCut } :: d.pastData })
      (F := []) (by rw [hP.past, hP.pastData]; rfl) rfl hP.opened rfl rfl hP.opened rfl hst0
    rw [this] at hst
    cases hst
    rfl
  subst hout
  obtain ⟨tt, w1, w2, w3, w4⟩ := hP.trailer
  rw [a1] at w1
  cases w1
  have hl0 := lt_of_getElem? a1
  have hget : ∀ (c : Change), c ∈ changes d → c.num < d.cur.length := by
    intro c hc
    obtain ⟨k1, k2, e, k3⟩ := f1 c hc
    exact lt_of_getElem? k3
  have hrev : ∀ (n : Nat) (e : Entry), 1 ≤ n → d.cur[n]? = some (.one e) → p.cur[n]? = some (.one e) := by
    intro n e hn he
    rw [a5 n hn (lt_of_getElem? he), he]
  have hdp : WF false false (.dict (delDecodeParms t)) = true := by
    unfold delDecodeParms
    split <;> (try split) <;> first | exact w2 | exact wf_del w2
  have hPk : Packing (changes d) p.cur p.cache p.xnum := by
    refine ⟨changes_nodup d, ?_, ?_, ?_⟩
    · intro c hc
      obtain ⟨k1, k2, -⟩ := f1 c hc
      exact ⟨k1, by rw [a2]; exact hget c hc, by rw [k2]; decide⟩
    · intro c hc
      obtain ⟨k1, k2, e, k3⟩ := f1 c hc
      obtain ⟨j1, o, j2, j3, j4⟩ := hP.cells c.num e k1 k3
      refine ⟨e, o, hrev _ _ k1 k3, by rw [a4, getElem?_set_ne' _ _ (by omega), j2], ?_⟩
      rcases j4 with j4 | ⟨env, j4, i1, i2, i3, ⟨ce, i4, i5⟩, entries, enc, i6, i7⟩
      · exact .inl j4
      · refine .inr ⟨env, j4, i2, i3, _, f2 env ce (by omega) i4, rfl, ce, hrev _ _ (by omega) i4, i5, entries, enc, ?_, i7⟩
        rw [a4, getElem?_set_ne' _ _ (by omega), i6]
    · refine ⟨_, by rw [a4, getElem?_set_eq' _ _ hl0], wf_set hdp (by decide) rfl, ?_, ?_⟩
      · rw [Dict.get?_set, if_neg (by decide), delDecodeParms_get _ _ (by decide), w3]
      · rw [Dict.get?_set, if_neg (by decide), delDecodeParms_get _ _ (by decide), w4]
  have hnext : ∀ k, ¬ MovingKey k → Dict.get? t1 k = Dict.get? t0 k := by
    intro k hk
    unfold MovingKey at hk
    unfold nextTrailer at h4
    obtain ⟨e, -, h4⟩ := bind_eq_ok h4
    cases h4
    rw [Dict.get?_del, if_neg (fun e => hk (.inr (.inr e))), Dict.get?_set, if_neg (fun e => hk (.inr (.inl e)))]
  have hres := packed_build hPk hb a3 (by
    intro c hc obj htw hen
    obtain ⟨k1, k2, e, k3⟩ := f1 c hc
    obtain ⟨en, e1, e2⟩ := hen
    rw [hrev _ _ k1 k3] at e1
    cases e1
    refine hclean c.num e obj k1 k3 e2 ?_
    obtain ⟨o, o1, o2⟩ := htw
    exact ⟨o, by simp only; rw [getElem?_set_ne' _ _ (by omega), o1], o2⟩) (by
    intro q t2 content enc k1 k2 k3 k4 k5 k6 k7
    rw [a2] at k3
    refine hxs q t2 content enc k1 (k2.trans (List.suffix_append _ _)) k3 k4 k5 ?_ ?_
    · refine ⟨t1, getElem?_set_eq' _ _ (lt_of_getElem? h3), ?_⟩
      rw [h3] at k6
      cases k6
      rw [hnext _ (by unfold MovingKey; decide)]
    · intro t3 k8
      rw [a1] at k8
      cases k8
      have k9 := k7 _ (by rw [a4, getElem?_set_eq' _ _ hl0])
      refine ⟨?_, fun hdp => ?_⟩
      · rw [k9 _ (by unfold XrefKey; decide), Dict.get?_set, if_neg (by decide), delDecodeParms_get _ _ (by decide)]
      · rw [k9 _ (by unfold XrefKey; decide), Dict.get?_set, if_neg (by decide)]
        exact parms_del hdp)
  obtain ⟨pos, s, t', objs, b1, b2, b3, b4, b5, b6⟩ := hres
  obtain ⟨dl, l1, l2⟩ := loads_packed b6.file b6.ends hmin hmax
  have hcoh : Coherent dl := by
    refine packed_coherent b6.file l2 ?_
    intro e he env henv
    rcases b6.listed e he with ⟨-, k⟩ | ⟨c, hc, k1, en, k2, k3⟩
    · rw [k] at henv; cases henv
    · rw [henv] at k3
      obtain ⟨en', o, j1, j2, -⟩ := hPk.cell c hc
      obtain ⟨m, m1, -⟩ := b6.holds c hc en env o k2 k3.symm j2
      exact ⟨m, m1⟩
  refine ⟨dl, l1, hcoh, ?_, ?_, ?_, ?_, ?_⟩
  · intro g n e o hn he ho hstm
    obtain ⟨j1, o', j2, j3, j4⟩ := hP.cells n e hn he
    rw [ho] at j2
    cases j2
    have hview := view_cached he (by simp [Slot.isDeleted, j1]) ho j3 g
    have hcm := f2 n e hn he
    rcases j4 with j4 | ⟨env, j4, -⟩
    · obtain ⟨le, i1, q, obj, i2, i3, i4, i5, i6⟩ := b6.direct _ hcm e (hrev _ _ hn he) j4
      have hobj : obj = o := by
        obtain ⟨w, x1, x2⟩ := i6
        have hkeep : cache'[n]? = p.cache[n]? := by
          refine b5 n ?_ (by omega)
          intro c hc en hen hh
          obtain ⟨y1, y2, ec, y3⟩ := f1 c hc
          rw [hrev _ _ y1 y3] at hen
          cases hen
          obtain ⟨-, oc, -, -, z4⟩ := hP.cells c.num _ y1 y3
          rcases z4 with z4 | ⟨env, z4, -, -, -, -, entries, enc, z5, z6, -⟩ <;> rw [hh] at z4 <;> cases z4
          rw [ho] at z5
          cases z5
          unfold isObjStm at hstm
          simp [z6] at hstm
        rw [hkeep, a4, getElem?_set_ne' _ _ (by omega), ho] at x1
        cases x1
        rw [if_neg (by simp [hstm])] at x2
        exact x2
      subst hobj
      have hs : Storable obj := by
        refine hclean n e obj hn he j4 ?_
        obtain ⟨w, x1, x2⟩ := i6
        exact ⟨w, by simp only; rw [getElem?_set_ne' _ _ (by omega)]; exact x1, x2⟩
      exact ⟨_, hview, packed_direct b6.file l2 hcoh i1 i2 i3 i4 i5 hs g, pyEq_readBack hs⟩
    · obtain ⟨le, i1, i2, i3⟩ := b6.packed _ hcm e env (hrev _ _ hn he) j4
      obtain ⟨members, k1, m, k2, k3⟩ := b6.holds _ hcm e env o (hrev _ _ hn he) j4
        (by rw [a4, getElem?_set_ne' _ _ (by simp only; omega), ho])
      refine ⟨m, hview, ?_, k3⟩
      have := packed_embedded b6.file l2 hcoh i1 i2 i3 k1 g
      simp only at k2
      rw [k2] at this
      exact this
  · intro n e hn he
    obtain ⟨j1, o', j2, j3, j4⟩ := hP.cells n e hn he
    have hcm := f2 n e hn he
    have : ∃ le ∈ objs, le.num = n ∧ le.envNum = e.envNum := by
      rcases j4 with j4 | ⟨env, j4, -⟩
      · obtain ⟨le, i1, q, obj, i2, i3, -⟩ := b6.direct _ hcm e (hrev _ _ hn he) j4
        exact ⟨le, i1, i2, by rw [i3, j4]⟩
      · obtain ⟨le, i1, i2, i3⟩ := b6.packed _ hcm e env (hrev _ _ hn he) j4
        exact ⟨le, i1, i2, by rw [i3, j4]⟩
    obtain ⟨le, i1, i2, i3⟩ := this
    obtain ⟨e', nx, k1, k2, k3, -⟩ := l2.cell le i1
    rw [i2, Int.toNat_natCast] at k1
    exact ⟨e', k1, k3, by rw [k2, i3]⟩
  · intro g n hn hne hno
    have hnot : ∀ e ∈ objs, e.num ≠ n := by
      intro e he hh
      rcases b6.listed e he with ⟨k, -⟩ | ⟨c, hc, k1, -⟩
      · rw [a2] at k; omega
      · obtain ⟨y1, y2, ec, y3⟩ := f1 c hc
        have : c.num = n := by omega
        rw [this] at y3
        exact hno ec y3
    rw [view_spec hcoh]
    rcases l2.hole n hn hnot with k | k
    · exact ⟨_, by simp [slotAt, k, orRaise, bind, Except.bind]; rfl⟩
    · rw [slotAt_eq k]
      exact ⟨_, rfl⟩
  · obtain ⟨tl, k1, k2⟩ := l2.root
    refine ⟨t, tl, a1, k1, ?_⟩
    intro k hk
    unfold FileKey at hk
    have hm : ¬ MovingKey k := fun h => hk (.inl h)
    have hx : ¬ XrefKey k := fun h => hk (.inr (.inl h))
    have hd : k ≠ b!"/DecodeParms" := fun h => hk (.inr (.inr h))
    rw [k2 k hm hd, get?_norm (wf_dict_iff.1 b3).2, b2 k hx]
    rw [a4, getElem?_set_eq' _ _ hl0] at b1
    cases b1
    have : k ≠ b!"/Size" := fun e => hm (.inl e)
    rw [Dict.get?_set, if_neg this, delDecodeParms_get _ _ hd]
    have := sameOpt_norm w2 rfl k
    rwa [get?_norm (wf_dict_iff.1 w2).2] at this

  · rw [a4, getElem?_set_eq' _ _ hl0] at b1
    cases b1
    rw [a2] at b6
    refine ⟨pos, t', objs, t, ⟨b6.file, b3, b6.source, ?_, ?_⟩, a1, ?_, ?_⟩
    · intro e he hne
      rcases b6.listed e he with ⟨k, -⟩ | ⟨c, hc, k1, en, k2, k3⟩
      · exact absurd k hne
      obtain ⟨y1, y2, ec, y3⟩ := f1 c hc
      rw [hrev _ _ y1 y3] at k2
      cases k2
      obtain ⟨j1, o, j2, j3, j4⟩ := hP.cells c.num _ y1 y3
      rcases j4 with j4 | ⟨env, j4, i1, i2, i3, ⟨ce, i4, i5⟩, -⟩
      · left
        obtain ⟨le, i1, q, obj, i2, i3, i4, i5, i6⟩ := b6.direct _ hc _ (hrev _ _ y1 y3) j4
        have hle : le = e := by
          obtain ⟨i, hi⟩ := List.mem_iff_getElem?.1 i1
          obtain ⟨j, hj⟩ := List.mem_iff_getElem?.1 he
          have hij : i = j := by
            refine (List.getElem?_inj (l := objs.map (·.num)) (by simpa using lt_of_getElem? hi) b6.file.distinct).1 ?_
            rw [List.getElem?_map, List.getElem?_map, hi, hj]
            simp [i2, k1]
          subst hij
          rw [hi] at hj
          cases hj
          rfl
        subst hle
        refine ⟨q, c.num, _, obj, i3, i4, i5, hclean c.num _ obj y1 y3 j4 ?_⟩
        obtain ⟨w, x1, x2⟩ := i6
        exact ⟨w, by simp only; rw [getElem?_set_ne' _ _ (by omega)]; exact x1, x2⟩
      · right
        obtain ⟨members, m1, m, m2, -⟩ := b6.holds _ hc _ env o (hrev _ _ y1 y3) j4
          (by rw [a4, getElem?_set_ne' _ _ (by omega), j2])
        have := lt_of_getElem? i4
        exact ⟨c.num, env, members, m, k1, by rw [k3, j4], by omega, m1, m2⟩
    · intro e he hx
      rcases b6.listed e he with ⟨-, k⟩ | ⟨c, hc, k1, en, k2, k3⟩
      · exact k
      · have := hget c hc
        omega
    · intro k hk
      unfold FileKey at hk
      have hm : ¬ MovingKey k := fun h => hk (.inl h)
      have hx : ¬ XrefKey k := fun h => hk (.inr (.inl h))
      have hd : k ≠ b!"/DecodeParms" := fun h => hk (.inr (.inr h))
      rw [b2 k hx, Dict.get?_set, if_neg (fun e => hm (.inl e)), delDecodeParms_get _ _ hd]
    · intro hp
      rw [b2 _ (by unfold XrefKey; decide), Dict.get?_set, if_neg (by decide)]
      exact parms_del hp

theorem packed_core [Zlib] {d d' : Doc} {out : Bytes} (hP : Packable d) (hw : writeFile d = .ok (out, d'))
    (hmin : 100 ≤ out.length) (hmax : out.length < 10 ^ 80)
    (hclean : ∀ (n : Nat) (e : Entry) (obj : Obj), 1 ≤ n → d.cur[n]? = some (.one e) → e.envNum = none →
      ToWrite d'.cache n obj → Storable obj)
    (hxs : ∀ p t content enc, WF false false (.dict t) = true → fileEnd p <:+ out →
      PointsAt out p d.cur.length 0 (.stream t content enc) → encodeStream content t = .ok enc →
      XrefContent t content → (∃ t', d'.cache[0]? = some (.dict t') ∧ Dict.get? t b!"/W" = Dict.get? t' b!"/W") →
      (∀ t0, d.cache[0]? = some (.dict t0) → Dict.get? t b!"/Filter" = Dict.get? t0 b!"/Filter" ∧
        (Parms t0 → Dict.get? t b!"/DecodeParms" = none)) →
      Storable (.stream t content enc)) :
    ∃ dl, loads out = .ok dl ∧ Coherent dl ∧
      (∀ (g : Int) (n : Nat) (e : Entry) (o : Obj), 1 ≤ n → d.cur[n]? = some (.one e) → d.cache[n]? = some o →
        isObjStm o = false → ∃ v, view d (.ref g n) = .ok o ∧ view dl (.ref g n) = .ok v ∧ pyEq o v = true) ∧
      (∀ (n : Nat) (e : Entry), 1 ≤ n → d.cur[n]? = some (.one e) → ∃ e', dl.cur[n]? = some (.one e') ∧
        e'.deleted = false ∧ e'.envNum = e.envNum) ∧
      (∀ (g : Int) (n : Nat), 1 ≤ n → n ≠ d.cur.length → (∀ e, d.cur[n]? ≠ some (.one e)) → ∃ x, view dl (.ref g n) = .error x) ∧
      (∃ t tl, d.cache[0]? = some (.dict t) ∧ dl.cache[0]? = some (.dict tl) ∧
        ∀ k, ¬ FileKey k → SameOpt (Dict.get? t k) (Dict.get? tl k)) := by
  obtain ⟨dl, h1, h2, h3, h4, h5, h6, -⟩ := packed_full hP hw hmin hmax hclean hxs
  exact ⟨dl, h1, h2, h3, h4, h5, h6⟩

/-- What `loads` gives back for a document `d`: the same objects, the same assignment to object streams, nothing under
the other numbers, the same trailer. -/
def SameObjects [Zlib] (d dl : Doc) : Prop :=
  (∀ (g : Int) (n : Nat) (e : Entry) (o : Obj), 1 ≤ n → d.cur[n]? = some (.one e) → d.cache[n]? = some o →
    isObjStm o = false → ∃ v, view d (.ref g n) = .ok o ∧ view dl (.ref g n) = .ok v ∧ pyEq o v = true) ∧
  (∀ (n : Nat) (e : Entry), 1 ≤ n → d.cur[n]? = some (.one e) → ∃ e', dl.cur[n]? = some (.one e') ∧
    e'.deleted = false ∧ e'.envNum = e.envNum) ∧
  (∀ (g : Int) (n : Nat), 1 ≤ n → n ≠ d.cur.length → (∀ e, d.cur[n]? ≠ some (.one e)) → ∃ x, view dl (.ref g n) = .error x) ∧
  ∃ t tl, d.cache[0]? = some (.dict t) ∧ dl.cache[0]? = some (.dict tl) ∧
    ∀ k, ¬ FileKey k → SameOpt (Dict.get? t k) (Dict.get? tl k)

/-- A document written with a cross-reference stream, and with any of its objects in object streams, loads again and has
the same objects, provided that what goes in the file as streams is within C02 (`Storable`). -/
theorem C79_reload_partial [Zlib] {d d' : Doc} {out : Bytes} (hP : Packable d) (hw : writeFile d = .ok (out, d'))
    (hmin : 100 ≤ out.length) (hmax : out.length < 10 ^ 80)
    (hclean : ∀ (n : Nat) (e : Entry) (obj : Obj), 1 ≤ n → d.cur[n]? = some (.one e) → e.envNum = none →
      ToWrite d'.cache n obj → Storable obj)
    (hx : ∀ p t content enc, WF false false (.dict t) = true → fileEnd p <:+ out →
      PointsAt out p d.cur.length 0 (.stream t content enc) → encodeStream content t = .ok enc →
      Storable (.stream t content enc)) :
    ∃ dl, loads out = .ok dl ∧ Coherent dl ∧ SameObjects d dl :=
  packed_core hP hw hmin hmax hclean (fun p t c enc h1 h2 h3 h4 _ _ _ => hx p t c enc h1 h2 h3 h4)

/-- Without a filter on the cross-reference stream, and with addresses of at most four bytes, there is nothing to
suppose about that stream: its rows cannot contain `endstream` and do not end with a carriage return. -/
theorem C79_plain_partial [Zlib] {d d' : Doc} {out : Bytes} (hP : Packable d) (hw : writeFile d = .ok (out, d'))
    (hmin : 100 ≤ out.length) (hmax : out.length < 10 ^ 80)
    (hclean : ∀ (n : Nat) (e : Entry) (obj : Obj), 1 ≤ n → d.cur[n]? = some (.one e) → e.envNum = none →
      ToWrite d'.cache n obj → Storable obj)
    (hf : ∀ t, d.cache[0]? = some (.dict t) → Dict.get? t b!"/Filter" = none)
    (hW : ∀ t (b : Nat), d'.cache[0]? = some (.dict t) → Dict.get? t b!"/W" = some (.list [.int 1, .int b, .int b]) → b ≤ 4) :
    ∃ dl, loads out = .ok dl ∧ Coherent dl ∧ SameObjects d dl := by
  refine packed_core hP hw hmin hmax hclean ?_
  intro p t c enc h1 h2 h3 h4 h5 ⟨t', h6, h7⟩ h8
  obtain ⟨t0, r1, -⟩ := hP.trailer
  have hfn := (h8 t0 r1).1.trans (hf t0 r1)
  obtain ⟨k1, k2, k3⟩ := xrefContent_clean h5 (fun b hb => hW t' b h6 (h7 ▸ hb))
  have henc : enc = c := by
    unfold encodeStream at h4
    simp only [hfn] at h4
    simpa using h4.symm
  subst henc
  refine ⟨h1, k1, k2, k3, ?_⟩
  unfold decodeStream
  simp only [hfn]

/-- Bytes between `stream` and `endstream` that the reader delimits. -/
def Clean (x : Bytes) : Prop := x ≠ [] ∧ ¬ b!"endstream" <:+: x ∧ x.getLast? ≠ some 13

/-- With the filter /FlateDecode on the cross-reference stream, what is to be supposed is about the bytes out of zlib. -/
theorem C79_flate_partial [Zlib] (hz : ZlibLaw) {d d' : Doc} {out : Bytes} (hP : Packable d) (hw : writeFile d = .ok (out, d'))
    (hmin : 100 ≤ out.length) (hmax : out.length < 10 ^ 80)
    (hclean : ∀ (n : Nat) (e : Entry) (obj : Obj), 1 ≤ n → d.cur[n]? = some (.one e) → e.envNum = none →
      ToWrite d'.cache n obj → Storable obj)
    (hf : ∀ t, d.cache[0]? = some (.dict t) → Dict.get? t b!"/Filter" = some (.str b!"/FlateDecode") ∧ Parms t)
    (hx : ∀ p t content, XrefContent t content → fileEnd p <:+ out →
      PointsAt out p d.cur.length 0 (.stream t content (Zlib.compress content)) →
      (∃ t', d'.cache[0]? = some (.dict t') ∧ Dict.get? t b!"/W" = Dict.get? t' b!"/W") → Clean (Zlib.compress content)) :
    ∃ dl, loads out = .ok dl ∧ Coherent dl ∧ SameObjects d dl := by
  refine packed_core hP hw hmin hmax hclean ?_
  intro p t c enc h1 h2 h3 h4 h5 h6 h8
  obtain ⟨t0, r1, -⟩ := hP.trailer
  have hfl := (h8 t0 r1).1.trans (hf t0 r1).1
  have hdp := (h8 t0 r1).2 (hf t0 r1).2
  have hsp : strSplit b!"/FlateDecode" = [b!"/FlateDecode"] := by decide
  have henc : enc = Zlib.compress c := by
    unfold encodeStream at h4
    simp only [hfl, encodeLoop] at h4
    simpa using h4.symm
  subst henc
  obtain ⟨k1, k2, k3⟩ := hx p t c h5 h2 h3 h6
  refine ⟨h1, k1, k2, k3, ?_⟩
  unfold decodeStream
  simp only [hfl, hdp, hsp, List.map_cons, List.map_nil, List.length_cons, List.length_nil, List.replicate]
  simp [decodeLoop, flateStage, hasPredictor, hz c]

theorem objAt_cached [Zlib] {d : Doc} {n : Nat} {e : Entry} {o : Obj} (he : d.cur[n]? = some (.one e)) (hd : e.deleted = false)
    (hc : d.cache[n]? = some o) (ho : o ≠ .null) : objAt d n = .ok (o, d) := by
  unfold objAt
  rw [entryAt_eq he]
  simp only [bind, Except.bind]
  have hm : memoize d.cur d.curData.fdata n d.cache = .ok d.cache := by
    unfold memoize
    rw [slotAt_eq he]
    simp only [bind, Except.bind, Slot.isDeleted, hd, cacheAt_eq hc, ne_eq, ho, not_false_eq_true, if_true]
    rfl
  unfold getObject
  simp only
  rw [if_neg (by omega)]
  simp only [Int.toNat_natCast, hm, bind, Except.bind, cacheAt_eq hc, pure, Except.pure]

/-- The objects that `group_obj_into_stream` leaves where they are. -/
def StaysOut (e : Entry) (o : Obj) : Prop :=
  (∃ d c x, o = .stream d c x) ∨ (∃ d, o = .dict d ∧ Dict.has d b!"Length" = true) ∨ e.gen ≠ 0

theorem staysOut_iff {e : Entry} {o : Obj} : StaysOut e o ↔ ((match o with
      | .stream _ _ _ => true
      | .dict d => Dict.has d b!"Length"
      | _ => false) || decide (e.gen ≠ 0)) = true := by
  unfold StaysOut
  cases o <;> simp

theorem groupLoop_spec [Zlib] {env : Nat} : ∀ (nums : List Nat) {d d' : Doc},
    (∀ n ∈ nums, ∃ e o, d.cur[n]? = some (.one e) ∧ e.deleted = false ∧ d.cache[n]? = some o ∧ o ≠ .null) →
    nums.Nodup → groupLoop env nums d = .ok d' →
    d'.past = d.past ∧ d'.pastData = d.pastData ∧ d'.cache = d.cache ∧ d'.curData = d.curData ∧
    d'.cur.length = d.cur.length ∧ (∀ n, n ∉ nums → d'.cur[n]? = d.cur[n]?) ∧
    ∀ n ∈ nums, ∀ e o, d.cur[n]? = some (.one e) → d.cache[n]? = some o →
      (StaysOut e o ∧ d'.cur[n]? = some (.one e)) ∨ (¬ StaysOut e o ∧ d'.cur[n]? = some (.one { e with envNum := some env })) := by
  intro nums
  induction nums with
  | nil =>
    intro d d' _ _ h
    simp only [groupLoop, Except.ok.injEq] at h
    subst h
    simp
  | cons a ns ih =>
    intro d d' hc hnd h
    obtain ⟨e, o, h1, h2, h3, h4⟩ := hc a (by simp)
    rw [List.nodup_cons] at hnd
    unfold groupLoop at h
    rw [objAt_cached h1 h2 h3 h4] at h
    simp only [bind, Except.bind, entryAt_eq h1] at h
    by_cases hs : StaysOut e o
    · replace h := (if_pos (staysOut_iff.1 hs)).symm.trans h
      obtain ⟨r1, r2, r3, r4, r5, r6, r7⟩ := ih (fun n hn => hc n (by simp [hn])) hnd.2 h
      refine ⟨r1, r2, r3, r4, r5, fun n hn => r6 n (fun hh => hn (by simp [hh])), ?_⟩
      intro n hn e' o' k1 k2
      rcases List.mem_cons.1 hn with rfl | hn
      · rw [h1] at k1; cases k1
        rw [h3] at k2; cases k2
        exact .inl ⟨hs, by rw [r6 _ hnd.1, h1]⟩
      · exact r7 n hn e' o' k1 k2
    · replace h := (if_neg (fun hh => hs (staysOut_iff.2 hh))).symm.trans h
      have hne : ∀ n ∈ ns, a ≠ n := fun n hn hh => hnd.1 (hh ▸ hn)
      obtain ⟨r1, r2, r3, r4, r5, r6, r7⟩ := ih (by
        intro n hn
        obtain ⟨e', o', k⟩ := hc n (by simp [hn])
        exact ⟨e', o', by simp only; rw [getElem?_set_ne' _ _ (hne n hn)]; exact k⟩) hnd.2 h
      refine ⟨r1, r2, r3, r4, by rw [r5]; simp, ?_, ?_⟩
      · intro n hn
        rw [r6 n (fun hh => hn (by simp [hh]))]
        exact getElem?_set_ne' _ _ (fun hh => hn (by simp [hh]))
      · intro n hn e' o' k1 k2
        rcases List.mem_cons.1 hn with rfl | hn
        · rw [h1] at k1; cases k1
          rw [h3] at k2; cases k2
          refine .inr ⟨hs, ?_⟩
          rw [r6 _ hnd.1]
          exact getElem?_set_eq' _ _ (lt_of_getElem? h1)
        · refine r7 n hn e' o' ?_ k2
          simp only
          rw [getElem?_set_ne' _ _ (hne n hn), k1]

/-- Grouping the objects of a document that is ready to be written with a cross-reference stream: all the objects that
can be in an object stream are assigned to a new one, the others stay; every object reads as before; and the result
is again ready to be written. -/
theorem C79_group_partial [Zlib] {d d' : Doc} (hP : Packable d) (hlen : d.cur.length ≤ d.cache.length)
    (hdir : ∀ (n : Nat) (e : Entry), 1 ≤ n → d.cur[n]? = some (.one e) → e.envNum = none)
    (hobj : ∀ (n : Nat) (e : Entry) (o : Obj), 1 ≤ n → d.cur[n]? = some (.one e) → d.cache[n]? = some o → ¬ StaysOut e o →
      WF false false o = true ∧ ∀ g m, o ≠ .ref g m)
    (h : groupObjIntoStream d 0 [] = .ok d') :
    Packable d' ∧
    (∀ (n : Nat) (e : Entry) (o : Obj), 1 ≤ n → d.cur[n]? = some (.one e) → d.cache[n]? = some o →
      (∀ g, view d' (.ref g n) = view d (.ref g n)) ∧
      ∃ e', d'.cur[n]? = some (.one e') ∧ (e'.envNum = none ↔ StaysOut e o) ∧
        (e'.envNum = none ∨ e'.envNum = some d.cur.length)) ∧
    (∀ n : Nat, n < d.cur.length → d'.cache[n]? = d.cache[n]?) ∧ d'.cur.length = d.cur.length + 1 ∧
    d'.cache[d.cur.length]? = some (.stream [(b!"/Type", .str b!"/ObjStm")] [] []) ∧
    ∀ n : Nat, n < d.cur.length → d'.cur[n]? = d.cur[n]? ∨ ∃ e, d.cur[n]? = some (.one e) := by
  unfold groupObjIntoStream at h
  rw [if_pos rfl] at h
  obtain ⟨⟨n1, env⟩, ha, h⟩ := bind_eq_ok h
  obtain ⟨n2, hl, h⟩ := bind_eq_ok h
  obtain ⟨o2, ho2, h⟩ := bind_eq_ok h
  simp only [pure, Except.pure, Except.ok.injEq] at h
  subst h
  rw [if_pos rfl] at hl
  obtain ⟨rfl, -, rfl⟩ := addObject_inv ha
  obtain ⟨f1, f2⟩ := changes_first hP.past hP.mode
  have hcur : ∀ n : Nat, n < d.cur.length →
      (d.cur ++ [Slot.one { num := d.cur.length, docVer := d.past.length }])[n]? = d.cur[n]? := by
    intro n hn
    rw [List.getElem?_append_left hn]
  have hcache : ∀ n : Nat, n < d.cur.length → ((d.cache ++ [Obj.null]).set d.cur.length (.bytes []))[n]? = d.cache[n]? := by
    intro n hn
    rw [getElem?_set_ne' _ _ (by omega), List.getElem?_append_left (by omega)]
  have hnums : ∀ n ∈ (changes d).map (·.num), 1 ≤ n ∧ n < d.cur.length := by
    intro n hn
    obtain ⟨c, hc, rfl⟩ := List.mem_map.1 hn
    obtain ⟨k1, -, e, k3⟩ := f1 c hc
    exact ⟨k1, lt_of_getElem? k3⟩
  obtain ⟨r1, r2, r3, r4, r5, r6, r7⟩ := groupLoop_spec _ (by
    intro n hn
    obtain ⟨c, hc, rfl⟩ := List.mem_map.1 hn
    obtain ⟨k1, -, e, k3⟩ := f1 c hc
    obtain ⟨j1, o, j2, j3, -⟩ := hP.cells c.num e k1 k3
    have hlt := lt_of_getElem? k3
    exact ⟨e, o, by simp only; rw [hcur _ hlt, k3], j1, by simp only; rw [hcache _ hlt, j2], j3⟩) (changes_nodup d) hl
  simp only at r1 r2 r3 r4 r5 r6 r7
  have henv : n2.cur[d.cur.length]? = some (.one { num := d.cur.length, docVer := d.past.length }) := by
    rw [r6 _ (fun hh => by have := (hnums _ hh).2; omega)]
    simp
  have hset : ∀ n : Nat, n < d.cur.length →
      (n2.cache.set d.cur.length (.stream [(b!"/Type", .str b!"/ObjStm")] [] []))[n]? = d.cache[n]? := by
    intro n hn
    rw [getElem?_set_ne' _ _ (by omega), r3, hcache n hn]
  have hstm : (n2.cache.set d.cur.length (.stream [(b!"/Type", .str b!"/ObjStm")] [] []))[d.cur.length]? =
      some (.stream [(b!"/Type", .str b!"/ObjStm")] [] []) := by
    refine getElem?_set_eq' _ _ ?_
    rw [r3]
    simp
    omega
  have hzero : n2.cur[0]? = d.cur[0]? := by
    obtain ⟨e0, m1, -⟩ := hP.mode
    rw [r6 0 (fun hh => by have := (hnums _ hh).1; omega), hcur 0 (lt_of_getElem? m1)]
  have hpos : 0 < d.cur.length := by
    obtain ⟨e0, m1, -⟩ := hP.mode
    exact lt_of_getElem? m1
  have hone : ∀ (n : Nat) (e : Entry) (o : Obj), 1 ≤ n → d.cur[n]? = some (.one e) → d.cache[n]? = some o →
      (StaysOut e o ∧ n2.cur[n]? = some (.one e)) ∨
      (¬ StaysOut e o ∧ n2.cur[n]? = some (.one { e with envNum := some d.cur.length })) := by
    intro n e o hn he ho
    have hlt := lt_of_getElem? he
    refine r7 n (List.mem_map.2 ⟨_, f2 n e hn he, rfl⟩) e o ?_ ?_
    · rw [hcur n hlt, he]
    · rw [hcache n hlt, ho]
  refine ⟨⟨by simp only; rw [r1, hP.past], by simp only; rw [r2, hP.pastData], by simp only; rw [r4]; exact hP.opened, ?_, ?_, ?_⟩, ?_, ?_⟩
  · obtain ⟨e0, m1, m2⟩ := hP.mode
    exact ⟨e0, by simp only; rw [hzero, m1], m2⟩
  · obtain ⟨t, k1, k2⟩ := hP.trailer
    exact ⟨t, by simp only; rw [hset 0 hpos, k1], k2⟩
  · intro n e hn he
    simp only at he ⊢
    have hlt := lt_of_getElem? he
    rw [r5, List.length_append, List.length_singleton] at hlt
    by_cases hnl : n = d.cur.length
    · subst hnl
      rw [henv] at he
      cases he
      exact ⟨rfl, _, hstm, by simp, .inl rfl⟩
    · have hlt' : n < d.cur.length := by omega
      by_cases hmem : n ∈ (changes d).map (·.num)
      · obtain ⟨c, hc, rfl⟩ := List.mem_map.1 hmem
        obtain ⟨k1, -, e', k3⟩ := f1 c hc
        obtain ⟨j1, o, j2, j3, -⟩ := hP.cells c.num e' k1 k3
        rcases hone _ _ _ k1 k3 j2 with ⟨-, q⟩ | ⟨q0, q⟩ <;> rw [he] at q <;> cases q
        · exact ⟨j1, o, by rw [hset _ hlt', j2], j3, .inl (hdir _ _ k1 k3)⟩
        · obtain ⟨w1, w2⟩ := hobj _ _ _ k1 k3 j2 q0
          exact ⟨j1, o, by rw [hset _ hlt', j2], j3, .inr ⟨_, rfl, by omega, w1, w2, ⟨_, henv, rfl⟩, _, _, hstm, rfl, rfl, rfl, rfl⟩⟩
      · rw [r6 n hmem, hcur n hlt'] at he
        exact absurd (List.mem_map.2 ⟨_, f2 n e hn he, rfl⟩) hmem
  · intro n e o hn he ho
    obtain ⟨j1, o', j2, j3, -⟩ := hP.cells n e hn he
    rw [ho] at j2
    cases j2
    have hlt := lt_of_getElem? he
    rcases hone n e o hn he ho with ⟨q0, q⟩ | ⟨q0, q⟩
    · refine ⟨?_, e, q, ⟨fun _ => q0, fun _ => hdir n e hn he⟩, .inl (hdir n e hn he)⟩
      intro g
      rw [view_cached he (by simp [Slot.isDeleted, j1]) ho j3 g]
      refine view_cached (e := .one e) ?_ (by simp [Slot.isDeleted, j1]) ?_ j3 g
      · exact q
      · exact (hset n hlt).trans ho
    · refine ⟨?_, _, q, ⟨fun hh => by simp at hh, fun hh => absurd hh q0⟩, .inr rfl⟩
      intro g
      rw [view_cached he (by simp [Slot.isDeleted, j1]) ho j3 g]
      refine view_cached (e := .one { e with envNum := some d.cur.length }) ?_ (by simp [Slot.isDeleted, j1]) ?_ j3 g
      · exact q
      · exact (hset n hlt).trans ho
  · refine ⟨hset, ?_, hstm, ?_⟩
    · simp only
      rw [r5]
      simp
    · intro n hn
      by_cases hmem : n ∈ (changes d).map (·.num)
      · obtain ⟨c, hc, rfl⟩ := List.mem_map.1 hmem
        obtain ⟨-, -, e, k3⟩ := f1 c hc
        exact .inr ⟨e, k3⟩
      · exact .inl (by simp only; rw [r6 n hmem, hcur n hn])

/-- A document of one revision whose objects are all in memory, out of object streams. -/
structure InMemory (d : Doc) : Prop where
  past : d.past = []
  pastData : d.pastData = []
  opened : d.curData.eofCut = none
  len : d.cur.length ≤ d.cache.length
  mode : ∃ e0, d.cur[0]? = some (.one e0) ∧ e0.xrefStreamNum = none
  trailer : ∃ t, d.cache[0]? = some (.dict t) ∧ WF false false (.dict t) = true ∧ Dict.get? t b!"/Prev" = none ∧
    Dict.get? t b!"/XRefStm" = none
  cells : ∀ (n : Nat) (e : Entry), 1 ≤ n → d.cur[n]? = some (.one e) → e.deleted = false ∧ e.envNum = none ∧
    ∃ o, d.cache[n]? = some o ∧ o ≠ .null

/-- After `force_xref_stream` such a document is ready to be written; nothing changes in it but the mode, and the
filter in the trailer. -/
theorem C79_force_partial {d d' : Doc} {filt : Bytes} (hM : InMemory d) (hf : filt = [] ∨ WF true true (.str filt) = true)
    (h : forceXrefStream d false filt = .ok d') :
    Packable d' ∧ d'.cache.length = d.cache.length ∧ d'.cur.length = d.cur.length ∧
    (∀ n : Nat, 1 ≤ n → d'.cur[n]? = d.cur[n]? ∧ d'.cache[n]? = d.cache[n]?) ∧
    ∀ t, d.cache[0]? = some (.dict t) → ∃ t', d'.cache[0]? = some (.dict t') ∧
      (∀ k, k ≠ b!"/Filter" → Dict.get? t' k = Dict.get? t k) ∧
      Dict.get? t' b!"/Filter" = if filt = [] then Dict.get? t b!"/Filter" else some (.str filt) := by
  obtain ⟨e0, m1, m2⟩ := hM.mode
  obtain ⟨t, t1, t2, t3, t4⟩ := hM.trailer
  unfold forceXrefStream at h
  rw [m1] at h
  simp only [Option.bind_some, Slot.xrefStreamNum?, m2] at h
  rw [if_neg (by decide)] at h
  unfold setXrefStreamNum at h
  rw [entryAt_eq m1] at h
  simp only [bind, Except.bind, pure, Except.pure] at h
  have hl0 := lt_of_getElem? m1
  have hl0' := lt_of_getElem? t1
  have hd' : ∃ t', d' = { d with cur := d.cur.set 0 (.one { e0 with xrefStreamNum := some (-1) }), cache := d.cache.set 0 (.dict t') } ∧
      WF false false (.dict t') = true ∧ (∀ k, k ≠ b!"/Filter" → Dict.get? t' k = Dict.get? t k) ∧
      Dict.get? t' b!"/Filter" = if filt = [] then Dict.get? t b!"/Filter" else some (.str filt) := by
    unfold setFilter at h
    by_cases hfe : filt = []
    · rw [if_pos hfe] at h
      simp only [pure, Except.pure, Except.ok.injEq] at h
      refine ⟨t, ?_, t2, fun _ _ => rfl, by rw [if_pos hfe]⟩
      rw [← h]
      congr 1
      exact (List.ext_getElem? fun n => by
        by_cases hn : n = 0
        · subst hn; rw [getElem?_set_eq' _ _ hl0', t1]
        · rw [getElem?_set_ne' _ _ (Ne.symm hn)])
    · rw [if_neg hfe] at h
      have hcd : cacheDict d.cache = .ok t := by
        unfold cacheDict
        rw [cacheAt_eq t1]
        rfl
      simp only [hcd, bind, Except.bind, pure, Except.pure, Except.ok.injEq] at h
      refine ⟨Dict.set t b!"/Filter" (.str filt), h.symm, ?_, ?_, ?_⟩
      · exact wf_set t2 (by decide) (hf.resolve_left hfe)
      · intro k hk
        rw [Dict.get?_set, if_neg hk]
      · rw [Dict.get?_set, if_pos rfl, if_neg hfe]
  obtain ⟨t', rfl, w1, w2, w3⟩ := hd'
  have hkeep : ∀ n : Nat, 1 ≤ n → (d.cur.set 0 (.one { e0 with xrefStreamNum := some (-1) }))[n]? = d.cur[n]? ∧
      (d.cache.set 0 (.dict t'))[n]? = d.cache[n]? :=
    fun n hn => ⟨getElem?_set_ne' _ _ (by omega), getElem?_set_ne' _ _ (by omega)⟩
  refine ⟨⟨hM.past, hM.pastData, hM.opened, ⟨_, getElem?_set_eq' _ _ hl0, rfl⟩,
    ⟨t', getElem?_set_eq' _ _ hl0', w1, by rw [w2 _ (by decide), t3], by rw [w2 _ (by decide), t4]⟩, ?_⟩, by simp, by simp, hkeep, ?_⟩
  · intro n e hn he
    simp only at he
    rw [(hkeep n hn).1] at he
    obtain ⟨j1, j2, o, j3, j4⟩ := hM.cells n e hn he
    exact ⟨j1, o, by simp only; rw [(hkeep n hn).2, j3], j4, .inl j2⟩
  · intro t0 h0
    rw [t1] at h0
    cases h0
    exact ⟨t', getElem?_set_eq' _ _ hl0', w2, w3⟩

/-- The whole of it: a document in memory is given a cross-reference stream, its objects are grouped in an object stream,
it is written and loaded. Every object comes back, at the same number; the trailer too. -/
theorem C79_pack_partial [Zlib] {d d1 d2 d3 : Doc} {out : Bytes} (hM : InMemory d) (h1 : forceXrefStream d false [] = .ok d1)
    (hobj : ∀ (n : Nat) (e : Entry) (o : Obj), 1 ≤ n → d.cur[n]? = some (.one e) → d.cache[n]? = some o → ¬ StaysOut e o →
      WF false false o = true ∧ ∀ g m, o ≠ .ref g m)
    (h2 : groupObjIntoStream d1 0 [] = .ok d2) (hw : writeFile d2 = .ok (out, d3))
    (hmin : 100 ≤ out.length) (hmax : out.length < 10 ^ 80)
    (hclean : ∀ (n : Nat) (e : Entry) (obj : Obj), 1 ≤ n → d2.cur[n]? = some (.one e) → e.envNum = none →
      ToWrite d3.cache n obj → Storable obj)
    (hf : ∀ t, d.cache[0]? = some (.dict t) → Dict.get? t b!"/Filter" = none)
    (hW : ∀ t (b : Nat), d3.cache[0]? = some (.dict t) → Dict.get? t b!"/W" = some (.list [.int 1, .int b, .int b]) → b ≤ 4) :
    ∃ dl, loads out = .ok dl ∧ Coherent dl ∧
      (∀ (g : Int) (n : Nat) (e : Entry) (o : Obj), 1 ≤ n → d.cur[n]? = some (.one e) → d.cache[n]? = some o →
        isObjStm o = false → ∃ v e', view d (.ref g n) = .ok o ∧ view dl (.ref g n) = .ok v ∧ pyEq o v = true ∧
          dl.cur[n]? = some (.one e') ∧ (e'.envNum = none ↔ StaysOut e o)) ∧
      ∃ t tl, d.cache[0]? = some (.dict t) ∧ dl.cache[0]? = some (.dict tl) ∧
        ∀ k, ¬ FileKey k → SameOpt (Dict.get? t k) (Dict.get? tl k) := by
  obtain ⟨f1, f2, f3, f4, f5⟩ := C79_force_partial hM (.inl rfl) h1
  have hback : ∀ (n : Nat) (e : Entry), 1 ≤ n → d1.cur[n]? = some (.one e) → d.cur[n]? = some (.one e) :=
    fun n e hn he => by rw [← (f4 n hn).1, he]
  obtain ⟨g1, g2, g3, -⟩ := C79_group_partial f1 (by rw [f2, f3]; exact hM.len)
    (fun n e hn he => (hM.cells n e hn (hback n e hn he)).2.1)
    (fun n e o hn he ho => hobj n e o hn (hback n e hn he) (by rw [← (f4 n hn).2, ho])) h2
  obtain ⟨t, t1, -⟩ := hM.trailer
  obtain ⟨t', q1, q2, q3⟩ := f5 t t1
  rw [if_pos rfl] at q3
  have hz : d2.cache[0]? = d1.cache[0]? := by
    refine g3 0 ?_
    obtain ⟨e0, m1, -⟩ := hM.mode
    rw [f3]
    exact lt_of_getElem? m1
  obtain ⟨dl, l1, l2, l3, l4, l5, l6⟩ := C79_plain_partial g1 hw hmin hmax hclean (by
    intro t0 h0
    rw [hz, q1] at h0
    cases h0
    rw [q3, hf t t1]) hW
  refine ⟨dl, l1, l2, ?_, ?_⟩
  · intro g n e o hn he ho hs
    obtain ⟨j1, j2, o', j3, j4⟩ := hM.cells n e hn he
    rw [ho] at j3
    cases j3
    obtain ⟨k1, e', k2, k3, -⟩ := g2 n e o hn (by rw [(f4 n hn).1, he]) (by rw [(f4 n hn).2, ho])
    have hc2 : d2.cache[n]? = some o := by
      rw [g3 n (by rw [f3]; exact lt_of_getElem? he), (f4 n hn).2, ho]
    obtain ⟨v, -, v2, v3⟩ := l3 g n e' o hn k2 hc2 hs
    obtain ⟨e2, u1, -, u3⟩ := l4 n e' hn k2
    exact ⟨v, e2, view_cached he (by simp [Slot.isDeleted, j1]) ho j4 g, v2, v3, u1, by rw [u3, k3]⟩
  · obtain ⟨ta, tl, u1, u2, u3⟩ := l6
    rw [hz, q1] at u1
    cases u1
    refine ⟨t, tl, t1, u2, ?_⟩
    intro k hk
    have := u3 k hk
    by_cases hkf : k = b!"/Filter"
    · subst hkf; rwa [q3] at this
    · rwa [q2 k hkf] at this

/-- A test for `Storable`. -/
def storableB [Zlib] : Obj → Bool
  | .stream d content enc => WF false false (.dict d) && decide (enc ≠ []) && decide (¬ b!"endstream" <:+: enc) &&
      decide (enc.getLast? ≠ some 13) && match decodeStream enc d with
        | .ok c => decide (c = content)
        | .error _ => false
  | .ref _ _ => false
  | o => WF false false o

theorem storable_of_test [Zlib] {o : Obj} (h : storableB o = true) : Storable o := by
  cases o <;> simp only [storableB, Storable] at * <;> try exact h
  case stream d content enc =>
    simp only [Bool.and_eq_true, decide_eq_true_eq] at h
    obtain ⟨⟨⟨⟨h1, h2⟩, h3⟩, h4⟩, h5⟩ := h
    refine ⟨h1, h2, h3, h4, ?_⟩
    split at h5
    · rename_i c hc
      rw [hc, of_decide_eq_true h5]
    · cases h5
  case ref => cases h

/-- A test for the hypothesis on the objects written in the file. -/
def cleanB [Zlib] (cur : Rev) (cache : List Obj) : Bool :=
  (List.range cur.length).all fun n => match cur[n]?, cache[n]? with
    | some (.one e), some o => n == 0 || e.envNum.isSome || if isObjStm o then
        match finalizeStream o with
        | .ok obj => storableB obj
        | .error _ => true
      else storableB o
    | _, _ => true

theorem clean_of_test [Zlib] {cur : Rev} {cache : List Obj} (h : cleanB cur cache = true) (n : Nat) (e : Entry) (obj : Obj)
    (hn : 1 ≤ n) (he : cur[n]? = some (.one e)) (henv : e.envNum = none) (hw : ToWrite cache n obj) : Storable obj := by
  unfold cleanB at h
  rw [List.all_eq_true] at h
  have := h n (List.mem_range.2 (lt_of_getElem? he))
  obtain ⟨o, h1, h2⟩ := hw
  rw [he, h1] at this
  simp only [henv, Option.isSome_none, Bool.or_false, Bool.or_eq_true, beq_iff_eq] at this
  rcases this with k | k
  · omega
  · split at h2
    · rename_i hs
      rw [if_pos hs, h2] at k
      exact storable_of_test k
    · rename_i hs
      rw [if_neg hs] at k
      subst h2
      exact storable_of_test k

/-- A catalog, a page tree and a stream. -/
def packSample : List Obj :=
  [.dict [(b!"/Root", .ref 0 1)],
   .dict [(b!"/Type", .str b!"/Catalog"), (b!"/Pages", .ref 0 2)],
   .dict [(b!"/Type", .str b!"/Pages"), (b!"/Kids", .list []), (b!"/Count", .int 0)],
   .stream [(b!"/Length", .int 200)] (List.replicate 200 65) (List.replicate 200 65)]

/-- Addresses of two bytes. -/
def widthB (cache : List Obj) : Bool :=
  match (cache[0]? : Option Obj) with
  | some (.dict t) => match Dict.get? t b!"/W" with
    | some (.list [.int 1, .int 2, .int 2]) => true
    | _ => false
  | _ => false

/-- Every hypothesis of `C79_pack_partial` that is about results of the functions. -/
def packTest [Zlib] : Bool :=
  match forceXrefStream (memDoc packSample) false [] with
  | .ok d1 => match groupObjIntoStream d1 0 [] with
    | .ok d2 => match writeFile d2 with
      | .ok (out, d3) => decide (100 ≤ out.length) && decide (out.length < 1000) && cleanB d2.cur d3.cache && widthB d3.cache
      | .error _ => false
    | .error _ => false
  | .error _ => false

theorem packTest_true [Zlib] : packTest = true := by kernel_rfl

/-- The hypotheses can be met: the catalog and the page tree of this document go in an object stream, the third object
stays out. -/
example [Zlib] : ∃ d1 d2 d3 out, InMemory (memDoc packSample) ∧ forceXrefStream (memDoc packSample) false [] = .ok d1 ∧
    groupObjIntoStream d1 0 [] = .ok d2 ∧ writeFile d2 = .ok (out, d3) ∧ ∃ dl, loads out = .ok dl := by
  have hM : InMemory (memDoc packSample) := by
    refine ⟨rfl, rfl, rfl, Nat.le_of_eq rfl, ⟨_, rfl, rfl⟩, ⟨_, rfl, by decide, by decide, by decide⟩, ?_⟩
    intro n e hn he
    rw [memDoc_cur] at he
    split at he
    · cases he
      refine ⟨rfl, rfl, ?_⟩
      rename_i hlt
      have : n = 1 ∨ n = 2 ∨ n = 3 := by simp [packSample] at hlt; omega
      rcases this with rfl | rfl | rfl <;> exact ⟨_, rfl, by simp⟩
    · cases he
  have h := packTest_true
  unfold packTest at h
  split at h
  · rename_i d1 h1
    split at h
    · rename_i d2 h2
      split at h
      · rename_i out d3 h3
        simp only [Bool.and_eq_true, decide_eq_true_eq] at h
        obtain ⟨⟨⟨k1, k2⟩, k3⟩, k4⟩ := h
        obtain ⟨dl, l1, -⟩ := C79_pack_partial hM h1 (by
          intro n e o hn he ho hs
          rw [memDoc_cur] at he
          split at he
          · rename_i hlt
            have : n = 1 ∨ n = 2 ∨ n = 3 := by simp [packSample] at hlt; omega
            rcases this with rfl | rfl | rfl
            · simp only [memDoc, packSample, List.getElem?_cons_succ, List.getElem?_cons_zero, Option.some.injEq] at ho
              subst ho
              exact ⟨by decide, by simp⟩
            · simp only [memDoc, packSample, List.getElem?_cons_succ, List.getElem?_cons_zero, Option.some.injEq] at ho
              subst ho
              exact ⟨by decide, by simp⟩
            · simp only [memDoc, packSample, List.getElem?_cons_succ, List.getElem?_cons_zero, Option.some.injEq] at ho
              subst ho
              exact absurd (.inl ⟨_, _, _, rfl⟩) hs
          · cases he) h2 h3 k1 (by
            refine Nat.lt_trans k2 ?_
            decide) (fun n e obj => clean_of_test k3 n e obj) (by
          intro t ht
          simp only [memDoc, packSample, List.getElem?_cons_zero, Option.some.injEq, Obj.dict.injEq] at ht
          subst ht
          rfl) (by
          intro t b ht hb
          unfold widthB at k4
          rw [ht] at k4
          simp only [hb] at k4
          split at k4
          · rename_i heq
            simp at heq
            omega
          · cases k4)
        exact ⟨d1, d2, d3, out, hM, h1, h2, h3, dl, l1⟩
      · cases h
    · cases h
  · cases h

/-- Small documents cannot be written in this way: the width of the columns is computed from the addresses, and the
generation 65535 of the object 0 does not fit in one byte. -/
def packSmall : List Obj :=
  [.dict [(b!"/Root", .ref 0 1)],
   .dict [(b!"/Type", .str b!"/Catalog"), (b!"/Pages", .ref 0 2)],
   .dict [(b!"/Type", .str b!"/Pages"), (b!"/Kids", .list []), (b!"/Count", .int 0)]]

theorem C79_small_counterexample [Zlib] : ∃ d1 d2, forceXrefStream (memDoc packSmall) false [] = .ok d1 ∧
    groupObjIntoStream d1 0 [] = .ok d2 ∧ (writeFile d2).map Prod.fst = .error .overflowError ∧
    (writeFile d1).map Prod.fst = .error .overflowError ∧
    (writeFile (memDoc packSmall)).map (fun x => decide (200 ≤ x.1.length)) = .ok true :=
  ⟨_, _, rfl, rfl, by kernel_rfl, by kernel_rfl, by kernel_rfl⟩

end Pdf
