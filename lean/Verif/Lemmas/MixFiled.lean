/-
Documents that are being edited, above a file made of tables and cross-reference streams (C86).
-/
import Verif.Lemmas.MixWrite
import Verif.Props.C79_Packed
import Verif.Lemmas.Overview

namespace Pdf
open Spec

/-- The object at `p` reads as `v`, whatever is added to the file. -/
def ReadsAs [Zlib] (F : Bytes) (p : Nat) (v : Obj) : Prop :=
  ∀ (rest : Bytes) (e : Entry) (next : Int), e.absPos = some (.at p) → e.absNext = some next →
    parseIndirect (.single (F ++ rest)) e = .ok v

theorem ReadsAs.append [Zlib] {F : Bytes} {p : Nat} {v : Obj} (h : ReadsAs F p v) (more : Bytes) : ReadsAs (F ++ more) p v := by
  intro rest e next h1 h2
  rw [List.append_assoc]
  exact h _ e next h1 h2

theorem readsAs_of [Zlib] {F : Bytes} {p num gen : Nat} {o : Obj} (hp : PointsAt F p num gen o) (ho : Storable o) :
    ReadsAs F p (readBack o) := by
  intro rest e next h1 h2
  exact parseIndirect_single h1 h2 ho (PointsAt.append hp rest)

theorem pointsAt_lt {F : Bytes} {p num gen : Nat} {o : Obj} (h : PointsAt F p num gen o) : p < F.length := by
  obtain ⟨ss, -, rr, h2⟩ := h
  refine Classical.byContradiction fun hl => ?_
  rw [List.drop_eq_nil_of_le (by omega)] at h2
  simp [indirect] at h2

/-- The object `n` is at `p`, outside of object streams: in the index, in the file and in its newest section. -/
structure HeldAt [Zlib] (F : Bytes) (secs : List XSec) (fdata : Provider) (n : Nat) (e : Entry) (p : Nat) (v : Obj) : Prop where
  env : e.envNum = none
  pos : e.absPos = some (.at p)
  lt : p < F.length
  reads : ReadsAs F p v
  value : parseIndirect fdata e = .ok v
  entry : ∃ le, lastFor n (listedX secs) = some le ∧ le.envNum = none ∧ le.absPos = some (.at p)

/-- The object `n` has the value `v` in the file: at a position, or in an object stream. -/
def FileHeld [Zlib] (F : Bytes) (secs : List XSec) (fdata : Provider) (prev rev : Rev) (N n : Nat) (e : Entry) (v : Obj) : Prop :=
  (∃ p, HeldAt F secs fdata n e p v) ∨
  ∃ (c : Nat) (ce : Entry) (p : Nat) (stm : Obj) (members : List Embedded), e.envNum = some c ∧ 1 ≤ c ∧ c ≠ N ∧
    rev[c]? = some (.one ce) ∧ prev[c]? = rev[c]? ∧ ce.deleted = false ∧ HeldAt F secs fdata c ce p stm ∧
    parseObjectStream stm = .ok members ∧ (members.map (·.num)).Nodup ∧ embObj members n = some v ∧
    (∀ x ∈ members, ∃ k : Nat, x.num = .int k ∧ 1 ≤ k ∧ ∃ le, lastFor k (listedX secs) = some le) ∧
    ∃ le, lastFor n (listedX secs) = some le ∧ le.envNum = some c

/-- An editing session in progress above a file `F` made of the sections `secs`; `N` is the number of the
cross-reference streams (0: tables), `T0` the trailer at the beginning of the session. -/
structure FiledX [Zlib] (d : Doc) (F : Bytes) (secs : List XSec) (N : Nat) (T0 : Dict) : Prop where
  coh : Coherent d
  cells : d.cur.length = d.cache.length
  plain : ∀ (n : Nat) (es : List Entry), 1 ≤ n → d.cur[n]? ≠ some (.many es)
  zero : ∃ e, d.cur[0]? = some (.one e) ∧ e.deleted = false ∧ e.xrefTablePos = none ∧
    (e.xrefStreamNum = none ∨ e.xrefStreamNum = some (-1))
  past : d.past ≠ []
  first : ∃ x, firstXrefStreamNum d = .ok x ∧ x.getD 0 = (N : Int)
  opened : d.curData.eofCut = none
  own : N ≠ 0 → ∃ e, d.cur[N]? = some (.one e) ∧ e.envNum = none ∧ e.deleted = false ∧ (prevRev d)[N]? = d.cur[N]?
  direct : ∀ (n : Nat) (e : Entry), 1 ≤ n → d.cur[n]? = some (.one e) → (prevRev d)[n]? ≠ d.cur[n]? → e.envNum = none
  pending : ∀ (n : Nat) (e : Entry), 1 ≤ n → d.cur[n]? = some (.one e) → e.deleted = false → (prevRev d)[n]? ≠ d.cur[n]? →
    ∃ o, d.cache[n]? = some o ∧ Keepable o
  chain : XChain F secs
  bound : EnvBound (listedX secs)
  ends : ∀ s ∈ secs.head?, EndsAt F s.pos ∧ Above s secs.tail
  root : ∃ t, d.cache[0]? = some (.dict t) ∧ WF false false (.dict t) = true ∧ Dict.get? t b!"/XRefStm" = none ∧
    Dict.get? t b!"/Prev" = secs.head?.map (fun s => .int s.pos) ∧
    (∀ k, ¬ FileKey k → Dict.get? t k = Dict.get? T0 k) ∧ (N ≠ 0 → Parms T0 → Dict.get? t b!"/DecodeParms" = none) ∧
    ∀ s ∈ secs.head?, ∀ k, ¬ FileKey k → SameOpt (Dict.get? t k) (Dict.get? s.tr k)
  some_sec : secs ≠ []
  index : revisionIndex d = .ok F.length
  bytes : stored d = .ok F
  len : d.past.length = d.pastData.length
  short : (prevRev d).length ≤ d.cur.length
  fresh : ∀ (n : Nat) (p e : Entry), 1 ≤ n → (prevRev d)[n]? = some (.one p) → d.cur[n]? = some (.one e) → p = e ∨ p.ver < e.ver
  never : ∀ n : Nat, 1 ≤ n → (d.cur[n]? = none ∨ d.cur[n]? = some .hole) → lastFor n (listedX secs) = none
  live : ∀ (n : Nat) (e : Entry), 1 ≤ n → n ≠ N → d.cur[n]? = some (.one e) → e.deleted = false →
    (prevRev d)[n]? = d.cur[n]? → ∃ v, FileHeld F secs d.curData.fdata (prevRev d) d.cur N n e v ∧
      ∀ c, d.cache[n]? = some c → c = .null ∨ c = v ∨ pyEq c v = true

theorem held_value [Zlib] {F : Bytes} {secs : List XSec} {fdata : Provider} {prev rev : Rev} {N n : Nat} {e : Entry} {v : Obj}
    (hn : 1 ≤ n) (h : FileHeld F secs fdata prev rev N n e v) : fileValue rev fdata n (.one e) = .ok v := by
  unfold fileValue
  rw [if_neg (by omega)]
  simp only [Slot.entry, bind, Except.bind]
  rcases h with ⟨p, h⟩ | ⟨c, ce, p, stm, ms, h1, -, -, h2, -, -, h3, h4, -, h5, -⟩
  · rw [h.env]
    exact h.value
  · rw [h1]
    simp only
    rw [entryAt_eq h2]
    simp only [h3.value, h4, h5]
    rfl

theorem held_edit [Zlib] {F : Bytes} {secs : List XSec} {fdata : Provider} {prev rev prev' rev' : Rev} {N n : Nat} {e : Entry} {v : Obj}
    (h : FileHeld F secs fdata prev rev N n e v) (hr : ∀ c, e.envNum = some c → rev'[c]? = rev[c]? ∧ prev'[c]? = prev[c]?) :
    FileHeld F secs fdata prev' rev' N n e v := by
  rcases h with h | ⟨c, ce, p, stm, ms, h1, h1', hN, h2, h2', h3⟩
  · exact .inl h
  · obtain ⟨k1, k2⟩ := hr c h1
    exact .inr ⟨c, ce, p, stm, ms, h1, h1', hN, by rw [k1]; exact h2, by rw [k1, k2]; exact h2', h3⟩

theorem keepable_ne [Zlib] {o : Obj} (h : Keepable o) : o ≠ .null := by
  rintro rfl
  simp [Keepable, Storable, WF] at h

theorem prevRev_eq {d d' : Doc} (h : d'.past = d.past) (hp : d.past ≠ []) : prevRev d' = prevRev d := by
  unfold prevRev
  rw [h]
  cases hq : d.past with
  | nil => exact absurd hq hp
  | cons r rs => rfl

theorem firstX_eq {d d' : Doc} (h : d'.past = d.past) (hp : d.past ≠ []) : firstXrefStreamNum d' = firstXrefStreamNum d := by
  have : d'.firstRev = d.firstRev := by
    unfold Doc.firstRev
    rw [h]
    cases hq : d.past with
    | nil => exact absurd hq hp
    | cons r rs => rw [List.getLastD_eq_getLast?, List.getLastD_eq_getLast?, List.getLast?_cons]; rfl
  unfold firstXrefStreamNum
  rw [this]

/-- An embedded object is an object of the file. -/
theorem filedX_emb [Zlib] {d : Doc} {F : Bytes} {secs : List XSec} {N : Nat} {T0 : Dict} (h : FiledX d F secs N T0) {n c : Nat} {e : Entry}
    (hn : 1 ≤ n) (he : d.cur[n]? = some (.one e)) (hdel : e.deleted = false) (henv : e.envNum = some c) :
    (prevRev d)[n]? = d.cur[n]? ∧ n ≠ N ∧ ∃ v, FileHeld F secs d.curData.fdata (prevRev d) d.cur N n e v ∧
      ∀ c, d.cache[n]? = some c → c = .null ∨ c = v ∨ pyEq c v = true := by
  have heq : (prevRev d)[n]? = d.cur[n]? := by
    refine Classical.byContradiction fun hne' => ?_
    rw [h.direct n e hn he hne'] at henv
    cases henv
  have hN : n ≠ N := by
    rintro rfl
    obtain ⟨e', k1, k2, -⟩ := h.own (by omega)
    rw [he] at k1
    cases k1
    rw [henv] at k2
    cases k2
  exact ⟨heq, hN, h.live n e hn hN he hdel heq⟩

theorem filedX_reads [Zlib] {d : Doc} {F : Bytes} {secs : List XSec} {N : Nat} {T0 : Dict} (h : FiledX d F secs N T0) (r : Obj) :
    FiledX (reads [r] d) F secs N T0 := by
  unfold reads
  rcases hg : getObject d r with x | ⟨o, d'⟩
  · exact h
  simp only [reads]
  have hf := getObject_filled h.coh hg
  have hcoh := filled_coherent h.coh hf
  have hcur : d'.cur = d.cur := by rw [hf.eq]
  have hpast : d'.past = d.past := by rw [hf.eq]
  have hdata : d'.curData = d.curData := by rw [hf.eq]
  have hpd : d'.pastData = d.pastData := by rw [hf.eq]
  have hprev : prevRev d' = prevRev d := by unfold prevRev; rw [hpast, hcur]
  have hst : stored d' = stored d := by
    unfold stored Doc.data Doc.firstData
    rw [hpast, hpd, hdata]
  have hlen := hf.len
  have hkeep : ∀ (n : Nat) (o : Obj), d.cache[n]? = some o → o ≠ .null → d'.cache[n]? = some o := by
    intro n o ho hne
    have hlt := lt_of_getElem? ho
    have h0 : d'.cache[n]? = some d'.cache[n] := List.getElem?_eq_getElem (by omega)
    rcases hf.val n _ h0 with k | ⟨k, -⟩
    · rw [ho] at k; rw [h0, ← k]
    · rw [ho] at k; cases k; exact absurd rfl hne
  refine ⟨hcoh, by rw [hcur, hlen]; exact h.cells, by rw [hcur]; exact h.plain, by rw [hcur]; exact h.zero, by rw [hpast]; exact h.past,
    by rw [firstX_eq hpast h.past]; exact h.first, by rw [hdata]; exact h.opened, by rw [hcur, hprev]; exact h.own,
    by rw [hcur, hprev]; exact h.direct, ?_, h.chain, h.bound, h.ends, ?_, h.some_sec, by unfold revisionIndex; rw [hpd]; exact h.index,
    by rw [hst]; exact h.bytes, by rw [hpast, hpd]; exact h.len, by rw [hprev, hcur]; exact h.short, by rw [hprev, hcur]; exact h.fresh,
    by rw [hcur]; exact h.never, ?_⟩
  · intro n e hn he hdel hne
    rw [hcur] at he hne
    rw [hprev] at hne
    obtain ⟨o, ho, hk⟩ := h.pending n e hn he hdel hne
    exact ⟨o, hkeep n o ho (keepable_ne hk), hk⟩
  · obtain ⟨t, ht, rest⟩ := h.root
    exact ⟨t, hkeep 0 _ ht (by simp), rest⟩
  · intro n e hn hN he hdel heq
    rw [hcur] at he heq
    rw [hprev] at heq
    obtain ⟨v, q1, q2⟩ := h.live n e hn hN he hdel heq
    rw [hdata, hprev, hcur]
    refine ⟨v, q1, ?_⟩
    intro c hc
    rcases hf.val n c hc with k | ⟨-, slot, k1, -, k3⟩
    · exact q2 c k
    · rw [he] at k1
      cases k1
      rw [held_value hn q1] at k3
      cases k3
      exact .inr (.inl rfl)

theorem filedX_add [Zlib] {d d' : Doc} {n : Nat} {o : Obj} {F : Bytes} {secs : List XSec} {N : Nat} {T0 : Dict} (h : FiledX d F secs N T0)
    (ho : Keepable o) (hs : addObject d o = .ok (d', n)) : FiledX d' F secs N T0 := by
  obtain ⟨h1, h2, rfl⟩ := addObject_inv hs
  subst h1
  have hlen := h.cells
  obtain ⟨e0, z1, z2⟩ := h.zero
  have hpos := lt_of_getElem? z1
  generalize hne : ({ num := d.cur.length, docVer := d.past.length } : Entry) = ne
  have henv : ne.envNum = none := by rw [← hne]
  have hc : ∀ m, m < d.cur.length → (d.cur ++ [Slot.one ne])[m]? = d.cur[m]? := fun m hm => List.getElem?_append_left hm
  have hc' : ∀ m e, (d.cur ++ [Slot.one ne])[m]? = some (.one e) → d.cur[m]? = some (.one e) ∧ m < d.cur.length ∨ m = d.cur.length ∧ e = ne := by
    intro m e he
    by_cases hm : m < d.cur.length
    · rw [hc m hm] at he
      exact .inl ⟨he, hm⟩
    · rw [List.getElem?_append_right (by omega)] at he
      have := lt_of_getElem? he
      simp only [List.length_cons, List.length_nil] at this
      have hm' : m = d.cur.length := by omega
      subst hm'
      simp only [Nat.sub_self, List.getElem?_cons_zero, Option.some.injEq, Slot.one.injEq] at he
      exact .inr ⟨rfl, he.symm⟩
  have hk : ∀ m, m < d.cur.length → ((d.cache ++ [Obj.null]).set d.cur.length o)[m]? = d.cache[m]? := by
    intro m hm
    rw [getElem?_set_ne' _ _ (by omega), List.getElem?_append_left (by omega)]
  have hprev : prevRev { d with cur := d.cur ++ [.one ne], cache := (d.cache ++ [Obj.null]).set d.cur.length o } = prevRev d :=
    prevRev_eq rfl h.past
  have hfx : firstXrefStreamNum { d with cur := d.cur ++ [.one ne], cache := (d.cache ++ [Obj.null]).set d.cur.length o } =
    firstXrefStreamNum d := firstX_eq rfl h.past
  refine ⟨?_, by simp [hlen], ?_, ⟨e0, by simp only; rw [hc 0 hpos]; exact z1, z2⟩, h.past,
    by rw [hfx]; exact h.first, h.opened, ?_, ?_, ?_, h.chain, h.bound, h.ends, ?_, h.some_sec, h.index,
    h.bytes, h.len, ?_, ?_, ?_, ?_⟩
  · -- coherent
    intro m e c hm he hdel henv' hcache ce stm objs hce hp hps
    simp only at he hcache hce hp
    rcases hc' m e he with ⟨he1, hlt⟩ | ⟨rfl, rfl⟩
    · rw [hk m hlt] at hcache
      obtain ⟨-, -, v, hv, -⟩ := filedX_emb h (by omega) he1 hdel henv'
      have hcl : c < d.cur.length := by
        rcases hv with ⟨p, hv⟩ | ⟨c', ce', p, stm', ms, j1, -, -, j2, -⟩
        · rw [hv.env] at henv'; cases henv'
        · rw [henv'] at j1
          cases j1
          exact lt_of_getElem? j2
      rw [hc c hcl] at hce
      obtain ⟨q1, q2, q3, ⟨o', q4, q5⟩, q6, q7⟩ := h.coh m e c hm he1 hdel henv' hcache ce stm objs hce hp hps
      refine ⟨q1, q2, q3, ⟨o', by simp only; rw [hk c hcl]; exact q4, q5⟩, q6, ?_⟩
      intro x hx
      obtain ⟨k, e', o', r1, r2, r3, r4, r5, r6, r7⟩ := q7 x hx
      have hkl := lt_of_getElem? r3
      exact ⟨k, e', o', r1, r2, by simp only; rw [hc k hkl]; exact r3, r4, r5, by simp only; rw [hk k hkl]; exact r6, r7⟩
    · rw [henv] at henv'; cases henv'
  · intro m es hm he
    simp only at he
    by_cases hl : m < d.cur.length
    · rw [hc m hl] at he
      exact h.plain m es hm he
    · rw [List.getElem?_append_right (by omega)] at he
      have := lt_of_getElem? he
      simp only [List.length_cons, List.length_nil] at this
      have hm' : m - d.cur.length = 0 := by omega
      rw [hm'] at he
      cases he
  · intro hN
    obtain ⟨e, k1, k2, k3, k4⟩ := h.own hN
    have hl := lt_of_getElem? k1
    rw [hprev]
    exact ⟨e, by simp only; rw [hc N hl]; exact k1, k2, k3, by simp only; rw [hc N hl]; exact k4⟩
  · intro m e hm he hne'
    simp only at he
    rcases hc' m e he with ⟨he, hlt⟩ | ⟨rfl, rfl⟩
    · rw [hprev] at hne'
      simp only at hne'
      rw [hc m hlt] at hne'
      exact h.direct m e hm he hne'
    · exact henv
  · intro m e hm he hdel hne'
    simp only at he
    rcases hc' m e he with ⟨he, hlt⟩ | ⟨rfl, rfl⟩
    · rw [hprev] at hne'
      simp only at hne' ⊢
      rw [hc m hlt] at hne'
      rw [hk m hlt]
      exact h.pending m e hm he hdel hne'
    · exact ⟨o, getElem?_set_eq' _ _ (by simp; omega), ho⟩
  · simp only
    rw [hk 0 hpos]
    exact h.root
  · rw [hprev]
    have := h.short
    simp only [List.length_append]
    omega
  · intro m p e hm hp he
    rw [hprev] at hp
    simp only at he
    rcases hc' m e he with ⟨he, hlt⟩ | ⟨rfl, rfl⟩
    · exact h.fresh m p e hm hp he
    · have := lt_of_getElem? hp
      have := h.short
      omega
  · intro m hm hh
    simp only at hh
    by_cases hl : m < d.cur.length
    · rw [hc m hl] at hh
      exact h.never m hm hh
    · exact h.never m hm (.inl (List.getElem?_eq_none (by omega)))
  · intro m e hm hN he hdel heq
    rw [hprev] at heq ⊢
    simp only at he heq ⊢
    rcases hc' m e he with ⟨he, hlt⟩ | ⟨rfl, rfl⟩
    · rw [hc m hlt] at heq
      obtain ⟨v, q1, q2⟩ := h.live m e hm hN he hdel heq
      refine ⟨v, ?_, by rw [hk m hlt]; exact q2⟩
      refine held_edit q1 fun c hcc => ⟨?_, rfl⟩
      rcases q1 with ⟨p, hv⟩ | ⟨c', ce', p, stm', ms, j1, -, -, j2, -⟩
      · rw [hv.env] at hcc; cases hcc
      · rw [hcc] at j1
        cases j1
        exact hc c (lt_of_getElem? j2)
    · -- the new number is not in the last revision
      exfalso
      rw [he] at heq
      have := lt_of_getElem? heq
      have := h.short
      omega

/-- What an operation must be, for the session to go on: the values can be written, the number of the cross-reference
stream is left alone, and so are the object streams; an object of an object stream is only changed when the others of
this stream have been read. -/
def FitAt [Zlib] (N : Nat) (d : Doc) : Op → Prop
  | .add o => Keepable o
  | .set n o => 1 ≤ n ∧ n ≠ N ∧ (o = .null ∨ Keepable o) ∧
      (∀ (m : Nat) (e : Entry), d.cur[m]? = some (.one e) → e.envNum ≠ some n) ∧
      ∀ (old : Entry) (c : Nat), d.cur[n]? = some (.one old) → old.envNum = some c →
        ∀ (m : Nat) (e : Entry), m ≠ n → d.cur[m]? = some (.one e) → e.envNum = some c → d.cache[m]? ≠ some .null
  | _ => True

theorem filedX_set [Zlib] {d d' : Doc} {n : Nat} {o : Obj} {F : Bytes} {secs : List XSec} {N : Nat} {T0 : Dict} (h : FiledX d F secs N T0)
    (hfit : FitAt N d (.set n o)) (hs : updateObject d n o = .ok d') : FiledX d' F secs N T0 := by
  obtain ⟨hn, hnN, ho, hcont, hsib⟩ := hfit
  obtain ⟨old, h1, h2, rfl⟩ := updateObject_inv hs
  have hlt := lt_of_getElem? h1
  have hlen := h.cells
  obtain ⟨e0, z1, z2⟩ := h.zero
  generalize hne : newEntry old n d.past.length o = ne
  have henv : ne.envNum = none := by rw [← hne]; rfl
  have hver : ∀ p, (prevRev d)[n]? = some (.one p) → p.ver < ne.ver := by
    intro p hp
    have hv : ne.ver = old.ver + 1 := by rw [← hne]; rfl
    rcases h.fresh n p old hn hp h1 with rfl | hh <;> omega
  have hc : ∀ m, m ≠ n → (d.cur.set n (.one ne))[m]? = d.cur[m]? := fun m hm => getElem?_set_ne' _ _ (Ne.symm hm)
  have hcn : (d.cur.set n (.one ne))[n]? = some (.one ne) := getElem?_set_eq' _ _ hlt
  have hk : ∀ m, m ≠ n → (d.cache.set n o)[m]? = d.cache[m]? := fun m hm => getElem?_set_ne' _ _ (Ne.symm hm)
  have hprev : prevRev { d with cur := d.cur.set n (.one ne), cache := d.cache.set n o } = prevRev d := prevRev_eq rfl h.past
  have hfx : firstXrefStreamNum { d with cur := d.cur.set n (.one ne), cache := d.cache.set n o } = firstXrefStreamNum d :=
    firstX_eq rfl h.past
  refine ⟨?_, by simp [hlen], ?_, ⟨e0, by simp only; rw [hc 0 (by omega)]; exact z1, z2⟩, h.past, by rw [hfx]; exact h.first, h.opened,
    ?_, ?_, ?_, h.chain, h.bound, h.ends, ?_, h.some_sec, h.index, h.bytes, h.len, ?_, ?_, ?_, ?_⟩
  · -- coherent
    intro m e c hm he hdel henv' hcache ce stm objs hce hp hps
    simp only at he hcache hce hp
    by_cases hmn : m = n
    · subst hmn
      rw [hcn] at he
      cases he
      rw [henv] at henv'
      cases henv'
    rw [hc m hmn] at he
    rw [hk m hmn] at hcache
    have hcn' : c ≠ n := by
      rintro rfl
      exact hcont m e he henv'
    rw [hc c hcn'] at hce
    obtain ⟨q1, q2, q3, ⟨o', q4, q5⟩, q6, q7⟩ := h.coh m e c hm he hdel henv' hcache ce stm objs hce hp hps
    refine ⟨q1, q2, q3, ⟨o', by simp only; rw [hk c hcn']; exact q4, q5⟩, q6, ?_⟩
    intro x hx
    obtain ⟨k, e', o', r1, r2, r3, r4, r5, r6, r7⟩ := q7 x hx
    have hkn : k ≠ n := by
      rintro rfl
      rw [h1] at r3
      cases r3
      exact hsib _ c h1 r5 m e hmn he henv' hcache
    exact ⟨k, e', o', r1, r2, by simp only; rw [hc k hkn]; exact r3, r4, r5, by simp only; rw [hk k hkn]; exact r6, r7⟩
  · intro m es hm he
    simp only at he
    by_cases hmn : m = n
    · subst hmn
      rw [hcn] at he
      cases he
    · rw [hc m hmn] at he
      exact h.plain m es hm he
  · intro hN
    rw [hprev]
    simp only
    rw [hc N (Ne.symm hnN)]
    exact h.own hN
  · intro m e hm he hne'
    rw [hprev] at hne'
    simp only at he hne'
    by_cases hmn : m = n
    · subst hmn
      rw [hcn] at he
      cases he
      exact henv
    · rw [hc m hmn] at he hne'
      exact h.direct m e hm he hne'
  · intro m e hm he hdel hne'
    rw [hprev] at hne'
    simp only at he hne' ⊢
    by_cases hmn : m = n
    · subst hmn
      rw [hcn] at he
      cases he
      refine ⟨o, getElem?_set_eq' _ _ h2, ?_⟩
      rcases ho with rfl | ho
      · rw [← hne] at hdel
        simp [newEntry] at hdel
      · exact ho
    · rw [hc m hmn] at he hne'
      rw [hk m hmn]
      exact h.pending m e hm he hdel hne'
  · simp only
    rw [hk 0 (by omega)]
    exact h.root
  · rw [hprev]
    simp only [List.length_set]
    exact h.short
  · intro m p e hm hp he
    rw [hprev] at hp
    simp only at he
    by_cases hmn : m = n
    · subst hmn
      rw [hcn] at he
      cases he
      exact .inr (hver p hp)
    · rw [hc m hmn] at he
      exact h.fresh m p e hm hp he
  · intro m hm hh
    simp only at hh
    by_cases hmn : m = n
    · subst hmn
      rw [hcn] at hh
      rcases hh with hh | hh <;> cases hh
    · rw [hc m hmn] at hh
      exact h.never m hm hh
  · intro m e hm hN he hdel heq
    rw [hprev] at heq ⊢
    simp only at he heq ⊢
    by_cases hmn : m = n
    · subst hmn
      rw [hcn] at he
      cases he
      exfalso
      rw [hcn] at heq
      have := hver _ heq
      omega
    · rw [hc m hmn] at he heq
      obtain ⟨v, q1, q2⟩ := h.live m e hm hN he hdel heq
      refine ⟨v, ?_, by rw [hk m hmn]; exact q2⟩
      refine held_edit q1 fun c hcc => ⟨hc c ?_, rfl⟩
      rintro rfl
      exact hcont m e he hcc

/-- What is known of the cross-reference streams written in a session: they can be read again. -/
def XsOk [Zlib] (T0 : Dict) (N : Nat) (out : Bytes) : Prop :=
  N ≠ 0 → ∀ p t content enc, PointsAt out p N 0 (.stream t content enc) → encodeStream content t = .ok enc →
    XrefContent t content → WF false false (.dict t) = true → (∀ k, ¬ FileKey k → Dict.get? t k = Dict.get? T0 k) →
    (Parms T0 → Dict.get? t b!"/DecodeParms" = none) →
    (∃ m, m < out.length ∧ Dict.get? t b!"/W" = some (.list [.int 1, .int (xrefWidth m), .int (xrefWidth m)])) →
    Storable (.stream t content enc)

theorem XsOk.prefix [Zlib] {T0 : Dict} {N : Nat} {F rest : Bytes} (h : XsOk T0 N (F ++ rest)) : XsOk T0 N F :=
  fun hN p t content enc hp h1 h2 h3 h4 h5 ⟨m, h6, h7⟩ => h hN p t content enc (PointsAt.append hp rest) h1 h2 h3 h4 h5
    ⟨m, by simp; omega, h7⟩

/-- What a commit does. -/
theorem commitX_built [Zlib] {d d' : Doc} {F : Bytes} {secs : List XSec} {N : Nat} {T0 : Dict} (h : FiledX d F secs N T0)
    (hch : changes d ≠ []) (hc : commit d = .ok d') :
    ∃ (t t2 t1 : Dict) (idx : Rev) (new : Bytes) (i0 : Entry) (cache' : List Obj), d.cache[0]? = some (.dict t) ∧
      buildRevision (changes d) d.cur
        (d.cache.set 0 (.dict (Dict.set (if N = 0 then t else delDecodeParms t) b!"/Size" (.int d.cur.length)))) F.length N
        = .ok (new, idx, cache') ∧
      cache'[0]? = some (.dict t2) ∧ nextTrailer idx t2 = .ok t1 ∧ i0.deleted = false ∧ i0.xrefTablePos = none ∧
      (i0.xrefStreamNum = none ∨ i0.xrefStreamNum = some (-1)) ∧
      d' = { cur := .one i0 :: idx.drop 1, past := idx :: d.past, cache := cache'.set 0 (.dict t1),
             curData := { fdata := .merged d.curData.fdata F.length new },
             pastData := { fdata := .merged d.curData.fdata F.length new, bdata := some new, eofCut := none } :: d.pastData } := by
  obtain ⟨p, cur, cache, data, t0, t1, h1, h2, h3, h4, rfl⟩ := commit_inv hc hch
  obtain ⟨x, hx1, hx2⟩ := h.first
  have hprep : ∃ t : Dict, d.cache[0]? = some (.dict t) ∧ p.cur = d.cur ∧
      p.cache = d.cache.set 0 (.dict (Dict.set (if N = 0 then t else delDecodeParms t) b!"/Size" (.int d.cur.length))) ∧ p.xnum = N ∧
      p.index0 = nextIndex0 (d.past.length + 1) N := by
    unfold prepareCommit at h1
    obtain ⟨q0, hq, k⟩ := bind_eq_ok h1
    obtain ⟨y, hy, k⟩ := bind_eq_ok k
    obtain ⟨⟨pc, px⟩, hpx, k⟩ := bind_eq_ok k
    simp only [pure, Except.pure, Except.ok.injEq] at k
    subst k
    rw [hx1] at hy
    cases hy
    rw [hx2] at hpx
    by_cases hN : N = 0
    · subst hN
      rw [if_pos (by rfl)] at hpx
      cases hpx
      refine ⟨q0, cacheDict_ok hq, rfl, ?_, rfl, by rw [hx2]⟩
      simp only [hx2]
      rfl
    · rw [if_neg (by omega)] at hpx
      unfold xrefStreamEntry at hpx
      rw [if_neg (by omega), if_neg (by omega)] at hpx
      cases hpx
      refine ⟨q0, cacheDict_ok hq, rfl, ?_, rfl, by rw [hx2]⟩
      simp only [hx2]
      rw [if_neg (by omega), if_neg hN]
  obtain ⟨t, p1, p2, p3, p4, p5⟩ := hprep
  have hlt0 := lt_of_getElem? p1
  unfold writeRevision at h2
  rw [h.opened] at h2
  simp only at h2
  cases hpast : d.past with
  | nil => exact absurd hpast h.past
  | cons r rs =>
    rw [hpast] at h2
    simp only at h2
    obtain ⟨idx, hidx, h2⟩ := bind_eq_ok h2
    obtain ⟨⟨new, cur', cache'⟩, hb, h2⟩ := bind_eq_ok h2
    simp only [Except.ok.injEq, Prod.mk.injEq] at h2
    obtain ⟨rfl, rfl, rfl⟩ := h2
    rw [h.index] at hidx
    cases hidx
    rw [p2, p3, p4] at hb
    refine ⟨t, t0, t1, cur', new, p.index0, cache', p1, hb, h3, h4, by rw [p5]; rfl, by rw [p5]; rfl, ?_, ?_⟩
    · rw [p5]
      simp only [nextIndex0]
      split
      · exact .inl rfl
      · exact .inr rfl
    · simp [h.opened]

theorem changed_num {d : Doc} : ∀ c ∈ changes d, 1 ≤ c.num := by
  intro c hc
  obtain ⟨e, h, -⟩ := mem_changes.1 hc
  exact h

theorem changed_ne {d : Doc} : ∀ c ∈ changes d, (prevRev d)[c.num]? ≠ d.cur[c.num]? :=
  fun c hc hh => not_changed hh c hc rfl

/-- A live object that is not written is the one of the last revision. -/
theorem unchangedX [Zlib] {d : Doc} {F : Bytes} {secs : List XSec} {N : Nat} {T0 : Dict} (h : FiledX d F secs N T0) {n : Nat} {e : Entry}
    (hn : 1 ≤ n) (he : d.cur[n]? = some (.one e)) (hdel : e.deleted = false)
    (hno : ∀ c ∈ changes d, c.act ≠ .d → c.num ≠ n) : (prevRev d)[n]? = d.cur[n]? := by
  refine Classical.byContradiction fun hne => ?_
  have : ∃ k, changeOf (prevRev d) n e = some k ∧ k ≠ .d := by
    unfold changeOf
    rw [he] at hne
    rcases hp : (prevRev d)[n]? with _ | sl
    · exact ⟨_, rfl, by simp⟩
    · simp only
      rw [if_neg (by rintro rfl; exact hne hp)]
      cases sl with
      | hole => exact ⟨_, rfl, by simp⟩
      | many => exact ⟨_, rfl, by simp⟩
      | one p => exact ⟨.u, by simp [hdel], by simp⟩
  obtain ⟨k, ha, had⟩ := this
  obtain ⟨e0, z1, -, -, z4⟩ := h.zero
  refine hno ⟨e.gen, n, k⟩ (mem_changes.2 ⟨e, hn, he, rfl, ?_, ha⟩) had rfl
  rw [z1]
  simp only [Option.bind_some, Slot.xrefStreamNum?]
  rcases z4 with z4 | z4
  · rw [z4]; simp
  · rw [z4]
    intro hh
    have := Option.some.inj hh
    omega

theorem revOutX [Zlib] {d : Doc} {F : Bytes} {secs : List XSec} {N : Nat} {T0 : Dict} (h : FiledX d F secs N T0) {t : Dict}
    (ht : d.cache[0]? = some (.dict t)) {new : Bytes} {idx : Rev} {cache' : List Obj}
    (hb : buildRevision (changes d) d.cur
        (d.cache.set 0 (.dict (Dict.set (if N = 0 then t else delDecodeParms t) b!"/Size" (.int d.cur.length)))) F.length N
        = .ok (new, idx, cache')) (hxs : XsOk T0 N (F ++ new)) :
    ∃ s t', RevOut (changes d) d.cur
        (d.cache.set 0 (.dict (Dict.set (if N = 0 then t else delDecodeParms t) b!"/Size" (.int d.cur.length)))) F new N idx cache' s
        (Dict.set (if N = 0 then t else delDecodeParms t) b!"/Size" (.int d.cur.length)) t' := by
  obtain ⟨t0, r1, r2, r3, r4, r5, r6, r7⟩ := h.root
  rw [ht] at r1
  cases r1
  have hlt0 := lt_of_getElem? ht
  have hdp : WF false false (.dict (if N = 0 then t else delDecodeParms t)) = true := by
    split
    · exact r2
    · unfold delDecodeParms
      split <;> (try split) <;> first | exact r2 | exact wf_del r2
  have hwfS : WF false false (.dict (Dict.set (if N = 0 then t else delDecodeParms t) b!"/Size" (.int d.cur.length))) = true :=
    wf_set hdp (by decide) rfl
  have hemb : ∀ c ∈ changes d, c.act ≠ .d → ∀ e, d.cur[c.num]? = some (.one e) → e.envNum = none :=
    fun c hc _ e he => h.direct _ e (changed_num c hc) he (changed_ne c hc)
  have hwf : ∀ t', (d.cache.set 0 (.dict (Dict.set (if N = 0 then t else delDecodeParms t) b!"/Size" (.int d.cur.length))))[0]? =
      some (.dict t') → WF false false (.dict t') = true := by
    intro t' ht'
    rw [getElem?_set_eq' _ _ hlt0] at ht'
    cases ht'
    exact hwfS
  by_cases hN : N = 0
  · subst hN
    obtain ⟨s, t', hr⟩ := revOut_table F hb (changes_nodup d) changed_num hemb hwf
    have := hr.root
    rw [getElem?_set_eq' _ _ hlt0] at this
    cases this
    exact ⟨s, _, hr⟩
  · obtain ⟨en, o1, o2, o3, o4⟩ := h.own hN
    obtain ⟨s, t1, t', hr⟩ := revOut_stream F hb hN (changes_nodup d) changed_num
      (fun c hc hcn => not_changed o4 c hc hcn) hemb hwf
      (by obtain ⟨e0, z1, -, z3, -⟩ := h.zero
          intro e he
          rw [z1] at he
          cases he
          exact z3)
      (by intro p t' content enc q1 q2 q3 q4 q5 q6
          have q5 := q5 _ (getElem?_set_eq' _ _ hlt0)
          refine hxs hN p t' content enc q1 q2 q3 q4 ?_ ?_ q6
          · intro k hk
            unfold FileKey MovingKey at hk
            rw [q5 k (fun e => hk (.inr (.inl e))), Dict.get?_set, if_neg (fun e => hk (.inl (.inl e))), if_neg hN,
              delDecodeParms_get _ _ (fun e => hk (.inr (.inr e))), r5 k hk]
          · intro hp
            have hx : ¬ XrefKey b!"/DecodeParms" := by unfold XrefKey; decide
            rw [q5 _ hx, Dict.get?_set, if_neg (by decide), if_neg hN]
            apply parms_del
            exact .inl (r6 hN hp))
    have := hr.root
    rw [getElem?_set_eq' _ _ hlt0] at this
    cases this
    exact ⟨s, _, hr⟩

theorem filedX_commit [Zlib] {d d' : Doc} {F : Bytes} {secs : List XSec} {N : Nat} {T0 : Dict} (h : FiledX d F secs N T0)
    (hch : changes d ≠ []) (hc : commit d = .ok d') (hxs : ∀ out, stored d' = .ok out → XsOk T0 N out) :
    ∃ (b : Bytes) (s : XSec), FiledX d' (F ++ b) (s :: secs) N T0 ∧
      (∀ (g : Int) (n : Nat), 1 ≤ n → n ≠ N → view d' (.ref g n) = view d (.ref g n)) ∧
      d'.cur.length = d.cur.length ∧
      ∀ (n : Nat), 1 ≤ n → n ≠ N → (∀ e, d.cur[n]? = some (.one e) → ∃ e', d'.cur[n]? = some (.one e') ∧ e'.deleted = e.deleted) ∧
        ((d.cur[n]? = none ∨ d.cur[n]? = some .hole) → d'.cur[n]? = d.cur[n]?) := by
  obtain ⟨t, t2, t1, idx, new, i0, cache', c1, c2, c3, c4, c5, c6, c7, rfl⟩ := commitX_built h hch hc
  have hbytes := stored_commit (d := d) (d' := Doc.mk (.one i0 :: idx.drop 1) (idx :: d.past) (cache'.set 0 (.dict t1))
      { fdata := .merged d.curData.fdata F.length new }
      ({ fdata := .merged d.curData.fdata F.length new, bdata := some new, eofCut := none } :: d.pastData))
      (x := { fdata := .merged d.curData.fdata F.length new, bdata := some new, eofCut := none }) h.len rfl h.opened rfl rfl rfl rfl h.bytes
  obtain ⟨s, t', R⟩ := revOutX h c1 c2 (hxs _ hbytes)
  obtain ⟨t0, r1, r2, r3, r4, r5, r6, r7⟩ := h.root
  rw [c1] at r1
  cases r1
  have hlt0 := lt_of_getElem? c1
  -- the cache
  have hcc : cache' = d.cache.set 0 (.dict t') := by
    rw [R.root', List.set_set]
  subst hcc
  rw [getElem?_set_eq' _ _ hlt0] at c3
  have htt : t' = t2 := by simpa using c3
  subst htt
  have hnd := (wf_dict_iff.1 R.wf).2
  obtain ⟨e0, hd1, hd2⟩ := R.head
  have ht1 : t1 = Dict.del (Dict.set t' b!"/Prev" (.int s.pos)) b!"/XRefStm" := by
    unfold nextTrailer prevEntry at c4
    rw [slotAt_eq hd1] at c4
    simp only [bind, Except.bind, pure, Except.pure, hd2] at c4
    cases c4
    rfl
  have hx : ∀ k, k = b!"/XRefStm" ∨ k = b!"/Prev" → Dict.get? t' k = Dict.get? t k := by
    intro k hk
    rw [R.keys k (by unfold XrefKey; rcases hk with rfl | rfl <;> decide), Dict.get?_set, if_neg (by rcases hk with rfl | rfl <;> decide)]
    split
    · rfl
    · exact delDecodeParms_get _ _ (by rcases hk with rfl | rfl <;> decide)
  have hkeys : ∀ k, ¬ FileKey k → Dict.get? t' k = Dict.get? t k := by
    intro k hk
    unfold FileKey MovingKey at hk
    rw [R.keys k (fun e => hk (.inr (.inl e))), Dict.get?_set, if_neg (fun e => hk (.inl (.inl e)))]
    split
    · rfl
    · exact delDecodeParms_get _ _ (fun e => hk (.inr (.inr e)))
  have hcur : ∀ n, 1 ≤ n → (Slot.one i0 :: idx.drop 1)[n]? = idx[n]? := by
    intro n hn
    obtain ⟨k, rfl⟩ : ∃ k, n = k + 1 := ⟨n - 1, by omega⟩
    rw [List.getElem?_cons_succ, List.getElem?_drop, Nat.add_comm]
  have hcache : ∀ n, 1 ≤ n → ((d.cache.set 0 (.dict t')).set 0 (.dict t1))[n]? = d.cache[n]? := by
    intro n hn
    rw [getElem?_set_ne' _ _ (by omega), getElem?_set_ne' _ _ (by omega)]
  have hidxlen := R.len
  obtain ⟨ez, z1, -⟩ := h.zero
  have hpos := lt_of_getElem? z1
  have hchainEnv : EnvOk (listedX secs) := by
    have hc := h.chain
    have hs := h.some_sec
    cases secs with
    | nil => exact absurd rfl hs
    | cons a l => exact hc.2.2.2.2.1
  -- objects that stay
  have hstay : ∀ (n : Nat), 1 ≤ n → n ≠ N → (prevRev d)[n]? = d.cur[n]? → idx[n]? = d.cur[n]? ∧ lastFor n s.objs = none := by
    intro n hn hN hp
    have hno : ∀ c ∈ changes d, c.act ≠ .d → c.num ≠ n := fun c hc _ => not_changed hp c hc
    refine ⟨R.same n hn hN hno, lastFor_none ?_⟩
    intro e he hen
    obtain ⟨-, ⟨k, -⟩ | ⟨c, k1, k2, k3⟩⟩ := R.objs e he
    · exact hN (by omega)
    · exact hno c k1 k2 (by omega)
  have hlast : ∀ n, lastFor n (listedX (s :: secs)) = (lastFor n s.objs).or (lastFor n (listedX secs)) := by
    intro n
    rw [listedX_cons, lastFor_append]
  have hheldAt : ∀ (n : Nat) (e : Entry) (p : Nat) (v : Obj), HeldAt F secs d.curData.fdata n e p v → lastFor n s.objs = none →
      HeldAt (F ++ new) (s :: secs) (.merged d.curData.fdata F.length new) n e p v := by
    intro n e p v hh hl
    refine ⟨hh.env, hh.pos, by have := hh.lt; rw [List.length_append]; omega, hh.reads.append new, ?_, ?_⟩
    · rw [parseIndirect_merged hh.pos (by have := hh.lt; omega)]
      exact hh.value
    · obtain ⟨le, k⟩ := hh.entry
      exact ⟨le, by rw [hlast, hl]; exact k.1, k.2⟩
  have hheld : ∀ (n : Nat) (e : Entry) (v : Obj), 1 ≤ n → n ≠ N → (prevRev d)[n]? = d.cur[n]? →
      FileHeld F secs d.curData.fdata (prevRev d) d.cur N n e v →
      FileHeld (F ++ new) (s :: secs) (.merged d.curData.fdata F.length new) idx (.one i0 :: idx.drop 1) N n e v := by
    intro n e v hn hN hp hh
    rcases hh with ⟨p, hh⟩ | ⟨c, ce, p, stm, ms, j1, j2, j3, j4, j5, j6, j7, j8, j9, j10, j11, le, j12, j13⟩
    · exact .inl ⟨p, hheldAt n e p v hh (hstay n hn hN hp).2⟩
    · obtain ⟨a1, a2⟩ := hstay c j2 j3 j5
      obtain ⟨-, b2⟩ := hstay n hn hN hp
      refine .inr ⟨c, ce, p, stm, ms, j1, j2, j3, by rw [hcur c j2, a1]; exact j4, by rw [hcur c j2], j6, hheldAt c ce p stm j7 a2, j8, j9, j10,
        ?_, le, by rw [hlast, b2]; exact j12, j13⟩
      intro x hx
      obtain ⟨k, k1, k2, le', k3⟩ := j11 x hx
      refine ⟨k, k1, k2, ?_⟩
      rw [hlast, k3]
      cases lastFor k s.objs with
      | none => exact ⟨_, rfl⟩
      | some y => exact ⟨_, rfl⟩
  -- cells of the written revision
  have hcell : ∀ (n : Nat) (e : Entry), 1 ≤ n → idx[n]? = some (.one e) → ∃ e', d.cur[n]? = some (.one e') ∧ e.envNum = e'.envNum ∧
      e.deleted = e'.deleted ∧ e.ver = e'.ver := by
    intro n e hn he
    by_cases hcn : ∃ c ∈ changes d, c.act ≠ .d ∧ c.num = n
    · obtain ⟨c, hc, ha, rfl⟩ := hcn
      obtain ⟨en, obj, off, next, le, k1, k2, -⟩ := R.placed c hc ha
      rw [he] at k2
      cases k2
      exact ⟨en, k1, rfl, rfl, rfl⟩
    by_cases hN : n = N
    · subst hN
      obtain ⟨en, p, next, k1, k2⟩ := R.own (by omega)
      rw [he] at k2
      cases k2
      exact ⟨en, k1, rfl, rfl, rfl⟩
    · rw [R.same n hn hN (fun c hc ha hh => hcn ⟨c, hc, ha, hh⟩)] at he
      exact ⟨e, he, rfl, rfl, rfl⟩
  have hemb : ∀ (n : Nat) (e : Entry) (c : Nat), 1 ≤ n → idx[n]? = some (.one e) → e.deleted = false → e.envNum = some c →
      d.cur[n]? = some (.one e) := by
    intro n e c hn he hdel henv
    obtain ⟨e', k1, k2, k3, -⟩ := hcell n e hn he
    obtain ⟨q1, q2, -⟩ := filedX_emb h hn k1 (by rw [← k3]; exact hdel) (by rw [← k2]; exact henv)
    rw [(hstay n hn q2 q1).1] at he
    exact he
  suffices key : FiledX (Doc.mk (.one i0 :: idx.drop 1) (idx :: d.past) ((d.cache.set 0 (.dict t')).set 0 (.dict t1))
      { fdata := .merged d.curData.fdata F.length new }
      ({ fdata := .merged d.curData.fdata F.length new, bdata := some new, eofCut := none } :: d.pastData)) (F ++ new) (s :: secs) N T0 by
    refine ⟨new, s, key, ?_, by simp only [List.length_cons, List.length_drop]; omega, ?_⟩
    rotate_left
    · intro n hn hN
      simp only [hcur n hn]
      by_cases hcn : ∃ c ∈ changes d, c.act ≠ .d ∧ c.num = n
      · obtain ⟨c, hc, ha, rfl⟩ := hcn
        obtain ⟨en, obj, off, next, le, k1, k2, -⟩ := R.placed c hc ha
        rw [k1, k2]
        refine ⟨?_, ?_⟩
        · intro e he
          cases he
          exact ⟨_, rfl, rfl⟩
        · rintro (hh | hh) <;> cases hh
      · rw [R.same n hn hN (fun c hc ha hh => hcn ⟨c, hc, ha, hh⟩)]
        exact ⟨fun e he => ⟨e, he, rfl⟩, fun _ => rfl⟩
    intro g n hn hN
    rw [view_spec key.coh, view_spec h.coh]
    simp only [slotAt, cacheAt, hcur n hn, hcache n hn]
    by_cases hcn : ∃ c ∈ changes d, c.act ≠ .d ∧ c.num = n
    · obtain ⟨c, hc, ha, rfl⟩ := hcn
      obtain ⟨en, obj, off, next, le, k1, k2, -⟩ := R.placed c hc ha
      rw [k1, k2]
      simp only [orRaise, bind, Except.bind, Slot.isDeleted, pure, Except.pure, Pdf.placed]
      cases hdel : en.deleted with
      | true => simp only [if_true]
      | false =>
        obtain ⟨o, ho, hk⟩ := h.pending _ _ hn k1 hdel (changed_ne c hc)
        simp only [ho, Bool.false_eq_true, if_false, if_pos (keepable_ne hk)]
    · rw [R.same n hn hN (fun c hc ha hh => hcn ⟨c, hc, ha, hh⟩)]
      rcases hs : d.cur[n]? with _ | ⟨_ | e | es⟩
      · rfl
      · rfl
      · simp only [orRaise, bind, Except.bind, Slot.isDeleted, pure, Except.pure]
        cases hdel : e.deleted with
        | true => simp only [if_true]
        | false =>
          have hp := unchangedX h hn hs hdel (fun c hc ha hh => hcn ⟨c, hc, ha, hh⟩)
          obtain ⟨v, q1, -⟩ := h.live n e hn hN hs hdel hp
          rw [held_value hn q1, held_value hn (hheld n e v hn hN hp q1)]
      · exact absurd hs (h.plain n es hn)
  refine ⟨?_, ?_, ?_, ⟨i0, rfl, c5, c6, c7⟩, by simp, ?_, rfl, ?_, ?_, ?_, ?_, ?_, ?_, ?_, by simp, ?_, hbytes, ?_, ?_, ?_, ?_, ?_⟩
  · -- coherent
    intro n e c hn he hdel henv hca ce stm objs hce hp hps
    simp only at he hca hce hp
    have hn1 : 1 ≤ n := by omega
    rw [hcur n hn1] at he
    rw [hcache n hn1] at hca
    have hed := hemb n e c hn1 he hdel henv
    obtain ⟨q1, q2, v, hv, -⟩ := filedX_emb h hn1 hed hdel henv
    rcases hv with ⟨p, hv⟩ | ⟨c', ce', p, stm', ms, j1, j2, j3, j4, j5, j6, j7, j8, -⟩
    · rw [hv.env] at henv; cases henv
    rw [henv] at j1
    cases j1
    rw [hcur c j2, (hstay c j2 j3 j5).1] at hce
    have hce0 := hce
    rw [j4] at hce
    cases hce
    rw [parseIndirect_merged j7.pos (by have := j7.lt; omega)] at hp
    obtain ⟨w1, w2, w3, ⟨o', w4, w5⟩, w6, w7⟩ := h.coh n e c hn hed hdel henv hca ce stm objs hce0 hp hps
    refine ⟨w1, w2, w3, ⟨o', by simp only; rw [hcache c j2]; exact w4, w5⟩, w6, ?_⟩
    intro x hx
    obtain ⟨k, e', o', y1, y2, y3, y4, y5, y6, y7⟩ := w7 x hx
    have hk1 : 1 ≤ k := by omega
    obtain ⟨u1, u2, -⟩ := filedX_emb h hk1 y3 y4 y5
    exact ⟨k, e', o', y1, y2, by simp only; rw [hcur k hk1, (hstay k hk1 u2 u1).1]; exact y3, y4, y5,
      by simp only; rw [hcache k hk1]; exact y6, y7⟩
  · have := h.cells
    simp only [List.length_cons, List.length_drop, List.length_set]
    omega
  · intro n es hn he
    simp only at he
    rw [hcur n hn] at he
    by_cases hcn : ∃ c ∈ changes d, c.act ≠ .d ∧ c.num = n
    · obtain ⟨c, hc, ha, rfl⟩ := hcn
      obtain ⟨en, obj, off, next, le, k1, k2, -⟩ := R.placed c hc ha
      rw [he] at k2
      cases k2
    by_cases hN : n = N
    · subst hN
      obtain ⟨en, p, next, k1, k2⟩ := R.own (by omega)
      rw [he] at k2
      cases k2
    · rw [R.same n hn hN (fun c hc ha hh => hcn ⟨c, hc, ha, hh⟩)] at he
      exact h.plain n es hn he
  · -- the number of the cross-reference stream
    obtain ⟨x, k1, k2⟩ := h.first
    refine ⟨x, ?_, k2⟩
    rw [← k1]
    have : ∀ cache cd pd cur, (Doc.mk cur (idx :: d.past) cache cd pd).firstRev = d.firstRev := by
      intro cache cd pd cur
      unfold Doc.firstRev
      simp only
      cases hq : d.past with
      | nil => exact absurd hq h.past
      | cons r rs => simp [List.getLastD_eq_getLast?, List.getLast?_cons]
    unfold firstXrefStreamNum
    rw [this]
  · intro hN
    obtain ⟨en, p, next, k1, k2⟩ := R.own hN
    obtain ⟨e, o1, o2, o3, -⟩ := h.own hN
    rw [k1] at o1
    cases o1
    refine ⟨placed en p next, ?_, o2, o3, ?_⟩
    · simp only; rw [hcur N (by omega)]; exact k2
    · simp only [prevRev]
      rw [hcur N (by omega)]
  · intro n e hn he hne
    exfalso
    apply hne
    simp only [prevRev]
    rw [hcur n hn]
  · intro n e hn he hdel hne
    exfalso
    apply hne
    simp only [prevRev]
    rw [hcur n hn]
  · -- the sections
    refine ⟨R.sec, ?_, ?_, ?_, ?_, h.chain.append new⟩
    · rw [R.tr, get?_norm hnd, hx _ (.inl rfl), r3]; rfl
    · rw [R.tr, get?_norm hnd, hx _ (.inr rfl), r4]
      cases secs with
      | nil => rfl
      | cons s' l => rfl
    · refine .inl fun s' hm => ?_
      have hsec := h.chain.mem s' hm
      have := hsec.tp
      have := hsec.room
      have := hsec.pos
      have := R.sec.tp
      have := R.after
      omega
    · intro n le env hn hle henv
      have hl : lastFor n s.objs = none := by
        rcases hl : lastFor n s.objs with _ | y
        · rfl
        · rw [hlast, hl] at hle
          cases hle
          rw [(R.objs _ (lastFor_mem hl).1).1] at henv
          cases henv
      rw [hlast, hl] at hle
      obtain ⟨ce, k1, k2⟩ := hchainEnv n le env hn hle henv
      rcases hl' : lastFor env s.objs with _ | y
      · exact ⟨ce, by rw [hlast, hl', k1]; rfl, k2⟩
      · exact ⟨y, by rw [hlast, hl']; rfl, (R.objs _ (lastFor_mem hl').1).1⟩
  · intro e he henv
    rw [listedX_cons, List.mem_append] at he
    rcases he with he | he
    · obtain ⟨e', k1, k2⟩ := h.bound e he henv
      exact ⟨e', by rw [listedX_cons]; exact List.mem_append_left _ k1, k2⟩
    · exact absurd (R.objs e he).1 henv
  · intro s' hs''
    cases hs''
    refine ⟨.inl (R.ends.trans (List.suffix_append _ _)), fun s' hm => ?_⟩
    have hsec := h.chain.mem s' hm
    have := hsec.tp
    have := hsec.room
    have := hsec.pos
    have := R.sec.tp
    have := R.after
    omega
  · refine ⟨t1, getElem?_set_eq' _ _ (by simpa using hlt0), ?_, ?_, ?_, ?_, ?_, ?_⟩
    · rw [ht1]
      exact wf_del (wf_set R.wf (by decide) rfl)
    · rw [ht1, Dict.get?_del, if_pos rfl]
    · rw [ht1, Dict.get?_del, if_neg (by decide), Dict.get?_set, if_pos rfl]
      rfl
    · intro k hk
      have hk' := hk
      unfold FileKey MovingKey at hk'
      rw [ht1, Dict.get?_del, if_neg (fun e => hk' (.inl (.inr (.inr e)))), Dict.get?_set, if_neg (fun e => hk' (.inl (.inr (.inl e)))),
        hkeys k hk, r5 k hk]
    · intro hN hp
      rw [ht1, Dict.get?_del, if_neg (by decide), Dict.get?_set, if_neg (by decide),
        R.keys b!"/DecodeParms" (by unfold XrefKey; decide), Dict.get?_set,
        if_neg (by decide), if_neg hN]
      exact parms_del (.inl (r6 hN hp))
    · intro s' hs'' k hk
      cases hs''
      have hk' := hk
      unfold FileKey MovingKey at hk'
      have hh := sameOpt_norm R.wf R.tr k
      rw [ht1, Dict.get?_del, if_neg (fun e => hk' (.inl (.inr (.inr e)))), Dict.get?_set, if_neg (fun e => hk' (.inl (.inr (.inl e))))]
      exact hh
  · unfold revisionIndex
    simp only [List.reverse_cons]
    rw [revisionIndexLoop_last _ _ _ _ _ h.index rfl rfl, List.length_append]
  · simp [h.len]
  · simp only [prevRev, List.length_cons, List.length_drop]
    omega
  · intro n p e hn hp he
    left
    simp only [prevRev] at hp he
    rw [hcur n hn, hp] at he
    cases he
    rfl
  · -- numbers that are not in the file
    intro n hn hh
    simp only at hh
    rw [hcur n hn] at hh
    have hno : ∀ c ∈ changes d, c.act ≠ .d → c.num ≠ n := by
      rintro c hc ha rfl
      obtain ⟨en, obj, off, next, le, -, k2, -⟩ := R.placed c hc ha
      rw [k2] at hh
      rcases hh with hh | hh <;> cases hh
    have hN : n ≠ N := by
      rintro rfl
      obtain ⟨en, p, next, -, k2⟩ := R.own (by omega)
      rw [k2] at hh
      rcases hh with hh | hh <;> cases hh
    rw [R.same n hn hN hno] at hh
    rw [hlast, h.never n hn hh, lastFor_none]
    · rfl
    intro e he hen
    obtain ⟨-, ⟨k, -⟩ | ⟨c, k1, k2, k3⟩⟩ := R.objs e he
    · exact hN (by omega)
    · exact hno c k1 k2 (by omega)
  · -- live objects
    intro n e hn hN he hdel _
    simp only [prevRev] at he ⊢
    rw [hcur n hn] at he
    rw [hcache n hn]
    by_cases hcn : ∃ c ∈ changes d, c.act ≠ .d ∧ c.num = n
    · obtain ⟨c, hc, ha, rfl⟩ := hcn
      obtain ⟨en, obj, off, next, le, k1, k2, k3, ⟨o, k4, k5⟩, k6, k7, k8⟩ := R.placed c hc ha
      rw [he] at k2
      cases k2
      rw [getElem?_set_ne' _ _ (by omega)] at k4
      obtain ⟨o', ho', hk1, hk2⟩ := h.pending _ _ hn k1 hdel (changed_ne c hc)
      rw [k4] at ho'
      cases ho'
      rw [hk2, if_neg (by simp)] at k5
      subst k5
      refine ⟨readBack obj, .inl ⟨off, ?_, rfl, pointsAt_lt k6, readsAs_of k6 hk1, ?_, le, ?_, ?_, k8⟩, ?_⟩
      · exact h.direct _ en hn k1 (changed_ne c hc)
      · exact parseIndirect_written (readsAfter_merged _ _ _) rfl rfl k3 hk1 k6
      · rw [hlast, k7]; rfl
      · exact (R.objs le (lastFor_mem k7).1).1
      · intro c' hc'
        rw [k4] at hc'
        cases hc'
        exact .inr (.inr (pyEq_readBack hk1))
    · have hno : ∀ c ∈ changes d, c.act ≠ .d → c.num ≠ n := fun c hc ha hh => hcn ⟨c, hc, ha, hh⟩
      rw [R.same n hn hN hno] at he
      have hp := unchangedX h hn he hdel hno
      obtain ⟨v, q1, q2⟩ := h.live n e hn hN he hdel hp
      exact ⟨v, hheld n e v hn hN hp q1, q2⟩

/-- A number whose cell, cached value and container are the same shows the same value. -/
theorem view_frame [Zlib] {d d' : Doc} (hc : Coherent d) (hc' : Coherent d') {n : Nat} (hn : 1 ≤ n) (h1 : d'.cur[n]? = d.cur[n]?)
    (h2 : d'.cache[n]? = d.cache[n]?) (h3 : d'.curData.fdata = d.curData.fdata) (h4 : ∀ es, d.cur[n]? ≠ some (.many es))
    (h5 : ∀ e c, d.cur[n]? = some (.one e) → e.deleted = false → e.envNum = some c → d'.cur[c]? = d.cur[c]?) (g : Int) :
    view d' (.ref g n) = view d (.ref g n) := by
  rw [view_spec hc', view_spec hc]
  simp only [slotAt, cacheAt, h1, h2, h3]
  rcases hs : d.cur[n]? with _ | ⟨_ | e | es⟩
  · rfl
  · rfl
  · simp only [orRaise, bind, Except.bind, Slot.isDeleted, pure, Except.pure]
    cases hdel : e.deleted with
    | true => simp only [if_true]
    | false =>
      have : fileValue d'.cur d.curData.fdata n (.one e) = fileValue d.cur d.curData.fdata n (.one e) := by
        unfold fileValue
        rw [if_neg (by omega), if_neg (by omega)]
        simp only [Slot.entry, bind, Except.bind]
        cases henv : e.envNum with
        | none => rfl
        | some c => simp only [entryAt, slotAt, h5 e c hs hdel henv]
      rw [this]
  · exact absurd hs (h4 es)

theorem viewX_add [Zlib] {d d' : Doc} {n : Nat} {o : Obj} {F : Bytes} {secs : List XSec} {N : Nat} {T0 : Dict} (h : FiledX d F secs N T0)
    (ho : Keepable o) (hs : addObject d o = .ok (d', n)) :
    n = d.cur.length ∧ d'.cur.length = d.cur.length + 1 ∧ (∀ g, view d' (.ref g n) = .ok o) ∧
      ∀ (g : Int) (m : Nat), 1 ≤ m → m ≠ n → view d' (.ref g m) = view d (.ref g m) := by
  have h' := filedX_add h ho hs
  obtain ⟨h1, h2, rfl⟩ := addObject_inv hs
  subst h1
  have hlen := h.cells
  refine ⟨rfl, by simp, ?_, ?_⟩
  · intro g
    refine view_cached (d := { d with cur := d.cur ++ [.one { num := d.cur.length, docVer := d.past.length }],
                                      cache := (d.cache ++ [Obj.null]).set d.cur.length o })
      (e := .one { num := d.cur.length, docVer := d.past.length }) ?_ rfl ?_ (keepable_ne ho) g
    · simp
    · simp only
      exact getElem?_set_eq' _ _ (by simp [hlen])
  · intro g m hm hmn
    refine view_frame h.coh h'.coh hm ?_ ?_ rfl (fun es => h.plain m es hm) ?_ g
    · simp only
      by_cases hlt : m < d.cur.length
      · rw [List.getElem?_append_left hlt]
      · rw [List.getElem?_eq_none (by simp; omega), List.getElem?_eq_none (by omega)]
    · simp only
      rw [getElem?_set_ne' _ _ (by omega)]
      by_cases hlt : m < d.cache.length
      · rw [List.getElem?_append_left hlt]
      · rw [List.getElem?_eq_none (by simp; omega), List.getElem?_eq_none (by omega)]
    · intro e c he hdel henv
      obtain ⟨-, -, v, hv, -⟩ := filedX_emb h hm he hdel henv
      rcases hv with ⟨p, hv⟩ | ⟨c', ce', p, stm', ms, j1, -, -, j2, -⟩
      · rw [hv.env] at henv; cases henv
      · rw [henv] at j1
        cases j1
        simp only
        rw [List.getElem?_append_left (lt_of_getElem? j2)]

theorem viewX_set [Zlib] {d d' : Doc} {n : Nat} {o : Obj} {F : Bytes} {secs : List XSec} {N : Nat} {T0 : Dict} (h : FiledX d F secs N T0)
    (hfit : FitAt N d (.set n o)) (hs : updateObject d n o = .ok d') :
    d'.cur.length = d.cur.length ∧ (∀ g, view d' (.ref g n) = .ok o) ∧
      ∀ (g : Int) (m : Nat), 1 ≤ m → m ≠ n → view d' (.ref g m) = view d (.ref g m) := by
  have h' := filedX_set h hfit hs
  obtain ⟨hn, hnN, ho, hcont, hsib⟩ := hfit
  obtain ⟨old, h1, h2, rfl⟩ := updateObject_inv hs
  have hlt := lt_of_getElem? h1
  refine ⟨by simp, ?_, ?_⟩
  · intro g
    rw [view_spec h'.coh]
    simp only
    rw [slotAt_eq (getElem?_set_eq' _ _ hlt), cacheAt_eq (getElem?_set_eq' _ _ h2)]
    simp only [bind, Except.bind, Slot.isDeleted, pure, Except.pure]
    rcases ho with rfl | ho
    · have : (newEntry old n d.past.length .null).deleted = true := rfl
      rw [this]
      rfl
    · rw [if_pos (keepable_ne ho)]
      simp
  · intro g m hm hmn
    refine view_frame h.coh h'.coh hm ?_ ?_ rfl (fun es => h.plain m es hm) ?_ g
    · simp only
      rw [getElem?_set_ne' _ _ (Ne.symm hmn)]
    · simp only
      rw [getElem?_set_ne' _ _ (Ne.symm hmn)]
    · intro e c he hdel henv
      simp only
      rw [getElem?_set_ne' _ _ ?_]
      rintro rfl
      exact hcont m e he henv

/-- Every operation is fit when its turn comes. -/
def FitOps [Zlib] (N : Nat) : Doc → List Op → Prop
  | _, [] => True
  | d, o :: l => FitAt N d o ∧ ∀ d', o.run d = .ok d' → FitOps N d' l

/-- The bytes of the file, whatever the objects are. -/
structure StoredAs (d : Doc) (F : Bytes) : Prop where
  past : d.past ≠ []
  len : d.past.length = d.pastData.length
  opened : d.curData.eofCut = none
  bytes : stored d = .ok F

theorem storedAs_eq {d d' : Doc} {F : Bytes} (h : StoredAs d F) (h1 : d'.past = d.past) (h2 : d'.pastData = d.pastData)
    (h3 : d'.curData = d.curData) : StoredAs d' F := by
  refine ⟨by rw [h1]; exact h.past, by rw [h1, h2]; exact h.len, by rw [h3]; exact h.opened, ?_⟩
  rw [← h.bytes]
  unfold stored Doc.data Doc.firstData
  rw [h1, h2, h3]

theorem storedAs_commit [Zlib] {d d' : Doc} {F : Bytes} (h : StoredAs d F) (hc : commit d = .ok d') : ∃ b, StoredAs d' (F ++ b) := by
  by_cases hch : changes d = []
  · rw [C21_noop d hch] at hc
    cases hc
    exact ⟨[], by rw [List.append_nil]; exact h⟩
  · obtain ⟨p, cur, cache, data, t0, t1, h1, h2, h3, h4, rfl⟩ := commit_inv hc hch
    unfold writeRevision at h2
    rw [h.opened] at h2
    simp only at h2
    cases hpast : d.past with
    | nil => exact absurd hpast h.past
    | cons r rs =>
      rw [hpast] at h2
      simp only at h2
      obtain ⟨idx, hidx, h2⟩ := bind_eq_ok h2
      obtain ⟨⟨new, cur', cache'⟩, hb, h2⟩ := bind_eq_ok h2
      simp only [Except.ok.injEq, Prod.mk.injEq] at h2
      obtain ⟨rfl, rfl, rfl⟩ := h2
      refine ⟨new, by simp, by simp [← hpast, h.len], rfl, ?_⟩
      refine stored_commit (d := d) (x := { d.curData with bdata := some new, fdata := .merged d.curData.fdata idx new }) h.len ?_ h.opened rfl rfl
        h.opened rfl h.bytes
      simp [hpast]

theorem storedAs_ops [Zlib] : ∀ (l : List Op) {d d' : Doc} {F : Bytes}, StoredAs d F → ops l d = .ok d' → ∃ b, StoredAs d' (F ++ b)
  | [], d, d', F, h, hl => by cases hl; exact ⟨[], by rw [List.append_nil]; exact h⟩
  | o :: l, d, d', F, h, hl => by
    unfold ops at hl
    obtain ⟨d1, h1, hl'⟩ := bind_eq_ok hl
    clear hl
    have key : ∃ b, StoredAs d1 (F ++ b) := by
      cases o with
      | add o =>
        simp only [Op.run] at h1
        rcases ha : addObject d o with x | ⟨d2, n⟩
        · rw [ha] at h1; cases h1
        · rw [ha] at h1; cases h1
          obtain ⟨-, -, rfl⟩ := addObject_inv ha
          exact ⟨[], by rw [List.append_nil]; exact storedAs_eq h rfl rfl rfl⟩
      | set n o =>
        obtain ⟨old, -, -, rfl⟩ := updateObject_inv h1
        exact ⟨[], by rw [List.append_nil]; exact storedAs_eq h rfl rfl rfl⟩
      | get r =>
        cases h1
        refine ⟨[], ?_⟩
        rw [List.append_nil]
        unfold reads
        rcases hg : getObject d r with x | ⟨o, d2⟩
        · exact h
        · have := getObject_frame hg
          simp only [reads]
          exact storedAs_eq h (by rw [this]) (by rw [this]) (by rw [this])
      | commit => exact storedAs_commit h h1
    obtain ⟨b, k⟩ := key
    obtain ⟨b', k'⟩ := storedAs_ops l k hl'
    exact ⟨b ++ b', by rw [← List.append_assoc]; exact k'⟩

theorem FiledX.storedAs [Zlib] {d : Doc} {F : Bytes} {secs : List XSec} {N : Nat} {T0 : Dict} (h : FiledX d F secs N T0) : StoredAs d F :=
  ⟨h.past, h.len, h.opened, h.bytes⟩

theorem filedX_ops [Zlib] {N : Nat} {T0 : Dict} : ∀ (l : List Op) {d d' : Doc} {F : Bytes} {secs : List XSec}, FiledX d F secs N T0 →
    FitOps N d l → ops l d = .ok d' → (∀ out, stored d' = .ok out → XsOk T0 N out) →
    ∃ b more, FiledX d' (F ++ b) (more ++ secs) N T0
  | [], d, d', F, secs, h, _, hl, _ => by cases hl; exact ⟨[], [], by rw [List.append_nil]; exact h⟩
  | o :: l, d, d', F, secs, h, hf, hl, hx => by
    unfold ops at hl
    obtain ⟨d1, h1, hl'⟩ := bind_eq_ok hl
    clear hl
    obtain ⟨hfo, hrest0⟩ := hf
    have hrest := hrest0 d1 h1
    clear hrest0
    cases o with
    | add o =>
      simp only [Op.run] at h1
      rcases ha : addObject d o with x | ⟨d2, n⟩
      · rw [ha] at h1; cases h1
      · rw [ha] at h1; cases h1
        exact filedX_ops l (filedX_add h hfo ha) hrest hl' hx
    | set n o => exact filedX_ops l (filedX_set h hfo h1) hrest hl' hx
    | get r => cases h1; exact filedX_ops l (filedX_reads h r) hrest hl' hx
    | commit =>
      simp only [Op.run] at h1
      by_cases hch : changes d = []
      · rw [C21_noop d hch] at h1
        cases h1
        exact filedX_ops l h hrest hl' hx
      · obtain ⟨b, s, h2, -⟩ := filedX_commit h hch h1 (by
          intro F1 hF1
          obtain ⟨b1, k1⟩ := storedAs_commit h.storedAs h1
          obtain ⟨b2, k2⟩ := storedAs_ops l k1 hl'
          rw [k1.bytes] at hF1
          cases hF1
          exact (hx _ k2.bytes).prefix)
        obtain ⟨b', more, h3⟩ := filedX_ops l h2 hrest hl' hx
        exact ⟨b ++ b', more ++ [s], by simpa using h3⟩

/-! ### Loading -/

/-- What the file says of the object `n`: its newest entry leads to `v`. -/
def FileSays [Zlib] (F : Bytes) (secs : List XSec) (n : Nat) (v : Obj) : Prop :=
  ∃ le, lastFor n (listedX secs) = some le ∧
    ((le.envNum = none ∧ ∃ p : Nat, le.absPos = some (.at p) ∧ p < F.length ∧ ReadsAs F p v) ∨
    ∃ (c : Nat) (ce : Entry) (p : Nat) (stm : Obj) (members : List Embedded), le.envNum = some c ∧ 1 ≤ c ∧
      lastFor c (listedX secs) = some ce ∧ ce.envNum = none ∧ ce.absPos = some (.at p) ∧ p < F.length ∧ ReadsAs F p stm ∧
      parseObjectStream stm = .ok members ∧ (members.map (·.num)).Nodup ∧ embObj members n = some v ∧
      ∀ x ∈ members, ∃ k : Nat, x.num = .int k ∧ 1 ≤ k ∧ ∃ le', lastFor k (listedX secs) = some le')

theorem held_says [Zlib] {F : Bytes} {secs : List XSec} {fdata : Provider} {prev rev : Rev} {N n : Nat} {e : Entry} {v : Obj}
    (h : FileHeld F secs fdata prev rev N n e v) : FileSays F secs n v := by
  rcases h with ⟨p, h⟩ | ⟨c, ce, p, stm, ms, j1, j2, j3, j4, j5, j6, j7, j8, j9, j10, j11, le, j12, j13⟩
  · obtain ⟨le, k1, k2, k3⟩ := h.entry
    exact ⟨le, k1, .inl ⟨k2, p, k3, h.lt, h.reads⟩⟩
  · obtain ⟨le', k1, k2, k3⟩ := j7.entry
    exact ⟨le, j12, .inr ⟨c, le', p, stm, ms, j13, j2, k1, k2, k3, j7.lt, j7.reads, j8, j9, j10, j11⟩⟩

/-- A document that was just read: the newest entries, nothing in memory but the trailer. -/
structure FreshX [Zlib] (d : Doc) (F : Bytes) (secs : List XSec) : Prop where
  data : d.curData.fdata = .single F
  len : d.cur.length = d.cache.length
  null : ∀ n : Nat, 1 ≤ n → n < d.cur.length → d.cache[n]? = some .null
  cell : ∀ n : Nat, 1 ≤ n → CellFor d.cur n (lastFor n (listedX secs))

theorem ReadsAs.now [Zlib] {F : Bytes} {p : Nat} {v : Obj} (h : ReadsAs F p v) {e : Entry} {next : Int} (h1 : e.absPos = some (.at p))
    (h2 : e.absNext = some next) : parseIndirect (.single F) e = .ok v := by
  have := h [] e next h1 h2
  rwa [List.append_nil] at this

theorem fresh_view [Zlib] {d : Doc} {F : Bytes} {secs : List XSec} (h : FreshX d F secs) {n : Nat} {v : Obj} (hn : 1 ≤ n)
    (hs : FileSays F secs n v) (g : Int) : view d (.ref g n) = .ok v := by
  obtain ⟨le, h1, h2⟩ := hs
  have hc := h.cell n hn
  rw [h1] at hc
  obtain ⟨e, nx, k1, k2, k3, k4, k5⟩ := hc
  have hlt := lt_of_getElem? k1
  have hnull := h.null n hn hlt
  have hlen := h.len
  rw [view_num]
  unfold memoize
  rw [slotAt_eq k1]
  simp only [bind, Except.bind, Slot.isDeleted, k3, Bool.false_eq_true, if_false, cacheAt_eq hnull, ne_eq, not_true_eq_false]
  rw [if_neg (by omega)]
  simp only [Slot.entry, k2, h.data]
  rcases h2 with ⟨j1, p, j2, -, j3⟩ | ⟨c, ce, p, stm, ms, j1, j2, j3, j4, j5, -, j6, j7, j8, j9, j10⟩
  · rw [j1]
    simp only [j3.now (k5 p j2) k4, pure, Except.pure]
    exact cacheAt_eq (getElem?_set_eq' _ _ (by omega))
  · rw [j1]
    have hcc := h.cell c j2
    rw [j3] at hcc
    obtain ⟨e', nx', q1, q2, q3, q4, q5⟩ := hcc
    simp only
    rw [entryAt_eq q1]
    simp only [j6.now (q5 p j5) q4, j7]
    have hcl := lt_of_getElem? q1
    rw [growSet_eq _ (by omega)]
    obtain ⟨cache', s1, s2, s3⟩ := storeAll_spec ms (d.cache.set c stm) j8 (by
      intro x hx
      obtain ⟨k, r1, r2, le', r3⟩ := j10 x hx
      have hck := h.cell k r2
      rw [r3] at hck
      obtain ⟨e2, -, t1, -⟩ := hck
      have := lt_of_getElem? t1
      exact ⟨k, r1, by simp; omega⟩)
    rw [s1]
    simp only
    apply cacheAt_eq
    rw [s3, if_pos (by simp; omega), j9]

theorem fresh_none [Zlib] {d : Doc} {F : Bytes} {secs : List XSec} (h : FreshX d F secs) {n : Nat} (hn : 1 ≤ n)
    (hs : lastFor n (listedX secs) = none) (g : Int) : ∃ x, view d (.ref g n) = .error x := by
  have hc := h.cell n hn
  rw [hs] at hc
  rw [view_num]
  unfold memoize
  rcases hc with k | k
  · exact ⟨.indexError, by simp [slotAt, k, orRaise, bind, Except.bind]⟩
  · rw [slotAt_eq k]
    exact ⟨_, rfl⟩

/-- The objects of a file can be edited: every object in use can be read, and the objects of an object stream are the
ones that the newest entries place there. `N` is the number of the oldest cross-reference stream (0: a table). -/
structure KeptX [Zlib] (F : Bytes) (secs : List XSec) (N : Nat) : Prop where
  own : N ≠ 0 → ∃ le, lastFor N (listedX secs) = some le ∧ le.envNum = none
  says : ∀ (n : Nat) (le : Entry), 1 ≤ n → n ≠ N → lastFor n (listedX secs) = some le → ∃ v, FileSays F secs n v
  tidy : ∀ (n : Nat) (le : Entry) (c : Nat), 1 ≤ n → lastFor n (listedX secs) = some le → le.envNum = some c → c ≠ N ∧
    ∀ (ce : Entry) (p : Nat) (stm : Obj) (members : List Embedded), lastFor c (listedX secs) = some ce → ce.absPos = some (.at p) →
      ReadsAs F p stm → parseObjectStream stm = .ok members →
      ∀ x ∈ members, ∀ k : Nat, x.num = .int k → ∃ le', lastFor k (listedX secs) = some le' ∧ le'.envNum = some c

theorem fresh_held [Zlib] {d : Doc} {F : Bytes} {secs : List XSec} {N : Nat} (h : FreshX d F secs) (hk : KeptX F secs N) {n : Nat}
    {e : Entry} (hn : 1 ≤ n) (hN : n ≠ N) (he : d.cur[n]? = some (.one e)) {prev : Rev} (hprev : ∀ m, 1 ≤ m → prev[m]? = d.cur[m]?) :
    e.deleted = false ∧ ∃ v, FileHeld F secs d.curData.fdata prev d.cur N n e v := by
  have hc := h.cell n hn
  rcases hl : lastFor n (listedX secs) with _ | le
  · rw [hl] at hc
    rcases hc with k | k
    · rw [he] at k; cases k
    · rw [he] at k; cases k
  rw [hl] at hc
  obtain ⟨e1, nx, k1, k2, k3, k4, k5⟩ := hc
  rw [he] at k1
  cases k1
  refine ⟨k3, ?_⟩
  obtain ⟨v, le', h1, h2⟩ := hk.says n le hn hN hl
  rw [hl] at h1
  cases h1
  refine ⟨v, ?_⟩
  have hat : ∀ (m : Nat) (e' le' : Entry) (nx' : Int) (p : Nat) (w : Obj), e'.envNum = none → e'.absPos = some (.at p) → e'.absNext = some nx' →
      p < F.length → ReadsAs F p w → lastFor m (listedX secs) = some le' → le'.envNum = none → le'.absPos = some (.at p) →
      HeldAt F secs d.curData.fdata m e' p w := by
    intro m e' le' nx' p w a1 a2 a3 a4 a5 a6 a7 a8
    exact ⟨a1, a2, a4, a5, by rw [h.data]; exact a5.now a2 a3, le', a6, a7, a8⟩
  rcases h2 with ⟨j1, p, j2, j2', j3⟩ | ⟨c, ce, p, stm, ms, j1, j2, j3, j4, j5, j5', j6, j7, j8, j9, j10⟩
  · exact .inl ⟨p, hat n e le nx p v (by rw [k2]; exact j1) (k5 p j2) k4 j2' j3 hl j1 j2⟩
  · have hcc := h.cell c j2
    rw [j3] at hcc
    obtain ⟨e', nx', q1, q2, q3, q4, q5⟩ := hcc
    exact .inr ⟨c, e', p, stm, ms, by rw [k2]; exact j1, j2, (hk.tidy n le c hn hl j1).1, q1, hprev c j2, q3,
      hat c e' ce nx' p stm (by rw [q2]; exact j4) (q5 p j5) q4 j5' j6 j3 j4 j5, j7, j8, j9, j10, le, hl, j1⟩

theorem fresh_coherent [Zlib] {d : Doc} {F : Bytes} {secs : List XSec} {N : Nat} (h : FreshX d F secs) (hk : KeptX F secs N) :
    Coherent d := by
  intro n e c hn he hdel henv hca ce stm objs hce hp hps
  have hn1 : 1 ≤ n := by omega
  have hc := h.cell n hn1
  rcases hl : lastFor n (listedX secs) with _ | le
  · rw [hl] at hc
    rcases hc with k | k
    · rw [he] at k; cases k
    · rw [he] at k; cases k
  rw [hl] at hc
  obtain ⟨e1, nx, k1, k2, k3, k4, k5⟩ := hc
  rw [he] at k1
  cases k1
  have hle : le.envNum = some c := by rw [← k2]; exact henv
  have hN : n ≠ N := by
    rintro rfl
    obtain ⟨le', a1, a2⟩ := hk.own hn
    rw [hl] at a1
    cases a1
    rw [hle] at a2
    cases a2
  obtain ⟨-, v, hv⟩ := fresh_held h hk hn1 hN he (prev := d.cur) (fun _ _ => rfl)
  rcases hv with ⟨p, hv⟩ | ⟨c', ce', p, stm', ms, j1, j2, j3, j4, -, j6, j7, j8, j9, j10, j11, le1, j12, j13⟩
  · rw [hv.env] at henv; cases henv
  rw [henv] at j1
  cases j1
  rw [hce] at j4
  cases j4
  rw [j7.value] at hp
  cases hp
  rw [j8] at hps
  cases hps
  have hlen := h.len
  refine ⟨by omega, j7.env, j6, ⟨.null, h.null c j2 (lt_of_getElem? hce), .inl rfl⟩, j9, ?_⟩
  intro x hx
  obtain ⟨k, r1, r2, le', r3⟩ := j11 x hx
  obtain ⟨ce1, w1, w2, w3⟩ := j7.entry
  obtain ⟨le2, u1, u2⟩ := (hk.tidy n le c hn1 hl hle).2 ce1 p stm objs w1 w3 j7.reads j8 x hx k r1
  have hck := h.cell k r2
  rw [u1] at hck
  obtain ⟨e2, nx2, t1, t2, t3, -⟩ := hck
  exact ⟨k, e2, .null, r1, by omega, t1, t3, by rw [t2]; exact u2, h.null k r2 (lt_of_getElem? t1), .inl rfl⟩

/-- The number of the oldest cross-reference stream, 0 for a table. -/
def oldestNum (secs : List XSec) : Nat := (secs.getLast?.bind (·.num)).getD 0

/-- Loading a file made of tables and cross-reference streams. -/
theorem loads_x [Zlib] {F : Bytes} {s : XSec} {l : List XSec} (h : XChain F (s :: l)) (ha : Above s l) (hb : EnvBound (listedX (s :: l)))
    (hend : EndsAt F s.pos) (hmin : 100 ≤ F.length) (hmax : F.length < 10 ^ 80) :
    ∃ (d : Doc) (t : Dict), loads F = .ok d ∧ FreshX d F (s :: l) ∧ d.cache[0]? = some (.dict t) ∧
      (∃ e, d.cur[0]? = some (.one e) ∧ e.deleted = false) ∧
      (∀ k, ¬ FileKey k → Dict.get? t k = Dict.get? s.tr k) ∧
      (d.curData.eofCut = none → WF false false (.dict s.tr) = true → KeptX F (s :: l) (oldestNum (s :: l)) →
        FiledX d F (s :: l) (oldestNum (s :: l)) s.tr) := by
  obtain ⟨di, T0, i1, R⟩ := initialDoc_x h hb hend hmin hmax
  obtain ⟨rfl, e0, i4, i5, i6, i7, i8⟩ : T0 = s.tr ∧
      ∃ e, di.cur[0]? = some (.one e) ∧ e.absPos = some (.at s.tp) ∧ e.deleted = false ∧ e.envNum = none ∧ prevPos e = .int s.pos := by
    rcases R.head with ⟨-, k⟩ | ⟨sm, k1, k2, -⟩
    · exact k
    · exact absurd ⟨sm, k1, k2⟩ (lin_not_above ha)
  have i2 := R.data
  have hpos : 0 < di.cur.length := lt_of_getElem? i4
  have hroot : di.cache[0]? = some (.dict s.tr) := by
    rw [R.cache]
    exact getElem?_set_eq' _ _ (by simpa using hpos)
  have hfresh : FreshX di F (s :: l) := by
    refine ⟨by rw [i2], by rw [R.cache]; simp, ?_, R.cell⟩
    intro n hn hlt
    rw [R.cache, getElem?_set_ne' _ _ (by omega), List.getElem?_replicate, if_pos hlt]
  have hfirst : ∃ x, firstXrefStreamNum di = .ok x ∧ x.getD 0 = (oldestNum (s :: l) : Int) := by
    refine ⟨_, R.oldest, ?_⟩
    unfold oldestNum
    cases ((s :: l).getLast?.bind (·.num)) <;> rfl
  generalize oldestNum (s :: l) = N at hfirst ⊢
  by_cases hch : changes di = []
  · refine ⟨di, s.tr, ?_, hfresh, hroot, ⟨_, i4, i6⟩, fun _ _ => rfl, ?_⟩
    · unfold loads docConstructor
      rw [i1]
      exact C21_noop di hch
    · intro hh
      rw [i2] at hh
      cases hh
  · -- the commit that follows
    have hsp := (h.mem s (by simp)).pos
    obtain ⟨x, hx1, hx2⟩ := hfirst
    generalize hT : Dict.set (if N = 0 then s.tr else delDecodeParms s.tr) b!"/Size" (.int di.cur.length) = T
    generalize hT1 : Dict.del (Dict.set T b!"/Prev" (.int s.pos)) b!"/XRefStm" = T1
    have hlt0 := lt_of_getElem? hroot
    have hcd : cacheDict di.cache = .ok s.tr := by
      unfold cacheDict
      rw [cacheAt_eq hroot]
      rfl
    have hprep : prepareCommit di = .ok { cur := di.cur, cache := di.cache.set 0 (.dict T), index0 := nextIndex0 (di.past.length + 1) N, xnum := N } := by
      unfold prepareCommit
      rw [hcd, hx1]
      simp only [bind, Except.bind, hx2]
      by_cases hN : N = 0
      · subst hN
        rw [if_pos (by rfl)]
        simp only [pure, Except.pure]
        rw [← hT]
        rfl
      · rw [if_neg (by omega)]
        unfold xrefStreamEntry
        rw [if_neg (by omega), if_neg (by omega)]
        simp only [pure, Except.pure]
        rw [if_neg (by omega), ← hT, if_neg hN]
        rfl
    have hcom : commit di = .ok
        { cur := .one (nextIndex0 (di.past.length + 1) N) :: di.cur.drop 1, past := di.cur :: di.past,
          cache := di.cache.set 0 (.dict T1),
          curData := { fdata := .single F }, pastData := di.curData :: di.pastData } := by
      unfold commit
      rw [if_neg hch, hprep]
      simp only [bind, Except.bind]
      unfold writeRevision
      rw [i2]
      simp only
      have hcd' : cacheDict (di.cache.set 0 (.dict T)) = .ok T := by
        unfold cacheDict
        rw [cacheAt_eq (getElem?_set_eq' _ _ hlt0)]
        rfl
      rw [hcd']
      simp only [nextTrailer, prevEntry]
      rw [slotAt_eq i4]
      simp only [bind, Except.bind, pure, Except.pure, i8]
      rw [hT1]
      simp
    have hload : loads F = .ok
        { cur := .one (nextIndex0 (di.past.length + 1) N) :: di.cur.drop 1, past := di.cur :: di.past,
          cache := di.cache.set 0 (.dict T1),
          curData := { fdata := .single F }, pastData := di.curData :: di.pastData } := by
      unfold loads docConstructor
      rw [i1]
      exact hcom
    have hdcur : ∀ n, 1 ≤ n → (Slot.one (nextIndex0 (di.past.length + 1) N) :: di.cur.drop 1)[n]? = di.cur[n]? := by
      intro n hn
      obtain ⟨k, rfl⟩ : ∃ k, n = k + 1 := ⟨n - 1, by omega⟩
      rw [List.getElem?_cons_succ, List.getElem?_drop, Nat.add_comm]
    have hlenc : (Slot.one (nextIndex0 (di.past.length + 1) N) :: di.cur.drop 1).length = di.cur.length := by
      simp only [List.length_cons, List.length_drop]
      omega
    have hkeys : ∀ k, ¬ FileKey k → Dict.get? T1 k = Dict.get? s.tr k := by
      intro k hk
      unfold FileKey MovingKey at hk
      rw [← hT1, ← hT, Dict.get?_del, if_neg (fun e => hk (.inl (.inr (.inr e)))), Dict.get?_set,
        if_neg (fun e => hk (.inl (.inr (.inl e)))), Dict.get?_set, if_neg (fun e => hk (.inl (.inl e)))]
      split
      · rfl
      · exact delDecodeParms_get _ _ (fun e => hk (.inr (.inr e)))
    have hfresh' : FreshX (Doc.mk (.one (nextIndex0 (di.past.length + 1) N) :: di.cur.drop 1) (di.cur :: di.past)
          (di.cache.set 0 (.dict T1)) { fdata := .single F } (di.curData :: di.pastData)) F (s :: l) := by
      refine ⟨rfl, by simp only [hlenc, List.length_set]; exact hfresh.len, ?_, ?_⟩
      · intro n hn hlt
        simp only [hlenc] at hlt
        simp only
        rw [getElem?_set_ne' _ _ (by omega)]
        exact hfresh.null n hn hlt
      · intro n hn
        have hc := R.cell n hn
        revert hc
        cases lastFor n (listedX (s :: l)) with
        | none => unfold CellFor; simp only [hdcur n hn]; exact id
        | some le => unfold CellFor; simp only [hdcur n hn]; exact id
    refine ⟨_, T1, hload, hfresh', getElem?_set_eq' _ _ (lt_of_getElem? hroot), ⟨_, rfl, rfl⟩, hkeys, ?_⟩
    intro _ hw hk
    obtain ⟨cut, p, ⟨f0, FF, E, f1, f2, f3, f4, f5, f6⟩, -, -⟩ := initialDoc_fromFile i1
    have hE : E = [] := by
      rcases List.eq_nil_or_concat E with rfl | ⟨E0, last, rfl⟩
      · rfl
      · unfold Doc.data at f1
        rw [List.concat_eq_append, ← List.append_assoc] at f1
        have := (List.append_inj' f1 rfl).2
        simp only [List.cons.injEq, and_true] at this
        have h5 := f5 last (by simp)
        rw [← this, i2] at h5
        cases h5
    subst hE
    rw [List.append_nil] at f1
    have hrev : (di.curData :: di.pastData).reverse = FF := by rw [List.reverse_cons]; exact f1
    have hcut : cut = F.length := by
      rw [← hrev] at f4
      simp only [List.reverse_cons, List.getLast?_append, List.getLast?_singleton, Option.some_or, Option.bind_some, i2] at f4
      cases f4
      rfl
    subst hcut
    have hcells : ∀ (n : Nat) (e : Entry), 1 ≤ n → di.cur[n]? = some (.one e) → ∃ le, lastFor n (listedX (s :: l)) = some le ∧ e.envNum = le.envNum ∧ e.deleted = false := by
      intro n e hn he
      have hc := R.cell n hn
      rcases hl : lastFor n (listedX (s :: l)) with _ | le
      · rw [hl] at hc
        rcases hc with k | k
        · rw [he] at k; cases k
        · rw [he] at k; cases k
      · rw [hl] at hc
        obtain ⟨e1, nx, k1, k2, k3, -⟩ := hc
        rw [he] at k1
        cases k1
        exact ⟨le, rfl, k2, k3⟩
    refine ⟨fresh_coherent hfresh' hk, hfresh'.len, ?_, ⟨_, rfl, rfl, rfl, ?_⟩, by simp, ?_, rfl, ?_, ?_, ?_, h, hb, ?_, ?_, by simp, ?_, ?_,
      by simp [f0], ?_, ?_, ?_, ?_⟩
    · intro n es hn he
      simp only at he
      rw [hdcur n hn] at he
      exact R.many n es hn he
    · simp only [nextIndex0]
      split
      · exact .inl rfl
      · exact .inr rfl
    · refine ⟨x, ?_, hx2⟩
      rw [← hx1]
      have : ∀ cache cd pd cur, (Doc.mk cur (di.cur :: di.past) cache cd pd).firstRev = di.firstRev := by
        intro cache cd pd cur
        unfold Doc.firstRev
        simp [List.getLastD_eq_getLast?, List.getLast?_cons]
      unfold firstXrefStreamNum
      rw [this]
    · intro hN
      obtain ⟨le, k1, k2⟩ := hk.own hN
      have hc := R.cell N (by omega)
      rw [k1] at hc
      obtain ⟨e1, nx, q1, q2, q3, -⟩ := hc
      refine ⟨e1, ?_, by rw [q2]; exact k2, q3, ?_⟩
      · simp only; rw [hdcur N (by omega)]; exact q1
      · simp only [prevRev]; rw [hdcur N (by omega)]
    · intro n e hn he hne
      exfalso
      apply hne
      simp only [prevRev]
      rw [hdcur n hn]
    · intro n e hn he hdel hne
      exfalso
      apply hne
      simp only [prevRev]
      rw [hdcur n hn]
    · intro s' hs'
      cases hs'
      exact ⟨hend, ha⟩
    · refine ⟨T1, getElem?_set_eq' _ _ (lt_of_getElem? hroot), ?_, ?_, ?_, hkeys, ?_, ?_⟩
      · have hdp : WF false false (.dict (if N = 0 then s.tr else delDecodeParms s.tr)) = true := by
          split
          · exact hw
          · unfold delDecodeParms
            split <;> (try split) <;> first | exact hw | exact wf_del hw
        rw [← hT1, ← hT]
        exact wf_del (wf_set (wf_set hdp (by decide) rfl) (by decide) rfl)
      · rw [← hT1, Dict.get?_del, if_pos rfl]
      · rw [← hT1, Dict.get?_del, if_neg (by decide), Dict.get?_set, if_pos rfl]
        rfl
      · intro hN hp
        rw [← hT1, ← hT, Dict.get?_del, if_neg (by decide), Dict.get?_set, if_neg (by decide), Dict.get?_set, if_neg (by decide), if_neg hN]
        exact parms_del hp
      · intro s' hs' k hk
        cases hs'
        rw [hkeys k hk]
        cases Dict.get? s.tr k with
        | none => trivial
        | some v => exact .inl rfl
    · unfold revisionIndex
      simp only
      rw [hrev]
      have := revisionIndexLoop_cuts FF [] 0 (fun x hx => (f3 x hx).2)
      rw [List.append_nil, f4] at this
      rw [this]
      rfl
    · rw [stored_open (by simp [f0]) rfl]
      simp only [hrev]
      have hlc := leadingCuts_append FF [] f2 (fun x hx => (f3 x hx).2) (by simp)
      rw [List.append_nil, f4] at hlc
      rw [hlc]
      have hfirstD : (Doc.mk (.one (nextIndex0 (di.past.length + 1) N) :: di.cur.drop 1) (di.cur :: di.past)
          (di.cache.set 0 (.dict T1)) { fdata := .single F } (di.curData :: di.pastData)).firstData.fdata = .single F := by
        have hm : (Doc.mk (.one (nextIndex0 (di.past.length + 1) N) :: di.cur.drop 1) (di.cur :: di.past)
          (di.cache.set 0 (.dict T1)) { fdata := .single F } (di.curData :: di.pastData)).firstData ∈ FF := by
          rw [← hrev]
          unfold Doc.firstData
          simp only [List.getLastD_eq_getLast?, List.getLast?_cons, Option.getD_some, List.mem_reverse]
          cases hp : di.pastData.getLast? with
          | none => simp
          | some r => simp [List.mem_of_getLast? hp]
        exact (f3 _ hm).1
      simp only [hfirstD]
      rw [single_read_at (by omega) (by omega)]
      simp [bind, Except.bind, pure, Except.pure, allFragments, slice]
    · simp only [prevRev, hlenc]
      exact Nat.le_refl _
    · intro n p e hn hp he
      left
      simp only [prevRev] at hp he
      rw [hdcur n hn, hp] at he
      cases he
      rfl
    · intro n hn hh
      simp only at hh
      rw [hdcur n hn] at hh
      rcases hl : lastFor n (listedX (s :: l)) with _ | le
      · rfl
      · have hc := R.cell n hn
        rw [hl] at hc
        obtain ⟨e1, nx, k1, -⟩ := hc
        rw [k1] at hh
        rcases hh with k | k <;> cases k
    · intro n e hn hN he hdel _
      obtain ⟨-, v, hv⟩ := fresh_held hfresh' hk hn hN he (prev := di.cur) (fun m hm => (hdcur m hm).symm)
      refine ⟨v, hv, ?_⟩
      intro c hc
      rw [hfresh'.null n hn (lt_of_getElem? he)] at hc
      cases hc
      exact .inl rfl

end Pdf
