/-
Loading: deletions, termination, hybrid files, pending edits, object numbers (C59-C63).
-/
import Verif.Props.C59_Files
import Verif.Props.C20_Prefix

namespace Pdf

open Spec

/-! ## C59: deletions -/

/-- Loading a file, reading an object. -/
def loadGet [Zlib] (file : Bytes) (num : Nat) : Py Obj := do
  let d ← loads file
  (getObject d (.ref 0 num)).map Prod.fst

/-- **C59 is false**: object 2 is deleted, the document is written, and the file is loaded again: object 2
is back with its old value. -/
theorem C59_counterexample [Zlib] :
    (do let d ← loads mapFile
        let d ← updateObject d 2 .null
        let (out, _) ← writeFile d
        loadGet out 2) = .ok (.int 12) := by
  kernel_rfl

/-- Why: a free row of a table leaves no trace in the section... -/
theorem C59_free_ignored (offset num gen : Int) (rows : List XRow) (h : 0 ≤ gen) (h' : 0 ≤ num) :
    tableEntries (.entry offset num gen b!"f" :: rows) = tableEntries rows := by
  simp only [tableEntries]
  rw [if_neg (by decide), if_neg (by omega)]
  cases tableEntries rows <;> simp [bind, Except.bind]

/-- ... nor does a free row of a stream. -/
theorem C59_free_ignored_stream (row : XSRow) (rows : List XSRow) (h : row.kw = b!"f") :
    streamEntries (row :: rows) = streamEntries rows := by
  simp only [streamEntries, h, or_true, if_true]
  cases streamEntries rows <;> rfl

theorem placeEntry_get {v : Nat} {m m' : Rev} {i : Nat} {e : Entry} (h : placeEntry v m i e = .ok m') :
    m'.length = m.length ∧ (∀ n, n ≠ i → m'[n]? = m[n]?) ∧
      ∃ e', m'[i]? = some (.one e') ∧ e'.absPos = e.absPos := by
  unfold placeEntry at h
  obtain ⟨s, hs, h⟩ := bind_eq_ok h
  have hi := slotAt_ok hs
  have hlt := lt_of_getElem? hi
  cases s with
  | hole =>
    cases h
    refine ⟨by simp, fun n hn => by rw [List.getElem?_set_ne (by omega)], _, List.getElem?_set_self hlt, rfl⟩
  | one old =>
    simp only at h
    split at h
    · rename_i hc
      cases h
      exact ⟨rfl, fun _ _ => rfl, old, hi, hc.2.2⟩
    · cases h
      refine ⟨by simp, fun n hn => by rw [List.getElem?_set_ne (by omega)], _, List.getElem?_set_self hlt, rfl⟩
  | many es => cases h

/-- The last entry of a list of entries for a number. -/
def Spec.lastFor (n : Nat) (es : List Entry) : Option Entry := (es.filter fun e => e.num = (n : Int)).getLast?

theorem placeAll_get {v : Nat} : ∀ (es : List Entry) {m m' : Rev}, placeAll v m es = .ok m' →
    m'.length = m.length ∧ ∀ n, n + 1 < m.length → match lastFor n es with
      | none => m'[n]? = m[n]?
      | some e => ∃ e', m'[n]? = some (.one e') ∧ e'.absPos = e.absPos := by
  intro es
  induction es with
  | nil =>
    intro m m' h
    cases h
    exact ⟨rfl, fun n _ => rfl⟩
  | cons e es ih =>
    intro m m' h
    unfold placeAll at h
    obtain ⟨m1, h1, h2⟩ := bind_eq_ok h
    obtain ⟨l1, k1, e', g1, g2⟩ := placeEntry_get h1
    obtain ⟨l2, k2⟩ := ih h2
    refine ⟨by omega, fun n hn => ?_⟩
    have k2n := k2 n (by omega)
    unfold lastFor at k2n ⊢
    by_cases he : e.num = n
    · rw [List.filter_cons_of_pos (by simpa using he), List.getLast?_cons]
      rw [if_neg (by omega)] at k1 g1
      have : e.num.toNat = n := by omega
      rw [this] at g1
      rcases hl : (es.filter fun e => e.num = (n : Int)).getLast? with _ | e2
      · rw [hl] at k2n ⊢
        exact ⟨e', by rw [k2n, g1], g2⟩
      · rw [hl] at k2n ⊢
        exact k2n
    · rw [List.filter_cons_of_neg (by simpa using he)]
      have hk := k1 n (by split <;> omega)
      rcases hl : (es.filter fun e => e.num = (n : Int)).getLast? with _ | e2
      · rw [hl] at k2n ⊢
        simp only at k2n ⊢
        rw [k2n, hk]
      · rw [hl] at k2n ⊢
        exact k2n

theorem placeAll_append {v : Nat} : ∀ (a b : List Entry) (m : Rev),
    placeAll v m (a ++ b) = (placeAll v m a).bind fun m => placeAll v m b := by
  intro a
  induction a with
  | nil => intro b m; rfl
  | cons e a ih =>
    intro b m
    simp only [List.cons_append, placeAll]
    rcases placeEntry v m (if e.num < 0 then m.length - 1 else e.num.toNat) e with x | m1
    · rfl
    · exact ih b m1

theorem lastFor_append (n : Nat) (a b : List Entry) :
    lastFor n (a ++ b) = (lastFor n b).or (lastFor n a) := by
  unfold lastFor
  rw [List.filter_append, List.getLast?_append]

theorem lastFor_eof (n : Nat) (s : Section) : lastFor n (s.objs ++ [eofEntry s]) = lastFor n s.objs := by
  have : lastFor n [eofEntry s] = none := by
    unfold lastFor
    rw [List.filter_cons_of_neg (by simp [eofEntry])]
    rfl
  rw [lastFor_append, this, Option.none_or]

/-- The end marker is recorded in the last cell. -/
theorem placeAll_last {v : Nat} {s : Section} {m m' : Rev}
    (h : placeAll v m (s.objs ++ [eofEntry s]) = .ok m') :
    ∃ e, m'[m.length - 1]? = some (.one e) ∧ e.absPos = some (.at s.eofPos) := by
  rw [placeAll_append] at h
  obtain ⟨m1, h1, h2⟩ := bind_eq_ok h
  have hl := (placeAll_get _ h1).1
  unfold placeAll at h2
  obtain ⟨m2, h2, h3⟩ := bind_eq_ok h2
  cases h3
  obtain ⟨-, -, e, g1, g2⟩ := placeEntry_get h2
  rw [if_pos (by simp [eofEntry]), hl] at g1
  exact ⟨e, g1, g2⟩

/-- What the newest column holds: for each number, the position given by the last section that lists it, or
what was in the column `m`; in the last cell, the end marker of the last section. -/
theorem columns_get : ∀ (ss : List Section) (p : Int) (done : List Rev) (m : Rev) (cols : List Rev),
    columns ss p done m = .ok cols → 1 < m.length → ∃ m' rest, cols = m' :: rest ∧ m'.length = m.length ∧
      (∀ n, 0 < n → n + 1 < m.length → match lastFor n (ss.flatMap (·.objs)) with
        | none => m'[n]? = m[n]?
        | some e => ∃ e', m'[n]? = some (.one e') ∧ e'.absPos = e.absPos) ∧
      match ss.getLast? with
        | none => m' = m
        | some s => ∃ e', m'[m.length - 1]? = some (.one e') ∧ e'.absPos = some (.at s.eofPos) := by
  intro ss
  induction ss with
  | nil =>
    intro p done m cols h hm
    cases h
    exact ⟨m, done, rfl, rfl, fun n _ _ => rfl, rfl⟩
  | cons s ss ih =>
    intro p done m cols h hm
    suffices key : ∀ (v : Nat) (m0 m1 : Rev) (p : Int) (done : List Rev),
        placeAll v m0 (s.objs ++ [eofEntry s]) = .ok m1 → columns ss p done m1 = .ok cols →
        m0.length = m.length → (∀ n, 0 < n → m0[n]? = m[n]?) → _ by
      unfold columns at h
      obtain ⟨q, hq, h⟩ := bind_eq_ok h
      split at h
      · obtain ⟨m1, hm1, h⟩ := bind_eq_ok h
        exact key _ _ _ _ _ hm1 h (by simp) (fun n hn => by rw [List.getElem?_set_ne (by omega)])
      · split at h
        · obtain ⟨m1, hm1, h⟩ := bind_eq_ok h
          exact key _ _ _ _ _ hm1 h (by simp) (fun n hn => by rw [List.getElem?_set_ne (by omega)])
        · cases h
    intro v m0 m1 p done h1 h2 hl hg
    obtain ⟨l1, k1⟩ := placeAll_get _ h1
    obtain ⟨e1, t1, t2⟩ := placeAll_last h1
    obtain ⟨m', rest, rfl, l2, k2, k3⟩ := ih _ _ _ _ h2 (by omega)
    refine ⟨m', rest, rfl, by omega, ?_, ?_⟩
    · intro n hn hlt
      have k1n := k1 n (by omega)
      have k2n := k2 n hn (by omega)
      rw [lastFor_eof] at k1n
      rw [List.flatMap_cons, lastFor_append]
      rcases h3 : lastFor n (ss.flatMap (·.objs)) with _ | e
      · rw [h3] at k2n ⊢
        simp only [Option.none_or] at k2n ⊢
        rcases h4 : lastFor n s.objs with _ | e
        · rw [h4] at k1n
          simp only at k1n ⊢
          rw [k2n, k1n, hg n hn]
        · rw [h4] at k1n
          simp only at k1n ⊢
          rw [k2n]
          exact k1n
      · rw [h3] at k2n ⊢
        exact k2n
    · rw [List.getLast?_cons]
      rcases h3 : ss.getLast? with _ | s'
      · rw [h3] at k3
        simp only at k3
        subst k3
        rw [show m.length - 1 = m0.length - 1 by omega]
        exact ⟨e1, t1, t2⟩
      · rw [h3] at k3
        rw [show m.length - 1 = m1.length - 1 by omega]
        exact k3

/-- An object that no section after the one of the column `m` lists is found in the newest column where
it is in `m`, free or not in the meantime. -/
theorem C59_carried (ss : List Section) (p : Int) (done : List Rev) (m : Rev) (cols : List Rev) (n : Nat)
    (h : columns ss p done m = .ok cols) (hn : 0 < n) (hlt : n + 1 < m.length)
    (hno : ∀ s ∈ ss, ∀ e ∈ s.objs, e.num ≠ n) : ∃ m' rest, cols = m' :: rest ∧ m'[n]? = m[n]? := by
  obtain ⟨m', rest, e1, -, e2, -⟩ := columns_get ss p done m cols h (by omega)
  have := e2 n hn hlt
  have hnone : lastFor n (ss.flatMap (·.objs)) = none := by
    unfold lastFor
    rw [List.getLast?_eq_none_iff, List.filter_eq_nil_iff]
    intro e he
    obtain ⟨s, hs, he⟩ := List.mem_flatMap.1 he
    simpa using hno s hs e he
  rw [hnone] at this
  exact ⟨m', rest, e1, this⟩

/-! ## C60: termination -/

/-- One turn of the loop on the file whose section names itself as the previous one. -/
theorem cycle_turn [Zlib] : (readSection (.single cycleFile) 45 135 148 148).map (fun r => (r.2.1, r.2.2)) =
    .ok ([(b!"/Prev", .int 45), (b!"/Size", .int 2), (b!"/Root", .ref 0 1)], cycleFile) := by
  kernel_rfl

/-- **C60 is false**: on a file whose section names itself as the previous one, the loop never ends, however
many turns it is given. -/
theorem C60_counterexample [Zlib] :
    (∀ fuel, chainLoop (.single cycleFile) fuel cycleFile 45 0 = .error .nonterm) ∧
      loads cycleFile = .error .nonterm := by
  constructor
  · intro fuel
    induction fuel with
    | zero => rfl
    | succ fuel ih =>
      have h := cycle_turn
      rcases hr : readSection (.single cycleFile) 45 135 148 148 with e | ⟨s, t, b⟩
      · rw [hr] at h
        cases h
      rw [hr] at h
      simp only [Except.map, Except.ok.injEq, Prod.mk.injEq] at h
      obtain ⟨rfl, rfl⟩ := h
      have h1 : posOf (find cycleFile b!"startxref" 45) = 135 := by kernel_rfl
      have h2 : posOf (find cycleFile b!"%%EOF" 45) = 148 := by kernel_rfl
      have h3 : nextSections [(b!"/Prev", Obj.int 45), (b!"/Size", .int 2), (b!"/Root", .ref 0 1)] 0 0 =
          .ok (false, 45, 0) := by rfl
      unfold chainLoop
      rw [if_neg (by decide)]
      unfold chainTurn
      simp only [ne_eq, not_true_eq_false, if_false, show natPos 45 = .ok 45 from rfl, bind, Except.bind, h1, h2,
        hr, h3, ih]
  · kernel_rfl

/-- The pending state of the loop after some turns. -/
inductive Spec.Reached [Zlib] (fdata : Provider) (st : Bytes × Int × Int) : Bytes × Int × Int → Prop
  | start : Reached fdata st st
  | turn {b b' : Bytes} {p p' x x' : Int} {s : Section} : Reached fdata st (b, p, x) →
      ¬ (p = 0 ∧ x = 0) → chainTurn fdata b p x = .ok (s, b', p', x') → Reached fdata st (b', p', x')

/-- **C60**, when no section of the chain has an `/XRefStm` and each `/Prev` is below the position of its
section, as in a file that has only been appended to: the loop ends, in at most as many turns as the
position of the first section (unless the reading of a section does not end). -/
theorem C60_terminates_partial [Zlib] (fdata : Provider) (b : Bytes) (p : Int) (hp : 0 ≤ p)
    (hdec : ∀ b1 p1 x1, Reached fdata (b, p, 0) (b1, p1, x1) → ¬ (p1 = 0 ∧ x1 = 0) → ∀ s b2 p2 x2,
      chainTurn fdata b1 p1 x1 = .ok (s, b2, p2, x2) → x2 = 0 ∧ p2 < p1)
    (fuel : Nat) (hf : p < fuel) (h : chainLoop fdata fuel b p 0 = .error .nonterm) :
    ∃ b1 p1 x1, Reached fdata (b, p, 0) (b1, p1, x1) ∧ chainTurn fdata b1 p1 x1 = .error .nonterm := by
  suffices H : ∀ (fuel : Nat) b1 p1, Reached fdata (b, p, 0) (b1, p1, 0) → p1 < fuel → 0 < fuel →
      chainLoop fdata fuel b1 p1 0 = .error .nonterm →
      ∃ b1 p1 x1, Reached fdata (b, p, 0) (b1, p1, x1) ∧ chainTurn fdata b1 p1 x1 = .error .nonterm from
    H fuel b p .start hf (by omega) h
  intro fuel
  induction fuel with
  | zero => intro _ _ _ _ h0; omega
  | succ fuel ih =>
    intro b1 p1 hr hlt _ hl
    unfold chainLoop at hl
    split at hl
    · cases hl
    rename_i hne
    rcases ht : chainTurn fdata b1 p1 0 with e | ⟨s, b2, p2, x2⟩
    · rw [ht] at hl
      cases hl
      exact ⟨b1, p1, 0, hr, ht⟩
    · obtain ⟨rfl, hlt2⟩ := hdec b1 p1 0 hr hne s b2 p2 x2 ht
      rw [ht] at hl
      simp only [bind, Except.bind] at hl
      rcases hc : chainLoop fdata fuel b2 p2 0 with e | rest
      · rw [hc] at hl
        cases hl
        by_cases h0 : fuel = 0
        · subst h0
          exfalso
          -- a negative position stops the loop at once
          have hneg : p1 < 0 := by
            have : p1 ≠ 0 := fun h => hne ⟨h, rfl⟩
            omega
          unfold chainTurn at ht
          simp only [ne_eq, not_true_eq_false, if_false] at ht
          rw [show natPos p1 = .error .outside by unfold natPos; rw [if_pos hneg]] at ht
          cases ht
        · exact ih b2 p2 (hr.turn hne ht) (by omega) (by omega) hc
      · rw [hc] at hl
        cases hl

/-- The hypotheses are met by the file of `C23`. -/
example [Zlib] : ∀ b1 p1 x1, Reached (.single mapFile) (mapFile, 63, 0) (b1, p1, x1) → ¬ (p1 = 0 ∧ x1 = 0) →
    ∀ s b2 p2 x2, chainTurn (.single mapFile) b1 p1 x1 = .ok (s, b2, p2, x2) → x2 = 0 ∧ p2 < p1 := by
  have key : (chainTurn (.single mapFile) mapFile 63 0).map (fun r => r.2.2) = .ok (0, 0) := by kernel_rfl
  have hall : ∀ st, Reached (.single mapFile) (mapFile, 63, 0) st → st = (mapFile, 63, 0) ∨ st.2 = (0, 0) := by
    intro st h
    induction h with
    | start => exact .inl rfl
    | turn h hne ht ih =>
      rcases ih with ih | ih
      · cases ih
        rw [ht] at key
        exact .inr (by simpa [Except.map] using key)
      · exact absurd (by simpa using ih) hne
  intro b1 p1 x1 h hne s b2 p2 x2 ht
  rcases hall _ h with h | h
  · cases h
    rw [ht] at key
    simp [Except.map] at key
    omega
  · exact absurd (by simpa using h) hne

/-! ## C61: hybrid files -/

/-- **C61 is false**: object 2 is in the table of a hybrid file, but it is not found (`None` has no
attribute...). Object 1, which is in the stream, is found. -/
theorem C61_counterexample [Zlib] :
    loadGet hybridFile 1 = .ok (.dict [(b!"/Type", .str b!"/Catalog")]) ∧
      loadGet hybridFile 2 = .error .typeError :=
  ⟨by kernel_rfl, by kernel_rfl⟩

/-- Why: whatever the chain, the objects of a table with an `/XRefStm` are left out. -/
theorem C61_table_dropped : ∀ (xs acc res : List Section), mergeHybrid acc xs = .ok res →
    ∀ s ∈ res, ∃ x ∈ acc ++ xs.filter (fun x => !x.trailer.xrefStm), s.objs = x.objs ∧ s.eofPos = x.eofPos := by
  intro xs
  induction xs with
  | nil =>
    intro acc res h s hs
    cases h
    exact ⟨s, by simpa using hs, rfl, rfl⟩
  | cons x xs ih =>
    intro acc res h s hs
    unfold mergeHybrid at h
    split at h
    · rename_i hx
      cases acc with
      | nil => cases h
      | cons p acc =>
        obtain ⟨y, hy, e1, e2⟩ := ih _ _ h s hs
        rw [List.filter_cons_of_neg (by simp [hx])]
        simp only [List.cons_append, List.mem_cons] at hy
        rcases hy with rfl | hy
        · exact ⟨p, by simp, e1, e2⟩
        · exact ⟨y, List.mem_cons_of_mem _ hy, e1, e2⟩
    · rename_i hx
      obtain ⟨y, hy, e⟩ := ih _ _ h s hs
      refine ⟨y, ?_, e⟩
      rw [List.filter_cons_of_pos (by simp [hx])]
      simp only [List.cons_append, List.mem_cons, List.mem_append] at hy ⊢
      grind

/-- **C61**, the chain: once the stream of a hybrid section is read, the next section is the one that the table gives; what the
stream says of other sections (`/Prev`, `/XRefStm`) is not used. -/
theorem C61_chain [Zlib] {f : Provider} {buf buf' : Bytes} {prev stm prev' stm' : Int} {s : Section} (hp : prev ≠ 0) (hs : stm ≠ 0)
    (h : chainTurn f buf prev stm = .ok (s, buf', prev', stm')) :
    prev' = prev ∧ stm' = 0 ∧ s.trailer.xrefStm = false ∧ ∃ x e e', (readSection f stm x e e').map (·.1.objs) = .ok s.objs := by
  unfold chainTurn at h
  simp only [if_pos hs] at h
  obtain ⟨x, -, h⟩ := bind_eq_ok h
  obtain ⟨⟨s0, t, b⟩, h1, h⟩ := bind_eq_ok h
  obtain ⟨⟨st, pv, xs⟩, h2, h⟩ := bind_eq_ok h
  unfold nextSections at h2
  rw [if_neg (by omega)] at h2
  cases h2
  cases h
  exact ⟨rfl, rfl, rfl, _, _, _, by rw [h1]; rfl⟩

/-- The stream of the hybrid file above, with a table at position 9 still to be read. -/
example [Zlib] : (chainTurn (.single hybridFile) hybridFile 9 63).map (fun r => (r.1.objs.length, r.2.2)) = .ok (1, 9, 0) := by
  kernel_rfl

/-! ## C63: objects with great numbers -/

/-- **C63 is false**: an object in an object stream, whose number follows that of the last object outside
object streams, takes the place of the end marker and is lost; with a number beyond, the file cannot be
loaded at all. -/
theorem C63_counterexample [Zlib] :
    (loads high4File).isOk = true ∧ loadGet high4File 4 = .error .indexError ∧
      loads high5File = .error .indexError :=
  ⟨by kernel_rfl, by kernel_rfl, by kernel_rfl⟩

/-- **C63**, for the numbers within the table, and apart from hybrid files (`C61`): the newest column holds,
for each of them, the position given by the newest section that lists it. -/
theorem C63_newest_partial (secs : List Section) (nb : Int) (cols : List Rev) (h : buildColumns secs nb = .ok cols)
    (hx : ∀ s ∈ secs, s.trailer.xrefStm = false) (hnb : 0 ≤ nb) (n : Nat) (hn : 0 < n) (hle : n ≤ nb) :
    ∃ m rest, cols = m :: rest ∧ match lastFor n (secs.reverse.flatMap (·.objs)) with
      | none => m[n]? = some .hole
      | some e => ∃ e', m[n]? = some (.one e') ∧ e'.absPos = e.absPos := by
  have hmerge : ∀ (xs acc : List Section), (∀ s ∈ xs, s.trailer.xrefStm = false) →
      mergeHybrid acc xs = .ok (acc.reverse ++ xs) := by
    intro xs
    induction xs with
    | nil => intro acc _; simp [mergeHybrid]
    | cons x xs ih =>
      intro acc hx
      unfold mergeHybrid
      rw [if_neg (by simp [hx x (by simp)]), ih _ (fun s hs => hx s (by simp [hs]))]
      simp
  unfold buildColumns at h
  rw [hmerge _ [] (fun s hs => hx s (by simpa using hs))] at h
  simp only [List.reverse_nil, List.nil_append, bind, Except.bind] at h
  rcases hr : secs.reverse with _ | ⟨s, ss⟩
  · rw [hr] at h
    cases h
  rw [hr] at h
  simp only at h
  rcases hp : directPos s.trailer with e | p
  · rw [hp] at h
    cases h
  rw [hp] at h
  simp only at h
  split at h
  · cases h
  rcases hm : placeAll 0 ((List.replicate (nb + 2).toNat Slot.hole).set 0
      (.one { s.trailer with ver := 0, docVer := 0 })) (s.objs ++ [eofEntry s]) with e | m
  · rw [hm] at h
    cases h
  rw [hm] at h
  simp only at h
  obtain ⟨l1, k1⟩ := placeAll_get _ hm
  simp only [List.length_set, List.length_replicate] at l1 k1
  obtain ⟨m', rest, rfl, l2, k2, -⟩ := columns_get _ _ _ _ _ h (by omega)
  refine ⟨m', rest, rfl, ?_⟩
  have k1n := k1 n (by omega)
  have k2n := k2 n hn (by omega)
  rw [lastFor_eof] at k1n
  rw [List.flatMap_cons, lastFor_append]
  rcases h3 : lastFor n (ss.flatMap (·.objs)) with _ | e
  · rw [h3] at k2n ⊢
    simp only [Option.none_or] at k2n ⊢
    rcases h4 : lastFor n s.objs with _ | e
    · rw [h4] at k1n
      simp only at k1n ⊢
      rw [k2n, k1n, List.getElem?_set_ne (by omega), List.getElem?_replicate_of_lt (by omega)]
    · rw [h4] at k1n
      simp only at k1n ⊢
      rw [k2n]
      exact k1n
  · rw [h3] at k2n ⊢
    exact k2n

/-- Two revisions of object 1, the newest first. -/
example : ((buildColumns
    [⟨{ num := 0, absPos := some (.at 200), xrefTablePos := some 200 }, [{ num := 1, absPos := some (.at 100) }], 300⟩,
     ⟨{ num := 0, absPos := some (.at 50), xrefTablePos := some 50 },
      [{ num := 1, absPos := some (.at 9) }, { num := 2, absPos := some (.at 30) }], 90⟩] 2).map
    (fun cols => cols.head?.map (fun m => m[1]?.map (fun s => match s with
      | .one e => e.absPos
      | _ => none)))) = .ok (some (some (some (.at 100)))) := by
  decide

end Pdf
