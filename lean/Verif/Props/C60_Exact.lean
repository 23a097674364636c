/-
C60, exactly: when the loop over the sections of a file ends (filestruct.py:258-305).
-/
import Verif.Props.C59_Load

namespace Pdf

open Spec

theorem pigeonhole : ∀ (N : Nat) (f : Nat → Nat), (∀ k, k ≤ N → f k < N) → ∃ i j, i < j ∧ j ≤ N ∧ f i = f j
  | 0, f, h => absurd (h 0 (Nat.le_refl _)) (by omega)
  | N + 1, f, h => by
    by_cases hx : ∃ i, i ≤ N ∧ f i = f (N + 1)
    · obtain ⟨i, h1, h2⟩ := hx
      exact ⟨i, N + 1, by omega, by omega, h2⟩
    · -- the values of the others avoid that of the last one: bring them below `N`
      have hne : ∀ k, k ≤ N → f k ≠ f (N + 1) := fun k hk e => hx ⟨k, hk, e⟩
      obtain ⟨i, j, h1, h2, h3⟩ := pigeonhole N (fun k => if f k < f (N + 1) then f k else f k - 1) (by
        intro k hk
        have a := h k (by omega)
        have b := h (N + 1) (by omega)
        have c := hne k hk
        show (if f k < f (N + 1) then f k else f k - 1) < N
        split <;> omega)
      refine ⟨i, j, h1, by omega, ?_⟩
      have a := hne i (by omega)
      have b := hne j h2
      split at h3 <;> split at h3 <;> omega

section
variable [Zlib] {F : Bytes}

/-- The dictionary of a section read as a stream does not depend on the position that is asked. -/
theorem streamSection_dict {a : Nat} {x y : Int} {t t' : Entry} {o o' : List Entry} {d d' : Obj} (h1 : readStreamSection F a x = .ok (t, o, d))
    (h2 : readStreamSection F a y = .ok (t', o', d')) : d = d' := by
  unfold readStreamSection at h1 h2
  simp only at h1 h2
  obtain ⟨n, hn, h1⟩ := bind_eq_ok h1
  obtain ⟨n', hn', h2⟩ := bind_eq_ok h2
  obtain ⟨s, hs, h1⟩ := bind_eq_ok h1
  obtain ⟨s', hs', h2⟩ := bind_eq_ok h2
  rw [hs] at hs'
  cases hs'
  rw [hn] at hn'
  cases hn'
  split at h1
  · split at h1
    · obtain ⟨r, _, h1⟩ := bind_eq_ok h1
      simp only at h2
      obtain ⟨r', _, h2⟩ := bind_eq_ok h2
      cases h1
      cases h2
      rfl
    · cases h1
  · cases h1
  · cases h1

/-- Where the file is read, for a position. -/
def wrapPos (F : Bytes) (x : Int) : Nat := ((x + F.length) % (F.length : Int)).toNat

/-- What is read at a position: the dictionary is that of the position in the file. -/
theorem readSection_where {x sp ep la : Int} {s : Section} {d : Dict} {b : Bytes} (h : readSection (.single F) x sp ep la = .ok (s, d, b)) :
    b = F ∧ F.length ≠ 0 ∧ ((slice F (wrapPos F x) (wrapPos F x + 4) = b!"xref" ∧ ∃ t o, readTableSection F (wrapPos F x) = .ok (t, o, .dict d)) ∨
      (slice F (wrapPos F x) (wrapPos F x + 4) ≠ b!"xref" ∧ ∃ t o, readStreamSection F (wrapPos F x) x = .ok (t, o, .dict d))) := by
  unfold readSection Provider.read at h
  by_cases h0 : F.length = 0
  · simp only [if_pos h0] at h
    cases h
  simp only [if_neg h0] at h
  have hp : natPos ((x + F.length) % (F.length : Int)) = .ok (wrapPos F x) := by
    unfold natPos wrapPos
    rw [if_neg (by have := Int.emod_nonneg (x + F.length) (show (F.length : Int) ≠ 0 by omega); omega)]
  obtain ⟨r0, e0, h⟩ := bind_eq_ok h
  cases e0
  simp only [hp] at h
  obtain ⟨a, e1, h⟩ := bind_eq_ok h
  cases e1
  obtain ⟨⟨b', t, o, tr⟩, e2, h⟩ := bind_eq_ok h
  simp only at h
  split at h
  · cases h
    by_cases hx : slice F (wrapPos F x) (wrapPos F x + 4) = b!"xref"
    · rw [if_pos hx] at e2
      obtain ⟨r, e3, e2⟩ := bind_eq_ok e2
      cases e2
      exact ⟨rfl, h0, .inl ⟨hx, t, o, e3⟩⟩
    · rw [if_neg hx] at e2
      obtain ⟨r0, e4, e2⟩ := bind_eq_ok e2
      cases e4
      obtain ⟨a, e5, e2⟩ := bind_eq_ok e2
      simp only [hp] at e5
      cases e5
      obtain ⟨r, e3, e2⟩ := bind_eq_ok e2
      cases e2
      exact ⟨rfl, h0, .inr ⟨hx, t, o, e3⟩⟩
  · cases h

theorem readSection_dict {x y sp sp' ep ep' la la' : Int} {s s' : Section} {d d' : Dict} {b b' : Bytes}
    (h1 : readSection (.single F) x sp ep la = .ok (s, d, b)) (h2 : readSection (.single F) y sp' ep' la' = .ok (s', d', b'))
    (hxy : wrapPos F x = wrapPos F y) : d = d' := by
  obtain ⟨_, _, h1⟩ := readSection_where h1
  obtain ⟨_, _, h2⟩ := readSection_where h2
  rw [← hxy] at h2
  rcases h1 with ⟨g1, t, o, h1⟩ | ⟨g1, t, o, h1⟩ <;> rcases h2 with ⟨g2, t', o', h2⟩ | ⟨g2, t', o', h2⟩
  · rw [h1] at h2
    cases h2
    rfl
  · exact absurd g1 g2
  · exact absurd g2 g1
  · exact Obj.dict.inj (streamSection_dict h1 h2)

/-- The positions that the section read at `r` gives. -/
def Gives (F : Bytes) (r : Nat) (st : Int × Int) : Prop :=
  ∃ x sp ep la s d b stm, wrapPos F x = r ∧ readSection (.single F) x sp ep la = .ok (s, d, b) ∧ nextSections d 0 0 = .ok (stm, st.1, st.2)

theorem Gives.unique {r : Nat} {st st' : Int × Int} (h1 : Gives F r st) (h2 : Gives F r st') : st = st' := by
  obtain ⟨x, sp, ep, la, s, d, b, stm, g1, g2, g3⟩ := h1
  obtain ⟨x', sp', ep', la', s', d', b', stm', g1', g2', g3'⟩ := h2
  have := readSection_dict g2 g2' (g1.trans g1'.symm)
  subst this
  rw [g3] at g3'
  have e := Except.ok.inj g3'
  have e := Prod.ext_iff.mp e
  exact e.2

theorem Gives.lt {r : Nat} {st : Int × Int} (h : Gives F r st) : r < F.length := by
  obtain ⟨x, sp, ep, la, s, d, b, stm, g1, g2, g3⟩ := h
  obtain ⟨_, h0, _⟩ := readSection_where g2
  rw [← g1]
  unfold wrapPos
  have a := Int.emod_nonneg (x + F.length) (show (F.length : Int) ≠ 0 by omega)
  have b := Int.emod_lt_of_pos (x + F.length) (show (0 : Int) < F.length by omega)
  omega

/-- A turn of the loop, on the positions that are left. -/
def Turn (F : Bytes) (st st' : Int × Int) : Prop :=
  ¬ (st.1 = 0 ∧ st.2 = 0) ∧ ∃ s, chainTurn (.single F) F st.1 st.2 = .ok (s, F, st'.1, st'.2)

theorem turn_buffer {p x p' x' : Int} {s : Section} {b : Bytes} (h : chainTurn (.single F) F p x = .ok (s, b, p', x')) : b = F := by
  unfold chainTurn at h
  obtain ⟨n, _, h⟩ := bind_eq_ok h
  obtain ⟨⟨s', d, b'⟩, e, h⟩ := bind_eq_ok h
  obtain ⟨⟨stm, q, y⟩, _, h⟩ := bind_eq_ok h
  cases h
  exact (readSection_where e).1

/-- What a turn leaves: what the section says, or the position that was waiting. -/
theorem turn_state {st st' : Int × Int} (h : Turn F st st') : (∃ r, Gives F r st') ∨ (st.2 ≠ 0 ∧ st' = (st.1, 0)) := by
  obtain ⟨hne, s, h⟩ := h
  unfold chainTurn at h
  obtain ⟨n, _, h⟩ := bind_eq_ok h
  obtain ⟨⟨s', d, b'⟩, e, h⟩ := bind_eq_ok h
  obtain ⟨⟨stm, q, y⟩, e2, h⟩ := bind_eq_ok h
  cases h
  by_cases hp : (if st.2 ≠ 0 then st.1 else 0) = 0
  · rw [hp] at e2
    exact .inl ⟨_, _, _, _, _, _, _, _, stm, rfl, e, e2⟩
  · right
    unfold nextSections at e2
    rw [if_neg (fun h => hp h.2)] at e2
    have e := Except.ok.inj e2
    injection e with _ e
    by_cases h2 : st.2 ≠ 0
    · rw [if_pos h2] at e
      exact ⟨h2, e.symm⟩
    · exact absurd (if_neg h2) hp

theorem Reached.trans {fdata : Provider} {a b c : Bytes × Int × Int} (h : Reached fdata a b) (h2 : Reached fdata b c) : Reached fdata a c := by
  induction h2 with
  | start => exact h
  | turn _ hne ht ih => exact .turn ih hne ht

/-- The codes of the states of a run from `st`. -/
def Coded (F : Bytes) (st : Int × Int) (c : Nat) (s : Int × Int) : Prop :=
  (c < F.length ∧ Gives F c s) ∨ (∃ r s', r < F.length ∧ c = F.length + r ∧ Gives F r s' ∧ s = (s'.1, 0)) ∨
    (c = 2 * F.length ∧ s = (st.1, 0)) ∨ (c = 2 * F.length + 1 ∧ s = st)

theorem Coded.unique {st s s' : Int × Int} {c : Nat} (h : Coded F st c s) (h' : Coded F st c s') : s = s' := by
  rcases h with ⟨a, h⟩ | ⟨r, t, a, b, h, rfl⟩ | ⟨a, rfl⟩ | ⟨a, rfl⟩ <;>
    rcases h' with ⟨a', h'⟩ | ⟨r', t', a', b', h', rfl⟩ | ⟨a', rfl⟩ | ⟨a', rfl⟩ <;> try omega
  · exact h.unique h'
  · have : r = r' := by omega
    subst this
    rw [h.unique h']
  · rfl
  · rfl

/-- The states of a run have codes. -/
theorem coded {f : Nat → Int × Int} : ∀ {k : Nat}, (∀ i, i < k → Turn F (f i) (f (i + 1))) →
    (∃ c, c < 2 * F.length + 2 ∧ Coded F (f 0) c (f k)) ∧ ((f k).2 ≠ 0 → k = 0 ∨ ∃ r, Gives F r (f k))
  | 0, _ => ⟨⟨2 * F.length + 1, by omega, .inr (.inr (.inr ⟨rfl, rfl⟩))⟩, fun _ => .inl rfl⟩
  | k + 1, h => by
    rcases turn_state (h k (by omega)) with ⟨r, hr⟩ | ⟨h2, he⟩
    · exact ⟨⟨r, by have := hr.lt; omega, .inl ⟨hr.lt, hr⟩⟩, fun _ => .inr ⟨r, hr⟩⟩
    · refine ⟨?_, fun hne => absurd (by rw [he]) hne⟩
      rcases (coded (k := k) fun i hi => h i (by omega)).2 h2 with rfl | ⟨r, hr⟩
      · exact ⟨2 * F.length, by omega, .inr (.inr (.inl ⟨rfl, he⟩))⟩
      · exact ⟨F.length + r, by have := hr.lt; omega, .inr (.inl ⟨r, f k, hr.lt, rfl, hr, he⟩)⟩

theorem reached_path {f : Nat → Int × Int} {k : Nat} (h : ∀ i, i < k → Turn F (f i) (f (i + 1))) (i : Nat) : ∀ j, i ≤ j → j ≤ k →
    Reached (.single F) (F, f i) (F, f j)
  | 0, hi, hj => by
    cases (show i = 0 by omega)
    exact .start
  | j + 1, hi, hj => by
    by_cases e : i = j + 1
    · subst e
      exact .start
    · obtain ⟨hne, s, ht⟩ := h j (by omega)
      exact .turn (reached_path h i j (by omega) (by omega)) hne ht

/-- A run that has not ended is a path, or meets a section whose reading does not end. -/
theorem loop_path : ∀ (fuel : Nat) (st : Int × Int), chainLoop (.single F) fuel F st.1 st.2 = .error .nonterm →
    (∃ s1, Reached (.single F) (F, st) (F, s1) ∧ ¬ (s1.1 = 0 ∧ s1.2 = 0) ∧ chainTurn (.single F) F s1.1 s1.2 = .error .nonterm) ∨
      ∃ f : Nat → Int × Int, f 0 = st ∧ ∀ i, i < fuel → Turn F (f i) (f (i + 1))
  | 0, st, _ => .inr ⟨fun _ => st, rfl, fun i hi => by omega⟩
  | fuel + 1, st, h => by
    unfold chainLoop at h
    split at h
    · cases h
    rename_i hne
    rcases ht : chainTurn (.single F) F st.1 st.2 with e | ⟨s, b2, p2, x2⟩
    · rw [ht] at h
      cases h
      exact .inl ⟨st, .start, hne, ht⟩
    · have hb := (turn_buffer ht).symm
      subst hb
      rw [ht] at h
      have h' : chainLoop (.single F) fuel F p2 x2 = .error .nonterm := by
        rcases hl : chainLoop (.single F) fuel F p2 x2 with e | l
        · simp only [Bind.bind, Except.bind, hl] at h
          exact h
        · simp only [Bind.bind, Except.bind, hl] at h
          cases h
      rcases loop_path fuel (p2, x2) h' with ⟨s1, g1, g2⟩ | ⟨f, hf, g⟩
      · exact .inl ⟨s1, Reached.trans (.turn .start hne ht) g1, g2⟩
      · refine .inr ⟨fun i => match i with | 0 => st | i + 1 => f i, rfl, fun i hi => ?_⟩
        cases i with
        | zero =>
          refine ⟨hne, s, ?_⟩
          simp only [hf]
          exact ht
        | succ i => exact g i (by omega)

theorem reached_buffer {st : Int × Int} {t : Bytes × Int × Int} (h : Reached (.single F) (F, st) t) : t.1 = F := by
  induction h with
  | start => rfl
  | turn _ _ ht ih =>
    cases ih
    exact turn_buffer ht

/-- A state that comes back to itself. -/
def ComesBack (F : Bytes) (s : Int × Int) : Prop := ∃ s2, Turn F s s2 ∧ Reached (.single F) (F, s2) (F, s)

/-- The first turn of a run. -/
theorem reached_head {a b : Bytes × Int × Int} (h : Reached (.single F) a b) (ha : a.1 = F) :
    a = b ∨ ∃ s2, Turn F a.2 s2 ∧ Reached (.single F) (F, s2) b := by
  induction h with
  | start => exact .inl rfl
  | @turn b' b'' p p' x x' s hr hne ht ih =>
    have hb : b' = F := by
      obtain ⟨a1, a2⟩ := a
      cases ha
      exact reached_buffer hr
    obtain rfl := hb.symm
    have hb2 := (turn_buffer ht).symm
    subst hb2
    rcases ih with rfl | ⟨s2, g1, g2⟩
    · exact .inr ⟨(p', x'), ⟨hne, s, ht⟩, .start⟩
    · exact .inr ⟨s2, g1, .turn g2 hne ht⟩

theorem ComesBack.next {s s2 : Int × Int} (h : ComesBack F s) (ht : Turn F s s2) : ComesBack F s2 := by
  obtain ⟨s3, h1, h2⟩ := h
  obtain ⟨hne, x, e⟩ := ht
  obtain ⟨_, y, e'⟩ := h1
  have e2 := e
  rw [e'] at e2
  have e3 := Prod.ext_iff.mp (Prod.ext_iff.mp (Except.ok.inj e2)).2
  have : s3 = s2 := e3.2
  subst this
  rcases reached_head h2 rfl with g | ⟨s4, g1, g2⟩
  · have : s3 = s := (Prod.ext_iff.mp g).2
    subst this
    exact ⟨s3, ⟨hne, x, e⟩, .start⟩
  · exact ⟨s4, g1, .turn g2 hne e⟩

theorem comesBack_nonterm : ∀ (fuel : Nat) (s : Int × Int), ComesBack F s → chainLoop (.single F) fuel F s.1 s.2 = .error .nonterm
  | 0, _, _ => rfl
  | fuel + 1, s, h => by
    obtain ⟨s2, ht, hr⟩ := id h
    have hn := comesBack_nonterm fuel s2 (h.next ht)
    obtain ⟨hne, x, e⟩ := ht
    unfold chainLoop
    rw [if_neg hne, e]
    simp only [Bind.bind, Except.bind, hn]

/-- A run that leads to one that does not end does not end. -/
theorem reached_nonterm {st : Int × Int} {t : Bytes × Int × Int} (h : Reached (.single F) (F, st) t)
    (hn : ∀ fuel, chainLoop (.single F) fuel t.1 t.2.1 t.2.2 = .error .nonterm) (fuel : Nat) :
    chainLoop (.single F) fuel F st.1 st.2 = .error .nonterm := by
  induction h generalizing fuel with
  | start => exact hn fuel
  | turn hr hne ht ih =>
    refine ih (fun fuel => ?_) fuel
    cases fuel with
    | zero => rfl
    | succ fuel =>
      unfold chainLoop
      rw [if_neg hne, ht]
      simp only [Bind.bind, Except.bind, hn fuel]

/-- **C60, exactly**: the loop over the sections of a file of `n` bytes never ends if and only if it meets a section
that leads back to itself, or one whose reading does not end; and it is enough to look at its first `2 n + 2` turns:
a loop that ends does so within them. -/
theorem C60_exact_partial (F : Bytes) (p x : Int) :
    ((∀ fuel, chainLoop (.single F) fuel F p x = .error .nonterm) ↔
      (∃ s p1 x1 p2 x2, Reached (.single F) (F, p, x) (F, p1, x1) ∧ ¬ (p1 = 0 ∧ x1 = 0) ∧
        chainTurn (.single F) F p1 x1 = .ok (s, F, p2, x2) ∧ Reached (.single F) (F, p2, x2) (F, p1, x1)) ∨
      (∃ p1 x1, Reached (.single F) (F, p, x) (F, p1, x1) ∧ ¬ (p1 = 0 ∧ x1 = 0) ∧ chainTurn (.single F) F p1 x1 = .error .nonterm)) ∧
    (∀ fuel, 2 * F.length + 2 ≤ fuel → chainLoop (.single F) fuel F p x = .error .nonterm →
      ∀ fuel, chainLoop (.single F) fuel F p x = .error .nonterm) := by
  have key : ∀ fuel, 2 * F.length + 2 ≤ fuel → chainLoop (.single F) fuel F p x = .error .nonterm →
      (∃ s p1 x1 p2 x2, Reached (.single F) (F, p, x) (F, p1, x1) ∧ ¬ (p1 = 0 ∧ x1 = 0) ∧
        chainTurn (.single F) F p1 x1 = .ok (s, F, p2, x2) ∧ Reached (.single F) (F, p2, x2) (F, p1, x1)) ∨
      (∃ p1 x1, Reached (.single F) (F, p, x) (F, p1, x1) ∧ ¬ (p1 = 0 ∧ x1 = 0) ∧ chainTurn (.single F) F p1 x1 = .error .nonterm) := by
    intro fuel hf h
    rcases loop_path fuel (p, x) h with ⟨s1, g1, g2, g3⟩ | ⟨f, hf0, g⟩
    · exact .inr ⟨s1.1, s1.2, g1, g2, g3⟩
    · have hc : ∀ k, k ≤ 2 * F.length + 2 → ∃ c, c < 2 * F.length + 2 ∧ Coded F (f 0) c (f k) :=
        fun k hk => (coded (k := k) fun i hi => g i (by omega)).1
      obtain ⟨i, j, h1, h2, h3⟩ := pigeonhole (2 * F.length + 2)
        (fun k => if hk : k ≤ 2 * F.length + 2 then Classical.choose (hc k hk) else 0)
        (by
          intro k hk
          simp only [dif_pos hk]
          exact (Classical.choose_spec (hc k hk)).1)
      have hi : i ≤ 2 * F.length + 2 := by omega
      simp only [dif_pos hi, dif_pos h2] at h3
      have hij : f i = f j := by
        have a := (Classical.choose_spec (hc i hi)).2
        have b := (Classical.choose_spec (hc j h2)).2
        rw [← h3] at b
        exact a.unique b
      obtain ⟨hne, s, ht⟩ := g i (by omega)
      have r1 := reached_path g 0 i (by omega) (by omega)
      have r2 := reached_path g (i + 1) j (by omega) (by omega)
      rw [hf0] at r1
      rw [← hij] at r2
      exact .inl ⟨s, _, _, _, _, r1, hne, ht, r2⟩
  have back : ((∃ s p1 x1 p2 x2, Reached (.single F) (F, p, x) (F, p1, x1) ∧ ¬ (p1 = 0 ∧ x1 = 0) ∧
        chainTurn (.single F) F p1 x1 = .ok (s, F, p2, x2) ∧ Reached (.single F) (F, p2, x2) (F, p1, x1)) ∨
      (∃ p1 x1, Reached (.single F) (F, p, x) (F, p1, x1) ∧ ¬ (p1 = 0 ∧ x1 = 0) ∧ chainTurn (.single F) F p1 x1 = .error .nonterm)) →
      ∀ fuel, chainLoop (.single F) fuel F p x = .error .nonterm := by
    rintro (⟨s, p1, x1, p2, x2, r1, hne, ht, r2⟩ | ⟨p1, x1, r1, hne, ht⟩) fuel
    · exact reached_nonterm (st := (p, x)) r1 (fun fuel => comesBack_nonterm fuel (p1, x1) ⟨(p2, x2), ⟨hne, s, ht⟩, r2⟩) fuel
    · refine reached_nonterm (st := (p, x)) r1 (fun fuel => ?_) fuel
      cases fuel with
      | zero => rfl
      | succ fuel =>
        unfold chainLoop
        rw [if_neg hne, ht]
        rfl
  exact ⟨⟨fun h => key _ (Nat.le_refl _) (h _), back⟩, fun fuel hf h => back (key fuel hf h)⟩

omit [Zlib] in
theorem bind_error_imp {α β γ : Type} {x : Py α} {f : α → Py β} {g : α → Py γ} {e : PyErr} (h : (x >>= f) = .error e)
    (hi : ∀ a, x = .ok a → f a = .error e → g a = .error e) : (x >>= g) = .error e := by
  rcases x with e' | a
  · have h : (.error e' : Py β) = .error e := h
    cases h
    rfl
  · exact hi a rfl h

/-- **C60, the fuel of the model is enough**: when the loading of the sections of a file is said not to end, no number
of turns makes it end. -/
theorem C60_fuel_partial (F : Bytes) (h : xrefSections (.single F) F.length = .error .nonterm) (m : Nat) :
    xrefSections (.single F) m = .error .nonterm := by
  unfold xrefSections at h ⊢
  refine bind_error_imp h fun ⟨b, a0, o, n⟩ _ h => ?_
  refine bind_error_imp h fun a _ h => ?_
  refine bind_error_imp h fun x _ h => ?_
  refine bind_error_imp h fun ⟨s, tr, b1⟩ h3 h => ?_
  refine bind_error_imp h fun ⟨stm, p, y⟩ h4 h => ?_
  obtain rfl := (readSection_where h3).1.symm
  rcases h5 : chainLoop (.single F) (4 * F.length + 4) F p y with e | l
  · simp only [h5] at h
    cases h
    simp only [(C60_exact_partial F p y).2 _ (by omega) h5 (4 * m + 4)]
    rfl
  · simp only [h5] at h
    cases h

end

/-- The file of the counterexample meets both: its section leads back to itself. -/
example [Zlib] : ∃ s p1 x1 p2 x2, Reached (.single cycleFile) (cycleFile, 45, 0) (cycleFile, p1, x1) ∧ ¬ (p1 = 0 ∧ x1 = 0) ∧
    chainTurn (.single cycleFile) cycleFile p1 x1 = .ok (s, cycleFile, p2, x2) ∧
      Reached (.single cycleFile) (cycleFile, p2, x2) (cycleFile, p1, x1) := by
  have h := ((C60_exact_partial cycleFile 45 0).1).mp C60_counterexample.1
  rcases h with h | ⟨p1, x1, hr, _, ht⟩
  · exact h
  · have hall : ∀ t, Reached (.single cycleFile) (cycleFile, 45, 0) t → t = (cycleFile, 45, 0) := by
      intro t ht
      have key : (chainTurn (.single cycleFile) cycleFile 45 0).map (fun r => r.2) = .ok (cycleFile, 45, 0) := by kernel_rfl
      induction ht with
      | start => rfl
      | turn _ _ ht ih =>
        cases ih
        rw [ht] at key
        simpa [Except.map] using key
    have e := hall _ hr
    cases e
    have key : (chainTurn (.single cycleFile) cycleFile 45 0).map (fun r => r.2) = .ok (cycleFile, 45, 0) := by kernel_rfl
    rw [ht] at key
    cases key

/-- A file whose loop ends: no section leads back to itself. -/
example [Zlib] : ¬ ∀ fuel, chainLoop (.single mapFile) fuel mapFile 63 0 = .error .nonterm := by
  intro h
  have key : (chainLoop (.single mapFile) 2 mapFile 63 0).map (fun r => r.length) = .ok 1 := by kernel_rfl
  rw [h 2] at key
  cases key

end Pdf
