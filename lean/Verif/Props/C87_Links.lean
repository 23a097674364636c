/-
C87: the links of markdown texts (markdown.py:26-52 `link`).
-/
import Verif.Lemmas.Markdown
import Verif.Lemmas.KernelRfl
import Verif.Lemmas.Revision

namespace Pdf

/-- Lengths. -/
macro "lens" : tactic => `(tactic| ((try simp only [List.length_append, List.length_cons, List.length_nil]) <;> omega))

/-- Every `](` is followed by a `)`. -/
def LinksClosed (s : Bytes) : Prop := ∀ f, b!"](" <+: s.drop f → 41 ∈ s.drop f

theorem mem_drop_iff {s : Bytes} {c : UInt8} {f : Nat} : c ∈ s.drop f ↔ ∃ k, f ≤ k ∧ s[k]? = some c := by
  constructor
  · intro h
    obtain ⟨j, hj⟩ := List.mem_iff_getElem?.1 h
    rw [List.getElem?_drop] at hj
    exact ⟨f + j, by omega, hj⟩
  · rintro ⟨k, h1, h2⟩
    refine List.mem_iff_getElem?.2 ⟨k - f, ?_⟩
    rw [List.getElem?_drop, Nat.add_sub_cancel' h1]
    exact h2

/-- What one turn of the loop does to `i`. -/
theorem linkStep_i {s : Bytes} {st st' : LinkState} (h : linkStep s st = some st') :
    ∃ f, st.i ≤ f ∧ b!"](" <+: s.drop f ∧ (∀ j, st.i ≤ j → j < f → ¬ b!"](" <+: s.drop j) ∧ st'.j = st'.i ∧
      ((∃ k, f ≤ k ∧ s[k]? = some 41 ∧ (∀ j, f ≤ j → j < k → s[j]? ≠ some 41) ∧ st'.i = k + 1) ∨ (41 ∉ s.drop f ∧ st'.i = 0)) := by
  unfold linkStep at h
  split at h
  · cases hf : find s b!"](" st.i with
    | none => rw [hf] at h; cases h
    | some f =>
      rw [hf] at h
      obtain ⟨f1, f2, f3⟩ := find_some (by simp) hf
      refine ⟨f, f1, f2, f3, ?_⟩
      have hi : st'.j = st'.i ∧ st'.i = match find s b!")" f with | some x => x + 1 | none => 0 := by
        simp only at h
        split at h <;> split at h <;> cases h <;> exact ⟨rfl, rfl⟩
      refine ⟨hi.1, ?_⟩
      have hi := hi.2
      cases hc : find s b!")" f with
      | some k =>
        rw [hc] at hi
        obtain ⟨k1, k2, k3⟩ := find_some (by simp) hc
        exact .inl ⟨k, k1, single_prefix.1 k2, fun j h1 h2 h3 => k3 j h1 h2 (single_prefix.2 h3), hi⟩
      | none =>
        rw [hc] at hi
        refine .inr ⟨?_, hi⟩
        intro hm
        obtain ⟨k, k1, k2⟩ := mem_drop_iff.1 hm
        exact find_none (by simp) hc k k1 (single_prefix.2 k2)
  · cases h

theorem linkStep_none {s : Bytes} {st : LinkState} (h : linkStep s st = none) (f : Nat) (hf : st.i ≤ f) : ¬ b!"](" <+: s.drop f := by
  unfold linkStep at h
  split at h
  · cases hs : find s b!"](" st.i with
    | none => exact find_none (by simp) hs f hf
    | some k =>
      rw [hs] at h
      simp only at h
      split at h <;> split at h <;> cases h
  · rename_i hlt
    rw [List.drop_eq_nil_of_le (by omega)]
    intro hp
    exact absurd (List.prefix_nil.1 hp) (by simp)

theorem drop_prefix_lt {p s : Bytes} (hp : p ≠ []) {f : Nat} (h : p <+: s.drop f) : f < s.length := by
  rcases Nat.lt_or_ge f s.length with h' | h'
  · exact h'
  · rw [List.drop_eq_nil_of_le h'] at h
    exact absurd (List.prefix_nil.1 h) hp

theorem linkLoop_never {s : Bytes} {f0 : Nat} (hf : b!"](" <+: s.drop f0) (hc : 41 ∉ s.drop f0) : ∀ (fuel : Nat) (st : LinkState),
    st.i ≤ f0 → linkLoop s fuel st = .error .nonterm
  | 0, _, _ => rfl
  | fuel + 1, st, hi => by
    unfold linkLoop
    cases hs : linkStep s st with
    | none => exact absurd hf (linkStep_none hs f0 hi)
    | some st' =>
      refine linkLoop_never hf hc fuel st' ?_
      obtain ⟨f, h1, h2, h3, -, ⟨k, k1, k2, -, k3⟩ | ⟨-, k⟩⟩ := linkStep_i hs
      · rw [k3]
        rcases Nat.lt_or_ge k f0 with h | h
        · exact h
        · exact absurd (mem_drop_iff.2 ⟨k, h, k2⟩) hc
      · omega

theorem linkLoop_ends {s : Bytes} (hc : LinksClosed s) : ∀ (fuel : Nat) (st : LinkState), s.length - st.i < fuel →
    ∃ r, linkLoop s fuel st = .ok r
  | 0, st, h => by omega
  | fuel + 1, st, h => by
    unfold linkLoop
    cases hs : linkStep s st with
    | none => exact ⟨_, rfl⟩
    | some st' =>
      obtain ⟨f, h1, h2, h3, -, ⟨k, k1, k2, -, k3⟩ | ⟨k, -⟩⟩ := linkStep_i hs
      · exact linkLoop_ends hc fuel st' (by have := lt_of_getElem? k2; omega)
      · exact absurd (hc f h2) k
/-- **C87, stops.** The loop of `link` ends exactly when every `](` is followed by a `)`; otherwise it goes round for
ever. -/
theorem C87_stops (s : Bytes) : (∃ fuel r, linkLoop s fuel {} = .ok r) ↔ LinksClosed s := by
  constructor
  · rintro ⟨fuel, r, h⟩ f hf
    refine Classical.byContradiction fun hc => ?_
    rw [linkLoop_never hf hc fuel {} (Nat.zero_le _)] at h
    cases h
  · intro h
    exact ⟨s.length + 1, linkLoop_ends h _ _ (by simp)⟩

/-- The number of turns that the model allows is enough. -/
theorem C87_fuel (s : Bytes) : (∃ r, link s = .ok r) ↔ LinksClosed s := by
  constructor
  · rintro ⟨r, h⟩
    exact (C87_stops s).1 ⟨_, r, h⟩
  · intro h
    exact linkLoop_ends h _ _ (by simp)

/-- `link` does not end on every text. -/
theorem C87_loop_counterexample (fuel : Nat) : linkLoop b!"see [1](2" fuel {} = .error .nonterm :=
  linkLoop_never (f0 := 6) (by decide) (by decide) fuel {} (by decide)

/-! ### What is shown -/

/-- A part of a text. -/
inductive MdSpan
  | text (s : Bytes)
  | link (label url : Bytes)
  | image (alt url : Bytes)

/-- How it is written. -/
def MdSpan.source : MdSpan → Bytes
  | .text s => s
  | .link l u => b!"[" ++ l ++ b!"](" ++ u ++ b!")"
  | .image a u => b!"![" ++ a ++ b!"](" ++ u ++ b!")"

/-- A link to a markdown file leads to the page made of it. -/
def pageUrl (u : Bytes) : Bytes := if b!".md" <:+ u then u.take (u.length - 3) ++ b!".html" else u

/-- How it is shown. -/
def MdSpan.html : MdSpan → Bytes
  | .text s => s
  | .link l u => b!"<a href='" ++ pageUrl u ++ b!"'>" ++ l ++ b!"</a>"
  | .image a u => b!"<img src='" ++ u ++ b!"' alt='" ++ a ++ b!"'>"

/-- No brackets but those of the links and the images, and no `!` at the end of a text. -/
def MdSpan.Good : MdSpan → Prop
  | .text s => 91 ∉ s ∧ 93 ∉ s ∧ s.getLast? ≠ some 33
  | .link l u => 91 ∉ l ∧ 93 ∉ l ∧ 41 ∉ u
  | .image a u => 91 ∉ a ∧ 93 ∉ a ∧ 41 ∉ u

theorem source_link (l u : Bytes) : (MdSpan.source (.link l u)).getLast? = some 41 := List.getLast?_concat

theorem source_image (l u : Bytes) : (MdSpan.source (.image l u)).getLast? = some 41 := List.getLast?_concat

theorem source_last : ∀ (ps : List MdSpan), (∀ p ∈ ps, p.Good) → (ps.flatMap MdSpan.source).getLast? ≠ some 33
  | [], _ => by simp
  | p :: ps, h => by
    have ih := source_last ps fun q hq => h q (List.mem_cons_of_mem _ hq)
    rw [List.flatMap_cons, List.getLast?_append]
    cases hl : (ps.flatMap MdSpan.source).getLast? with
    | some c => rw [hl] at ih; exact ih
    | none =>
      simp only [Option.none_or]
      have := h p (List.mem_cons_self ..)
      cases p with
      | text s => exact this.2.2
      | link l u => rw [source_link]; simp
      | image l u => rw [source_image]; simp

theorem pageUrl_eq (u : Bytes) : (if lastN u 3 = b!".md" then pySlice u 0 (-3) ++ b!".html" else u) = pageUrl u := by
  unfold pageUrl
  have h3 : pySlice u 0 (-3) = u.take (u.length - 3) := by
    have a1 : sliceBound u.length (-3) = u.length - 3 := by unfold sliceBound; split <;> omega
    have a2 : sliceBound u.length 0 = 0 := by unfold sliceBound; split <;> omega
    rw [pySlice, a1, a2]
    rfl
  rw [h3]
  by_cases h : b!".md" <:+ u
  · rw [if_pos h, if_pos]
    obtain ⟨v, rfl⟩ := h
    simp [lastN]
  · rw [if_neg h, if_neg]
    intro hh
    exact h ⟨u.take (u.length - 3), by rw [← hh]; exact List.take_append_drop _ _⟩

/-- The invariant: `D` is done, `A` is the text since. -/
theorem linkLoop_spans : ∀ (ps : List MdSpan) (fuel : Nat) (D A res s : Bytes), (∀ p ∈ ps, p.Good) → s = D ++ (A ++ ps.flatMap MdSpan.source) →
    91 ∉ A → 93 ∉ A → A.getLast? ≠ some 33 → D.getLast? ≠ some 33 → (ps.flatMap MdSpan.source).length < fuel →
    linkLoop s fuel ⟨D.length, D.length, res⟩ = .ok (res ++ (A ++ ps.flatMap MdSpan.html))
  | [], fuel + 1, D, A, res, s, _, hs, h91, h93, _, _, _ => by
    have : linkStep s ⟨D.length, D.length, res⟩ = none := by
      unfold linkStep
      split
      · rw [find_eq_none (by simp)]
        intro j hj ⟨t, ht⟩
        apply h93
        rw [hs, List.flatMap_nil, List.append_nil, List.drop_append, List.drop_eq_nil_of_le hj, List.nil_append] at ht
        exact List.mem_of_mem_drop (i := j - D.length) (by rw [← ht]; simp)
      · rfl
    unfold linkLoop
    rw [this]
    simp [hs]
  | .text t :: ps, fuel + 1, D, A, res, s, hg, hs, h91, h93, hA, hD, hfuel => by
    obtain ⟨g1, g2, g3⟩ := hg (.text t) (List.mem_cons_self ..)
    have := linkLoop_spans ps (fuel + 1) D (A ++ t) res s (fun q hq => hg q (List.mem_cons_of_mem _ hq))
      (by rw [hs, List.flatMap_cons, List.append_assoc]; rfl) (by simp [h91, g1]) (by simp [h93, g2])
      (by
        rw [List.getLast?_append]
        cases hl : t.getLast? with
        | none => simpa using hA
        | some c => rw [hl] at g3; simpa using g3) hD (by rw [List.flatMap_cons, List.length_append] at hfuel; omega)
    rw [this, List.flatMap_cons, List.append_assoc]
    rfl
  | .link l u :: ps, fuel + 1, D, A, res, s, hg, hs, h91, h93, hA, hD, hfuel => by
    obtain ⟨g1, g2, g3⟩ := hg (.link l u) (List.mem_cons_self ..)
    have hg' := fun q hq => hg q (List.mem_cons_of_mem _ hq)
    have hs1 : s = D ++ (A ++ (b!"[" ++ (l ++ (b!"](" ++ (u ++ (b!")" ++ ps.flatMap MdSpan.source)))))) := by
      rw [hs, List.flatMap_cons]
      simp [MdSpan.source]
    have e1 : find s b!"](" D.length = some (D.length + (A.length + 1 + l.length)) := by
      rw [find_skip (A := A ++ (b!"[" ++ l)) (rest := u ++ (b!")" ++ ps.flatMap MdSpan.source)) rfl (by rw [hs1]; simp)
        (by simp [h93, g2])]
      congr 1
      lens
    have e2 : find s b!"[" D.length = some (D.length + A.length) := find_skip rfl hs1 h91
    have e3 : find s b!")" (D.length + (A.length + 1 + l.length)) = some (D.length + (A.length + 1 + l.length) + (2 + u.length)) := by
      have := find_skip (D := D ++ (A ++ (b!"[" ++ l))) (A := b!"](" ++ u) (s := s) (rest := ps.flatMap MdSpan.source) (p := b!")") rfl
        (by rw [hs1]; simp) (by simp [g3])
      simp only [List.length_append, List.length_cons, List.length_nil] at this
      rw [show D.length + (A.length + 1 + l.length) = D.length + (A.length + (0 + 1 + l.length)) by omega, this]
    have e4 : pyItem s ((↑(D.length + A.length) + 1 : Int) - 2) ≠ some 33 := by
      unfold pyItem
      by_cases h0 : D.length + A.length = 0
      · rw [if_pos (by omega), h0]
        split
        · simp
        · intro h
          refine source_last (.link l u :: ps) hg ?_
          have hD0 : D = [] := List.length_eq_zero_iff.1 (by omega)
          have hA0 : A = [] := List.length_eq_zero_iff.1 (by omega)
          rw [hD0, hA0, List.nil_append, List.nil_append] at hs
          rw [← hs, List.getLast?_eq_getElem?, ← h]
          congr 1
          omega
      · rw [if_neg (by omega)]
        intro h
        have hlast : (D ++ A).getLast? = some 33 := by
          have hk : ((↑(D.length + A.length) + 1 : Int) - 2).toNat = (D ++ A).length - 1 := by lens
          rw [hk, hs, ← List.append_assoc] at h
          rw [List.getLast?_eq_getElem?]
          rw [List.getElem?_append_left (by lens)] at h
          exact h
        rw [List.getLast?_append] at hlast
        cases hl : A.getLast? with
        | none => rw [hl] at hlast; exact hD (by simpa using hlast)
        | some c => rw [hl] at hlast hA; exact hA (by simpa using hlast)
    have e5 : linkStep s ⟨D.length, D.length, res⟩ = some ⟨(D ++ (A ++ MdSpan.source (.link l u))).length, (D ++ (A ++ MdSpan.source (.link l u))).length,
        res ++ A ++ MdSpan.html (.link l u)⟩ := by
      unfold linkStep
      rw [if_pos (by rw [hs1]; lens)]
      simp only [e1, e2, e3]
      rw [if_neg e4]
      have q1 : pySlice s ((↑(D.length + (A.length + 1 + l.length)) : Int) + 2) ((↑(D.length + (A.length + 1 + l.length) + (2 + u.length) + 1) : Int) - 1) = u :=
        pySlice_mid (A := D ++ (A ++ (b!"[" ++ (l ++ b!"](")))) (B := u) (C := b!")" ++ ps.flatMap MdSpan.source) (by rw [hs1]; simp)
          (by lens) (by lens)
      have q2 : pySlice s (↑D.length : Int) ((↑(D.length + A.length) : Int) + 1 - 1) = A := pySlice_mid hs1 rfl (by lens)
      have q3 : pySlice s ((↑(D.length + A.length) : Int) + 1) (↑(D.length + (A.length + 1 + l.length)) : Int) = l :=
        pySlice_mid (A := D ++ (A ++ b!"[")) (B := l) (C := b!"](" ++ (u ++ (b!")" ++ ps.flatMap MdSpan.source))) (by rw [hs1]; simp)
          (by lens) (by lens)
      rw [q1, q2, q3]
      rw [pageUrl_eq]
      have hlen : (D ++ (A ++ MdSpan.source (.link l u))).length = D.length + (A.length + 1 + l.length) + (2 + u.length) + 1 := by
        unfold MdSpan.source; lens
      rw [hlen]
      simp [MdSpan.html]
    unfold linkLoop
    rw [e5]
    simp only
    rw [linkLoop_spans ps fuel (D ++ (A ++ MdSpan.source (.link l u))) [] _ s hg' (by rw [hs, List.flatMap_cons]; simp)
      (by simp) (by simp) (by simp) (by rw [List.getLast?_append, List.getLast?_append, source_link]; simp) (by rw [List.flatMap_cons, List.length_append, MdSpan.source] at hfuel; simp only [List.length_append, List.length_cons] at hfuel; omega)]
    simp
  | .image l u :: ps, fuel + 1, D, A, res, s, hg, hs, h91, h93, hA, hD, hfuel => by
    obtain ⟨g1, g2, g3⟩ := hg (.image l u) (List.mem_cons_self ..)
    have hg' := fun q hq => hg q (List.mem_cons_of_mem _ hq)
    have hs1 : s = D ++ (A ++ (b!"!" ++ (b!"[" ++ (l ++ (b!"](" ++ (u ++ (b!")" ++ ps.flatMap MdSpan.source))))))) := by
      rw [hs, List.flatMap_cons]
      simp [MdSpan.source]
    have e1 : find s b!"](" D.length = some (D.length + (A.length + 2 + l.length)) := by
      rw [find_skip (A := A ++ (b!"![" ++ l)) (rest := u ++ (b!")" ++ ps.flatMap MdSpan.source)) rfl (by rw [hs1]; simp)
        (by simp [h93, g2])]
      congr 1
      lens
    have e2 : find s b!"[" D.length = some (D.length + (A.length + 1)) := by
      rw [find_skip (A := A ++ b!"!") (rest := l ++ (b!"](" ++ (u ++ (b!")" ++ ps.flatMap MdSpan.source)))) rfl (by rw [hs1]; simp)
        (by simp [h91])]
      simp
    have e3 : find s b!")" (D.length + (A.length + 2 + l.length)) = some (D.length + (A.length + 2 + l.length) + (2 + u.length)) := by
      have := find_skip (D := D ++ (A ++ (b!"![" ++ l))) (A := b!"](" ++ u) (s := s) (rest := ps.flatMap MdSpan.source) (p := b!")") rfl
        (by rw [hs1]; simp) (by simp [g3])
      simp only [List.length_append, List.length_cons, List.length_nil] at this
      rw [show D.length + (A.length + 2 + l.length) = D.length + (A.length + (0 + 1 + 1 + l.length)) by omega, this]
    have e4 : pyItem s ((↑(D.length + (A.length + 1)) + 1 : Int) - 2) = some 33 := by
      unfold pyItem
      rw [if_neg (by omega), hs1, show ((↑(D.length + (A.length + 1)) + 1 : Int) - 2).toNat = D.length + A.length by omega,
        List.getElem?_append_right (by omega), List.getElem?_append_right (by omega)]
      simp
    have e5 : linkStep s ⟨D.length, D.length, res⟩ = some ⟨(D ++ (A ++ MdSpan.source (.image l u))).length, (D ++ (A ++ MdSpan.source (.image l u))).length,
        res ++ A ++ MdSpan.html (.image l u)⟩ := by
      unfold linkStep
      rw [if_pos (by rw [hs1]; lens)]
      simp only [e1, e2, e3]
      rw [if_pos e4]
      have q1 : pySlice s ((↑(D.length + (A.length + 2 + l.length)) : Int) + 2) ((↑(D.length + (A.length + 2 + l.length) + (2 + u.length) + 1) : Int) - 1) = u :=
        pySlice_mid (A := D ++ (A ++ (b!"![" ++ (l ++ b!"](")))) (B := u) (C := b!")" ++ ps.flatMap MdSpan.source) (by rw [hs1]; simp)
          (by lens) (by lens)
      have q2 : pySlice s (↑D.length : Int) ((↑(D.length + (A.length + 1)) : Int) + 1 - 2) = A := pySlice_mid hs1 rfl (by lens)
      have q3 : pySlice s ((↑(D.length + (A.length + 1)) : Int) + 1) (↑(D.length + (A.length + 2 + l.length)) : Int) = l :=
        pySlice_mid (A := D ++ (A ++ b!"![")) (B := l) (C := b!"](" ++ (u ++ (b!")" ++ ps.flatMap MdSpan.source))) (by rw [hs1]; simp)
          (by lens) (by lens)
      rw [q1, q2, q3]
      have hlen : (D ++ (A ++ MdSpan.source (.image l u))).length = D.length + (A.length + 2 + l.length) + (2 + u.length) + 1 := by
        unfold MdSpan.source; lens
      rw [hlen]
      simp [MdSpan.html]
    unfold linkLoop
    rw [e5]
    simp only
    rw [linkLoop_spans ps fuel (D ++ (A ++ MdSpan.source (.image l u))) [] _ s hg' (by rw [hs, List.flatMap_cons]; simp)
      (by simp) (by simp) (by simp) (by rw [List.getLast?_append, List.getLast?_append, source_image]; simp) (by rw [List.flatMap_cons, List.length_append, MdSpan.source] at hfuel; simp only [List.length_append, List.length_cons] at hfuel; omega)]
    simp

/-- **C87, what is shown.** In a text made of plain parts, links and images, every link is shown as a link with its label
and its address (that of the page, for a markdown file), every image as an image, and the rest is as it was.

Missing from the full claim: other brackets in the text, and a `!` at the end of a part of plain text, for which it is false
(`C87_image_counterexample`). -/
theorem C87_shown_partial (ps : List MdSpan) (h : ∀ p ∈ ps, p.Good) :
    link (ps.flatMap MdSpan.source) = .ok (ps.flatMap MdSpan.html) := by
  have := linkLoop_spans ps ((ps.flatMap MdSpan.source).length + 1) [] [] [] (ps.flatMap MdSpan.source) h (by simp) (by simp) (by simp)
    (by simp) (by simp) (by omega)
  rw [List.nil_append, List.nil_append] at this
  exact this

/-- A text with a link and an image. -/
def linkSample : List MdSpan :=
  [.text b!"See ", .link b!"the (long) doc" b!"docs/api.md", .text b!" or ", .image b!"logo" b!"a(b!.png", .text b!"!."]

example : linkSample.flatMap MdSpan.source = b!"See [the (long) doc](docs/api.md) or ![logo](a(b!.png)!." ∧
    link b!"See [the (long) doc](docs/api.md) or ![logo](a(b!.png)!." =
      .ok b!"See <a href='docs/api.html'>the (long) doc</a> or <img src='a(b!.png' alt='logo'>!." :=
  ⟨rfl, C87_shown_partial linkSample (by
    intro p hp
    simp only [linkSample, List.mem_cons, List.not_mem_nil, or_false] at hp
    rcases hp with rfl | rfl | rfl | rfl | rfl <;> simp only [MdSpan.Good] <;> decide)⟩

/-- A link at the beginning of a text that ends with `!` is taken for an image, and the text is repeated. -/
theorem C87_image_counterexample : link b!"[a](b) is new!" = .ok b!"[a](b) is new<img src='b' alt='a'> is new!" := by
  kernel_rfl

/-- A bracket before a link makes a part of its label. -/
theorem C87_bracket_counterexample : link b!"x[1] or [a](b)" = .ok b!"x<a href='b'>1] or [a</a>" := by
  kernel_rfl

end Pdf
