/-
Programs that only write objects of a kind (C103).
-/
import Verif.Props.C28_Reload
import Verif.Props.C32_Rotate
import Verif.Props.C33_Remove
import Verif.Lemmas.Overview

namespace Pdf
open Spec

variable {α β : Type}

/-- What a read can give when the objects of the document (the trailer excepted) are of the kind `Q`. -/
def Got (Q : Obj → Prop) (r o : Obj) : Prop :=
  match r with
  | .ref _ n => n ≤ 0 ∨ Q o
  | r => o = r

/-- The program only writes objects of the kind `Q`, as long as it reads objects of this kind, and gives a
result of the kind `P`. -/
def Emits (Q : Obj → Prop) : Prog α → (α → Prop) → Prop
  | .ret a, P => P a
  | .raise _, _ => True
  | .get r k, P => ∀ o, Got Q r o → Emits Q (k o) P
  | .set n o k, P => (1 ≤ n → Q o) ∧ Emits Q k P
  | .add o k, P => Q o ∧ ∀ n, Emits Q (k n) P

theorem Emits.bind {Q : Obj → Prop} {p : Prog α} {P : α → Prop} {f : α → Prog β} {P' : β → Prop} (hp : Emits Q p P)
    (hf : ∀ a, P a → Emits Q (f a) P') : Emits Q (p >>= f) P' := by
  induction p with
  | ret a => exact hf a hp
  | raise e => exact trivial
  | get r k ih => exact fun o ho => ih o (hp o ho)
  | set n o k ih => exact ⟨hp.1, ih hp.2⟩
  | add o k ih => exact ⟨hp.1, fun n => ih n (hp.2 n)⟩

theorem ReadOnly.emits {Q : Obj → Prop} {p : Prog α} (hp : ReadOnly p) : Emits Q p (fun _ => True) := by
  induction hp with
  | ret a => exact trivial
  | raise e => exact trivial
  | get r k _ ih => exact fun o _ => ih o

theorem emits_lift {Q : Obj → Prop} {x : Py α} {P : α → Prop} (h : ∀ a, x = .ok a → P a) : Emits Q (Prog.lift x) P := by
  rcases x with e | a
  · exact trivial
  · exact h a rfl

theorem emits_fetch {Q : Obj → Prop} (r : Obj) : Emits Q (Prog.fetch r) (Got Q r) := fun _ ho => ho

theorem emits_update {Q : Obj → Prop} {n : Nat} {o : Obj} (h : 1 ≤ n → Q o) : Emits Q (Prog.update n o) (fun _ => True) :=
  ⟨h, trivial⟩

theorem got_num {Q : Obj → Prop} {r o : Obj} {n : Nat} (hg : Got Q r o) (hn : numOf r = .ok n) (h1 : 1 ≤ n) : Q o := by
  cases r <;> simp only [numOf] at hn
  case ref g m =>
    split at hn
    · cases hn
    · cases hn
      rcases hg with hg | hg
      · omega
      · exact hg
  all_goals cases hn
  all_goals omega

/-- The objects of the document are of the kind `Q`. -/
def AllObjs (Q : Obj → Prop) (s : Store) : Prop := ∀ (n : Nat) (v : Obj), 1 ≤ n → s.val n = .ok v → Q v

theorem AllObjs.got {Q : Obj → Prop} {s : Store} (h : AllObjs Q s) {r o : Obj} (hr : s.get r = .ok o) : Got Q r o := by
  cases r <;> simp only [Store.get] at hr
  case ref g n =>
    split at hr
    · cases hr
    · rename_i hn
      by_cases h0 : n ≤ 0
      · exact .inl h0
      · exact .inr (h n.toNat o (by omega) hr)
  all_goals cases hr
  all_goals rfl

theorem AllObjs.set {Q : Obj → Prop} {s : Store} (h : AllObjs Q s) {n : Nat} {o : Obj} (ho : 1 ≤ n → Q o) :
    AllObjs Q (s.set n o) := by
  intro m v hm hv
  by_cases hmn : m = n
  · subst hmn
    rw [set_val_eq] at hv
    cases hv
    exact ho hm
  · rw [set_val_ne hmn] at hv
    exact h m v hm hv

theorem AllObjs.add {Q : Obj → Prop} {s : Store} (h : AllObjs Q s) {o : Obj} (ho : Q o) : AllObjs Q (s.add o) := by
  intro m v hm hv
  by_cases hmn : m = s.next
  · subst hmn
    rw [add_val_eq] at hv
    cases hv
    exact ho
  · rw [add_val_ne hmn] at hv
    exact h m v hm hv

theorem made_editable [Zlib] {d : Doc} (h : Made d) : Editable d none := by
  obtain ⟨F, secs, hf⟩ := made_filed h
  exact hf.settled.edit

/-- A program that only writes objects that survive writing and reading, run on a document that can be written. -/
theorem made_eval [Zlib] {Q : Obj → Prop} (hQ : ∀ o, Q o → o = .null ∨ Keepable o) {P : α → Prop} : ∀ (p : Prog α) {d : Doc} {a : α}
    {s : Store}, Made d → AllObjs Q (storeOf d) → Emits Q p P → eval p (storeOf d) = .ok (a, s) →
    ∃ d', p.run d = .ok (a, d') ∧ Made d' ∧ storeOf d' = s ∧ AllObjs Q s ∧ P a := by
  intro p
  induction p with
  | ret a =>
    intro d a' s hm hs hp he
    cases he
    exact ⟨d, rfl, hm, rfl, hs, hp⟩
  | raise e => intro d a s _ _ _ he; cases he
  | get r k ih =>
    intro d a s hm hs hp he
    simp only [eval] at he
    obtain ⟨o, ho, he⟩ := bind_eq_ok he
    obtain ⟨d1, r1, -, r3, -⟩ := run_eval (.get r .ret) (made_editable hm) (a := o) (s := storeOf d) (by simp [eval, ho, bind, Except.bind])
    simp only [Prog.run] at r1
    obtain ⟨⟨o', d1'⟩, hg, r1⟩ := bind_eq_ok r1
    have r1 := Prod.mk.inj (Except.ok.inj r1)
    simp only at r1
    rw [r1.1, r1.2] at hg
    have hm1 : Made d1 := by
      refine .op (o := .get r) hm trivial ?_
      simp [ops, Op.run, reads, hg, bind, Except.bind]
    rw [← r3] at he
    obtain ⟨d2, j1, j2⟩ := ih o hm1 (by rw [r3]; exact hs) (hp o (hs.got ho)) he
    refine ⟨d2, ?_, j2⟩
    simp only [Prog.run, hg]
    exact j1
  | set n o k ih =>
    intro d a s hm hs hp he
    simp only [eval] at he
    split at he
    · cases he
    rename_i hn
    obtain ⟨v, hv, he⟩ := bind_eq_ok he
    obtain ⟨d1, r1, -, r3, -⟩ := run_eval (.set n o (.ret ())) (made_editable hm) (a := ()) (s := (storeOf d).set n o)
      (by simp [eval, hn, hv, bind, Except.bind])
    simp only [Prog.run] at r1
    obtain ⟨d1', hg, r1⟩ := bind_eq_ok r1
    have r1 := Prod.mk.inj (Except.ok.inj r1)
    rw [r1.2] at hg
    have hm1 : Made d1 := by
      refine .op (o := .set n o) hm ⟨by omega, hQ o (hp.1 (by omega))⟩ ?_
      simp [ops, Op.run, hg, bind, Except.bind]
    rw [← r3] at he
    obtain ⟨d2, j1, j2⟩ := ih hm1 (by rw [r3]; exact hs.set hp.1) hp.2 he
    refine ⟨d2, ?_, j2⟩
    simp only [Prog.run, hg]
    exact j1
  | add o k ih =>
    intro d a s hm hs hp he
    simp only [eval] at he
    split at he
    · cases he
    rename_i hn
    obtain ⟨d1, r1, -, r3, -⟩ := run_eval (.add o .ret) (made_editable hm) (a := (storeOf d).next) (s := (storeOf d).add o)
      (by simp [eval, hn])
    simp only [Prog.run] at r1
    obtain ⟨⟨d1', n'⟩, hg, r1⟩ := bind_eq_ok r1
    have r1 := Prod.mk.inj (Except.ok.inj r1)
    simp only at r1
    rw [r1.1, r1.2] at hg
    have hm1 : Made d1 := by
      refine .op (o := .add o) hm ((hQ o hp.1).resolve_left hn) ?_
      simp [ops, Op.run, hg, bind, Except.bind, Except.map]
    rw [← r3] at he
    obtain ⟨d2, j1, j2⟩ := ih _ hm1 (by rw [r3]; exact hs.add hp.1) (hp.2 _) he
    refine ⟨d2, ?_, j2⟩
    simp only [Prog.run, hg]
    exact j1

/-! ### rotate -/

/-- The objects that survive writing and reading, and deleted ones. -/
def FitObj [Zlib] (o : Obj) : Prop := o = .null ∨ Keepable o

theorem keepable_dict [Zlib] {d : Dict} : Keepable (.dict d) ↔ WF false false (.dict d) = true :=
  ⟨fun h => h.1, fun h => ⟨h, rfl⟩⟩

theorem fit_set [Zlib] {o o' : Obj} {k : Bytes} {v : Obj} (h : FitObj o) (hk : isName k = true)
    (hv : WF true false v = true) (hs : setEntry o k v = .ok o') : FitObj o' := by
  cases o <;> simp only [setEntry] at hs <;> cases hs
  rcases h with h | h
  · cases h
  · exact .inr (keepable_dict.2 (wf_set (keepable_dict.1 h) hk hv))

theorem addDegrees_int {o v : Obj} {n : Int} (h : addDegrees o n = .ok v) : ∃ m, v = .int m := by
  unfold addDegrees at h
  split at h <;> try split at h
  all_goals first | (cases h; exact ⟨_, rfl⟩) | cases h

theorem emits_rotateLoop [Zlib] (deg : Int) (c : List (Obj × Dict)) : ∀ a, Emits FitObj (rotateLoop deg c a) (fun _ => True)
  | [] => trivial
  | (nb, old) :: a => by
    unfold rotateLoop
    refine (emits_lift (P := fun _ => True) fun _ _ => trivial).bind fun p _ => ?_
    refine (emits_fetch _).bind fun obj hobj => ?_
    refine (emits_lift (P := fun v => ∃ m, v = .int m) fun v hv => addDegrees_int hv).bind ?_
    rintro _ ⟨m, rfl⟩
    refine (emits_lift (P := fun o' => FitObj obj → FitObj o') fun o' ho' hf => fit_set hf (by decide) (by simp [WF]) ho').bind ?_
    intro obj' hobj'
    refine (emits_lift (P := fun n => numOf p.1 = .ok n) fun n hn => hn).bind ?_
    intro n hn
    refine (emits_update fun h1 => hobj' (got_num hobj hn h1)).bind fun _ _ => ?_
    exact emits_rotateLoop deg c a

theorem emits_rotate [Zlib] (lim : Nat) (leak : Dict) (deg : Int) (sel : List Int) :
    Emits FitObj (rotate lim leak deg sel) (fun _ => True) := by
  unfold rotate
  refine (readOnly_pageLayouts _ _ _).emits.bind fun x _ => ?_
  refine (readOnly_flatPageTree _ _ _ _).emits.bind fun y _ => ?_
  refine (emits_rotateLoop _ _ _).bind fun _ _ => ?_
  exact trivial

/-! ### remove_pages -/

/-- The objects that survive writing and reading, whose `/Count` is not a reference, and deleted ones. -/
def FitNode [Zlib] (o : Obj) : Prop :=
  FitObj o ∧ ∀ d, o = .dict d → ∀ g n, Dict.get? d b!"/Count" ≠ some (.ref g n)

theorem minusOne_int {o v : Obj} (h : minusOne o = .ok v) : (∃ m, v = .int m) ∨ ∃ g n, o = .ref g n := by
  cases o <;> simp only [minusOne] at h <;> cases h
  · exact .inl ⟨_, rfl⟩
  · exact .inl ⟨_, rfl⟩
  · exact .inr ⟨_, _, rfl⟩

theorem fitNode_count [Zlib] {o o' : Obj} (h : FitNode o) (hs : decCount o = .ok o') : FitNode o' := by
  unfold decCount at hs
  obtain ⟨c, h1, hs⟩ := bind_eq_ok hs
  obtain ⟨c', h2, hs⟩ := bind_eq_ok hs
  rcases minusOne_int h2 with ⟨m, rfl⟩ | ⟨g, n, rfl⟩
  · refine ⟨fit_set h.1 (by decide) (by simp [WF]) hs, ?_⟩
    intro d hd g n hc
    cases o <;> simp only [setEntry] at hs <;> cases hs
    cases hd
    rw [Dict.get?_set, if_pos rfl] at hc
    cases hc
  · exfalso
    cases o <;> simp only [getKey] at h1
    case dict d _ _ =>
      rcases hg : Dict.get? d b!"/Count" with _ | v
      · rw [hg] at h1; cases h1
      · rw [hg] at h1; cases h1
        exact h.2 d rfl g n hg
    all_goals cases h1

theorem wfItems_erase {inD inA : Bool} {x : Obj} : ∀ {l : List Obj}, WFItems inD inA l = true → WFItems inD inA (l.erase x) = true
  | [], h => by simpa using h
  | a :: l, h => by
    simp only [WFItems, Bool.and_eq_true] at h
    rw [List.erase_cons]
    split
    · exact h.2
    · simp only [WFItems, Bool.and_eq_true]
      exact ⟨h.1, wfItems_erase h.2⟩

theorem fitNode_kids [Zlib] {o o' kids kids' : Obj} {r : Ref} (h : FitNode o) (hk : getKey o b!"/Kids" = .ok kids)
    (hr : removeKid kids r = .ok kids') (hs : setEntry o b!"/Kids" kids' = .ok o') : FitNode o' := by
  cases o <;> simp only [setEntry] at hs <;> cases hs
  rename_i d
  simp only [getKey] at hk
  rcases hg : Dict.get? d b!"/Kids" with _ | v
  · rw [hg] at hk; cases hk
  rw [hg] at hk
  cases hk
  cases kids <;> simp only [removeKid] at hr <;> try cases hr
  rename_i l
  split at hr
  · cases hr
    rcases h.1 with e | e
    · cases e
    have hwf := keepable_dict.1 e
    have hl : WF true false (.list l) = true := by
      simp only [WF, Bool.and_eq_true] at hwf
      exact WFEntries_get hwf.1 hg
    refine ⟨.inr (keepable_dict.2 (wf_set hwf (by decide) ?_)), ?_⟩
    · simp only [WF] at hl ⊢
      exact wfItems_erase hl
    · intro d' hd' g n hc
      cases hd'
      rw [Dict.get?_set, if_neg (by decide)] at hc
      exact h.2 d rfl g n hc
  · cases hr

theorem emits_climb [Zlib] : ∀ fuel node, Emits FitNode (climb fuel node) (fun _ => True)
  | 0, _ => trivial
  | fuel + 1, node => by
    unfold climb
    refine (emits_lift (P := fun _ => True) fun _ _ => trivial).bind fun x _ => ?_
    cases x with
    | none => exact trivial
    | some p =>
      simp only
      refine (emits_fetch _).bind fun o ho => ?_
      refine (emits_lift (P := fun o' => FitNode o → FitNode o') fun o' ho' hf => fitNode_count hf ho').bind fun o' ho' => ?_
      refine (emits_lift (P := fun n => numOf p = .ok n) fun n hn => hn).bind fun n hn => ?_
      refine (emits_update fun h1 => ho' (got_num ho hn h1)).bind fun _ _ => ?_
      exact emits_climb fuel o'

theorem emits_detachPage [Zlib] (fuel : Nat) (r : Ref) : Emits FitNode (detachPage fuel r) (fun _ => True) := by
  unfold detachPage
  refine (emits_fetch _).bind fun page _ => ?_
  refine (emits_lift (P := fun _ => True) fun _ _ => trivial).bind fun parent _ => ?_
  refine (emits_fetch _).bind fun node hnode => ?_
  refine (emits_lift (P := fun k => getKey node b!"/Kids" = .ok k) fun _ h => h).bind fun kids hk => ?_
  refine (emits_lift (P := fun k => removeKid kids r = .ok k) fun _ h => h).bind fun kids' hk' => ?_
  refine (emits_lift (P := fun o => FitNode node → FitNode o) fun o h hf => fitNode_kids hf hk hk' h).bind fun o ho => ?_
  refine (emits_lift (P := fun o' => FitNode o → FitNode o') fun o' ho' hf => fitNode_count hf ho').bind fun o' ho' => ?_
  refine (emits_lift (P := fun n => numOf parent = .ok n) fun n hn => hn).bind fun n hn => ?_
  refine (emits_update fun h1 => ho' (ho (got_num hnode hn h1))).bind fun _ _ => ?_
  exact emits_climb fuel o'

theorem emits_detachAll [Zlib] (fuel : Nat) : ∀ l, Emits FitNode (detachAll fuel l) (fun _ => True)
  | [] => trivial
  | r :: rs => (emits_detachPage fuel r).bind fun _ _ => emits_detachAll fuel rs

theorem fitNode_null [Zlib] : FitNode .null := ⟨.inl rfl, fun _ h => by cases h⟩

theorem emits_deleteAll [Zlib] : ∀ l, Emits FitNode (deleteAll l) (fun _ => True)
  | [] => trivial
  | r :: rs => by
    unfold deleteAll
    refine (emits_lift (P := fun _ => True) fun _ _ => trivial).bind fun n _ => ?_
    exact (emits_update fun _ => fitNode_null).bind fun _ _ => emits_deleteAll rs

theorem emits_removePages [Zlib] (lim : Nat) (ord : List Ref → List Ref) (leak : Dict) (del : List Int) :
    Emits FitNode (removePages lim ord leak del) (fun _ => True) := by
  unfold removePages
  refine (readOnly_flatPageTree _ _ _ _).emits.bind fun x _ => ?_
  refine (emits_lift (P := fun _ => True) fun _ _ => trivial).bind fun sel _ => ?_
  refine (emits_lift (P := fun _ => True) fun _ _ => trivial).bind fun delRef _ => ?_
  refine (emits_lift (P := fun _ => True) fun _ _ => trivial).bind fun all _ => ?_
  refine (readOnly_depsAll _ _).emits.bind fun _ _ => ?_
  refine (readOnly_depsAll _ _).emits.bind fun _ _ => ?_
  refine (emits_detachAll _ _).bind fun _ _ => ?_
  refine (emits_deleteAll _).bind fun _ _ => ?_
  exact trivial

end Pdf
