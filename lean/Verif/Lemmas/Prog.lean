/-
What a program does to a document, in terms of the map it shows.
-/
import Verif.Spec.Store
import Verif.Props.C23_Map

namespace Pdf
open Spec

variable {α β : Type}

theorem Prog.bind_run [Zlib] (p : Prog α) (f : α → Prog β) (d : Doc) :
    (p >>= f).run d = (p.run d >>= fun r => (f r.1).run r.2) := by
  induction p generalizing d with
  | ret a => rfl
  | raise e => rfl
  | get r k ih =>
    show (Prog.get r fun o => (k o).bind f).run d = _
    simp only [Prog.run]
    rcases Pdf.getObject d r with e | ⟨o, d'⟩
    · rfl
    · exact ih o d'
  | set n o k ih =>
    show (Prog.set n o (k.bind f)).run d = _
    simp only [Prog.run]
    rcases Pdf.updateObject d n o with e | d'
    · rfl
    · exact ih d'
  | add o k ih =>
    show (Prog.add o fun n => (k n).bind f).run d = _
    simp only [Prog.run]
    rcases Pdf.addObject d o with e | ⟨d', n⟩
    · rfl
    · exact ih n d'

theorem eval_bind (p : Prog α) (f : α → Prog β) (s : Store) :
    eval (p >>= f) s = (eval p s >>= fun r => eval (f r.1) r.2) := by
  induction p generalizing s with
  | ret a => rfl
  | raise e => rfl
  | get r k ih =>
    show eval (Prog.get r fun o => (k o).bind f) s = _
    simp only [eval]
    rcases s.get r with e | o
    · rfl
    · exact ih o s
  | set n o k ih =>
    show eval (Prog.set n o (k.bind f)) s = _
    simp only [eval]
    by_cases hn : n = 0
    · simp only [if_pos hn]; rfl
    · simp only [if_neg hn]
      rcases s.val n with e | v
      · rfl
      · exact ih _
  | add o k ih =>
    show eval (Prog.add o fun n => (k n).bind f) s = _
    simp only [eval]
    by_cases hn : o = .null
    · simp only [if_pos hn]; rfl
    · simp only [if_neg hn]
      exact ih _ _

theorem eval_bind_ok {p : Prog α} {f : α → Prog β} {s s' : Store} {a : α} (h : eval p s = .ok (a, s')) :
    eval (p >>= f) s = eval (f a) s' := by
  rw [eval_bind, h]; rfl

@[simp] theorem eval_pure (a : α) (s : Store) : eval (pure a) s = .ok (a, s) := rfl
@[simp] theorem eval_ret (a : α) (s : Store) : eval (.ret a) s = .ok (a, s) := rfl
@[simp] theorem eval_lift_ok (a : α) (s : Store) : eval (Prog.lift (.ok a)) s = .ok (a, s) := rfl
theorem eval_fetch {s : Store} {r o : Obj} (h : s.get r = .ok o) : eval (Prog.fetch r) s = .ok (o, s) := by
  unfold Prog.fetch eval
  rw [h]; rfl
theorem eval_update {s : Store} {n : Nat} {o v : Obj} (hn : n ≠ 0) (h : s.val n = .ok v) :
    eval (Prog.update n o) s = .ok ((), s.set n o) := by
  unfold Prog.update eval
  rw [if_neg hn, h]; rfl
theorem eval_create {s : Store} {o : Obj} (h : o ≠ .null) :
    eval (Prog.create o) s = .ok (s.next, s.add o) := by
  unfold Prog.create eval
  rw [if_neg h]; rfl

theorem add_val_ne {s : Store} {o : Obj} {n : Nat} (h : n ≠ s.next) : (s.add o).val n = s.val n := if_neg h
theorem add_val_eq (s : Store) (o : Obj) : (s.add o).val s.next = .ok o := if_pos rfl
theorem add_next (s : Store) (o : Obj) : (s.add o).next = s.next + 1 := rfl
theorem set_val_ne {s : Store} {o : Obj} {m n : Nat} (h : n ≠ m) : (s.set m o).val n = s.val n := if_neg h
theorem set_val_eq (s : Store) (o : Obj) (m : Nat) : (s.set m o).val m = .ok o := if_pos rfl
theorem set_next (s : Store) (o : Obj) (m : Nat) : (s.set m o).next = s.next := rfl

/-- A program that does not edit. -/
inductive ReadOnly : Prog α → Prop
  | ret (a : α) : ReadOnly (.ret a)
  | raise (e : PyErr) : ReadOnly (.raise e)
  | get (r : Obj) (k : Obj → Prog α) : (∀ o, ReadOnly (k o)) → ReadOnly (.get r k)

theorem ReadOnly.bind {p : Prog α} {f : α → Prog β} (hp : ReadOnly p) (hf : ∀ a, ReadOnly (f a)) :
    ReadOnly (p >>= f) := by
  induction hp with
  | ret a => exact hf a
  | raise e => exact .raise e
  | get r k _ ih => exact .get r _ ih

theorem ReadOnly.pure (a : α) : ReadOnly (pure a : Prog α) := .ret a
theorem ReadOnly.lift (x : Py α) : ReadOnly (Prog.lift x) := by
  cases x
  · exact .raise _
  · exact .ret _
theorem ReadOnly.fetch (r : Obj) : ReadOnly (Prog.fetch r) := .get r _ fun o => .ret o

theorem view_get [Zlib] (d : Doc) (r : Obj) : view d r = (storeOf d).get r := by
  cases r with
  | ref g n =>
    simp only [Store.get, storeOf]
    by_cases hneg : n < 0
    · rw [if_pos hneg]
      unfold view getObject
      simp only [if_pos hneg]; rfl
    · rw [if_neg hneg]
      obtain ⟨m, rfl⟩ : ∃ m : Nat, n = m := ⟨n.toNat, by omega⟩
      rw [view_num, Int.toNat_natCast, view_num]
  | _ => rfl

theorem storeOf_filled [Zlib] {d d' : Doc} (hc : Coherent d) (hf : Filled d d') : storeOf d' = storeOf d := by
  unfold storeOf
  congr 1
  · rw [hf.eq]
  · funext n
    exact filled_view hc hf _

/-- A program that does not edit gives on a document what it gives on the map that the document shows, and
leaves that map as it is. -/
theorem run_readOnly [Zlib] {p : Prog α} (hp : ReadOnly p) : ∀ {d : Doc}, Coherent d →
    match eval p (storeOf d) with
    | .error e => p.run d = .error e
    | .ok (a, s) => s = storeOf d ∧ ∃ d', p.run d = .ok (a, d') ∧ Coherent d' ∧ storeOf d' = storeOf d ∧
        d' = { d with cache := d'.cache } := by
  induction hp with
  | ret a =>
    intro d hc
    exact ⟨rfl, d, rfl, hc, rfl, rfl⟩
  | raise e => intro d hc; rfl
  | get r k _ ih =>
    intro d hc
    simp only [eval, Prog.run, ← view_get]
    rcases hg : getObject d r with e | ⟨o, d'⟩
    · have : view d r = .error e := by unfold view; rw [hg]; rfl
      rw [this]; rfl
    · have hv : view d r = .ok o := by unfold view; rw [hg]; rfl
      have hf := getObject_filled hc hg
      have hst := storeOf_filled hc hf
      have := ih o (filled_coherent hc hf)
      rw [hst] at this
      rw [hv]
      simp only [Except.bind, bind]
      rcases he : eval (k o) (storeOf d) with e | ⟨a, s⟩
      · rw [he] at this; exact this
      · rw [he] at this
        obtain ⟨h1, d2, h2, h3, h4, h5⟩ := this
        refine ⟨h1, d2, h2, h3, h4, ?_⟩
        rw [h5, hf.eq]

/-- The document may be edited: it has no object stream, and its trailer is known. -/
structure Editable (d : Doc) (x : Option Int) : Prop where
  good : Good d x
  plain : ∀ (n : Nat) (es : List Entry), 1 ≤ n → d.cur[n]? ≠ some (.many es)
  pos : 0 < d.cur.length
  root : ∃ t, d.cache[0]? = some (.dict t)
  zero : ∃ e, d.cur[0]? = some e ∧ e.isDeleted = .ok false

/-- What the trailer shows. -/
theorem view_zero [Zlib] {d : Doc} {x : Option Int} (h : Editable d x) (g : Int) :
    view d (.ref g (0 : Nat)) = cacheAt d.cache 0 := by
  obtain ⟨t, ht⟩ := h.root
  obtain ⟨e, he, hdel⟩ := h.zero
  rw [view_num]
  unfold memoize
  rw [slotAt_eq he]
  simp [bind, Except.bind, hdel, cacheAt_eq ht, pure, Except.pure]

theorem view_live [Zlib] {d : Doc} {x : Option Int} (h : Editable d x) {n : Nat} (hn : n ≠ 0) {v : Obj}
    (hv : view d (.ref 0 n) = .ok v) : ∃ e, d.cur[n]? = some (.one e) := by
  rw [view_num] at hv
  obtain ⟨c, hc, -⟩ := bind_eq_ok hv
  unfold memoize at hc
  obtain ⟨slot, hs, hc⟩ := bind_eq_ok hc
  obtain ⟨del, hdel, hc⟩ := bind_eq_ok hc
  have hs := slotAt_ok hs
  cases slot with
  | one e => exact ⟨e, hs⟩
  | many es => exact absurd hs (h.plain n es (by omega))
  | hole => cases hdel

/-- A program does on a document what it does on the map that the document shows. -/
theorem run_eval [Zlib] {x : Option Int} : ∀ (p : Prog α) {d : Doc} {a : α} {s : Store}, Editable d x →
    eval p (storeOf d) = .ok (a, s) →
    ∃ d', p.run d = .ok (a, d') ∧ Editable d' x ∧ storeOf d' = s ∧ d'.past = d.past ∧
      d'.curData = d.curData ∧ d'.pastData = d.pastData := by
  intro p
  induction p with
  | ret a =>
    intro d a' s h he
    cases he
    exact ⟨d, rfl, h, rfl, rfl, rfl, rfl⟩
  | raise e => intro d a s h he; cases he
  | get r k ih =>
    intro d a s h he
    simp only [eval, ← view_get] at he
    obtain ⟨o, ho, he⟩ := bind_eq_ok he
    rcases hg : getObject d r with e | ⟨o', d1⟩
    · unfold view at ho
      rw [hg] at ho
      cases ho
    have : o' = o := by
      unfold view at ho
      rw [hg] at ho
      cases ho; rfl
    subst this
    have hf := getObject_filled h.good.coherent hg
    have hst := storeOf_filled h.good.coherent hf
    rw [← hst] at he
    have hgood := (good_get h.good r).1
    simp only [reads, hg] at hgood
    have hcur : d1.cur = d.cur := by rw [hf.eq]
    have h1 : Editable d1 x := by
      refine ⟨hgood, by rw [hcur]; exact h.plain, by rw [hcur]; exact h.pos, ?_, by rw [hcur]; exact h.zero⟩
      obtain ⟨t, ht⟩ := h.root
      have hlt := lt_of_getElem? ht
      have hlen := hf.len
      have h0 : d1.cache[0]? = some d1.cache[0] := List.getElem?_eq_getElem (by omega)
      rcases hf.val 0 _ h0 with k | ⟨k, -⟩
      · exact ⟨t, by rw [h0, ← k, ht]⟩
      · rw [ht] at k; cases k
    obtain ⟨d2, r1, r2, r3, r4, r5, r6⟩ := ih o' h1 he
    refine ⟨d2, ?_, r2, r3, by rw [r4, hf.eq], by rw [r5, hf.eq], by rw [r6, hf.eq]⟩
    simp only [Prog.run, hg]
    exact r1
  | set n o k ih =>
    intro d a s h he
    simp only [eval] at he
    split at he
    · cases he
    rename_i hn
    obtain ⟨v, hv, he⟩ := bind_eq_ok he
    obtain ⟨e, hcur⟩ := view_live h hn hv
    have hlt := lt_of_getElem? hcur
    have hclt : n < d.cache.length := by have := h.good.len; omega
    have hupd : ∃ d1, updateObject d n o = .ok d1 := by
      unfold updateObject
      rw [entryAt_eq hcur, cacheAt_eq (List.getElem?_eq_getElem hclt)]
      exact ⟨_, rfl⟩
    obtain ⟨d1, hupd⟩ := hupd
    obtain ⟨g1, g2, g3, g4⟩ := good_set h.good (by omega) hupd
    obtain ⟨old, u1, u2, hd1⟩ := updateObject_inv hupd
    have hc0 : d1.cur[0]? = d.cur[0]? := by rw [hd1]; exact getElem?_set_ne' _ _ hn
    have hca0 : d1.cache[0]? = d.cache[0]? := by rw [hd1]; exact getElem?_set_ne' _ _ hn
    have h1 : Editable d1 x := by
      refine ⟨g1, ?_, by rw [g2]; exact h.pos, by rw [hca0]; exact h.root, by rw [hc0]; exact h.zero⟩
      intro m es hm
      rw [hd1]
      by_cases hmn : n = m
      · subst hmn
        rw [getElem?_set_eq' _ _ hlt]
        simp
      · rw [getElem?_set_ne' _ _ hmn]
        exact h.plain m es hm
    have hst : storeOf d1 = (storeOf d).set n o := by
      unfold storeOf Store.set
      congr 1
      funext m
      simp only
      by_cases hm : m = n
      · rw [if_pos hm, hm]; exact g3 0
      · rw [if_neg hm]
        by_cases hm0 : m = 0
        · subst hm0
          rw [view_zero h1, view_zero h]
          unfold cacheAt
          rw [hca0]
        · exact g4 m 0 (by omega) hm
    rw [← hst] at he
    obtain ⟨d2, r1, r2, r3, r4, r5, r6⟩ := ih h1 he
    refine ⟨d2, ?_, r2, r3, by rw [r4, hd1], by rw [r5, hd1], by rw [r6, hd1]⟩
    simp only [Prog.run, hupd]
    exact r1
  | add o k ih =>
    intro d a s h he
    simp only [eval] at he
    split at he
    · cases he
    rename_i ho
    have hadd : ∃ d1, addObject d o = .ok (d1, d.cur.length) := by
      unfold addObject
      have := h.good.len
      simp only
      rw [if_pos (by simp; omega)]
      exact ⟨_, rfl⟩
    obtain ⟨d1, hadd⟩ := hadd
    obtain ⟨g1, -, g2, g3, g4⟩ := good_add h.good h.pos ho hadd
    obtain ⟨-, -, hd1⟩ := addObject_inv hadd
    have hpos := h.pos
    have hc0 : d1.cur[0]? = d.cur[0]? := by rw [hd1]; exact List.getElem?_append_left hpos
    have hca0 : d1.cache[0]? = d.cache[0]? := by
      rw [hd1]
      have := h.good.len
      rw [getElem?_set_ne' _ _ (by omega), List.getElem?_append_left (by omega)]
    have h1 : Editable d1 x := by
      refine ⟨g1, ?_, by omega, by rw [hca0]; exact h.root, by rw [hc0]; exact h.zero⟩
      intro m es hm
      rw [hd1]
      by_cases hmn : m < d.cur.length
      · simp only
        rw [List.getElem?_append_left hmn]
        exact h.plain m es hm
      · simp only
        rw [List.getElem?_append_right (by omega)]
        cases m - d.cur.length <;> simp
    have hst : storeOf d1 = (storeOf d).add o := by
      unfold storeOf Store.add
      congr 1
      funext m
      simp only
      by_cases hm : m = d.cur.length
      · rw [if_pos hm, hm]; exact g3 0
      · rw [if_neg hm]
        by_cases hm0 : m = 0
        · subst hm0
          rw [view_zero h1, view_zero h]
          unfold cacheAt
          rw [hca0]
        · exact g4 m 0 (by omega) hm
    rw [← hst] at he
    obtain ⟨d2, r1, r2, r3, r4, r5, r6⟩ := ih _ h1 he
    refine ⟨d2, ?_, r2, r3, by rw [r4, hd1], by rw [r5, hd1], by rw [r6, hd1]⟩
    simp only [Prog.run, hadd]
    exact r1

end Pdf
