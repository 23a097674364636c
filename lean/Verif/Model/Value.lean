/-
The Python values PDF objects are mapped to.
-/
import Verif.Model.Basic

namespace Pdf

/-- Python values representing PDF objects (objects.py:14-29 `Stream`, 190-203 `dedicated_type`,
182 the complex number standing for a reference; docs/api_low.md).

* `real neg ip frac` is the float whose decimal form is `[-]ip.frac` (see DESIGN.md, "float").
* `str` holds names (leading `/`) and keywords, ASCII only.
* `bytes` holds PDF strings with their delimiters, `(...)` or `<...>`.
* `ref gen num` is `complex(gen, num)`, the indirect reference `num gen R`.
* `dict` is an insertion-ordered Python dict with `str` keys.
* `stream entries stream encoded` is the `Stream` dataclass. -/
inductive Obj where
  | null
  | bool (b : Bool)
  | int (n : Int)
  | real (neg : Bool) (ip : Nat) (frac : Bytes)
  | str (s : Bytes)
  | bytes (s : Bytes)
  | ref (gen num : Int)
  | list (l : List Obj)
  | dict (d : List (Bytes × Obj))
  | stream (entries : List (Bytes × Obj)) (stream encoded : Bytes)
  deriving Repr, Inhabited

mutual
/-- Structural equality test. -/
def Obj.beq : Obj → Obj → Bool
  | .null, .null => true
  | .bool a, .bool b => a == b
  | .int a, .int b => a == b
  | .real n i f, .real n' i' f' => n == n' && i == i' && f == f'
  | .str a, .str b => a == b
  | .bytes a, .bytes b => a == b
  | .ref g n, .ref g' n' => g == g' && n == n'
  | .list l, .list l' => Obj.beqList l l'
  | .dict d, .dict d' => Obj.beqDict d d'
  | .stream d s e, .stream d' s' e' => Obj.beqDict d d' && s == s' && e == e'
  | _, _ => false
def Obj.beqList : List Obj → List Obj → Bool
  | [], [] => true
  | a :: l, b :: l' => Obj.beq a b && Obj.beqList l l'
  | _, _ => false
def Obj.beqDict : List (Bytes × Obj) → List (Bytes × Obj) → Bool
  | [], [] => true
  | (k, a) :: l, (k', b) :: l' => k == k' && Obj.beq a b && Obj.beqDict l l'
  | _, _ => false
end

mutual
theorem Obj.beq_iff : ∀ a b : Obj, Obj.beq a b = true ↔ a = b
  | .null, b => by cases b <;> simp [Obj.beq]
  | .bool _, b => by cases b <;> simp [Obj.beq]
  | .int _, b => by cases b <;> simp [Obj.beq]
  | .real _ _ _, b => by cases b <;> simp [Obj.beq, and_assoc]
  | .str _, b => by cases b <;> simp [Obj.beq]
  | .bytes _, b => by cases b <;> simp [Obj.beq]
  | .ref _ _, b => by cases b <;> simp [Obj.beq]
  | .list l, b => by cases b <;> simp [Obj.beq, Obj.beqList_iff l]
  | .dict d, b => by cases b <;> simp [Obj.beq, Obj.beqDict_iff d]
  | .stream d _ _, b => by cases b <;> simp [Obj.beq, Obj.beqDict_iff d, and_assoc]
theorem Obj.beqList_iff : ∀ a b : List Obj, Obj.beqList a b = true ↔ a = b
  | [], b => by cases b <;> simp [Obj.beqList]
  | a :: l, b => by cases b <;> simp [Obj.beqList, Obj.beq_iff a, Obj.beqList_iff l]
theorem Obj.beqDict_iff : ∀ a b : List (Bytes × Obj), Obj.beqDict a b = true ↔ a = b
  | [], b => by cases b <;> simp [Obj.beqDict]
  | (k, a) :: l, b => by
    cases b with
    | nil => simp [Obj.beqDict]
    | cons p q =>
      obtain ⟨k', b⟩ := p
      simp [Obj.beqDict, Obj.beq_iff a, Obj.beqDict_iff l]
end

instance : DecidableEq Obj := fun a b => decidable_of_iff _ (Obj.beq_iff a b)

abbrev Dict := List (Bytes × Obj)

namespace Dict

/-- `d.get(k)`, `none` when absent. -/
def get? (d : Dict) (k : Bytes) : Option Obj := List.lookup k d

/-- `k in d`. -/
def has (d : Dict) (k : Bytes) : Bool := (get? d k).isSome

/-- `d[k] = v`: overwrite in place, or append at the end when the key is new. -/
def set : Dict → Bytes → Obj → Dict
  | [], k, v => [(k, v)]
  | (k', v') :: d, k, v => if k' = k then (k', v) :: d else (k', v') :: set d k v

/-- `del d[k]` (for a present key). -/
def del (d : Dict) (k : Bytes) : Dict := d.filter (fun p => p.1 ≠ k)

/-- `d.update(e)`. -/
def update (d e : Dict) : Dict := e.foldl (fun acc p => set acc p.1 p.2) d

/-- `list(d.keys())`. -/
def keys (d : Dict) : List Bytes := d.map Prod.fst

end Dict

/-- `if x:`. -/
def truthy : Obj → Bool
  | .null => false
  | .bool b => b
  | .int n => n != 0
  | .real _ ip frac => ip != 0 || frac.any (· != 48)
  | .str s => s != []
  | .bytes s => s != []
  | .ref g n => g != 0 || n != 0
  | .list l => l.length != 0
  | .dict d => d.length != 0
  | .stream _ _ _ => true

end Pdf
