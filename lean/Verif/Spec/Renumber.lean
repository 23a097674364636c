/-
Renumbering of the objects of a document (C36, C37).
-/
import Verif.Spec.Store
import Verif.Spec.Refs
import Verif.Spec.Doc

namespace Pdf.Spec

mutual
/-- The object with its references replaced, wherever they are (stream dictionaries included). -/
def renumber (f : Ref → Ref) : Obj → Obj
  | .ref g n => .ref (f (g, n)).1 (f (g, n)).2
  | .list l => .list (renumberItems f l)
  | .dict d => .dict (renumberEntries f d)
  | .stream d s e => .stream (renumberEntries f d) s e
  | o => o
def renumberItems (f : Ref → Ref) : List Obj → List Obj
  | [] => []
  | o :: l => renumber f o :: renumberItems f l
def renumberEntries (f : Ref → Ref) : List (Bytes × Obj) → List (Bytes × Obj)
  | [] => []
  | (k, o) :: d => (k, renumber f o) :: renumberEntries f d
end

/-- One step of a walk in a document: to the value of a key, to an element of an array, to the target of a
reference. -/
inductive Step
  | key (k : Bytes)
  | idx (i : Nat)
  | go

/-- Where a walk from an object leads, if it can be done. -/
def walk (s : Store) : List Step → Obj → Option Obj
  | [], o => some o
  | .key k :: p, .dict d => (Dict.get? d k).bind (walk s p)
  | .key k :: p, .stream d _ _ => (Dict.get? d k).bind (walk s p)
  | .idx i :: p, .list l => (l[i]?).bind (walk s p)
  | .go :: p, .ref g n =>
    match s.get (.ref g n) with
    | .ok o => walk s p o
    | .error _ => none
  | _ :: _, _ => none

/-- `L` is the increasing list of the numbers in use (the trailer excepted), and `f` gives to each of them its rank
in that list, with generation 0. -/
structure Ranks (d : Doc) (L : List Nat) (f : Ref → Ref) : Prop where
  sorted : L.Pairwise (· < ·)
  live : ∀ n, n ∈ L ↔ 1 ≤ n ∧ Live d n
  rank : ∀ (k n : Nat), L[k]? = some n → f ((genOf d n : Int), (n : Int)) = (0, ((k + 1 : Nat) : Int))

/-- Every reference in the object goes to an object in use, with the right generation. -/
def NoDangling (d : Doc) (L : List Nat) (o : Obj) : Prop :=
  ∀ r, Occurs r o → ∃ n ∈ L, r = ((genOf d n : Int), (n : Int))

/-- The references in stream dictionaries are among those that are not moved. -/
def StreamsFixed (f : Ref → Ref) (o : Obj) : Prop :=
  NoStream o ∨ ∃ d s e, o = .stream d s e ∧ ∀ r, Occurs r o → f r = r

/-- The document may be squashed: every cell is a plain entry that knows its number, every object in use can be read,
is not `None`, and has no dangling reference; the references in stream dictionaries are not moved; the catalog and
its version can be read; there is something to write. -/
structure Squashable [Zlib] (d : Doc) (x : Option Int) (L : List Nat) (f : Ref → Ref) : Prop where
  cells : ∀ n, n < d.cur.length → ∃ e, d.cur[n]? = some (.one e) ∧ e.num = n
  first : firstXrefStreamNum d = .ok x
  vals : ∀ n ∈ L, ∃ v, (storeOf d).val n = .ok v ∧ v ≠ .null ∧ NoDangling d L v ∧ StreamsFixed f v
  header : ∃ v, headerVersion d = .ok v
  root : ∃ t n cat, (storeOf d).val 0 = .ok (.dict t) ∧ n ∈ L ∧
    Dict.get? t b!"/Root" = some (.ref (genOf d n : Int) (n : Int)) ∧ (storeOf d).val n = .ok (.dict cat) ∧
    ∀ v, Dict.get? cat b!"/Version" = some v → ∃ w, v = .str w
  some : x = none ∨ 2 ≤ L.length

end Pdf.Spec
