/-
Page trees (C29-C36).
-/
import Verif.Spec.Store

namespace Pdf.Spec

/-- A page tree: pages and nodes, each with its reference (generation, number) and its dictionary. -/
inductive PageTree where
  | page (r : Ref) (d : Dict)
  | node (r : Ref) (d : Dict) (kids : List PageTree)

namespace PageTree

def ref : PageTree → Ref
  | .page r _ => r
  | .node r _ _ => r

/-- The reference as an object. -/
def refObj (r : Ref) : Obj := .ref r.1 r.2

mutual
/-- Number of levels. -/
def depth : PageTree → Nat
  | .page _ _ => 1
  | .node _ _ kids => depths kids + 1
def depths : List PageTree → Nat
  | [] => 0
  | t :: ts => max (depth t) (depths ts)
end

mutual
/-- The pages from left to right: reference, dictionary, dictionaries of the ancestors (the nearest first). -/
def leaves : List Dict → PageTree → List (Ref × Dict × List Dict)
  | anc, .page r d => [(r, d, anc)]
  | anc, .node _ d kids => leavesAll (d :: anc) kids
def leavesAll : List Dict → List PageTree → List (Ref × Dict × List Dict)
  | _, [] => []
  | anc, t :: ts => leaves anc t ++ leavesAll anc ts
end

mutual
/-- The tree is in the document, as ISO 32000 7.7.3 describes it: the references lead to the dictionaries, the
nodes are of type `/Pages` and list their kids, the leaves are of type `/Page`. -/
def Shown (s : Store) : PageTree → Prop
  | .page r d => 0 < r.2 ∧ s.get (refObj r) = .ok (.dict d) ∧ Dict.get? d b!"/Type" = some (.str b!"/Page")
  | .node r d kids => 0 < r.2 ∧ s.get (refObj r) = .ok (.dict d) ∧
      Dict.get? d b!"/Type" = some (.str b!"/Pages") ∧
      Dict.get? d b!"/Kids" = some (.list (kids.map fun t => refObj t.ref)) ∧ ShownAll s kids
def ShownAll (s : Store) : List PageTree → Prop
  | [] => True
  | t :: ts => Shown s t ∧ ShownAll s ts
end

/-- The tree is the page tree of the document: its root, a node, is what the catalog names. -/
structure IsRoot (s : Store) (t : PageTree) : Prop where
  shown : Shown s t
  isNode : ∃ r d kids, t = .node r d kids
  named : ∃ trailer root cat, s.val 0 = .ok (.dict trailer) ∧ Dict.get? trailer b!"/Root" = some root ∧
    s.get root = .ok (.dict cat) ∧ Dict.get? cat b!"/Pages" = some (refObj t.ref)

end PageTree

/-- The attributes that a page inherits, ISO 32000 table 31. -/
def inheritable : List Bytes := [b!"/Resources", b!"/MediaBox", b!"/CropBox", b!"/Rotate"]

/-- An entry of a dictionary; `null` is the same as no entry. -/
def entry? (d : Dict) (k : Bytes) : Option Obj :=
  match Dict.get? d k with
  | some .null => none
  | o => o

/-- The value of a key in the nearest dictionary that has one. -/
def nearest (k : Bytes) (ds : List Dict) : Option Obj := ds.findSome? fun d => entry? d k

/-- The rotation of a page, inherited if need be; 0 by default (ISO 32000 table 31). -/
def rotation (b : Ref × Dict × List Dict) : Int :=
  match nearest b!"/Rotate" (b.2.1 :: b.2.2) with
  | some (.int n) => n
  | _ => 0

/-- The tree with other dictionaries for the pages. -/
def PageTree.mapPages (f : Ref → Dict → Dict) : PageTree → PageTree
  | .page r d => .page r (f r d)
  | .node r d kids => .node r d (mapAll f kids)
where mapAll (f : Ref → Dict → Dict) : List PageTree → List PageTree
  | [] => []
  | t :: ts => mapPages f t :: mapAll f ts

/-- The position designated by a page number, negative ones counting from the end. -/
def Position (len : Nat) (p : Int) (j : Nat) : Prop := j < len ∧ (p = j ∨ p = (j : Int) - len)

instance (len : Nat) (p : Int) (j : Nat) : Decidable (Position len p j) := by unfold Position; infer_instance

end Pdf.Spec
