/-
Removal of pages (C33-C35).
-/
import Verif.Spec.PageTree

namespace Pdf.Spec

/-- The object leads to the reference, not through `/Parent` or `/P`; through the dictionaries of streams only if
`streams`. -/
inductive Uses (streams : Bool) (s : Store) : Obj → Ref → Prop
  | here (g n : Int) : Uses streams s (.ref g n) (g, n)
  | through {g n : Int} {o : Obj} {r : Ref} : s.get (.ref g n) = .ok o → Uses streams s o r →
      Uses streams s (.ref g n) r
  | item {l : List Obj} {o : Obj} {r : Ref} : o ∈ l → Uses streams s o r → Uses streams s (.list l) r
  | entry {d : Dict} {k : Bytes} {v : Obj} {r : Ref} : (k, v) ∈ d → k ≠ b!"/Parent" → k ≠ b!"/P" →
      Uses streams s v r → Uses streams s (.dict d) r
  | stream {d : Dict} {x y : Bytes} {k : Bytes} {v : Obj} {r : Ref} : streams = true → (k, v) ∈ d →
      k ≠ b!"/Parent" → k ≠ b!"/P" → Uses streams s v r → Uses streams s (.stream d x y) r

namespace PageTree

mutual
/-- The entries that ISO 32000 table 29 requires: `/Parent`, except on the root, and `/Count`. -/
def Linked : Option Ref → PageTree → Prop
  | par, .page _ d => Dict.get? d b!"/Parent" = par.map refObj
  | par, .node r d kids => Dict.get? d b!"/Parent" = par.map refObj ∧
      (∃ c, Dict.get? d b!"/Count" = some (.int c)) ∧ LinkedAll (some r) kids
def LinkedAll : Option Ref → List PageTree → Prop
  | _, [] => True
  | par, t :: ts => Linked par t ∧ LinkedAll par ts
end

mutual
/-- The numbers of all the objects of the tree. -/
def nums : PageTree → List Nat
  | .page r _ => [r.2.toNat]
  | .node r _ kids => r.2.toNat :: numsAll kids
def numsAll : List PageTree → List Nat
  | [] => []
  | t :: ts => nums t ++ numsAll ts
end

mutual
/-- The nodes: reference, dictionary, references of the pages below. -/
def nodes : PageTree → List (Ref × Dict × List Ref)
  | .page _ _ => []
  | .node r d kids => (r, d, (leavesAll [] kids).map Prod.fst) :: nodesAll kids
def nodesAll : List PageTree → List (Ref × Dict × List Ref)
  | [] => []
  | t :: ts => nodes t ++ nodesAll ts
end

end PageTree

/-- A page as it is shown: reference, dictionary, inherited attributes. -/
def shownPage (b : Ref × Dict × List Dict) : Ref × Dict × List (Option Obj) :=
  (b.1, b.2.1, inheritable.map fun k => nearest k b.2.2)

/-- The `/Count` of a node. -/
def countOf (d : Dict) : Int :=
  match Dict.get? d b!"/Count" with
  | some (.int c) => c
  | _ => 0

/-- Everything the object leads to can be read, within `k` levels (so there is no cycle). -/
def Within (s : Store) : Nat → Obj → Prop
  | 0, _ => False
  | k + 1, .ref g n => ∃ o, s.get (.ref g n) = .ok o ∧ Within s k o
  | k + 1, .list l => ∀ o ∈ l, Within s k o
  | k + 1, .dict d => ∀ key v, (key, v) ∈ d → key ≠ b!"/Parent" → key ≠ b!"/P" → Within s k v
  | _ + 1, _ => True

/-- A list without some positions. -/
def dropAt {α : Type} (l : List α) (del : List Int) : List α :=
  (l.zipIdx.filter fun p => ¬ ∃ i ∈ del, Position l.length i p.2).map Prod.fst

/-- The page is at one of the positions. -/
def PageAt (t : PageTree) (del : List Int) (r : Ref) : Prop :=
  ∃ i ∈ del, ∃ j b, Position (t.leaves []).length i j ∧ (t.leaves [])[j]? = some b ∧ b.1 = r

/-- What has become of a node. -/
structure NodeStep (gone : Ref → Prop) [DecidablePred gone] (x y : Ref × Dict × List Ref) : Prop where
  ref : y.1 = x.1
  below : y.2.2 = x.2.2.filter (fun r => ¬ gone r)
  count : Dict.get? y.2.1 b!"/Count" = some (.int (countOf x.2.1 - (x.2.2.filter (fun r => gone r)).length))
  other : ∀ k, k ≠ b!"/Kids" → k ≠ b!"/Count" → Dict.get? y.2.1 k = Dict.get? x.2.1 k

/-- The object is used by a page of the list. -/
def UsedBy (s : Store) (P : Ref → Prop) (n : Nat) : Prop :=
  ∃ q, P q ∧ ∃ r : Ref, Uses false s (PageTree.refObj q) r ∧ r.2.toNat = n

/-- What is asked of the document. -/
structure Removable (s : Store) (t : PageTree) (lim : Nat) (del : List Int) : Prop where
  root : PageTree.IsRoot s t
  linked : PageTree.Linked none t
  nodup : (PageTree.nums t).Nodup
  depth : t.depth ≤ lim
  /-- the positions exist -/
  inside : ∀ i ∈ del, ∃ j, Position (PageTree.leaves [] t).length i j
  /-- there is no cycle and no dangling reference below the pages -/
  reads : ∀ b ∈ PageTree.leaves [] t, Within s lim (PageTree.refObj b.1)
  /-- the references to an object have one generation -/
  gens : ∀ b ∈ PageTree.leaves [] t, ∀ b' ∈ PageTree.leaves [] t, ∀ g g' n, Uses false s (PageTree.refObj b.1) (g, n) →
    Uses false s (PageTree.refObj b'.1) (g', n) → g = g'
  /-- a page that is removed leads to no node of the tree -/
  nodes : ∀ r, PageAt t del r → ∀ x ∈ PageTree.nodes t, ∀ g, ¬ Uses false s (PageTree.refObj r) (g, x.1.2)

end Pdf.Spec
