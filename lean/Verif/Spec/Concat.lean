/-
Joining two documents (C36).
-/
import Verif.Spec.Renumber
import Verif.Spec.Removal

namespace Pdf.Spec
open PageTree

mutual
/-- The tree with other references. -/
def PageTree.renumberTree (f : Ref → Ref) : PageTree → PageTree
  | .page r d => .page (f r) (renumberEntries f d)
  | .node r d kids => .node (f r) (renumberEntries f d) (renumberTrees f kids)
def PageTree.renumberTrees (f : Ref → Ref) : List PageTree → List PageTree
  | [] => []
  | t :: ts => renumberTree f t :: renumberTrees f ts
end

/-- The root node is not below itself, and its `/Count` is an integer. -/
def RootOk (t : PageTree) (c : Int) : Prop :=
  ∃ r d kids, t = .node r d kids ∧ r.2.toNat ∉ numsAll kids ∧ Dict.get? d b!"/Count" = some (.int c)

/-- The document may be copied into another: it may be squashed, it has no xref stream, its stream dictionaries
have no reference, its catalog (number `nr`) is not referred to, and its page tree has a count. -/
structure Copyable [Zlib] (d : Doc) (x : Option Int) (L : List Nat) (f : Ref → Ref) (nr : Nat) (t : PageTree) (c : Int) :
    Prop where
  ranks : Ranks d L f
  squashable : Squashable d x L f
  noXref : x = none ∨ x = some 0
  root : ∃ tr, (storeOf d).val 0 = .ok (.dict tr) ∧ Dict.get? tr b!"/Root" = some (.ref (genOf d nr : Int) (nr : Int))
  streams : ∀ n ∈ L, ∀ e s y, (storeOf d).val n = .ok (.stream e s y) → ∀ r, ¬ Occurs r (.stream e s y)
  noCatalog : ∀ n ∈ L, ∀ v, (storeOf d).val n = .ok v → ¬ Occurs ((genOf d nr : Int), (nr : Int)) v
  pages : IsRoot (storeOf d) t
  count : RootOk t c

/-- The references of the numbers of `M` are sent, in order, to the numbers from `start` on. -/
def SentTo (d : Doc) (start : Nat) (M : List Nat) (f : Ref → Ref) : Prop :=
  ∀ (j n : Nat), M[j]? = some n → f ((genOf d n : Int), (n : Int)) = (0, ((start + j : Nat) : Int))

end Pdf.Spec
