import Mathlib.Data.List.Lex
import Mathlib.Algebra.Group.Even
import Verif.Spec.Js

/-!
# What a view of a tree shows

Nodes are named by the positions of the children on the way from the root, the last one first.
-/

namespace Syntaxis
namespace PageView

/-- `v` is the node at `p` -/
inductive NodeAt (root : View) : List Nat → View → Prop
  | root : NodeAt root [] root
  | child {p n i ks j k} (h : NodeAt root p (.node n i ks)) (hj : ks[j]? = some k) : NodeAt root (j :: p) k

/-- `a` is a proper ancestor of `p` -/
def Above (a p : List Nat) : Prop := ∃ s, s ≠ [] ∧ p = s ++ a

/-- `p` comes before `q` in document order: the positions from the root on are smaller in lexicographic order -/
def DocBefore (p q : List Nat) : Prop := p.reverse < q.reverse

/-- all ancestors of `p` have been clicked an even number of times -/
def Open (clicks : List (List Nat)) (p : List Nat) : Prop := ∀ a, Above a p → Even (clicks.count a)

/-- what a reader of the tree wants to see: the name of a rule, the text of a token -/
def labelOf : View → Str
  | .leaf _ t => t
  | .node n _ _ => n

/-- the name of a rule or of a token -/
def nameOf : View → Str
  | .leaf n _ => n
  | .node n _ _ => n

/-- what a tool tip adds to the label: the number of a rule, the name of a token -/
def tipOf : View → Str
  | .leaf n _ => n
  | .node _ i _ => Nat.toDigits 10 i

end PageView
end Syntaxis
