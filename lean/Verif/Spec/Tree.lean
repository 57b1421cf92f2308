import Verif.Spec.Cfg
import Verif.Model.Ast

/-!
# Specification: derivation trees, leaves of an AST, conformity
-/

namespace Syntaxis

/-- a derivation tree: terminals at the leaves, a production at every inner node -/
inductive PTree where
  | leaf (a : Nat)
  | node (p : Production) (kids : List PTree)

/-- the grammar symbol at the root -/
def PTree.root : PTree → Item
  | .leaf a => .t a
  | .node p _ => .nt p.left

mutual
/-- the terminals at the leaves, left to right -/
def PTree.yield : PTree → List Nat
  | .leaf a => [a]
  | .node _ kids => PTree.yields kids
/-- the same for a forest -/
def PTree.yields : List PTree → List Nat
  | [] => []
  | t :: ts => t.yield ++ PTree.yields ts
end

mutual
/-- the tree applies productions of `P` only, and the children of a node spell its right-hand side -/
def PTree.Valid (P : List Production) : PTree → Prop
  | .leaf _ => True
  | .node p kids => p ∈ P ∧ kids.map PTree.root = p.right ∧ PTree.Valids P kids
/-- all trees of a forest are valid -/
def PTree.Valids (P : List Production) : List PTree → Prop
  | [] => True
  | t :: ts => t.Valid P ∧ PTree.Valids P ts
end

mutual
/-- the tokens at the leaves of an AST, left to right -/
def Ast.leaves : Ast → List Token
  | .terminal tok => [tok]
  | .error tok => [tok]
  | .rule _ _ kids => Ast.leavesList kids
/-- the same for a list of children -/
def Ast.leavesList : List Ast → List Token
  | [] => []
  | k :: ks => k.leaves ++ Ast.leavesList ks
end

/-- the grammar symbol an AST child stands for -/
def Ast.sym : Ast → Item
  | .terminal tok => .t tok.tokenType
  | .error tok => .t tok.tokenType
  | .rule _ i _ => .nt i

/-- the productions of the unnamed rules: the ones whose nodes are spliced into their parent -/
def anonymous (v : Vocabulary) (P : List Production) : List Production :=
  P.filter fun p => (v.getNonterminalNameById p.left).isNone

mutual
/-- An AST conforms to the grammar: every rule node is a named rule under its vocabulary name, and its
children spell a string obtained from one of its productions by expanding unnamed rules only. -/
def Ast.Conforms (v : Vocabulary) (P : List Production) : Ast → Prop
  | .terminal _ => True
  | .error _ => True
  | .rule n i kids => v.getNonterminalNameById i = some n ∧
      (∃ p ∈ P, p.left = i ∧ Derives (anonymous v P) p.right (kids.map Ast.sym)) ∧
      Ast.ConformsList v P kids
/-- the same for a list of children -/
def Ast.ConformsList (v : Vocabulary) (P : List Production) : List Ast → Prop
  | [] => True
  | k :: ks => k.Conforms v P ∧ Ast.ConformsList v P ks
end

end Syntaxis
