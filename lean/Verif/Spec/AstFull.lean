import Verif.Spec.Tree

/-! # Specification: trees without empty rule nodes -/

namespace Syntaxis

mutual
/-- no rule node of the tree is childless -/
def Ast.Full : Ast → Prop
  | .terminal _ => True
  | .error _ => True
  | .rule _ _ kids => kids ≠ [] ∧ Ast.FullList kids
/-- the same for a list of children -/
def Ast.FullList : List Ast → Prop
  | [] => True
  | k :: ks => k.Full ∧ Ast.FullList ks
end

mutual
/-- the tree has no error node -/
def Ast.ErrorFree : Ast → Prop
  | .terminal _ => True
  | .error _ => False
  | .rule _ _ kids => Ast.ErrorFreeList kids
/-- the same for a list of children -/
def Ast.ErrorFreeList : List Ast → Prop
  | [] => True
  | k :: ks => k.ErrorFree ∧ Ast.ErrorFreeList ks
end

mutual
/-- the childless nodes of the tree, left to right: terminals, error nodes and empty rule nodes -/
def Ast.tips : Ast → List Ast
  | .terminal tok => [.terminal tok]
  | .error tok => [.error tok]
  | .rule n i kids => if kids.isEmpty then [.rule n i []] else Ast.tipsList kids
/-- the same for a list of children -/
def Ast.tipsList : List Ast → List Ast
  | [] => []
  | k :: ks => k.tips ++ Ast.tipsList ks
end

/-- the token of a leaf -/
def Ast.tipToken : Ast → Option Token
  | .terminal tok => some tok
  | .error tok => some tok
  | .rule _ _ _ => none

/-- the token of a terminal leaf -/
def Ast.tipTerminal : Ast → Option Token
  | .terminal tok => some tok
  | .error _ => none
  | .rule _ _ _ => none

end Syntaxis
