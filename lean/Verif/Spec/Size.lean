import Verif.Model.Ast

/-! # The size of a syntax tree -/

namespace Syntaxis

mutual
/-- number of nodes -/
def Ast.nodes : Ast → Nat
  | .terminal _ => 1
  | .error _ => 1
  | .rule _ _ kids => 1 + Ast.nodesList kids
def Ast.nodesList : List Ast → Nat
  | [] => 0
  | k :: ks => k.nodes + Ast.nodesList ks
end

/-- number of nodes of a tree -/
def RuleContext.nodes (r : RuleContext) : Nat := 1 + Ast.nodesList r.children

end Syntaxis
