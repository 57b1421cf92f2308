import Verif.Spec.Tree

/-! # Specification: what mismatch messages say, trees up to token texts -/

namespace Syntaxis

/-- `log` lists, by increasing position, exactly the positions at which the token types `ts` differ from
the expected word `w` of the same length, each with the expected type -/
def ReportsDifferences (w ts : List Nat) (log : List (Nat × Nat)) : Prop :=
  w.length = ts.length ∧ (log.map Prod.snd).Pairwise (· < ·) ∧
    ∀ e i, (e, i) ∈ log ↔ w[i]? = some e ∧ ts[i]? ≠ some e

mutual
/-- the tree with the tokens replaced by their types (as tokens without text and position) -/
def Ast.skeleton : Ast → Ast
  | .terminal tok => .terminal (Token.new tok.tokenType [] [])
  | .error tok => .error (Token.new tok.tokenType [] [])
  | .rule n i kids => .rule n i (Ast.skeletonList kids)
/-- the same for a list of children -/
def Ast.skeletonList : List Ast → List Ast
  | [] => []
  | k :: ks => k.skeleton :: Ast.skeletonList ks
end

end Syntaxis
