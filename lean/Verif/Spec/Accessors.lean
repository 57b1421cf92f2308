import Verif.Model.Context

/-!
# Specification: the typed accessors of a node name its children

For each rule of grammar files, the typed accessors of a node (`rule_ref`, `colon`, `block`, …) give together
exactly the children of the node, in order.  Only the accessors are mentioned, not how the parser works.
-/

namespace Syntaxis

/-- terminal nodes -/
def leavesOf (ts : List Token) : List Ast := ts.map .terminal
/-- rule nodes -/
def nodesOf (rs : List RuleContext) : List Ast := rs.map RuleContext.toAst

/-- `a₀ o₁ a₁ … oₖ aₖ` -/
def interleave : List Ast → List Ast → List Ast
  | a :: as, o :: os => a :: o :: interleave as os
  | as, os => as ++ os

/-- the accessors of the trait for the rule of the node -/
def AccessorsOk (lc : LexConsts) (x : RuleContext) : Prop :=
  match x.ruleIndex with
  -- rule_list
  | 0 => (∀ k ∈ x.children, k ∈ nodesOf x.parserRuleList ∨ k ∈ nodesOf x.lexerRuleList) ∧
      (nodesOf x.parserRuleList).Sublist x.children ∧ (nodesOf x.lexerRuleList).Sublist x.children ∧
      x.children.length = x.parserRuleList.length + x.lexerRuleList.length
  -- parser_rule
  | 1 => ∃ n c b s, x.children = [.terminal n, .terminal c, b.toAst, .terminal s] ∧ x.ruleRef lc = some n ∧
      x.colon lc = some c ∧ x.block = some b ∧ x.semi lc = some s
  -- block
  | 2 => x.alternativeList.length = (x.orList lc).length + 1 ∧
      x.children = interleave (nodesOf x.alternativeList) (leavesOf (x.orList lc))
  -- alternative
  | 3 => (∃ e, x.children = [e.toAst] ∧ x.epsilon = some e ∧ x.elementList = []) ∨
      (x.epsilon = none ∧ x.elementList ≠ [] ∧ x.children = nodesOf x.elementList)
  -- epsilon
  | 4 => ∃ t, x.children = [.terminal t] ∧ x.epsilonToken lc = some t
  -- element
  | 5 =>
      ((∃ t, x.children = .terminal t :: nodesOf x.ebnfSuffix.toList ∧
          ((x.tokenRef lc = some t ∧ x.stringLiteral lc = none ∧ x.ruleRef lc = none) ∨
           (x.tokenRef lc = none ∧ x.stringLiteral lc = some t ∧ x.ruleRef lc = none) ∨
           (x.tokenRef lc = none ∧ x.stringLiteral lc = none ∧ x.ruleRef lc = some t)) ∧
          x.lparen lc = none ∧ x.block = none ∧ x.rparen lc = none) ∨
        ∃ l b r, x.children = .terminal l :: b.toAst :: .terminal r :: nodesOf x.ebnfSuffix.toList ∧
          x.tokenRef lc = none ∧ x.stringLiteral lc = none ∧ x.ruleRef lc = none ∧
          x.lparen lc = some l ∧ x.block = some b ∧ x.rparen lc = some r)
  -- ebnf_suffix
  | 6 => x.children = leavesOf ((x.star lc).toList ++ (x.plus lc).toList ++ x.questionList lc) ∧
      ((x.star lc).isSome = true → x.plus lc = none) ∧ (x.questionList lc).length ≤ 2 ∧
      (((x.star lc).isSome = true ∨ (x.plus lc).isSome = true) ↔ x.children.length = (x.questionList lc).length + 1)
  -- lexer_rule
  | 7 => ∃ n c b s, x.children = [.terminal n, .terminal c, b.toAst, .terminal s] ∧ x.tokenRef lc = some n ∧
      x.colon lc = some c ∧ x.regular = some b ∧ x.semi lc = some s
  -- regular
  | 8 => ∃ t, x.children = [.terminal t] ∧ x.regularLiteral lc = some t
  | _ => False

/-- none of the accessors for tokens, of the trait for the rule of the node, finds a token -/
def TokenAccessorsEmpty (lc : LexConsts) (x : RuleContext) : Prop :=
  match x.ruleIndex with
  | 1 => x.ruleRef lc = none ∧ x.colon lc = none ∧ x.semi lc = none
  | 2 => x.orList lc = []
  | 4 => x.epsilonToken lc = none
  | 5 => x.tokenRef lc = none ∧ x.stringLiteral lc = none ∧ x.ruleRef lc = none ∧ x.lparen lc = none ∧
      x.rparen lc = none
  | 6 => x.star lc = none ∧ x.plus lc = none ∧ x.questionList lc = []
  | 7 => x.tokenRef lc = none ∧ x.colon lc = none ∧ x.semi lc = none
  | 8 => x.regularLiteral lc = none
  | _ => True

end Syntaxis
