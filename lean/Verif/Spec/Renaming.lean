import Verif.Model.GrammarVisitor

/-!
# Specification: renaming the rules and tokens of a grammar
-/

namespace Syntaxis

/-- both return, with related results, or both fail in the same way -/
inductive Alike {α β : Type _} (R : α → β → Prop) : Res α → Res β → Prop
  | ok {a : α} {b : β} (h : R a b) : Alike R (.ok a) (.ok b)
  | error (e : Fault) : Alike R (.error e) (.error e)

/-! ## in the syntax tree of a grammar file -/

mutual
/-- the tree with other tokens at its leaves -/
def Ast.mapTokens (h : Token → Token) : Ast → Ast
  | .terminal t => .terminal (h t)
  | .error t => .error (h t)
  | .rule n i ks => .rule n i (Ast.mapTokensList h ks)
/-- the same for several trees -/
def Ast.mapTokensList (h : Token → Token) : List Ast → List Ast
  | [] => []
  | k :: ks => k.mapTokens h :: Ast.mapTokensList h ks
end

/-- the same for a node -/
def RuleContext.mapTokens (h : Token → Token) (r : RuleContext) : RuleContext :=
  { r with children := Ast.mapTokensList h r.children }

/-- a token of a grammar file after renaming: what names a rule or a token is replaced -/
def Token.renamed (lc : LexConsts) (f : Str → Str) (t : Token) : Token :=
  if t.tokenType = lc.RULE_REF ∨ t.tokenType = lc.TOKEN_REF ∨ t.tokenType = lc.STRING_LITERAL then
    { t with text := f t.text }
  else t

/-- regular expressions are no names -/
def LexConsts.Apart (lc : LexConsts) : Prop :=
  lc.REGULAR_LITERAL ≠ lc.RULE_REF ∧ lc.REGULAR_LITERAL ≠ lc.TOKEN_REF ∧ lc.REGULAR_LITERAL ≠ lc.STRING_LITERAL

/-! ## in the vocabulary and the data for the lexer -/

/-- the same numbers under other names -/
structure Vocabulary.Renamed (f : Str → Str) (v v' : Vocabulary) : Prop where
  rules : v'.nonterminals = v.nonterminals
  tokens : v'.terminals = v.terminals
  ruleName : ∀ i, v'.getNonterminalNameById i = (v.getNonterminalNameById i).map f
  tokenName : ∀ i, v'.getTerminalNameById i = (v.getTerminalNameById i).map f
  ruleId : ∀ n, v'.getNonterminalIdByName (f n) = v.getNonterminalIdByName n
  tokenId : ∀ n, v'.getTerminalIdByName (f n) = v.getTerminalIdByName n

/-- a lexer rule under another name -/
def LexerRuleData.renamed (f : Str → Str) (d : LexerRuleData) : LexerRuleData := { d with tokenName := f d.tokenName }

/-! ## in the tokens and trees of the generated lexer and parser -/

/-- a token whose kind has another name -/
def Token.kindRenamed (f : Str → Str) (t : Token) : Token := { t with tokenName := f t.tokenName }

mutual
/-- a tree in which kinds of tokens and rules have other names -/
def Ast.renamed (f : Str → Str) : Ast → Ast
  | .terminal t => .terminal (t.kindRenamed f)
  | .error t => .error (t.kindRenamed f)
  | .rule n i ks => .rule (f n) i (Ast.renamedList f ks)
/-- the same for several trees -/
def Ast.renamedList (f : Str → Str) : List Ast → List Ast
  | [] => []
  | k :: ks => k.renamed f :: Ast.renamedList f ks
end

/-- the same for a node -/
def RuleContext.renamed (f : Str → Str) (r : RuleContext) : RuleContext :=
  { r with ruleName := f r.ruleName, children := Ast.renamedList f r.children }

end Syntaxis
