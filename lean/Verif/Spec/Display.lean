import Verif.Model.Ast
import Verif.Model.Grammar

/-!
# Specification: what printed trees, tokens and grammars show
-/

namespace Syntaxis

/-- what a printed tree is meant to show: the names and the nesting -/
inductive Outline where
  | leaf (name : Str)
  | node (name : Str) (kids : List Outline)

mutual
/-- the outline of a tree: texts, positions, numbers and the difference between tokens and error nodes are
dropped -/
def Ast.outline : Ast → Outline
  | .terminal t => .leaf t.tokenName
  | .error t => .leaf t.tokenName
  | .rule n _ kids => .node n (Ast.outlines kids)
/-- the outlines of a list of trees -/
def Ast.outlines : List Ast → List Outline
  | [] => []
  | k :: ks => k.outline :: Ast.outlines ks
end

mutual
/-- the names of an outline in document order -/
def Outline.names : Outline → List Str
  | .leaf n => [n]
  | .node n kids => n :: Outline.namesAll kids
/-- the names of a list of outlines -/
def Outline.namesAll : List Outline → List Str
  | [] => []
  | k :: ks => k.names ++ Outline.namesAll ks
end

/-- the words of a text: the longest pieces without spaces and parentheses; `w` is the word being read -/
def wordsFrom (w : Str) : Str → List Str
  | [] => if w = [] then [] else [w]
  | c :: s =>
    if c = ' ' ∨ c = '(' ∨ c = ')' then (if w = [] then [] else [w]) ++ wordsFrom [] s else wordsFrom (w ++ [c]) s

/-- a name without spaces and parentheses -/
def PlainName (n : Str) : Prop := ' ' ∉ n ∧ '(' ∉ n ∧ ')' ∉ n

instance (n : Str) : Decidable (PlainName n) := by unfold PlainName; infer_instance

mutual
/-- all names in the tree are plain -/
def Ast.PlainNames : Ast → Prop
  | .terminal t => PlainName t.tokenName
  | .error t => PlainName t.tokenName
  | .rule n _ kids => PlainName n ∧ Ast.PlainNamesAll kids
/-- all names in the trees are plain -/
def Ast.PlainNamesAll : List Ast → Prop
  | [] => True
  | k :: ks => k.PlainNames ∧ Ast.PlainNamesAll ks
end

/-- the names of a vocabulary that can be told apart in a printed grammar: no spaces, semicolons; a rule
name is not empty and not a number -/
structure PrintableNames (v : Vocabulary) : Prop where
  rule : ∀ i n, v.getNonterminalNameById i = some n → ' ' ∉ n ∧ ';' ∉ n ∧ ∃ c ∈ n, c.isDigit = false
  token : ∀ i n, v.getTerminalNameById i = some n → ' ' ∉ n ∧ ';' ∉ n

/-- on the right there is at most one rule, and it comes first -/
def RuleFirst (p : Production) : Prop := ∀ B, Item.nt B ∉ p.right.tail

/-- a right side as it is printed: the names of the rules in front of the first token, then for each token its name and
the names of the rules behind it, up to the next token -/
def printedWords (v : Vocabulary) : List Item → Str × List Str
  | [] => ([], [])
  | .nt B :: r => (v.getNonterminalNameWithDefault B ++ (printedWords v r).1, (printedWords v r).2)
  | .t a :: r => ([], ((v.getTerminalNameById a).getD [] ++ (printedWords v r).1) :: (printedWords v r).2)

end Syntaxis
