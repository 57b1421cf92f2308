import Verif.Spec.LexRules

/-!
# Specification: definitions of a grammar file and the messages about them
-/

namespace Syntaxis

/-- a definition: a lexer rule with its literal, or a parser rule -/
inductive Defn where
  | token (name regex : Str)
  | rule (name : Str)
  deriving DecidableEq

/-- a node read as a definition: parser rules are rule 1, lexer rules are rule 7 -/
def readDefn (lc : LexConsts) (k : Ast) : Option Defn :=
  if k.isRule 1 then (firstText lc.RULE_REF k.kids).map .rule
  else if k.isRule 7 then (readLex lc k).map fun d => .token d.1 d.2
  else none

/-- is it a definition of the token `n`? -/
def Defn.isToken (n : Str) : Defn → Bool
  | .token m _ => m == n
  | .rule _ => false

/-- is it a definition of the rule `n`? -/
def Defn.isParserRule (n : Str) : Defn → Bool
  | .token _ _ => false
  | .rule m => m == n

/-- the message about a repeated token -/
def tokenTwice (n : Str) : Str := chars! "重复定义 token: " ++ n
/-- the message about a repeated rule -/
def ruleTwice (n : Str) : Str := chars! "重复定义 rule: " ++ n

/-- the (name, alternative) pairs written in the rules, in order -/
def writtenAlternatives (D : Rules) : List (Str × List Elem) := D.flatMap fun r => r.2.map fun a => (r.1, a)

mutual
/-- the blocks in parentheses inside an element -/
def Elem.groups : Elem → List (List (List Elem))
  | .tok _ => []
  | .ref _ => []
  | .group alts => alts :: altsGroups alts
  | .rep _ e => e.groups
def seqGroups : List Elem → List (List (List Elem))
  | [] => []
  | e :: es => e.groups ++ seqGroups es
def altsGroups : List (List Elem) → List (List (List Elem))
  | [] => []
  | a :: as => seqGroups a ++ altsGroups as
end

end Syntaxis
