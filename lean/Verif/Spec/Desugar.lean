import Verif.Spec.Messages

/-!
# Specification: the rules an EBNF grammar stands for

The symbols are the elements themselves: a block, a repetition or a rule reference is a symbol with rules of its own.
-/

namespace Syntaxis

mutual
/-- the element and all elements inside it -/
def Elem.parts : Elem → List Elem
  | .tok n => [.tok n]
  | .ref n => [.ref n]
  | .group alts => .group alts :: altsParts alts
  | .rep f e => .rep f e :: e.parts
def seqParts : List Elem → List Elem
  | [] => []
  | e :: es => e.parts ++ seqParts es
def altsParts : List (List Elem) → List Elem
  | [] => []
  | a :: as => seqParts a ++ altsParts as
end

/-- the elements that occur in the rules -/
def rulesParts (D : Rules) : List Elem := D.flatMap fun r => altsParts r.2

/-- the rules of each symbol: a rule reference stands for the alternatives written for that name, a block for its
alternatives, `e*` for nothing or `e e*`, `e+` for `e` or `e e+`, `e?` for nothing or `e` -/
inductive Expands (D : Rules) : Elem → List Elem → Prop
  | rule {n a} (h : (n, a) ∈ writtenAlternatives D) : Expands D (.ref n) a
  | group {alts a} (h : .group alts ∈ rulesParts D) (ha : a ∈ alts) : Expands D (.group alts) a
  | starNil {e} (h : .rep .star e ∈ rulesParts D) : Expands D (.rep .star e) []
  | starCons {e} (h : .rep .star e ∈ rulesParts D) : Expands D (.rep .star e) [e, .rep .star e]
  | plusOne {e} (h : .rep .plus e ∈ rulesParts D) : Expands D (.rep .plus e) [e]
  | plusCons {e} (h : .rep .plus e ∈ rulesParts D) : Expands D (.rep .plus e) [e, .rep .plus e]
  | optNil {e} (h : .rep .question e ∈ rulesParts D) : Expands D (.rep .question e) []
  | optOne {e} (h : .rep .question e ∈ rulesParts D) : Expands D (.rep .question e) [e]

/-- the symbols: the elements that occur, and the rules that are defined -/
def IsSymbol (D : Rules) (e : Elem) : Prop := e ∈ rulesParts D ∨ ∃ r ∈ D, e = .ref r.1

end Syntaxis
