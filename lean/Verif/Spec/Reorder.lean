import Verif.Spec.Desugar
import Verif.Model.Ast

/-!
# Specification: files that differ in the order and the names of their parser rules
-/

namespace Syntaxis

mutual
/-- the tree with the rule names translated and the rule numbers erased: names, tokens and shape -/
def Ast.relabel (ν : Str → Str) : Ast → Ast
  | .terminal t => .terminal t
  | .error t => .error t
  | .rule n _ ks => .rule (ν n) 0 (relabelList ν ks)
def relabelList (ν : Str → Str) : List Ast → List Ast
  | [] => []
  | k :: ks => k.relabel ν :: relabelList ν ks
end

mutual
/-- the element with the rule names translated -/
def Elem.rename (ν : Str → Str) : Elem → Elem
  | .tok n => .tok n
  | .ref n => .ref (ν n)
  | .group alts => .group (renameAlts ν alts)
  | .rep f e => .rep f (e.rename ν)
def renameSeq (ν : Str → Str) : List Elem → List Elem
  | [] => []
  | e :: es => e.rename ν :: renameSeq ν es
def renameAlts (ν : Str → Str) : List (List Elem) → List (List Elem)
  | [] => []
  | a :: as => renameSeq ν a :: renameAlts ν as
end

/-- the rules with the rule names translated -/
def renameRules (ν : Str → Str) (D : Rules) : Rules := D.map fun r => (ν r.1, renameAlts ν r.2)

/-- the same alternatives are written for every rule name, in any order, any number of times and split over any number
of definitions -/
def SameAlternatives (D D' : Rules) : Prop := ∀ w, w ∈ writtenAlternatives D ↔ w ∈ writtenAlternatives D'

/-- every alternative written for a rule name in the first is written for it in the second -/
def SubAlternatives (D D' : Rules) : Prop := ∀ w ∈ writtenAlternatives D, w ∈ writtenAlternatives D'

end Syntaxis
