import Verif.Spec.GrammarText
import Verif.Spec.TokenNames

/-!
# Specification: the grammars that can be written as a file, and a way to write them
-/

namespace Syntaxis

/-- two or more characters: a small letter, then letters, digits and underscores -/
def IsRuleName : Str → Prop := IsIdentifier fun c => 'a' ≤ c ∧ c ≤ 'z'

/-- two or more characters: a capital letter, then letters, digits and underscores -/
def IsTokenName : Str → Prop := IsIdentifier fun c => 'A' ≤ c ∧ c ≤ 'Z'

mutual
/-- names are names, a token may be named by a string literal, a group has an alternative -/
inductive AtomOk (digit : Char → Bool) : Elem → Prop
  | token {n : Str} (h : IsTokenName n) : AtomOk digit (.tok n)
  | literal {n : Str} (h : IsStringLiteral digit n) : AtomOk digit (.tok n)
  | rule {n : Str} (h : IsRuleName n) : AtomOk digit (.ref n)
  | group {alts : List (List Elem)} (hne : alts ≠ []) (h : ∀ a ∈ alts, ∀ e ∈ a, ElemOk digit e) :
      AtomOk digit (.group alts)
/-- at most one suffix -/
inductive ElemOk (digit : Char → Bool) : Elem → Prop
  | plain {e : Elem} (h : AtomOk digit e) : ElemOk digit e
  | suffix {e : Elem} (f : Suffix) (h : AtomOk digit e) : ElemOk digit (.rep f e)
end

/-- the parser rules `D` and the lexer rules `L` (name and literal) can be written in one file -/
structure Writable (digit : Char → Bool) (D : Rules) (L : List (Str × Str)) : Prop where
  names : ∀ r ∈ D, IsRuleName r.1
  bodies : ∀ r ∈ D, r.2 ≠ [] ∧ ∀ a ∈ r.2, ∀ e ∈ a, ElemOk digit e
  tokens : ∀ p ∈ L, IsTokenName p.1 ∧ IsRegularLiteral p.2
  slashes : ∀ p ∈ L.dropLast, ¬ ['\\', '/'] <:+ p.2

/-! ## one way to write them -/

/-- how a suffix is written -/
def Suffix.word : Suffix → Str
  | .star => ['*']
  | .plus => ['+']
  | .question => ['?']

mutual
/-- the words of an element -/
def Elem.words : Elem → List Str
  | .tok n => [n]
  | .ref n => [n]
  | .group alts => ['('] :: (blockWords alts ++ [[')']])
  | .rep f e => e.words ++ [f.word]
/-- the words of a sequence of elements -/
def seqWords : List Elem → List Str
  | [] => []
  | e :: es => e.words ++ seqWords es
/-- the words of an alternative: `ε` if it is empty -/
def altWords : List Elem → List Str
  | [] => [['ε']]
  | e :: es => e.words ++ seqWords es
/-- the words of alternatives, separated by `|` -/
def blockWords : List (List Elem) → List Str
  | [] => []
  | a :: as => altWords a ++ blockTail as
/-- the words of further alternatives -/
def blockTail : List (List Elem) → List Str
  | [] => []
  | a :: as => ['|'] :: (altWords a ++ blockTail as)
end

/-- the words of a file: first the parser rules, then the lexer rules -/
def fileWords (D : Rules) (L : List (Str × Str)) : List Str :=
  D.flatMap (fun r => r.1 :: [':'] :: (blockWords r.2 ++ [[';']])) ++ L.flatMap fun p => [p.1, [':'], p.2, [';']]

/-- the file: a blank after every word -/
def fileText (D : Rules) (L : List (Str × Str)) : Str := (fileWords D L).flatMap (· ++ [' '])

end Syntaxis
