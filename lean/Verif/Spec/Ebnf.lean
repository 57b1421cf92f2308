import Verif.Model.GrammarVisitor

/-!
# Specification: EBNF grammars, their words, and how a syntax tree is read as one

Independent of the visitors: only the token and rule constants and the tree type are shared.
-/

namespace Syntaxis

/-- an element of an EBNF rule -/
inductive Elem where
  /-- a token reference (or a string literal, which stands for the token of that name) -/
  | tok (name : Str)
  /-- a rule reference -/
  | ref (name : Str)
  /-- a parenthesised block: alternatives of sequences of elements -/
  | group (alts : List (List Elem))
  /-- `e*`, `e+`, `e?` -/
  | rep (f : Suffix) (e : Elem)

/-- an EBNF grammar: named rules with their alternatives; a name may be defined several times -/
abbrev Rules := List (Str × List (List Elem))

/-- `w` is a word of the sequence of elements: a token reference stands for the token of that name, a rule
reference for any alternative of any rule of that name, `*`, `+`, `?` are repetition. -/
inductive Word (D : Rules) (tok : Str → Option Nat) : List Elem → List Nat → Prop
  | nil : Word D tok [] []
  | tok {n a es w} (hn : tok n = some a) (h : Word D tok es w) : Word D tok (.tok n :: es) (a :: w)
  | ref {n alts alt es u w} (hd : (n, alts) ∈ D) (ha : alt ∈ alts) (hu : Word D tok alt u)
      (h : Word D tok es w) : Word D tok (.ref n :: es) (u ++ w)
  | group {alts alt es u w} (ha : alt ∈ alts) (hu : Word D tok alt u) (h : Word D tok es w) :
      Word D tok (.group alts :: es) (u ++ w)
  | starNil {e es w} (h : Word D tok es w) : Word D tok (.rep .star e :: es) w
  | starCons {e es u w} (hu : Word D tok [e] u) (h : Word D tok (.rep .star e :: es) w) :
      Word D tok (.rep .star e :: es) (u ++ w)
  | plusOne {e es u w} (hu : Word D tok [e] u) (h : Word D tok es w) : Word D tok (.rep .plus e :: es) (u ++ w)
  | plusCons {e es u w} (hu : Word D tok [e] u) (h : Word D tok (.rep .plus e :: es) w) :
      Word D tok (.rep .plus e :: es) (u ++ w)
  | optNil {e es w} (h : Word D tok es w) : Word D tok (.rep .question e :: es) w
  | optOne {e es u w} (hu : Word D tok [e] u) (h : Word D tok es w) :
      Word D tok (.rep .question e :: es) (u ++ w)

/-! ## reading a syntax tree -/

/-- text of the first terminal child of this type -/
def firstText (ty : Nat) : List Ast → Option Str
  | [] => none
  | .terminal t :: ks => if t.tokenType = ty then some t.text else firstText ty ks
  | _ :: ks => firstText ty ks

/-- is the node a rule node of this rule? -/
def Ast.isRule (i : Nat) : Ast → Bool
  | .rule _ j _ => i == j
  | _ => false

/-- the children of a node -/
def Ast.kids : Ast → List Ast
  | .rule _ _ ks => ks
  | _ => []

/-- the suffix written behind an element: the first `ebnf_suffix` child (rule 6) decides -/
def readSuffix (lc : LexConsts) (kids : List Ast) : Option Suffix :=
  match kids.find? (Ast.isRule 6) with
  | none => none
  | some x =>
    if (firstText lc.STAR x.kids).isSome then some .star
    else if (firstText lc.PLUS x.kids).isSome then some .plus
    else some .question

/-- attach a suffix -/
def withSuffix (f : Option Suffix) (e : Elem) : Elem :=
  match f with
  | none => e
  | some f => .rep f e

mutual
/-- An element node: a token reference, else a string literal, else a rule reference, else a block; with its
suffix. -/
def readElem (lc : LexConsts) : Ast → Option Elem
  | .rule _ _ kids =>
    (match firstText lc.TOKEN_REF kids with
      | some n => some (Elem.tok n)
      | none => match firstText lc.STRING_LITERAL kids with
        | some n => some (Elem.tok n)
        | none => match firstText lc.RULE_REF kids with
          | some n => some (Elem.ref n)
          | none => match readBlock lc kids with
            | some alts => some (Elem.group alts)
            | none => none).map (withSuffix (readSuffix lc kids))
  | .terminal _ => none
  | .error _ => none
/-- the first block (rule 2) among these nodes -/
def readBlock (lc : LexConsts) : List Ast → Option (List (List Elem))
  | [] => none
  | k :: ks => if k.isRule 2 then readAltsOf lc k else readBlock lc ks
/-- the alternatives of a block node -/
def readAltsOf (lc : LexConsts) : Ast → Option (List (List Elem))
  | .rule _ _ kids => readAlts lc kids
  | .terminal _ => none
  | .error _ => none
/-- the alternatives (rule 3) among these nodes -/
def readAlts (lc : LexConsts) : List Ast → Option (List (List Elem))
  | [] => some []
  | k :: ks =>
    if k.isRule 3 then
      match readAlt lc k, readAlts lc ks with
      | some a, some as => some (a :: as)
      | _, _ => none
    else readAlts lc ks
/-- an alternative node: empty if it has an `epsilon` child (rule 4), else its elements -/
def readAlt (lc : LexConsts) : Ast → Option (List Elem)
  | .rule _ _ kids => if kids.any (Ast.isRule 4) then some [] else readElems lc kids
  | .terminal _ => none
  | .error _ => none
/-- the elements (rule 5) among these nodes -/
def readElems (lc : LexConsts) : List Ast → Option (List Elem)
  | [] => some []
  | k :: ks =>
    if k.isRule 5 then
      match readElem lc k, readElems lc ks with
      | some e, some es => some (e :: es)
      | _, _ => none
    else readElems lc ks
end

/-- the parser rules (rule 1) among these nodes: name and alternatives -/
def readRules (lc : LexConsts) : List Ast → Option Rules
  | [] => some []
  | k :: ks =>
    if k.isRule 1 then
      match firstText lc.RULE_REF k.kids, readBlock lc k.kids, readRules lc ks with
      | some n, some alts, some rs => some ((n, alts) :: rs)
      | _, _, _ => none
    else readRules lc ks

mutual
/-- token names referred to -/
def Elem.tokNames : Elem → List Str
  | .tok n => [n]
  | .ref _ => []
  | .group alts => altsTokNames alts
  | .rep _ e => e.tokNames
def seqTokNames : List Elem → List Str
  | [] => []
  | e :: es => e.tokNames ++ seqTokNames es
def altsTokNames : List (List Elem) → List Str
  | [] => []
  | a :: as => seqTokNames a ++ altsTokNames as
end

mutual
/-- rule names referred to -/
def Elem.ruleNames : Elem → List Str
  | .tok _ => []
  | .ref n => [n]
  | .group alts => altsRuleNames alts
  | .rep _ e => e.ruleNames
def seqRuleNames : List Elem → List Str
  | [] => []
  | e :: es => e.ruleNames ++ seqRuleNames es
def altsRuleNames : List (List Elem) → List Str
  | [] => []
  | a :: as => seqRuleNames a ++ altsRuleNames as
end

/-- is the element a token reference without suffix? -/
def Elem.isTok : Elem → Bool
  | .tok _ => true
  | _ => false

mutual
/-- the suffixes written in an element, each with a flag telling whether it is applied directly to a token -/
def Elem.suffixes : Elem → List (Suffix × Bool)
  | .tok _ => []
  | .ref _ => []
  | .group alts => altsSuffixes alts
  | .rep f e => (f, e.isTok) :: e.suffixes
def seqSuffixes : List Elem → List (Suffix × Bool)
  | [] => []
  | e :: es => e.suffixes ++ seqSuffixes es
def altsSuffixes : List (List Elem) → List (Suffix × Bool)
  | [] => []
  | a :: as => seqSuffixes a ++ altsSuffixes as
end

/-- no suffix is applied both to a token and to something else -/
def SuffixesSeparate (D : Rules) : Prop :=
  ∀ f, ¬ ((∃ r ∈ D, (f, true) ∈ altsSuffixes r.2) ∧ ∃ r ∈ D, (f, false) ∈ altsSuffixes r.2)

mutual
/-- the suffixes written in an element, each with the element in front of it -/
def Elem.operands : Elem → List (Suffix × Elem)
  | .tok _ => []
  | .ref _ => []
  | .group alts => altsOperands alts
  | .rep f e => (f, e) :: e.operands
/-- the same for a sequence -/
def seqOperands : List Elem → List (Suffix × Elem)
  | [] => []
  | e :: es => e.operands ++ seqOperands es
/-- the same for alternatives -/
def altsOperands : List (List Elem) → List (Suffix × Elem)
  | [] => []
  | a :: as => seqOperands a ++ altsOperands as
end

/-- somewhere in the rules the suffix is written behind the element -/
def Applied (D : Rules) (f : Suffix) (e : Elem) : Prop := ∃ r ∈ D, (f, e) ∈ altsOperands r.2

/-- the numbers of the symbols keep the suffixes of tokens apart from the others: a token and a rule with the same suffix
have different numbers, and a token with a suffix that is also applied to a group or a repetition does not have the number
of a rule without name -/
def SuffixesApart (D : Rules) (v : Vocabulary) : Prop :=
  ∀ f t n, Applied D f (.tok t) → v.getTerminalIdByName t = some n →
    (∀ r, Applied D f (.ref r) → v.getNonterminalIdByName r ≠ some n) ∧
    ((∃ alts, Applied D f (.group alts)) ∨ (∃ k e, Applied D f (.rep k e)) →
      n ∈ v.nonterminals → ∃ r, v.getNonterminalIdByName r = some n)

end Syntaxis
