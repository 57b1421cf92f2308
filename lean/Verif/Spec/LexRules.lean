import Verif.Spec.Ebnf
import Verif.Spec.Traversal

/-!
# Specification: lexer rules and string literals of a grammar file
-/

namespace Syntaxis

/-- `\/` becomes `/`, everything else stays -/
def unescapeSlash : Str → Str
  | '\\' :: '/' :: s => '/' :: unescapeSlash s
  | c :: s => c :: unescapeSlash s
  | [] => []

/-- name and literal text of a lexer rule node: the first token name and the first regular literal of the
first `regular` child (rule 8) -/
def readLex (lc : LexConsts) (k : Ast) : Option (Str × Str) :=
  match firstText lc.TOKEN_REF k.kids, k.kids.find? (Ast.isRule 8) with
  | some n, some x => (firstText lc.REGULAR_LITERAL x.kids).map fun t => (n, t)
  | _, _ => none

/-- drop the definitions of names that are already defined -/
def firstWins : List Str → List (Str × Str) → List (Str × Str)
  | _, [] => []
  | seen, d :: ds => if d.1 ∈ seen then firstWins seen ds else d :: firstWins (d.1 :: seen) ds

/-- the names of the definitions dropped by `firstWins` -/
def dropped : List Str → List (Str × Str) → List Str
  | _, [] => []
  | seen, d :: ds => if d.1 ∈ seen then d.1 :: dropped seen ds else dropped (d.1 :: seen) ds

/-- number the definitions and wrap their regexes -/
def numbered : Nat → List (Str × Str) → List LexerRuleData
  | _, [] => []
  | i, d :: ds => ⟨i, d.1, "^(".toList ++ unescapeSlash d.2 ++ ")".toList⟩ :: numbered (i + 1) ds

/-- a one-character escape or a character in the source of a string literal -/
inductive LitUnit where
  | plain (c : Char)
  | newline | tab | ret | quote | alert | feed | vertical
  deriving DecidableEq

namespace LitUnit
/-- how it is written -/
def source : LitUnit → Str
  | plain c => [c]
  | newline => ['\\', 'n']
  | tab => ['\\', 't']
  | ret => ['\\', 'r']
  | quote => ['\\', '\'']
  | alert => ['\\', 'a']
  | feed => ['\\', 'f']
  | vertical => ['\\', 'v']
/-- the character it stands for -/
def value : LitUnit → Char
  | plain c => c
  | newline => '\n'
  | tab => '\t'
  | ret => '\r'
  | quote => '\''
  | alert => '\x07'
  | feed => '\x0c'
  | vertical => '\x0b'
end LitUnit

/-- characters with a meaning of their own in the syntax of the `regex` crate (`]` and `}` have one only behind `[` and `{`) -/
def regexMeta (c : Char) : Bool := "\\.+*?()|[{^$".toList.contains c

/-- the character a backslash and a character stand for in the syntax of the `regex` crate: a metacharacter, or a control
character named by its letter -/
def escapedChar (c : Char) : Option Char :=
  if regexMeta c || c == ']' || c == '}' then some c
  else if c = 'a' then some '\x07' else if c = 'f' then some '\x0c' else if c = 'v' then some '\x0b' else none

/-- The regexes that consist of ordinary characters, escaped characters and `.` only, as the list of the
sets of characters they match one after the other. -/
def simpleRegex : Str → Option (List (Char → Bool))
  | [] => some []
  | '\\' :: c :: s =>
    match escapedChar c with
    | some d => (simpleRegex s).map ((· == d) :: ·)
    | none => none
  | '.' :: s => (simpleRegex s).map ((· != '\n') :: ·)
  | c :: s => if regexMeta c then none else (simpleRegex s).map ((· == c) :: ·)

/-- the string is matched as a whole -/
def MatchesAll (cs : List (Char → Bool)) (w : Str) : Prop := List.Forall₂ (fun p c => p c = true) cs w

/-- the texts of the string literals of a tree, in document order -/
def literalTexts (lc : LexConsts) (ast : RuleContext) : List Str :=
  (Ast.leafNodesList ast.children).filterMap fun x =>
    if x.1 = false ∧ x.2.tokenType = lc.STRING_LITERAL then some x.2.text else none

/-- first occurrences -/
def firstOccurrences : List Str → List Str → List Str
  | _, [] => []
  | seen, t :: ts => if t ∈ seen then firstOccurrences seen ts else t :: firstOccurrences (t :: seen) ts

end Syntaxis
