import Verif.Spec.Comments

/-!
# Specification: number, name and text of the tokens of grammar files

The numbers and names are those of the constants `tool/v1/syntaxis_lexer.rs:25-38` and
`syntaxis/syntaxis_lexer.rs:24-44`; the shapes of the texts are stated without regexes.
-/

namespace Syntaxis

/-- two or more characters, the first of `[first]`, the others letters, digits or underscores -/
def IsIdentifier (first : Char → Prop) (u : Str) : Prop :=
  ∃ c w, u = c :: w ∧ first c ∧ w ≠ [] ∧
    ∀ d ∈ w, ('a' ≤ d ∧ d ≤ 'z') ∨ ('A' ≤ d ∧ d ≤ 'Z') ∨ ('0' ≤ d ∧ d ≤ '9') ∨ d = '_'

/-- a nonempty text of these characters -/
def IsBlank (cs : List Char) (u : Str) : Prop := u ≠ [] ∧ ∀ c ∈ u, c ∈ cs

/-- one of these texts -/
def IsOneOf (ws : List Str) (u : Str) : Prop := u ∈ ws

/-- an escape of a string literal: a backslash and one of `\'adnrtfv`, or `\u{…}` with hexadecimal digits -/
def IsEscape (u : Str) : Prop :=
  (∃ c ∈ ['\\', '\'', 'a', 'd', 'n', 'r', 't', 'f', 'v'], u = ['\\', c]) ∨
  ∃ p h, u = ['\\', 'u', '{'] ++ p ++ h ++ ['}'] ∧ (p = [] ∨ p = ['0'] ∨ p = ['0', 'x']) ∧ h ≠ [] ∧
    ∀ d ∈ h, ('a' ≤ d ∧ d ≤ 'f') ∨ ('0' ≤ d ∧ d ≤ '9')

/-- quotes around escapes and characters that are digits or none of alert, line feed, carriage return, tab, form feed,
vertical tab, backslash and quote -/
def IsStringLiteral (digit : Char → Bool) (u : Str) : Prop :=
  ∃ us : List Str, u = '\'' :: (us.flatten ++ ['\'']) ∧
    ∀ x ∈ us, IsEscape x ∨ ∃ c, x = [c] ∧
      (digit c = true ∨ c ∉ ['\x07', '\n', '\r', '\t', '\x0c', '\x0b', '\\', '\''])

/-- slashes around one or more of: characters that are no slash, and `\/` -/
def IsRegularLiteral (u : Str) : Prop :=
  ∃ us : List Str, us ≠ [] ∧ u = '/' :: (us.flatten ++ ['/']) ∧ ∀ x ∈ us, x = ['\\', '/'] ∨ ∃ c, c ≠ '/' ∧ x = [c]

/-- number and name of a kind of tokens, and the shape of its texts -/
structure Kind where
  number : Nat
  name : Str
  Shape : Str → Prop

/-- the token agrees with the kind -/
def Kind.Fits (k : Kind) (t : Token) : Prop := t.tokenType = k.number ∧ t.tokenName = k.name ∧ k.Shape t.text

/-- the ways to write the arrow of a rule -/
def arrows : List Str := [[':', ':', '='], [':', '='], ['-', '>'], ['=', '>'], [':'], ['=']]

/-- `tool/v1/syntaxis_lexer.rs:25-38` -/
def V1.kinds (digit : Char → Bool) : List Kind :=
  [ ⟨2, "RULE_REF".toList, IsIdentifier fun c => 'a' ≤ c ∧ c ≤ 'z'⟩,
    ⟨3, "TOKEN_REF".toList, IsIdentifier fun c => 'A' ≤ c ∧ c ≤ 'Z'⟩,
    ⟨4, "COLON".toList, IsOneOf arrows⟩,
    ⟨5, "SEMI".toList, IsOneOf [[';']]⟩,
    ⟨6, "OR".toList, IsOneOf [['|']]⟩,
    ⟨7, "EPSILON".toList, IsOneOf [['ε'], ['e', 'p', 's', 'i', 'l', 'o', 'n']]⟩,
    ⟨8, "STAR".toList, IsOneOf [['*']]⟩,
    ⟨9, "PLUS".toList, IsOneOf [['+']]⟩,
    ⟨10, "QUESTION".toList, IsOneOf [['?']]⟩,
    ⟨11, "LPAREN".toList, IsOneOf [['(']]⟩,
    ⟨12, "RPAREN".toList, IsOneOf [[')']]⟩,
    ⟨13, "STRING_LITERAL".toList, IsStringLiteral digit⟩,
    ⟨14, "REGULAR_LITERAL".toList, IsRegularLiteral⟩,
    ⟨15, "WHITE_SPACE".toList, IsBlank [' ', '\r', '\n', '\t', '\x0c']⟩ ]

/-- `syntaxis/syntaxis_lexer.rs:24-44` -/
def Old.kinds (digit : Char → Bool) : List Kind :=
  [ ⟨2, "LINE_COMMENT".toList, IsLineComment⟩,
    ⟨3, "BLOCK_COMMENT".toList, IsBlockComment⟩,
    ⟨4, "WS".toList, IsBlank [' ', '\t', '\r', '\n']⟩,
    ⟨5, "FRAGMENT".toList, IsOneOf [['f', 'r', 'a', 'g', 'm', 'e', 'n', 't']]⟩,
    ⟨6, "TOKEN_REF".toList, IsIdentifier fun c => 'A' ≤ c ∧ c ≤ 'Z'⟩,
    ⟨7, "RULE_REF".toList, IsIdentifier fun c => 'a' ≤ c ∧ c ≤ 'z'⟩,
    ⟨8, "COLON".toList, IsOneOf arrows⟩,
    ⟨9, "OR".toList, IsOneOf [['|']]⟩,
    ⟨10, "SEMI".toList, IsOneOf [[';']]⟩,
    ⟨11, "STAR".toList, IsOneOf [['*']]⟩,
    ⟨12, "PLUS".toList, IsOneOf [['+']]⟩,
    ⟨13, "QUESTION".toList, IsOneOf [['?']]⟩,
    ⟨14, "DOT".toList, IsOneOf [['.']]⟩,
    ⟨15, "NOT".toList, IsOneOf [['~']]⟩,
    ⟨16, "LPAREN".toList, IsOneOf [['(']]⟩,
    ⟨17, "RPAREN".toList, IsOneOf [[')']]⟩,
    ⟨18, "POUND".toList, IsOneOf [['#']]⟩,
    ⟨19, "STRING_LITERAL".toList, IsStringLiteral digit⟩,
    ⟨20, "RANGE".toList, IsOneOf [['.', '.']]⟩,
    ⟨21, "REGULAR_LITERAL".toList, IsRegularLiteral⟩,
    ⟨22, "EPSILON".toList, IsOneOf [['ε'], ['e', 'p', 's', 'i', 'l', 'o', 'n']]⟩ ]

end Syntaxis
