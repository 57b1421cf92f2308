import Verif.Model.Lexer

/-!
# The regexes of the lexers

The `regex` crate is not part of the repository; its documented semantics is modelled: patterns
denote the syntax trees below, matching is leftmost-first (as in Perl: alternatives are tried in order,
repetition is greedy unless marked `?`), and all patterns begin with `^`, so a match starts at offset 0.
The translation from the pattern strings to the syntax trees is by hand; every definition quotes the
pattern, and C64 proves that reading the quoted pattern (`Model/RegexSyntax`) gives it.  `\d` is the Unicode class Nd; it is a parameter `digit` of the patterns that use it.
-/

namespace Syntaxis

/-- syntax of the regexes used (`v1/syntaxis_lexer.rs:46-59`, `syntaxis/syntaxis_lexer.rs:50-70`) -/
inductive Regex where
  /-- one character of a class -/
  | cls (p : Char → Bool)
  /-- concatenation; the empty list matches the empty string -/
  | nil
  | seq (r s : Regex)
  /-- alternation `r|s`, `r` preferred -/
  | alt (r s : Regex)
  /-- greedy `r*` -/
  | star (r : Regex)
  /-- reluctant `r*?` -/
  | lazyStar (r : Regex)

namespace Regex

/-- greedy iteration: the remainders after `r*`, most iterations first.  Iterations consuming nothing
are not considered (no pattern of the project has a nullable repeated body).
For `+` and `*` in `v1/syntaxis_lexer.rs:46-59`, `syntaxis/syntaxis_lexer.rs:50-70`. -/
def iterate (m : Str → List Str) : Nat → Str → List Str
  | 0, s => [s]
  | n + 1, s => (m s).flatMap (fun s' => if s'.length < s.length then iterate m n s' else []) ++ [s]

/-- reluctant iteration: fewest iterations first.  For `*?` in `syntaxis/syntaxis_lexer.rs:50-51`. -/
def iterateLazy (m : Str → List Str) : Nat → Str → List Str
  | 0, s => [s]
  | n + 1, s => s :: (m s).flatMap (fun s' => if s'.length < s.length then iterateLazy m n s' else [])

/-- all ways to match a prefix, in order of preference; the elements are the unmatched remainders.
For `v1/syntaxis_lexer.rs:46-59`, `syntaxis/syntaxis_lexer.rs:50-70`. -/
def run : Regex → Str → List Str
  | cls p, s =>
    match s with
    | [] => []
    | c :: s' => if p c then [s'] else []
  | nil, s => [s]
  | seq r q, s => (run r s).flatMap (run q)
  | alt r q, s => run r s ++ run q s
  | star r, s => iterate (run r) s.length s
  | lazyStar r, s => iterateLazy (run r) s.length s

/-- `Regex::find_at(haystack, 0)`, `Match::end`: byte offset of the end of the preferred match
(`v1/syntaxis_lexer.rs:101-104`, `syntaxis/syntaxis_lexer.rs:95-98`) -/
def find (r : Regex) : Matcher := fun s => (r.run s).head?.map fun rest => byteLen s - byteLen rest

/-- `r+` (`v1/syntaxis_lexer.rs:46-47,57-59`) -/
def plus (r : Regex) : Regex := seq r (star r)
/-- `r?` (`v1/syntaxis_lexer.rs:57`) -/
def opt (r : Regex) : Regex := alt r nil
/-- one literal character.  E.g. `v1/syntaxis_lexer.rs:49-50`. -/
def lit (c : Char) : Regex := cls fun d => d == c
/-- a literal string.  E.g. `v1/syntaxis_lexer.rs:48,51`. -/
def str : List Char → Regex
  | [] => nil
  | [c] => lit c
  | c :: cs => seq (lit c) (str cs)
/-- alternation of several regexes (`v1/syntaxis_lexer.rs:48,51,57-58`) -/
def alts : List Regex → Regex
  | [] => cls fun _ => false
  | [r] => r
  | r :: rs => alt r (alts rs)

end Regex

/-- `[a-z]` (`v1/syntaxis_lexer.rs:46`) -/
def isLowerAZ (c : Char) : Bool := decide ('a' ≤ c ∧ c ≤ 'z')
/-- `[A-Z]` (`v1/syntaxis_lexer.rs:47`) -/
def isUpperAZ (c : Char) : Bool := decide ('A' ≤ c ∧ c ≤ 'Z')
/-- `[0-9]` (`v1/syntaxis_lexer.rs:46-47,57`) -/
def isDigit09 (c : Char) : Bool := decide ('0' ≤ c ∧ c ≤ '9')
/-- `[a-zA-Z0-9_]` (`v1/syntaxis_lexer.rs:46-47`) -/
def isIdent (c : Char) : Bool := isLowerAZ c || isUpperAZ c || isDigit09 c || c == '_'

namespace V1
open Regex

/-- `^([a-z][a-zA-Z0-9_]+)` (`v1/syntaxis_lexer.rs:46`) -/
def ruleRef : Regex := seq (cls isLowerAZ) (plus (cls isIdent))
/-- `^([A-Z][a-zA-Z0-9_]+)` (`v1/syntaxis_lexer.rs:47`) -/
def tokenRef : Regex := seq (cls isUpperAZ) (plus (cls isIdent))
/-- `^(::=|:=|->|=>|:|=)` (`v1/syntaxis_lexer.rs:48`) -/
def colon : Regex := alts [str [':', ':', '='], str [':', '='], str ['-', '>'], str ['=', '>'], lit ':', lit '=']
/-- `^(ε|epsilon)` (`v1/syntaxis_lexer.rs:51`) -/
def epsilon : Regex := alts [lit 'ε', str ['e', 'p', 's', 'i', 'l', 'o', 'n']]
/-- the excluded characters of `[^\a\d\n\r\t\f\v\\']` apart from `\d` (`v1/syntaxis_lexer.rs:57`) -/
def stringExcluded (c : Char) : Bool :=
  c == '\x07' || c == '\n' || c == '\r' || c == '\t' || c == '\x0c' || c == '\x0b' || c == '\\' || c == '\''
/-- `\\\\|\\'|\\a|\\d|\\n|\\r|\\t|\\f|\\v|\\u\{(0x|0)?[a-f0-9]+\}` (`v1/syntaxis_lexer.rs:57`) -/
def stringEscape : Regex :=
  alts [str ['\\', '\\'], str ['\\', '\''], str ['\\', 'a'], str ['\\', 'd'], str ['\\', 'n'],
    str ['\\', 'r'], str ['\\', 't'], str ['\\', 'f'], str ['\\', 'v'],
    seq (str ['\\', 'u', '{']) (seq (opt (alt (str ['0', 'x']) (lit '0')))
      (seq (plus (cls fun c => decide ('a' ≤ c ∧ c ≤ 'f') || isDigit09 c)) (lit '}')))]
/-- `^('([^\a\d\n\r\t\f\v\\']|(…escapes…)|\d)*')` (`v1/syntaxis_lexer.rs:57`) -/
def stringLiteral (digit : Char → Bool) : Regex :=
  seq (lit '\'') (seq
    (star (alts [cls (fun c => !(stringExcluded c || digit c)), stringEscape, cls digit])) (lit '\''))
/-- `^(/(\\/|[^/])+/)` (`v1/syntaxis_lexer.rs:58`) -/
def regularLiteral : Regex :=
  seq (lit '/') (seq (plus (alt (str ['\\', '/']) (cls fun c => c != '/'))) (lit '/'))
/-- `[ \r\n\t\f]` (`v1/syntaxis_lexer.rs:59`) -/
def isWhite (c : Char) : Bool := c == ' ' || c == '\r' || c == '\n' || c == '\t' || c == '\x0c'
/-- `^([ \r\n\t\f]+)` (`v1/syntaxis_lexer.rs:59`) -/
def whiteSpace : Regex := plus (cls isWhite)

/-- `v1/syntaxis_lexer.rs:42-61`: the regex list. -/
def regexes (digit : Char → Bool) : List Regex :=
  [ruleRef, tokenRef, colon, lit ';', lit '|', epsilon, lit '*', lit '+', lit '?', lit '(', lit ')',
    stringLiteral digit, regularLiteral, whiteSpace]

/-- `v1/syntaxis_lexer.rs:64-67`: the token names. -/
def tokenNames : List Str :=
  ["_START", "_STOP", "RULE_REF", "TOKEN_REF", "COLON", "SEMI", "OR", "EPSILON", "STAR", "PLUS",
    "QUESTION", "LPAREN", "RPAREN", "STRING_LITERAL", "REGULAR_LITERAL", "WHITE_SPACE"].map String.toList

/-- `v1/syntaxis_lexer.rs:38` -/
def WHITE_SPACE : Nat := 15

/-- `v1/syntaxis_lexer.rs:41-70`: `SyntaxisLexer::new`. -/
def lexer (digit : Char → Bool) (input : Str) : Lexer :=
  Lexer.new ((regexes digit).map Regex.find) tokenNames input

end V1

namespace Old
open Regex

/-- `^//.*?\n` (`.` excludes line feed) (`syntaxis/syntaxis_lexer.rs:50`) -/
def lineComment : Regex := seq (str ['/', '/']) (seq (lazyStar (cls fun c => c != '\n')) (lit '\n'))
/-- `^(?s)/\*.*?\*/` (`syntaxis/syntaxis_lexer.rs:51`) -/
def blockComment : Regex := seq (str ['/', '*']) (seq (lazyStar (cls fun _ => true)) (str ['*', '/']))
/-- `^[ \t\r\n]+` (`syntaxis/syntaxis_lexer.rs:52`) -/
def ws : Regex := plus (cls fun c => c == ' ' || c == '\t' || c == '\r' || c == '\n')
/-- `^fragment` (`syntaxis/syntaxis_lexer.rs:53`) -/
def fragment : Regex := str "fragment".toList
/-- `^'((…escapes…)|\d|[^\a\d\n\r\t\f\v\\'])*'` (`syntaxis/syntaxis_lexer.rs:67`) -/
def stringLiteral (digit : Char → Bool) : Regex :=
  seq (lit '\'') (seq
    (star (alts [V1.stringEscape, cls digit, cls (fun c => !(V1.stringExcluded c || digit c))])) (lit '\''))

/-- `syntaxis/syntaxis_lexer.rs:48-71`: the regex list. -/
def regexes (digit : Char → Bool) : List Regex :=
  [lineComment, blockComment, ws, fragment, V1.tokenRef, V1.ruleRef, V1.colon, lit '|', lit ';', lit '*',
    lit '+', lit '?', lit '.', lit '~', lit '(', lit ')', lit '#', stringLiteral digit,
    str ['.', '.'], V1.regularLiteral, V1.epsilon]

/-- `syntaxis/syntaxis_lexer.rs:73-77`: the token names. -/
def tokenNames : List Str :=
  ["_START", "_STOP", "LINE_COMMENT", "BLOCK_COMMENT", "WS", "FRAGMENT", "TOKEN_REF",
    "RULE_REF", "COLON", "OR", "SEMI", "STAR", "PLUS", "QUEStION", "DOT",
    "NOT", "LPAREN", "RPAREN", "POUND", "STRING_LITERAL", "RANGE", "REGULAR_LITERAL", "EPSILON"].map String.toList

/-- `syntaxis/syntaxis_lexer.rs:47-80`: `SyntaxisLexer::new`. -/
def lexer (digit : Char → Bool) (input : Str) : Lexer :=
  Lexer.new ((regexes digit).map Regex.find) tokenNames input

end Old
end Syntaxis
