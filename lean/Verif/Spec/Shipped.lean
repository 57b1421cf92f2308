import Verif.Spec.Ebnf

/-!
# Specification: the EBNF grammar of grammar files

The grammar that `syntaxis2.json` describes, written down by hand, and the token numbers of
`tool/v1/syntaxis_lexer.rs:20-38`.
-/

namespace Syntaxis
namespace Shipped

/-- a token reference -/
def T (n : String) : Elem := .tok n.toList
/-- a rule reference -/
def R (n : String) : Elem := .ref n.toList

/-- ```
rule_list: (parser_rule | lexer_rule)*;
parser_rule: RULE_REF COLON block SEMI;
block: alternative (OR alternative)*;
alternative: element element* | epsilon;
epsilon: EPSILON;
element: (TOKEN_REF | STRING_LITERAL | RULE_REF | LPAREN block RPAREN) ebnf_suffix?;
ebnf_suffix: (STAR | PLUS | QUESTION) QUESTION?;
lexer_rule: TOKEN_REF COLON regular SEMI;
regular: REGULAR_LITERAL;
``` -/
def rules : Rules := [
  ("rule_list".toList, [[.rep .star (.group [[R "parser_rule"], [R "lexer_rule"]])]]),
  ("parser_rule".toList, [[T "RULE_REF", T "COLON", R "block", T "SEMI"]]),
  ("block".toList, [[R "alternative", .rep .star (.group [[T "OR", R "alternative"]])]]),
  ("alternative".toList, [[R "element", .rep .star (R "element")], [R "epsilon"]]),
  ("epsilon".toList, [[T "EPSILON"]]),
  ("element".toList, [[.group [[T "TOKEN_REF"], [T "STRING_LITERAL"], [T "RULE_REF"],
      [T "LPAREN", R "block", T "RPAREN"]], .rep .question (R "ebnf_suffix")]]),
  ("ebnf_suffix".toList, [[.group [[T "STAR"], [T "PLUS"], [T "QUESTION"]], .rep .question (T "QUESTION")]]),
  ("lexer_rule".toList, [[T "TOKEN_REF", T "COLON", R "regular", T "SEMI"]]),
  ("regular".toList, [[T "REGULAR_LITERAL"]])]

/-- the token numbers of the lexer -/
def tokenNumbers : List (Str × Nat) := [
  ("_START".toList, 0), ("_STOP".toList, 1), ("RULE_REF".toList, 2), ("TOKEN_REF".toList, 3), ("COLON".toList, 4),
  ("SEMI".toList, 5), ("OR".toList, 6), ("EPSILON".toList, 7), ("STAR".toList, 8), ("PLUS".toList, 9),
  ("QUESTION".toList, 10), ("LPAREN".toList, 11), ("RPAREN".toList, 12), ("STRING_LITERAL".toList, 13),
  ("REGULAR_LITERAL".toList, 14), ("WHITE_SPACE".toList, 15)]

/-- the rule numbers of the parser (`v1/syntaxis_parser.rs:19-27`) -/
def ruleNumbers : List (Str × Nat) := [
  ("rule_list".toList, 0), ("parser_rule".toList, 1), ("block".toList, 2), ("alternative".toList, 3),
  ("epsilon".toList, 4), ("element".toList, 5), ("ebnf_suffix".toList, 6), ("lexer_rule".toList, 7),
  ("regular".toList, 8)]

/-- the number of a name -/
def number (l : List (Str × Nat)) (n : Str) : Option Nat := l.lookup n

end Shipped
end Syntaxis
