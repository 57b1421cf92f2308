import Verif.Spec.Shipped
import Verif.Spec.GrammarText
import Verif.Spec.Spacing
import Verif.Model.Main
import Verif.Model.Shipped

/-!
# Specification: the grammar in `main.rs` and what a run of the program amounts to
-/

namespace Syntaxis
namespace Main
open Shipped

/-- The parser rules of the text in `main.rs:42-78`, written down by hand.
```
rule_list: (parser_rule | lexer_rule)*;
parser_rule: RULE_REF COLON block SEMI;
block: alternative (OR alternative)*;
alternative: element+ | epsilon;
epsilon: EPSILON;
element: (TOKEN_REF | STRING_LITERAL | RULE_REF | LPAREN block RPAREN) ebnf_suffix?;
ebnf_suffix: (STAR | PLUS | QUESTION) QUESTION?;
lexer_rule: TOKEN_REF COLON regular SEMI;
regular: REGULAR_LITERAL;
``` -/
def rules : Rules := [
  ("rule_list".toList, [[.rep .star (.group [[R "parser_rule"], [R "lexer_rule"]])]]),
  ("parser_rule".toList, [[T "RULE_REF", T "COLON", R "block", T "SEMI"]]),
  ("block".toList, [[R "alternative", .rep .star (.group [[T "OR", R "alternative"]])]]),
  ("alternative".toList, [[.rep .plus (R "element")], [R "epsilon"]]),
  ("epsilon".toList, [[T "EPSILON"]]),
  ("element".toList, [[.group [[T "TOKEN_REF"], [T "STRING_LITERAL"], [T "RULE_REF"],
      [T "LPAREN", R "block", T "RPAREN"]], .rep .question (R "ebnf_suffix")]]),
  ("ebnf_suffix".toList, [[.group [[T "STAR"], [T "PLUS"], [T "QUESTION"]], .rep .question (T "QUESTION")]]),
  ("lexer_rule".toList, [[T "TOKEN_REF", T "COLON", R "regular", T "SEMI"]]),
  ("regular".toList, [[T "REGULAR_LITERAL"]])]

/-- the lexer rules of the text -/
def lexRules : List (Str × Str) := [
  ("RULE_REF".toList, "/[a-z][a-zA-Z0-9_]+/".toList),
  ("TOKEN_REF".toList, "/[A-Z][a-zA-Z0-9_]+/".toList),
  ("COLON".toList, "/::=|:=|->|=>|:|=/".toList),
  ("SEMI".toList, "/;/".toList),
  ("OR".toList, "/\\|/".toList),
  ("EPSILON".toList, "/ε|epsilon/".toList),
  ("STAR".toList, "/\\* /".toList),
  ("PLUS".toList, "/\\+/".toList),
  ("QUESTION".toList, "/\\?/".toList),
  ("LPAREN".toList, "/\\(/".toList),
  ("RPAREN".toList, "/\\)/".toList),
  ("STRING_LITERAL".toList, "/\"((\\\\\\\\|\\\\\"|\\\\a|\\\\d|\\\\n|\\\\r|\\\\t|\\\\f|\\\\v|\\\\u\\{(0x|0)?[a-f0-9]+\\})|\\d|[^\\a\\d\\n\\r\\t\\f\\v\\\\\"])*\"/".toList),
  ("REGULAR_LITERAL".toList, "/\\/(\\\\\\/|[^\\/])+\\//".toList),
  ("WHITE_SPACE".toList, "/[ \\r\\n\\t\\f]+/".toList)]

/-- a run of the program on the text ends with this result: no bound on its steps is reached -/
def Ends (h : Orders) (digit : Char → Bool) (text : Str) (res : Res Output) : Prop :=
  res ≠ .error .fuel ∧ ∃ n, ∀ fuel, n ≤ fuel → main h digit (some json) text fuel = res

end Main
end Syntaxis
