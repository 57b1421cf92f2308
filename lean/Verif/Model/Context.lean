import Verif.Model.Walker

/-!
# `tool/syntaxis/syntaxis_context.rs` and `tool/v1/syntaxis_context.rs`: the typed accessors

The two files contain the same traits and implementations, except that they refer to the token constants of
`tool/syntaxis/syntaxis_lexer.rs` and of `tool/v1/syntaxis_lexer.rs`; the constants are a parameter here.
The rule constants of the two parsers are equal.  `accept`, `enter` and `exit` call the visitor or listener
method of the trait, see `Model/Visitor.lean`.
-/

namespace Syntaxis

/-- the token constants used by the accessors
(`syntaxis_context.rs:148-356`, declared in `syntaxis/syntaxis_lexer.rs:21-44` and `v1/syntaxis_lexer.rs:20-38`) -/
structure LexConsts where
  TOKEN_REF : Nat
  RULE_REF : Nat
  COLON : Nat
  OR : Nat
  SEMI : Nat
  STAR : Nat
  PLUS : Nat
  QUESTION : Nat
  LPAREN : Nat
  RPAREN : Nat
  STRING_LITERAL : Nat
  REGULAR_LITERAL : Nat
  EPSILON : Nat

/-- `tool/syntaxis/syntaxis_lexer.rs:28-44` -/
def LexConsts.old : LexConsts :=
  { TOKEN_REF := 6, RULE_REF := 7, COLON := 8, OR := 9, SEMI := 10, STAR := 11, PLUS := 12, QUESTION := 13,
    LPAREN := 16, RPAREN := 17, STRING_LITERAL := 19, REGULAR_LITERAL := 21, EPSILON := 22 }

/-- `tool/v1/syntaxis_lexer.rs:25-38` -/
def LexConsts.v1 : LexConsts :=
  { RULE_REF := 2, TOKEN_REF := 3, COLON := 4, SEMI := 5, OR := 6, EPSILON := 7, STAR := 8, PLUS := 9,
    QUESTION := 10, LPAREN := 11, RPAREN := 12, STRING_LITERAL := 13, REGULAR_LITERAL := 14 }

namespace RuleContext
variable (lc : LexConsts) (r : RuleContext)

/-- `syntaxis_context.rs:117-123`, `parser_rule_list` (rule constant `PARSER_RULE = 1`) -/
def parserRuleList : List RuleContext := r.getRuleContexts 1
/-- `syntaxis_context.rs:125-131`, `lexer_rule_list` (`LEXER_RULE = 7`) -/
def lexerRuleList : List RuleContext := r.getRuleContexts 7
/-- `syntaxis_context.rs:147-149,291-293`, `rule_ref` -/
def ruleRef : Option Token := r.getTerminal lc.RULE_REF 0
/-- `syntaxis_context.rs:151-153,183-185`, `colon` -/
def colon : Option Token := r.getTerminal lc.COLON 0
/-- `syntaxis_context.rs:155-159,303-307`, `block` (`BLOCK = 2`) -/
def block : Option RuleContext := r.getRuleContext 2 0
/-- `syntaxis_context.rs:161-163,187-189`, `semi` -/
def semi : Option Token := r.getTerminal lc.SEMI 0
/-- `syntaxis_context.rs:179-181,283-285`, `token_ref` -/
def tokenRef : Option Token := r.getTerminal lc.TOKEN_REF 0
/-- `syntaxis_context.rs:191-195`, `regular` (`REGULAR = 8`) -/
def regular : Option RuleContext := r.getRuleContext 8 0
/-- `syntaxis_context.rs:211-217`, `alternative_list` (`ALTERNATIVE = 3`) -/
def alternativeList : List RuleContext := r.getRuleContexts 3
/-- `syntaxis_context.rs:219-221`, `or_list` -/
def orList : List Token := r.getTerminals lc.OR
/-- `syntaxis_context.rs:237-243`, `element_list` (`ELEMENT = 5`) -/
def elementList : List RuleContext := r.getRuleContexts 5
/-- `syntaxis_context.rs:245-249`, `AlternativeContext::epsilon` (rule constant `EPSILON = 4`) -/
def epsilon : Option RuleContext := r.getRuleContext 4 0
/-- `syntaxis_context.rs:265-267`, `EpsilonContext::epsilon` -/
def epsilonToken : Option Token := r.getTerminal lc.EPSILON 0
/-- `syntaxis_context.rs:287-289`, `string_literal` -/
def stringLiteral : Option Token := r.getTerminal lc.STRING_LITERAL 0
/-- `syntaxis_context.rs:295-297`, `lparen` -/
def lparen : Option Token := r.getTerminal lc.LPAREN 0
/-- `syntaxis_context.rs:299-301`, `rparen` -/
def rparen : Option Token := r.getTerminal lc.RPAREN 0
/-- `syntaxis_context.rs:309-313`, `ebnf_suffix` (`EBNF_SUFFIX = 6`) -/
def ebnfSuffix : Option RuleContext := r.getRuleContext 6 0
/-- `syntaxis_context.rs:329-331`, `star` -/
def star : Option Token := r.getTerminal lc.STAR 0
/-- `syntaxis_context.rs:333-335`, `plus` -/
def plus : Option Token := r.getTerminal lc.PLUS 0
/-- `syntaxis_context.rs:337-339`, `question_list` -/
def questionList : List Token := r.getTerminals lc.QUESTION
/-- `syntaxis_context.rs:355-357`, `regular_literal` -/
def regularLiteral : Option Token := r.getTerminal lc.REGULAR_LITERAL 0

end RuleContext
end Syntaxis
