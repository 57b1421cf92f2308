import Verif.Model.SerdeAst
import Verif.Model.GrammarVisitor
import Verif.Model.Parser
import Verif.Model.Regex
import Verif.Model.Page
import Verif.Model.Template
import Verif.Model.Display

/-!
# `main.rs`: the program

Generated from the source by a script: the text `Main.input`.
-/

namespace Syntaxis
namespace Main
open Grammar

/-- `main.rs:42-78`: the grammar file the program reads -/
def input : Str :=
  Template.lines [
    chars! "",
    chars! "  rule_list: (parser_rule | lexer_rule)*;",
    chars! "",
    chars! "  parser_rule: RULE_REF COLON block SEMI;",
    chars! "  block: alternative (OR alternative)*;",
    chars! "",
    chars! "  alternative: element+ | epsilon;",
    chars! "  epsilon: EPSILON;",
    chars! "  element: (",
    chars! "      TOKEN_REF",
    chars! "      | STRING_LITERAL",
    chars! "      | RULE_REF",
    chars! "      | LPAREN block RPAREN",
    chars! "    ) ebnf_suffix?;",
    chars! "",
    chars! "  ebnf_suffix: (STAR | PLUS | QUESTION) QUESTION?;",
    chars! "",
    chars! "",
    chars! "  lexer_rule: TOKEN_REF COLON regular SEMI;",
    chars! "  regular: REGULAR_LITERAL;",
    chars! "",
    chars! "  RULE_REF: /[a-z][a-zA-Z0-9_]+/;",
    chars! "  TOKEN_REF: /[A-Z][a-zA-Z0-9_]+/;",
    chars! "  COLON: /::=|:=|->|=>|:|=/;",
    chars! "  SEMI: /;/;",
    chars! "  OR: /\\|/;",
    chars! "  EPSILON: /ε|epsilon/;",
    chars! "  STAR: /\\* /;",
    chars! "  PLUS: /\\+/;",
    chars! "  QUESTION: /\\?/;",
    chars! "  LPAREN: /\\(/;",
    chars! "  RPAREN: /\\)/;",
    chars! "  STRING_LITERAL: /\"((\\\\\\\\|\\\\\"|\\\\a|\\\\d|\\\\n|\\\\r|\\\\t|\\\\f|\\\\v|\\\\u\\{(0x|0)?[a-f0-9]+\\})|\\d|[^\\a\\d\\n\\r\\t\\f\\v\\\\\"])*\"/;",
    chars! "  REGULAR_LITERAL: /\\/(\\\\\\/|[^\\/])+\\//;",
    chars! "  WHITE_SPACE: /[ \\r\\n\\t\\f]+/;",
    chars! "  "] ++ chars! "  "

/-- The hash orders of one run: how `get_all_nonterminals()` and the `HashSet` of productions of the grammar are
enumerated, and the sets iterated by `ll1_table` (`grammar/mod.rs:114,120,130,155,167,196,202,210`) -/
structure Orders where
  ids : Grammar → List Nat
  ids_mem : ∀ g i, i ∈ ids g ↔ i ∈ g.vocabulary.nonterminals
  ord : Grammar → List Production
  ord_perm : ∀ g, (ord g).Perm g.productions.dedup
  set : SetOrder

/-- what a run of the program prints and writes (`main.rs:30-89`) -/
structure Output where
  /-- the lines printed by the visitors of `load_ast` -/
  messages : List Str
  /-- the conflicts printed by `ll1_table` -/
  conflicts : List (Production × Production)
  /-- the line printed by `scan_all_on_channel_tokens` -/
  unlexed : Option Str
  /-- the messages printed by `parse` -/
  mismatches : MismatchLog
  /-- the content of `parser2.html` -/
  page : Str
  deriving DecidableEq

/-- `main.rs:30-88`, `main`, and `main.rs:92-125`, `load_ast`.  `json` is the content of `syntaxis2.json` (`none`
if it is no JSON), `text` the grammar file (`main.rs:42-78`).  `digit` is `\d`.  Not modelled: opening the
file, loading the templates, creating `parser2.html` and writing less than the whole text (`ast_drawer.rs:59-60`);
what is printed before a panic. -/
def main (h : Orders) (digit : Char → Bool) (json : Option Json) (text : Str) (fuel : Nat) : Res Output := do
  let ast ← SerdeAst.fromJson fuel json
  let ast ← unwrap ast
  let (s2, s3) ← buildStates .old fuel ast (Grammar.new "我的文法".toList) 2 0
  let grammar := s3.grammar
  let (first, firstSet) ← firstSet (h.ids grammar) (h.ord grammar) fuel
  let follow ← followSet (h.ids grammar) (h.ord grammar) first fuel
  let ts ← ll1Table h.set (h.ord grammar) firstSet follow
  let (tokens, unlexed, _) ← (V1.lexer digit text).scanAll V1.WHITE_SPACE 0 fuel
  let (ast, log) ← (Parser.mk tokens ts.table grammar.vocabulary).parse fuel
  .ok { messages := s2.out ++ s3.out, conflicts := ts.conflicts, unlexed, mismatches := log, page := Page.render "parser".toList ast }

/-- The text a run prints: each message ends with a line feed; the rest that is not lexed is followed by one;
a mismatch is always the same line (`v1/syntaxis_parser.rs:122`). -/
def Output.stdout (o : Output) : Str :=
  o.messages.flatMap (· ++ ['\n']) ++ conflictOutput o.conflicts ++
  (match o.unlexed with | none => [] | some rest => rest ++ ['\n']) ++
  o.mismatches.flatMap fun _ => chars! "符号不匹配\n"

end Main
end Syntaxis
