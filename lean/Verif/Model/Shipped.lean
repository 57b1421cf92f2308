import Verif.Model.SerdeAst

/-!
# `tool/syntaxis/syntaxis2.json`: the grammar loaded by `load_ast`

A transcription of the file, every object with its entries in the order of the file.
-/

namespace Syntaxis
namespace Shipped

/-- an object of the file with `rule_index`, `rule_name` and `children`.  E.g. `syntaxis2.json:1-3`. -/
def node (i : Nat) (n : String) (ks : List Json) : Json :=
  .obj [("rule_index".toList, .posInt i), ("rule_name".toList, .str n.toList), ("children".toList, .arr ks)]

/-- an object of the file with `token_type`, `token_name` and `text`.  E.g. `syntaxis2.json:9-13`. -/
def leaf (i : Nat) (n t : String) : Json :=
  .obj [("token_type".toList, .posInt i), ("token_name".toList, .str n.toList), ("text".toList, .str t.toList)]

/-- `syntaxis2.json:5-109` -/
def rule_rule_list : Json :=
  node 1 "parser_rule" [
    leaf 7 "RULE_REF" "rule_list",
    leaf 8 "COLON" ":",
    node 2 "block" [
      node 3 "alternative" [
        node 5 "element" [
          leaf 16 "LPAREN" "(",
          node 2 "block" [
            node 3 "alternative" [
              node 5 "element" [
                leaf 7 "RULE_REF" "parser_rule"]],
            leaf 9 "OR" "|",
            node 3 "alternative" [
              node 5 "element" [
                leaf 7 "RULE_REF" "lexer_rule"]]],
          leaf 17 "RPAREN" ")",
          node 6 "ebnf_suffix" [
            leaf 11 "STAR" "*"]]]],
    leaf 10 "SEMI" ";"]

/-- `syntaxis2.json:110-186` -/
def rule_parser_rule : Json :=
  node 1 "parser_rule" [
    leaf 7 "RULE_REF" "parser_rule",
    leaf 8 "COLON" ":",
    node 2 "block" [
      node 3 "alternative" [
        node 5 "element" [
          leaf 6 "TOKEN_REF" "RULE_REF"],
        node 5 "element" [
          leaf 6 "TOKEN_REF" "COLON"],
        node 5 "element" [
          leaf 7 "RULE_REF" "block"],
        node 5 "element" [
          leaf 6 "TOKEN_REF" "SEMI"]]],
    leaf 10 "SEMI" ";"]

/-- `syntaxis2.json:187-291` -/
def rule_block : Json :=
  node 1 "parser_rule" [
    leaf 7 "RULE_REF" "block",
    leaf 8 "COLON" ":",
    node 2 "block" [
      node 3 "alternative" [
        node 5 "element" [
          leaf 7 "RULE_REF" "alternative"],
        node 5 "element" [
          leaf 16 "LPAREN" "(",
          node 2 "block" [
            node 3 "alternative" [
              node 5 "element" [
                leaf 6 "TOKEN_REF" "OR"],
              node 5 "element" [
                leaf 7 "RULE_REF" "alternative"]]],
          leaf 17 "RPAREN" ")",
          node 6 "ebnf_suffix" [
            leaf 11 "STAR" "*"]]]],
    leaf 10 "SEMI" ";"]

/-- `syntaxis2.json:292-379` -/
def rule_alternative : Json :=
  node 1 "parser_rule" [
    leaf 7 "RULE_REF" "alternative",
    leaf 8 "COLON" ":",
    node 2 "block" [
      node 3 "alternative" [
        node 5 "element" [
          leaf 7 "RULE_REF" "element"],
        node 5 "element" [
          leaf 7 "RULE_REF" "element",
          node 6 "ebnf_suffix" [
            leaf 11 "STAR" "*"]]],
      leaf 9 "OR" "|",
      node 3 "alternative" [
        node 5 "element" [
          leaf 7 "RULE_REF" "epsilon"]]],
    leaf 10 "SEMI" ";"]

/-- `syntaxis2.json:380-423` -/
def rule_epsilon : Json :=
  node 1 "parser_rule" [
    leaf 7 "RULE_REF" "epsilon",
    leaf 8 "COLON" ":",
    node 2 "block" [
      node 3 "alternative" [
        node 5 "element" [
          leaf 6 "TOKEN_REF" "EPSILON"]]],
    leaf 10 "SEMI" ";"]

/-- `syntaxis2.json:424-605` -/
def rule_element : Json :=
  node 1 "parser_rule" [
    leaf 7 "RULE_REF" "element",
    leaf 8 "COLON" ":",
    node 2 "block" [
      node 3 "alternative" [
        node 5 "element" [
          leaf 16 "LPAREN" "(",
          node 2 "block" [
            node 3 "alternative" [
              node 5 "element" [
                leaf 6 "TOKEN_REF" "TOKEN_REF"]],
            leaf 9 "OR" "|",
            node 3 "alternative" [
              node 5 "element" [
                leaf 6 "TOKEN_REF" "STRING_LITERAL"]],
            leaf 9 "OR" "|",
            node 3 "alternative" [
              node 5 "element" [
                leaf 6 "TOKEN_REF" "RULE_REF"]],
            leaf 9 "OR" "|",
            node 3 "alternative" [
              node 5 "element" [
                leaf 6 "TOKEN_REF" "LPAREN"],
              node 5 "element" [
                leaf 7 "RULE_REF" "block"],
              node 5 "element" [
                leaf 6 "TOKEN_REF" "RPAREN"]]],
          leaf 17 "RPAREN" ")"],
        node 5 "element" [
          leaf 7 "RULE_REF" "ebnf_suffix",
          node 6 "ebnf_suffix" [
            leaf 13 "QUESTION" "?"]]]],
    leaf 10 "SEMI" ";"]

/-- `syntaxis2.json:606-743` -/
def rule_ebnf_suffix : Json :=
  node 1 "parser_rule" [
    leaf 7 "RULE_REF" "ebnf_suffix",
    leaf 8 "COLON" ":",
    node 2 "block" [
      node 3 "alternative" [
        node 5 "element" [
          leaf 16 "LPAREN" "(",
          node 2 "block" [
            node 3 "alternative" [
              node 5 "element" [
                leaf 6 "TOKEN_REF" "STAR"]],
            leaf 9 "OR" "|",
            node 3 "alternative" [
              node 5 "element" [
                leaf 6 "TOKEN_REF" "PLUS"]],
            leaf 9 "OR" "|",
            node 3 "alternative" [
              node 5 "element" [
                leaf 6 "TOKEN_REF" "QUESTION"]]],
          leaf 17 "RPAREN" ")"],
        node 5 "element" [
          leaf 6 "TOKEN_REF" "QUESTION",
          node 6 "ebnf_suffix" [
            leaf 13 "QUESTION" "?"]]]],
    leaf 10 "SEMI" ";"]

/-- `syntaxis2.json:744-820` -/
def rule_lexer_rule : Json :=
  node 1 "parser_rule" [
    leaf 7 "RULE_REF" "lexer_rule",
    leaf 8 "COLON" ":",
    node 2 "block" [
      node 3 "alternative" [
        node 5 "element" [
          leaf 6 "TOKEN_REF" "TOKEN_REF"],
        node 5 "element" [
          leaf 6 "TOKEN_REF" "COLON"],
        node 5 "element" [
          leaf 7 "RULE_REF" "regular"],
        node 5 "element" [
          leaf 6 "TOKEN_REF" "SEMI"]]],
    leaf 10 "SEMI" ";"]

/-- `syntaxis2.json:821-864` -/
def rule_regular : Json :=
  node 1 "parser_rule" [
    leaf 7 "RULE_REF" "regular",
    leaf 8 "COLON" ":",
    node 2 "block" [
      node 3 "alternative" [
        node 5 "element" [
          leaf 6 "TOKEN_REF" "REGULAR_LITERAL"]]],
    leaf 10 "SEMI" ";"]

/-- `syntaxis2.json:865-896` -/
def lex_RULE_REF : Json :=
  node 7 "lexer_rule" [
    leaf 6 "TOKEN_REF" "RULE_REF",
    leaf 8 "COLON" ":",
    node 8 "regular" [
      leaf 21 "REGULAR_LITERAL" "/[a-z][a-zA-Z0-9_]+/"],
    leaf 10 "SEMI" ";"]

/-- `syntaxis2.json:897-928` -/
def lex_TOKEN_REF : Json :=
  node 7 "lexer_rule" [
    leaf 6 "TOKEN_REF" "TOKEN_REF",
    leaf 8 "COLON" ":",
    node 8 "regular" [
      leaf 21 "REGULAR_LITERAL" "/[A-Z][a-zA-Z0-9_]+/"],
    leaf 10 "SEMI" ";"]

/-- `syntaxis2.json:929-960` -/
def lex_COLON : Json :=
  node 7 "lexer_rule" [
    leaf 6 "TOKEN_REF" "COLON",
    leaf 8 "COLON" ":",
    node 8 "regular" [
      leaf 21 "REGULAR_LITERAL" "/::=|:=|->|=>|:|=/"],
    leaf 10 "SEMI" ";"]

/-- `syntaxis2.json:961-992` -/
def lex_SEMI : Json :=
  node 7 "lexer_rule" [
    leaf 6 "TOKEN_REF" "SEMI",
    leaf 8 "COLON" ":",
    node 8 "regular" [
      leaf 21 "REGULAR_LITERAL" "/;/"],
    leaf 10 "SEMI" ";"]

/-- `syntaxis2.json:993-1024` -/
def lex_OR : Json :=
  node 7 "lexer_rule" [
    leaf 6 "TOKEN_REF" "OR",
    leaf 8 "COLON" ":",
    node 8 "regular" [
      leaf 21 "REGULAR_LITERAL" "/\\|/"],
    leaf 10 "SEMI" ";"]

/-- `syntaxis2.json:1025-1056` -/
def lex_EPSILON : Json :=
  node 7 "lexer_rule" [
    leaf 6 "TOKEN_REF" "EPSILON",
    leaf 8 "COLON" ":",
    node 8 "regular" [
      leaf 21 "REGULAR_LITERAL" "/ε|epsilon/"],
    leaf 10 "SEMI" ";"]

/-- `syntaxis2.json:1057-1088` -/
def lex_STAR : Json :=
  node 7 "lexer_rule" [
    leaf 6 "TOKEN_REF" "STAR",
    leaf 8 "COLON" ":",
    node 8 "regular" [
      leaf 21 "REGULAR_LITERAL" "/\\*/"],
    leaf 10 "SEMI" ";"]

/-- `syntaxis2.json:1089-1120` -/
def lex_PLUS : Json :=
  node 7 "lexer_rule" [
    leaf 6 "TOKEN_REF" "PLUS",
    leaf 8 "COLON" ":",
    node 8 "regular" [
      leaf 21 "REGULAR_LITERAL" "/\\+/"],
    leaf 10 "SEMI" ";"]

/-- `syntaxis2.json:1121-1152` -/
def lex_QUESTION : Json :=
  node 7 "lexer_rule" [
    leaf 6 "TOKEN_REF" "QUESTION",
    leaf 8 "COLON" ":",
    node 8 "regular" [
      leaf 21 "REGULAR_LITERAL" "/\\?/"],
    leaf 10 "SEMI" ";"]

/-- `syntaxis2.json:1153-1184` -/
def lex_LPAREN : Json :=
  node 7 "lexer_rule" [
    leaf 6 "TOKEN_REF" "LPAREN",
    leaf 8 "COLON" ":",
    node 8 "regular" [
      leaf 21 "REGULAR_LITERAL" "/\\(/"],
    leaf 10 "SEMI" ";"]

/-- `syntaxis2.json:1185-1216` -/
def lex_RPAREN : Json :=
  node 7 "lexer_rule" [
    leaf 6 "TOKEN_REF" "RPAREN",
    leaf 8 "COLON" ":",
    node 8 "regular" [
      leaf 21 "REGULAR_LITERAL" "/\\)/"],
    leaf 10 "SEMI" ";"]

/-- `syntaxis2.json:1217-1248` -/
def lex_STRING_LITERAL : Json :=
  node 7 "lexer_rule" [
    leaf 6 "TOKEN_REF" "STRING_LITERAL",
    leaf 8 "COLON" ":",
    node 8 "regular" [
      leaf 21 "REGULAR_LITERAL" "/'([^\\a\\d\\n\\r\\t\\f\\v\\\\']|(\\\\\\\\|\\\\'|\\\\a|\\\\d|\\\\n|\\\\r|\\\\t|\\\\f|\\\\v|\\\\u\\{(0x|0)?[a-f0-9]+\\})|\\d)*'/"],
    leaf 10 "SEMI" ";"]

/-- `syntaxis2.json:1249-1280` -/
def lex_REGULAR_LITERAL : Json :=
  node 7 "lexer_rule" [
    leaf 6 "TOKEN_REF" "REGULAR_LITERAL",
    leaf 8 "COLON" ":",
    node 8 "regular" [
      leaf 21 "REGULAR_LITERAL" "/\\/(\\\\\\/|[^\\/])+\\//"],
    leaf 10 "SEMI" ";"]

/-- `syntaxis2.json:1281-1312` -/
def lex_WHITE_SPACE : Json :=
  node 7 "lexer_rule" [
    leaf 6 "TOKEN_REF" "WHITE_SPACE",
    leaf 8 "COLON" ":",
    node 8 "regular" [
      leaf 21 "REGULAR_LITERAL" "/[ \\r\\n\\t\\f]+/"],
    leaf 10 "SEMI" ";"]

/-- `syntaxis2.json:1-1313`, the whole file -/
def json : Json :=
  node 0 "rule_list" [
    rule_rule_list, rule_parser_rule, rule_block, rule_alternative, rule_epsilon, rule_element,
    rule_ebnf_suffix, rule_lexer_rule, rule_regular, lex_RULE_REF, lex_TOKEN_REF, lex_COLON, lex_SEMI,
    lex_OR, lex_EPSILON, lex_STAR, lex_PLUS, lex_QUESTION, lex_LPAREN, lex_RPAREN, lex_STRING_LITERAL,
    lex_REGULAR_LITERAL, lex_WHITE_SPACE]

end Shipped
end Syntaxis
