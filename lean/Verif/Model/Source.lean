import Verif.Model.Template

/-!
# The source of the v1 lexer

`tool/v1/syntaxis_lexer.rs` as text, copied.
-/

namespace Syntaxis.Source
open Template (lines)

/-- `v1/syntaxis_lexer.rs:1-40` -/
def v1Lexer1 : Str :=
  lines [
    chars! "",
    chars! "",
    chars! "",
    chars! "use regex::Regex;",
    chars! "",
    chars! "use crate::runtime::{lexer::{Lexer, Error}, token::{Token, Position}};",
    chars! "",
    chars! "pub struct SyntaxisLexer {",
    chars! "  pub input: String,",
    chars! "  pub cursor: usize, // 每次都匹配 input[cursor..]",
    chars! "  pub regex_list: Vec<regex::Regex>,",
    chars! "  pub token_names: Vec<&'static str>,",
    chars! "  pub token_index: usize,",
    chars! "  pub position: Position,",
    chars! "}",
    chars! "",
    chars! "",
    chars! "impl SyntaxisLexer {",
    chars! "  // 前两个是开始符号和结束符号",
    chars! "  pub const _START: usize = 0;",
    chars! "  pub const _STOP: usize = 1;",
    chars! "",
    chars! "  // 从这里开始使用模板",
    chars! "  ",
    chars! "  pub const RULE_REF: usize = 2;",
    chars! "  pub const TOKEN_REF: usize = 3;",
    chars! "  pub const COLON: usize = 4;",
    chars! "  pub const SEMI: usize = 5;",
    chars! "  pub const OR: usize = 6;",
    chars! "  pub const EPSILON: usize = 7;",
    chars! "  pub const STAR: usize = 8;",
    chars! "  pub const PLUS: usize = 9;",
    chars! "  pub const QUESTION: usize = 10;",
    chars! "  pub const LPAREN: usize = 11;",
    chars! "  pub const RPAREN: usize = 12;",
    chars! "  pub const STRING_LITERAL: usize = 13;",
    chars! "  pub const REGULAR_LITERAL: usize = 14;",
    chars! "  pub const WHITE_SPACE: usize = 15;",
    chars! "",
    chars! ""]

/-- `v1/syntaxis_lexer.rs:41-80` -/
def v1Lexer2 : Str :=
  lines [
    chars! "  pub fn new(input: &str) -> Self {",
    chars! "    let regex_list = vec![",
    chars! "",
    chars! "      // 这里也需要使用模板",
    chars! "      ",
    chars! "      Regex::new(r####\"^([a-z][a-zA-Z0-9_]+)\"####).unwrap(), // RULE_REF",
    chars! "      Regex::new(r####\"^([A-Z][a-zA-Z0-9_]+)\"####).unwrap(), // TOKEN_REF",
    chars! "      Regex::new(r####\"^(::=|:=|->|=>|:|=)\"####).unwrap(), // COLON",
    chars! "      Regex::new(r####\"^(;)\"####).unwrap(), // SEMI",
    chars! "      Regex::new(r####\"^(\\|)\"####).unwrap(), // OR",
    chars! "      Regex::new(r####\"^(ε|epsilon)\"####).unwrap(), // EPSILON",
    chars! "      Regex::new(r####\"^(\\*)\"####).unwrap(), // STAR",
    chars! "      Regex::new(r####\"^(\\+)\"####).unwrap(), // PLUS",
    chars! "      Regex::new(r####\"^(\\?)\"####).unwrap(), // QUESTION",
    chars! "      Regex::new(r####\"^(\\()\"####).unwrap(), // LPAREN",
    chars! "      Regex::new(r####\"^(\\))\"####).unwrap(), // RPAREN",
    chars! "      " ++
      chars! "Regex::new(r####\"^('([^\\a\\d\\n\\r\\t\\f\\v\\\\']|(\\\\\\\\|\\\\'|\\\\a|\\\\d|\\\\n|\\\\r|\\\\t|\\\\f|\\\\v|\\\\u\\{(0x|0)?[a-" ++
      chars! "f0-9]+\\})|\\d)*')\"####).unwrap(), // STRING_LITERAL",
    chars! "      Regex::new(r####\"^(/(\\\\/|[^/])+/)\"####).unwrap(), // REGULAR_LITERAL",
    chars! "      Regex::new(r####\"^([ \\r\\n\\t\\f]+)\"####).unwrap(), // WHITE_SPACE",
    chars! "    ",
    chars! "    ];",
    chars! "    ",
    chars! "    // 同样使用模板",
    chars! "    let token_names = vec![",
    chars! "      \"_START\", \"_STOP\", ",
    chars! "      \"RULE_REF\", \"TOKEN_REF\", \"COLON\", \"SEMI\", \"OR\", \"EPSILON\", \"STAR\", \"PLUS\", \"QUESTION\", " ++
      chars! "\"LPAREN\", \"RPAREN\", \"STRING_LITERAL\", \"REGULAR_LITERAL\", \"WHITE_SPACE\", ",
    chars! "    ];",
    chars! "",
    chars! "    SyntaxisLexer { input: input.to_owned(), cursor: 0, regex_list, token_names, token_index: " ++
      chars! "0, position: Position { line: 0, char_position: 0 } }",
    chars! "  }",
    chars! "",
    chars! "",
    chars! "",
    chars! "}",
    chars! "",
    chars! "impl Lexer for SyntaxisLexer {",
    chars! "",
    chars! "",
    chars! "  fn scan(&mut self) -> Result<Token, crate::runtime::lexer::Error> {",
    chars! "    if self.cursor > self.input.len() { return Err(Error {}) }"]

/-- `v1/syntaxis_lexer.rs:81-120` -/
def v1Lexer3 : Str :=
  lines [
    chars! "    else if self.cursor >= self.input.len() {",
    chars! "      self.cursor += 10;",
    chars! "      return Ok(Token {",
    chars! "        token_type: 1,",
    chars! "        token_name: \"_STOP\".to_owned(),",
    chars! "  ",
    chars! "        start: self.position.clone(),",
    chars! "        stop: self.position.clone(),",
    chars! "        ",
    chars! "        channel: 0,",
    chars! "        text: \"_STOP\".to_owned(),",
    chars! "        token_index: self.token_index,",
    chars! "        char_start_index: self.cursor,",
    chars! "        char_stop_index: self.cursor,",
    chars! "      });",
    chars! "    }",
    chars! "    let mut len = 0;",
    chars! "    let mut token_type = 0;",
    chars! "",
    chars! "    for i in 0..self.regex_list.len() {",
    chars! "      let result = self.regex_list[i].find_at(&self.input[self.cursor..], 0) ;",
    chars! "      if let Some(result) = result {",
    chars! "        if result.end() > len {",
    chars! "          len = result.end();",
    chars! "          token_type = i+2;",
    chars! "        }",
    chars! "      }",
    chars! "    }",
    chars! "",
    chars! "    if token_type <= 0 { return Err(Error {}) }",
    chars! "    let text = String::from(&self.input[self.cursor..self.cursor+len]);",
    chars! "    let lines: Vec<_> = text.split(\"\\n\").collect();",
    chars! "    let new_pos;",
    chars! "    if lines.len() <= 1 {",
    chars! "      // 没有跨行",
    chars! "      new_pos = Position {",
    chars! "        line: self.position.line,",
    chars! "        char_position: self.position.char_position + len",
    chars! "      }",
    chars! "    }"]

/-- `v1/syntaxis_lexer.rs:121-160` -/
def v1Lexer4 : Str :=
  lines [
    chars! "    else {",
    chars! "      // 跨行",
    chars! "      new_pos = Position {",
    chars! "        line: self.position.line + lines.len()-1,",
    chars! "        char_position: lines.last().unwrap().len(),",
    chars! "      }",
    chars! "    }",
    chars! "",
    chars! "",
    chars! "",
    chars! "    let token = Token {",
    chars! "      token_type,",
    chars! "      token_name: String::from(self.token_names[token_type]),",
    chars! "",
    chars! "      start: self.position.clone(),",
    chars! "      stop: new_pos.clone(),",
    chars! "      ",
    chars! "      channel: 0,",
    chars! "      text,",
    chars! "      token_index: self.token_index,",
    chars! "      char_start_index: self.cursor,",
    chars! "      char_stop_index: self.cursor + len,",
    chars! "    };",
    chars! "",
    chars! "    self.cursor += len;",
    chars! "    self.token_index += 1;",
    chars! "    self.position = new_pos;",
    chars! "    return Ok(token);",
    chars! "",
    chars! "  }",
    chars! "",
    chars! "  fn scan_all_on_channel_tokens(&mut self, channel: usize) -> Vec<Token> {",
    chars! "    let mut result = Vec::new();",
    chars! "    while let Ok(token) = self.scan() {",
    chars! "      if token.token_type == SyntaxisLexer::WHITE_SPACE { continue; }",
    chars! "      if token.channel == channel {",
    chars! "        result.push(token);",
    chars! "      }",
    chars! "    }",
    chars! ""]

/-- `v1/syntaxis_lexer.rs:161-169` -/
def v1Lexer5 : Str :=
  lines [
    chars! "    if self.cursor < self.input.len() {",
    chars! "      println!(\"{}\", &self.input[self.cursor..]);",
    chars! "    }",
    chars! "    ",
    chars! "    result",
    chars! "  }",
    chars! "}",
    chars! ""]

/-- `v1/syntaxis_lexer.rs:1-169` -/
def v1Lexer : Str := v1Lexer1 ++ v1Lexer2 ++ v1Lexer3 ++ v1Lexer4 ++ v1Lexer5

end Syntaxis.Source
