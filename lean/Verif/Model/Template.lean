import Verif.Model.GrammarVisitor

/-!
# The generated lexer source

`templates/target/rust/lexer.tera`, rendered by `Tera::render` as in `tests/lexer_gen.rs:15-22` (autoescape off):
`{{x}}` is replaced by the text of `x`, `{% for token in tokens %}…{% endfor %}` by its body once per token.
The static text between the tags is copied here piece by piece.
-/

namespace Syntaxis.Template

/-- lines of text, each with its line feed.  The texts of `lexer.tera:1-144`. -/
def lines (ls : List Str) : Str := ls.flatMap fun l => l ++ ['\n']

/-- `lexer.tera:1-10` -/
def header : Str :=
  lines [
    chars! "",
    chars! "",
    chars! "",
    chars! "use regex::Regex;",
    chars! "",
    chars! "use syntaxis::runtime::{lexer::{Lexer, Error}, " ++ chars! "token::{Token, Position}};",
    chars! "",
    chars! "",
    chars! ""] ++ chars! "pub struct "
/-- `lexer.tera:10-20` -/
def structBody : Str :=
  lines [
    chars! "Lexer {",
    chars! "  pub input: String,",
    chars! "  pub cursor: usize, // 每次都匹配 input[cursor..]",
    chars! "  pub regex_list: Vec<regex::Regex>,",
    chars! "  pub token_names: Vec<&'static str>,",
    chars! "  pub token_index: usize,",
    chars! "  pub position: Position,",
    chars! "}",
    chars! "",
    chars! "#[allow(dead_code)]"] ++ chars! "impl "
/-- `lexer.tera:20-26` -/
def implHead : Str :=
  lines [
    chars! "Lexer {",
    chars! "  // 前两个是开始符号和结束符号",
    chars! "  pub const _START: usize = 0;",
    chars! "  pub const _STOP: usize = 1;",
    chars! "",
    chars! "  // 从这里开始使用模板"] ++ chars! "  "
/-- `lexer.tera:26-27` -/
def constA : Str :=
  lines [
    chars! ""] ++ chars! "  pub const "
/-- `lexer.tera:27-27` -/
def constB : Str := chars! ": usize = "
/-- `lexer.tera:27-27` -/
def constC : Str := chars! ";"
/-- `lexer.tera:27-34` -/
def newHead : Str :=
  lines [
    chars! "",
    chars! "",
    chars! "",
    chars! "  pub fn new(input: &str) -> Self {",
    chars! "    let regex_list = vec![",
    chars! "",
    chars! "      // 这里也需要使用模板"] ++ chars! "      "
/-- `lexer.tera:34-35` -/
def regexA : Str :=
  lines [
    chars! ""] ++ chars! "      Regex::new(r####\""
/-- `lexer.tera:35-35` -/
def regexB : Str := chars! "\"####).unwrap(), // "
/-- `lexer.tera:35-42` -/
def namesHead : Str :=
  lines [
    chars! "",
    chars! "    ",
    chars! "    ];",
    chars! "    ",
    chars! "    // 同样使用模板",
    chars! "    let token_names = vec![",
    chars! "      \"_START\", \"_STOP\", "] ++ chars! "      "
/-- `lexer.tera:42-42` -/
def nameA : Str := chars! "\""
/-- `lexer.tera:42-42` -/
def nameB : Str := chars! "\", "
/-- `lexer.tera:42-45` -/
def newTail : Str :=
  lines [
    chars! "",
    chars! "    ];",
    chars! ""] ++ chars! "    "
/-- `lexer.tera:45-53` -/
def newEnd : Str :=
  lines [
    chars! "Lexer { input: input.to_owned(), cursor: 0, regex_list, " ++ chars! "token_names, token_index: 0, position: Position { line: 0, " ++ chars! "char_position: 0 } }",
    chars! "  }",
    chars! "",
    chars! "",
    chars! "",
    chars! "}",
    chars! "",
    chars! ""] ++ chars! "impl Lexer for "
/-- `lexer.tera:53-68` -/
def scanBody1 : Str :=
  lines [
    chars! "Lexer {",
    chars! "",
    chars! "",
    chars! "  fn scan(&mut self) -> Result<Token, Error> {",
    chars! "    if self.cursor > self.input.len() { return Err(Error " ++ chars! "{}) }",
    chars! "    else if self.cursor >= self.input.len() {",
    chars! "      self.cursor += 10;",
    chars! "      return Ok(Token {",
    chars! "        token_type: 1,",
    chars! "        token_name: \"_STOP\".to_owned(),",
    chars! "  ",
    chars! "        start: self.position.clone(),",
    chars! "        stop: self.position.clone(),",
    chars! "        ",
    chars! "        channel: 0,",
    chars! "        text: \"_STOP\".to_owned(),"]
/-- `lexer.tera:69-84` -/
def scanBody2 : Str :=
  lines [
    chars! "        token_index: self.token_index,",
    chars! "        char_start_index: self.cursor,",
    chars! "        char_stop_index: self.cursor,",
    chars! "      });",
    chars! "    }",
    chars! "    let mut len = 0;",
    chars! "    let mut token_type = 0;",
    chars! "",
    chars! "    for i in 0..self.regex_list.len() {",
    chars! "      let result = " ++ chars! "self.regex_list[i].find_at(&self.input[self.cursor..], 0) ;",
    chars! "      if let Some(result) = result {",
    chars! "        if result.end() > len {",
    chars! "          len = result.end();",
    chars! "          token_type = i+2;",
    chars! "        }",
    chars! "      }"]
/-- `lexer.tera:85-100` -/
def scanBody3 : Str :=
  lines [
    chars! "    }",
    chars! "",
    chars! "    if token_type <= 0 { return Err(Error {}) }",
    chars! "    let text = " ++ chars! "String::from(&self.input[self.cursor..self.cursor+len]);",
    chars! "    let lines: Vec<_> = text.split(\"\\n\").collect();",
    chars! "    let new_pos;",
    chars! "    if lines.len() <= 1 {",
    chars! "      // 没有跨行",
    chars! "      new_pos = Position {",
    chars! "        line: self.position.line,",
    chars! "        char_position: self.position.char_position + len",
    chars! "      }",
    chars! "    }",
    chars! "    else {",
    chars! "      // 跨行",
    chars! "      new_pos = Position {"]
/-- `lexer.tera:101-121` -/
def scanBody4 : Str :=
  lines [
    chars! "        line: self.position.line + lines.len()-1,",
    chars! "        char_position: lines.last().unwrap().len(),",
    chars! "      }",
    chars! "    }",
    chars! "",
    chars! "",
    chars! "",
    chars! "    let token = Token {",
    chars! "      token_type,",
    chars! "      token_name: " ++ chars! "String::from(self.token_names[token_type]),",
    chars! "",
    chars! "      start: self.position.clone(),",
    chars! "      stop: new_pos.clone(),",
    chars! "      ",
    chars! "      channel: 0,",
    chars! "      text,",
    chars! "      token_index: self.token_index,",
    chars! "      char_start_index: self.cursor,",
    chars! "      char_stop_index: self.cursor + len,",
    chars! "    };",
    chars! ""]
/-- `lexer.tera:122-132` -/
def scanBody5 : Str :=
  lines [
    chars! "    self.cursor += len;",
    chars! "    self.token_index += 1;",
    chars! "    self.position = new_pos;",
    chars! "    return Ok(token);",
    chars! "",
    chars! "  }",
    chars! "",
    chars! "  fn scan_all_on_channel_tokens(&mut self, channel: usize) " ++ chars! "-> Vec<Token> {",
    chars! "    let mut result = Vec::new();",
    chars! "    while let Ok(token) = self.scan() {"] ++ chars! "      if token.token_type == "
/-- `lexer.tera:132-144` -/
def scanEnd : Str :=
  lines [
    chars! "Lexer::WHITE_SPACE { continue; }",
    chars! "      if token.channel == channel {",
    chars! "        result.push(token);",
    chars! "      }",
    chars! "    }",
    chars! "    if self.cursor < self.input.len() {",
    chars! "      println!(\"{}\", &self.input[self.cursor..]);",
    chars! "    }",
    chars! "    result",
    chars! "  }",
    chars! "}",
    chars! "",
    chars! ""]

/-- `lexer.tera:26-27`, the constants -/
def constLine (d : LexerRuleData) : Str := constA ++ d.tokenName ++ constB ++ Vocabulary.natToString d.tokenType ++ constC

/-- `lexer.tera:34-35`, the regexes -/
def regexLine (d : LexerRuleData) : Str := regexA ++ d.regex ++ regexB ++ d.tokenName

/-- `lexer.tera:42`, the names -/
def nameItem (d : LexerRuleData) : Str := nameA ++ d.tokenName ++ nameB

/-- `tests/lexer_gen.rs:18-22`: `render("lexer.tera", {tokens: data, name: name})` -/
def render (name : Str) (data : List LexerRuleData) : Str :=
  header ++ name ++ structBody ++ name ++ implHead ++ data.flatMap constLine ++ newHead ++
    data.flatMap regexLine ++ namesHead ++ data.flatMap nameItem ++ newTail ++ name ++ newEnd ++ name ++
    scanBody1 ++ scanBody2 ++ scanBody3 ++ scanBody4 ++ scanBody5 ++ name ++ scanEnd

end Syntaxis.Template
