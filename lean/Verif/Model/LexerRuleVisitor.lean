import Verif.Model.GrammarVisitor

/-!
# `tool/visitor/lexer_rule_visitor.rs`: collecting lexer rules and string literals
-/

namespace Syntaxis

variable (lc : LexConsts)

/-- `lexer_rule_visitor.rs:26-29`, `struct LexerRuleVisitor`.  `out` is not in the code: the lines printed so far. -/
structure LexState where
  data : List LexerRuleData
  nextTokenType : Nat
  out : List Str := []

/-- `println!` (`lexer_rule_visitor.rs:37,44`) -/
def LexState.print (s : LexState) (line : Str) : LexState := { s with out := s.out ++ [line] }

/-- `lexer_rule_visitor.rs:32-53`, `visit_lexer_rule` -/
def lexVisitLexerRule (ctx : RuleContext) (s : LexState) : Res (Unit × LexState) := do
  let name := (← unwrap (ctx.tokenRef lc)).text
  if s.data.any (fun item => item.tokenName == name) then .ok ((), s.print (name ++ chars! " 重复定义"))
  else do
    let text := (← unwrap ((← unwrap ctx.regular).regularLiteral lc)).text
    match ← ruleRegex text with
    | none => .ok ((), s.print (chars! "非法正则表达式"))
    | some regex =>
      .ok ((), { s with
        data := s.data ++ [{ tokenType := s.nextTokenType, tokenName := name, regex }]
        nextTokenType := s.nextTokenType + 1 })

/-- `lexer_rule_visitor.rs:31-55`, `impl SyntaxisVisitor for LexerRuleVisitor` -/
def lexVisitor : Visitor LexState Unit :=
  { Visitor.default with
    override := fun
      | .lexerRule => some fun ctx _ s => lexVisitLexerRule lc ctx s
      | _ => none }

/-- `rule_list.accept(&mut LexerRuleVisitor)` (`lexer_rule_visitor.rs:31-55`) -/
def runLex (ast : RuleContext) (s : LexState) : Res LexState := do
  let (_, s) ← (lexVisitor lc).accept .ruleList ast s
  .ok s

/-- `lexer_rule_visitor.rs:67-71`, `struct StringLiteralVisitor`; the `HashSet<String>` is a `Finset` -/
structure StrLitState where
  data : List LexerRuleData
  nextTokenType : Nat
  cache : Finset Str

/-- `lexer_rule_visitor.rs:84-88`: the replacements made in the text between the quotes -/
def literalText (s : Str) : Str :=
  let s := replace s "\\n".toList "\n".toList
  let s := replace s "\\t".toList "\t".toList
  let s := replace s "\\\\".toList "\\".toList
  let s := replace s "\\r".toList "\r".toList
  let s := replace s "\\'".toList "'".toList
  let s := replace s "+".toList "\\+".toList
  replace s "*".toList "\\*".toList

/-- `lexer_rule_visitor.rs:74-95`, `visit_terminal`.  `name.len()-1` panics on the empty string (checked
subtraction of the debug profile; without the check the slice panics all the same). -/
def strLitVisitTerminal (tok : Token) (s : StrLitState) : Res (Unit × StrLitState) :=
  if tok.tokenType = lc.STRING_LITERAL then
    let name := tok.text
    if name ∈ s.cache then .ok ((), s)
    else do
      let inner ← if byteLen name = 0 then .error .panic else slice name 1 (byteLen name - 1)
      let tokenName := "T_".toList ++ (Nat.repr s.nextTokenType).toList
      let regex := "^(".toList ++ literalText inner ++ ")".toList
      .ok ((), {
        cache := insert name s.cache
        data := s.data ++ [{ tokenType := s.nextTokenType, tokenName, regex }]
        nextTokenType := s.nextTokenType + 1 })
  else .ok ((), s)

/-- `lexer_rule_visitor.rs:73-96`, `impl SyntaxisVisitor for StringLiteralVisitor` -/
def strLitVisitor : Visitor StrLitState Unit :=
  { Visitor.default with visitTerminal := strLitVisitTerminal lc }

/-- `lexer_rule_visitor.rs:99-105`, `StringLiteralVisitor::new` -/
def StrLitState.new : StrLitState := { data := [], nextTokenType := 2, cache := ∅ }

/-- `rule_list.accept(&mut StringLiteralVisitor)` (`lexer_rule_visitor.rs:73-96`) -/
def runStrLit (ast : RuleContext) (s : StrLitState) : Res StrLitState := do
  let (_, s) ← (strLitVisitor lc).accept .ruleList ast s
  .ok s

end Syntaxis
