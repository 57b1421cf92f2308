import Verif.Model.Parser
import Verif.Model.LexerRuleVisitor

/-!
# The same code with machine arithmetic

In the other model files `usize` is `Nat`.  Here every `+` and `-` that the code does on `usize` values is checked
against the number `W` of values of the type (2^64 on the usual platforms): a debug build panics when the result
does not fit, and a release build wraps around, which is a panic here too.  The definitions are those of
`Model/Lexer`, `Model/Parser`, `Model/GrammarVisitor` and `Model/LexerRuleVisitor` with `addUsize` and `subUsize` for
the arithmetic.  The only other arithmetic of the modelled code is `len()-1` on the length of a text in
`grammar_visitor.rs:85` and `lexer_rule_visitor.rs:48,85`; it is behind a test of the length or modelled as a panic
already.
-/

namespace Syntaxis
namespace Checked

/-- `a + b` on `usize`.  E.g. `v1/syntaxis_lexer.rs:82,118,142,145`, `ll1_parser.rs:54`. -/
def addUsize (W a b : Nat) : Res Nat := if a + b < W then .ok (a + b) else .error .panic

/-- `a - b` on `usize`.  E.g. `v1/syntaxis_lexer.rs:124`, `lexer_rule_visitor.rs:48`. -/
def subUsize (a b : Nat) : Res Nat := if b ≤ a then .ok (a - b) else .error .panic

/-! ## the lexers -/

/-- `v1/syntaxis_lexer.rs:100-108`, `i+2` -/
def longest (W : Nat) (rest : Str) : List Matcher → Nat → Nat → Nat → Res (Nat × Nat)
  | [], _, len, tokenType => .ok (len, tokenType)
  | m :: ms, i, len, tokenType =>
    match m rest with
    | some e =>
      if e > len then do
        let ty ← addUsize W i 2
        longest W rest ms (i + 1) e ty
      else longest W rest ms (i + 1) len tokenType
    | none => longest W rest ms (i + 1) len tokenType

/-- `v1/syntaxis_lexer.rs:112-127`: `char_position + len`, `line + lines.len()-1` -/
def newPos (W : Nat) (position : Position) (text : Str) (len : Nat) : Res Position :=
  let lines := splitLines text
  if lines.length ≤ 1 then do
    let col ← addUsize W position.charPosition len
    .ok ⟨position.line, col⟩
  else do
    let sum ← addUsize W position.line lines.length
    let line ← subUsize sum 1
    .ok ⟨line, byteLen (lines.getLast?.getD [])⟩

/-- `v1/syntaxis_lexer.rs:97-148`, `syntaxis/syntaxis_lexer.rs:91-143`: `cursor + len`, `token_index += 1` -/
def scanToken (W : Nat) (l : Lexer) : Res (Option Token × Lexer) := do
  let rest ← dropBytes l.input l.cursor
  let (len, tokenType) ← longest W rest l.regexList 0 0 0
  if tokenType = 0 then .ok (none, l)
  else do
    let stop ← addUsize W l.cursor len
    let text ← slice l.input l.cursor stop
    let np ← newPos W l.position text len
    let tokenName ← unwrap l.tokenNames[tokenType]?
    let next ← addUsize W l.tokenIndex 1
    .ok (some {
          tokenType, tokenName, start := l.position, stop := np, channel := 0, text,
          tokenIndex := l.tokenIndex, charStartIndex := l.cursor, charStopIndex := stop },
        { l with cursor := stop, tokenIndex := next, position := np })

/-- `v1/syntaxis_lexer.rs:79-150`: `self.cursor += 10` -/
def scan (W : Nat) (l : Lexer) : Res (Option Token × Lexer) :=
  if l.cursor > byteLen l.input then .ok (none, l)
  else if l.cursor ≥ byteLen l.input then do
    let cursor ← addUsize W l.cursor 10
    let l' := { l with cursor }
    .ok (some {
          tokenType := 1, tokenName := "_STOP".toList, start := l.position, stop := l.position,
          channel := 0, text := "_STOP".toList, tokenIndex := l.tokenIndex,
          charStartIndex := l'.cursor, charStopIndex := l'.cursor }, l')
  else scanToken W l

/-- `v1/syntaxis_lexer.rs:152-166`, `lexer.tera`: no arithmetic of its own -/
def scanAll (W whiteSpace channel fuel : Nat) (l : Lexer) : Res (List Token × Option Str × Lexer) := do
  let (result, l) ← Lexer.scanLoop (scan W) (· == whiteSpace) channel fuel [] l
  if l.cursor < byteLen l.input then do
    let rest ← dropBytes l.input l.cursor
    .ok (result, some rest, l)
  else .ok (result, none, l)

/-- `syntaxis/syntaxis_lexer.rs:146-157`: no arithmetic of its own -/
def scanAllOld (W channel fuel : Nat) (l : Lexer) : Res (List Token × Str × Lexer) := do
  let (result, l) ← Lexer.scanLoop (scanToken W) (fun t => t == 2 || t == 3 || t == 4) channel fuel [] l
  let rest ← dropBytes l.input l.cursor
  .ok (result, rest, l)

/-! ## the parsers -/

/-- `ll1_parser.rs:35-59`, `syntaxis_parser.rs:105-129`: `cursor += 1` -/
def parseItems (W : Nat) (ps : Parser) (call : Nat → Nat → Res (RuleContext × Nat × MismatchLog)) :
    List Item → ItemState → Res ItemState
  | [], st => .ok st
  | .nt ruleId :: rest, st => do
    let (rule, cursor, log) ← call st.cursor ruleId
    let children := match ps.vocabulary.getNonterminalNameById ruleId with
      | some _ => st.children ++ [rule.toAst]
      | none => st.children ++ rule.children
    parseItems W ps call rest { children, cursor, log := st.log ++ log }
  | .t tokenType :: rest, st => do
    let tok ← ps.tokenAt st.cursor
    let log := if tokenType ≠ tok.tokenType then st.log ++ [(tokenType, st.cursor)] else st.log
    let cursor ← addUsize W st.cursor 1
    parseItems W ps call rest { children := st.children ++ [.terminal tok], cursor, log }

/-- `ll1_parser.rs:27-61`, `syntaxis_parser.rs:96-131` -/
def parseAst (W : Nat) (ps : Parser) : Nat → Nat → Nat → Res (RuleContext × Nat × MismatchLog)
  | 0, _, _ => .error .fuel
  | fuel + 1, cursor, ruleIndex => do
    let tok ← ps.tokenAt cursor
    let production ← unwrap (ps.table.get (ruleIndex, tok.tokenType))
    let name := ps.vocabulary.getNonterminalNameWithDefault ruleIndex
    let st ← parseItems W ps (parseAst W ps fuel) production.right { children := [], cursor, log := [] }
    .ok ({ ruleName := name, children := st.children, ruleIndex }, st.cursor, st.log)

/-! ## the grammar builder -/

variable (lc : LexConsts)

/-- `grammar_visitor.rs:72-92`, `visit_lexer_rule`: `next_token_id += 1` -/
def symVisitLexerRule (W : Nat) (ctx : RuleContext) (s : SymState) : Res (Unit × SymState) := do
  let name := (← unwrap (ctx.tokenRef lc)).text
  if s.grammar.vocabulary.isTerminalNameDefined name then .ok ((), s.print (chars! "重复定义 token: " ++ name))
  else do
    let text := (← unwrap ((← unwrap ctx.regular).regularLiteral lc)).text
    match ← ruleRegex text with
    | none => .ok ((), s.print (chars! "非法正则表达式"))
    | some regex => do
      let next ← addUsize W s.nextTokenId 1
      .ok ((), { s with
        data := s.data ++ [{ tokenType := s.nextTokenId, tokenName := name, regex }]
        grammar := { s.grammar with vocabulary := (s.grammar.vocabulary.addTerminal s.nextTokenId name).1 }
        nextTokenId := next })

/-- `grammar_visitor.rs:94-104`, `visit_parser_rule`: `next_rule_id += 1` -/
def symVisitParserRule (W : Nat) (ctx : RuleContext) (s : SymState) : Res (Unit × SymState) := do
  let name := (← unwrap (ctx.ruleRef lc)).text
  if s.grammar.vocabulary.isTerminalNameDefined name then .ok ((), s.print (chars! "重复定义 rule: " ++ name))
  else do
    let next ← addUsize W s.nextRuleId 1
    .ok ((), { s with
      grammar := { s.grammar with vocabulary := (s.grammar.vocabulary.addNamedNonterminal s.nextRuleId name).1 }
      nextRuleId := next })

/-- `grammar_visitor.rs:71-105` -/
def symVisitor (W : Nat) : Visitor SymState Unit :=
  { Visitor.default with
    override := fun
      | .lexerRule => some fun ctx _ s => symVisitLexerRule lc W ctx s
      | .parserRule => some fun ctx _ s => symVisitParserRule lc W ctx s
      | _ => none }

/-- `main.rs:109-116`: the second pass -/
def runSym (W : Nat) (ast : RuleContext) (s : SymState) : Res SymState := do
  let (_, s) ← (symVisitor lc W).accept .ruleList ast s
  .ok s

/-- `grammar_visitor.rs:197-261`: `next_rule_id += 1` (lines 219, 239, 258) -/
def applySuffix (W : Nat) (f : Suffix) (item : Item) (s : ProdState) : Res (Item × ProdState) :=
  let s := { s with uses := (f, item) :: s.uses }
  match (s.cache f).get item.bare with
  | some itemId => .ok (.nt itemId, s)
  | none => do
    let x := s.nextRuleId
    let s := s.addUnnamed x
    let s := s.insertProd ⟨x, (suffixRights f item x).1⟩
    let s := s.insertProd ⟨x, (suffixRights f item x).2⟩
    let s := s.setCache f item.bare x
    let next ← addUsize W s.nextRuleId 1
    .ok (.nt x, { s with nextRuleId := next })

/-- `grammar_visitor.rs:277-297`: `next_rule_id += 1` -/
def finishBlock (W : Nat) (rights : List (List Item)) (s : ProdState) : Res (Nat × ProdState) :=
  match s.blockCache.get rights with
  | some id => .ok (id, s)
  | none => do
    let id := s.nextRuleId
    let s := s.addUnnamed id
    let s := { s with blockCache := s.blockCache.insert rights id }
    let s := rights.foldl (fun s right => s.insertOrPrint ⟨id, right⟩ (chars! "重复产生式")) s
    let next ← addUsize W s.nextRuleId 1
    .ok (id, { s with nextRuleId := next })

/-- `grammar_visitor.rs:269-298`, `visit_block` -/
def visitBlock (W : Nat) (elem : ElemFn) (ctx : RuleContext) (s : ProdState) : Res (Nat × ProdState) := do
  let (rights, s) ← visitAlternatives elem ctx.alternativeList s
  finishBlock W rights s

/-- `grammar_visitor.rs:172-266`, `visit_element` -/
def visitElement (W : Nat) : Nat → ElemFn
  | 0, _, _ => .error .fuel
  | n + 1, ctx, s => do
    let (item, s) ← match ctx.tokenRef lc with
      | some token => do .ok (Item.t (← unwrap (s.grammar.vocabulary.getTerminalIdByName token.text)), s)
      | none => match ctx.stringLiteral lc with
        | some literal => do .ok (Item.t (← unwrap (s.grammar.vocabulary.getTerminalIdByName literal.text)), s)
        | none => match ctx.ruleRef lc with
          | some rule => do .ok (Item.nt (← unwrap (s.grammar.vocabulary.getNonterminalIdByName rule.text)), s)
          | none => match ctx.block with
            | some block => do
              let (id, s) ← visitBlock W (visitElement W n) block s
              .ok (Item.nt id, s)
            | none => .error .panic
    match suffixOf lc ctx with
    | some f => applySuffix W f item s
    | none => .ok (item, s)

/-- `main.rs:96-122`: the three passes -/
def buildStates (W : Nat) (fuel : Nat) (ast : RuleContext) (grammar : Grammar) (firstTokenId firstRuleId : Nat) :
    Res (SymState × ProdState) := do
  let s1 ← runLit lc ast { grammar, nextTokenId := firstTokenId, data := [] }
  let s2 ← runSym lc W ast
    { grammar := s1.grammar, data := s1.data, nextTokenId := s1.nextTokenId, nextRuleId := firstRuleId }
  let s3 ← prodVisitRules lc (visitElement lc W fuel) ast.parserRuleList (ProdState.new s2.grammar s2.nextRuleId)
  .ok (s2, s3)

/-! ## the collectors of lexer rules -/

/-- `lexer_rule_visitor.rs:32-53`, `visit_lexer_rule`: `next_token_type += 1` -/
def lexVisitLexerRule (W : Nat) (ctx : RuleContext) (s : LexState) : Res (Unit × LexState) := do
  let name := (← unwrap (ctx.tokenRef lc)).text
  if s.data.any (fun item => item.tokenName == name) then .ok ((), s.print (name ++ chars! " 重复定义"))
  else do
    let text := (← unwrap ((← unwrap ctx.regular).regularLiteral lc)).text
    match ← ruleRegex text with
    | none => .ok ((), s.print (chars! "非法正则表达式"))
    | some regex => do
      let next ← addUsize W s.nextTokenType 1
      .ok ((), { s with
        data := s.data ++ [{ tokenType := s.nextTokenType, tokenName := name, regex }]
        nextTokenType := next })

/-- `lexer_rule_visitor.rs:31-55` -/
def lexVisitor (W : Nat) : Visitor LexState Unit :=
  { Visitor.default with
    override := fun
      | .lexerRule => some fun ctx _ s => lexVisitLexerRule lc W ctx s
      | _ => none }

/-- `rule_list.accept(&mut LexerRuleVisitor)` (`lexer_rule_visitor.rs:31-55`) -/
def runLex (W : Nat) (ast : RuleContext) (s : LexState) : Res LexState := do
  let (_, s) ← (lexVisitor lc W).accept .ruleList ast s
  .ok s

/-- `lexer_rule_visitor.rs:74-95`, `visit_terminal`: `next_token_type += 1` -/
def strLitVisitTerminal (W : Nat) (tok : Token) (s : StrLitState) : Res (Unit × StrLitState) :=
  if tok.tokenType = lc.STRING_LITERAL then
    let name := tok.text
    if name ∈ s.cache then .ok ((), s)
    else do
      let inner ← if byteLen name = 0 then .error .panic else slice name 1 (byteLen name - 1)
      let tokenName := "T_".toList ++ (Nat.repr s.nextTokenType).toList
      let regex := "^(".toList ++ literalText inner ++ ")".toList
      let next ← addUsize W s.nextTokenType 1
      .ok ((), {
        cache := insert name s.cache
        data := s.data ++ [{ tokenType := s.nextTokenType, tokenName, regex }]
        nextTokenType := next })
  else .ok ((), s)

/-- `lexer_rule_visitor.rs:73-96` -/
def strLitVisitor (W : Nat) : Visitor StrLitState Unit :=
  { Visitor.default with visitTerminal := strLitVisitTerminal lc W }

/-- `rule_list.accept(&mut StringLiteralVisitor)` (`lexer_rule_visitor.rs:73-96`) -/
def runStrLit (W : Nat) (ast : RuleContext) (s : StrLitState) : Res StrLitState := do
  let (_, s) ← (strLitVisitor lc W).accept .ruleList ast s
  .ok s

end Checked
end Syntaxis
